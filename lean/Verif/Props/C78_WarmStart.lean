import Verif.Model.WarmStart
import Verif.Spec.LassoPath
import Mathlib.Analysis.SpecialFunctions.Log.Basic
import Mathlib.Analysis.Complex.ExponentialBounds
import Mathlib.Algebra.BigOperators.Field
import Mathlib.Tactic.Positivity

/-!
# C78: `warm_start`
-/

set_option linter.unusedSectionVars false
set_option linter.unusedVariables false

namespace Verif.Props
open Verif.Model.WarmStart Verif.Model Verif.Spec

variable {V : Type}

/-- at the lagrange parameter `lam`, the solver returns points whose objective is within `eps` of every other point's -/
def WarmSolverAt (P : WarmPath V) (eps : ℝ) (solve : Solver V) (lam : ℝ) : Prop :=
  ∀ n start step v,
    let sol := (solve n (fun v => P.loss v + P.enetLoss lam v) (fun v => lam * P.alpha * P.penalty v) start step).1
    P.loss sol + P.enetLoss lam sol + lam * P.alpha * P.penalty sol ≤ P.loss v + P.enetLoss lam v + lam * P.alpha * P.penalty v + eps

/-- the solver returns points whose objective is within `eps` of every other point's -/
def WarmSolver (P : WarmPath V) (eps : ℝ) (solve : Solver V) : Prop :=
  ∀ n lam start step v,
    let sol := (solve n (fun v => P.loss v + P.enetLoss lam v) (fun v => lam * P.alpha * P.penalty v) start step).1
    P.loss sol + P.enetLoss lam sol + lam * P.alpha * P.penalty sol ≤ P.loss v + P.enetLoss lam v + lam * P.alpha * P.penalty v + eps

private lemma loop_nil {P : WarmPath V} {solve : Solver V} {seq : List ℝ} {n : ℕ} {s : V} {t : ℝ} :
    (loop P solve seq n s t).1 = [] ↔ seq = [] := by
  cases seq <;> simp [loop]

private lemma loop_length (P : WarmPath V) (solve : Solver V) (seq : List ℝ) (n : ℕ) (s : V) (t : ℝ) :
    (loop P solve seq n s t).1.length = seq.length := by
  induction seq generalizing n s t with
  | nil => rfl
  | cons a l ih => simp [loop, ih]

private lemma warm_some {P : WarmPath V} {solve : Solver V} {seq : List ℝ} {s : V} {t : ℝ} (h : seq ≠ []) :
    warmStart P solve seq s t = some
      { devratio := ((loop P solve seq 0 s t).1.map Entry.objective).map fun o =>
          if maxList ((loop P solve seq 0 s t).1.map Entry.objective) = 0 then none
          else some (1 - o / maxList ((loop P solve seq 0 s t).1.map Entry.objective))
        lagrange := seq
        beta := (loop P solve seq 0 s t).1.map Entry.beta } := by
  unfold warmStart
  have : (loop P solve seq 0 s t).1 ≠ [] := fun hn => h (loop_nil.mp hn)
  dsimp only
  generalize (loop P solve seq 0 s t).1 = es at this
  cases es with
  | nil => exact absurd rfl this
  | cons a l => rfl

/-- the points of a path: entry `k` solves the `k`-th problem, started at entry `k - 1` -/
def WarmStarted (P : WarmPath V) (solve : Solver V) : List ℝ → ℕ → V → List V → Prop
  | [], _, _, betas => betas = []
  | lam :: seq, n, start, betas => ∃ b rest step, betas = b :: rest ∧
      b = (solve n (fun v => P.loss v + P.enetLoss lam v) (fun v => lam * P.alpha * P.penalty v) start step).1 ∧
      WarmStarted P solve seq (n + 1) b rest

private lemma loop_started (P : WarmPath V) (solve : Solver V) (seq : List ℝ) (n : ℕ) (s : V) (t : ℝ) :
    WarmStarted P solve seq n s ((loop P solve seq n s t).1.map Entry.beta) := by
  induction seq generalizing n s t with
  | nil => rfl
  | cons lam l ih => exact ⟨_, _, t, rfl, rfl, ih _ _ _⟩

/-- **C78** for every nonempty sequence of lagrange parameters `warm_start` returns one row and one devratio per parameter,
in order; row `k` is the solver's answer for the `k`-th parameter, started at row `k - 1` (the first at the initial solution). -/
theorem C78_rows (P : WarmPath V) (solve : Solver V) (seq : List ℝ) (hs : seq ≠ []) (initial : V) (step : ℝ) :
    ∃ out, warmStart P solve seq initial step = some out ∧ out.lagrange = seq ∧ out.beta.length = seq.length ∧
      out.devratio.length = seq.length ∧ WarmStarted P solve seq 0 initial out.beta := by
  refine ⟨_, warm_some hs, rfl, ?_, ?_, loop_started P solve seq 0 initial step⟩ <;> simp [loop_length]

/-- **C78** an empty sequence raises. -/
theorem C78_empty (P : WarmPath V) (solve : Solver V) (initial : V) (step : ℝ) : warmStart P solve [] initial step = none := rfl

private lemma loop_mem (P : WarmPath V) (solve : Solver V) {eps : ℝ} (seq : List ℝ)
    (hsolve : ∀ lam ∈ seq, WarmSolverAt P eps solve lam) (n : ℕ) (s : V) (t : ℝ) :
    ((loop P solve seq n s t).1.map fun e => (e.lagrange)) = seq ∧
    ∀ e ∈ (loop P solve seq n s t).1, e.objective = P.loss e.beta ∧ ∀ v,
      P.loss e.beta + P.enetLoss e.lagrange e.beta + e.lagrange * P.alpha * P.penalty e.beta ≤
        P.loss v + P.enetLoss e.lagrange v + e.lagrange * P.alpha * P.penalty v + eps := by
  induction seq generalizing n s t with
  | nil => exact ⟨rfl, fun e he => by simp [loop] at he⟩
  | cons lam l ih =>
    obtain ⟨i1, i2⟩ := ih (fun l hl => hsolve l (List.mem_cons_of_mem _ hl)) (n + 1) (solve n (fun v => P.loss v + P.enetLoss lam v) (fun v => lam * P.alpha * P.penalty v) s t).1
      (solve n (fun v => P.loss v + P.enetLoss lam v) (fun v => lam * P.alpha * P.penalty v) s t).2
    refine ⟨?_, fun e he => ?_⟩
    · simp only [loop, List.map_cons, i1]
    · simp only [loop, List.mem_cons] at he
      rcases he with rfl | he
      · exact ⟨rfl, fun v => hsolve lam List.mem_cons_self n s t v⟩
      · exact i2 e he

/-- **C78** if the solver is accurate to `eps` at the lagrange parameters of the sequence, every row is within `eps` of the optimum of the problem at its own lagrange
parameter, whatever the initial solution and the order of the parameters. -/
theorem C78_optimal_on (P : WarmPath V) (solve : Solver V) {eps : ℝ} (seq : List ℝ)
    (hsolve : ∀ lam ∈ seq, WarmSolverAt P eps solve lam) (initial : V)
    (step : ℝ) (out : Output V) (h : warmStart P solve seq initial step = some out) :
    List.Forall₂ (fun lam b => ∀ v, P.loss b + P.enetLoss lam b + lam * P.alpha * P.penalty b ≤
      P.loss v + P.enetLoss lam v + lam * P.alpha * P.penalty v + eps) out.lagrange out.beta := by
  have hs : seq ≠ [] := by rintro rfl; simp [warmStart, loop] at h
  rw [warm_some hs] at h
  injection h with h
  subst h
  obtain ⟨h1, h2⟩ := loop_mem P solve seq hsolve 0 initial step
  dsimp only
  have : ∀ es : List (Entry V), (∀ e ∈ es, ∀ v, P.loss e.beta + P.enetLoss e.lagrange e.beta + e.lagrange * P.alpha * P.penalty e.beta ≤
        P.loss v + P.enetLoss e.lagrange v + e.lagrange * P.alpha * P.penalty v + eps) →
      List.Forall₂ (fun lam b => ∀ v, P.loss b + P.enetLoss lam b + lam * P.alpha * P.penalty b ≤
        P.loss v + P.enetLoss lam v + lam * P.alpha * P.penalty v + eps) (es.map fun e => e.lagrange) (es.map Entry.beta) := by
    intro es
    induction es with
    | nil => intro _; exact List.Forall₂.nil
    | cons a l ih => intro h; exact List.Forall₂.cons (h a List.mem_cons_self) (ih fun e he => h e (List.mem_cons_of_mem _ he))
  have := this _ fun e he => (h2 e he).2
  rw [h1] at this
  exact this

/-- **C78** if the solver is accurate to `eps`, every row is within `eps` of the optimum of the problem at its own lagrange
parameter, whatever the initial solution and the order of the parameters. -/
theorem C78_optimal (P : WarmPath V) (solve : Solver V) {eps : ℝ} (hsolve : WarmSolver P eps solve) (seq : List ℝ) (initial : V)
    (step : ℝ) (out : Output V) (h : warmStart P solve seq initial step = some out) :
    List.Forall₂ (fun lam b => ∀ v, P.loss b + P.enetLoss lam b + lam * P.alpha * P.penalty b ≤
      P.loss v + P.enetLoss lam v + lam * P.alpha * P.penalty v + eps) out.lagrange out.beta := by
  exact C78_optimal_on P solve seq (fun lam _ n start step v => hsolve n lam start step v) initial step out h

section lasso
variable {p m : ℕ} (X : Fin m → Fin p → ℝ) (satFunc : (Fin m → ℝ) → ℝ) (w enet : Fin p → ℝ) (alpha : ℝ)

private lemma lasso_obj (hw : ∀ i, 0 ≤ w i) (lam : ℝ) (b : Fin p → ℝ) :
    (lassoWarm X satFunc w enet alpha).loss b + (lassoWarm X satFunc w enet alpha).enetLoss lam b +
      lam * (lassoWarm X satFunc w enet alpha).alpha * (lassoWarm X satFunc w enet alpha).penalty b =
      enetObjective X satFunc w enet alpha lam b := by
  have h1 : (∑ i, b i * (LassoPath.enetParams alpha enet w lam i * b i)) / 2 =
      ∑ i, (1 - alpha) * (if w i = 0 then 1 else lam) * enet i / 2 * b i ^ 2 := by
    rw [Finset.sum_div]
    refine Finset.sum_congr rfl fun i _ => ?_
    unfold LassoPath.enetParams
    by_cases h : w i = 0
    · simp only [h, ne_eq, not_true_eq_false, if_false, if_true]; ring
    · simp only [h, ne_eq, not_false_eq_true, if_false, if_true]; ring
  have h2 : ∑ i, |b i * w i| = weightedL1 w b :=
    Finset.sum_congr rfl fun i _ => by rw [abs_mul, abs_of_nonneg (hw i), mul_comm]
  simp only [lassoWarm, enetObjective, enetSmooth]
  rw [h1, h2, mul_comm lam alpha]

/-- **C78** on a lasso path with an accurate solver every row is within `eps` of the minimum of the elastic net problem of
C40 at its lagrange parameter. -/
theorem C78_lasso (hw : ∀ i, 0 ≤ w i) (solve : Solver (Fin p → ℝ)) {eps : ℝ} (seq : List ℝ)
    (hsolve : ∀ lam ∈ seq, ∀ n f pen start step, (∀ b, f b + pen b = enetObjective X satFunc w enet alpha lam b) → ∀ u,
      enetObjective X satFunc w enet alpha lam (solve n f pen start step).1 ≤ enetObjective X satFunc w enet alpha lam u + eps)
    (initial : Fin p → ℝ) (step : ℝ) (out : Output (Fin p → ℝ))
    (h : warmStart (lassoWarm X satFunc w enet alpha) solve seq initial step = some out) :
    out.lagrange = seq ∧ List.Forall₂ (fun lam b => ∀ u, enetObjective X satFunc w enet alpha lam b ≤
      enetObjective X satFunc w enet alpha lam u + eps) seq out.beta := by
  have hS : ∀ lam ∈ seq, WarmSolverAt (lassoWarm X satFunc w enet alpha) eps solve lam := by
    intro lam hlam n start step v
    dsimp only
    rw [lasso_obj X satFunc w enet alpha hw, lasso_obj X satFunc w enet alpha hw]
    exact hsolve lam hlam n _ _ start step (fun b => lasso_obj X satFunc w enet alpha hw lam b) v
  have := C78_optimal_on _ solve seq hS initial step out h
  have hs : seq ≠ [] := by rintro rfl; simp [warmStart, loop] at h
  rw [warm_some hs] at h
  injection h with h
  subst h
  simp only [lasso_obj X satFunc w enet alpha hw] at this
  exact ⟨rfl, this⟩

end lasso

/-- **C78** deviance along the path: if the ridge term is proportional to the lagrange parameter up to a part `R` which does not
depend on it (features without weight), the solver is accurate to `eps`, and two rows have parameters `lam' < lam`, both
nonnegative, then loss plus `R` at `lam'` exceeds that at `lam` by at most `eps (lam + lam') / (lam - lam')`; with an exact solver
it does not exceed it. -/
theorem C78_deviance (P : WarmPath V) {R E : V → ℝ} (hE : ∀ lam v, P.enetLoss lam v = R v + lam * E v) {eps lam lam' : ℝ}
    (h0 : 0 ≤ lam') (hl : lam' < lam) {b b' : V}
    (hb : ∀ v, P.loss b + P.enetLoss lam b + lam * P.alpha * P.penalty b ≤ P.loss v + P.enetLoss lam v + lam * P.alpha * P.penalty v + eps)
    (hb' : ∀ v, P.loss b' + P.enetLoss lam' b' + lam' * P.alpha * P.penalty b' ≤
      P.loss v + P.enetLoss lam' v + lam' * P.alpha * P.penalty v + eps) :
    P.loss b' + R b' ≤ P.loss b + R b + eps * (lam + lam') / (lam - lam') := by
  have h1 := hb b'
  have h2 := hb' b
  rw [hE, hE] at h1 h2
  have hd : 0 < lam - lam' := by linarith
  have h3 := mul_le_mul_of_nonneg_left h1 h0
  have h4 := mul_le_mul_of_nonneg_left h2 (h0.trans hl.le)
  have : (lam - lam') * (P.loss b' + R b') ≤ (lam - lam') * (P.loss b + R b) + eps * (lam + lam') := by nlinarith
  have h5 : (lam - lam') * (eps * (lam + lam') / (lam - lam')) = eps * (lam + lam') := by field_simp
  refine le_of_mul_le_mul_left ?_ hd
  rw [mul_add (lam - lam') (P.loss b + R b), h5]
  exact this

private lemma foldl_max_ge (l : List ℝ) (a : ℝ) (h : ∀ x ∈ l, x ≤ a) : l.foldl max a = a := by
  induction l with
  | nil => rfl
  | cons b l ih =>
    rw [List.foldl_cons, max_eq_left (h b List.mem_cons_self)]
    exact ih fun x hx => h x (List.mem_cons_of_mem _ hx)

/-- **C78** devratio: for an exact solver, a nonnegative loss, a ridge term proportional to the lagrange parameter and a strictly
decreasing sequence of nonnegative parameters whose first solution has positive loss, the devratios are numbers, the first is 0,
they do not decrease along the path, and they stay between 0 and 1.  Missing: losses that can be negative
(`C78_devratio_fails`) and a first solution with loss 0 (`C78_zero_fails`). -/
theorem C78_devratio_partial (P : WarmPath V) {E : V → ℝ} (hE : ∀ lam v, P.enetLoss lam v = lam * E v) (hloss : ∀ v, 0 ≤ P.loss v)
    (solve : Solver V) (lam0 : ℝ) (rest : List ℝ) (hsolve : ∀ lam ∈ lam0 :: rest, WarmSolverAt P 0 solve lam) (hdec : (lam0 :: rest).Pairwise (· > ·))
    (hpos : ∀ l ∈ lam0 :: rest, 0 ≤ l) (initial : V) (step : ℝ) (out : Output V)
    (h : warmStart P solve (lam0 :: rest) initial step = some out) (b0 : V) (hb0 : out.beta.head? = some b0) (h1 : 0 < P.loss b0) :
    ∃ r : List ℝ, out.devratio = r.map some ∧ r.head? = some 0 ∧ r.Pairwise (· ≤ ·) ∧ ∀ x ∈ r, 0 ≤ x ∧ x ≤ 1 := by
  rw [warm_some (by simp)] at h
  injection h with h
  subst h
  obtain ⟨hl, hm⟩ := loop_mem P solve (lam0 :: rest) hsolve 0 initial step
  generalize hes : (loop P solve (lam0 :: rest) 0 initial step).1 = es at *
  cases es with
  | nil => simp at hl
  | cons e es =>
    simp only [List.map_cons, List.head?_cons, Option.some.injEq] at hb0
    subst hb0
    have hpair : (e :: es).Pairwise fun x y => y.objective ≤ x.objective := by
      rw [← hl, List.pairwise_map] at hdec
      refine hdec.imp_of_mem fun {x y} hx hy hxy => ?_
      have hy0 : 0 ≤ y.lagrange := hpos _ (by rw [← hl]; exact List.mem_map_of_mem hy)
      have := C78_deviance P (R := fun _ => 0) (E := E) (fun l v => by rw [hE]; ring) hy0 hxy (hm x hx).2 (hm y hy).2
      rw [(hm x hx).1, (hm y hy).1]
      simpa using this
    have hmax : maxList ((e :: es).map Entry.objective) = e.objective := by
      rw [List.map_cons]
      refine foldl_max_ge _ _ fun x hx => ?_
      obtain ⟨y, hy, rfl⟩ := List.mem_map.mp hx
      exact List.rel_of_pairwise_cons hpair hy
    have hne : 0 < e.objective := by rw [(hm e List.mem_cons_self).1]; exact h1
    refine ⟨(e :: es).map fun y => 1 - y.objective / e.objective, ?_, ?_, ?_, ?_⟩
    · rw [hmax, List.map_map, List.map_map]
      refine List.map_congr_left fun y _ => ?_
      simp only [Function.comp, hne.ne', if_false]
    · simp [hne.ne']
    · rw [List.pairwise_map]
      refine hpair.imp fun {x y} hxy => ?_
      have := div_le_div_of_nonneg_right hxy hne.le
      linarith
    · intro x hx
      obtain ⟨y, hy, rfl⟩ := List.mem_map.mp hx
      have hy0 : 0 ≤ y.objective := by rw [(hm y hy).1]; exact hloss _
      have hy1 : y.objective ≤ e.objective := by
        rcases List.mem_cons.mp hy with rfl | hy
        · exact le_refl _
        · exact List.rel_of_pairwise_cons hpair hy
      have := div_nonneg hy0 hne.le
      have := (div_le_one hne).mpr hy1
      constructor <;> linarith

/-- the lasso path of one gaussian observation `3` and one feature `1` -/
private noncomputable def gaussOne : WarmPath (Fin 1 → ℝ) :=
  lassoWarm (m := 1) (fun _ _ => 1) (fun eta => (eta 0 - 3) ^ 2 / 2) (fun _ => 1) (fun _ => 0) 1

/-- a solver returning some minimiser -/
private noncomputable def minSolve : Solver (Fin 1 → ℝ) := fun _ f pen start step =>
  (open Classical in if h : ∃ b, ∀ v, f b + pen b ≤ f v + pen v then h.choose else start, step)

/-- the hypotheses are met by that path, an exact solver and the parameters 2, 1, 0 -/
example : ∃ (solve : Solver (Fin 1 → ℝ)) (out : Output (Fin 1 → ℝ)), WarmSolver gaussOne 0 solve ∧
    (∀ lam v, gaussOne.enetLoss lam v = lam * 0) ∧ (∀ v, 0 ≤ gaussOne.loss v) ∧ ([2, 1, 0] : List ℝ).Pairwise (· > ·) ∧
    warmStart gaussOne solve [2, 1, 0] 0 1 = some out ∧ ∃ b0, out.beta.head? = some b0 ∧ 0 < gaussOne.loss b0 := by
  have hen : ∀ lam v, gaussOne.enetLoss lam v = lam * 0 := by intro lam v; simp [gaussOne, lassoWarm, LassoPath.enetParams]
  have hl : ∀ v, gaussOne.loss v = (v 0 - 3) ^ 2 / 2 := by intro v; simp [gaussOne, lassoWarm]
  have hp : ∀ v, gaussOne.penalty v = |v 0| := by intro v; simp [gaussOne, lassoWarm]
  have ha : gaussOne.alpha = 1 := rfl
  have hmin : ∀ lam : ℝ, ∃ b : Fin 1 → ℝ, ∀ v : Fin 1 → ℝ, (b 0 - 3) ^ 2 / 2 + lam * |b 0| ≤ (v 0 - 3) ^ 2 / 2 + lam * |v 0| := by
    intro lam
    by_cases h3 : 3 ≤ lam
    · refine ⟨fun _ => 0, fun v => ?_⟩
      have := le_abs_self (v 0)
      have h0 := abs_nonneg (v 0)
      simp only [abs_zero, mul_zero]
      nlinarith [sq_nonneg (v 0), mul_le_mul_of_nonneg_right h3 h0]
    · refine ⟨fun _ => 3 - lam, fun v => ?_⟩
      have h1 : 0 < 3 - lam := by linarith
      simp only [abs_of_pos h1]
      rcases le_total 0 (v 0) with hv | hv
      · rw [abs_of_nonneg hv]; nlinarith [sq_nonneg (v 0 - (3 - lam))]
      · rw [abs_of_nonpos hv]
        nlinarith [sq_nonneg (v 0 + (3 - lam)), sq_nonneg (v 0)]
  have hsolve : WarmSolver gaussOne 0 minSolve := by
    intro n lam start step v
    have hex : ∃ b : Fin 1 → ℝ, ∀ v, (gaussOne.loss b + gaussOne.enetLoss lam b) + lam * gaussOne.alpha * gaussOne.penalty b ≤
        (gaussOne.loss v + gaussOne.enetLoss lam v) + lam * gaussOne.alpha * gaussOne.penalty v := by
      obtain ⟨b, hb⟩ := hmin lam
      exact ⟨b, fun v => by rw [hen, hen, hl, hl, hp, hp, ha]; have := hb v; linarith⟩
    dsimp only [minSolve]
    rw [dif_pos hex]
    have := hex.choose_spec v
    linarith
  refine ⟨minSolve, _, hsolve, hen, fun v => by rw [hl]; positivity, by simp, warm_some (by simp), _, rfl, ?_⟩
  rw [hl]
  have := hsolve 0 2 0 1 (fun _ => 0)
  dsimp only at this
  rw [hl, hl, hp, hp, hen, hen] at this
  have hne : (minSolve 0 (fun v => gaussOne.loss v + gaussOne.enetLoss 2 v) (fun v => 2 * gaussOne.alpha * gaussOne.penalty v) 0 1).1 0 ≠ 3 := by
    intro h3
    rw [h3, ha] at this
    norm_num at this
  change 0 < ((minSolve 0 (fun v => gaussOne.loss v + gaussOne.enetLoss 2 v) (fun v => 2 * gaussOne.alpha * gaussOne.penalty v) 0 1).1 0 - 3) ^ 2 / 2
  have := sq_pos_of_ne_zero (sub_ne_zero.mpr hne)
  linarith

/-- the lasso path of one poisson count `3` and one feature `1` -/
private noncomputable def poissonOne : WarmPath (Fin 1 → ℝ) :=
  lassoWarm (m := 1) (fun _ _ => 1) (fun eta => Real.exp (eta 0) - 3 * eta 0) (fun _ => 1) (fun _ => 0) 1

/-- **C78** fails for losses that can be negative: for one poisson count 3 and the parameters 2, 0 every exact solver gives the
devratios 0 and `1 - (3 - 3 log 3) > 1`. -/
theorem C78_devratio_fails : ∃ P : WarmPath (Fin 1 → ℝ), (∃ E : (Fin 1 → ℝ) → ℝ, ∀ lam v, P.enetLoss lam v = lam * E v) ∧
    ∀ solve, WarmSolver P 0 solve → ∀ initial step, ∃ out x, warmStart P solve [2, 0] initial step = some out ∧
      out.devratio = [some 0, some x] ∧ 1 < x := by
  refine ⟨poissonOne, ⟨fun _ => 0, fun lam v => by simp [poissonOne, lassoWarm, LassoPath.enetParams]⟩, fun solve hsolve initial step => ?_⟩
  have hen : ∀ lam v, poissonOne.enetLoss lam v = 0 := by intro lam v; simp [poissonOne, lassoWarm, LassoPath.enetParams]
  have hl : ∀ v, poissonOne.loss v = Real.exp (v 0) - 3 * v 0 := by intro v; simp [poissonOne, lassoWarm]
  have hp : ∀ v, poissonOne.penalty v = |v 0| := by intro v; simp [poissonOne, lassoWarm]
  have ha : poissonOne.alpha = 1 := rfl
  have hlog : 1 < Real.log 3 := by
    rw [Real.lt_log_iff_exp_lt (by norm_num)]
    linarith [Real.exp_one_lt_d9]
  have a1 := hsolve 0 2 initial step (fun _ => 0)
  dsimp only at a1
  set r1 := solve 0 (fun v => poissonOne.loss v + poissonOne.enetLoss 2 v) (fun v => 2 * poissonOne.alpha * poissonOne.penalty v) initial step with hr1
  have a2 := hsolve 1 0 r1.1 r1.2 (fun _ => Real.log 3)
  dsimp only at a2
  set r2 := solve 1 (fun v => poissonOne.loss v + poissonOne.enetLoss 0 v) (fun v => 0 * poissonOne.alpha * poissonOne.penalty v) r1.1 r1.2 with hr2
  have hloop : (loop poissonOne solve [2, 0] 0 initial step).1.map Entry.objective = [poissonOne.loss r1.1, poissonOne.loss r2.1] := rfl
  clear_value r1 r2
  rw [hl, hl, hp, hp, hen, hen, ha] at a1 a2
  rw [Real.exp_log (by norm_num)] at a2
  norm_num at a1 a2
  have e1 : r1.1 0 = 0 := by
    by_contra hne
    have := Real.add_one_lt_exp hne
    have := le_abs_self (r1.1 0)
    linarith
  have l1 : poissonOne.loss r1.1 = 1 := by rw [hl, e1]; simp
  have l2 : poissonOne.loss r2.1 < 0 := by rw [hl]; linarith
  refine ⟨_, 1 - poissonOne.loss r2.1, warm_some (by simp), ?_, by linarith⟩
  dsimp only
  rw [hloop, l1]
  have hm : maxList [1, poissonOne.loss r2.1] = 1 := by
    simp only [maxList, List.foldl_cons, List.foldl_nil]
    exact max_eq_left (by linarith)
  simp [hm]

/-- **C78** fails for a perfect fit: if every solution has loss 0 every devratio is the nan of `0/0`. -/
theorem C78_zero_fails (P : WarmPath V) (hP : ∀ v, P.loss v = 0) (solve : Solver V) (seq : List ℝ) (hs : seq ≠ []) (initial : V) (step : ℝ) :
    ∃ out, warmStart P solve seq initial step = some out ∧ ∀ x ∈ out.devratio, x = none := by
  refine ⟨_, warm_some hs, fun x hx => ?_⟩
  dsimp only at hx
  have hz : ∀ (seq : List ℝ) n s t, ∀ o ∈ (loop P solve seq n s t).1.map Entry.objective, o = 0 := by
    intro seq
    induction seq with
    | nil => intro n s t o ho; simp [loop] at ho
    | cons a l ih =>
      intro n s t o ho
      simp only [loop, List.map_cons, List.mem_cons] at ho
      rcases ho with rfl | ho
      · exact hP _
      · exact ih _ _ _ o ho
  have hm : maxList ((loop P solve seq 0 initial step).1.map Entry.objective) = 0 := by
    have h := hz seq 0 initial step
    generalize (loop P solve seq 0 initial step).1.map Entry.objective = os at h
    cases os with
    | nil => rfl
    | cons a l =>
      have ha := h a List.mem_cons_self
      subst ha
      exact foldl_max_ge l 0 fun x hx => (h x (List.mem_cons_of_mem _ hx)).le
  obtain ⟨o, -, rfl⟩ := List.mem_map.mp hx
  rw [if_pos hm]

/-- a perfect fit: a loss that is zero everywhere -/
example : ∃ P : WarmPath (Fin 1 → ℝ), ∀ v, P.loss v = 0 := ⟨⟨fun _ => 0, fun _ _ => 0, fun v => |v 0|, 1⟩, fun _ => rfl⟩

end Verif.Props
