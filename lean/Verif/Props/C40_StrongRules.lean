import Verif.Model.StrongRules
import Verif.Props.C39_LassoKKT
import Verif.Lemmas.EnetPath
import Verif.Lemmas.StrongRules

/-!
# C40: `strong_rules` appends no solution that fails the KKT screen, except under the warning
-/

set_option linter.unusedSectionVars false
set_option linter.unusedVariables false

namespace Verif.Props
open Verif.Model.StrongRules Verif.Spec Verif.Lemmas
open Verif.Model (npSign)

section generic

variable {K : Type*} [Field K] [LinearOrder K] {G V M : Type*} [Fintype G] [Fintype V] [Fintype M]

/-- the solution vanishes at the features outside the subproblem -/
private def Supported (P : PathObj K G V M) (s : State K G V M) : Prop :=
  ∀ v, varsOf P s.sub v = false → s.solution v = 0

/-- `b` is an answer of the subproblem solver at `lam`, extended by zero outside the features of the subproblem -/
def FromSolver (P : PathObj K G V M) (solve : Solver K G V) (lam : K) (b : V → K) : Prop :=
  ∃ (n : ℕ) (warm : V → K) (S : G → Bool), b = fun v => if varsOf P S v then solve n warm S lam v else 0

/-- what holds when an iteration ends -/
private def Good (P : PathObj K G V M) (solve : Solver K G V) (ca : Bool) (lamNew : K) (s : State K G V M) :
    Step K G V M → Prop
  | .stop e s' =>
    (e = Exit.converged →
        PassesScreen ca (P.checkKKT (fun v => fullGradient P s'.linearPredictor v + P.enetGrad s'.solution lamNew v)
          s'.solution (P.alpha * lamNew))) ∧
      (Supported P s → Supported P s' ∧ (e = Exit.converged → s'.linearPredictor = linpred P s'.solution) ∧
        FromSolver P solve lamNew s'.solution)
  | .again s' => Supported P s → Supported P s'

private lemma afterFailure_good (P : PathObj K G V M) (solve : Solver K G V) (ca : Bool) (mt : ℕ) (lamNew : K) (tries : ℕ)
    (s : State K G V M) (sub : G → Bool) (soln : V → K) (eta : M → K) (solution grad : V → K) (allFailing : G → Bool)
    (hsupp : Supported P s → ∀ v, varsOf P sub v = false → solution v = 0)
    (hsoln : ∃ n warm, soln = solve n warm sub lamNew) :
    Good P solve ca lamNew s (afterFailure P mt lamNew tries s sub soln eta solution grad allFailing) := by
  unfold afterFailure
  split
  · dsimp only
    split
    · refine ⟨fun h => (by cases h), fun _ => ⟨?_, fun h => (by cases h), ?_⟩⟩
      swap
      · obtain ⟨n, warm, rfl⟩ := hsoln
        exact ⟨n, warm, sub, rfl⟩
      intro v hv
      dsimp only at hv ⊢
      simp [hv]
    · intro hs v hv
      dsimp only at hv ⊢
      have : varsOf P sub v = false := varsOf_mono P (fun g hg => by simp [hg]) v hv
      simp [this]
  · intro hs v hv
    dsimp only at hv ⊢
    have : varsOf P sub v = false := varsOf_mono P (fun g hg => by simp [hg]) v hv
    exact hsupp hs v this

private lemma step_good (P : PathObj K G V M) (solve : Solver K G V) (ca : Bool) (mt : ℕ) (lamNew lamCur : K)
    (tries : ℕ) (s : State K G V M) : Good P solve ca lamNew s (step P solve ca mt lamNew lamCur tries s) := by
  unfold step
  extract_lets sub soln eta solution strong strongGrad r strongFailing grad
  have hsupp : Supported P s → ∀ v, varsOf P sub v = false → solution v = 0 := by
    intro hs v hv
    simp only [solution, hv]
    exact hs v (varsOf_mono P (fun g hg => by simp [sub, hg]) v hv)
  split
  · exact afterFailure_good _ solve _ _ _ _ _ _ _ _ _ _ _ hsupp ⟨_, _, rfl⟩
  · split
    · exact afterFailure_good _ solve _ _ _ _ _ _ _ _ _ _ _ hsupp ⟨_, _, rfl⟩
    · next hno =>
      refine ⟨fun _ => passes_of_not hno, fun hs => ⟨hsupp hs, fun _ => ?_, ?_⟩⟩
      swap
      · refine ⟨s.calls, s.solution, sub, ?_⟩
        funext v
        by_cases hv : varsOf P sub v = true
        · simp only [solution, hv, if_true]; rfl
        · rw [if_neg hv]; exact hsupp hs v (by simpa using hv)
      dsimp only
      funext m
      simp only [eta, subLinpred, linpred]
      refine Finset.sum_congr rfl fun v _ => ?_
      by_cases hv : varsOf P sub v = true
      · simp only [solution, hv, if_true]
      · have hv' : varsOf P sub v = false := by simpa using hv
        rw [hsupp hs v hv', if_neg hv, mul_zero]

private lemma loop_spec (P : PathObj K G V M) (solve : Solver K G V) (ca : Bool) (mt : ℕ) (lamNew lamCur : K) :
    ∀ fuel tries (s : State K G V M) e s', loop P solve ca mt lamNew lamCur fuel tries s = some (e, s') →
      (e = Exit.converged →
        PassesScreen ca (P.checkKKT (fun v => fullGradient P s'.linearPredictor v + P.enetGrad s'.solution lamNew v)
          s'.solution (P.alpha * lamNew))) ∧
      (Supported P s → Supported P s' ∧ (e = Exit.converged → s'.linearPredictor = linpred P s'.solution) ∧
        FromSolver P solve lamNew s'.solution) := by
  intro fuel
  induction fuel with
  | zero => intro tries s e s' h; simp [loop] at h
  | succ fuel ih =>
    intro tries s e s' h
    rw [loop] at h
    have hg := step_good P solve ca mt lamNew lamCur tries s
    cases hstep : step P solve ca mt lamNew lamCur tries s with
    | stop e0 s0 =>
      rw [hstep] at h hg
      injection h with h
      injection h with h1 h2
      subst h1 h2
      exact hg
    | again s0 =>
      rw [hstep] at h hg
      exact ⟨(ih _ _ _ _ h).1, fun hs => (ih _ _ _ _ h).2 (hg hs)⟩

private lemma overSeq_spec (P : PathObj K G V M) (solve : Solver K G V) (ca : Bool) (mt : ℕ) :
    ∀ (rest : List K) (lam0 : K) (s : State K G V M) out, overSeq P solve ca mt lam0 rest s = some out →
      ∀ e ∈ out, e.exit = Exit.converged → ∃ eta,
        PassesScreen ca (P.checkKKT (fun v => fullGradient P eta v + P.enetGrad e.beta e.lagrange v)
          e.beta (P.alpha * e.lagrange)) ∧ e.deviance = P.satFunc eta ∧ (Supported P s → eta = linpred P e.beta) := by
  intro rest
  induction rest with
  | nil => intro lam0 s out h; simp [overSeq] at h; subst h; intro e he; simp at he
  | cons lamNew rest ih =>
    intro lam0 s out h e he hexit
    rw [overSeq] at h
    cases hl : loop P solve ca mt lamNew lam0 (maxIter mt) 0 s with
    | none => rw [hl] at h; simp at h
    | some x =>
      obtain ⟨ex, s'⟩ := x
      rw [hl] at h
      dsimp only at h
      rw [Option.map_eq_some_iff] at h
      obtain ⟨out', ho, rfl⟩ := h
      have hs := loop_spec P solve ca mt lamNew lam0 _ _ _ _ _ hl
      rcases List.mem_cons.1 he with rfl | he
      · dsimp only at hexit ⊢
        exact ⟨s'.linearPredictor, hs.1 hexit, rfl, fun h => (hs.2 h).2.1 hexit⟩
      · obtain ⟨eta, h1, h2, h3⟩ := ih lamNew s' out' ho e he hexit
        exact ⟨eta, h1, h2, fun h => h3 (hs.2 h).1⟩

private lemma overSeq_fromSolver (P : PathObj K G V M) (solve : Solver K G V) (ca : Bool) (mt : ℕ) :
    ∀ (rest : List K) (lam0 : K) (s : State K G V M) out, overSeq P solve ca mt lam0 rest s = some out →
      Supported P s → ∀ e ∈ out, FromSolver P solve e.lagrange e.beta := by
  intro rest
  induction rest with
  | nil => intro lam0 s out h; simp [overSeq] at h; subst h; intro _ e he; simp at he
  | cons lamNew rest ih =>
    intro lam0 s out h hsup e he
    rw [overSeq] at h
    cases hl : loop P solve ca mt lamNew lam0 (maxIter mt) 0 s with
    | none => rw [hl] at h; simp at h
    | some x =>
      obtain ⟨ex, s'⟩ := x
      rw [hl] at h
      dsimp only at h
      rw [Option.map_eq_some_iff] at h
      obtain ⟨out', ho, rfl⟩ := h
      have hs := (loop_spec P solve ca mt lamNew lam0 _ _ _ _ _ hl).2 hsup
      rcases List.mem_cons.1 he with rfl | he
      · exact hs.2.2
      · exact ih lamNew s' out' ho hs.1 e he

/-- C40: for every path object, every subproblem solver (it may be inexact, stateful, adversarial), every strong set
rule, every lagrange sequence and starting point: a solution appended without the convergence warning has passed the
KKT check over ALL groups, at its own lagrange value, with the gradient at the linear predictor of the subproblem. -/
theorem C40_screen_partial (P : PathObj K G V M) (solve : Solver K G V) (ca : Bool) (mt : ℕ) (seq : List K)
    (solution grad : V → K) (out : List (Entry K V)) (h : strongRules P solve ca mt seq solution grad = some out) :
    ∀ e ∈ out, e.exit = Exit.converged → ∃ eta,
      PassesScreen ca (P.checkKKT (fun v => fullGradient P eta v + P.enetGrad e.beta e.lagrange v)
        e.beta (P.alpha * e.lagrange)) ∧ e.deviance = P.satFunc eta := by
  unfold strongRules at h
  cases seq with
  | nil => simp at h; subst h; intro e he; simp at he
  | cons lam0 rest =>
    intro e he hexit
    obtain ⟨eta, h1, h2, -⟩ := overSeq_spec P solve ca mt rest lam0 _ out h e he hexit
    exact ⟨eta, h1, h2⟩

/-- C40: started at the zero solution, the check was made with the gradient of the loss at the appended solution
itself, and the recorded deviance is that of the appended solution. -/
theorem C40_screen_zero_start (P : PathObj K G V M) (solve : Solver K G V) (ca : Bool) (mt : ℕ) (seq : List K)
    (grad : V → K) (out : List (Entry K V)) (h : strongRules P solve ca mt seq (fun _ => 0) grad = some out) :
    ∀ e ∈ out, e.exit = Exit.converged →
      PassesScreen ca (P.checkKKT (fun v => fullGradient P (linpred P e.beta) v + P.enetGrad e.beta e.lagrange v)
        e.beta (P.alpha * e.lagrange)) ∧ e.deviance = P.satFunc (linpred P e.beta) := by
  unfold strongRules at h
  cases seq with
  | nil => simp at h; subst h; intro e he; simp at he
  | cons lam0 rest =>
    intro e he hexit
    obtain ⟨eta, h1, h2, h3⟩ := overSeq_spec P solve ca mt rest lam0 _ out h e he hexit
    have := h3 (fun v _ => rfl)
    subst this
    exact ⟨h1, h2⟩

private lemma afterFailure_again (P : PathObj K G V M) (mt : ℕ) (lamNew : K) (tries : ℕ)
    (s : State K G V M) (sub : G → Bool) (soln : V → K) (eta : M → K) (solution grad : V → K) (allFailing : G → Bool)
    (s' : State K G V M) (h : afterFailure P mt lamNew tries s sub soln eta solution grad allFailing = .again s') :
    tries + 1 < mt ∨ (tries + 1) % 5 ≠ 0 := by
  unfold afterFailure at h
  by_cases h5 : (tries + 1) % 5 = 0
  · rw [if_pos h5] at h
    by_cases hm : mt ≤ tries + 1
    · dsimp only at h
      rw [if_pos hm] at h
      cases h
    · left; omega
  · right; exact h5

private lemma step_again (P : PathObj K G V M) (solve : Solver K G V) (ca : Bool) (mt : ℕ) (lamNew lamCur : K)
    (tries : ℕ) (s s' : State K G V M) (h : step P solve ca mt lamNew lamCur tries s = .again s') :
    tries + 1 < mt ∨ (tries + 1) % 5 ≠ 0 := by
  unfold step at h
  dsimp only at h
  split at h
  · exact afterFailure_again _ _ _ _ _ _ _ _ _ _ _ _ h
  · split at h
    · exact afterFailure_again _ _ _ _ _ _ _ _ _ _ _ _ h
    · cases h

private lemma loop_isSome (P : PathObj K G V M) (solve : Solver K G V) (ca : Bool) (mt : ℕ) (lamNew lamCur : K) :
    ∀ fuel tries (s : State K G V M), maxIter mt ≤ tries + fuel → tries < maxIter mt →
      ∃ x, loop P solve ca mt lamNew lamCur fuel tries s = some x := by
  intro fuel
  induction fuel with
  | zero => intro tries s h1 h2; omega
  | succ fuel ih =>
    intro tries s h1 h2
    rw [loop]
    cases hstep : step P solve ca mt lamNew lamCur tries s with
    | stop e0 s0 => exact ⟨_, rfl⟩
    | again s0 =>
      have := step_again _ _ _ _ _ _ _ _ _ hstep
      apply ih
      · omega
      · unfold maxIter at h2 ⊢
        omega

/-- C40: `strong_rules` always ends, with one solution per lagrange value after the first, in order. -/
theorem C40_terminates (P : PathObj K G V M) (solve : Solver K G V) (ca : Bool) (mt : ℕ) (seq : List K)
    (solution grad : V → K) :
    ∃ out, strongRules P solve ca mt seq solution grad = some out ∧ out.map Entry.lagrange = seq.tail := by
  have key : ∀ (rest : List K) (lam0 : K) (s : State K G V M),
      ∃ out, overSeq P solve ca mt lam0 rest s = some out ∧ out.map Entry.lagrange = rest := by
    intro rest
    induction rest with
    | nil => intro lam0 s; exact ⟨[], by simp [overSeq], rfl⟩
    | cons lamNew rest ih =>
      intro lam0 s
      obtain ⟨⟨e, s'⟩, hx⟩ := loop_isSome P solve ca mt lamNew lam0 (maxIter mt) 0 s (by omega)
        (by unfold maxIter; omega)
      obtain ⟨out, h1, h2⟩ := ih lamNew s'
      refine ⟨{ lagrange := lamNew, beta := s'.solution, deviance := P.satFunc s'.linearPredictor, exit := e } :: out,
        ?_, ?_⟩
      · rw [overSeq, hx]
        dsimp only
        rw [h1]
        rfl
      · simp [h2]
  unfold strongRules
  cases seq with
  | nil => exact ⟨[], rfl, rfl⟩
  | cons lam0 rest => exact key rest lam0 _

/-- C40: started at the zero solution, every appended solution (with or without the warning) is an answer of the
subproblem solver at its own lagrange value, extended by zero: nothing is left over from earlier lagrange values. -/
theorem C40_from_solver (P : PathObj K G V M) (solve : Solver K G V) (ca : Bool) (mt : ℕ) (seq : List K)
    (grad : V → K) (out : List (Entry K V)) (h : strongRules P solve ca mt seq (fun _ => 0) grad = some out) :
    ∀ e ∈ out, FromSolver P solve e.lagrange e.beta := by
  unfold strongRules at h
  cases seq with
  | nil => simp at h; subst h; intro e he; simp at he
  | cons lam0 rest => exact overSeq_fromSolver P solve ca mt rest lam0 _ out h (fun v _ => rfl)

end generic

/-! ### the lasso path -/

section lasso

variable {p m : ℕ} {X : Fin m → Fin p → ℝ} {satGrad : (Fin m → ℝ) → Fin m → ℝ} {satFunc : (Fin m → ℝ) → ℝ}
  {w enet : Fin p → ℝ} {alpha tol : ℝ}

/-- C40 for the lasso path with `check_active`: a solution appended without the warning is optimal for the full elastic
net problem at its lagrange value up to the tolerance of the check, whatever the subproblem solver did. -/
theorem C40_lasso_check_active (hf : ConvexWithGradient satFunc satGrad) (ha : 0 < alpha) (ha1 : alpha ≤ 1)
    (ht : 0 ≤ tol) (hw : ∀ i, 0 ≤ w i) (hpos : ∃ i, 0 < w i) (he : ∀ i, 0 ≤ enet i) (solve : Solver ℝ (Fin p) (Fin p))
    (mt : ℕ) (seq : List ℝ) (hseq : ∀ l ∈ seq, 0 < l) (grad : Fin p → ℝ) (out : List (Entry ℝ (Fin p)))
    (h : strongRules (lassoPath X satGrad satFunc w enet alpha tol) solve true mt seq (fun _ => 0) grad = some out) :
    ∀ e ∈ out, e.exit = Exit.converged → ∀ u,
      enetObjective X satFunc w enet alpha e.lagrange e.beta ≤ enetObjective X satFunc w enet alpha e.lagrange u +
        tol * ∑ i, (if w i = 0 then meanPos w else alpha * e.lagrange * w i) * |u i - e.beta i| := by
  intro e hmem hex u
  have hlam : 0 < e.lagrange := by
    obtain ⟨out', h1, h2⟩ := C40_terminates (lassoPath X satGrad satFunc w enet alpha tol) solve true mt seq
      (fun _ => 0) grad
    rw [h] at h1
    injection h1 with h1
    subst h1
    have : e.lagrange ∈ seq.tail := by rw [← h2]; exact List.mem_map_of_mem hmem
    exact hseq _ (List.mem_of_mem_tail this)
  have hs := (C40_screen_zero_start _ solve true mt seq grad out h e hmem hex).1
  have hc := enet_convexWithGradient (X := X) (w := w) (tol := tol) hf ha1 hlam.le he
  exact C39_suboptimality hc w e.beta (mul_pos ha hlam) ht hw hpos
    ⟨fun i => (hs i).2 rfl, fun i => (hs i).1⟩ u

/-- The subproblem solver is exact: its answer, extended by zero, minimises the elastic net objective among the
vectors that vanish outside the subproblem. -/
def ExactSolver (X : Fin m → Fin p → ℝ) (satFunc : (Fin m → ℝ) → ℝ) (w enet : Fin p → ℝ) (alpha : ℝ)
    (solve : Solver ℝ (Fin p) (Fin p)) : Prop :=
  ∀ (n : ℕ) (warm : Fin p → ℝ) (S : Fin p → Bool) (lam : ℝ), 0 < lam → ∀ u : Fin p → ℝ, (∀ i, S i = false → u i = 0) →
    enetObjective X satFunc w enet alpha lam (fun i => if S i then solve n warm S lam i else 0) ≤
      enetObjective X satFunc w enet alpha lam u

/-- C40 for the lasso path with the default `check_active = False`, when every feature is penalised and the subproblem
solver is exact: a solution appended without the warning is optimal up to the tolerance of the check. -/
theorem C40_lasso_exact (hf : ConvexWithGradient satFunc satGrad) (ha : 0 < alpha) (ha1 : alpha ≤ 1)
    (ht : 0 ≤ tol) (hp : 0 < p) (hw : ∀ i, 0 < w i) (he : ∀ i, 0 ≤ enet i) (solve : Solver ℝ (Fin p) (Fin p))
    (hsolve : ExactSolver X satFunc w enet alpha solve) (ca : Bool)
    (mt : ℕ) (seq : List ℝ) (hseq : ∀ l ∈ seq, 0 < l) (grad : Fin p → ℝ) (out : List (Entry ℝ (Fin p)))
    (h : strongRules (lassoPath X satGrad satFunc w enet alpha tol) solve ca mt seq (fun _ => 0) grad = some out) :
    ∀ e ∈ out, e.exit = Exit.converged → ∀ u,
      enetObjective X satFunc w enet alpha e.lagrange e.beta ≤ enetObjective X satFunc w enet alpha e.lagrange u +
        tol * ∑ i, alpha * e.lagrange * w i * |u i - e.beta i| := by
  intro e hmem hex u
  have hlam : 0 < e.lagrange := by
    obtain ⟨out', h1, h2⟩ := C40_terminates (lassoPath X satGrad satFunc w enet alpha tol) solve ca mt seq
      (fun _ => 0) grad
    rw [h] at h1
    injection h1 with h1
    subst h1
    have : e.lagrange ∈ seq.tail := by rw [← h2]; exact List.mem_map_of_mem hmem
    exact hseq _ (List.mem_of_mem_tail this)
  have hs := (C40_screen_zero_start _ solve ca mt seq grad out h e hmem hex).1
  obtain ⟨n, warm, S, hb⟩ := C40_from_solver _ solve ca mt seq grad out h e hmem
  have hv : ∀ v, varsOf (lassoPath X satGrad satFunc w enet alpha tol) S v = S v := by
    intro v; unfold varsOf lassoPath; by_cases hS : S v = true <;> simp [hS]
  simp only [hv] at hb
  have hb0 : ∀ i, ¬ (S i = true) → e.beta i = 0 := by
    intro i hi; rw [hb]; simp [hi]
  have hmin : ∀ u : Fin p → ℝ, (∀ i, ¬ (S i = true) → u i = 0) →
      enetObjective X satFunc w enet alpha e.lagrange e.beta ≤ enetObjective X satFunc w enet alpha e.lagrange u := by
    intro u hu
    rw [hb]
    exact hsolve n warm S e.lagrange hlam u (fun i hi => hu i (by simp [hi]))
  have hc := enet_convexWithGradient (X := X) (w := w) (tol := tol) hf ha1 hlam.le he
  have hno : NoFailure (Verif.Model.LassoPath.checkKKT w
      (pathGrad X satGrad satFunc w enet alpha tol e.lagrange e.beta) e.beta (alpha * e.lagrange) tol) := by
    refine ⟨fun i => ?_, fun i => (hs i).1⟩
    by_cases hi : S i = true
    · exact (enet_active_ok (tol := tol) hf.gradient ha hlam ht (fun i => (hw i).le) (fun i => S i = true) e.beta hb0
        hmin i hi).1
    · have hb' := hb0 i hi
      unfold Verif.Model.LassoPath.checkKKT Verif.Model.LassoPath.checkKKT' Verif.Model.LassoPath.activeFailing
      simp [hb', (hw i).ne']
  have := C39_suboptimality hc w e.beta (mul_pos ha hlam) ht (fun i => (hw i).le) ⟨⟨0, hp⟩, hw _⟩ hno u
  simp only [(hw _).ne', if_false] at this
  exact this

end lasso

/-! ### the gaps -/

section witness

/-- two orthogonal features, response (3, 2), all penalised -/
private def P1 : PathObj ℚ (Fin 2) (Fin 2) (Fin 2) :=
  lassoPath (fun m v => if m = v then 1 else 0) (fun eta m => eta m - if m = 0 then 3 else 2)
    (fun eta => ((eta 0 - 3) ^ 2 + (eta 1 - 2) ^ 2) / 2) (fun _ => 1) (fun _ => 1) 1 (1 / 100)

private def check1 : Option (List (Entry ℚ (Fin 2))) → Bool
  | some [e, e'] => decide (e.exit = Exit.converged ∧ e.beta = ![1, 0] ∧ e'.exit = Exit.converged ∧ e'.beta = ![2, 1])
  | _ => false

/-- the theorems are not vacuous: started at zero, with the exact solver (soft-thresholding), the run appends two
solutions without a warning; the second feature enters at the second one -/
example : check1 (strongRules P1 (fun _ _ _ lam v => max ((if v = 0 then 3 else 2) - lam) 0) false 20 [3, 2, 1]
    (fun _ => 0) (fun v => if v = 0 then -3 else -2)) = true := by decide +kernel

/-- exact solvers exist: soft-thresholding for one feature with response 2 -/
example : ExactSolver (p := 1) (m := 1) (fun _ _ => 1) (fun eta => (eta 0 - 2) ^ 2 / 2) (fun _ => 1) (fun _ => 1) 1
    (fun _ _ _ lam _ => max (2 - lam) 0) := by
  intro n warm S lam hl u hu
  unfold enetObjective enetSmooth weightedL1
  simp only [Fin.sum_univ_one, Fin.isValue]
  by_cases hS : S 0 = true
  · simp only [hS, if_true]
    rcases le_total lam 2 with h | h
    · rw [max_eq_left (by linarith), abs_of_nonneg (by linarith : (0:ℝ) ≤ 2 - lam)]
      have h2 := le_abs_self (u 0)
      nlinarith [sq_nonneg (u 0 - (2 - lam)), mul_le_mul_of_nonneg_left h2 hl.le]
    · rw [max_eq_right (by linarith), abs_zero]
      have h2 := le_abs_self (u 0)
      have h3 := abs_nonneg (u 0)
      nlinarith [sq_nonneg (u 0), mul_le_mul_of_nonneg_right h h3]
  · have h0 : S 0 = false := by simpa using hS
    simp [h0, hu 0 h0]

/-- design with an intercept column and one feature, response (0, 2), loss `|η - y|²/2`, unpenalised intercept -/
def interceptPath : PathObj ℚ (Fin 2) (Fin 2) (Fin 2) :=
  lassoPath (fun m v => if v = 0 then 1 else if m = 0 then 1 else 2)
    (fun eta m => eta m - if m = 0 then 0 else 2)
    (fun eta => ((eta 0) ^ 2 + (eta 1 - 2) ^ 2) / 2)
    (fun v => if v = 0 then 0 else 1) (fun _ => 1) 1 (1 / 100)

/-- loss plus penalty -/
def interceptObjective (lam : ℚ) (b : Fin 2 → ℚ) : ℚ := interceptPath.satFunc (linpred interceptPath b) + lam * |b 1|

/-- the exact solver of the subproblems without the intercept: the only ones met in the run -/
def interceptSolver : Solver ℚ (Fin 2) (Fin 2) := fun _ _ S lam v =>
  if v = 1 ∧ S 1 = true then (4 - lam) / 5 else 0

private def check0 : Option (List (Entry ℚ (Fin 2))) → Bool
  | some [e] => decide (e.exit = Exit.converged ∧ e.lagrange = 1 / 2 ∧ e.beta = ![1, 7 / 10] ∧
      interceptObjective (1 / 2) ![1, 0] < interceptObjective (1 / 2) e.beta ∧ fullGradient interceptPath (linpred interceptPath e.beta) 0 = 21 / 10 ∧
      e.deviance ≠ interceptPath.satFunc (linpred interceptPath e.beta))
  | _ => false

/-- With an unpenalised intercept and the default `check_active = False`: the intercept never enters a subproblem, but
its null value stays in the solution.  Started at the null solution `(1, 0)` with its gradient `(0, -1)`, with an exact
subproblem solver, the run appends `(1, 7/10)` at the lagrange value `1/2` without a warning; its objective is larger
than that of the null solution, and the gradient used in the check is not that of the loss at the appended solution. -/
theorem C40_unpenalized_fails :
    -- the solver is exact on the subproblems without the intercept
    (∀ n warm S, S 0 = false → ∀ u : Fin 2 → ℚ, u 0 = 0 → (S 1 = false → u 1 = 0) →
      interceptObjective (1 / 2) (fun v => if S v then interceptSolver n warm S (1 / 2) v else 0) ≤ interceptObjective (1 / 2) u) ∧
    (∃ e, strongRules interceptPath interceptSolver false 20 [1, 1 / 2] (fun v => if v = 0 then 1 else 0) (fun v => if v = 0 then 0 else -1)
        = some [e] ∧ e.exit = Exit.converged ∧ e.lagrange = 1 / 2 ∧ e.beta = ![1, 7 / 10] ∧
      -- worse than the starting point
      interceptObjective (1 / 2) ![1, 0] < interceptObjective (1 / 2) e.beta ∧
      -- the gradient at the intercept is far from zero
      fullGradient interceptPath (linpred interceptPath e.beta) 0 = 21 / 10 ∧
      -- the recorded deviance is not that of the solution
      e.deviance ≠ interceptPath.satFunc (linpred interceptPath e.beta)) := by
  constructor
  · intro n warm S hS u hu hu1
    have e0 : (if S 0 = true then interceptSolver n warm S (1/2) 0 else 0) = 0 := by simp [hS]
    unfold interceptObjective linpred interceptPath lassoPath
    simp only [Fin.sum_univ_two, e0, hu]
    by_cases h1 : S 1 = true
    · simp only [h1, interceptSolver, Fin.isValue, if_true, true_and]
      norm_num
      rcases abs_cases (u 1) with ⟨h, _⟩ | ⟨h, _⟩ <;> rw [h] <;> nlinarith [sq_nonneg (u 1 - 7 / 10), sq_nonneg (u 1)]
    · have h1' : S 1 = false := by simpa using h1
      simp [h1', hu1 h1']
  · have hk : check0 (strongRules interceptPath interceptSolver false 20 [1, 1 / 2] (fun v => if v = 0 then 1 else 0)
        (fun v => if v = 0 then 0 else -1)) = true := by decide +kernel
    cases h : strongRules interceptPath interceptSolver false 20 [1, 1 / 2] (fun v => if v = 0 then 1 else 0)
        (fun v => if v = 0 then 0 else -1) with
    | none => rw [h] at hk; simp [check0] at hk
    | some l =>
      rw [h] at hk
      match l, hk with
      | [e], hk =>
        simp only [check0, decide_eq_true_eq] at hk
        exact ⟨e, rfl, hk⟩

end witness

/-- **C40** The sequential strong rule of the lasso path: unpenalised features are never discarded, and if the gradient at the next
solution moves by at most the change of the lagrange parameter (per unit of weight) — the assumption behind the rule — then every
discarded feature satisfies the optimality condition of a zero coefficient at the next lagrange parameter. -/
theorem C40_strong_rule {K ι : Type} [Field K] [LinearOrder K] [IsStrictOrderedRing K] (w g gNew : ι → K) (lamCur lamNew : K)
    (hw : ∀ i, 0 ≤ w i) (hslope : ∀ i, |gNew i - g i| ≤ w i * (lamCur - lamNew)) (i : ι)
    (hi : Verif.Model.LassoPath.strongSet w lamCur lamNew g i = false) : 0 < w i ∧ |gNew i| ≤ w i * lamNew := by
  unfold Verif.Model.LassoPath.strongSet at hi
  by_cases h0 : w i = 0
  · simp [h0] at hi
  · have hpos : 0 < w i := lt_of_le_of_ne (hw i) (Ne.symm h0)
    simp only [h0, if_false, hpos, if_true, decide_eq_false_iff_not, not_lt] at hi
    refine ⟨hpos, ?_⟩
    rw [div_le_iff₀ hpos] at hi
    have h1 := hslope i
    have h2 : |gNew i| ≤ |gNew i - g i| + |g i| := by
      have := abs_add_le (gNew i - g i) (g i)
      simpa using this
    nlinarith

/-- **C40** exactly the features whose scaled gradient exceeds `2 lagrange_new - lagrange_cur`, and the unpenalised ones, are kept. -/
theorem C40_strong_set {K ι : Type} [Field K] [LinearOrder K] [IsStrictOrderedRing K] (w g : ι → K) (lamCur lamNew : K)
    (hw : ∀ i, 0 ≤ w i) (i : ι) :
    Verif.Model.LassoPath.strongSet w lamCur lamNew g i = true ↔ w i = 0 ∨ w i * (2 * lamNew - lamCur) < |g i| := by
  unfold Verif.Model.LassoPath.strongSet
  by_cases h0 : w i = 0
  · simp [h0]
  · have hpos : 0 < w i := lt_of_le_of_ne (hw i) (Ne.symm h0)
    simp only [h0, if_false, hpos, if_true, decide_eq_true_eq, false_or]
    rw [lt_div_iff₀ hpos, mul_comm]

/-- **C40** the lasso path object screens with this rule: its strong set at `(lagrange_cur, lagrange_new, gradient)` is the one above. -/
theorem C40_path_strong_set {K V M : Type} [Field K] [LinearOrder K] [IsStrictOrderedRing K] [Fintype V] [Fintype M] [DecidableEq V]
    (X : M → V → K) (satGrad : (M → K) → M → K) (satFunc : (M → K) → K) (w enet : V → K) (alpha tol lamCur lamNew : K) (g : V → K)
    (hw : ∀ i, 0 ≤ w i) (i : V) :
    (lassoPath X satGrad satFunc w enet alpha tol).strongSet lamCur lamNew g i = true ↔
      w i = 0 ∨ w i * (2 * lamNew - lamCur) < |g i| :=
  C40_strong_set w g lamCur lamNew hw i

/-- **C40** the check of the lasso path on a set of features agrees with the check on all of them: it flags an inactive feature exactly
if the feature is in the set and the full check flags it, and the same for an active penalised feature (for unpenalised ones the
threshold depends on the mean weight of the set). -/
theorem C40_path_check_on {K V M : Type} [Field K] [LinearOrder K] [IsStrictOrderedRing K] [Fintype V] [Fintype M] [DecidableEq V]
    (X : M → V → K) (satGrad : (M → K) → M → K) (satFunc : (M → K) → K) (w enet : V → K) (alpha tol lam : K) (g b : V → K)
    (S : V → Bool) (i : V) :
    (0 ≤ ((lassoPath X satGrad satFunc w enet alpha tol).checkKKTOn S g b lam).2 i ↔
      S i = true ∧ 0 ≤ ((lassoPath X satGrad satFunc w enet alpha tol).checkKKT g b lam).2 i) ∧
    (w i ≠ 0 → (((lassoPath X satGrad satFunc w enet alpha tol).checkKKTOn S g b lam).1 i = true ↔
      S i = true ∧ ((lassoPath X satGrad satFunc w enet alpha tol).checkKKT g b lam).1 i = true)) := by
  have hneg : ¬ (0 : K) ≤ -1 := by norm_num
  simp only [lassoPath, Verif.Model.LassoPath.checkKKT, Verif.Model.LassoPath.checkKKT']
  by_cases hS : S i = true
  · simp only [hS, dif_pos, true_and]
    refine ⟨?_, fun hwi => ?_⟩
    · rw [← not_lt, ← not_lt, Verif.Lemmas.rank_neg_iff, Verif.Lemmas.rank_neg_iff]
      rfl
    · have he : Verif.Model.LassoPath.activeFailing (ι := {v // S v = true}) (fun i => w i) (fun i => g i) (fun i => b i) lam tol
          ⟨i, hS⟩ = Verif.Model.LassoPath.activeFailing w g b lam tol i := by
        unfold Verif.Model.LassoPath.activeFailing
        dsimp only
        rw [if_neg hwi, if_neg hwi]
      exact (decide_eq_true_iff (p := 0 < Verif.Model.LassoPath.activeFailing (ι := {v // S v = true}) (fun i => w i) (fun i => g i)
        (fun i => b i) lam tol ⟨i, hS⟩)).trans (by rw [he]; exact decide_eq_true_iff.symm)
  · simp [hS, hneg]

/-- concrete case: a feature of gradient `1/4` is discarded going from `1` to `2/3` with unit weights, the slope condition holding. -/
example : Verif.Model.LassoPath.strongSet (fun _ : Fin 1 => (1 : ℚ)) 1 (2 / 3) (fun _ => 1 / 4) 0 = false ∧
    |(1 / 2 : ℚ) - 1 / 4| ≤ 1 * (1 - 2 / 3) := by
  constructor
  · simp [Verif.Model.LassoPath.strongSet]; norm_num [abs_of_pos]
  · norm_num [abs_of_pos]

end Verif.Props
