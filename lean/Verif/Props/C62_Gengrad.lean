import Verif.Model.SimpleSolvers
import Verif.Lemmas.ProxGrad
import Verif.Lemmas.Lsq
import Verif.Lemmas.SoftThr
import Verif.Lemmas.L2
import Mathlib.Tactic.FinCases

set_option linter.unusedSectionVars false
set_option linter.unusedVariables false

/-!
# C62: what `gengrad` computes

`gengrad` is documented as "a simple generalized gradient solver" for a `simple_problem`, that is for `minimise f + h over S`.
Its step calls `solve(q)` of the problem, which minimises `f + h + q` — the loss is not removed — so the iteration is the proximal
gradient iteration of `2 f + h`.
-/

namespace Verif.Props
open Verif.Model Verif.Model.SimpleSolvers Verif.Spec Verif.Lemmas

variable {n : ℕ}

/-- `P` is the problem `f + h` over `S` with gradient `g`, whose `solve(q)` returns the exact minimiser of `f + h + q` over `S`
(what `simple_problem.solve` is meant to compute, see C36). -/
structure IsGGProblem (P : GGProblem n) (f : (Fin n → ℝ) → ℝ) (g : (Fin n → ℝ) → Fin n → ℝ) (h : (Fin n → ℝ) → ℝ)
    (S : Set (Fin n → ℝ)) : Prop where
  smooth : P.smooth = f
  grad : P.grad = g
  nonsmooth : ∀ x ∈ S, P.nonsmooth x = h x
  solve : ∀ (L : ℝ) (c l : Fin n → ℝ), 0 < L →
    IsUniqueMinOn (fun u => f u + h u + (L / 2 * sqDist u c + dot l u)) S
      (P.solve (Quad.init (some L) (some (.arr c)) (some (.arr l)) (some 0)))

/-- the points visited by `gengrad` -/
noncomputable def ggIter (P : GGProblem n) (L : ℝ) (x0 : Fin n → ℝ) : ℕ → Fin n → ℝ
  | 0 => x0
  | k + 1 => ggStep P L (ggIter P L x0 k)

private lemma ggStep_prox {P : GGProblem n} {f h : (Fin n → ℝ) → ℝ} {g : (Fin n → ℝ) → Fin n → ℝ} {S : Set (Fin n → ℝ)}
    (hP : IsGGProblem P f g h S) {L : ℝ} (hL : 0 < L) (x : Fin n → ℝ) :
    IsProxStep L (fun u => f u + h u) S x (g x) (ggStep P L x) := by
  have := hP.solve L x (P.grad x) hL
  rw [hP.grad] at this
  unfold ggStep
  rw [hP.grad]
  refine ⟨this.1, fun z hz hne => ?_⟩
  have h1 := this.2 z hz hne
  simp only at h1 ⊢
  linarith

private lemma sum_convex {f h : (Fin n → ℝ) → ℝ} {g : (Fin n → ℝ) → Fin n → ℝ} {S : Set (Fin n → ℝ)}
    (hf : ConvexWithGradient f g) (hh : IsConvexFnOn h S) : IsConvexFnOn (fun u => f u + h u) S :=
  fun x hx y hy a b ha hb hab => by
    obtain ⟨h1, h2⟩ := hh x hx y hy a b ha hb hab
    have h3 := hf.convex x y a b ha hb hab
    refine ⟨h1, ?_⟩
    simp only
    linarith

private lemma loop_iter (P : GGProblem n) (L tol : ℝ) (cs : Bool) (x0 : Fin n → ℝ) :
    ∀ (r j : ℕ) (v : Option ℝ), (∀ w, v = some w → 0 < j ∧ w = P.smooth (ggIter P L x0 (j - 1)) + P.nonsmooth (ggIter P L x0 (j - 1))) →
      ∃ i, j ≤ i ∧ i ≤ j + r ∧ ggLoop P L tol cs r (ggIter P L x0 j) v = ggIter P L x0 i ∧
        (i = j + r ∨
          (cs = true ∧ coefCheck tol (ggIter P L x0 i) (ggIter P L x0 (i + 1))) ∨
          (cs = false ∧ 0 < i ∧
            |P.smooth (ggIter P L x0 (i - 1)) + P.nonsmooth (ggIter P L x0 (i - 1)) -
              (P.smooth (ggIter P L x0 i) + P.nonsmooth (ggIter P L x0 i))| ≤
              tol * max (P.smooth (ggIter P L x0 i) + P.nonsmooth (ggIter P L x0 i)) 1)) := by
  intro r
  induction r with
  | zero => intro j v hv; exact ⟨j, le_rfl, le_rfl, rfl, Or.inl rfl⟩
  | succ r ih =>
    intro j v hv
    classical
    by_cases hc : (if cs then coefCheck tol (ggIter P L x0 j) (ggStep P L (ggIter P L x0 j))
        else objCheck tol v (P.smooth (ggIter P L x0 j) + P.nonsmooth (ggIter P L x0 j)))
    · refine ⟨j, le_rfl, Nat.le_add_right _ _, ?_, Or.inr ?_⟩
      · unfold ggLoop
        dsimp only
        rw [if_pos hc]
      · cases cs with
        | true => simp only [if_true] at hc; exact Or.inl ⟨rfl, hc⟩
        | false =>
          right
          simp only [Bool.false_eq_true, if_false] at hc
          unfold objCheck at hc
          cases v with
          | none => exact hc.elim
          | some w =>
            obtain ⟨h1, h2⟩ := hv w rfl
            refine ⟨rfl, h1, ?_⟩
            rw [← h2]; exact hc
    · obtain ⟨i, h1, h2, h3, h4⟩ := ih (j + 1) (some (P.smooth (ggIter P L x0 j) + P.nonsmooth (ggIter P L x0 j)))
        (fun w hw => ⟨Nat.succ_pos _, by injection hw with hw; rw [← hw]; rfl⟩)
      refine ⟨i, by omega, by omega, ?_, ?_⟩
      · rw [← h3]
        conv_lhs => unfold ggLoop
        dsimp only
        rw [if_neg hc]
        rfl
      · rcases h4 with h4 | h4
        · left; omega
        · right; exact h4

/-- C62: `gengrad` returns one of the points visited, at most `max_its` steps from the start, and either all `max_its` steps were
taken or the stopping test it was asked for holds at the returned point. -/
theorem C62_returns (P : GGProblem n) (x0 : Fin n → ℝ) (L tol : ℝ) (maxIts : ℕ) (cs : Bool) :
    ∃ i ≤ maxIts, gengrad P x0 L tol maxIts cs = ggIter P L x0 i ∧
      (i = maxIts ∨
        (cs = true ∧ Real.sqrt (∑ k, (ggIter P L x0 i k - ggIter P L x0 (i + 1) k) ^ 2) ≤
          tol * max (max (Real.sqrt (∑ k, ggIter P L x0 i k ^ 2)) (Real.sqrt (∑ k, ggIter P L x0 (i + 1) k ^ 2))) 1) ∨
        (cs = false ∧ 0 < i ∧
          |P.smooth (ggIter P L x0 (i - 1)) + P.nonsmooth (ggIter P L x0 (i - 1)) -
            (P.smooth (ggIter P L x0 i) + P.nonsmooth (ggIter P L x0 i))| ≤
            tol * max (P.smooth (ggIter P L x0 i) + P.nonsmooth (ggIter P L x0 i)) 1)) := by
  obtain ⟨i, _, h2, h3, h4⟩ := loop_iter P L tol cs x0 maxIts 0 none (fun w hw => by cases hw)
  rw [Nat.zero_add] at h2 h4
  exact ⟨i, h2, h3, h4⟩

/-- C62: a step of `gengrad` leaves `x` where it is iff `x` minimises `2 f + h` over `S` — not `f + h`. -/
theorem C62_fixed_point_doubled_loss {P : GGProblem n} {f h : (Fin n → ℝ) → ℝ} {g : (Fin n → ℝ) → Fin n → ℝ}
    {S : Set (Fin n → ℝ)} (hP : IsGGProblem P f g h S) (hf : ConvexWithGradient f g) (hh : IsConvexFnOn h S) {L : ℝ} (hL : 0 < L)
    (x : Fin n → ℝ) : ggStep P L x = x ↔ Minimises (fun u => 2 * f u + h u) S x := by
  have hs := ggStep_prox hP hL x
  have hc := sum_convex hf hh
  have e : (fun u => f u + (f u + h u)) = fun u => 2 * f u + h u := by funext u; ring
  rw [← e]
  constructor
  · intro hx
    rw [hx] at hs
    exact isProxStep_minimiser hL hf hc hs
  · intro hx
    exact Lemmas.IsUniqueMinOn.unique hs (minimiser_isProxStep hL (hf.gradient x) hc hx)

/-- C62: with `lipschitz` an upper bound for the curvature of `f`, after `k` steps from any start the objective `2 f + h` is within
`lipschitz ‖x0 - u‖² / (2 k)` of its value at any feasible `u`. -/
theorem C62_rate_doubled_loss {P : GGProblem n} {f h : (Fin n → ℝ) → ℝ} {g : (Fin n → ℝ) → Fin n → ℝ}
    {S : Set (Fin n → ℝ)} (hP : IsGGProblem P f g h S) (hf : ConvexWithGradient f g) (hh : IsConvexFnOn h S) {L : ℝ} (hL : 0 < L)
    (hb : ∀ x z, QuadraticUpperBound f (g x) L x z) (x0 : Fin n → ℝ) (k : ℕ) (hk : 0 < k) (u : Fin n → ℝ) (hu : u ∈ S) :
    (2 * f (ggIter P L x0 k) + h (ggIter P L x0 k)) - (2 * f u + h u) ≤ L * sqDist x0 u / (2 * k) := by
  have hc := sum_convex hf hh
  set x := ggIter P L x0 with hx
  set F : (Fin n → ℝ) → ℝ := fun v => 2 * f v + h v with hF
  have hone : ∀ j, F (x (j + 1)) - F u ≤ L / 2 * (sqDist (x j) u - sqDist (x (j + 1)) u) := by
    intro j
    have := prox_grad_ineq hL hf hc (ggStep_prox hP hL (x j)) (hb _ _) u hu
    have e : ggStep P L (x j) = x (j + 1) := rfl
    rw [e, sqDist_comm u (x (j + 1)), sqDist_comm u (x j)] at this
    simp only [hF]
    linarith
  have hmem : ∀ j, x (j + 1) ∈ S := fun j => (ggStep_prox hP hL (x j)).1
  have hdec : ∀ j, F (x (j + 2)) ≤ F (x (j + 1)) := by
    intro j
    have := prox_grad_decrease hL hc (hmem j) (ggStep_prox hP hL (x (j + 1))) (hb _ _)
    have e : ggStep P L (x (j + 1)) = x (j + 2) := rfl
    rw [e] at this
    have h2 := mul_nonneg hL.le (sqDist_nonneg (x (j + 2)) (x (j + 1)))
    simp only [hF]
    linarith
  have key : ∀ k : ℕ, ((k + 1 : ℕ) : ℝ) * (F (x (k + 1)) - F u) ≤ L / 2 * (sqDist x0 u - sqDist (x (k + 1)) u) := by
    intro k
    induction k with
    | zero =>
      have h0 := hone 0
      rw [Nat.cast_one, one_mul]
      exact h0
    | succ k ih =>
      have h1 := hone (k + 1)
      have h2 := hdec k
      have h3 : ((k + 1 : ℕ) : ℝ) * (F (x (k + 2)) - F u) ≤ ((k + 1 : ℕ) : ℝ) * (F (x (k + 1)) - F u) :=
        mul_le_mul_of_nonneg_left (by linarith) (Nat.cast_nonneg _)
      push_cast at *
      linarith
  obtain ⟨m, rfl⟩ := Nat.exists_eq_succ_of_ne_zero hk.ne'
  have h1 := key m
  have hpos : (0 : ℝ) < ((m + 1 : ℕ) : ℝ) := by exact_mod_cast Nat.succ_pos m
  show F (x (m + 1)) - F u ≤ L * sqDist x0 u / (2 * ((m + 1 : ℕ) : ℝ))
  rw [le_div_iff₀ (by linarith)]
  have := mul_nonneg hL.le (sqDist_nonneg (x (m + 1)) u)
  linarith

/-- C62 for a problem without smooth part (`simple_problem.nonsmooth`): the fixed points are the minimisers of the objective and after
`k` steps the objective is within `lipschitz ‖x0 - u‖² / (2 k)` of its value at any feasible `u`.  Missing: a nonzero smooth part,
for which the claim is false (`C62_wrong_minimiser_fails`). -/
theorem C62_nonsmooth_partial {P : GGProblem n} {h : (Fin n → ℝ) → ℝ} {S : Set (Fin n → ℝ)}
    (hP : IsGGProblem P (fun _ => 0) (fun _ _ => 0) h S) (hh : IsConvexFnOn h S) {L : ℝ} (hL : 0 < L) :
    (∀ x, ggStep P L x = x ↔ Minimises h S x) ∧
    (∀ x0 k, 0 < k → ∀ u ∈ S, h (ggIter P L x0 k) - h u ≤ L * sqDist x0 u / (2 * k)) := by
  have hf : ConvexWithGradient (fun _ : Fin n → ℝ => (0 : ℝ)) (fun _ _ => 0) :=
    ⟨fun x y a b _ _ _ => by simp, fun x => isGradientAt_const 0 x⟩
  refine ⟨fun x => ?_, fun x0 k hk u hu => ?_⟩
  · rw [C62_fixed_point_doubled_loss hP hf hh hL x]; simp
  · have := C62_rate_doubled_loss hP hf hh hL (fun x z => by
      unfold QuadraticUpperBound
      have := mul_nonneg hL.le (sqDist_nonneg z x)
      simp [dot]; linarith) x0 k hk u hu
    simpa using this

/-- C62 for a problem without nonsmooth part (`simple_problem.smooth`): the fixed points are the minimisers of `f` and after `k` steps
`f` is within `lipschitz ‖x0 - u‖² / (4 k)` of its value at any `u`.  Missing: a nonsmooth part next to the loss. -/
theorem C62_smooth_partial {P : GGProblem n} {f : (Fin n → ℝ) → ℝ} {g : (Fin n → ℝ) → Fin n → ℝ}
    (hP : IsGGProblem P f g (fun _ => 0) Set.univ) (hf : ConvexWithGradient f g) {L : ℝ} (hL : 0 < L)
    (hb : ∀ x z, QuadraticUpperBound f (g x) L x z) :
    (∀ x, ggStep P L x = x ↔ ∀ u, f x ≤ f u) ∧
    (∀ x0 k, 0 < k → ∀ u, f (ggIter P L x0 k) - f u ≤ L * sqDist x0 u / (4 * k)) := by
  have hh : IsConvexFnOn (fun _ : Fin n → ℝ => (0 : ℝ)) Set.univ := fun x _ y _ a b _ _ _ => ⟨Set.mem_univ _, by simp⟩
  refine ⟨fun x => ?_, fun x0 k hk u => ?_⟩
  · rw [C62_fixed_point_doubled_loss hP hf hh hL x]
    unfold Minimises
    simp
  · have h1 := C62_rate_doubled_loss hP hf hh hL hb x0 k hk u (Set.mem_univ u)
    have hk' : (0 : ℝ) < k := by exact_mod_cast hk
    have e : L * sqDist x0 u / (4 * k) = L * sqDist x0 u / (2 * k) / 2 := by field_simp; norm_num
    rw [e]
    simp only [add_zero] at h1
    linarith

/-! ## Concrete problems -/

/-- `simple_problem(½‖x - y‖², lam ‖x‖_1)` with exact solves -/
private noncomputable def lassoGG (y : Fin n → ℝ) (lam : ℝ) : GGProblem n :=
  { smooth := lsqLoss y
    grad := fun x i => x i - y i
    nonsmooth := fun x => lam * ∑ i, |x i|
    solve := fun q => fun i => softThr ((y i + q.coef * (q.center.elim 0 fun c => c.get i) - (q.linear.elim 0 fun l => l.get i)) /
      (1 + q.coef)) (lam / (1 + q.coef)) }

private lemma lassoGG_isGG (y : Fin n → ℝ) (lam : ℝ) (hl : 0 ≤ lam) :
    IsGGProblem (lassoGG y lam) (lsqLoss y) (fun x i => x i - y i) (fun x => lam * ∑ i, |x i|) Set.univ := by
  refine ⟨rfl, rfl, fun _ _ => rfl, fun L c l hL => ?_⟩
  have h1 : 0 < 1 + L := by linarith
  set m : Fin n → ℝ := fun i => (y i + L * c i - l i) / (1 + L) with hm
  set p : Fin n → ℝ := fun i => softThr (m i) (lam / (1 + L)) with hp
  have hprox : IsProx (1 + L) (fun z : Fin n → ℝ => ∑ i, lam * |z i|) m p := by
    refine isProx_of_coord h1 (h := fun _ t => lam * |t|) fun i z => ?_
    have hc : 0 ≤ lam / (1 + L) := div_nonneg hl h1.le
    have e1 := softThr_mul (m i) hc
    have e2 := softThr_resid (m i) hc
    have e3 : (m i - p i) * z ≤ lam / (1 + L) * |z| := by
      refine le_trans (le_abs_self _) ?_
      rw [abs_mul]
      exact mul_le_mul_of_nonneg_right e2 (abs_nonneg _)
    have e4 : (1 + L) * (lam / (1 + L)) = lam := by field_simp
    have e5 : (1 + L) * ((m i - p i) * (z - p i)) ≤ (1 + L) * (lam / (1 + L) * |z| - lam / (1 + L) * |p i|) := by
      refine mul_le_mul_of_nonneg_left ?_ h1.le
      have e1' : (m i - p i) * p i = lam / (1 + L) * |p i| := e1
      linarith
    have e6 : (1 + L) * (lam / (1 + L) * |z| - lam / (1 + L) * |p i|) = lam * |z| - lam * |p i| := by
      field_simp
    rw [e6] at e5
    linarith
  have hcomp : ∀ u : Fin n → ℝ, lsqLoss y u + lam * ∑ i, |u i| + (L / 2 * sqDist u c + dot l u) =
      ((1 + L) / 2 * sqDist u m + ∑ i, lam * |u i|) +
        ∑ i, (y i ^ 2 / 2 + L / 2 * c i ^ 2 - (1 + L) / 2 * m i ^ 2) := by
    intro u
    unfold lsqLoss sqDist dot
    rw [Finset.mul_sum, Finset.mul_sum, Finset.mul_sum, ← Finset.sum_add_distrib, ← Finset.sum_add_distrib,
      ← Finset.sum_add_distrib, ← Finset.sum_add_distrib, ← Finset.sum_add_distrib]
    refine Finset.sum_congr rfl fun i _ => ?_
    have e : (1 + L) * m i = y i + L * c i - l i := by simp only [hm]; field_simp
    have : (1 + L) / 2 * (u i - m i) ^ 2 = (1 + L) / 2 * u i ^ 2 - ((1 + L) * m i) * u i + (1 + L) / 2 * m i ^ 2 := by ring
    rw [this, e]
    ring
  refine ⟨Set.mem_univ _, fun z _ hne => ?_⟩
  have h2 := hprox.2 z (Set.mem_univ _) hne
  simp only at h2 ⊢
  rw [hcomp, hcomp]
  exact add_lt_add_left h2 _

/-- concrete case: the lasso with identity design, in any dimension, meets the hypotheses above for every `lipschitz ≥ 1`. -/
example (y : Fin n → ℝ) (lam L : ℝ) (hl : 0 ≤ lam) (hL : 1 ≤ L) :
    IsGGProblem (lassoGG y lam) (lsqLoss y) (fun x i => x i - y i) (fun x => lam * ∑ i, |x i|) Set.univ ∧
    ConvexWithGradient (lsqLoss y) (fun x i => x i - y i) ∧
    IsConvexFnOn (fun x : Fin n → ℝ => lam * ∑ i, |x i|) Set.univ ∧
    (∀ x z, QuadraticUpperBound (lsqLoss y) (fun i => x i - y i) L x z) :=
  ⟨lassoGG_isGG y lam hl, lsqLoss_convex y, l1_convexOn lam hl, fun x z => lsqLoss_upper y x z hL⟩

/-- Counterexample: for `½(x - 2)² + |x|`, whose minimiser is `1` with value `3/2`, `gengrad` started at the minimiser with the right
Lipschitz constant returns `3/2`, with objective `13/8`, for every `max_its ≥ 1`, every `0 ≤ tol ≤ 1/100` and both stopping rules. -/
theorem C62_wrong_minimiser_fails :
    ∃ (P : GGProblem 1) (f h : (Fin 1 → ℝ) → ℝ) (g : (Fin 1 → ℝ) → Fin 1 → ℝ),
      IsGGProblem P f g h Set.univ ∧ ConvexWithGradient f g ∧ IsConvexFnOn h Set.univ ∧
      (∀ x z, QuadraticUpperBound f (g x) 1 x z) ∧
      Minimises (fun u => f u + h u) Set.univ (fun _ => 1) ∧
      ∀ (tol : ℝ) (maxIts : ℕ) (cs : Bool), 0 ≤ tol → tol ≤ 1 / 100 → 1 ≤ maxIts →
        gengrad P (fun _ => 1) 1 tol maxIts cs = (fun _ => 3 / 2) ∧
        f (fun _ => 1) + h (fun _ => 1) < f (gengrad P (fun _ => 1) 1 tol maxIts cs) + h (gengrad P (fun _ => 1) 1 tol maxIts cs) := by
  have hP := lassoGG_isGG (fun _ : Fin 1 => (2 : ℝ)) 1 zero_le_one
  have s1 : ggStep (lassoGG (fun _ : Fin 1 => (2 : ℝ)) 1) 1 (fun _ => 1) = fun _ => 3 / 2 := by
    funext i
    simp only [ggStep, lassoGG, Quad.init, PyVec.get, Option.getD_some, Option.elim]
    unfold softThr
    norm_num
  have s2 : ggStep (lassoGG (fun _ : Fin 1 => (2 : ℝ)) 1) 1 (fun _ => 3 / 2) = fun _ => 3 / 2 := by
    funext i
    simp only [ggStep, lassoGG, Quad.init, PyVec.get, Option.getD_some, Option.elim]
    unfold softThr
    norm_num
  have v1 : (lassoGG (fun _ : Fin 1 => (2 : ℝ)) 1).smooth (fun _ => 1) + (lassoGG (fun _ : Fin 1 => (2 : ℝ)) 1).nonsmooth (fun _ => 1) = 3 / 2 := by
    simp [lassoGG, lsqLoss]; norm_num
  have v2 : (lassoGG (fun _ : Fin 1 => (2 : ℝ)) 1).smooth (fun _ => 3 / 2) + (lassoGG (fun _ : Fin 1 => (2 : ℝ)) 1).nonsmooth (fun _ => 3 / 2) = 13 / 8 := by
    simp [lassoGG, lsqLoss]; norm_num
  refine ⟨_, _, _, _, hP, lsqLoss_convex _, l1_convexOn 1 zero_le_one, fun x z => lsqLoss_upper _ x z le_rfl, ?_, ?_⟩
  · refine ⟨Set.mem_univ _, fun u _ => ?_⟩
    simp [lsqLoss]
    have := le_abs_self (u 0)
    nlinarith [sq_nonneg (u 0 - 1)]
  · intro tol maxIts cs ht ht2 hm
    have fix : ∀ r v, ggLoop (lassoGG (fun _ : Fin 1 => (2 : ℝ)) 1) 1 tol cs r (fun _ => 3 / 2) v = fun _ => 3 / 2 := by
      intro r
      induction r with
      | zero => intro v; rfl
      | succ r ih =>
        intro v
        unfold ggLoop
        dsimp only
        rw [s2]
        by_cases hc : (if cs = true then coefCheck tol (fun _ : Fin 1 => (3 / 2 : ℝ)) (fun _ => 3 / 2)
            else objCheck tol v ((lassoGG (fun _ : Fin 1 => (2 : ℝ)) 1).smooth (fun _ => 3 / 2) +
              (lassoGG (fun _ : Fin 1 => (2 : ℝ)) 1).nonsmooth fun _ => 3 / 2))
        · rw [if_pos hc]
        · rw [if_neg hc]; exact ih _
    have res : gengrad (lassoGG (fun _ : Fin 1 => (2 : ℝ)) 1) (fun _ => 1) 1 tol maxIts cs = fun _ => 3 / 2 := by
      unfold gengrad
      obtain ⟨m, rfl⟩ := Nat.exists_eq_succ_of_ne_zero (by omega : maxIts ≠ 0)
      unfold ggLoop
      dsimp only
      rw [s1, if_neg]
      · exact fix _ _
      · cases cs with
        | false => simp [objCheck]
        | true =>
          simp only [if_true]
          unfold coefCheck npNorm
          simp only [Finset.univ_unique, Finset.sum_singleton]
          rw [Real.sqrt_sq_eq_abs, Real.sqrt_sq_eq_abs, Real.sqrt_sq_eq_abs]
          have a1 : |(1 : ℝ) - 3 / 2| = 1 / 2 := by rw [abs_of_neg (by norm_num)]; norm_num
          have a2 : |(3 / 2 : ℝ)| = 3 / 2 := abs_of_pos (by norm_num)
          rw [a1, a2, abs_one, max_eq_right (by norm_num : (1:ℝ) ≤ 3 / 2), max_eq_left (by norm_num : (1:ℝ) ≤ 3 / 2)]
          intro h
          linarith
    refine ⟨res, ?_⟩
    rw [res]
    have e1 : lsqLoss (fun _ : Fin 1 => (2 : ℝ)) (fun _ => 1) + 1 * ∑ i : Fin 1, |(1:ℝ)| = 3 / 2 := v1
    have e2 : lsqLoss (fun _ : Fin 1 => (2 : ℝ)) (fun _ => 3 / 2) + 1 * ∑ i : Fin 1, |(3 / 2:ℝ)| = 13 / 8 := v2
    rw [e1, e2]
    norm_num

end Verif.Props
