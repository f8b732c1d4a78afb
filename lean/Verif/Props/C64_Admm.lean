import Verif.Model.Admm
import Verif.Lemmas.Admm
import Verif.Lemmas.Lsq
import Verif.Lemmas.SoftThr
import Mathlib.Analysis.SpecificLimits.Basic
import Mathlib.Topology.Algebra.InfiniteSum.Real
import Mathlib.Tactic.FinCases

set_option linter.unusedSectionVars false
set_option linter.unusedVariables false

/-!
# C64: `admm_problem`

The problem is `minimise f(x) + g(D x + a)` with `g` finite on `T`, split as `z = D x + a`.
-/

namespace Verif.Props
open Verif.Model Verif.Model.Admm Verif.Spec Verif.Lemmas

variable {n : ℕ} {f g : (Fin n → ℝ) → ℝ} {T : Set (Fin n → ℝ)}

/-- `P` is an ADMM problem for the loss `f` and the atom `g` (finite on `T`), with exact inner solvers: `solveLoss l` minimises
`f(x) + ρ/2 ‖D x‖² + ⟨l, x⟩`, and the proximal map of the atom returns the minimiser of `g(z) + ρ/2 ‖z - c‖² + ⟨l, z⟩` over `T`. -/
structure IsAdmm (P : Problem n) (f g : (Fin n → ℝ) → ℝ) (T : Set (Fin n → ℝ)) : Prop where
  rho_pos : 0 < P.rho
  solveLoss : ∀ l, Minimises (fun x => f x + P.rho / 2 * ∑ i, (∑ j, P.D i j * x j) ^ 2 + dot l x) Set.univ (P.solveLoss l)
  proximal : ∀ c l, IsUniqueMinOn (fun z => g z + (P.rho / 2 * sqDist z c + dot l z)) T
    (P.proximal (Quad.init (some P.rho) (some (.arr c)) (some (.arr l)) (some 0)))

/-- the offset `a` of the transform -/
def offsetOf (P : Problem n) : Fin n → ℝ := P.offset.getD fun _ => 0

/-- `D x + a - z`: the violation of the constraint by a state -/
noncomputable def violation (P : Problem n) (s : State n) : Fin n → ℝ := fun i => Spec.affineMap P.D (offsetOf P) s.x i - s.z i

private lemma affine_eq (P : Problem n) (x : Fin n → ℝ) : Admm.affineMap P x = Spec.affineMap P.D (offsetOf P) x := by
  funext i
  unfold Admm.affineMap Spec.affineMap offsetOf linearMap
  cases h : P.offset <;> simp

private lemma solve_succ (P : Problem n) (k : ℕ) (s : State n) : Admm.solve P (k + 1) s = step P (Admm.solve P k s) := by
  induction k generalizing s with
  | zero => rfl
  | succ k ih => rw [Admm.solve, ih]; rfl

private lemma step_ineqs {P : Problem n} (hP : IsAdmm P f g T) (hsym : ∀ i j, P.D i j = P.D j i) (hf : IsConvexFnOn f Set.univ)
    (hg : IsConvexFnOn g T) (s : State n) :
    (∀ x, f (step P s).x ≤ f x + ∑ i, ((step P s).y i + P.rho * ((step P s).z i - s.z i)) *
        (Spec.affineMap P.D (offsetOf P) x i - Spec.affineMap P.D (offsetOf P) (step P s).x i)) ∧
    (step P s).z ∈ T ∧
    (∀ z ∈ T, g (step P s).z ≤ g z - ∑ i, (step P s).y i * (z i - (step P s).z i)) ∧
    (∀ i, (step P s).y i = s.y i + P.rho * violation P (step P s) i) := by
  set w : Fin n → ℝ := fun i => s.y i - P.rho * (s.z i - offsetOf P i) with hw
  have hx0 := hP.solveLoss (linearMap P w)
  have hxe : (step P s).x = P.solveLoss (linearMap P w) := rfl
  have hdot : ∀ x, dot (linearMap P w) x = ∑ i, w i * ∑ j, P.D i j * x j := by
    intro x
    unfold dot linearMap
    simp only [Finset.sum_mul, Finset.mul_sum]
    rw [Finset.sum_comm]
    refine Finset.sum_congr rfl fun i _ => Finset.sum_congr rfl fun j _ => ?_
    rw [hsym j i]; ring
  have hxm : Minimises (fun x => f x + P.rho / 2 * ∑ i, (∑ j, P.D i j * x j) ^ 2 + ∑ i, w i * ∑ j, P.D i j * x j) Set.univ (step P s).x := by
    rw [hxe]
    refine ⟨Set.mem_univ _, fun u hu => ?_⟩
    have := hx0.2 u hu
    simp only [hdot] at this ⊢
    exact this
  have hy : ∀ i, (step P s).y i = s.y i + P.rho * violation P (step P s) i := by
    intro i
    unfold violation
    rw [← affine_eq]
    rfl
  have hz : IsUniqueMinOn (fun z => g z + (P.rho / 2 * sqDist z (Spec.affineMap P.D (offsetOf P) (step P s).x) + dot (fun i => -s.y i) z)) T
      (step P s).z := by
    rw [← affine_eq]
    exact hP.proximal _ _
  refine ⟨fun x => ?_, hz.1, fun z hzT => ?_, hy⟩
  · have h1 := augmented_ineq hf P.rho w hxm x (Set.mem_univ _)
    refine le_trans h1 (le_of_eq ?_)
    congr 1
    refine Finset.sum_congr rfl fun i _ => ?_
    rw [hy i]
    simp only [hw, violation, Spec.affineMap]
    ring
  · have h1 := prox_ineq hg hP.rho_pos hz z hzT
    refine le_trans h1 (le_of_eq ?_)
    congr 1
    refine Finset.sum_congr rfl fun i _ => ?_
    rw [hy i]
    rfl

/-- C64 (symmetric `D`): a state that a pass leaves unchanged solves the problem: its `loss_coefs` minimise `f(x) + g(D x + a)` over the
points with `D x + a` in `T`, and `atom_coefs` are `D x + a`.  Missing: nonsymmetric `D`, for which the claim is false
(`C64_nonsymmetric_fails`). -/
theorem C64_fixed_point_partial {P : Problem n} (hP : IsAdmm P f g T) (hsym : ∀ i j, P.D i j = P.D j i)
    (hf : IsConvexFnOn f Set.univ) (hg : IsConvexFnOn g T) {s : State n} (hs : step P s = s) :
    s.z = Spec.affineMap P.D (offsetOf P) s.x ∧
    Minimises (fun x => f x + g (Spec.affineMap P.D (offsetOf P) x)) {x | Spec.affineMap P.D (offsetOf P) x ∈ T} s.x := by
  obtain ⟨h1, h2, h3, h4⟩ := step_ineqs hP hsym hf hg s
  rw [hs] at h1 h2 h3 h4
  have hr : ∀ i, violation P s i = 0 := by
    intro i
    have := h4 i
    have hp := hP.rho_pos
    rcases mul_eq_zero.1 (by linarith : P.rho * violation P s i = 0) with h | h
    · exact absurd h hp.ne'
    · exact h
  have hz : s.z = Spec.affineMap P.D (offsetOf P) s.x := by
    funext i; have := hr i; unfold violation at this; linarith
  have : IsLagrangePoint f g T P.D (offsetOf P) s.x s.z s.y := by
    refine ⟨h2, hz, fun x z hzT => ?_⟩
    have a1 := h1 x
    have a2 := h3 z hzT
    have e : ∑ i, (s.y i + P.rho * (s.z i - s.z i)) * (Spec.affineMap P.D (offsetOf P) x i - Spec.affineMap P.D (offsetOf P) s.x i) -
        ∑ i, s.y i * (z i - s.z i) = dot s.y (fun i => Spec.affineMap P.D (offsetOf P) x i - z i) := by
      unfold dot
      rw [← Finset.sum_sub_distrib]
      refine Finset.sum_congr rfl fun i _ => ?_
      rw [← hz]; ring
    linarith
  exact ⟨hz, this.minimises⟩

/-- `1/ρ ‖y - ys‖² + ρ ‖z - zs‖²` -/
noncomputable def lyapunov (rho : ℝ) (zs ys : Fin n → ℝ) (s : State n) : ℝ := 1 / rho * sqDist s.y ys + rho * sqDist s.z zs

private lemma step_objective {P : Problem n} (hP : IsAdmm P f g T) (hsym : ∀ i j, P.D i j = P.D j i) (hf : IsConvexFnOn f Set.univ)
    (hg : IsConvexFnOn g T) {xs zs ys : Fin n → ℝ} (hk : IsLagrangePoint f g T P.D (offsetOf P) xs zs ys) (s : State n) :
    f xs + g zs - (f (step P s).x + g (step P s).z) ≤ dot ys (violation P (step P s)) ∧
    f (step P s).x + g (step P s).z - (f xs + g zs) ≤ - dot (step P s).y (violation P (step P s)) +
      P.rho * dot (fun i => (step P s).z i - s.z i) (fun i => zs i - (step P s).z i - violation P (step P s) i) := by
  obtain ⟨h1, h2, h3, h4⟩ := step_ineqs hP hsym hf hg s
  refine ⟨?_, ?_⟩
  · have := hk.optimal (step P s).x (step P s).z h2
    have e : dot ys (violation P (step P s)) = dot ys (fun i => Spec.affineMap P.D (offsetOf P) (step P s).x i - (step P s).z i) := rfl
    linarith
  · have a1 := h1 xs
    have a2 := h3 zs hk.mem
    have e : ∑ i, ((step P s).y i + P.rho * ((step P s).z i - s.z i)) *
          (Spec.affineMap P.D (offsetOf P) xs i - Spec.affineMap P.D (offsetOf P) (step P s).x i) -
        ∑ i, (step P s).y i * (zs i - (step P s).z i) = - dot (step P s).y (violation P (step P s)) +
      P.rho * dot (fun i => (step P s).z i - s.z i) (fun i => zs i - (step P s).z i - violation P (step P s) i) := by
      unfold dot
      rw [Finset.mul_sum, ← Finset.sum_neg_distrib, ← Finset.sum_add_distrib, ← Finset.sum_sub_distrib]
      refine Finset.sum_congr rfl fun i _ => ?_
      rw [← hk.feasible]
      unfold violation
      ring
    linarith

private lemma step_lyapunov {P : Problem n} (hP : IsAdmm P f g T) (hsym : ∀ i j, P.D i j = P.D j i) (hf : IsConvexFnOn f Set.univ)
    (hg : IsConvexFnOn g T) {xs zs ys : Fin n → ℝ} (hk : IsLagrangePoint f g T P.D (offsetOf P) xs zs ys) (s : State n) :
    lyapunov P.rho zs ys (step P s) + P.rho * (∑ i, violation P (step P s) i ^ 2 + sqDist (step P s).z s.z) +
      2 * P.rho * dot (fun i => (step P s).z i - s.z i) (violation P (step P s)) ≤ lyapunov P.rho zs ys s := by
  obtain ⟨a1, a2⟩ := step_objective hP hsym hf hg hk s
  obtain ⟨_, _, _, h4⟩ := step_ineqs hP hsym hf hg s
  have hp := hP.rho_pos
  have e : lyapunov P.rho zs ys s - lyapunov P.rho zs ys (step P s) -
      P.rho * (∑ i, violation P (step P s) i ^ 2 + sqDist (step P s).z s.z) -
      2 * P.rho * dot (fun i => (step P s).z i - s.z i) (violation P (step P s)) =
      2 * (dot ys (violation P (step P s)) + (- dot (step P s).y (violation P (step P s)) +
      P.rho * dot (fun i => (step P s).z i - s.z i) (fun i => zs i - (step P s).z i - violation P (step P s) i))) := by
    unfold lyapunov sqDist dot
    simp only [Finset.mul_sum, ← Finset.sum_neg_distrib, ← Finset.sum_add_distrib, ← Finset.sum_sub_distrib]
    refine Finset.sum_congr rfl fun i _ => ?_
    have hy : s.y i = (step P s).y i - P.rho * violation P (step P s) i := by linarith [h4 i]
    rw [hy]
    field_simp
    ring
  linarith

private lemma step_monotone {P : Problem n} (hP : IsAdmm P f g T) (hsym : ∀ i j, P.D i j = P.D j i) (hf : IsConvexFnOn f Set.univ)
    (hg : IsConvexFnOn g T) (s : State n) :
    0 ≤ dot (fun i => (step P (step P s)).z i - (step P s).z i) (violation P (step P (step P s))) := by
  obtain ⟨_, m1, b1, _⟩ := step_ineqs hP hsym hf hg s
  obtain ⟨_, m2, b2, y2⟩ := step_ineqs hP hsym hf hg (step P s)
  have i1 := b1 _ m2
  have i2 := b2 _ m1
  have e : ∑ i, (step P (step P s)).y i * ((step P s).z i - (step P (step P s)).z i) +
      ∑ i, (step P s).y i * ((step P (step P s)).z i - (step P s).z i) =
      -(P.rho * dot (fun i => (step P (step P s)).z i - (step P s).z i) (violation P (step P (step P s)))) := by
    unfold dot
    rw [Finset.mul_sum, ← Finset.sum_neg_distrib, ← Finset.sum_add_distrib]
    refine Finset.sum_congr rfl fun i _ => ?_
    rw [y2 i]; ring
  have : 0 ≤ P.rho * dot (fun i => (step P (step P s)).z i - (step P s).z i) (violation P (step P (step P s))) := by linarith
  exact nonneg_of_mul_nonneg_right this hP.rho_pos

/-- C64 (symmetric `D`): from any start, `1/ρ ‖dual - ys‖² + ρ ‖atom - zs‖²` never increases, whatever solution `zs` and multiplier `ys`;
from the second pass on it decreases by at least `ρ` times the squared constraint violation plus the squared movement of `atom_coefs`.
Missing: nonsymmetric `D`. -/
theorem C64_lyapunov_partial {P : Problem n} (hP : IsAdmm P f g T) (hsym : ∀ i j, P.D i j = P.D j i)
    (hf : IsConvexFnOn f Set.univ) (hg : IsConvexFnOn g T) {xs zs ys : Fin n → ℝ}
    (hk : IsLagrangePoint f g T P.D (offsetOf P) xs zs ys) (s0 : State n) (k : ℕ) :
    lyapunov P.rho zs ys (Admm.solve P (k + 1) s0) ≤ lyapunov P.rho zs ys (Admm.solve P k s0) ∧
    lyapunov P.rho zs ys (Admm.solve P (k + 2) s0) + P.rho * (∑ i, violation P (Admm.solve P (k + 2) s0) i ^ 2 +
      sqDist (Admm.solve P (k + 2) s0).z (Admm.solve P (k + 1) s0).z) ≤ lyapunov P.rho zs ys (Admm.solve P (k + 1) s0) := by
  refine ⟨?_, ?_⟩
  · rw [solve_succ]
    have h := step_lyapunov hP hsym hf hg hk (Admm.solve P k s0)
    have e : ∑ i, violation P (step P (Admm.solve P k s0)) i ^ 2 + sqDist (step P (Admm.solve P k s0)).z (Admm.solve P k s0).z +
        2 * dot (fun i => (step P (Admm.solve P k s0)).z i - (Admm.solve P k s0).z i) (violation P (step P (Admm.solve P k s0))) =
        ∑ i, (violation P (step P (Admm.solve P k s0)) i + ((step P (Admm.solve P k s0)).z i - (Admm.solve P k s0).z i)) ^ 2 := by
      unfold sqDist dot
      rw [Finset.mul_sum, ← Finset.sum_add_distrib, ← Finset.sum_add_distrib]
      exact Finset.sum_congr rfl fun i _ => by ring
    have h2 : 0 ≤ P.rho * ∑ i, (violation P (step P (Admm.solve P k s0)) i + ((step P (Admm.solve P k s0)).z i - (Admm.solve P k s0).z i)) ^ 2 :=
      mul_nonneg hP.rho_pos.le (Finset.sum_nonneg fun i _ => sq_nonneg _)
    rw [← e] at h2
    nlinarith
  · have e2 : Admm.solve P (k + 2) s0 = step P (step P (Admm.solve P k s0)) := by
      rw [solve_succ, solve_succ]
    have e1 : Admm.solve P (k + 1) s0 = step P (Admm.solve P k s0) := solve_succ _ _ _
    rw [e2, e1]
    have h := step_lyapunov hP hsym hf hg hk (step P (Admm.solve P k s0))
    have h2 := mul_nonneg hP.rho_pos.le (step_monotone hP hsym hf hg (Admm.solve P k s0))
    linarith

private lemma lyapunov_nonneg {rho : ℝ} (hr : 0 < rho) (zs ys : Fin n → ℝ) (s : State n) : 0 ≤ lyapunov rho zs ys s :=
  add_nonneg (mul_nonneg (by positivity) (sqDist_nonneg _ _)) (mul_nonneg hr.le (sqDist_nonneg _ _))

private lemma lyapunov_le {P : Problem n} (hP : IsAdmm P f g T) (hsym : ∀ i j, P.D i j = P.D j i)
    (hf : IsConvexFnOn f Set.univ) (hg : IsConvexFnOn g T) {xs zs ys : Fin n → ℝ}
    (hk : IsLagrangePoint f g T P.D (offsetOf P) xs zs ys) (s0 : State n) (k : ℕ) :
    lyapunov P.rho zs ys (Admm.solve P k s0) ≤ lyapunov P.rho zs ys s0 := by
  induction k with
  | zero => exact le_rfl
  | succ k ih => exact le_trans (C64_lyapunov_partial hP hsym hf hg hk s0 k).1 ih

/-- C64 (symmetric `D`): the squared constraint violations and squared movements of `atom_coefs`, summed over all passes after the first,
are at most `1/ρ` times the initial `1/ρ ‖dual - ys‖² + ρ ‖atom - zs‖²`, for every number of passes.  Missing: nonsymmetric `D`. -/
theorem C64_residual_sum_partial {P : Problem n} (hP : IsAdmm P f g T) (hsym : ∀ i j, P.D i j = P.D j i)
    (hf : IsConvexFnOn f Set.univ) (hg : IsConvexFnOn g T) {xs zs ys : Fin n → ℝ}
    (hk : IsLagrangePoint f g T P.D (offsetOf P) xs zs ys) (s0 : State n) (N : ℕ) :
    ∑ k ∈ Finset.range N, (∑ i, violation P (Admm.solve P (k + 2) s0) i ^ 2 +
      sqDist (Admm.solve P (k + 2) s0).z (Admm.solve P (k + 1) s0).z) ≤ lyapunov P.rho zs ys s0 / P.rho := by
  have hp := hP.rho_pos
  have key : ∀ N, P.rho * ∑ k ∈ Finset.range N, (∑ i, violation P (Admm.solve P (k + 2) s0) i ^ 2 +
      sqDist (Admm.solve P (k + 2) s0).z (Admm.solve P (k + 1) s0).z) + lyapunov P.rho zs ys (Admm.solve P (N + 1) s0) ≤
      lyapunov P.rho zs ys (Admm.solve P 1 s0) := by
    intro N
    induction N with
    | zero => simp
    | succ N ih =>
      rw [Finset.sum_range_succ, mul_add]
      have := (C64_lyapunov_partial hP hsym hf hg hk s0 N).2
      linarith
  rw [le_div_iff₀ hp]
  have h1 := key N
  have h2 := lyapunov_nonneg hp zs ys (Admm.solve P (N + 1) s0)
  have h3 := lyapunov_le hP hsym hf hg hk s0 1
  linarith

private lemma sq_dot_le (u v : Fin n → ℝ) : |dot u v| ≤ Real.sqrt (∑ i, u i ^ 2) * Real.sqrt (∑ i, v i ^ 2) := by
  rw [abs_le]
  constructor
  · have := cauchy (fun i => -u i) v
    have e1 : npNorm (fun i => -u i) = Real.sqrt (∑ i, u i ^ 2) := by unfold npNorm; simp
    have e2 : dot (fun i => -u i) v = - dot u v := by unfold dot; simp
    have e3 : npNorm v = Real.sqrt (∑ i, v i ^ 2) := rfl
    have h : dot (fun i => -u i) v ≤ npNorm (fun i => -u i) * npNorm v := this
    rw [e1, e2, e3] at h
    linarith
  · exact cauchy u v

/-- C64 (symmetric `D`): the iteration converges.  If the problem has a solution with a Lagrange multiplier then, from any start, the
constraint violation `D x + a - z` tends to zero, the movement of `atom_coefs` tends to zero, and `f(loss_coefs) + g(atom_coefs)` tends to
the optimal value.  Missing: nonsymmetric `D`. -/
theorem C64_convergence_partial {P : Problem n} (hP : IsAdmm P f g T) (hsym : ∀ i j, P.D i j = P.D j i)
    (hf : IsConvexFnOn f Set.univ) (hg : IsConvexFnOn g T) {xs zs ys : Fin n → ℝ}
    (hk : IsLagrangePoint f g T P.D (offsetOf P) xs zs ys) (s0 : State n) :
    Filter.Tendsto (fun k => ∑ i, violation P (Admm.solve P k s0) i ^ 2) Filter.atTop (nhds 0) ∧
    Filter.Tendsto (fun k => sqDist (Admm.solve P (k + 1) s0).z (Admm.solve P k s0).z) Filter.atTop (nhds 0) ∧
    Filter.Tendsto (fun k => f (Admm.solve P k s0).x + g (Admm.solve P k s0).z) Filter.atTop
      (nhds (f xs + g (Spec.affineMap P.D (offsetOf P) xs))) := by
  have hp := hP.rho_pos
  set V0 := lyapunov P.rho zs ys s0 with hV0
  set S : ℕ → State n := fun k => Admm.solve P k s0 with hS
  set R : ℕ → ℝ := fun k => ∑ i, violation P (S k) i ^ 2 with hR
  set M : ℕ → ℝ := fun k => sqDist (S (k + 1)).z (S k).z with hM
  have hR0 : ∀ k, 0 ≤ R k := fun k => Finset.sum_nonneg fun i _ => sq_nonneg _
  have hM0 : ∀ k, 0 ≤ M k := fun k => sqDist_nonneg _ _
  have hsum : Summable fun k => R (k + 2) + M (k + 1) :=
    summable_of_sum_range_le (fun k => add_nonneg (hR0 _) (hM0 _)) (fun N => C64_residual_sum_partial hP hsym hf hg hk s0 N)
  have ht := hsum.tendsto_atTop_zero
  have hR1 : Filter.Tendsto (fun k => R (k + 2)) Filter.atTop (nhds 0) :=
    squeeze_zero (fun k => hR0 _) (fun k => by have := hM0 (k + 1); linarith) ht
  have hM1 : Filter.Tendsto (fun k => M (k + 1)) Filter.atTop (nhds 0) :=
    squeeze_zero (fun k => hM0 _) (fun k => by have := hR0 (k + 2); linarith) ht
  refine ⟨(Filter.tendsto_add_atTop_iff_nat 2).1 hR1, (Filter.tendsto_add_atTop_iff_nat 1).1 hM1, ?_⟩
  -- the objective
  rw [← Filter.tendsto_add_atTop_iff_nat 2, ← hk.feasible]
  set r : ℕ → ℝ := fun k => Real.sqrt (R (k + 2)) with hr
  set d : ℕ → ℝ := fun k => Real.sqrt (M (k + 1)) with hd
  have hr1 : Filter.Tendsto r Filter.atTop (nhds 0) := by
    have := (Real.continuous_sqrt.tendsto 0).comp hR1
    rw [Real.sqrt_zero] at this
    exact this
  have hd1 : Filter.Tendsto d Filter.atTop (nhds 0) := by
    have := (Real.continuous_sqrt.tendsto 0).comp hM1
    rw [Real.sqrt_zero] at this
    exact this
  set Y := Real.sqrt (P.rho * V0) with hY
  set W := Real.sqrt (V0 / P.rho) with hW
  set ny := Real.sqrt (∑ i, ys i ^ 2) with hny
  have hyb : ∀ k, Real.sqrt (sqDist (S k).y ys) ≤ Y := by
    intro k
    have h1 : lyapunov P.rho zs ys (S k) ≤ V0 := lyapunov_le hP hsym hf hg hk s0 k
    have h2 : 0 ≤ P.rho * sqDist (S k).z zs := mul_nonneg hp.le (sqDist_nonneg _ _)
    refine Real.sqrt_le_sqrt ?_
    have h3 : 1 / P.rho * sqDist (S k).y ys ≤ V0 := by unfold lyapunov at h1; linarith
    have h4 := mul_le_mul_of_nonneg_left h3 hp.le
    have e : P.rho * (1 / P.rho * sqDist (S k).y ys) = sqDist (S k).y ys := by field_simp
    linarith
  have hzb : ∀ k, Real.sqrt (sqDist (S k).z zs) ≤ W := by
    intro k
    have h1 : lyapunov P.rho zs ys (S k) ≤ V0 := lyapunov_le hP hsym hf hg hk s0 k
    have h2 : 0 ≤ 1 / P.rho * sqDist (S k).y ys := mul_nonneg (by positivity) (sqDist_nonneg _ _)
    refine Real.sqrt_le_sqrt ?_
    rw [le_div_iff₀ hp]
    unfold lyapunov at h1
    linarith
  have hbound : ∀ k, |f (S (k + 2)).x + g (S (k + 2)).z - (f xs + g zs)| ≤ (ny + Y) * r k + P.rho * (d k * (W + r k)) := by
    intro k
    have e2 : S (k + 2) = step P (S (k + 1)) := solve_succ _ _ _
    obtain ⟨a1, a2⟩ := step_objective hP hsym hf hg hk (S (k + 1))
    rw [← e2] at a1 a2
    have b1 : |dot ys (violation P (S (k + 2)))| ≤ ny * r k := sq_dot_le _ _
    have b2 : |dot (fun i => (S (k + 2)).y i - ys i) (violation P (S (k + 2)))| ≤ Y * r k :=
      le_trans (sq_dot_le _ _) (mul_le_mul_of_nonneg_right (hyb (k + 2)) (Real.sqrt_nonneg _))
    have b3 : |dot (fun i => (S (k + 2)).z i - (S (k + 1)).z i) (fun i => zs i - (S (k + 2)).z i)| ≤ d k * W := by
      refine le_trans (sq_dot_le _ _) (mul_le_mul_of_nonneg_left ?_ (Real.sqrt_nonneg _))
      have := hzb (k + 2)
      rw [sqDist_comm] at this
      exact this
    have b4 : |dot (fun i => (S (k + 2)).z i - (S (k + 1)).z i) (violation P (S (k + 2)))| ≤ d k * r k := sq_dot_le _ _
    have e3 : dot (fun i => (S (k + 2)).y i - ys i) (violation P (S (k + 2))) =
        dot (S (k + 2)).y (violation P (S (k + 2))) - dot ys (violation P (S (k + 2))) := dot_sub_left _ _ _
    have e4 : dot (fun i => (S (k + 2)).z i - (S (k + 1)).z i) (fun i => zs i - (S (k + 2)).z i - violation P (S (k + 2)) i) =
        dot (fun i => (S (k + 2)).z i - (S (k + 1)).z i) (fun i => zs i - (S (k + 2)).z i) -
        dot (fun i => (S (k + 2)).z i - (S (k + 1)).z i) (violation P (S (k + 2))) := by
      unfold dot
      rw [← Finset.sum_sub_distrib]
      exact Finset.sum_congr rfl fun i _ => by ring
    rw [e4] at a2
    have hr0 : 0 ≤ r k := Real.sqrt_nonneg _
    have hY0 : 0 ≤ Y := Real.sqrt_nonneg _
    have hd0 : 0 ≤ d k := Real.sqrt_nonneg _
    have hW0 : 0 ≤ W := Real.sqrt_nonneg _
    have c1 := abs_le.1 b1
    have c2 := abs_le.1 b2
    have c3 := abs_le.1 b3
    have c4 := abs_le.1 b4
    rw [abs_le]
    constructor
    · have : 0 ≤ Y * r k := mul_nonneg hY0 hr0
      have h5 : 0 ≤ P.rho * (d k * (W + r k)) := by positivity
      linarith [c1.2, a1]
    · have h6 : P.rho * (dot (fun i => (S (k + 2)).z i - (S (k + 1)).z i) (fun i => zs i - (S (k + 2)).z i) -
        dot (fun i => (S (k + 2)).z i - (S (k + 1)).z i) (violation P (S (k + 2)))) ≤ P.rho * (d k * (W + r k)) := by
        refine mul_le_mul_of_nonneg_left ?_ hp.le
        linarith [c3.2, c4.1]
      linarith [c1.1, c2.1]
  have hlim : Filter.Tendsto (fun k => (ny + Y) * r k + P.rho * (d k * (W + r k))) Filter.atTop (nhds 0) := by
    have h1 := hr1.const_mul (ny + Y)
    have h2 := (hd1.mul (hr1.const_add W)).const_mul P.rho
    have := h1.add h2
    simpa using this
  have h0 := squeeze_zero_norm (fun k => by rw [Real.norm_eq_abs]; exact hbound k) hlim
  have := h0.add_const (f xs + g zs)
  simpa using this

/-! ## Concrete problems with two variables -/

private lemma dd2 {D : Fin 2 → Fin 2 → ℝ} (hD : D = ![![0, 1], ![1, 0]] ∨ D = ![![0, -1], ![1, 0]]) (x : Fin 2 → ℝ) :
    ∑ i, (∑ j, D i j * x j) ^ 2 = x 0 ^ 2 + x 1 ^ 2 := by
  rcases hD with rfl | rfl <;> simp [Fin.sum_univ_two] <;> ring

/-- the exact solvers for `½‖x - b‖² + λ‖D x + a‖_1` when `DᵀD` is the identity -/
private noncomputable def toyAdmm (D : Fin 2 → Fin 2 → ℝ) (a : Option (Fin 2 → ℝ)) (b : Fin 2 → ℝ) (lam rho : ℝ) : Problem 2 :=
  { D := D, offset := a, rho := rho
    solveLoss := fun l i => (b i - l i) / (1 + rho)
    proximal := fun q i => softThr ((q.center.elim 0 fun c => c.get i) - (q.linear.elim 0 fun l => l.get i) / q.coef) (lam / q.coef) }

private lemma toyAdmm_isAdmm {D : Fin 2 → Fin 2 → ℝ} (hD : D = ![![0, 1], ![1, 0]] ∨ D = ![![0, -1], ![1, 0]])
    (a : Option (Fin 2 → ℝ)) (b : Fin 2 → ℝ) {lam rho : ℝ} (hl : 0 ≤ lam) (hr : 0 < rho) :
    IsAdmm (toyAdmm D a b lam rho) (lsqLoss b) (fun z => lam * ∑ i, |z i|) Set.univ := by
  refine ⟨hr, fun l => ⟨Set.mem_univ _, fun u _ => ?_⟩, fun c l => ?_⟩
  · have e : (toyAdmm D a b lam rho).D = D := rfl
    have e' : (toyAdmm D a b lam rho).rho = rho := rfl
    simp only [e, e', dd2 hD]
    have hs : (toyAdmm D a b lam rho).solveLoss l = fun i => (b i - l i) / (1 + rho) := rfl
    rw [hs]
    unfold lsqLoss dot
    simp only [Fin.sum_univ_two]
    have h1 : 0 < 1 + rho := by linarith
    set p := (b 0 - l 0) / (1 + rho) with hp
    set q := (b 1 - l 1) / (1 + rho) with hq
    have ep : b 0 = (1 + rho) * p + l 0 := by rw [hp]; field_simp; ring
    have eq : b 1 = (1 + rho) * q + l 1 := by rw [hq]; field_simp; ring
    rw [ep, eq]
    nlinarith [mul_nonneg h1.le (sq_nonneg (u 0 - p)), mul_nonneg h1.le (sq_nonneg (u 1 - q))]
  · have e' : (toyAdmm D a b lam rho).rho = rho := rfl
    rw [e']
    set m : Fin 2 → ℝ := fun i => c i - l i / rho with hm
    set p : Fin 2 → ℝ := fun i => softThr (m i) (lam / rho) with hp
    have hprox : IsProx rho (fun z : Fin 2 → ℝ => ∑ i, lam * |z i|) m p := by
      refine isProx_of_coord hr (h := fun _ t => lam * |t|) fun i z => ?_
      have hc : 0 ≤ lam / rho := div_nonneg hl hr.le
      have e1 : (m i - p i) * p i = lam / rho * |p i| := softThr_mul (m i) hc
      have e2 := softThr_resid (m i) hc
      have e3 : (m i - p i) * z ≤ lam / rho * |z| := by
        refine le_trans (le_abs_self _) ?_
        rw [abs_mul]
        exact mul_le_mul_of_nonneg_right e2 (abs_nonneg _)
      have e5 : rho * ((m i - p i) * (z - p i)) ≤ rho * (lam / rho * |z| - lam / rho * |p i|) := by
        refine mul_le_mul_of_nonneg_left ?_ hr.le
        linarith
      have e6 : rho * (lam / rho * |z| - lam / rho * |p i|) = lam * |z| - lam * |p i| := by field_simp
      rw [e6] at e5
      linarith
    have hcomp : ∀ u : Fin 2 → ℝ, lam * ∑ i, |u i| + (rho / 2 * sqDist u c + dot l u) =
        (rho / 2 * sqDist u m + ∑ i, lam * |u i|) + ∑ i, (rho / 2 * c i ^ 2 - rho / 2 * m i ^ 2) := by
      intro u
      unfold sqDist dot
      rw [Finset.mul_sum, Finset.mul_sum, Finset.mul_sum, ← Finset.sum_add_distrib, ← Finset.sum_add_distrib,
        ← Finset.sum_add_distrib, ← Finset.sum_add_distrib]
      refine Finset.sum_congr rfl fun i _ => ?_
      have e : l i = rho * (c i - m i) := by simp only [hm]; field_simp; ring
      rw [e]; ring
    refine ⟨Set.mem_univ _, fun u _ hne => ?_⟩
    have h2 := hprox.2 u (Set.mem_univ _) hne
    have h3 := hcomp u
    have h4 := hcomp p
    show lam * ∑ i, |p i| + (rho / 2 * sqDist p c + dot l p) < lam * ∑ i, |u i| + (rho / 2 * sqDist u c + dot l u)
    rw [h3, h4]
    simp only at h2
    linarith

/-- concrete case: `½‖x‖² + |x₂ + 3| + |x₁ - 4|`, a symmetric `D` that is not diagonal and a nonzero offset, meets all hypotheses: exact
solvers, convexity, and a solution `(1, -1)` with multiplier `(1, -1)`. -/
example : ∃ P : Problem 2, IsAdmm P (lsqLoss fun _ => 0) (fun z => 1 * ∑ i, |z i|) Set.univ ∧ (∀ i j, P.D i j = P.D j i) ∧
    IsConvexFnOn (lsqLoss (fun _ : Fin 2 => 0)) Set.univ ∧ IsConvexFnOn (fun z : Fin 2 → ℝ => 1 * ∑ i, |z i|) Set.univ ∧
    IsLagrangePoint (lsqLoss fun _ => 0) (fun z => 1 * ∑ i, |z i|) Set.univ P.D (offsetOf P) ![1, -1] ![2, -3] ![1, -1] := by
  refine ⟨toyAdmm ![![0, 1], ![1, 0]] (some ![3, -4]) (fun _ => 0) 1 (1 / 2), toyAdmm_isAdmm (Or.inl rfl) _ _ (by norm_num) (by norm_num),
    ?_, ?_, l1_convexOn 1 (by norm_num), ?_⟩
  · intro i j
    fin_cases i <;> fin_cases j <;> simp [toyAdmm]
  · intro x _ y _ s t hs ht hst
    exact ⟨Set.mem_univ _, (lsqLoss_convex _).convex x y s t hs ht hst⟩
  · have ha : ∀ x, Spec.affineMap (toyAdmm ![![0, 1], ![1, 0]] (some ![3, -4]) (fun _ => 0) 1 (1 / 2)).D
        (offsetOf (toyAdmm ![![0, 1], ![1, 0]] (some ![3, -4]) (fun _ => 0) 1 (1 / 2))) x = ![x 1 + 3, x 0 - 4] := by
      intro x
      funext i
      fin_cases i <;> simp [Spec.affineMap, toyAdmm, offsetOf, Fin.sum_univ_two] <;> ring
    refine ⟨Set.mem_univ _, ?_, fun x z _ => ?_⟩
    · rw [ha]
      funext i
      fin_cases i <;> norm_num
    · rw [ha]
      simp only [lsqLoss, dot, Fin.sum_univ_two]
      have h1 := le_abs_self (z 0)
      have h2 := neg_abs_le (z 1)
      simp
      nlinarith [sq_nonneg (x 0 - 1), sq_nonneg (x 1 + 1)]

/-- Counterexample: for a transform that is not symmetric the method does not converge to a solution.  For the loss `½‖x - (1,0)‖²`, a zero
penalty and `D` the rotation by a right angle, started at zero with `ρ = 1` and exact inner solvers, the first coordinate of `loss_coefs` is
at most `1/2` after any number of passes, and the objective stays `1/8` above the optimum, which is at `(1, 0)`. -/
theorem C64_nonsymmetric_fails :
    ∃ (P : Problem 2) (f g : (Fin 2 → ℝ) → ℝ), IsAdmm P f g Set.univ ∧ IsConvexFnOn f Set.univ ∧ IsConvexFnOn g Set.univ ∧
      IsLagrangePoint f g Set.univ P.D (offsetOf P) ![1, 0] ![0, 1] (fun _ => 0) ∧
      ∀ niter, (Admm.solve P niter (init fun _ => 0)).x 0 ≤ 1 / 2 ∧
        f ![1, 0] + g (Spec.affineMap P.D (offsetOf P) ![1, 0]) + 1 / 8 ≤
          f (Admm.solve P niter (init fun _ => 0)).x + g (Spec.affineMap P.D (offsetOf P) (Admm.solve P niter (init fun _ => 0)).x) := by
  set P := toyAdmm ![![0, -1], ![1, 0]] none ![1, 0] 0 1 with hPdef
  have ha : ∀ x, Spec.affineMap P.D (offsetOf P) x = ![-x 1, x 0] := by
    intro x
    funext i
    fin_cases i <;> simp [Spec.affineMap, hPdef, toyAdmm, offsetOf, Fin.sum_univ_two]
  have hinv : ∀ niter, (Admm.solve P niter (init fun _ => 0)).y = (fun _ => 0) ∧
      (Admm.solve P niter (init fun _ => 0)).z = ![-(Admm.solve P niter (init fun _ => 0)).x 1, (Admm.solve P niter (init fun _ => 0)).x 0] ∧
      0 ≤ (Admm.solve P niter (init fun _ => 0)).x 0 ∧ (Admm.solve P niter (init fun _ => 0)).x 0 ≤ 1 / 2 := by
    intro k
    induction k with
    | zero =>
      refine ⟨rfl, ?_, le_rfl, by simp [Admm.solve, init]⟩
      funext i
      fin_cases i <;> simp [Admm.solve, init]
    | succ k ih =>
      rw [solve_succ]
      obtain ⟨h1, h2, h3, h4⟩ := ih
      set s := Admm.solve P k (init fun _ => 0) with hs
      have hx0 : (step P s).x 0 = (1 - s.x 0) / 2 := by
        have : (step P s).x 0 = ((![1, 0] : Fin 2 → ℝ) 0 - linearMap P (fun i => s.y i - P.rho * (s.z i - P.offset.getD (fun _ => 0) i)) 0) / (1 + P.rho) := rfl
        rw [this, h1, h2]
        simp [linearMap, hPdef, toyAdmm, Fin.sum_univ_two]
        norm_num
      have hz : (step P s).z = ![-(step P s).x 1, (step P s).x 0] := by
        have : (step P s).z = fun i => softThr (Admm.affineMap P (step P s).x i - (-s.y i) / 1) (0 / 1) := rfl
        rw [this, affine_eq, ha, h1]
        funext i
        have h0 := fun t : ℝ => softThr_resid t (le_refl (0 : ℝ))
        have h0' : ∀ t : ℝ, softThr t 0 = t := by
          intro t
          have := h0 t
          have := abs_eq_zero.1 (le_antisymm this (abs_nonneg _))
          linarith
        simp [h0']
      refine ⟨?_, hz, ?_, ?_⟩
      · funext i
        have : (step P s).y i = s.y i + P.rho * (Admm.affineMap P (step P s).x i - (step P s).z i) := rfl
        rw [this, affine_eq, ha, hz, h1]
        simp
      · rw [hx0]; linarith
      · rw [hx0]; linarith
  refine ⟨P, lsqLoss ![1, 0], fun z => 0 * ∑ i, |z i|, toyAdmm_isAdmm (Or.inr rfl) _ _ le_rfl one_pos, ?_, l1_convexOn 0 le_rfl, ?_, ?_⟩
  · intro x _ y _ s t hs ht hst
    exact ⟨Set.mem_univ _, (lsqLoss_convex _).convex x y s t hs ht hst⟩
  · refine ⟨Set.mem_univ _, ?_, fun x z _ => ?_⟩
    · rw [ha]; funext i; fin_cases i <;> simp
    · simp only [lsqLoss, dot, Fin.sum_univ_two]
      simp
      nlinarith [sq_nonneg (x 0 - 1), sq_nonneg (x 1)]
  · intro k
    obtain ⟨_, _, h3, h4⟩ := hinv k
    refine ⟨h4, ?_⟩
    simp only [lsqLoss, Fin.sum_univ_two, zero_mul, add_zero]
    simp
    nlinarith [sq_nonneg ((Admm.solve P k (init fun _ => 0)).x 1)]

end Verif.Props
