import Verif.Spec.Composite
import Verif.Lemmas.Smooth
import Verif.Lemmas.Prox
import Mathlib.Analysis.Calculus.Deriv.Pow
import Mathlib.Analysis.Calculus.Deriv.Add
import Mathlib.Analysis.Calculus.Deriv.Mul

set_option linter.unusedSectionVars false
set_option linter.unusedVariables false

/-! # Least squares as a concrete convex smooth loss, the l1 norm as a concrete convex penalty -/

namespace Verif.Lemmas
open Verif.Spec

variable {n : ℕ}

/-- least squares `½‖x - y‖²` -/
noncomputable def lsqLoss (y x : Fin n → ℝ) : ℝ := ∑ i, (x i - y i) ^ 2 / 2

lemma lsqLoss_taylor (y x z : Fin n → ℝ) :
    lsqLoss y z = lsqLoss y x + dot (fun i => x i - y i) (fun i => z i - x i) + 1 / 2 * sqDist z x := by
  unfold lsqLoss dot sqDist
  rw [Finset.mul_sum, ← Finset.sum_add_distrib, ← Finset.sum_add_distrib]
  exact Finset.sum_congr rfl fun i _ => by ring

lemma lsqLoss_convex (y : Fin n → ℝ) : ConvexWithGradient (lsqLoss y) (fun x i => x i - y i) := by
  constructor
  · intro x z a b ha hb hab
    unfold lsqLoss
    rw [Finset.mul_sum, Finset.mul_sum, ← Finset.sum_add_distrib]
    refine Finset.sum_le_sum fun i _ => ?_
    have hb' : b = 1 - a := by linarith
    subst hb'
    nlinarith [mul_nonneg ha hb, sq_nonneg (x i - z i), mul_nonneg (mul_nonneg ha hb) (sq_nonneg (x i - z i))]
  · intro x
    refine isGradientAt_sum (fun i t => (t - y i) ^ 2 / 2) _ x fun i => ?_
    have := (((hasDerivAt_id (x i)).sub_const (y i)).pow 2).div_const 2
    have e : ((2:ℕ) : ℝ) * (id (x i) - y i) ^ (2 - 1) * 1 / 2 = x i - y i := by simp
    rw [e] at this
    exact this

lemma lsqLoss_upper (y x z : Fin n → ℝ) {L : ℝ} (hL : 1 ≤ L) :
    QuadraticUpperBound (lsqLoss y) (fun i => x i - y i) L x z := by
  unfold QuadraticUpperBound
  rw [lsqLoss_taylor y x z]
  have := mul_le_mul_of_nonneg_right hL (sqDist_nonneg z x)
  linarith

lemma l1_convexOn (lam : ℝ) (hl : 0 ≤ lam) : IsConvexFnOn (fun x : Fin n → ℝ => lam * ∑ i, |x i|) Set.univ :=
  fun x _ z _ a b ha hb hab => ⟨Set.mem_univ _, by
    have : ∑ i, |a * x i + b * z i| ≤ a * ∑ i, |x i| + b * ∑ i, |z i| := by
      rw [Finset.mul_sum, Finset.mul_sum, ← Finset.sum_add_distrib]
      refine Finset.sum_le_sum fun i _ => le_trans (abs_add_le _ _) ?_
      rw [abs_mul, abs_mul, abs_of_nonneg ha, abs_of_nonneg hb]
    calc lam * ∑ i, |a * x i + b * z i| ≤ lam * (a * ∑ i, |x i| + b * ∑ i, |z i|) := mul_le_mul_of_nonneg_left this hl
      _ = _ := by ring⟩

end Verif.Lemmas
