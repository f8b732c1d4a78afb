import Verif.Model.Smooth
import Verif.Props.C24_Affine
import Mathlib.Analysis.Calculus.FDeriv.Add
import Mathlib.Analysis.Calculus.FDeriv.Mul
import Mathlib.Analysis.Calculus.FDeriv.Comp
import Mathlib.Analysis.Calculus.Deriv.Comp
import Mathlib.Analysis.Calculus.Deriv.Pow
import Mathlib.Topology.Algebra.Module.FiniteDimension
import Mathlib.Analysis.Normed.Module.FiniteDimension

/-! # Helper lemmas on gradients of coordinate functions -/

set_option linter.unusedSectionVars false
set_option linter.unusedVariables false

namespace Verif.Lemmas
open Verif.Model Verif.Spec

variable {n : ℕ}

lemma scaleR_eq (c v : ℝ) : Smooth.scaleR c v = c * v := by
  unfold Smooth.scaleR; split_ifs with h
  · ring
  · simp only [ne_eq, not_not] at h; simp [h]

lemma scaleV_eq (c : ℝ) (v : Fin n → ℝ) : Smooth.scaleV c v = fun i => c * v i := by
  unfold Smooth.scaleV; split_ifs with h
  · funext i; ring
  · simp only [ne_eq, not_not] at h; simp [h]

/-- A separable function. -/
lemma isGradientAt_sum (φ : Fin n → ℝ → ℝ) (d : Fin n → ℝ) (x : Fin n → ℝ)
    (h : ∀ i, HasDerivAt (φ i) (d i) (x i)) : IsGradientAt (fun y => ∑ i, φ i (y i)) d x := by
  unfold IsGradientAt
  refine HasFDerivAt.fun_sum fun i _ => ?_
  have h1 : HasFDerivAt (fun y : Fin n → ℝ => y i) (ContinuousLinearMap.proj i : (Fin n → ℝ) →L[ℝ] ℝ) x :=
    hasFDerivAt_apply i x
  exact (h i).comp_hasFDerivAt x h1

lemma grad_congr {f f' : (Fin n → ℝ) → ℝ} {g g' x : Fin n → ℝ} (h : IsGradientAt f g x)
    (hf : f' = f) (hg : g' = g) : IsGradientAt f' g' x := by subst hf hg; exact h

lemma grad_smul {f : (Fin n → ℝ) → ℝ} {g x : Fin n → ℝ} (h : IsGradientAt f g x) (c : ℝ) :
    IsGradientAt (fun y => c * f y) (fun i => c * g i) x := by
  unfold IsGradientAt at *
  have := h.const_mul c
  refine this.congr_fderiv ?_
  rw [Finset.smul_sum]
  exact Finset.sum_congr rfl fun i _ => by rw [smul_smul]

lemma grad_add {f f' : (Fin n → ℝ) → ℝ} {g g' x : Fin n → ℝ} (h : IsGradientAt f g x)
    (h' : IsGradientAt f' g' x) : IsGradientAt (fun y => f y + f' y) (fun i => g i + g' i) x := by
  unfold IsGradientAt at *
  have := h.fun_add h'
  refine this.congr_fderiv ?_
  rw [← Finset.sum_add_distrib]
  exact Finset.sum_congr rfl fun i _ => by rw [add_smul]

lemma isGradientAt_const (c : ℝ) (x : Fin n → ℝ) : IsGradientAt (fun _ => c) (fun _ => 0) x := by
  unfold IsGradientAt
  simpa using hasFDerivAt_const c x

/-- composition with a map `y ↦ (∑ⱼ M i j yⱼ) + cᵢ` -/
lemma grad_comp_affine {m : ℕ} {f : (Fin n → ℝ) → ℝ} {g : Fin n → ℝ} (M : Fin n → Fin m → ℝ) (c : Fin n → ℝ)
    (x : Fin m → ℝ) (h : IsGradientAt f g (fun i => ∑ j, M i j * x j + c i)) :
    IsGradientAt (fun y : Fin m → ℝ => f fun i => ∑ j, M i j * y j + c i) (fun j => ∑ i, M i j * g i) x := by
  unfold IsGradientAt at *
  have hA : HasFDerivAt (fun y : Fin m → ℝ => fun i => ∑ j, M i j * y j + c i)
      (ContinuousLinearMap.pi fun i => ∑ j, M i j • (ContinuousLinearMap.proj j : (Fin m → ℝ) →L[ℝ] ℝ)) x := by
    rw [hasFDerivAt_pi]
    intro i
    refine HasFDerivAt.add_const _ ?_
    refine HasFDerivAt.fun_sum fun j _ => ?_
    have h1 : HasFDerivAt (fun y : Fin m → ℝ => y j) (ContinuousLinearMap.proj j : (Fin m → ℝ) →L[ℝ] ℝ) x :=
      hasFDerivAt_apply j x
    exact h1.const_mul _
  have := h.comp x hA
  refine this.congr_fderiv ?_
  ext v
  simp only [ContinuousLinearMap.sum_apply, ContinuousLinearMap.smul_apply, ContinuousLinearMap.proj_apply,
    ContinuousLinearMap.comp_apply, ContinuousLinearMap.pi_apply, smul_eq_mul]
  simp only [Finset.sum_mul, Finset.mul_sum]
  rw [Finset.sum_comm]
  exact Finset.sum_congr rfl fun i _ => Finset.sum_congr rfl fun j _ => by ring

/-- translation -/
lemma grad_comp_offset {f : (Fin n → ℝ) → ℝ} {g : Fin n → ℝ} (o : Option (Fin n → ℝ)) (x : Fin n → ℝ)
    (h : IsGradientAt f g (Smooth.applyOffset o x)) :
    IsGradientAt (fun y => f (Smooth.applyOffset o y)) g x := by
  cases o with
  | none => exact h
  | some o =>
    have e : ∀ y : Fin n → ℝ, Smooth.applyOffset (some o) y = fun i => ∑ j, (if i = j then (1:ℝ) else 0) * y j + -o i := by
      intro y; funext i; simp [Smooth.applyOffset, sub_eq_add_neg]
    have h2 : IsGradientAt f g (fun i => ∑ j, (if i = j then (1:ℝ) else 0) * x j + -o i) := by rw [← e]; exact h
    refine grad_congr (grad_comp_affine _ _ x h2) ?_ ?_
    · funext y; rw [e]
    · funext j; simp

/-- A two sided quadratic bound gives the derivative. -/
lemma hasDerivAt_of_quad {f : ℝ → ℝ} {d x C : ℝ} (h : ∀ y, |f y - f x - d * (y - x)| ≤ C * (y - x) ^ 2) :
    HasDerivAt f d x := by
  rw [hasDerivAt_iff_isLittleO]
  rw [Asymptotics.isLittleO_iff]
  intro c hc
  have hC : 0 < |C| + 1 := by positivity
  have : ∀ᶠ y in nhds x, |y - x| < c / (|C| + 1) := by
    have := Metric.ball_mem_nhds x (div_pos hc hC)
    filter_upwards [this] with y hy
    simpa [Real.dist_eq] using hy
  filter_upwards [this] with y hy
  rw [Real.norm_eq_abs, Real.norm_eq_abs, smul_eq_mul, mul_comm (y - x) d]
  refine (h y).trans ?_
  have h1 : |y - x| * (|C| + 1) ≤ c := by
    rw [lt_div_iff₀ hC] at hy; exact hy.le
  have h2 : C ≤ |C| + 1 := (le_abs_self C).trans (by linarith)
  have h3 : (y - x) ^ 2 = |y - x| * |y - x| := by rw [← sq, sq_abs]
  rw [h3]
  have h0 := abs_nonneg (y - x)
  calc C * (|y - x| * |y - x|) ≤ (|C| + 1) * (|y - x| * |y - x|) :=
        mul_le_mul_of_nonneg_right h2 (mul_nonneg h0 h0)
    _ = |y - x| * (|C| + 1) * |y - x| := by ring
    _ ≤ c * |y - x| := mul_le_mul_of_nonneg_right h1 h0

end Verif.Lemmas
