import Mathlib.Analysis.Calculus.MeanValue
import Mathlib.Analysis.Calculus.Deriv.Pow
import Mathlib.Analysis.Calculus.Deriv.MeanValue
import Mathlib.MeasureTheory.Integral.IntervalIntegral.FundThmCalculus
import Mathlib.Analysis.Calculus.ContDiff.RCLike
import Mathlib.Topology.Algebra.MetricSpace.Lipschitz

/-!
# A convex function on an interval extends to a convex function with bounded curvature
-/

namespace Verif.Lemmas

lemma tangent_of_mono {f f' : ℝ → ℝ} (hd : ∀ t, HasDerivAt f (f' t) t) (hm : Monotone f') (x y : ℝ) :
    f x + f' x * (y - x) ≤ f y := by
  rcases lt_trichotomy x y with h | h | h
  · obtain ⟨c, hc, e⟩ := exists_hasDerivAt_eq_slope f f' h (fun t _ => (hd t).continuousAt.continuousWithinAt) fun t _ => hd t
    rw [eq_div_iff (by linarith)] at e
    have := mul_le_mul_of_nonneg_right (hm hc.1.le) (by linarith : 0 ≤ y - x)
    linarith
  · subst h; simp
  · obtain ⟨c, hc, e⟩ := exists_hasDerivAt_eq_slope f f' h (fun t _ => (hd t).continuousAt.continuousWithinAt) fun t _ => hd t
    rw [eq_div_iff (by linarith)] at e
    have := mul_le_mul_of_nonneg_right (hm hc.2.le) (by linarith : 0 ≤ x - y)
    linarith

lemma mono_of_tangent {f f' : ℝ → ℝ} (h : ∀ x y, f x + f' x * (y - x) ≤ f y) : Monotone f' := by
  intro x y hxy
  rcases hxy.eq_or_lt with e | hlt
  · rw [e]
  · have h1 := h x y
    have h2 := h y x
    by_contra hc
    push Not at hc
    nlinarith

private noncomputable def clampB (B t : ℝ) : ℝ := max (-B) (min t B)

private lemma clampB_mem {B : ℝ} (hB : 0 ≤ B) (t : ℝ) : |clampB B t| ≤ B := by
  unfold clampB
  rw [abs_le]
  exact ⟨le_max_left _ _, max_le (by linarith) (min_le_right _ _)⟩

private lemma clampB_eq {B t : ℝ} (h : |t| ≤ B) : clampB B t = t := by
  rw [abs_le] at h
  unfold clampB
  rw [min_eq_left h.2, max_eq_right h.1]

private lemma clampB_mono (B : ℝ) : Monotone (clampB B) := fun _ _ h => max_le_max_left _ (min_le_min_right _ h)

private lemma clampB_lip (B x y : ℝ) : |clampB B x - clampB B y| ≤ |x - y| := by
  unfold clampB
  refine (abs_max_sub_max_le_max _ _ _ _).trans ?_
  rw [sub_self, abs_zero]
  refine max_le (abs_nonneg _) ?_
  refine (abs_min_sub_min_le_max _ _ _ _).trans ?_
  rw [sub_self, abs_zero]
  exact max_le le_rfl (abs_nonneg _)

lemma scalar_extension {φ ψ : ℝ → ℝ} {B κ : ℝ} (hB : 0 ≤ B) (hd : ∀ t, HasDerivAt φ (ψ t) t) (hm : Monotone ψ)
    (hκ : ∀ x y, |x| ≤ B → |y| ≤ B → |ψ x - ψ y| ≤ κ * |x - y|) :
    ∃ φ' ψ' : ℝ → ℝ, (∀ t, HasDerivAt φ' (ψ' t) t) ∧ Monotone ψ' ∧
      (∀ x y, φ' y ≤ φ' x + ψ' x * (y - x) + max κ 0 / 2 * (y - x) ^ 2) ∧ ∀ t, |t| ≤ B → φ' t = φ t ∧ ψ' t = ψ t := by
  have hlip : ∀ x y, |ψ (clampB B x) - ψ (clampB B y)| ≤ max κ 0 * |x - y| := by
    intro x y
    refine (hκ _ _ (clampB_mem hB x) (clampB_mem hB y)).trans ?_
    refine (mul_le_mul_of_nonneg_right (le_max_left κ 0) (abs_nonneg _)).trans ?_
    exact mul_le_mul_of_nonneg_left (clampB_lip B x y) (le_max_right _ _)
  have hcont : Continuous fun t => ψ (clampB B t) := by
    refine (LipschitzWith.of_dist_le_mul (K := Real.toNNReal (max κ 0)) fun x y => ?_).continuous
    rw [Real.dist_eq, Real.dist_eq, Real.coe_toNNReal _ (le_max_right _ _)]
    exact hlip x y
  let φ' : ℝ → ℝ := fun x => φ 0 + ∫ t in (0:ℝ)..x, ψ (clampB B t)
  have hder : ∀ t, HasDerivAt φ' (ψ (clampB B t)) t := fun t =>
    (hcont.integral_hasStrictDerivAt 0 t).hasDerivAt.const_add (φ 0)
  have hmono : Monotone fun t => ψ (clampB B t) := fun x y h => hm (clampB_mono B h)
  refine ⟨φ', _, hder, hmono, fun x y => ?_, fun t ht => ⟨?_, by simp only [clampB_eq ht]⟩⟩
  · have h2 := tangent_of_mono (f := fun t => max κ 0 / 2 * t ^ 2 - φ' t) (f' := fun t => max κ 0 * t - ψ (clampB B t))
      (fun t => by
        refine (((hasDerivAt_pow 2 t).const_mul (max κ 0 / 2)).sub (hder t)).congr_deriv ?_
        push_cast; ring) (fun a b hab => by
        have := (abs_le.1 (hlip b a)).2
        rw [abs_of_nonneg (by linarith : 0 ≤ b - a)] at this
        dsimp only
        linarith) x y
    nlinarith
  · show φ 0 + ∫ s in (0:ℝ)..t, ψ (clampB B s) = φ t
    have hin : ∀ s ∈ Set.uIcc 0 t, |s| ≤ B := by
      intro s hs
      rw [abs_le] at ht ⊢
      rcases le_total 0 t with h | h
      · rw [Set.uIcc_of_le h] at hs; exact ⟨by linarith [hs.1], hs.2.trans ht.2⟩
      · rw [Set.uIcc_of_ge h] at hs; exact ⟨ht.1.trans hs.1, by linarith [hs.2]⟩
    have := intervalIntegral.integral_eq_sub_of_hasDerivAt (a := 0) (b := t) (f := φ) (f' := fun s => ψ (clampB B s))
      (fun s hs => by rw [clampB_eq (hin s hs)]; exact hd s) (hcont.intervalIntegrable _ _)
    rw [this]; ring

/-- a continuously differentiable function is Lipschitz on a bounded interval -/
lemma lip_of_contDiff {ψ : ℝ → ℝ} (h : ContDiff ℝ 1 ψ) (B : ℝ) :
    ∃ κ, 0 ≤ κ ∧ ∀ x y, |x| ≤ B → |y| ≤ B → |ψ x - ψ y| ≤ κ * |x - y| := by
  obtain ⟨K, hK⟩ := h.locallyLipschitz.locallyLipschitzOn (s := Set.Icc (-B) B) |>.exists_lipschitzOnWith_of_compact isCompact_Icc
  refine ⟨K, K.2, fun x y hx hy => ?_⟩
  have := hK.dist_le_mul x (abs_le.1 hx) y (abs_le.1 hy)
  rwa [Real.dist_eq, Real.dist_eq] at this

end Verif.Lemmas
