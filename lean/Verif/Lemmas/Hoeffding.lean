import Mathlib.Probability.Moments.SubGaussian
import Mathlib.MeasureTheory.Integral.Bochner.Set

/-!
# Hoeffding's lemma for a finite weighted sum, and the quadratic upper bound of log-sum-exp
-/

namespace Verif.Lemmas
open MeasureTheory ProbabilityTheory

lemma hoeffding_sum {n : ℕ} (p h : Fin n → ℝ) (hp : ∀ i, 0 ≤ p i) (hs : ∑ i, p i = 1) {B : ℝ} (hB : ∀ i, |h i| ≤ B) :
    ∑ i, p i * Real.exp (h i) ≤ Real.exp (∑ i, p i * h i + B ^ 2 / 2) := by
  letI : MeasurableSpace (Fin n) := ⊤
  let μ : Measure (Fin n) := ∑ i, ENNReal.ofReal (p i) • Measure.dirac i
  have hint : ∀ f : Fin n → ℝ, ∫ x, f x ∂μ = ∑ i, p i * f i := by
    intro f
    rw [integral_finset_sum_measure fun i _ => (Integrable.of_finite).smul_measure ENNReal.ofReal_ne_top]
    refine Finset.sum_congr rfl fun i _ => ?_
    rw [integral_smul_measure, integral_dirac, ENNReal.toReal_ofReal (hp i), smul_eq_mul]
  haveI : IsProbabilityMeasure μ := by
    refine ⟨?_⟩
    simp only [μ, Measure.finset_sum_apply, Measure.smul_apply, measure_univ, smul_eq_mul, mul_one]
    rw [← ENNReal.ofReal_sum_of_nonneg fun i _ => hp i, hs, ENNReal.ofReal_one]
  have hH := hasSubgaussianMGF_of_mem_Icc (μ := μ) (X := h) (a := -B) (b := B) (measurable_of_finite h).aemeasurable
    (Filter.Eventually.of_forall fun i => abs_le.1 (hB i))
  have h1 := hH.mgf_le 1
  unfold mgf at h1
  rw [hint] at h1
  simp only [hint, one_mul] at h1
  have e : ∀ i, p i * Real.exp (h i - ∑ i, p i * h i) = (p i * Real.exp (h i)) * (Real.exp (∑ i, p i * h i))⁻¹ := by
    intro i; rw [Real.exp_sub]; ring
  simp only [e] at h1
  rw [← Finset.sum_mul, mul_inv_le_iff₀ (Real.exp_pos _), ← Real.exp_add] at h1
  refine h1.trans (Real.exp_le_exp.2 ?_)
  have hb : (((‖B - -B‖₊ / 2) ^ 2 : NNReal) : ℝ) = B ^ 2 := by
    push_cast
    rw [Real.norm_eq_abs, show B - -B = 2 * B by ring, abs_mul, abs_two, mul_div_cancel_left₀ _ two_ne_zero, sq_abs]
  rw [hb]
  linarith

/-- log-sum-exp lies below its tangent plus `B²/2` when no argument moves by more than `B` -/
lemma logsumexp_upper {n : ℕ} (s : Finset (Fin n)) (w η ζ : Fin n → ℝ) (hw : ∀ j, 0 ≤ w j)
    (hpos : 0 < ∑ j ∈ s, w j * Real.exp (η j)) {B : ℝ} (hB0 : 0 ≤ B) (hB : ∀ j ∈ s, |ζ j - η j| ≤ B) :
    Real.log (∑ j ∈ s, w j * Real.exp (ζ j)) ≤ Real.log (∑ j ∈ s, w j * Real.exp (η j)) +
      (∑ j ∈ s, w j * Real.exp (η j) / (∑ j ∈ s, w j * Real.exp (η j)) * (ζ j - η j)) + B ^ 2 / 2 := by
  set R := ∑ j ∈ s, w j * Real.exp (η j) with hR
  classical
  have hh := hoeffding_sum (fun j => if j ∈ s then w j * Real.exp (η j) / R else 0) (fun j => if j ∈ s then ζ j - η j else 0)
    (fun j => by
      split_ifs
      · exact div_nonneg (mul_nonneg (hw j) (Real.exp_pos _).le) hpos.le
      · exact le_rfl) (by
      rw [Finset.sum_ite_mem, Finset.univ_inter, ← Finset.sum_div, div_self hpos.ne'])
    (B := B) (fun j => by
      split_ifs with hj
      · exact hB j hj
      · simpa using hB0)
  have e1 : ∑ j, (if j ∈ s then w j * Real.exp (η j) / R else 0) * Real.exp (if j ∈ s then ζ j - η j else 0) =
      (∑ j ∈ s, w j * Real.exp (ζ j)) / R := by
    rw [Finset.sum_div, ← Finset.univ_inter s, ← Finset.sum_ite_mem]
    refine Finset.sum_congr rfl fun j _ => ?_
    rw [Finset.univ_inter]
    split_ifs
    · rw [Real.exp_sub]
      have := (Real.exp_pos (η j)).ne'
      field_simp
    · simp
  have e2 : ∑ j, (if j ∈ s then w j * Real.exp (η j) / R else 0) * (if j ∈ s then ζ j - η j else 0) =
      ∑ j ∈ s, w j * Real.exp (η j) / R * (ζ j - η j) := by
    rw [← Finset.univ_inter s, ← Finset.sum_ite_mem]
    refine Finset.sum_congr rfl fun j _ => ?_
    rw [Finset.univ_inter]
    split_ifs
    · rfl
    · simp
  rw [e1, e2] at hh
  have hpos2 : 0 < ∑ j ∈ s, w j * Real.exp (ζ j) := by
    by_contra hc
    have h0 : ∑ j ∈ s, w j * Real.exp (ζ j) = 0 :=
      le_antisymm (not_lt.1 hc) (Finset.sum_nonneg fun j _ => mul_nonneg (hw j) (Real.exp_pos _).le)
    have hz := (Finset.sum_eq_zero_iff_of_nonneg fun j _ => mul_nonneg (hw j) (Real.exp_pos (ζ j)).le).1 h0
    apply hpos.ne'
    rw [hR]
    refine Finset.sum_eq_zero fun j hj => ?_
    rcases mul_eq_zero.1 (hz j hj) with h | h
    · rw [h, zero_mul]
    · exact absurd h (Real.exp_pos _).ne'
  have h3 := Real.log_le_log (div_pos hpos2 hpos) hh
  rw [Real.log_exp, Real.log_div hpos2.ne' hpos.ne'] at h3
  linarith

end Verif.Lemmas
