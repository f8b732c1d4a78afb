import Verif.Model.L2Norm
import Verif.Lemmas.Prox

/-! Euclidean norm facts for `npNorm`. -/

set_option linter.unusedSectionVars false
set_option linter.unusedVariables false

namespace Verif.Lemmas
open Verif.Model Verif.Spec

variable {ι : Type*} [Fintype ι]

lemma npNorm_nonneg (x : ι → ℝ) : 0 ≤ npNorm x := Real.sqrt_nonneg _

lemma sq_npNorm (x : ι → ℝ) : npNorm x ^ 2 = ∑ i, x i ^ 2 :=
  Real.sq_sqrt (Finset.sum_nonneg fun i _ => sq_nonneg _)

lemma npNorm_zero : npNorm (fun _ : ι => (0:ℝ)) = 0 := by simp [npNorm]

lemma npNorm_smul (c : ℝ) (x : ι → ℝ) : npNorm (fun i => c * x i) = |c| * npNorm x := by
  unfold npNorm
  simp only [mul_pow]
  rw [← Finset.mul_sum, Real.sqrt_mul (sq_nonneg c), Real.sqrt_sq_eq_abs]

lemma cauchy (x y : ι → ℝ) : ∑ i, x i * y i ≤ npNorm x * npNorm y := by
  have h := Finset.sum_mul_sq_le_sq_mul_sq Finset.univ x y
  rw [← sq_npNorm x, ← sq_npNorm y, ← mul_pow] at h
  have h0 : 0 ≤ npNorm x * npNorm y := mul_nonneg (npNorm_nonneg x) (npNorm_nonneg y)
  exact le_trans (le_abs_self _) (by
    rw [← Real.sqrt_sq h0, ← Real.sqrt_sq_eq_abs]; exact Real.sqrt_le_sqrt h)

lemma npNorm_eq_zero {x : ι → ℝ} (h : npNorm x = 0) : ∀ i, x i = 0 := by
  have h1 := sq_npNorm x
  rw [h] at h1
  have h2 := (Finset.sum_eq_zero_iff_of_nonneg (fun i _ => sq_nonneg (x i))).1 (by linarith : ∑ i, x i ^ 2 = 0)
  intro i
  have := h2 i (Finset.mem_univ i)
  exact pow_eq_zero_iff (by norm_num) |>.1 this

/-- `bound_prox` of the l2 norm: variational inequality -/
lemma l2_bound_vi (x : ι → ℝ) {b : ℝ} (hb : 0 ≤ b) :
    npNorm (L2.boundProx x b) ≤ b ∧
    ∀ z : ι → ℝ, ∑ i, (x i - L2.boundProx x b i) * (z i - L2.boundProx x b i) ≤
      (npNorm x - npNorm (L2.boundProx x b)) * (npNorm z - b) := by
  unfold L2.boundProx
  simp only
  split_ifs with h
  · exact ⟨h, fun z => by simp⟩
  · push Not at h
    have hn : 0 < npNorm x := lt_of_le_of_lt hb h
    have hc : 0 ≤ b / npNorm x := div_nonneg hb hn.le
    have e : npNorm (fun i => b / npNorm x * x i) = b := by
      rw [npNorm_smul, abs_of_nonneg hc]; field_simp
    refine ⟨e.le, fun z => ?_⟩
    rw [e]
    have h1 : ∑ i, (x i - b / npNorm x * x i) * (z i - b / npNorm x * x i) =
        (1 - b / npNorm x) * (∑ i, x i * z i - b / npNorm x * npNorm x ^ 2) := by
      rw [sq_npNorm, mul_sub, Finset.mul_sum, Finset.mul_sum, Finset.mul_sum, ← Finset.sum_sub_distrib]
      exact Finset.sum_congr rfl fun i _ => by ring
    rw [h1]
    have h2 : b / npNorm x * npNorm x ^ 2 = b * npNorm x := by field_simp
    have h3 : 0 ≤ 1 - b / npNorm x := by
      rw [sub_nonneg, div_le_one hn]; exact h.le
    have h4 := cauchy x z
    calc (1 - b / npNorm x) * (∑ i, x i * z i - b / npNorm x * npNorm x ^ 2)
        ≤ (1 - b / npNorm x) * (npNorm x * npNorm z - b * npNorm x) := by
          apply mul_le_mul_of_nonneg_left _ h3; rw [h2]; linarith
      _ = (npNorm x - b) * (npNorm z - b) := by field_simp

lemma l2_bound_le (x : ι → ℝ) {b : ℝ} (hb : 0 ≤ b) : npNorm (L2.boundProx x b) ≤ npNorm x := by
  unfold L2.boundProx
  simp only
  split_ifs with h
  · exact le_refl _
  · push Not at h
    have hn : 0 < npNorm x := lt_of_le_of_lt hb h
    rw [npNorm_smul, abs_of_nonneg (div_nonneg hb hn.le), div_mul_cancel₀ _ hn.ne']
    exact h.le

/-- `lagrange_prox` is the residual of the projection on the ball of radius `lam / L`. -/
lemma l2_lagrange_eq (x : ι → ℝ) {L lam : ℝ} (hL : 0 < L) :
    L2.lagrangeProx x L lam = fun i => x i - L2.boundProx x (lam / L) i := by
  unfold L2.lagrangeProx L2.boundProx
  funext i
  split_ifs with h
  · rfl
  · rw [div_div]

/-- subgradient inequality for the prox of `lam‖·‖₂` -/
lemma l2_lagrange_sub (x : ι → ℝ) {L lam : ℝ} (hL : 0 < L) (hl : 0 ≤ lam) (z : ι → ℝ) :
    lam * npNorm (L2.lagrangeProx x L lam) +
      L * ∑ i, (x i - L2.lagrangeProx x L lam i) * (z i - L2.lagrangeProx x L lam i) ≤ lam * npNorm z := by
  have hb : 0 ≤ lam / L := div_nonneg hl hL.le
  have hLl : L * (lam / L) = lam := by field_simp
  unfold L2.lagrangeProx
  simp only [sub_sub_cancel]
  split_ifs with h
  · have hp : (fun i => x i - x i) = fun _ : ι => (0:ℝ) := by funext i; ring
    rw [hp, npNorm_zero, mul_zero, zero_add]
    simp only [sub_self, sub_zero]
    calc L * ∑ i, x i * z i ≤ L * (npNorm x * npNorm z) := mul_le_mul_of_nonneg_left (cauchy x z) hL.le
      _ = (L * npNorm x) * npNorm z := by ring
      _ ≤ (L * (lam / L)) * npNorm z := by
          apply mul_le_mul_of_nonneg_right _ (npNorm_nonneg z)
          exact mul_le_mul_of_nonneg_left h hL.le
      _ = lam * npNorm z := by rw [hLl]
  · push Not at h
    have hn : 0 < npNorm x := lt_of_le_of_lt hb h
    set c := lam / (L * npNorm x) with hc
    have hcn : L * (c * npNorm x) = lam := by rw [hc]; field_simp
    have hc0 : 0 ≤ c := by positivity
    have hc1 : c ≤ 1 := by
      rw [hc, div_le_one (by positivity)]
      rw [div_lt_iff₀ hL] at h; nlinarith
    have hp : npNorm (fun i => x i - c * x i) = (1 - c) * npNorm x := by
      have : (fun i => x i - c * x i) = fun i => (1 - c) * x i := by funext i; ring
      rw [this, npNorm_smul, abs_of_nonneg (by linarith)]
    have e : ∑ i, c * x i * (z i - (x i - c * x i)) = c * (∑ i, x i * z i) - c * (1 - c) * npNorm x ^ 2 := by
      rw [sq_npNorm, Finset.mul_sum, Finset.mul_sum, ← Finset.sum_sub_distrib]
      exact Finset.sum_congr rfl fun i _ => by ring
    rw [hp, e]
    have h4 := cauchy x z
    have h5 : L * (c * (∑ i, x i * z i)) ≤ lam * npNorm z := by
      calc L * (c * (∑ i, x i * z i)) ≤ L * (c * (npNorm x * npNorm z)) :=
            mul_le_mul_of_nonneg_left (mul_le_mul_of_nonneg_left h4 hc0) hL.le
        _ = (L * (c * npNorm x)) * npNorm z := by ring
        _ = lam * npNorm z := by rw [hcn]
    have h6 : L * (c * (1 - c) * npNorm x ^ 2) = lam * ((1 - c) * npNorm x) := by
      rw [← hcn]; ring
    rw [mul_sub, h6]; linarith

end Verif.Lemmas
