import Verif.Lemmas.Group
import Mathlib.Data.Fin.VecNotation
import Mathlib.Tactic.FinCases
import Mathlib.Tactic.NormNum

/-! # C22: sparse group LASSO -/

set_option linter.unusedSectionVars false
set_option linter.unusedVariables false

namespace Verif.Props
open Verif.Model Verif.Lemmas Verif.Spec

variable {p q : ℕ}

private lemma groupNorm_rk' (grp : Fin p → Fin q) (w : Fin q → ℝ) (z : Fin p → ℝ) :
    groupNorm grp w z = ∑ j, w j * npNorm (rk (GroupLasso.kind grp) j z) := by
  unfold groupNorm
  exact Finset.sum_congr rfl fun j _ => by rw [blockNorm_eq]

/-- C22: the value of the penalty. -/
theorem C22_seminorm (grp : Fin p → Fin q) (a : Fin p → ℝ) (ha : ∀ i, 0 ≤ a i) (w : Fin q → ℝ) (x : Fin p → ℝ)
    (lam : ℝ) :
    SparseGroup.seminorm grp a w x lam = lam * (∑ i, a i * |x i| + groupNorm grp w x) := by
  unfold SparseGroup.seminorm GroupLasso.seminorm
  rw [groupNorm_rk', mul_add, add_comm]
  congr 1
  · congr 1
    exact Finset.sum_congr rfl fun i _ => by rw [abs_mul, abs_of_nonneg (ha i), mul_comm]
  · congr 1
    exact Finset.sum_congr rfl fun j _ => by rw [normsCython_eq]

/-- C22: `sparse_group_lasso.lagrange_prox` (soft threshold, then group shrinkage) is the proximal map of
`lam (Σ_i a_i|z_i| + Σ_g w_g‖z[g]‖)`. -/
theorem C22_lagrange_prox (grp : Fin p → Fin q) (a : Fin p → ℝ) (ha : ∀ i, 0 ≤ a i) (w : Fin q → ℝ)
    (hw : ∀ j, 0 ≤ w j) (x : Fin p → ℝ) {L lam : ℝ} (hL : 0 < L) (hl : 0 ≤ lam) :
    IsProx L (fun z => lam * (∑ i, a i * |z i| + groupNorm grp w z)) x
      (SparseGroup.lagrangeProx grp a w x L lam) := by
  apply isProx_of_subgrad hL
  intro z
  set y := SparseGroup.softThr a x L lam with hy
  set P := SparseGroup.lagrangeProx grp a w x L lam with hP
  have hPi : ∀ i, P i = y i - y i * factor (lam / L) (w (grp i)) (normsCython (GroupLasso.kind grp) y (grp i)) :=
    fun i => rfl
  have hg := group_subgrad grp w hw hL hl y P hPi z
  rw [← groupNorm_rk', ← groupNorm_rk'] at hg
  have hc : ∀ i, 0 ≤ lam * a i / L := fun i => div_nonneg (mul_nonneg hl (ha i)) hL.le
  have hyi : ∀ i, y i = softThr (x i) (lam * a i / L) := fun i => by
    rw [← softThr_eq_sign_max (x i) (hc i)]; rfl
  -- the shrinkage factor lies in [0,1]
  have hfac : ∀ i, ∃ s : ℝ, 0 ≤ s ∧ P i = s * y i := by
    intro i
    refine ⟨1 - factor (lam / L) (w (grp i)) (normsCython (GroupLasso.kind grp) y (grp i)), ?_, by rw [hPi]; ring⟩
    unfold factor
    split_ifs
    · rw [sub_nonneg]; exact min_le_left _ _
    · simp
  have hco : ∀ i, lam * (a i * |P i|) + L * ((x i - y i) * (z i - P i)) ≤ lam * (a i * |z i|) := by
    intro i
    obtain ⟨s, hs, hPs⟩ := hfac i
    have h1 : L * ((x i - y i) * z i) ≤ lam * (a i * |z i|) := by
      have h2 : (x i - y i) * z i ≤ lam * a i / L * |z i| := by
        calc (x i - y i) * z i ≤ |x i - y i| * |z i| := by rw [← abs_mul]; exact le_abs_self _
          _ ≤ _ := mul_le_mul_of_nonneg_right (by rw [hyi]; exact softThr_resid _ (hc i)) (abs_nonneg _)
      calc L * ((x i - y i) * z i) ≤ L * (lam * a i / L * |z i|) := mul_le_mul_of_nonneg_left h2 hL.le
        _ = lam * (a i * |z i|) := by field_simp
    have h3 : L * ((x i - y i) * P i) = lam * (a i * |P i|) := by
      rw [hPs, abs_mul, abs_of_nonneg hs]
      have h4 := softThr_mul (x i) (hc i)
      rw [← hyi] at h4
      calc L * ((x i - y i) * (s * y i)) = L * s * ((x i - y i) * y i) := by ring
        _ = L * s * (lam * a i / L * |y i|) := by rw [h4]
        _ = lam * (a i * (s * |y i|)) := by field_simp
    rw [mul_sub, mul_sub, h3]; linarith
  have hsum : lam * ∑ i, a i * |P i| + L * ∑ i, (x i - y i) * (z i - P i) ≤ lam * ∑ i, a i * |z i| := by
    rw [Finset.mul_sum, Finset.mul_sum, Finset.mul_sum, ← Finset.sum_add_distrib]
    exact Finset.sum_le_sum fun i _ => hco i
  have e : ∑ i, (x i - P i) * (z i - P i) = ∑ i, (x i - y i) * (z i - P i) + ∑ i, (y i - P i) * (z i - P i) := by
    rw [← Finset.sum_add_distrib]; exact Finset.sum_congr rfl fun i _ => by ring
  rw [e, mul_add, mul_add, mul_add]
  linarith

/-- C22: the dual ball is a sum set; `sparse_group_lasso_dual.bound_prox` projects on
`{u + v : |u_i| ≤ bound a_i, ‖v[g]‖ ≤ bound w_g}`. -/
theorem C22_dual_bound_prox (grp : Fin p → Fin q) (a : Fin p → ℝ) (ha : ∀ i, 0 ≤ a i) (w : Fin q → ℝ)
    (hw : ∀ j, 0 ≤ w j) (x : Fin p → ℝ) {b : ℝ} (hb : 0 ≤ b) :
    IsProj {s | ∃ u v : Fin p → ℝ, (∀ i, s i = u i + v i) ∧ (∀ i, |u i| ≤ b * a i) ∧
        ∀ j, blockNorm grp v j ≤ b * w j} x (SparseGroup.dualBoundProx grp a w x b) := by
  set y := SparseGroup.softThr a x 1 b with hy
  set P := SparseGroup.lagrangeProx grp a w x 1 b with hP
  have hc : ∀ i, 0 ≤ b * a i / 1 := fun i => by rw [div_one]; exact mul_nonneg hb (ha i)
  have hyi : ∀ i, y i = softThr (x i) (b * a i / 1) := fun i => by
    rw [← softThr_eq_sign_max (x i) (hc i)]; rfl
  have hPi : ∀ i, P i = y i - y i * factor (b / 1) (w (grp i)) (normsCython (GroupLasso.kind grp) y (grp i)) :=
    fun i => rfl
  have hblock := fun j => block_vi (GroupLasso.kind grp) w (b := b) j (mul_nonneg hb (hw j)) y
    (fun i => y i - P i) (by
      intro i hi
      have : grp i = j := by simpa [GroupLasso.kind] using hi
      rw [hPi, this, div_one]; ring)
  apply isProj_of_vi
  · refine ⟨fun i => x i - y i, fun i => y i - P i, fun i => ?_, fun i => ?_, fun j => ?_⟩
    · simp only [SparseGroup.dualBoundProx]
      rw [← hP]; ring
    · have := softThr_resid (x i) (hc i)
      show |x i - y i| ≤ b * a i
      rw [hyi]; rw [div_one] at this ⊢; exact this
    · rw [blockNorm_eq]; exact (hblock j).1
  · rintro s ⟨u, v, hs, hu, hv⟩
    have hprox := C22_lagrange_prox grp a ha w hw x (L := 1) one_pos hb
    rw [← hP] at hprox
    have e1 : ∑ i, (x i - SparseGroup.dualBoundProx grp a w x b i) * (s i - SparseGroup.dualBoundProx grp a w x b i) =
        ∑ i, P i * s i - ∑ i, P i * (x i - P i) := by
      rw [← Finset.sum_sub_distrib]
      apply Finset.sum_congr rfl
      intro i _
      simp only [SparseGroup.dualBoundProx, ← hP]; ring
    have h1 : ∑ i, P i * s i ≤ b * (∑ i, a i * |P i| + groupNorm grp w P) := by
      have hu' : ∑ i, P i * u i ≤ b * ∑ i, a i * |P i| := by
        rw [Finset.mul_sum]
        apply Finset.sum_le_sum; intro i _
        calc P i * u i ≤ |P i| * |u i| := by rw [← abs_mul]; exact le_abs_self _
          _ ≤ |P i| * (b * a i) := mul_le_mul_of_nonneg_left (hu i) (abs_nonneg _)
          _ = _ := by ring
      have hv' : ∑ i, P i * v i ≤ b * groupNorm grp w P := by
        refine le_trans (block_holder grp P v) ?_
        rw [groupNorm_rk', Finset.mul_sum]
        apply Finset.sum_le_sum; intro j _
        have := hv j
        rw [blockNorm_eq] at this
        calc _ ≤ npNorm (rk (GroupLasso.kind grp) j P) * (b * w j) :=
              mul_le_mul_of_nonneg_left this (npNorm_nonneg _)
          _ = _ := by ring
      have : ∑ i, P i * s i = ∑ i, P i * u i + ∑ i, P i * v i := by
        rw [← Finset.sum_add_distrib]; exact Finset.sum_congr rfl fun i _ => by rw [hs]; ring
      rw [this, mul_add]; linarith
    -- `b h(P) ≤ ⟨P, x - P⟩`
    have h2 : b * (∑ i, a i * |P i| + groupNorm grp w P) ≤ ∑ i, P i * (x i - P i) := by
      have hgr := group_subgrad grp w hw one_pos hb y P hPi (fun _ => 0)
      have e0 : ∑ j, w j * npNorm (rk (GroupLasso.kind grp) j fun _ : Fin p => (0:ℝ)) = 0 := by
        apply Finset.sum_eq_zero; intro j _
        have : (rk (GroupLasso.kind grp) j fun _ : Fin p => (0:ℝ)) = fun _ => 0 := by
          funext i; unfold rk; split_ifs <;> rfl
        rw [this, npNorm_zero, mul_zero]
      rw [e0, ← groupNorm_rk', one_mul] at hgr
      have hco : ∀ i, b * (a i * |P i|) = (x i - y i) * P i := by
        intro i
        have hs : ∃ s : ℝ, 0 ≤ s ∧ P i = s * y i := by
          refine ⟨1 - factor (b / 1) (w (grp i)) (normsCython (GroupLasso.kind grp) y (grp i)), ?_, by rw [hPi]; ring⟩
          unfold factor
          split_ifs
          · rw [sub_nonneg]; exact min_le_left _ _
          · simp
        obtain ⟨s, hs, hPs⟩ := hs
        rw [hPs, abs_mul, abs_of_nonneg hs]
        have h4 := softThr_mul (x i) (hc i)
        rw [← hyi] at h4
        calc b * (a i * (s * |y i|)) = s * (b * a i / 1 * |y i|) := by ring
          _ = s * ((x i - y i) * y i) := by rw [h4]
          _ = _ := by ring
      have e2 : b * ∑ i, a i * |P i| = ∑ i, (x i - y i) * P i := by
        rw [Finset.mul_sum]; exact Finset.sum_congr rfl fun i _ => hco i
      have e3 : ∑ i, (y i - P i) * (0 - P i) = -∑ i, (y i - P i) * P i := by
        rw [← Finset.sum_neg_distrib]; exact Finset.sum_congr rfl fun i _ => by ring
      have e4 : ∑ i, P i * (x i - P i) = ∑ i, (x i - y i) * P i + ∑ i, (y i - P i) * P i := by
        rw [← Finset.sum_add_distrib]; exact Finset.sum_congr rfl fun i _ => by ring
      rw [mul_add, e2, e4]; linarith
    rw [e1]; linarith

/-- hypotheses met, with a zero lasso weight and a zero group weight -/
example : (∀ i, 0 ≤ (![0, 1, 2] : Fin 3 → ℝ) i) ∧ (∀ j, 0 ≤ (![0, 1] : Fin 2 → ℝ) j) := by
  constructor <;> intro i <;> fin_cases i <;> simp

/-- a concrete value: block `(4, 5)`, lasso weights 1, group weight 1: thresholding `(4,5)` by 1 gives
`(3,4)` of norm 5, which the group step with weight 1 shrinks to `4/5·(3,4)` -/
example : SparseGroup.lagrangeProx (![0, 0] : Fin 2 → Fin 1) ![1, 1] ![1] ![4, 5] 1 1 0 = 12 / 5 := by
  have h : Real.sqrt (3 ^ 2 + 4 ^ 2) = 5 := by
    rw [show (3:ℝ) ^ 2 + 4 ^ 2 = 5 ^ 2 by norm_num]; exact Real.sqrt_sq (by norm_num)
  have h0 : SparseGroup.softThr ![1, 1] (![4, 5] : Fin 2 → ℝ) 1 1 = ![3, 4] := by
    funext i; fin_cases i <;> norm_num [SparseGroup.softThr, npSign]
  unfold SparseGroup.lagrangeProx
  rw [h0]
  simp [GroupLasso.lagrangeProx, factor, normsCython_eq, npNorm, rk, GroupLasso.kind, Fin.sum_univ_two]
  rw [h]; norm_num

end Verif.Props
