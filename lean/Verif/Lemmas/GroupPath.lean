import Verif.Model.GroupPath
import Verif.Spec.Composite
import Verif.Spec.Groups
import Verif.Lemmas.ProxGrad
import Verif.Lemmas.LassoPath
import Verif.Lemmas.L2
import Mathlib.Tactic.FieldSimp
import Mathlib.Tactic.Linarith

/-!
# Lemmas on the KKT check of `paths/group_lasso.py`
-/

set_option linter.unusedSectionVars false
set_option linter.unusedVariables false

namespace Verif.Lemmas
open Verif.Model Verif.Model.GroupPath Verif.Spec

section generic
variable {V G : Type*} [Fintype V] [Fintype G] [DecidableEq G]

lemma sum_sel (grp : V → G) (f : V → ℝ) : ∑ g, ∑ v : {v // grp v = g}, f v = ∑ v, f v := by
  rw [← Fintype.sum_sigma' (f := fun g (v : {v // grp v = g}) => f v)]
  exact Equiv.sum_comp (Equiv.sigmaFiberEquiv grp) f

lemma groupRank_neg_iff (grp : V → G) (w : G → ℝ) (grad b : V → ℝ) (lam tol : ℝ) (g : G) :
    GroupPath.inactiveRanks grp w grad b lam tol g < 0 ↔ inactiveResults grp w grad b lam g ≤ 1 + tol := by
  unfold GroupPath.inactiveRanks
  by_cases h : inactiveResults grp w grad b lam g ≤ 1 + tol
  · rw [if_pos h]; exact ⟨fun _ => h, fun _ => by norm_num⟩
  · rw [if_neg h]
    have := rank_le (inactiveResults grp w grad b lam) g
    exact ⟨fun h' => by linarith, fun h' => absurd h' h⟩

lemma active_iff (grp : V → G) (w : G → ℝ) (b : V → ℝ) (g : G) :
    active grp w b g ↔ npNorm (sel grp b g) ≠ 0 ∧ 0 < w g := by
  unfold active dualTerm
  constructor
  · rintro ⟨h1, h2⟩
    refine ⟨fun h => h1 ?_, h2⟩
    rw [if_pos h2, h, zero_div]; rfl
  · rintro ⟨h1, h2⟩
    refine ⟨?_, h2⟩
    rw [if_pos h2]
    exact fun h => (div_ne_zero h1 h2.ne') (by exact_mod_cast h)

lemma groupCheck_false_iff (grp : V → G) (w : G → ℝ) (grad b : V → ℝ) (lam tol : ℝ) (g : G) :
    (GroupPath.checkKKT grp w grad b lam tol).1 g = false ↔ activeResults grp w grad b lam tol g = 0 := by
  unfold GroupPath.checkKKT
  simp

end generic

section vec
variable {ι : Type*} [Fintype ι]

/-- an active block: gradient close to `-c b/‖b‖` -/
lemma block_active {b grad u : ι → ℝ} {c tol : ℝ} (hc : 0 ≤ c) (hb : npNorm b ≠ 0)
    (h : npNorm (fun v => b v * c / npNorm b + grad v) ≤ tol) :
    c * npNorm b - c * npNorm u - tol * npNorm (fun v => u v - b v) ≤ ∑ v, grad v * (u v - b v) := by
  have hn : 0 < npNorm b := lt_of_le_of_ne (npNorm_nonneg b) (Ne.symm hb)
  have h1 := cauchy (fun v => -(b v * c / npNorm b + grad v)) (fun v => u v - b v)
  have h2 : npNorm (fun v => -(b v * c / npNorm b + grad v)) = npNorm (fun v => b v * c / npNorm b + grad v) := by
    have := npNorm_smul (-1) (fun v => b v * c / npNorm b + grad v)
    simpa using this
  rw [h2] at h1
  have h3 := mul_le_mul_of_nonneg_right h (npNorm_nonneg fun v => u v - b v)
  have h4 : ∑ v, -(b v * c / npNorm b + grad v) * (u v - b v) =
      -(c / npNorm b) * (∑ v, b v * u v) + c / npNorm b * (∑ v, b v ^ 2) - ∑ v, grad v * (u v - b v) := by
    rw [Finset.mul_sum, Finset.mul_sum, ← Finset.sum_add_distrib, ← Finset.sum_sub_distrib]
    exact Finset.sum_congr rfl fun v _ => by ring
  have h5 : c / npNorm b * (∑ v, b v ^ 2) = c * npNorm b := by
    rw [← sq_npNorm]; field_simp
  have h6 : c / npNorm b * (∑ v, b v * u v) ≤ c * npNorm u := by
    have := mul_le_mul_of_nonneg_left (cauchy b u) (div_nonneg hc hn.le)
    have e : c / npNorm b * (npNorm b * npNorm u) = c * npNorm u := by field_simp
    linarith
  rw [h4, h5] at h1
  linarith

lemma block_small {grad d : ι → ℝ} {c : ℝ} (h : npNorm grad ≤ c) : -(c * npNorm d) ≤ ∑ v, grad v * d v := by
  have h1 := cauchy (fun v => -grad v) d
  have h2 : npNorm (fun v => -grad v) = npNorm grad := by
    have := npNorm_smul (-1) grad
    simpa using this
  rw [h2] at h1
  have h3 := mul_le_mul_of_nonneg_right h (npNorm_nonneg d)
  have h4 : ∑ v, -grad v * d v = -∑ v, grad v * d v := by
    rw [← Finset.sum_neg_distrib]; exact Finset.sum_congr rfl fun v _ => by ring
  rw [h4] at h1
  linarith

lemma npNorm_add_le (x y : ι → ℝ) : npNorm (fun i => x i + y i) ≤ npNorm x + npNorm y := by
  have h0 := npNorm_nonneg x
  have h1 := npNorm_nonneg y
  apply le_of_sq_le_sq _ (by linarith)
  rw [sq_npNorm]
  have e : ∑ i, (x i + y i) ^ 2 = ∑ i, x i ^ 2 + 2 * ∑ i, x i * y i + ∑ i, y i ^ 2 := by
    rw [Finset.mul_sum, ← Finset.sum_add_distrib, ← Finset.sum_add_distrib]
    exact Finset.sum_congr rfl fun i _ => by ring
  rw [e, ← sq_npNorm, ← sq_npNorm]
  have := cauchy x y
  nlinarith

/-- a block whose gradient has norm at most `c` and inner product at most `-c ‖b‖` with `b` is `-c b/‖b‖` -/
lemma block_parallel {b grad : ι → ℝ} {c : ℝ} (hc : 0 ≤ c) (hb : npNorm b ≠ 0) (h1 : npNorm grad ≤ c)
    (h2 : ∑ v, grad v * b v ≤ -(c * npNorm b)) : npNorm (fun v => b v * c / npNorm b + grad v) = 0 := by
  have hn : 0 < npNorm b := lt_of_le_of_ne (npNorm_nonneg b) (Ne.symm hb)
  have hs : npNorm (fun v => b v * c / npNorm b + grad v) ^ 2 ≤ 0 := by
    rw [sq_npNorm]
    have e : ∑ v, (b v * c / npNorm b + grad v) ^ 2 =
        (c / npNorm b) ^ 2 * ∑ v, b v ^ 2 + 2 * (c / npNorm b) * ∑ v, grad v * b v + ∑ v, grad v ^ 2 := by
      rw [Finset.mul_sum, Finset.mul_sum, ← Finset.sum_add_distrib, ← Finset.sum_add_distrib]
      exact Finset.sum_congr rfl fun v _ => by ring
    rw [e, ← sq_npNorm, ← sq_npNorm]
    have e1 : (c / npNorm b) ^ 2 * npNorm b ^ 2 = c ^ 2 := by field_simp
    have e2 : 2 * (c / npNorm b) * ∑ v, grad v * b v ≤ -(2 * c ^ 2) := by
      have := mul_le_mul_of_nonneg_left h2 (mul_nonneg zero_le_two (div_nonneg hc hn.le))
      have e3 : 2 * (c / npNorm b) * -(c * npNorm b) = -(2 * c ^ 2) := by field_simp
      linarith
    have e3 : npNorm grad ^ 2 ≤ c ^ 2 := pow_le_pow_left₀ (npNorm_nonneg _) h1 2
    linarith
  exact pow_eq_zero_iff (two_ne_zero) |>.1 (le_antisymm hs (sq_nonneg _))

end vec

variable {p q : ℕ}

lemma blockNorm_sel (grp : Fin p → Fin q) (z : Fin p → ℝ) (j : Fin q) : blockNorm grp z j = npNorm (sel grp z j) := by
  unfold blockNorm npNorm sel
  congr 1
  rw [← Finset.sum_filter]
  exact Finset.sum_subtype _ (by simp) (fun i => z i ^ 2)

end Verif.Lemmas
