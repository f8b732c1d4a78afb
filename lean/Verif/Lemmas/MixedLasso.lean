import Verif.Model.MixedLasso
import Verif.Lemmas.L2
import Verif.Lemmas.SoftThr
import Verif.Lemmas.Cone
import Mathlib.Tactic.FieldSimp

/-! Facts about block norms and the mixed lasso projection. -/

set_option linter.unusedSectionVars false
set_option linter.unusedVariables false

namespace Verif.Lemmas
open Verif.Model Verif.Spec

variable {p q : ℕ}

/-- restriction of a vector to a group -/
def rk (κ : Fin p → Kind q) (j : Fin q) (x : Fin p → ℝ) (i : Fin p) : ℝ := if κ i = .group j then x i else 0

lemma foldl_add_eq {α : Type*} (l : List α) (f : α → ℝ) (s : ℝ) :
    l.foldl (fun s i => s + f i) s = s + (l.map f).sum := by
  induction l generalizing s with
  | nil => simp
  | cons a l ih => simp only [List.foldl_cons, List.map_cons, List.sum_cons]; rw [ih]; ring

lemma filter_map_sum {α : Type*} (l : List α) (P : α → Prop) [DecidablePred P] (f : α → ℝ) :
    ((l.filter fun i => P i).map f).sum = (l.map fun i => if P i then f i else 0).sum := by
  induction l with
  | nil => rfl
  | cons a l ih =>
    by_cases h : P a
    · simp [h, ih]
    · simp [h, ih]

lemma finRange_map_sum (f : Fin p → ℝ) : ((List.finRange p).map f).sum = ∑ i, f i := by
  rw [← List.ofFn_eq_map, List.sum_ofFn]

lemma normsCython_eq (κ : Fin p → Kind q) (x : Fin p → ℝ) (j : Fin q) :
    normsCython κ x j = npNorm (rk κ j x) := by
  unfold normsCython npNorm rk
  rw [foldl_add_eq, filter_map_sum, finRange_map_sum, zero_add]
  congr 1
  apply Finset.sum_congr rfl
  intro i _
  split_ifs <;> simp

lemma kindNorm_eq (κ : Fin p → Kind q) (x : Fin p → ℝ) (j : Fin q) :
    kindNorm κ x j = npNorm (rk κ j x) := by
  unfold kindNorm npNorm rk
  congr 1
  apply Finset.sum_congr rfl
  intro i _
  split_ifs <;> simp

lemma blockNorm_eq (grp : Fin p → Fin q) (x : Fin p → ℝ) (j : Fin q) :
    blockNorm grp x j = npNorm (rk (GroupLasso.kind grp) j x) := by
  unfold blockNorm npNorm rk GroupLasso.kind
  congr 1
  apply Finset.sum_congr rfl
  intro i _
  simp only [Kind.group.injEq]
  split_ifs <;> simp

/-- the scaled block is the l2 projection of the block -/
lemma factor_block (y : Fin p → ℝ) {b w : ℝ} (hb : 0 ≤ b * w) :
    (fun i => y i * factor b w (npNorm y)) = L2.boundProx y (b * w) := by
  funext i
  unfold factor L2.boundProx
  have hn := npNorm_nonneg y
  by_cases h0 : npNorm y > 0
  · rw [if_pos h0]
    by_cases h : npNorm y ≤ b * w
    · rw [if_pos h, min_eq_left (by rw [le_div_iff₀ h0]; linarith)]; ring
    · rw [if_neg h]
      push Not at h
      rw [min_eq_right (by rw [div_le_one h0]; exact h.le)]; ring
  · have h0' : npNorm y = 0 := le_antisymm (not_lt.1 h0) hn
    rw [if_neg h0, if_pos (by rw [h0']; exact hb)]; ring

/-- the value of a coordinate that is in no group -/
def ng (k : Kind q) (t : ℝ) : ℝ := match k with | .group _ => 0 | _ => t

/-- splitting a sum by kind -/
lemma sum_by_kind (κ : Fin p → Kind q) (T : Fin p → ℝ) :
    ∑ i, T i = ∑ i, ng (κ i) (T i) + ∑ j, ∑ i, if κ i = .group j then T i else 0 := by
  rw [Finset.sum_comm, ← Finset.sum_add_distrib]
  apply Finset.sum_congr rfl
  intro i _
  rcases h : κ i with _ | _ | _ | _ | g <;> simp [ng]

lemma rk_mul (κ : Fin p → Kind q) (j : Fin q) (x y : Fin p → ℝ) :
    ∑ i, (if κ i = .group j then x i * y i else 0) = ∑ i, rk κ j x i * rk κ j y i := by
  apply Finset.sum_congr rfl
  intro i _
  unfold rk
  split_ifs <;> simp

lemma rk_sub (κ : Fin p → Kind q) (j : Fin q) (x y : Fin p → ℝ) (i : Fin p) :
    rk κ j (fun i => x i - y i) i = rk κ j x i - rk κ j y i := by
  unfold rk; split_ifs <;> simp

/-- the block of a vector scaled group by group -/
lemma rk_factor (κ : Fin p → Kind q) (w : Fin q → ℝ) {b : ℝ} (j : Fin q) (hb : 0 ≤ b * w j) (x P : Fin p → ℝ)
    (hP : ∀ i, κ i = .group j → P i = x i * factor b (w j) (normsCython κ x j)) :
    rk κ j P = L2.boundProx (rk κ j x) (b * w j) := by
  rw [← factor_block _ hb]
  funext i
  rw [← normsCython_eq]
  unfold rk
  split_ifs with h
  · exact hP i h
  · simp

/-- subgradient inequality of one block for `x - P` -/
lemma block_subgrad (κ : Fin p → Kind q) (w : Fin q → ℝ) {L lam : ℝ} (hL : 0 < L) (j : Fin q)
    (hl : 0 ≤ lam * w j) (x P z : Fin p → ℝ)
    (hP : ∀ i, κ i = .group j → P i = x i * factor (lam / L) (w j) (normsCython κ x j)) :
    lam * (w j * npNorm (rk κ j fun i => x i - P i)) +
      L * ∑ i, (if κ i = .group j then (x i - (x i - P i)) * (z i - (x i - P i)) else 0) ≤
      lam * (w j * npNorm (rk κ j z)) := by
  have hb : 0 ≤ lam / L * w j := by
    rw [div_mul_eq_mul_div]; exact div_nonneg hl hL.le
  have h1 := rk_factor κ w j hb x P hP
  have h2 := l2_lagrange_sub (rk κ j x) hL hl (rk κ j z)
  rw [l2_lagrange_eq _ hL] at h2
  have e : lam * w j / L = lam / L * w j := by ring
  rw [e] at h2
  have h3 : (fun i => rk κ j x i - L2.boundProx (rk κ j x) (lam / L * w j) i) = rk κ j fun i => x i - P i := by
    funext i; rw [rk_sub, h1]
  have h4 : ∑ i, (if κ i = .group j then (x i - (x i - P i)) * (z i - (x i - P i)) else 0) =
      ∑ i, (rk κ j x i - rk κ j (fun i => x i - P i) i) * (rk κ j z i - rk κ j (fun i => x i - P i) i) := by
    apply Finset.sum_congr rfl
    intro i _
    unfold rk
    split_ifs <;> simp
  rw [h3] at h2
  rw [h4]
  linarith

/-- variational inequality of one block -/
lemma block_vi (κ : Fin p → Kind q) (w : Fin q → ℝ) {b : ℝ} (j : Fin q)
    (hb : 0 ≤ b * w j) (x P : Fin p → ℝ)
    (hP : ∀ i, κ i = .group j → P i = x i * factor b (w j) (normsCython κ x j)) :
    npNorm (rk κ j P) ≤ b * w j ∧ ∀ z : Fin p → ℝ, npNorm (rk κ j z) ≤ b * w j →
      ∑ i, (if κ i = .group j then (x i - P i) * (z i - P i) else 0) ≤ 0 := by
  have h1 := rk_factor κ w j hb x P hP
  obtain ⟨h2, h3⟩ := l2_bound_vi (rk κ j x) hb
  rw [h1]
  refine ⟨h2, fun z hz => ?_⟩
  have h4 := h3 (rk κ j z)
  have h5 := l2_bound_le (rk κ j x) hb
  have h6 : ∑ i, (if κ i = .group j then (x i - P i) * (z i - P i) else 0) =
      ∑ i, (rk κ j x i - L2.boundProx (rk κ j x) (b * w j) i) *
        (rk κ j z i - L2.boundProx (rk κ j x) (b * w j) i) := by
    rw [← h1]
    apply Finset.sum_congr rfl
    intro i _
    unfold rk
    split_ifs <;> simp
  rw [h6]
  nlinarith

/-- norm of a block after the scaling by `1 - factor` -/
lemma block_norm_resid (κ : Fin p → Kind q) (w : Fin q → ℝ) {b : ℝ} (j : Fin q)
    (hb : 0 ≤ b * w j) (x P : Fin p → ℝ)
    (hP : ∀ i, κ i = .group j → P i = x i * factor b (w j) (normsCython κ x j)) :
    npNorm (rk κ j fun i => x i - P i) =
      if b * w j < normsCython κ x j then normsCython κ x j - b * w j else 0 := by
  have h1 := rk_factor κ w j hb x P hP
  have h3 : (rk κ j fun i => x i - P i) = fun i => rk κ j x i - L2.boundProx (rk κ j x) (b * w j) i := by
    funext i; rw [rk_sub, h1]
  rw [h3, normsCython_eq]
  unfold L2.boundProx
  by_cases h : npNorm (rk κ j x) ≤ b * w j
  · rw [if_pos h, if_neg (not_lt.2 h)]
    simp [npNorm_zero]
  · rw [if_neg h, if_pos (not_le.1 h)]
    push Not at h
    have hn : 0 < npNorm (rk κ j x) := lt_of_le_of_lt hb h
    have : (fun i => rk κ j x i - b * w j / npNorm (rk κ j x) * rk κ j x i) =
        fun i => (1 - b * w j / npNorm (rk κ j x)) * rk κ j x i := by funext i; ring
    rw [this, npNorm_smul, abs_of_nonneg (by rw [sub_nonneg, div_le_one hn]; exact h.le)]
    field_simp

lemma npNorm_rk_le (κ : Fin p → Kind q) (j : Fin q) (x : Fin p → ℝ) : 0 ≤ normsCython κ x j :=
  Real.sqrt_nonneg _

/-- Hölder inequality for blocks -/
lemma block_holder (grp : Fin p → Fin q) (x z : Fin p → ℝ) :
    ∑ i, x i * z i ≤ ∑ j, npNorm (rk (GroupLasso.kind grp) j x) * npNorm (rk (GroupLasso.kind grp) j z) := by
  rw [sum_by_kind (GroupLasso.kind grp) (fun i => x i * z i)]
  have : ∑ i, ng (GroupLasso.kind grp i) (x i * z i) = 0 := by
    apply Finset.sum_eq_zero; intro i _; rfl
  rw [this, zero_add]
  apply Finset.sum_le_sum
  intro j _
  rw [rk_mul]
  exact cauchy _ _

/-- for group structures only the group part of the sum survives -/
lemma sum_by_group (grp : Fin p → Fin q) (T : Fin p → ℝ) :
    ∑ i, T i = ∑ j, ∑ i, if GroupLasso.kind grp i = .group j then T i else 0 := by
  rw [sum_by_kind (GroupLasso.kind grp) T]
  have : ∑ i, ng (GroupLasso.kind grp i) (T i) = 0 := by
    apply Finset.sum_eq_zero; intro i _; rfl
  rw [this, zero_add]

lemma npNorm_add_le {ι : Type*} [Fintype ι] (x y : ι → ℝ) : npNorm (fun i => x i + y i) ≤ npNorm x + npNorm y := by
  have hx := npNorm_nonneg x
  have hy := npNorm_nonneg y
  have h := cauchy x y
  have h2 : npNorm (fun i => x i + y i) ^ 2 ≤ (npNorm x + npNorm y) ^ 2 := by
    rw [sq_npNorm]
    have : ∑ i, (x i + y i) ^ 2 = ∑ i, x i ^ 2 + ∑ i, y i ^ 2 + 2 * ∑ i, x i * y i := by
      rw [Finset.mul_sum, ← Finset.sum_add_distrib, ← Finset.sum_add_distrib]
      exact Finset.sum_congr rfl fun i _ => by ring
    rw [this, ← sq_npNorm, ← sq_npNorm]; nlinarith
  exact abs_le_of_sq_le_sq' h2 (by linarith) |>.2

end Verif.Lemmas
