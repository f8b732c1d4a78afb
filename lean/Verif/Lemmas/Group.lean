import Verif.Lemmas.MixedLasso
import Verif.Props.C01_PiecewiseLinear
import Mathlib.Algebra.BigOperators.Field

/-! Facts about the group lasso maps. -/

set_option linter.unusedSectionVars false
set_option linter.unusedVariables false

namespace Verif.Lemmas
open Verif.Model Verif.Spec

variable {p q : ℕ}

lemma knotInput_sum (grp : Fin p → Fin q) (w : Fin q → ℝ) (x : Fin p → ℝ) (f : ℝ × ℝ → ℝ) :
    ((GroupLasso.knotInput grp w x).map f).sum = ∑ j, f (normsCython (GroupLasso.kind grp) x j, w j) := by
  unfold GroupLasso.knotInput
  rw [List.map_ofFn, List.sum_ofFn]; rfl

lemma knotInput_mem {grp : Fin p → Fin q} {w : Fin q → ℝ} {x : Fin p → ℝ} {a : ℝ × ℝ}
    (h : a ∈ GroupLasso.knotInput grp w x) : ∃ j, a = (normsCython (GroupLasso.kind grp) x j, w j) := by
  unfold GroupLasso.knotInput at h
  obtain ⟨j, rfl⟩ := (List.mem_ofFn' _ _).1 h
  exact ⟨j, rfl⟩

lemma knotInput_mk (grp : Fin p → Fin q) (w : Fin q → ℝ) (x : Fin p → ℝ) (j : Fin q) :
    (normsCython (GroupLasso.kind grp) x j, w j) ∈ GroupLasso.knotInput grp w x := by
  unfold GroupLasso.knotInput
  exact (List.mem_ofFn' _ _).2 ⟨j, rfl⟩

/-- group part of the penalty after removing the projection at level `cut` -/
lemma groupNorm_resid (grp : Fin p → Fin q) (w : Fin q → ℝ) (hw : ∀ j, 0 ≤ w j) {cut : ℝ} (hc : 0 ≤ cut)
    (x : Fin p → ℝ) :
    ∑ j, w j * npNorm (rk (GroupLasso.kind grp) j fun i =>
        x i - x i * factor cut (w (grp i)) (normsCython (GroupLasso.kind grp) x (grp i))) =
      ∑ j, w j * (if w j * cut < normsCython (GroupLasso.kind grp) x j
        then normsCython (GroupLasso.kind grp) x j - w j * cut else 0) := by
  apply Finset.sum_congr rfl
  intro j _
  rw [block_norm_resid (GroupLasso.kind grp) w (b := cut) j (mul_nonneg hc (hw j)) x
    (fun i => x i * factor cut (w (grp i)) (normsCython (GroupLasso.kind grp) x (grp i)))]
  · rw [mul_comm cut]
  · intro i hi
    have : grp i = j := by simpa [GroupLasso.kind] using hi
    rw [this]

/-- subgradient inequality at level `cut` (step 1) -/
lemma group_subgrad (grp : Fin p → Fin q) (w : Fin q → ℝ) (hw : ∀ j, 0 ≤ w j) {L lam : ℝ} (hL : 0 < L)
    (hl : 0 ≤ lam) (x P : Fin p → ℝ)
    (hP : ∀ i, P i = x i - x i * factor (lam / L) (w (grp i)) (normsCython (GroupLasso.kind grp) x (grp i)))
    (z : Fin p → ℝ) :
    lam * ∑ j, w j * npNorm (rk (GroupLasso.kind grp) j P) + L * ∑ i, (x i - P i) * (z i - P i) ≤
      lam * ∑ j, w j * npNorm (rk (GroupLasso.kind grp) j z) := by
  rw [sum_by_group grp (fun i => (x i - P i) * (z i - P i)), Finset.mul_sum, Finset.mul_sum, Finset.mul_sum,
    ← Finset.sum_add_distrib]
  apply Finset.sum_le_sum
  intro j _
  have h := block_subgrad (GroupLasso.kind grp) w hL j (mul_nonneg hl (hw j)) x
    (fun i => x i * factor (lam / L) (w (grp i)) (normsCython (GroupLasso.kind grp) x (grp i))) z (by
      intro i hi
      have : grp i = j := by simpa [GroupLasso.kind] using hi
      rw [this])
  have e : P = fun i => x i - x i * factor (lam / L) (w (grp i)) (normsCython (GroupLasso.kind grp) x (grp i)) :=
    funext hP
  rw [e]
  exact h

/-- the cut of `mixed_lasso_bound_prox` -/
lemma group_cut (grp : Fin p → Fin q) (w : Fin q → ℝ) (hw : ∀ j, w j = 0 ∨ 1 / 10 ^ 20 ≤ w j)
    {b : ℝ} (hb : 0 ≤ b) (hpos : 0 < b ∨ ∃ j, w j ≠ 0) (x : Fin p → ℝ) (sorted : List (ℝ × ℝ))
    (hs : IsDescArgsort (GroupLasso.knotInput grp w x) sorted) :
    ∃ cut, findW b 0 (GroupLasso.knotInput grp w x) sorted = some cut ∧ 0 ≤ cut ∧
      ((cut = 0 ∧ ∑ j, w j * normsCython (GroupLasso.kind grp) x j < b) ∨
        ∑ j, w j * (if w j * cut < normsCython (GroupLasso.kind grp) x j
          then normsCython (GroupLasso.kind grp) x j - w j * cut else 0) = b) := by
  by_cases h : ∑ j, w j * normsCython (GroupLasso.kind grp) x j < b
  · refine ⟨0, ?_, le_refl _, Or.inl ⟨rfl, h⟩⟩
    unfold findW
    rw [if_pos]
    rw [knotInput_sum]; exact h
  · push Not at h
    have hex : ∃ j, w j ≠ 0 := by
      rcases hpos with h0 | h0
      · by_contra hc
        push Not at hc
        have : ∑ j, w j * normsCython (GroupLasso.kind grp) x j = 0 :=
          Finset.sum_eq_zero fun j _ => by rw [hc j]; ring
        linarith
      · exact h0
    obtain ⟨j0, hj0⟩ := hex
    obtain ⟨t, h1, h2, h3⟩ := Verif.Props.C01_findW b 0 (GroupLasso.knotInput grp w x) sorted (le_refl _)
      (by intro a ha; obtain ⟨j, rfl⟩ := knotInput_mem ha; exact npNorm_rk_le _ _ _)
      (by intro a ha; obtain ⟨j, rfl⟩ := knotInput_mem ha; exact hw j) hs.1 hs.2
      (Or.inr ⟨_, knotInput_mk grp w x j0, hj0⟩)
      ⟨_, knotInput_mk grp w x j0, by simpa using hb⟩ (by rw [knotInput_sum]; exact h)
    rw [knotInput_sum] at h3
    exact ⟨t, h1, h2, Or.inr (by linarith)⟩

/-- every input has an argsort outcome -/
lemma exists_argsort (nw : List (ℝ × ℝ)) : ∃ s, IsDescArgsort nw s := by
  refine ⟨(wKnots nw).insertionSort (fun a b => b.1 ≤ a.1), List.perm_insertionSort _ _, ?_⟩
  have : Std.Total (fun a b : ℝ × ℝ => b.1 ≤ a.1) := ⟨fun a b => le_total _ _⟩
  have : IsTrans (ℝ × ℝ) (fun a b : ℝ × ℝ => b.1 ≤ a.1) := ⟨fun a b c h1 h2 => le_trans h2 h1⟩
  exact List.pairwise_insertionSort _ _

end Verif.Lemmas
