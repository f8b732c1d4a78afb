import Verif.Model.MixedObj
import Verif.Spec.LabelPenalty
import Verif.Lemmas.MixedLasso

/-! # Lemmas: the penalty structure built by the constructor is the one described by the labels -/

set_option linter.unusedSectionVars false
set_option linter.unusedVariables false

namespace Verif.Lemmas
open Verif.Model Verif.Spec

variable {p : ℕ}

private lemma foldl_none {α : Type*} (P : α → Prop) [DecidablePred P] (l : List α) (c : Option α) (h : ∀ j ∈ l, ¬ P j) :
    l.foldl (fun cur j => if P j then some j else cur) c = c := by
  induction l generalizing c with
  | nil => rfl
  | cons a l ih =>
    rw [List.foldl_cons, if_neg (h a (by simp))]
    exact ih c fun j hj => h j (by simp [hj])

private lemma foldl_unique {α : Type*} (P : α → Prop) [DecidablePred P] (l : List α) (c : Option α) (j0 : α)
    (hu : ∀ j ∈ l, P j → j = j0) (hm : j0 ∈ l) (h0 : P j0) :
    l.foldl (fun cur j => if P j then some j else cur) c = some j0 := by
  induction l generalizing c with
  | nil => simp at hm
  | cons a l ih =>
    rw [List.foldl_cons]
    by_cases hl : j0 ∈ l
    · exact ih _ (fun j hj => hu j (by simp [hj])) hl
    · have ha : j0 = a := by simpa [hl] using hm
      subst ha
      rw [if_pos h0]
      exact foldl_none P l _ fun j hj hP => hl (hu j (by simp [hj]) hP ▸ hj)

section
variable (a : MixedObj p) (hE : MixedObj.Enumerates a.order a.lab)
include hE

lemma order_not_reserved (j : Fin a.order.length) :
    a.order[j] ≠ -1 ∧ a.order[j] ≠ -2 ∧ a.order[j] ≠ -3 ∧ a.order[j] ≠ -4 := by
  have := ((hE.2 a.order[j]).1 (List.getElem_mem _)).2
  simpa [not_or] using this

lemma groups_some (i : Fin p) (j : Fin a.order.length) (h : a.lab i = a.order[j]) : a.groups i = some j := by
  unfold MixedObj.groups
  refine foldl_unique (fun idx => a.lab i = a.order[idx]) _ none j (fun k _ hk => ?_) (List.mem_finRange j) h
  have : a.order[(k : ℕ)] = a.order[(j : ℕ)] := by
    have h1 : a.lab i = a.order[(k : ℕ)] := hk
    have h2 : a.lab i = a.order[(j : ℕ)] := h
    rw [← h1, h2]
  exact Fin.ext ((List.Nodup.getElem_inj_iff hE.1).1 this)

/-- a coordinate which is not reserved belongs to the group of its label -/
lemma exists_group (i : Fin p) (h : a.lab i ≠ -1 ∧ a.lab i ≠ -2 ∧ a.lab i ≠ -3 ∧ a.lab i ≠ -4) :
    ∃ j : Fin a.order.length, a.lab i = a.order[j] := by
  have : a.lab i ∈ a.order := (hE.2 _).2 ⟨⟨i, rfl⟩, by simpa [not_or] using h⟩
  obtain ⟨k, hk, e⟩ := List.getElem_of_mem this
  exact ⟨⟨k, hk⟩, e.symm⟩

lemma kind_l1 (i : Fin p) : a.kind i = .l1 ↔ a.lab i = -2 := by
  unfold MixedObj.kind
  split_ifs with h1 h2 h3 h4
  · simp [h1]
  · simp [h1]
  · simp [h1]
  · simp [h1]
  · cases a.groups i <;> simp [h1]

lemma kind_pp (i : Fin p) : a.kind i = .positivePart ↔ a.lab i = -3 := by
  unfold MixedObj.kind
  split_ifs with h1 h2 h3 h4
  · simp [h1]
  · simp [h2]
  · simp [h2]
  · simp [h2]
  · cases a.groups i <;> simp [h2]

lemma kind_nn (i : Fin p) : a.kind i = .nonnegative ↔ a.lab i = -4 := by
  unfold MixedObj.kind
  split_ifs with h1 h2 h3 h4
  · simp [h1]
  · simp [h2]
  · simp [h3]
  · simp [h4]
  · cases a.groups i <;> simp [h4]

lemma kind_unpen (i : Fin p) : a.kind i = .unpenalized ↔ a.lab i = -1 := by
  unfold MixedObj.kind
  split_ifs with h1 h2 h3 h4
  · simp [h1]
  · simp [h2]
  · simp [h3]
  · simp [h4]
  · obtain ⟨j, hj⟩ := exists_group a hE i ⟨h3, h1, h2, h4⟩
    rw [groups_some a hE i j hj]
    simp [h3]

lemma kind_group (i : Fin p) (j : Fin a.order.length) : a.kind i = .group j ↔ a.lab i = a.order[j] := by
  obtain ⟨r1, r2, r3, r4⟩ := order_not_reserved a hE j
  unfold MixedObj.kind
  split_ifs with h1 h2 h3 h4
  · rw [h1]; exact ⟨fun h => (by cases h), fun h => absurd h.symm r2⟩
  · rw [h2]; exact ⟨fun h => (by cases h), fun h => absurd h.symm r3⟩
  · rw [h3]; exact ⟨fun h => (by cases h), fun h => absurd h.symm r1⟩
  · rw [h4]; exact ⟨fun h => (by cases h), fun h => absurd h.symm r4⟩
  · obtain ⟨k, hk⟩ := exists_group a hE i ⟨h3, h1, h2, h4⟩
    rw [groups_some a hE i k hk]
    simp only [Kind.group.injEq]
    constructor
    · rintro rfl; exact hk
    · intro h
      have := groups_some a hE i j h
      rw [groups_some a hE i k hk] at this
      exact Option.some.inj this

lemma order_toFinset : a.order.toFinset = groupLabels a.lab := by
  ext g
  rw [List.mem_toFinset, hE.2]
  simp [groupLabels]

lemma sum_order (F : ℤ → ℝ) : ∑ j : Fin a.order.length, F a.order[j] = ∑ g ∈ groupLabels a.lab, F g := by
  rw [← order_toFinset a hE, List.sum_toFinset F hE.1, ← List.sum_ofFn]
  congr 1
  apply List.ext_getElem <;> simp

lemma forall_order (F : ℤ → Prop) : (∀ j : Fin a.order.length, F a.order[j]) ↔ ∀ g ∈ groupLabels a.lab, F g := by
  constructor
  · intro h g hg
    rw [← order_toFinset a hE, List.mem_toFinset] at hg
    obtain ⟨k, hk, e⟩ := List.getElem_of_mem hg
    rw [← e]; exact h ⟨k, hk⟩
  · intro h j
    apply h
    rw [← order_toFinset a hE, List.mem_toFinset]
    exact List.getElem_mem _

lemma kindNorm_label (z : Fin p → ℝ) (j : Fin a.order.length) : kindNorm a.kind z j = labelNorm a.lab z a.order[j] := by
  unfold kindNorm labelNorm
  congr 1
  apply Finset.sum_congr rfl
  intro i _
  by_cases h : a.lab i = a.order[j]
  · rw [if_pos h, if_pos ((kind_group a hE i j).2 h)]
  · rw [if_neg h, if_neg (fun h' => h ((kind_group a hE i j).1 h'))]

omit hE in
lemma weight_label (j : Fin a.order.length) : a.weightArray j = labelWeight a.lab a.weights a.order[j] := by
  unfold MixedObj.weightArray labelWeight
  congr 3

/-- the penalty of the arrays is the penalty of the labels -/
lemma penalty_label (z : Fin p → ℝ) : mixedPenalty a.kind a.weightArray z = labelPenalty a.lab a.weights z := by
  unfold mixedPenalty labelPenalty
  rw [← sum_order a hE fun g => labelWeight a.lab a.weights g * labelNorm a.lab z g]
  congr 1
  · congr 1
    · exact Finset.sum_congr rfl fun i _ => by simp only [kind_l1 a hE]
    · exact Finset.sum_congr rfl fun i _ => by simp only [kind_pp a hE]
  · exact Finset.sum_congr rfl fun j _ => by rw [kindNorm_label a hE, weight_label]

lemma domain_label : mixedDomain a.kind = labelDomain a.lab := by
  ext z
  unfold mixedDomain labelDomain
  simp only [Set.mem_ofPred_eq, kind_pp a hE, kind_nn a hE]

lemma ball_label (b : ℝ) :
    {z : Fin p → ℝ | (∀ i, a.kind i = .unpenalized → z i = 0) ∧ (∀ i, a.kind i = .l1 → |z i| ≤ b) ∧
        (∀ i, a.kind i = .positivePart → z i ≤ b) ∧ (∀ i, a.kind i = .nonnegative → z i ≤ 0) ∧
        ∀ j, kindNorm a.kind z j ≤ b * a.weightArray j} = labelDualBall a.lab a.weights b := by
  ext z
  unfold labelDualBall
  simp only [Set.mem_ofPred_eq, kind_pp a hE, kind_nn a hE, kind_l1 a hE, kind_unpen a hE, kindNorm_label a hE,
    weight_label]
  rw [forall_order a hE fun g => labelNorm a.lab z g ≤ b * labelWeight a.lab a.weights g]

omit hE in
lemma labelNorm_nonneg (lab : Fin p → ℤ) (z : Fin p → ℝ) (g : ℤ) : 0 ≤ labelNorm lab z g := Real.sqrt_nonneg _

end

end Verif.Lemmas
