import Verif.Model.Equality
import Verif.Lemmas.MixedLasso
import Mathlib.Algebra.BigOperators.Fin
import Mathlib.Tactic.Linarith

/-!
# C21 from the constructor: labels and dictionaries of weights
-/

set_option linter.unusedSectionVars false
set_option linter.unusedVariables false

namespace Verif.Props
open Verif.Model Verif.Model.Penalty Verif.Lemmas

variable {p : ℕ}

/-- the weight a user expects for the group `g`: the one they gave, or the square root of the size of the group -/
noncomputable def labelWeight (lab : Fin (p + 1) → ℤ) (weights : ℤ → Option ℝ) (g : ℤ) : ℝ :=
  (weights g).getD (Real.sqrt (Finset.univ.filter fun i => lab i = g).card)

/-- the group LASSO penalty in terms of the labels -/
noncomputable def labelNorm (lab : Fin (p + 1) → ℤ) (weights : ℤ → Option ℝ) (x : Fin (p + 1) → ℝ) : ℝ :=
  ∑ g ∈ Finset.univ.image lab, labelWeight lab weights g * Real.sqrt (∑ i ∈ Finset.univ.filter fun i => lab i = g, x i ^ 2)

lemma sortedIds_nodup (lab : Fin (p + 1) → ℤ) : (sortedIds lab).Nodup := by
  unfold sortedIds
  exact ((List.mergeSort_perm _ _).nodup_iff).2 (List.nodup_dedup _)

lemma sortedIds_toFinset (lab : Fin (p + 1) → ℤ) : (sortedIds lab).toFinset = Finset.univ.image lab := by
  ext g
  simp [sortedIds, -List.ofFn_succ, List.mem_ofFn]

lemma groupIndex_iff (lab : Fin (p + 1) → ℤ) (i : Fin (p + 1)) (j : Fin (sortedIds lab).length) :
    groupIndex lab i = j ↔ lab i = (sortedIds lab)[j] := by
  constructor
  · rintro rfl
    simp [groupIndex]
  · intro h
    apply Fin.ext
    show (sortedIds lab).idxOf (lab i) = j
    rw [h]
    exact (sortedIds_nodup lab).idxOf_getElem _ _

lemma weightArray_eq (lab : Fin (p + 1) → ℤ) (d : ℤ → Option ℝ) (j : Fin (sortedIds lab).length) :
    weightArray lab (groupDict lab d) j = labelWeight lab d (sortedIds lab)[j] := by
  have hmem : (sortedIds lab)[j] ∈ (sortedIds lab).toFinset := List.mem_toFinset.2 (List.getElem_mem _)
  rw [sortedIds_toFinset, Finset.mem_image] at hmem
  obtain ⟨i, _, hi⟩ := hmem
  unfold weightArray groupDict labelWeight
  rw [if_pos ⟨i, hi⟩, Option.getD_some]
  congr 3

lemma seminorm_labels (lab : Fin (p + 1) → ℤ) (d : ℤ → Option ℝ) (x : Fin (p + 1) → ℝ) (l : ℝ) :
    GroupLasso.seminorm (groupIndex lab) (weightArray lab (groupDict lab d)) x l = l * labelNorm lab d x := by
  unfold GroupLasso.seminorm labelNorm
  congr 1
  rw [← sortedIds_toFinset, List.sum_toFinset _ (sortedIds_nodup lab)]
  have key : ∀ j : Fin (sortedIds lab).length, weightArray lab (groupDict lab d) j * normsCython (GroupLasso.kind (groupIndex lab)) x j =
      labelWeight lab d (sortedIds lab)[j] * Real.sqrt (∑ i ∈ Finset.univ.filter fun i => lab i = (sortedIds lab)[j], x i ^ 2) := by
    intro j
    rw [weightArray_eq, normsCython_eq]
    congr 1
    unfold npNorm rk GroupLasso.kind
    congr 1
    rw [Finset.sum_filter]
    apply Finset.sum_congr rfl
    intro i _
    simp only [Spec.Kind.group.injEq, groupIndex_iff]
    split_ifs <;> simp
  rw [Finset.sum_congr rfl fun j _ => key j]
  rw [← List.sum_ofFn]
  congr 1
  apply List.ext_getElem
  · simp
  · intro k h1 h2
    simp

/-- **C21**: the penalty built by `group_lasso(labels, weights, lagrange=l)` from integer labels and a dictionary of weights
has the value `l * Σ_g w_g ‖x[g]‖₂`, the sum over the labels that occur, `w_g` being the weight of the dictionary or the
square root of the size of the group; in bound form with `check_feasibility` the value is 0 when that norm is at most the
bound and infinite otherwise. -/
theorem C21_constructor (env : Env) (lab : Fin (p + 1) → ℤ) (d : ℤ → Option ℝ) (v : ℝ) (hv : 0 ≤ v) (x : Fin (p + 1) → ℝ)
    (check : Bool) :
    (∃ A, Penalty.new (.groupLasso lab d) (some v) none none none = some A ∧
      (A.atom env).nonsmooth x check = .num (v * labelNorm lab d x)) ∧
    ∃ A, Penalty.new (.groupLasso lab d) none (some v) none none = some A ∧
      (labelNorm lab d x ≤ v → (A.atom env).nonsmooth x true = .num 0) ∧
      (v < labelNorm lab d x → (A.atom env).nonsmooth x true = .inf) := by
  have hz : (⟨0, some (.scalar 0), some (.scalar 0), 0⟩ : Quad (Fin (p + 1)) ℝ).funcVal x = 0 := by
    simp [Quad.funcVal, PyVec.get]
  constructor
  · refine ⟨⟨.groupLasso lab (groupDict lab d), ⟨some v, none⟩, none, ⟨0, some (.scalar 0), some (.scalar 0), 0⟩⟩, ?_, ?_⟩
    · simp [Penalty.new, ctorMode, AtomState.init, not_lt.2 hv, ctorOffset, ctorClass]
    · simp only [Penalty.atom, SeminormClass.atom, param, GroupLasso.cls, atomShift, ObjVal.add, hz, Option.getD_some,
        seminorm_labels, add_zero]
  · refine ⟨⟨.groupLasso lab (groupDict lab d), ⟨none, some v⟩, none, ⟨0, some (.scalar 0), some (.scalar 0), 0⟩⟩, ?_, ?_, ?_⟩
    · simp [Penalty.new, ctorMode, AtomState.init, not_lt.2 hv, ctorOffset, ctorClass]
    · intro h
      simp only [Penalty.atom, SeminormClass.atom, param, GroupLasso.cls, atomShift, GroupLasso.constraint, hz,
        seminorm_labels, one_mul, if_true, if_pos h]
      show ObjVal.num (0 + 0) = _
      rw [add_zero]
    · intro h
      simp only [Penalty.atom, SeminormClass.atom, param, GroupLasso.cls, atomShift, GroupLasso.constraint, hz,
        seminorm_labels, one_mul, if_true, if_neg (not_le.2 h)]
      rfl

/-- **C22**: the penalty built by `sparse_group_lasso(labels, lasso_weights, weights, lagrange=l)` has the value
`l * (Σ_i a_i |x_i| + Σ_g w_g ‖x[g]‖₂)` for nonnegative `lasso_weights`. -/
theorem C22_constructor (env : Env) (lab : Fin (p + 1) → ℤ) (a : Fin (p + 1) → ℝ) (d : ℤ → Option ℝ) (ha : ∀ i, 0 ≤ a i)
    (v : ℝ) (hv : 0 ≤ v) (x : Fin (p + 1) → ℝ) (check : Bool) :
    ∃ A, Penalty.new (.sparseGroup lab a d) (some v) none none none = some A ∧
      (A.atom env).nonsmooth x check = .num (v * (∑ i, a i * |x i| + labelNorm lab d x)) := by
  have hz : (⟨0, some (.scalar 0), some (.scalar 0), 0⟩ : Quad (Fin (p + 1)) ℝ).funcVal x = 0 := by
    simp [Quad.funcVal, PyVec.get]
  refine ⟨⟨.sparseGroup lab a (groupDict lab d), ⟨some v, none⟩, none, ⟨0, some (.scalar 0), some (.scalar 0), 0⟩⟩, ?_, ?_⟩
  · simp [Penalty.new, ctorMode, AtomState.init, not_lt.2 hv, ctorOffset, ctorClass]
  · simp only [Penalty.atom, SeminormClass.atom, param, SparseGroup.cls, atomShift, ObjVal.add, hz, Option.getD_some,
      SparseGroup.seminorm, seminorm_labels, add_zero, ObjVal.num.injEq]
    have : ∀ i, |x i * a i| = a i * |x i| := fun i => by rw [abs_mul, abs_of_nonneg (ha i), mul_comm]
    simp only [this]
    ring

/-- two groups `{0, 1}` and `{2}`, the weight of the second one given -/
example : labelNorm (p := 2) ![5, 5, 7] (fun g => if g = 7 then some 3 else none) ![3, 4, 2] = Real.sqrt 2 * 5 + 6 := by
  have h1 : (Finset.univ.filter fun i : Fin 3 => (![5, 5, 7] : Fin 3 → ℤ) i = 5) = {0, 1} := by decide
  have h2 : (Finset.univ.filter fun i : Fin 3 => (![5, 5, 7] : Fin 3 → ℤ) i = 7) = {2} := by decide
  have h3 : (Finset.univ.image (![5, 5, 7] : Fin 3 → ℤ)) = {5, 7} := by decide
  have h4 : Real.sqrt (3 ^ 2 + 4 ^ 2 : ℝ) = 5 := by
    rw [show (3 ^ 2 + 4 ^ 2 : ℝ) = 5 ^ 2 by norm_num]; exact Real.sqrt_sq (by norm_num)
  have h5 : Real.sqrt (2 ^ 2 : ℝ) = 2 := Real.sqrt_sq (by norm_num)
  unfold labelNorm labelWeight
  rw [h3, Finset.sum_pair (by norm_num), h1, h2]
  rw [Finset.sum_pair (by decide), Finset.sum_singleton]
  have h6 : (![3, 4, 2] : Fin 3 → ℝ) 2 = 2 := rfl
  simp only [Matrix.cons_val_zero, Matrix.cons_val_one, h6]
  rw [h4, h5]
  norm_num

end Verif.Props
