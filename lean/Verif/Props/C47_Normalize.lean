import Verif.Props.C24_Affine
import Mathlib.Algebra.BigOperators.Field
import Mathlib.Tactic.NormNum

/-!
# C47: `normalize`
-/

set_option linter.unusedSectionVars false
set_option linter.unusedVariables false

namespace Verif.Props
open Verif.Model Verif.Spec

/-- the column after the optional centering -/
noncomputable def centeredCol {n p : ℕ} (ctr : Bool) (M : Fin n → Fin p → ℝ) (j : Fin p) (i : Fin n) : ℝ :=
  if ctr then M i j - (∑ l, M l j) / n else M i j

private lemma sum_center {n : ℕ} (x : Fin n → ℝ) : ∑ i, Aff.center x i = 0 := by
  unfold Aff.center
  rw [Finset.sum_sub_distrib, Finset.sum_const, Finset.card_univ, Fintype.card_fin, nsmul_eq_mul]
  by_cases h : n = 0
  · subst h; simp
  · have : (n:ℝ) ≠ 0 := by exact_mod_cast h
    field_simp; ring

private lemma sum_sq_center {n : ℕ} (x : Fin n → ℝ) :
    ∑ i, Aff.center x i ^ 2 = ∑ i, x i ^ 2 - n * ((∑ i, x i) / n) ^ 2 := by
  have h1 : ∀ i, Aff.center x i ^ 2 = x i ^ 2 - 2 * ((∑ i, x i) / n) * x i + ((∑ i, x i) / n) ^ 2 := by
    intro i; unfold Aff.center; ring
  simp only [h1, Finset.sum_add_distrib, Finset.sum_sub_distrib, ← Finset.mul_sum]
  rw [Finset.sum_const, Finset.card_univ, Fintype.card_fin, nsmul_eq_mul]
  by_cases h : n = 0
  · subst h; simp
  · have : (n:ℝ) ≠ 0 := by exact_mod_cast h
    field_simp; ring

/-- the scale used by `normalize` -/
private lemma colScale_eq {n p : ℕ} (M : Fin n → Fin p → ℝ) (ctr : Bool) (j : Fin p) :
    ∑ i, M i j ^ 2 - n * ((if ctr then fun j => (∑ i, M i j) / (n:ℝ) else fun _ => 0) j) ^ 2 =
      ∑ i, centeredCol ctr M j i ^ 2 := by
  cases ctr
  · simp [centeredCol]
  · simp only [if_true, centeredCol]
    exact (sum_sq_center fun i => M i j).symm

private lemma lin_single {n p : ℕ} (M : Fin n → Fin p → ℝ) (d : Fin p → ℝ) (x : Fin p → ℝ) (i : Fin n) :
    (Aff.composition (.matrix M none) (.diag d none)).lin x i = ∑ j, M i j * (d j * x j) := rfl

/-- C47: `normalize` fails only for sparse input with `center=False, scale=True` (`tmp` is undefined). -/
theorem C47_sparse_fails {n p : ℕ} (M : Fin n → Fin p → ℝ) (ddof value : ℝ) :
    Aff.normCore true M false true ddof value = none := by
  unfold Aff.normCore; simp

/-- C47: in every other case a transform is returned. -/
theorem C47_returns_partial {n p : ℕ} (sp : Bool) (M : Fin n → Fin p → ℝ) (ctr scale : Bool) (ddof value : ℝ)
    (h : ¬ (sp = true ∧ ctr = false ∧ scale = true)) : ∃ T, Aff.normCore sp M ctr scale ddof value = some T := by
  unfold Aff.normCore; rw [if_neg h]; exact ⟨_, rfl⟩

/-- C47: without scaling the result is the (centered) matrix. -/
theorem C47_unscaled {n p : ℕ} (sp : Bool) (M : Fin n → Fin p → ℝ) (ctr : Bool) (ddof value : ℝ) (T : Aff ℝ p n)
    (hT : Aff.normCore sp M ctr false ddof value = some T) (x : Fin p → ℝ) (i : Fin n) :
    T.lin x i = ∑ j, centeredCol ctr M j i * x j := by
  unfold Aff.normCore at hT
  rw [if_neg (by simp)] at hT
  injection hT with hT
  subst hT
  cases ctr
  · simp only [Bool.false_eq_true, if_false, centeredCol]; rfl
  · simp only [Bool.false_eq_true, if_false, if_true, centeredCol]
    show (∑ j, M i j * x j) - (∑ l, ∑ j, M l j * x j) / n = _
    rw [Finset.sum_comm]
    simp only [sub_mul, Finset.sum_sub_distrib, Finset.sum_div, Finset.sum_mul]
    congr 1
    refine Finset.sum_congr rfl fun j _ => Finset.sum_congr rfl fun l _ => by ring

/-- C47: with `center=True` every value of `linear_map` sums to zero; the adjoint is right in all cases, also with the
intercept column added. -/
theorem C47_centered {n p : ℕ} (sp : Bool) (M : Fin n → Fin p → ℝ) (ctr scale : Bool) (ddof value : ℝ) (T : Aff ℝ p n)
    (hT : Aff.normCore sp M ctr scale ddof value = some T) :
    (ctr = true → ∀ x, ∑ i, T.lin x i = 0) ∧ IsAdjoint T.lin T.adj ∧
      IsAdjoint (Aff.addIntercept T).lin (Aff.addIntercept T).adj := by
  have hd : distinctSelectors T ∧ (ctr = true → ∀ x, ∑ i, T.lin x i = 0) := by
    unfold Aff.normCore at hT
    by_cases h1 : sp = true ∧ ctr = false ∧ scale = true
    · rw [if_pos h1] at hT; cases hT
    rw [if_neg h1] at hT
    injection hT with hT
    subst hT
    cases ctr <;> cases scale
    · exact ⟨trivial, by simp⟩
    · exact ⟨⟨trivial, trivial⟩, by simp⟩
    · exact ⟨⟨trivial, trivial⟩, fun _ x => sum_center _⟩
    · exact ⟨⟨trivial, trivial, trivial⟩, fun _ x => sum_center _⟩
  exact ⟨hd.2, C24_adjoint_partial T hd.1, C24_adjoint_partial _ hd.1⟩

/-- C47: with `scale=True` every column that is not constant (not zero, without centering) has sum of squares
`value² (n - ddof)` (`value² (n - ddof + 1)` without centering), the others are zero. -/
theorem C47_scaled {n p : ℕ} (sp : Bool) (M : Fin n → Fin p → ℝ) (ctr : Bool) (ddof value : ℝ) (T : Aff ℝ p n)
    (hT : Aff.normCore sp M ctr true ddof value = some T)
    (hdf : 0 < (n:ℝ) - (if ctr then ddof else ddof - 1)) (j : Fin p) :
    ((∃ i, centeredCol ctr M j i ≠ 0) →
      ∑ i, T.lin (Pi.single j 1) i ^ 2 = value ^ 2 * (n - (if ctr then ddof else ddof - 1)) ∧
      (0 < value → ∃ c, 0 < c ∧ ∀ i, T.lin (Pi.single j 1) i = c * centeredCol ctr M j i)) ∧
    ((∀ i, centeredCol ctr M j i = 0) → ∀ i, T.lin (Pi.single j 1) i = 0) := by
  set df : ℝ := (n:ℝ) - (if ctr then ddof else ddof - 1) with hdfe
  set S : ℝ := ∑ i, centeredCol ctr M j i ^ 2 with hS
  have hS0 : 0 ≤ S := Finset.sum_nonneg fun i _ => sq_nonneg _
  set inv : ℝ := if Real.sqrt (S / df) > 0 then 1 / Real.sqrt (S / df) else 0 with hinv
  have hcol : ∀ i, T.lin (Pi.single j 1) i = inv * value * centeredCol ctr M j i := by
    unfold Aff.normCore at hT
    by_cases h1 : sp = true ∧ ctr = false ∧ true = true
    · rw [if_pos h1] at hT; cases hT
    rw [if_neg h1] at hT
    injection hT with hT
    subst hT
    have hsum : ∀ (d : Fin p → ℝ) (l : Fin n), ∑ j', M l j' * (d j' * (Pi.single j 1 : Fin p → ℝ) j') = M l j * d j := by
      intro d l
      rw [Finset.sum_eq_single j]
      · simp
      · intro b _ hb; rw [Pi.single_eq_of_ne hb]; ring
      · simp
    intro i
    have hd : (if Real.sqrt ((∑ i, M i j ^ 2 - n * ((if ctr then fun j => (∑ i, M i j) / (n:ℝ) else fun _ => 0) j) ^ 2) / df) > 0
        then 1 / Real.sqrt ((∑ i, M i j ^ 2 - n * ((if ctr then fun j => (∑ i, M i j) / (n:ℝ) else fun _ => 0) j) ^ 2) / df)
        else 0) = inv := by
      rw [colScale_eq, ← hS]
    cases ctr
    · simp only [Bool.false_eq_true, if_false, if_true, centeredCol] at hd hdfe ⊢
      rw [hdfe] at hd
      rw [lin_single, hsum, ← hd]; ring
    · simp only [if_true, centeredCol] at hd hdfe ⊢
      rw [hdfe] at hd
      show (Aff.composition (.matrix M none) (.diag _ none)).lin _ i -
        (∑ l, (Aff.composition (.matrix M none) (.diag _ none)).lin _ l) / n = _
      simp only [lin_single, hsum, ← Finset.sum_mul]
      rw [← hd]; ring
  constructor
  · rintro ⟨i0, hi0⟩
    have hSp : 0 < S := by
      rw [hS]
      apply Finset.sum_pos'
      · intro i _; exact sq_nonneg _
      · exact ⟨i0, Finset.mem_univ _, by positivity⟩
    have hq : 0 < Real.sqrt (S / df) := Real.sqrt_pos.2 (div_pos hSp hdf)
    have hi : inv = 1 / Real.sqrt (S / df) := by rw [hinv, if_pos hq]
    constructor
    · simp only [hcol, mul_pow, ← Finset.mul_sum]
      rw [← hS, hi, div_pow, Real.sq_sqrt (div_nonneg hS0 hdf.le)]
      field_simp
    · intro hv
      exact ⟨inv * value, by rw [hi]; positivity, hcol⟩
  · intro h0 i
    rw [hcol, h0 i, mul_zero]

/-- hypotheses met: a 2 x 1 matrix with entries 1, 3 -/
example : ∃ T, Aff.normCore false (fun (i : Fin 2) (_ : Fin 1) => 1 + 2 * (i.val : ℝ)) true true 1 1 = some T ∧
    ∑ i, T.lin (Pi.single 0 1) i ^ 2 = 1 ∧ ∀ x, ∑ i, T.lin x i = 0 := by
  obtain ⟨T, hT⟩ := C47_returns_partial false (fun (i : Fin 2) (_ : Fin 1) => 1 + 2 * (i.val : ℝ)) true true 1 1 (by simp)
  refine ⟨T, hT, ?_, (C47_centered _ _ _ _ _ _ T hT).1 rfl⟩
  have := (C47_scaled false _ true 1 1 T hT (by norm_num) 0).1 ⟨0, by norm_num [centeredCol, Fin.sum_univ_two]⟩
  rw [this.1]; norm_num

end Verif.Props
