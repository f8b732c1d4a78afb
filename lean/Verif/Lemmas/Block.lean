import Verif.Model.BlockNorms
import Verif.Spec.Block
import Verif.Spec.Gauge
import Verif.Lemmas.L2
import Verif.Lemmas.SoftThr
import Mathlib.Tactic.FieldSimp

/-! Facts about row-wise shrinkage of matrices. -/

set_option linter.unusedSectionVars false
set_option linter.unusedVariables false

namespace Verif.Lemmas
open Verif.Model Verif.Model.Block Verif.Spec

variable {n p : ℕ}

/-- row `i` -/
def row (X : Mat n p) (i : Fin n) : Fin p → ℝ := fun j => X (i, j)

lemma rowNorm_eq (X : Mat n p) (i : Fin n) : rowNorm X i = npNorm (row X i) := rfl
lemma rowNorm2_eq (X : Mat n p) (i : Fin n) : rowNorm2 X i = rowNorm X i := rfl
lemma rowNorm_nonneg (X : Mat n p) (i : Fin n) : 0 ≤ rowNorm X i := Real.sqrt_nonneg _

lemma rowNorm_eq_zero (X : Mat n p) (i : Fin n) : rowNorm X i = 0 ↔ ∀ k, X (i, k) = 0 := by
  constructor
  · intro h; exact npNorm_eq_zero (x := row X i) h
  · intro h; unfold rowNorm; simp [h]

lemma sum_rows (f : Fin n × Fin p → ℝ) : ∑ ij, f ij = ∑ i, ∑ j, f (i, j) := Fintype.sum_prod_type f

/-- rows shrunk by `c` -/
noncomputable def shrink (X : Mat n p) (c : ℝ) : Mat n p := fun ij =>
  X ij * (max (rowNorm X ij.1 - c) 0 / rowNorm X ij.1)

lemma rowNorm_shrink (X : Mat n p) {c : ℝ} (hc : 0 ≤ c) (i : Fin n) : rowNorm (shrink X c) i = max (rowNorm X i - c) 0 := by
  have h0 := rowNorm_nonneg X i
  have e : row (shrink X c) i = fun j => (max (rowNorm X i - c) 0 / rowNorm X i) * row X i j := by
    funext j; unfold row shrink; dsimp only; ring
  rw [rowNorm_eq, e, npNorm_smul, ← rowNorm_eq, abs_of_nonneg (div_nonneg (le_max_right _ _) h0)]
  by_cases h : rowNorm X i = 0
  · rw [h, mul_zero, max_eq_right (by linarith)]
  · field_simp

lemma shrink_row_sub (X : Mat n p) {c : ℝ} (hc : 0 ≤ c) (i : Fin n) (z : Mat n p) :
    c * rowNorm (shrink X c) i + ∑ j, (X (i, j) - shrink X c (i, j)) * (z (i, j) - shrink X c (i, j)) ≤ c * rowNorm z i := by
  have h := l2_lagrange_sub (row X i) (L := 1) (lam := c) one_pos hc (row z i)
  have e : L2.lagrangeProx (row X i) 1 c = row (shrink X c) i := by
    funext j
    unfold L2.lagrangeProx row shrink
    dsimp only
    rw [div_one, one_mul]
    have hn : npNorm (fun j => X (i, j)) = rowNorm X i := rfl
    rw [hn]
    by_cases hle : rowNorm X i ≤ c
    · rw [if_pos hle, max_eq_right (by linarith)]; simp
    · rw [if_neg hle]
      push Not at hle
      rw [max_eq_left (by linarith)]
      have : rowNorm X i ≠ 0 := by linarith
      field_simp
  rw [e, one_mul] at h
  exact h

lemma shrink_sub (X : Mat n p) {c : ℝ} (hc : 0 ≤ c) (z : Mat n p) :
    c * ∑ i, rowNorm (shrink X c) i + ∑ ij, (X ij - shrink X c ij) * (z ij - shrink X c ij) ≤ c * ∑ i, rowNorm z i := by
  rw [sum_rows, Finset.mul_sum, Finset.mul_sum, ← Finset.sum_add_distrib]
  exact Finset.sum_le_sum fun i _ => shrink_row_sub X hc i z

/-- the cut found by the root finder on the row norms -/
lemma findC_rows (X : Mat (n + 1) p) {b : ℝ} (hb : 0 ≤ b) :
    ∃ cut, findC b 0 (List.ofFn (rowNorm X)) = some cut ∧ 0 ≤ cut ∧
      ((cut = 0 ∧ ∑ i, rowNorm (shrink X cut) i < b) ∨ ∑ i, rowNorm (shrink X cut) i = b) := by
  obtain ⟨cut, h1, h2, h3⟩ := findC_cut (List.ofFn (rowNorm X)) (by simp)
    (by intro a ha; obtain ⟨i, rfl⟩ := (List.mem_ofFn' _ _).1 ha; exact rowNorm_nonneg _ _) hb
  refine ⟨cut, h1, h2, ?_⟩
  have e : ∑ i, rowNorm (shrink X cut) i = hinge (List.ofFn (rowNorm X)) cut := by
    rw [hinge_ofFn]; exact Finset.sum_congr rfl fun i _ => rowNorm_shrink X h2 i
  rcases h3 with ⟨h, h'⟩ | h
  · left
    refine ⟨h, ?_⟩
    rw [List.sum_ofFn] at h'
    calc ∑ i, rowNorm (shrink X cut) i = ∑ i, rowNorm X i := Finset.sum_congr rfl fun i _ => by
          rw [rowNorm_shrink X h2, h, sub_zero, max_eq_left (rowNorm_nonneg X i)]
      _ < b := h'
  · right; rw [e, h]

/-- the two ways the code writes the shrinkage factor -/
lemma cut_factor (a c : ℝ) : (a - c) * b2k (a > c) = max (a - c) 0 := by
  unfold b2k
  split_ifs with h
  · rw [mul_one, max_eq_left (by linarith)]
  · rw [mul_zero, max_eq_right (by linarith)]

lemma fdiv_zero_rows (X : Mat n p) (f : Fin n → ℝ) :
    ExceptZeroRows X (fun ij => (fdiv (f ij.1) (rowNorm X ij.1)).map fun m => X ij * m)
      fun ij => X ij * (f ij.1 / rowNorm X ij.1) := by
  classical
  intro i j
  unfold fdiv
  dsimp only
  by_cases h : rowNorm X i = 0
  · rw [if_pos h, if_pos ((rowNorm_eq_zero X i).1 h)]; rfl
  · rw [if_neg h, if_neg (fun h' => h ((rowNorm_eq_zero X i).2 h'))]; rfl

lemma inner_rows (x z : Mat n p) : ∑ ij, x ij * z ij ≤ ∑ i, rowNorm x i * rowNorm z i := by
  rw [sum_rows]
  exact Finset.sum_le_sum fun i _ => cauchy (row x i) (row z i)

/-! ### flattened versions -/

lemma flat_sum (X : Mat n p) (f : ℝ → ℝ) : ((flat X).map f).sum = ∑ ij, f (X ij) := by
  unfold flat
  rw [List.map_ofFn, List.sum_ofFn]
  exact Fintype.sum_equiv finProdFinEquiv.symm _ _ fun k => rfl

lemma findC_flat (X : Mat (n + 1) (p + 1)) {b : ℝ} (hb : 0 ≤ b) :
    ∃ cut, findC b 0 ((flat X).map fun a => |a|) = some cut ∧ 0 ≤ cut ∧
      ((cut = 0 ∧ ∑ ij, |softThr (X ij) cut| < b) ∨ ∑ ij, |softThr (X ij) cut| = b) := by
  obtain ⟨cut, h1, h2, h3⟩ := findC_cut ((flat X).map fun a => |a|)
    (by
      have : ((flat X).map fun a => |a|).length ≠ 0 := by
        unfold flat
        rw [List.length_map, List.length_ofFn]
        exact Nat.mul_ne_zero (by omega) (by omega)
      intro e; rw [e] at this; exact this rfl)
    (by intro a ha; obtain ⟨i, _, rfl⟩ := List.mem_map.1 ha; exact abs_nonneg _) hb
  refine ⟨cut, h1, h2, ?_⟩
  rcases h3 with ⟨h, h'⟩ | h
  · left
    refine ⟨h, ?_⟩
    rw [flat_sum X fun a => |a|] at h'
    subst h
    simpa [softThr_zero] using h'
  · right
    unfold hinge at h
    rw [List.map_map, flat_sum] at h
    rw [← h]
    exact Finset.sum_congr rfl fun ij _ => softThr_abs _ h2

lemma l1_vi_gen {ι : Type*} [Fintype ι] {x z : ι → ℝ} {cut b : ℝ} (hc : 0 ≤ cut)
    (hor : (cut = 0 ∧ ∑ i, |softThr (x i) cut| < b) ∨ ∑ i, |softThr (x i) cut| = b)
    (hz : ∑ i, |z i| ≤ b) :
    ∑ i, (x i - softThr (x i) cut) * (z i - softThr (x i) cut) ≤ 0 := by
  have h1 : ∀ i, (x i - softThr (x i) cut) * (z i - softThr (x i) cut) ≤
      cut * |z i| - cut * |softThr (x i) cut| := by
    intro i
    rw [mul_sub, softThr_mul _ hc]
    have : (x i - softThr (x i) cut) * z i ≤ cut * |z i| := by
      calc (x i - softThr (x i) cut) * z i ≤ |(x i - softThr (x i) cut) * z i| := le_abs_self _
        _ = |x i - softThr (x i) cut| * |z i| := abs_mul _ _
        _ ≤ cut * |z i| := mul_le_mul_of_nonneg_right (softThr_resid _ hc) (abs_nonneg _)
    linarith
  calc ∑ i, (x i - softThr (x i) cut) * (z i - softThr (x i) cut)
      ≤ ∑ i, (cut * |z i| - cut * |softThr (x i) cut|) := Finset.sum_le_sum fun i _ => h1 i
    _ = cut * (∑ i, |z i| - ∑ i, |softThr (x i) cut|) := by
        rw [mul_sub, Finset.mul_sum, Finset.mul_sum, Finset.sum_sub_distrib]
    _ ≤ 0 := by
        rcases hor with ⟨rfl, _⟩ | h
        · simp
        · rw [h]; nlinarith

lemma isDualNorm_of {ι : Type*} [Fintype ι] {h : (ι → ℝ) → ℝ} {x : ι → ℝ} {g : ℝ}
    (hub : ∀ z, h z ≤ 1 → dot x z ≤ g) (hat : ∃ z, h z ≤ 1 ∧ dot x z = g) : IsDualNorm h x g := by
  constructor
  · rintro t ⟨z, hz, rfl⟩; exact hub z hz
  · intro u hu
    obtain ⟨z, hz, e⟩ := hat
    rw [← e]; exact hu ⟨z, hz, rfl⟩

end Verif.Lemmas
