import Verif.Model.TrendFilter
import Verif.Lemmas.Slope
import Mathlib.Tactic.FieldSimp
import Mathlib.Algebra.BigOperators.Field

/-! # Divided differences -/

set_option linter.unusedSectionVars false
set_option linter.unusedVariables false

namespace Verif.Lemmas.Trend
open Verif.Model Verif.Model.TrendFilter

variable {K : Type*} [Field K] [LinearOrder K] [IsStrictOrderedRing K]

/-- the divided difference as a recursion on values -/
def dd (X f : ℕ → K) : ℕ → ℕ → K
  | 0, i => f i
  | j + 1, i => invStep (X (i + (j + 1)) - X i) * (dd X f j (i + 1) - dd X f j i)

lemma mat_dd (X f : ℕ → K) (n : ℕ) : ∀ j i, i + j < n → ∑ l ∈ Finset.range n, diffMat X n j i l * f l = dd X f j i := by
  intro j
  induction j with
  | zero =>
    intro i hi
    simp only [diffMat, dd, ite_mul, one_mul, zero_mul]
    rw [Finset.sum_ite_eq, if_pos (Finset.mem_range.2 (by omega))]
  | succ j ih =>
    intro i hi
    simp only [diffMat, Finset.sum_mul]
    rw [Finset.sum_comm]
    have h1 : ∀ c ∈ Finset.range (n - j), ∑ l ∈ Finset.range n, Dstep X (j + 1) i c * diffMat X n j c l * f l =
        Dstep X (j + 1) i c * dd X f j c := by
      intro c hc
      rw [← ih c (by have := Finset.mem_range.1 hc; omega), Finset.mul_sum]
      exact Finset.sum_congr rfl fun l _ => by ring
    rw [Finset.sum_congr rfl h1]
    simp only [Dstep, dd, mul_assoc, ← Finset.mul_sum]
    congr 1
    simp only [add_mul, Finset.sum_add_distrib, ite_mul, zero_mul, one_mul, Finset.sum_ite_eq', Finset.mem_range]
    rw [if_pos (by omega), if_pos (by omega)]; ring

lemma dd_lin (X : ℕ → K) (N : ℕ) (a : ℕ → K) (g : ℕ → ℕ → K) : ∀ j i,
    dd X (fun l => ∑ k ∈ Finset.range N, a k * g k l) j i = ∑ k ∈ Finset.range N, a k * dd X (g k) j i := by
  intro j
  induction j with
  | zero => intro i; rfl
  | succ j ih =>
    intro i
    simp only [dd, ih]
    rw [← Finset.sum_sub_distrib, Finset.mul_sum]
    exact Finset.sum_congr rfl fun k _ => by ring

lemma dd_mul (X h : ℕ → K) (hX : ∀ i j, 1 ≤ j → X (i + j) ≠ X i) : ∀ j i,
    dd X (fun l => X l * h l) (j + 1) i = X i * dd X h (j + 1) i + dd X h j (i + 1) := by
  have inv : ∀ i j, 1 ≤ j → invStep (X (i + j) - X i) * (X (i + j) - X i) = 1 := by
    intro i j hj
    have : X (i + j) - X i ≠ 0 := sub_ne_zero.2 (hX i j hj)
    rw [invStep, if_pos this]; field_simp
  intro j
  induction j with
  | zero =>
    intro i
    simp only [dd, zero_add]
    have := inv i 1 le_rfl
    linear_combination h (i+1) * this
  | succ j ih =>
    intro i
    rw [dd, ih, ih]
    have h1 : dd X h j (i + 1 + 1) - dd X h j (i + 1) = (X (i + 1 + (j + 1)) - X (i + 1)) * dd X h (j + 1) (i + 1) := by
      rw [show dd X h (j + 1) (i + 1) = invStep (X (i + 1 + (j + 1)) - X (i + 1)) * (dd X h j (i + 1 + 1) - dd X h j (i + 1)) from rfl]
      have := inv (i + 1) (j + 1) (by omega)
      linear_combination (-(dd X h j (i + 1 + 1) - dd X h j (i + 1))) * this
    rw [show dd X h (j + 1 + 1) i = invStep (X (i + (j + 1 + 1)) - X i) * (dd X h (j + 1) (i + 1) - dd X h (j + 1) i) from rfl]
    have e : i + 1 + (j + 1) = i + (j + 1 + 1) := by ring
    rw [e] at h1
    have h2 := inv i (j + 1 + 1) (by omega)
    linear_combination invStep (X (i + (j + 1 + 1)) - X i) * h1 + dd X h (j + 1) (i + 1) * h2

lemma dd_const (X : ℕ → K) (c : K) : ∀ j i, dd X (fun _ => c) (j + 1) i = 0 := by
  intro j
  induction j with
  | zero => intro i; simp [dd]
  | succ j ih => intro i; rw [dd, ih, ih]; ring

lemma dd_pow (X : ℕ → K) (hX : ∀ i j, 1 ≤ j → X (i + j) ≠ X i) : ∀ k j i, k ≤ j →
    dd X (fun l => X l ^ k) j i = if k = j then 1 else 0 := by
  intro k
  induction k with
  | zero =>
    intro j i _
    simp only [pow_zero]
    cases j with
    | zero => simp [dd]
    | succ j => rw [dd_const]; simp
  | succ k ih =>
    intro j i hj
    obtain ⟨j, rfl⟩ : ∃ t, j = t + 1 := ⟨j - 1, by omega⟩
    have : (fun l => X l ^ (k + 1)) = fun l => X l * X l ^ k := by funext l; ring
    rw [this, dd_mul X _ hX, ih (j + 1) i (by omega), ih j (i + 1) (by omega), if_neg (by omega : ¬ k = j + 1)]
    simp

/-- congruence: only the knots below `n` matter -/
lemma dd_congr (X Y f g : ℕ → K) (n : ℕ) (hX : ∀ l < n, X l = Y l) (hf : ∀ l < n, f l = g l) :
    ∀ j i, i + j < n → dd X f j i = dd Y g j i := by
  intro j
  induction j with
  | zero => intro i hi; exact hf i (by omega)
  | succ j ih =>
    intro i hi
    simp only [dd]
    rw [ih (i + 1) (by omega), ih i (by omega), hX _ hi, hX i (by omega)]

lemma cumSteps_succ {n : ℕ} (knots : Fin n → K) (x : ℕ → K) (i : ℕ) :
    cumSteps knots x (i + 1) - cumSteps knots x i = x i * steps knots i := by
  simp [cumSteps, Finset.sum_range_succ]

lemma tf_one {n : ℕ} (knots : Fin n → K) (x : ℕ → K) (i : ℕ) (hi : i + 1 < n) :
    trendFilterLin knots 1 x i = invStep (arr knots (i + 1) - arr knots i) * (x (i + 1) - x i) := by
  unfold trendFilterLin differenceTransform
  simp only [if_true]
  rw [mat_dd _ _ _ 1 i hi]
  rfl

end Verif.Lemmas.Trend
