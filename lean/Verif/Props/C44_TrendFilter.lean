import Verif.Lemmas.TrendFilter
import Mathlib.Data.Fin.VecNotation
import Mathlib.Tactic.FinCases
import Mathlib.Tactic.FieldSimp
import Mathlib.Algebra.BigOperators.Field

/-!
# C44: difference operators and the trend filter inverse
-/

set_option linter.unusedSectionVars false
set_option linter.unusedVariables false

namespace Verif.Props
open Verif.Model Verif.Model.TrendFilter Verif.Lemmas.Trend

variable {K : Type*} [Field K] [LinearOrder K] [IsStrictOrderedRing K]

private lemma diff_poly {n : ℕ} (Y : Fin n → K) (hY : Function.Injective Y) (order : ℕ) (a : ℕ → K) (i : ℕ)
    (hi : i + order < n) :
    ∑ l : Fin n, diffMat (arr Y) n order i l * ∑ k ∈ Finset.range (order + 1), a k * Y l ^ k = a order := by
  -- extend the knots injectively beyond `n`
  obtain ⟨B, hB⟩ : ∃ B, ∀ l : Fin n, Y l < B := by
    refine ⟨∑ l, |Y l| + 1, fun l => ?_⟩
    have := Finset.single_le_sum (f := fun l => |Y l|) (fun j _ => abs_nonneg _) (Finset.mem_univ l)
    have h2 := le_abs_self (Y l)
    linarith
  set X : ℕ → K := fun l => if h : l < n then Y ⟨l, h⟩ else B + l with hXd
  have hX : ∀ i j, 1 ≤ j → X (i + j) ≠ X i := by
    intro i j hj h
    simp only [hXd] at h
    split_ifs at h with h1 h2 h2
    · have := hY h; simp at this; omega
    · omega
    · have := hB ⟨i, h2⟩
      have h3 : (0:K) ≤ ((i + j : ℕ) : K) := Nat.cast_nonneg _
      linarith
    · have : ((i + j : ℕ) : K) = (i : K) := by linarith
      have := Nat.cast_injective this
      omega
  have e1 : ∀ l < n, arr Y l = X l := by
    intro l hl; simp [arr, hXd, hl]
  have : ∑ l : Fin n, diffMat (arr Y) n order i l * ∑ k ∈ Finset.range (order + 1), a k * Y l ^ k =
      ∑ l ∈ Finset.range n, diffMat (arr Y) n order i l * ∑ k ∈ Finset.range (order + 1), a k * X l ^ k := by
    rw [Finset.sum_range]
    refine Finset.sum_congr rfl fun l _ => ?_
    rw [show Y l = X l by simp [hXd]]
  rw [this, mat_dd (arr Y) (fun l => ∑ k ∈ Finset.range (order + 1), a k * X l ^ k) n order i hi,
    dd_congr (arr Y) X _ (fun l => ∑ k ∈ Finset.range (order + 1), a k * X l ^ k) n e1 (fun _ _ => rfl) order i hi,
    dd_lin X (order + 1) a (fun k l => X l ^ k)]
  rw [Finset.sum_congr rfl fun k hk => by rw [dd_pow X hX k order i (by have := Finset.mem_range.1 hk; omega)]]
  simp

/-- C44: for pairwise distinct knots (in any order; sorted first with `sorted=False`), row `i` of
`difference_transform(X, order)` maps the values at the (sorted) knots of a polynomial `Σ_{k ≤ order} a_k t^k` to its
leading coefficient `a_order`; in particular polynomials of degree `< order` are annihilated. -/
theorem C44_differences_of_polynomials {n : ℕ} (X : Fin n → K) (hX : Function.Injective X) (order : ℕ) (sorted : Bool)
    (a : ℕ → K) (i : ℕ) (hi : i + order < n) :
    ∑ l : Fin n, differenceTransform X order sorted i l *
        ∑ k ∈ Finset.range (order + 1), a k * (if sorted then X l else Slope.npSort X l) ^ k = a order := by
  unfold differenceTransform
  cases sorted
  · simp only [Bool.false_eq_true, if_false]
    exact diff_poly (Slope.npSort X) (fun a b h => (Tuple.sort X).injective (hX h)) order a i hi
  · simp only [if_true]
    exact diff_poly X hX order a i hi

/-- C44: the same for `trend_filter`, and `adjoint_map` is its transpose. -/
theorem C44_trend_filter {n : ℕ} (knots : Fin n → K) (order : ℕ) :
    (Function.Injective knots → ∀ (a : ℕ → K) i, i + order < n →
      trendFilterLin knots order (fun l => ∑ k ∈ Finset.range (order + 1), a k * arr knots l ^ k) i = a order) ∧
    ∀ x u : ℕ → K, ∑ i ∈ Finset.range (n - order), trendFilterLin knots order x i * u i =
      ∑ l ∈ Finset.range n, x l * trendFilterAdj knots order u l := by
  constructor
  · intro hk a i hi
    have := C44_differences_of_polynomials knots hk order true a i hi
    rw [← this]
    unfold trendFilterLin
    rw [Finset.sum_range]
    refine Finset.sum_congr rfl fun l _ => ?_
    simp [arr]
  · intro x u
    unfold trendFilterLin trendFilterAdj
    simp only [Finset.sum_mul, Finset.mul_sum]
    rw [Finset.sum_comm]
    exact Finset.sum_congr rfl fun l _ => Finset.sum_congr rfl fun i _ => by ring

/-- C44: with sorted knots the first order trend filter undoes `trend_filter_inverse` at every position where the two
knots differ (everywhere for distinct knots), and the output of `trend_filter_inverse` has mean zero for any knots.
Missing: unsorted knots, see `C44_unsorted_inverse_fails`. -/
theorem C44_right_inverse_partial {n : ℕ} (knots : Fin n → K) (x : ℕ → K) :
    (Monotone knots → ∀ i, i + 1 < n → arr knots (i + 1) ≠ arr knots i →
      trendFilterLin knots 1 (inverseLin knots x) i = x i) ∧
    ∑ i ∈ Finset.range n, inverseLin knots x i = 0 := by
  constructor
  · intro hk i hi hne
    have hs : Slope.npSort knots = knots := by
      have := Lemmas.npSort_eq (σ := 1) (f := knots) (by simpa using hk)
      simpa using this
    rw [tf_one knots _ i hi]
    have e : inverseLin knots x (i + 1) - inverseLin knots x i = x i * steps knots i := by
      unfold inverseLin
      rw [← cumSteps_succ]; ring
    rw [e]
    unfold steps
    rw [hs]
    have h0 : arr knots (i + 1) - arr knots i ≠ 0 := sub_ne_zero.2 hne
    rw [invStep, if_pos h0]
    field_simp
  · unfold inverseLin
    rw [Finset.sum_sub_distrib, Finset.sum_const, Finset.card_range, nsmul_eq_mul]
    by_cases h : n = 0
    · subst h; simp
    · have : (n:K) ≠ 0 := by exact_mod_cast h
      field_simp; ring

/-- C44: `adjoint_map` of `trend_filter_inverse` is the transpose of `linear_map` on 1-dimensional arrays. -/
theorem C44_inverse_adjoint_partial {n : ℕ} (knots : Fin n → K) (x u : ℕ → K) :
    ∑ i ∈ Finset.range n, inverseLin knots x i * u i = ∑ l ∈ Finset.range (n - 1), x l * inverseAdj knots u l := by
  by_cases hn : n = 0
  · subst hn; simp
  have hn0 : (n:K) ≠ 0 := by exact_mod_cast hn
  set ub : K := (∑ t ∈ Finset.range n, u t) / n with hub
  have h1 : ∑ i ∈ Finset.range n, inverseLin knots x i * u i = ∑ i ∈ Finset.range n, cumSteps knots x i * (u i - ub) := by
    unfold inverseLin
    simp only [sub_mul, mul_sub, Finset.sum_sub_distrib]
    congr 1
    rw [← Finset.mul_sum, ← Finset.sum_mul, hub]
    field_simp
  rw [h1]
  unfold inverseAdj
  rw [← hub]
  simp only [cumSteps, Finset.sum_mul]
  have h2 : ∀ l ∈ Finset.range (n - 1), x l * (∑ i ∈ Finset.Ico (l + 1) n, (u i - ub) * steps knots l) =
      ∑ i ∈ Finset.Ico (l + 1) n, x l * steps knots l * (u i - ub) := by
    intro l _
    rw [Finset.mul_sum]
    exact Finset.sum_congr rfl fun i _ => by ring
  rw [Finset.sum_congr rfl h2]
  refine Finset.sum_comm' ?_
  intro i l
  simp only [Finset.mem_range, Finset.mem_Ico]
  omega

/-- C44 fails for unsorted knots: `trend_filter_inverse` uses the steps of the sorted knots, `trend_filter` those of the
knots as given, so with knots `1, 0` the composition is `-1` instead of the identity. -/
theorem C44_unsorted_inverse_fails : ∃ knots : Fin 2 → ℚ, Function.Injective knots ∧
    trendFilterLin knots 1 (inverseLin knots fun _ => 1) 0 ≠ 1 := by
  refine ⟨![1, 0], by intro a b; fin_cases a <;> fin_cases b <;> simp, ?_⟩
  rw [tf_one _ _ 0 (by norm_num)]
  have e : inverseLin (![1, 0] : Fin 2 → ℚ) (fun _ => 1) (0 + 1) - inverseLin (![1, 0] : Fin 2 → ℚ) (fun _ => 1) 0 = steps (![1, 0] : Fin 2 → ℚ) 0 := by
    unfold inverseLin
    have := cumSteps_succ (![1, 0] : Fin 2 → ℚ) (fun _ => 1) 0
    rw [one_mul] at this
    rw [← this]; ring
  rw [e]
  have hs : Slope.npSort (![1, 0] : Fin 2 → ℚ) = ![0, 1] := by
    rw [Lemmas.npSort_eq (σ := Equiv.swap 0 1)]
    · funext i; fin_cases i <;> simp
    · intro a b hab
      fin_cases a <;> fin_cases b <;> simp at hab ⊢
  unfold steps
  rw [hs]
  norm_num [arr, invStep]

/-- C44 fails for 2-dimensional arrays: `adjoint_map` accumulates along the wrong axis. -/
theorem C44_inverse_adjoint_2d_fails : ∃ (knots : Fin 3 → ℚ) (x u : ℕ → ℕ → ℚ),
    ∑ i ∈ Finset.range 3, ∑ c ∈ Finset.range 1, inverseLin2 knots x i c * u i c ≠
      ∑ l ∈ Finset.range 2, ∑ c ∈ Finset.range 1, x l c * inverseAdj2 knots u l c := by
  refine ⟨![0, 1, 2], fun l _ => if l = 0 then 1 else 0, fun i _ => if i = 0 then -1 else if i = 2 then 1 else 0, ?_⟩
  have hs : Slope.npSort (![0, 1, 2] : Fin 3 → ℚ) = ![0, 1, 2] := by
    have := Lemmas.npSort_eq (σ := 1) (f := (![0, 1, 2] : Fin 3 → ℚ)) (by
      intro a b hab
      fin_cases a <;> fin_cases b <;> simp at hab ⊢)
    simpa using this
  simp only [inverseLin2, inverseLin, inverseAdj2, cumSteps, steps, hs, arr, Finset.sum_range_succ, Finset.sum_range_zero]
  norm_num

/-- hypotheses met: knots 0, 1, 3 -/
example : Function.Injective (![0, 1, 3] : Fin 3 → ℚ) ∧ Monotone (![0, 1, 3] : Fin 3 → ℚ) ∧
    arr (![0, 1, 3] : Fin 3 → ℚ) (0 + 1) ≠ arr (![0, 1, 3] : Fin 3 → ℚ) 0 := by
  refine ⟨?_, ?_, by norm_num [arr]⟩
  · intro a b; fin_cases a <;> fin_cases b <;> simp
  · intro a b hab; fin_cases a <;> fin_cases b <;> simp at hab ⊢

end Verif.Props
