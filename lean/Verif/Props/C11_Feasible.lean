import Verif.Props.C02_Seminorms
import Verif.Props.C06_L2

/-!
# C11: feasibility tests

`constraint` returns 0 (feasible) or `np.inf`.  For l1norm, supnorm, l2norm and positive_part:
projected points are accepted, every point of the documented set is accepted (bound ≥ 0) and every accepted
point is within the relative tolerance 1e-5 of the bound.  For constrained_max, constrained_positive_part and
max_positive_part the tests in the source are wrong on the boundary: negation theorems.
-/

set_option linter.unusedSectionVars false
set_option linter.unusedVariables false

namespace Verif.Props
open Verif.Model Verif.Lemmas Verif.Spec

variable {K : Type*} [Field K] [LinearOrder K] [IsStrictOrderedRing K]

private lemma le_tol {a b : K} (hb : 0 ≤ b) (h : a ≤ b) : a ≤ b * (1 + atomTol) := by
  unfold atomTol; nlinarith [mul_nonneg hb (by positivity : (0:K) ≤ 1 / 10 ^ 5)]

/-- l1norm -/
theorem C11_l1norm {n : ℕ} (bound : K) (hb : 0 ≤ bound) :
    (∀ x : Fin n → K, ∑ i, |x i| ≤ bound → L1.constraint x bound = 0) ∧
    (∀ x : Fin n → K, L1.constraint x bound = 0 → ∑ i, |x i| ≤ bound * (1 + 1 / 10 ^ 5)) ∧
    (∀ x : Fin n → K, L1.constraint x bound ≠ 0 → L1.constraint x bound = ⊤) := by
  refine ⟨fun x h => if_pos (le_tol hb h), fun x h => ?_, fun x h => ?_⟩
  · unfold L1.constraint at h; split_ifs at h with h'
    · exact h'
    · exact absurd h WithTop.top_ne_zero
  · unfold L1.constraint at h ⊢; split_ifs at h ⊢ with h'
    · exact absurd rfl h
    · rfl

/-- projections on the l1 ball are accepted -/
theorem C11_l1norm_projected {n : ℕ} (x : Fin (n + 1) → K) (bound : K) (hb : 0 ≤ bound) :
    ∃ p, L1.boundProx x bound = some p ∧ L1.constraint p bound = 0 := by
  obtain ⟨p, h1, h2⟩ := C02_l1norm_bound_prox x bound hb
  exact ⟨p, h1, (C11_l1norm bound hb).1 p h2.1⟩

/-- **C11** supnorm: projections are accepted as feasible, so is every feasible point, and an accepted point exceeds the
bound by at most the relative tolerance. -/
theorem C11_supnorm {n : ℕ} (bound : K) (hb : 0 ≤ bound) :
    (∀ x : Fin n → K, Sup.constraint (Sup.boundProx x bound) bound = 0) ∧
    (∀ x : Fin n → K, (∀ i, |x i| ≤ bound) → Sup.constraint x bound = 0) ∧
    (∀ x : Fin n → K, Sup.constraint x bound = 0 → ∀ i, |x i| ≤ bound * (1 + 1 / 10 ^ 5)) := by
  have key : ∀ x : Fin n → K, (∀ i, |x i| ≤ bound) → Sup.constraint x bound = 0 :=
    fun x h => if_pos fun i => le_tol hb (h i)
  refine ⟨fun x => key _ (C05_supnorm_bound_prox x bound hb).1, key, fun x h => ?_⟩
  unfold Sup.constraint at h; split_ifs at h with h'
  · exact h'
  · exact absurd h WithTop.top_ne_zero

/-- **C11** l2norm: projections are accepted as feasible, so is every feasible point, and an accepted point exceeds the
bound by at most the relative tolerance. -/
theorem C11_l2norm {ι : Type*} [Fintype ι] (bound : ℝ) (hb : 0 ≤ bound) :
    (∀ x : ι → ℝ, L2.constraint (L2.boundProx x bound) bound = 0) ∧
    (∀ x : ι → ℝ, Real.sqrt (∑ i, x i ^ 2) ≤ bound → L2.constraint x bound = 0) ∧
    (∀ x : ι → ℝ, L2.constraint x bound = 0 → Real.sqrt (∑ i, x i ^ 2) ≤ bound * (1 + 1 / 10 ^ 5)) := by
  have key : ∀ x : ι → ℝ, Real.sqrt (∑ i, x i ^ 2) ≤ bound → L2.constraint x bound = 0 :=
    fun x h => if_pos (le_tol hb h)
  refine ⟨fun x => key _ (C06_l2norm_bound_prox x bound hb).1, key, fun x h => ?_⟩
  unfold L2.constraint at h; split_ifs at h with h'
  · exact h'
  · exact absurd h WithTop.top_ne_zero

/-- **C11** positive_part: projections are accepted as feasible, so is every feasible point, and an accepted point exceeds
the bound by at most the relative tolerance. -/
theorem C11_positive_part {n : ℕ} (bound : K) (hb : 0 ≤ bound) :
    (∀ x : Fin n → K, ∃ p, PosPart.boundProx x bound = some p ∧ PosPart.constraint p bound = 0) ∧
    (∀ x : Fin n → K, ∑ i, max (x i) 0 ≤ bound → PosPart.constraint x bound = 0) ∧
    (∀ x : Fin n → K, PosPart.constraint x bound = 0 → ∑ i, max (x i) 0 ≤ bound * (1 + 1 / 10 ^ 5)) := by
  have key : ∀ x : Fin n → K, ∑ i, max (x i) 0 ≤ bound → PosPart.constraint x bound = 0 :=
    fun x h => if_pos (le_tol hb h)
  refine ⟨fun x => ?_, key, fun x h => ?_⟩
  · obtain ⟨p, h1, h2⟩ := C07_positive_part_bound_prox x bound hb
    exact ⟨p, h1, key p h2.1⟩
  · unfold PosPart.constraint at h; split_ifs at h with h'
    · exact h'
    · exact absurd h WithTop.top_ne_zero

/-- constrained_max.  Partial: the full claim "every point of {0 ≤ x ≤ bound} is accepted" is false
(`C11_constrained_max_fails`); proved for points whose coordinates are all at least the tolerance, and
soundness (accepted points are within tolerance of the set) holds for all. -/
theorem C11_constrained_max_partial {n : ℕ} (bound : K) (hb : 0 ≤ bound) :
    (∀ x : Fin (n + 1) → K, (∀ i, 1 / 10 ^ 5 ≤ x i ∧ x i ≤ bound) → ConMax.constraint x bound = 0) ∧
    (∀ x : Fin (n + 1) → K, ConMax.constraint x bound = 0 →
      ∀ i, 0 ≤ x i ∧ x i ≤ bound * (1 + 1 / 10 ^ 5)) := by
  constructor
  · intro x h
    unfold ConMax.constraint
    refine if_pos ⟨le_tol hb (maxCoord_le fun i => (h i).2), ?_⟩
    push Not; intro i; rw [zero_add]; exact (h i).1
  · intro x h i
    unfold ConMax.constraint at h
    simp only at h
    split_ifs at h with h'
    swap
    · exact absurd h WithTop.top_ne_zero
    obtain ⟨h1, h2⟩ := h'
    push Not at h2
    refine ⟨?_, le_trans (le_maxCoord x i) h1⟩
    have := h2 i
    have : (0:K) ≤ atomTol := by unfold atomTol; positivity
    linarith [h2 i]

/-- The projection computed by `constrained_max.bound_prox` is reported infeasible by the same atom. -/
theorem C11_constrained_max_fails :
    ConMax.boundProx (![-1, 1/2] : Fin 2 → ℚ) 1 = ![0, 1/2] ∧
    ConMax.constraint (ConMax.boundProx (![-1, 1/2] : Fin 2 → ℚ) 1) 1 = ⊤ := by
  have e : ConMax.boundProx (![-1, 1/2] : Fin 2 → ℚ) 1 = ![0, 1/2] := by
    funext i; fin_cases i <;> norm_num [ConMax.boundProx, npClip]
  refine ⟨e, ?_⟩
  rw [e]
  unfold ConMax.constraint
  apply if_neg
  rintro ⟨_, h⟩
  exact h ⟨0, by norm_num [atomTol]⟩

/-- constrained_positive_part.  Partial: false at points with a coordinate below the tolerance and when
`bound = 0`. -/
theorem C11_constrained_positive_part_partial {n : ℕ} (bound : K) (hb : 0 < bound) :
    (∀ x : Fin n → K, (∀ i, 1 / 10 ^ 5 ≤ x i) → ∑ i, x i ≤ bound → ConPosPart.constraint x bound = 0) ∧
    (∀ x : Fin n → K, ConPosPart.constraint x bound = 0 →
      (∀ i, 0 ≤ x i) ∧ ∑ i, x i < bound * (1 + 1 / 10 ^ 5)) := by
  have htol : (0:K) < atomTol := by unfold atomTol; positivity
  constructor
  · intro x h1 h2
    have hs : ConPosPart.seminorm x 1 true = (((∑ i, max (x i) 0) * 1 : K) : WithTop K) :=
      if_pos (Or.inl (by push Not; intro i; rw [zero_add]; exact h1 i))
    unfold ConPosPart.constraint
    rw [hs]
    apply if_neg
    rw [ge_iff_le, not_le, WithTop.coe_lt_coe, mul_one]
    have e : ∑ i, max (x i) 0 = ∑ i, x i :=
      Finset.sum_congr rfl fun i _ => max_eq_left (le_trans htol.le (h1 i))
    rw [e]
    nlinarith [mul_pos hb htol]
  · intro x h
    unfold ConPosPart.constraint at h
    by_cases hneg : ∃ i, x i < 0 + atomTol
    · have hs : ConPosPart.seminorm x 1 true = ⊤ := if_neg (by rintro (h | h); exacts [h hneg, by cases h])
      rw [hs] at h
      simp at h
    · have hs : ConPosPart.seminorm x 1 true = (((∑ i, max (x i) 0) * 1 : K) : WithTop K) :=
        if_pos (Or.inl hneg)
      rw [hs] at h
      push Not at hneg
      have hx : ∀ i, 0 ≤ x i := fun i => by have := hneg i; linarith
      refine ⟨hx, ?_⟩
      simp only at h
      split_ifs at h with h'
      · exact absurd h WithTop.top_ne_zero
      rw [ge_iff_le, not_le, WithTop.coe_lt_coe, mul_one] at h'
      have e : ∑ i, max (x i) 0 = ∑ i, x i := Finset.sum_congr rfl fun i _ => max_eq_left (hx i)
      rw [e] at h'; exact h'

/-- Every projection computed by `constrained_positive_part.bound_prox` of a point with a nonpositive
coordinate is reported infeasible by the same atom. -/
theorem C11_constrained_positive_part_fails {n : ℕ} (x : Fin n → K) (bound : K) (hb : 0 ≤ bound)
    (hx : ∃ i, x i ≤ 0) :
    ∃ p, ConPosPart.boundProx x bound = some p ∧ (∀ i, 0 ≤ p i) ∧ ∑ i, p i ≤ bound ∧
      ConPosPart.constraint p bound = ⊤ := by
  obtain ⟨p, h1, h2⟩ := C07_constrained_positive_part_bound_prox x bound hb
  obtain ⟨hp, hs⟩ := h2.1
  refine ⟨p, h1, hp, hs, ?_⟩
  obtain ⟨i, hi⟩ := hx
  have hpi : p i = 0 := by
    unfold ConPosPart.boundProx projPos at h1
    split_ifs at h1 with h
    · obtain ⟨c, _, e⟩ := Option.map_eq_some_iff.1 h1
      rw [← e]; simp [not_lt.2 hi]
    · rw [Option.some_inj] at h1; rw [← h1]
  have hneg : ∃ i, p i < 0 + atomTol := ⟨i, by rw [hpi]; unfold atomTol; positivity⟩
  have hs : ConPosPart.seminorm p 1 true = ⊤ := if_neg (by rintro (h | h); exacts [h hneg, by cases h])
  unfold ConPosPart.constraint
  rw [hs]
  exact if_pos le_top

/-- max_positive_part.  Partial: needs `bound > 0`; at `bound = 0` see `C11_max_positive_part_fails`. -/
theorem C11_max_positive_part_partial {n : ℕ} (bound : K) (hb : 0 < bound) :
    (∀ x : Fin (n + 1) → K, MaxPosPart.constraint (MaxPosPart.boundProx x bound) bound = 0) ∧
    (∀ x : Fin (n + 1) → K, (∀ i, x i ≤ bound) → MaxPosPart.constraint x bound = 0) ∧
    (∀ x : Fin (n + 1) → K, MaxPosPart.constraint x bound = 0 → ∀ i, x i < bound * (1 + 1 / 10 ^ 5)) := by
  have htol : (0:K) < atomTol := by unfold atomTol; positivity
  have key : ∀ x : Fin (n + 1) → K, (∀ i, x i ≤ bound) → MaxPosPart.constraint x bound = 0 := by
    intro x h
    unfold MaxPosPart.constraint
    apply if_neg
    rw [ge_iff_le, not_le]
    have : npMax (fun i => max (x i) 0) ≤ bound := maxCoord_le fun i => max_le (h i) hb.le
    nlinarith [mul_pos hb htol]
  refine ⟨fun x => key _ fun i => min_le_right _ _, key, fun x h i => ?_⟩
  unfold MaxPosPart.constraint at h
  split_ifs at h with h'
  · exact absurd h WithTop.top_ne_zero
  rw [ge_iff_le, not_le] at h'
  exact lt_of_le_of_lt (le_trans (le_max_left _ _) (le_maxCoord (fun i => max (x i) 0) i)) h'

/-- With `bound = 0` no point at all is feasible for max_positive_part, although 0 is in the set. -/
theorem C11_max_positive_part_fails {n : ℕ} (x : Fin (n + 1) → K) : MaxPosPart.constraint x 0 = ⊤ := by
  unfold MaxPosPart.constraint
  apply if_pos
  rw [zero_mul]
  exact le_trans (le_max_right (x 0) 0) (le_maxCoord (fun i => max (x i) 0) 0)

/-- The lagrange-mode analogue: the output of `constrained_max.lagrange_prox` gets value `inf`. -/
theorem C11_constrained_max_lagrange_fails :
    ∃ p, ConMax.lagrangeProx (![-1, 3] : Fin 2 → ℚ) 1 1 = some p ∧ ConMax.seminorm p 1 true = ⊤ := by
  obtain ⟨p, h1, h2⟩ := C07_constrained_max_lagrange_prox (![-1, 3] : Fin 2 → ℚ) 1 1 (by norm_num) (by norm_num)
  refine ⟨p, h1, ?_⟩
  have hp0 : p 0 = 0 := by
    unfold ConMax.lagrangeProx projPos at h1
    rw [if_pos ⟨1, by norm_num⟩] at h1
    obtain ⟨v, hv, e⟩ := Option.map_eq_some_iff.1 h1
    obtain ⟨c, _, e'⟩ := Option.map_eq_some_iff.1 hv
    rw [← e, ← e']; norm_num
  unfold ConMax.seminorm
  apply if_neg
  rintro (h | h)
  · exact h ⟨0, by rw [hp0]; norm_num [atomTol]⟩
  · cases h

example : (0:ℚ) < 1 ∧ ∀ i, (1:ℚ) / 10 ^ 5 ≤ (![1/2, 1] : Fin 2 → ℚ) i ∧ (![1/2, 1] : Fin 2 → ℚ) i ≤ 1 := by
  refine ⟨by norm_num, fun i => ?_⟩
  fin_cases i <;> norm_num

end Verif.Props
