import Verif.Model.LinearConstraints
import Verif.Lemmas.L2
import Verif.Spec.Subspace
import Verif.Lemmas.Prox
import Mathlib.Data.Fin.VecNotation
import Mathlib.Tactic.FinCases

/-!
# C61: linear subspace constraints

For an orthonormal basis, `projection` projects on its span and `projection_complement` on the orthogonal complement; the two are
polar to each other and each is the `conjugate` of the other; `constraint` accepts exactly the points within relative distance
`tol` for `projection`.  `projection_complement.constraint` tests the wrong vector.
-/

set_option linter.unusedSectionVars false
set_option linter.unusedVariables false

namespace Verif.Props
open Verif.Model Verif.Spec Verif.Lemmas Verif.Model.LinCon

variable {n k : ℕ} {basis : Fin k → Fin n → ℝ}

/-- the hypothesis is met by the documented example `[[1,0,0,0],[0,1,0,0]]` -/
example : OrthonormalRows (![![1, 0, 0, 0], ![0, 1, 0, 0]] : Fin 2 → Fin 4 → ℝ) := by
  intro a b
  fin_cases a <;> fin_cases b <;> simp [Fin.sum_univ_four]

private lemma resid_orth (h : OrthonormalRows basis) (x : Fin n → ℝ) (a : Fin k) :
    ∑ i, basis a i * (x i - span basis x i) = 0 := by
  simp only [mul_sub, Finset.sum_sub_distrib]
  have : ∑ i, basis a i * span basis x i = ∑ i, basis a i * x i := by
    simp only [span, Finset.mul_sum]
    rw [Finset.sum_comm]
    have e : ∀ b, ∑ i, basis a i * ((∑ j, basis b j * x j) * basis b i) =
        (∑ j, basis b j * x j) * ∑ i, basis a i * basis b i := by
      intro b; rw [Finset.mul_sum]; exact Finset.sum_congr rfl fun i _ => by ring
    simp only [e, h a]
    simp
  rw [this, sub_self]

private lemma span_orth {y : Fin n → ℝ} (hy : ∀ a, ∑ i, basis a i * y i = 0) (c : Fin k → ℝ) :
    ∑ i, (∑ a, c a * basis a i) * y i = 0 := by
  simp only [Finset.sum_mul]
  rw [Finset.sum_comm]
  refine Finset.sum_eq_zero fun a _ => ?_
  have : ∑ i, c a * basis a i * y i = c a * ∑ i, basis a i * y i := by
    rw [Finset.mul_sum]; exact Finset.sum_congr rfl fun i _ => by ring
  rw [this, hy a, mul_zero]

/-- `projection.cone_prox` is the Euclidean projection on the span of the rows. -/
theorem C61_projection (h : OrthonormalRows basis) (x : Fin n → ℝ) :
    IsProj (rowSpan basis) x (projectionProx basis x) := by
  refine isProj_of_vi ⟨_, rfl⟩ fun z hz => ?_
  obtain ⟨c, rfl⟩ := hz
  have h1 := span_orth (resid_orth h x) (fun a => c a - ∑ i, basis a i * x i)
  refine le_of_eq ?_
  rw [← h1]
  refine Finset.sum_congr rfl fun i _ => ?_
  simp only [projectionProx, span, sub_mul, Finset.sum_sub_distrib]
  ring

/-- `projection_complement.cone_prox` is the Euclidean projection on the orthogonal complement. -/
theorem C61_complement (h : OrthonormalRows basis) (x : Fin n → ℝ) :
    IsProj (rowOrthogonal basis) x (complementProx basis x) := by
  refine isProj_of_vi (fun a => resid_orth h x a) fun z hz => ?_
  have hd : ∀ a, ∑ i, basis a i * (z i - complementProx basis x i) = 0 := by
    intro a
    have h1 := hz a
    have h2 := resid_orth h x a
    simp only [mul_sub, Finset.sum_sub_distrib, complementProx] at h2 ⊢
    linarith
  have h1 := span_orth hd (fun a => ∑ i, basis a i * x i)
  refine le_of_eq ?_
  rw [← h1]
  refine Finset.sum_congr rfl fun i _ => ?_
  simp only [complementProx, span]
  ring

/-- The two sets are polar to each other (for any basis). -/
theorem C61_polar (basis : Fin k → Fin n → ℝ) (w : Fin n → ℝ) :
    (w ∈ rowOrthogonal basis ↔ ∀ z ∈ rowSpan basis, dot w z ≤ 0) := by
  constructor
  · rintro hw z ⟨c, rfl⟩
    have := span_orth hw c
    unfold dot
    refine le_of_eq ?_
    rw [← this]
    exact Finset.sum_congr rfl fun i _ => by ring
  · intro hall a
    have key : ∀ t : ℝ, t * ∑ i, basis a i * w i ≤ 0 := by
      intro t
      have := hall (fun i => ∑ b, (if b = a then t else 0) * basis b i) ⟨_, rfl⟩
      unfold dot at this
      simp only [ite_mul, zero_mul, Finset.sum_ite_eq', Finset.mem_univ, if_true] at this
      rw [Finset.mul_sum]
      refine le_trans (le_of_eq (Finset.sum_congr rfl fun i _ => by ring)) this
    have h1 := key 1
    have h2 := key (-1)
    linarith

/-- The `conjugate` property (no quadratic) gives the other class with the same basis, whose `cone_prox` is the residual (Moreau),
and the conjugate of the conjugate is the original. -/
theorem C61_conjugate (s : Inst n k) (hq : s.quadCoef = 0) :
    ∃ t : Inst n k, conjugateProperty s = .inst t ∧ conjugateProperty t = .inst s ∧
      ∀ x i, s.coneProx x i + t.coneProx x i = x i := by
  obtain ⟨c, b, q⟩ := s
  have hq' : q = 0 := hq
  cases c
  · refine ⟨⟨.complement, b, 0⟩, by simp [conjugateProperty, hq', pairs], by simp [conjugateProperty, pairs, hq'], ?_⟩
    intro x i; simp [Inst.coneProx, projectionProx, complementProx]
  · refine ⟨⟨.projection, b, 0⟩, by simp [conjugateProperty, hq', pairs], by simp [conjugateProperty, pairs, hq'], ?_⟩
    intro x i; simp [Inst.coneProx, projectionProx, complementProx]

/-- The documented method `get_conjugate()` raises KeyError for every instance without quadratic, although the property works. -/
theorem C61_get_conjugate_fails (s : Inst n k) (hq : s.quadCoef = 0) : getConjugate s = some .keyError := by
  simp [getConjugate, hq]

/-- A `constraint` with a nonzero quadratic coefficient has no `conjugate`: NameError. -/
theorem C61_conjugate_quadratic_fails (s : Inst n k) (hq : s.quadCoef ≠ 0) : conjugateProperty s = .nameError := by
  simp [conjugateProperty, hq]

/-- `projection.constraint` accepts exactly the points whose distance to the span is below `tol * max(‖x‖, 1)`. -/
theorem C61_projection_constraint (h : OrthonormalRows basis) (x : Fin n → ℝ) :
    projectionConstraint basis x = 0 ↔ ∃ z ∈ rowSpan basis, Real.sqrt (sqDist z x) < 1 / 10 ^ 5 * max (Real.sqrt (∑ i, x i ^ 2)) 1 := by
  have hm : 0 < max (npNorm x) 1 := lt_of_lt_of_le one_pos (le_max_right _ _)
  have e : npNorm (fun i => x i - projectionProx basis x i) = Real.sqrt (sqDist (projectionProx basis x) x) := by
    unfold npNorm sqDist
    congr 1
    exact Finset.sum_congr rfl fun i _ => by ring
  have hp := C61_projection h x
  have hiff : npNorm (fun i => x i - projectionProx basis x i) / max (npNorm x) 1 < tol ↔
      Real.sqrt (sqDist (projectionProx basis x) x) < 1 / 10 ^ 5 * max (npNorm x) 1 := by
    rw [e, div_lt_iff₀ hm]; rfl
  unfold projectionConstraint
  dsimp only
  constructor
  · intro h0
    refine ⟨_, hp.1, ?_⟩
    by_contra hc
    rw [if_neg (fun hh => hc (hiff.1 hh))] at h0
    exact absurd h0 (by simp)
  · rintro ⟨z, hz, hlt⟩
    rw [if_pos]
    rw [hiff]
    refine lt_of_le_of_lt (Real.sqrt_le_sqrt ?_) hlt
    by_cases hne : z = projectionProx basis x
    · rw [hne]
    · exact (hp.2 z hz hne).le

/-- `projection_complement.constraint` compares the size of the projection on the complement — not the distance to it — with the
tolerance: it accepts exactly the points of relative distance below `tol` to the *span*.  Missing: it should accept exactly the
points close to the complement, which is false (`C61_complement_constraint_fails`). -/
theorem C61_complement_constraint_partial (h : OrthonormalRows basis) (x : Fin n → ℝ) :
    complementConstraint basis x = 0 ↔
      ∃ z ∈ rowSpan basis, Real.sqrt (sqDist z x) < 1 / 10 ^ 5 * max (Real.sqrt (∑ i, x i ^ 2)) 1 :=
  C61_projection_constraint h x

/-- Counterexample: for the basis `[[1, 0]]` the point `(0, 1)` of the complement is rejected and the point `(1, 0)`, orthogonal to
the complement, is accepted. -/
theorem C61_complement_constraint_fails :
    ∃ (basis : Fin 1 → Fin 2 → ℝ), OrthonormalRows basis ∧
      (![0, 1] : Fin 2 → ℝ) ∈ rowOrthogonal basis ∧ complementConstraint basis ![0, 1] = ⊤ ∧
      (![1, 0] : Fin 2 → ℝ) ∉ rowOrthogonal basis ∧ complementConstraint basis ![1, 0] = 0 := by
  refine ⟨![![1, 0]], ?_, ?_, ?_, ?_, ?_⟩
  · intro a b
    fin_cases a; fin_cases b; simp
  · intro a; fin_cases a; simp
  · have e : npNorm (complementProx (![![1, 0]] : Fin 1 → Fin 2 → ℝ) ![0, 1]) = 1 := by
      unfold npNorm complementProx span; simp [Fin.sum_univ_two]
    have e2 : npNorm (![0, 1] : Fin 2 → ℝ) = 1 := by unfold npNorm; simp [Fin.sum_univ_two]
    unfold complementConstraint
    dsimp only
    rw [e, e2, if_neg]
    unfold tol; norm_num
  · intro hc; have := hc 0; simp at this
  · have e : npNorm (complementProx (![![1, 0]] : Fin 1 → Fin 2 → ℝ) ![1, 0]) = 0 := by
      unfold npNorm complementProx span; simp [Fin.sum_univ_two]
    unfold complementConstraint
    dsimp only
    rw [e, if_pos]
    unfold tol; norm_num

end Verif.Props
