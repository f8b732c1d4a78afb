import Verif.Lemmas.Prox
import Mathlib.Tactic.FieldSimp

/-! Moreau decomposition for cones of pairs (vector, number) -/

set_option linter.unusedSectionVars false
set_option linter.unusedVariables false

namespace Verif.Lemmas
open Verif.Spec

variable {K : Type*} [Field K] [LinearOrder K] [IsStrictOrderedRing K]
variable {ι : Type*} [Fintype ι]

/-- inner product of pairs -/
def pdot (x y : (ι → K) × K) : K := ∑ i, x.1 i * y.1 i + x.2 * y.2

/-- polar cone -/
def polarPair (C : Set ((ι → K) × K)) : Set ((ι → K) × K) := {w | ∀ z ∈ C, pdot w z ≤ 0}

/-- convex cone: closed under nonnegative combinations -/
def IsConvexCone (C : Set ((ι → K) × K)) : Prop :=
  ∀ x ∈ C, ∀ y ∈ C, ∀ s t : K, 0 ≤ s → 0 ≤ t → (fun i => s * x.1 i + t * y.1 i, s * x.2 + t * y.2) ∈ C

/-- Moreau: residual of the projection on a convex cone is the projection on the polar cone. -/
lemma moreau_pair {C : Set ((ι → K) × K)} (hC : IsConvexCone C) {x p : (ι → K) × K}
    (h : IsProjPair C x p) : IsProjPair (polarPair C) x (fun i => x.1 i - p.1 i, x.2 - p.2) := by
  obtain ⟨hp, hmin⟩ := h
  -- variational inequality
  have vi : ∀ z ∈ C, ∑ i, (x.1 i - p.1 i) * (z.1 i - p.1 i) + (x.2 - p.2) * (z.2 - p.2) ≤ 0 := by
    intro z hz
    by_contra hpos
    push Not at hpos
    set a := ∑ i, (x.1 i - p.1 i) * (z.1 i - p.1 i) + (x.2 - p.2) * (z.2 - p.2) with ha
    set d := sqDist z.1 p.1 + (z.2 - p.2) ^ 2 with hd
    have hd0 : 0 ≤ d := add_nonneg (sqDist_nonneg _ _) (sq_nonneg _)
    set t : K := min 1 (a / (d + 1)) with ht
    have ht0 : 0 < t := lt_min one_pos (by positivity)
    have ht1 : t ≤ 1 := min_le_left _ _
    have ht2 : t * d < 2 * a := by
      have : t ≤ a / (d + 1) := min_le_right _ _
      have h1 : t * (d + 1) ≤ a := by rwa [le_div_iff₀ (by linarith)] at this
      nlinarith
    set q : (ι → K) × K := (fun i => (1 - t) * p.1 i + t * z.1 i, (1 - t) * p.2 + t * z.2) with hq
    have hqC : q ∈ C := hC p hp z hz (1 - t) t (by linarith) ht0.le
    have hle : sqDist p.1 x.1 + (p.2 - x.2) ^ 2 ≤ sqDist q.1 x.1 + (q.2 - x.2) ^ 2 := by
      by_cases e : q = p
      · rw [e]
      · exact (hmin q hqC e).le
    have hexp : sqDist q.1 x.1 + (q.2 - x.2) ^ 2 = sqDist p.1 x.1 + (p.2 - x.2) ^ 2 - 2 * t * a + t ^ 2 * d := by
      have : sqDist q.1 x.1 = sqDist p.1 x.1 + t ^ 2 * sqDist z.1 p.1
          - 2 * t * ∑ i, (x.1 i - p.1 i) * (z.1 i - p.1 i) := by
        unfold sqDist
        rw [Finset.mul_sum, Finset.mul_sum, ← Finset.sum_add_distrib, ← Finset.sum_sub_distrib]
        exact Finset.sum_congr rfl fun i _ => by simp only [hq]; ring
      rw [this, ha, hd, hq]; ring
    nlinarith
  have h0C : ((fun _ => 0, 0) : (ι → K) × K) ∈ C := by
    have := hC p hp p hp 0 0 le_rfl le_rfl
    simpa using this
  have h2C : ((fun i => 2 * p.1 i, 2 * p.2) : (ι → K) × K) ∈ C := by
    have := hC p hp p hp 2 0 (by norm_num) le_rfl
    simpa using this
  set r : (ι → K) × K := (fun i => x.1 i - p.1 i, x.2 - p.2) with hr
  have hrp : pdot r p = 0 := by
    have h1 := vi _ h0C
    have h2 := vi _ h2C
    have e1 : ∑ i, (x.1 i - p.1 i) * (0 - p.1 i) = -∑ i, (x.1 i - p.1 i) * p.1 i := by
      rw [← Finset.sum_neg_distrib]; exact Finset.sum_congr rfl fun i _ => by ring
    have e2 : ∑ i, (x.1 i - p.1 i) * (2 * p.1 i - p.1 i) = ∑ i, (x.1 i - p.1 i) * p.1 i :=
      Finset.sum_congr rfl fun i _ => by ring
    rw [e1] at h1
    rw [e2] at h2
    unfold pdot
    simp only [hr]
    apply le_antisymm <;> nlinarith
  have hpol : r ∈ polarPair C := by
    intro z hz
    have := vi z hz
    have e : ∑ i, (x.1 i - p.1 i) * (z.1 i - p.1 i) + (x.2 - p.2) * (z.2 - p.2) = pdot r z - pdot r p := by
      unfold pdot
      simp only [hr, mul_sub, Finset.sum_sub_distrib]
      ring
    rw [e, hrp] at this
    linarith
  apply isProjPair_of_vi hpol
  intro w hw
  have hwp := hw p hp
  have e : ∑ i, (x.1 i - r.1 i) * (w.1 i - r.1 i) + (x.2 - r.2) * (w.2 - r.2) = pdot w p - pdot r p := by
    unfold pdot
    have : ∑ i, (x.1 i - r.1 i) * (w.1 i - r.1 i) = ∑ i, w.1 i * p.1 i - ∑ i, r.1 i * p.1 i := by
      rw [← Finset.sum_sub_distrib]
      exact Finset.sum_congr rfl fun i _ => by simp only [hr]; ring
    rw [this]; simp only [hr]; ring
  rw [e, hrp]; linarith

/-- reflecting the set and the point reflects the projection -/
lemma isProjPair_neg {C : Set ((ι → K) × K)} {x p : (ι → K) × K}
    (h : IsProjPair C (fun i => -x.1 i, -x.2) p) :
    IsProjPair {z | (fun i => -z.1 i, -z.2) ∈ C} x (fun i => -p.1 i, -p.2) := by
  obtain ⟨hp, hmin⟩ := h
  refine ⟨by simpa using hp, ?_⟩
  intro z hz hne
  have hne' : ((fun i => -z.1 i, -z.2) : (ι → K) × K) ≠ p := by
    intro e; apply hne; rw [← e]; simp
  have := hmin _ hz hne'
  have e1 : ∀ a : ι → K, sqDist (fun i => -a i) x.1 = sqDist a (fun i => -x.1 i) := by
    intro a; unfold sqDist; exact Finset.sum_congr rfl fun i _ => by ring
  have e2 : ∀ a : ι → K, sqDist (fun i => -a i) (fun i => -x.1 i) = sqDist a x.1 := by
    intro a; unfold sqDist; exact Finset.sum_congr rfl fun i _ => by ring
  simp only [e2] at this
  simp only [e1]
  nlinarith [this]

end Verif.Lemmas
