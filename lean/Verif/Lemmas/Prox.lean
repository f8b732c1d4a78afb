import Verif.Spec.Opt
import Mathlib.Tactic.Linarith
import Mathlib.Tactic.Ring
import Mathlib.Tactic.Positivity
import Mathlib.Tactic.LinearCombination

/-! Sufficient conditions for proximal points and projections. -/

set_option linter.unusedSectionVars false

namespace Verif.Lemmas
open Verif.Spec

variable {K : Type*} [Field K] [LinearOrder K] [IsStrictOrderedRing K]
variable {ι : Type*} [Fintype ι]

lemma sqDist_nonneg (x y : ι → K) : 0 ≤ sqDist x y :=
  Finset.sum_nonneg fun _ _ => sq_nonneg _

lemma sqDist_pos {x y : ι → K} (h : x ≠ y) : 0 < sqDist x y := by
  obtain ⟨i, hi⟩ := Function.ne_iff.1 h
  refine Finset.sum_pos' (fun _ _ => sq_nonneg _) ⟨i, Finset.mem_univ _, ?_⟩
  have : x i - y i ≠ 0 := sub_ne_zero.2 hi
  positivity

lemma sqDist_self (x : ι → K) : sqDist x x = 0 := by simp [sqDist]

lemma sqDist_comm (x y : ι → K) : sqDist x y = sqDist y x := by
  unfold sqDist; exact Finset.sum_congr rfl fun i _ => by ring

lemma sqDist_expand (z p x : ι → K) :
    sqDist z x = sqDist p x + sqDist z p - 2 * ∑ i, (x i - p i) * (z i - p i) := by
  unfold sqDist
  rw [Finset.mul_sum, ← Finset.sum_add_distrib, ← Finset.sum_sub_distrib]
  exact Finset.sum_congr rfl fun i _ => by ring

/-- If `L (x - p)` is a subgradient of `h` on `S` at `p ∈ S` then `p` is the proximal point. -/
lemma isProxOn_of_subgrad {L : K} (hL : 0 < L) {h : (ι → K) → K} {S : Set (ι → K)} {x p : ι → K}
    (hp : p ∈ S) (hsub : ∀ z ∈ S, h p + L * ∑ i, (x i - p i) * (z i - p i) ≤ h z) :
    IsProxOn L h S x p := by
  refine ⟨hp, fun z hz hne => ?_⟩
  have h1 := hsub z hz
  have h2 := sqDist_pos hne
  have h3 := sqDist_expand z p x
  simp only
  rw [h3]
  nlinarith [mul_pos hL h2]

lemma isProx_of_subgrad {L : K} (hL : 0 < L) {h : (ι → K) → K} {x p : ι → K}
    (hsub : ∀ z, h p + L * ∑ i, (x i - p i) * (z i - p i) ≤ h z) :
    IsProx L h x p :=
  isProxOn_of_subgrad (S := Set.univ) hL (Set.mem_univ _) fun z _ => hsub z

lemma isProj_of_vi {S : Set (ι → K)} {x p : ι → K}
    (hp : p ∈ S) (hvi : ∀ z ∈ S, ∑ i, (x i - p i) * (z i - p i) ≤ 0) : IsProj S x p := by
  refine ⟨hp, fun z hz hne => ?_⟩
  have h1 := hvi z hz
  have h2 := sqDist_pos hne
  have h3 := sqDist_expand z p x
  simp only
  rw [h3]
  linarith

/-- proximal points are unique -/
lemma IsUniqueMinOn.unique {α : Type*} {f : α → K} {S : Set α} {p q : α}
    (hp : IsUniqueMinOn f S p) (hq : IsUniqueMinOn f S q) : p = q := by
  by_contra h
  have h1 := hp.2 q hq.1 (fun e => h e.symm)
  have h2 := hq.2 p hp.1 h
  exact lt_irrefl _ (lt_trans h1 h2)

/-- coordinatewise version: if each coordinate satisfies the scalar subgradient inequality -/
lemma isProx_of_coord {L : K} (hL : 0 < L) {h : ι → K → K} {x p : ι → K}
    (hsub : ∀ i z, h i (p i) + L * ((x i - p i) * (z - p i)) ≤ h i z) :
    IsProx L (fun z => ∑ i, h i (z i)) x p := by
  apply isProx_of_subgrad hL
  intro z
  rw [Finset.mul_sum, ← Finset.sum_add_distrib]
  exact Finset.sum_le_sum fun i _ => hsub i (z i)

lemma isProjPair_of_vi {S : Set ((ι → K) × K)} {x p : (ι → K) × K}
    (hp : p ∈ S) (hvi : ∀ z ∈ S, ∑ i, (x.1 i - p.1 i) * (z.1 i - p.1 i) + (x.2 - p.2) * (z.2 - p.2) ≤ 0) :
    IsProjPair S x p := by
  refine ⟨hp, fun z hz hne => ?_⟩
  have h1 := hvi z hz
  have h2 : 0 < sqDist z.1 p.1 + (z.2 - p.2) ^ 2 := by
    by_cases h : z.1 = p.1
    · have : z.2 ≠ p.2 := fun e => hne (Prod.ext h e)
      have : z.2 - p.2 ≠ 0 := sub_ne_zero.2 this
      have := sqDist_nonneg z.1 p.1
      positivity
    · have := sqDist_pos h
      positivity
  have h3 := sqDist_expand z.1 p.1 x.1
  simp only
  rw [h3]
  nlinarith

lemma le_maxCoord [Nonempty ι] (x : ι → K) (i : ι) : x i ≤ maxCoord x :=
  Finset.le_sup' x (Finset.mem_univ i)

lemma maxCoord_le [Nonempty ι] {x : ι → K} {c : K} (h : ∀ i, x i ≤ c) : maxCoord x ≤ c :=
  Finset.sup'_le _ _ fun i _ => h i

lemma exists_maxCoord [Nonempty ι] (x : ι → K) : ∃ i, maxCoord x = x i := by
  obtain ⟨i, _, h⟩ := Finset.exists_mem_eq_sup' Finset.univ_nonempty x
  exact ⟨i, h⟩

end Verif.Lemmas
