import Verif.Lemmas.Isotonic

/-! # C19: pool-adjacent-violators computes the isotonic regression -/

set_option linter.unusedSectionVars false
set_option linter.unusedVariables false

namespace Verif.Props
open Verif.Model.Isotonic Verif.Lemmas

variable {K : Type*} [Field K] [LinearOrder K] [IsStrictOrderedRing K]

/-- `s[0:N]` is the unique nondecreasing vector minimising `Σ w_i (y_i - s_i)²`. -/
def IsIsotonicFit (N : ℕ) (w y s : ℕ → K) : Prop :=
  (∀ i, i + 1 < N → s i ≤ s (i + 1)) ∧
  ∀ z : ℕ → K, (∀ i, i + 1 < N → z i ≤ z (i + 1)) → (∃ i < N, z i ≠ s i) →
    ∑ i ∈ Finset.range N, w i * (y i - s i) ^ 2 < ∑ i ∈ Finset.range N, w i * (y i - z i) ^ 2

/-- C19: the weighted Cython version terminates after at most `N` passes, for every length, data and positive
weights, with the isotonic fit. -/
theorem C19_isotonic_regression (N : ℕ) (y w : ℕ → K) (hw : ∀ i < N, 0 < w i) (fuel : ℕ) (hf : N ≤ fuel) :
    ∃ s, isotonicRegression N y w fuel = some s ∧ IsIsotonicFit N w y s := by
  unfold isotonicRegression
  split_ifs with h
  · refine ⟨y, rfl, fun i hi => by omega, fun z hz hne => iso_opt hw (isoInv_init N w y) hz hne⟩
  · obtain ⟨n, rfl⟩ : ∃ n, N = n + 1 := ⟨N - 1, by omega⟩
    have hc : changes n y 0 ≤ n := by
      unfold changes
      refine (Finset.card_filter_le _ _).trans ?_
      simp
    obtain ⟨t, h1, h2, h3⟩ := passes_spec hw fuel y (isoInv_init (n + 1) w y) (by omega)
    refine ⟨t, h1, fun i hi => h3 i (by omega), fun z hz hne => iso_opt hw h2 hz hne⟩

/-- C19: the pure Python version (unit weights) terminates after at most `N` pooling steps with the isotonic
fit. -/
theorem C19_pav (N : ℕ) (y : ℕ → K) (fuel : ℕ) (hf : N < fuel) :
    ∃ s, pav N y fuel = some s ∧ IsIsotonicFit N (fun _ => 1) y s := by
  have hc : nblocks N (⟨y, id, id⟩ : PavState K) ≤ N := by
    unfold nblocks
    refine (Finset.card_filter_le _ _).trans ?_
    simp
  obtain ⟨t, h1, h2, h3⟩ := pavLoop_spec fuel _ (pavInv_init N y) (lt_of_le_of_lt hc hf)
  exact ⟨t, h1, h3, fun z hz hne => iso_opt (fun _ _ => one_pos) h2 hz hne⟩

/-- C19: both versions return the same fit for unit weights. -/
theorem C19_versions_agree (N : ℕ) (y : ℕ → K) (fuel fuel' : ℕ) (hf : N ≤ fuel) (hf' : N < fuel') :
    ∃ s t, isotonicRegression N y (fun _ => 1) fuel = some s ∧ pav N y fuel' = some t ∧ ∀ i < N, s i = t i := by
  obtain ⟨s, h1, h2, h3⟩ := C19_isotonic_regression N y (fun _ => 1) (fun _ _ => one_pos) fuel hf
  obtain ⟨t, h4, h5, h6⟩ := C19_pav N y fuel' hf'
  refine ⟨s, t, h1, h4, fun i hi => ?_⟩
  by_contra hne
  have a := h3 t h5 ⟨i, hi, fun e => hne e.symm⟩
  have b := h6 s h2 ⟨i, hi, hne⟩
  exact absurd a (not_lt.2 b.le)

/-- a non-trivial instance: y = (3,1,2), pooled to (2,2,2) -/
example : IsIsotonicFit 3 (fun _ => (1:ℚ)) (fun i => if i = 0 then 3 else if i = 1 then 1 else 2) (fun _ => 2) := by
  refine ⟨fun _ _ => le_refl _, fun z hz hne => iso_opt (fun _ _ => one_pos) ⟨?_, ?_, ?_⟩ hz hne⟩
  · intro j hj
    have : j = 0 ∨ j = 1 ∨ j = 2 ∨ j = 3 := by omega
    rcases this with rfl | rfl | rfl | rfl <;> norm_num [presid, Finset.sum_range_succ]
  · norm_num [presid, Finset.sum_range_succ]
  · intro j _ h; exact absurd rfl h

end Verif.Props
