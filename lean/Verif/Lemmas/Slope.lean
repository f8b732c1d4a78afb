import Verif.Model.Slope
import Verif.Lemmas.Isotonic
import Verif.Lemmas.Prox
import Mathlib.Algebra.Order.Rearrangement
import Mathlib.Algebra.BigOperators.Fin

set_option linter.unusedSectionVars false
set_option linter.unusedVariables false

namespace Verif.Lemmas
open Verif.Model Verif.Model.Isotonic Verif.Model.Slope Verif.Spec

variable {K : Type*} [Field K] [LinearOrder K] [IsStrictOrderedRing K]

/-- extension of a finite array by zeros -/
def ext0 {n : ℕ} (y : Fin n → K) : ℕ → K := fun i => if h : i < n then y ⟨i, h⟩ else 0

lemma ext0_apply {n : ℕ} (y : Fin n → K) (i : Fin n) : ext0 y i = y i := by simp [ext0]

lemma sum_ext0 {n : ℕ} (f : ℕ → K) : ∑ i ∈ Finset.range n, f i = ∑ i : Fin n, f i := Finset.sum_range f

lemma npSort_mono {n : ℕ} (f : Fin n → K) : Monotone (npSort f) := Tuple.monotone_sort f

lemma npSort_eq {n : ℕ} {f : Fin n → K} {σ : Equiv.Perm (Fin n)} (h : Monotone (f ∘ σ)) : npSort f = f ∘ σ :=
  Tuple.unique_monotone (Tuple.monotone_sort f) h

lemma npSort_nonneg {n : ℕ} {f : Fin n → K} (h : ∀ i, 0 ≤ f i) (i : Fin n) : 0 ≤ npSort f i := h _

/-- rearrangement: pairing with the sorted values dominates -/
lemma rearr {n : ℕ} {r b : Fin n → K} (hr : Monotone r) (σ : Equiv.Perm (Fin n)) :
    ∑ i, r i * b (σ i) ≤ ∑ i, r i * npSort b i := by
  have hm : Monovary r (npSort b) := by
    intro i j hij
    by_contra h
    rw [not_le] at h
    have h1 : ¬ i ≤ j := fun h' => absurd (hr h') (not_le.2 h)
    exact absurd (npSort_mono b (not_le.1 h1).le) (not_le.2 hij)
  have h := hm.sum_mul_comp_perm_le_sum_mul (σ := σ.trans (Tuple.sort b).symm)
  refine le_trans (le_of_eq ?_) h
  refine Finset.sum_congr rfl fun i _ => ?_
  simp [npSort]

lemma slope_seminorm_eq {n : ℕ} {w : Fin n → K} (hw : ∀ i, 0 ≤ w i) (x : Fin n → K) (c : K) :
    Slope.seminorm w x c = c * ∑ i : Fin n, w i.rev * npSort (fun j => |x j|) i := by
  unfold Slope.seminorm
  congr 1
  rw [← Equiv.sum_comp (Fin.revPerm)]
  refine Finset.sum_congr rfl fun i _ => ?_
  simp only [Fin.revPerm_apply, Fin.rev_rev]
  rw [abs_of_nonneg, mul_comm]
  exact mul_nonneg (abs_nonneg _) (hw _)

/-- what the isotonic regression routine must return -/
def IsoFit {n : ℕ} (d s : Fin n → K) : Prop :=
  Monotone s ∧ ∀ z : Fin n → K, Monotone z → z ≠ s → ∑ i, (d i - s i) ^ 2 < ∑ i, (d i - z i) ^ 2

lemma mono_of_steps {n : ℕ} {s : ℕ → K} (h : ∀ i, i + 1 < n → s i ≤ s (i + 1)) {a b : ℕ} (hab : a ≤ b) (hb : b < n) :
    s a ≤ s b := by
  induction b, hab using Nat.le_induction with
  | base => exact le_refl _
  | succ b hab ih => exact le_trans (ih (by omega)) (h b hb)

lemma isoPy_fit {n : ℕ} (d : Fin n → K) {fuel : ℕ} (hf : n < fuel) :
    ∃ t : ℕ → K, isoPy fuel d = some (fun i : Fin n => t i) ∧ IsoInv n (fun _ => 1) (ext0 d) t ∧
      (∀ j, j + 1 < n → t j ≤ t (j + 1)) := by
  have hc : nblocks n (⟨ext0 d, id, id⟩ : PavState K) ≤ n := by
    unfold nblocks
    refine (Finset.card_filter_le _ _).trans ?_
    simp
  obtain ⟨t, h1, h2, h3⟩ := pavLoop_spec fuel _ (pavInv_init n (ext0 d)) (lt_of_le_of_lt hc hf)
  refine ⟨t, ?_, h2, h3⟩
  unfold isoPy pav
  have : pavLoop n fuel ⟨fun i => if h : i < n then d ⟨i, h⟩ else 0, id, id⟩ = some t := h1
  rw [this]; rfl

lemma isoFit_of_inv {n : ℕ} {d : Fin n → K} {t : ℕ → K} (h2 : IsoInv n (fun _ => 1) (ext0 d) t)
    (h3 : ∀ j, j + 1 < n → t j ≤ t (j + 1)) : IsoFit d (fun i : Fin n => t i) := by
  refine ⟨fun i j hij => mono_of_steps h3 hij j.2, fun z hz hne => ?_⟩
  have := iso_opt (z := ext0 z) (fun _ _ => one_pos) h2 ?_ ?_
  · rw [sum_ext0, sum_ext0] at this
    simpa [ext0_apply] using this
  · intro j hj
    have e1 := ext0_apply z ⟨j, by omega⟩
    have e2 := ext0_apply z ⟨j + 1, hj⟩
    simp only at e1 e2
    rw [e1, e2]; exact hz (by simp)
  · obtain ⟨i, hi⟩ := Function.ne_iff.1 hne
    exact ⟨i, i.2, by rw [ext0_apply]; exact hi⟩

/-- every isotonic fit satisfies the residual invariant -/
lemma inv_of_isoFit {n : ℕ} {d s : Fin n → K} (h : IsoFit d s) : IsoInv n (fun _ => 1) (ext0 d) (ext0 s) := by
  obtain ⟨t, h1, h2, h3⟩ := isoPy_fit d (Nat.lt_succ_self n)
  have h4 := isoFit_of_inv h2 h3
  have he : s = fun i : Fin n => t i := by
    by_contra hne
    have a := h.2 _ h4.1 (fun e => hne e.symm)
    have b := h4.2 s h.1 hne
    exact absurd a (not_lt.2 b.le)
  have he' : ∀ j < n, ext0 s j = t j := fun j hj => by
    have := ext0_apply s ⟨j, hj⟩
    simp only at this
    rw [this, he]
  have hp : ∀ j ≤ n, presid (fun _ => 1) (ext0 d) (ext0 s) j = presid (fun _ => 1) (ext0 d) t j := by
    intro j hj
    unfold presid
    refine Finset.sum_congr rfl fun a ha => ?_
    rw [Finset.mem_range] at ha
    rw [he' a (by omega)]
  refine ⟨fun j hj => ?_, ?_, fun j hj hne => ?_⟩
  · rw [hp j hj]; exact h2.nonneg j hj
  · rw [hp n (le_refl _)]; exact h2.total
  · rw [hp _ hj.le]
    rw [he' j (by omega), he' _ hj] at hne
    exact h2.change j hj hne

/-- core facts about `p = max(s,0)` for the isotonic fit `s` of `a - v` -/
structure SlopeCore {n : ℕ} (a v p : Fin n → K) : Prop where
  mono : Monotone p
  nonneg : ∀ i, 0 ≤ p i
  rmono : Monotone fun i => a i - p i
  rnonneg : ∀ i, p i ≤ a i
  le : ∀ u : Fin n → K, Monotone u → (∀ i, 0 ≤ u i) → ∑ i, (a i - p i) * u i ≤ ∑ i, v i * u i
  eq : ∑ i, (a i - p i) * p i = ∑ i, v i * p i

lemma mono_iff_steps {n : ℕ} {f : Fin n → K} (h : ∀ i (hi : i + 1 < n), f ⟨i, by omega⟩ ≤ f ⟨i + 1, hi⟩) : Monotone f := by
  intro i j hij
  have := mono_of_steps (s := ext0 f) (n := n) (fun k hk => by
    have e1 := ext0_apply f ⟨k, by omega⟩
    have e2 := ext0_apply f ⟨k + 1, hk⟩
    simp only at e1 e2
    rw [e1, e2]; exact h k hk) (a := i) (b := j) hij j.2
  rwa [ext0_apply, ext0_apply] at this

lemma slope_core {n : ℕ} {a v s : Fin n → K} (ha : Monotone a) (ha0 : ∀ i, 0 ≤ a i) (hv : Monotone v)
    (hv0 : ∀ i, 0 ≤ v i) (hs : IsoFit (fun i => a i - v i) s) : SlopeCore a v (fun i => max (s i) 0) := by
  have inv := inv_of_isoFit hs
  have hS : ∀ i (hi : i < n), ext0 s i = s ⟨i, hi⟩ := fun i hi => ext0_apply s ⟨i, hi⟩
  have hD : ∀ i (hi : i < n), ext0 (fun i => a i - v i) i = a ⟨i, hi⟩ - v ⟨i, hi⟩ := fun i hi => ext0_apply _ ⟨i, hi⟩
  have step : ∀ i (hi : i < n), presid (fun _ => 1) (ext0 fun i => a i - v i) (ext0 s) (i + 1) =
      presid (fun _ => 1) (ext0 fun i => a i - v i) (ext0 s) i + (a ⟨i, hi⟩ - v ⟨i, hi⟩ - s ⟨i, hi⟩) := by
    intro i hi
    rw [presid, Finset.sum_range_succ, ← presid, hS i hi, hD i hi, one_mul]
  have pmono : Monotone fun i => max (s i) 0 := fun i j hij => max_le_max (hs.1 hij) (le_refl _)
  have rmono : Monotone fun i => a i - max (s i) 0 := by
    apply mono_iff_steps
    intro i hi
    have e1 := step i (by omega)
    have e2 := step (i + 1) hi
    have n0 := inv.nonneg i (by omega)
    have n2 := inv.nonneg (i + 1 + 1) (by omega)
    have hsm := hs.1 (show (⟨i, by omega⟩ : Fin n) ≤ ⟨i + 1, hi⟩ by simp)
    have ham := ha (show (⟨i, by omega⟩ : Fin n) ≤ ⟨i + 1, hi⟩ by simp)
    have hvm := hv (show (⟨i, by omega⟩ : Fin n) ≤ ⟨i + 1, hi⟩ by simp)
    by_cases he : s ⟨i, by omega⟩ = s ⟨i + 1, hi⟩
    · rw [he]; linarith
    · have h0 := inv.change i hi (by rw [hS i (by omega), hS _ hi]; exact he)
      rcases le_total 0 (s ⟨i + 1, hi⟩) with h | h
      · rw [max_eq_left h]
        have := le_max_left (s ⟨i, by omega⟩) 0
        linarith
      · rw [max_eq_right h, max_eq_right (by linarith)]; linarith
  have rnonneg : ∀ i, max (s i) 0 ≤ a i := by
    intro i
    have h0 : 0 < n := i.pos
    have e1 := step 0 h0
    have n1 := inv.nonneg 1 (by omega)
    rw [presid_zero] at e1
    simp only [zero_add] at e1
    have h1 : max (s ⟨0, h0⟩) 0 ≤ a ⟨0, h0⟩ := by
      apply max_le _ (ha0 _)
      have := hv0 ⟨0, h0⟩
      linarith
    have h2 := rmono (show (⟨0, h0⟩ : Fin n) ≤ i from Nat.zero_le _)
    simp only at h2
    linarith
  -- Abel summation against a vector
  have hab : ∀ u : Fin n → K, ∃ c : ℕ → K,
      ∑ i, (a i - v i - s i) * u i = - ∑ j ∈ Finset.range (n - 1), c j * (ext0 u (j + 1) - ext0 u j) ∧
      (∀ j, j + 1 < n → 0 ≤ c j) ∧ (∀ j (hj : j + 1 < n), s ⟨j, by omega⟩ ≠ s ⟨j + 1, hj⟩ → c j = 0) := by
    intro u
    refine ⟨fun j => presid (fun _ => 1) (ext0 fun i => a i - v i) (ext0 s) (j + 1), ?_,
      fun j hj => inv.nonneg _ (by omega), fun j hj hne => ?_⟩
    · cases n with
      | zero => simp
      | succ m =>
        have h1 := abel (fun _ => 1) (ext0 fun i => a i - v i) (ext0 s) (ext0 u) m
        rw [inv.total, sum_ext0] at h1
        simp only [ext0_apply, one_mul, zero_mul, zero_sub] at h1
        exact h1
    · exact inv.change j hj (by rw [hS j (by omega), hS _ hj]; exact hne)
  refine ⟨pmono, fun i => le_max_right _ _, rmono, rnonneg, fun u hu hu0 => ?_, ?_⟩
  · obtain ⟨c, h1, h2, h3⟩ := hab u
    have h4 : 0 ≤ ∑ j ∈ Finset.range (n - 1), c j * (ext0 u (j + 1) - ext0 u j) := by
      apply Finset.sum_nonneg
      intro j hj
      rw [Finset.mem_range] at hj
      have hj' : j + 1 < n := by omega
      have e1 := ext0_apply u ⟨j, by omega⟩
      have e2 := ext0_apply u ⟨j + 1, hj'⟩
      simp only at e1 e2
      rw [e1, e2]
      exact mul_nonneg (h2 j hj') (sub_nonneg.2 (hu (by simp)))
    have h5 : ∑ i, (a i - max (s i) 0) * u i ≤ ∑ i, (a i - v i - s i) * u i + ∑ i, v i * u i := by
      rw [← Finset.sum_add_distrib]
      refine Finset.sum_le_sum fun i _ => ?_
      nlinarith [hu0 i, le_max_left (s i) 0]
    linarith
  · obtain ⟨c, h1, h2, h3⟩ := hab fun i => max (s i) 0
    have h4 : ∑ j ∈ Finset.range (n - 1), c j * (ext0 (fun i => max (s i) 0) (j + 1) - ext0 (fun i => max (s i) 0) j) = 0 := by
      apply Finset.sum_eq_zero
      intro j hj
      rw [Finset.mem_range] at hj
      have hj' : j + 1 < n := by omega
      have e1 := ext0_apply (fun i => max (s i) 0) ⟨j, by omega⟩
      have e2 := ext0_apply (fun i => max (s i) 0) ⟨j + 1, hj'⟩
      simp only at e1 e2
      rw [e1, e2]
      by_cases he : s ⟨j, by omega⟩ = s ⟨j + 1, hj'⟩
      · rw [he]; ring
      · rw [h3 j hj' he]; ring
    have h5 : ∑ i, (a i - max (s i) 0) * max (s i) 0 =
        ∑ i, (a i - v i - s i) * max (s i) 0 + ∑ i, v i * max (s i) 0 := by
      rw [← Finset.sum_add_distrib]
      refine Finset.sum_congr rfl fun i _ => ?_
      rcases le_total 0 (s i) with h | h
      · rw [max_eq_left h]; ring
      · rw [max_eq_right h]; ring
    rw [h5, h1, h4]; simp

lemma npSign_mul_abs (x : K) : npSign x * |x| = x := by
  unfold npSign
  split_ifs with h1 h2
  · rw [abs_of_pos h1]; ring
  · rw [abs_of_neg h2]; ring
  · have : x = 0 := le_antisymm (not_lt.1 h1) (not_lt.1 h2)
    rw [this]; simp

lemma npSign_mul_self (x : K) : npSign x * x = |x| := by
  unfold npSign
  split_ifs with h1 h2
  · rw [abs_of_pos h1]; ring
  · rw [abs_of_neg h2]; ring
  · have : x = 0 := le_antisymm (not_lt.1 h1) (not_lt.1 h2)
    rw [this]; simp

lemma npSign_abs_le (x z : K) : npSign x * z ≤ |z| := by
  unfold npSign
  split_ifs with h1 h2
  · rw [one_mul]; exact le_abs_self z
  · have := neg_abs_le z; linarith
  · rw [zero_mul]; exact abs_nonneg z

/-- what is known about the returned point `x ↦ p`, with `g = x - p` -/
structure SlopeFacts {n : ℕ} (x v p : Fin n → K) : Prop where
  dual : ∀ z : Fin n → K, ∑ i, (x i - p i) * z i ≤ ∑ i, v i * npSort (fun j => |z j|) i
  dualsort : ∀ u : Fin n → K, Monotone u → (∀ i, 0 ≤ u i) →
    ∑ i, npSort (fun j => |x j - p j|) i * u i ≤ ∑ i, v i * u i
  eq : ∑ i, (x i - p i) * p i = ∑ i, v i * npSort (fun j => |p j|) i

lemma slope_facts {n : ℕ} {iso : (Fin n → K) → Option (Fin n → K)} {arg : Equiv.Perm (Fin n)} {x w : Fin n → K}
    (harg : Monotone fun i => |x (arg i)|) (hw : Antitone w) (hw0 : ∀ i, 0 ≤ w i) {s : Fin n → K}
    (his : iso (fun i => |x (arg i)| - w i.rev) = some s)
    (hfit : IsoFit (fun i => |x (arg i)| - w i.rev) s) :
    ∃ p, basicProximalMap iso arg x w = some p ∧ SlopeFacts x (fun i => w i.rev) p := by
  have hv : Monotone fun i : Fin n => w i.rev := fun i j hij => hw (Fin.rev_le_rev.2 hij)
  have core := slope_core harg (fun i => abs_nonneg _) hv (fun i => hw0 _) hfit
  refine ⟨_, by rw [basicProximalMap, his]; rfl, ?_⟩
  -- values at the sorted positions
  have hval : ∀ i, (fun j => max (s (arg.symm j)) 0 * npSign (x j)) (arg i) = max (s i) 0 * npSign (x (arg i)) := by
    intro i; simp
  have hres : ∀ i, x (arg i) - max (s i) 0 * npSign (x (arg i)) = npSign (x (arg i)) * (|x (arg i)| - max (s i) 0) := by
    intro i
    have := npSign_mul_abs (x (arg i))
    linear_combination -this
  have hsgn : ∀ i, x (arg i) = 0 → max (s i) 0 = 0 := by
    intro i h0
    have := core.rnonneg i
    simp only [h0, abs_zero] at this
    exact le_antisymm this (le_max_right _ _)
  have habsp : ∀ i, |max (s i) 0 * npSign (x (arg i))| = max (s i) 0 := by
    intro i
    rw [abs_mul, abs_of_nonneg (le_max_right _ _)]
    by_cases h0 : x (arg i) = 0
    · rw [hsgn i h0]; simp
    · have : |npSign (x (arg i))| = 1 := by
        unfold npSign
        split_ifs with h1 h2
        · simp
        · simp
        · exact absurd (le_antisymm (not_lt.1 h1) (not_lt.1 h2)) h0
      rw [this, mul_one]
  have habsr : ∀ i, |npSign (x (arg i)) * (|x (arg i)| - max (s i) 0)| = |x (arg i)| - max (s i) 0 := by
    intro i
    have hnn : 0 ≤ |x (arg i)| - max (s i) 0 := sub_nonneg.2 (core.rnonneg i)
    rw [abs_mul, abs_of_nonneg hnn]
    by_cases h0 : x (arg i) = 0
    · rw [hsgn i h0, h0]; simp
    · have : |npSign (x (arg i))| = 1 := by
        unfold npSign
        split_ifs with h1 h2
        · simp
        · simp
        · exact absurd (le_antisymm (not_lt.1 h1) (not_lt.1 h2)) h0
      rw [this, one_mul]
  refine ⟨fun z => ?_, fun u hu hu0 => ?_, ?_⟩
  · rw [← Equiv.sum_comp arg]
    calc ∑ i, (x (arg i) - (fun j => max (s (arg.symm j)) 0 * npSign (x j)) (arg i)) * z (arg i)
        ≤ ∑ i, (|x (arg i)| - max (s i) 0) * |z (arg i)| := by
          refine Finset.sum_le_sum fun i _ => ?_
          rw [hval, hres]
          have h1 := npSign_abs_le (x (arg i)) (z (arg i))
          have h2 : 0 ≤ |x (arg i)| - max (s i) 0 := sub_nonneg.2 (core.rnonneg i)
          nlinarith
      _ ≤ ∑ i, (|x (arg i)| - max (s i) 0) * npSort (fun j => |z j|) i :=
          rearr (b := fun j => |z j|) core.rmono arg
      _ ≤ _ := core.le _ (npSort_mono _) (fun i => npSort_nonneg (fun j => abs_nonneg _) i)
  · have hs : npSort (fun j => |x j - (fun j => max (s (arg.symm j)) 0 * npSign (x j)) j|) =
        fun i => |x (arg i)| - max (s i) 0 := by
      have e : (fun j => |x j - (fun j => max (s (arg.symm j)) 0 * npSign (x j)) j|) ∘ arg =
          fun i => |x (arg i)| - max (s i) 0 := by
        funext i
        simp only [Function.comp]
        rw [Equiv.symm_apply_apply, hres, habsr]
      rw [npSort_eq (σ := arg), e]
      rw [e]; exact core.rmono
    rw [hs]
    exact core.le u hu hu0
  · have hs : npSort (fun j => |(fun j => max (s (arg.symm j)) 0 * npSign (x j)) j|) = fun i => max (s i) 0 := by
      have e : (fun j => |(fun j => max (s (arg.symm j)) 0 * npSign (x j)) j|) ∘ arg = fun i => max (s i) 0 := by
        funext i
        simp only [Function.comp]
        rw [Equiv.symm_apply_apply, habsp]
      rw [npSort_eq (σ := arg), e]
      rw [e]; exact core.mono
    rw [hs, ← core.eq, ← Equiv.sum_comp arg]
    refine Finset.sum_congr rfl fun i _ => ?_
    simp only [Equiv.symm_apply_apply]
    rw [hres]
    by_cases h0 : x (arg i) = 0
    · rw [hsgn i h0]; simp
    · have : npSign (x (arg i)) * npSign (x (arg i)) = 1 := by
        unfold npSign
        split_ifs with h1 h2
        · simp
        · simp
        · exact absurd (le_antisymm (not_lt.1 h1) (not_lt.1 h2)) h0
      linear_combination (|x (arg i)| - max (s i) 0) * max (s i) 0 * this

/-- summation by parts: tail sums decide the pairing with nondecreasing nonnegative vectors -/
lemma tail_pair {n : ℕ} (h u : Fin n → K) (hu : Monotone u) (ht : ∀ k, 0 ≤ ∑ i, if k ≤ i then h i else 0) (c : K)
    (hc : ∀ i, c ≤ u i) : c * ∑ i, h i ≤ ∑ i, h i * u i := by
  induction n generalizing c with
  | zero => simp
  | succ n ih =>
    have h1 := ih (fun i => h i.succ) (fun i => u i.succ) (fun i j hij => hu (Fin.succ_le_succ_iff.2 hij)) (fun k => by
      have := ht k.succ
      rw [Fin.sum_univ_succ] at this
      simpa using this) (u 0) (fun i => hu (Fin.zero_le _))
    have h2 := ht 0
    simp only [Fin.zero_le, if_true] at h2
    rw [Fin.sum_univ_succ] at h2
    rw [Fin.sum_univ_succ, Fin.sum_univ_succ]
    have h3 := hc 0
    nlinarith

lemma tail_pair_le {n : ℕ} {f g u : Fin n → K} (hu : Monotone u) (hu0 : ∀ i, 0 ≤ u i)
    (ht : ∀ k, ∑ i, (if k ≤ i then f i else 0) ≤ ∑ i, if k ≤ i then g i else 0) : ∑ i, f i * u i ≤ ∑ i, g i * u i := by
  have := tail_pair (fun i => g i - f i) u hu (fun k => by
    have h := ht k
    rw [← sub_nonneg, ← Finset.sum_sub_distrib] at h
    refine h.trans (le_of_eq (Finset.sum_congr rfl fun i _ => ?_))
    split_ifs <;> simp) 0 hu0
  rw [zero_mul] at this
  rw [← sub_nonneg, ← Finset.sum_sub_distrib]
  refine this.trans (le_of_eq (Finset.sum_congr rfl fun i _ => by ring))

lemma cumsum_rev {n : ℕ} (f : Fin n → K) (k : Fin n) :
    npCumsum (fun j => f j.rev) k = ∑ i, if k.rev ≤ i then f i else 0 := by
  unfold npCumsum
  rw [Finset.sum_filter, ← Equiv.sum_comp Fin.revPerm]
  refine Finset.sum_congr rfl fun i _ => ?_
  simp only [Fin.revPerm_apply, Fin.rev_rev]
  by_cases h : i.rev ≤ k
  · rw [if_pos h, if_pos (Fin.rev_le_iff.1 h)]
  · rw [if_neg h, if_neg (fun h' => h (Fin.rev_le_iff.2 h'))]

lemma cumsum_pos {n : ℕ} {w : Fin n → K} (hw : ∀ i, 0 < w i) (k : Fin n) : 0 < npCumsum w k := by
  unfold npCumsum
  exact Finset.sum_pos (fun i _ => hw i) ⟨k, by simp⟩

/-- the dual ball, through tail sums -/
lemma conjSeminorm_le_iff {n : ℕ} {w : Fin (n + 1) → K} (hw : ∀ i, 0 < w i) (y : Fin (n + 1) → K) (b : K) :
    conjSeminorm w y 1 ≤ b ↔ ∀ k : Fin (n + 1), ∑ i, (if k ≤ i then npSort (fun j => |y j|) i else 0) ≤
      ∑ i, if k ≤ i then b * w i.rev else 0 := by
  unfold conjSeminorm npMax
  rw [one_mul, Finset.sup'_le_iff]
  have key : ∀ k : Fin (n + 1), |npCumsum (fun j => npSort (fun j => |y j|) j.rev) k / npCumsum w k| ≤ b ↔
      ∑ i, (if k.rev ≤ i then npSort (fun j => |y j|) i else 0) ≤ ∑ i, if k.rev ≤ i then b * w i.rev else 0 := by
    intro k
    have h1 := cumsum_pos hw k
    have h2 : npCumsum w k = ∑ i, if k.rev ≤ i then w i.rev else 0 := by
      rw [← cumsum_rev (fun i => w i.rev)]
      simp
    have h3 : 0 ≤ npCumsum (fun j => npSort (fun j => |y j|) j.rev) k :=
      Finset.sum_nonneg fun i _ => abs_nonneg _
    rw [abs_of_nonneg (div_nonneg h3 h1.le), div_le_iff₀ h1, h2, cumsum_rev, Finset.mul_sum]
    simp only [mul_ite, mul_zero]
  constructor
  · intro h k
    have := (key k.rev).1 (h k.rev (Finset.mem_univ _))
    simpa using this
  · intro h k _
    exact (key k).2 (h k.rev)

end Verif.Lemmas
