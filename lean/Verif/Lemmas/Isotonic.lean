import Verif.Model.Isotonic
import Mathlib.Tactic.Linarith
import Mathlib.Tactic.Ring
import Mathlib.Tactic.FieldSimp
import Mathlib.Algebra.Order.BigOperators.Ring.Finset

set_option linter.unusedSectionVars false
set_option linter.unusedVariables false

namespace Verif.Lemmas
open Verif.Model.Isotonic

variable {K : Type*} [Field K] [LinearOrder K] [IsStrictOrderedRing K]

/-- prefix sums of the weighted residuals -/
def presid (w y s : ℕ → K) (j : ℕ) : K := ∑ a ∈ Finset.range j, w a * (y a - s a)

/-- The invariant: residual prefix sums are nonnegative, zero at the end and wherever the level changes. -/
structure IsoInv (N : ℕ) (w y s : ℕ → K) : Prop where
  nonneg : ∀ j ≤ N, 0 ≤ presid w y s j
  total : presid w y s N = 0
  change : ∀ j, j + 1 < N → s j ≠ s (j + 1) → presid w y s (j + 1) = 0

lemma presid_zero (w y s : ℕ → K) : presid w y s 0 = 0 := by simp [presid]

lemma isoInv_init (N : ℕ) (w y : ℕ → K) : IsoInv N w y y := by
  have : ∀ j, presid w y y j = 0 := fun j => by simp [presid]
  exact ⟨fun j _ => (this j).ge, this _, fun j _ _ => this _⟩

lemma anti_of_steps {s : ℕ → K} {i k : ℕ} (h : ∀ j, i ≤ j → j < k → s (j + 1) ≤ s j) {a b : ℕ}
    (ha : i ≤ a) (hab : a ≤ b) (hb : b ≤ k) : s b ≤ s a := by
  induction b, hab using Nat.le_induction with
  | base => exact le_refl _
  | succ b hab ih => exact le_trans (h b (ha.trans hab) (by omega)) (ih (by omega))

/-- prefix sums of `s - mean` are nonnegative for a nonincreasing `s` -/
lemma pool_prefix_nonneg {w s : ℕ → K} {i k : ℕ} (hik : i ≤ k) (hw : ∀ j, i ≤ j → j ≤ k → 0 < w j)
    (hs : ∀ j, i ≤ j → j < k → s (j + 1) ≤ s j) {m : K}
    (hm : ∑ a ∈ Finset.Ico i (k + 1), w a * (s a - m) = 0) {j : ℕ} (hj : i ≤ j) (hjk : j ≤ k + 1) :
    0 ≤ ∑ a ∈ Finset.Ico i j, w a * (s a - m) := by
  rcases Nat.lt_or_ge k j with h | h
  · have : j = k + 1 := by omega
    rw [this, hm]
  · rcases le_total m (s j) with hc | hc
    · apply Finset.sum_nonneg
      intro a ha
      rw [Finset.mem_Ico] at ha
      have h1 := anti_of_steps hs ha.1 ha.2.le h
      have h2 := hw a ha.1 (by omega)
      apply mul_nonneg h2.le; linarith
    · have hsplit := Finset.sum_Ico_consecutive (fun a => w a * (s a - m)) hj hjk
      rw [hm] at hsplit
      have : ∑ a ∈ Finset.Ico j (k + 1), w a * (s a - m) ≤ 0 := by
        apply Finset.sum_nonpos
        intro a ha
        rw [Finset.mem_Ico] at ha
        have h1 := anti_of_steps hs hj ha.1 (by omega)
        have h2 := hw a (by omega) (by omega)
        apply mul_nonpos_of_nonneg_of_nonpos h2.le; linarith
      linarith

/-- value of a pooled run -/
def poolMean (w s : ℕ → K) (i k : ℕ) : K :=
  (∑ j ∈ Finset.Ico i (k + 1), s j * w j) / (∑ j ∈ Finset.Ico i (k + 1), w j)

lemma poolMean_spec {w s : ℕ → K} {i k : ℕ} (hik : i ≤ k) (hw : ∀ j, i ≤ j → j ≤ k → 0 < w j) :
    ∑ a ∈ Finset.Ico i (k + 1), w a * (s a - poolMean w s i k) = 0 := by
  have hpos : 0 < ∑ j ∈ Finset.Ico i (k + 1), w j := by
    apply Finset.sum_pos
    · intro j hj; rw [Finset.mem_Ico] at hj; exact hw j hj.1 (by omega)
    · exact ⟨i, Finset.mem_Ico.2 ⟨le_refl _, by omega⟩⟩
  have : ∑ a ∈ Finset.Ico i (k + 1), w a * (s a - poolMean w s i k) =
      ∑ a ∈ Finset.Ico i (k + 1), s a * w a - poolMean w s i k * ∑ a ∈ Finset.Ico i (k + 1), w a := by
    rw [Finset.mul_sum, ← Finset.sum_sub_distrib]
    exact Finset.sum_congr rfl fun a _ => by ring
  rw [this, poolMean]; field_simp; ring

lemma pool_in (w s : ℕ → K) {i k j : ℕ} (h1 : i ≤ j) (h2 : j ≤ k) : pool w s i k j = poolMean w s i k := by
  simp [pool, poolMean, h1, h2]

lemma pool_out (w s : ℕ → K) {i k j : ℕ} (h : j < i ∨ k < j) : pool w s i k j = s j := by
  simp only [pool]; rw [if_neg]; omega

lemma presid_split (w y s : ℕ → K) {i j : ℕ} (h : i ≤ j) :
    presid w y s j = presid w y s i + ∑ a ∈ Finset.Ico i j, w a * (y a - s a) := by
  unfold presid
  rw [Finset.range_eq_Ico, Finset.range_eq_Ico, Finset.sum_Ico_consecutive _ (Nat.zero_le _) h]

lemma presid_pool_le (w y s : ℕ → K) {i k j : ℕ} (h : j ≤ i) :
    presid w y (pool w s i k) j = presid w y s j := by
  unfold presid
  refine Finset.sum_congr rfl fun a ha => ?_
  rw [Finset.mem_range] at ha
  rw [pool_out _ _ (Or.inl (by omega))]

lemma presid_pool_mid (w y s : ℕ → K) {i k j : ℕ} (h1 : i ≤ j) (h2 : j ≤ k + 1) :
    presid w y (pool w s i k) j =
      presid w y s j + ∑ a ∈ Finset.Ico i j, w a * (s a - poolMean w s i k) := by
  rw [presid_split w y _ h1, presid_split w y s h1, presid_pool_le w y s (le_refl i), add_assoc,
    ← Finset.sum_add_distrib]
  congr 1
  refine Finset.sum_congr rfl fun a ha => ?_
  rw [Finset.mem_Ico] at ha
  rw [pool_in _ _ ha.1 (by omega)]; ring

lemma presid_pool_ge (w y s : ℕ → K) {i k j : ℕ} (hik : i ≤ k) (hw : ∀ j, i ≤ j → j ≤ k → 0 < w j)
    (h : k + 1 ≤ j) : presid w y (pool w s i k) j = presid w y s j := by
  rw [presid_split w y _ h, presid_split w y s h, presid_pool_mid w y s (by omega) (le_refl _), poolMean_spec hik hw,
    add_zero]
  congr 1
  refine Finset.sum_congr rfl fun a ha => ?_
  rw [Finset.mem_Ico] at ha
  rw [pool_out _ _ (Or.inr (by omega))]

/-- pooling a nonincreasing run between two zeros of the residual sums preserves the invariant -/
lemma isoInv_pool {N : ℕ} {w y s : ℕ → K} (hw : ∀ j < N, 0 < w j) (inv : IsoInv N w y s) {i k : ℕ} (hik : i ≤ k)
    (hk : k < N) (hs : ∀ j, i ≤ j → j < k → s (j + 1) ≤ s j)
    (hi0 : presid w y s i = 0) (hk0 : presid w y s (k + 1) = 0) :
    IsoInv N w y (pool w s i k) := by
  have hw' : ∀ j, i ≤ j → j ≤ k → 0 < w j := fun j _ h => hw j (by omega)
  refine ⟨fun j hj => ?_, ?_, fun j hj hne => ?_⟩
  · rcases Nat.lt_or_ge j i with h | h
    · rw [presid_pool_le w y s h.le]; exact inv.nonneg j hj
    · rcases Nat.lt_or_ge (k + 1) j with h' | h'
      · rw [presid_pool_ge w y s hik hw' h'.le]; exact inv.nonneg j hj
      · rw [presid_pool_mid w y s h h']
        exact add_nonneg (inv.nonneg j hj) (pool_prefix_nonneg hik hw' hs (poolMean_spec hik hw') h h')
  · rw [presid_pool_ge w y s hik hw' (by omega)]; exact inv.total
  · rcases Nat.lt_or_ge j k with h | h
    · rcases Nat.lt_or_ge j i with h' | h'
      · rcases Nat.lt_or_ge (j + 1) i with h'' | h''
        · rw [pool_out _ _ (Or.inl h'), pool_out _ _ (Or.inl h'')] at hne
          rw [presid_pool_le w y s h''.le]; exact inv.change j hj hne
        · have : j + 1 = i := by omega
          rw [this, presid_pool_le w y s (le_refl _)]; exact hi0
      · rw [pool_in _ _ h' h.le, pool_in _ _ (by omega) (by omega)] at hne
        exact absurd rfl hne
    · rcases Nat.lt_or_ge k j with h' | h'
      · rw [pool_out _ _ (Or.inr h'), pool_out _ _ (Or.inr (by omega))] at hne
        rw [presid_pool_ge w y s hik hw' (by omega)]; exact inv.change j hj hne
      · have : j = k := by omega
        rw [this, presid_pool_ge w y s hik hw' (le_refl _)]; exact hk0

/-! ### runs -/

lemma runEnd_le (n : ℕ) (s : ℕ → K) (k : ℕ) (h : k ≤ n) : runEnd n s k ≤ n := by
  unfold runEnd
  split_ifs with hc
  · exact runEnd_le n s (k + 1) hc.1
  · exact h
termination_by n - k

lemma runEnd_steps (n : ℕ) (s : ℕ → K) (k : ℕ) :
    ∀ j, k ≤ j → j < runEnd n s k → s (j + 1) ≤ s j := by
  intro j h1 h2
  unfold runEnd at h2
  split_ifs at h2 with hc
  · rcases Nat.eq_or_lt_of_le h1 with e | h
    · rw [← e]; exact hc.2
    · exact runEnd_steps n s (k + 1) j h h2
  · omega
termination_by n - k

lemma runEnd_stop (n : ℕ) (s : ℕ → K) (k : ℕ) : runEnd n s k < n → s (runEnd n s k) < s (runEnd n s k + 1) := by
  intro h
  rw [runEnd] at h ⊢
  split_ifs at h ⊢ with hc
  · exact runEnd_stop n s (k + 1) h
  · exact not_le.1 fun h' => hc ⟨h, h'⟩
termination_by n - k

/-- the residual sum vanishes right after a run -/
lemma presid_after_run {n : ℕ} {w y s : ℕ → K} (inv : IsoInv (n + 1) w y s) {i : ℕ} (hi : i ≤ n) :
    presid w y s (runEnd n s i + 1) = 0 := by
  rcases Nat.lt_or_ge (runEnd n s i) n with h | h
  · exact inv.change _ (by omega) (runEnd_stop n s i h).ne
  · have : runEnd n s i = n := le_antisymm (runEnd_le n s i hi) h
    rw [this]; exact inv.total

lemma onePass_inv {n : ℕ} {w y : ℕ → K} (hw : ∀ j < n + 1, 0 < w j) (s : ℕ → K) (i : ℕ) (p : Bool)
    (inv : IsoInv (n + 1) w y s) (hi : i < n → presid w y s i = 0) : IsoInv (n + 1) w y (onePass n w s i p).1 := by
  unfold onePass
  split_ifs with h1
  · have hk := le_runEnd n s i
    have hkn := runEnd_le n s i h1.le
    have h0 := presid_after_run inv h1.le
    dsimp only
    split_ifs with h2
    · have inv' := isoInv_pool hw inv hk (by omega) (runEnd_steps n s i) (hi h1) h0
      apply onePass_inv hw _ _ _ inv'
      intro _
      rw [presid_pool_ge w y s hk (fun j _ h => hw j (by omega)) (le_refl _)]
      exact h0
    · exact onePass_inv hw _ _ _ inv fun _ => h0
  · exact inv
termination_by n - i
decreasing_by
  all_goals
    have := le_runEnd n s i
    omega

lemma onePass_flag (n : ℕ) (w s : ℕ → K) (i : ℕ) (p : Bool) (h : (onePass n w s i p).2 = false) :
    p = false ∧ (onePass n w s i p).1 = s ∧ ∀ j, i ≤ j → j < n → s j ≤ s (j + 1) := by
  unfold onePass at h ⊢
  split_ifs at h ⊢ with h1
  · dsimp only at h ⊢
    split_ifs at h ⊢ with h2
    · exact absurd (onePass_flag n w _ _ _ h).1 (by simp)
    · have hk := le_runEnd n s i
      obtain ⟨e1, e2, e3⟩ := onePass_flag n w s _ p h
      refine ⟨e1, e2, fun j hij hjn => ?_⟩
      rcases Nat.lt_trichotomy j (runEnd n s i) with hj | hj | hj
      · rw [not_not] at h2
        have a1 := anti_of_steps (runEnd_steps n s i) (le_refl i) hij hj.le
        have a2 := anti_of_steps (runEnd_steps n s i) (by omega : i ≤ j + 1) (by omega : j + 1 ≤ runEnd n s i) (le_refl _)
        linarith
      · rw [hj]; rw [hj] at hjn; exact (runEnd_stop n s i hjn).le
      · exact e3 j hj hjn
  · exact ⟨h, rfl, fun j hij hjn => by omega⟩
termination_by n - i
decreasing_by
  all_goals
    have := le_runEnd n s i
    omega

/-- number of level changes at positions `i ≤ j < n` -/
def changes (n : ℕ) (s : ℕ → K) (i : ℕ) : ℕ := ((Finset.Ico i n).filter fun j => s j ≠ s (j + 1)).card

lemma changes_split (n : ℕ) (s : ℕ → K) {i k : ℕ} (h1 : i ≤ k) (h2 : k ≤ n) :
    changes n s i = changes k s i + changes n s k := by
  unfold changes
  rw [← Finset.card_union_of_disjoint]
  · rw [← Finset.filter_union, Finset.Ico_union_Ico_eq_Ico h1 h2]
  · apply Finset.disjoint_filter_filter
    exact Finset.Ico_disjoint_Ico_consecutive i k n

lemma changes_congr {n : ℕ} {s t : ℕ → K} {i : ℕ} (h : ∀ j, i ≤ j → j ≤ n → s j = t j) :
    changes n s i = changes n t i := by
  unfold changes
  congr 1
  apply Finset.filter_congr
  intro j hj
  rw [Finset.mem_Ico] at hj
  rw [h j hj.1 (by omega), h (j + 1) (by omega) (by omega)]

lemma changes_const {n : ℕ} {s : ℕ → K} {i : ℕ} (h : ∀ j, i ≤ j → j < n → s j = s (j + 1)) : changes n s i = 0 := by
  unfold changes
  rw [Finset.card_eq_zero, Finset.filter_eq_empty_iff]
  intro j hj
  rw [Finset.mem_Ico] at hj
  rw [not_not]; exact h j hj.1 hj.2

lemma changes_pos {n : ℕ} {s : ℕ → K} {i : ℕ} (hi : i ≤ n) (h : s i ≠ s n) : 0 < changes n s i := by
  rw [Nat.pos_iff_ne_zero]
  intro e
  unfold changes at e
  rw [Finset.card_eq_zero, Finset.filter_eq_empty_iff] at e
  apply h
  have key : ∀ m, i ≤ m → m ≤ n → s i = s m := by
    intro m hm
    induction m, hm using Nat.le_induction with
    | base => intro _; rfl
    | succ m hm ih =>
      intro h'
      have h3 := @e m (Finset.mem_Ico.2 ⟨hm, by omega⟩)
      rw [not_not] at h3
      rw [ih (by omega), h3]
  exact key n hi (le_refl _)

lemma changes_le_one (s : ℕ → K) (k : ℕ) : changes (k + 1) s k ≤ 1 := by
  unfold changes
  refine (Finset.card_filter_le _ _).trans ?_
  simp

lemma changes_one {s : ℕ → K} {k : ℕ} (h : s k ≠ s (k + 1)) : changes (k + 1) s k = 1 := by
  have h1 := changes_le_one s k
  have h2 : 0 < changes (k + 1) s k := changes_pos (by omega) h
  omega

lemma onePass_count (n : ℕ) (w s : ℕ → K) (i : ℕ) (p : Bool) :
    (∀ j < i, (onePass n w s i p).1 j = s j) ∧
    changes n (onePass n w s i p).1 i ≤ changes n s i ∧
    (p = false → (onePass n w s i p).2 = true → changes n (onePass n w s i p).1 i < changes n s i) := by
  rw [onePass]
  by_cases h1 : i < n
  · rw [if_pos h1]
    dsimp only
    have hk := le_runEnd n s i
    have hkn := runEnd_le n s i h1.le
    set k := runEnd n s i with hkdef
    have hstop := runEnd_stop n s i
    rw [← hkdef] at hstop
    -- comparison of the counts before and after, given the array `t` from which the rest starts
    have core : ∀ (t u : ℕ → K), (∀ j, k < j → t j = s j) → (∀ j < k + 1, u j = t j) →
        changes n u (k + 1) ≤ changes n t (k + 1) →
        (changes n u i ≤ changes k u i + changes n s k) := by
      intro t u h2 h3 h4
      rw [changes_split n u hk hkn]
      rcases Nat.lt_or_ge k n with hlt | hge
      · rw [changes_split n u (show k ≤ k + 1 by omega) hlt, changes_split n s (show k ≤ k + 1 by omega) hlt]
        have e1 : changes n t (k + 1) = changes n s (k + 1) := changes_congr fun j hj _ => h2 j (by omega)
        have e2 := changes_one (hstop hlt).ne
        have e3 := changes_le_one u k
        omega
      · have : k = n := le_antisymm hkn hge
        rw [this]; simp [changes]
    by_cases h2 : s i ≠ s k
    · rw [if_pos h2]
      obtain ⟨r1, r2, r3⟩ := onePass_count n w (pool w s i k) (k + 1) true
      have hc := core (pool w s i k) _ (fun j hj => pool_out _ _ (Or.inr hj)) r1 r2
      have hz : changes k (onePass n w (pool w s i k) (k + 1) true).1 i = 0 := by
        apply changes_const
        intro j hj1 hj2
        rw [r1 j (by omega), r1 (j + 1) (by omega), pool_in _ _ hj1 hj2.le, pool_in _ _ (by omega) (by omega)]
      have hp : 0 < changes k s i := changes_pos hk h2
      have hs := changes_split n s hk hkn
      refine ⟨fun j hj => ?_, by omega, fun _ _ => by omega⟩
      rw [r1 j (by omega), pool_out _ _ (Or.inl hj)]
    · rw [if_neg h2]
      obtain ⟨r1, r2, r3⟩ := onePass_count n w s (k + 1) p
      have hs' : changes k (onePass n w s (k + 1) p).1 i = changes k s i :=
        changes_congr fun j _ hj => r1 j (by omega)
      have hs := changes_split n s hk hkn
      refine ⟨fun j hj => r1 j (by omega), ?_, fun hp hr => ?_⟩
      · have hc := core s _ (fun j _ => rfl) r1 r2
        omega
      · have h3 := r3 hp hr
        rw [changes_split n _ hk hkn]
        rcases Nat.lt_or_ge k n with hlt | hge
        · rw [changes_split n _ (show k ≤ k + 1 by omega) hlt]
          rw [changes_split n s (show k ≤ k + 1 by omega) hlt] at hs
          have e2 := changes_one (hstop hlt).ne
          have e3 := changes_le_one (onePass n w s (k + 1) p).1 k
          omega
        · have : k = n := le_antisymm hkn hge
          exfalso
          rw [this] at h3
          simp [changes] at h3
  · rw [if_neg h1]
    exact ⟨fun j _ => rfl, le_refl _, fun h1 h2 => by rw [h1] at h2; exact absurd h2 (by simp)⟩
termination_by n - i
decreasing_by
  all_goals
    have := le_runEnd n s i
    omega

lemma passes_spec {n : ℕ} {w y : ℕ → K} (hw : ∀ j < n + 1, 0 < w j) (fuel : ℕ) (s : ℕ → K)
    (inv : IsoInv (n + 1) w y s) (hf : changes n s 0 < fuel) :
    ∃ t, passes n w fuel s = some t ∧ IsoInv (n + 1) w y t ∧ ∀ j < n, t j ≤ t (j + 1) := by
  induction fuel generalizing s with
  | zero => omega
  | succ fuel ih =>
    have inv' := onePass_inv hw s 0 false inv fun _ => presid_zero _ _ _
    rw [passes]

    cases hr : (onePass n w s 0 false).2 with
    | true =>
      rw [if_pos rfl]
      have h := (onePass_count n w s 0 false).2.2 rfl hr
      exact ih _ inv' (by omega)
    | false =>
      rw [if_neg (by simp)]
      obtain ⟨_, e, hm⟩ := onePass_flag n w s 0 false hr
      exact ⟨_, rfl, inv', by rw [e]; intro j hj; exact hm j (Nat.zero_le _) hj⟩

/-! ### optimality -/

lemma abel (w y s z : ℕ → K) (m : ℕ) :
    ∑ i ∈ Finset.range (m + 1), w i * (y i - s i) * z i =
      presid w y s (m + 1) * z m - ∑ j ∈ Finset.range m, presid w y s (j + 1) * (z (j + 1) - z j) := by
  induction m with
  | zero => simp [presid]
  | succ m ih =>
    rw [Finset.sum_range_succ, ih, Finset.sum_range_succ (n := m)]
    have : presid w y s (m + 1 + 1) = presid w y s (m + 1) + w (m + 1) * (y (m + 1) - s (m + 1)) := by
      simp [presid, Finset.sum_range_succ]
    rw [this]; ring

lemma iso_vi {N : ℕ} {w y s : ℕ → K} (inv : IsoInv N w y s) {z : ℕ → K} (hz : ∀ j, j + 1 < N → z j ≤ z (j + 1)) :
    ∑ i ∈ Finset.range N, w i * (y i - s i) * (z i - s i) ≤ 0 := by
  cases N with
  | zero => simp
  | succ m =>
    have h1 := abel w y s z m
    have h2 := abel w y s s m
    rw [inv.total] at h1 h2
    have h3 : 0 ≤ ∑ j ∈ Finset.range m, presid w y s (j + 1) * (z (j + 1) - z j) := by
      apply Finset.sum_nonneg; intro j hj
      rw [Finset.mem_range] at hj
      exact mul_nonneg (inv.nonneg _ (by omega)) (sub_nonneg.2 (hz j (by omega)))
    have h4 : ∑ j ∈ Finset.range m, presid w y s (j + 1) * (s (j + 1) - s j) = 0 := by
      apply Finset.sum_eq_zero; intro j hj
      rw [Finset.mem_range] at hj
      by_cases e : s j = s (j + 1)
      · rw [e]; ring
      · rw [inv.change j (by omega) e]; ring
    have : ∑ i ∈ Finset.range (m + 1), w i * (y i - s i) * (z i - s i) =
        ∑ i ∈ Finset.range (m + 1), w i * (y i - s i) * z i - ∑ i ∈ Finset.range (m + 1), w i * (y i - s i) * s i := by
      rw [← Finset.sum_sub_distrib]; exact Finset.sum_congr rfl fun i _ => by ring
    rw [this, h1, h2, h4]; linarith

lemma iso_opt {N : ℕ} {w y s : ℕ → K} (hw : ∀ j < N, 0 < w j) (inv : IsoInv N w y s) {z : ℕ → K}
    (hz : ∀ j, j + 1 < N → z j ≤ z (j + 1)) (hne : ∃ i < N, z i ≠ s i) :
    ∑ i ∈ Finset.range N, w i * (y i - s i) ^ 2 < ∑ i ∈ Finset.range N, w i * (y i - z i) ^ 2 := by
  have h1 := iso_vi inv hz
  have h2 : 0 < ∑ i ∈ Finset.range N, w i * (z i - s i) ^ 2 := by
    obtain ⟨i, hi, hne⟩ := hne
    apply Finset.sum_pos'
    · intro j hj; rw [Finset.mem_range] at hj; exact mul_nonneg (hw j hj).le (sq_nonneg _)
    · refine ⟨i, Finset.mem_range.2 hi, mul_pos (hw i hi) ?_⟩
      have : z i - s i ≠ 0 := sub_ne_zero.2 hne
      positivity
  have h3 : ∑ i ∈ Finset.range N, w i * (y i - z i) ^ 2 = ∑ i ∈ Finset.range N, w i * (y i - s i) ^ 2 +
      ∑ i ∈ Finset.range N, w i * (z i - s i) ^ 2 - 2 * ∑ i ∈ Finset.range N, w i * (y i - s i) * (z i - s i) := by
    rw [Finset.mul_sum, ← Finset.sum_add_distrib, ← Finset.sum_sub_distrib]
    exact Finset.sum_congr rfl fun i _ => by ring
  linarith

/-! ### the pure Python version -/

/-- level sets: `start i ≤ i ≤ last i < N`, constant on each level set, zero residual at both ends -/
structure PavInv (N : ℕ) (y : ℕ → K) (st : PavState K) : Prop where
  inv : IsoInv N (fun _ => 1) y st.v
  bd : ∀ i < N, st.start i ≤ i ∧ i ≤ st.last i ∧ st.last i < N
  blk : ∀ i < N, ∀ j, st.start i ≤ j → j ≤ st.last i →
    st.start j = st.start i ∧ st.last j = st.last i ∧ st.v j = st.v i
  r0 : ∀ i < N, presid (fun _ => 1) y st.v (st.start i) = 0
  r1 : ∀ i < N, presid (fun _ => 1) y st.v (st.last i + 1) = 0

lemma pavInv_init (N : ℕ) (y : ℕ → K) : PavInv N y ⟨y, id, id⟩ := by
  have h : ∀ j, presid (fun _ => 1) y y j = 0 := fun j => by simp [presid]
  refine ⟨isoInv_init N _ y, fun i hi => ⟨le_refl _, le_refl _, hi⟩, fun i hi j h1 h2 => ?_, fun i _ => h _, fun i _ => h _⟩
  have : j = i := le_antisymm h2 h1
  subst this; exact ⟨rfl, rfl, rfl⟩

lemma firstViol_some {N i : ℕ} {v : ℕ → K} (h : firstViol N v = some i) : i + 1 < N ∧ v (i + 1) < v i := by
  unfold firstViol at h
  have h1 := List.mem_of_find?_eq_some h
  have h2 := List.find?_some h
  rw [List.mem_range] at h1
  simp only [decide_eq_true_eq] at h2
  exact ⟨by omega, by linarith⟩

lemma firstViol_none {N : ℕ} {v : ℕ → K} (h : firstViol N v = none) : ∀ j, j + 1 < N → v j ≤ v (j + 1) := by
  intro j hj
  unfold firstViol at h
  rw [List.find?_eq_none] at h
  have := h j (List.mem_range.2 (by omega))
  simp only [decide_eq_true_eq, not_lt] at this
  linarith

lemma pavStep_v {N : ℕ} {y : ℕ → K} {st : PavState K} (pi : PavInv N y st) {i : ℕ} (hi : i + 1 < N) :
    (pavStep st i).v = pool (fun _ => 1) st.v (st.start i) (st.last (i + 1)) := by
  have h1 := pi.bd i (by omega)
  have h2 := pi.bd (i + 1) hi
  funext j
  simp only [pavStep, pool, mul_one, Finset.sum_const, Nat.card_Ico, nsmul_eq_mul]
  rw [show st.last (i + 1) + 1 - st.start i = st.last (i + 1) - st.start i + 1 by omega]

lemma pavStep_struct {N : ℕ} {y : ℕ → K} {st : PavState K} (pi : PavInv N y st) {i : ℕ} (hi : i + 1 < N)
    (hv : st.v (i + 1) < st.v i) : st.last i = i ∧ st.start (i + 1) = i + 1 := by
  have h1 := pi.bd i (by omega)
  have h2 := pi.bd (i + 1) hi
  constructor
  · by_contra hne
    have := (pi.blk i (by omega) (i + 1) (by omega) (by omega)).2.2
    rw [this] at hv; exact lt_irrefl _ hv
  · by_contra hne
    have := (pi.blk (i + 1) hi i (by omega) (by omega)).2.2
    rw [this] at hv; exact lt_irrefl _ hv

lemma pavStep_inv {N : ℕ} {y : ℕ → K} {st : PavState K} (pi : PavInv N y st) {i : ℕ} (hi : i + 1 < N)
    (hv : st.v (i + 1) < st.v i) : PavInv N y (pavStep st i) := by
  obtain ⟨hl, hs⟩ := pavStep_struct pi hi hv
  have b1 := pi.bd i (by omega)
  have b2 := pi.bd (i + 1) hi
  have hveq := pavStep_v pi hi
  set a := st.start i with ha
  set b := st.last (i + 1) with hb
  have hab : a ≤ b := by omega
  have hw : ∀ j < N, (0:K) < (fun _ => 1) j := fun _ _ => one_pos
  have hw' : ∀ j, a ≤ j → j ≤ b → (0:K) < (fun _ => 1) j := fun _ _ _ => one_pos
  have hva : ∀ j, a ≤ j → j ≤ i → st.v j = st.v i := fun j h1 h2 =>
    (pi.blk i (by omega) j h1 (by omega)).2.2
  have hvb : ∀ j, i + 1 ≤ j → j ≤ b → st.v j = st.v (i + 1) := fun j h1 h2 =>
    (pi.blk (i + 1) hi j (by omega) h2).2.2
  have hsteps : ∀ j, a ≤ j → j < b → st.v (j + 1) ≤ st.v j := by
    intro j h1 h2
    rcases Nat.lt_trichotomy j i with h | h | h
    · rw [hva j h1 h.le, hva (j + 1) (by omega) (by omega)]
    · rw [h]; exact hv.le
    · rw [hvb j (by omega) (by omega), hvb (j + 1) (by omega) (by omega)]
  have ra : presid (fun _ => 1) y st.v a = 0 := pi.r0 i (by omega)
  have rb : presid (fun _ => 1) y st.v (b + 1) = 0 := pi.r1 (i + 1) hi
  have hstart : ∀ j, (pavStep st i).start j = if a ≤ j ∧ j ≤ b then a else st.start j := fun j => rfl
  have hlast : ∀ j, (pavStep st i).last j = if a ≤ j ∧ j ≤ b then b else st.last j := fun j => rfl
  -- level sets of points outside `[a,b]` are disjoint from it
  have hdis : ∀ j < N, ¬ (a ≤ j ∧ j ≤ b) → ∀ x, st.start j ≤ x → x ≤ st.last j → ¬ (a ≤ x ∧ x ≤ b) := by
    intro j hj hout x h1 h2 ⟨h3, h4⟩
    have hx := pi.blk j hj x h1 h2
    have hbj := pi.bd j hj
    rcases Nat.lt_or_ge i x with h | h
    · have := pi.blk (i + 1) hi x (by omega) (by omega)
      apply hout
      rw [hx.1, hx.2.1] at this
      omega
    · have := pi.blk i (by omega) x (by omega) (by omega)
      apply hout
      rw [hx.1, hx.2.1] at this
      omega
  refine ⟨?_, ?_, ?_, ?_, ?_⟩
  · rw [hveq]; exact isoInv_pool hw pi.inv hab b2.2.2 hsteps ra rb
  · intro j hj
    rw [hstart, hlast]
    split_ifs with hc
    · exact ⟨hc.1, hc.2, b2.2.2⟩
    · exact pi.bd j hj
  · intro j hj x
    rw [hstart j, hlast j, hveq]
    split_ifs with hc
    · intro h1 h2
      rw [hstart x, hlast x, if_pos ⟨h1, h2⟩, if_pos ⟨h1, h2⟩, pool_in _ _ h1 h2, pool_in _ _ hc.1 hc.2]
      exact ⟨rfl, rfl, rfl⟩
    · intro h1 h2
      have hx := hdis j hj hc x h1 h2
      rw [hstart x, hlast x, if_neg hx, if_neg hx, pool_out _ _ (by omega), pool_out _ _ (by omega)]
      exact pi.blk j hj x h1 h2
  · intro j hj
    rw [hstart, hveq]
    split_ifs with hc
    · rw [presid_pool_le _ _ _ (le_refl _)]; exact ra
    · have hbj := pi.bd j hj
      have hx := hdis j hj hc (st.start j) (le_refl _) (by omega)
      rcases Nat.lt_or_ge (st.start j) a with h | h
      · rw [presid_pool_le _ _ _ h.le]; exact pi.r0 j hj
      · rw [presid_pool_ge _ _ _ hab hw' (by omega)]; exact pi.r0 j hj
  · intro j hj
    rw [hlast, hveq]
    split_ifs with hc
    · rw [presid_pool_ge _ _ _ hab hw' (le_refl _)]; exact rb
    · have hbj := pi.bd j hj
      have hx := hdis j hj hc (st.last j) (by omega) (le_refl _)
      rcases Nat.lt_or_ge (st.last j) a with h | h
      · rw [presid_pool_le _ _ _ (by omega)]; exact pi.r1 j hj
      · rw [presid_pool_ge _ _ _ hab hw' (by omega)]; exact pi.r1 j hj

/-- number of level sets -/
def nblocks (N : ℕ) (st : PavState K) : ℕ := ((Finset.range N).filter fun j => st.start j = j).card

lemma pavStep_nblocks {N : ℕ} {y : ℕ → K} {st : PavState K} (pi : PavInv N y st) {i : ℕ} (hi : i + 1 < N)
    (hv : st.v (i + 1) < st.v i) : nblocks N (pavStep st i) < nblocks N st := by
  obtain ⟨hl, hs⟩ := pavStep_struct pi hi hv
  have b1 := pi.bd i (by omega)
  have b2 := pi.bd (i + 1) hi
  have hstart : ∀ j, (pavStep st i).start j = if st.start i ≤ j ∧ j ≤ st.last (i + 1) then st.start i else st.start j :=
    fun j => rfl
  apply Finset.card_lt_card
  rw [Finset.ssubset_iff_of_subset]
  · refine ⟨i + 1, Finset.mem_filter.2 ⟨Finset.mem_range.2 hi, hs⟩, ?_⟩
    rw [Finset.mem_filter, hstart, if_pos (by omega)]
    omega
  · intro j hj
    rw [Finset.mem_filter, hstart] at hj
    rw [Finset.mem_filter]
    refine ⟨hj.1, ?_⟩
    have h2 := hj.2
    split_ifs at h2 with hc
    · rw [← h2]
      exact (pi.blk i (by omega) (st.start i) (le_refl _) (by omega)).1
    · exact h2

lemma pavLoop_spec {N : ℕ} {y : ℕ → K} (fuel : ℕ) (st : PavState K) (pi : PavInv N y st)
    (hf : nblocks N st < fuel) :
    ∃ t, pavLoop N fuel st = some t ∧ IsoInv N (fun _ => 1) y t ∧ ∀ j, j + 1 < N → t j ≤ t (j + 1) := by
  induction fuel generalizing st with
  | zero => omega
  | succ fuel ih =>
    rw [pavLoop]
    cases hfv : firstViol N st.v with
    | none => exact ⟨_, rfl, pi.inv, firstViol_none hfv⟩
    | some i =>
      obtain ⟨h1, h2⟩ := firstViol_some hfv
      have := pavStep_nblocks pi h1 h2
      exact ih _ (pavStep_inv pi h1 h2) (by omega)

end Verif.Lemmas
