import Verif.Model.CrossValidate
import Mathlib.Data.Nat.ModEq
import Mathlib.Data.Fintype.Card
import Mathlib.Order.Interval.Finset.Nat
import Mathlib.Tactic.Linarith
import Mathlib.Tactic.FieldSimp
import Mathlib.Tactic.Ring

/-!
# C42: the cross-validation folds partition the cases
-/

set_option linter.unusedSectionVars false
set_option linter.unusedVariables false

namespace Verif.Props
open Verif.Model.CrossValidate

variable {n : ℕ}

/-- C42: whatever the rounding, the number of folds and the shuffle: every case is in the test set of exactly one
fold, the training set is the complement of the test set, and no test set is empty. -/
theorem C42_partition (fl : ℚ → ℚ) (cv : ℕ) (shuffle : Equiv.Perm (Fin n)) :
    (∀ i : Fin n, ∃! k : Fin (folds fl n cv shuffle).length, ((folds fl n cv shuffle).get k).2 i = true) ∧
    (∀ f ∈ folds fl n cv shuffle, ∀ i, f.1 i = !(f.2 i)) ∧
    (∀ f ∈ folds fl n cv shuffle, ∃ i, f.2 i = true) := by
  set s := (Finset.univ.image (groups fl n cv shuffle)).sort (· ≤ ·) with hs
  have hnd : s.Nodup := Finset.sort_nodup _ _
  have hmem : ∀ g, g ∈ s ↔ ∃ i, groups fl n cv shuffle i = g := by
    intro g; rw [hs, Finset.mem_sort, Finset.mem_image]; simp
  refine ⟨fun i => ?_, ?_, ?_⟩
  · have hi : groups fl n cv shuffle i ∈ s := (hmem _).2 ⟨i, rfl⟩
    obtain ⟨k, hk, hki⟩ := List.getElem_of_mem hi
    have hlen : (folds fl n cv shuffle).length = s.length := by simp [folds, hs]
    refine ⟨⟨k, by rw [hlen]; exact hk⟩, ?_, ?_⟩
    · simp only [folds, List.get_eq_getElem, List.getElem_map]
      rw [decide_eq_true_eq]
      exact hki.symm
    · rintro ⟨k', hk'⟩ h
      simp only [folds, List.get_eq_getElem, List.getElem_map, decide_eq_true_eq] at h
      rw [hlen] at hk'
      have e : s[k] = s[k'] := hki.trans h
      have := (List.Nodup.getElem_inj_iff hnd).1 e
      simp [this]
  · intro f hf i
    unfold folds at hf
    rw [List.mem_map] at hf
    obtain ⟨g, _, rfl⟩ := hf
    by_cases h : groups fl n cv shuffle i = g <;> simp [h]
  · intro f hf
    unfold folds at hf
    rw [List.mem_map] at hf
    obtain ⟨g, hg, rfl⟩ := hf
    obtain ⟨i, hi⟩ := (hmem g).1 hg
    exact ⟨i, by simp [hi]⟩

/-! ### sizes in exact arithmetic -/

/-- counting the multiples of `c` in a window of length `n` -/
private lemma window_card (a c m : ℕ) (hc : 0 < c) :
    ∀ N, a + m ≤ c * N →
      ((Finset.range N).filter fun i => a ≤ i * c ∧ i * c < a + m).card = (a + m + c - 1) / c - (a + c - 1) / c := by
  intro N hN
  have e : ((Finset.range N).filter fun i => a ≤ i * c ∧ i * c < a + m) =
      Finset.Ico ((a + c - 1) / c) ((a + m + c - 1) / c) := by
    ext i
    simp only [Finset.mem_filter, Finset.mem_range, Finset.mem_Ico]
    have h1 : (a + c - 1) / c ≤ i ↔ a ≤ i * c := by
      rw [← Nat.lt_succ_iff, Nat.div_lt_iff_lt_mul hc, Nat.succ_mul]; omega
    have h2 : i < (a + m + c - 1) / c ↔ i * c < a + m := by
      rw [← Nat.succ_le_iff, Nat.le_div_iff_mul_le hc, Nat.succ_mul]; omega
    rw [h1, h2]
    constructor
    · rintro ⟨_, h⟩; exact h
    · intro h
      refine ⟨?_, h⟩
      by_contra hn
      push Not at hn
      have : c * N ≤ i * c := by rw [mul_comm]; exact Nat.mul_le_mul_right c hn
      omega
  rw [e, Nat.card_Ico]

private lemma window_bounds (a c m : ℕ) (hc : 0 < c) :
    m / c ≤ (a + m + c - 1) / c - (a + c - 1) / c ∧ (a + m + c - 1) / c - (a + c - 1) / c ≤ m / c + 1 := by
  have e : a + m + c - 1 = (a + c - 1) + m := by omega
  rw [e, Nat.add_div hc]
  generalize (a + c - 1) / c = u
  generalize m / c = v
  split_ifs <;> omega

private lemma floor_eq_iff (q : ℚ) (z : ℤ) : q.floor = z ↔ (z : ℚ) ≤ q ∧ q < z + 1 := by
  have h : q.floor = ⌊q⌋ := rfl
  rw [h, Int.floor_eq_iff]

private lemma label_id (n cv i : ℕ) (hn : 0 < n) (g : ℤ) :
    label id n cv i = g ↔ g * n ≤ i * cv ∧ (i * cv : ℤ) < g * n + n := by
  have hn' : (0:ℚ) < n := by exact_mod_cast hn
  unfold label
  simp only [id]
  rw [floor_eq_iff, show (i : ℚ) / n * cv = ((i * cv : ℤ) : ℚ) / n by push_cast; ring, le_div_iff₀ hn',
    div_lt_iff₀ hn']
  constructor
  · rintro ⟨h1, h2⟩
    constructor
    · exact_mod_cast h1
    · have : ((i * cv : ℤ) : ℚ) < ((g * n + n : ℤ) : ℚ) := by push_cast; push_cast at h2; linarith
      exact_mod_cast this
  · rintro ⟨h1, h2⟩
    constructor
    · exact_mod_cast h1
    · have : ((i * cv : ℤ) : ℚ) < ((g * n + n : ℤ) : ℚ) := by exact_mod_cast h2
      push_cast at this ⊢; linarith

/-- size of a test set does not depend on the shuffle -/
private lemma count_test (fl : ℚ → ℚ) (cv : ℕ) (shuffle : Equiv.Perm (Fin n)) (g : ℤ) :
    count (fun i => decide (groups fl n cv shuffle i = g)) =
      ((Finset.range n).filter fun i => label fl n cv i = g).card := by
  unfold count groups
  simp only [decide_eq_true_eq]
  have e1 : (Finset.univ.filter fun i : Fin n => label fl n cv (shuffle i) = g).card =
      (Finset.univ.filter fun i : Fin n => label fl n cv i = g).card := by
    apply Finset.card_bij (fun i _ => shuffle i)
    · intro i hi; simpa using hi
    · intro i _ j _ h; exact shuffle.injective h
    · intro j hj; exact ⟨shuffle.symm j, by simpa using hj, by simp⟩
  rw [e1]
  apply Finset.card_bij (fun (i : Fin n) _ => (i : ℕ))
  · intro i hi; simpa using hi
  · intro i _ j _ h; exact Fin.ext h
  · intro j hj
    simp only [Finset.mem_filter, Finset.mem_range] at hj
    exact ⟨⟨j, hj.1⟩, by simpa using hj.2, rfl⟩

private lemma label_id_range (n cv i : ℕ) (hn : i < n) (g : ℤ) (h : label id n cv i = g) : 0 ≤ g ∧ g < cv ∨ cv = 0 := by
  rw [label_id n cv i (by omega) g] at h
  obtain ⟨h1, h2⟩ := h
  have hn' : (0:ℤ) < n := by omega
  by_cases hc : cv = 0
  · right; exact hc
  left
  constructor
  · by_contra hg
    push Not at hg
    have : (0:ℤ) ≤ (i:ℤ) * cv := by positivity
    nlinarith
  · by_contra hg
    push Not at hg
    have a : (cv : ℤ) * n ≤ g * n := by nlinarith
    have b : (i : ℤ) * cv < n * cv := by
      have : (0:ℤ) < cv := by omega
      have : (i:ℤ) < n := by omega
      nlinarith
    nlinarith

private lemma exact_card (n cv : ℕ) (hcv : 0 < cv) (g : ℕ) (hg : g < cv) :
    n / cv ≤ ((Finset.range n).filter fun i => label id n cv i = (g : ℤ)).card ∧
    ((Finset.range n).filter fun i => label id n cv i = (g : ℤ)).card ≤ n / cv + 1 := by
  rcases Nat.eq_zero_or_pos n with rfl | hn
  · simp
  have e : ((Finset.range n).filter fun i => label id n cv i = (g : ℤ)) =
      (Finset.range n).filter fun i => g * n ≤ i * cv ∧ i * cv < g * n + n := by
    ext i
    simp only [Finset.mem_filter]
    rw [label_id n cv i hn g]
    norm_cast
  rw [e, window_card (g * n) cv n hcv n (by nlinarith)]
  exact window_bounds (g * n) cv n hcv

private lemma mem_folds {fl : ℚ → ℚ} {cv : ℕ} {shuffle : Equiv.Perm (Fin n)} {f} (hf : f ∈ folds fl n cv shuffle) :
    ∃ i : Fin n, f.2 = (fun j => decide (groups fl n cv shuffle j = label fl n cv i)) ∧
      f.1 = (fun j => decide (groups fl n cv shuffle j ≠ label fl n cv i)) := by
  unfold folds at hf
  rw [List.mem_map] at hf
  obtain ⟨g, hg, rfl⟩ := hf
  rw [Finset.mem_sort, Finset.mem_image] at hg
  obtain ⟨i, -, hi⟩ := hg
  exact ⟨shuffle i, by rw [← hi]; rfl, by rw [← hi]; rfl⟩

/-- C42, exact arithmetic: every test set has `⌊n/cv⌋` or `⌊n/cv⌋ + 1` cases, so two test sets differ by at most one
case; and there are exactly `cv` folds when `cv ≤ n`. -/
theorem C42_sizes_partial (cv : ℕ) (hcv : 1 ≤ cv) (shuffle : Equiv.Perm (Fin n)) :
    (∀ f ∈ folds id n cv shuffle, n / cv ≤ count f.2 ∧ count f.2 ≤ n / cv + 1) ∧
    (∀ f ∈ folds id n cv shuffle, ∀ f' ∈ folds id n cv shuffle, count f.2 ≤ count f'.2 + 1) ∧
    (cv ≤ n → (folds id n cv shuffle).length = cv) := by
  have key : ∀ f ∈ folds id n cv shuffle, n / cv ≤ count f.2 ∧ count f.2 ≤ n / cv + 1 := by
    intro f hf
    obtain ⟨i, h2, -⟩ := mem_folds hf
    rw [h2, count_test]
    rcases label_id_range n cv i i.2 _ rfl with ⟨h0, h1⟩ | h
    · obtain ⟨g, hg⟩ := Int.eq_ofNat_of_zero_le h0
      rw [hg] at h1 ⊢
      exact exact_card n cv (by omega) g (by exact_mod_cast h1)
    · omega
  refine ⟨key, ?_, ?_⟩
  · intro f hf f' hf'
    have a := key f hf
    have b := key f' hf'
    omega
  · intro hle
    have e : Finset.univ.image (groups id n cv shuffle) = (Finset.range cv).image (fun g : ℕ => (g : ℤ)) := by
      ext z
      simp only [Finset.mem_image, Finset.mem_univ, true_and, Finset.mem_range]
      constructor
      · rintro ⟨i, hi⟩
        rcases label_id_range n cv (shuffle i) (shuffle i).2 z hi with ⟨h0, h1⟩ | h
        · exact ⟨z.toNat, by omega, by omega⟩
        · omega
      · rintro ⟨g, hg, rfl⟩
        have hc := (exact_card n cv (by omega) g hg).1
        have hpos : 0 < n / cv := Nat.div_pos hle (by omega)
        obtain ⟨j, hj⟩ := Finset.card_pos.1 (lt_of_lt_of_le hpos hc)
        simp only [Finset.mem_filter, Finset.mem_range] at hj
        exact ⟨shuffle.symm ⟨j, hj.1⟩, by unfold groups; simpa using hj.2⟩
    unfold folds
    rw [List.length_map, Finset.length_sort, e, Finset.card_image_of_injective _ Nat.cast_injective, Finset.card_range]

private lemma label_rounded (fl : ℚ → ℚ) (ε : ℚ) (hε : 0 ≤ ε) (hfl : ∀ x, 0 ≤ x → |fl x - x| ≤ ε * x) (n cv i : ℕ)
    (hcv : 0 < cv) (hi : i < n) (hsmall : (2 * ε + ε ^ 2) * cv * n ≤ 1) (g : ℤ) (hg : label fl n cv i = g) :
    label id n cv i = g ∨ ((g + 1) * n = i * cv) := by
  have hn : 0 < n := by omega
  have hn' : (0:ℚ) < n := by exact_mod_cast hn
  have hc' : (0:ℚ) < cv := by exact_mod_cast hcv
  set x : ℚ := (i : ℚ) / n with hx
  have hx0 : 0 ≤ x := by positivity
  have hx1 : x < 1 := by rw [hx, div_lt_one hn']; exact_mod_cast hi
  have a := abs_le.1 (hfl x hx0)
  by_cases hi0 : i = 0
  · left
    have x0 : x = 0 := by rw [hx, hi0]; simp
    have f0 : fl 0 = 0 := by
      have := hfl 0 le_rfl
      simpa using this
    rw [← hg]; unfold label; rw [← hx, x0]; simp [f0]
  -- the rounded value is within 1/n of the exact one
  have hε1 : ε ≤ 1 := by
    have hn1 : (1:ℚ) ≤ n := by exact_mod_cast hn
    have hc1 : (1:ℚ) ≤ cv := by exact_mod_cast hcv
    have : (2 * ε + ε ^ 2) ≤ (2 * ε + ε ^ 2) * cv * n := by
      have h0 : 0 ≤ 2 * ε + ε ^ 2 := by positivity
      have : 1 ≤ (cv : ℚ) * n := by nlinarith
      nlinarith
    nlinarith
  have hf0 : 0 ≤ fl x := by nlinarith
  have hy0 : 0 ≤ fl x * cv := by positivity
  have b := abs_le.1 (hfl (fl x * cv) hy0)
  set y := fl (fl x * cv) with hy
  have hxp : 0 < x := by
    have : (0:ℚ) < i := by exact_mod_cast Nat.pos_of_ne_zero hi0
    positivity
  have up : y < x * cv + 1 / n := by
    have h1 : y ≤ (1 + ε) ^ 2 * (x * cv) := by
      have : fl x * cv ≤ (1 + ε) * (x * cv) := by nlinarith
      nlinarith
    have h2 : (2 * ε + ε ^ 2) * (x * cv) < 1 / n ∨ ε = 0 := by
      by_cases e0 : ε = 0
      · right; exact e0
      left
      have ep : 0 < ε := lt_of_le_of_ne hε (Ne.symm e0)
      rw [lt_div_iff₀ hn']
      have : (2 * ε + ε ^ 2) * (x * cv) * n < (2 * ε + ε ^ 2) * cv * n := by
        have h3 : 0 < (2 * ε + ε ^ 2) * cv * n := by positivity
        nlinarith
      linarith
    rcases h2 with h2 | h2
    · nlinarith
    · rw [h2] at h1
      have : (0:ℚ) < 1 / n := by positivity
      linarith
  have lo : x * cv - 1 / n < y := by
    have h1 : (1 - ε) ^ 2 * (x * cv) ≤ y := by
      have : (1 - ε) * (x * cv) ≤ fl x * cv := by nlinarith
      nlinarith
    have h2 : (2 * ε + ε ^ 2) * (x * cv) < 1 / n ∨ ε = 0 := by
      by_cases e0 : ε = 0
      · right; exact e0
      left
      have ep : 0 < ε := lt_of_le_of_ne hε (Ne.symm e0)
      rw [lt_div_iff₀ hn']
      have : (2 * ε + ε ^ 2) * (x * cv) * n < (2 * ε + ε ^ 2) * cv * n := by
        have h3 : 0 < (2 * ε + ε ^ 2) * cv * n := by positivity
        nlinarith
      linarith
    rcases h2 with h2 | h2
    · have : 0 ≤ ε ^ 2 * (x * cv) := by positivity
      nlinarith
    · rw [h2] at h1
      have : (0:ℚ) < 1 / n := by positivity
      linarith
  unfold label at hg
  rw [← hx, ← hy, floor_eq_iff] at hg
  obtain ⟨g1, g2⟩ := hg
  -- x * cv = (i * cv) / n
  have ex : x * cv * n = i * cv := by rw [hx]; field_simp
  have u1 : y * n < i * cv + 1 := by
    have := mul_lt_mul_of_pos_right up hn'
    rw [add_mul, ex, one_div, inv_mul_cancel₀ hn'.ne'] at this
    exact this
  have l1 : (i:ℚ) * cv - 1 < y * n := by
    have := mul_lt_mul_of_pos_right lo hn'
    rw [sub_mul, ex, one_div, inv_mul_cancel₀ hn'.ne'] at this
    exact this
  have z1 : (g * n : ℤ) < i * cv + 1 := by
    have : ((g * n : ℤ) : ℚ) < ((i * cv + 1 : ℤ) : ℚ) := by push_cast; nlinarith
    exact_mod_cast this
  have z2 : (i * cv - 1 : ℤ) < (g + 1) * n := by
    have : ((i * cv - 1 : ℤ) : ℚ) < (((g + 1) * n : ℤ) : ℚ) := by push_cast; nlinarith
    exact_mod_cast this
  by_cases hlast : (g + 1) * (n : ℤ) = i * cv
  · right; exact hlast
  · left
    rw [label_id n cv i hn g]
    constructor
    · omega
    · have : (i * cv : ℤ) < (g + 1) * n := by omega
      linarith

private lemma card_le_add_one {α : Type} [DecidableEq α] (A B : Finset α) (P : α → Prop)
    (hP : ∀ a b, P a → P b → a = b) (h : ∀ a ∈ A, a ∈ B ∨ P a) : A.card ≤ B.card + 1 := by
  classical
  by_cases hA : ∃ a ∈ A, P a
  · obtain ⟨a, ha, pa⟩ := hA
    have : A ⊆ insert a B := by
      intro b hb
      rw [Finset.mem_insert]
      rcases h b hb with h | h
      · right; exact h
      · left; exact hP _ _ h pa
    exact (Finset.card_le_card this).trans (Finset.card_insert_le _ _)
  · have : A ⊆ B := by
      intro b hb
      rcases h b hb with h | h
      · exact h
      · exact absurd ⟨b, hb, h⟩ hA
    have := Finset.card_le_card this
    omega

/-- C42 in floating point: when the rounding has relative error at most `ε` and `n * cv` is small compared to `1/ε`,
every test set has between `⌊n/cv⌋ - 1` and `⌊n/cv⌋ + 2` cases: test sets differ by at most three cases. -/
theorem C42_rounded_sizes_partial (fl : ℚ → ℚ) (ε : ℚ) (hε : 0 ≤ ε) (hfl : ∀ x, 0 ≤ x → |fl x - x| ≤ ε * x)
    (cv : ℕ) (hcv : 1 ≤ cv) (hsmall : (2 * ε + ε ^ 2) * cv * n ≤ 1) (shuffle : Equiv.Perm (Fin n)) :
    ∀ f ∈ folds fl n cv shuffle, n / cv ≤ count f.2 + 1 ∧ count f.2 ≤ n / cv + 2 := by
  intro f hf
  obtain ⟨i0, h2, -⟩ := mem_folds hf
  set g := label fl n cv i0 with hgdef
  have hn : 0 < n := by have := i0.2; omega
  have hmul : ∀ (z : ℤ) (a b : ℕ), z * n = a * cv → z * n = b * cv → a = b := by
    intro z a b h1 h2
    have h3 : (a : ℤ) * cv = b * cv := by linarith
    have : (cv : ℤ) ≠ 0 := by omega
    exact_mod_cast mul_right_cancel₀ this h3
  have hup : ((Finset.range n).filter fun i => label fl n cv i = g).card ≤
      ((Finset.range n).filter fun i => label id n cv i = g).card + 1 := by
    apply card_le_add_one _ _ (fun i : ℕ => (g + 1) * (n : ℤ) = i * cv) (fun a b h1 h2 => hmul _ _ _ h1 h2)
    intro i hi
    rw [Finset.mem_filter, Finset.mem_range] at hi
    rcases label_rounded fl ε hε hfl n cv i (by omega) hi.1 hsmall g hi.2 with h | h
    · left; rw [Finset.mem_filter, Finset.mem_range]; exact ⟨hi.1, h⟩
    · right; exact h
  have hlo : ((Finset.range n).filter fun i => label id n cv i = g).card ≤
      ((Finset.range n).filter fun i => label fl n cv i = g).card + 1 := by
    apply card_le_add_one _ _ (fun i : ℕ => g * (n : ℤ) = i * cv) (fun a b h1 h2 => hmul _ _ _ h1 h2)
    intro i hi
    rw [Finset.mem_filter, Finset.mem_range] at hi
    rcases label_rounded fl ε hε hfl n cv i (by omega) hi.1 hsmall _ rfl with h | h
    · left; rw [Finset.mem_filter, Finset.mem_range]; exact ⟨hi.1, by rw [← h]; exact hi.2⟩
    · right
      have h1 := (label_id n cv i hn g).1 hi.2
      have hg' : label fl n cv i = g - 1 := by
        have a1 : (g : ℤ) * n ≤ (label fl n cv i + 1) * n := by rw [h]; exact h1.1
        have a2 : (label fl n cv i + 1) * (n : ℤ) < (g + 1) * n := by rw [h]; linarith [h1.2]
        have hn' : (0 : ℤ) < n := by omega
        have b1 : g ≤ label fl n cv i + 1 := le_of_mul_le_mul_right a1 hn'
        have b2 : label fl n cv i + 1 < g + 1 := lt_of_mul_lt_mul_right a2 hn'.le
        omega
      rw [hg'] at h
      simpa using h
  -- the label of an actual case lies in the range of exact labels
  have hrange : 0 ≤ g ∧ g < cv := by
    have h0 := label_rounded fl ε hε hfl n cv i0 (by omega) i0.2 hsmall g rfl
    rcases h0 with h | h
    · rcases label_id_range n cv i0 i0.2 g h with h | h
      · exact h
      · omega
    · have hn' : (0 : ℤ) < n := by omega
      have hi : ((i0 : ℕ) : ℤ) < n := by have := i0.2; omega
      have hc : (0:ℤ) < cv := by omega
      have hlt : (g + 1) * (n : ℤ) < cv * n := by rw [h]; nlinarith
      have b1 : g + 1 < cv := lt_of_mul_lt_mul_right hlt hn'.le
      refine ⟨?_, by omega⟩
      by_contra hneg
      push Not at hneg
      have hle : (g + 1) * (n : ℤ) ≤ 0 := by nlinarith
      have hi0 : ((i0 : ℕ) : ℤ) * cv = 0 := le_antisymm (by rw [← h]; exact hle) (by positivity)
      have hz : (i0 : ℕ) = 0 := by
        rcases mul_eq_zero.1 hi0 with h | h
        · exact_mod_cast h
        · omega
      have f0 : fl 0 = 0 := by simpa using hfl 0 le_rfl
      have : g = 0 := by
        rw [hgdef]; unfold label; rw [hz]; simp only [Nat.cast_zero, zero_div, f0, zero_mul]; rfl
      omega
  obtain ⟨k, hk⟩ := Int.eq_ofNat_of_zero_le hrange.1
  have hex := exact_card n cv (by omega) k (by have := hrange.2; rw [hk] at this; exact_mod_cast this)
  rw [h2, count_test]
  rw [hk] at hup hlo ⊢
  omega

/-- the hypotheses of `C42_rounded_sizes_partial` are met by exact arithmetic on any sizes, and by a rounding that is
off by one part in a million on 1000 cases and ten folds -/
example : (∀ x : ℚ, 0 ≤ x → |x * (1 + 1 / 1000000) - x| ≤ 1 / 1000000 * x) ∧
    (2 * (1 / 1000000 : ℚ) + (1 / 1000000) ^ 2) * (10 : ℕ) * (1000 : ℕ) ≤ 1 := by
  constructor
  · intro x hx
    rw [show x * (1 + 1 / 1000000) - x = 1 / 1000000 * x by ring, abs_of_nonneg (by positivity)]
  · norm_num

/-! ### the IEEE arithmetic of the code -/

private lemma pow2_eq (e : ℤ) : pow2 e = (2:ℚ) ^ e := by
  unfold pow2
  split_ifs with h
  · obtain ⟨k, rfl⟩ := Int.eq_ofNat_of_zero_le h
    simp
  · obtain ⟨k, hk⟩ := Int.eq_ofNat_of_zero_le (show 0 ≤ -e by omega)
    have : e = -(k : ℤ) := by omega
    subst this
    simp

private lemma expo_le (x : ℚ) (hx : 0 < x) : (2:ℚ) ^ expo x ≤ x := by
  unfold expo
  simp only [pow2_eq]
  split_ifs with h
  · have hnum : 0 < x.num := Rat.num_pos.2 hx
    obtain ⟨a, ha⟩ := Int.eq_ofNat_of_zero_le hnum.le
    have ha0 : a ≠ 0 := by intro h0; rw [ha, h0] at hnum; simp at hnum
    have hden : x.den ≠ 0 := x.den_nz
    rw [ha]
    simp only [Int.toNat_natCast]
    have h1 : 2 ^ Nat.log2 a ≤ a := Nat.log2_self_le ha0
    have h2 : x.den < 2 ^ (Nat.log2 x.den + 1) := Nat.lt_log2_self
    have hx' : x = (a : ℚ) / x.den := by
      conv_lhs => rw [← Rat.num_div_den x, ha]
      simp
    have hd : (0:ℚ) < x.den := by exact_mod_cast Nat.pos_of_ne_zero hden
    rw [show ((Nat.log2 a : ℤ) - (Nat.log2 x.den : ℤ) - 1) = (Nat.log2 a : ℤ) - ((Nat.log2 x.den + 1 : ℕ) : ℤ) by
      push_cast; ring, zpow_sub₀ (by norm_num), zpow_natCast, zpow_natCast]
    calc (2:ℚ) ^ Nat.log2 a / 2 ^ (Nat.log2 x.den + 1) ≤ (a : ℚ) / 2 ^ (Nat.log2 x.den + 1) := by
          apply div_le_div_of_nonneg_right _ (by positivity)
          exact_mod_cast h1
      _ ≤ (a : ℚ) / x.den := by
          apply div_le_div_of_nonneg_left (by positivity) hd
          exact_mod_cast h2.le
      _ = x := hx'.symm
  · push Not at h
    exact h

private lemma roundEven_err (m : ℚ) : |(roundEven m : ℚ) - m| ≤ 1 / 2 := by
  have e : m.floor = ⌊m⌋ := rfl
  have h1 := Int.floor_le m
  have h2 := Int.lt_floor_add_one m
  unfold roundEven
  simp only [e]
  rw [abs_le]
  split_ifs <;> constructor <;> push_cast <;> linarith

/-- IEEE double rounding (no overflow or underflow) has relative error at most `2⁻⁵³` -/
private lemma ieee_err (x : ℚ) (hx : 0 ≤ x) : |ieee x - x| ≤ 1 / 2 ^ 53 * x := by
  unfold ieee
  split_ifs with h
  · have : x = 0 := le_antisymm h hx
    simp [this]
  · push Not at h
    dsimp only
    rw [pow2_eq]
    set u : ℚ := (2:ℚ) ^ (expo x - 52) with hu
    have u0 : 0 < u := by rw [hu]; exact zpow_pos (by norm_num) _
    have hux : u * 2 ^ 52 ≤ x := by
      have := expo_le x h
      rw [hu, zpow_sub₀ (by norm_num)]
      have e : (2:ℚ) ^ (52:ℤ) = 2 ^ 52 := by norm_cast
      rw [e, div_mul_cancel₀ _ (by norm_num)]
      exact this
    have hr := roundEven_err (x / u)
    have e : (roundEven (x / u) : ℚ) * u - x = ((roundEven (x / u) : ℚ) - x / u) * u := by field_simp
    rw [e, abs_mul, abs_of_pos u0]
    calc |(roundEven (x / u) : ℚ) - x / u| * u ≤ 1 / 2 * u := mul_le_mul_of_nonneg_right hr u0.le
      _ = 1 / 2 ^ 53 * (u * 2 ^ 52) := by norm_num; ring
      _ ≤ 1 / 2 ^ 53 * x := mul_le_mul_of_nonneg_left hux (by positivity)

/-- C42 for the IEEE arithmetic of the code: as long as `n * cv ≤ 2⁵¹` the test sets have between `⌊n/cv⌋ - 1` and
`⌊n/cv⌋ + 2` cases. -/
theorem C42_ieee_sizes_partial (cv : ℕ) (hcv : 1 ≤ cv) (hsmall : cv * n ≤ 2 ^ 51) (shuffle : Equiv.Perm (Fin n)) :
    ∀ f ∈ folds ieee n cv shuffle, n / cv ≤ count f.2 + 1 ∧ count f.2 ≤ n / cv + 2 := by
  apply C42_rounded_sizes_partial ieee (1 / 2 ^ 53) (by positivity) ieee_err cv hcv
  have h : ((cv : ℚ) * n) ≤ 2 ^ 51 := by exact_mod_cast hsmall
  have h0 : (0:ℚ) ≤ (cv : ℚ) * n := by positivity
  rw [mul_assoc]
  calc (2 * (1 / 2 ^ 53 : ℚ) + (1 / 2 ^ 53) ^ 2) * (cv * n) ≤ (2 * (1 / 2 ^ 53 : ℚ) + (1 / 2 ^ 53) ^ 2) * 2 ^ 51 :=
        mul_le_mul_of_nonneg_left h (by positivity)
    _ ≤ 1 := by norm_num

private lemma fold_of_label (fl : ℚ → ℚ) (cv : ℕ) (shuffle : Equiv.Perm (Fin n)) (i : Fin n) :
    ∃ f ∈ folds fl n cv shuffle, f.2 = fun j => decide (groups fl n cv shuffle j = label fl n cv i) := by
  refine ⟨(fun j => decide (groups fl n cv shuffle j ≠ label fl n cv i),
    fun j => decide (groups fl n cv shuffle j = label fl n cv i)), ?_, rfl⟩
  unfold folds
  rw [List.mem_map]
  refine ⟨label fl n cv i, ?_, rfl⟩
  rw [Finset.mem_sort, Finset.mem_image]
  exact ⟨shuffle.symm i, Finset.mem_univ _, by unfold groups; simp⟩

/-- In IEEE double arithmetic the sizes can differ by two: with 44 cases and 22 folds there is a test set of three
cases and one of a single case, whatever the shuffle. -/
theorem C42_ieee_sizes_fails (shuffle : Equiv.Perm (Fin 44)) :
    ∃ f ∈ folds ieee 44 22 shuffle, ∃ f' ∈ folds ieee 44 22 shuffle, count f.2 = 3 ∧ count f'.2 = 1 := by
  obtain ⟨f, hf, e⟩ := fold_of_label ieee 22 shuffle 30
  obtain ⟨f', hf', e'⟩ := fold_of_label ieee 22 shuffle 31
  refine ⟨f, hf, f', hf', ?_, ?_⟩
  · rw [e, count_test]; decide +kernel
  · rw [e', count_test]; decide +kernel

/-- Leave-one-out in IEEE double arithmetic: with `cv = n = 22` two cases share a fold and there are only 21 folds. -/
theorem C42_ieee_leave_one_out_fails (shuffle : Equiv.Perm (Fin 22)) :
    (folds ieee 22 22 shuffle).length = 21 := by
  unfold folds
  rw [List.length_map, Finset.length_sort]
  have e : Finset.univ.image (groups ieee 22 22 shuffle) = Finset.univ.image (fun i : Fin 22 => label ieee 22 22 i) := by
    ext z
    simp only [Finset.mem_image, Finset.mem_univ, true_and]
    constructor
    · rintro ⟨i, rfl⟩; exact ⟨shuffle i, rfl⟩
    · rintro ⟨i, rfl⟩; exact ⟨shuffle.symm i, by unfold groups; simp⟩
  rw [e]
  decide +kernel

/-! ### the rescaling of the training loss -/

private lemma count_compl (a b : Fin n → Bool) (h : ∀ i, a i = !(b i)) : count a + count b = n := by
  unfold count
  have e : (Finset.univ.filter fun i => a i = true) = (Finset.univ.filter fun i => b i = true)ᶜ := by
    ext i; simp [h]
  rw [e, Finset.card_compl, Fintype.card_fin]
  have := Finset.card_le_univ (Finset.univ.filter fun i => b i = true)
  rw [Fintype.card_fin] at this
  omega

/-- With at least two folds and two cases the training sets are nonempty, so the factor applied to the training loss is
`n / (n - size of the test set)`. -/
theorem C42_coef_factor (cv : ℕ) (hcv : 2 ≤ cv) (hn : 2 ≤ n) (shuffle : Equiv.Perm (Fin n)) :
    ∀ f ∈ folds id n cv shuffle, coefFactor f.1 = some ((n : ℚ) / (n - count f.2)) := by
  intro f hf
  have hc := count_compl _ _ ((C42_partition id cv shuffle).2.1 f hf)
  have hs := ((C42_sizes_partial cv (by omega) shuffle).1 f hf).2
  have hlt : count f.2 < n := by
    have : n / cv ≤ n / 2 := Nat.div_le_div_left hcv (by norm_num)
    by_cases h4 : 3 ≤ n
    · omega
    · have hn2 : n = 2 := by omega
      by_contra hge
      -- two cases: both labels differ
      obtain ⟨i, h2, -⟩ := mem_folds hf
      have hall : ((Finset.range n).filter fun j => label id n cv j = label id n cv i).card = n := by
        rw [h2, count_test] at hge hs
        have := Finset.card_filter_le (Finset.range n) (fun j => label id n cv j = label id n cv i)
        rw [Finset.card_range] at this
        omega
      have hall' : ((Finset.range n).filter fun j => label id n cv j = label id n cv i) = Finset.range n :=
        Finset.eq_of_subset_of_card_le (Finset.filter_subset _ _) (by rw [hall, Finset.card_range])
      have m0 : 0 ∈ (Finset.range n).filter fun j => label id n cv j = label id n cv i := by
        rw [hall', Finset.mem_range]; omega
      have m1 : 1 ∈ (Finset.range n).filter fun j => label id n cv j = label id n cv i := by
        rw [hall', Finset.mem_range]; omega
      have a0 := (Finset.mem_filter.1 m0).2
      have a1 := (Finset.mem_filter.1 m1).2
      have e0 : label id n cv 0 = 0 := by rw [label_id n cv 0 (by omega)]; constructor <;> simp; omega
      rw [e0] at a0
      rw [← a0, label_id n cv 1 (by omega)] at a1
      have := a1.2
      rw [hn2] at this
      push_cast at this
      omega
  unfold coefFactor
  rw [if_neg (by omega)]
  congr 2
  have : (count f.1 : ℚ) + count f.2 = n := by exact_mod_cast hc
  linarith

/-- With a single fold the training set is empty and the factor divides by zero. -/
theorem C42_one_fold_fails (hn : 0 < n) (shuffle : Equiv.Perm (Fin n)) :
    ∃ f, folds id n 1 shuffle = [f] ∧ count f.1 = 0 ∧ coefFactor f.1 = none := by
  have hl := (C42_sizes_partial (n := n) 1 le_rfl shuffle).2.2 (by omega)
  obtain ⟨f, hf⟩ := List.length_eq_one_iff.1 hl
  have hm : f ∈ folds id n 1 shuffle := by rw [hf]; simp
  have hc := count_compl _ _ ((C42_partition id 1 shuffle).2.1 f hm)
  have hs := ((C42_sizes_partial 1 le_rfl shuffle).1 f hm).1
  rw [Nat.div_one] at hs
  have h0 : count f.1 = 0 := by omega
  exact ⟨f, hf, h0, by unfold coefFactor; rw [if_pos h0]⟩

/-- ten cases in three folds: sizes 4, 3, 3 -/
example : (folds id 10 3 (Equiv.refl _)).length = 3 ∧ (∃ f ∈ folds id 10 3 (Equiv.refl _), count f.2 = 4) ∧
    (∃ f ∈ folds id 10 3 (Equiv.refl _), count f.2 = 3) := by
  refine ⟨(C42_sizes_partial 3 (by norm_num) _).2.2 (by norm_num), ?_, ?_⟩
  · obtain ⟨f, hf, e⟩ := fold_of_label id 3 (Equiv.refl (Fin 10)) 0
    exact ⟨f, hf, by rw [e, count_test]; decide +kernel⟩
  · obtain ⟨f, hf, e⟩ := fold_of_label id 3 (Equiv.refl (Fin 10)) 5
    exact ⟨f, hf, by rw [e, count_test]; decide +kernel⟩

end Verif.Props
