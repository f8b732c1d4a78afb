import Verif.Model.PartialSvd
import Verif.Props.C59_Svd

set_option linter.unusedSectionVars false
set_option linter.unusedVariables false

/-!
# C66: truncated singular value decompositions (`factored_matrix`, low rank `nuclear_norm` and `operator_norm`)
-/

namespace Verif.Props
open Verif.Model Verif.Spec Verif.Lemmas Verif.Model.Svd Verif.Model.PartialSvd

variable {n p k : ℕ} {X : Fin n × Fin p → ℝ} {s : Triple n p k}

/-! ## lists of leading positions -/

/-- the first `r` positions -/
private def leading (k r : ℕ) : List (Fin (k + 1)) := (List.finRange (k + 1)).take r

private lemma mem_leading {r : ℕ} {a : Fin (k + 1)} : a ∈ leading k r ↔ a.1 < r := by
  unfold leading
  rw [List.mem_take_iff_getElem]
  constructor
  · rintro ⟨i, hi, rfl⟩
    simp at hi ⊢
    omega
  · intro h
    exact ⟨a.1, by simp; omega, by simp⟩

private lemma nodup_leading {r : ℕ} : (leading k r).Nodup := (List.nodup_finRange _).sublist (List.take_sublist _ _)

private lemma filter_prefix {α : Type} (P : α → Bool) : ∀ l : List α, l.Pairwise (fun a b => P b = true → P a = true) →
    l.filter P = l.take (l.filter P).length
  | [], _ => rfl
  | a :: l, h => by
    rw [List.pairwise_cons] at h
    by_cases ha : P a = true
    · rw [List.filter_cons_of_pos ha, List.length_cons, List.take_succ_cons, ← filter_prefix P l h.2]
    · rw [List.filter_cons_of_neg ha]
      have : l.filter P = [] := by
        rw [List.filter_eq_nil_iff]
        exact fun b hb hP => ha (h.1 b hb hP)
      rw [this]; rfl

private lemma leading_pairwise {P : Fin (k + 1) → Bool} (hP : ∀ a b, a ≤ b → P b = true → P a = true) (r : ℕ) :
    (leading k r).Pairwise (fun a b => P b = true → P a = true) := by
  refine List.Pairwise.sublist (List.take_sublist _ _) ?_
  refine (List.pairwise_lt_finRange (k + 1)).imp fun {a b} hab => hP a b hab.le

private lemma leading_length {r : ℕ} (hr : r ≤ k + 1) : (leading k r).length = r := by
  simp [leading, hr]

private lemma take_leading {r q : ℕ} (h : r ≤ q) : (leading k q).take r = leading k r := by
  unfold leading
  rw [List.take_take, min_eq_left h]

private lemma filter_leading {P : Fin (k + 1) → Bool} (hP : ∀ a b, a ≤ b → P b = true → P a = true) (q : ℕ) (hq : q ≤ k + 1) :
    ∃ r ≤ q, (leading k q).filter P = leading k r ∧ ∀ a : Fin (k + 1), a.1 < q → (a.1 < r ↔ P a = true) := by
  have hle : ((leading k q).filter P).length ≤ q := le_trans (List.length_filter_le _ _) (by rw [leading_length hq])
  have h : (leading k q).filter P = leading k ((leading k q).filter P).length := by
    conv_lhs => rw [filter_prefix P (leading k q) (leading_pairwise hP q), take_leading hle]
  refine ⟨_, hle, h, fun a ha => ?_⟩
  rw [← mem_leading (k := k), ← h, List.mem_filter, mem_leading]
  simp [ha]

private lemma foldl_min_le : ∀ (l : List ℝ) (d : ℝ), l.foldl min d ≤ d ∧ ∀ x ∈ l, l.foldl min d ≤ x
  | [], d => ⟨le_refl _, by simp⟩
  | a :: l, d => by
    obtain ⟨h1, h2⟩ := foldl_min_le l (min d a)
    refine ⟨le_trans h1 (min_le_left _ _), ?_⟩
    intro x hx
    rcases List.mem_cons.1 hx with rfl | hx
    · exact le_trans h1 (min_le_right _ _)
    · exact h2 x hx

private lemma foldl_min_mem : ∀ (l : List ℝ) (d : ℝ), l.foldl min d = d ∨ l.foldl min d ∈ l
  | [], d => .inl rfl
  | a :: l, d => by
    rcases foldl_min_mem l (min d a) with h | h
    · rcases min_choice d a with h' | h'
      · left; change l.foldl min (min d a) = d; rw [h, h']
      · right; change l.foldl min (min d a) ∈ _; rw [h, h']; simp
    · right; exact List.mem_cons_of_mem _ h

private lemma listMin_le {l : List ℝ} {x : ℝ} (hx : x ∈ l) : listMin l ≤ x := by
  cases l with
  | nil => simp at hx
  | cons d l =>
    obtain ⟨h1, h2⟩ := foldl_min_le l d
    rcases List.mem_cons.1 hx with rfl | hx
    · exact h1
    · exact h2 x hx

private lemma listMin_mem {l : List ℝ} (hl : l ≠ []) : listMin l ∈ l := by
  cases l with
  | nil => exact absurd rfl hl
  | cons d l =>
    rcases foldl_min_mem l d with h | h
    · change l.foldl min d ∈ _; rw [h]; simp
    · exact List.mem_cons_of_mem _ h

private lemma foldl_max_ge : ∀ (l : List ℝ) (d : ℝ), d ≤ l.foldl max d ∧ ∀ x ∈ l, x ≤ l.foldl max d
  | [], d => ⟨le_refl _, by simp⟩
  | a :: l, d => by
    obtain ⟨h1, h2⟩ := foldl_max_ge l (max d a)
    refine ⟨le_trans (le_max_left _ _) h1, ?_⟩
    intro x hx
    rcases List.mem_cons.1 hx with rfl | hx
    · exact le_trans (le_max_right _ _) h1
    · exact h2 x hx

private lemma foldl_max_mem : ∀ (l : List ℝ) (d : ℝ), l.foldl max d = d ∨ l.foldl max d ∈ l
  | [], d => .inl rfl
  | a :: l, d => by
    rcases foldl_max_mem l (max d a) with h | h
    · rcases max_choice d a with h' | h'
      · left; change l.foldl max (max d a) = d; rw [h, h']
      · right; change l.foldl max (max d a) ∈ _; rw [h, h']; simp
    · right; exact List.mem_cons_of_mem _ h

private lemma le_listMax {l : List ℝ} {x : ℝ} (hx : x ∈ l) : x ≤ listMax l := by
  cases l with
  | nil => simp at hx
  | cons d l =>
    obtain ⟨h1, h2⟩ := foldl_max_ge l d
    rcases List.mem_cons.1 hx with rfl | hx
    · exact h1
    · exact h2 x hx

private lemma listMax_mem {l : List ℝ} (hl : l ≠ []) : listMax l ∈ l := by
  cases l with
  | nil => exact absurd rfl hl
  | cons d l =>
    rcases foldl_max_mem l d with h | h
    · change l.foldl max d ∈ _; rw [h]; simp
    · exact List.mem_cons_of_mem _ h

private lemma listLast_mem {l : List ℝ} (hl : l ≠ []) : listLast l ∈ l := by
  unfold listLast
  rw [List.getLastD_eq_getLast?, List.getLast?_eq_some_getLast hl]
  exact List.getLast_mem hl

/-- the values of the leading positions of a descending array: nonempty for `r ≥ 1`, with greatest element `d 0`, and every position left out
has a value at most the last one, the least one -/
private lemma leading_values {d : Fin (k + 1) → ℝ} (hd : ∀ a b, a ≤ b → d b ≤ d a) {r : ℕ} (h1 : 1 ≤ r) (hr : r ≤ k + 1) :
    (leading k r).map d ≠ [] ∧ listMax ((leading k r).map d) = d 0 ∧
      (∀ a : Fin (k + 1), ¬ a.1 < r → d a ≤ listLast ((leading k r).map d) ∧ d a ≤ listMin ((leading k r).map d)) := by
  have h0 : (0 : Fin (k + 1)) ∈ leading k r := mem_leading.2 (by simpa using Nat.pos_of_ne_zero (by omega))
  have hne : (leading k r).map d ≠ [] := by
    intro h; rw [List.map_eq_nil_iff] at h; rw [h] at h0; simp at h0
  refine ⟨hne, ?_, ?_⟩
  · apply le_antisymm
    · obtain ⟨a, _, ha⟩ := List.mem_map.1 (listMax_mem hne)
      rw [← ha]; exact hd 0 a (Fin.zero_le _)
    · exact le_listMax (List.mem_map_of_mem h0)
  · intro a ha
    constructor
    · obtain ⟨b, hb, hv⟩ := List.mem_map.1 (listLast_mem hne)
      rw [← hv]
      exact hd b a (Fin.le_def.2 (by have := mem_leading.1 hb; omega))
    · obtain ⟨b, hb, hv⟩ := List.mem_map.1 (listMin_mem hne)
      rw [← hv]
      exact hd b a (Fin.le_def.2 (by have := mem_leading.1 hb; omega))

/-! ## `compute_iterative_svd` -/

private lemma partial_ok {d : Fin (k + 1) → ℝ} (hd : ∀ a b, a ≤ b → d b ≤ d a) {rank padding : ℕ} {warm : Option ℕ} (h1 : 1 ≤ rank)
    (hw : warm.getD 0 ≤ min (min rank (k + 1) + padding) (k + 1)) :
    ∃ r ≤ min (min rank (k + 1) + padding) (k + 1),
      partialSvd d rank padding warm = .ok (if r = 0 then .flat else .triplets (leading k r)) ∧
      (∀ a : Fin (k + 1), a.1 < r → 1 / 10 ^ 12 < d a) ∧
      (r < min (min rank (k + 1) + padding) (k + 1) → ∀ a : Fin (k + 1), ¬ a.1 < r → d a ≤ 1 / 10 ^ 12) := by
  set q := min (min rank (k + 1) + padding) (k + 1) with hq
  have hqk : q ≤ k + 1 := min_le_right _ _
  obtain ⟨r, hr, he, hP⟩ := filter_leading (k := k) (P := fun a => decide (d a > 1 / 10 ^ 12))
    (fun a b hab hb => by
      simp only [decide_eq_true_eq] at hb ⊢
      exact lt_of_lt_of_le hb (hd a b hab)) q hqk
  refine ⟨r, hr, ?_, ?_, ?_⟩
  · unfold partialSvd
    simp only
    rw [← hq, if_neg (by omega)]
    have : ((List.finRange (k + 1)).take q).filter (fun a => decide (d a > 1 / 10 ^ 12)) = leading k r := he
    rw [this]
    have hlen := leading_length (k := k) (r := r) (by omega)
    by_cases h0 : r = 0
    · subst h0
      rw [if_pos (List.length_eq_zero_iff.1 hlen), if_pos rfl]
    · rw [if_neg (fun h => h0 (by rw [← hlen, h]; rfl)), if_neg h0]
  · intro a ha
    have := (hP a (by omega)).1 ha
    simpa using this
  · intro hlt a ha
    have hr' : ¬ (⟨r, by omega⟩ : Fin (k + 1)).1 < r := by simp
    have := mt (hP ⟨r, by omega⟩ hlt).2 hr'
    simp only [decide_eq_true_eq, gt_iff_lt, not_lt] at this
    exact le_trans (hd ⟨r, by omega⟩ a (Fin.le_def.2 (by simpa using ha))) this

/-- why the loop stopped with the leading `r` triplets -/
private def Stopped (d : Fin (k + 1) → ℝ) (minSingular : ℝ) (rule : Option (List ℝ → Bool)) (r : ℕ) : Prop :=
  (∀ a : Fin (k + 1), ¬ a.1 < r → d a ≤ 1 / 10 ^ 12) ∨
  (∃ f, rule = some f ∧ f ((leading k r).map d) = true) ∨
  (∀ a : Fin (k + 1), ¬ a.1 < r → d a < minSingular * d 0)

private lemma loop_ok {d : Fin (k + 1) → ℝ} (hd : ∀ a b, a ≤ b → d b ≤ d a) {minSingular : ℝ}
    {padding : ℕ} {rule : Option (List ℝ → Bool)} :
    ∀ (fuel rank : ℕ) (warm : Option ℕ) (cur : Part k), 1 ≤ rank → k + 2 ≤ fuel + rank →
      (warm.getD 0 ≤ min (min rank (k + 1) + padding) (k + 1)) →
      ∃ r ≤ k + 1, iterLoop d minSingular padding (2 * (k + 1)) rule (fuel + 1) rank warm cur =
          some (.ok (if r = 0 then .flat else .triplets (leading k r))) ∧
        (∀ a : Fin (k + 1), a.1 < r → 1 / 10 ^ 12 < d a) ∧ (r = 0 → ∀ a, d a ≤ 1 / 10 ^ 12) ∧
        (1 ≤ r → Stopped d minSingular rule r) := by
  intro fuel
  induction fuel with
  | zero =>
    intro rank warm cur h1 hf hw
    obtain ⟨r, hr, he, hpos, hout⟩ := partial_ok hd h1 hw
    refine ⟨r, le_trans hr (min_le_right _ _), ?_, hpos, fun h => ?_, fun _ => .inl ?_⟩
    · unfold iterLoop
      rw [he]
      dsimp only
      rw [if_pos]
      by_cases h0 : r = 0
      · rw [if_pos h0]; simp [Part.values]; omega
      · rw [if_neg h0]
        simp only [Part.values, List.length_map]
        rw [leading_length (le_trans hr (min_le_right _ _))]
        have := le_trans hr (min_le_right _ _)
        omega
    · subst h
      exact fun a => hout (by omega) a (by omega)
    · intro a ha
      exact hout (by have := a.2; omega) a ha
  | succ fuel ih =>
    intro rank warm cur h1 hf hw
    obtain ⟨r, hr, he, hpos, hout⟩ := partial_ok hd h1 hw
    have hrk : r ≤ k + 1 := le_trans hr (min_le_right _ _)
    have hzero : r = 0 → ∀ a, d a ≤ 1 / 10 ^ 12 := by
      intro h; subst h
      exact fun a => hout (by omega) a (by omega)
    unfold iterLoop
    rw [he]
    dsimp only
    by_cases h0 : r = 0
    · -- flattened zero triplet
      refine ⟨0, by omega, ?_, fun a ha => absurd ha (by omega), fun _ => hzero h0, fun h => absurd h (by omega)⟩
      rw [if_pos h0, if_pos rfl]
      by_cases hc1 : ((Part.flat : Part k).values d).length < rank
      · rw [if_pos hc1]
      rw [if_neg hc1]
      split_ifs with hc2 hc3 hc4 hc5
      · rfl
      · simp [Part.values] at hc1
        omega
      · rfl
      · exact absurd (by simp [Part.values, listMax]) hc4
      · rfl
    · rw [if_neg h0]
      have hv : (Part.triplets (leading k r)).values d = (leading k r).map d := rfl
      obtain ⟨hne, hmax, hleft⟩ := leading_values hd (by omega : 1 ≤ r) hrk
      rw [hv, List.length_map, leading_length hrk, hmax]
      have done : Stopped d minSingular rule r → ∃ r' ≤ k + 1, some (Except.ok (Part.triplets (leading k r))) =
          (some (.ok (if r' = 0 then .flat else .triplets (leading k r'))) : Option (Except Exc (Part k))) ∧
          (∀ a : Fin (k + 1), a.1 < r' → 1 / 10 ^ 12 < d a) ∧ (r' = 0 → ∀ a, d a ≤ 1 / 10 ^ 12) ∧
          (1 ≤ r' → Stopped d minSingular rule r') := by
        intro hs
        exact ⟨r, hrk, by rw [if_neg h0], hpos, hzero, fun _ => hs⟩
      by_cases hc1 : r < rank
      · rw [if_pos hc1]
        exact done (.inl fun a ha => hout (by have := a.2; omega) a ha)
      rw [if_neg hc1]
      by_cases hc2 : applyRule rule ((leading k r).map d) = true
      · rw [if_pos hc2]
        refine done (.inr (.inl ?_))
        cases rule with
        | none => simp [applyRule] at hc2
        | some f => exact ⟨f, rfl, hc2⟩
      rw [if_neg hc2, if_neg (by omega)]
      have hbig : ¬ d 0 < 1 / 10 ^ 14 := by
        have := hpos 0 (by simpa using Nat.pos_of_ne_zero h0)
        have h' : (1:ℝ) / 10 ^ 14 ≤ 1 / 10 ^ 12 := by norm_num
        linarith
      rw [if_neg hbig]
      by_cases hc3 : listLast ((leading k r).map d) ≥ minSingular * d 0
      · rw [if_pos hc3]
        refine ih (2 * rank) _ _ (by omega) (by omega) ?_
        change (leading k r).length ≤ _
        rw [leading_length hrk]
        omega
      · rw [if_neg hc3]
        exact done (.inr (.inr fun a ha => lt_of_le_of_lt (hleft a ha).1 (not_le.1 hc3)))

private lemma roundTenth_le (m : ℕ) : roundTenth (m + 1) ≤ m := by
  unfold roundTenth
  dsimp only
  split_ifs <;> omega

private lemma startRank_none_le (k : ℕ) : startRank k none ≤ k + 1 := by
  have := roundTenth_le k
  change roundTenth (k + 1) + 1 ≤ k + 1
  omega

/-- `compute_iterative_svd` -/
private lemma iter_ok (h : IsSvd X s) {initialRank warm : Option ℕ} {minSingular : ℝ} (hm : 0 ≤ minSingular) (hm1 : minSingular ≤ 1 / 10 ^ 12)
    {rule : Option (List ℝ → Bool)} {padding : ℕ}
    (hw : warm.getD 0 ≤ min (min (startRank k initialRank) (k + 1) + padding) (k + 1)) :
    ∃ r ≤ k + 1, iterativeSvd s.D initialRank warm minSingular rule padding = some (.ok (if r = 0 then .flat else .triplets (leading k r))) ∧
        (∀ a : Fin (k + 1), a.1 < r → 1 / 10 ^ 12 < s.D a) ∧ (r = 0 → ∀ a, s.D a ≤ 1 / 10 ^ 12) ∧
        (1 ≤ r → Stopped s.D minSingular rule r) := by
  have h1 : 1 ≤ startRank k initialRank := by
    cases initialRank <;> simp [startRank]
  obtain ⟨r, hr, he, hpos, hz, hs⟩ := loop_ok (minSingular := minSingular) (rule := rule) h.sorted (k + 2) (startRank k initialRank) warm .flat
    h1 (by omega) hw
  refine ⟨r, hr, ?_, hpos, hz, hs⟩
  unfold iterativeSvd
  rw [if_pos (by have : (1:ℝ) / 10 ^ 12 ≤ 1 := by norm_num
                 linarith), he]
  by_cases h0 : r = 0
  · simp only [if_pos h0]; rfl
  · simp only [if_neg h0]
    change some (Except.ok (Part.triplets _)) = _
    congr 3
    rw [List.filter_eq_self]
    intro a ha
    have := hpos a (mem_leading.1 ha)
    simp only [decide_eq_true_eq]
    linarith

/-- C66: `compute_iterative_svd` with a warm start of as many columns as the initial rank, at most `min(n, p)`, and `min_singular` at most
`1e-12` always ends without an exception.  Unless all singular values are at most `1e-12` it returns the `r ≥ 1` leading singular triplets,
all above `1e-12`, for some `r`; and either every singular value left out is at most `1e-12`, or the stopping rule accepted the returned
values, or every singular value left out is below `min_singular` times the largest. -/
theorem C66_iterative_svd (h : IsSvd X s) (st : ℕ) (hst : 1 ≤ st) (hst' : st ≤ k + 1) (minSingular : ℝ) (hm : 0 ≤ minSingular)
    (hm1 : minSingular ≤ 1 / 10 ^ 12) (rule : Option (List ℝ → Bool)) (padding : ℕ) :
    (iterativeSvd s.D (some st) (some st) minSingular rule padding = some (.ok .flat) ∧ ∀ a, s.D a ≤ 1 / 10 ^ 12) ∨
    ∃ r, 1 ≤ r ∧ r ≤ k + 1 ∧
      iterativeSvd s.D (some st) (some st) minSingular rule padding = some (.ok (.triplets ((List.finRange (k + 1)).take r))) ∧
      (∀ a : Fin (k + 1), a.1 < r → 1 / 10 ^ 12 < s.D a) ∧
      ((∀ a : Fin (k + 1), r ≤ a.1 → s.D a ≤ 1 / 10 ^ 12) ∨
        (∃ f, rule = some f ∧ f (((List.finRange (k + 1)).take r).map s.D) = true) ∨
        (∀ a : Fin (k + 1), r ≤ a.1 → s.D a < minSingular * s.D 0)) := by
  obtain ⟨r, hr, he, hpos, hz, hstop⟩ := iter_ok h (initialRank := some st) (warm := some st) (minSingular := minSingular)
    (rule := rule) (padding := padding) hm hm1 (by simp only [startRank, Option.getD_some]; omega)
  by_cases h0 : r = 0
  · left; rw [he, if_pos h0]; exact ⟨rfl, hz h0⟩
  · right
    refine ⟨r, by omega, hr, by rw [he, if_neg h0]; rfl, hpos, ?_⟩
    rcases hstop (by omega) with h1 | h1 | h1
    · exact .inl fun a ha => h1 a (by omega)
    · exact .inr (.inl h1)
    · exact .inr (.inr fun a ha => h1 a (by omega))

/-! ## the proximal maps agree with the dense atoms -/

private lemma assemble_eq {idx : List (Fin (k + 1))} (hn : idx.Nodup) (v : Fin (k + 1) → ℝ) (ij : Fin n × Fin p) :
    assemble s idx v ij = ∑ a ∈ idx.toFinset, s.U ij.1 a * (v a * s.V a ij.2) := by
  unfold assemble
  rw [List.sum_toFinset _ hn]

private lemma l1_prox_nonneg (h : IsSvd X s) {lam : ℝ} (hl : 0 ≤ lam) (a : Fin (k + 1)) :
    L1.lagrangeProx s.D 1 lam a = max (s.D a - lam) 0 := by
  unfold L1.lagrangeProx
  rw [abs_of_nonneg (h.nonneg a), div_one]
  rcases (h.nonneg a).lt_or_eq with h0 | h0
  · simp [npSign, h0]
  · rw [← h0, zero_sub, max_eq_right (by linarith), mul_zero]

/-- C66: for a matrix with at least `initial_rank` rows and columns, whose largest singular value exceeds `1e-12` and each of whose singular
values is at most `lagrange`, or above `1e-12` and above `1e-16` times the largest: with `lipschitz = 1` the low rank
`nuclear_norm.lagrange_prox` returns the proximal point, and leaves the atom in a state for which the same holds. -/
theorem C66_nuclear_lagrange_prox_partial (h : IsSvd X s) (st : ℕ) (hst : 1 ≤ st) (hst' : st ≤ k + 1) (lam : ℝ) (hl : 0 ≤ lam)
    (h0 : 1 / 10 ^ 12 < s.D 0) (hs : ∀ a, s.D a ≤ lam ∨ (1 / 10 ^ 12 < s.D a ∧ 1 / 10 ^ 16 * s.D 0 ≤ s.D a)) :
    ∃ P st', nuclearLagrangeProx s st 1 lam = some (.ok (P, st')) ∧ 1 ≤ st' ∧ st' ≤ k + 1 ∧
      IsProx 1 (fun Z => lam * nucNorm Z) X P := by
  obtain ⟨r, hr, he, hpos, hz, hstop⟩ := iter_ok h (initialRank := some st) (warm := some st) (minSingular := minSing)
    (rule := some fun D => decide (listMin D ≤ lam)) (padding := 0) (by unfold minSing; norm_num) (by unfold minSing; norm_num)
    (by simp only [startRank, Option.getD_some]; omega)
  have hr0 : r ≠ 0 := fun h' => absurd (hz h' 0) (not_le.2 h0)
  have hout : ∀ a : Fin (k + 1), ¬ a.1 < r → s.D a ≤ lam := by
    intro a ha
    rcases hstop (by omega) with h1 | ⟨f, hf, h1⟩ | h1
    · rcases hs a with h2 | h2
      · exact h2
      · exact absurd (h1 a ha) (not_le.2 h2.1)
    · obtain rfl := Option.some.inj hf
      simp only [decide_eq_true_eq] at h1
      exact le_trans ((leading_values h.sorted (by omega) hr).2.2 a ha).2 h1
    · rcases hs a with h2 | h2
      · exact h2
      · exact absurd (h1 a ha) (not_lt.2 h2.2)
  unfold nuclearLagrangeProx
  rw [he, if_neg hr0]
  refine ⟨_, _, rfl, by rw [leading_length hr]; omega, by rw [leading_length hr]; exact hr, ?_⟩
  have key := C59_nuclear_lagrange_prox h 1 lam one_pos hl
  have e : assemble s ((leading k r).filter fun a => decide (s.D a - lam > 0)) (fun a => s.D a - lam) = Nuclear.lagrangeProx s 1 lam := by
    funext ij
    rw [assemble_eq (nodup_leading.filter _)]
    unfold Nuclear.lagrangeProx recompose
    simp only [l1_prox_nonneg h hl]
    refine Finset.sum_subset_zero_on_sdiff (Finset.subset_univ _) (fun a ha => ?_) (fun a ha => ?_)
    · have hle : s.D a - lam ≤ 0 := by
        by_contra hgt
        apply (Finset.mem_sdiff.1 ha).2
        rw [List.mem_toFinset, List.mem_filter, mem_leading]
        refine ⟨?_, by simpa using hgt⟩
        by_contra hlt
        exact hgt (by have := hout a hlt; linarith)
      rw [max_eq_right hle]; ring
    · rw [List.mem_toFinset, List.mem_filter] at ha
      have : s.D a - lam > 0 := by simpa using ha.2
      rw [max_eq_left this.le]
  rw [e]
  exact key

private lemma l1ball_convex (m : ℕ) (bound : ℝ) : IsConvexFnOn (fun _ => 0) {z : Fin m → ℝ | ∑ i, |z i| ≤ bound} := by
  intro x hx y hy a b ha hb hab
  refine ⟨?_, by simp⟩
  change ∑ i, |a * x i + b * y i| ≤ bound
  have hx' : ∑ i, |x i| ≤ bound := hx
  have hy' : ∑ i, |y i| ≤ bound := hy
  calc ∑ i, |a * x i + b * y i| ≤ ∑ i, (a * |x i| + b * |y i|) := Finset.sum_le_sum fun i _ => by
        calc |a * x i + b * y i| ≤ |a * x i| + |b * y i| := abs_add_le _ _
          _ = a * |x i| + b * |y i| := by rw [abs_mul, abs_mul, abs_of_nonneg ha, abs_of_nonneg hb]
    _ = a * ∑ i, |x i| + b * ∑ i, |y i| := by rw [Finset.sum_add_distrib, Finset.mul_sum, Finset.mul_sum]
    _ ≤ a * bound + b * bound := add_le_add (mul_le_mul_of_nonneg_left hx' ha) (mul_le_mul_of_nonneg_left hy' hb)
    _ = bound := by rw [← add_mul, hab, one_mul]

/-- the residual of a projection on the l1 ball -/
private lemma l1_resid {m : ℕ} {x q : Fin m → ℝ} {bound : ℝ} (hb : 0 ≤ bound) (hp : IsProj {z : Fin m → ℝ | ∑ i, |z i| ≤ bound} x q)
    (a : Fin m) : |x a - q a| * bound ≤ ∑ i, (x i - q i) * q i := by
  have key : ∀ t : ℝ, |t| ≤ bound → (x a - q a) * t ≤ ∑ i, (x i - q i) * q i := by
    intro t ht
    have h1 := vi_of_isProj (l1ball_convex m bound) hp (fun i => if i = a then t else 0) (by
      change ∑ i, |if i = a then t else 0| ≤ bound
      have : ∀ i, |if i = a then t else 0| = if i = a then |t| else 0 := by intro i; split_ifs <;> simp
      simp only [this]
      simpa using ht)
    simp only [mul_sub, Finset.sum_sub_distrib, mul_ite, mul_zero, Finset.sum_ite_eq', Finset.mem_univ, if_true] at h1
    linarith
  rcases le_total 0 (x a - q a) with h0 | h0
  · rw [abs_of_nonneg h0]; exact key bound (by rw [abs_of_nonneg hb])
  · rw [abs_of_nonpos h0]
    have := key (-bound) (by rw [abs_neg, abs_of_nonneg hb])
    linarith

/-- conversely -/
private lemma l1_proj_of_resid {m : ℕ} {x q : Fin m → ℝ} {bound : ℝ} (hb : 0 ≤ bound) (hq : ∑ i, |q i| ≤ bound)
    (hA : 0 ≤ ∑ i, (x i - q i) * q i) (hR : ∀ a, |x a - q a| * bound ≤ ∑ i, (x i - q i) * q i) :
    IsProj {z : Fin m → ℝ | ∑ i, |z i| ≤ bound} x q := by
  refine isProj_of_vi hq fun z hz => ?_
  have hz' : ∑ i, |z i| ≤ bound := hz
  simp only [mul_sub, Finset.sum_sub_distrib]
  have : ∑ i, (x i - q i) * z i ≤ ∑ i, (x i - q i) * q i := by
    rcases hb.lt_or_eq with h0 | h0
    · have h1 : ∀ i, (x i - q i) * z i ≤ (∑ i, (x i - q i) * q i) / bound * |z i| := by
        intro i
        calc (x i - q i) * z i ≤ |x i - q i| * |z i| := by rw [← abs_mul]; exact le_abs_self _
          _ ≤ _ := mul_le_mul_of_nonneg_right ((le_div_iff₀ h0).2 (hR i)) (abs_nonneg _)
      calc _ ≤ ∑ i, (∑ i, (x i - q i) * q i) / bound * |z i| := Finset.sum_le_sum fun i _ => h1 i
        _ = (∑ i, (x i - q i) * q i) / bound * ∑ i, |z i| := by rw [Finset.mul_sum]
        _ ≤ (∑ i, (x i - q i) * q i) / bound * bound := mul_le_mul_of_nonneg_left hz' (div_nonneg hA hb)
        _ = _ := div_mul_cancel₀ _ h0.ne'
    · have hz0 : ∀ i, z i = 0 := by
        intro i
        have h1 := Finset.single_le_sum (f := fun i => |z i|) (fun i _ => abs_nonneg _) (Finset.mem_univ i)
        have h2 : |z i| ≤ 0 := by rw [h0]; exact le_trans h1 hz'
        exact abs_eq_zero.1 (le_antisymm h2 (abs_nonneg _))
      simp only [hz0, mul_zero, Finset.sum_const_zero]
      exact hA
  linarith

private lemma sum_get {l : List (Fin (k + 1))} (hl : l.Nodup) (F : Fin (k + 1) → ℝ) (hF : ∀ a, a ∉ l → F a = 0) :
    ∑ a, F a = ∑ i : Fin l.length, F (l.get i) := by
  have hinj : Function.Injective l.get := List.nodup_iff_injective_get.1 hl
  rw [← Finset.sum_image (s := Finset.univ) (g := l.get) (f := F) (fun a _ b _ e => hinj e)]
  symm
  refine Finset.sum_subset (Finset.subset_univ _) fun a _ ha => hF a fun hm => ha ?_
  obtain ⟨i, hi⟩ := List.get_of_mem hm
  exact Finset.mem_image.2 ⟨i, Finset.mem_univ _, hi⟩

private lemma l1_bound_any {m : ℕ} (hm : 1 ≤ m) (x : Fin m → ℝ) (hx : ∀ i, 0 ≤ x i) {bound : ℝ} (hb : 0 ≤ bound) :
    ∃ q, L1.boundProx x bound = some q ∧ IsProj {z : Fin m → ℝ | ∑ i, |z i| ≤ bound} x q ∧ ∀ i, 0 ≤ q i := by
  obtain ⟨m, rfl⟩ : ∃ j, m = j + 1 := ⟨m - 1, by omega⟩
  obtain ⟨q, hq, hp⟩ := C02_l1norm_bound_prox x bound hb
  refine ⟨q, hq, hp, fun a => ?_⟩
  unfold L1.boundProx at hq
  obtain ⟨cut, _, rfl⟩ := Option.map_eq_some_iff.1 hq
  simp only [b2k]
  rcases (hx a).lt_or_eq with h0 | h0
  · have hs : npSign (x a) = 1 := by simp [npSign, h0]
    rw [hs]
    split_ifs with hc
    · linarith
    · simp
  · rw [← h0]; simp [npSign]

private lemma bound_dense (h : IsSvd X s) (st : ℕ) (hst : 1 ≤ st) (hst' : st ≤ k + 1) (bound : ℝ) (hb : 0 ≤ bound)
    (h0 : 1 / 10 ^ 12 < s.D 0) (hs : ∀ a, s.D a = 0 ∨ (1 / 10 ^ 12 < s.D a ∧ 1 / 10 ^ 16 * s.D 0 ≤ s.D a)) :
    ∃ q st', nuclearBoundProx s st bound = some (.ok (recompose s q, st')) ∧ 1 ≤ st' ∧ st' ≤ k + 1 ∧
      (∀ a, 0 ≤ q a) ∧ L1.boundProx s.D bound = some q := by
  obtain ⟨r, hr, he, hpos, hz, hstop⟩ := iter_ok h (initialRank := some st) (warm := some st) (minSingular := minSing)
    (rule := some fun D => decide ((D.map fun x => x - listMin D).sum > bound)) (padding := 0) (by unfold minSing; norm_num)
    (by unfold minSing; norm_num) (by simp only [startRank, Option.getD_some]; omega)
  have hr0 : r ≠ 0 := fun h' => absurd (hz h' 0) (not_le.2 h0)
  have hlen := leading_length hr
  set l := leading k r with hl
  have hnd : l.Nodup := nodup_leading
  obtain ⟨q, hq, hp, hq0⟩ := l1_bound_any (m := l.length) (by omega) (fun i => s.D (l.get i)) (fun i => h.nonneg _) hb
  have hinj : Function.Injective l.get := List.nodup_iff_injective_get.1 hnd
  -- extension by zero
  set q' : Fin (k + 1) → ℝ := fun a => ∑ i, if l.get i = a then q i else 0 with hq'
  have hin : ∀ i, q' (l.get i) = q i := by
    intro i
    rw [hq']
    dsimp only
    rw [Finset.sum_eq_single i]
    · rw [if_pos rfl]
    · intro j _ hj; rw [if_neg fun e => hj (hinj e)]
    · intro hi; exact absurd (Finset.mem_univ _) hi
  have hout : ∀ a, a ∉ l → q' a = 0 := by
    intro a ha
    rw [hq']
    dsimp only
    refine Finset.sum_eq_zero fun i _ => if_neg fun e => ha ?_
    rw [← e]; exact List.get_mem _ _
  have hq'0 : ∀ a, 0 ≤ q' a := fun a => Finset.sum_nonneg fun i _ => by split_ifs; exacts [hq0 i, le_refl _]
  have hA : ∑ a, (s.D a - q' a) * q' a = ∑ i, (s.D (l.get i) - q i) * q i := by
    rw [sum_get hnd _ (fun a ha => by rw [hout a ha, mul_zero])]
    simp only [hin]
  have hsum : ∑ a, |q' a| = ∑ i, |q i| := by
    rw [sum_get hnd _ (fun a ha => by rw [hout a ha, abs_zero])]
    simp only [hin]
  have hRi := l1_resid hb hp
  have hqb : ∑ i, |q i| ≤ bound := hp.1
  have hA0 : 0 ≤ ∑ i, (s.D (l.get i) - q i) * q i :=
    le_trans (mul_nonneg (abs_nonneg _) hb) (hRi ⟨0, by omega⟩)
  have hproj : IsProj {z : Fin (k + 1) → ℝ | ∑ i, |z i| ≤ bound} s.D q' := by
    refine l1_proj_of_resid hb (by rw [hsum]; exact hqb) (by rw [hA]; exact hA0) fun a => ?_
    rw [hA]
    by_cases ha : a ∈ l
    · obtain ⟨i, rfl⟩ := List.get_of_mem ha
      rw [hin]
      exact hRi i
    · rw [hout a ha, sub_zero, abs_of_nonneg (h.nonneg a)]
      have ha' : ¬ a.1 < r := fun h' => ha (mem_leading.2 h')
      rcases hstop (by omega) with h1 | ⟨f, hf, h1⟩ | h1
      · rcases hs a with h2 | h2
        · rw [h2, zero_mul]; exact hA0
        · exact absurd (h1 a ha') (not_le.2 h2.1)
      · obtain rfl := Option.some.inj hf
        simp only [decide_eq_true_eq, List.map_map] at h1
        set m := listMin (l.map s.D) with hm
        have ham : s.D a ≤ m := ((leading_values h.sorted (by omega) hr).2.2 a ha').2
        have hex : ∃ i : Fin l.length, m ≤ |s.D (l.get i) - q i| := by
          by_contra hno
          push Not at hno
          have h2 : ∀ i : Fin l.length, s.D (l.get i) - m ≤ |q i| := by
            intro i
            have := hno i
            rw [abs_lt] at this
            rw [abs_of_nonneg (hq0 i)]
            linarith
          have h3 : ∑ i : Fin l.length, (s.D (l.get i) - m) ≤ bound := le_trans (Finset.sum_le_sum fun i _ => h2 i) hqb
          have h4 : (l.map ((fun x => x - m) ∘ s.D)).sum = ∑ i : Fin l.length, (s.D (l.get i) - m) := by
            have h5 := sum_get hnd (fun a => if a ∈ l then s.D a - m else 0) (fun a ha => if_neg ha)
            rw [← List.sum_toFinset _ hnd]
            have h6 : ∑ i : Fin l.length, (if l.get i ∈ l then s.D (l.get i) - m else 0) = ∑ i : Fin l.length, (s.D (l.get i) - m) :=
              Finset.sum_congr rfl fun i _ => if_pos (List.get_mem _ _)
            rw [← h6, ← h5]
            simp only [← List.mem_toFinset (l := l)]
            rw [Finset.sum_ite_mem, Finset.univ_inter]
            rfl
          rw [h4] at h1
          linarith
        obtain ⟨i, hi⟩ := hex
        calc s.D a * bound ≤ |s.D (l.get i) - q i| * bound := mul_le_mul_of_nonneg_right (le_trans ham hi) hb
          _ ≤ _ := hRi i
      · rcases hs a with h2 | h2
        · rw [h2, zero_mul]; exact hA0
        · exact absurd (h1 a ha') (not_lt.2 h2.2)
  obtain ⟨q2, hq2, hp2⟩ := C02_l1norm_bound_prox s.D bound hb
  have e2 : q2 = q' := IsUniqueMinOn.unique hp2 hproj
  refine ⟨q', l.length, ?_, by omega, by omega, hq'0, by rw [hq2, e2]⟩
  unfold nuclearBoundProx
  rw [he, if_neg hr0]
  dsimp only [Option.bind_some]
  rw [hq, Option.map_some]
  congr 3
  funext ij
  unfold recompose
  rw [sum_get hnd _ (fun a ha => by rw [hout a ha, zero_mul, mul_zero])]
  simp only [hin]
  refine Finset.sum_subset (Finset.subset_univ _) fun i _ hi => ?_
  have : q i = 0 := by
    by_contra hne
    exact hi (Finset.mem_filter.2 ⟨Finset.mem_univ _, lt_of_le_of_ne (hq0 i) (Ne.symm hne)⟩)
  rw [this]; ring

/-- C66: under the same conditions, each singular value being zero or above `1e-12` and above `1e-16` times the largest, the low rank
`nuclear_norm.bound_prox` returns the projection on the ball of the nuclear norm. -/
theorem C66_nuclear_bound_prox_partial (h : IsSvd X s) (st : ℕ) (hst : 1 ≤ st) (hst' : st ≤ k + 1) (bound : ℝ) (hb : 0 ≤ bound)
    (h0 : 1 / 10 ^ 12 < s.D 0) (hs : ∀ a, s.D a = 0 ∨ (1 / 10 ^ 12 < s.D a ∧ 1 / 10 ^ 16 * s.D 0 ≤ s.D a)) :
    ∃ P st', nuclearBoundProx s st bound = some (.ok (P, st')) ∧ 1 ≤ st' ∧ st' ≤ k + 1 ∧ IsProj {Z | nucNorm Z ≤ bound} X P := by
  obtain ⟨q, st', he, h1, h2, hq0, hq⟩ := bound_dense h st hst hst' bound hb h0 hs
  obtain ⟨P, hP, hproj⟩ := C59_nuclear_bound_prox h bound hb
  refine ⟨_, st', he, h1, h2, ?_⟩
  unfold Nuclear.boundProx at hP
  rw [hq, Option.map_some, recomposeKeep_eq hq0, Option.some.injEq] at hP
  rw [hP]; exact hproj

/-- C66: the low rank `operator_norm.lagrange_prox` returns the proximal point of the operator norm, for every `lipschitz`. -/
theorem C66_operator_lagrange_prox_partial (h : IsSvd X s) (st : ℕ) (hst : 1 ≤ st) (hst' : st ≤ k + 1) (L lam : ℝ) (hL : 0 < L) (hl : 0 ≤ lam)
    (h0 : 1 / 10 ^ 12 < s.D 0) (hs : ∀ a, s.D a = 0 ∨ (1 / 10 ^ 12 < s.D a ∧ 1 / 10 ^ 16 * s.D 0 ≤ s.D a)) :
    ∃ P st', operatorLagrangeProx X s st L lam = some (.ok (P, st')) ∧ 1 ≤ st' ∧ st' ≤ k + 1 ∧
      IsProx L (fun Z => lam * opNorm Z) X P := by
  obtain ⟨q, st', he, h1, h2, hq0, hq⟩ := bound_dense h st hst hst' (lam / L) (div_nonneg hl hL.le) h0 hs
  obtain ⟨P, hP, hprox⟩ := C59_operator_lagrange_prox h L lam hL hl
  refine ⟨fun ij => X ij - recompose s q ij, st', ?_, h1, h2, ?_⟩
  · unfold operatorLagrangeProx; rw [he]; rfl
  · unfold Operator.lagrangeProx Sup.lagrangeProx at hP
    unfold L1.boundProx at hq
    obtain ⟨cut, hc, hqc⟩ := Option.map_eq_some_iff.1 hq
    rw [hc, Option.map_some, Option.map_some, Option.some.injEq] at hP
    have : (fun ij => X ij - recompose s q ij) = P := by
      rw [← hP]
      funext ij
      rw [recompose_sub (s := s) s.D (fun i => npSign (s.D i) * (|s.D i| - cut) * b2k (|s.D i| > cut)) ij, h.recompose_D, ← hqc]
    rw [this]; exact hprox

/-- C66: the low rank `operator_norm.bound_prox` returns the projection on the ball of the operator norm. -/
theorem C66_operator_bound_prox_partial (h : IsSvd X s) (st : ℕ) (hst : 1 ≤ st) (hst' : st ≤ k + 1) (bound : ℝ) (hb : 0 ≤ bound)
    (h0 : 1 / 10 ^ 12 < s.D 0) (hs : ∀ a, s.D a ≤ bound ∨ (1 / 10 ^ 12 < s.D a ∧ 1 / 10 ^ 16 * s.D 0 ≤ s.D a)) :
    ∃ P st', operatorBoundProx X s st bound = some (.ok (P, st')) ∧ 1 ≤ st' ∧ st' ≤ k + 1 ∧ IsProj {Z | opNorm Z ≤ bound} X P := by
  obtain ⟨P, st', he, h1, h2, hP⟩ := C66_nuclear_lagrange_prox_partial h st hst hst' bound hb h0 hs
  have e : P = Nuclear.lagrangeProx s 1 bound := IsUniqueMinOn.unique hP (C59_nuclear_lagrange_prox h 1 bound one_pos hb)
  refine ⟨fun ij => X ij - P ij, st', ?_, h1, h2, ?_⟩
  · unfold operatorBoundProx; rw [he]; rfl
  · have key := C59_operator_bound_prox h bound hb
    have : (fun ij => X ij - P ij) = Operator.boundProx s bound := by
      funext ij
      rw [e]
      unfold Nuclear.lagrangeProx Operator.boundProx
      have hD := congrFun h.recompose_D ij
      rw [← hD, ← recompose_sub]
      congr 1
      funext a
      rw [l1_prox_nonneg h hb]
      have := h.nonneg a
      unfold Sup.boundProx npClip
      rcases le_total (s.D a) bound with hc | hc
      · rw [max_eq_right (by linarith)]; rw [max_eq_left (by linarith : -bound ≤ s.D a), min_eq_left hc]; ring
      · rw [max_eq_left (by linarith), max_eq_left (by linarith : -bound ≤ s.D a), min_eq_right hc]; ring
    rw [this]; exact key

/-- C66: `factored_matrix(X)` stores `X` exactly: for every matrix each of whose singular values is zero or above `1e-12` (the zero matrix
included) the constructor succeeds and the attribute `X` is the matrix. -/
theorem C66_factored_matrix (h : IsSvd X s) (hs : ∀ a, s.D a = 0 ∨ 1 / 10 ^ 12 < s.D a) : factoredX s = some (.ok X) := by
  obtain ⟨r, hr, he, hpos, hz, hstop⟩ := iter_ok h (initialRank := none) (warm := none) (minSingular := 0) (rule := none) (padding := 5)
    (le_refl _) (by norm_num) (by simp)
  have hzero : ∀ a : Fin (k + 1), ¬ a.1 < r → s.D a = 0 := by
    intro a ha
    rcases hs a with h1 | h1
    · exact h1
    · exfalso
      by_cases h0 : r = 0
      · exact absurd (hz h0 a) (not_le.2 h1)
      rcases hstop (by omega) with h2 | ⟨f, hf, _⟩ | h2
      · exact absurd (h2 a ha) (not_le.2 h1)
      · simp at hf
      · have := h2 a ha
        rw [zero_mul] at this
        have h3 := h.nonneg a
        linarith
  unfold factoredX
  rw [he]
  by_cases h0 : r = 0
  · rw [if_pos h0]
    change some (Except.ok fun _ => (0:ℝ)) = _
    congr 2
    funext ij
    rw [← h.recompose_D]
    unfold recompose
    symm
    refine Finset.sum_eq_zero fun a _ => ?_
    rw [hzero a (by omega)]; ring
  · rw [if_neg h0]
    change some (Except.ok (assemble s (leading k r) s.D)) = _
    congr 2
    funext ij
    rw [assemble_eq nodup_leading]
    conv_rhs => rw [← h.recompose_D]
    unfold recompose
    refine Finset.sum_subset (Finset.subset_univ _) fun a _ ha => ?_
    rw [hzero a fun h' => ha (List.mem_toFinset.2 (mem_leading.2 h'))]; ring

/-! ## where the code departs from the property -/

/-- Counterexample: with an initial rank above the number of rows or columns every proximal map raises ValueError, for every matrix and
every parameter; in particular with the default `initial_rank = 10` for every matrix with fewer than ten rows or columns. -/
theorem C66_small_matrix_fails (s : Triple n p k) (st : ℕ) (hst : k + 1 < st) (L c : ℝ) :
    nuclearLagrangeProx s st L c = some (.error .valueError) ∧ nuclearBoundProx s st c = some (.error .valueError) := by
  have key : ∀ rule, iterativeSvd s.D (some st) (some st) minSing rule 0 = some (.error .valueError) := by
    intro rule
    unfold iterativeSvd
    rw [if_pos (by unfold minSing; norm_num)]
    unfold iterLoop partialSvd
    dsimp only
    rw [if_pos (by simp only [startRank, Option.getD_some]; omega)]
    rfl
  unfold nuclearLagrangeProx nuclearBoundProx
  rw [key, key]
  exact ⟨rfl, rfl⟩

/-- Counterexample: the low rank `operator_norm` cannot be constructed for a matrix with more columns than rows. -/
theorem C66_operator_wide_fails (hnp : n < p) (initialRank : ℕ) (warm : Option (ℕ × ℕ)) :
    operatorInit n p initialRank warm = .error .typeError := by
  unfold operatorInit nuclearInit
  cases warm with
  | none =>
    dsimp only
    rw [if_pos]
    intro e
    have := congrArg Prod.fst e
    simp at this
    omega
  | some w =>
    dsimp only
    split_ifs with h1 h2
    · rfl
    · rfl
    · exfalso
      push Not at h1 h2
      rw [h1] at h2
      have := congrArg Prod.fst h2
      simp at this
      omega

/-- Counterexample: for the zero matrix the proximal maps raise IndexError; the proximal point is the zero matrix. -/
theorem C66_zero_matrix_fails (h : IsSvd X s) (h0 : ∀ a, s.D a = 0) (st : ℕ) (hst : 1 ≤ st) (hst' : st ≤ k + 1) (L c : ℝ) :
    nuclearLagrangeProx s st L c = some (.error .indexError) ∧ nuclearBoundProx s st c = some (.error .indexError) := by
  have key : ∀ rule, iterativeSvd s.D (some st) (some st) minSing rule 0 = some (.ok .flat) := by
    intro rule
    obtain ⟨r, hr, he, hpos, _⟩ := iter_ok h (initialRank := some st) (warm := some st) (minSingular := minSing)
      (rule := rule) (padding := 0) (by unfold minSing; norm_num) (by unfold minSing; norm_num)
      (by simp only [startRank, Option.getD_some]; omega)
    have hr0 : r = 0 := by
      by_contra hne
      have := hpos 0 (by simpa using Nat.pos_of_ne_zero hne)
      rw [h0] at this
      norm_num at this
    rw [he, if_pos hr0]
  unfold nuclearLagrangeProx nuclearBoundProx
  rw [key, key]
  exact ⟨rfl, rfl⟩

/-- Counterexample: `nuclear_norm.lagrange_prox` ignores `lipschitz`: for the matrix `[[3]]`, `lagrange = 1`, `lipschitz = 2` it returns
`[[2]]`, and the proximal point is `[[5/2]]`. -/
theorem C66_lipschitz_fails : ∃ (X : Fin 1 × Fin 1 → ℝ) (s : Triple 1 1 0), IsSvd X s ∧
    ∃ P st', nuclearLagrangeProx s 1 2 1 = some (.ok (P, st')) ∧ ¬ IsProx 2 (fun Z => 1 * nucNorm Z) X P := by
  have hsvd : IsSvd (n := 1) (p := 1) (k := 0) (fun _ => 3) ⟨fun _ _ => 1, fun _ => 3, fun _ _ => 1⟩ :=
    { eq := by intro i j; simp
      left := by intro a b; fin_cases a; fin_cases b; simp
      right := by intro a b; fin_cases a; fin_cases b; simp
      nonneg := by intro a; norm_num
      sorted := by intro a b _; exact le_refl _ }
  refine ⟨_, _, hsvd, ?_⟩
  obtain ⟨P, st', he, _, _, hP⟩ := C66_nuclear_lagrange_prox_partial hsvd 1 (le_refl _) (by norm_num) 1 zero_le_one (by norm_num)
    (fun a => .inr ⟨by norm_num, by norm_num⟩)
  refine ⟨P, st', he, fun hbad => ?_⟩
  have e1 : P = Nuclear.lagrangeProx _ 1 1 := IsUniqueMinOn.unique hP (C59_nuclear_lagrange_prox hsvd 1 1 one_pos zero_le_one)
  have e2 : P = Nuclear.lagrangeProx _ 2 1 := IsUniqueMinOn.unique hbad (C59_nuclear_lagrange_prox hsvd 2 1 two_pos zero_le_one)
  have := congrFun (e1.symm.trans e2) (0, 0)
  simp [Nuclear.lagrangeProx, recompose, L1.lagrangeProx, npSign] at this
  norm_num at this

/-- the hypotheses of the theorems above are met by `[[0, 2], [-3, 0]]`, `initial_rank = 1` and parameter `5/2`: the first pass finds the
singular value `3`, the second both -/
example : ∃ (X : Fin 2 × Fin 2 → ℝ) (s : Triple 2 2 1), IsSvd X s ∧ 1 / 10 ^ 12 < s.D 0 ∧
    (∀ a, s.D a = 0 ∨ (1 / 10 ^ 12 < s.D a ∧ 1 / 10 ^ 16 * s.D 0 ≤ s.D a)) ∧ s.D 1 ≠ s.D 0 := by
  refine ⟨fun ij => ![![0, 2], ![-3, 0]] ij.1 ij.2, ⟨![![0, 1], ![-1, 0]], ![3, 2], ![![1, 0], ![0, 1]]⟩,
    { eq := by intro i j; fin_cases i <;> fin_cases j <;> simp [Fin.sum_univ_two]
      left := by intro a b; fin_cases a <;> fin_cases b <;> simp [Fin.sum_univ_two]
      right := by intro a b; fin_cases a <;> fin_cases b <;> simp [Fin.sum_univ_two]
      nonneg := by intro a; fin_cases a <;> simp
      sorted := by
        intro a b h
        fin_cases a <;> fin_cases b <;> first | exact absurd h (by decide) | norm_num }, ?_, ?_, ?_⟩
  · norm_num
  · intro a; right; fin_cases a <;> norm_num
  · norm_num

end Verif.Props
