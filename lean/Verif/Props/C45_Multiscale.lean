import Verif.Model.Multiscale
import Mathlib.Algebra.BigOperators.Ring.Finset
import Mathlib.Algebra.BigOperators.Field
import Mathlib.Data.List.NodupEquivFin
import Mathlib.Algebra.BigOperators.Fin
import Mathlib.Tactic.Ring
import Mathlib.Tactic.FieldSimp
import Mathlib.Tactic.Linarith
import Mathlib.Tactic.NormNum

/-!
# C45: the multiscale transform
-/

set_option linter.unusedSectionVars false
set_option linter.unusedVariables false

namespace Verif.Props
open Verif.Model Verif.Model.Multiscale

variable {K : Type*} [Field K] [CharZero K] [DecidableEq K]

/-- every slice is a nonempty interval `[i, j)` of `[0, p)` -/
def validSlices (p : ℕ) (slices : List (ℕ × ℕ)) : Prop := ∀ s ∈ slices, s.1 < s.2 ∧ s.2 ≤ p

/-- the factor applied to slice `k` -/
def factor (s : Option (ℕ → K)) (k : ℕ) : K :=
  match s with
  | some s => s k
  | none => 1

private lemma scaleBy_eq (s : Option (ℕ → K)) (k : ℕ) (v : K) : scaleBy s k v = v * factor s k := by
  cases s <;> simp [scaleBy, factor]

/-- a `multiscale` object as the two constructors build it -/
inductive Built : Obj K → Prop where
  | all (p minsize : ℕ) (h : 1 ≤ minsize) (scaling : Option (ℕ → K)) : Built (mkAll p minsize scaling)
  | slices (p minsize : ℕ) (slices : List (ℕ × ℕ)) (h : validSlices p slices) (scaling : Option (ℕ → K)) :
      Built (mkSlices p minsize slices scaling)

/-- C45: without `slices` the intervals used are exactly the `[i, j)` with `j - i ≥ minsize` and `j ≤ p - 1`, each
once. -/
theorem C45_all_slices_partial (p minsize : ℕ) (scaling : Option (ℕ → K)) :
    (mkAll p minsize scaling).slices.Nodup ∧
    ∀ i j, (i, j) ∈ (mkAll p minsize scaling).slices ↔ i < p ∧ j < p ∧ i + minsize ≤ j := by
  constructor
  · exact ((List.nodup_range).product List.nodup_range).filter _
  · intro i j
    simp only [mkAll, List.mem_filter, List.product, List.mem_flatMap, List.mem_map, List.mem_range, Prod.mk.injEq,
      decide_eq_true_eq]
    constructor
    · rintro ⟨⟨a, ha, b, hb, rfl, rfl⟩, h⟩; exact ⟨ha, hb, h⟩
    · rintro ⟨h1, h2, h3⟩; exact ⟨⟨i, h1, j, h2, rfl, rfl⟩, h3⟩

/-- C45 does not hold as documented ("the average over all intervals of a minimum size"): no interval ending at the
last position is ever used. -/
theorem C45_all_slices_fails (p minsize i : ℕ) (scaling : Option (ℕ → K)) :
    (i, p) ∉ (mkAll p minsize scaling).slices := by
  rw [(C45_all_slices_partial p minsize scaling).2]
  omega

private lemma built_valid (M : Obj K) (h : Built M) : validSlices M.p M.slices := by
  cases h with
  | all p minsize hm s =>
    rintro ⟨i, j⟩ hs
    have := ((C45_all_slices_partial p minsize s).2 i j).1 hs
    simp only [mkAll]; omega
  | slices p minsize sl hv s => exact hv

private lemma cumsum_range (x : ℕ → K) (l : ℕ) (hl : 1 ≤ l) : cumsum x (l - 1) = ∑ t ∈ Finset.range l, x t := by
  unfold cumsum; rw [Nat.sub_add_cancel hl]

/-- C45: entry `k` of `linear_map(x)` is the scaled mean of the centered signal over interval `k`, in both
computations. -/
theorem C45_interval_means (M : Obj K) (h : Built M) (x : ℕ → K) (k : ℕ) (i j : ℕ) (hk : M.slices[k]? = some (i, j)) :
    lin M x k = factor M.scaling k *
      ((∑ l ∈ Finset.Ico i j, (x l - (∑ t ∈ Finset.range M.p, x t) / M.p)) / ((j - i : ℕ) : K)) := by
  have hmem : (i, j) ∈ M.slices := List.mem_of_getElem? hk
  obtain ⟨h1, h2⟩ := built_valid M h _ hmem
  simp only at h1 h2
  have hg : M.slices.getD k (0, 0) = (i, j) := by rw [List.getD_eq_getElem?_getD, hk]; rfl
  have hIco : ∑ l ∈ Finset.Ico i j, (x l - (∑ t ∈ Finset.range M.p, x t) / M.p) =
      ∑ t ∈ Finset.range j, center M.p x t - ∑ t ∈ Finset.range i, center M.p x t := by
    rw [Finset.sum_Ico_eq_sub _ h1.le]; rfl
  unfold lin
  simp only [hg, scaleBy_eq]
  rw [hIco, mul_comm, Nat.cast_sub h1.le, cumsum_range _ j (by omega)]
  cases M.all
  · simp only [if_true]
    by_cases hi : i ≥ 1
    · rw [if_pos hi, cumsum_range _ i hi]
    · have : i = 0 := by omega
      subst this
      rw [if_neg hi]; simp
  · simp only [Bool.true_eq_false, if_false]
    rw [if_neg (by omega : ¬ j = 0)]
    by_cases hi : i = 0
    · subst hi; simp
    · rw [if_neg hi, cumsum_range _ i (by omega)]
      congr 2
      ring

private lemma center_adj (p : ℕ) (x y : ℕ → K) :
    ∑ l ∈ Finset.range p, center p x l * y l = ∑ l ∈ Finset.range p, x l * center p y l := by
  unfold center
  simp only [sub_mul, mul_sub, Finset.sum_sub_distrib]
  congr 1
  rw [← Finset.mul_sum, ← Finset.sum_mul]
  ring

/-- the array before the final centering -/
private def pre (M : Obj K) (v : ℕ → K) (l : ℕ) : K :=
  ∑ k ∈ Finset.range M.slices.length,
    if (M.slices.getD k (0, 0)).1 ≤ l ∧ l < (M.slices.getD k (0, 0)).2 then vScaled M v k else 0

private lemma adj_eq (M : Obj K) (h : Built M) (v : ℕ → K) (l : ℕ) (hl : l < M.p) :
    adj M v l = center M.p (pre M v) l := by
  have hc : ∀ f g : ℕ → K, (∀ t < M.p, f t = g t) → center M.p f l = center M.p g l := by
    intro f g hfg
    unfold center
    rw [hfg l hl, Finset.sum_congr rfl fun t ht => hfg t (Finset.mem_range.1 ht)]
  cases h with
  | slices p minsize sl hv s =>
    set M := mkSlices p minsize sl s with hM
    have hall : M.all = false := rfl
    unfold adj
    simp only [hall, if_true]
    refine hc _ _ fun t ht => ?_
    unfold pre
    rw [Finset.sum_filter]
    refine Finset.sum_congr rfl fun k _ => ?_
    by_cases h0 : vScaled M v k = 0
    · simp [h0]
    · simp [h0]
  | all p minsize hm s =>
    obtain ⟨hnd, hmem⟩ := C45_all_slices_partial p minsize s
    set M := mkAll p minsize s with hM
    have hp : M.p = p := rfl
    have hms : M.minsize = minsize := rfl
    have hall : M.all = true := rfl
    unfold adj
    simp only [hall, Bool.true_eq_false, if_false]
    refine hc _ _ fun t ht => ?_
    rw [hp] at ht
    set g : ℕ → ℕ → K := fun i j => if i + minsize ≤ j then vScaled M v (M.slices.idxOf (i, j)) else 0 with hg
    -- sum over the index list as a sum over pairs
    have hpre : pre M v t = ∑ i ∈ Finset.range p, ∑ j ∈ Finset.range p, if i ≤ t ∧ t < j then g i j else 0 := by
      unfold pre
      rw [Finset.sum_range, ← Finset.sum_product', ]
      have e1 : ∑ k : Fin M.slices.length, (if (M.slices.getD k (0, 0)).1 ≤ t ∧ t < (M.slices.getD k (0, 0)).2 then vScaled M v k else 0) =
          ∑ q ∈ M.slices.toFinset, if q.1 ≤ t ∧ t < q.2 then g q.1 q.2 else 0 := by
        refine Finset.sum_bij (fun k _ => M.slices[k]) (fun k _ => by simp) ?_ ?_ ?_
        · intro a _ b _ hab
          exact Fin.ext ((List.Nodup.getElem_inj_iff hnd).1 hab)
        · intro q hq
          have hq' : q ∈ M.slices := by simpa using hq
          obtain ⟨k, hk, he⟩ := List.getElem_of_mem hq'
          exact ⟨⟨k, hk⟩, Finset.mem_univ _, he⟩
        · intro k _
          have e2 : M.slices.getD k (0, 0) = M.slices[k] := by
            rw [List.getD_eq_getElem?_getD, List.getElem?_eq_getElem k.2]; rfl
          rw [e2]
          have hin : (M.slices[k].1, M.slices[k].2) ∈ M.slices := List.getElem_mem k.2
          have h3 := ((hmem _ _).1 hin).2.2
          have e3 : g M.slices[k].1 M.slices[k].2 = vScaled M v k := by
            simp only [hg]
            rw [if_pos h3]
            congr 1
            exact List.Nodup.idxOf_getElem hnd k.1 k.2
          rw [e3]
      rw [e1]
      refine Finset.sum_subset ?_ ?_
      · rintro ⟨i, j⟩ hq
        have := (hmem i j).1 (by simpa using hq)
        simp [this.1, this.2.1]
      · rintro ⟨i, j⟩ hq hn
        have hq' : i < p ∧ j < p := by simpa using hq
        have : ¬ i + minsize ≤ j := fun hle => hn (by simpa using (hmem i j).2 ⟨hq'.1, hq'.2, hle⟩)
        simp [hg, this]
    rw [hpre, hp, hms]
    -- both sides in terms of prefix sums
    show -∑ l ∈ Finset.range (t + 1), (∑ i ∈ Finset.range p, g i l - ∑ j ∈ Finset.range p, g l j) = _
    rw [Finset.sum_sub_distrib]
    have hsplit : ∀ f : ℕ → K, ∑ l ∈ Finset.range (t + 1), f l = ∑ l ∈ Finset.range p, if l ≤ t then f l else 0 := by
      intro f
      rw [← Finset.sum_filter]
      refine Finset.sum_congr ?_ fun _ _ => rfl
      ext l; simp only [Finset.mem_range, Finset.mem_filter]; omega
    have hA : ∑ l ∈ Finset.range (t + 1), ∑ i ∈ Finset.range p, g i l =
        ∑ i ∈ Finset.range p, ∑ j ∈ Finset.range p, if i ≤ t ∧ j ≤ t then g i j else 0 := by
      rw [hsplit]
      have : ∀ l, (if l ≤ t then ∑ i ∈ Finset.range p, g i l else 0) = ∑ i ∈ Finset.range p, if i ≤ t ∧ l ≤ t then g i l else 0 := by
        intro l
        by_cases hlt : l ≤ t
        · rw [if_pos hlt]
          refine Finset.sum_congr rfl fun i _ => ?_
          by_cases hit : i ≤ t
          · simp [hit, hlt]
          · have : ¬ i + minsize ≤ l := by omega
            simp [hit, hg, this]
        · simp [hlt]
      rw [Finset.sum_congr rfl fun l _ => this l]
      rw [Finset.sum_comm]
    have hB : ∑ l ∈ Finset.range (t + 1), ∑ j ∈ Finset.range p, g l j =
        ∑ i ∈ Finset.range p, ∑ j ∈ Finset.range p, if i ≤ t then g i j else 0 := by
      rw [hsplit]
      refine Finset.sum_congr rfl fun i _ => ?_
      by_cases hit : i ≤ t <;> simp [hit]
    rw [hA, hB, neg_sub, ← Finset.sum_sub_distrib]
    refine Finset.sum_congr rfl fun i _ => ?_
    rw [← Finset.sum_sub_distrib]
    refine Finset.sum_congr rfl fun j _ => ?_
    by_cases hit : i ≤ t
    · by_cases hjt : j ≤ t
      · simp [hit, hjt, not_lt.2 hjt]
      · simp [hit, hjt, not_le.1 hjt]
    · simp [hit]

/-- C45: `adjoint_map` is the transpose of `linear_map`, for every `p`, `minsize ≥ 1`, list of intervals and scaling. -/
theorem C45_adjoint (M : Obj K) (h : Built M) (x v : ℕ → K) :
    ∑ k ∈ Finset.range M.slices.length, lin M x k * v k = ∑ l ∈ Finset.range M.p, x l * adj M v l := by
  have e : ∑ l ∈ Finset.range M.p, x l * adj M v l = ∑ l ∈ Finset.range M.p, x l * center M.p (pre M v) l :=
    Finset.sum_congr rfl fun l hl => by rw [adj_eq M h v l (Finset.mem_range.1 hl)]
  rw [e, ← center_adj]
  unfold pre
  simp only [Finset.mul_sum]
  rw [Finset.sum_comm]
  refine Finset.sum_congr rfl fun k hk => ?_
  have hk' := Finset.mem_range.1 hk
  obtain ⟨i, j, hij⟩ : ∃ i j, M.slices[k] = (i, j) := ⟨_, _, rfl⟩
  have hg : M.slices.getD k (0, 0) = (i, j) := by
    rw [List.getD_eq_getElem?_getD, List.getElem?_eq_getElem hk', hij]; rfl
  obtain ⟨h1, h2⟩ := built_valid M h (i, j) (hij ▸ List.getElem_mem hk')
  simp only at h1 h2
  rw [C45_interval_means M h x k i j (by rw [List.getElem?_eq_getElem hk', hij])]
  simp only [hg, vScaled, scaleBy_eq, mul_ite, mul_zero]
  rw [← Finset.sum_filter]
  have hset : (Finset.range M.p).filter (fun l => i ≤ l ∧ l < j) = Finset.Ico i j := by
    ext l; simp only [Finset.mem_filter, Finset.mem_range, Finset.mem_Ico]; omega
  rw [hset, ← Finset.sum_mul, Nat.cast_sub h1.le]
  show _ = (∑ l ∈ Finset.Ico i j, (x l - (∑ t ∈ Finset.range M.p, x t) / M.p)) * _
  ring

/-- hypotheses met -/
example : Built (mkAll 5 2 (none : Option (ℕ → ℚ))) ∧ Built (mkSlices 5 2 [(0, 2), (1, 5)] (some fun k => (k : ℚ) + 1)) :=
  ⟨.all 5 2 (by norm_num) none, .slices 5 2 _ (by intro s hs; simp at hs; rcases hs with rfl | rfl <;> simp) _⟩

end Verif.Props
