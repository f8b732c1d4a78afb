import Verif.Model.Weighted
import Verif.Spec.Weights
import Verif.Lemmas.SoftThr
import Verif.Props.C01_PiecewiseLinear
import Mathlib.Data.Fin.VecNotation
import Mathlib.Tactic.FieldSimp
import Mathlib.Tactic.FinCases
import Mathlib.Tactic.NormNum

/-!
# C23: weighted l1 and sup norms

`wt w i` is the finite part of the weight; coordinates with weight `⊤` (`np.inf`) are constrained to vanish.
-/

set_option linter.unusedSectionVars false
set_option linter.unusedVariables false

namespace Verif.Props
open Verif.Model Verif.Lemmas Verif.Spec Verif.Model.Weighted

variable {K : Type*} [Field K] [LinearOrder K] [IsStrictOrderedRing K] {n : ℕ}

private lemma wcases (a : WithTop K) : a = ⊤ ∨ ∃ c : K, a = (c : WithTop K) := by
  rcases a with _ | c
  · exact Or.inl rfl
  · exact Or.inr ⟨c, rfl⟩

private lemma wt_coe {w : Fin n → WithTop K} {i : Fin n} {a : K} (h : w i = (a : WithTop K)) : wt w i = a := by
  unfold wt; rw [h]; rfl

private lemma wt_top {w : Fin n → WithTop K} {i : Fin n} (h : w i = ⊤) : wt w i = 0 := by
  unfold wt; rw [h]; rfl

private lemma filterMap_sum {α β : Type*} (l : List α) (g : α → Option β) (f : β → K) :
    ((l.filterMap g).map f).sum = (l.map fun i => match g i with | none => 0 | some b => f b).sum := by
  induction l with
  | nil => rfl
  | cons a l ih =>
    cases h : g a with
    | none => rw [List.filterMap_cons_none h, ih, List.map_cons, List.sum_cons, h, zero_add]
    | some b => rw [List.filterMap_cons_some h, List.map_cons, List.sum_cons, ih, List.map_cons, List.sum_cons, h]

private lemma keep_sum (w : Fin n → WithTop K) (x : Fin n → K) (f : K × K → K) (hf : ∀ a, f (a, 0) = 0) :
    ((Weighted.keep w x).map f).sum = ∑ i, f (|x i|, wt w i) := by
  unfold Weighted.keep
  rw [filterMap_sum, ← List.ofFn_eq_map, List.sum_ofFn]
  apply Finset.sum_congr rfl
  intro i _
  rcases wcases (w i) with h | ⟨a, h⟩
  · rw [wt_top h, hf, h, wcase_top]
  · rw [wt_coe h, h, wcase_coe]
    by_cases ha : a = 0
    · simp only [ha, if_true, hf]
    · simp only [ha, if_false]

private lemma keep_mem {w : Fin n → WithTop K} {x : Fin n → K} {a : K × K} (h : a ∈ Weighted.keep w x) :
    ∃ i, w i = (a.2 : WithTop K) ∧ a.1 = |x i| ∧ a.2 ≠ 0 := by
  unfold Weighted.keep at h
  obtain ⟨i, -, hi⟩ := List.mem_filterMap.1 h
  rcases wcases (w i) with hw | ⟨c, hw⟩
  · rw [hw] at hi; exact absurd hi (by simp)
  · rw [hw] at hi
    have hi' : (if c = 0 then none else some (|x i|, c) : Option (K × K)) = some a := hi
    by_cases hc : c = 0
    · rw [if_pos hc] at hi'; exact absurd hi' (by simp)
    · rw [if_neg hc] at hi'
      have := Option.some.inj hi'
      subst this
      exact ⟨i, hw, rfl, hc⟩

private lemma mem_keep {w : Fin n → WithTop K} (x : Fin n → K) {i : Fin n} {a : K} (h : w i = (a : WithTop K))
    (ha : a ≠ 0) : (|x i|, a) ∈ Weighted.keep w x := by
  unfold Weighted.keep
  refine List.mem_filterMap.2 ⟨i, List.mem_finRange i, ?_⟩
  rw [h]
  show (if a = 0 then none else some (|x i|, a) : Option (K × K)) = _
  rw [if_neg ha]

/-- the cut computed by `find_solution_piecewise_linear` on the kept coordinates -/
private lemma weighted_cut (w : Fin n → WithTop K) (hw : ∀ i (a : K), w i = a → a = 0 ∨ 1 / 10 ^ 20 ≤ a)
    (x : Fin n → K) {b : K} (hb : 0 ≤ b) (hpos : 0 < b ∨ ∃ i, wt w i ≠ 0) (sorted : List (K × K))
    (hs : IsDescArgsort (Weighted.keep w x) sorted) :
    ∃ cut, findW b 0 (Weighted.keep w x) sorted = some cut ∧ 0 ≤ cut ∧
      ((cut = 0 ∧ ∑ i, wt w i * |x i| < b) ∨ ∑ i, wt w i * |softThr (x i) (wt w i * cut)| = b) := by
  have hε : (0:K) < 1 / 10 ^ 20 := by positivity
  have hw0 : ∀ i, 0 ≤ wt w i := by
    intro i
    rcases wcases (w i) with h | ⟨a, h⟩
    · rw [wt_top h]
    · rw [wt_coe h]
      rcases hw i a h with h | h
      · rw [h]
      · exact le_trans hε.le h
  have hsum := keep_sum w x (fun p => p.2 * p.1) (by intro a; simp)
  simp only at hsum
  by_cases h : ∑ i, wt w i * |x i| < b
  · refine ⟨0, ?_, le_refl _, Or.inl ⟨rfl, h⟩⟩
    unfold findW
    rw [if_pos]
    rw [hsum]; exact h
  · push Not at h
    have hex : ∃ i, wt w i ≠ 0 := by
      rcases hpos with h0 | h0
      · by_contra hc
        push Not at hc
        have : ∑ i, wt w i * |x i| = 0 := Finset.sum_eq_zero fun i _ => by rw [hc i]; ring
        linarith
      · exact h0
    obtain ⟨i0, hi0⟩ := hex
    have hmem : (|x i0|, wt w i0) ∈ Weighted.keep w x := by
      rcases wcases (w i0) with h | ⟨a, h⟩
      · exact absurd (wt_top h) hi0
      · rw [wt_coe h] at hi0 ⊢
        exact mem_keep x h hi0
    obtain ⟨t, h1, h2, h3⟩ := C01_findW b 0 (Weighted.keep w x) sorted (le_refl _)
      (by intro a ha; obtain ⟨i, _, e, _⟩ := keep_mem ha; rw [e]; exact abs_nonneg _)
      (by intro a ha; obtain ⟨i, e, _, _⟩ := keep_mem ha; exact hw i a.2 e) hs.1 hs.2
      (Or.inr ⟨_, hmem, hi0⟩) ⟨_, hmem, by simpa using hb⟩ (by rw [hsum]; exact h)
    rw [keep_sum w x _ (by intro a; simp)] at h3
    refine ⟨t, h1, h2, Or.inr ?_⟩
    have : ∀ i, wt w i * |softThr (x i) (wt w i * t)| =
        wt w i * (if wt w i * t < |x i| then |x i| - wt w i * t else 0) := by
      intro i
      rw [softThr_abs _ (mul_nonneg (hw0 i) h2)]
      split_ifs with hlt
      · rw [max_eq_left (by linarith)]
      · rw [max_eq_right (by linarith)]
    simp only [this]
    linarith

/-- scalar soft-threshold inequality -/
private lemma soft_sub (x z : K) {c : K} (hc : 0 ≤ c) :
    c * |softThr x c| + (x - softThr x c) * (z - softThr x c) ≤ c * |z| := by
  have h1 := softThr_mul x hc
  have h2 : (x - softThr x c) * z ≤ c * |z| := by
    calc _ ≤ |x - softThr x c| * |z| := by rw [← abs_mul]; exact le_abs_self _
      _ ≤ _ := mul_le_mul_of_nonneg_right (softThr_resid _ hc) (abs_nonneg _)
  rw [mul_sub, h1]; linarith

private lemma sign_zero (x : K) : npSign x * 0 = 0 := mul_zero _

/-- C23: `l1norm.seminorm` is the weighted l1 norm. -/
theorem C23_l1_seminorm (w : Fin n → WithTop K) (hw : ∀ i (a : K), w i = a → 0 ≤ a) (x : Fin n → K) (lam : K) :
    (x ∈ topZero w → ∀ c, Weighted.l1Seminorm w x lam c = ((lam * ∑ i, wt w i * |x i| : K) : WithTop K)) ∧
    (x ∉ topZero w → Weighted.l1Seminorm w x lam true = ⊤) := by
  constructor
  · intro hx c
    unfold Weighted.l1Seminorm
    rw [if_neg]
    · congr 2
      apply Finset.sum_congr rfl
      intro i _
      rcases wcases (w i) with h | ⟨a, h⟩
      · rw [wt_top h, h, wcase_top]; simp
      · rw [wt_coe h, h, wcase_coe]
        rw [abs_mul, abs_of_nonneg (hw i a h), mul_comm]
    · rintro ⟨-, i, h1, h2⟩
      exact h2 (hx i h1)
  · intro hx
    unfold Weighted.l1Seminorm
    rw [if_pos]
    unfold topZero at hx
    simp only [Set.mem_ofPred_eq] at hx
    push Not at hx
    obtain ⟨i, h1, h2⟩ := hx
    exact ⟨rfl, i, h1, h2⟩

/-- C23: `l1norm.lagrange_prox` is the proximal map of the weighted l1 norm; zero and infinite weights are
allowed (for an infinite weight `lagrange` must be positive). -/
theorem C23_l1_lagrange_prox_partial (w : Fin n → WithTop K) (hw : ∀ i (a : K), w i = a → 0 ≤ a) (x : Fin n → K)
    {L lam : K} (hL : 0 < L) (hl : 0 ≤ lam) (hnan : 0 < lam ∨ ∀ i, w i ≠ ⊤) :
    ∃ P : Fin n → K, (∀ i, Weighted.l1LagrangeProx w x L lam i = some (P i)) ∧
      IsProxOn L (fun z => lam * ∑ i, wt w i * |z i|) (topZero w) x P := by
  have hw0 : ∀ i, 0 ≤ wt w i := by
    intro i
    rcases wcases (w i) with h | ⟨a, h⟩
    · rw [wt_top h]
    · rw [wt_coe h]; exact hw i a h
  refine ⟨fun i => if w i = ⊤ then 0 else softThr (x i) (lam * wt w i / L), fun i => ?_, ?_⟩
  · unfold Weighted.l1LagrangeProx
    rcases wcases (w i) with h | ⟨a, h⟩
    · simp only [h, wcase_top, if_true]
      rcases hnan with h1 | h1
      · rw [if_neg h1.ne', sign_zero]
      · exact absurd h (h1 i)
    · simp only [h, wcase_coe, WithTop.coe_ne_top, if_false, wt_coe h]
      rw [softThr_eq_sign_max]
      exact div_nonneg (mul_nonneg hl (hw i a h)) hL.le
  · apply isProxOn_of_subgrad hL
    · intro i hi; exact if_pos hi
    · intro z hz
      rw [Finset.mul_sum, Finset.mul_sum, Finset.mul_sum, ← Finset.sum_add_distrib]
      apply Finset.sum_le_sum
      intro i _
      by_cases h : w i = ⊤
      · rw [if_pos h, wt_top h, hz i h]; simp
      · rw [if_neg h]
        have hc : 0 ≤ lam * wt w i / L := div_nonneg (mul_nonneg hl (hw0 i)) hL.le
        have h1 := soft_sub (x i) (z i) hc
        have h2 := mul_le_mul_of_nonneg_left h1 hL.le
        have e : ∀ t, L * (lam * wt w i / L * t) = lam * (wt w i * t) := by intro t; field_simp
        rw [mul_add, e, e] at h2
        simp only [if_neg h]
        exact h2

/-- C23: `lagrange = 0` with an infinite weight gives nan. -/
theorem C23_l1_lagrange_zero_fails :
    ∃ (w : Fin 1 → WithTop ℚ) (x : Fin 1 → ℚ), Weighted.l1LagrangeProx w x 1 0 0 = none :=
  ⟨fun _ => ⊤, fun _ => 1, by simp [Weighted.l1LagrangeProx]⟩

/-- C23: `l1norm.bound_prox` is the projection on the weighted l1 ball, whatever the tie order.  Finite
weights are 0 or at least `1e-20`. -/
theorem C23_l1_bound_prox (w : Fin n → WithTop K) (hw : ∀ i (a : K), w i = a → a = 0 ∨ 1 / 10 ^ 20 ≤ a)
    (x : Fin n → K) {b : K} (hb : 0 ≤ b) (hpos : 0 < b ∨ ∃ i, wt w i ≠ 0) (sorted : List (K × K))
    (hs : IsDescArgsort (Weighted.keep w x) sorted) :
    ∃ P, Weighted.l1BoundProx w sorted x b = some P ∧
      IsProj {z | z ∈ topZero w ∧ ∑ i, wt w i * |z i| ≤ b} x P := by
  have hε : (0:K) < 1 / 10 ^ 20 := by positivity
  have hwa : ∀ i (a : K), w i = a → 0 ≤ a := by
    intro i a h
    rcases hw i a h with h | h
    · rw [h]
    · exact le_trans hε.le h
  have hw0 : ∀ i, 0 ≤ wt w i := by
    intro i
    rcases wcases (w i) with h | ⟨a, h⟩
    · rw [wt_top h]
    · rw [wt_coe h]; exact hwa i a h
  obtain ⟨cut, h1, h2, h3⟩ := weighted_cut w hw x hb hpos sorted hs
  unfold Weighted.l1BoundProx
  rw [h1, Option.map_some]
  refine ⟨_, rfl, ?_⟩
  set P : Fin n → K := fun i => if w i = ⊤ then 0 else softThr (x i) (wt w i * cut) with hP
  have hPe : (fun i => wcase (w i) (npSign (x i) * 0) fun a =>
      npSign (x i) * max (|x i| - a * (cut + 0)) 0) = P := by
    funext i
    simp only [hP]
    rcases wcases (w i) with h | ⟨a, h⟩
    · simp only [h, wcase_top, if_true]; exact sign_zero _
    · simp only [h, wcase_coe, WithTop.coe_ne_top, if_false, wt_coe h]
      rw [add_zero, softThr_eq_sign_max]
      exact mul_nonneg (hwa i a h) h2
  rw [hPe]
  have hn : ∑ i, wt w i * |P i| = ∑ i, wt w i * |softThr (x i) (wt w i * cut)| := by
    apply Finset.sum_congr rfl; intro i _
    simp only [hP]
    by_cases h : w i = ⊤
    · rw [wt_top h]; simp
    · rw [if_neg h]
  have hle : ∑ i, wt w i * |P i| ≤ b ∧ cut * ∑ i, wt w i * |P i| = cut * b := by
    rw [hn]
    rcases h3 with ⟨rfl, h3⟩ | h3
    · refine ⟨?_, by ring⟩
      simp only [mul_zero, softThr_zero]; exact h3.le
    · rw [h3]; exact ⟨le_refl _, rfl⟩
  apply isProj_of_vi (S := {z | z ∈ topZero w ∧ ∑ i, wt w i * |z i| ≤ b}) ⟨fun i hi => if_pos hi, hle.1⟩
  rintro z ⟨hz1, hz2⟩
  have hs : cut * ∑ i, wt w i * |P i| + ∑ i, (x i - P i) * (z i - P i) ≤ cut * ∑ i, wt w i * |z i| := by
    rw [Finset.mul_sum, Finset.mul_sum, ← Finset.sum_add_distrib]
    apply Finset.sum_le_sum; intro i _
    simp only [hP]
    by_cases h : w i = ⊤
    · rw [if_pos h, wt_top h, hz1 i h]; simp
    · rw [if_neg h]
      have := soft_sub (x i) (z i) (mul_nonneg (hw0 i) h2)
      nlinarith
  rw [hle.2] at hs
  have := mul_le_mul_of_nonneg_left hz2 h2
  linarith

/-- C23: `supnorm.bound_prox` is the projection on `{w_i|z_i| ≤ bound}` (infinite weight: `z_i = 0`); with a
zero weight `bound` must be positive. -/
theorem C23_sup_bound_prox_partial (w : Fin n → WithTop K) (hw : ∀ i (a : K), w i = a → 0 ≤ a) (x : Fin n → K)
    {b : K} (hb : 0 ≤ b) (hnan : 0 < b ∨ ∀ i, w i ≠ ((0:K) : WithTop K)) :
    ∃ P : Fin n → K, (∀ i, Weighted.supBoundProx w x b i = some (P i)) ∧
      IsProj {z | z ∈ topZero w ∧ ∀ i, wt w i * |z i| ≤ b} x P := by
  have hclip : ∀ i, 0 < wt w i → |npClip (x i) (-b * (1 / wt w i)) (b * (1 / wt w i))| ≤ b * (1 / wt w i) := by
    intro i hi
    have h0 : 0 ≤ b * (1 / wt w i) := mul_nonneg hb (one_div_nonneg.2 hi.le)
    unfold npClip
    rw [abs_le]
    refine ⟨le_min (le_trans (by linarith) (le_max_right _ _)) (by linarith), min_le_right _ _⟩
  refine ⟨fun i => if w i = ⊤ then 0 else if wt w i = 0 then x i else
      npClip (x i) (-b * (1 / wt w i)) (b * (1 / wt w i)), fun i => ?_, ?_⟩
  · unfold Weighted.supBoundProx Weighted.invweights
    rcases wcases (w i) with h | ⟨a, h⟩
    · simp only [h, wcase_top, wcase_coe, if_true]
      simp [npClip]
    · simp only [h, wcase_coe, WithTop.coe_ne_top, if_false, wt_coe h]
      by_cases ha : a = 0
      · simp only [if_pos ha, wcase_top]
        rcases hnan with h1 | h1
        · rw [if_neg h1.ne']
        · exact absurd (by rw [h, ha]) (h1 i)
      · simp only [if_neg ha, wcase_coe]
  · apply isProj_of_vi
    · refine ⟨fun i hi => if_pos hi, fun i => ?_⟩
      rcases wcases (w i) with h | ⟨a, h⟩
      · rw [wt_top h]; simp [hb]
      · have ha := hw i a h
        have hne : w i ≠ ⊤ := by rw [h]; exact WithTop.coe_ne_top
        simp only [if_neg hne]
        by_cases h0 : wt w i = 0
        · rw [h0]; simp [hb]
        · rw [if_neg h0]
          have hp : 0 < wt w i := lt_of_le_of_ne (by rw [wt_coe h]; exact ha) (Ne.symm h0)
          calc wt w i * _ ≤ wt w i * (b * (1 / wt w i)) := mul_le_mul_of_nonneg_left (hclip i hp) hp.le
            _ = b := by field_simp
    · rintro z ⟨hz1, hz2⟩
      apply Finset.sum_nonpos
      intro i _
      by_cases h : w i = ⊤
      · rw [if_pos h, hz1 i h]; simp
      · rw [if_neg h]
        by_cases h0 : wt w i = 0
        · rw [if_pos h0]; simp
        · rw [if_neg h0]
          have hp : 0 < wt w i := by
            rcases wcases (w i) with hh | ⟨a, hh⟩
            · exact absurd hh h
            · rw [wt_coe hh] at h0 ⊢
              exact lt_of_le_of_ne (hw i a hh) (Ne.symm h0)
          have hz : |z i| ≤ b * (1 / wt w i) := by
            have := hz2 i
            rw [mul_one_div, le_div_iff₀ hp]; linarith
          set c := b * (1 / wt w i) with hc
          have hcn : -b * (1 / wt w i) = -c := by rw [hc]; ring
          rw [hcn]
          have hz' := abs_le.1 hz
          have hc0 : 0 ≤ c := le_trans (abs_nonneg _) hz
          unfold npClip
          rcases le_total (x i) (-c) with h1 | h1
          · rw [max_eq_right h1, min_eq_left (by linarith)]; nlinarith
          · rw [max_eq_left h1]
            rcases le_total (x i) c with h2 | h2
            · rw [min_eq_left h2]; simp
            · rw [min_eq_right h2]; nlinarith

/-- C23: `bound = 0` with a zero weight gives nan although the coordinate is unconstrained. -/
theorem C23_sup_bound_zero_fails :
    ∃ (w : Fin 1 → WithTop ℚ) (x : Fin 1 → ℚ), Weighted.supBoundProx w x 0 0 = none :=
  ⟨fun _ => ((0:ℚ) : WithTop ℚ), fun _ => 1, by
    simp [Weighted.supBoundProx, Weighted.invweights]⟩

private lemma inv_wt (w : Fin n → WithTop K) (i : Fin n) :
    wt (Weighted.invweights w) i = 1 / wt w i ∧
    (Weighted.invweights w i = ⊤ ↔ w i ≠ ⊤ ∧ wt w i = 0) := by
  rcases wcases (w i) with h | ⟨a, h⟩
  · rw [wt_top h]
    have e : Weighted.invweights w i = ((0:K) : WithTop K) := by
      unfold Weighted.invweights; rw [h, wcase_top]
    refine ⟨by rw [wt_coe e]; simp, ?_⟩
    rw [e]
    constructor
    · intro hh; exact absurd hh WithTop.coe_ne_top
    · rintro ⟨hh, -⟩; exact absurd h hh
  · rw [wt_coe h]
    by_cases ha : a = 0
    · have e : Weighted.invweights w i = ⊤ := by
        unfold Weighted.invweights; rw [h, wcase_coe]
        rw [if_pos ha]
      refine ⟨by rw [wt_top e, ha]; simp, ?_⟩
      rw [e]
      exact ⟨fun _ => ⟨by rw [h]; exact WithTop.coe_ne_top, ha⟩, fun _ => rfl⟩
    · have e : Weighted.invweights w i = ((1 / a : K) : WithTop K) := by
        unfold Weighted.invweights; rw [h, wcase_coe]
        rw [if_neg ha]
      refine ⟨wt_coe e, ?_⟩
      rw [e]
      constructor
      · intro hh; exact absurd hh WithTop.coe_ne_top
      · rintro ⟨-, hh⟩; exact absurd hh ha

/-- C23: `supnorm.lagrange_prox` is the proximal map of `lam * max_i w_i|z_i|` (infinite weight: `z_i = 0`).
If a weight is zero, `lagrange` must be smaller than `L Σ |x_i|/w_i` over the positive finite weights,
see the counterexample below. -/
theorem C23_sup_lagrange_prox_partial (w : Fin (n + 1) → WithTop K)
    (hw : ∀ i (a : K), w i = a → a = 0 ∨ (0 < a ∧ a ≤ 10 ^ 20))
    (x : Fin (n + 1) → K) {L lam : K} (hL : 0 < L) (hl : 0 ≤ lam) (hpos : 0 < lam ∨ ∃ i, wt w i ≠ 0)
    (hnan : (∀ i, w i ≠ ((0:K) : WithTop K)) ∨ lam < L * ∑ i, 1 / wt w i * |x i|) (sorted : List (K × K))
    (hs : IsDescArgsort (Weighted.keep (Weighted.invweights w) x) sorted) :
    ∃ (R : Fin (n + 1) → Option K) (P : Fin (n + 1) → K), Weighted.supLagrangeProx w sorted x L lam = some R ∧
      (∀ i, R i = some (P i)) ∧
      IsProxOn L (fun z => lam * maxCoord fun i => wt w i * |z i|) (topZero w) x P := by
  have hw0 : ∀ i, 0 ≤ wt w i := by
    intro i
    rcases wcases (w i) with h | ⟨a, h⟩
    · rw [wt_top h]
    · rw [wt_coe h]
      rcases hw i a h with h | h
      · rw [h]
      · exact h.1.le
  set v := Weighted.invweights w with hv
  have hvw : ∀ i, wt v i = 1 / wt w i := fun i => (inv_wt w i).1
  have hv0 : ∀ i, 0 ≤ wt v i := fun i => by rw [hvw]; exact one_div_nonneg.2 (hw0 i)
  have hvs : ∀ i (a : K), v i = a → a = 0 ∨ 1 / 10 ^ 20 ≤ a := by
    intro i a h
    have e := wt_coe h
    rw [hvw] at e
    rcases wcases (w i) with hh | ⟨c, hh⟩
    · left; rw [← e, wt_top hh]; simp
    · rw [wt_coe hh] at e
      rcases hw i c hh with h0 | ⟨h0, h1⟩
      · left; rw [← e, h0]; simp
      · right; rw [← e]; exact one_div_le_one_div_of_le h0 h1
  have hb : 0 ≤ lam / L := div_nonneg hl hL.le
  obtain ⟨cut, h1, h2, h3⟩ := weighted_cut v hvs x hb (by
    rcases hpos with h | ⟨i, hi⟩
    · exact Or.inl (div_pos h hL)
    · right; refine ⟨i, ?_⟩; rw [hvw]; exact one_div_ne_zero hi) sorted hs
  have hcut : ∀ i, v i = ⊤ → cut ≠ 0 := by
    intro i hi hc
    have hi' := (inv_wt w i).2.1 hi
    rcases hnan with h | h
    · rcases wcases (w i) with hh | ⟨c, hh⟩
      · exact hi'.1 hh
      · have := hi'.2
        rw [wt_coe hh] at this
        exact h i (by rw [hh, this])
    · subst hc
      have e : lam = L * (lam / L) := by field_simp
      rcases h3 with ⟨-, h3⟩ | h3
      · simp only [hvw] at h3
        have := mul_lt_mul_of_pos_left h3 hL
        linarith
      · simp only [mul_zero, softThr_zero, hvw] at h3
        rw [h3] at h; linarith
  set R : Fin (n + 1) → K := fun i => if v i = ⊤ then 0 else softThr (x i) (wt v i * cut) with hR
  refine ⟨_, fun i => x i - R i, by unfold Weighted.supLagrangeProx; rw [← hv, h1, Option.map_some], fun i => ?_, ?_⟩
  · simp only [hR]
    rcases wcases (v i) with h | ⟨a, h⟩
    · simp only [h, wcase_top, if_true]
      rw [if_neg (hcut i h), sign_zero]
    · simp only [h, wcase_coe, WithTop.coe_ne_top, if_false, wt_coe h]
      have ha : 0 ≤ a := by have := hv0 i; rwa [wt_coe h] at this
      rw [softThr_eq_sign_max _ (mul_nonneg h2 ha), mul_comm]
  · have hn : ∑ i, wt v i * |R i| = ∑ i, wt v i * |softThr (x i) (wt v i * cut)| := by
      apply Finset.sum_congr rfl; intro i _
      simp only [hR]
      by_cases h : v i = ⊤
      · rw [wt_top h]; simp
      · rw [if_neg h]
    have hle : ∑ i, wt v i * |R i| ≤ lam / L ∧ cut * ∑ i, wt v i * |R i| = cut * (lam / L) := by
      rw [hn]
      rcases h3 with ⟨rfl, h3⟩ | h3
      · refine ⟨?_, by ring⟩
        simp only [mul_zero, softThr_zero]; exact h3.le
      · rw [h3]; exact ⟨le_refl _, rfl⟩
    have hRtop : ∀ i, w i = ⊤ → R i = x i := by
      intro i h
      have h0 : wt v i = 0 := by rw [hvw, wt_top h]; simp
      have hne : v i ≠ ⊤ := fun hh => ((inv_wt w i).2.1 hh).1 h
      simp only [hR]; rw [if_neg hne, h0, zero_mul, softThr_zero]
    apply isProxOn_of_subgrad hL
    · intro i hi
      show x i - R i = 0
      rw [hRtop i hi]; ring
    · intro z hz
      set D := maxCoord fun i => wt w i * |z i| with hD
      have hD0 : 0 ≤ D := le_trans (mul_nonneg (hw0 0) (abs_nonneg _)) (le_maxCoord (fun i => wt w i * |z i|) 0)
      have hDP : (maxCoord fun i => wt w i * |x i - R i|) ≤ cut := by
        apply maxCoord_le
        intro i
        by_cases h0 : wt w i = 0
        · rw [h0, zero_mul]; exact h2
        · have hp : 0 < wt w i := lt_of_le_of_ne (hw0 i) (Ne.symm h0)
          have hne : v i ≠ ⊤ := fun hh => h0 ((inv_wt w i).2.1 hh).2
          simp only [hR]
          rw [if_neg hne]
          calc _ ≤ wt w i * (wt v i * cut) :=
                mul_le_mul_of_nonneg_left (softThr_resid _ (mul_nonneg (hv0 i) h2)) hp.le
            _ = cut := by rw [hvw]; field_simp
      have hxz : ∑ i, (x i - (x i - R i)) * (z i - (x i - R i)) = ∑ i, R i * z i - ∑ i, R i * (x i - R i) := by
        rw [← Finset.sum_sub_distrib]
        exact Finset.sum_congr rfl fun i _ => by ring
      have hRz : ∑ i, R i * z i ≤ (∑ i, wt v i * |R i|) * D := by
        rw [Finset.sum_mul]
        apply Finset.sum_le_sum; intro i _
        by_cases ht : w i = ⊤
        · rw [hz i ht, mul_zero]
          exact mul_nonneg (mul_nonneg (hv0 i) (abs_nonneg _)) hD0
        · by_cases h0 : wt w i = 0
          · have : v i = ⊤ := (inv_wt w i).2.2 ⟨ht, h0⟩
            have hR0 : R i = 0 := by simp only [hR]; rw [if_pos this]
            rw [hR0]; simp
          · have hp : 0 < wt w i := lt_of_le_of_ne (hw0 i) (Ne.symm h0)
            have h5 : |z i| ≤ wt v i * D := by
              have := le_maxCoord (fun i => wt w i * |z i|) i
              rw [hvw, one_div_mul_eq_div, le_div_iff₀ hp]
              linarith
            calc R i * z i ≤ |R i| * |z i| := by rw [← abs_mul]; exact le_abs_self _
              _ ≤ |R i| * (wt v i * D) := mul_le_mul_of_nonneg_left h5 (abs_nonneg _)
              _ = _ := by ring
      have hRP : ∑ i, R i * (x i - R i) = cut * ∑ i, wt v i * |R i| := by
        rw [Finset.mul_sum]
        apply Finset.sum_congr rfl; intro i _
        simp only [hR]
        by_cases h : v i = ⊤
        · rw [if_pos h]; simp
        · rw [if_neg h]
          have := softThr_mul (x i) (mul_nonneg (hv0 i) h2)
          rw [mul_comm, this]; ring
      have h5 : L * ∑ i, R i * z i ≤ lam * D := by
        calc _ ≤ L * (lam / L * D) :=
              mul_le_mul_of_nonneg_left (le_trans hRz (mul_le_mul_of_nonneg_right hle.1 hD0)) hL.le
          _ = lam * D := by field_simp
      have h6 : lam * (maxCoord fun i => wt w i * |x i - R i|) ≤ L * ∑ i, R i * (x i - R i) := by
        rw [hRP, hle.2]
        calc _ ≤ lam * cut := mul_le_mul_of_nonneg_left hDP hl
          _ = _ := by field_simp
      rw [hxz, mul_sub]; linarith

/-- C23: the claim fails for a zero weight and a large `lagrange`: weights `(0, 1)`, argument `(5, 1/10)`,
`lagrange = 1`.  The root finder returns 0 and the code evaluates `0 * inf`: the first entry is nan, although
the proximal point is `(5, 0)`. -/
theorem C23_sup_lagrange_prox_fails :
    ∃ (w : Fin 2 → WithTop ℚ) (x P : Fin 2 → ℚ) (sorted : List (ℚ × ℚ)) (R : Fin 2 → Option ℚ),
      IsDescArgsort (Weighted.keep (Weighted.invweights w) x) sorted ∧
      Weighted.supLagrangeProx w sorted x 1 1 = some R ∧ R 0 = none ∧
      IsProxOn 1 (fun z => 1 * maxCoord fun i => wt w i * |z i|) (topZero w) x P := by
  have hinv0 : Weighted.invweights (![((0:ℚ) : WithTop ℚ), ((1:ℚ) : WithTop ℚ)]) 0 = ⊤ := by
    simp [Weighted.invweights]
  have hinv1 : Weighted.invweights (![((0:ℚ) : WithTop ℚ), ((1:ℚ) : WithTop ℚ)]) 1 = ((1:ℚ) : WithTop ℚ) := by
    simp [Weighted.invweights]
  have hkeep : Weighted.keep (Weighted.invweights (![((0:ℚ) : WithTop ℚ), ((1:ℚ) : WithTop ℚ)])) ![5, 1 / 10] =
      [(1 / 10, 1)] := by
    unfold Weighted.keep
    simp only [List.finRange_succ, List.finRange_zero, List.map_nil, List.map_cons]
    rw [List.filterMap_cons_none, List.filterMap_cons_some (b := (1 / 10, 1))]
    · rfl
    · have : (Fin.succ 0 : Fin 2) = 1 := rfl
      rw [this, hinv1, wcase_coe, if_neg one_ne_zero]
      norm_num
    · rw [hinv0, wcase_top]
  refine ⟨![((0:ℚ) : WithTop ℚ), ((1:ℚ) : WithTop ℚ)], ![5, 1 / 10], ![5, 0], [(1 / 10, 1)],
    fun i => wcase (invweights (![((0:ℚ) : WithTop ℚ), ((1:ℚ) : WithTop ℚ)]) i)
      (if (0:ℚ) = 0 then none else some ((![5, 1 / 10] : Fin 2 → ℚ) i - npSign ((![5, 1 / 10] : Fin 2 → ℚ) i) * 0))
      fun a => some ((![5, 1 / 10] : Fin 2 → ℚ) i -
        npSign ((![5, 1 / 10] : Fin 2 → ℚ) i) * max (|(![5, 1 / 10] : Fin 2 → ℚ) i| - 0 * a) 0), ?_, ?_, ?_, ?_⟩
  · rw [hkeep]
    constructor
    · norm_num [wKnots]
    · simp
  · unfold Weighted.supLagrangeProx
    rw [hkeep]
    have : findW (1 / 1 : ℚ) 0 [(1 / 10, 1)] [(1 / 10, 1)] = some 0 := by norm_num [findW]
    rw [this, Option.map_some]
  · simp only
    rw [hinv0]
    simp
  · apply isProxOn_of_subgrad one_pos
    · intro i hi
      fin_cases i
      · exact absurd hi WithTop.coe_ne_top
      · exact absurd hi WithTop.coe_ne_top
    · intro z hz
      have e0 : wt (![((0:ℚ) : WithTop ℚ), ((1:ℚ) : WithTop ℚ)]) 0 = 0 := rfl
      have e1 : wt (![((0:ℚ) : WithTop ℚ), ((1:ℚ) : WithTop ℚ)]) 1 = 1 := rfl
      have h1 : (maxCoord fun i => wt (![((0:ℚ) : WithTop ℚ), ((1:ℚ) : WithTop ℚ)]) i * |(![5, 0] : Fin 2 → ℚ) i|) ≤ 0 := by
        apply maxCoord_le
        intro i
        fin_cases i
        · show wt (![((0:ℚ) : WithTop ℚ), ((1:ℚ) : WithTop ℚ)]) 0 * _ ≤ 0
          rw [e0]; simp
        · simp
      have h2 := le_maxCoord (fun i => wt (![((0:ℚ) : WithTop ℚ), ((1:ℚ) : WithTop ℚ)]) i * |z i|) 1
      simp only [e1, one_mul] at h2
      have h3 := le_abs_self (z 1)
      have h4 := abs_nonneg (z 1)
      have h5 : ∑ i, ((![5, 1 / 10] : Fin 2 → ℚ) i - (![5, 0] : Fin 2 → ℚ) i) * (z i - (![5, 0] : Fin 2 → ℚ) i) =
          1 / 10 * z 1 := by
        rw [Fin.sum_univ_two]; simp
      rw [h5, one_mul, one_mul, one_mul]
      linarith

/-- C23: the conjugate atom carries the inverse weights, and inverting twice gives back the weights. -/
theorem C23_conjugate_involution (w : Fin n → WithTop K) (i : Fin n) :
    Weighted.conjugateWeights (Weighted.conjugateWeights w) i = w i := by
  unfold Weighted.conjugateWeights Weighted.invweights
  rcases wcases (w i) with h | ⟨a, h⟩
  · simp [h]
  · by_cases ha : a = 0
    · simp [h, ha]
    · simp [h, ha]

/-- hypotheses met: weights `(0, 2, inf)` -/
example : ∃ P : Fin 3 → ℚ,
    (∀ i, Weighted.l1LagrangeProx (![((0:ℚ) : WithTop ℚ), ((2:ℚ) : WithTop ℚ), ⊤]) ![1, -5, 3] 1 1 i = some (P i)) ∧
    IsProxOn 1 (fun z => 1 * ∑ i, wt (![((0:ℚ) : WithTop ℚ), ((2:ℚ) : WithTop ℚ), ⊤]) i * |z i|)
      (topZero (![((0:ℚ) : WithTop ℚ), ((2:ℚ) : WithTop ℚ), ⊤])) ![1, -5, 3] P := by
  apply C23_l1_lagrange_prox_partial _ _ _ one_pos zero_le_one (Or.inl one_pos)
  intro i a h
  fin_cases i
  · exact le_of_eq (WithTop.coe_inj.1 h)
  · have : (2:ℚ) = a := WithTop.coe_inj.1 h
    rw [← this]; norm_num
  · exact absurd h.symm WithTop.coe_ne_top

end Verif.Props
