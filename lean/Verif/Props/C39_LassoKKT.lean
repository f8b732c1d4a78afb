import Verif.Model.LassoPath
import Verif.Spec.Composite
import Verif.Spec.LassoPath
import Verif.Lemmas.ProxGrad
import Verif.Lemmas.LassoPath
import Mathlib.Tactic.FieldSimp
import Mathlib.Tactic.Linarith
import Mathlib.Tactic.FinCases

/-!
# C39: the KKT check of `lasso_path` certifies optimality
-/

set_option linter.unusedSectionVars false
set_option linter.unusedVariables false

namespace Verif.Props
open Verif.Model.LassoPath Verif.Spec Verif.Lemmas
open Verif.Model (npSign)

variable {p : ℕ}

/-- The assertion `inactive_ranks >= 0  iff  inactive_terms > 1 + tol` on line 372 never fires. -/
theorem C39_assertion (w g b : Fin p → ℝ) (lam tol : ℝ) (i : Fin p) :
    0 ≤ (checkKKT' w g b lam tol).2 i ↔ 1 + tol < inactiveTerms w g b lam i := by
  have h := not_congr (rank_neg_iff w g b lam tol i)
  rwa [not_lt, not_le] at h

private lemma noFailure_iff (w g b : Fin p → ℝ) (lam tol : ℝ) :
    NoFailure (checkKKT w g b lam tol) ↔
      (∀ i, activeFailing w g b lam tol i = 0) ∧ ∀ i, inactiveTerms w g b lam i ≤ 1 + tol := by
  unfold NoFailure checkKKT checkKKT'
  simp only [rank_neg_iff, decide_eq_false_iff_not, not_lt, nonpos_iff_eq_zero]

private lemma meanPositive_spec (w : Fin p → ℝ) (h : ∃ i, 0 < w i) : ∃ m, meanPositive w = some m ∧ 0 < m := by
  obtain ⟨i, hi⟩ := h
  have hne : (Finset.univ.filter fun i => 0 < w i).card ≠ 0 := by
    rw [Finset.card_ne_zero]; exact ⟨i, by simp [hi]⟩
  unfold meanPositive
  simp only [if_neg hne]
  refine ⟨_, rfl, div_pos ?_ (by exact_mod_cast Nat.pos_of_ne_zero hne)⟩
  apply Finset.sum_pos
  · intro j hj; simpa using hj
  · exact ⟨i, by simp [hi]⟩

private lemma abs_sign_mul (x u : ℝ) (hx : x ≠ 0) : |x| - |u| ≤ -npSign x * (u - x) := by
  unfold npSign
  rcases lt_trichotomy x 0 with h | h | h
  · rw [if_neg (not_lt.2 h.le), if_pos h, abs_of_neg h]
    have := neg_abs_le u
    linarith
  · exact absurd h hx
  · rw [if_pos h, abs_of_pos h]
    have := le_abs_self u
    linarith

/-- coordinatewise inequality -/
private lemma coord (w g b : Fin p → ℝ) {lam tol : ℝ} (hl : 0 < lam) (ht : 0 ≤ tol) (hw : ∀ i, 0 ≤ w i)
    (hpos : ∃ i, 0 < w i) (hno : NoFailure (checkKKT w g b lam tol)) (u : ℝ) (i : Fin p) :
    lam * (w i * |b i|) - lam * (w i * |u|) -
      tol * ((if w i = 0 then meanPos w else lam * w i) * |u - b i|) ≤ g i * (u - b i) := by
  obtain ⟨ha, hi⟩ := (noFailure_iff w g b lam tol).1 hno
  have ha := ha i
  have hi := hi i
  unfold activeFailing at ha
  unfold inactiveTerms at hi
  by_cases hw0 : w i = 0
  · obtain ⟨m, hm, hmpos⟩ := meanPositive_spec w hpos
    rw [if_pos hw0, hm] at ha
    rw [if_pos hw0]
    have hmm : meanPos w = m := by 
      unfold meanPositive at hm
      dsimp only at hm
      split at hm
      · cases hm
      · injection hm
    have hg : |g i / m| ≤ tol := by
      by_contra h
      push Not at h
      simp [h] at ha
    rw [abs_div, abs_of_pos hmpos, div_le_iff₀ hmpos] at hg
    rw [hw0, hmm]
    have h1 := neg_abs_le (g i * (u - b i))
    rw [abs_mul] at h1
    have h2 := mul_le_mul_of_nonneg_right hg (abs_nonneg (u - b i))
    have : tol * (m * |u - b i|) = tol * m * |u - b i| := by ring
    rw [this]
    linarith
  · have hwp : 0 < w i := lt_of_le_of_ne (hw i) (Ne.symm hw0)
    have hlw : 0 < lam * w i := mul_pos hl hwp
    rw [if_neg hw0] at ha ⊢
    by_cases hb : b i = 0
    · rw [if_pos hb, one_mul, if_pos hwp, abs_div, abs_of_pos hlw, div_le_iff₀ hlw] at hi
      rw [hb, abs_zero, sub_zero]
      have h1 := neg_abs_le (g i * u)
      rw [abs_mul] at h1
      have h2 := mul_le_mul_of_nonneg_right hi (abs_nonneg u)
      have : (1 + tol) * (lam * w i) * |u| = lam * (w i * |u|) + tol * (lam * w i * |u|) := by ring
      linarith
    · rw [if_neg hb, one_mul, if_pos hwp] at ha
      have hg : |g i / (lam * w i) + npSign (b i)| ≤ tol := by
        by_contra h
        push Not at h
        simp [h] at ha
      have e : g i = lam * w i * (g i / (lam * w i) + npSign (b i)) + lam * w i * (-npSign (b i)) := by
        field_simp; ring
      have h1 : -(lam * w i * tol * |u - b i|) ≤ lam * w i * (g i / (lam * w i) + npSign (b i)) * (u - b i) := by
        have h1 := neg_abs_le ((g i / (lam * w i) + npSign (b i)) * (u - b i))
        rw [abs_mul] at h1
        have h2 := mul_le_mul_of_nonneg_right hg (abs_nonneg (u - b i))
        have h3 : -(tol * |u - b i|) ≤ (g i / (lam * w i) + npSign (b i)) * (u - b i) := by linarith
        have := mul_le_mul_of_nonneg_left h3 hlw.le
        linarith
      have h2 := mul_le_mul_of_nonneg_left (abs_sign_mul (b i) u hb) hlw.le
      have e2 : g i * (u - b i) = lam * w i * (g i / (lam * w i) + npSign (b i)) * (u - b i) +
          lam * w i * (-npSign (b i) * (u - b i)) := by
        conv_lhs => rw [e]
        ring
      rw [e2]
      linarith

/-- C39: if `check_KKT` at tolerance `tol` reports no failing coordinate for `(grad, b)`, where `grad` is the gradient
at `b` of a convex loss, then `b` is optimal for `loss + lam ∑ wᵢ|bᵢ|` up to `tol` times
`∑ lam wᵢ |uᵢ - bᵢ|` (penalised coordinates) plus `mean weight * |uᵢ - bᵢ|` (unpenalised ones). -/
theorem C39_suboptimality {f : (Fin p → ℝ) → ℝ} {grad : (Fin p → ℝ) → Fin p → ℝ} (hf : ConvexWithGradient f grad)
    (w b : Fin p → ℝ) {lam tol : ℝ} (hl : 0 < lam) (ht : 0 ≤ tol) (hw : ∀ i, 0 ≤ w i) (hpos : ∃ i, 0 < w i)
    (hno : NoFailure (checkKKT w (grad b) b lam tol)) (u : Fin p → ℝ) :
    f b + lam * weightedL1 w b ≤ f u + lam * weightedL1 w u +
      tol * ∑ i, (if w i = 0 then meanPos w else lam * w i) * |u i - b i| := by
  have h1 := tangent hf b u
  have h2 : ∑ i, (lam * (w i * |b i|) - lam * (w i * |u i|) -
      tol * ((if w i = 0 then meanPos w else lam * w i) * |u i - b i|)) ≤ ∑ i, grad b i * (u i - b i) :=
    Finset.sum_le_sum fun i _ => coord w (grad b) b hl ht hw hpos hno (u i) i
  rw [Finset.sum_sub_distrib, Finset.sum_sub_distrib, ← Finset.mul_sum, ← Finset.mul_sum, ← Finset.mul_sum] at h2
  have h3 : dot (grad b) (fun i => u i - b i) = ∑ i, grad b i * (u i - b i) := rfl
  unfold weightedL1
  linarith

/-- C39: at tolerance 0 the checked point minimises the penalised problem. -/
theorem C39_optimal {f : (Fin p → ℝ) → ℝ} {grad : (Fin p → ℝ) → Fin p → ℝ} (hf : ConvexWithGradient f grad)
    (w b : Fin p → ℝ) {lam : ℝ} (hl : 0 < lam) (hw : ∀ i, 0 ≤ w i) (hpos : ∃ i, 0 < w i)
    (hno : NoFailure (checkKKT w (grad b) b lam 0)) :
    Minimises (fun u => f u + lam * weightedL1 w u) Set.univ b := by
  refine ⟨Set.mem_univ _, fun u _ => ?_⟩
  have := C39_suboptimality hf w b hl le_rfl hw hpos hno u
  simpa using this

/-- one-dimensional optimality: `0 ≤ s (g + lam w sign b)` in both directions -/
private lemma minimiser_coord {f : (Fin p → ℝ) → ℝ} {g b : Fin p → ℝ} {w : Fin p → ℝ} {lam : ℝ}
    (hg : IsGradientAt f g b) (hb : Minimises (fun u => f u + lam * weightedL1 w u) Set.univ b) (i : Fin p)
    (s : ℝ) (c : ℝ) (hc : ∀ t : ℝ, 0 < t → t ≤ 1 → lam * w i * (|b i + t * s| - |b i|) ≤ t * c) : -c ≤ g i * s := by
  have := dir_ge hg (fun j => if j = i then s else 0) (-c) (fun t ht ht1 => by
    have h1 := hb.2 (fun j => b j + t * (if j = i then s else 0)) (Set.mem_univ _)
    have h2 : weightedL1 w (fun j => b j + t * (if j = i then s else 0)) - weightedL1 w b =
        w i * (|b i + t * s| - |b i|) := by
      unfold weightedL1
      rw [← Finset.sum_sub_distrib, Finset.sum_eq_single i]
      · dsimp only; rw [if_pos rfl]; ring
      · intro j _ hj; dsimp only; rw [if_neg hj]; simp
      · intro h; exact absurd (Finset.mem_univ i) h
    have h3 := hc t ht ht1
    have h4 : lam * weightedL1 w (fun j => b j + t * (if j = i then s else 0)) =
        lam * weightedL1 w b + lam * w i * (|b i + t * s| - |b i|) := by
      rw [← sub_eq_iff_eq_add', ← mul_sub, h2]; ring
    simp only at h1
    linarith)
  have e : dot g (fun j => if j = i then s else 0) = g i * s := by
    unfold dot; simp
  rwa [e] at this

/-- C39, converse: every minimiser passes the check at every tolerance `≥ 0`, so the check never rejects an exact
solution. -/
theorem C39_complete {f : (Fin p → ℝ) → ℝ} {g : Fin p → ℝ} (w b : Fin p → ℝ) {lam tol : ℝ} (hl : 0 < lam)
    (ht : 0 ≤ tol) (hw : ∀ i, 0 ≤ w i) (hg : IsGradientAt f g b)
    (hb : Minimises (fun u => f u + lam * weightedL1 w u) Set.univ b) :
    NoFailure (checkKKT w g b lam tol) := by
  have kkt : ∀ i, |g i| ≤ lam * w i := by
    intro i
    have key : ∀ s : ℝ, |s| = 1 → -(lam * w i) ≤ g i * s := by
      intro s hs
      refine minimiser_coord hg hb i s (lam * w i) fun t ht ht1 => ?_
      have : |b i + t * s| ≤ |b i| + t := by
        calc |b i + t * s| ≤ |b i| + |t * s| := abs_add_le _ _
          _ = |b i| + t := by rw [abs_mul, hs, abs_of_pos ht, mul_one]
      have := mul_le_mul_of_nonneg_left (show |b i + t * s| - |b i| ≤ t by linarith) (mul_nonneg hl.le (hw i))
      linarith
    rw [abs_le]
    exact ⟨by simpa using key 1 (by simp), by linarith [key (-1) (by simp)]⟩
  have act : ∀ i, b i ≠ 0 → g i = -(lam * w i * npSign (b i)) := by
    intro i hbi
    have key : -(-(lam * w i * |b i|)) ≤ g i * -b i := by
      refine minimiser_coord hg hb i (-b i) (-(lam * w i * |b i|)) fun t ht ht1 => ?_
      have : |b i + t * -b i| = (1 - t) * |b i| := by
        rw [show b i + t * -b i = (1 - t) * b i by ring, abs_mul, abs_of_nonneg (by linarith)]
      rw [this]
      apply le_of_eq; ring
    have hle := (abs_le.1 (kkt i))
    unfold npSign
    rcases lt_trichotomy (b i) 0 with h | h | h
    · rw [if_neg (not_lt.2 h.le), if_pos h]
      rw [abs_of_neg h] at key
      have : lam * w i * -b i ≤ g i * -b i := by linarith
      have := le_of_mul_le_mul_right this (by linarith)
      linarith [hle.2]
    · exact absurd h hbi
    · rw [if_pos h]
      rw [abs_of_pos h] at key
      have : g i * b i ≤ -(lam * w i) * b i := by linarith
      have := le_of_mul_le_mul_right this h
      linarith [hle.1]
  rw [noFailure_iff]
  constructor
  · intro i
    unfold activeFailing
    by_cases hw0 : w i = 0
    · rw [if_pos hw0]
      have hgi : g i = 0 := by
        have := kkt i
        rw [hw0, mul_zero] at this
        exact abs_eq_zero.1 (le_antisymm this (abs_nonneg _))
      cases h : meanPositive w with
      | none => rfl
      | some m => simp [hgi, not_lt.2 ht]
    · rw [if_neg hw0]
      by_cases hbi : b i = 0
      · simp [hbi]
      · have hlw : lam * w i ≠ 0 := mul_ne_zero hl.ne' hw0
        have e : g i / (lam * w i) + npSign (b i) = 0 := by
          rw [act i hbi]; field_simp; ring
        rw [e]
        simp [not_lt.2 ht]
  · intro i
    unfold inactiveTerms
    by_cases h : 0 < (if b i = 0 then 1 else 0) * w i
    · rw [if_pos h]
      have hwp : 0 < w i := by
        by_contra hn
        have : w i = 0 := le_antisymm (not_lt.1 hn) (hw i)
        rw [this, mul_zero] at h; exact lt_irrefl _ h
      have hlw : 0 < lam * w i := mul_pos hl hwp
      rw [abs_div, abs_of_pos hlw, div_le_iff₀ hlw]
      have := kkt i
      nlinarith
    · rw [if_neg h]; linarith

/-- C39 needs a positive weight: with all weights 0 the mean of the positive weights is nan, every comparison with it
is False, and the check passes at a point whose gradient is not 0. -/
theorem C39_all_unpenalized_fails :
    NoFailure (checkKKT (ι := Fin 1) (fun _ => 0) (fun _ => 5) (fun _ => 1) 1 0) ∧
    ∃ f grad, ConvexWithGradient (n := 1) f grad ∧ grad (fun _ => 1) = (fun _ => 5) ∧
      ¬ Minimises (fun u => f u + 1 * weightedL1 (fun _ => 0) u) Set.univ (fun _ => 1) := by
  constructor
  · rw [noFailure_iff]
    constructor
    · intro i; simp [activeFailing, meanPositive]
    · intro i; simp [inactiveTerms]
  · refine ⟨fun x => 5 * x 0, fun _ _ => 5, ⟨?_, ?_⟩, rfl, ?_⟩
    · intro x y a b _ _ _; simp only; linarith
    · intro x
      unfold IsGradientAt
      have : (fun x : Fin 1 → ℝ => 5 * x 0) =
          fun x => (∑ i : Fin 1, (5:ℝ) • (ContinuousLinearMap.proj i : (Fin 1 → ℝ) →L[ℝ] ℝ)) x := by
        funext x; simp
      rw [this]
      exact ContinuousLinearMap.hasFDerivAt _
    · intro h
      have := h.2 (fun _ => 0) (Set.mem_univ _)
      simp [weightedL1] at this
      norm_num at this

/-- concrete case: `f b = (b₀ - 3)²/2 + (b₁ - 1)²/2`, weights 1, `lam = 2`: the solution `(1, 0)` passes at
tolerance 0 -/
example : NoFailure (checkKKT (ι := Fin 2) (fun _ => 1) (fun i => (![1, 0] : Fin 2 → ℝ) i - (![3, 1] : Fin 2 → ℝ) i) ![1, 0] 2 0) ∧
    (∃ i : Fin 2, (0:ℝ) < (fun _ => 1) i) := by
  refine ⟨?_, 0, by norm_num⟩
  rw [noFailure_iff]
  constructor <;> intro i <;> fin_cases i <;> norm_num [activeFailing, inactiveTerms, npSign]

end Verif.Props
