import Verif.Lemmas.MixedKKT
import Verif.Lemmas.GroupPath
import Verif.Lemmas.Lsq
import Mathlib.Tactic.NormNum
import Mathlib.Algebra.BigOperators.Fin

/-!
# C81: the screening rule, the optimality check and the largest useful lagrange parameter of the mixed lasso
-/

set_option linter.unusedSectionVars false
set_option linter.unusedVariables false

namespace Verif.Props
open Verif.Model Verif.Lemmas Verif.Spec

variable {p q : ℕ}

/-- the objective `f(z) + lagrange · P(z)` of a mixed lasso problem, on the domain of the penalty -/
noncomputable def mixedObjective (f : (Fin p → ℝ) → ℝ) (κ : Fin p → Kind q) (w : Fin q → ℝ) (lam : ℝ) (z : Fin p → ℝ) : ℝ :=
  f z + lam * mixedPenalty κ w z

/-- the feasible vectors whose penalised coordinates (l1, positive part, groups) are zero -/
def mixedNull (κ : Fin p → Kind q) : Set (Fin p → ℝ) :=
  {z | z ∈ mixedDomain κ ∧ ∀ i, κ i = .unpenalized ∨ κ i = .nonnegative ∨ z i = 0}

/-- the conditions of optimality, kind by kind -/
private lemma kkt_of_min {f : (Fin p → ℝ) → ℝ} {κ : Fin p → Kind q} {w : Fin q → ℝ} (hw : ∀ j, 0 ≤ w j) {lam : ℝ}
    (hl : 0 ≤ lam) {g b : Fin p → ℝ} (hg : IsGradientAt f g b)
    (hb : Minimises (mixedObjective f κ w lam) (mixedDomain κ) b) :
    (∀ i, κ i = .unpenalized → g i = 0) ∧
    (∀ i, κ i = .l1 → |g i| ≤ lam ∧ g i * b i = -(lam * |b i|)) ∧
    (∀ i, κ i = .positivePart → 0 ≤ b i ∧ 0 ≤ g i + lam ∧ (g i + lam) * b i = 0) ∧
    (∀ i, κ i = .nonnegative → 0 ≤ b i ∧ 0 ≤ g i ∧ g i * b i = 0) ∧
    (∀ j, npNorm (rk κ j g) ≤ lam * w j ∧ ∑ i, rk κ j g i * rk κ j b i = -(lam * w j * npNorm (rk κ j b))) := by
  have hvi : ∀ z ∈ mixedDomain κ, 0 ≤ dot g (fun i => z i - b i) + lam * (mixedPenalty κ w z - mixedPenalty κ w b) :=
    fun z hz => mixed_vi hw hl hg (subset_refl _) (mixedDomain_comb κ) hb hz
  refine ⟨fun i hi => ?_, fun i hi => ?_, fun i hi => ?_, fun i hi => ?_, fun j => ?_⟩
  · have h := fun s : ℝ => coord_vi (s := s) hb.1 hvi (i := i) (by rw [hi]; simp) (by rw [hi]; intro h; simp at h)
    rw [hi] at h
    simp only [coordPen, sub_self, mul_zero, add_zero] at h
    have h1 := h (b i + 1)
    have h2 := h (b i - 1)
    linarith
  · have h := fun s : ℝ => coord_vi (s := s) hb.1 hvi (i := i) (by rw [hi]; simp) (by rw [hi]; intro h; simp at h)
    rw [hi] at h
    exact l1_of_vi hl h
  · have hb0 : 0 ≤ b i := hb.1 i (.inl hi)
    have h := fun (s : ℝ) (hs : 0 ≤ s) => coord_vi (s := s) hb.1 hvi (i := i) (by rw [hi]; simp) (fun _ => hs)
    rw [hi] at h
    simp only [coordPen] at h
    have h1 := h (b i + 1) (by linarith)
    have h2 := h 0 le_rfl
    have h3 : 0 ≤ g i + lam := by linarith
    exact ⟨hb0, h3, by nlinarith [mul_nonneg h3 hb0]⟩
  · have hb0 : 0 ≤ b i := hb.1 i (.inr hi)
    have h := fun (s : ℝ) (hs : 0 ≤ s) => coord_vi (s := s) hb.1 hvi (i := i) (by rw [hi]; simp) (fun _ => hs)
    rw [hi] at h
    simp only [coordPen, sub_self, mul_zero, add_zero] at h
    have h1 := h (b i + 1) (by linarith)
    have h2 := h 0 le_rfl
    have h3 : 0 ≤ g i := by linarith
    exact ⟨hb0, h3, by nlinarith [mul_nonneg h3 hb0]⟩
  · have h := group_vi hb.1 hvi j
    have e : ∀ y : Fin p → ℝ, ∑ i, rk κ j g i * y i = ∑ i, rk κ j g i * rk κ j y i := by
      intro y
      refine Finset.sum_congr rfl fun i _ => ?_
      unfold rk; split_ifs <;> simp
    have hle : ∀ y : Fin p → ℝ, npNorm (rk κ j y) ≤ npNorm y := by
      intro y
      unfold npNorm
      apply Real.sqrt_le_sqrt
      refine Finset.sum_le_sum fun i _ => ?_
      unfold rk; split_ifs
      · exact le_rfl
      · simp only [ne_eq, OfNat.ofNat_ne_zero, not_false_eq_true, zero_pow]; exact sq_nonneg _
    have hc := mul_nonneg hl (hw j)
    refine group_of_vi hc fun y => ?_
    have h1 := h y
    have h2 := mul_le_mul_of_nonneg_left (hle y) hc
    have h3 : ∑ i, rk κ j g i * (y i - rk κ j b i) = ∑ i, rk κ j g i * (rk κ j y i - rk κ j b i) := by
      simp only [mul_sub, Finset.sum_sub_distrib]
      rw [e y]
    rw [h3]
    linarith

private lemma bit_eq_zero (b : Bool) : MixedKKT.bit b = 0 ↔ b = false := by
  cases b <;> simp [MixedKKT.bit]

private lemma block_ne_zero (κ : Fin p → Kind q) (b : Fin p → ℝ) (j : Fin q) :
    (∑ k, if κ k = .group j then b k ^ 2 else 0) ≠ 0 ↔ npNorm (rk κ j b) ≠ 0 := by
  rw [← kindNorm_eq]
  unfold kindNorm
  have : 0 ≤ ∑ k, if κ k = .group j then b k ^ 2 else 0 := by
    refine Finset.sum_nonneg fun i _ => ?_
    split_ifs
    · exact sq_nonneg _
    · exact le_rfl
  rw [Real.sqrt_ne_zero this]

private lemma check_false_iff (κ : Fin p → Kind q) (w : Fin q → ℝ) (g b : Fin p → ℝ) {lam tol : ℝ} (hl : 0 < lam)
    (i : Fin p) : MixedKKT.checkKKT κ w g b lam tol i = false ↔
    (κ i = .l1 → |g i| ≤ lam * (1 + tol) ∧ (b i ≠ 0 → |-g i / lam - npSign (b i)| < tol)) ∧
    (κ i = .positivePart → -g i ≤ lam * (1 + tol) ∧ (b i ≠ 0 → |-g i / lam - 1| < tol)) ∧
    (κ i = .nonnegative → -g i ≤ lam * tol ∧ (b i ≠ 0 → -(1 / 100) ≤ -g i)) ∧
    (∀ j, κ i = .group j → npNorm (rk κ j g) ≤ w j * lam * (1 + tol) ∧
      (npNorm (rk κ j b) ≠ 0 → w j * lam * (1 - tol) ≤ npNorm (rk κ j g))) := by
  unfold MixedKKT.checkKKT MixedKKT.failing MixedKKT.slack
  rw [decide_eq_false_iff_not, not_lt, Nat.le_zero]
  rcases hk : κ i with _ | _ | _ | _ | j
  · simp
  · by_cases hb : b i = 0
    · simp [hb, bit_eq_zero]
    · simp [hb, bit_eq_zero, hl.ne']
  · by_cases hb : b i = 0
    · simp [hb, bit_eq_zero]
    · simp [hb, bit_eq_zero, hl.ne']
  · by_cases hb : b i = 0
    · simp [hb, bit_eq_zero]
    · simp [hb, bit_eq_zero]
  · simp only [block_ne_zero, normsCython_eq]
    by_cases hb : npNorm (rk κ j b) = 0
    · simp [hb, bit_eq_zero]
    · simp [hb, bit_eq_zero]

/-- what an accepted coordinate says of the gradient -/
lemma mixed_feasible (κ : Fin p → Kind q) (w : Fin q → ℝ) (g b : Fin p → ℝ) {lam tol : ℝ} (hl : 0 < lam)
    {i : Fin p} (h : MixedKKT.checkKKT κ w g b lam tol i = false) :
    (κ i = .l1 → |g i| ≤ lam * (1 + tol)) ∧ (κ i = .positivePart → -g i ≤ lam * (1 + tol)) ∧
    (∀ j, κ i = .group j → npNorm (rk κ j g) ≤ w j * lam * (1 + tol)) := by
  obtain ⟨h1, h2, -, h4⟩ := (check_false_iff κ w g b hl i).1 h
  exact ⟨fun hk => (h1 hk).1, fun hk => (h2 hk).1, fun j hk => (h4 j hk).1⟩

private lemma npSign_mul (b : ℝ) : npSign b * b = |b| := by
  unfold npSign
  split_ifs with h1 h2
  · rw [abs_of_pos h1, one_mul]
  · rw [abs_of_neg h2]; ring
  · have : b = 0 := le_antisymm (not_lt.1 h1) (not_lt.1 h2)
    rw [this]; simp

private lemma npSign_mul_abs (b : ℝ) : npSign b * |b| = b := by
  unfold npSign
  split_ifs with h1 h2
  · rw [abs_of_pos h1, one_mul]
  · rw [abs_of_neg h2]; ring
  · have : b = 0 := le_antisymm (not_lt.1 h1) (not_lt.1 h2)
    rw [this]; simp

/-- **C81** The check never rejects an exact solution: at a minimiser of the penalised problem no coordinate is reported as
failing, for every positive tolerance. -/
theorem C81_check_complete {f : (Fin p → ℝ) → ℝ} {κ : Fin p → Kind q} {w : Fin q → ℝ} (hw : ∀ j, 0 ≤ w j) {lam tol : ℝ}
    (hl : 0 < lam) (ht : 0 < tol) {g b : Fin p → ℝ} (hg : IsGradientAt f g b)
    (hb : Minimises (mixedObjective f κ w lam) (mixedDomain κ) b) (i : Fin p) :
    MixedKKT.checkKKT κ w g b lam tol i = false := by
  obtain ⟨-, h1, h2, h3, h4⟩ := kkt_of_min hw hl.le hg hb
  have hlt : 0 < lam * tol := mul_pos hl ht
  rw [check_false_iff κ w g b hl]
  refine ⟨fun hk => ⟨?_, fun hb0 => ?_⟩, fun hk => ⟨?_, fun hb0 => ?_⟩, fun hk => ⟨?_, fun hb0 => ?_⟩,
    fun j hk => ⟨?_, fun hb0 => ?_⟩⟩
  · linarith [(h1 i hk).1]
  · have h := (h1 i hk).2
    have : -g i / lam = npSign (b i) := by
      rw [div_eq_iff hl.ne']
      apply mul_right_cancel₀ hb0
      rw [mul_right_comm, npSign_mul]
      linarith
    rw [this, sub_self, abs_zero]; exact ht
  · linarith [(h2 i hk).2.1]
  · have h := (h2 i hk).2.2
    have h0 : g i + lam = 0 := by
      rcases mul_eq_zero.1 h with h | h
      · exact h
      · exact absurd h hb0
    have : -g i / lam = 1 := by
      rw [div_eq_iff hl.ne']; linarith
    rw [this, sub_self, abs_zero]; exact ht
  · linarith [(h3 i hk).2.1]
  · have h := (h3 i hk).2.2
    have h0 : g i = 0 := by
      rcases mul_eq_zero.1 h with h | h
      · exact h
      · exact absurd h hb0
    rw [h0]; norm_num
  · have := (h4 j).1
    have hwl := mul_nonneg (mul_nonneg (hw j) hl.le) ht.le
    nlinarith
  · obtain ⟨h5, h6⟩ := h4 j
    have hn : 0 < npNorm (rk κ j b) := lt_of_le_of_ne (npNorm_nonneg _) (Ne.symm hb0)
    have h7 := cauchy (fun i => -rk κ j g i) (rk κ j b)
    have h8 : npNorm (fun i => -rk κ j g i) = npNorm (rk κ j g) := by
      have := npNorm_smul (-1) (rk κ j g)
      simp only [neg_mul, one_mul, abs_neg, abs_one] at this
      exact this
    have h9 : ∑ i, -rk κ j g i * rk κ j b i = -∑ i, rk κ j g i * rk κ j b i := by
      rw [← Finset.sum_neg_distrib]
      exact Finset.sum_congr rfl fun i _ => by ring
    rw [h8, h9, h6, neg_neg] at h7
    have h10 : lam * w j ≤ npNorm (rk κ j g) := le_of_mul_le_mul_right h7 hn
    have hwl := mul_nonneg (mul_nonneg (hw j) hl.le) ht.le
    nlinarith

/-- The hypotheses of `C81_check_complete` are met: one coordinate of each kind but the groups, least squares. -/
example : Minimises (mixedObjective (lsqLoss ![3, 3, 3, -1]) (![.unpenalized, .l1, .positivePart, .nonnegative] : Fin 4 → Kind 0)
      (fun j => j.elim0) 1) (mixedDomain (![.unpenalized, .l1, .positivePart, .nonnegative] : Fin 4 → Kind 0)) ![3, 2, 2, 0] ∧
    IsGradientAt (lsqLoss ![3, 3, 3, -1]) ![0, -1, -1, 1] ![3, 2, 2, 0] := by
  have hg : (fun i => (![3, 2, 2, 0] : Fin 4 → ℝ) i - (![3, 3, 3, -1] : Fin 4 → ℝ) i) = ![0, -1, -1, 1] := by
    funext i; fin_cases i <;> norm_num
  refine ⟨⟨?_, ?_⟩, ?_⟩
  · intro i _; fin_cases i <;> norm_num
  · intro u hu
    have h3 := hu 3 (.inr rfl)
    simp only [mixedObjective, mixedPenalty, lsqLoss, Fin.sum_univ_four, Finset.univ_eq_empty, Finset.sum_empty]
    simp
    nlinarith [sq_nonneg (u 0 - 3), sq_nonneg (u 1 - 2), sq_nonneg (u 2 - 2), sq_nonneg (u 3), le_abs_self (u 1)]
  · have := (lsqLoss_convex ![3, 3, 3, -1]).gradient ![3, 2, 2, 0]
    rwa [hg] at this

private lemma term_l1 {g b z lam tol : ℝ} (hl : 0 < lam) (h1 : |g| ≤ lam * (1 + tol))
    (h2 : b ≠ 0 → |-g / lam - npSign b| < tol) : -(tol * lam * (|z| + |b|)) ≤ g * (z - b) + lam * (|z| - |b|) := by
  have hz : -(lam * (1 + tol) * |z|) ≤ g * z := by
    have := neg_abs_le (g * z)
    rw [abs_mul] at this
    have := mul_le_mul_of_nonneg_right h1 (abs_nonneg z)
    linarith
  by_cases hb : b = 0
  · subst hb; rw [abs_zero]; nlinarith
  · have h3 := (abs_lt.1 (h2 hb))
    have e : g * b = -(lam * ((-g / lam - npSign b) * b + |b|)) := by
      rw [sub_mul, npSign_mul]; field_simp; ring
    have h4 : -(tol * |b|) ≤ (-g / lam - npSign b) * b := by
      have := neg_abs_le ((-g / lam - npSign b) * b)
      rw [abs_mul] at this
      have := mul_le_mul_of_nonneg_right (h2 hb).le (abs_nonneg b)
      linarith
    have h5 := mul_le_mul_of_nonneg_left h4 hl.le
    nlinarith

private lemma term_group {ι : Type*} [Fintype ι] {g b z : ι → ℝ} {c tol : ℝ} (hc : 0 ≤ c) (h1 : npNorm g ≤ c * (1 + tol))
    (h2 : npNorm b ≠ 0 → c * (1 - tol) ≤ npNorm g ∧ ∑ i, g i * b i = -(npNorm g * npNorm b)) :
    -(tol * (c * (npNorm z + npNorm b))) ≤ ∑ i, g i * (z i - b i) + c * (npNorm z - npNorm b) := by
  have hz := block_small (d := z) h1
  simp only [mul_sub, Finset.sum_sub_distrib]
  by_cases hb : npNorm b = 0
  · have h0 := npNorm_eq_zero hb
    have : ∑ i, g i * b i = 0 := Finset.sum_eq_zero fun i _ => by rw [h0 i, mul_zero]
    rw [this, hb]
    nlinarith
  · obtain ⟨h3, h4⟩ := h2 hb
    rw [h4]
    have := mul_le_mul_of_nonneg_right h3 (npNorm_nonneg b)
    nlinarith

/-- **C81** What an accepted vector satisfies: if no coordinate is reported as failing, and in addition the gradient vanishes
at the unpenalised coordinates and is opposite to the solution on every active group, then the vector minimises the
penalised objective up to the stated slack.  (Partial: the two additional conditions are not checked by the program, see
`C81_unpenalized_fails`, `C81_group_direction_fails`.) -/
theorem C81_suboptimal_partial {f : (Fin p → ℝ) → ℝ} {grad : (Fin p → ℝ) → Fin p → ℝ} (hf : ConvexWithGradient f grad)
    {κ : Fin p → Kind q} {w : Fin q → ℝ} (hw : ∀ j, 0 ≤ w j) {lam tol : ℝ} (hl : 0 < lam) {b : Fin p → ℝ}
    (hb : b ∈ mixedDomain κ) (hchk : ∀ i, MixedKKT.checkKKT κ w (grad b) b lam tol i = false)
    (hun : ∀ i, κ i = .unpenalized → grad b i = 0)
    (hdir : ∀ j, kindNorm κ b j ≠ 0 →
      ∑ i, (if κ i = .group j then grad b i * b i else 0) = -(kindNorm κ (grad b) j * kindNorm κ b j))
    {z : Fin p → ℝ} (hz : z ∈ mixedDomain κ) :
    mixedObjective f κ w lam b ≤ mixedObjective f κ w lam z + tol * lam * (mixedPenalty κ w z + mixedPenalty κ w b) +
      ∑ i, (if κ i = .nonnegative then tol * lam * z i + 1 / 100 * b i else 0) := by
  have ht := tangent hf b z
  have hs := lin_by_kind κ w (grad b) b z lam
  have hc := fun i => (check_false_iff κ w (grad b) b hl i).1 (hchk i)
  have h1 : ∀ i, -(tol * lam * (coordPen (κ i) (z i) + coordPen (κ i) (b i)) +
        if κ i = .nonnegative then tol * lam * z i + 1 / 100 * b i else 0) ≤
      ng (κ i) (grad b i * (z i - b i) + lam * (coordPen (κ i) (z i) - coordPen (κ i) (b i))) := by
    intro i
    obtain ⟨c1, c2, c3, c4⟩ := hc i
    rcases hk : κ i with _ | _ | _ | _ | j
    · have := hun i hk
      simp [ng, coordPen, this]
    · obtain ⟨d1, d2⟩ := c1 hk
      have := term_l1 (z := z i) hl d1 d2
      simp only [ng, coordPen, reduceCtorEq, if_false, add_zero]
      exact this
    · obtain ⟨d1, d2⟩ := c2 hk
      have hz0 := hz i (.inl hk)
      have hb0 := hb i (.inl hk)
      simp only [ng, coordPen, reduceCtorEq, if_false, add_zero]
      have e1 := mul_le_mul_of_nonneg_right d1 hz0
      by_cases hbz : b i = 0
      · rw [hbz]; nlinarith
      · have d3 := (abs_lt.1 (d2 hbz)).1
        have d4 : lam * (1 - tol) ≤ -grad b i := by
          have : 1 - tol < -grad b i / lam := by linarith
          rw [lt_div_iff₀ hl] at this
          linarith
        have := mul_le_mul_of_nonneg_right d4 hb0
        nlinarith
    · obtain ⟨d1, d2⟩ := c3 hk
      have hz0 := hz i (.inr hk)
      have hb0 := hb i (.inr hk)
      simp only [ng, coordPen, if_true, add_zero, mul_zero, zero_add, sub_self]
      have e1 := mul_le_mul_of_nonneg_right d1 hz0
      by_cases hbz : b i = 0
      · rw [hbz]; nlinarith
      · have := mul_le_mul_of_nonneg_right (d2 hbz) hb0
        nlinarith
    · simp [ng, coordPen]
  have h2 : ∀ j, -(tol * (lam * w j * (npNorm (rk κ j z) + npNorm (rk κ j b)))) ≤
      ∑ i, rk κ j (grad b) i * (rk κ j z i - rk κ j b i) + lam * w j * (npNorm (rk κ j z) - npNorm (rk κ j b)) := by
    intro j
    by_cases hj : ∃ i, κ i = .group j
    · obtain ⟨i, hi⟩ := hj
      obtain ⟨d1, d2⟩ := (hc i).2.2.2 j hi
      refine term_group (mul_nonneg hl.le (hw j)) (by linarith) fun hne => ⟨by linarith [d2 hne], ?_⟩
      have := hdir j (by rwa [kindNorm_eq])
      rwa [rk_mul, kindNorm_eq, kindNorm_eq] at this
    · have h0 : ∀ x : Fin p → ℝ, rk κ j x = fun _ => 0 := by
        intro x; funext i; unfold rk; rw [if_neg (fun h => hj ⟨i, h⟩)]
      simp only [h0, npNorm_zero]
      simp
  have h3 := Finset.sum_le_sum fun i (_ : i ∈ Finset.univ) => h1 i
  have h4 := Finset.sum_le_sum fun j (_ : j ∈ Finset.univ) => h2 j
  rw [Finset.sum_neg_distrib, Finset.sum_add_distrib, ← Finset.mul_sum, Finset.sum_add_distrib] at h3
  rw [Finset.sum_neg_distrib] at h4
  have h5 : ∑ j, tol * (lam * w j * (npNorm (rk κ j z) + npNorm (rk κ j b))) =
      tol * lam * (∑ j, w j * npNorm (rk κ j z) + ∑ j, w j * npNorm (rk κ j b)) := by
    rw [← Finset.sum_add_distrib, Finset.mul_sum]
    exact Finset.sum_congr rfl fun j _ => by ring
  rw [h5] at h4
  have e1 := mixedPenalty_eq κ w z
  have e2 := mixedPenalty_eq κ w b
  unfold mixedObjective
  have h6 : tol * lam * (mixedPenalty κ w z + mixedPenalty κ w b) =
      tol * lam * (∑ i, coordPen (κ i) (z i) + ∑ i, coordPen (κ i) (b i)) +
      tol * lam * (∑ j, w j * npNorm (rk κ j z) + ∑ j, w j * npNorm (rk κ j b)) := by
    rw [e1, e2]; ring
  linarith

/-- The hypotheses of `C81_suboptimal_partial` are met with an active group: `f = ½‖x - (3, 4)‖²`, one group of weight one,
`lagrange = 1`, at `b = (12/5, 16/5)`. -/
example : (∀ i, MixedKKT.checkKKT (fun _ : Fin 2 => Kind.group (0 : Fin 1)) (fun _ => 1) ![-3/5, -4/5]
      ![12/5, 16/5] 1 (1 / 100) i = false) ∧
    IsGradientAt (lsqLoss ![3, 4]) ![-3/5, -4/5] ![12/5, 16/5] ∧
    kindNorm (fun _ : Fin 2 => Kind.group (0 : Fin 1)) ![12/5, 16/5] 0 ≠ 0 ∧
    ∑ i : Fin 2, (if Kind.group (0 : Fin 1) = Kind.group 0 then (![-3/5, -4/5] : Fin 2 → ℝ) i * (![12/5, 16/5] : Fin 2 → ℝ) i else 0) =
      -(kindNorm (fun _ : Fin 2 => Kind.group (0 : Fin 1)) ![-3/5, -4/5] 0 *
        kindNorm (fun _ : Fin 2 => Kind.group (0 : Fin 1)) ![12/5, 16/5] 0) := by
  have hn : ∀ x : Fin 2 → ℝ, npNorm (rk (fun _ : Fin 2 => Kind.group (0 : Fin 1)) 0 x) = Real.sqrt (x 0 ^ 2 + x 1 ^ 2) := by
    intro x; unfold npNorm rk; simp [Fin.sum_univ_two]
  have h1 : Real.sqrt ((-3 / 5 : ℝ) ^ 2 + (-4 / 5) ^ 2) = 1 := by
    rw [show ((-3 / 5 : ℝ) ^ 2 + (-4 / 5) ^ 2) = 1 by norm_num, Real.sqrt_one]
  have h2 : Real.sqrt ((12 / 5 : ℝ) ^ 2 + (16 / 5) ^ 2) = 4 := by
    rw [show ((12 / 5 : ℝ) ^ 2 + (16 / 5) ^ 2) = 4 ^ 2 by norm_num, Real.sqrt_sq (by norm_num)]
  refine ⟨?_, ?_, ?_, ?_⟩
  · intro i
    rw [check_false_iff _ _ _ _ one_pos]
    refine ⟨by simp, by simp, by simp, fun j _ => ?_⟩
    have hj : j = 0 := Subsingleton.elim _ _
    subst hj
    rw [hn]
    simp only [Matrix.cons_val_zero, Matrix.cons_val_one]
    rw [h1]
    norm_num
  · have := (lsqLoss_convex ![3, 4]).gradient ![12/5, 16/5]
    have e : (fun i => (![12/5, 16/5] : Fin 2 → ℝ) i - (![3, 4] : Fin 2 → ℝ) i) = ![-3/5, -4/5] := by
      funext i; fin_cases i <;> norm_num
    rwa [e] at this
  · rw [kindNorm_eq, hn]
    simp only [Matrix.cons_val_zero, Matrix.cons_val_one]
    rw [h2]; norm_num
  · rw [kindNorm_eq, kindNorm_eq, hn, hn]
    simp only [Matrix.cons_val_zero, Matrix.cons_val_one]
    rw [h1, h2]
    simp [Fin.sum_univ_two]
    norm_num

/-- **C81** Unpenalised coordinates are never checked: for a problem with one unpenalised coordinate every vector is
accepted, however far its objective is from the minimum. -/
theorem C81_unpenalized_fails (lam tol M : ℝ) : ∃ b : Fin 1 → ℝ,
    (∀ i, MixedKKT.checkKKT (fun _ => Kind.unpenalized (q := 0)) (fun j => j.elim0) (fun i => b i - 0) b lam tol i = false) ∧
    IsGradientAt (lsqLoss fun _ => 0) (fun i => b i - 0) b ∧
    mixedObjective (lsqLoss fun _ : Fin 1 => 0) (fun _ => Kind.unpenalized (q := 0)) (fun j => j.elim0) lam (fun _ => 0) + M ≤
      mixedObjective (lsqLoss fun _ => 0) (fun _ => Kind.unpenalized (q := 0)) (fun j => j.elim0) lam b := by
  refine ⟨fun _ => 1 + |M|, ?_, (lsqLoss_convex _).gradient _, ?_⟩
  · intro i; simp [MixedKKT.checkKKT, MixedKKT.failing]
  · simp only [mixedObjective, mixedPenalty, lsqLoss]
    simp
    nlinarith [le_abs_self M, abs_nonneg M]

/-- **C81** The direction of the gradient on an active group is never checked: for `f = ½x²` and one group, `x = 1` is
accepted at `lagrange = 1` although the gradient there points away from the subgradient; the minimum is at zero. -/
theorem C81_group_direction_fails {tol : ℝ} (ht : 0 ≤ tol) :
    (∀ i, MixedKKT.checkKKT (fun _ : Fin 1 => Kind.group (0 : Fin 1)) (fun _ => 1) (fun _ => 1) (fun _ => 1) 1 tol i = false) ∧
    IsGradientAt (lsqLoss fun _ => 0) (fun _ : Fin 1 => 1) (fun _ => 1) ∧
    mixedObjective (lsqLoss fun _ => 0) (fun _ : Fin 1 => Kind.group (0 : Fin 1)) (fun _ => 1) 1 (fun _ => 0) + 3 / 2 =
      mixedObjective (lsqLoss fun _ => 0) (fun _ : Fin 1 => Kind.group (0 : Fin 1)) (fun _ => 1) 1 (fun _ => 1) := by
  refine ⟨fun i => ?_, ?_, ?_⟩
  · rw [check_false_iff _ _ _ _ one_pos]
    refine ⟨by simp, by simp, by simp, fun j _ => ?_⟩
    have hj : j = 0 := Subsingleton.elim _ _
    subst hj
    have : npNorm (rk (fun _ : Fin 1 => Kind.group (0 : Fin 1)) 0 fun _ => 1) = 1 := by
      unfold npNorm rk; simp
    rw [this]
    constructor
    · linarith
    · intro _; linarith
  · have := (lsqLoss_convex (fun _ : Fin 1 => (0:ℝ))).gradient (fun _ => 1)
    simpa using this
  · simp only [mixedObjective, mixedPenalty, lsqLoss, kindNorm]
    simp
    norm_num

/-- **C81** The screening rule is safe when the gradient moves with at most the assumed slope and no group weighs more than
one: every coordinate it discards is zero in every solution at the new lagrange parameter.  (Partial: for groups of larger
weight see `C81_strong_group_fails`.) -/
theorem C81_strong_rule_partial {f : (Fin p → ℝ) → ℝ} {κ : Fin p → Kind q} {w : Fin q → ℝ} (hw : ∀ j, 0 ≤ w j)
    (hw1 : ∀ j, w j ≤ 1) {lamCur lamNew slope : ℝ} (hl : 0 < lamNew) (hle : lamNew ≤ lamCur) (hs : 0 ≤ slope)
    {g gNew bNew : Fin p → ℝ} (hg : IsGradientAt f gNew bNew)
    (hb : Minimises (mixedObjective f κ w lamNew) (mixedDomain κ) bNew)
    (hslope : ∀ i, |gNew i - g i| ≤ slope * (lamCur - lamNew))
    (hgslope : ∀ j, kindNorm κ (fun i => gNew i - g i) j ≤ slope * (w j * (lamCur - lamNew)))
    (i : Fin p) (h : MixedKKT.strongSet κ w g lamCur lamNew slope i = false) : bNew i = 0 := by
  obtain ⟨-, h1, h2, h3, h4⟩ := kkt_of_min hw hl.le hg hb
  have hd := abs_le.1 (hslope i)
  unfold MixedKKT.strongSet at h
  rcases hk : κ i with _ | _ | _ | _ | j <;> rw [hk] at h
  · simp at h
  · simp only [Bool.not_eq_false', decide_eq_true_eq] at h
    obtain ⟨a1, a2⟩ := h1 i hk
    have h5 : |gNew i| < lamNew := by
      have := abs_sub_abs_le_abs_sub (gNew i) (g i)
      have := hslope i
      linarith
    by_contra hb0
    have h6 := abs_pos.2 hb0
    have h7 := neg_abs_le (gNew i * bNew i)
    rw [abs_mul, a2] at h7
    nlinarith
  · simp only [Bool.not_eq_false', decide_eq_true_eq] at h
    obtain ⟨a0, a1, a2⟩ := h2 i hk
    have h5 : 0 < gNew i + lamNew := by linarith
    rcases mul_eq_zero.1 a2 with h6 | h6
    · linarith
    · exact h6
  · simp only [Bool.not_eq_false', decide_eq_true_eq] at h
    obtain ⟨a0, a1, a2⟩ := h3 i hk
    rw [abs_sub_comm, abs_of_nonneg (by linarith : 0 ≤ lamCur - lamNew)] at h
    have h5 : 0 < gNew i := by nlinarith
    rcases mul_eq_zero.1 a2 with h6 | h6
    · linarith
    · exact h6
  · simp only [Bool.not_eq_false', decide_eq_true_eq, normsCython_eq] at h
    obtain ⟨a1, a2⟩ := h4 j
    have h5 := hgslope j
    rw [kindNorm_eq] at h5
    have h6 : npNorm (rk κ j gNew) ≤ npNorm (rk κ j g) + npNorm (rk κ j fun i => gNew i - g i) := by
      have := npNorm_add_le (rk κ j g) (rk κ j fun i => gNew i - g i)
      have e : (fun i => rk κ j g i + rk κ j (fun i => gNew i - g i) i) = rk κ j gNew := by
        funext i; rw [rk_sub]; ring
      rwa [e] at this
    have hc : 0 ≤ slope * lamCur := mul_nonneg hs (by linarith)
    have h7 : npNorm (rk κ j gNew) < lamNew * w j := by nlinarith [hw1 j]
    have h8 : npNorm (rk κ j bNew) = 0 := by
      by_contra hne
      have hn : 0 < npNorm (rk κ j bNew) := lt_of_le_of_ne (npNorm_nonneg _) (Ne.symm hne)
      have := block_small (d := rk κ j bNew) (le_refl (npNorm (rk κ j gNew)))
      rw [a2] at this
      nlinarith
    have := npNorm_eq_zero h8 i
    unfold rk at this
    rwa [if_pos hk] at this

/-- **C81** The screening rule discards all it can: a coordinate that is not in a group is discarded exactly when every
gradient entry within the assumed slope satisfies the strict optimality condition of a zero coefficient at the new lagrange
parameter. -/
theorem C81_strong_complete {κ : Fin p → Kind q} (w : Fin q → ℝ) {lamCur lamNew slope : ℝ}
    (hle : lamNew ≤ lamCur) (hs : 0 ≤ slope) (g : Fin p → ℝ) (i : Fin p) :
    (κ i = .l1 → (MixedKKT.strongSet κ w g lamCur lamNew slope i = false ↔
      ∀ t, |t - g i| ≤ slope * (lamCur - lamNew) → |t| < lamNew)) ∧
    (κ i = .positivePart → (MixedKKT.strongSet κ w g lamCur lamNew slope i = false ↔
      ∀ t, |t - g i| ≤ slope * (lamCur - lamNew) → -t < lamNew)) ∧
    (κ i = .nonnegative → (MixedKKT.strongSet κ w g lamCur lamNew slope i = false ↔
      ∀ t, |t - g i| ≤ slope * (lamCur - lamNew) → 0 < t)) := by
  have hd : 0 ≤ slope * (lamCur - lamNew) := mul_nonneg hs (by linarith)
  refine ⟨fun hk => ?_, fun hk => ?_, fun hk => ?_⟩ <;>
    simp only [MixedKKT.strongSet, hk, Bool.not_eq_false', decide_eq_true_eq]
  · constructor
    · intro h t ht
      have := abs_sub_abs_le_abs_sub t (g i)
      linarith
    · intro h
      rcases le_total 0 (g i) with h0 | h0
      · have := h (g i + slope * (lamCur - lamNew)) (by rw [add_sub_cancel_left, abs_of_nonneg hd])
        rw [abs_of_nonneg (by linarith)] at this
        rw [abs_of_nonneg h0]; linarith
      · have := h (g i - slope * (lamCur - lamNew)) (by rw [sub_sub_cancel_left, abs_neg, abs_of_nonneg hd])
        rw [abs_of_nonpos (by linarith)] at this
        rw [abs_of_nonpos h0]; linarith
  · constructor
    · intro h t ht
      have := abs_le.1 ht
      linarith
    · intro h
      have := h (g i - slope * (lamCur - lamNew)) (by rw [sub_sub_cancel_left, abs_neg, abs_of_nonneg hd])
      linarith
  · rw [abs_sub_comm, abs_of_nonneg (by linarith : 0 ≤ lamCur - lamNew)]
    constructor
    · intro h t ht
      have := abs_le.1 ht
      linarith
    · intro h
      have := h (g i - slope * (lamCur - lamNew)) (by rw [sub_sub_cancel_left, abs_neg, abs_of_nonneg hd])
      linarith

/-- a nonnegative coordinate with gradient 2 is discarded, one with gradient -2 is kept -/
example : MixedKKT.strongSet (fun _ : Fin 2 => Kind.nonnegative (q := 0)) (fun j => j.elim0) ![2, -2] 1 (1 / 2) 1 0 = false ∧
    MixedKKT.strongSet (fun _ : Fin 2 => Kind.nonnegative (q := 0)) (fun j => j.elim0) ![2, -2] 1 (1 / 2) 1 1 = true := by
  have h := fun i => (C81_strong_complete (κ := fun _ : Fin 2 => Kind.nonnegative (q := 0)) (fun j => j.elim0)
    (lamCur := 1) (lamNew := 1 / 2) (slope := 1) (by norm_num) (by norm_num) ![2, -2] i).2.2 rfl
  constructor
  · refine (h 0).2 fun t ht => ?_
    have := abs_le.1 ht
    simp at this
    linarith [this.1]
  · rw [← Bool.not_eq_false, h 1]
    intro hc
    have := hc (-2) (by norm_num)
    linarith

/-- The hypotheses of `C81_strong_rule_partial` are met, with a discarded coordinate: `f = ½(x - 1/4)²`, an l1 coordinate,
`lagrange` from 1 to 9/10. -/
example : MixedKKT.strongSet (fun _ : Fin 1 => Kind.l1 (q := 0)) (fun j => j.elim0) (fun _ => -1 / 4) 1 (9 / 10) 1 0 = false ∧
    Minimises (mixedObjective (lsqLoss fun _ => 1 / 4) (fun _ : Fin 1 => Kind.l1 (q := 0)) (fun j => j.elim0) (9 / 10))
      (mixedDomain fun _ => Kind.l1 (q := 0)) (fun _ => 0) := by
  constructor
  · simp only [MixedKKT.strongSet]
    norm_num [abs_lt]
  · refine ⟨fun i hi => le_rfl, fun u _ => ?_⟩
    simp only [mixedObjective, mixedPenalty, lsqLoss]
    simp
    nlinarith [le_abs_self (u 0), sq_nonneg (u 0), abs_nonneg (u 0)]

/-- **C81** With a group of weight two the rule is not safe, even when the gradient moves with the assumed slope: `f = ½(x -
y)²` with `y = 1.9`, one group of one coordinate and weight two.  At `lagrange = 1` the solution is zero with gradient
`-1.9`; going to `lagrange = 0.9` the group is discarded, `1.9 < 2·2·0.9 - 1`, although the solution there is `0.1`. -/
theorem C81_strong_group_fails :
    let κ : Fin 1 → Kind 1 := fun _ => .group 0
    let w : Fin 1 → ℝ := fun _ => 2
    let f := lsqLoss (fun _ : Fin 1 => (19 / 10 : ℝ))
    Minimises (mixedObjective f κ w 1) (mixedDomain κ) (fun _ => 0) ∧
    IsGradientAt f (fun _ => -(19 / 10)) (fun _ => 0) ∧
    Minimises (mixedObjective f κ w (9 / 10)) (mixedDomain κ) (fun _ => 1 / 10) ∧
    IsGradientAt f (fun _ => -(18 / 10)) (fun _ => 1 / 10) ∧
    MixedKKT.strongSet κ w (fun _ => -(19 / 10)) 1 (9 / 10) 1 0 = false := by
  have hn : ∀ x : Fin 1 → ℝ, npNorm (rk (fun _ : Fin 1 => Kind.group (0 : Fin 1)) 0 x) = |x 0| := by
    intro x; unfold npNorm rk; simp [Real.sqrt_sq_eq_abs]
  have ho : ∀ (lam : ℝ) (x : Fin 1 → ℝ), mixedObjective (lsqLoss (fun _ : Fin 1 => (19 / 10 : ℝ)))
      (fun _ => Kind.group (0 : Fin 1)) (fun _ => 2) lam x = (x 0 - 19 / 10) ^ 2 / 2 + lam * (2 * |x 0|) := by
    intro lam x
    unfold mixedObjective
    rw [mixedPenalty_eq]
    simp [hn, coordPen, lsqLoss]
  refine ⟨⟨fun i hi => le_rfl, fun u _ => ?_⟩, ?_, ⟨fun i hi => by norm_num, fun u _ => ?_⟩, ?_, ?_⟩
  · rw [ho, ho]
    rw [abs_zero]
    nlinarith [le_abs_self (u 0), sq_nonneg (u 0), abs_nonneg (u 0)]
  · have := (lsqLoss_convex (fun _ : Fin 1 => (19 / 10 : ℝ))).gradient (fun _ => 0)
    simpa using this
  · rw [ho, ho]
    rw [abs_of_pos (by norm_num : (0:ℝ) < 1 / 10)]
    nlinarith [le_abs_self (u 0), sq_nonneg (u 0 - 1 / 10)]
  · have := (lsqLoss_convex (fun _ : Fin 1 => (19 / 10 : ℝ))).gradient (fun _ => 1 / 10)
    have e : (fun i : Fin 1 => (1 / 10 : ℝ) - 19 / 10) = fun _ => -(18 / 10) := by funext i; norm_num
    rwa [e] at this
  · simp only [MixedKKT.strongSet, normsCython_eq, hn]
    rw [abs_neg, abs_of_pos (by norm_num : (0:ℝ) < 19 / 10)]
    norm_num

/-- **C81** The rule keeps every unpenalised coordinate. -/
theorem C81_strong_keeps_unpenalized {κ : Fin p → Kind q} (w : Fin q → ℝ) (g : Fin p → ℝ) (lamCur lamNew slope : ℝ) {i : Fin p}
    (hi : κ i = .unpenalized) : MixedKKT.strongSet κ w g lamCur lamNew slope i = true := by
  simp [MixedKKT.strongSet, hi]

/-- **C81** The screening rule of the group lasso scales every group by its own weight: if the gradient of every group moves
by at most `slope · weight` times the change of the lagrange parameter, a discarded group has a gradient of norm at most
`weight · lagrange`, and a solution of the new problem is zero on it unless its weight is zero. -/
theorem C81_group_strong_rule {f : (Fin p → ℝ) → ℝ} (grp : Fin p → Fin q) {w : Fin q → ℝ} (hw : ∀ j, 0 ≤ w j)
    {lamCur lamNew slope : ℝ} (hl : 0 < lamNew) {g gNew bNew : Fin p → ℝ} (hg : IsGradientAt f gNew bNew)
    (hb : Minimises (fun z => f z + lamNew * groupNorm grp w z) Set.univ bNew)
    (hslope : ∀ j, blockNorm grp (fun i => gNew i - g i) j ≤ slope * (w j * (lamCur - lamNew)))
    (j : Fin q) (h : MixedKKT.groupStrongSet grp w lamCur lamNew g slope j = false) (i : Fin p) (hi : grp i = j) :
    0 < w j → bNew i = 0 := by
  intro hwj
  have hpen : ∀ z, mixedPenalty (GroupLasso.kind grp) w z = groupNorm grp w z := by
    intro z
    rw [mixedPenalty_eq]
    unfold groupNorm
    simp only [blockNorm_eq]
    have : ∑ i, coordPen (GroupLasso.kind grp i) (z i) = 0 := Finset.sum_eq_zero fun i _ => rfl
    rw [this, zero_add]
  have hdom : mixedDomain (GroupLasso.kind grp) = Set.univ := by
    ext z
    refine ⟨fun _ => trivial, fun _ i hi => ?_⟩
    simp [GroupLasso.kind] at hi
  have hb' : Minimises (mixedObjective f (GroupLasso.kind grp) w lamNew) (mixedDomain (GroupLasso.kind grp)) bNew := by
    rw [hdom]
    refine ⟨trivial, fun u hu => ?_⟩
    unfold mixedObjective
    rw [hpen, hpen]
    exact hb.2 u hu
  obtain ⟨-, -, -, -, h4⟩ := kkt_of_min hw hl.le hg hb'
  obtain ⟨a1, a2⟩ := h4 j
  unfold MixedKKT.groupStrongSet GroupPath.dualTerm at h
  rw [decide_eq_false_iff_not, if_pos hwj, ge_iff_le, WithTop.coe_le_coe, not_le, div_lt_iff₀ hwj, ← blockNorm_sel,
    blockNorm_eq] at h
  have h5 := hslope j
  rw [blockNorm_eq] at h5
  set κ := GroupLasso.kind grp with hκ
  have h6 : npNorm (rk κ j gNew) ≤ npNorm (rk κ j g) + npNorm (rk κ j fun i => gNew i - g i) := by
    have := npNorm_add_le (rk κ j g) (rk κ j fun i => gNew i - g i)
    have e : (fun i => rk κ j g i + rk κ j (fun i => gNew i - g i) i) = rk κ j gNew := by
      funext i; rw [rk_sub]; ring
    rwa [e] at this
  have h7 : npNorm (rk κ j gNew) < lamNew * w j := by nlinarith
  have h8 : npNorm (rk κ j bNew) = 0 := by
    by_contra hne
    have hn : 0 < npNorm (rk κ j bNew) := lt_of_le_of_ne (npNorm_nonneg _) (Ne.symm hne)
    have := block_small (d := rk κ j bNew) (le_refl (npNorm (rk κ j gNew)))
    rw [a2] at this
    nlinarith
  have := npNorm_eq_zero h8 i
  unfold rk at this
  rwa [if_pos (by rw [hκ, GroupLasso.kind, hi])] at this

/-- The screening of `C81_group_strong_rule` does discard groups: weight two, gradient `1`, `lagrange` from 1 to 9/10. -/
example : MixedKKT.groupStrongSet (fun _ : Fin 1 => (0 : Fin 1)) (fun _ => 2) 1 (9 / 10) (fun _ => -1) 1 0 = false := by
  unfold MixedKKT.groupStrongSet GroupPath.dualTerm
  rw [decide_eq_false_iff_not, if_pos (by norm_num), ge_iff_le, WithTop.coe_le_coe, not_le, ← blockNorm_sel]
  have : blockNorm (fun _ : Fin 1 => (0 : Fin 1)) (fun _ => -1) 0 = 1 := by simp [blockNorm]
  rw [this]; norm_num

private lemma foldl_max_le {α : Type*} (l : List α) (P : α → Prop) [DecidablePred P] (F : α → WithBot ℝ) (v c : WithBot ℝ) :
    l.foldl (fun v i => if P i then max v (F i) else v) v ≤ c ↔ v ≤ c ∧ ∀ i ∈ l, P i → F i ≤ c := by
  induction l generalizing v with
  | nil => simp
  | cons a l ih =>
    rw [List.foldl_cons, ih]
    by_cases h : P a
    · simp [h, and_assoc]
    · simp [h]

private lemma dual_le_iff (κ : Fin p → Kind q) (w : Fin q → ℝ) (x : Fin p → ℝ) (lam : ℝ) :
    MixedKKT.dualSeminorm κ w x ≤ (lam : WithBot ℝ) ↔
      (∀ i, κ i = .l1 → |x i| ≤ lam) ∧ (∀ i, κ i = .positivePart → max (x i) 0 ≤ lam) ∧
      (∀ j, 0 < w j → npNorm (rk κ j x) ≤ lam * w j) := by
  unfold MixedKKT.dualSeminorm
  simp only [foldl_max_le, bot_le, true_and, List.mem_finRange, forall_const, WithBot.coe_le_coe, normsCython_eq, and_assoc,
    gt_iff_lt]
  refine and_congr Iff.rfl (and_congr Iff.rfl (forall_congr' fun j => ?_))
  constructor
  · intro h hj; have := h hj; rwa [div_le_iff₀ hj] at this
  · intro h hj; rw [div_le_iff₀ hj]; exact h hj

/-- **C81** Without positive part coordinates and with positive group weights the value of `conjugate.seminorm` at the
gradient of the null solution (the solution with all penalised coordinates zero) is the exact threshold: the null solution
solves the penalised problem at a lagrange parameter if and only if that parameter is at least this value.  (Partial: for
positive part coordinates see `C81_lagrange_max_fails`.) -/
theorem C81_lagrange_max_partial {f : (Fin p → ℝ) → ℝ} {grad : (Fin p → ℝ) → Fin p → ℝ} (hf : ConvexWithGradient f grad)
    {κ : Fin p → Kind q} (hk : ∀ i, κ i ≠ .positivePart) {w : Fin q → ℝ} (hw : ∀ j, 0 < w j) {b : Fin p → ℝ}
    (hb : Minimises f (mixedNull κ) b) {lam : ℝ} (hl : 0 ≤ lam) :
    MixedKKT.dualSeminorm κ w (grad b) ≤ (lam : WithBot ℝ) ↔ Minimises (mixedObjective f κ w lam) (mixedDomain κ) b := by
  rw [dual_le_iff]
  constructor
  · rintro ⟨h1, -, h3⟩
    refine ⟨hb.1.1, fun z hz => ?_⟩
    have ht := tangent hf b z
    -- the null problem
    set z' : Fin p → ℝ := fun i => if κ i = .unpenalized ∨ κ i = .nonnegative then z i else 0 with hz'
    have hz'm : z' ∈ mixedNull κ := by
      refine ⟨fun i hi => ?_, fun i => ?_⟩
      · rw [hz']; dsimp only; split_ifs
        · exact hz i hi
        · exact le_rfl
      · by_cases h : κ i = .unpenalized ∨ κ i = .nonnegative
        · tauto
        · right; right; rw [hz']; dsimp only; rw [if_neg h]
    have hnull : 0 ≤ dot (grad b) (fun i => z' i - b i) := by
      refine dir_ge (hf.gradient b) _ 0 fun t ht0 ht1 => ?_
      have := hb.2 (fun i => b i + t * (z' i - b i)) ⟨fun i hi => by
          have a1 := hb.1.1 i hi
          have a2 := hz'm.1 i hi
          dsimp only
          have : b i + t * (z' i - b i) = (1 - t) * b i + t * z' i := by ring
          rw [this]
          exact add_nonneg (mul_nonneg (by linarith) a1) (mul_nonneg ht0.le a2), fun i => by
          rcases hb.1.2 i with h | h | h
          · exact .inl h
          · exact .inr (.inl h)
          · rcases hz'm.2 i with h' | h' | h'
            · exact .inl h'
            · exact .inr (.inl h')
            · right; right; dsimp only; rw [h, h']; ring⟩
      linarith
    have hb0 : ∀ i, ¬ (κ i = .unpenalized ∨ κ i = .nonnegative) → b i = 0 := by
      intro i hi; rcases hb.1.2 i with h | h | h
      · exact absurd (.inl h) hi
      · exact absurd (.inr h) hi
      · exact h
    have hs := lin_by_kind κ w (grad b) b z lam
    have hs' : dot (grad b) (fun i => z' i - b i) ≤
        ∑ i, ng (κ i) (grad b i * (z i - b i) + lam * (coordPen (κ i) (z i) - coordPen (κ i) (b i))) := by
      unfold dot
      refine Finset.sum_le_sum fun i _ => ?_
      rw [hz']
      dsimp only
      rcases hki : κ i with _ | _ | _ | _ | j
      · simp [ng, coordPen]
      · have := hb0 i (by rw [hki]; simp)
        simp only [ng, coordPen, this, reduceCtorEq, or_self, if_false, sub_self, mul_zero, abs_zero, sub_zero]
        have h5 := h1 i hki
        have h6 := neg_abs_le (grad b i * z i)
        rw [abs_mul] at h6
        have := mul_le_mul_of_nonneg_right h5 (abs_nonneg (z i))
        linarith
      · exact absurd hki (hk i)
      · simp [ng, coordPen]
      · have := hb0 i (by rw [hki]; simp)
        simp [ng, this]
    have hg0 : ∀ j, rk κ j b = fun _ => 0 := by
      intro j; funext i; unfold rk
      split_ifs with h
      · exact hb0 i (by rw [h]; simp)
      · rfl
    have hgr : 0 ≤ ∑ j, (∑ i, rk κ j (grad b) i * (rk κ j z i - rk κ j b i) +
        lam * w j * (npNorm (rk κ j z) - npNorm (rk κ j b))) := by
      refine Finset.sum_nonneg fun j _ => ?_
      rw [hg0 j, npNorm_zero]
      simp only [sub_zero]
      have := block_small (d := rk κ j z) (h3 j (hw j))
      linarith
    unfold mixedObjective
    linarith
  · intro hmin
    obtain ⟨-, h1, -, -, h4⟩ := kkt_of_min (fun j => (hw j).le) hl (hf.gradient b) hmin
    exact ⟨fun i hi => (h1 i hi).1, fun i hi => absurd hi (hk i), fun j _ => (h4 j).1⟩

/-- The hypotheses of `C81_lagrange_max_partial` are met and the threshold is not trivial: an unpenalised and an l1
coordinate, `f = ½‖x - (3, 2)‖²`; the null solution is `(3, 0)` and the value is 2. -/
example : Minimises (lsqLoss ![3, 2]) (mixedNull (![.unpenalized, .l1] : Fin 2 → Kind 0)) ![3, 0] ∧
    MixedKKT.dualSeminorm (![.unpenalized, .l1] : Fin 2 → Kind 0) (fun j => j.elim0)
      (fun i => ![3, 0] i - ![3, 2] i) = ((2 : ℝ) : WithBot ℝ) := by
  constructor
  · refine ⟨⟨fun i hi => ?_, fun i => ?_⟩, fun u hu => ?_⟩
    · fin_cases i <;> norm_num
    · fin_cases i <;> simp
    · have h1 : u 1 = 0 := by rcases hu.2 1 with h | h | h <;> simp_all
      simp only [lsqLoss, Fin.sum_univ_two]
      simp [h1]
      positivity
  · unfold MixedKKT.dualSeminorm
    simp [List.finRange_succ]

/-- **C81** With a positive part coordinate the sign is wrong and the value is not a threshold: for `f = ½(x - 1)²` the
gradient of the null solution is `-1`, the value is zero, but at `lagrange = 1/2` the solution is not zero. -/
theorem C81_lagrange_max_fails :
    let κ : Fin 1 → Kind 0 := fun _ => .positivePart
    let w : Fin 0 → ℝ := fun j => j.elim0
    let f := lsqLoss (fun _ : Fin 1 => (1 : ℝ))
    Minimises f (mixedNull κ) (fun _ => 0) ∧ IsGradientAt f (fun _ => -1) (fun _ => 0) ∧
    MixedKKT.dualSeminorm κ w (fun _ => -1) = ((0 : ℝ) : WithBot ℝ) ∧
    ¬ Minimises (mixedObjective f κ w (1 / 2)) (mixedDomain κ) (fun _ => 0) := by
  refine ⟨⟨⟨fun i hi => le_rfl, fun i => by simp⟩, fun u hu => ?_⟩, ?_, ?_, ?_⟩
  · have h1 : u 0 = 0 := by rcases hu.2 0 with h | h | h <;> simp_all
    simp [lsqLoss, h1]
  · have := (lsqLoss_convex (fun _ : Fin 1 => (1 : ℝ))).gradient (fun _ => 0)
    simpa using this
  · unfold MixedKKT.dualSeminorm
    simp [List.finRange_succ]
  · intro h
    have := h.2 (fun _ => 1 / 2) (fun i hi => by norm_num)
    simp only [mixedObjective, mixedPenalty, lsqLoss] at this
    simp at this
    norm_num at this

end Verif.Props
