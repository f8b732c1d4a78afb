import Verif.Spec.Dual
import Verif.Lemmas.SoftThr
import Verif.Lemmas.L2
import Mathlib.Data.Fin.VecNotation

/-!
# C08: the registered conjugate pairs are dual seminorms

For each pair `(h, h*)` of `conjugate_seminorm_pairs` and each parameter `r ≥ 0`, the value of the atom in
lagrange mode with `lagrange = r` is the support function of the constraint set of its partner in bound mode
with `bound = r`: `r * h(x) = max {⟨x,y⟩ : h*(y) ≤ r}`, attained.
-/

set_option linter.unusedSectionVars false
set_option linter.unusedVariables false

namespace Verif.Props
open Verif.Model Verif.Lemmas Verif.Spec

variable {K : Type*} [Field K] [LinearOrder K] [IsStrictOrderedRing K]

private lemma support_of {ι : Type*} [Fintype ι] {C : Set (ι → K)} {f : (ι → K) → K}
    (h1 : ∀ x, ∀ y ∈ C, ∑ i, x i * y i ≤ f x) (h2 : ∀ x, ∃ y ∈ C, ∑ i, x i * y i = f x) :
    IsSupportFn C (fun x => ((f x : K) : WithTop K)) := by
  intro x
  refine ⟨fun v hv => ?_, fun h => absurd h WithTop.coe_ne_top⟩
  rw [WithTop.coe_inj] at hv
  subst hv
  obtain ⟨y, hy, e⟩ := h2 x
  refine ⟨⟨y, hy, e⟩, ?_⟩
  rintro _ ⟨y, hy, rfl⟩
  exact h1 x y hy

private lemma sum_single {n : ℕ} (x : Fin n → K) (k : Fin n) (c : K) :
    ∑ i, x i * (if i = k then c else 0) = x k * c := by simp

/-- (l1norm, supnorm) -/
theorem C08_l1_sup {n : ℕ} (r : K) (hr : 0 ≤ r) :
    IsSupportFn {y : Fin n → K | ∀ i, |y i| ≤ r} (fun x => ((L1.seminorm x r : K) : WithTop K)) := by
  apply support_of
  · intro x y hy
    unfold L1.seminorm
    rw [Finset.mul_sum]
    apply Finset.sum_le_sum; intro i _
    calc x i * y i ≤ |x i * y i| := le_abs_self _
      _ = |y i| * |x i| := by rw [abs_mul, mul_comm]
      _ ≤ r * |x i| := mul_le_mul_of_nonneg_right (hy i) (abs_nonneg _)
  · intro x
    refine ⟨fun i => if 0 ≤ x i then r else -r, ?_, ?_⟩
    · intro i; simp only; split_ifs
      · rw [abs_of_nonneg hr]
      · rw [abs_neg, abs_of_nonneg hr]
    · unfold L1.seminorm
      rw [Finset.mul_sum]
      refine Finset.sum_congr rfl fun i _ => ?_
      dsimp only
      split_ifs with h
      · rw [abs_of_nonneg h]; ring
      · rw [abs_of_neg (not_le.1 h)]; ring

/-- (supnorm, l1norm) -/
theorem C08_sup_l1 {n : ℕ} (r : K) (hr : 0 ≤ r) :
    IsSupportFn {y : Fin (n + 1) → K | ∑ i, |y i| ≤ r} (fun x => ((Sup.seminorm x r : K) : WithTop K)) := by
  apply support_of
  · intro x y hy
    have h0 : 0 ≤ npMax (fun i => |x i|) := le_trans (abs_nonneg (x 0)) (le_maxCoord (fun i => |x i|) 0)
    calc ∑ i, x i * y i ≤ ∑ i, npMax (fun i => |x i|) * |y i| := by
          apply Finset.sum_le_sum; intro i _
          calc x i * y i ≤ |x i * y i| := le_abs_self _
            _ = |x i| * |y i| := abs_mul _ _
            _ ≤ _ := mul_le_mul_of_nonneg_right (le_maxCoord (fun i => |x i|) i) (abs_nonneg _)
      _ = npMax (fun i => |x i|) * ∑ i, |y i| := by rw [Finset.mul_sum]
      _ ≤ npMax (fun i => |x i|) * r := mul_le_mul_of_nonneg_left hy h0
      _ = Sup.seminorm x r := by unfold Sup.seminorm; ring
  · intro x
    obtain ⟨k, hk⟩ := exists_maxCoord (fun i => |x i|)
    refine ⟨fun i => if i = k then (if 0 ≤ x k then r else -r) else 0, ?_, ?_⟩
    · have : ∀ i, |if i = k then (if 0 ≤ x k then r else -r) else 0| = if i = k then r else 0 := by
        intro i; split_ifs
        · exact abs_of_nonneg hr
        · rw [abs_neg, abs_of_nonneg hr]
        · exact abs_zero
      simp [this]
    · rw [sum_single]
      unfold Sup.seminorm
      have : npMax (fun i => |x i|) = |x k| := hk
      rw [this]
      split_ifs with h
      · rw [abs_of_nonneg h]; ring
      · rw [abs_of_neg (not_le.1 h)]; ring

/-- (l2norm, l2norm) -/
theorem C08_l2_l2 {ι : Type*} [Fintype ι] (r : ℝ) (hr : 0 ≤ r) :
    IsSupportFn {y : ι → ℝ | Real.sqrt (∑ i, y i ^ 2) ≤ r} (fun x => ((L2.seminorm x r : ℝ) : WithTop ℝ)) := by
  apply support_of
  · intro x y hy
    unfold L2.seminorm
    have hy' : npNorm y ≤ r := hy
    nlinarith [cauchy x y, mul_le_mul_of_nonneg_left hy' (npNorm_nonneg x)]
  · intro x
    rcases eq_or_ne (npNorm x) 0 with h | h
    · refine ⟨fun _ => 0, ?_, ?_⟩
      · simpa using hr
      · simp [L2.seminorm, h]
    · refine ⟨fun i => r / npNorm x * x i, ?_, ?_⟩
      · have h0 : 0 < npNorm x := lt_of_le_of_ne (npNorm_nonneg x) (Ne.symm h)
        have : npNorm (fun i => r / npNorm x * x i) ≤ r := by
          rw [npNorm_smul, abs_of_nonneg (div_nonneg hr h0.le), div_mul_cancel₀ _ h]
        exact this
      · have : ∑ i, x i * (r / npNorm x * x i) = r / npNorm x * npNorm x ^ 2 := by
          rw [sq_npNorm, Finset.mul_sum]
          exact Finset.sum_congr rfl fun i _ => by ring
        rw [this]; unfold L2.seminorm; field_simp

/-- (positive_part, constrained_max): the constraint set is `0 ≤ y ≤ r`. -/
theorem C08_positive_part {n : ℕ} (r : K) (hr : 0 ≤ r) :
    IsSupportFn {y : Fin n → K | ∀ i, 0 ≤ y i ∧ y i ≤ r} (fun x => ((PosPart.seminorm x r : K) : WithTop K)) := by
  apply support_of
  · intro x y hy
    unfold PosPart.seminorm
    rw [Finset.mul_sum]
    apply Finset.sum_le_sum; intro i _
    obtain ⟨h1, h2⟩ := hy i
    calc x i * y i ≤ max (x i) 0 * y i := mul_le_mul_of_nonneg_right (le_max_left _ _) h1
      _ ≤ max (x i) 0 * r := mul_le_mul_of_nonneg_left h2 (le_max_right _ _)
      _ = r * max (x i) 0 := by ring
  · intro x
    refine ⟨fun i => if 0 ≤ x i then r else 0, ?_, ?_⟩
    · intro i; simp only; split_ifs
      · exact ⟨hr, le_refl _⟩
      · exact ⟨le_refl _, hr⟩
    · unfold PosPart.seminorm
      rw [Finset.mul_sum]
      refine Finset.sum_congr rfl fun i _ => ?_
      dsimp only
      split_ifs with h
      · rw [max_eq_left h]; ring
      · rw [max_eq_right (not_le.1 h).le]; ring

/-- (max_positive_part, constrained_positive_part): the constraint set is `y ≥ 0, Σ y ≤ r`. -/
theorem C08_max_positive_part {n : ℕ} (r : K) (hr : 0 ≤ r) :
    IsSupportFn {y : Fin (n + 1) → K | (∀ i, 0 ≤ y i) ∧ ∑ i, y i ≤ r}
      (fun x => ((MaxPosPart.seminorm x r : K) : WithTop K)) := by
  apply support_of
  · rintro x y ⟨hy, hs⟩
    unfold MaxPosPart.seminorm
    have h0 : 0 ≤ npMax (fun i => max (x i) 0) :=
      le_trans (le_max_right (x 0) 0) (le_maxCoord (fun i => max (x i) 0) 0)
    calc ∑ i, x i * y i ≤ ∑ i, npMax (fun i => max (x i) 0) * y i := by
          apply Finset.sum_le_sum; intro i _
          exact mul_le_mul_of_nonneg_right
            (le_trans (le_max_left _ _) (le_maxCoord (fun i => max (x i) 0) i)) (hy i)
      _ = npMax (fun i => max (x i) 0) * ∑ i, y i := by rw [Finset.mul_sum]
      _ ≤ npMax (fun i => max (x i) 0) * r := mul_le_mul_of_nonneg_left hs h0
  · intro x
    obtain ⟨k, hk⟩ := exists_maxCoord (fun i => max (x i) 0)
    have hk' : npMax (fun i => max (x i) 0) = max (x k) 0 := hk
    refine ⟨fun i => if i = k then (if 0 ≤ x k then r else 0) else 0, ⟨?_, ?_⟩, ?_⟩
    · intro i; simp only; split_ifs <;> first | exact hr | exact le_refl _
    · simp; split_ifs <;> first | exact hr | exact le_refl _
    · rw [sum_single]
      unfold MaxPosPart.seminorm
      rw [hk']
      split_ifs with h
      · rw [max_eq_left h]
      · rw [max_eq_right (not_le.1 h).le]; ring

/-- The true support function of `{y : Σ max(y,0) ≤ r}` is `r * max(x)` on `x ≥ 0` and `+∞` elsewhere. On
`x ≥ 0` this is the value `constrained_max.seminorm` returns with `check_feasibility=False`.
Partial: with `check_feasibility=True` the atom reports `inf` also on feasible points that have a coordinate
below the tolerance, see `C08_constrained_max_fails`. -/
theorem C08_constrained_max_partial {n : ℕ} (r : K) (hr : 0 ≤ r) :
    IsSupportFn {y : Fin (n + 1) → K | ∑ i, max (y i) 0 ≤ r}
      (fun x => if ∀ i, 0 ≤ x i then ConMax.seminorm x r false else ⊤) := by
  intro x
  by_cases hx : ∀ i, 0 ≤ x i
  · simp only [if_pos hx, ConMax.seminorm]
    simp only [or_true, if_true]
    refine ⟨fun v hv => ?_, fun h => absurd h WithTop.coe_ne_top⟩
    rw [WithTop.coe_inj] at hv
    subst hv
    obtain ⟨k, hk⟩ := exists_maxCoord x
    have hk' : npMax x = x k := hk
    refine ⟨⟨fun i => if i = k then r else 0, ?_, ?_⟩, ?_⟩
    · have : ∀ i, max (if i = k then r else 0) 0 = if i = k then r else 0 := by
        intro i; split_ifs
        · exact max_eq_left hr
        · exact max_self _
      simp [this]
    · simp only [dot]; rw [sum_single, hk']; ring
    · rintro _ ⟨y, hy, rfl⟩
      have h0 : 0 ≤ npMax x := le_trans (hx 0) (le_maxCoord x 0)
      simp only [dot]
      calc ∑ i, x i * y i ≤ ∑ i, npMax x * max (y i) 0 := by
            apply Finset.sum_le_sum; intro i _
            calc x i * y i ≤ x i * max (y i) 0 := mul_le_mul_of_nonneg_left (le_max_left _ _) (hx i)
              _ ≤ _ := mul_le_mul_of_nonneg_right (le_maxCoord x i) (le_max_right _ _)
        _ = npMax x * ∑ i, max (y i) 0 := by rw [Finset.mul_sum]
        _ ≤ npMax x * r := mul_le_mul_of_nonneg_left hy h0
        _ = r * npMax x := by ring
  · simp only [if_neg hx]
    refine ⟨fun v hv => absurd hv.symm WithTop.coe_ne_top, fun _ => ?_⟩
    push Not at hx
    obtain ⟨k, hk⟩ := hx
    rintro ⟨B, hB⟩
    have : x k * (-(|B| + 1) / -x k) ≤ B := by
      apply hB
      refine ⟨fun i => if i = k then (-(|B| + 1) / -x k) else 0, ?_, ?_⟩
      · have hneg : -(|B| + 1) / -x k ≤ 0 := by
          apply div_nonpos_of_nonpos_of_nonneg <;> linarith [abs_nonneg B]
        have : ∀ i, max (if i = k then (-(|B| + 1) / -x k) else 0) 0 = 0 := by
          intro i; split_ifs
          · exact max_eq_right hneg
          · exact max_self _
        simp only [Set.mem_ofPred_eq, this]; simpa using hr
      · simp only [dot]; rw [sum_single]
    have e : x k * (-(|B| + 1) / -x k) = |B| + 1 := by have := hk.ne; field_simp
    rw [e] at this
    linarith [le_abs_self B]

/-- Same for `constrained_positive_part`, partner of `max_positive_part`.
Partial for the same reason, see `C08_constrained_positive_part_fails`. -/
theorem C08_constrained_positive_part_partial {n : ℕ} (r : K) (hr : 0 ≤ r) :
    IsSupportFn {y : Fin n → K | ∀ i, max (y i) 0 ≤ r}
      (fun x => if ∀ i, 0 ≤ x i then ConPosPart.seminorm x r false else ⊤) := by
  intro x
  by_cases hx : ∀ i, 0 ≤ x i
  · simp only [if_pos hx, ConPosPart.seminorm]
    simp only [or_true, if_true]
    refine ⟨fun v hv => ?_, fun h => absurd h WithTop.coe_ne_top⟩
    rw [WithTop.coe_inj] at hv
    subst hv
    refine ⟨⟨fun i => r, ?_, ?_⟩, ?_⟩
    · intro i; exact (max_eq_left hr).le
    · simp only [dot]; rw [Finset.sum_mul]
      exact Finset.sum_congr rfl fun i _ => by rw [max_eq_left (hx i)]
    · rintro _ ⟨y, hy, rfl⟩
      simp only [dot]
      rw [Finset.sum_mul]
      apply Finset.sum_le_sum; intro i _
      rw [max_eq_left (hx i)]
      exact mul_le_mul_of_nonneg_left (le_trans (le_max_left _ _) (hy i)) (hx i)
  · simp only [if_neg hx]
    refine ⟨fun v hv => absurd hv.symm WithTop.coe_ne_top, fun _ => ?_⟩
    push Not at hx
    obtain ⟨k, hk⟩ := hx
    rintro ⟨B, hB⟩
    have : x k * (-(|B| + 1) / -x k) ≤ B := by
      apply hB
      refine ⟨fun i => if i = k then (-(|B| + 1) / -x k) else 0, ?_, ?_⟩
      · have hneg : -(|B| + 1) / -x k ≤ 0 := by
          apply div_nonpos_of_nonpos_of_nonneg <;> linarith [abs_nonneg B]
        intro i
        simp only
        split_ifs
        · rw [max_eq_right hneg]; exact hr
        · rw [max_self]; exact hr
      · simp only [dot]; rw [sum_single]
    have e : x k * (-(|B| + 1) / -x k) = |B| + 1 := by have := hk.ne; field_simp
    rw [e] at this
    linarith [le_abs_self B]

/-- The value with feasibility checking is not the support function: at (0,1) it is `inf`, although the
inner products are bounded by 1. -/
theorem C08_constrained_max_fails :
    ¬ IsSupportFn {y : Fin 2 → ℚ | ∑ i, max (y i) 0 ≤ 1} (fun x => ConMax.seminorm x 1 true) := by
  intro h
  have h1 := (h ![0, 1]).2 (by
    simp only [ConMax.seminorm]
    rw [if_neg]
    simp only [not_or, not_not]
    refine ⟨⟨0, by norm_num [atomTol]⟩, by simp⟩)
  apply h1
  refine ⟨1, ?_⟩
  rintro _ ⟨y, hy, rfl⟩
  simp only [Set.mem_ofPred_eq, Fin.sum_univ_two] at hy
  simp only [dot, Fin.sum_univ_two]
  have := le_max_left (y 1) 0
  have := le_max_right (y 0) 0
  norm_num
  linarith

/-- **C08** fails for `constrained_positive_part`: its penalty is not the support function of the ball of the class listed as
its dual. -/
theorem C08_constrained_positive_part_fails :
    ¬ IsSupportFn {y : Fin 2 → ℚ | ∀ i, max (y i) 0 ≤ 1} (fun x => ConPosPart.seminorm x 1 true) := by
  intro h
  have h1 := (h ![0, 1]).2 (by
    simp only [ConPosPart.seminorm]
    rw [if_neg]
    simp only [not_or, not_not]
    refine ⟨⟨0, by norm_num [atomTol]⟩, by simp⟩)
  apply h1
  refine ⟨1, ?_⟩
  rintro _ ⟨y, hy, rfl⟩
  have := hy 1
  simp only [dot, Fin.sum_univ_two]
  have := le_max_left (y 1) 0
  norm_num
  linarith

/-- the hypotheses `0 ≤ r` are met, the sets are nonempty -/
example : L1.seminorm (![1, -2] : Fin 2 → ℚ) 3 = 9 := by norm_num [L1.seminorm, Fin.sum_univ_two]

end Verif.Props
