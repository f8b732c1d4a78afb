import Verif.Spec.LabelPenalty
import Verif.Spec.Dual
import Mathlib.Analysis.MeanInequalities
import Mathlib.Data.Real.Sign

/-! # Lemmas: the label penalty is the support function of the dual ball -/

set_option linter.unusedSectionVars false
set_option linter.unusedVariables false

namespace Verif.Lemmas
open Verif.Spec

variable {p : ℕ}

lemma mem_groupLabels {lab : Fin p → ℤ} {i : Fin p} :
    lab i ∈ groupLabels lab ↔ lab i ≠ -1 ∧ lab i ≠ -2 ∧ lab i ≠ -3 ∧ lab i ≠ -4 := by
  unfold groupLabels
  simp

lemma groupLabels_reserved {lab : Fin p → ℤ} {g : ℤ} (h : g ∈ groupLabels lab) : g ≠ -1 ∧ g ≠ -2 ∧ g ≠ -3 ∧ g ≠ -4 := by
  unfold groupLabels at h
  exact (Finset.mem_filter.1 h).2

lemma sum_by_label (lab : Fin p → ℤ) (T : Fin p → ℝ) :
    ∑ i, T i = (∑ i, if lab i ∈ groupLabels lab then 0 else T i) +
      ∑ g ∈ groupLabels lab, ∑ i, if lab i = g then T i else 0 := by
  rw [Finset.sum_comm, ← Finset.sum_add_distrib]
  apply Finset.sum_congr rfl
  intro i _
  rw [Finset.sum_ite_eq]
  split_ifs <;> simp

lemma labelNorm_sq (lab : Fin p → ℤ) (z : Fin p → ℝ) (g : ℤ) :
    labelNorm lab z g ^ 2 = ∑ i, if lab i = g then z i ^ 2 else 0 := by
  unfold labelNorm
  rw [Real.sq_sqrt]
  exact Finset.sum_nonneg fun i _ => by split_ifs <;> positivity

lemma labelNorm_nonneg' (lab : Fin p → ℤ) (z : Fin p → ℝ) (g : ℤ) : 0 ≤ labelNorm lab z g := Real.sqrt_nonneg _

lemma labelNorm_zero {lab : Fin p → ℤ} {z : Fin p → ℝ} {g : ℤ} (h : ∀ i, lab i = g → z i = 0) : labelNorm lab z g = 0 := by
  unfold labelNorm
  rw [Finset.sum_eq_zero, Real.sqrt_zero]
  intro i _
  split_ifs with hi
  · rw [h i hi]; norm_num
  · rfl

lemma label_cauchy (lab : Fin p → ℤ) (x z : Fin p → ℝ) (g : ℤ) :
    ∑ i, (if lab i = g then x i * z i else 0) ≤ labelNorm lab x g * labelNorm lab z g := by
  have h := Real.sum_mul_le_sqrt_mul_sqrt Finset.univ (fun i => if lab i = g then x i else 0)
    (fun i => if lab i = g then z i else 0)
  have e1 : ∀ y : Fin p → ℝ, ∑ i, (if lab i = g then y i else 0) ^ 2 = ∑ i, if lab i = g then y i ^ 2 else 0 := by
    intro y; exact Finset.sum_congr rfl fun i _ => by split_ifs <;> simp
  have e2 : ∑ i, (if lab i = g then x i else 0) * (if lab i = g then z i else 0) =
      ∑ i, if lab i = g then x i * z i else 0 := Finset.sum_congr rfl fun i _ => by split_ifs <;> simp
  rw [e1, e1, e2] at h
  exact h

lemma labelNorm_smul (lab : Fin p → ℤ) (z : Fin p → ℝ) (g : ℤ) {t : ℝ} (ht : 0 ≤ t) :
    labelNorm lab (fun i => t * z i) g = t * labelNorm lab z g := by
  unfold labelNorm
  have : (∑ i, if lab i = g then (t * z i) ^ 2 else 0) = t ^ 2 * ∑ i, if lab i = g then z i ^ 2 else 0 := by
    rw [Finset.mul_sum]; exact Finset.sum_congr rfl fun i _ => by split_ifs <;> ring
  rw [this, Real.sqrt_mul (sq_nonneg t), Real.sqrt_sq ht]

lemma labelPenalty_smul (lab : Fin p → ℤ) (W : ℤ → Option ℝ) (z : Fin p → ℝ) {t : ℝ} (ht : 0 ≤ t) :
    labelPenalty lab W (fun i => t * z i) = t * labelPenalty lab W z := by
  unfold labelPenalty
  simp only [labelNorm_smul lab z _ ht]
  rw [mul_add, mul_add, Finset.mul_sum, Finset.mul_sum, Finset.mul_sum]
  congr 1
  · congr 1
    · exact Finset.sum_congr rfl fun i _ => by split_ifs <;> simp [abs_mul, abs_of_nonneg ht]
    · exact Finset.sum_congr rfl fun i _ => by split_ifs <;> simp
  · exact Finset.sum_congr rfl fun g _ => by ring

/-- weights of the groups are nonnegative -/
def GoodWeights (lab : Fin p → ℤ) (W : ℤ → Option ℝ) : Prop := ∀ g ∈ groupLabels lab, 0 ≤ labelWeight lab W g

section
variable {lab : Fin p → ℤ} {W : ℤ → Option ℝ} {r : ℝ}

/-- Hölder: the penalty dominates the inner product with the points of the dual ball -/
lemma label_holder (hr : 0 ≤ r) {x y : Fin p → ℝ} (hx : x ∈ labelDomain lab) (hy : y ∈ labelDualBall lab W r) :
    dot x y ≤ r * labelPenalty lab W x := by
  obtain ⟨h1, h2, h3, h4, h5⟩ := hy
  unfold dot
  rw [sum_by_label lab fun i => x i * y i]
  unfold labelPenalty
  rw [mul_add, mul_add, Finset.mul_sum, Finset.mul_sum, Finset.mul_sum, ← Finset.sum_add_distrib]
  refine add_le_add (Finset.sum_le_sum fun i _ => ?_) (Finset.sum_le_sum fun g hg => ?_)
  · by_cases hm : lab i ∈ groupLabels lab
    · obtain ⟨m1, m2, m3, m4⟩ := mem_groupLabels.1 hm
      rw [if_pos hm, if_neg m2, if_neg m3]; simp
    · rw [if_neg hm]
      have hm' : lab i = -1 ∨ lab i = -2 ∨ lab i = -3 ∨ lab i = -4 := by
        by_contra hc; push Not at hc; exact hm (mem_groupLabels.2 hc)
      rcases hm' with h | h | h | h
      · rw [h1 i h, h]; simp
      · rw [h]; simp only [if_true]
        have : x i * y i ≤ |x i| * |y i| := by rw [← abs_mul]; exact le_abs_self _
        have := mul_le_mul_of_nonneg_left (h2 i h) (abs_nonneg (x i))
        norm_num
        linarith
      · rw [h]
        have := mul_le_mul_of_nonneg_left (h3 i h) (hx i (Or.inl h))
        norm_num
        linarith
      · rw [h]
        have := mul_le_mul_of_nonneg_left (h4 i h) (hx i (Or.inr h))
        norm_num
        linarith
  · calc _ ≤ labelNorm lab x g * labelNorm lab y g := label_cauchy lab x y g
      _ ≤ labelNorm lab x g * (r * labelWeight lab W g) := mul_le_mul_of_nonneg_left (h5 g hg) (labelNorm_nonneg' _ _ _)
      _ = _ := by ring

/-- the point of the dual ball at which the supremum is attained -/
noncomputable def labelArgmax (lab : Fin p → ℤ) (W : ℤ → Option ℝ) (r : ℝ) (x : Fin p → ℝ) (i : Fin p) : ℝ :=
  if lab i = -1 then 0 else if lab i = -2 then (if 0 ≤ x i then r else -r) else if lab i = -3 then r
  else if lab i = -4 then 0
  else if labelNorm lab x (lab i) = 0 then 0 else r * labelWeight lab W (lab i) / labelNorm lab x (lab i) * x i

lemma labelArgmax_group {x : Fin p → ℝ} {i : Fin p} {g : ℤ} (hg : g ∈ groupLabels lab) (hi : lab i = g) :
    labelArgmax lab W r x i = (if labelNorm lab x g = 0 then 0 else r * labelWeight lab W g / labelNorm lab x g) * x i := by
  obtain ⟨m1, m2, m3, m4⟩ := groupLabels_reserved hg
  unfold labelArgmax
  rw [hi, if_neg m1, if_neg m2, if_neg m3, if_neg m4]
  split_ifs <;> ring

lemma labelArgmax_mem (hr : 0 ≤ r) (hw : GoodWeights lab W) (x : Fin p → ℝ) :
    labelArgmax lab W r x ∈ labelDualBall lab W r := by
  refine ⟨fun i h => ?_, fun i h => ?_, fun i h => ?_, fun i h => ?_, fun g hg => ?_⟩
  · unfold labelArgmax; rw [if_pos h]
  · unfold labelArgmax; rw [h]; norm_num; split_ifs <;> simp [abs_of_nonneg hr]
  · unfold labelArgmax; rw [h]; norm_num
  · unfold labelArgmax; rw [h]; norm_num
  · set c := (if labelNorm lab x g = 0 then 0 else r * labelWeight lab W g / labelNorm lab x g) with hc
    have hrw : 0 ≤ r * labelWeight lab W g := mul_nonneg hr (hw g hg)
    have hc0 : 0 ≤ c := by
      rw [hc]; split_ifs
      · exact le_refl _
      · exact div_nonneg hrw (labelNorm_nonneg' _ _ _)
    have e : labelNorm lab (labelArgmax lab W r x) g = labelNorm lab (fun i => c * x i) g := by
      unfold labelNorm
      congr 1
      refine Finset.sum_congr rfl fun i _ => ?_
      by_cases hi : lab i = g
      · rw [if_pos hi, if_pos hi, labelArgmax_group hg hi]
      · rw [if_neg hi, if_neg hi]
    rw [e, labelNorm_smul _ _ _ hc0, hc]
    split_ifs with h0
    · rw [h0]; simpa using hrw
    · rw [div_mul_cancel₀ _ h0]

lemma labelArgmax_dot (x : Fin p → ℝ) : dot x (labelArgmax lab W r x) = r * labelPenalty lab W x := by
  unfold dot
  rw [sum_by_label lab fun i => x i * labelArgmax lab W r x i]
  unfold labelPenalty
  rw [mul_add, mul_add, Finset.mul_sum, Finset.mul_sum, Finset.mul_sum, ← Finset.sum_add_distrib]
  refine congrArg₂ (· + ·) (Finset.sum_congr rfl fun i _ => ?_) (Finset.sum_congr rfl fun g hg => ?_)
  · by_cases hm : lab i ∈ groupLabels lab
    · obtain ⟨m1, m2, m3, m4⟩ := mem_groupLabels.1 hm
      rw [if_pos hm, if_neg m2, if_neg m3]; simp
    · rw [if_neg hm]
      have hm' : lab i = -1 ∨ lab i = -2 ∨ lab i = -3 ∨ lab i = -4 := by
        by_contra hc; push Not at hc; exact hm (mem_groupLabels.2 hc)
      unfold labelArgmax
      rcases hm' with h | h | h | h
      · rw [h]; norm_num
      · rw [h]; norm_num
        split_ifs with h0
        · rw [abs_of_nonneg h0]; ring
        · rw [abs_of_neg (not_le.1 h0)]; ring
      · rw [h]; norm_num; ring
      · rw [h]; norm_num
  · set c := (if labelNorm lab x g = 0 then 0 else r * labelWeight lab W g / labelNorm lab x g) with hc
    have e : (∑ i, if lab i = g then x i * labelArgmax lab W r x i else 0) = c * labelNorm lab x g ^ 2 := by
      rw [labelNorm_sq, Finset.mul_sum]
      refine Finset.sum_congr rfl fun i _ => ?_
      by_cases hi : lab i = g
      · rw [if_pos hi, if_pos hi, labelArgmax_group hg hi]; ring
      · rw [if_neg hi, if_neg hi]; ring
    rw [e, hc]
    split_ifs with h0
    · rw [h0]; ring
    · field_simp

lemma labelFn_false_coe {x : Fin p → ℝ} {v : ℝ} (h : labelFn lab W false r x = ((v : ℝ) : WithTop ℝ)) :
    x ∈ labelDomain lab ∧ v = r * labelPenalty lab W x := by
  unfold labelFn at h
  simp only [Bool.false_eq_true, if_false] at h
  by_cases hx : x ∈ labelDomain lab
  · rw [if_pos hx] at h; exact ⟨hx, (WithTop.coe_inj.1 h).symm⟩
  · rw [if_neg hx] at h; exact absurd h.symm WithTop.coe_ne_top

lemma labelFn_false {x : Fin p → ℝ} (hx : x ∈ labelDomain lab) :
    labelFn lab W false r x = ((r * labelPenalty lab W x : ℝ) : WithTop ℝ) := by
  unfold labelFn
  simp [hx]

/-- the penalty is the support function of the dual ball -/
lemma label_support (hr : 0 ≤ r) (hw : GoodWeights lab W) :
    IsSupportFn (labelDualBall lab W r) (labelFn lab W false r) := by
  intro x
  refine ⟨fun v hv => ?_, fun ht => ?_⟩
  · obtain ⟨hx, rfl⟩ := labelFn_false_coe hv
    refine ⟨⟨_, labelArgmax_mem hr hw x, labelArgmax_dot x⟩, ?_⟩
    rintro _ ⟨y, hy, rfl⟩
    exact label_holder hr hx hy
  · have hx : x ∉ labelDomain lab := by
      intro hx; rw [labelFn_false hx] at ht; exact WithTop.coe_ne_top ht
    unfold labelDomain at hx
    simp only [Set.mem_ofPred_eq, not_forall, not_le] at hx
    obtain ⟨k, hk, hneg⟩ := hx
    rintro ⟨B, hB⟩
    set t := (|B| + 1) / x k with ht'
    have htneg : t ≤ 0 := div_nonpos_of_nonneg_of_nonpos (by positivity) hneg.le
    have hmem : (fun i => if i = k then t else 0) ∈ labelDualBall lab W r := by
      refine ⟨fun i h => ?_, fun i h => ?_, fun i h => ?_, fun i h => ?_, fun g hg => ?_⟩
      · have : i ≠ k := by rintro rfl; rcases hk with h' | h' <;> rw [h] at h' <;> norm_num at h'
        simp [this]
      · have : i ≠ k := by rintro rfl; rcases hk with h' | h' <;> rw [h] at h' <;> norm_num at h'
        simp [this, hr]
      · simp only; split_ifs <;> linarith
      · simp only; split_ifs <;> linarith
      · rw [labelNorm_zero]
        · exact mul_nonneg hr (hw g hg)
        · intro i hi
          obtain ⟨m1, m2, m3, m4⟩ := groupLabels_reserved hg
          have : i ≠ k := by
            rintro rfl
            rcases hk with h' | h'
            · exact m3 (hi.symm.trans h')
            · exact m4 (hi.symm.trans h')
          simp [this]
    have := hB ⟨_, hmem, rfl⟩
    have e : dot x (fun i => if i = k then t else 0) = |B| + 1 := by
      unfold dot
      simp only [mul_ite, mul_zero, Finset.sum_ite_eq', Finset.mem_univ, if_true]
      rw [ht', mul_div_cancel₀ _ hneg.ne]
    simp only [e] at this
    linarith [le_abs_self B]

lemma label_nonempty (hr : 0 ≤ r) (hw : GoodWeights lab W) : (labelDualBall lab W r).Nonempty :=
  ⟨_, labelArgmax_mem hr hw fun _ => 0⟩

lemma label_hom (t : ℝ) (ht : 0 ≤ t) (x : Fin p → ℝ) (v : ℝ) (h : labelFn lab W false r x = v) :
    labelFn lab W false r (fun i => t * x i) = ((t * v : ℝ) : WithTop ℝ) := by
  obtain ⟨hx, rfl⟩ := labelFn_false_coe h
  have hx' : (fun i => t * x i) ∈ labelDomain lab := fun i hi => mul_nonneg ht (hx i hi)
  rw [labelFn_false hx', labelPenalty_smul lab W x ht]
  congr 1; ring

/-- penalty of a vector with one nonzero coordinate of reserved label -/
lemma labelPenalty_single {k : Fin p} (hk : lab k ∉ groupLabels lab) (t : ℝ) :
    labelPenalty lab W (fun i => if i = k then t else 0) =
      (if lab k = -2 then |t| else 0) + (if lab k = -3 then t else 0) := by
  unfold labelPenalty
  have e3 : ∑ g ∈ groupLabels lab, labelWeight lab W g * labelNorm lab (fun i => if i = k then t else 0) g = 0 := by
    refine Finset.sum_eq_zero fun g hg => ?_
    rw [labelNorm_zero, mul_zero]
    intro i hi
    have : i ≠ k := by rintro rfl; exact hk (hi ▸ hg)
    simp [this]
  have e1 : ∀ i, (if lab i = -2 then |if i = k then t else 0| else 0) = if i = k then (if lab k = -2 then |t| else 0) else 0 := by
    intro i; by_cases h : i = k
    · subst h; simp
    · simp [h]
  have e2 : ∀ i, (if lab i = -3 then (if i = k then t else 0) else 0) = if i = k then (if lab k = -3 then t else 0) else 0 := by
    intro i; by_cases h : i = k
    · subst h; simp
    · simp [h]
  rw [e3, Finset.sum_congr rfl fun i _ => e1 i, Finset.sum_congr rfl fun i _ => e2 i]
  simp

lemma dot_single (y : Fin p → ℝ) (k : Fin p) (t : ℝ) : dot (fun i => if i = k then t else 0) y = t * y k := by
  unfold dot; simp

/-- a point outside the dual ball is separated from it -/
lemma label_sep (hr : 0 ≤ r) (hw : GoodWeights lab W) (y : Fin p → ℝ) (hy : y ∉ labelDualBall lab W r) :
    ∃ x, ∃ v : ℝ, labelFn lab W false r x = v ∧ v < dot x y := by
  have single : ∀ (k : Fin p) (t : ℝ), lab k ∉ groupLabels lab → (lab k = -3 ∨ lab k = -4 → 0 ≤ t) →
      r * ((if lab k = -2 then |t| else 0) + (if lab k = -3 then t else 0)) < t * y k →
      ∃ x, ∃ v : ℝ, labelFn lab W false r x = v ∧ v < dot x y := by
    intro k t hk hd hlt
    refine ⟨fun i => if i = k then t else 0, _, labelFn_false ?_, ?_⟩
    · intro i hi
      by_cases h : i = k
      · subst h; simpa using hd hi
      · simp [h]
    · rw [labelPenalty_single hk, dot_single]; exact hlt
  have hns : ∀ k, (lab k = -1 ∨ lab k = -2 ∨ lab k = -3 ∨ lab k = -4) → lab k ∉ groupLabels lab := by
    intro k h hm
    obtain ⟨m1, m2, m3, m4⟩ := mem_groupLabels.1 hm
    rcases h with h | h | h | h
    · exact m1 h
    · exact m2 h
    · exact m3 h
    · exact m4 h
  unfold labelDualBall at hy
  simp only [Set.mem_ofPred_eq, not_and_or, not_forall, not_le] at hy
  rcases hy with ⟨k, hk, h⟩ | ⟨k, hk, h⟩ | ⟨k, hk, h⟩ | ⟨k, hk, h⟩ | ⟨g, hg, h⟩
  · refine single k (y k) (hns k (Or.inl hk)) (fun h' => ?_) ?_
    · rw [hk] at h'; norm_num at h'
    · rw [hk]; norm_num; exact h
  · refine single k (if 0 ≤ y k then 1 else -1) (hns k (by tauto)) (fun h' => ?_) ?_
    · rw [hk] at h'; norm_num at h'
    · rw [hk]; norm_num
      split_ifs with h0
      · rw [abs_of_nonneg h0] at h; norm_num; exact h
      · rw [abs_of_neg (not_le.1 h0)] at h; norm_num; exact h
  · refine single k 1 (hns k (by tauto)) (fun h' => zero_le_one) ?_
    rw [hk]; norm_num; exact h
  · refine single k 1 (hns k (by tauto)) (fun h' => zero_le_one) ?_
    rw [hk]; norm_num; exact h
  · obtain ⟨m1, m2, m3, m4⟩ := groupLabels_reserved hg
    refine ⟨fun i => if lab i = g then y i else 0, _, labelFn_false ?_, ?_⟩
    · intro i hi
      have : lab i ≠ g := by
        rintro rfl
        rcases hi with h' | h'
        · exact m3 h'
        · exact m4 h'
      simp [this]
    · have e0 : labelNorm lab (fun i => if lab i = g then y i else 0) g = labelNorm lab y g := by
        unfold labelNorm; congr 1
        exact Finset.sum_congr rfl fun i _ => by
          by_cases hi : lab i = g <;> simp [hi]
      have e1 : labelPenalty lab W (fun i => if lab i = g then y i else 0) = labelWeight lab W g * labelNorm lab y g := by
        unfold labelPenalty
        rw [Finset.sum_eq_zero, Finset.sum_eq_zero, Finset.sum_eq_single g]
        · rw [e0]; ring
        · intro g' hg' hne
          rw [labelNorm_zero, mul_zero]
          intro i hi
          rw [if_neg]; rintro rfl; exact hne hi.symm
        · intro h'; exact absurd hg h'
        · intro i _
          by_cases h1 : lab i = -3
          · have h2 : lab i ≠ g := fun h2 => m3 (h2.symm.trans h1)
            simp [h2]
          · rw [if_neg h1]
        · intro i _
          by_cases h1 : lab i = -2
          · have h2 : lab i ≠ g := fun h2 => m2 (h2.symm.trans h1)
            simp [h2]
          · rw [if_neg h1]
      have e2 : dot (fun i => if lab i = g then y i else 0) y = labelNorm lab y g ^ 2 := by
        rw [labelNorm_sq]; unfold dot
        exact Finset.sum_congr rfl fun i _ => by
          by_cases hi : lab i = g <;> simp [hi, sq]
      rw [e1, e2]
      have hpos : 0 < labelNorm lab y g := lt_of_le_of_lt (mul_nonneg hr (hw g hg)) h
      nlinarith
end

end Verif.Lemmas
