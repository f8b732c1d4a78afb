import Verif.Model.HuberizedSvm
import Verif.Spec.Losses
import Verif.Props.C67_AffineAtom
import Verif.Props.C28_Gradients
import Verif.Props.C31_Purity

/-!
# C86: the Huberized support vector machine
-/

set_option linter.unusedSectionVars false
set_option linter.unusedVariables false

namespace Verif.Props
open Verif.Model Verif.Lemmas Verif.Spec

variable {p n : ℕ}

/-- Specification: the documented loss.  `y` are the signs of the cases. -/
noncomputable def hingeSum (X : Fin n → Fin p → ℝ) (y : Fin n → ℝ) (eps : ℝ) (beta : Fin p → ℝ) : ℝ :=
  ∑ i, smoothHinge eps (y i * ∑ j, X i j * beta j)

/-- Specification: `y` is the coding of two labels `lo < hi` as `-1`, `+1`; both occur. -/
def IsCoding (labels y : Fin n → ℝ) : Prop :=
  ∃ lo hi, lo < hi ∧ (∃ i, labels i = lo) ∧ (∃ i, labels i = hi) ∧
    ∀ i, (labels i = lo ∧ y i = -1) ∨ (labels i = hi ∧ y i = 1)

/-! ### the scalar problem -/

private noncomputable def clip (eps t : ℝ) : ℝ := max 0 (min 1 (t / eps))

private lemma clip_mem (eps t : ℝ) : 0 ≤ clip eps t ∧ clip eps t ≤ 1 :=
  ⟨le_max_left _ _, max_le zero_le_one (min_le_left _ _)⟩

private lemma clip_opt {eps : ℝ} (he : 0 < eps) (t u : ℝ) (h0 : 0 ≤ u) (h1 : u ≤ 1) :
    t * u - eps / 2 * u ^ 2 ≤ t * clip eps t - eps / 2 * clip eps t ^ 2 := by
  have key : 0 ≤ (t - eps * clip eps t) * (clip eps t - u) := by
    unfold clip
    rcases le_total t 0 with h | h
    · have : t / eps ≤ 0 := div_nonpos_of_nonpos_of_nonneg h he.le
      rw [max_eq_left (le_trans (min_le_right _ _) this)]
      nlinarith
    · rcases le_total t eps with h' | h'
      · have h2 : t / eps ≤ 1 := (div_le_one he).2 h'
        rw [min_eq_right h2, max_eq_right (div_nonneg h he.le), mul_div_cancel₀ _ he.ne', sub_self, zero_mul]
      · have h2 : 1 ≤ t / eps := (one_le_div he).2 h'
        rw [min_eq_left h2, max_eq_right zero_le_one]
        nlinarith
  nlinarith [mul_nonneg he.le (sq_nonneg (clip eps t - u))]

private lemma clip_val {eps : ℝ} (he : 0 < eps) (z : ℝ) :
    (1 - z) * clip eps (1 - z) - eps / 2 * clip eps (1 - z) ^ 2 = smoothHinge eps z := by
  unfold clip smoothHinge
  by_cases h : 1 ≤ z
  · rw [if_pos h]
    have : (1 - z) / eps ≤ 0 := div_nonpos_of_nonpos_of_nonneg (by linarith) he.le
    rw [max_eq_left (le_trans (min_le_right _ _) this)]
    ring
  · rw [if_neg h]
    push Not at h
    by_cases h' : 1 - eps ≤ z
    · rw [if_pos h']
      have h2 : (1 - z) / eps ≤ 1 := (div_le_one he).2 (by linarith)
      rw [min_eq_right h2, max_eq_right (div_nonneg (by linarith) he.le)]
      field_simp
      ring
    · rw [if_neg h']
      push Not at h'
      have h2 : 1 ≤ (1 - z) / eps := (one_le_div he).2 (by linarith)
      rw [min_eq_left h2, max_eq_right zero_le_one]
      ring

/-! ### the conjugate of the hinge -/

open Classical in
private noncomputable def hingeConj (u : Fin (n + 1) → ℝ) : WithTop ℝ :=
  if ∀ i, 0 ≤ u i ∧ u i ≤ 1 then ((-∑ i, u i : ℝ) : WithTop ℝ) else ⊤

private noncomputable def hinge (z : Fin (n + 1) → ℝ) : WithTop ℝ := ((∑ i, max (z i + 1) 0 : ℝ) : WithTop ℝ)

private lemma hinge_conj : IsConjugate (hinge (n := n)) hingeConj := by
  intro y
  unfold hingeConj
  by_cases h : ∀ i, 0 ≤ y i ∧ y i ≤ 1
  · rw [if_pos h]
    refine ⟨fun v hv => ?_, fun h' => absurd h' WithTop.coe_ne_top⟩
    have hv' := WithTop.coe_injective hv
    subst hv'
    constructor
    · rintro t ⟨x, a, ha, rfl⟩
      have := WithTop.coe_injective ha
      rw [← this]
      unfold dot
      rw [← Finset.sum_sub_distrib, ← Finset.sum_neg_distrib]
      refine Finset.sum_le_sum fun i _ => ?_
      obtain ⟨h0, h1⟩ := h i
      rcases le_total (x i + 1) 0 with hx | hx
      · rw [max_eq_right hx]; nlinarith
      · rw [max_eq_left hx]; nlinarith
    · intro B hB
      refine hB ⟨fun _ => -1, 0, ?_, ?_⟩
      · simp [hinge]
      · simp [dot]
  · rw [if_neg h]
    refine ⟨fun v hv => absurd hv (WithTop.top_ne_coe), fun _ ⟨B, hB⟩ => ?_⟩
    push Not at h
    obtain ⟨i, hi⟩ := h
    -- along the ray `-1 + t eᵢ` the values are `-∑ y + t yᵢ - max t 0`
    have hval : ∀ t : ℝ, -∑ j, y j + (t * y i - max t 0) ≤ B := by
      intro t
      refine hB ⟨fun j => -1 + if j = i then t else 0, max t 0, ?_, ?_⟩
      · unfold hinge
        congr 1
        rw [Finset.sum_eq_single i]
        · simp
        · intro j _ hj; simp [hj]
        · intro hh; exact absurd (Finset.mem_univ i) hh
      · unfold dot
        have : ∀ j, (-1 + if j = i then t else 0) * y j = -y j + if j = i then t * y j else 0 := by
          intro j; split_ifs <;> ring
        simp only [this]
        rw [Finset.sum_add_distrib, Finset.sum_neg_distrib, Finset.sum_ite_eq' Finset.univ i, if_pos (Finset.mem_univ i)]
        ring
    by_cases h0 : 0 ≤ y i
    · have h1 : 0 < y i - 1 := by linarith [hi h0]
      have hB0 := hval 0
      have := hval ((B + ∑ j, y j + 1) / (y i - 1))
      have hn : 0 ≤ (B + ∑ j, y j + 1) / (y i - 1) := div_nonneg (by simp at hB0; linarith) h1.le
      rw [max_eq_left hn] at this
      have e : (B + ∑ j, y j + 1) / (y i - 1) * y i - (B + ∑ j, y j + 1) / (y i - 1) = B + ∑ j, y j + 1 := by
        field_simp
      rw [e] at this
      linarith
    · push Not at h0
      have hB0 := hval 0
      have := hval ((B + ∑ j, y j + 1) / y i)
      have hn : (B + ∑ j, y j + 1) / y i ≤ 0 := div_nonpos_of_nonneg_of_nonpos (by simp at hB0; linarith) h0.le
      rw [max_eq_right hn, div_mul_cancel₀ _ h0.ne] at this
      linarith

/-- the smoothed hinge, from its variational description -/
private lemma smoothed_hinge {eps : ℝ} (he : 0 < eps) {q V : (Fin (n + 1) → ℝ) → ℝ} {G : (Fin (n + 1) → ℝ) → Fin (n + 1) → ℝ}
    (hq : ∀ u, q u = eps / 2 * ∑ i, u i ^ 2) (hs : IsSmoothedBy hingeConj q V G) (x : Fin (n + 1) → ℝ) :
    (∀ i, G x i = clip eps (x i + 1)) ∧ V x = ∑ i, ((x i + 1) * clip eps (x i + 1) - eps / 2 * clip eps (x i + 1) ^ 2) := by
  have hexpr : ∀ u : Fin (n + 1) → ℝ, dot x u - (-∑ i, u i) - q u = ∑ i, ((x i + 1) * u i - eps / 2 * u i ^ 2) := by
    intro u
    rw [hq]
    unfold dot
    rw [Finset.sum_sub_distrib, ← Finset.mul_sum]
    have : ∑ i, (x i + 1) * u i = ∑ i, x i * u i + ∑ i, u i := by
      rw [← Finset.sum_add_distrib]; exact Finset.sum_congr rfl fun i _ => by ring
    rw [this]; ring
  obtain ⟨⟨s, h1, h2⟩, h3⟩ := hs x
  have hfe : (∀ i, 0 ≤ G x i ∧ G x i ≤ 1) ∧ s = -∑ i, G x i := by
    unfold hingeConj at h1
    by_cases h : ∀ i, 0 ≤ G x i ∧ G x i ≤ 1
    · rw [if_pos h] at h1
      exact ⟨h, (WithTop.coe_injective h1).symm⟩
    · rw [if_neg h] at h1
      exact absurd h1 WithTop.top_ne_coe
  obtain ⟨hbox, hs'⟩ := hfe
  rw [hs', hexpr] at h2
  set c : Fin (n + 1) → ℝ := fun i => clip eps (x i + 1) with hc
  have hGc : c = G x := by
    by_contra hne
    have h4 := h3 c (-∑ i, c i) (by unfold hingeConj; rw [if_pos fun i => clip_mem _ _]) hne
    rw [hexpr, h2] at h4
    exact absurd h4 (not_lt.2 (Finset.sum_le_sum fun i _ => clip_opt he _ _ (hbox i).1 (hbox i).2))
  refine ⟨fun i => by rw [← hGc], ?_⟩
  rw [h2, ← hGc]

private lemma composed_hinge (z : Fin (n + 1) → ℝ) :
    composedFn .positivePart false 1 (fun z => z) (denote (some (.arr fun _ => 1))) (quadArg none) z = hinge z := by
  unfold composedFn penaltyOrBound hinge
  simp [quadArg, denote, penalty]

/-- what the constructor builds -/
private lemma init_spec (X : Fin (n + 1) → Fin p → ℝ) (labels : Fin (n + 1) → ℝ) (hl : (Finset.univ.image labels).card ≤ 2)
    (eps : ℝ) (he : 0 < eps) (coef : ℝ) (hcoef : 0 ≤ coef) (offset : Option (Fin p → ℝ)) (quadratic : Option (Quad (Fin p) ℝ)) :
    ∃ L G, HuberizedSvm.init X labels eps coef offset quadratic = some L ∧
      Evaluates L.smoothObjective (hingeSum X (HuberizedSvm.signs labels) eps) G ∧
      (∀ β, IsGradientAt (hingeSum X (HuberizedSvm.signs labels) eps) (G β) β) ∧ IsConvex (hingeSum X (HuberizedSvm.signs labels) eps) ∧
      ∀ β j, G β j = ∑ i, -HuberizedSvm.signs labels i * X i j * clip eps (1 - HuberizedSvm.signs labels i * ∑ j, X i j * β j) := by
  classical
  set Y := HuberizedSvm.signs labels with hY
  set T : Aff ℝ p (n + 1) := .matrix (fun i j => -Y i * X i j) none with hT
  set Q : Quad (Fin (n + 1)) ℝ := Quad.init (some eps) (some (.scalar 0)) (some (.scalar 0)) (some 0) with hQ
  obtain ⟨A, res, V, G, h1, h2, h3, h4, h5⟩ := C67_smoothed_partial (m := p) (k := n) .positivePart false 1 zero_le_one T T trivial
    (fun x => rfl) rfl rfl (some (.arr fun _ => 1)) (by rintro s ⟨⟩) none (by rintro q' ⟨⟩) Q he
    (by intro c hc; have : (PyVec.scalar 0 : PyVec (Fin (n + 1)) ℝ) = .scalar c := by injection hc
        injection this with h; exact h.symm)
  have hs := h4 hingeConj (by
    have : (fun z : Fin (n + 1) → ℝ => composedFn .positivePart false 1 (fun z => z) (denote (some (.arr fun _ => 1))) (quadArg none) z) = hinge :=
      funext composed_hinge
    rw [this]; exact hinge_conj)
  have hq : ∀ u, smoothingFn Q u = eps / 2 * ∑ i, u i ^ 2 := by
    intro u
    unfold smoothingFn quadFn
    simp [hQ, Quad.init, denote, sqDist, dot]
  have hlin : ∀ β i, T.lin β i + 1 = 1 - Y i * ∑ j, X i j * β j := by
    intro β i
    have : T.lin β i = ∑ j, -Y i * X i j * β j := rfl
    rw [this, Finset.mul_sum]
    have : ∀ j, -Y i * X i j * β j = -(Y i * (X i j * β j)) := fun j => by ring
    simp only [this, Finset.sum_neg_distrib]
    ring
  have hV : (fun β => V (T.lin β)) = hingeSum X Y eps := by
    funext β
    rw [(smoothed_hinge he hq hs (T.lin β)).2]
    unfold hingeSum
    refine Finset.sum_congr rfl fun i _ => ?_
    rw [hlin, clip_val he]
  rw [hV] at h3 h5
  refine ⟨⟨res, coef, offset, quadratic.getD ⟨0, some (.scalar 0), some (.scalar 0), 0⟩⟩, _, ?_, h3, h5, ?_, ?_⟩
  · unfold HuberizedSvm.init
    rw [if_neg (not_lt.2 hcoef), if_neg (by omega)]
    simp only
    have h1' : AtomObj.affine .positivePart T (some (.arr fun _ => 1)) (some 1) none none = some A := h1
    rw [h1']
    simp only
    rw [h2]
  · rw [← hV]
    intro x y a b ha hb hab
    have e : T.lin (fun i => a * x i + b * y i) = fun i => a * T.lin x i + b * T.lin y i := by
      funext i
      show ∑ j, -Y i * X i j * (a * x j + b * y j) = a * (∑ j, -Y i * X i j * x j) + b * ∑ j, -Y i * X i j * y j
      rw [Finset.mul_sum, Finset.mul_sum, ← Finset.sum_add_distrib]
      exact Finset.sum_congr rfl fun j _ => by ring
    simp only
    rw [e]
    set z : Fin (n + 1) → ℝ := fun i => a * T.lin x i + b * T.lin y i with hz
    obtain ⟨⟨s, k1, k2⟩, _⟩ := hs z
    have hle : ∀ w, dot w (G z) - s - smoothingFn Q (G z) ≤ V w := by
      intro w
      obtain ⟨⟨s', k3, k4⟩, k5⟩ := hs w
      by_cases hh : G z = G w
      · rw [hh] at k1 ⊢
        rw [k1] at k3
        rw [WithTop.coe_injective k3, ← k4]
      · exact (k5 (G z) s k1 hh).le
    have hx := mul_le_mul_of_nonneg_left (hle (T.lin x)) ha
    have hy := mul_le_mul_of_nonneg_left (hle (T.lin y)) hb
    have hd : dot z (G z) = a * dot (T.lin x) (G z) + b * dot (T.lin y) (G z) := by
      unfold dot
      rw [Finset.mul_sum, Finset.mul_sum, ← Finset.sum_add_distrib]
      exact Finset.sum_congr rfl fun j _ => by rw [hz]; ring
    have hb' : b = 1 - a := by linarith
    rw [k2, hd]
    subst hb'
    nlinarith
  · intro β j
    show ∑ i, -Y i * X i j * G (T.lin β) i = _
    refine Finset.sum_congr rfl fun i _ => ?_
    rw [(smoothed_hinge he hq hs (T.lin β)).1, hlin]

/-! ### the claims -/

private lemma signs_coding {labels y : Fin (n + 1) → ℝ} (h : IsCoding labels y) :
    HuberizedSvm.signs labels = y ∧ (Finset.univ.image labels).card ≤ 2 := by
  classical
  obtain ⟨lo, hi, hlt, ⟨i0, h0⟩, ⟨i1, h1⟩, hall⟩ := h
  have hmax : maxCoord labels = hi := by
    apply le_antisymm
    · refine maxCoord_le (c := hi) fun i => ?_
      rcases hall i with ⟨h, _⟩ | ⟨h, _⟩ <;> linarith
    · rw [← h1]; exact le_maxCoord labels i1
  constructor
  · funext i
    unfold HuberizedSvm.signs
    rw [hmax]
    rcases hall i with ⟨h, hy⟩ | ⟨h, hy⟩
    · rw [if_neg (by rw [h]; exact hlt.ne), hy]; norm_num
    · rw [if_pos h, hy]; norm_num
  · have : Finset.univ.image labels ⊆ {lo, hi} := by
      intro v hv
      obtain ⟨i, _, rfl⟩ := Finset.mem_image.1 hv
      rcases hall i with ⟨h, _⟩ | ⟨h, _⟩ <;> simp [h]
    exact le_trans (Finset.card_le_card this) Finset.card_le_two

/-- **C86** `huberized_svm(X, labels, eps)` with `eps > 0` and two labels, both of which occur, is the sum over the cases of the
hinge loss smoothed on an interval of length `eps`, at the margin `yᵢ xᵢ'β`, where `yᵢ` codes the labels as `±1`; what is
returned in the mode 'grad' is its gradient at every `β`, and it is convex. -/
theorem C86_loss (X : Fin (n + 1) → Fin p → ℝ) (labels y : Fin (n + 1) → ℝ) (hy : IsCoding labels y) (eps : ℝ) (he : 0 < eps)
    (coef : ℝ) (hcoef : 0 ≤ coef) (offset : Option (Fin p → ℝ)) (quadratic : Option (Quad (Fin p) ℝ)) :
    ∃ L G, HuberizedSvm.init X labels eps coef offset quadratic = some L ∧ Evaluates L.smoothObjective (hingeSum X y eps) G ∧
      (∀ β, IsGradientAt (hingeSum X y eps) (G β) β) ∧ IsConvex (hingeSum X y eps) := by
  obtain ⟨h1, h2⟩ := signs_coding hy
  rw [← h1]
  obtain ⟨L, G, k1, k2, k3, k4, _⟩ := init_spec X labels h2 eps he coef hcoef offset quadratic
  exact ⟨L, G, k1, k2, k3, k4⟩

/-- the labels `3, 5, 3` are coded `-1, +1, -1` -/
example : IsCoding ![3, 5, 3] ![-1, 1, -1] := by
  refine ⟨3, 5, by norm_num, ⟨0, rfl⟩, ⟨1, rfl⟩, fun i => ?_⟩
  fin_cases i <;> simp

/-- **C86** more than two labels, a negative `coef` and the smoothing parameter 0 are ValueErrors. -/
theorem C86_rejects (X : Fin (n + 1) → Fin p → ℝ) (labels : Fin (n + 1) → ℝ) (eps coef : ℝ) (offset : Option (Fin p → ℝ))
    (quadratic : Option (Quad (Fin p) ℝ))
    (h : (∃ i j k, labels i ≠ labels j ∧ labels j ≠ labels k ∧ labels i ≠ labels k) ∨ coef < 0 ∨ eps = 0) :
    HuberizedSvm.init X labels eps coef offset quadratic = none := by
  classical
  unfold HuberizedSvm.init
  by_cases hc : coef < 0
  · rw [if_pos hc]
  rw [if_neg hc]
  by_cases hl : (Finset.univ.image labels).card > 2
  · rw [if_pos hl]
  rw [if_neg hl]
  rcases h with ⟨i, j, k, h1, h2, h3⟩ | h | h
  · exfalso
    apply hl
    have hsub : ({labels i, labels j, labels k} : Finset ℝ) ⊆ Finset.univ.image labels := by
      intro v hv
      simp only [Finset.mem_insert, Finset.mem_singleton] at hv
      rcases hv with rfl | rfl | rfl <;> exact Finset.mem_image.2 ⟨_, Finset.mem_univ _, rfl⟩
    have hcard : ({labels i, labels j, labels k} : Finset ℝ).card = 3 := Finset.card_eq_three.2 ⟨_, _, _, h1, h3, h2, rfl⟩
    have := Finset.card_le_card hsub
    omega
  · exact absurd h hc
  · subst h
    simp only
    cases hA : AtomObj.affine .positivePart (.matrix (fun i j => -HuberizedSvm.signs labels i * X i j) none : Aff ℝ p (n + 1))
        (some (.arr fun _ => 1)) (some 1) none none with
    | none => rfl
    | some A =>
      simp only
      have : A.smoothed (Quad.init (some 0) (some (.scalar 0)) (some (.scalar 0)) (some 0)) = none := by
        unfold AffAtom.smoothed
        cases hd : A.dual with
        | none => rfl
        | some d =>
          obtain ⟨l, g⟩ := d
          cases g with
          | atom c =>
            simp only
            rw [if_pos]
            have hq : c.quad.coef = 0 := by
              obtain ⟨A', D, g, k1, k2, _, _, _, k6, _⟩ := C67_dual (m := p) (k := n) .positivePart false 1 zero_le_one
                (.matrix (fun i j => -HuberizedSvm.signs labels i * X i j) none) _ rfl rfl (some (.arr fun _ => 1))
                (by rintro s ⟨⟩) none (by rintro q' ⟨⟩)
              have k1' : some A = some A' := by rw [← hA]; exact k1
              injection k1' with k1'
              subst k1'
              rw [hd] at k2
              injection k2 with k2
              have k3 := (Prod.mk.inj k2).2
              injection k3 with k3
              rw [k3]; exact k6
            show (0:ℝ) + c.quad.coef = 0
            rw [hq, add_zero]
          | _ => rfl
      rw [this]

private lemma coding01 {labels : Fin (n + 1) → ℝ} (h01 : ∀ i, labels i = 0 ∨ labels i = 1)
    (h0 : ∃ i, labels i = 0) (h1 : ∃ i, labels i = 1) : IsCoding labels fun i => 2 * labels i - 1 :=
  ⟨0, 1, zero_lt_one, h0, h1, fun i => (h01 i).imp (fun h => ⟨h, by simp only [h]; norm_num⟩) fun h => ⟨h, by simp only [h]; norm_num⟩⟩

private noncomputable def svm (labels : Fin n → ℝ) (eps : ℝ) : Loss n :=
  ⟨.huberSvm labels eps, 1, none, Loss.devQuad 1 (.huberSvm labels eps) (Quad.init none none none none), none⟩

private lemma build_svm (X : Fin n → Fin p → ℝ) (labels : Fin n → ℝ) (eps : ℝ) :
    Glm.build X (.huberSvm labels eps) 1 none none none = some ⟨X, svm labels eps, none, fun _ => 1⟩ := by
  unfold Glm.build
  rw [loss_init _ zero_le_one (by simp [Loss.dataError]) none _ none (by rintro w ⟨⟩)]
  simp only [Glm.init]
  rw [if_neg (by simp)]
  rfl

private lemma glm_svm (X : Fin n → Fin p → ℝ) (labels : Fin n → ℝ) (eps : ℝ) (β : Fin p → ℝ) :
    ((⟨X, svm labels eps, none, fun _ => 1⟩ : Glm p n).smoothObjective β .func).1 =
      .val (∑ i, (Loss.huberSvmPair eps ((2 * labels i - 1) * ∑ j, X i j * β j)).1) ∧
    ((⟨X, svm labels eps, none, fun _ => 1⟩ : Glm p n).smoothObjective β .both).1 =
      .both (∑ i, (Loss.huberSvmPair eps ((2 * labels i - 1) * ∑ j, X i j * β j)).1)
        (fun j => ∑ i, X i j * ((Loss.huberSvmPair eps ((2 * labels i - 1) * ∑ j, X i j * β j)).2 * (2 * labels i - 1))) := by
  constructor
  · simp [Glm.smoothObjective, Loss.smoothObjective, svm, Smooth.applyOffset, Loss.cw, scaleR_eq, Glm.dot]
  · simp [Glm.smoothObjective, Loss.smoothObjective, svm, Smooth.applyOffset, Loss.cw, scaleR_eq, scaleV_eq, Glm.dot]
    rfl

/-- **C86** on 0/1 labels, both occurring, `huberized_svm` with smoothing parameter 1 and `glm.huber_svm` with the same design are
the same function with the same gradient. -/
theorem C86_agrees_with_glm (X : Fin (n + 1) → Fin p → ℝ) (labels : Fin (n + 1) → ℝ) (h01 : ∀ i, labels i = 0 ∨ labels i = 1)
    (h0 : ∃ i, labels i = 0) (h1 : ∃ i, labels i = 1) :
    ∃ L g, HuberizedSvm.init X labels 1 1 none none = some L ∧ Glm.build X (.huberSvm labels 1) 1 none none none = some g ∧
      ∀ β, ∃ v d, L.smoothObjective β .both = .both v d ∧ (g.smoothObjective β .both).1 = .both v d := by
  obtain ⟨k1, k2⟩ := signs_coding (coding01 h01 h0 h1)
  obtain ⟨L, G, m1, m2, _, _, m5⟩ := init_spec X labels k2 1 one_pos 1 zero_le_one none none
  rw [k1] at m2 m5
  refine ⟨L, _, m1, build_svm X labels 1, fun β => ⟨_, _, (m2 β).2.2, ?_⟩⟩
  rw [(glm_svm X labels 1 β).2]
  have hpr : ∀ z, Loss.huberSvmPair 1 z = (smoothHinge 1 z, -clip 1 (1 - z)) := by
    intro z
    rw [huberSvmPair_one, ← clip_val one_pos]
    unfold clip
    rw [min_comm ((1 - z) / 1) 1]
    congr 1
    ring
  have e2 : (fun j => ∑ i, X i j * ((Loss.huberSvmPair 1 ((2 * labels i - 1) * ∑ j, X i j * β j)).2 * (2 * labels i - 1))) = G β := by
    funext j
    rw [m5]
    refine Finset.sum_congr rfl fun i _ => ?_
    rw [hpr]
    ring
  rw [e2]
  congr 1
  unfold hingeSum
  exact Finset.sum_congr rfl fun i _ => by rw [hpr]

example : (∀ i, (![0, 1, 1] : Fin 3 → ℝ) i = 0 ∨ (![0, 1, 1] : Fin 3 → ℝ) i = 1) ∧ (∃ i, (![0, 1, 1] : Fin 3 → ℝ) i = 0) ∧
    ∃ i, (![0, 1, 1] : Fin 3 → ℝ) i = 1 :=
  ⟨fun i => by fin_cases i <;> simp, ⟨0, rfl⟩, ⟨1, rfl⟩⟩

/-- **C86** fails for other smoothing parameters: the two classes disagree for every `eps ≠ 1`, one case of each label. -/
theorem C86_agrees_with_glm_fails (eps : ℝ) (he : 0 < eps) (hne : eps ≠ 1) :
    ∃ (X : Fin 2 → Fin 1 → ℝ) (labels : Fin 2 → ℝ) (L : HuberizedSvm 1 1) (g : Glm 1 2) (β : Fin 1 → ℝ) (v w : ℝ),
      labels = ![0, 1] ∧ HuberizedSvm.init X labels eps 1 none none = some L ∧
      Glm.build X (.huberSvm labels eps) 1 none none none = some g ∧
      L.smoothObjective β .func = .val v ∧ (g.smoothObjective β .func).1 = .val w ∧ v ≠ w := by
  -- at margins `1 - 2 eps`: `3/2 eps` each against `2 - eps/2`
  obtain ⟨k1, k2⟩ := signs_coding (coding01 (labels := ![0, 1]) (fun i => by fin_cases i <;> simp) ⟨0, rfl⟩ ⟨1, rfl⟩)
  obtain ⟨L, G, m1, m2, _, _, _⟩ := init_spec (fun i _ => (![-1, 1] : Fin 2 → ℝ) i : Fin 2 → Fin 1 → ℝ) ![0, 1] k2 eps he 1 zero_le_one none none
  rw [k1] at m2
  refine ⟨_, _, L, _, fun _ => 1 - 2 * eps, _, _, rfl, m1, build_svm _ _ eps, (m2 _).1, (glm_svm _ _ _ _).1, ?_⟩
  have h1 : smoothHinge eps (1 - 2 * eps) = 3 / 2 * eps := by
    unfold smoothHinge
    rw [if_neg (by linarith), if_neg (by linarith)]; ring
  have h2 : (Loss.huberSvmPair eps (1 - 2 * eps)).1 = 2 - eps / 2 := by
    have e : (1 - (1 - 2 * eps)) / eps = 2 := by field_simp; ring
    unfold Loss.huberSvmPair
    rw [e]
    norm_num
  have h1' : hingeSum (fun i _ => (![-1, 1] : Fin 2 → ℝ) i : Fin 2 → Fin 1 → ℝ) (fun i => 2 * (![0, 1] : Fin 2 → ℝ) i - 1) eps (fun _ => 1 - 2 * eps) = 3 * eps := by
    simp only [hingeSum, Fin.sum_univ_two, Finset.univ_unique, Finset.sum_singleton, Matrix.cons_val_zero, Matrix.cons_val_one]
    have e1 : (2 * (0:ℝ) - 1) * (-1 * (1 - 2 * eps)) = 1 - 2 * eps := by ring
    have e2 : (2 * (1:ℝ) - 1) * (1 * (1 - 2 * eps)) = 1 - 2 * eps := by ring
    rw [e1, e2, h1]; ring
  rw [h1']
  simp only [Fin.sum_univ_two, Finset.univ_unique, Finset.sum_singleton, Matrix.cons_val_zero, Matrix.cons_val_one]
  have e1 : (2 * (0:ℝ) - 1) * (-1 * (1 - 2 * eps)) = 1 - 2 * eps := by ring
  have e2 : (2 * (1:ℝ) - 1) * (1 * (1 - 2 * eps)) = 1 - 2 * eps := by ring
  rw [e1, e2, h2]
  intro h
  apply hne
  linarith

/-- **C86** fails for the arguments `coef` and `offset`: the function does not depend on them (nor on `quadratic`, which is added elsewhere), so with
`coef = 2` the value is not twice the value for `coef = 1`. -/
theorem C86_coef_offset_fails (X : Fin (n + 1) → Fin p → ℝ) (labels : Fin (n + 1) → ℝ) (eps coef coef' : ℝ) (hc : 0 ≤ coef)
    (hc' : 0 ≤ coef') (offset offset' : Option (Fin p → ℝ)) (quadratic quadratic' : Option (Quad (Fin p) ℝ)) (L L' : HuberizedSvm p n)
    (h : HuberizedSvm.init X labels eps coef offset quadratic = some L)
    (h' : HuberizedSvm.init X labels eps coef' offset' quadratic' = some L') :
    ∀ β mode, L.smoothObjective β mode = L'.smoothObjective β mode := by
  classical
  unfold HuberizedSvm.init at h h'
  rw [if_neg (not_lt.2 hc)] at h
  rw [if_neg (not_lt.2 hc')] at h'
  by_cases hl : (Finset.univ.image labels).card > 2
  · rw [if_pos hl] at h; cases h
  rw [if_neg hl] at h h'
  simp only at h h'
  cases hA : AtomObj.affine .positivePart (.matrix (fun i j => -HuberizedSvm.signs labels i * X i j) none : Aff ℝ p (n + 1))
      (some (.arr fun _ => 1)) (some 1) none none with
  | none => rw [hA] at h; cases h
  | some A =>
    rw [hA] at h h'
    simp only at h h'
    cases hs : A.smoothed (Quad.init (some eps) (some (.scalar 0)) (some (.scalar 0)) (some 0)) with
    | none => rw [hs] at h; cases h
    | some s =>
      rw [hs] at h h'
      injection h with h
      injection h' with h'
      subst h; subst h'
      intro β mode
      rfl

/-- **C86** fails for a sample with a single label: it is always coded `+1`.  With labels all 0 (the lower of the usual labels 0, 1)
the loss decreases in the direction of the design: at `β = 1`, `X = 1` it is 0, at `β = -1` it is positive. -/
theorem C86_single_label_fails (eps : ℝ) (he : 0 < eps) :
    ∃ L : HuberizedSvm 1 0, HuberizedSvm.init (fun _ _ => 1) (fun _ => 0) eps 1 none none = some L ∧
      L.smoothObjective (fun _ => 1) .func = .val 0 ∧ ∃ v, L.smoothObjective (fun _ => -1) .func = .val v ∧ 0 < v := by
  classical
  obtain ⟨L, G, h1, h2, _, _, _⟩ := init_spec (n := 0) (p := 1) (fun _ _ => 1) (fun _ => 0)
    (le_trans Finset.card_image_le (by simp)) eps he 1 zero_le_one none none
  have hs : HuberizedSvm.signs (fun _ : Fin 1 => (0:ℝ)) = fun _ => 1 := by
    funext i
    unfold HuberizedSvm.signs
    have : maxCoord (fun _ : Fin 1 => (0:ℝ)) = 0 := by simp [maxCoord]
    rw [this, if_pos rfl]; norm_num
  rw [hs] at h2
  refine ⟨L, h1, ?_, _, (h2 _).1, ?_⟩
  · rw [(h2 _).1]
    simp [hingeSum, smoothHinge]
  · simp only [hingeSum, smoothHinge, Finset.univ_unique, Finset.sum_singleton]
    rw [if_neg (by norm_num)]
    split_ifs with h
    · positivity
    · push Not at h
      norm_num at h ⊢
      linarith

end Verif.Props
