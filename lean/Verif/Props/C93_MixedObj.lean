import Verif.Props.C56_MixedLasso
import Verif.Props.C71_SmoothConjugate
import Verif.Lemmas.MixedObj
import Verif.Lemmas.LabelPenalty

/-!
# C93: mixed LASSO objects, from the labels given to the constructor

The specification is `labelFn` (`Spec/LabelPenalty.lean`): it is written in terms of the labels, weights and parameter
the user passes.
-/

set_option linter.unusedSectionVars false
set_option linter.unusedVariables false

namespace Verif.Props
open Verif.Model Verif.Lemmas Verif.Spec

variable {n : ℕ}

/-- the documented function of an object: penalty or dual ball, shifted by the offset, plus the quadratic -/
noncomputable def mixedFull (a : MixedObj (n + 1)) (z : Fin (n + 1) → ℝ) : WithTop ℝ :=
  labelFn a.lab a.weights a.dual a.par (fun i => z i - offAt a.offset i) + quadTop a.quad z

/-- the quadratic has an array as center or linear term -/
def HasArray (q : Quad (Fin (n + 1)) ℝ) : Prop := (∃ v, q.center = some (.arr v)) ∨ ∃ v, q.linear = some (.arr v)

private lemma collapsed_arr {q : Quad (Fin (n + 1)) ℝ} (h : HasArray q) : ∃ l, q.collapsedLinear = .arr l := by
  unfold Quad.collapsedLinear
  rcases h with ⟨v, h⟩ | ⟨v, h⟩
  · rw [h]
    rcases q.linear with _ | (c | c) <;> exact ⟨_, rfl⟩
  · rw [h]
    rcases q.center with _ | (c | c) <;> exact ⟨_, rfl⟩

/-- what the first lines of `proximal` compute -/
private lemma recenter_arr (offset : Option (PyVec (Fin (n + 1)) ℝ)) (sq q : Quad (Fin (n + 1)) ℝ) (hq : HasArray q) :
    ∃ o tq l, (sq.add (some q)).recenter offset = some (o, tq) ∧ tq.coef = sq.coef + q.coef ∧ tq.linear = some (.arr l) := by
  have harr : ∃ l, (sq.add (some q)).linear = some (.arr l) := by
    obtain ⟨l, hl⟩ := collapsed_arr hq
    show ∃ l', some (PyVec.map₂ (· + ·) sq.collapsedLinear q.collapsedLinear) = some (.arr l')
    rw [hl]
    cases sq.collapsedLinear <;> exact ⟨_, rfl⟩
  obtain ⟨l, hl⟩ := harr
  have hc : (sq.add (some q)).center = some (.scalar 0) := rfl
  have key : ∀ q' : Quad (Fin (n + 1)) ℝ, q'.linear = some (.arr l) → ∃ l', q'.collapsed.linear = some (.arr l') := by
    intro q' h
    obtain ⟨l', h'⟩ := collapsed_arr (q := q') (Or.inr ⟨l, h⟩)
    exact ⟨l', congrArg some h'⟩
  unfold Quad.recenter
  rcases offset with _ | o
  · obtain ⟨l', h'⟩ := key _ hl
    exact ⟨_, _, l', rfl, rfl, h'⟩
  · simp only
    by_cases hz : o.allZero
    · rw [if_pos hz]
      obtain ⟨l', h'⟩ := key _ hl
      exact ⟨_, _, l', rfl, rfl, h'⟩
    · rw [if_neg hz, hc]
      obtain ⟨l', h'⟩ := key { sq.add (some q) with center := some (PyVec.map₂ (· - ·) (.scalar 0) o) } hl
      exact ⟨_, _, l', rfl, rfl, h'⟩

private lemma collect_some {p : ℕ} {v : Fin p → Option ℝ} {P : Fin p → ℝ} (h : ∀ i, v i = some (P i)) :
    MixedObj.collect v = some P := by
  unfold MixedObj.collect
  rw [if_pos fun i => by rw [h i]; rfl]
  congr 1; funext i; rw [h i]; rfl

private lemma weights_nonneg {a : MixedObj (n + 1)} (hE : MixedObj.Enumerates a.order a.lab)
    (hw : GoodWeights a.lab a.weights) (j : Fin a.order.length) : 0 ≤ a.weightArray j := by
  rw [weight_label]
  apply hw
  rw [← order_toFinset a hE, List.mem_toFinset]
  exact List.getElem_mem _

private lemma lagrange_kernel {a : MixedObj (n + 1)} (hE : MixedObj.Enumerates a.order a.lab)
    (hw : GoodWeights a.lab a.weights) {lam L : ℝ} (hl : 0 < lam) (hL : 0 < L) (x : Fin (n + 1) → ℝ) :
    ∃ P, MixedObj.collect (mixedLagrangeProx a.kind a.weightArray x L lam) = some P ∧
      IsProxOn L (fun z => lam * labelPenalty a.lab a.weights z) (labelDomain a.lab) x P := by
  obtain ⟨P, h1, h2⟩ := C56_lagrange_prox_partial a.kind a.weightArray (weights_nonneg hE hw) x hL hl.le (Or.inl hl)
  refine ⟨P, collect_some h1, ?_⟩
  simp only [penalty_label a hE] at h2
  rw [domain_label a hE] at h2
  exact h2

private lemma bound_kernel {a : MixedObj (n + 1)} (hE : MixedObj.Enumerates a.order a.lab)
    (hw : GoodWeights a.lab a.weights) {b : ℝ} (hb : 0 < b) (x : Fin (n + 1) → ℝ) :
    ∃ P, MixedObj.collect (mixedDualBoundProx a.kind a.weightArray x b) = some P ∧
      IsProj (labelDualBall a.lab a.weights b) x P := by
  obtain ⟨P, h1, h2⟩ := C56_dual_bound_prox a.kind a.weightArray (weights_nonneg hE hw) x hb.le (Or.inl hb)
  refine ⟨P, collect_some h1, ?_⟩
  rw [ball_label a hE] at h2
  exact h2

private lemma labelFn_ne_top_true {lab : Fin (n + 1) → ℤ} {W : ℤ → Option ℝ} {r : ℝ} {z : Fin (n + 1) → ℝ} :
    labelFn lab W true r z ≠ ⊤ ↔ z ∈ labelDualBall lab W r := by
  unfold labelFn; by_cases h : z ∈ labelDualBall lab W r <;> simp [h]

private lemma labelFn_ne_top_false {lab : Fin (n + 1) → ℤ} {W : ℤ → Option ℝ} {r : ℝ} {z : Fin (n + 1) → ℝ} :
    labelFn lab W false r z ≠ ⊤ ↔ z ∈ labelDomain lab := by
  by_cases h : z ∈ labelDomain lab
  · rw [labelFn_false h]; exact ⟨fun _ => h, fun _ => WithTop.coe_ne_top⟩
  · unfold labelFn; simp [h]

/-- **C93** `proximal` of a mixed LASSO object or of its dual, with a positive parameter, for every labelling, every
choice of nonnegative weights, every order in which Python enumerates the groups, every offset and every quadratic:
called with a quadratic that has an array center or linear term and a positive total coefficient it returns the unique
minimiser of the documented function plus that quadratic.  Missing: parameter 0, for which a zero l1 coordinate gives
nan (`C56_lagrange_zero_fails`). -/
theorem C93_proximal_partial (a : MixedObj (n + 1)) (hE : MixedObj.Enumerates a.order a.lab)
    (hw : GoodWeights a.lab a.weights) (hpar : 0 < a.par) (q : Quad (Fin (n + 1)) ℝ) (hq : HasArray q)
    (hpos : 0 < a.quad.coef + q.coef) :
    ∃ z, a.proximal q = .ok z ∧
      IsUniqueMinOn (fun u => quadVal (some q) u + quadVal (some a.quad) u +
          (labelFn a.lab a.weights a.dual a.par fun i => u i - offAt a.offset i).untopD 0)
        {u | labelFn a.lab a.weights a.dual a.par (fun i => u i - offAt a.offset i) ≠ ⊤} z := by
  obtain ⟨o, tq, l, h1, h2, h3⟩ := recenter_arr a.offset a.quad q hq
  have htq : 0 < tq.coef := by rw [h2]; exact hpos
  rcases Bool.eq_false_or_eq_true a.dual with hd | hd
  · -- the dual
    have hex : ∃ z, a.proximal q = .ok z := by
      obtain ⟨P, hP, -⟩ := bound_kernel hE hw hpar (fun i => -(l i) / tq.coef)
      unfold MixedObj.proximal seminormProximal
      rw [hd, h1]
      dsimp only
      rw [if_neg htq.ne', h3]
      dsimp only
      rw [if_pos rfl]
      dsimp only
      rw [hP]
      cases o <;> exact ⟨_, rfl⟩
    obtain ⟨z, hz⟩ := hex
    refine ⟨z, hz, ?_⟩
    have hz' := hz
    unfold MixedObj.proximal at hz'
    rw [hd, if_pos rfl] at hz'
    have := C10_proximal_bound _ _ (labelDualBall a.lab a.weights a.par) a.par (fun arg P h => by
      obtain ⟨P', e1, e2⟩ := bound_kernel hE hw hpar arg
      try dsimp only at h
      rw [e1, Option.some_inj] at h
      rw [← h]; exact e2) a.offset a.quad (some q) z hpos hz'
    rw [denote_eq_offAt] at this
    rw [hd]
    have hv : ∀ u, u ∈ labelDualBall a.lab a.weights a.par → (labelFn a.lab a.weights true a.par u).untopD 0 = 0 := by
      intro u hu; unfold labelFn; simp [hu]
    refine ⟨labelFn_ne_top_true.2 this.1, fun u hu hne => ?_⟩
    have hu' := labelFn_ne_top_true.1 hu
    have h4 := this.2 u hu' hne
    try dsimp only
    rw [hv _ hu', hv _ this.1, add_zero, add_zero]
    exact h4
  · have hex : ∃ z, a.proximal q = .ok z := by
      obtain ⟨P, hP, -⟩ := lagrange_kernel hE hw hpar htq (fun i => -(l i) / tq.coef)
      unfold MixedObj.proximal seminormProximal
      rw [hd, h1]
      dsimp only
      rw [if_neg htq.ne', h3]
      dsimp only
      rw [if_neg (by simp)]
      dsimp only
      rw [hP]
      cases o <;> exact ⟨_, rfl⟩
    obtain ⟨z, hz⟩ := hex
    refine ⟨z, hz, ?_⟩
    have hz' := hz
    unfold MixedObj.proximal at hz'
    rw [hd, if_neg (by simp)] at hz'
    have := C10_proximal_lagrange _ _ (fun z => a.par * labelPenalty a.lab a.weights z) (labelDomain a.lab) a.par
      (fun arg L P hL h => by
        obtain ⟨P', e1, e2⟩ := lagrange_kernel hE hw hpar hL arg
        try dsimp only at h
        rw [e1, Option.some_inj] at h
        rw [← h]; exact e2) a.offset a.quad (some q) z hpos hz'
    rw [denote_eq_offAt] at this
    rw [hd]
    have hv : ∀ u, u ∈ labelDomain a.lab →
        (labelFn a.lab a.weights false a.par u).untopD 0 = a.par * labelPenalty a.lab a.weights u := by
      intro u hu; rw [labelFn_false hu]; rfl
    refine ⟨labelFn_ne_top_false.2 this.1, fun u hu hne => ?_⟩
    have hu' := labelFn_ne_top_false.1 hu
    have h4 := this.2 u hu' hne
    try dsimp only
    rw [hv _ hu', hv _ this.1]
    exact h4

/-- the hypotheses are met: labels `[-1, -2, -3, -4, 7, 7]`, weight 2 for the group 7, offset, Lagrange parameter 3 -/
example : ∃ (a : MixedObj 6) (q : Quad (Fin 6) ℝ), MixedObj.Enumerates a.order a.lab ∧
    GoodWeights a.lab a.weights ∧ 0 < a.par ∧ HasArray (n := 5) q ∧ 0 < a.quad.coef + q.coef ∧ a.dual = false := by
  refine ⟨MixedObj.init false ![-1, -2, -3, -4, 7, 7] 3 (fun g => if g = 7 then some 2 else none) [7]
    (some (.arr ![1, 2, 3, 4, 5, 6])) none, ⟨1, some (.arr ![1, 1, 1, 1, 1, 1]), none, 0⟩, ⟨by simp [MixedObj.init], ?_⟩, ?_, ?_,
    Or.inl ⟨_, rfl⟩, ?_, rfl⟩
  · intro g
    show g ∈ [7] ↔ (∃ i : Fin 6, (![-1, -2, -3, -4, 7, 7] : Fin 6 → ℤ) i = g) ∧ _
    constructor
    · intro h
      have : g = 7 := by simpa using h
      subst this
      exact ⟨⟨4, rfl⟩, by decide⟩
    · rintro ⟨⟨i, rfl⟩, h⟩
      revert h
      fin_cases i <;> decide
  · intro g hg
    unfold labelWeight
    cases h : (MixedObj.init false ![-1, -2, -3, -4, 7, 7] 3 (fun g => if g = 7 then some 2 else none) [7]
      (some (.arr ![1, 2, 3, 4, 5, 6])) none : MixedObj 6).weights g with
    | none => exact Real.sqrt_nonneg _
    | some v =>
      have : (if g = 7 then some (2:ℝ) else none) = some v := h
      split_ifs at this
      simp only [Option.some.injEq] at this
      rw [← this]; simp
  · show (0:ℝ) < 3; norm_num
  · show (0:ℝ) < 0 + 1; norm_num

/-- **C93** `proximal` raises ValueError exactly when the coefficients add to 0 (array quadratic, positive parameter and
nonnegative total coefficient). -/
theorem C93_proximal_raises (a : MixedObj (n + 1)) (q : Quad (Fin (n + 1)) ℝ) (hq : HasArray q)
    (h0 : a.quad.coef + q.coef = 0) : a.proximal q = .valueError := by
  obtain ⟨o, tq, l, h1, h2, h3⟩ := recenter_arr a.offset a.quad q hq
  unfold MixedObj.proximal seminormProximal
  rw [h1]
  dsimp only
  rw [if_pos (by rw [h2, h0])]

/-! ### enumeration order -/

/-- entry `i` of the array `projection`, from the labels -/
private noncomputable def labelProj (lab : Fin (n + 1) → ℤ) (W : ℤ → Option ℝ) (b : ℝ) (x : Fin (n + 1) → ℝ) (i : Fin (n + 1)) :
    Option ℝ :=
  if lab i = -2 then (if x i = 0 then (if 0 < b then some (x i * 1) else none) else some (x i * min 1 (b / |x i|)))
  else if lab i = -3 then some (min b (x i))
  else if lab i = -1 then some 0
  else if lab i = -4 then some (min (x i) 0)
  else some (x i * factor b (labelWeight lab W (lab i)) (labelNorm lab x (lab i)))

private lemma norms_label (a : MixedObj (n + 1)) (hE : MixedObj.Enumerates a.order a.lab) (x : Fin (n + 1) → ℝ)
    (j : Fin a.order.length) : normsCython a.kind x j = labelNorm a.lab x a.order[j] := by
  rw [normsCython_eq, ← kindNorm_eq, kindNorm_label a hE]

private lemma projection_label (a : MixedObj (n + 1)) (hE : MixedObj.Enumerates a.order a.lab) (b : ℝ)
    (x : Fin (n + 1) → ℝ) : mixedProjection a.kind a.weightArray b x = labelProj a.lab a.weights b x := by
  funext i
  unfold mixedProjection labelProj
  by_cases h2 : a.lab i = -2
  · rw [(kind_l1 a hE i).2 h2, if_pos h2]
  · rw [if_neg h2]
    by_cases h3 : a.lab i = -3
    · rw [(kind_pp a hE i).2 h3, if_pos h3]
    · rw [if_neg h3]
      by_cases h1 : a.lab i = -1
      · rw [(kind_unpen a hE i).2 h1, if_pos h1]
      · rw [if_neg h1]
        by_cases h4 : a.lab i = -4
        · rw [(kind_nn a hE i).2 h4, if_pos h4]
        · rw [if_neg h4]
          obtain ⟨j, hj⟩ := exists_group a hE i ⟨h1, h2, h3, h4⟩
          rw [(kind_group a hE i j).2 hj]
          dsimp only
          rw [norms_label a hE, weight_label, ← hj]

private lemma exists_kind_iff (a : MixedObj (n + 1)) (hE : MixedObj.Enumerates a.order a.lab) (x : Fin (n + 1) → ℝ) (t : ℝ) :
    ((∃ i, a.kind i = .positivePart ∧ x i < 1 / 10 ^ 5) ∨ (∃ i, a.kind i = .nonnegative ∧ x i < t)) ↔
    ((∃ i, a.lab i = -3 ∧ x i < 1 / 10 ^ 5) ∨ (∃ i, a.lab i = -4 ∧ x i < t)) := by
  simp only [kind_pp a hE, kind_nn a hE]

/-- value of the kernel `seminorm_mixed_lasso`, from the labels -/
private noncomputable def labelValue (lab : Fin (n + 1) → ℤ) (W : ℤ → Option ℝ) (x : Fin (n + 1) → ℝ) (cf : Bool) : WithTop ℝ := by
  classical
  exact if cf ∧ ((∃ i, lab i = -3 ∧ x i < 1 / 10 ^ 5) ∨ (∃ i, lab i = -4 ∧ x i < 1 / 10 ^ 5)) then ⊤
  else (((∑ i, if lab i = -2 then |x i| else 0) + (∑ i, if lab i = -3 then max (x i) 0 else 0) +
    ∑ g ∈ groupLabels lab, labelWeight lab W g * labelNorm lab x g : ℝ) : WithTop ℝ)

private lemma seminorm_label (a : MixedObj (n + 1)) (hE : MixedObj.Enumerates a.order a.lab) (x : Fin (n + 1) → ℝ) (cf : Bool) :
    mixedSeminorm a.kind a.weightArray x cf (1 / 10 ^ 5) = labelValue a.lab a.weights x cf := by
  unfold mixedSeminorm labelValue
  have e : (∑ i, if a.kind i = .l1 then |x i| else 0) + (∑ i, if a.kind i = .positivePart then max (x i) 0 else 0) +
      ∑ j, a.weightArray j * normsCython a.kind x j =
      (∑ i, if a.lab i = -2 then |x i| else 0) + (∑ i, if a.lab i = -3 then max (x i) 0 else 0) +
      ∑ g ∈ groupLabels a.lab, labelWeight a.lab a.weights g * labelNorm a.lab x g := by
    rw [← sum_order a hE fun g => labelWeight a.lab a.weights g * labelNorm a.lab x g]
    congr 1
    · congr 1
      · exact Finset.sum_congr rfl fun i _ => by simp only [kind_l1 a hE]
      · exact Finset.sum_congr rfl fun i _ => by simp only [kind_pp a hE]
    · exact Finset.sum_congr rfl fun j _ => by rw [norms_label a hE, weight_label]
  dsimp only
  rw [e]
  by_cases h : cf ∧ ((∃ i, a.lab i = -3 ∧ x i < 1 / 10 ^ 5) ∨ (∃ i, a.lab i = -4 ∧ x i < 1 / 10 ^ 5))
  · rw [if_pos h, if_pos ⟨h.1, (exists_kind_iff a hE x _).2 h.2⟩]
  · rw [if_neg h, if_neg fun h' => h ⟨h'.1, (exists_kind_iff a hE x _).1 h'.2⟩]

/-- **C93** the order in which Python enumerates the set of group labels does not matter: two objects built from the
same arguments with different orders have the same `proximal`, `seminorm` and (for the primal class)
`nonsmooth_objective`. -/
theorem C93_enumeration (a b : MixedObj (n + 1)) (hEa : MixedObj.Enumerates a.order a.lab)
    (hEb : MixedObj.Enumerates b.order b.lab) (h : b = { a with order := b.order }) :
    (∀ q, b.proximal q = a.proximal q) ∧ (∀ x cf, b.seminorm x cf = a.seminorm x cf) ∧
      (a.dual = false → ∀ x cf, b.nonsmoothObjective x cf = a.nonsmoothObjective x cf) := by
  obtain ⟨bd, bl, bw, bo, bp, bof, bq⟩ := b
  simp only [MixedObj.mk.injEq] at h
  obtain ⟨rfl, rfl, rfl, -, rfl, rfl, rfl⟩ := h
  set b : MixedObj (n + 1) := ⟨a.dual, a.lab, a.weights, bo, a.par, a.offset, a.quad⟩ with hb
  have hp : ∀ t x, mixedProjection b.kind b.weightArray t x = mixedProjection a.kind a.weightArray t x := by
    intro t x; rw [projection_label b hEb, projection_label a hEa]
  have hs : ∀ x cf, mixedSeminorm b.kind b.weightArray x cf (1 / 10 ^ 5) = mixedSeminorm a.kind a.weightArray x cf (1 / 10 ^ 5) := by
    intro x cf; rw [seminorm_label b hEb, seminorm_label a hEa]
  have hsn : ∀ x cf, b.seminorm x cf = a.seminorm x cf := by
    intro x cf
    unfold MixedObj.seminorm
    rw [show b.applyOffset x = a.applyOffset x from rfl, hs]
  refine ⟨fun q => ?_, hsn, fun hd x cf => ?_⟩
  · unfold MixedObj.proximal
    have e1 : (fun x L lam => MixedObj.collect (mixedLagrangeProx b.kind b.weightArray x L lam)) =
        fun x L lam => MixedObj.collect (mixedLagrangeProx a.kind a.weightArray x L lam) := by
      funext x L lam
      unfold mixedLagrangeProx
      simp only [hp]
    have e2 : (fun x t => MixedObj.collect (mixedDualBoundProx b.kind b.weightArray x t)) =
        fun x t => MixedObj.collect (mixedDualBoundProx a.kind a.weightArray x t) := by
      funext x t
      unfold mixedDualBoundProx
      simp only [hp]
    rw [e1, e2]
  · unfold MixedObj.nonsmoothObjective
    rw [if_neg (by rw [hd]; simp), if_neg (by rw [show b.dual = a.dual from rfl, hd]; simp), hsn]
    rfl

/-- two different orders of two groups -/
example : ∃ a b : MixedObj 3, MixedObj.Enumerates a.order a.lab ∧ MixedObj.Enumerates b.order b.lab ∧
    b = { a with order := b.order } ∧ a.order ≠ b.order := by
  have hE : ∀ o : List ℤ, o = [5, 9] ∨ o = [9, 5] → MixedObj.Enumerates o (![5, 9, 5] : Fin 3 → ℤ) := by
    intro o ho
    refine ⟨by rcases ho with rfl | rfl <;> decide, fun g => ?_⟩
    have hm : g ∈ o ↔ g = 5 ∨ g = 9 := by rcases ho with rfl | rfl <;> simp [or_comm]
    rw [hm]
    constructor
    · rintro (rfl | rfl)
      · exact ⟨⟨0, rfl⟩, by decide⟩
      · exact ⟨⟨1, rfl⟩, by decide⟩
    · rintro ⟨⟨i, rfl⟩, -⟩
      fin_cases i <;> decide
  exact ⟨MixedObj.init false ![5, 9, 5] 1 (fun _ => none) [5, 9] none none,
    MixedObj.init false ![5, 9, 5] 1 (fun _ => none) [9, 5] none none, hE _ (Or.inl rfl), hE _ (Or.inr rfl), rfl, by
      show ([5, 9] : List ℤ) ≠ [9, 5]; decide⟩

end Verif.Props
