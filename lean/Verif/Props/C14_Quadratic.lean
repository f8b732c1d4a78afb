import Verif.Lemmas.Quad
import Verif.Spec.Dual
import Mathlib.Data.Fin.VecNotation
import Mathlib.Algebra.BigOperators.Fin
import Mathlib.Tactic.NormNum
import Mathlib.Tactic.FinCases

/-!
# C14, C15: the algebra of `identity_quadratic`

The specification of the function: `quadFn coef center linear const x = coef/2 ‖x-center‖² + ⟨linear,x⟩ + const`.
-/

set_option linter.unusedSectionVars false
set_option linter.unusedVariables false

namespace Verif.Props
open Verif.Model Verif.Lemmas Verif.Spec

variable {K : Type*} [Field K] [LinearOrder K] [IsStrictOrderedRing K]
variable {ι : Type*} [Fintype ι]

/-- The documented function (`identity_quadratic.py:1-11`). -/
def quadFn (coef : K) (center linear : ι → K) (const : K) (x : ι → K) : K :=
  coef / 2 * sqDist x center + dot linear x + const

/-- array denoted by an optional center / linear term: `None` is 0, a float is broadcast -/
def denote (v : Option (PyVec ι K)) : ι → K := fun i =>
  match v with
  | none => 0
  | some (.scalar c) => c
  | some (.arr a) => a i

private lemma denote_center (q : Quad ι K) : denote q.center = centerAt q := by
  funext i; unfold denote centerAt
  rcases q.center with _ | c
  · rfl
  · cases c <;> rfl

private lemma denote_linear (q : Quad ι K) : denote q.linear = linearAt q := by
  funext i; unfold denote linearAt
  rcases q.linear with _ | c
  · rfl
  · cases c <;> rfl

private lemma funcVal_quadFn (q : Quad ι K) (x : ι → K) :
    q.funcVal x = quadFn q.coef (denote q.center) (denote q.linear) q.const x := by
  rw [funcVal_eq, denote_center, denote_linear]; rfl

/-- C14: the constructor and mode 'func' evaluate the documented function, `None` arguments count as 0. -/
theorem C14_objective_func (coef : Option K) (center linear : Option (PyVec ι K)) (const : Option K) (x : ι → K) :
    (Quad.init coef center linear const).objective x .func =
      .func (quadFn (coef.getD 0) (denote center) (denote linear) (const.getD 0) x) := by
  show Quad.Value.func _ = _
  rw [funcVal_quadFn]; rfl

/-- C14: mode 'both' is the pair of modes 'func' and 'grad'; any other mode raises ValueError. -/
theorem C14_objective_modes (q : Quad ι K) (x : ι → K) :
    ∃ v g, q.objective x .func = .func v ∧ q.objective x .grad = .grad g ∧ q.objective x .both = .both v g ∧
      q.objective x .other = .valueError := ⟨_, _, rfl, rfl, rfl, rfl⟩

/-- C14: mode 'grad' is the gradient of mode 'func': exact second-order Taylor formula. -/
theorem C14_objective_grad (q : Quad ι K) (x v : ι → K) :
    ∃ f g f', q.objective x .func = .func f ∧ q.objective x .grad = .grad g ∧
      q.objective (fun i => x i + v i) .func = .func f' ∧ f' = f + dot g v + q.coef / 2 * dot v v := by
  refine ⟨_, _, _, rfl, rfl, rfl, ?_⟩
  rw [funcVal_eq, funcVal_eq]
  unfold dot
  have : ∀ i, q.gradVal x i = q.coef * (x i - centerAt q i) + linearAt q i := by
    intro i; simp only [Quad.gradVal, resid_eq]; rfl
  simp only [this, Finset.mul_sum]
  have e : ∀ a b c d : K, a + b + q.const = c + d + q.const ↔ a + b = c + d := by
    intros; constructor <;> intro h <;> linarith
  have : ∑ i, q.coef / 2 * (x i + v i - centerAt q i) ^ 2 + ∑ i, linearAt q i * (x i + v i) =
      ∑ i, q.coef / 2 * (x i - centerAt q i) ^ 2 + ∑ i, linearAt q i * x i +
        ∑ i, (q.coef * (x i - centerAt q i) + linearAt q i) * v i + ∑ i, q.coef / 2 * (v i * v i) := by
    simp only [← Finset.sum_add_distrib]
    exact Finset.sum_congr rfl fun i _ => by ring
  linear_combination this

/-- C14: adding `None` changes nothing. -/
theorem C14_add_none (q : Quad ι K) : q.add none = q := rfl

private lemma defect_zero (q : Quad ι K)
    (hs : ∀ c, q.center = some (.scalar c) → c = 0 ∨ Fintype.card ι = 1) : centerDefect q = 0 := by
  unfold centerDefect
  split
  · rename_i c h
    rcases hs c h with h | h
    · simp [h]
    · simp [h]
  · rfl

/-- C14 (partial): `collapsed()` evaluates to `q(x)` when the center is `None`, an array, the float 0, or the
problem is one-dimensional.  Missing: a nonzero float center in dimension ≥ 2, where the claim is false
(`C14_collapsed_fails`). -/
theorem C14_collapsed_partial (q : Quad ι K) (x : ι → K)
    (hs : ∀ c, q.center = some (.scalar c) → c = 0 ∨ Fintype.card ι = 1) :
    ∃ v, q.objective x .func = .func v ∧ q.collapsed.objective x .func = .func v := by
  refine ⟨_, rfl, ?_⟩
  show Quad.Value.func _ = _
  rw [collapsed_funcVal, defect_zero q hs, mul_zero, sub_zero]

/-- C14 (partial): `q1 + q2` evaluates to `q1(x) + q2(x)`, same restriction on float centers. -/
theorem C14_add_partial (q1 q2 : Quad ι K) (x : ι → K)
    (h1 : ∀ c, q1.center = some (.scalar c) → c = 0 ∨ Fintype.card ι = 1)
    (h2 : ∀ c, q2.center = some (.scalar c) → c = 0 ∨ Fintype.card ι = 1) :
    ∃ v1 v2, q1.objective x .func = .func v1 ∧ q2.objective x .func = .func v2 ∧
      (q1.add (some q2)).objective x .func = .func (v1 + v2) := by
  refine ⟨_, _, rfl, rfl, ?_⟩
  show Quad.Value.func _ = _
  rw [add_funcVal, collapsed_funcVal, collapsed_funcVal, defect_zero q1 h1, defect_zero q2 h2]
  simp

/-- C14: without any restriction, `q1 + q2` and `collapsed` are right up to a constant that does not depend on
`x`, so they have the right gradients and the right minimisers. -/
theorem C14_add_up_to_const (q1 q2 : Quad ι K) :
    ∃ c : K, ∀ x, (q1.add (some q2)).funcVal x = q1.funcVal x + q2.funcVal x + c := by
  refine ⟨-(q1.coef / 2 * centerDefect q1 + q2.coef / 2 * centerDefect q2), fun x => ?_⟩
  rw [add_funcVal, collapsed_funcVal, collapsed_funcVal]; ring

/-- C14 is false for float centers: `q = identity_quadratic(1, 1., None, 0)` at `x = (0,0)` is 1 but
`q.collapsed()` is 1/2. -/
theorem C14_collapsed_fails :
    let q : Quad (Fin 2) ℚ := Quad.init (some 1) (some (.scalar 1)) none (some 0)
    q.objective ![0, 0] .func = .func 1 ∧ q.collapsed.objective ![0, 0] .func = .func (1 / 2) := by
  constructor
  · show Quad.Value.func _ = _
    rw [funcVal_quadFn]
    norm_num [quadFn, Quad.init, sqDist, dot, denote, Fin.sum_univ_two]
  · show Quad.Value.func _ = _
    rw [collapsed_funcVal, funcVal_quadFn]
    norm_num [quadFn, Quad.init, sqDist, dot, denote, Fin.sum_univ_two, centerDefect]

/-- C14: `iszero` implies that the function is identically 0. -/
theorem C14_iszero (q : Quad ι K) (h : q.iszero) (x : ι → K) : q.objective x .func = .func 0 := by
  obtain ⟨h1, _, h3, h4⟩ := h
  show Quad.Value.func _ = _
  rw [funcVal_eq, h1, h4]
  have : ∀ i, linearAt q i = 0 := by
    intro i; unfold linearAt
    rcases hl : q.linear with _ | l
    · rfl
    · have := h3 l hl
      cases l with
      | scalar c => exact this
      | arr v => exact this i
  simp [this]

example : ∀ c, (Quad.init (some (2:ℚ)) (some (.arr ![1, 2])) none none : Quad (Fin 2) ℚ).center =
    some (.scalar c) → c = 0 ∨ Fintype.card (Fin 2) = 1 := by
  intro c h; simp [Quad.init] at h

/-! ### C15 -/

private lemma recenter_value (q q' : Quad ι K) (offset o : Option (PyVec ι K))
    (h : q.recenter offset = some (o, q')) :
    denote o = denote offset ∧ ∃ c : K, ∀ x, q'.funcVal (fun i => x i - denote offset i) = q.funcVal x + c := by
  have zero_case : (∀ i, denote offset i = 0) → o = none → q' = q.collapsed →
      denote o = denote offset ∧ ∃ c : K, ∀ x, q'.funcVal (fun i => x i - denote offset i) = q.funcVal x + c := by
    intro hz ho hq
    refine ⟨by funext i; rw [hz i, ho]; rfl, -(q.coef / 2 * centerDefect q), fun x => ?_⟩
    simp only [hz, sub_zero, hq]
    rw [collapsed_funcVal]; ring
  unfold Quad.recenter at h
  rcases offset with _ | off
  · simp only [Option.some.injEq, Prod.mk.injEq] at h
    exact zero_case (fun i => rfl) h.1.symm h.2.symm
  · simp only at h
    split_ifs at h with hz
    · simp only [Option.some.injEq, Prod.mk.injEq] at h
      refine zero_case (fun i => ?_) h.1.symm h.2.symm
      cases off with
      | scalar c => exact hz
      | arr v => exact hz i
    · rcases hc : q.center with _ | c
      · rw [hc] at h; simp at h
      · rw [hc] at h
        simp only [Option.some.injEq, Prod.mk.injEq] at h
        obtain ⟨h1, h2⟩ := h
        subst h1 h2
        refine ⟨rfl, ?_⟩
        have hoff : ∀ i, denote (some off) i = off.get i := by intro i; cases off <;> rfl
        refine ⟨-(q.coef / 2 * centerDefect { q with center := some (PyVec.map₂ (· - ·) c off) }) -
          ∑ i, linearAt q i * off.get i, fun x => ?_⟩
        rw [collapsed_funcVal, funcVal_eq, funcVal_eq]
        have e1 : ∀ i, centerAt { q with center := some (PyVec.map₂ (· - ·) c off) } i =
            centerAt q i - off.get i := by
          intro i; simp [centerAt, hc]
        have e2 : ∀ i, linearAt { q with center := some (PyVec.map₂ (· - ·) c off) } i = linearAt q i := fun i => rfl
        simp only [e1, e2, hoff, sub_sub_sub_cancel_right, mul_sub, Finset.sum_sub_distrib]
        ring

/-- C15: `recenter(offset)` returns the (non-zero) offset and a quadratic that at `x - offset` equals `q(x)`
up to a constant independent of `x`. -/
theorem C15_recenter (q q' : Quad ι K) (offset o : Option (PyVec ι K))
    (h : q.recenter offset = some (o, q')) :
    denote o = denote offset ∧ q'.coef = q.coef ∧
    ∃ c : K, ∀ x, quadFn q'.coef (denote q'.center) (denote q'.linear) q'.const (fun i => x i - denote offset i) =
      quadFn q.coef (denote q.center) (denote q.linear) q.const x + c := by
  obtain ⟨h1, c, h2⟩ := recenter_value q q' offset o h
  refine ⟨h1, ?_, c, fun x => ?_⟩
  · unfold Quad.recenter at h
    rcases offset with _ | off
    · simp only [Option.some.injEq, Prod.mk.injEq] at h; rw [← h.2]; rfl
    · simp only at h
      split_ifs at h with hz
      · simp only [Option.some.injEq, Prod.mk.injEq] at h; rw [← h.2]; rfl
      · rcases hc : q.center with _ | c
        · rw [hc] at h; simp at h
        · rw [hc] at h; simp only [Option.some.injEq, Prod.mk.injEq] at h; rw [← h.2]; rfl
  · rw [← funcVal_quadFn, ← funcVal_quadFn, h2]

/-- C15: hence the recentred problem has the same minimisers over any set of candidates and for any penalty. -/
theorem C15_recenter_minimisers (q q' : Quad ι K) (offset o : Option (PyVec ι K))
    (h : q.recenter offset = some (o, q')) (pen : (ι → K) → K) (S : Set (ι → K)) (p : ι → K) :
    IsUniqueMinOn (fun y => q'.funcVal y + pen y) S p ↔
    IsUniqueMinOn (fun x => q.funcVal x + pen (fun i => x i - denote offset i))
      {x | (fun i => x i - denote offset i) ∈ S} (fun i => p i + denote offset i) := by
  obtain ⟨_, c, hc⟩ := recenter_value q q' offset o h
  have back : ∀ y : ι → K, (fun i => (fun j => y j + denote offset j) i - denote offset i) = y := by
    intro y; funext i; simp
  have val : ∀ y, q'.funcVal y = q.funcVal (fun i => y i + denote offset i) + c := by
    intro y; rw [← hc, back]
  unfold IsUniqueMinOn
  simp only [Set.mem_ofPred_eq, back]
  constructor
  · rintro ⟨h1, h2⟩
    refine ⟨h1, fun z hz hne => ?_⟩
    have := h2 _ hz (fun e => hne (by rw [← e]; funext i; simp))
    rw [val, hc] at this
    linarith
  · rintro ⟨h1, h2⟩
    refine ⟨h1, fun z hz hne => ?_⟩
    have := h2 (fun i => z i + denote offset i) (by rw [back]; exact hz)
      (fun e => hne (by funext i; have := congrFun e i; simpa using this))
    rw [back] at this
    rw [val, val]
    linarith

/-- C15: `recenter` only raises when a nonzero offset meets a `None` center. -/
theorem C15_recenter_raises [Nonempty ι] (q : Quad ι K) (offset : Option (PyVec ι K)) :
    q.recenter offset = none ↔ q.center = none ∧ ∃ i, denote offset i ≠ 0 := by
  unfold Quad.recenter
  rcases offset with _ | o
  · simp [denote]
  · have hz : o.allZero ↔ ∀ i, denote (some o) i = 0 := by
      cases o with
      | scalar c => simp [PyVec.allZero, denote]
      | arr v => simp [PyVec.allZero, denote]
    simp only
    split_ifs with h
    · simp only [false_iff, not_and, not_exists, not_not]
      intro _; exact hz.1 h
    · have h' : ∃ i, denote (some o) i ≠ 0 := by
        by_contra hn; push Not at hn; exact h (hz.2 hn)
      rcases hc : q.center with _ | c
      · simp [h']
      · simp

/-- C15: `true_center` is the minimiser of the quadratic. -/
theorem C15_true_center (q : Quad ι K) (c : PyVec ι K) (h : q.trueCenter = some c) :
    IsUniqueMinOn (fun x => quadFn q.coef (denote q.center) (denote q.linear) q.const x) Set.univ
      (denote (some c)) := by
  unfold Quad.trueCenter at h
  split_ifs at h with hpos
  rw [Option.some_inj] at h
  have hc : denote (some c) = fun i => -(q.collapsedLinear.get i) / q.coef := by
    funext i
    have : denote (some c) i = c.get i := by cases c <;> rfl
    rw [this, ← h, get_map]
  refine ⟨Set.mem_univ _, fun z _ hne => ?_⟩
  simp only [← funcVal_quadFn]
  have key : ∀ x, q.funcVal x = q.coef / 2 * sqDist x (denote (some c)) +
      (q.collapsed.const + q.coef / 2 * centerDefect q - (∑ i, q.collapsedLinear.get i ^ 2) / (2 * q.coef)) := by
    intro x
    have h1 := collapsed_funcVal q x
    rw [funcVal_eq q.collapsed] at h1
    have e1 : ∀ i, centerAt q.collapsed i = 0 := fun i => rfl
    have e2 : ∀ i, linearAt q.collapsed i = q.collapsedLinear.get i := fun i => rfl
    have e3 : q.collapsed.coef = q.coef := rfl
    simp only [e1, e2, e3, sub_zero] at h1
    rw [complete_square q.coef hpos.ne', ← hc] at h1
    linarith
  rw [key, key, sqDist_self, mul_zero]
  have := sqDist_pos hne
  have := mul_pos (half_pos hpos) this
  linarith

/-- C15: the conjugate of a quadratic with positive coefficient and array (or zero, or absent) center is its
Fenchel conjugate. -/
theorem C15_conjugate (q qs : Quad ι K) (hpos : 0 < q.coef) (h : q.conjugate = some qs)
    (hs : ∀ c, q.center = some (.scalar c) → c = 0 ∨ Fintype.card ι = 1) :
    IsConjugate (fun x => ((quadFn q.coef (denote q.center) (denote q.linear) q.const x : K) : WithTop K))
      (fun y => ((quadFn qs.coef (denote qs.center) (denote qs.linear) qs.const y : K) : WithTop K)) := by
  unfold Quad.conjugate at h
  rw [if_pos hpos.ne', Option.some_inj] at h
  have hd := defect_zero q hs
  intro y
  refine ⟨fun v hv => ?_, fun hv => absurd hv WithTop.coe_ne_top⟩
  rw [WithTop.coe_inj] at hv
  have hl : ∀ i, denote (some q.collapsedLinear) i = q.collapsedLinear.get i := by
    intro i; cases q.collapsedLinear <;> rfl
  have hval : v = 1 / q.coef / 2 * sqDist y (fun i => q.collapsedLinear.get i) - q.collapsed.const := by
    rw [← hv, ← h]
    simp only [quadFn, dot]
    have e0 : ∀ i, denote (some (PyVec.scalar 0 : PyVec ι K)) i = 0 := fun i => rfl
    have e1 : denote (some q.collapsedLinear) = fun i => q.collapsedLinear.get i := funext hl
    simp only [e0, e1, zero_mul, Finset.sum_const_zero]; ring
  have key : ∀ x, dot x y - quadFn q.coef (denote q.center) (denote q.linear) q.const x =
      v - q.coef / 2 * sqDist x (fun i => (y i - q.collapsedLinear.get i) / q.coef) := by
    intro x
    have h1 := collapsed_funcVal q x
    rw [hd, mul_zero, sub_zero, funcVal_eq q.collapsed] at h1
    have e1 : ∀ i, centerAt q.collapsed i = 0 := fun i => rfl
    have e2 : ∀ i, linearAt q.collapsed i = q.collapsedLinear.get i := fun i => rfl
    have e3 : q.collapsed.coef = q.coef := rfl
    simp only [e1, e2, e3, sub_zero] at h1
    rw [← funcVal_quadFn, ← h1, hval]
    have e4 : dot x y = ∑ i, y i * x i := Finset.sum_congr rfl fun i _ => mul_comm _ _
    have e5 := complete_square q.coef hpos.ne' (fun i => q.collapsedLinear.get i - y i) x
    have e6 : ∑ i, (q.collapsedLinear.get i - y i) * x i = ∑ i, q.collapsedLinear.get i * x i - ∑ i, y i * x i := by
      rw [← Finset.sum_sub_distrib]; exact Finset.sum_congr rfl fun i _ => by ring
    have e7 : (fun i => -(q.collapsedLinear.get i - y i) / q.coef) =
        fun i => (y i - q.collapsedLinear.get i) / q.coef := by funext i; ring
    have e8 : ∑ i, (q.collapsedLinear.get i - y i) ^ 2 = sqDist y (fun i => q.collapsedLinear.get i) :=
      Finset.sum_congr rfl fun i _ => by ring
    rw [e6, e7, e8] at e5
    rw [e4]
    have e9 : 1 / q.coef / 2 * sqDist y (fun i => q.collapsedLinear.get i) =
        sqDist y (fun i => q.collapsedLinear.get i) / (2 * q.coef) := by field_simp
    rw [e9]; linarith
  constructor
  · rintro t ⟨x, a, ha, rfl⟩
    rw [WithTop.coe_inj] at ha
    rw [← ha, key]
    have := mul_nonneg (half_pos hpos).le (sqDist_nonneg x (fun i => (y i - q.collapsedLinear.get i) / q.coef))
    linarith
  · intro B hB
    apply hB
    refine ⟨fun i => (y i - q.collapsedLinear.get i) / q.coef, _, rfl, ?_⟩
    rw [key, sqDist_self]; ring

/-- C15: with `coef = 0` the code raises (ImportError) instead of returning a conjugate. -/
theorem C15_conjugate_zero (q : Quad ι K) (h : q.coef = 0) : q.conjugate = none := by
  unfold Quad.conjugate; simp [h]

example : ∃ qs, (Quad.init (some (2:ℚ)) (some (.arr ![1, 2])) (some (.scalar 3)) none : Quad (Fin 2) ℚ).conjugate
    = some qs ∧ qs.coef = 1 / 2 := by
  simp [Quad.conjugate, Quad.init]

example : ∃ o q', (Quad.init (some (2:ℚ)) (some (.arr ![1, 2])) (some (.scalar 3)) none : Quad (Fin 2) ℚ).recenter
    (some (.arr ![1, 1])) = some (o, q') := by
  simp [Quad.recenter, PyVec.allZero, Quad.init]

end Verif.Props
