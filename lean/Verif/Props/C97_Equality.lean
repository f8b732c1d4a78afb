import Verif.Model.Equality
import Verif.Lemmas.MixedLasso
import Mathlib.Tactic.Linarith
import Mathlib.Tactic.NormNum
import Mathlib.Tactic.FinCases

/-!
# C97: `==` on penalties and quadratics
-/

set_option linter.unusedSectionVars false
set_option linter.unusedVariables false

namespace Verif.Props
open Verif.Model Verif.Model.Penalty Verif.Lemmas

variable {p p' p'' : ℕ}

/-- the objects a user can construct -/
def Constructed (A : Penalty p) : Prop :=
  ∃ c lagrange bound offset quadratic, Penalty.new c lagrange bound offset quadratic = some A

/-- the linear constraints, compared up to a tolerance -/
def IsLinear (A : Penalty p) : Prop := (∃ k b, A.cls = .projection k b) ∨ ∃ k b, A.cls = .complement k b

/-- the weighted norms, whose weights are compared with broadcasting -/
def IsWeighted (A : Penalty p) : Prop := ∃ w, A.cls = .weighted w

/-- the classes whose `==` looks at every parameter of the class: all but `slope`, `sparse_group_lasso`, the group LASSO
in bound form and the linear constraints -/
def ComparesAll (A : Penalty p) : Prop :=
  match A.cls with
  | .slope _ | .sparseGroup .. | .projection .. | .complement .. => False
  | .groupLasso .. => A.st.bound = none
  | _ => True

/-- classes with a mode -/
private def HasMode : PenaltyClass p → Prop
  | .plain _ | .weighted _ | .slope _ | .groupLasso .. | .sparseGroup .. => True
  | _ => False

private lemma new_st {c : PenaltyClass p} {l b o q} {A : Penalty p} (h : Penalty.new c l b o q = some A) :
    (∃ x, A.st = ⟨some x, none⟩) ∨ (∃ x, A.st = ⟨none, some x⟩) ∨ (A.st = ⟨none, none⟩ ∧ ¬ HasMode A.cls) := by
  unfold Penalty.new at h
  rcases hm : ctorMode c l b with _ | st
  · rw [hm] at h; cases h
  · rw [hm] at h
    simp only [Option.map_some, Option.some.injEq] at h
    subst h
    cases c <;> cases l <;> cases b <;> simp only [ctorMode, AtomState.init] at hm <;> (try split_ifs at hm) <;>
      (try simp only [Option.some.injEq, reduceCtorEq] at hm) <;> (try subst hm) <;>
      simp_all [HasMode, ctorClass]

private lemma st_eq_refl (s : AtomState ℝ) : s.eq s := by
  unfold AtomState.eq; rcases hb : s.bound with _ | b <;> simp

private lemma st_eq_iff {s t : AtomState ℝ} (hs : (∃ x, s = ⟨some x, none⟩) ∨ ∃ x, s = ⟨none, some x⟩)
    (ht : (∃ x, t = ⟨some x, none⟩) ∨ ∃ x, t = ⟨none, some x⟩) : s.eq t ↔ s = t := by
  rcases hs with ⟨x, rfl⟩ | ⟨x, rfl⟩ <;> rcases ht with ⟨y, rfl⟩ | ⟨y, rfl⟩ <;> simp [AtomState.eq, eq_comm]

private lemma sameLabels_refl (lab : Fin (p + 1) → ℤ) : SameLabels lab lab := ⟨rfl, fun i => rfl⟩

private lemma sameLabels_symm {lab : Fin (p + 1) → ℤ} {lab' : Fin (p' + 1) → ℤ} (h : SameLabels lab lab') :
    SameLabels lab' lab := by
  obtain ⟨rfl, h⟩ := h
  exact ⟨rfl, fun i => (h i).symm⟩

private lemma sameLabels_trans {lab : Fin (p + 1) → ℤ} {lab' : Fin (p' + 1) → ℤ} {lab'' : Fin (p'' + 1) → ℤ}
    (h : SameLabels lab lab') (h' : SameLabels lab' lab'') : SameLabels lab lab'' := by
  obtain ⟨rfl, h⟩ := h
  obtain ⟨rfl, h'⟩ := h'
  exact ⟨rfl, fun i => (h i).trans (h' i)⟩

private lemma close_self (a : ℝ) : Close a a := by
  unfold Close; rw [sub_self, abs_zero]; positivity

private lemma weightsEqual_self (w : Fin (p + 1) → WithTop ℝ) : weightsEqual w w = some true := by
  simp [weightsEqual]

private lemma linearEq_self {k : ℕ} (b : Fin k → Fin (p + 1) → ℝ) : linearEq b b = some true := by
  simp [linearEq, basesClose, close_self]

/-- **C97**: every object equals itself: `A == A` is `True` and does not raise, for every class of penalties and every
constructed object. -/
theorem C97_refl (A : Penalty p) : A.eq A = some true := by
  unfold Penalty.eq
  cases h : A.cls <;> simp [st_eq_refl, sameLabels_refl, weightsEqual_self, linearEq_self]

private lemma eq_of_cls_st {A B : Penalty p} (hc : A.cls = B.cls) (hs : A.st = B.st) : A.eq B = some true := by
  have := C97_refl A
  unfold Penalty.eq at this ⊢
  rw [← hc, ← hs]; exact this

private lemma groupDict_idem (lab : Fin (p + 1) → ℤ) (w : ℤ → Option ℝ) :
    groupDict lab (groupDict lab w) = groupDict lab w := by
  funext g
  unfold groupDict
  by_cases h : ∃ i, lab i = g
  · simp [h]
  · simp [h]

private lemma ctorClass_idem (c : PenaltyClass p) : ctorClass (ctorClass c) = ctorClass c := by
  cases c <;> simp [ctorClass, groupDict_idem]

private lemma copy_spec {A : Penalty p} (hA : Constructed A) : ∃ B, A.copy = some B ∧ B.cls = A.cls ∧ B.st = A.st ∧
    B.offset = A.offset ∧ B.quad = A.quad := by
  obtain ⟨c, l, b, o, q, h⟩ := hA
  unfold Penalty.new at h
  rcases hm : ctorMode c l b with _ | st
  · rw [hm] at h; cases h
  · rw [hm] at h
    simp only [Option.map_some, Option.some.injEq] at h
    subst h
    have hm' : ctorMode (ctorClass c) st.lagrange st.bound = some st := by
      cases c <;> cases l <;> cases b <;> simp only [ctorMode, AtomState.init] at hm <;> (try split_ifs at hm) <;>
        (try simp only [Option.some.injEq, reduceCtorEq] at hm) <;> (try subst hm) <;>
        simp_all [ctorClass, ctorMode, AtomState.init] <;>
        (try (rw [if_neg (not_lt.mpr (by assumption))]))
    refine ⟨⟨ctorClass (ctorClass c), st, ctorOffset (ctorOffset o),
      q.getD ⟨0, some (.scalar 0), some (.scalar 0), 0⟩⟩, ?_, ctorClass_idem c, rfl, ?_, rfl⟩
    · unfold Penalty.copy Penalty.new
      rw [hm']
      rfl
    · show ctorOffset (ctorOffset o) = ctorOffset o
      unfold ctorOffset
      rcases o with _ | v
      · rfl
      · by_cases hz : v.allZero
        · simp [hz]
        · simp [hz]

/-- **C97**: `copy.copy(A)` succeeds for every constructed penalty, `A == copy.copy(A)` and `copy.copy(A) == A`, and the
copy has the same value and proximal map. -/
theorem C97_copy (env : Env) (A : Penalty p) (hA : Constructed A) :
    ∃ B, A.copy = some B ∧ A.eq B = some true ∧ B.eq A = some true ∧ B.atom env = A.atom env := by
  obtain ⟨B, hB, hc, hs, ho, hq⟩ := copy_spec hA
  refine ⟨B, hB, eq_of_cls_st hc.symm hs.symm, eq_of_cls_st hc hs, ?_⟩
  have : B = A := by
    cases A; cases B; simp only at hc hs ho hq; subst hc hs ho hq; rfl
  rw [this]

private lemma weightsEqual_symm (w : Fin (p + 1) → WithTop ℝ) (w' : Fin (p' + 1) → WithTop ℝ) :
    weightsEqual w w' = weightsEqual w' w := by
  by_cases h : p = p'
  · subst h
    simp only [weightsEqual, dif_pos, Fin.cast_eq_self, Option.some.injEq, decide_eq_decide]
    exact ⟨fun h i => (h i).symm, fun h i => (h i).symm⟩
  · have h' : p' ≠ p := fun e => h e.symm
    simp only [weightsEqual, dif_neg h, dif_neg h']
    by_cases h0 : p = 0
    · have h1 : p' ≠ 0 := fun e => h (h0.trans e.symm)
      rw [if_pos h0, if_neg h1, if_pos h0]
      simp only [Option.some.injEq, decide_eq_decide]
      exact ⟨fun h i => (h i).symm, fun h i => (h i).symm⟩
    · rw [if_neg h0]
      by_cases h1 : p' = 0
      · rw [if_pos h1, if_pos h1]
        simp only [Option.some.injEq, decide_eq_decide]
        exact ⟨fun h i => (h i).symm, fun h i => (h i).symm⟩
      · rw [if_neg h1, if_neg h1, if_neg h0]

private lemma mode_of {A : Penalty p} (hA : Constructed A) (hm : HasMode A.cls) :
    (∃ x, A.st = ⟨some x, none⟩) ∨ ∃ x, A.st = ⟨none, some x⟩ := by
  obtain ⟨c, l, b, o, q, h⟩ := hA
  rcases new_st h with h | h | h
  · exact .inl h
  · exact .inr h
  · exact absurd hm h.2

private lemma st_symm {s t : AtomState ℝ} (hs : (∃ x, s = ⟨some x, none⟩) ∨ ∃ x, s = ⟨none, some x⟩)
    (ht : (∃ x, t = ⟨some x, none⟩) ∨ ∃ x, t = ⟨none, some x⟩) : s.eq t ↔ t.eq s := by
  rw [st_eq_iff hs ht, st_eq_iff ht hs, eq_comm]

/-- **C97** (missing: the linear constraints, see `C97_symm_fails`): `A == B` and `B == A` have the same outcome, for any two
constructed penalties of any shapes and classes. -/
theorem C97_symm_partial (A : Penalty p) (B : Penalty p') (hA : Constructed A) (hB : Constructed B)
    (hl : ¬ IsLinear A) : A.eq B = B.eq A := by
  have mA := mode_of hA
  have mB := mode_of hB
  unfold Penalty.eq
  rcases ha : A.cls with _ | _ | _ | ⟨_, _⟩ | _ | ⟨_, _⟩ | _ | _ | _ | _ | _ | _ | ⟨_, _⟩ | ⟨_, _⟩ <;>
  rcases hb : B.cls with _ | _ | _ | ⟨_, _⟩ | _ | ⟨_, _⟩ | _ | _ | _ | _ | _ | _ | ⟨_, _⟩ | ⟨_, _⟩ <;>
  rw [ha] at mA <;> rw [hb] at mB <;> dsimp only
  case plain.plain =>
    have := st_symm (mA trivial) (mB trivial)
    simp only [Option.some.injEq, decide_eq_decide]
    exact ⟨fun h => ⟨h.1.symm, this.1 h.2⟩, fun h => ⟨h.1.symm, this.2 h.2⟩⟩
  case weighted.weighted =>
    have := st_symm (mA trivial) (mB trivial)
    rw [weightsEqual_symm, decide_eq_decide.2 this]
  case slope.slope =>
    have := st_symm (mA trivial) (mB trivial)
    rw [decide_eq_decide.2 this]
  case projection.projection => exact absurd (.inl ⟨_, _, ha⟩) hl
  case complement.complement => exact absurd (.inr ⟨_, _, ha⟩) hl
  all_goals first
    | rfl
    | simp only [eq_comm]
    | (simp only [Option.some.injEq, decide_eq_decide]
       exact ⟨fun h => ⟨sameLabels_symm h.1, h.2.1.symm, h.2.2.symm⟩, fun h => ⟨sameLabels_symm h.1, h.2.1.symm, h.2.2.symm⟩⟩)

private lemma weightsEqual_true {w w' : Fin (p + 1) → WithTop ℝ} (h : weightsEqual w w' = some true) : w = w' := by
  simp only [weightsEqual, dif_pos, Fin.cast_eq_self, Option.some.injEq, decide_eq_true_eq] at h
  exact funext h

/-- **C97** (missing: the linear constraints; weighted norms of different lengths, see `C97_trans_fails`): if `A == B` and
`B == C` then `A == C`. -/
theorem C97_trans_partial (A : Penalty p) (B : Penalty p') (C : Penalty p'') (hA : Constructed A) (hB : Constructed B)
    (hC : Constructed C) (hl : ¬ IsLinear A) (hw : IsWeighted A → p = p' ∧ p' = p'') (hAB : A.eq B = some true)
    (hBC : B.eq C = some true) : A.eq C = some true := by
  have mA := mode_of hA
  have mB := mode_of hB
  have mC := mode_of hC
  unfold Penalty.eq at hAB hBC ⊢
  rcases ha : A.cls with _ | w | _ | ⟨_, _⟩ | _ | ⟨_, _⟩ | _ | _ | _ | _ | _ | _ | ⟨_, _⟩ | ⟨_, _⟩ <;>
  rw [ha] at hAB mA <;>
  rcases hb : B.cls with _ | w' | _ | ⟨_, _⟩ | _ | ⟨_, _⟩ | _ | _ | _ | _ | _ | _ | ⟨_, _⟩ | ⟨_, _⟩ <;>
  rw [hb] at hAB hBC mB <;> dsimp only at hAB <;>
  first
    | (simp only [Option.some.injEq, reduceCtorEq] at hAB; done)
    | skip
  case projection.projection => exact absurd (.inl ⟨_, _, ha⟩) hl
  case complement.complement => exact absurd (.inr ⟨_, _, ha⟩) hl
  all_goals
    rcases hc : C.cls with _ | w'' | _ | ⟨_, _⟩ | _ | ⟨_, _⟩ | _ | _ | _ | _ | _ | _ | ⟨_, _⟩ | ⟨_, _⟩ <;>
    rw [hc] at hBC mC <;> dsimp only at hBC ⊢ <;>
    first
      | (simp only [Option.some.injEq, reduceCtorEq] at hBC; done)
      | skip
  case plain.plain.plain =>
    simp only [Option.some.injEq, decide_eq_true_eq] at hAB hBC ⊢
    rw [st_eq_iff (mA trivial) (mB trivial)] at hAB
    rw [st_eq_iff (mB trivial) (mC trivial)] at hBC
    rw [st_eq_iff (mA trivial) (mC trivial)]
    exact ⟨hAB.1.trans hBC.1, hAB.2.trans hBC.2⟩
  case weighted.weighted.weighted =>
    obtain ⟨rfl, rfl⟩ := hw ⟨_, ha⟩
    simp only [Option.map_eq_some_iff, Bool.and_eq_true, decide_eq_true_eq] at hAB hBC ⊢
    obtain ⟨e, he, hs, rfl⟩ := hAB
    obtain ⟨e', he', hs', rfl⟩ := hBC
    rw [st_eq_iff (mA trivial) (mB trivial)] at hs
    rw [st_eq_iff (mB trivial) (mC trivial)] at hs'
    have h1 := weightsEqual_true he
    have h2 := weightsEqual_true he'
    exact ⟨true, by rw [h1, h2]; exact weightsEqual_self _, (st_eq_iff (mA trivial) (mC trivial)).2 (hs.trans hs'), rfl⟩
  case slope.slope.slope =>
    simp only [Option.some.injEq, decide_eq_true_eq] at hAB hBC ⊢
    rw [st_eq_iff (mA trivial) (mB trivial)] at hAB
    rw [st_eq_iff (mB trivial) (mC trivial)] at hBC
    rw [st_eq_iff (mA trivial) (mC trivial)]
    exact hAB.trans hBC
  all_goals
    simp only [Option.some.injEq, decide_eq_true_eq] at hAB hBC ⊢
    first
      | exact ⟨sameLabels_trans hAB.1 hBC.1, hAB.2.1.trans hBC.2.1, hAB.2.2.trans hBC.2.2⟩
      | exact hAB.trans hBC

private lemma sameLabels_eq {lab lab' : Fin (p + 1) → ℤ} (h : SameLabels lab lab') : lab = lab' := by
  obtain ⟨_, h⟩ := h
  exact funext h

/-- **C97** (missing: the classes of `C97_slope_fails`, `C97_sparse_group_fails`, `C97_group_bound_fails` and
`C97_symm_fails`; equal shape, offset and quadratic are hypotheses, see `C97_offset_fails`, `C97_quadratic_fails`,
`C97_shape_fails`): equal penalties have the same value and the same proximal map at every argument. -/
theorem C97_sound_partial (env : Env) (A B : Penalty p) (hA : Constructed A) (hB : Constructed B) (hc : ComparesAll A)
    (ho : A.offset = B.offset) (hq : A.quad = B.quad) (h : A.eq B = some true) : A.atom env = B.atom env := by
  have mA := mode_of hA
  have mB := mode_of hB
  unfold Penalty.eq at h
  unfold ComparesAll at hc
  unfold Penalty.atom
  rw [← ho, ← hq]
  rcases ha : A.cls with _ | w | _ | ⟨_, _⟩ | _ | ⟨_, _⟩ | _ | _ | _ | _ | _ | _ | ⟨_, _⟩ | ⟨_, _⟩ <;>
  rw [ha] at h mA hc <;> dsimp only at hc <;>
  rcases hb : B.cls with _ | w' | _ | ⟨_, _⟩ | _ | ⟨_, _⟩ | _ | _ | _ | _ | _ | _ | ⟨_, _⟩ | ⟨_, _⟩ <;>
  rw [hb] at h mB <;> dsimp only at h <;>
  first
    | (simp only [Option.some.injEq, reduceCtorEq] at h; done)
    | rfl
    | skip
  case plain.plain =>
    simp only [Option.some.injEq, decide_eq_true_eq] at h
    rw [st_eq_iff (mA trivial) (mB trivial)] at h
    rw [h.1, h.2]
  case weighted.weighted =>
    simp only [Option.map_eq_some_iff, Bool.and_eq_true, decide_eq_true_eq] at h
    obtain ⟨e, he, hs, rfl⟩ := h
    rw [st_eq_iff (mA trivial) (mB trivial)] at hs
    rw [weightsEqual_true he, hs]
  case groupLasso.groupLasso =>
    simp only [Option.some.injEq, decide_eq_true_eq] at h
    obtain ⟨h1, h2, h3⟩ := h
    have h4 : A.st = B.st := by
      rcases mA trivial with ⟨x, hx⟩ | ⟨x, hx⟩
      · rcases mB trivial with ⟨y, hy⟩ | ⟨y, hy⟩
        · rw [hx, hy] at h3 ⊢; simpa using h3
        · rw [hx, hy] at h3; cases h3
      · rw [hx] at hc; cases hc
    have h5 := sameLabels_eq h1
    subst h5 h2
    rw [h4]
  case mixed.mixed =>
    simp only [Option.some.injEq, decide_eq_true_eq] at h
    obtain ⟨h1, h2, h3⟩ := h
    have h5 := sameLabels_eq h1
    subst h5 h2
    rw [h3]

/-- two sparse weighted norms, one in Lagrange and one in bound form, meet the hypotheses of `C97_sound_partial` and of
`C97_trans_partial` -/
example : ∃ A : Penalty 1, Constructed A ∧ ComparesAll A ∧ ¬ IsLinear A ∧ A.eq A = some true := by
  refine ⟨⟨.weighted ![1, 2], ⟨some 1, none⟩, none, ⟨0, some (.scalar 0), some (.scalar 0), 0⟩⟩,
    ⟨.weighted ![1, 2], some 1, none, none, none, ?_⟩, trivial, ?_, C97_refl _⟩
  · simp [Penalty.new, ctorMode, AtomState.init, not_lt.2 (zero_le_one (α := ℝ)), ctorClass, ctorOffset]
  · rintro (⟨k, b, h⟩ | ⟨k, b, h⟩) <;> cases h

private lemma zero_quad (x : Fin (p + 1) → ℝ) :
    (⟨0, some (.scalar 0), some (.scalar 0), 0⟩ : Quad (Fin (p + 1)) ℝ).funcVal x = 0 := by
  simp [Quad.funcVal, PyVec.get]

private lemma new_seminorm (c : PenaltyClass p) (hc : HasMode c) {l : ℝ} (hl : 0 ≤ l) :
    Penalty.new c (some l) none none none =
      some ⟨ctorClass c, ⟨some l, none⟩, none, ⟨0, some (.scalar 0), some (.scalar 0), 0⟩⟩ := by
  cases c <;> simp only [HasMode] at hc <;>
    simp [Penalty.new, ctorMode, AtomState.init, not_lt.2 hl, ctorOffset]

/-- **C97** (fails): two `slope` penalties with the same multiplier compare equal whatever their weights, although the
penalty at the vector of ones is the multiplier times the sum of the weights. -/
theorem C97_slope_fails (env : Env) (w w' : Fin (p + 1) → ℝ) (hw : ∀ i, 0 < w i) (hw' : ∀ i, 0 < w' i)
    (hne : ∑ i, w i ≠ ∑ i, w' i) (l : ℝ) (hl : 0 < l) :
    ∃ A B : Penalty p, Penalty.new (.slope w) (some l) none none none = some A ∧
      Penalty.new (.slope w') (some l) none none none = some B ∧ A.eq B = some true ∧
      (A.atom env).nonsmooth (fun _ => 1) false = .num (l * ∑ i, w i) ∧
      (B.atom env).nonsmooth (fun _ => 1) false = .num (l * ∑ i, w' i) ∧
      l * ∑ i, w i ≠ l * ∑ i, w' i := by
  have val : ∀ v : Fin (p + 1) → ℝ, (∀ i, 0 < v i) → Slope.seminorm v (fun _ => 1) l = l * ∑ i, v i := by
    intro v hv
    unfold Slope.seminorm Slope.npSort
    congr 1
    apply Finset.sum_congr rfl
    intro i _
    simp [abs_of_pos (hv i)]
  refine ⟨_, _, new_seminorm (.slope w) trivial hl.le, new_seminorm (.slope w') trivial hl.le, ?_, ?_, ?_, ?_⟩
  · simp [Penalty.eq, ctorClass, st_eq_refl]
  · simp only [Penalty.atom, ctorClass, SeminormClass.atom, param, Slope.cls, atomShift, ObjVal.add, zero_quad,
      Option.getD_some, val w hw, add_zero]
  · simp only [Penalty.atom, ctorClass, SeminormClass.atom, param, Slope.cls, atomShift, ObjVal.add, zero_quad,
      Option.getD_some, val w' hw', add_zero]
  · exact fun h => hne (mul_left_cancel₀ hl.ne' h)

example : (∀ i, 0 < (![2, 1] : Fin 2 → ℝ) i) ∧ (∀ i, 0 < (![3, 1] : Fin 2 → ℝ) i) ∧
    ∑ i, (![2, 1] : Fin 2 → ℝ) i ≠ ∑ i, (![3, 1] : Fin 2 → ℝ) i := by
  refine ⟨?_, ?_, ?_⟩
  · intro i; fin_cases i <;> simp
  · intro i; fin_cases i <;> simp
  · simp [Fin.sum_univ_two]

/-- **C97** (fails): two `sparse_group_lasso` penalties compare equal whatever their `lasso_weights`; the two penalties differ
at the vector of ones. -/
theorem C97_sparse_group_fails (env : Env) (lab : Fin (p + 1) → ℤ) (d : ℤ → Option ℝ) (a a' : Fin (p + 1) → ℝ)
    (ha : ∀ i, 0 ≤ a i) (ha' : ∀ i, 0 ≤ a' i) (hne : ∑ i, a i ≠ ∑ i, a' i) (l : ℝ) (hl : 0 < l) :
    ∃ A B : Penalty p, Penalty.new (.sparseGroup lab a d) (some l) none none none = some A ∧
      Penalty.new (.sparseGroup lab a' d) (some l) none none none = some B ∧ A.eq B = some true ∧
      (A.atom env).nonsmooth (fun _ => 1) false ≠ (B.atom env).nonsmooth (fun _ => 1) false := by
  refine ⟨_, _, new_seminorm (.sparseGroup lab a d) trivial hl.le, new_seminorm (.sparseGroup lab a' d) trivial hl.le, ?_, ?_⟩
  · simp [Penalty.eq, ctorClass, sameLabels_refl]
  · simp only [Penalty.atom, ctorClass, SeminormClass.atom, param, SparseGroup.cls, atomShift, ObjVal.add, zero_quad,
      Option.getD_some, add_zero, SparseGroup.seminorm, one_mul, ne_eq, ObjVal.num.injEq, add_right_inj]
    intro h
    have h' := mul_left_cancel₀ hl.ne' h
    simp only [abs_of_nonneg (ha _), abs_of_nonneg (ha' _)] at h'
    exact hne h'

example : (∀ i, 0 ≤ (![2, 1] : Fin 2 → ℝ) i) ∧ (∀ i, 0 ≤ (![3, 1] : Fin 2 → ℝ) i) ∧
    ∑ i, (![2, 1] : Fin 2 → ℝ) i ≠ ∑ i, (![3, 1] : Fin 2 → ℝ) i := by
  refine ⟨?_, ?_, ?_⟩
  · intro i; fin_cases i <;> simp
  · intro i; fin_cases i <;> simp
  · simp [Fin.sum_univ_two]

private lemma l1_value (env : Env) (o : Option (PyVec (Fin (p + 1)) ℝ)) (q : Quad (Fin (p + 1)) ℝ) (x : Fin (p + 1) → ℝ) :
    ((⟨.plain .l1norm, ⟨some 1, none⟩, o, q⟩ : Penalty p).atom env).nonsmooth x false =
      .num (∑ i, |atomShift o x i| + q.funcVal x) := by
  have : ∀ a b : ℝ, ((a : WithTop ℝ) + (b : WithTop ℝ)) = ((a + b : ℝ) : WithTop ℝ) := fun a b => rfl
  rcases o with _ | o
  · simp only [Penalty.atom, AtomObj.toAtom, AtomObj.nonsmoothObjective, AtomObj.applyOffset, Klass.seminorm, L1.seminorm,
      this, one_mul, atomShift]
    rfl
  · simp only [Penalty.atom, AtomObj.toAtom, AtomObj.nonsmoothObjective, AtomObj.applyOffset, Klass.seminorm, L1.seminorm,
      this, one_mul, atomShift]
    rfl

/-- **C97** (fails): an `l1norm` with an offset and one without compare equal, in every dimension. -/
theorem C97_offset_fails (env : Env) (p : ℕ) :
    ∃ A B : Penalty p, Penalty.new (.plain .l1norm) (some 1) none none none = some A ∧
      Penalty.new (.plain .l1norm) (some 1) none (some (.arr fun _ => 1)) none = some B ∧ A.eq B = some true ∧
      (A.atom env).nonsmooth (fun _ => 1) false ≠ (B.atom env).nonsmooth (fun _ => 1) false := by
  refine ⟨_, ⟨.plain .l1norm, ⟨some 1, none⟩, some (.arr fun _ => 1), ⟨0, some (.scalar 0), some (.scalar 0), 0⟩⟩,
    new_seminorm (.plain .l1norm) trivial zero_le_one, ?_, ?_, ?_⟩
  · simp [Penalty.new, ctorMode, AtomState.init, not_lt.2 (zero_le_one (α := ℝ)), ctorClass, ctorOffset, PyVec.allZero]
  · simp [Penalty.eq, ctorClass, st_eq_refl]
  · show ((⟨.plain .l1norm, ⟨some 1, none⟩, none, ⟨0, some (.scalar 0), some (.scalar 0), 0⟩⟩ : Penalty p).atom env).nonsmooth
      _ false ≠ _
    rw [l1_value, l1_value, zero_quad]
    simp only [atomShift, PyVec.get, sub_self, abs_zero, abs_one, Finset.sum_const_zero, add_zero, ne_eq, ObjVal.num.injEq]
    simp only [Finset.sum_const, Finset.card_univ, Fintype.card_fin, nsmul_eq_mul, mul_one]
    positivity

/-- **C97** (fails): an `l1norm` with a quadratic and one without compare equal, in every dimension. -/
theorem C97_quadratic_fails (env : Env) (p : ℕ) (q : Quad (Fin (p + 1)) ℝ) (x : Fin (p + 1) → ℝ) (hq : q.funcVal x ≠ 0) :
    ∃ A B : Penalty p, Penalty.new (.plain .l1norm) (some 1) none none none = some A ∧
      Penalty.new (.plain .l1norm) (some 1) none none (some q) = some B ∧ A.eq B = some true ∧
      (A.atom env).nonsmooth x false ≠ (B.atom env).nonsmooth x false := by
  refine ⟨_, ⟨.plain .l1norm, ⟨some 1, none⟩, none, q⟩, new_seminorm (.plain .l1norm) trivial zero_le_one, ?_, ?_, ?_⟩
  · simp [Penalty.new, ctorMode, AtomState.init, not_lt.2 (zero_le_one (α := ℝ)), ctorClass, ctorOffset]
  · simp [Penalty.eq, ctorClass, st_eq_refl]
  · show ((⟨.plain .l1norm, ⟨some 1, none⟩, none, ⟨0, some (.scalar 0), some (.scalar 0), 0⟩⟩ : Penalty p).atom env).nonsmooth
      _ false ≠ _
    rw [l1_value, l1_value, zero_quad]
    simp only [ne_eq, ObjVal.num.injEq, add_right_inj]
    exact fun h => hq h.symm

example : (⟨2, some (.scalar 0), some (.scalar 0), 0⟩ : Quad (Fin 2) ℝ).funcVal (fun _ => 1) ≠ 0 := by
  simp [Quad.funcVal, Quad.resid, PyVec.get]

/-- **C97** (fails): penalties on spaces of different dimensions compare equal: `l1norm(n, lagrange=l) == l1norm(m, lagrange=l)`
for all `n`, `m`, and a weighted norm with one weight equals one with several. -/
theorem C97_shape_fails (p p' : ℕ) (l : ℝ) (hl : 0 ≤ l) :
    (∃ (A : Penalty p) (B : Penalty p'), Penalty.new (.plain .l1norm) (some l) none none none = some A ∧
      Penalty.new (.plain .l1norm) (some l) none none none = some B ∧ A.eq B = some true) ∧
    ∃ (A : Penalty 0) (B : Penalty p), Penalty.new (.weighted fun _ => 1) (some l) none none none = some A ∧
      Penalty.new (.weighted fun _ => 1) (some l) none none none = some B ∧ A.eq B = some true ∧ B.eq A = some true := by
  refine ⟨⟨_, _, new_seminorm (.plain .l1norm) trivial hl, new_seminorm (.plain .l1norm) trivial hl, ?_⟩,
    _, _, new_seminorm (.weighted fun _ => 1) trivial hl, new_seminorm (.weighted fun _ => 1) trivial hl, ?_, ?_⟩
  · simp [Penalty.eq, ctorClass, st_eq_refl]
  · simp only [Penalty.eq, ctorClass, st_eq_refl, decide_true, Bool.true_and]
    unfold weightsEqual
    by_cases h : 0 = p <;> simp [h]
  · simp only [Penalty.eq, ctorClass, st_eq_refl, decide_true, Bool.true_and]
    unfold weightsEqual
    by_cases h : p = 0 <;> simp [h]

/-- **C97** (fails): `==` of weighted norms is not transitive: weights `[1, 1] == [1] == [1, 1, 1]`, and the comparison of the
first with the last raises. -/
theorem C97_trans_fails : ∃ (A : Penalty 1) (B : Penalty 0) (C : Penalty 2), Constructed A ∧ Constructed B ∧ Constructed C ∧
    A.eq B = some true ∧ B.eq C = some true ∧ A.eq C = none := by
  refine ⟨_, _, _, ⟨.weighted fun _ => 1, some 1, none, none, none, new_seminorm (.weighted fun _ => 1) trivial zero_le_one⟩,
    ⟨.weighted fun _ => 1, some 1, none, none, none, new_seminorm (.weighted fun _ => 1) trivial zero_le_one⟩,
    ⟨.weighted fun _ => 1, some 1, none, none, none, new_seminorm (.weighted fun _ => 1) trivial zero_le_one⟩, ?_, ?_, ?_⟩
  · simp [Penalty.eq, ctorClass, st_eq_refl, weightsEqual]
  · simp [Penalty.eq, ctorClass, st_eq_refl, weightsEqual]
  · simp [Penalty.eq, ctorClass, weightsEqual]

private lemma new_bound (lab : Fin (p + 1) → ℤ) (d : ℤ → Option ℝ) {b : ℝ} (hb : 0 ≤ b) :
    Penalty.new (.groupLasso lab d) none (some b) none none =
      some ⟨.groupLasso lab (groupDict lab d), ⟨none, some b⟩, none, ⟨0, some (.scalar 0), some (.scalar 0), 0⟩⟩ := by
  simp [Penalty.new, ctorMode, AtomState.init, not_lt.2 hb, ctorOffset, ctorClass]

/-- **C97** (fails): two group LASSO constraints compare equal whatever their bounds (only `lagrange`, `None` for both, is
compared).  For every grouping with positive weights there are two bounds and a point feasible for one constraint only. -/
theorem C97_group_bound_fails (env : Env) (lab : Fin (p + 1) → ℤ) (d : ℤ → Option ℝ) (hd : ∀ g v, d g = some v → 0 < v) :
    (∀ b b' : ℝ, 0 ≤ b → 0 ≤ b' → ∃ A B : Penalty p, Penalty.new (.groupLasso lab d) none (some b) none none = some A ∧
      Penalty.new (.groupLasso lab d) none (some b') none none = some B ∧ A.eq B = some true) ∧
    ∃ (b b' : ℝ) (A B : Penalty p) (x : Fin (p + 1) → ℝ), 0 ≤ b ∧ 0 ≤ b' ∧
      Penalty.new (.groupLasso lab d) none (some b) none none = some A ∧
      Penalty.new (.groupLasso lab d) none (some b') none none = some B ∧
      (A.atom env).nonsmooth x true = .inf ∧ (B.atom env).nonsmooth x true = .num 0 := by
  constructor
  · intro b b' hb hb'
    exact ⟨_, _, new_bound lab d hb, new_bound lab d hb', by simp [Penalty.eq, sameLabels_refl]⟩
  · obtain ⟨S, hS⟩ : ∃ S, S = GroupLasso.seminorm (groupIndex lab) (weightArray lab (groupDict lab d)) (fun _ => 1) 1 :=
      ⟨_, rfl⟩
    have hmem : ∀ j : Fin (sortedIds lab).length, ∃ i, lab i = (sortedIds lab)[j] := by
      intro j
      have : (sortedIds lab)[j] ∈ sortedIds lab := List.getElem_mem _
      simp only [sortedIds, List.mem_mergeSort, List.mem_dedup, List.mem_ofFn] at this
      obtain ⟨i, hi⟩ := this
      exact ⟨i, hi⟩
    have hw : ∀ j, 0 < weightArray lab (groupDict lab d) j := by
      intro j
      obtain ⟨i, hi⟩ := hmem j
      unfold weightArray groupDict
      rw [if_pos ⟨i, hi⟩]
      simp only [Option.getD_some]
      rcases hg : d (sortedIds lab)[j] with _ | v
      · simp only [Option.getD_none]
        apply Real.sqrt_pos.2
        have : i ∈ (List.finRange (p + 1)).filter fun i => lab i = (sortedIds lab)[j] := by simp [hi]
        exact_mod_cast List.length_pos_of_mem this
      · exact hd _ _ hg
    have hpos : 0 < S := by
      rw [hS]
      unfold GroupLasso.seminorm
      rw [one_mul]
      apply Finset.sum_pos'
      · exact fun j _ => mul_nonneg (hw j).le (Real.sqrt_nonneg _)
      · refine ⟨groupIndex lab 0, Finset.mem_univ _, mul_pos (hw _) ?_⟩
        rw [normsCython_eq]
        unfold npNorm
        apply Real.sqrt_pos.2
        apply Finset.sum_pos'
        · exact fun i _ => sq_nonneg _
        · exact ⟨0, Finset.mem_univ _, by simp [rk, GroupLasso.kind]⟩
    refine ⟨S / 2, S, _, _, fun _ => 1, by linarith, hpos.le, new_bound lab d (by linarith), new_bound lab d hpos.le, ?_, ?_⟩
    · simp only [Penalty.atom, SeminormClass.atom, param, GroupLasso.cls, atomShift, GroupLasso.constraint, ← hS, zero_quad]
      rw [if_neg (show ¬ S ≤ S / 2 by linarith)]
      rfl
    · simp only [Penalty.atom, SeminormClass.atom, param, GroupLasso.cls, atomShift, GroupLasso.constraint, ← hS, zero_quad]
      rw [if_pos (le_refl S)]
      show ObjVal.num (0 + 0) = _
      rw [add_zero]

/-- **C97** (fails): equal functions may be unequal objects: a `mixed_lasso` with the default weights and one with the same
weights written out have the same value and proximal map, and compare unequal. -/
theorem C97_complete_fails (env : Env) (p : ℕ) (henum : ∀ lab : Fin (p + 1) → ℤ, MixedObj.Enumerates (env.enum lab) lab) :
    ∃ A B : Penalty p, Penalty.new (.mixed (fun _ => 0) fun _ => none) (some 1) none none none = some A ∧
      Penalty.new (.mixed (fun _ => 0) fun g => if g = 0 then some (Real.sqrt (p + 1)) else none) (some 1) none none none =
        some B ∧ A.eq B = some false ∧ A.atom env = B.atom env := by
  refine ⟨_, _, rfl, rfl, ?_, ?_⟩
  · simp only [Penalty.eq, ctorClass, Option.some.injEq, decide_eq_false_iff_not]
    rintro ⟨_, h, _⟩
    have := congrFun h 0
    simp at this
  · have hidx : ∀ j : Fin (env.enum fun _ : Fin (p + 1) => (0 : ℤ)).length, (env.enum fun _ : Fin (p + 1) => (0 : ℤ))[j] = 0 := by
      intro j
      have := ((henum fun _ => 0).2 _).1 (List.getElem_mem j.2)
      obtain ⟨⟨i, hi⟩, _⟩ := this
      exact hi.symm
    simp only [Penalty.atom, ctorClass]
    congr 1
    · funext j
      simp only [MixedObj.kind, MixedObj.groups]
      generalize List.foldl _ _ _ = o
      cases o <;> rfl
    funext j
    unfold MixedObj.weightArray
    have := hidx j
    simp only at this ⊢
    rw [this]
    simp

/-- the two lines of the witnesses: directions `(c, s)` and `(1, 0)`, `s` a little more than `1e-8` -/
private noncomputable def lineA : Fin 1 → Fin 2 → ℝ :=
  fun _ => ![(199999800 ^ 2 - 1) / (199999800 ^ 2 + 1), 2 * 199999800 / (199999800 ^ 2 + 1)]
private noncomputable def lineB : Fin 1 → Fin 2 → ℝ := fun _ => ![1, 0]
private noncomputable def objOf (b : Fin 1 → Fin 2 → ℝ) : Penalty 1 :=
  ⟨.projection 1 b, ⟨none, none⟩, none, ⟨0, some (.scalar 0), some (.scalar 0), 0⟩⟩

private lemma objOf_new (b : Fin 1 → Fin 2 → ℝ) : Penalty.new (.projection 1 b) none none none none = some (objOf b) := rfl

private lemma objOf_eq (b b' : Fin 1 → Fin 2 → ℝ) :
    ((objOf b).eq (objOf b') = some true ↔ Close (b' 0 0) (b 0 0) ∧ Close (b' 0 1) (b 0 1)) ∧
    ((objOf b).eq (objOf b') = some false ↔ ¬ (Close (b' 0 0) (b 0 0) ∧ Close (b' 0 1) (b 0 1))) := by
  have : (∀ r < 1, ∀ j, Close (bcRow b' r j) (bcRow b r j)) ↔ Close (b' 0 0) (b 0 0) ∧ Close (b' 0 1) (b 0 1) := by
    constructor
    · intro h
      exact ⟨by simpa [bcRow] using h 0 zero_lt_one 0, by simpa [bcRow] using h 0 zero_lt_one 1⟩
    · rintro ⟨h0, h1⟩ r hr j
      obtain rfl : r = 0 := by omega
      fin_cases j
      · simpa [bcRow] using h0
      · simpa [bcRow] using h1
  rw [← this]
  simp only [Penalty.eq, objOf, linearEq, basesClose, dif_pos, true_or, if_true, Fin.cast_eq_self, Option.some.injEq,
    decide_eq_true_eq, decide_eq_false_iff_not, and_self]

/-- **C97** (fails): `==` is not symmetric, and equal objects can be different constraints: there are unit vectors `u`, `v` of
the plane such that, for the projections onto the lines they span, `A == B` is `True`, `B == A` is `False`, and the proximal
maps of `A` and `B` differ. -/
theorem C97_symm_fails (env : Env) : ∃ (u v : Fin 2 → ℝ) (A B : Penalty 1), ∑ i, u i ^ 2 = 1 ∧ ∑ i, v i ^ 2 = 1 ∧
    Penalty.new (.projection 1 fun _ => u) none none none none = some A ∧
    Penalty.new (.projection 1 fun _ => v) none none none none = some B ∧ A.eq B = some true ∧ B.eq A = some false ∧
    ∃ Q, (A.atom env).proximal Q ≠ (B.atom env).proximal Q := by
  refine ⟨lineA 0, lineB 0, objOf lineA, objOf lineB, ?_, ?_, ?_, ?_, ?_, ?_, ?_⟩
  · simp only [lineA, Fin.sum_univ_two, Matrix.cons_val_zero, Matrix.cons_val_one]; norm_num
  · simp [lineB, Fin.sum_univ_two]
  · have : (fun _ : Fin 1 => lineA 0) = lineA := by funext i; rfl
    rw [this]; exact objOf_new _
  · have : (fun _ : Fin 1 => lineB 0) = lineB := by funext i; rfl
    rw [this]; exact objOf_new _
  · rw [(objOf_eq _ _).1]
    simp only [lineA, lineB, Matrix.cons_val_zero, Matrix.cons_val_one, Close]
    constructor
    · rw [abs_of_nonneg (by norm_num), abs_of_nonneg (by norm_num)]; norm_num
    · rw [abs_of_nonpos (by norm_num), abs_of_nonneg (by norm_num)]; norm_num
  · rw [(objOf_eq _ _).2]
    simp only [lineA, lineB, Matrix.cons_val_zero, Matrix.cons_val_one, Close]
    rintro ⟨_, h⟩
    rw [abs_of_nonneg (by norm_num), abs_zero] at h
    norm_num at h
  · refine ⟨⟨1, some (.arr ![1, 0]), some (.scalar 0), 0⟩, ?_⟩
    have key : ∀ b : Fin 1 → Fin 2 → ℝ, ((objOf b).atom env).proximal ⟨1, some (.arr ![1, 0]), some (.scalar 0), 0⟩ =
        .ok (fun i => b 0 0 * b 0 i) := by
      intro b
      simp only [Penalty.atom, objOf, ConeClass.atom, LinCon.projectionCls, coneProximal, Quad.add, Quad.collapsed,
        Quad.collapsedLinear, Quad.recenter, PyVec.map₂, PyVec.map, PyVec.get]
      rw [if_neg (by norm_num)]
      simp only [ProxResult.ok.injEq]
      funext i
      simp [LinCon.projectionProx, LinCon.span, Fin.sum_univ_two]
    rw [key, key]
    simp only [ne_eq, ProxResult.ok.injEq]
    intro h
    have := congrFun h 1
    simp only [lineA, lineB, Matrix.cons_val_zero, Matrix.cons_val_one] at this
    norm_num at this

/-- **C97**: the tolerance bounds the damage: if `A == B` for two linear constraints of the same class, shape and number of
basis vectors, every entry of the two bases agrees up to `1e-8 + 1e-5 * |entry of A|`. -/
theorem C97_linear_close (k : ℕ) (b b' : Fin k → Fin (p + 1) → ℝ) (A B : Penalty p)
    (hcls : (A.cls = .projection k b ∧ B.cls = .projection k b') ∨ (A.cls = .complement k b ∧ B.cls = .complement k b')) :
    A.eq B = some true ↔ ∀ r j, |b' r j - b r j| ≤ 1 / 10 ^ 8 + 1 / 10 ^ 5 * |b r j| := by
  have key : linearEq b b' = some true ↔ ∀ r j, |b' r j - b r j| ≤ 1 / 10 ^ 8 + 1 / 10 ^ 5 * |b r j| := by
    simp only [linearEq, basesClose, dif_pos, Fin.cast_eq_self, true_or, if_true, Option.some.injEq, decide_eq_true_eq]
    have : (if k = 1 then k else k) = k := by split_ifs <;> rfl
    rw [this]
    constructor
    · intro h r j
      have := h r.1 r.2 j
      simpa [bcRow, Close] using this
    · intro h r hr j
      have := h ⟨r, hr⟩ j
      simpa [bcRow, hr, Close] using this
  unfold Penalty.eq
  rcases hcls with ⟨h1, h2⟩ | ⟨h1, h2⟩ <;> rw [h1, h2] <;> exact key

example : (objOf lineA).cls = .projection 1 lineA ∧ (objOf lineB).cls = .projection 1 lineB := ⟨rfl, rfl⟩

section quadratics

variable {ι : Type*} [Fintype ι]

private lemma closeVec_self (v : Option (PyVec ι ℝ)) : Quad.closeVec v v = if v.isSome then some true else none := by
  rcases v with _ | (c | v) <;> simp [Quad.closeVec, close_self]

/-- **C97**: a quadratic equals itself exactly when it has a center and a linear term; otherwise even `q == q` raises. -/
theorem C97_quadratic_self (q : Quad ι ℝ) :
    q.eq q = if q.center.isSome ∧ q.linear.isSome then some true else none := by
  unfold Quad.eq
  rw [if_neg (not_not.2 (close_self _)), closeVec_self, closeVec_self]
  rcases q.center with _ | c <;> rcases q.linear with _ | l <;> simp [close_self]

/-- **C97**: `q == r` is `True` only if all four parts agree up to the tolerance of `allclose`. -/
theorem C97_quadratic_close (q r : Quad ι ℝ) (h : q.eq r = some true) :
    |q.coef - r.coef| ≤ 1 / 10 ^ 8 + 1 / 10 ^ 5 * |r.coef| ∧ |q.const - r.const| ≤ 1 / 10 ^ 8 + 1 / 10 ^ 5 * |r.const| ∧
    ∃ c c' l l', q.center = some c ∧ r.center = some c' ∧ q.linear = some l ∧ r.linear = some l' ∧
      ∀ i, |c.get i - c'.get i| ≤ 1 / 10 ^ 8 + 1 / 10 ^ 5 * |c'.get i| ∧
        |l.get i - l'.get i| ≤ 1 / 10 ^ 8 + 1 / 10 ^ 5 * |l'.get i| := by
  have key : ∀ u v : Option (PyVec ι ℝ), Quad.closeVec u v = some true → ∃ a b, u = some a ∧ v = some b ∧
      ∀ i, |a.get i - b.get i| ≤ 1 / 10 ^ 8 + 1 / 10 ^ 5 * |b.get i| := by
    intro u v huv
    rcases u with _ | (a | a) <;> rcases v with _ | (b | b) <;>
      simp only [Quad.closeVec, reduceCtorEq, Option.some.injEq, decide_eq_true_eq] at huv <;>
      first
        | exact ⟨_, _, rfl, rfl, fun i => huv⟩
        | exact ⟨_, _, rfl, rfl, huv⟩
  unfold Quad.eq at h
  by_cases h1 : Close q.coef r.coef
  swap
  · rw [if_pos h1] at h; simp at h
  rw [if_neg (not_not.2 h1)] at h
  rcases h2 : Quad.closeVec q.center r.center with _ | (_ | _) <;> rw [h2] at h <;> simp only [reduceCtorEq, Option.some.injEq] at h
  rcases h3 : Quad.closeVec q.linear r.linear with _ | (_ | _) <;> rw [h3] at h <;> simp only [reduceCtorEq, Option.some.injEq, decide_eq_true_eq] at h
  obtain ⟨c, c', hc, hc', hcc⟩ := key _ _ h2
  obtain ⟨l, l', hl, hl', hll⟩ := key _ _ h3
  exact ⟨h1, h, c, c', l, l', hc, hc', hl, hl', fun i => ⟨hcc i, hll i⟩⟩

example : ∃ q r : Quad (Fin 2) ℝ, q.eq r = some true := ⟨⟨1, some (.scalar 0), some (.scalar 0), 0⟩, _, by
  rw [C97_quadratic_self]; simp⟩

/-- **C97** (fails): `==` of quadratics is not symmetric. -/
theorem C97_quadratic_symm_fails : ∃ q r : Quad (Fin 1) ℝ, q.eq r = some true ∧ r.eq q = some false := by
  refine ⟨⟨1 - (1 / 10 ^ 8 + 1 / 10 ^ 5), some (.scalar 0), some (.scalar 0), 0⟩, ⟨1, some (.scalar 0), some (.scalar 0), 0⟩, ?_, ?_⟩
  · unfold Quad.eq
    rw [if_neg, closeVec_self]
    · simp [close_self]
    · rw [not_not]; unfold Close
      rw [abs_of_nonpos (by norm_num), abs_one]; norm_num
  · unfold Quad.eq
    rw [if_pos]
    unfold Close
    rw [abs_of_nonneg (by norm_num), abs_of_nonneg (by norm_num)]; norm_num

/-- **C97**: `noneify` raises for every quadratic with a center; without one it leaves the function unchanged. -/
theorem C97_noneify (q : Quad ι ℝ) :
    (q.noneify = none ↔ q.center.isSome) ∧ ∀ r, q.noneify = some r → ∀ x m, r.objective x m = q.objective x m := by
  rcases q with ⟨a, _ | c, l, k⟩
  · refine ⟨by simp [Quad.noneify], ?_⟩
    intro r hr x m
    simp only [Quad.noneify, Option.some.injEq] at hr
    subst hr
    rcases l with _ | l
    · rfl
    · by_cases hz : l.allZero
      · have hl : ∀ i, l.get i = 0 := by
          intro i; rcases l with c | v
          · exact hz
          · exact hz i
        have hg : (⟨a, none, none, k⟩ : Quad ι ℝ).gradVal x = (⟨a, none, some l, k⟩ : Quad ι ℝ).gradVal x := by
          funext i; simp [Quad.gradVal, Quad.resid, hl]
        cases m <;> simp [Quad.objective, Quad.funcVal, Quad.resid, hz, hl, hg]
      · simp [hz]
  · simp [Quad.noneify]

end quadratics

end Verif.Props
