import Verif.Model.ConjugateClass
import Verif.Props.C69_Container

/-!
# C70: the class `conjugate`
-/

set_option linter.unusedSectionVars false
set_option linter.unusedVariables false

namespace Verif.Props
open Verif.Model Verif.Lemmas Verif.Spec

variable {n : ℕ} {σ : Type}

/-- `x` or, with the option `negate`, `-x` -/
def signed (negate : Bool) (x : Fin n → ℝ) : Fin n → ℝ := if negate then fun i => -x i else x

private noncomputable def ask (C : ConjObj n σ) (v : Fin n → ℝ) : Quad (Fin n) ℝ := ConjObj.shifted C.conjQuad v

private lemma ask_arr (C : ConjObj n σ) (v : Fin n → ℝ) : ∃ w, (ask C v).linear = some (.arr w) := by
  unfold ask ConjObj.shifted
  cases C.conjQuad.linear <;> exact ⟨_, rfl⟩

private lemma ask_val (C : ConjObj n σ) (v z : Fin n → ℝ) :
    quadVal (some (ask C v)) z = quadVal (some C.conjQuad) z - dot v z := by
  show quadFn _ _ _ _ z = quadFn _ _ _ _ z - dot v z
  have h : denote (ask C v).linear = fun i => denote C.conjQuad.linear i - v i := by
    funext i
    unfold ask ConjObj.shifted denote
    rcases C.conjQuad.linear with _ | (c | l) <;> simp [PyVec.get]
  rw [h]
  have e : dot (fun i => denote C.conjQuad.linear i - v i) z = dot (denote C.conjQuad.linear) z - dot v z := by
    unfold dot; rw [← Finset.sum_sub_distrib]; exact Finset.sum_congr rfl fun i _ => by ring
  unfold quadFn
  rw [e]
  show C.conjQuad.coef / 2 * _ + _ + C.conjQuad.const = _
  have : (ask C v).center = C.conjQuad.center := rfl
  rw [this]
  ring

/-- Specification: what a user may assume of the object the conjugate is formed of.  Asked to minimise `F` plus a
quadratic with the coefficient `c`, in any internal state, the solver returns the minimiser, and `objective` reports
the value of `F` where it is finite. -/
def InnerExact (C : ConjObj n σ) (F : (Fin n → ℝ) → WithTop ℝ) : Prop :=
  (∀ s q w, q.linear = some (.arr w) → q.coef = C.conjQuad.coef →
    ∃ s' p, C.solve s q = (s', some p) ∧ IsUniqueMinTop (fun z => quadTop q z + F z) p) ∧
  ∀ p (v : ℝ), F p = ((v : ℝ) : WithTop ℝ) → C.objective p = some v

private lemma step (C : ConjObj n σ) (F : (Fin n → ℝ) → WithTop ℝ) (h : InnerExact C F) (x : Fin n → ℝ) (mode : Mode) :
    ∃ s' p, IsUniqueMinTop (fun z => quadTop (ask C (signed C.negate x)) z + F z) p ∧
      (C.smoothObjective x mode).1 = { C with inner := s', argmin := some p } ∧
      (C.smoothObjective x mode).2 = { C with inner := s', argmin := some p }.report (signed C.negate x) p mode := by
  obtain ⟨w, hw⟩ := ask_arr C (signed C.negate x)
  obtain ⟨s', p, h1, h2⟩ := h.1 C.inner (ask C (signed C.negate x)) w hw rfl
  have hr : C.smoothObjective x mode = ({ C with inner := s', argmin := some p },
      { C with inner := s', argmin := some p }.report (signed C.negate x) p mode) := by
    unfold ConjObj.smoothObjective
    simp only
    have e : ConjObj.shifted C.conjQuad (if C.negate = true then fun i => -x i else x) = ask C (signed C.negate x) := rfl
    rw [e, h1]
    rfl
  exact ⟨s', p, h2, by rw [hr], by rw [hr]⟩

private lemma after_eq (C : ConjObj n σ) (F : (Fin n → ℝ) → WithTop ℝ) (h : InnerExact C F) (calls : List ((Fin n → ℝ) × Mode)) :
    ∃ s' m, C.after calls = { C with inner := s', argmin := m } := by
  induction calls generalizing C with
  | nil => exact ⟨C.inner, C.argmin, rfl⟩
  | cons c l ih =>
    obtain ⟨s', p, -, h1, -⟩ := step C F h c.1 c.2
    have : C.after (c :: l) = ((C.smoothObjective c.1 c.2).1).after l := rfl
    rw [this, h1]
    obtain ⟨s'', m, h2⟩ := ih { C with inner := s', argmin := some p } h
    exact ⟨s'', m, by rw [h2]⟩

private lemma unique_min {Φ : (Fin n → ℝ) → WithTop ℝ} {p q : Fin n → ℝ} (hp : IsUniqueMinTop Φ p) (hq : IsUniqueMinTop Φ q) :
    p = q := by
  by_contra h
  exact absurd (hp.2 q (Ne.symm h)) (not_lt.2 (hq.2 p h).le)

/-- **C70** for every object in place of the atom whose inner minimisation is exact, after every sequence of evaluations
in any modes: `smooth_objective(x)` returns the conjugate of `F + quadratic` at `x` (at `-x` with `negate`) and the
point where the supremum is attained (its negative with `negate`), a mode other than the three documented ones raises
ValueError, and the quadratic the caller passed has its original fields. -/
theorem C70_conjugate (C : ConjObj n σ) (F : (Fin n → ℝ) → WithTop ℝ) (h : InnerExact C F) :
    ∃ V G, IsSmoothConjugate (fun z => F z + quadTop C.conjQuad z) V G ∧
      ∀ calls, (C.after calls).conjQuad = C.conjQuad ∧ ∀ x,
        ((C.after calls).smoothObjective x .func).2 = some (.val (V (signed C.negate x))) ∧
        ((C.after calls).smoothObjective x .grad).2 = some (.grad (signed C.negate (G (signed C.negate x)))) ∧
        ((C.after calls).smoothObjective x .both).2 =
          some (.both (V (signed C.negate x)) (signed C.negate (G (signed C.negate x)))) ∧
        ((C.after calls).smoothObjective x .other).2 = some .valueError := by
  have hex : ∀ v, ∃ p, IsUniqueMinTop (fun z => quadTop (ask C v) z + F z) p := by
    intro v
    obtain ⟨w, hw⟩ := ask_arr C v
    obtain ⟨s', p, -, h2⟩ := h.1 C.inner (ask C v) w hw rfl
    exact ⟨p, h2⟩
  choose G hG using hex
  have hfin : ∀ v, ∃ t : ℝ, F (G v) = ((t : ℝ) : WithTop ℝ) := by
    intro v
    have h1 := (hG v).1
    cases hF : F (G v) with
    | top => simp only at h1; rw [hF, WithTop.add_top] at h1; exact absurd rfl h1
    | coe t => exact ⟨t, rfl⟩
  choose t ht using hfin
  refine ⟨fun v => dot v (G v) - (t v + quadVal (some C.conjQuad) (G v)), G, fun z => ⟨⟨_, ?_, rfl⟩, fun x s hs hne => ?_⟩, fun calls => ?_⟩
  · simp only
    rw [ht]; unfold quadTop; rw [← WithTop.coe_add]
  · have h1 := (hG z).2 x hne
    simp only at h1 hs
    cases hF : F x with
    | top => rw [hF, WithTop.top_add] at hs; exact absurd hs (by simp)
    | coe a =>
      rw [hF] at h1 hs
      unfold quadTop at h1 hs
      rw [← WithTop.coe_add] at hs
      rw [ht, ← WithTop.coe_add, ← WithTop.coe_add, WithTop.coe_lt_coe, ask_val, ask_val] at h1
      have hs' : a + quadVal (some C.conjQuad) x = s := WithTop.coe_inj.1 hs
      linarith
  · obtain ⟨s', m, hA⟩ := after_eq C F h calls
    rw [hA]
    refine ⟨rfl, fun x => ?_⟩
    have hD : InnerExact { C with inner := s', argmin := m } F := h
    have key : ∀ mode, ∃ s'', ({ C with inner := s', argmin := m }.smoothObjective x mode).2 =
        { C with inner := s'', argmin := some (G (signed C.negate x)) }.report (signed C.negate x) (G (signed C.negate x)) mode := by
      intro mode
      obtain ⟨s'', p, h1, -, h3⟩ := step { C with inner := s', argmin := m } F hD x mode
      have hp : p = G (signed C.negate x) := unique_min h1 (hG _)
      rw [hp] at h3
      exact ⟨s'', h3⟩
    have hobj := h.2 _ _ (ht (signed C.negate x))
    have hval : -t (signed C.negate x) - C.conjQuad.funcVal (G (signed C.negate x)) + ∑ i, signed C.negate x i * G (signed C.negate x) i =
        dot (signed C.negate x) (G (signed C.negate x)) -
          (t (signed C.negate x) + quadVal (some C.conjQuad) (G (signed C.negate x))) := by
      rw [funcVal_quad]; unfold dot; ring
    refine ⟨?_, ?_, ?_, ?_⟩
    · obtain ⟨s'', h1⟩ := key .func
      rw [h1]
      simp only [ConjObj.report, hobj, Option.map_some, ConjObj.value, hval]
    · obtain ⟨s'', h1⟩ := key .grad
      rw [h1]
      rfl
    · obtain ⟨s'', h1⟩ := key .both
      rw [h1]
      simp only [ConjObj.report, hobj, Option.map_some, ConjObj.value, hval]
      rfl
    · obtain ⟨s'', h1⟩ := key .other
      rw [h1]
      rfl

/-- **C70** the second component is the gradient of the first, with or without `negate`, when `F + quadratic` is strongly
convex. -/
theorem C70_gradient {f : (Fin n → ℝ) → WithTop ℝ} {V : (Fin n → ℝ) → ℝ} {G : (Fin n → ℝ) → Fin n → ℝ} {μ : ℝ} (hμ : 0 < μ)
    (hf : StronglyConvexTop μ f) (h : IsSmoothConjugate f V G) (negate : Bool) (x : Fin n → ℝ) :
    IsGradientAt (fun x => V (signed negate x)) (signed negate (G (signed negate x))) x := by
  cases negate with
  | false => exact smoothConj_gradient hμ hf h x
  | true =>
    have h1 := smoothConj_gradient hμ hf h (signed true x)
    unfold IsGradientAt at h1 ⊢
    have h2 : HasFDerivAt (fun x : Fin n → ℝ => signed true x) (-ContinuousLinearMap.id ℝ (Fin n → ℝ)) x :=
      (hasFDerivAt_id x).neg
    refine (h1.comp x h2).congr_fderiv ?_
    ext v
    simp [signed]

/-- **C70** the constructor raises ValueError exactly when the quadratic coefficients of the atom and of the quadratic add
to zero; otherwise the quadratic used is the one passed, zero if there is none. -/
theorem C70_constructor (solve : σ → Quad (Fin n) ℝ → σ × Option (Fin n → ℝ)) (objective : (Fin n → ℝ) → Option ℝ)
    (atomQuad : Quad (Fin n) ℝ) (s : σ) (quadratic : Option (Quad (Fin n) ℝ)) (negate : Bool) :
    (ConjObj.init solve objective atomQuad s quadratic negate = none ↔
      atomQuad.coef + (quadratic.elim 0 fun q => q.coef) = 0) ∧
    ∀ C, ConjObj.init solve objective atomQuad s quadratic negate = some C → C.negate = negate ∧
      (∀ q, quadratic = some q → C.conjQuad = q) ∧ (quadratic = none → ∀ z, quadTop C.conjQuad z = 0) := by
  have hc : (atomQuad.add (some (quadratic.getD ⟨0, some (.scalar 0), some (.scalar 0), 0⟩))).coef =
      atomQuad.coef + (quadratic.elim 0 fun q => q.coef) := by
    cases quadratic <;> rfl
  unfold ConjObj.init
  simp only
  rw [hc]
  by_cases h : atomQuad.coef + (quadratic.elim 0 fun q => q.coef) = 0
  · rw [if_pos h]
    exact ⟨⟨fun _ => h, fun _ => rfl⟩, fun C hC => by cases hC⟩
  · rw [if_neg h]
    refine ⟨⟨fun hC => (by simp at hC), fun h' => absurd h' h⟩, fun C hC => ?_⟩
    injection hC with hC
    subst hC
    refine ⟨rfl, fun q hq => by subst hq; rfl, fun hq z => ?_⟩
    subst hq
    show ((quadFn _ _ _ _ z : ℝ) : WithTop ℝ) = 0
    simp [quadFn, sqDist, dot, denote]

/-! ### the atoms of the library -/

/-- Specification: the function denoted by a seminorm atom with mode and parameter, including its quadratic -/
noncomputable def atomFull (a : AtomObj (Fin (n + 1)) ℝ) (b : Bool) (r : ℝ) (z : Fin (n + 1) → ℝ) : WithTop ℝ :=
  penaltyOrBound a.klass b r (fun i => z i - offAt a.offset i) + quadTop a.quad z

/-- the seminorm part of an atom is convex -/
lemma seminorm_base_convex (a : AtomObj (Fin (n + 1)) ℝ) (b : Bool) {r : ℝ} (hr : 0 ≤ r) :
    ConvexTop (fun z => penaltyOrBound a.klass b r (fun i => z i - offAt a.offset i)) := by
  have h := denoteAtom_convex (k := n) { a with quad := ⟨0, some (.scalar 0), some (.scalar 0), 0⟩ } b hr
  have e : denoteAtom { a with quad := ⟨0, some (.scalar 0), some (.scalar 0), 0⟩ } b r =
      fun z => penaltyOrBound a.klass b r (fun i => z i - offAt a.offset i) := by
    funext z
    unfold denoteAtom atomFn penaltyOrBound
    have : (dot (linearAt (⟨0, some (.scalar 0), some (.scalar 0), 0⟩ : Quad (Fin (n + 1)) ℝ)) z + 0 : ℝ) = 0 := by
      simp [dot, linearAt]
    rw [this]
    simp
  rw [e] at h
  exact h

/-- a convex function plus two quadratics is strongly convex with the sum of the coefficients -/
lemma strong_add_quads {g : (Fin n → ℝ) → WithTop ℝ} (hg : ConvexTop g) (p q : Quad (Fin n) ℝ) :
    StronglyConvexTop (p.coef + q.coef) (fun z => g z + quadTop p z + quadTop q z) := by
  intro u v a b ha hb t ht ht1
  have hu : ∃ c : ℝ, g u = ((c : ℝ) : WithTop ℝ) := by
    cases h : g u with
    | top => simp only [h, WithTop.top_add] at ha; exact absurd ha (by simp)
    | coe c => exact ⟨c, rfl⟩
  have hv : ∃ c : ℝ, g v = ((c : ℝ) : WithTop ℝ) := by
    cases h : g v with
    | top => simp only [h, WithTop.top_add] at hb; exact absurd hb (by simp)
    | coe c => exact ⟨c, rfl⟩
  obtain ⟨c, hc⟩ := hu
  obtain ⟨d, hd⟩ := hv
  obtain ⟨e, he1, he2⟩ := hg u v c d hc hd t ht ht1
  obtain ⟨e', he1', he2'⟩ := quad_strong p u v _ _ rfl rfl t ht ht1
  obtain ⟨e'', he1'', he2''⟩ := quad_strong q u v _ _ rfl rfl t ht ht1
  simp only [hc, hd] at ha hb
  unfold quadTop at ha hb
  rw [← WithTop.coe_add, ← WithTop.coe_add] at ha hb
  have ha' := WithTop.coe_inj.1 ha
  have hb' := WithTop.coe_inj.1 hb
  refine ⟨e + e' + e'', ?_, ?_⟩
  · simp only
    rw [he1, he1', he1'', WithTop.coe_add, WithTop.coe_add]
  · rw [← ha', ← hb']
    linarith

/-- **C70** the seminorm atoms of the library, in penalty or bound form, with any offset and any quadratic, meet the
hypotheses: the constructor succeeds when the coefficients add to a positive number, the inner minimisation is exact,
and the function conjugated is strongly convex. -/
theorem C70_seminorm (a : AtomObj (Fin (n + 1)) ℝ) (b : Bool) (r : ℝ) (hm : InMode a b r)
    (quadratic : Option (Quad (Fin (n + 1)) ℝ)) (negate : Bool)
    (hpos : 0 < a.quad.coef + (quadratic.elim 0 fun q => q.coef)) :
    ∃ C, ConjObj.init a.innerSolve a.innerObjective a.quad () quadratic negate = some C ∧ InnerExact C (atomFull a b r) ∧
      StronglyConvexTop (a.quad.coef + (quadratic.elim 0 fun q => q.coef)) (fun z => atomFull a b r z + quadTop C.conjQuad z) := by
  set q := quadratic.getD ⟨0, some (.scalar 0), some (.scalar 0), 0⟩ with hq
  have hqc : q.coef = (quadratic.elim 0 fun q => q.coef) := by rw [hq]; cases quadratic <;> rfl
  have hbase : ∀ z : Fin (n + 1) → ℝ, penaltyOrBound a.klass b r z = atomBase a.klass b r z := fun z => rfl
  refine ⟨⟨a.innerSolve, a.innerObjective, a.quad, (), q, negate, none⟩, ?_, ⟨?_, ?_⟩, ?_⟩
  · unfold ConjObj.init
    simp only
    rw [if_neg]
    show a.quad.coef + q.coef ≠ 0
    rw [hqc]
    exact hpos.ne'
  · intro s q' w hw hc
    have hc' : q'.coef = q.coef := hc
    obtain ⟨p, h1, h2, h3⟩ := obj_prox a b r hm q' w hw (by rw [hc', hqc]; exact hpos)
    refine ⟨(), p, ?_, ?_, fun z hz => ?_⟩
    · show a.innerSolve s q' = _
      unfold AtomObj.innerSolve
      rw [h1]
    · unfold atomFull quadTop
      simp only [hbase]
      obtain ⟨v, hv⟩ := WithTop.ne_top_iff_exists.1 (show atomBase a.klass b r (fun i => p i - offAt a.offset i) ≠ ⊤ from h2)
      rw [← hv, ← WithTop.coe_add, ← WithTop.coe_add]
      exact WithTop.coe_ne_top
    · unfold atomFull quadTop
      simp only [hbase]
      obtain ⟨v, hv⟩ := WithTop.ne_top_iff_exists.1 (show atomBase a.klass b r (fun i => p i - offAt a.offset i) ≠ ⊤ from h2)
      rw [← hv, ← WithTop.coe_add, ← WithTop.coe_add]
      cases hF : atomBase a.klass b r (fun i => z i - offAt a.offset i) with
      | top => rw [WithTop.top_add, WithTop.add_top]; exact WithTop.coe_lt_top _
      | coe u =>
        have h4 := h3 z (show atomBase a.klass b r (fun i => z i - offAt a.offset i) ≠ ⊤ by rw [hF]; exact WithTop.coe_ne_top) hz
        simp only [hF, ← hv, WithTop.untopD_coe] at h4
        rw [← WithTop.coe_add, ← WithTop.coe_add, WithTop.coe_lt_coe]
        linarith
  · intro p v hv
    show a.innerObjective p = some v
    have hdom : atomBase a.klass b r (fun i => p i - offAt a.offset i) ≠ ⊤ := by
      intro h
      unfold atomFull at hv
      rw [hbase, h, WithTop.top_add] at hv
      exact absurd hv (by simp)
    unfold AtomObj.innerObjective
    rw [obj_value a b r hm p hdom]
    unfold atomFull quadTop at hv
    rw [hbase, ← funcVal_quad] at hv
    rw [hv]
    simp [finite?]
  · rw [← hqc]
    exact strong_add_quads (seminorm_base_convex a b hm.1) a.quad q

/-! ### interrupted evaluations -/

/-- **C70** fails at crash points: when the inner minimisation raises (or is interrupted), the quadratic the caller passed
keeps the shifted linear term, so that the object, and everything else using that quadratic, stands for another function
from then on. -/
theorem C70_exception_fails :
    (∀ (C : ConjObj n σ) (x : Fin n → ℝ) (mode : Mode), (∀ s q, (C.solve s q).2 = none) →
      (C.smoothObjective x mode).2 = none ∧
      ∀ z, quadTop (C.smoothObjective x mode).1.conjQuad z =
        ((quadVal (some C.conjQuad) z - dot (signed C.negate x) z : ℝ) : WithTop ℝ)) ∧
    ∃ (C : ConjObj 1 Unit) (x : Fin 1 → ℝ), (C.smoothObjective x .both).1.conjQuad ≠ C.conjQuad := by
  have key : ∀ {n : ℕ} {σ : Type} (C : ConjObj n σ) (x : Fin n → ℝ) (mode : Mode), (∀ s q, (C.solve s q).2 = none) →
      (C.smoothObjective x mode).2 = none ∧ (C.smoothObjective x mode).1.conjQuad = ask C (signed C.negate x) := by
    intro n σ C x mode h
    have h1 := h C.inner (ask C (signed C.negate x))
    have hr : C.smoothObjective x mode = ((⟨C.solve, C.objective, C.atomQuad, (C.solve C.inner (ask C (signed C.negate x))).1,
        ask C (signed C.negate x), C.negate, C.argmin⟩ : ConjObj n σ), none) := by
      unfold ConjObj.smoothObjective
      simp only
      have e : ConjObj.shifted C.conjQuad (if C.negate = true then fun i => -x i else x) = ask C (signed C.negate x) := rfl
      rw [e]
      have h2 : C.solve C.inner (ask C (signed C.negate x)) = ((C.solve C.inner (ask C (signed C.negate x))).1, none) :=
        Prod.ext rfl h1
      rw [h2]
    rw [hr]
    exact ⟨rfl, rfl⟩
  refine ⟨fun C x mode h => ⟨(key C x mode h).1, fun z => ?_⟩,
    ⟨fun s _ => (s, none), fun _ => none, ⟨1, some (.scalar 0), some (.scalar 0), 0⟩, (), ⟨0, some (.scalar 0), none, 0⟩, false, none⟩,
    fun _ => 1, ?_⟩
  · rw [(key C x mode h).2]
    unfold quadTop
    rw [ask_val]
  · rw [(key _ _ _ (fun s q => rfl)).2]
    intro h
    have := congrArg Quad.linear h
    simp [ask, ConjObj.shifted] at this

/-- the hypotheses are met: `conjugate(l1norm(2, lagrange=1), identity_quadratic(1, 0, 0, 0), negate=True)` -/
example : ∃ C, ConjObj.init (AtomObj.innerSolve (n := 1) ⟨.l1norm, ⟨some 1, none⟩, none, ⟨0, some (.scalar 0), some (.scalar 0), 0⟩⟩)
    (AtomObj.innerObjective (n := 1) ⟨.l1norm, ⟨some 1, none⟩, none, ⟨0, some (.scalar 0), some (.scalar 0), 0⟩⟩)
    ⟨0, some (.scalar 0), some (.scalar 0), 0⟩ () (some ⟨1, some (.scalar 0), some (.scalar 0), 0⟩) true = some C ∧
    InnerExact C (atomFull (n := 1) ⟨.l1norm, ⟨some 1, none⟩, none, ⟨0, some (.scalar 0), some (.scalar 0), 0⟩⟩ false 1) := by
  obtain ⟨C, h1, h2, -⟩ := C70_seminorm (n := 1) ⟨.l1norm, ⟨some 1, none⟩, none, ⟨0, some (.scalar 0), some (.scalar 0), 0⟩⟩ false 1
    ⟨by norm_num, rfl⟩ (some ⟨1, some (.scalar 0), some (.scalar 0), 0⟩) true (by norm_num)
  exact ⟨C, h1, h2⟩

end Verif.Props
