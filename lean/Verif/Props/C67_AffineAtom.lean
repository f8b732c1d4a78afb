import Verif.Model.AffineAtom
import Verif.Props.C48_Smoothed
import Verif.Props.C26_Smooth

/-!
# C67: penalties of affine functions

`cls.affine(D, α, ...)`, `cls.linear(D, ...)` and `cls.shift(α, ...)` denote `h(D x + α)`; their `dual` and `smoothed`
agree with that function.  Calling the constructor `affine_atom` on a transform with an offset gives `h(D x - α)`.
-/

set_option linter.unusedSectionVars false
set_option linter.unusedVariables false

namespace Verif.Props
open Verif.Model Verif.Lemmas Verif.Spec

variable {m k : ℕ}

/-- Specification: the penalty `r h(z)`, or the indicator of `h(z) ≤ r` in bound form, at the point `z`. -/
noncomputable def penaltyOrBound (c : Klass) (bound : Bool) (r : ℝ) (z : Fin (k + 1) → ℝ) : WithTop ℝ := by
  classical
  exact if bound then (if z ∈ ballOf c r then 0 else ⊤) else penalty c r z

/-- Specification: `h(D x + α) + q(D x)`. -/
noncomputable def composedFn (c : Klass) (bound : Bool) (r : ℝ) (D : (Fin m → ℝ) → Fin (k + 1) → ℝ)
    (α : Fin (k + 1) → ℝ) (q : (Fin (k + 1) → ℝ) → ℝ) (x : Fin m → ℝ) : WithTop ℝ :=
  penaltyOrBound c bound r (fun i => D x i + α i) + ((q (D x) : ℝ) : WithTop ℝ)

/-- Specification: the function denoted by the `quadratic` argument; no argument means zero. -/
noncomputable def quadArg (q : Option (Quad (Fin (k + 1)) ℝ)) (z : Fin (k + 1) → ℝ) : ℝ :=
  match q with
  | none => 0
  | some q => quadFn q.coef (denote q.center) (denote q.linear) q.const z

/-- the keyword arguments `lagrange=`, `bound=` selecting the mode -/
def modeArgs (bound : Bool) (r : ℝ) : Option ℝ × Option ℝ := if bound then (none, some r) else (some r, none)

/-! ### helper lemmas -/

private lemma quadArg_eq (q : Option (Quad (Fin (k + 1)) ℝ)) (z : Fin (k + 1) → ℝ) :
    (q.getD ⟨0, some (.scalar 0), some (.scalar 0), 0⟩).funcVal z = quadArg q z := by
  cases q with
  | none => rw [funcVal_eq]; simp [quadArg, linearAt, PyVec.get]
  | some q =>
    have h := C14_objective_func (some q.coef) q.center q.linear (some q.const) z
    have e : Quad.init (some q.coef) q.center q.linear (some q.const) = q := rfl
    rw [e] at h
    unfold Quad.objective at h
    simpa [quadArg] using h

private lemma off_neg (o : Option (PyVec (Fin (k + 1)) ℝ)) (i : Fin (k + 1)) :
    offAt (some (negOffset o)) i = -offAt o i := by
  rcases o with _ | (c | v) <;> simp [offAt, negOffset, PyVec.get]

private lemma apply_eq (a : AtomObj (Fin (k + 1)) ℝ) (z : Fin (k + 1) → ℝ) :
    a.applyOffset z = fun i => z i - offAt a.offset i := by
  unfold AtomObj.applyOffset offAt
  cases a.offset with
  | none => funext i; simp
  | some o => rfl

private lemma seminorm_penalty (c : Klass) (hc : c ≠ .constrainedMax ∧ c ≠ .constrainedPositivePart) (r : ℝ) (cf : Bool)
    (z : Fin (k + 1) → ℝ) : c.seminorm z r cf = penalty c r z := by
  cases c with
  | l1norm => rfl
  | supnorm => rfl
  | l2norm => rfl
  | positivePart => rfl
  | maxPositivePart => simp only [penalty, Klass.seminorm, MaxPosPart.seminorm]; rw [mul_comm]; rfl
  | constrainedMax => exact absurd rfl hc.1
  | constrainedPositivePart => exact absurd rfl hc.2

private lemma constraint_ball (c : Klass) (r : ℝ) (hr : 0 ≤ r)
    (hc : c = .l1norm ∨ c = .supnorm ∨ c = .l2norm ∨ c = .positivePart) (z : Fin (k + 1) → ℝ)
    (hz : z ∈ ballOf c r ∨ z ∉ ballOf c (r * (1 + 1 / 10 ^ 5))) :
    c.constraint z r = penaltyOrBound c true r z := by
  let a0 : AtomObj (Fin (k + 1)) ℝ := ⟨c, ⟨none, some r⟩, none, ⟨0, some (.scalar 0), some (.scalar 0), 0⟩⟩
  have e : (fun i => z i - offAt a0.offset i) = z := by funext i; simp [a0, offAt]
  have h := C13_value_bound a0 r ⟨hr, rfl⟩ rfl hc z (by rw [e]; exact hz)
  have q0 : a0.quad.funcVal z = 0 := quadArg_eq none z
  have e1 : a0.nonsmoothObjective z true = some (c.constraint z r + ((0 : ℝ) : WithTop ℝ)) := by
    unfold AtomObj.nonsmoothObjective
    simp only [q0]; rfl
  have e2 : denoteAtom a0 true r z = penaltyOrBound c true r z + ((0 : ℝ) : WithTop ℝ) := by
    have h0 : dot (linearAt a0.quad) z + a0.quad.const = 0 := by simp [a0, dot, linearAt, PyVec.get]
    unfold denoteAtom atomFn penaltyOrBound
    rw [e, h0]
  rw [e1, e2] at h
  simpa using h

private lemma asOperator_lin (T l : Aff ℝ m k) (h : T.asOperator = some l) : l.lin = T.lin ∧ l.adj = T.adj ∧ l.aff = T.aff := by
  unfold Aff.asOperator at h
  by_cases hT : T.isLinearTransform = true
  · rw [if_pos hT] at h; injection h with h; subst h; exact ⟨rfl, rfl, rfl⟩
  · rw [if_neg hT] at h
    cases ho : T.off with
    | missing => rw [ho] at h; cases h
    | none => rw [ho] at h; injection h with h; subst h; exact ⟨rfl, rfl, rfl⟩
    | arr v => rw [ho] at h; injection h with h; subst h; exact ⟨rfl, rfl, rfl⟩

/-- the atom stored in the object built by `affine` -/
private noncomputable def built (c : Klass) (o : Option (PyVec (Fin (k + 1)) ℝ)) (bound : Bool) (r : ℝ)
    (q : Option (Quad (Fin (k + 1)) ℝ)) : AtomObj (Fin (k + 1)) ℝ :=
  ⟨c, if bound then ⟨none, some r⟩ else ⟨some r, none⟩, ctorOffset (ctorOffset (some (negOffset o))),
    q.getD ⟨0, some (.scalar 0), some (.scalar 0), 0⟩⟩

private lemma init_ok (bound : Bool) {r : ℝ} (hr : 0 ≤ r) :
    AtomState.init (modeArgs bound r).1 (modeArgs bound r).2 =
      .ok (if bound then ⟨none, some r⟩ else ⟨some r, none⟩) := by
  cases bound <;> simp [modeArgs, AtomState.init, not_lt.2 hr]

private lemma init_ok' (bound : Bool) {r : ℝ} (hr : 0 ≤ r) :
    let st : AtomState ℝ := if bound then ⟨none, some r⟩ else ⟨some r, none⟩
    AtomState.init st.lagrange st.bound = .ok st := by
  cases bound <;> simp [AtomState.init, not_lt.2 hr]

private lemma affine_eq (c : Klass) (T l : Aff ℝ m (k + 1)) (hl : T.asOperator = some l) (hoff : l.off = .none)
    (o : Option (PyVec (Fin (k + 1)) ℝ)) (bound : Bool) {r : ℝ} (hr : 0 ≤ r) (q : Option (Quad (Fin (k + 1)) ℝ)) :
    AtomObj.affine c T o (modeArgs bound r).1 (modeArgs bound r).2 q = some ⟨built c o bound r q, l⟩ := by
  unfold AtomObj.affine
  rw [hl]
  unfold AtomObj.new
  simp only [init_ok bound hr]
  unfold AffAtom.init AtomObj.copy
  simp only [init_ok' bound hr, hoff]
  rfl

private lemma built_off (c : Klass) (o : Option (PyVec (Fin (k + 1)) ℝ)) (bound : Bool) (r : ℝ)
    (q : Option (Quad (Fin (k + 1)) ℝ)) (i : Fin (k + 1)) : offAt (built c o bound r q).offset i = -offAt o i := by
  unfold built
  rw [offAt_ctor, offAt_ctor, off_neg]

private lemma value_eq (a : AtomObj (Fin (k + 1)) ℝ) (bound : Bool) (r : ℝ) (hr : 0 ≤ r)
    (hst : a.st = if bound then ⟨none, some r⟩ else ⟨some r, none⟩) (z : Fin (k + 1) → ℝ) (cf : Bool)
    (hc : (bound = false ∧ a.klass ≠ .constrainedMax ∧ a.klass ≠ .constrainedPositivePart) ∨
      (bound = true ∧ cf = true ∧
        (a.klass = .l1norm ∨ a.klass = .supnorm ∨ a.klass = .l2norm ∨ a.klass = .positivePart) ∧
        ((fun i => z i - offAt a.offset i) ∈ ballOf a.klass r ∨
          (fun i => z i - offAt a.offset i) ∉ ballOf a.klass (r * (1 + 1 / 10 ^ 5))))) :
    a.nonsmoothObjective z cf =
      some (penaltyOrBound a.klass bound r (fun i => z i - offAt a.offset i) + ((a.quad.funcVal z : ℝ) : WithTop ℝ)) := by
  unfold AtomObj.nonsmoothObjective
  rcases hc with ⟨hb, hc⟩ | ⟨hb, hcf, hc, hz⟩
  · subst hb
    simp only [hst, apply_eq, Bool.false_eq_true, if_false]
    rw [seminorm_penalty _ hc]; rfl
  · subst hb; subst hcf
    simp only [hst, apply_eq, if_true]
    rw [constraint_ball _ r hr hc _ hz]

/-! ### values -/

/-- **C67** (penalty form) `cls.affine(D, α, lagrange=r, quadratic=q)`, and `cls.linear(D, offset=α, ...)`, build a
penalty whose value at every `x` is `r h(D x + α) + q(D x)`: the two sign conventions for offsets cancel.  Every class
with full domain, every transform whose operator carries no offset, with or without feasibility check. -/
theorem C67_affine_lagrange (c : Klass) (hc : c ≠ .constrainedMax ∧ c ≠ .constrainedPositivePart) (r : ℝ) (hr : 0 ≤ r)
    (T l : Aff ℝ m (k + 1)) (hl : T.asOperator = some l) (hoff : l.off = .none) (α : Option (PyVec (Fin (k + 1)) ℝ))
    (q : Option (Quad (Fin (k + 1)) ℝ)) :
    ∃ A, AtomObj.affine c T α (some r) none q = some A ∧
      ∀ x cf, A.nonsmoothObjective x cf = some (composedFn c false r T.lin (denote α) (quadArg q) x) := by
  refine ⟨_, affine_eq c T l hl hoff α false hr q, fun x cf => ?_⟩
  unfold AffAtom.nonsmoothObjective
  dsimp only
  rw [value_eq _ false r hr rfl _ cf (Or.inl ⟨rfl, hc⟩), (asOperator_lin T l hl).1]
  unfold composedFn
  rw [← quadArg_eq]
  congr 3
  funext i
  rw [built_off]
  have : denote α i = offAt α i := by rcases α with _ | (c | v) <;> rfl
  rw [this]; ring

/-- **C67** (bound form) `cls.affine(D, α, bound=r, quadratic=q)` with feasibility check is `q(D x)` when
`h(D x + α) ≤ r` and `+∞` outside, up to the relative tolerance `1e-5` of the bound; without feasibility check it is
`q(D x)` everywhere. -/
theorem C67_affine_bound (c : Klass) (hc : c = .l1norm ∨ c = .supnorm ∨ c = .l2norm ∨ c = .positivePart) (r : ℝ)
    (hr : 0 ≤ r) (T l : Aff ℝ m (k + 1)) (hl : T.asOperator = some l) (hoff : l.off = .none)
    (α : Option (PyVec (Fin (k + 1)) ℝ)) (q : Option (Quad (Fin (k + 1)) ℝ)) :
    ∃ A, AtomObj.affine c T α none (some r) q = some A ∧
      (∀ x, ((fun i => T.lin x i + denote α i) ∈ ballOf c r ∨
          (fun i => T.lin x i + denote α i) ∉ ballOf c (r * (1 + 1 / 10 ^ 5))) →
        A.nonsmoothObjective x true = some (composedFn c true r T.lin (denote α) (quadArg q) x)) ∧
      ∀ x, A.nonsmoothObjective x false = some ((quadArg q (T.lin x) : ℝ) : WithTop ℝ) := by
  refine ⟨_, affine_eq c T l hl hoff α true hr q, fun x hx => ?_, fun x => ?_⟩
  · have e : (fun i => l.lin x i - offAt (built c α true r q).offset i) = fun i => T.lin x i + denote α i := by
      funext i
      rw [built_off, (asOperator_lin T l hl).1]
      have : denote α i = offAt α i := by rcases α with _ | (c | v) <;> rfl
      rw [this]; ring
    unfold AffAtom.nonsmoothObjective
    dsimp only
    rw [value_eq (built c α true r q) true r hr rfl (l.lin x) true (Or.inr ⟨rfl, rfl, hc, by rw [e]; exact hx⟩)]
    unfold composedFn
    rw [e, (asOperator_lin T l hl).1, ← quadArg_eq]
    rfl
  · unfold AffAtom.nonsmoothObjective AtomObj.nonsmoothObjective
    dsimp only
    rw [(asOperator_lin T l hl).1, ← quadArg_eq]
    simp [built]

/-- **C67** `cls.shift(α, lagrange=r, quadratic=q)` has the value `r h(x + α) + q(x)`. -/
theorem C67_shift_lagrange (c : Klass) (hc : c ≠ .constrainedMax ∧ c ≠ .constrainedPositivePart) (r : ℝ) (hr : 0 ≤ r)
    (α : Fin (k + 1) → ℝ) (q : Option (Quad (Fin (k + 1)) ℝ)) :
    ∃ a, AtomObj.shift c α (some r) none q = some a ∧
      ∀ x cf, a.nonsmoothObjective x cf = some (composedFn c false r (fun x => x) α (quadArg q) x) := by
  refine ⟨⟨c, ⟨some r, none⟩, ctorOffset (some (.arr fun i => -α i)), q.getD ⟨0, some (.scalar 0), some (.scalar 0), 0⟩⟩, ?_,
    fun x cf => ?_⟩
  · unfold AtomObj.shift AtomObj.new
    simp [AtomState.init, not_lt.2 hr]
  · rw [value_eq _ false r hr rfl _ cf (Or.inl ⟨rfl, hc⟩)]
    unfold composedFn
    rw [← quadArg_eq]
    congr 3
    funext i
    dsimp only
    rw [offAt_ctor]
    simp [offAt, PyVec.get]

/-- the argument of the theorem above is not vacuous: `l1norm.affine([[1,-1]], 3)` in dimension 2 has value
`2 |x0 - x1 + 3| = 8` at `(2, 1)`. -/
example : ∃ A, AtomObj.affine (k := 0) .l1norm (.matrix ![![1, -1]] none : Aff ℝ 2 1) (some (.arr ![3])) (some 2) none none =
      some A ∧ A.nonsmoothObjective ![2, 1] false = some ((8 : ℝ) : WithTop ℝ) := by
  obtain ⟨A, h1, h2⟩ := C67_affine_lagrange (m := 2) (k := 0) .l1norm (by decide) 2 (by norm_num)
    (.matrix ![![1, -1]] none) (.matrix ![![1, -1]] none) rfl rfl (some (.arr ![3])) none
  refine ⟨A, h1, ?_⟩
  rw [h2]
  norm_num [composedFn, penaltyOrBound, penalty, quadArg, Aff.lin, Aff.meth, denote, Fin.sum_univ_two]

/-! ### duality -/

private lemma built_copy (c : Klass) (b : Bool) {r : ℝ} (hr : 0 ≤ r) (α : Option (PyVec (Fin (k + 1)) ℝ))
    (hα : ∀ s, α ≠ some (.scalar s)) (q : Option (Quad (Fin (k + 1)) ℝ)) :
    ∃ a, (built c α b r q).copy = some a ∧ a.klass = c ∧ InMode a b r ∧ a.quad = (built c α b r q).quad ∧
      (∀ i, offAt a.offset i = -offAt α i) ∧ ArrayOffset a := by
  refine ⟨⟨c, if b then ⟨none, some r⟩ else ⟨some r, none⟩, ctorOffset (built c α b r q).offset, (built c α b r q).quad⟩,
    ?_, rfl, ⟨hr, rfl⟩, rfl, fun i => by rw [offAt_ctor, built_off], ?_⟩
  · unfold AtomObj.copy built
    simp only [init_ok' b hr]
  · intro s
    rcases α with _ | (s' | v)
    · simp [built, negOffset, ctorOffset, PyVec.allZero]
    · exact absurd rfl (hα s')
    · simp only [built, negOffset, ctorOffset]
      by_cases h0 : (PyVec.arr fun i => -v i : PyVec (Fin (k + 1)) ℝ).allZero
      · simp [h0]
      · simp [h0]

/-- **C67** the pair `(D, g)` returned by `dual` represents the penalty: `g` is an atom in the other mode and, for
every `x`, `h(D x + α) + ⟨l, D x⟩ + c = sup_u ⟨u, D x⟩ - g(u)`; where the left side is `+∞` the right side is
unbounded. -/
theorem C67_dual (c : Klass) (b : Bool) (r : ℝ) (hr : 0 ≤ r) (T l : Aff ℝ m (k + 1)) (hl : T.asOperator = some l)
    (hoff : l.off = .none) (α : Option (PyVec (Fin (k + 1)) ℝ)) (hα : ∀ s, α ≠ some (.scalar s))
    (q : Option (Quad (Fin (k + 1)) ℝ)) (hq : ∀ q', q = some q' → q'.coef = 0) :
    ∃ A D g, AtomObj.affine c T α (modeArgs b r).1 (modeArgs b r).2 q = some A ∧ A.dual = some (D, .atom g) ∧
      D.lin = T.lin ∧ D.adj = T.adj ∧ InMode g (!b) r ∧ g.quad.coef = 0 ∧
      ∀ x, (∀ v : ℝ, composedFn c b r T.lin (denote α) (quadArg q) x = v →
          IsLUB {t : ℝ | ∃ u s, denoteAtom g (!b) r u = ((s : ℝ) : WithTop ℝ) ∧ t = dot u (T.lin x) - s} v) ∧
        (composedFn c b r T.lin (denote α) (quadArg q) x = ⊤ →
          ¬ BddAbove {t : ℝ | ∃ u s, denoteAtom g (!b) r u = ((s : ℝ) : WithTop ℝ) ∧ t = dot u (T.lin x) - s}) := by
  obtain ⟨a, ha, hk, hm, haq, hao, harr⟩ := built_copy c b hr α hα q
  have hcoef : a.quad.coef = 0 := by
    rw [haq]
    cases q with
    | none => rfl
    | some q' => exact hq q' rfl
  have hinit : AtomState.init a.st.bound a.st.lagrange = .ok (if (!b) then ⟨none, some r⟩ else ⟨some r, none⟩) := by
    rw [hm.2]; cases b <;> simp [AtomState.init, not_lt.2 hr]
  refine ⟨_, l, ⟨c.conj, (if (!b) then ⟨none, some r⟩ else ⟨some r, none⟩), ctorOffset (workOutConjugate a.offset a.quad).1,
    (workOutConjugate a.offset a.quad).2⟩, affine_eq c T l hl hoff α b hr q, ?_, (asOperator_lin T l hl).1,
    (asOperator_lin T l hl).2.1, ⟨hr, rfl⟩, rfl, ?_⟩
  · unfold AffAtom.dual
    rw [ha]
    have hg : a.getConjugate = .atom ⟨c.conj, (if (!b) then ⟨none, some r⟩ else ⟨some r, none⟩),
        ctorOffset (workOutConjugate a.offset a.quad).1, (workOutConjugate a.offset a.quad).2⟩ := by
      unfold AtomObj.getConjugate
      rw [if_pos hcoef]
      simp only [hinit, hk]
    rw [Option.map_some, hg]
  · set g : AtomObj (Fin (k + 1)) ℝ := ⟨c.conj, (if (!b) then ⟨none, some r⟩ else ⟨some r, none⟩),
      ctorOffset (workOutConjugate a.offset a.quad).1, (workOutConjugate a.offset a.quad).2⟩ with hgdef
    have hkk : c.conj.conj = c := by cases c <;> rfl
    have hconj := C13_atomFn_conjugate (n := k) c.conj (!b) hr (offAt g.offset) (linearAt g.quad) g.quad.const
    have e1 : offAt g.offset = linearAt a.quad := by
      funext i; rw [hgdef]; dsimp only; rw [offAt_ctor]; rfl
    have e2 : linearAt g.quad = offAt a.offset := linearAt_work a
    have e3 : g.quad.const = -a.quad.const - dot (offAt a.offset) (linearAt a.quad) := const_work a harr
    have e4 : -g.quad.const - dot (offAt g.offset) (linearAt g.quad) = a.quad.const := by
      rw [e1, e2, e3]
      have : dot (linearAt a.quad) (offAt a.offset) = dot (offAt a.offset) (linearAt a.quad) := by
        unfold dot; exact Finset.sum_congr rfl fun i _ => mul_comm _ _
      rw [this]; ring
    rw [e4, hkk, Bool.not_not] at hconj
    intro x
    have hx := hconj (T.lin x)
    have hval : atomFn c b r (linearAt g.quad) (offAt g.offset) a.quad.const (T.lin x) =
        composedFn c b r T.lin (denote α) (quadArg q) x := by
      have e5 : (fun i => T.lin x i - linearAt g.quad i) = fun i => T.lin x i + denote α i := by
        funext i
        rw [e2, hao]
        have : denote α i = offAt α i := by rcases α with _ | (c | v) <;> rfl
        rw [this]; ring
      have e6 : dot (offAt g.offset) (T.lin x) + a.quad.const = quadArg q (T.lin x) := by
        rw [← quadArg_eq, e1]
        have : (q.getD ⟨0, some (.scalar 0), some (.scalar 0), 0⟩) = a.quad := by rw [haq]; rfl
        rw [this, funcVal_eq, hcoef]
        unfold dot; ring
      unfold composedFn penaltyOrBound atomFn
      rw [e5, e6]
    rw [← hval]
    exact hx

/-- the dual atom of `cls.linear(T, ...)`: the conjugate class in the other mode, with no offset and no linear term -/
lemma dual_plain (c : Klass) (b : Bool) (r : ℝ) (hr : 0 ≤ r) (T l : Aff ℝ m (k + 1)) (hl : T.asOperator = some l)
    (hoff : l.off = .none) :
    ∃ A g, AtomObj.affine c T none (modeArgs b r).1 (modeArgs b r).2 none = some A ∧ A.dual = some (l, .atom g) ∧
      g.klass = c.conj ∧ InMode g (!b) r ∧ g.quad.coef = 0 ∧ (∀ i, offAt g.offset i = 0) ∧ (∀ i, linearAt g.quad i = 0) ∧
      g.quad.const = 0 := by
  obtain ⟨a, ha, hk, hm, haq, hao, harr⟩ := built_copy c b hr none (by simp) (none : Option (Quad (Fin (k + 1)) ℝ))
  have hcoef : a.quad.coef = 0 := by rw [haq]; rfl
  have hlin0 : ∀ i, linearAt a.quad i = 0 := by intro i; rw [haq]; rfl
  have hoff0 : ∀ i, offAt a.offset i = 0 := by intro i; rw [hao]; simp [offAt]
  have hinit : AtomState.init a.st.bound a.st.lagrange = .ok (if (!b) then ⟨none, some r⟩ else ⟨some r, none⟩) := by
    rw [hm.2]; cases b <;> simp [AtomState.init, not_lt.2 hr]
  refine ⟨_, ⟨c.conj, (if (!b) then ⟨none, some r⟩ else ⟨some r, none⟩), ctorOffset (workOutConjugate a.offset a.quad).1,
    (workOutConjugate a.offset a.quad).2⟩, affine_eq c T l hl hoff none b hr none, ?_, rfl, ⟨hr, rfl⟩, rfl, fun i => ?_,
    fun i => ?_, ?_⟩
  · unfold AffAtom.dual
    rw [ha]
    have hg : a.getConjugate = .atom ⟨c.conj, (if (!b) then ⟨none, some r⟩ else ⟨some r, none⟩),
        ctorOffset (workOutConjugate a.offset a.quad).1, (workOutConjugate a.offset a.quad).2⟩ := by
      unfold AtomObj.getConjugate
      rw [if_pos hcoef]
      simp only [hinit, hk]
    rw [Option.map_some, hg]
  · show offAt (ctorOffset (workOutConjugate a.offset a.quad).1) i = 0
    rw [offAt_ctor]; exact hlin0 i
  · have : linearAt (workOutConjugate a.offset a.quad).2 = offAt a.offset := linearAt_work a
    show linearAt (workOutConjugate a.offset a.quad).2 i = 0
    rw [this]; exact hoff0 i
  · have : (workOutConjugate a.offset a.quad).2.const = -a.quad.const - dot (offAt a.offset) (linearAt a.quad) := const_work a harr
    show (workOutConjugate a.offset a.quad).2.const = 0
    rw [this]
    have h0 : a.quad.const = 0 := by rw [haq]; rfl
    rw [h0]
    unfold dot
    simp [hlin0]

/-- **C67** conjugating the dual atom gives the penalty back: the atom `c'` obtained is in the original mode and denotes
`z ↦ r h(z + α) + q(z)` (or the bound form), and the operator returned by `dual` acts as the one given. -/
theorem C67_double_dual (c : Klass) (b : Bool) (r : ℝ) (hr : 0 ≤ r) (T l : Aff ℝ m (k + 1)) (hl : T.asOperator = some l)
    (hoff : l.off = .none) (α : Option (PyVec (Fin (k + 1)) ℝ)) (hα : ∀ s, α ≠ some (.scalar s))
    (q : Option (Quad (Fin (k + 1)) ℝ)) (hq : ∀ q', q = some q' → q'.coef = 0) :
    ∃ A D g c', AtomObj.affine c T α (modeArgs b r).1 (modeArgs b r).2 q = some A ∧ A.dual = some (D, .atom g) ∧
      D.lin = T.lin ∧ D = l ∧ g.getConjugate = .atom c' ∧ InMode c' b r ∧ c'.quad.coef = 0 ∧
      ∀ z, denoteAtom c' b r z = composedFn c b r (fun z => z) (denote α) (quadArg q) z := by
  obtain ⟨a, ha, hk, hm, haq, hao, harr⟩ := built_copy c b hr α hα q
  have hcoef : a.quad.coef = 0 := by
    rw [haq]
    cases q with
    | none => rfl
    | some q' => exact hq q' rfl
  obtain ⟨a', a'', h1, h2, h3, h4, h5, h6, h7, h8, h9⟩ := C13_involution a b r hm hcoef
  refine ⟨_, l, a', a'', affine_eq c T l hl hoff α b hr q, ?_, (asOperator_lin T l hl).1, rfl, h2, ⟨hr, ?_⟩, ?_, fun z => ?_⟩
  · unfold AffAtom.dual
    rw [ha, Option.map_some, h1]
  · rw [h4]; exact hm.2
  · rw [h6, hcoef]
  · rw [h9]
    have e5 : (fun i => z i - offAt a.offset i) = fun i => z i + denote α i := by
      funext i
      rw [hao]
      have : denote α i = offAt α i := by rcases α with _ | (c | v) <;> rfl
      rw [this]; ring
    have e6 : dot (linearAt a.quad) z + a.quad.const = quadArg q z := by
      rw [← quadArg_eq]
      have : (q.getD ⟨0, some (.scalar 0), some (.scalar 0), 0⟩) = a.quad := by rw [haq]; rfl
      rw [this, funcVal_eq, hcoef]
      unfold dot; ring
    unfold denoteAtom composedFn penaltyOrBound atomFn
    rw [e5, e6, hk]

private lemma smoothed_core (c : Klass) (b : Bool) (r : ℝ) (hr : 0 ≤ r) (l : Aff ℝ m (k + 1))
    (α : Option (PyVec (Fin (k + 1)) ℝ)) (hα : ∀ s, α ≠ some (.scalar s))
    (q : Option (Quad (Fin (k + 1)) ℝ)) (hq : ∀ q', q = some q' → q'.coef = 0)
    (sq : Quad (Fin (k + 1)) ℝ) (hsq : 0 < sq.coef) (hcen : ArrayCenter sq) :
    ∃ s V G, AffAtom.smoothed ⟨built c α b r q, l⟩ sq = some (s, l) ∧ Evaluates s.smoothObjective V G ∧
      (∀ fstar, IsConjugate (fun z => composedFn c b r (fun z => z) (denote α) (quadArg q) z) fstar →
        IsSmoothedBy fstar (smoothingFn sq) V G) ∧ ∀ x, IsGradientAt V (G x) x := by
  obtain ⟨a, ha, hk, hm, haq, hao, harr⟩ := built_copy c b hr α hα q
  have hcoef : a.quad.coef = 0 := by
    rw [haq]
    cases q with
    | none => rfl
    | some q' => exact hq q' rfl
  obtain ⟨s, hs, -, V, G, hE, hsm, hgrad, -⟩ := C48_smoothed a b r hm hcoef harr sq hsq hcen
  have hden : denoteAtom a b r = fun z => composedFn c b r (fun z => z) (denote α) (quadArg q) z := by
    funext z
    have e5 : (fun i => z i - offAt a.offset i) = fun i => z i + denote α i := by
      funext i
      rw [hao]
      have : denote α i = offAt α i := by rcases α with _ | (c | v) <;> rfl
      rw [this]; ring
    have e6 : dot (linearAt a.quad) z + a.quad.const = quadArg q z := by
      rw [← quadArg_eq]
      have : (q.getD ⟨0, some (.scalar 0), some (.scalar 0), 0⟩) = a.quad := by rw [haq]; rfl
      rw [this, funcVal_eq, hcoef]
      unfold dot; ring
    unfold denoteAtom composedFn penaltyOrBound atomFn
    rw [e5, e6, hk]
  have hres : AffAtom.smoothed ⟨built c α b r q, l⟩ sq = some (s, l) := by
    obtain ⟨a', h1, hm', hq', -⟩ := C13_conjugate a b r hm hcoef harr
    unfold AtomObj.smoothed at hs
    rw [h1] at hs
    dsimp only at hs
    rw [if_neg hsq.ne'] at hs
    unfold AffAtom.smoothed AffAtom.dual
    rw [ha, Option.map_some, h1]
    dsimp only
    have ht : (sq.add (some a'.quad)).coef ≠ 0 := by
      show sq.coef + a'.quad.coef ≠ 0
      rw [hq', add_zero]; exact hsq.ne'
    rw [if_neg ht]
    cases hg : ({ a' with quad := sq.add (some a'.quad) } : AtomObj (Fin (k + 1)) ℝ).getConjugate with
    | raised e => rw [hg] at hs; cases hs
    | atom d => rw [hg] at hs; cases hs
    | smoothConjugate d =>
      rw [hg] at hs
      dsimp only at hs ⊢
      cases hi : SmoothConj.init d with
      | none => rw [hi] at hs; cases hs
      | some s' => rw [hi] at hs; injection hs with hs; rw [hs]; rfl
  exact ⟨s, V, G, hres, hE, fun fstar hf => hsm fstar (by rw [hden]; exact hf), hgrad⟩

/-- **C67** `smoothed(q)` of such a penalty, with `coef q > 0`, is a smooth function of `x`: the value is
`sup_u ⟨D x, u⟩ - h*(u) - q(u)` with `h*` the conjugate of `z ↦ h(z + α) + ...`, the vector returned is its gradient.
The transform has no offset of its own and selects no position twice. -/
theorem C67_smoothed_partial (c : Klass) (b : Bool) (r : ℝ) (hr : 0 ≤ r) (T l : Aff ℝ m (k + 1)) (hT : distinctSelectors T)
    (hlin : ∀ x, T.aff x = T.lin x) (hl : T.asOperator = some l)
    (hoff : l.off = .none) (α : Option (PyVec (Fin (k + 1)) ℝ)) (hα : ∀ s, α ≠ some (.scalar s))
    (q : Option (Quad (Fin (k + 1)) ℝ)) (hq : ∀ q', q = some q' → q'.coef = 0)
    (sq : Quad (Fin (k + 1)) ℝ) (hsq : 0 < sq.coef) (hcen : ArrayCenter sq) :
    ∃ A res V G, AtomObj.affine c T α (modeArgs b r).1 (modeArgs b r).2 q = some A ∧ A.smoothed sq = some res ∧
      Evaluates (smoothedObjective res) (fun x => V (T.lin x)) (fun x => T.adj (G (T.lin x))) ∧
      (∀ fstar, IsConjugate (fun z => composedFn c b r (fun z => z) (denote α) (quadArg q) z) fstar →
        IsSmoothedBy fstar (smoothingFn sq) V G) ∧
      ∀ x, IsGradientAt (fun x => V (T.lin x)) (T.adj (G (T.lin x))) x := by
  obtain ⟨s, V, G, hres, hE, hsm, hgrad⟩ := smoothed_core c b r hr l α hα q hq sq hsq hcen
  obtain ⟨l1, l2, l3⟩ := asOperator_lin T l hl
  have hv := C26_value l s.smoothObjective V G hE
  have hv' : Evaluates (smoothedObjective (s, l)) (fun x => V (T.lin x)) (fun x => T.adj (G (T.lin x))) := by
    have e : (fun x => V (l.aff x)) = fun x => V (T.lin x) := by funext x; rw [l3, hlin]
    have e' : (fun x => l.adj (G (l.aff x))) = fun x => T.adj (G (T.lin x)) := by funext x; rw [l3, l2, hlin]
    rw [e, e'] at hv
    exact hv
  refine ⟨_, _, V, G, affine_eq c T l hl hoff α b hr q, hres, hv', hsm, fun x => ?_⟩
  obtain ⟨F, G', hE', hF, hg'⟩ := C26_chain_rule_partial T hT s.smoothObjective V G hE x (hgrad _)
  have hvT := C26_value T s.smoothObjective V G hE x
  have eG : G' x = T.adj (G (T.lin x)) := by
    have h1 := (hE' x).2.1
    rw [hvT.2.1] at h1
    injection h1 with h1
    rw [← h1]
    dsimp only
    rw [hlin]
  have eF : F = fun x => V (T.lin x) := by funext y; rw [hF, hlin]
  rw [eF, eG] at hg'
  exact hg'

/-- the hypotheses of the theorem are met: the fused difference `x0 - x1` with offset and a smoothing quadratic -/
example : distinctSelectors (.matrix ![![1, -1]] none : Aff ℝ 2 1) ∧
    (∀ x, (Aff.matrix ![![1, -1]] none : Aff ℝ 2 1).aff x = (Aff.matrix ![![1, -1]] none : Aff ℝ 2 1).lin x) ∧
    (Aff.matrix ![![1, -1]] none : Aff ℝ 2 1).asOperator = some (.matrix ![![1, -1]] none) ∧
    (Aff.matrix ![![1, -1]] none : Aff ℝ 2 1).off = .none :=
  ⟨trivial, fun _ => rfl, rfl, rfl⟩

/-! ### a transform with its own offset -/

/-- **C67** (negation for the constructor) `affine_atom(atom, affine_transform(D, α))` is documented to evaluate
`h(D x + α)`.  It evaluates `h(D x - α)`: for every matrix, every `α` and every full domain class in penalty form
without offset and quadratic. -/
theorem C67_constructor_subtracts (c : Klass) (hc : c ≠ .constrainedMax ∧ c ≠ .constrainedPositivePart) (r : ℝ) (hr : 0 ≤ r)
    (D : Fin (k + 1) → Fin m → ℝ) (α : Fin (k + 1) → ℝ) :
    ∃ a A, AtomObj.new c (some r) none none none = some a ∧ AffAtom.init a (.matrix D (some α)) = some A ∧
      ∀ x cf, A.nonsmoothObjective x cf = some (penalty c r (fun i => ∑ j, D i j * x j - α i)) := by
  refine ⟨⟨c, ⟨some r, none⟩, none, ⟨0, some (.scalar 0), some (.scalar 0), 0⟩⟩,
    ⟨⟨c, ⟨some r, none⟩, ctorOffset (some (.arr α)), ⟨0, some (.scalar 0), some (.scalar 0), 0⟩⟩, .matrix D none⟩, ?_, ?_,
    fun x cf => ?_⟩
  · unfold AtomObj.new; simp [AtomState.init, not_lt.2 hr, ctorOffset]
  · unfold AffAtom.init AtomObj.copy
    simp [AtomState.init, not_lt.2 hr, ctorOffset, Aff.off, Aff.meth, Aff.Off.ofOption, addAtomOffset, Aff.linearPart]
  · unfold AffAtom.nonsmoothObjective
    dsimp only
    rw [value_eq _ false r hr rfl _ cf (Or.inl ⟨rfl, hc⟩)]
    have h0 := quadArg_eq (k := k) none ((Aff.matrix D none : Aff ℝ m (k + 1)).lin x)
    rw [Option.getD_none] at h0
    dsimp only
    rw [h0, offAt_ctor]
    simp only [quadArg, WithTop.coe_zero, add_zero]
    rfl

/-- **C67** the same for an atom which has an offset `β` of its own, evaluating `h(z - β)`: the object built evaluates
`h(D x - β - α)`. -/
theorem C67_constructor_offset (c : Klass) (hc : c ≠ .constrainedMax ∧ c ≠ .constrainedPositivePart) (r : ℝ) (hr : 0 ≤ r)
    (D : Fin (k + 1) → Fin m → ℝ) (α β : Fin (k + 1) → ℝ) :
    ∃ a A, AtomObj.new c (some r) none (some (.arr β)) none = some a ∧ AffAtom.init a (.matrix D (some α)) = some A ∧
      (∀ z cf, a.nonsmoothObjective z cf = some (penalty c r (fun i => z i - β i))) ∧
      ∀ x cf, A.nonsmoothObjective x cf = some (penalty c r (fun i => ∑ j, D i j * x j - β i - α i)) := by
  obtain ⟨o, ho, hoff⟩ : ∃ o, addAtomOffset (ctorOffset (ctorOffset (some (.arr β)))) α = some o ∧
      offAt o = fun i => β i + α i := by
    by_cases h : (PyVec.arr β : PyVec (Fin (k + 1)) ℝ).allZero
    · have e : ctorOffset (some (.arr β)) = (none : Option (PyVec (Fin (k + 1)) ℝ)) := by simp [ctorOffset, h]
      refine ⟨ctorOffset (some (.arr α)), by rw [e]; rfl, ?_⟩
      rw [offAt_ctor]
      have hb : offAt (some (PyVec.arr β)) = offAt (none : Option (PyVec (Fin (k + 1)) ℝ)) := by rw [← e, offAt_ctor]
      funext i
      have := congrFun hb i
      have h0 : β i = 0 := this
      show α i = _
      rw [h0, zero_add]
    · have e : ctorOffset (some (.arr β)) = some (PyVec.arr β) := by simp [ctorOffset, h]
      exact ⟨some (.arr fun i => β i + α i), by rw [e, e]; rfl, rfl⟩
  refine ⟨⟨c, ⟨some r, none⟩, ctorOffset (some (.arr β)), ⟨0, some (.scalar 0), some (.scalar 0), 0⟩⟩,
    ⟨⟨c, ⟨some r, none⟩, o, ⟨0, some (.scalar 0), some (.scalar 0), 0⟩⟩, .matrix D none⟩, ?_, ?_,
    fun z cf => ?_, fun x cf => ?_⟩
  · unfold AtomObj.new; simp [AtomState.init, not_lt.2 hr]
  · unfold AffAtom.init AtomObj.copy
    simp only [AtomState.init, Aff.off, Aff.meth, Aff.Off.ofOption, Aff.linearPart]
    simp [not_lt.2 hr, ho]
  · rw [value_eq _ false r hr rfl _ cf (Or.inl ⟨rfl, hc⟩)]
    have h0 := quadArg_eq (k := k) none z
    rw [Option.getD_none] at h0
    dsimp only
    rw [h0, offAt_ctor]
    simp only [quadArg, WithTop.coe_zero, add_zero]
    rfl
  · unfold AffAtom.nonsmoothObjective
    dsimp only
    rw [value_eq _ false r hr rfl _ cf (Or.inl ⟨rfl, hc⟩)]
    have h0 := quadArg_eq (k := k) none ((Aff.matrix D none : Aff ℝ m (k + 1)).lin x)
    rw [Option.getD_none] at h0
    dsimp only
    rw [h0, hoff]
    simp only [quadArg, WithTop.coe_zero, add_zero]
    congr 1
    show penalty c r (fun i => ∑ j, D i j * x j - (β i + α i)) = _
    congr 1
    funext i
    ring

/-- **C67** fails for the constructor: with `D = 1`, `α = 1`, `x = 1` the documented value of the absolute value of
`D x + α` is 2, the value returned is 0. -/
theorem C67_constructor_sign_fails :
    ∃ a A, AtomObj.new (k := 0) .l1norm (some 1) none none none = some a ∧
      AffAtom.init a (.matrix ![![1]] (some ![1]) : Aff ℝ 1 1) = some A ∧
      A.nonsmoothObjective ![1] false = some ((0 : ℝ) : WithTop ℝ) ∧
      penalty (n := 0) .l1norm 1 ((Aff.matrix ![![1]] (some ![1]) : Aff ℝ 1 1).aff ![1]) = ((2 : ℝ) : WithTop ℝ) := by
  obtain ⟨a, A, h1, h2, h3⟩ := C67_constructor_subtracts (k := 0) (m := 1) .l1norm (by decide) 1 (by norm_num) ![![1]] ![1]
  refine ⟨a, A, h1, h2, ?_, ?_⟩
  · rw [h3]; norm_num [penalty]
  · norm_num [penalty, Aff.aff, Aff.meth, Aff.Off.ofOption, Aff.Off.addTo]

/-- **C67** fails for operators with an offset: given `affine_transform(D, β)` as operator, `cls.linear` drops `β` in
`nonsmooth_objective` but keeps it in `smoothed`.  With `D = 1`, `β = 1`: at `x = 0` the value is `|0|`, while the
smoothed version, which should never exceed it, is positive (it is the smoothed absolute value at `1`). -/
theorem C67_operator_offset_fails :
    ∃ A res, AtomObj.affine (k := 0) .l1norm (.matrix ![![1]] (some ![1]) : Aff ℝ 1 1) none (some 1) none none = some A ∧
      A.nonsmoothObjective ![0] false = some ((0 : ℝ) : WithTop ℝ) ∧
      A.smoothed ⟨1, some (.scalar 0), some (.scalar 0), 0⟩ = some res ∧
      ∃ v, smoothedObjective res ![0] .func = .val v ∧ 0 < v := by
  let T : Aff ℝ 1 1 := .matrix ![![1]] (some ![1])
  have hl : T.asOperator = some (.wrap T none) := rfl
  obtain ⟨s, V, G, hres, hE, hsm, -⟩ := smoothed_core (k := 0) .l1norm false 1 (by norm_num) (.wrap T none) none (by simp) none
    (by simp) ⟨1, some (.scalar 0), some (.scalar 0), 0⟩ (by norm_num) (by intro c hc; simp at hc; exact hc.symm)
  refine ⟨_, _, affine_eq (k := 0) .l1norm T _ hl rfl none false (by norm_num : (0:ℝ) ≤ 1) none, ?_, hres, ?_⟩
  · obtain ⟨A, h1, h2⟩ := C67_affine_lagrange (k := 0) .l1norm (by decide) 1 (by norm_num) T _ hl rfl none none
    have h3 := affine_eq (k := 0) .l1norm T _ hl rfl none false (by norm_num : (0:ℝ) ≤ 1) none
    have h4 : some A = some _ := h1.symm.trans h3
    injection h4 with h4
    rw [← h4, h2]
    simp [composedFn, penaltyOrBound, penalty, quadArg, T, Aff.lin, Aff.meth, denote]
  · refine ⟨V ((Aff.wrap T none).aff ![0]), (C26_value (.wrap T none) s.smoothObjective V G hE ![0]).1, ?_⟩
    have e : (Aff.wrap T none).aff ![0] = ![1] := by
      funext i
      fin_cases i
      simp [T, Aff.aff, Aff.meth, Aff.Off.ofOption, Aff.Off.addTo]
    rw [e]
    have hconj := C13_atomFn_conjugate (n := 0) .l1norm false (zero_le_one (α := ℝ)) (fun _ => 0) (fun _ => 0) 0
    have hS := hsm (atomFn (n := 0) Klass.l1norm.conj (!false) 1 (fun _ => 0) (fun _ => 0)
      (-0 - dot (fun _ : Fin 1 => (0:ℝ)) (fun _ => 0))) (by
        have e2 : (fun z => composedFn (k := 0) .l1norm false 1 (fun z => z) (denote none) (quadArg none) z) =
            atomFn (n := 0) .l1norm false 1 (fun _ => 0) (fun _ => 0) 0 := by
          funext z
          simp [composedFn, penaltyOrBound, atomFn, denote, quadArg, dot]
        rw [e2]; exact hconj) ![1]
    obtain ⟨⟨s', hs1, hs2⟩, hlt⟩ := hS
    have hval : atomFn (n := 0) Klass.l1norm.conj (!false) 1 (fun _ => 0) (fun _ => 0)
      (-0 - dot (fun _ : Fin 1 => (0:ℝ)) (fun _ => 0)) ![1/2] = ((0 : ℝ) : WithTop ℝ) := by
      have hmem : (fun i : Fin 1 => (![1/2] : Fin 1 → ℝ) i - (fun _ => (0:ℝ)) i) ∈ ballOf (n := 0) Klass.l1norm.conj 1 := by
        intro i; fin_cases i; norm_num [abs_le]
      unfold atomFn
      rw [if_pos (by rfl), if_pos hmem]
      simp [dot]
    have hq : smoothingFn (n := 0) ⟨1, some (.scalar 0), some (.scalar 0), 0⟩ ![1/2] = 1/8 := by
      norm_num [smoothingFn, quadFn, denote, sqDist, dot]
    have hd : dot (![1] : Fin 1 → ℝ) ![1/2] = 1/2 := by simp [dot]
    by_cases hG : ![1/2] = G ![1]
    · rw [← hG] at hs1 hs2
      rw [hval] at hs1
      have : (0:ℝ) = s' := by exact_mod_cast hs1
      rw [hs2, hq, hd, ← this]; norm_num
    · have := hlt ![1/2] 0 hval hG
      rw [hq, hd] at this
      linarith

end Verif.Props
