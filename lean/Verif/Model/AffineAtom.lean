import Verif.Model.Smoothed
import Verif.Model.Smooth

/-!
# Model of `affine_atom` (`regreg/atoms/__init__.py:96-197`) and of the class methods `affine`, `linear`, `shift`
(`regreg/atoms/seminorms.py:525-567`)

An operator argument is a transform `T : Aff ℝ m (k + 1)`: an array `D` is `.matrix D none`, a diagonal array with
`diag=True` is `.diag d none`.  Exceptions are `none`.
-/

namespace Verif.Model

open Verif.Spec (Mode Eval)

variable {m k : ℕ}

/-- `isinstance(T, linear_transform)`, by the class statements of `affine/__init__.py` (lines 264, 273, 339, 354, 749,
768).  An `affine_transform` with offset `None` counts as one here: wrapping it changes nothing. -/
def Aff.isLinearTransform {K : Type} : {m k : ℕ} → Aff K m k → Bool
  | _, _, .matrix _ none => true
  | _, _, .diag _ none => true
  | _, _, .wrap _ none => true
  | _, _, .selector _ _ => true
  | _, _, .scaler _ => true
  | _, _, .reshape => true
  | _, _, .aslinear _ => true
  | _, _, .adjoint _ => true
  | _, _, _ => false

/-- `l` in the class methods, `seminorms.py:531-534`: a transform which is not a `linear_transform` is wrapped in one,
which needs the attribute `affine_offset` (`affine/__init__.py:92-97`). -/
noncomputable def Aff.asOperator (T : Aff ℝ m k) : Option (Aff ℝ m k) :=
  if T.isLinearTransform then some T
  else match T.off with
    | .missing => none
    | _ => some (.wrap T none)

/-- `linear_transform(atransform.linear_operator, diag=atransform.diagD)`, `atoms/__init__.py:125-126`, for a transform
with an offset.  Only `affine_transform` itself has both attributes and a `linear_operator` which is not `None`. -/
def Aff.linearPart {K : Type} : {m k : ℕ} → Aff K m k → Option (Aff K m k)
  | _, _, .matrix D _ => some (.matrix D none)
  | _, _, .diag d _ => some (.diag d none)
  | _, _, .wrap T _ => some (.wrap T none)
  | _, _, _ => none

/-- `seminorm.__copy__`, `seminorms.py:136-141`. -/
noncomputable def AtomObj.copy (a : AtomObj (Fin (k + 1)) ℝ) : Option (AtomObj (Fin (k + 1)) ℝ) :=
  match AtomState.init a.st.lagrange a.st.bound with
  | .ok st => some ⟨a.klass, st, ctorOffset a.offset, a.quad⟩
  | .error _ => none

/-- An `affine_atom` object: `self.atom` and `self.linear_transform`. -/
structure AffAtom (m k : ℕ) where
  atom : AtomObj (Fin (k + 1)) ℝ
  lin : Aff ℝ m (k + 1)

/-- lines 120-123: the offset `α` of the transform is *added to* the offset of the atom.  `+=` is in place on the
copied array; on a 0-d array it raises. -/
noncomputable def addAtomOffset (o : Option (PyVec (Fin (k + 1)) ℝ)) (alpha : Fin (k + 1) → ℝ) :
    Option (Option (PyVec (Fin (k + 1)) ℝ)) :=
  match o with
  | some (.arr w) => some (some (.arr fun i => w i + alpha i))
  | some (.scalar _) => none
  | none => some (ctorOffset (some (.arr alpha)))

/-- `affine_atom.__init__`, `atoms/__init__.py:114-132`. -/
noncomputable def AffAtom.init (a : AtomObj (Fin (k + 1)) ℝ) (T : Aff ℝ m (k + 1)) : Option (AffAtom m k) :=
  match a.copy with                                                -- 115
  | none => none
  | some c => match T.off with
    | .missing => none                                             -- AttributeError, 119
    | .none => some ⟨c, T⟩                                         -- 127-129
    | .arr alpha => match addAtomOffset c.offset alpha, T.linearPart with
      | some o, some l => some ⟨{ c with offset := o }, l⟩         -- 119-126
      | _, _ => none

/-- `affine_atom.nonsmooth_objective`, `atoms/__init__.py:176-182`. -/
noncomputable def AffAtom.nonsmoothObjective (A : AffAtom m k) (x : Fin m → ℝ) (cf : Bool) : Option (WithTop ℝ) :=
  A.atom.nonsmoothObjective (A.lin.lin x) cf

/-- `affine_atom.dual`, `atoms/__init__.py:170-174` (`tmpatom.shape = self.output_shape` changes nothing). -/
noncomputable def AffAtom.dual (A : AffAtom m k) : Option (Aff ℝ m (k + 1) × ConjResult (Fin (k + 1)) ℝ) :=
  A.atom.copy.map fun c => (A.lin, c.getConjugate)

/-- `affine_atom.smoothed`, `atoms/__init__.py:184-201`: the `smooth_conjugate` object and the transform of the
`affine_smooth` returned.  `none`: an exception. -/
noncomputable def AffAtom.smoothed (A : AffAtom m k) (q : Quad (Fin (k + 1)) ℝ) :
    Option (SmoothConj k × Aff ℝ m (k + 1)) :=
  match A.dual with
  | some (l, .atom c) =>
    let total := q.add (some c.quad)                               -- 189-192
    if total.coef = 0 then none                                    -- 193-195
    else
      let c' : AtomObj (Fin (k + 1)) ℝ := { c with quad := total } -- 196
      match c'.getConjugate with                                   -- 197
      | .smoothConjugate d => (SmoothConj.init d).map fun s => (s, l)   -- 198
      | _ => none
  | _ => none

/-- the object returned by `smoothed`: `affine_smooth(smoothed_atom, ltransform)` -/
noncomputable def smoothedObjective (r : SmoothConj k × Aff ℝ m (k + 1)) : Objective m :=
  Smooth.affineSmooth r.1.smoothObjective r.2

/-- `-offset` with `offset = 0` for `None`, `seminorms.py:539-540`, 543 -/
def negOffset (offset : Option (PyVec (Fin (k + 1)) ℝ)) : PyVec (Fin (k + 1)) ℝ :=
  match offset with
  | none => .scalar (-0)
  | some (.scalar c) => .scalar (-c)
  | some (.arr v) => .arr fun i => -v i

/-- `cls(shape, lagrange=, bound=, offset=, quadratic=)`, `seminorms.py:34-58` and `composite.py:20-40`: without
`quadratic` the zero quadratic is used. -/
noncomputable def AtomObj.new (klass : Klass) (lagrange bound : Option ℝ) (offset : Option (PyVec (Fin (k + 1)) ℝ))
    (quadratic : Option (Quad (Fin (k + 1)) ℝ)) : Option (AtomObj (Fin (k + 1)) ℝ) :=
  match AtomState.init lagrange bound with
  | .ok st => some ⟨klass, st, ctorOffset offset,
      quadratic.getD ⟨0, some (.scalar 0), some (.scalar 0), 0⟩⟩
  | .error _ => none

/-- class method `seminorm.affine`, `seminorms.py:525-546`; `seminorm.linear` with the keyword `offset`, lines 548-559,
has the same body. -/
noncomputable def AtomObj.affine (klass : Klass) (T : Aff ℝ m (k + 1)) (offset : Option (PyVec (Fin (k + 1)) ℝ))
    (lagrange bound : Option ℝ) (quadratic : Option (Quad (Fin (k + 1)) ℝ)) : Option (AffAtom m k) :=
  match T.asOperator with
  | none => none
  | some l => match AtomObj.new klass lagrange bound (some (negOffset offset)) quadratic with
    | none => none
    | some a => AffAtom.init a l

/-- class method `seminorm.shift`, `seminorms.py:562-567`. -/
noncomputable def AtomObj.shift (klass : Klass) (offset : Fin (k + 1) → ℝ) (lagrange bound : Option ℝ)
    (quadratic : Option (Quad (Fin (k + 1)) ℝ)) : Option (AtomObj (Fin (k + 1)) ℝ) :=
  AtomObj.new klass lagrange bound (some (.arr fun i => -offset i)) quadratic

end Verif.Model
