import Verif.Model.AffineAtom
import Verif.Model.Cones
import Verif.Model.DualProblem

/-!
# Model of cone objects (`regreg/atoms/cones.py`) and of their compositions with a transform

The ten classes of `conjugate_cone_pairs`, with offset and quadratic; `cone.linear`, `cone.affine` and the `affine_cone`
objects they return.  Arrays have shape `(k + 1,)`.  Exceptions are `none`.  The methods `get_dual()` of the ten classes,
which call the property object `cone.dual` and so always raise, are not modelled; nor are `linear_constraint.linear` and
`simplex_constraint.linear`, which use a name their modules do not import.
-/

namespace Verif.Model

variable {m k : ℕ}

/-- the classes registered in `conjugate_cone_pairs`, `cones.py:679-687` -/
inductive ConeKlass where
  | nonnegative | nonpositive | zero | zeroConstraint
  | l1Epigraph | l1EpigraphPolar | l2Epigraph | l2EpigraphPolar | linfEpigraph | linfEpigraphPolar
  deriving DecidableEq

/-- `conjugate_cone_pairs`, `cones.py:679-687` -/
def ConeKlass.conj : ConeKlass → ConeKlass
  | .nonnegative => .nonpositive
  | .nonpositive => .nonnegative
  | .zero => .zeroConstraint
  | .zeroConstraint => .zero
  | .l1Epigraph => .l1EpigraphPolar
  | .l1EpigraphPolar => .l1Epigraph
  | .l2Epigraph => .l2EpigraphPolar
  | .l2EpigraphPolar => .l2Epigraph
  | .linfEpigraph => .linfEpigraphPolar
  | .linfEpigraphPolar => .linfEpigraph

/-- `x[:-1]` and `x[-1]` -/
def splitLast (x : Fin (k + 1) → ℝ) : (Fin k → ℝ) × ℝ := (fun i => x i.castSucc, x (Fin.last k))

/-- the array whose `[:-1]` and `[-1]` are the two components -/
def joinLast (p : (Fin k → ℝ) × ℝ) : Fin (k + 1) → ℝ := Fin.snoc (α := fun _ => ℝ) p.1 p.2

/-- a method which takes the largest entry of `x[:-1]`: numpy raises ValueError (`none`) on an empty array -/
def onNonempty (f : {n : ℕ} → (Fin (n + 1) → ℝ) × ℝ → WithTop ℝ) : {k : ℕ} → (Fin k → ℝ) × ℝ → Option (WithTop ℝ)
  | 0, _ => none
  | _ + 1, p => some (f p)

/-- `constraint(x)` of the class, `cones.py:322-328`, 359-365, 394-396, 425-429, 459-465, 503-508, 546-551, 581-587,
618-623, 655-660 -/
noncomputable def ConeKlass.constraint (c : ConeKlass) (x : Fin (k + 1) → ℝ) : Option (WithTop ℝ) :=
  match c with
  | .nonnegative => some (Cone.nonnegConstraint x)
  | .nonpositive => some (Cone.nonposConstraint x)
  | .zero => some (Cone.zeroConstraint x)
  | .zeroConstraint => some (Cone.zeroConstraintConstraint x)
  | .l1Epigraph => some (Cone.l1EpiConstraint (splitLast x))
  | .l1EpigraphPolar => onNonempty Cone.l1EpiPolarConstraint (splitLast x)
  | .l2Epigraph => some (if npNorm (splitLast x).1 ≤ (1 + atomTol) * (splitLast x).2 then 0 else ⊤)
  | .l2EpigraphPolar => some (if npNorm (splitLast x).1 ≤ (1 + atomTol) * (-(splitLast x).2) then 0 else ⊤)
  | .linfEpigraph => onNonempty Cone.linfEpiConstraint (splitLast x)
  | .linfEpigraphPolar => some (Cone.linfEpiPolarConstraint (splitLast x))

/-- `cone_prox(x)` of the class, `cones.py:330-332`, 367-369, 398-400, 431-433, 467-476, 510-520, 553-555, 589-592,
625-628, 662-665 -/
noncomputable def ConeKlass.coneProx (c : ConeKlass) (x : Fin (k + 1) → ℝ) : Option (Fin (k + 1) → ℝ) :=
  match c with
  | .nonnegative => some (Cone.nonnegProx x)
  | .nonpositive => some (Cone.nonposProx x)
  | .zero => some (Cone.zeroProx x)
  | .zeroConstraint => some (Cone.zeroConstraintProx x)
  | .l1Epigraph => (Cone.l1EpiProx (splitLast x)).map joinLast
  | .l1EpigraphPolar => (Cone.l1EpiPolarProx (splitLast x)).map joinLast
  | .l2Epigraph => (Cone.l2EpiProx (splitLast x)).map joinLast
  | .l2EpigraphPolar => (Cone.l2EpiPolarProx (splitLast x)).map joinLast
  | .linfEpigraph => (Cone.linfEpiProx (splitLast x)).map joinLast
  | .linfEpigraphPolar => (Cone.linfEpiPolarProx (splitLast x)).map joinLast

/-- A cone object: class, offset and quadratic. -/
structure ConeObj (k : ℕ) where
  klass : ConeKlass
  offset : Option (PyVec (Fin (k + 1)) ℝ)
  quad : Quad (Fin (k + 1)) ℝ

/-- outcome of asking for the conjugate of a cone -/
inductive ConeConj (k : ℕ) where
  | cone (a : ConeObj k)
  | smoothConjugate (a : ConeObj k)

namespace ConeObj

/-- `cls(shape, offset=, quadratic=)`: `atom` has no constructor of its own, `composite.py:20-40`, 41-54 -/
noncomputable def new (klass : ConeKlass) (offset : Option (PyVec (Fin (k + 1)) ℝ))
    (quadratic : Option (Quad (Fin (k + 1)) ℝ)) : ConeObj k :=
  ⟨klass, ctorOffset offset, quadratic.getD ⟨0, some (.scalar 0), some (.scalar 0), 0⟩⟩

/-- `cone.__copy__`, `cones.py:40-44` -/
noncomputable def copy (a : ConeObj k) : ConeObj k := new a.klass a.offset (some a.quad)

/-- `cone.get_conjugate`, `cones.py:61-83` (the `_conjugate` cache of lines 80-81 is never read) -/
noncomputable def getConjugate (a : ConeObj k) : ConeConj k :=
  if a.quad.coef = 0 then
    let r := workOutConjugate a.offset a.quad
    .cone (new a.klass.conj r.1 (some r.2))
  else .smoothConjugate a

/-- `cone.nonsmooth_objective`, `cones.py:137-151`; `apply_offset`, `composite.py:112-118` -/
noncomputable def nonsmoothObjective (a : ConeObj k) (x : Fin (k + 1) → ℝ) (cf : Bool) : Option (WithTop ℝ) :=
  let xo := match a.offset with
    | some o => fun i => x i - o.get i
    | none => x
  let v := if cf then a.klass.constraint xo else some 0
  v.map fun v => v + ((a.quad.funcVal x : ℝ) : WithTop ℝ)

/-- `cone.proximal`, `cones.py:153-203` -/
noncomputable def proximal (a : ConeObj k) (q : Quad (Fin (k + 1)) ℝ) : ProxResult (Fin (k + 1)) ℝ :=
  coneProximal a.klass.coneProx a.offset a.quad (some q)

/-- the object as the atom of a dual problem; where the evaluation raises the value is `⊤` -/
noncomputable def asDual (a : ConeObj k) : DualAtom (k + 1) :=
  ⟨fun u cf => (a.nonsmoothObjective u cf).getD ⊤, a.proximal⟩

end ConeObj

/-- An `affine_cone` object (`cones.py:303-308`; the class only overrides `__repr__` of `affine_atom`). -/
structure AffCone (m k : ℕ) where
  cone : ConeObj k
  lin : Aff ℝ m (k + 1)

/-- `affine_atom.__init__` on a cone, `atoms/__init__.py:114-132` -/
noncomputable def AffCone.init (a : ConeObj k) (T : Aff ℝ m (k + 1)) : Option (AffCone m k) :=
  let c := a.copy                                                  -- 115
  match T.off with
  | .missing => none                                               -- AttributeError, 119
  | .none => some ⟨c, T⟩                                           -- 127-129
  | .arr alpha => match addAtomOffset c.offset alpha, T.linearPart with
    | some o, some l => some ⟨{ c with offset := o }, l⟩           -- 119-126
    | _, _ => none

/-- `affine_atom.nonsmooth_objective`, `atoms/__init__.py:176-182` -/
noncomputable def AffCone.nonsmoothObjective (A : AffCone m k) (x : Fin m → ℝ) (cf : Bool) : Option (WithTop ℝ) :=
  A.cone.nonsmoothObjective (A.lin.lin x) cf

/-- `affine_atom.dual`, `atoms/__init__.py:170-174` -/
noncomputable def AffCone.dual (A : AffCone m k) : Aff ℝ m (k + 1) × ConeConj k := (A.lin, A.cone.copy.getConjugate)

/-- class method `cone.affine(linear_operator, offset, quadratic=)`, `cones.py:244-261`; `cone.linear` with the keyword
`offset`, `cones.py:223-242`, has the same body -/
noncomputable def ConeObj.affine (klass : ConeKlass) (T : Aff ℝ m (k + 1)) (offset : Option (PyVec (Fin (k + 1)) ℝ))
    (quadratic : Option (Quad (Fin (k + 1)) ℝ)) : Option (AffCone m k) :=
  match T.asOperator with                                          -- 252-255
  | none => none
  | some l => AffCone.init (ConeObj.new klass (some (negOffset offset)) quadratic) l    -- 256-261

/-- the attribute `dual` of a cone itself, `atoms/__init__.py:37-44`: `property` keeps the function `atom.get_dual`, so the
overriding `get_dual` of the classes is not used by it -/
noncomputable def ConeObj.dual (a : ConeObj k) : Aff ℝ (k + 1) (k + 1) × ConeConj k := (.identity, a.getConjugate)

end Verif.Model
