import Verif.Model.Separable
import Verif.Model.Smoothed

/-!
# Model of the objects of `regreg/problems/separable.py`: construction, conjugate, smoothing, reshaped groups

The atoms are seminorm objects (`Model/Conjugate.lean`).  The joint loops `nonsmooth_objective` and `proximal` are
those of `Model/Separable.lean`.
-/

namespace Verif.Model

variable {n : ℕ}

/-- An entry of `shapes`: `None`, the shape `x[group]` already has, or another shape with as many entries.  Arrays
are flattened, so only whether the shapes agree matters. -/
inductive Reshape where
  | none | same | other
  deriving DecidableEq

/-- One `(atom, group, shape)` of the zip loops of `separable.py`. -/
structure SepBlock (n : ℕ) where
  m : ℕ
  idx : Fin (m + 1) → Fin n
  atom : AtomObj (Fin (m + 1)) ℝ
  shape : Reshape := .none

/-- `x[group]` -/
def SepBlock.take (b : SepBlock n) (x : Fin n → ℝ) : Fin (b.m + 1) → ℝ := fun j => x (b.idx j)

/-- Lines 143-146 of `separable.proximal`: `proxq_group.linear_term.shape = shape` needs an array (a float has no
settable `shape`: AttributeError, reported as `typeError`); the center keeps its shape, so in `collapsed`
(`identity_quadratic.py:204-208`) an array center of another shape makes `linear_term += self.linear_term` raise
ValueError. -/
noncomputable def SepBlock.proximal (b : SepBlock n) (q : Quad (Fin (b.m + 1)) ℝ) : ProxResult (Fin (b.m + 1)) ℝ :=
  match b.shape with
  | .none => b.atom.proximal q
  | .same =>
    match q.linear with
    | some (.arr _) => b.atom.proximal q
    | _ => .typeError
  | .other =>
    match q.linear, q.center with
    | some (.arr _), some (.arr _) => .valueError
    | some (.arr _), _ => b.atom.proximal q
    | _, _ => .typeError

/-- The block as seen by the loops of `Model/Separable.lean`. -/
noncomputable def SepBlock.toBlock (b : SepBlock n) : Block n ℝ where
  group := ⟨b.m + 1, b.idx⟩
  nonsmooth := fun x => (b.atom.nonsmoothObjective x true).getD ⊤
  proximal := b.proximal

/-- A `separable` object: the atoms with their groups and shapes, the attribute `_quadratic` of
`problems/composite.py:120-133` (absent until set: it reads as `sq(None, None, None, None)`), and the attribute
`coefs`, `none` when it does not exist. -/
structure SepObj (n : ℕ) where
  blocks : List (SepBlock n)
  quad : Quad (Fin n) ℝ
  coefs : Option (Fin n → ℝ)

/-- `sq(None, None, None, None)`, `identity_quadratic.py:40-61` -/
noncomputable def unsetQuad : Quad (Fin n) ℝ := Quad.init none none none none

namespace SepObj

/-- `separable.__init__`, `separable.py:59-79`; `none` is the ValueError of line 67.  Line 78: `coefs` is created
only when no `initial` is given. -/
noncomputable def init (blocks : List (SepBlock n)) (testForOverlap : Bool := false)
    (initial : Option (Fin n → ℝ) := none) : Option (SepObj n) :=
  if testForOverlap && hasOverlap (blocks.map fun b => ⟨b.m + 1, b.idx⟩) then none
  else some ⟨blocks, unsetQuad, match initial with
    | none => some fun _ => 0
    | some _ => none⟩

/-- `simple_problem.__init__`, `problems/simple.py:19-22`, with this object as `proximal_atom`: the initial
coefficients of the problem; `none` is the AttributeError of line 22. -/
def problemCoefs (s : SepObj n) : Option (Fin n → ℝ) := s.coefs

/-- `separable.seminorm`, `separable.py:98-109`; with `lagrange=None` each atom uses its own (`seminorms.py:1171-1183`,
ValueError = `none` in bound mode). -/
noncomputable def seminorm (s : SepObj n) (x : Fin n → ℝ) (lagrange : Option ℝ) (cf : Bool) : Option (WithTop ℝ) :=
  s.blocks.foldl (fun value b =>
    value.bind fun v => (lagrange.or b.atom.st.lagrange).map fun l => v + b.atom.klass.seminorm (b.take x) l cf)
    (some 0)

/-- `separable.constraint`, `separable.py:111-120`; with `bound=None` each atom uses its own
(`seminorms.py:1185-1195`). -/
noncomputable def constraint (s : SepObj n) (x : Fin n → ℝ) (bound : Option ℝ) : Option (WithTop ℝ) :=
  s.blocks.foldl (fun value b =>
    value.bind fun v => (bound.or b.atom.st.bound).map fun l => v + b.atom.klass.constraint (b.take x) l)
    (some 0)

/-- `separable.nonsmooth_objective`, `separable.py:122-132`. -/
noncomputable def nonsmoothObjective (s : SepObj n) (x : Fin n → ℝ) (cf : Bool) : Option (WithTop ℝ) :=
  s.blocks.foldl (fun value b =>
    value.bind fun v => (b.atom.nonsmoothObjective (b.take x) cf).map fun w => v + w) (some 0)

/-- `separable.proximal`, `separable.py:134-147`. -/
noncomputable def proximal (s : SepObj n) (proxq : Quad (Fin n) ℝ) : ProxResult (Fin n) ℝ :=
  Separable.proximal ⟨s.blocks.map SepBlock.toBlock⟩ proxq

/-- `nonsmooth.solve(quadratic, return_optimum=True)`, `composite.py:174-181`: the value and the point; the exceptions
of `proximal` propagate, an atom with neither parameter set raises in `nonsmooth_objective` (`baseError` stands for
that and for an infinite value). -/
noncomputable def solve (s : SepObj n) (q : Quad (Fin n) ℝ) : ProxResult (Fin n) ℝ × Option ℝ :=
  match s.proximal q with
  | .ok p => (.ok p, ((s.nonsmoothObjective p false).bind finite?).map fun v => 0 + v + q.funcVal p)
  | e => (e, none)

end SepObj

/-- `selectors`, `separable.py:169-172`: the comprehension reads the undefined name `reshape`, so it raises
NameError (`none`) as soon as there is a group. -/
def SepObj.selectors (s : SepObj n) : Option (List (Selector n)) :=
  match s.blocks with
  | [] => some []
  | _ :: _ => none

/-- `smooth_conjugate(sep)`: `problems/composite.py:228-253` with the default `smoothing_quadratic` (zero). -/
structure SepSmooth (n : ℕ) where
  atom : SepObj n

/-- Outcome of the property `separable.conjugate`. -/
inductive SepConj (n : ℕ) where
  | sep (s : SepObj n)
  | smooth (s : SepSmooth n)
  /-- a `separable` object one of whose atoms is a `smooth_conjugate`, or the `smooth_conjugate` of such an object -/
  | mixed
  | valueError
  /-- the call of `smooth_conjugate` with the unknown keyword `quadratic`, `composite.py:318` -/
  | typeError

/-- the list `[atom.conjugate for atom in self.atoms]`, `separable.py:153-154`, with groups and shapes kept -/
noncomputable def SepObj.conjBlocks : List (SepBlock n) → Option (Option (List (SepBlock n)))
  | [] => some (some [])
  | b :: bs =>
    match b.atom.getConjugate, SepObj.conjBlocks bs with
    | .atom a, some (some l) => some (some ({ b with atom := a } :: l))
    | .raised _, _ => none
    | _, none => none
    | _, _ => some none

/-- `separable.conjugate`, `separable.py:149-161` (`_conjugate` is never read). -/
noncomputable def SepObj.conjugate (s : SepObj n) : SepConj n :=
  if s.quad.coef = 0 then                                                    -- 151
    match SepObj.conjBlocks s.blocks with                                    -- 152-156
    | some (some l) => .sep ⟨l, unsetQuad, some fun _ => 0⟩
    | some none => .mixed
    | none => .valueError
  else if (s.quad.add (some ⟨0, some (.scalar 0), some (.scalar 0), 0⟩)).coef = 0 then .valueError
  else .smooth ⟨s⟩                                                           -- 158

/-- the quadratic `sq(0,0,0,0) + sq(0,0,-x,0)`, `composite.py:380` -/
noncomputable def SepSmooth.query (x : Fin n → ℝ) : Quad (Fin n) ℝ :=
  (⟨0, some (.scalar 0), some (.scalar 0), 0⟩ : Quad (Fin n) ℝ).add
    (some ⟨0, some (.scalar 0), some (.arr fun i => -x i), 0⟩)

/-- `smooth_conjugate.smooth_objective`, `composite.py:371-400`: the point (gradient) and the value it is built
from; the value is not computed in mode 'grad'. -/
noncomputable def SepSmooth.smoothObjective (s : SepSmooth n) (x : Fin n → ℝ) : ProxResult (Fin n) ℝ × Option ℝ :=
  let r := s.atom.solve (SepSmooth.query x)
  (r.1, r.2.map fun v => -v)

/-- `atom.smoothed`, `atoms/__init__.py:71-86`, inherited by `separable`. -/
noncomputable def SepObj.smoothed (s : SepObj n) (q : Quad (Fin n) ℝ) : SepConj n :=
  match s.conjugate with
  | .sep c =>
    if q.coef = 0 then .valueError
    else SepObj.conjugate { c with quad := q.add (some c.quad) }
  | .mixed => if q.coef = 0 then .valueError else .mixed
  | .smooth _ => if q.coef = 0 then .valueError else .typeError
  | e => e

end Verif.Model
