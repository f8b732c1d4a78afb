import Verif.Model.AffineCone
import Verif.Model.MixedLasso
import Verif.Model.Equality
import Verif.Model.SvdNorms
import Mathlib.Logic.Equiv.Fin.Basic

/-!
# Model of the epigraph cones with arguments: `group_lasso_cone` and `svd_cone` objects

`regreg/atoms/group_lasso.py:433-747` and `regreg/atoms/svd_norms.py:185-444`.  Both modules define four classes (epigraph of a
norm, its polar, epigraph of the dual norm, its polar) whose constructors take the groups and weights, or the shape of the
matrix, instead of the shape of the array.  An array has the point in its entries `[:-1]` and the bound in `[-1]`.  The methods
`get_dual()` call the property object `cone.dual` and so always raise; `linear` and `affine` (inherited class methods,
`cones.py:223-261`) hand the shape of the array to these constructors as groups or as matrix shape and are not modelled.
-/

namespace Verif.Model

variable {m k p n : ℕ}

/-- the four classes of a module: `group_lasso_epigraph`, `group_lasso_epigraph_polar`, `group_lasso_dual_epigraph`,
`group_lasso_dual_epigraph_polar` (`group_lasso.py:520`, 569, 625, 682), respectively `nuclear_norm_epigraph`,
`nuclear_norm_epigraph_polar`, `operator_norm_epigraph`, `operator_norm_epigraph_polar` (`svd_norms.py:249`, 295, 342, 389) -/
inductive EpiKlass where
  | epi | epiPolar | dualEpi | dualEpiPolar
  deriving DecidableEq

/-- `conjugate_cone_pairs`, `group_lasso.py:743-747`, `svd_norms.py:441-444` -/
def EpiKlass.conj : EpiKlass → EpiKlass
  | .epi => .epiPolar
  | .epiPolar => .epi
  | .dualEpiPolar => .dualEpi
  | .dualEpi => .dualEpiPolar

/-- What the constructor arguments `Args` determine: the arguments as they are stored in the object, and the methods
`constraint` and `cone_prox` of the four classes. -/
structure EpiFamily (Args : Type) (k : ℕ) where
  ctor : Args → Args
  constraint : Args → EpiKlass → (Fin (k + 1) → ℝ) → WithTop ℝ
  coneProx : Args → EpiKlass → (Fin (k + 1) → ℝ) → Option (Fin (k + 1) → ℝ)

/-- the labels and the dictionary of weights of a group LASSO -/
structure GroupArgs (p : ℕ) where
  lab : Fin (p + 1) → ℤ
  weights : ℤ → Option ℝ

namespace GroupArgs

/-- `self.snorm._group_array`, `group_lasso.py:65-69` -/
def grp (a : GroupArgs p) : Fin (p + 1) → Fin (Penalty.sortedIds a.lab).length := Penalty.groupIndex a.lab

/-- `self.snorm._weight_array`, `group_lasso.py:70-71` -/
noncomputable def w (a : GroupArgs p) : Fin (Penalty.sortedIds a.lab).length → ℝ := Penalty.weightArray a.lab a.weights

end GroupArgs

/-- the group LASSO cones; `sort` is the order chosen by `np.argsort` in the root finder.  `constraint`:
`group_lasso.py:512-516`, 606-610, 663-667, 721-725, with the seminorm of `seminorm_class` at `lagrange=1`; `cone_prox`:
536-554, 585-603, 642-660, 700-718 -/
noncomputable def groupFamily (p : ℕ) (sort : List (ℝ × ℝ) → List (ℝ × ℝ)) : EpiFamily (GroupArgs p) (p + 1) where
  ctor a := ⟨a.lab, Penalty.groupDict a.lab a.weights⟩
  constraint a c x :=
    let v := (splitLast x).1
    let t := (splitLast x).2
    match c with
    | .epi => if GroupLasso.seminorm a.grp a.w v 1 ≤ (1 + atomTol) * t then 0 else ⊤
    | .epiPolar => if GroupLasso.dualSeminorm a.grp a.w v ≤ (((1 + atomTol) * (-t) : ℝ) : WithBot ℝ) then 0 else ⊤
    | .dualEpi => if GroupLasso.dualSeminorm a.grp a.w v ≤ (((1 + atomTol) * t : ℝ) : WithBot ℝ) then 0 else ⊤
    | .dualEpiPolar => if GroupLasso.seminorm a.grp a.w v 1 ≤ (1 + atomTol) * (-t) then 0 else ⊤
  coneProx a c x :=
    let order := fun v => sort (GroupLasso.knotInput a.grp a.w v)
    let v := (splitLast x).1
    match c with
    | .epi => (GroupLasso.epigraph a.grp a.w (order v) (splitLast x)).map joinLast
    | .epiPolar => (GroupLasso.epigraphPolarProx a.grp a.w (order v) (splitLast x)).map joinLast
    | .dualEpi => (GroupLasso.dualEpigraphProx a.grp a.w (order fun i => -v i) (splitLast x)).map joinLast
    | .dualEpiPolar => (GroupLasso.dualEpigraphPolarProx a.grp a.w (order fun i => -v i) (splitLast x)).map joinLast

/-- `v.reshape((n, p))` -/
def matOf (v : Fin (n * p) → ℝ) : Fin n × Fin p → ℝ := fun ij => v (finProdFinEquiv ij)

/-- `X.reshape(-1)` -/
def flatten (X : Fin n × Fin p → ℝ) : Fin (n * p) → ℝ := fun a => X (finProdFinEquiv.symm a)

/-- the cones of matrix norms for matrices of shape `(n, p)`; `svd` is `np.linalg.svd(·, full_matrices=False)`, with
`k + 1 = min(n, p)` singular values.  `constraint`: `svd_norms.py:257-265`, 303-311, 350-358, 397-405; `cone_prox`: 268-280,
314-327, 361-374, 408-420 -/
noncomputable def svdFamily (n p : ℕ) {k : ℕ} (svd : (Fin n × Fin p → ℝ) → Svd.Triple n p k) : EpiFamily Unit (n * p) where
  ctor a := a
  constraint _ c x :=
    let s := svd (matOf (splitLast x).1)
    match c with
    | .epi => Svd.NuclearEpi.constraint s (splitLast x).2
    | .epiPolar => Svd.NuclearEpiPolar.constraint s (splitLast x).2
    | .dualEpi => Svd.OperatorEpi.constraint s (splitLast x).2
    | .dualEpiPolar => Svd.OperatorEpiPolar.constraint s (splitLast x).2
  coneProx _ c x :=
    let s := svd (matOf (splitLast x).1)
    let back := fun r : (Fin n × Fin p → ℝ) × ℝ => joinLast (flatten r.1, r.2)
    match c with
    | .epi => (Svd.NuclearEpi.coneProx s (splitLast x).2).map back
    | .epiPolar => (Svd.NuclearEpiPolar.coneProx s (splitLast x).2).map back
    | .dualEpi => (Svd.OperatorEpi.coneProx s (splitLast x).2).map back
    | .dualEpiPolar => (Svd.OperatorEpiPolar.coneProx s (splitLast x).2).map back

/-- A cone object: class, constructor arguments, offset and quadratic. -/
structure EpiCone (Args : Type) (k : ℕ) where
  klass : EpiKlass
  args : Args
  offset : Option (PyVec (Fin (k + 1)) ℝ)
  quad : Quad (Fin (k + 1)) ℝ

/-- outcome of asking for the conjugate -/
inductive EpiConj (Args : Type) (k : ℕ) where
  | cone (a : EpiCone Args k)
  | smoothConjugate (a : EpiCone Args k)

namespace EpiFamily

variable {Args : Type} (F : EpiFamily Args k)

/-- `group_lasso_cone.__init__`, `group_lasso.py:442-461`, and `svd_cone.__init__`, `svd_norms.py:213-222`, with
`composite.__init__` (`composite.py:20-54`); the seminorm object of the former is given the same offset and never uses it -/
noncomputable def new (klass : EpiKlass) (args : Args) (offset : Option (PyVec (Fin (k + 1)) ℝ))
    (quadratic : Option (Quad (Fin (k + 1)) ℝ)) : EpiCone Args k :=
  ⟨klass, F.ctor args, ctorOffset offset, quadratic.getD ⟨0, some (.scalar 0), some (.scalar 0), 0⟩⟩

/-- `__copy__`, `group_lasso.py:463-468`, `svd_norms.py:193-197` -/
noncomputable def copy (a : EpiCone Args k) : EpiCone Args k := F.new a.klass a.args a.offset (some a.quad)

/-- `get_conjugate`, `group_lasso.py:486-501`, `svd_norms.py:225-238` -/
noncomputable def getConjugate (a : EpiCone Args k) : EpiConj Args k :=
  if a.quad.coef = 0 then
    let r := workOutConjugate a.offset a.quad
    .cone (F.new a.klass.conj a.args r.1 (some r.2))
  else .smoothConjugate a

/-- `cone.nonsmooth_objective`, `cones.py:137-151`; `apply_offset`, `composite.py:112-118` -/
noncomputable def nonsmoothObjective (a : EpiCone Args k) (x : Fin (k + 1) → ℝ) (cf : Bool) : WithTop ℝ :=
  let xo := match a.offset with
    | some o => fun i => x i - o.get i
    | none => x
  let v := if cf then F.constraint a.args a.klass xo else 0
  v + ((a.quad.funcVal x : ℝ) : WithTop ℝ)

/-- `cone.proximal`, `cones.py:153-203`, called by `group_lasso.py:556-558`, `svd_norms.py:240-242` and the other overrides -/
noncomputable def proximal (a : EpiCone Args k) (q : Quad (Fin (k + 1)) ℝ) : ProxResult (Fin (k + 1)) ℝ :=
  coneProximal (F.coneProx a.args a.klass) a.offset a.quad (some q)

/-- the object as the atom of a dual problem -/
noncomputable def asDual (a : EpiCone Args k) : DualAtom (k + 1) := ⟨F.nonsmoothObjective a, F.proximal a⟩

/-- the attribute `dual`, `atoms/__init__.py:37-44` -/
noncomputable def dual (a : EpiCone Args k) : Aff ℝ (k + 1) (k + 1) × EpiConj Args k := (.identity, F.getConjugate a)

end EpiFamily

/-- An `affine_cone` object, `cones.py:303-308`. -/
structure AffEpi (Args : Type) (m k : ℕ) where
  cone : EpiCone Args k
  lin : Aff ℝ m (k + 1)

namespace EpiFamily

variable {Args : Type} (F : EpiFamily Args k)

/-- `affine_cone(cone, T)`: `affine_atom.__init__`, `atoms/__init__.py:114-132` -/
noncomputable def affine (a : EpiCone Args k) (T : Aff ℝ m (k + 1)) : Option (AffEpi Args m k) :=
  let c := F.copy a                                                -- 115
  match T.off with
  | .missing => none                                               -- AttributeError, 119
  | .none => some ⟨c, T⟩                                           -- 127-129
  | .arr alpha => match addAtomOffset c.offset alpha, T.linearPart with
    | some o, some l => some ⟨{ c with offset := o }, l⟩           -- 119-126
    | _, _ => none

/-- `affine_atom.nonsmooth_objective`, `atoms/__init__.py:176-182` -/
noncomputable def affineObjective (A : AffEpi Args m k) (x : Fin m → ℝ) (cf : Bool) : WithTop ℝ :=
  F.nonsmoothObjective A.cone (A.lin.lin x) cf

/-- `affine_atom.dual`, `atoms/__init__.py:170-174` -/
noncomputable def affineDual (A : AffEpi Args m k) : Aff ℝ m (k + 1) × EpiConj Args k :=
  (A.lin, F.getConjugate (F.copy A.cone))

end EpiFamily

end Verif.Model
