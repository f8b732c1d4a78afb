import Verif.Model.MixedKKT
import Verif.Model.Smoothed

/-!
# Model of the objects `mixed_lasso` and `mixed_lasso_dual` (`regreg/atoms/mixed_lasso.py`)

The Cython kernels are those of `Model/MixedLasso.lean` and `Model/MixedKKT.lean`.  The labels are integers, the weights
finite numbers.  `np.int`, which recent versions of numpy no longer have, is read as `int`.
-/

namespace Verif.Model
open Verif.Spec (Kind Mode Eval)
open Verif.Model.MixedKKT (dualSeminorm)

variable {p : ℕ}

/-- A `mixed_lasso` (`dual = false`) or `mixed_lasso_dual` (`dual = true`) object.  `order` is the order in which the
Python set `groups` of lines 61-62 is enumerated on line 70; `par` is `lagrange` or `bound`. -/
structure MixedObj (p : ℕ) where
  dual : Bool
  lab : Fin p → ℤ
  weights : ℤ → Option ℝ
  order : List ℤ
  par : ℝ
  offset : Option (PyVec (Fin p) ℝ)
  quad : Quad (Fin p) ℝ

namespace MixedObj

/-- the set `groups`, lines 61-62, enumerated in some order without repetition -/
def Enumerates (order : List ℤ) (lab : Fin p → ℤ) : Prop :=
  order.Nodup ∧ ∀ g, g ∈ order ↔ (∃ i, lab i = g) ∧ g ∉ [-1, -2, -3, -4]

/-- `mixed_lasso.__init__`, `mixed_lasso.py:46-79`, and `mixed_lasso_dual.__init__`, `mixed_lasso.py:247-264`.  The
offset goes through `composite.set_offset`; no quadratic means `sq(0,0,0,0)`, `problems/composite.py:31-34`. -/
noncomputable def init (dual : Bool) (lab : Fin p → ℤ) (par : ℝ) (weights : ℤ → Option ℝ) (order : List ℤ)
    (offset : Option (PyVec (Fin p) ℝ)) (quad : Option (Quad (Fin p) ℝ)) : MixedObj p :=
  ⟨dual, lab, weights, order, par, ctorOffset offset, quad.getD ⟨0, some (.scalar 0), some (.scalar 0), 0⟩⟩

/-- `self._groups`, lines 60 and 70-72: `-1` (here `none`) until a label of the enumeration matches -/
def groups (a : MixedObj p) (i : Fin p) : Option (Fin a.order.length) :=
  (List.finRange a.order.length).foldl (fun cur idx => if a.lab i = a.order[idx] then some idx else cur) none

/-- `self._weight_array`, lines 63 and 73 -/
noncomputable def weightArray (a : MixedObj p) (idx : Fin a.order.length) : ℝ :=
  (a.weights a.order[idx]).getD
    (Real.sqrt ((List.finRange p).filter fun i => a.lab i = a.order[idx]).length)

/-- the kind of a coordinate: the index arrays of lines 65-68 and `self._groups`.  A coordinate in none of them is
treated by the kernels like an unpenalised one (its entry of `projection` stays 0). -/
def kind (a : MixedObj p) (i : Fin p) : Kind a.order.length :=
  if a.lab i = -2 then .l1
  else if a.lab i = -3 then .positivePart
  else if a.lab i = -1 then .unpenalized
  else if a.lab i = -4 then .nonnegative
  else match a.groups i with
    | some j => .group j
    | none => .unpenalized

/-- `composite.apply_offset`, `problems/composite.py:112-118` -/
def applyOffset (a : MixedObj p) (x : Fin p → ℝ) : Fin p → ℝ :=
  match a.offset with
  | some o => fun i => x i - o.get i
  | none => x

/-- `mixed_lasso.seminorm`, `mixed_lasso.py:164-180`: the offset is subtracted here.  `none` is `inf * lagrange` with
`lagrange ≤ 0`, that is nan or `-inf`. -/
noncomputable def seminorm (a : MixedObj p) (x : Fin p → ℝ) (checkFeasibility : Bool) : Option (WithTop ℝ) :=
  WithTop.recTopCoe (if 0 < a.par then some ⊤ else none) (fun v => some ((v * a.par : ℝ) : WithTop ℝ))
    (mixedSeminorm a.kind a.weightArray (a.applyOffset x) checkFeasibility (1 / 10 ^ 5))

/-- `mixed_lasso_dual.seminorm`, `mixed_lasso.py:341-356`: the offset is subtracted here; `lagrange` and
`check_feasibility` are ignored. -/
noncomputable def seminormDual (a : MixedObj p) (x : Fin p → ℝ) : WithBot ℝ :=
  dualSeminorm a.kind a.weightArray (a.applyOffset x)

/-- `mixed_lasso.constraint`, `mixed_lasso.py:142-156`, and `mixed_lasso_dual.constraint`, `mixed_lasso.py:325-330`: a
Python bool.  `none` is the ValueError for `bound=None`. -/
noncomputable def constraint (a : MixedObj p) (x : Fin p → ℝ) (bound : Option ℝ) : Option Bool := by
  classical
  exact bound.map fun (b : ℝ) =>
    if a.dual then decide (a.seminormDual (a.applyOffset x) ≤ (b : WithBot ℝ))
    else match a.seminorm (a.applyOffset x) false with
      | some v => decide (v ≤ (b : WithTop ℝ))
      | none => false

/-- `mixed_lasso.nonsmooth_objective`, `mixed_lasso.py:158-162`, and `mixed_lasso_dual.nonsmooth_objective`,
`mixed_lasso.py:332-339`, where the bool is added as 0 or 1. -/
noncomputable def nonsmoothObjective (a : MixedObj p) (x : Fin p → ℝ) (checkFeasibility : Bool) : Option (WithTop ℝ) :=
  if a.dual then
    some ((((if checkFeasibility && a.constraint (a.applyOffset x) (some a.par) == some true then 1 else 0) +
      a.quad.funcVal x : ℝ)) : WithTop ℝ)
  else
    (a.seminorm (a.applyOffset x) checkFeasibility).map fun v => v + ((a.quad.funcVal x : ℝ) : WithTop ℝ)

/-- the array returned by a kernel; `none` when an entry is nan -/
noncomputable def collect (v : Fin p → Option ℝ) : Option (Fin p → ℝ) := by
  classical
  exact if ∀ i, (v i).isSome then some fun i => (v i).getD 0 else none

/-- `mixed_lasso.proximal`, `mixed_lasso.py:182-231`, and `mixed_lasso_dual.proximal`, `mixed_lasso.py:358-404`: the
same text as `seminorm.proximal` around the kernels. -/
noncomputable def proximal (a : MixedObj p) (q : Quad (Fin p) ℝ) : ProxResult (Fin p) ℝ :=
  seminormProximal (fun x L lam => collect (mixedLagrangeProx a.kind a.weightArray x L lam))
    (fun x b => collect (mixedDualBoundProx a.kind a.weightArray x b))
    (if a.dual then .bound a.par else .lagrange a.par) a.offset a.quad (some q)

/-- outcome of `conjugate` -/
inductive Conj (p : ℕ) where
  | atom (a : MixedObj p)
  | smoothConjugate (a : MixedObj p)

/-- `mixed_lasso.conjugate`, `mixed_lasso.py:116-131`, and `mixed_lasso_dual.conjugate`, `mixed_lasso.py:300-315`: the
other class is constructed from the same arrays; its constructor enumerates the groups in the order `order'`. -/
noncomputable def conjugate (a : MixedObj p) (order' : List ℤ) : Conj p :=
  if a.quad.coef = 0 then
    let r := workOutConjugate a.offset a.quad
    .atom (init (!a.dual) a.lab a.par a.weights order' r.1 (some r.2))
  else .smoothConjugate a

/-- `mixed_lasso.__eq__`, `mixed_lasso.py:81-87`, and `mixed_lasso_dual.__eq__`, `mixed_lasso.py:266-272` -/
def Eq (a b : MixedObj p) : Prop := a.dual = b.dual ∧ a.lab = b.lab ∧ a.weights = b.weights ∧ a.par = b.par

/-- `__copy__`, `mixed_lasso.py:89-95, 274-280` -/
noncomputable def copy (a : MixedObj p) (order' : List ℤ) : MixedObj p :=
  init a.dual a.lab a.par a.weights order' a.offset (some a.quad)

/-- `nonsmooth.solve(quadratic, return_optimum=True)`, `problems/composite.py:174-181`; `none`: an exception, nan or an
infinite value. -/
noncomputable def solve (a : MixedObj p) (q : Quad (Fin p) ℝ) : Option (ℝ × (Fin p → ℝ)) :=
  match a.proximal q with
  | .ok z => ((a.nonsmoothObjective z false).bind finite?).map fun v => (0 + v + q.funcVal z, z)
  | _ => none

end MixedObj

/-- A `smooth_conjugate` of a mixed LASSO object, `problems/composite.py:228-253` -/
structure MixedSmooth (p : ℕ) where
  atom : MixedObj p
  smoothing : Quad (Fin p) ℝ

namespace MixedSmooth

/-- `smooth_conjugate.__init__`, `problems/composite.py:228-253`; `none` is the ValueError -/
noncomputable def init (atom : MixedObj p)
    (smoothing : Quad (Fin p) ℝ := ⟨0, some (.scalar 0), some (.scalar 0), 0⟩) : Option (MixedSmooth p) :=
  if (atom.quad.add (some smoothing)).coef = 0 then none else some ⟨atom, smoothing⟩

/-- the attribute `lipschitz`, `problems/composite.py:250` -/
noncomputable def lipschitz (s : MixedSmooth p) : ℝ := 1 / (s.atom.quad.add (some s.smoothing)).coef

/-- the quadratic handed to the atom, `problems/composite.py:380` -/
noncomputable def query (s : MixedSmooth p) (x : Fin p → ℝ) : Quad (Fin p) ℝ :=
  s.smoothing.add (some ⟨0, some (.scalar 0), some (.arr fun i => -x i), 0⟩)

/-- `smooth_conjugate.smooth_objective`, `problems/composite.py:371-401`; a failing `atom.solve` is reported as
`typeError`. -/
noncomputable def smoothObjective (s : MixedSmooth p) (x : Fin p → ℝ) : Mode → Eval p
  | .both => match s.atom.solve (s.query x) with
    | some (v, z) => .both (-v) z
    | none => .typeError
  | .grad => match s.atom.proximal (s.query x) with
    | .ok z => .grad z
    | _ => .typeError
  | .func => match s.atom.solve (s.query x) with
    | some (v, _) => .val (-v)
    | none => .typeError
  | .other => .valueError

end MixedSmooth

/-- `atom.smoothed`, `atoms/__init__.py:71-86`, for a mixed LASSO object with `quadratic.coef == 0` (otherwise the
conjugate is a `smooth_conjugate`, see C71); `none` is the ValueError.  `order'` as in `conjugate`, `order''` for the
copy. -/
noncomputable def MixedObj.smoothed (a : MixedObj p) (q : Quad (Fin p) ℝ) (order' order'' : List ℤ) :
    Option (MixedSmooth p) :=
  match a.conjugate order' with
  | .smoothConjugate _ => none
  | .atom c =>
    let c1 := c.copy order''
    if q.coef = 0 then none
    else
      let c2 : MixedObj p := { c1 with quad := q.add (some c1.quad) }
      match c2.conjugate order'' with
      | .atom _ => none
      | .smoothConjugate d => MixedSmooth.init d

end Verif.Model
