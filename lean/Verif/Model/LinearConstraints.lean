import Verif.Model.L2Norm

/-!
# Model of `regreg/atoms/linear_constraints.py`

Arrays of shape `(n,)`; `basis` is the `(k, n)` array whose rows are assumed orthonormal by the code (not checked).
-/

namespace Verif.Model.LinCon

noncomputable section

variable {n k : ℕ}

/-- `np.dot(np.dot(basis, x), basis)` -/
def span (basis : Fin k → Fin n → ℝ) (x : Fin n → ℝ) : Fin n → ℝ :=
  let coefs := fun a => ∑ i, basis a i * x i
  fun i => ∑ a, coefs a * basis a i

/-- `projection.cone_prox`, `linear_constraints.py:130-132` -/
def projectionProx (basis : Fin k → Fin n → ℝ) (x : Fin n → ℝ) : Fin n → ℝ := span basis x

/-- `projection_complement.cone_prox`, `linear_constraints.py:168-170` -/
def complementProx (basis : Fin k → Fin n → ℝ) (x : Fin n → ℝ) : Fin n → ℝ := fun i => x i - span basis x i

/-- `linear_constraint.tol`, `linear_constraints.py:26` -/
def tol : ℝ := 1 / 10 ^ 5

/-- `projection.constraint`, `linear_constraints.py:122-127` -/
def projectionConstraint (basis : Fin k → Fin n → ℝ) (x : Fin n → ℝ) : WithTop ℝ :=
  let projx := projectionProx basis x
  if npNorm (fun i => x i - projx i) / max (npNorm x) 1 < tol then 0 else ⊤

/-- `projection_complement.constraint`, `linear_constraints.py:160-165`: the norm of the projected point itself is tested -/
def complementConstraint (basis : Fin k → Fin n → ℝ) (x : Fin n → ℝ) : WithTop ℝ :=
  let projx := complementProx basis x
  if npNorm projx / max (npNorm x) 1 < tol then 0 else ⊤

/-- the two classes -/
inductive Cls where
  | projection
  | complement
  deriving DecidableEq

/-- an instance: class, basis and the coefficient of its quadratic (`offset` and the rest of the quadratic are handled by
`_work_out_conjugate`, see `Verif.Model.Conjugate`) -/
structure Inst (n k : ℕ) where
  cls : Cls
  basis : Fin k → Fin n → ℝ
  quadCoef : ℝ

/-- outcome of asking for a conjugate -/
inductive ConjResult (n k : ℕ) where
  | inst (i : Inst n k)
  /-- `smooth_conjugate` is not imported in this module -/
  | nameError
  /-- class not in the table of `cones.py` -/
  | keyError

/-- `conjugate_cone_pairs` of this module, `linear_constraints.py:184-188` -/
def pairs : Cls → Cls
  | .projection => .complement
  | .complement => .projection

/-- the property `conjugate` (the function object of the base class, `linear_constraint.get_conjugate`),
`linear_constraints.py:75-90`; `_work_out_conjugate` returns a quadratic with coefficient 0 -/
def conjugateProperty (s : Inst n k) : ConjResult n k :=
  if s.quadCoef = 0 then .inst { cls := pairs s.cls, basis := s.basis, quadCoef := 0 } else .nameError

/-- `projection.get_conjugate`, `projection_complement.get_conjugate` (`linear_constraints.py:139-140, 177-178`) call
`cone.get_conjugate` (`cones.py:61-83`), which looks the class up in the table of `cones.py:679-687` where neither class is; with
a nonzero coefficient it returns a `smooth_conjugate` (not modelled here: `none`) -/
def getConjugate (s : Inst n k) : Option (ConjResult n k) := if s.quadCoef = 0 then some .keyError else none

/-- evaluation of `cone_prox` on an instance -/
def Inst.coneProx (s : Inst n k) (x : Fin n → ℝ) : Fin n → ℝ :=
  match s.cls with
  | .projection => projectionProx s.basis x
  | .complement => complementProx s.basis x

end

end Verif.Model.LinCon
