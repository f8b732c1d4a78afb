import Verif.Model.Container
import Verif.Model.AffineCone

/-!
# Model of a cone constraint as a member of a `container` (`problems/container.py`, `atoms/cones.py`)
-/

namespace Verif.Model

/-- an `affine_cone` as member of a container: `container.py:29-47` reads `dual`, `atoms/__init__.py:170-174`, and line 156 the
`conjugate` of the dual atom.  `none`: the dual or its conjugate is not a cone (`smooth_conjugate`). -/
noncomputable def AffCone.toCont {m k : ℕ} (A : AffCone m k) : Option (ContAtom m) :=
  match A.dual with
  | (D, .cone g) => match g.getConjugate with
    | .cone c => some ⟨k + 1, D, g.asDual, c.proximal, fun x cf => (A.nonsmoothObjective x cf).getD ⊤⟩
    | _ => none
  | _ => none

/-- a cone itself as member of a container: `linear_transform` is the identity, `atoms/__init__.py:37-59` -/
noncomputable def ConeObj.toCont {k : ℕ} (a : ConeObj k) : Option (ContAtom (k + 1)) :=
  match a.dual with
  | (D, .cone g) => match g.getConjugate with
    | .cone c => some ⟨k + 1, D, g.asDual, c.proximal, fun x cf => (a.nonsmoothObjective x cf).getD ⊤⟩
    | _ => none
  | _ => none

/-- the matrix `(np.identity(n) - np.diag(np.ones(n-1), -1))[1:]` of `doc/examples/isotonic.py:11`, for `n = k + 2` -/
def riseMatrix (k : ℕ) : Fin (k + 1) → Fin (k + 2) → ℝ := fun i j => (if j = i.succ then 1 else 0) - if j = i.castSucc then 1 else 0

end Verif.Model
