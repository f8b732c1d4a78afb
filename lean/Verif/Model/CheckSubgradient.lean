import Verif.Model.Smoothed
import Verif.Model.Cones

/-!
# Model of `seminorm.check_subgradient` and `cone.check_subgradient`
-/

namespace Verif.Model

variable {n : ℕ}

/-- Outcome of `check_subgradient`. -/
inductive CheckResult
  /-- the two numbers returned; the second may be `np.inf` -/
  | values (v1 : ℝ) (v2 : WithTop ℝ)
  /-- `ValueError('expecting residual to have norm less than or equal to ...')` -/
  | valueError
  /-- the division by the parameter 0 gives `nan` or `±inf` (numpy floats do not raise) -/
  | undefined
  /-- `proximal` or `conjugate` raised -/
  | raised

/-- The body of `seminorm.check_subgradient`, `seminorms.py:606-616`, after `U = atom.proximal(q)`: `semi` is
`atom.seminorm(·, lagrange=1)`, `dual` is `dual.seminorm(·, lagrange=1)`, `bound` tells whether `atom.bound` is not
`None` and `r` is the parameter. -/
noncomputable def checkValues (semi dual : (Fin n → ℝ) → WithTop ℝ) (bound : Bool) (r : ℝ) (z U : Fin n → ℝ) :
    CheckResult :=
  let resid := fun i => z i - U i
  if bound then
    if ¬ semi U ≤ (((1 + 1 / 10 ^ 5) * r : ℝ) : WithTop ℝ) then .valueError          -- 609-610
    else if r = 0 then .undefined
    else .values ((∑ i, (z i - U i) * U i) / r) (dual resid)                         -- 611
  else
    if ¬ dual resid ≤ (((1 + 1 / 10 ^ 5) * r : ℝ) : WithTop ℝ) then .valueError      -- 613-614
    else if r = 0 then .undefined
    else .values ((∑ i, (z i - U i) * U i) / r) (semi U)                             -- 615

/-- `seminorm.check_subgradient(atom, prox_center)`, `seminorms.py:570-615`.  `copy(atom)` calls the constructor
(136-141); the quadratic and the offset of the copy are then replaced (602-603). -/
noncomputable def AtomObj.checkSubgradient (a : AtomObj (Fin (n + 1)) ℝ) (z : Fin (n + 1) → ℝ) : CheckResult :=
  match a.st.copy with
  | .error _ => .raised
  | .ok st =>
    let atom : AtomObj (Fin (n + 1)) ℝ :=
      ⟨a.klass, st, none, Quad.init (some 0) (some (.scalar 0)) (some (.scalar 0)) (some 0)⟩
    let q : Quad (Fin (n + 1)) ℝ := Quad.init (some 1) (some (.arr z)) (some (.scalar 0)) (some 0)
    match atom.proximal q with
    | .ok U =>
      match atom.getConjugate with
      | .atom dual =>
        match st.bound, st.lagrange with
        | some b, _ =>
          checkValues (fun x => atom.klass.seminorm x 1 false) (fun x => dual.klass.seminorm x 1 false) true b z U
        | none, some l =>
          checkValues (fun x => atom.klass.seminorm x 1 false) (fun x => dual.klass.seminorm x 1 false) false l z U
        | none, none => .raised
      | _ => .raised
    | _ => .raised

/-- `cone.check_subgradient(atom, prox_center)`, `cones.py:264-300`, for a cone whose `cone_prox` is `coneProx`: the
pair `(((prox_center - U) * U).sum(), 0)`; `none` when `proximal` raises. -/
noncomputable def coneCheckSubgradient (coneProx : (Fin n → ℝ) → Option (Fin n → ℝ)) (z : Fin n → ℝ) :
    Option (ℝ × ℝ) :=
  let q : Quad (Fin n) ℝ := Quad.init (some 1) (some (.arr z)) (some (.scalar 0)) (some 0)
  match coneProximal coneProx none (Quad.init (some 0) (some (.scalar 0)) (some (.scalar 0)) (some 0)) (some q) with
  | .ok U => some (∑ i, (z i - U i) * U i, 0)
  | _ => none

end Verif.Model
