import Verif.Model.IdentityQuadratic

/-!
# Model of `seminorm.proximal` and `cone.proximal`

The base proximal maps are parameters; the instances for the concrete atoms are in `Verif.Model.Seminorms`,
`Verif.Model.L2Norm`, ... .
-/

namespace Verif.Model

variable {K : Type*} [Field K] [LinearOrder K]
variable {ι : Type*} [Fintype ι]

/-- The parameter of a seminorm atom: exactly one of `lagrange` and `bound` is not `None`
(`seminorms.py:34-58`). -/
inductive AtomParam (K : Type*) where
  | lagrange (l : K)
  | bound (b : K)

/-- Outcome of `proximal`. -/
inductive ProxResult (ι K : Type*) where
  | ok (p : ι → K)
  /-- `ValueError('lipschitz + quadratic coef must be positive')`, `seminorms.py:339-340` -/
  | valueError
  /-- `TypeError` from `recenter` on a `None` center -/
  | typeError
  /-- `prox_arg` is a Python float, not an array (no array-valued center, linear term or offset was given);
  not modelled further -/
  | scalarArgument
  /-- the base proximal map raised -/
  | baseError

/-- `seminorm.proximal`, `seminorms.py:285-364` with `self.quadratic = sq`, `self.offset = offset`. -/
def seminormProximal
    (lagrangeProx : (ι → K) → K → K → Option (ι → K)) (boundProx : (ι → K) → K → Option (ι → K))
    (par : AtomParam K) (offset : Option (PyVec ι K)) (sq : Quad ι K) (quadratic : Option (Quad ι K)) :
    ProxResult ι K :=
  match (sq.add quadratic).recenter offset with                 -- 337
  | none => .typeError
  | some (off, totalq) =>
    if totalq.coef = 0 then .valueError                         -- 339-340
    else
      match totalq.linear with                                  -- 342
      | none => .typeError                                      -- `-None`; unreachable after `collapsed`
      | some (.scalar _) => .scalarArgument
      | some (.arr l) =>
        let proxArg := fun i => -(l i) / totalq.coef
        let eta := match par with
          | .bound b => boundProx proxArg b                     -- 353-355
          | .lagrange lam => lagrangeProx proxArg totalq.coef lam   -- 356-359
        match eta with
        | none => .baseError
        | some eta =>
          match off with                                        -- 361-364
          | none => .ok eta
          | some o => .ok fun i => eta i + o.get i

/-- `cone.proximal`, `cones.py:193-203`. -/
def coneProximal (coneProx : (ι → K) → Option (ι → K))
    (offset : Option (PyVec ι K)) (sq : Quad ι K) (quadratic : Option (Quad ι K)) : ProxResult ι K :=
  match (sq.add quadratic).recenter offset with
  | none => .typeError
  | some (off, totalq) =>
    if totalq.coef = 0 then .valueError
    else
      match totalq.linear with
      | none => .typeError
      | some (.scalar _) => .scalarArgument
      | some (.arr l) =>
        match coneProx (fun i => -(l i) / totalq.coef) with
        | none => .baseError
        | some eta =>
          match off with
          | none => .ok eta
          | some o => .ok fun i => eta i + o.get i

end Verif.Model
