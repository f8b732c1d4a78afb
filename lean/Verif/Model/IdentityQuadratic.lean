import Mathlib.Algebra.Order.Field.Basic
import Mathlib.Algebra.Order.BigOperators.Ring.Finset
import Mathlib.Data.Fintype.BigOperators

/-!
# Model of `regreg/identity_quadratic.py`

`center` and `linear_term` are `None`, a Python float or an ndarray; the difference matters because
`norm(center)` of a float is its absolute value whatever the dimension of the argument.
-/

namespace Verif.Model

variable {K : Type*} [Field K] [LinearOrder K]
variable {ι : Type*} [Fintype ι]

/-- A float or an ndarray of the problem's shape (`identity_quadratic.py:42-49`). -/
inductive PyVec (ι K : Type*) where
  | scalar (c : K)
  | arr (v : ι → K)

namespace PyVec

/-- entries after broadcasting against an array of the problem's shape -/
def get : PyVec ι K → ι → K
  | scalar c, _ => c
  | arr v, i => v i

/-- numpy broadcasting of a binary operation -/
def map₂ (f : K → K → K) : PyVec ι K → PyVec ι K → PyVec ι K
  | scalar a, scalar b => scalar (f a b)
  | x, y => arr fun i => f (x.get i) (y.get i)

/-- elementwise unary operation -/
def map (f : K → K) : PyVec ι K → PyVec ι K
  | scalar a => scalar (f a)
  | arr v => arr fun i => f (v i)

/-- `norm(v)**2`: for a float this is `abs(v)**2`. -/
def normSq : PyVec ι K → K
  | scalar c => c ^ 2
  | arr v => ∑ i, v i ^ 2

/-- `all(v == 0)` -/
def allZero : PyVec ι K → Prop
  | scalar c => c = 0
  | arr v => ∀ i, v i = 0

instance (v : PyVec ι K) : Decidable v.allZero := by
  unfold allZero; cases v <;> infer_instance

end PyVec

/-- `identity_quadratic` after construction: `coef` and `constant_term` are never `None` (lines 51-61). -/
structure Quad (ι K : Type*) where
  coef : K
  center : Option (PyVec ι K)
  linear : Option (PyVec ι K)
  const : K

namespace Quad

/-- `identity_quadratic.__init__`, `identity_quadratic.py:40-61`. -/
def init (coef : Option K) (center linear : Option (PyVec ι K)) (const : Option K) : Quad ι K :=
  { coef := coef.getD 0          -- 51-54: `None` becomes `0.`
    center := center
    linear := linear
    const := const.getD 0 }      -- 58-61

/-- `mode` argument of `objective`. -/
inductive Mode where
  | func | grad | both | other

/-- result of `objective` -/
inductive Value (ι K : Type*) where
  | func (v : K)
  | grad (g : ι → K)
  | both (v : K) (g : ι → K)
  | valueError

/-- `r = x - center` (or `x`), lines 113-116. -/
def resid (q : Quad ι K) (x : ι → K) : ι → K :=
  match q.center with
  | some c => fun i => x i - c.get i
  | none => x

/-- value computed in modes 'func' and 'both', lines 119-120 and 126 (`linear_term` is never `None` there,
line 111-112). -/
def funcVal (q : Quad ι K) (x : ι → K) : K :=
  (∑ i, q.resid x i ^ 2) * q.coef / 2 + (∑ i, (q.linear.elim 0 fun l => l.get i) * x i) + q.const

/-- gradient computed in modes 'grad' and 'both', lines 120 and 131. -/
def gradVal (q : Quad ι K) (x : ι → K) : ι → K :=
  fun i => q.coef * q.resid x i + (q.linear.elim 0 fun l => l.get i)

/-- `identity_quadratic.objective`, `identity_quadratic.py:108-135`. -/
def objective (q : Quad ι K) (x : ι → K) : Mode → Value ι K
  | .both => .both (q.funcVal x) (q.gradVal x)
  | .func => .func (q.funcVal x)
  | .grad => .grad (q.gradVal x)
  | .other => .valueError

/-- `identity_quadratic.iszero`, lines 64-68. -/
def iszero (q : Quad ι K) : Prop :=
  q.coef = 0 ∧ (∀ c, q.center = some c → c.allZero) ∧ (∀ l, q.linear = some l → l.allZero) ∧ q.const = 0

/-- the `linear_term` computed by `collapsed`, lines 200-208: starts as the float `0.`. -/
def collapsedLinear (q : Quad ι K) : PyVec ι K :=
  let l0 : PyVec ι K := .scalar 0
  let l1 := match q.center with
    | some c => PyVec.map₂ (· - ·) l0 (c.map (q.coef * ·))
    | none => l0
  match q.linear with
    | some l => PyVec.map₂ (· + ·) l1 l
    | none => l1

/-- `identity_quadratic.collapsed`, `identity_quadratic.py:193-210`. -/
def collapsed (q : Quad ι K) : Quad ι K :=
  { coef := q.coef
    center := some (.scalar 0)
    linear := some q.collapsedLinear
    const := match q.center with
      | some c => q.const + q.coef * c.normSq / 2
      | none => q.const }

/-- `identity_quadratic.__add__`, `identity_quadratic.py:140-158`, for an argument that is `None` or an
identity_quadratic (anything else raises ValueError). -/
def add (q : Quad ι K) : Option (Quad ι K) → Quad ι K
  | none => q
  | some o =>
    { coef := q.collapsed.coef + o.collapsed.coef
      center := some (.scalar 0)
      linear := some (PyVec.map₂ (· + ·) q.collapsedLinear o.collapsedLinear)
      const := q.collapsed.const + o.collapsed.const }

/-- `identity_quadratic.recenter`, `identity_quadratic.py:94-105`.  `none`: line 101 raises TypeError because
`center` is `None`. -/
def recenter (q : Quad ι K) (offset : Option (PyVec ι K)) : Option (Option (PyVec ι K) × Quad ι K) :=
  match offset with
  | none => some (none, q.collapsed)
  | some o =>
    if o.allZero then some (none, q.collapsed)                          -- 96-97
    else match q.center with
      | none => none                                                    -- 101: `None -= offset`
      | some c => some (some o, ({ q with center := some (PyVec.map₂ (· - ·) c o) }).collapsed)

/-- `identity_quadratic.true_center`, lines 238-242. -/
def trueCenter (q : Quad ι K) : Option (PyVec ι K) :=
  if q.coef > 0 then some (q.collapsedLinear.map fun l => -l / q.coef) else none

/-- `identity_quadratic.conjugate`, lines 245-256.  `none`: for `coef == 0` the relative import on line 254
goes beyond the top-level package and raises ImportError. -/
def conjugate (q : Quad ι K) : Option (Quad ι K) :=
  if q.coef ≠ 0 then
    some { coef := 1 / q.coef
           center := some q.collapsedLinear
           linear := some (.scalar 0)
           const := -q.collapsed.const }
  else none

end Quad

end Verif.Model
