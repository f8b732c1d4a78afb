import Mathlib.Algebra.Order.Field.Basic

/-!
# Model of the parameter bookkeeping of `seminorm`, `regreg/atoms/seminorms.py`

The object state relevant here is the pair `(_lagrange, _bound)`; `None` is `Option.none`.
-/

namespace Verif.Model

variable {K : Type*} [Field K] [LinearOrder K]

/-- `_lagrange` and `_bound`. -/
structure AtomState (K : Type*) where
  lagrange : Option K
  bound : Option K

/-- Python exceptions raised by this code. -/
inductive PyExc where
  | valueError | attributeError

namespace AtomState

/-- `seminorm.__init__`, `seminorms.py:34-58`. -/
def init (lagrange bound : Option K) : Except PyExc (AtomState K) :=
  match lagrange, bound with
  | some _, some _ => .error .valueError                        -- 40-43
  | none, none => .error .valueError                            -- 44-47
  | none, some b => if b < 0 then .error .valueError else .ok ⟨none, some b⟩      -- 48-49, 56-58
  | some l, none => if l < 0 then .error .valueError else .ok ⟨some l, none⟩      -- 50-55

/-- `seminorm.set_lagrange`, `seminorms.py:220-246`. -/
def setLagrange (s : AtomState K) (v : Option K) : Except PyExc (AtomState K) :=
  match s.bound with
  | none => .ok { s with lagrange := v }
  | some _ => .error .attributeError

/-- `seminorm.set_bound`, `seminorms.py:262-281`. -/
def setBound (s : AtomState K) (v : Option K) : Except PyExc (AtomState K) :=
  match s.lagrange with
  | none => .ok { s with bound := v }
  | some _ => .error .attributeError

/-- module level `get_lagrange(atom, lagrange=None)`, `seminorms.py:1173-1183`: the parameter used by
`seminorm` and `lagrange_prox`. -/
def resolveLagrange (s : AtomState K) (arg : Option K) : Except PyExc K :=
  match arg with
  | some l => .ok l
  | none => match s.lagrange with
    | some l => .ok l
    | none => .error .valueError

/-- module level `get_bound(atom, bound=None)`, `seminorms.py:1185-1195`. -/
def resolveBound (s : AtomState K) (arg : Option K) : Except PyExc K :=
  match arg with
  | some b => .ok b
  | none => match s.bound with
    | some b => .ok b
    | none => .error .valueError

/-- `seminorm.__copy__`, `seminorms.py:136-141`: calls the constructor with the current parameters. -/
def copy (s : AtomState K) : Except PyExc (AtomState K) := init s.lagrange s.bound

/-- `seminorm.__eq__`, `seminorms.py:129-134`, for two atoms of the same class (offset, quadratic and shape are
not compared). -/
def eq (s t : AtomState K) : Prop :=
  match s.bound with
  | some b => t.bound = some b
  | none => s.lagrange = t.lagrange

/-- An assignment `atom.lagrange = v` or `atom.bound = v`. -/
inductive Op (K : Type*) where
  | setLagrange (v : Option K)
  | setBound (v : Option K)

/-- An assignment that raises leaves the object as it was. Returns the new state and whether it raised. -/
def step (s : AtomState K) : Op K → AtomState K × Option PyExc
  | .setLagrange v => match s.setLagrange v with
    | .ok s' => (s', none)
    | .error e => (s, some e)
  | .setBound v => match s.setBound v with
    | .ok s' => (s', none)
    | .error e => (s, some e)

/-- a sequence of assignments, collecting the exceptions -/
def run (s : AtomState K) : List (Op K) → AtomState K × List (Option PyExc)
  | [] => (s, [])
  | op :: ops =>
    let r := step s op
    let r' := run r.1 ops
    (r'.1, r.2 :: r'.2)

end AtomState

end Verif.Model
