import Verif.Model.AnyLoss
import Verif.Model.QuadraticLoss

/-!
# Model of the static methods and subclasses that build a `simple_problem`, and of `composite.proximal_optimum`

`simple_problem.smooth`, `simple_problem.nonsmooth` (problems/simple.py), `separable_problem` and its static methods
(problems/separable.py), `signal_approximator` (smooth/quadratic.py).  Simplification: `shapes` of a separable atom is `[]`
(`Model/SeparableObj.lean` has the reshaped groups).
-/

namespace Verif.Model
open Verif.Spec

variable {m n : ℕ}

noncomputable section

/-- `smooth.zero(shape)`, smooth/__init__.py 283-296; the quadratic is `sq(0,0,0,0)` (problems/composite.py 30-33) -/
def QuadLoss.zero : QuadLoss m := ⟨Smooth.zeroObj, zeroQuad m⟩

/-- `cones.zero(shape)`, atoms/cones.py 25-45 and 384-413, with default arguments -/
def zeroCone : NonsmoothAtom m := Cone.zeroCls.atom none (zeroQuad m)

/-- `simple_problem.nonsmooth(proximal_atom)`, problems/simple.py 52-61; `coefs` is the `coefs` of the atom (line 22) -/
def SimpleProblem.nonsmoothOnly (A : NonsmoothAtom m) (coefs : Fin m → ℝ) : SimpleProblem m := SimpleProblem.ofLoss .zero A coefs

/-- `simple_problem.smooth(smooth_atom)`, problems/simple.py 41-50: the start is the `coefs` of the new cone, which is zero -/
def SimpleProblem.smoothOnly (S : QuadLoss m) : SimpleProblem m := SimpleProblem.ofLoss S zeroCone fun _ => 0

/-- `signal_approximator(signal, coef)`, smooth/quadratic.py 257-269 (lines 267-268 only set strings); `none`: ValueError -/
def signalApproximator (signal : Fin n → ℝ) (coef : ℝ) : Option (QuadObj n) := QuadObj.shift signal coef none [] .none

/-- A `separable` object with arbitrary atoms: its `atoms` and `groups`, and its attribute `coefs`, `none` when it does not exist. -/
structure SeparableAtom (n : ℕ) where
  blocks : List (Σ g : Selector n, NonsmoothAtom g.len)
  coefs : Option (Fin n → ℝ)

namespace SeparableAtom

/-- `separable.__init__`, problems/separable.py 59-79; `none`: the ValueError of line 67.  `coefs` is only created without `initial`
(lines 78-79). -/
def init (blocks : List (Σ g : Selector n, NonsmoothAtom g.len)) (testForOverlap : Bool) (initial : Option (Fin n → ℝ)) :
    Option (SeparableAtom n) :=
  if testForOverlap && hasOverlap (blocks.map (·.1)) then none
  else some ⟨blocks, match initial with
    | none => some fun _ => 0
    | some _ => none⟩

/-- `simple_problem(loss, sep)`, problems/simple.py 19-22; `none`: the AttributeError of line 22 -/
def problem (s : SeparableAtom n) (S : QuadLoss n) : Option (SimpleProblem n) :=
  s.coefs.map fun c => SimpleProblem.ofLoss S (separableAtom s.blocks) c

end SeparableAtom

/-- the index object `slice(None)` -/
def Selector.full (n : ℕ) : Selector n := ⟨n, id⟩

namespace SeparableProblem

/-- `separable_problem.__init__`, problems/separable.py 176-189; `none`: an exception -/
def init (S : QuadLoss n) (blocks : List (Σ g : Selector n, NonsmoothAtom g.len)) (testForOverlap : Bool) :
    Option (SimpleProblem n) :=
  match SeparableAtom.init blocks testForOverlap none with
  | none => none
  | some s => s.problem S

/-- `separable_problem.singleton(atom, smooth_f)`, problems/separable.py 191-197 -/
def singleton (A : NonsmoothAtom n) (S : QuadLoss n) : Option (SimpleProblem n) := init S [⟨Selector.full n, A⟩] false

/-- `separable_problem.fromatom(separable_atom, smooth_f)`, problems/separable.py 199-205 -/
def fromAtom (s : SeparableAtom n) (S : QuadLoss n) : Option (SimpleProblem n) := init S s.blocks false

end SeparableProblem

/-- A Python number or a tuple `(value, array)`, as the terms of a sum. -/
inductive PyTerm (n : ℕ) where
  | num (v : ObjVal)
  | pair (v : ℝ) (g : Fin n → ℝ)

/-- `a + b`.  A tuple plus a float is a TypeError, a tuple plus a numpy float converts the ragged tuple to an array, a ValueError;
both are `none`. -/
def PyTerm.add : PyTerm n → PyTerm n → Option (PyTerm n)
  | .num a, .num b => some (.num (a.add b))
  | _, _ => none

/-- what `identity_quadratic.objective(x, mode)` returns, as a term; `none`: ValueError -/
def PyTerm.ofValue : Quad.Value (Fin n) ℝ → Option (PyTerm n)
  | .func v => some (.num (.num v))
  | .both v g => some (.pair v g)
  | _ => none

/-- `composite.proximal_optimum(quadratic)`, problems/composite.py 85-95, of an atom whose own quadratic is `own` (never `None`:
lines 126-133).  Line 95 calls `quadratic.objective(argmin)`, whose default mode is 'both' (identity_quadratic.py 107).  `none`: an
exception. -/
def NonsmoothAtom.proximalOptimum (A : NonsmoothAtom n) (own q : Quad (Fin n) ℝ) : Option ((Fin n → ℝ) × PyTerm n) :=
  match A.proximal q with
  | .ok argmin => do
    let a ← PyTerm.ofValue (q.objective argmin .both)
    let b ← a.add (.num (A.nonsmooth argmin false))
    let c ← PyTerm.ofValue (own.objective argmin .func)
    let t ← b.add c
    pure (argmin, t)
  | _ => none

end

end Verif.Model
