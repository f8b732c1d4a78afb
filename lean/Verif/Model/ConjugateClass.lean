import Verif.Model.Smoothed
import Verif.Model.AffineAtom

/-!
# Model of the class `conjugate` (`problems/conjugate.py`) and of `smooth_conjugate.get_conjugate`, `smooth.solve`,
`smooth.proximal` (`problems/composite.py`)
-/

namespace Verif.Model

open Verif.Spec (Mode Eval)

variable {n : ℕ} {σ : Type}

/-- An object of the class `conjugate`.  `solve` is what line 67 or 69 does: minimise atom plus the given quadratic,
with an internal state `σ` (the solver of a smooth atom keeps its last coefficients as warm start); `none` is an
exception.  `objective` is `atom.objective` (`none`: not a finite number), `atomQuad` the attribute `atom.quadratic`,
`conjQuad` the object `conjugate_quadratic`, which is the one the caller passed, `argmin` the attribute of that name. -/
structure ConjObj (n : ℕ) (σ : Type) where
  solve : σ → Quad (Fin n) ℝ → σ × Option (Fin n → ℝ)
  objective : (Fin n → ℝ) → Option ℝ
  atomQuad : Quad (Fin n) ℝ
  inner : σ
  conjQuad : Quad (Fin n) ℝ
  negate : Bool
  argmin : Option (Fin n → ℝ)

namespace ConjObj

/-- `conjugate.__init__`, `conjugate.py:16-48`; `none` is the ValueError of line 28. -/
noncomputable def init (solve : σ → Quad (Fin n) ℝ → σ × Option (Fin n → ℝ)) (objective : (Fin n → ℝ) → Option ℝ)
    (atomQuad : Quad (Fin n) ℝ) (inner : σ) (quadratic : Option (Quad (Fin n) ℝ)) (negate : Bool) : Option (ConjObj n σ) :=
  let q := quadratic.getD ⟨0, some (.scalar 0), some (.scalar 0), 0⟩          -- 21-23
  if (atomQuad.add (some q)).coef = 0 then none                               -- 25-27
  else some ⟨solve, objective, atomQuad, inner, q, negate, none⟩

/-- the value returned, lines 78, 80, 83 -/
noncomputable def value (C : ConjObj n σ) (v m : Fin n → ℝ) (val : ℝ) : ℝ :=
  -val - C.conjQuad.funcVal m + ∑ i, v i * m i

/-- lines 75-86; `none`: `objective` failed -/
noncomputable def report (C : ConjObj n σ) (v m : Fin n → ℝ) : Mode → Option (Eval n)
  | .both => (C.objective m).map fun val => .both (C.value v m val) (if C.negate then fun i => -m i else m)
  | .func => (C.objective m).map fun val => .val (C.value v m val)
  | .grad => some (.grad (if C.negate then fun i => -m i else m))
  | .other => some .valueError

/-- lines 60-62: `conjugate_quadratic` with `-v`, or `old_lin - v`, as linear term -/
noncomputable def shifted (q : Quad (Fin n) ℝ) (v : Fin n → ℝ) : Quad (Fin n) ℝ :=
  { q with linear := some (match q.linear with
    | none => .arr fun i => -v i
    | some l => .arr fun i => l.get i - v i) }

/-- `conjugate.smooth_objective`, `conjugate.py:51-84`: the object afterwards and the result; `none`: an exception of
the inner solver (or of `objective`). -/
noncomputable def smoothObjective (C : ConjObj n σ) (x : Fin n → ℝ) (mode : Mode) : ConjObj n σ × Option (Eval n) :=
  let v := if C.negate then fun i => -x i else x                              -- 58
  let old := C.conjQuad.linear                                                -- 60
  let q := shifted C.conjQuad v                                               -- 61-62
  match C.solve C.inner q with                                                -- 63-66
  | (s, none) => ({ C with inner := s, conjQuad := q }, none)
  | (s, some m) =>
    let C' := { C with inner := s, conjQuad := { q with linear := old }, argmin := some m }   -- 67-70
    (C', C'.report v m mode)

/-- the object after a sequence of evaluations -/
noncomputable def after (C : ConjObj n σ) : List ((Fin n → ℝ) × Mode) → ConjObj n σ
  | [] => C
  | (x, mode) :: l => ((C.smoothObjective x mode).1).after l

end ConjObj

/-- a seminorm atom in the class `conjugate`: line 66, no inner state -/
noncomputable def AtomObj.innerSolve (a : AtomObj (Fin (n + 1)) ℝ) (_ : Unit) (q : Quad (Fin (n + 1)) ℝ) :
    Unit × Option (Fin (n + 1) → ℝ) :=
  match a.proximal q with
  | .ok p => ((), some p)
  | _ => ((), none)

/-- `atom.objective(minimizer)` of a seminorm atom, without feasibility check -/
noncomputable def AtomObj.innerObjective (a : AtomObj (Fin (n + 1)) ℝ) (p : Fin (n + 1) → ℝ) : Option ℝ :=
  ((a.nonsmoothObjective p false).bind finite?).map fun v => 0 + v

/-- Outcome of `smooth_conjugate.get_conjugate`. -/
inductive DoubleConj (n : ℕ)
  | atom (a : AtomObj (Fin (n + 1)) ℝ)
  /-- line 305: the local name `atom` is used before it is assigned -/
  | unboundLocalError
  /-- line 318: `smooth_conjugate(..., quadratic=newq)`, no such keyword -/
  | typeError
  /-- copying the atom failed -/
  | copyError

/-- `smooth_conjugate.get_conjugate`, `composite.py:294-351`, for a `smooth_conjugate` object with own quadratic
attribute `own` (zero unless the user sets it). -/
noncomputable def SmoothConj.getConjugate (s : SmoothConj n) (own : Quad (Fin (n + 1)) ℝ) : DoubleConj n := by
  classical
  exact
    if own.iszero then
      if s.smoothing.iszero then .atom s.atom                                 -- 295-297
      else match s.atom.copy with                                             -- 298-301
        | some c => .atom { c with quad := c.quad.add (some s.smoothing) }
        | none => .copyError
    else if own.collapsed.coef = 0 then .unboundLocalError                    -- 303-305
    else .typeError                                                           -- 314-318

/-- A smooth object (a loss): `smooth_objective` and the attribute `quadratic`. -/
structure QuadLoss (n : ℕ) where
  obj : (Fin n → ℝ) → Mode → Eval n
  quad : Quad (Fin n) ℝ

namespace QuadLoss

/-- `objective`, `composite.py:82-83` with `nonsmooth_objective` of lines 73-74; `none`: not a number -/
noncomputable def objective (f : QuadLoss n) (x : Fin n → ℝ) : Option ℝ :=
  match f.obj x .func with
  | .val v => some (v + f.quad.funcVal x)
  | _ => none

/-- `smooth.proximal`, `composite.py:209-211`; a zero total coefficient is a division by zero (`none`) -/
noncomputable def proximal (f : QuadLoss n) (q : Quad (Fin n) ℝ) : Option (PyVec (Fin n) ℝ) :=
  let total := f.quad.add (some q)
  if total.coef = 0 then none
  else total.linear.map fun
    | .scalar c => .scalar (-c / total.coef)
    | .arr l => .arr fun i => -l i / total.coef

/-- `smooth.solve`, `composite.py:213-224`, where `fit` is FISTA applied to the object: the coefficients, the value
returned with `return_optimum=True`, and the object afterwards. -/
noncomputable def solve (f : QuadLoss n) (fit : QuadLoss n → Fin n → ℝ) (quadratic : Option (Quad (Fin n) ℝ)) :
    (Fin n → ℝ) × Option ℝ × QuadLoss n :=
  let q := quadratic.getD ⟨0, some (.scalar 0), some (.scalar 0), 0⟩          -- 214-215
  let oldq := f.quad                                                          -- 216
  let f1 : QuadLoss n := { f with quad := f.quad.add (some q) }
  let coefs := fit f1                                                         -- 217-218
  let f2 : QuadLoss n := { f1 with quad := oldq }                              -- 219
  (coefs, f2.objective coefs, f2)                                             -- 221-224

/-- the value reported by `smooth_conjugate(loss).smooth_objective(x, 'func')`, `composite.py:380`, 393-396 -/
noncomputable def conjugateValue (f : QuadLoss n) (fit : QuadLoss n → Fin n → ℝ) (x : Fin n → ℝ) : Option ℝ :=
  let q : Quad (Fin n) ℝ := (⟨0, some (.scalar 0), some (.scalar 0), 0⟩ : Quad (Fin n) ℝ).add
    (some ⟨0, some (.scalar 0), some (.arr fun i => -x i), 0⟩)
  (f.solve fit (some q)).2.1.map fun v => -v

end QuadLoss

end Verif.Model
