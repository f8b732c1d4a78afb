import Verif.Model.Affine
import Verif.Spec.Smooth
import Mathlib.Analysis.SpecialFunctions.Sqrt

/-!
# Model of regreg/smooth/__init__.py and regreg/smooth/quadratic.py

Exact reals; arrays are one dimensional `Fin n → ℝ`.  Exceptions are values of `Spec.Eval`.
-/

namespace Verif.Model
open Verif.Spec

/-- An object with a `smooth_objective(x, mode)` method on `n` coordinates. -/
abbrev Objective (n : ℕ) := (Fin n → ℝ) → Mode → Eval n

noncomputable section
namespace Smooth

/-- `smooth_atom.scale` on a number, smooth/__init__.py lines 128-133 (`copy` has no effect on the value). -/
def scaleR (coef : ℝ) (obj : ℝ) : ℝ := if coef ≠ 1 then obj * coef else obj

/-- `smooth_atom.scale` on an array, smooth/__init__.py lines 128-133. -/
def scaleV (coef : ℝ) {n : ℕ} (obj : Fin n → ℝ) : Fin n → ℝ :=
  if coef ≠ 1 then fun i => obj i * coef else obj

/-- `composite.apply_offset`, problems/composite.py lines 112-118. -/
def applyOffset {n : ℕ} (offset : Option (Fin n → ℝ)) (x : Fin n → ℝ) : Fin n → ℝ :=
  match offset with
  | some o => fun i => x i - o i
  | none => x

/-- `smooth_atom.__init__`, smooth/__init__.py lines 43-52: a negative `coef` is rejected (`none` = ValueError).
The accepted coefficient and offset are stored unchanged. -/
def atomInit {n : ℕ} (coef : ℝ) (offset : Option (Fin n → ℝ)) : Option (ℝ × Option (Fin n → ℝ)) :=
  if coef < 0 then none else some (coef, offset)

/-- `affine_smooth.smooth_objective`, smooth/__init__.py lines 209-253.  `store_grad` only stores a reference and
`reshape(self.shape)` is the identity on one dimensional arrays.  An undocumented mode falls off the end of the
method and returns `None`. -/
def affineSmooth {m k : ℕ} (atom : Objective k) (T : Aff ℝ m k) : Objective m := fun arg mode =>
  let eta := T.aff arg
  match mode with
  | .both => match atom eta .both with
    | .both v g => .both v (T.adj g)
    | .valueError => .valueError
    | _ => .typeError
  | .grad => match atom eta .grad with
    | .grad g => .grad (T.adj g)
    | .valueError => .valueError
    | _ => .typeError
  | .func => match atom eta .func with
    | .val v => .val v
    | .valueError => .valueError
    | .pyNone => .pyNone
    | .typeError => .typeError
    | .grad _ => .typeError
    | .both _ _ => .typeError
  | .other => .pyNone

/-- `zero.smooth_objective`, smooth/__init__.py lines 289-296. -/
def zeroObj {n : ℕ} : Objective n := fun _ mode =>
  match mode with
  | .both => .both 0 fun _ => 0
  | .func => .val 0
  | .grad => .grad fun _ => 0
  | .other => .valueError

/-- Result of `sum(atoms, weights)`: the two explicit `ValueError`s, the `IndexError` of `self.atoms[0]`, or the
object with its weights. -/
inductive SumInit (n : ℕ)
  | lengthError
  | negativeError
  | indexError
  | ok (weights : List ℝ) (atoms : List (Objective n))

open Classical in
/-- `sum.__init__`, smooth/__init__.py lines 302-327. -/
def sumInit {n : ℕ} (atoms : List (Objective n)) (weights : Option (List ℝ)) : SumInit n :=
  let w := match weights with
    | none => List.replicate atoms.length 1
    | some w => w
  if w.length ≠ atoms.length then .lengthError
  else if ∃ a ∈ w, a < 0 then .negativeError
  else match atoms with
    | [] => .indexError
    | _ => .ok w atoms

/-- The loop of `sum.smooth_objective`, smooth/__init__.py lines 355-363, over the list `zip(weights, atoms)` with the
accumulators `f`, `g`; `none` when an atom's result cannot be multiplied, added or unpacked.  The initial integer
`g = 0` is the zero vector (it is broadcast by the first addition). -/
def sumLoop {n : ℕ} (x : Fin n → ℝ) (mode : Mode) : List (ℝ × Objective n) → ℝ → (Fin n → ℝ) →
    Option (ℝ × (Fin n → ℝ))
  | [], f, g => some (f, g)
  | (w, atom) :: rest, f, g =>
    match mode with
    | .func => match atom x .func with
      | .val v => sumLoop x mode rest (f + w * v) g
      | _ => none
    | .grad => match atom x .grad with
      | .grad ga => sumLoop x mode rest f fun i => g i + w * ga i
      | _ => none
    | .both => match atom x .both with
      | .both fa ga => sumLoop x mode rest (f + w * fa) fun i => g i + w * ga i
      | _ => none
    | .other => sumLoop x mode rest f g

/-- `sum.smooth_objective`, smooth/__init__.py lines 328-374 (`self.offset = None`, so `apply_offset` is the
identity).  An exception inside an atom is reported as `typeError`. -/
def sumObj {n : ℕ} (weights : List ℝ) (atoms : List (Objective n)) : Objective n := fun x mode =>
  match sumLoop (applyOffset none x) mode (weights.zip atoms) 0 (fun _ => 0) with
  | none => .typeError
  | some (f, g) =>
    match mode with
    | .func => .val f
    | .grad => .grad g
    | .both => .both f g
    | .other => .valueError

/-- The `Q` attribute of `quadratic_loss`, smooth/quadratic.py lines 64-71: none, diagonal, a matrix, or a transform
object whose `linear_map` is used. -/
inductive QForm (n : ℕ)
  | none
  | diag (d : Fin n → ℝ)
  | full (Q : Fin n → Fin n → ℝ)
  | transform (T : Aff ℝ n n)

/-- `Q_transform.linear_map(x)`. -/
def QForm.app {n : ℕ} : QForm n → (Fin n → ℝ) → Fin n → ℝ
  | .none, x => x
  | .diag d, x => fun i => d i * x i
  | .full Q, x => fun i => ∑ j, Q i j * x j
  | .transform T, x => T.lin x

/-- `quadratic_loss.smooth_objective`, smooth/quadratic.py lines 131-164.  With `Q = None` an undocumented mode also
raises ValueError (line 152). -/
def quadraticLoss {n : ℕ} (coef : ℝ) (offset : Option (Fin n → ℝ)) (Q : QForm n) : Objective n :=
  fun x0 mode =>
  let x := applyOffset offset x0
  match Q with
  | .none => match mode with
    | .both => .both (scaleR coef (Real.sqrt (∑ i, x i ^ 2) ^ 2) / 2) (scaleV coef x)
    | .grad => .grad (scaleV coef x)
    | .func => .val (scaleR coef (Real.sqrt (∑ i, x i ^ 2) ^ 2) / 2)
    | .other => .valueError
  | Q => match mode with
    | .both => .both (scaleR coef (∑ i, x i * Q.app x i) / 2) (scaleV coef (Q.app x))
    | .grad => .grad (scaleV coef (Q.app x))
    | .func => .val (scaleR coef (∑ i, x i * Q.app x i) / 2)
    | .other => .valueError

/-- `quadratic_loss.affine(X, offset, coef)`, smooth/__init__.py lines 80-99: the offset is negated before it is
handed to the atom, and the atom subtracts it. -/
def quadraticAffine {m k : ℕ} (X : Aff ℝ m k) (offset : Fin k → ℝ) (coef : ℝ) : Objective m :=
  affineSmooth (quadraticLoss coef (some fun i => -offset i) .none) X

/-- `squared_error(X, Y, coef)`, smooth/quadratic.py lines 235-255. -/
def squaredError {m k : ℕ} (X : Aff ℝ m k) (Y : Fin k → ℝ) (coef : ℝ) : Objective m :=
  quadraticAffine X (fun i => -Y i) coef

/-- `signal_approximator(signal, coef)`, smooth/quadratic.py lines 257-270 through `smooth_atom.shift`,
smooth/__init__.py lines 116-126. -/
def signalApproximator {n : ℕ} (signal : Fin n → ℝ) (coef : ℝ) : Objective n :=
  quadraticLoss coef (some signal) .none

end Smooth
end
end Verif.Model
