import Verif.Model.SolveHeap

/-!
# What solving means when results are values

No arrays are shared: an atom, a loss and a problem each have a current point, a result is a vector.
-/

namespace Verif.Spec.Solve
open Verif.Model.SolveHeap

variable {p : ℕ}

/-- the point a run leaves as solution: the last accepted one, the start if there is none -/
def solution : Trace p → Vec p → Vec p
  | [], x => x
  | (v, accepted) :: t, x => solution t (if accepted then v else x)

/-- the last point the proximal map was asked for -/
def lastPoint : Trace p → Vec p → Vec p
  | [], x => x
  | (v, _) :: t, _ => lastPoint t v

/-- the current points of the objects, and the results -/
structure Points (p : ℕ) where
  atoms : List (Vec p)
  losses : List (Vec p)
  problems : List (ℕ × ℕ × Vec p)
  results : List (Vec p)

/-- nothing made yet -/
def Points.empty (p : ℕ) : Points p := ⟨[], [], [], []⟩

/-- statements that make atoms, losses and `simple_problem`s, solve them, and read their coefficients -/
def Plain : Op p → Prop
  | .newNewton _ _ | .solveNewton _ _ | .newAdmm _ | .solveAdmm _ _ | .write _ _ => False
  | .get (.newton _) | .get (.inner _) | .get (.admm _) => False
  | _ => True

/-- the current point behind an attribute -/
def Points.at (W : Points p) : Slot → Option (Vec p)
  | .atom a => W.atoms[a]?
  | .loss l => W.losses[l]?
  | .problem k => W.problems[k]?.map fun P => P.2.2
  | .result j => W.results[j]?
  | _ => none

/-- the meaning of a plain statement -/
def Points.step (W : Points p) : Op p → Option (Points p)
  | .newAtom initial => some { W with atoms := W.atoms ++ [initial.getD 0] }
  | .newLoss => some { W with losses := W.losses ++ [0] }
  | .newProblem l a =>
    match W.losses[l]?, W.atoms[a]? with
    | some _, some x => some { W with losses := W.losses.set l x, problems := W.problems ++ [(l, a, x)] }
    | _, _ => none
  | .solve k run =>
    match W.problems[k]? with
    | none => none
    | some (l, a, x) => match W.atoms[a]? with
      | none => none
      | some y => some { W with atoms := W.atoms.set a (lastPoint (run x) y)
                                problems := W.problems.set k (l, a, solution (run x) x)
                                results := W.results ++ [solution (run x) x] }
  | .solveAtom a z =>
    match W.atoms[a]? with
    | none => none
    | some _ => some { W with atoms := W.atoms.set a z, results := W.results ++ [z] }
  | .solveLoss l run =>
    match W.losses[l]? with
    | none => none
    | some x => some { W with losses := W.losses.set l (solution (run x) x), results := W.results ++ [solution (run x) x] }
  | .get s => (W.at s).map fun x => { W with results := W.results ++ [x] }
  | _ => none

/-- the meaning of a plain program -/
def Points.exec : List (Op p) → Points p → Option (Points p)
  | [], W => some W
  | o :: os, W => (W.step o).bind (Points.exec os)

/-- the values a caller sees in the arrays of a session -/
def view (w : World p) : Points p :=
  ⟨w.atoms.map (contents w.heap), w.losses.map (contents w.heap), w.problems.map fun P => (P.loss, P.atom, contents w.heap P.coefs),
    w.results.map (contents w.heap)⟩

/-- the statement names atom `a` -/
def Mentions (a : ℕ) : Op p → Prop
  | .newProblem _ b | .newNewton _ b | .solveAtom b _ | .get (.atom b) | .write (.atom b) _ => b = a
  | _ => False

/-- the result of `quasi_newton.solve` from the point `x`: every inner problem is started at the current point, the result is the
last inner solution -/
def newtonSolution : List (NewtonStep p) → Vec p → Option (Vec p)
  | [], _ => none
  | s :: rest, x =>
    match s.next x (solution (s.run x) x), rest with
    | some y, _ :: _ => newtonSolution rest y
    | _, _ => some (solution (s.run x) x)

/-- the result of `admm_problem.solve` from the point `x` of the loss and `g` of the augmented loss -/
def admmSolution : List (Vec p → Trace p) → Vec p → Vec p → Vec p × Vec p
  | [], x, g => (x, g)
  | run :: rest, _, g => admmSolution rest (solution (run g) g) (solution (run g) g)

/-- for examples: one accepted pass on `½(x - c)²` with step `1/2` -/
noncomputable def halfway (c : ℝ) (x : Vec 1) : Trace 1 := [(fun i => (x i + c) / 2, true)]

end Verif.Spec.Solve
