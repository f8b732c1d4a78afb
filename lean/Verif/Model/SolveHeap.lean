import Mathlib.Data.Real.Basic
import Mathlib.Data.Fin.VecNotation

/-!
# Model of the coefficient arrays shared by atoms, losses and problems

`simple_problem.__init__` makes one array the `coefs` of the problem, of its loss and of its atom; `solve` returns the array
bound to `coefs` without copying; `quasi_newton` and `admm_problem` write into such arrays in place.  Arrays live in a heap, the
attributes are references.  The numerical behaviour of a call is a parameter of the statement: a function from the starting
point to the sequence of proximal points it computes.  All shapes are equal.
-/

namespace Verif.Model.SolveHeap

/-- the contents of an array of coefficients -/
abbrev Vec (p : ℕ) := Fin p → ℝ

/-- What one run of `FISTA.fit` does to the arrays (`algorithms.py:102-206`): the points returned by `composite.proximal_step`, in
order, each with whether line 204 (`self.composite.coefs = proposed_coefs`) is reached for it.  Backtracking and rejected passes give
entries `(v, false)`. -/
abbrev Trace (p : ℕ) := List (Vec p × Bool)

/-- a `simple_problem`: its loss, its atom (by their numbers) and the array `coefs` -/
structure Problem where
  loss : ℕ
  atom : ℕ
  coefs : ℕ

/-- a `quasi_newton` problem: its atom, the array `coefs`, and the array `coefs` of its `quadratic_problem` -/
structure Newton where
  atom : ℕ
  coefs : ℕ
  inner : ℕ

/-- an `admm_problem`: the array `loss_coefs` and the array `coefs` of its `augmented_loss` -/
structure Admm where
  coefs : ℕ
  augmented : ℕ

/-- the arrays, the objects made so far, and the arrays the caller holds (in the order they were obtained) -/
structure World (p : ℕ) where
  heap : List (Vec p)
  atoms : List ℕ
  losses : List ℕ
  problems : List Problem
  newtons : List Newton
  admms : List Admm
  results : List ℕ

/-- nothing made yet -/
def World.empty (p : ℕ) : World p := ⟨[], [], [], [], [], [], []⟩

/-- one iteration of `quasi_newton.solve`: the run of the inner problem as a function of its starting point, and, from the current
point and the inner solution, the next point (`none`: `converged`, `newton.py:292-298`) -/
structure NewtonStep (p : ℕ) where
  run : Vec p → Trace p
  next : Vec p → Vec p → Option (Vec p)

/-- an attribute through which a caller reaches an array -/
inductive Slot where
  | atom (a : ℕ)
  | loss (l : ℕ)
  | problem (k : ℕ)
  | newton (k : ℕ)
  /-- `newton.quadratic_problem.coefs` -/
  | inner (k : ℕ)
  /-- `admm.loss_coefs` -/
  | admm (k : ℕ)
  /-- an array obtained earlier -/
  | result (j : ℕ)

/-- the statements of a program -/
inductive Op (p : ℕ) where
  /-- an atom, `composite.__init__` with the keyword `initial` -/
  | newAtom (initial : Option (Vec p))
  /-- a loss -/
  | newLoss
  /-- `simple_problem(loss, atom)` -/
  | newProblem (loss atom : ℕ)
  /-- `problem.solve(...)` -/
  | solve (k : ℕ) (run : Vec p → Trace p)
  /-- `atom.solve(q)`, whose proximal point is `z` -/
  | solveAtom (a : ℕ) (z : Vec p)
  /-- `loss.solve(...)` -/
  | solveLoss (l : ℕ) (run : Vec p → Trace p)
  /-- `quasi_newton(loss, atom, H)` -/
  | newNewton (loss atom : ℕ)
  /-- `newton.solve(...)`; one entry for each iteration allowed by `niter` -/
  | solveNewton (k : ℕ) (steps : List (NewtonStep p))
  /-- `admm_problem(loss, atom, transform, rho)` -/
  | newAdmm (loss : ℕ)
  /-- `admm.solve(niter)`; one run of `augmented_loss.solve` for each iteration -/
  | solveAdmm (k : ℕ) (runs : List (Vec p → Trace p))
  /-- the caller reads an attribute `coefs` (`loss_coefs`) and keeps the array -/
  | get (s : Slot)
  /-- `<attribute>[:] = v`, as in `nesta` (`simple.py:205`) for a problem -/
  | write (s : Slot) (v : Vec p)

variable {p : ℕ}

/-- the contents of an array -/
def contents (h : List (Vec p)) (r : ℕ) : Vec p := h.getD r 0

/-- The loop of `FISTA.fit` seen by the arrays.  `nonsmooth.solve` (`composite.py:174-182`, called by `simple_problem.proximal`,
`simple.py:37-39`) binds the attribute `coefs` of the atom to a new array at every call and returns that array; line 204 of
`algorithms.py` binds the attribute of the composite to it.  Returned: heap, array of the atom, array of the composite. -/
def fista : Trace p → List (Vec p) → ℕ → ℕ → List (Vec p) × ℕ × ℕ
  | [], h, a, c => (h, a, c)
  | (v, accepted) :: t, h, _, c => fista t (h ++ [v]) h.length (if accepted then h.length else c)

/-- The loop of `quasi_newton.solve`, `newton.py:283-306` with `solve_inner_loop` (238-250): line 245 copies the current point into
the array of the inner problem in place, the inner solve binds it to new arrays, line 304 binds `coefs` to a new array.  Returned:
heap, arrays of the atom, of the problem, of the inner problem (the last `quad_soln`). -/
def newtonLoop : List (NewtonStep p) → List (Vec p) → ℕ → ℕ → ℕ → List (Vec p) × ℕ × ℕ × ℕ
  | [], h, a, c, i => (h, a, c, i)
  | s :: rest, h, a, c, i =>
    let h1 := h.set i (contents h c)
    let r := fista (s.run (contents h1 i)) h1 a i
    match s.next (contents r.1 c) (contents r.1 r.2.2) with
    | none => (r.1, r.2.1, c, r.2.2)
    | some x => newtonLoop rest (r.1 ++ [x]) r.2.1 r.1.length r.2.2

/-- The loop of `admm_problem.solve`, `admm.py:92-96`: `augmented_loss.solve` (`composite.py:212-226`, a smooth composite: only its own
`coefs` is bound to new arrays), then line 72 copies the result into `loss_coefs` in place.  The updates of the atom and dual
variables use arrays of their own. -/
def admmLoop : List (Vec p → Trace p) → List (Vec p) → ℕ → ℕ → List (Vec p) × ℕ
  | [], h, _, g => (h, g)
  | run :: rest, h, c, g =>
    let r := fista (run (contents h g)) h 0 g
    admmLoop rest (r.1.set c (contents r.1 r.2.2)) c r.2.2

/-- the array behind an attribute -/
def Slot.ref (w : World p) : Slot → Option ℕ
  | .atom a => w.atoms[a]?
  | .loss l => w.losses[l]?
  | .problem k => w.problems[k]?.map Problem.coefs
  | .newton k => w.newtons[k]?.map Newton.coefs
  | .inner k => w.newtons[k]?.map Newton.inner
  | .admm k => w.admms[k]?.map Admm.coefs
  | .result j => w.results[j]?

/-- One statement; `none`: an exception (an object that does not exist; `niter=0` for `quasi_newton.solve`, which then reads
`quad_soln` before it is assigned). -/
def step (w : World p) : Op p → Option (World p)
  | .newAtom initial =>                                                       -- composite.py:36-39
    some { w with heap := w.heap ++ [initial.getD 0], atoms := w.atoms ++ [w.heap.length] }
  | .newLoss => some { w with heap := w.heap ++ [0], losses := w.losses ++ [w.heap.length] }
  | .newProblem l a =>                                                        -- simple.py:19-22
    match w.losses[l]?, w.atoms[a]? with
    | some _, some r => some { w with losses := w.losses.set l r, problems := w.problems ++ [⟨l, a, r⟩] }
    | _, _ => none
  | .solve k run =>                                                           -- simple.py:77-94 (line 84 copies an array onto itself)
    match w.problems[k]? with
    | none => none
    | some P => match w.atoms[P.atom]? with
      | none => none
      | some a =>
        let r := fista (run (contents w.heap P.coefs)) w.heap a P.coefs
        some { w with heap := r.1, atoms := w.atoms.set P.atom r.2.1, problems := w.problems.set k { P with coefs := r.2.2 },
                      results := w.results ++ [r.2.2] }
  | .solveAtom a z =>                                                         -- composite.py:174-182
    match w.atoms[a]? with
    | none => none
    | some _ => some { w with heap := w.heap ++ [z], atoms := w.atoms.set a w.heap.length, results := w.results ++ [w.heap.length] }
  | .solveLoss l run =>                                                       -- composite.py:212-226
    match w.losses[l]? with
    | none => none
    | some c =>
      let r := fista (run (contents w.heap c)) w.heap 0 c
      some { w with heap := r.1, losses := w.losses.set l r.2.2, results := w.results ++ [r.2.2] }
  | .newNewton l a =>                                                         -- newton.py:62-75
    match w.losses[l]?, w.atoms[a]? with
    | some _, some r => some { w with losses := w.losses.set l r, newtons := w.newtons ++ [⟨a, r, r⟩] }
    | _, _ => none
  | .solveNewton k steps =>                                                   -- newton.py:282-312
    match w.newtons[k]?, steps with
    | none, _ => none
    | _, [] => none
    | some N, s :: rest => match w.atoms[N.atom]? with
      | none => none
      | some a =>
        let r := newtonLoop (s :: rest) w.heap a N.coefs N.inner
        some { w with heap := r.1.set r.2.2.1 (contents r.1 r.2.2.2),             -- 309
                      atoms := w.atoms.set N.atom r.2.1, newtons := w.newtons.set k ⟨N.atom, r.2.2.1, r.2.2.2⟩,
                      results := w.results ++ [r.2.2.1] }
  | .newAdmm l =>                                                             -- admm.py:46, 54-55; smooth/__init__.py:325
    match w.losses[l]? with
    | none => none
    | some r => some { w with admms := w.admms ++ [⟨r, r⟩] }
  | .solveAdmm k runs =>                                                      -- admm.py:92-96
    match w.admms[k]? with
    | none => none
    | some A =>
      let r := admmLoop runs w.heap A.coefs A.augmented
      some { w with heap := r.1, admms := w.admms.set k ⟨A.coefs, r.2⟩ }
  | .get s =>
    match s.ref w with
    | none => none
    | some r => some { w with results := w.results ++ [r] }
  | .write s v =>
    match s.ref w with
    | none => none
    | some r => some { w with heap := w.heap.set r v }

/-- a program; it ends at the first exception -/
def exec : List (Op p) → World p → Option (World p)
  | [], w => some w
  | o :: os, w => (step w o).bind (exec os)

/-- the value the caller sees in the `j`-th array obtained -/
def World.result (w : World p) (j : ℕ) : Option (Vec p) := w.results[j]?.map (contents w.heap)

/-- the value the caller sees in an attribute -/
def World.value (w : World p) (s : Slot) : Option (Vec p) := (s.ref w).map (contents w.heap)

end Verif.Model.SolveHeap
