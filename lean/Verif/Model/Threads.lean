import Verif.Model.LassoObj

/-!
# Model of concurrent calls of `warm_start` (regreg/paths/__init__.py 374-429; cross_validate.py 77-88)

`cross_validate` runs the folds in threads (`prefer="threads"`), and all of them use the same `solve_args` dictionary, the mutable
default argument of `warm_start` (line 380).  One loop iteration (lines 401-421) writes `solve_args['tol']`, then
`solve_args['start_step']`, then reads the dictionary in the call of `solve`.  Each of these three is one action here; everything
else a thread does touches only objects of its own (its path, its problem, its lists).  The interpreter may switch threads between
any two actions: a schedule is a list of thread numbers.
-/

namespace Verif.Model.Threads
open Verif.Model

noncomputable section

/-- the `solve_args` dictionary, with numbers as values -/
abbrev Dict := String → Option ℝ

/-- `solve_args[key] = value` -/
def Dict.set (d : Dict) (key : String) (value : ℝ) : Dict := fun k => if k = key then some value else d k

/-- `problem.solve(**solve_args)` with `coefs[:] = start`: solution and `final_step`.  The first argument is the number of calls the
thread made before. -/
abbrev Solver (V : Type) := Dict → ℕ → (V → ℝ) → (V → ℝ) → V → V × ℝ

/-- one call of `warm_start`: path object, `lagrange_seq`, initial solution, initial step, `inner_tol` -/
structure Call (V : Type) where
  path : WarmStart.WarmPath V
  seq : List ℝ
  initial : V
  step : ℝ
  tol : ℝ

/-- the next action of a thread -/
inductive Pc | setTol | setStep | solve
  deriving DecidableEq

/-- the variables of one call: lines 382-399 -/
structure Thread (V : Type) where
  pc : Pc
  remaining : List ℝ
  solution : V
  finalStep : ℝ
  calls : ℕ
  solutions : List V

/-- start of a call -/
def Call.start {V : Type} (c : Call V) : Thread V := ⟨.setTol, c.seq, c.initial, c.step, 0, []⟩

structure State (V : Type) (m : ℕ) where
  dict : Dict
  threads : Fin m → Thread V

/-- one action of a thread: 407, 408, or 409-414; a thread whose loop is over does nothing -/
def act {V : Type} (solve : Solver V) (c : Call V) (d : Dict) (t : Thread V) : Dict × Thread V :=
  match t.remaining with
  | [] => (d, t)
  | lam :: rest =>
    match t.pc with
    | .setTol => (d.set "tol" c.tol, { t with pc := .setStep })
    | .setStep => (d.set "start_step" t.finalStep, { t with pc := .solve })
    | .solve =>
      let total := fun v => c.path.loss v + c.path.enetLoss lam v                                          -- 402-403
      let pen := fun v => lam * c.path.alpha * c.path.penalty v                                            -- 404
      let r := solve d t.calls total pen t.solution
      (d, { pc := .setTol, remaining := rest, solution := r.1, finalStep := r.2, calls := t.calls + 1,
            solutions := t.solutions ++ [r.1] })

/-- thread `i` performs its next action -/
def step {V : Type} {m : ℕ} (solve : Solver V) (calls : Fin m → Call V) (s : State V m) (i : Fin m) : State V m :=
  let r := act solve (calls i) s.dict (s.threads i)
  { dict := r.1, threads := Function.update s.threads i r.2 }

/-- all calls started with the same dictionary, run under a schedule -/
def run {V : Type} {m : ℕ} (solve : Solver V) (calls : Fin m → Call V) (d : Dict) (schedule : List (Fin m)) : State V m :=
  schedule.foldl (step solve calls) { dict := d, threads := fun i => (calls i).start }

/-- the call of `warm_start` in a fold: cross_validate.py 69-74; `step` is the initial step of the fold (`power_L` starts from a
random vector, so it may differ between folds) -/
def foldCall {p n : ℕ} (Q : LassoObj.Obj p n) (seq : List ℝ) (initial : (Fin p → ℝ) × (Fin p → ℝ)) (innerTol step : ℝ) :
    Call (Fin p → ℝ) :=
  { path := LassoObj.toWarm Q, seq := seq, initial := initial.1, step := step, tol := innerTol }

end

end Verif.Model.Threads
