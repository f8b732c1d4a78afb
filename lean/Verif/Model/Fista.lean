import Verif.Model.IdentityQuadratic
import Mathlib.Analysis.Real.Sqrt

/-!
# Model of `regreg/algorithms.py` (FISTA) and of `regreg/problems/simple.py:17-93`

The composite problem a solver works on is a record of the four methods the solver calls.  Evaluations are pure
(that is what C31 proves of the concrete smooth atoms).  Numbers are real; `ObjVal` adds the two special values an
objective can take, nan and +inf (a value of -inf is not modelled).  The backtracking loop has no bound in the
code, so it is run with fuel; running out of fuel is the outcome `diverged`, never a success.
-/

namespace Verif.Model

/-- The value of an objective. -/
inductive ObjVal where
  | num (r : ℝ)
  | inf
  | nan

namespace ObjVal

/-- `a + b` -/
def add : ObjVal → ObjVal → ObjVal
  | num a, num b => num (a + b)
  | nan, _ => nan
  | _, nan => nan
  | _, _ => inf

/-- `np.fabs(a - b)` -/
noncomputable def absSub : ObjVal → ObjVal → ObjVal
  | num a, num b => num |a - b|
  | inf, num _ => inf
  | num _, inf => inf
  | _, _ => nan

/-- `change / np.max([np.fabs(w), 1.])`.  When `w` is inf the change is inf or nan and the quotient is nan;
`np.max` of a list with a nan is nan. -/
noncomputable def relTo (change w : ObjVal) : ObjVal :=
  match w, change with
  | num w, num c => num (c / max |w| 1)
  | num _, inf => inf
  | _, _ => nan

/-- `a < b`; every comparison with nan is False -/
def lt : ObjVal → ObjVal → Prop
  | num a, num b => a < b
  | num _, inf => True
  | _, _ => False

end ObjVal

/-- What `FISTA` calls on `self.composite`: `smooth_objective(x, 'func')`, `smooth_objective(x, 'grad')`,
`nonsmooth_objective(x, check_feasibility)`, `proximal_step(q)` (`none`: it raised), `lipschitz`. -/
structure Composite (n : ℕ) where
  smooth : (Fin n → ℝ) → ObjVal
  grad : (Fin n → ℝ) → Fin n → ℝ
  nonsmooth : (Fin n → ℝ) → Bool → ObjVal
  proximal : Quad (Fin n) ℝ → Option (Fin n → ℝ)
  lipschitz : ℝ

/-- The arguments of `fit` and the class attributes it reads (`algorithms.py:10-17, 45-56`).  `restart = none`:
`np.inf`.  `min_its`, `max_its`, `tol` are `None` or a number. `debug` only prints.  The argument `prox_control` is
not a field: line 94 sets `self.prox_control = {}` so it is never used. -/
structure FitArgs where
  tol : Option ℝ := none
  minIts : Option ℕ := none
  maxIts : Option ℕ := none
  /-- the keyword `FISTA` -/
  fista : Bool := true
  startStep : ℝ := 1
  restart : Option ℕ := none
  coefStop : Bool := false
  monotonicityRestart : Bool := true
  /-- class attribute `perform_backtrack` -/
  performBacktrack : Bool := true
  /-- class attribute `alpha` -/
  alpha : ℝ := 11 / 10

namespace FitArgs

/-- line 88: `tol or self.default_tol` -/
noncomputable def tolV (a : FitArgs) : ℝ := match a.tol with
  | some t => if t = 0 then 1 / 100000 else t
  | none => 1 / 100000

/-- line 89: `min_its or self.min_its` -/
def minItsV (a : FitArgs) : ℕ := match a.minIts with
  | some (k + 1) => k + 1
  | _ => 5

/-- line 90: `max_its or self.max_its` -/
def maxItsV (a : FitArgs) : ℕ := match a.maxIts with
  | some (k + 1) => k + 1
  | _ => 10000

end FitArgs

namespace Fista

variable {n : ℕ}

/-- `np.dot(a, b)` -/
def ip (a b : Fin n → ℝ) : ℝ := ∑ i, a i * b i

/-- `np.linalg.norm(a)**2` -/
noncomputable def nsq (a : Fin n → ℝ) : ℝ := ∑ i, a i ^ 2

/-- `sq(coef, center, linear, 0)` as written at lines 139-141 and 236-245 -/
noncomputable def stepQuad (coef : ℝ) (center linear : Fin n → ℝ) : Quad (Fin n) ℝ :=
  Quad.init (some coef) (some (.arr center)) (some (.arr linear)) (some 0)

/-- The stopping test of the backtracking loop, `algorithms.py:249-260`. -/
noncomputable def btStop (C : Composite n) (step : ℝ) (w p : Fin n → ℝ) (ws ps : ObjVal) : Prop :=
  match ps with
  | .num ps =>
    let gradTest : Prop := |ip (p - w) (C.grad w - C.grad p)| ≤ 0.5 / step * nsq (p - w)
    match ws with
    | .num ws =>
      if |ps - ws| / max 1 ps > 1e-10 then                                        -- 251
        ps ≤ ws + ip (p - w) (C.grad w) + 0.5 / step * nsq (p - w)                -- 252-255
      else gradTest                                                              -- 257-260
    | .inf => True                     -- `inf > 1e-10`, then `ps <= inf`
    | .nan => gradTest                 -- `nan > 1e-10` is False
  | _ => False                                                                   -- 249-250

/-- Result of `backtrack`. -/
inductive BtResult (n : ℕ) where
  /-- `(proposed_coefs, proposed_smooth)` together with the new `self.step`, `self.attempt_decrease` -/
  | ok (p : Fin n → ℝ) (ps : ObjVal) (step : ℝ) (attempt : Bool)
  /-- the proximal map raised -/
  | proxError
  /-- `ValueError("stepsize zero reached")`, line 267 -/
  | zeroStep
  /-- the loop did not stop within the fuel -/
  | diverged

open Classical in
/-- The loop of `backtrack`, `algorithms.py:234-270`. -/
noncomputable def btLoop (C : Composite n) (alpha : ℝ) (w : Fin n → ℝ) : ℕ → ℝ → Bool → BtResult n
  | 0, _, _ => .diverged
  | fuel + 1, step, attempt =>
    match C.proximal (stepQuad (1 / step) w (C.grad w)) with                     -- 242-245
    | none => .proxError
    | some p =>
      if btStop C step w p (C.smooth w) (C.smooth p) then .ok p (C.smooth p) step attempt   -- 261-262
      else if ¬ 0 < step / alpha then .zeroStep                                  -- 265-267
      else btLoop C alpha w fuel (step / alpha) false                            -- 264

/-- `backtrack`, `algorithms.py:228-270`. -/
noncomputable def backtrack (C : Composite n) (alpha : ℝ) (fuel : ℕ) (itercount : ℕ) (w : Fin n → ℝ) (step : ℝ)
    (attempt : Bool) : BtResult n :=
  if (itercount + 1) % 100 = 0 ∨ attempt = true then btLoop C alpha w fuel (step * alpha) true      -- 230-232
  else btLoop C alpha w fuel step attempt

/-- One line of the trace of a run (ghost state: what `debug=True` prints at lines 151-161 plus the points). -/
structure Record (n : ℕ) where
  itercount : ℕ
  step : ℝ
  /-- `self.working_coefs` when the step is taken -/
  working : Fin n → ℝ
  proposed : Fin n → ℝ
  /-- `self.weight_old` -/
  weight : ℝ
  workingObj : ObjVal
  proposedObj : ObjVal
  /-- `self.composite.coefs` when the step is taken -/
  kept : Fin n → ℝ

/-- The variables of `fit` and the attributes of the solver and of the composite it updates. -/
structure State (n : ℕ) where
  step : ℝ
  attempt : Bool
  /-- `self.composite.coefs` -/
  coefs : Fin n → ℝ
  /-- `self.working_coefs` -/
  working : Fin n → ℝ
  /-- `self.weight_old` -/
  weight : ℝ
  /-- `working_obj` -/
  obj : ObjVal
  itercount : ℕ
  badstep : ℕ
  /-- the entries of `objective_hist` written so far, in order -/
  hist : List ObjVal
  /-- ghost -/
  log : List (Record n)

/-- `weight_new`, line 220 -/
noncomputable def nextWeight (w : ℝ) : ℝ := 0.5 * (1 + Real.sqrt (1 + 4 * w ^ 2))

/-- `working_coefs` after `update_working_coefs`, lines 217-226.  The test `if FISTA:` reads the global name, which is
the class, so the keyword argument of `fit` has no influence and the `else` branch is dead. -/
noncomputable def nextWorking (w : ℝ) (proposed coefs : Fin n → ℝ) : Fin n → ℝ :=
  proposed + ((w - 1) / nextWeight w) • (proposed - coefs)

/-- The stopping rule, lines 163-177. -/
noncomputable def converged (a : FitArgs) (itercount : ℕ) (objChange objRel : ObjVal) (coefs proposed : Fin n → ℝ) : Prop :=
  a.minItsV ≤ itercount ∧
    if a.coefStop then Real.sqrt (nsq (coefs - proposed)) / max 1 (Real.sqrt (nsq proposed)) < a.tolV    -- 149, 165
    else objRel.lt (.num a.tolV) ∨ objChange.lt (.num a.tolV)                                            -- 172

/-- How one pass through the body of the `while` loop ends. -/
inductive Pass (n : ℕ) where
  | next (s : State n)
  | stop (s : State n)
  /-- an exception, with the state it leaves behind -/
  | proxError (s : State n)
  | zeroStep (s : State n)
  | diverged

/-- lines 144-207: what happens once `proposed_coefs` and `proposed_smooth` are known; `s` is the state after the
step, with the entry of `objective_hist` already written. -/
noncomputable def finish (C : Composite n) (a : FitArgs) (s : State n) (p : Fin n → ℝ) (ps : ObjVal) : Pass n :=
  open Classical in
  let pobj := ps.add (C.nonsmooth p false)                                        -- 144
  let change := pobj.absSub s.obj                                                 -- 146
  let rel := change.relTo s.obj                                                   -- 147
  let log := s.log ++ [⟨s.itercount, s.step, s.working, p, s.weight, s.obj, pobj, s.coefs⟩]
  if converged a s.itercount change rel s.coefs p then                            -- 163-177
    .stop { s with working := p, log := log }
  else if 1 < s.itercount ∧ s.obj.lt pobj ∧ (ObjVal.num 1e-10).lt rel ∧ a.monotonicityRestart = true then   -- 181
    if s.weight = 1 ∧ 3 < s.badstep + 1 then                                      -- 187-198
      .stop { s with attempt := true, badstep := s.badstep + 1, log := log,
                     working := nextWorking s.weight p s.coefs }
    else
      .next { s with attempt := true, badstep := if s.weight = 1 then s.badstep + 1 else s.badstep, log := log,
                     itercount := s.itercount + 1, weight := 1, working := s.coefs }     -- 199-201
  else
    .next { s with working := nextWorking s.weight p s.coefs, coefs := p, weight := nextWeight s.weight,
                   itercount := s.itercount + 1, obj := pobj, log := log }        -- 204-207

/-- lines 121-127 -/
def prepare (a : FitArgs) (s : State n) : State n :=
  let s := match a.restart with
    | none => s                          -- `np.mod(k, np.inf)` is `k`, never 0
    | some r => if r = 0 ∨ (s.itercount + 1) % r = 0 then { s with working := s.coefs } else s
  { s with hist := s.hist ++ [s.obj] }

/-- One pass through the body of the `while` loop, lines 117-207. -/
noncomputable def pass (C : Composite n) (a : FitArgs) (fuel : ℕ) (s₀ : State n) : Pass n :=
  let s := prepare a s₀
  if a.performBacktrack then
    match backtrack C a.alpha fuel s.itercount s.working s.step s.attempt with    -- 130-131
    | .ok p ps step attempt => finish C a { s with step := step, attempt := attempt } p ps
    | .proxError => .proxError s
    | .zeroStep => .zeroStep s
    | .diverged => .diverged
  else
    match C.proximal (stepQuad C.lipschitz s.working (C.grad s.working)) with     -- 135-142
    | none => .proxError s
    | some p => finish C a { s with step := 1 / C.lipschitz } p (C.smooth p)

/-- Outcome of `fit`. -/
inductive Outcome (n : ℕ) where
  /-- `objective_hist[:itercount]` and the final state -/
  | ok (hist : List ObjVal) (s : State n)
  /-- `ValueError('objective is NaN')` -/
  | nanObjective
  | proxError (s : State n)
  | zeroStep (s : State n)
  | diverged

/-- The `while` loop, with a second fuel for the number of passes. -/
noncomputable def loop (C : Composite n) (a : FitArgs) (fuel : ℕ) : ℕ → State n → Outcome n
  | 0, _ => .diverged
  | k + 1, s =>
    if s.itercount < a.maxItsV then
      match pass C a fuel s with
      | .next s' => loop C a fuel k s'
      | .stop s' => .ok (s'.hist.take s'.itercount) s'
      | .proxError s' => .proxError s'
      | .zeroStep s' => .zeroStep s'
      | .diverged => .diverged
    else .ok (s.hist.take s.itercount) s

/-- `objective` of the composite at the initial point, lines 107-110 -/
noncomputable def startObj (C : Composite n) (x : Fin n → ℝ) : ObjVal := (C.smooth x).add (C.nonsmooth x true)

/-- the state at line 116; `step`, `attempt` are the attributes of the solver object, from the class (`None`, `False`)
or from its last `fit` -/
noncomputable def startState (C : Composite n) (a : FitArgs) (step : Option ℝ) (attempt : Bool) (coefs : Fin n → ℝ) : State n :=
  { step := step.getD a.startStep, attempt := attempt, coefs := coefs, working := coefs, weight := 1
    obj := startObj C coefs, itercount := 0, badstep := 0, hist := [], log := [] }

/-- `FISTA.fit`, `algorithms.py:45-215`.  Without backtracking `self.step` is overwritten before it is used. -/
noncomputable def fit (C : Composite n) (a : FitArgs) (step : Option ℝ) (attempt : Bool) (fuel : ℕ)
    (coefs : Fin n → ℝ) : Outcome n :=
  match startObj C coefs with
  | .nan => .nanObjective                                                         -- 112-113
  | _ => loop C a fuel (a.maxItsV + 1) (startState C a step attempt coefs)

end Fista

/-- `smooth.proximal`, `problems/composite.py:209-211`, for an atom whose quadratic is `own`; `none`: division by a
zero coefficient. -/
noncomputable def smoothProximal {n : ℕ} (own q : Quad (Fin n) ℝ) : Option (Fin n → ℝ) :=
  let totalq := own.add (some q)
  if totalq.coef = 0 then none
  else some fun i => -((totalq.linear.elim 0 fun l => l.get i)) / totalq.coef

/-- A smooth atom as `FISTA` sees it in `smooth.solve` (`composite.py:206-224`): `nonsmooth_objective` is the value of
its quadratic (`composite.py:73-74`). -/
noncomputable def smoothComposite {n : ℕ} (f : (Fin n → ℝ) → ObjVal) (g : (Fin n → ℝ) → Fin n → ℝ) (own : Quad (Fin n) ℝ)
    (lipschitz : ℝ) : Composite n :=
  { smooth := f, grad := g, nonsmooth := fun x _ => .num (own.funcVal x), proximal := smoothProximal own
    lipschitz := lipschitz }

/-- `simple_problem`, `problems/simple.py:17-39`: the smooth atom is given by its value, gradient and quadratic, the
proximal atom by `solve` (`none`: it raised) and `nonsmooth_objective` (which includes the atom's own quadratic). -/
structure SimpleProblem (n : ℕ) where
  smooth : (Fin n → ℝ) → ObjVal
  grad : (Fin n → ℝ) → Fin n → ℝ
  smoothQuad : Quad (Fin n) ℝ
  atomSolve : Quad (Fin n) ℝ → Option (Fin n → ℝ)
  atomNonsmooth : (Fin n → ℝ) → Bool → ObjVal
  quadratic : Quad (Fin n) ℝ
  coefs : Fin n → ℝ

namespace SimpleProblem

variable {n : ℕ}

/-- `nonsmooth_objective`, `simple.py:32-35`; `smooth_atom.nonsmooth_objective` is the value of its quadratic
(`composite.py:73-74`). -/
noncomputable def nonsmooth (P : SimpleProblem n) (x : Fin n → ℝ) (check : Bool) : ObjVal :=
  ((P.atomNonsmooth x check).add (.num (P.smoothQuad.funcVal x))).add (.num (P.quadratic.funcVal x))

/-- `proximal`, `simple.py:37-39` -/
noncomputable def proximal (P : SimpleProblem n) (q : Quad (Fin n) ℝ) : Option (Fin n → ℝ) :=
  P.atomSolve ((q.add (some P.smoothQuad)).add (some P.quadratic))

/-- the problem as `FISTA` sees it (`simple_problem` has no attribute `lipschitz`; it is only read when
`perform_backtrack` is False) -/
noncomputable def composite (P : SimpleProblem n) (lipschitz : ℝ) : Composite n :=
  { smooth := P.smooth, grad := P.grad, nonsmooth := P.nonsmooth, proximal := P.proximal, lipschitz := lipschitz }

/-- `objective`, `composite.py:82-83` -/
noncomputable def objective (P : SimpleProblem n) (x : Fin n → ℝ) : ObjVal := (P.smooth x).add (P.nonsmooth x false)

/-- Outcome of `solve`. -/
inductive SolveOutcome (n : ℕ) where
  /-- the coefficients, the objective (returned when `return_optimum`) and the history kept in `solver_results` -/
  | ok (coefs : Fin n → ℝ) (value : ObjVal) (hist : List ObjVal)
  /-- an exception left `fit` -/
  | raised
  /-- no answer within the fuel -/
  | diverged

/-- `simple_problem.solve`, `simple.py:77-93`: the outcome and the problem object afterwards. -/
noncomputable def solve (P : SimpleProblem n) (quadratic : Option (Quad (Fin n) ℝ)) (a : FitArgs) (lipschitz : ℝ)
    (fuel : ℕ) : SolveOutcome n × SimpleProblem n :=
  let oldq := P.quadratic
  let P' : SimpleProblem n := { P with quadratic := P.quadratic.add quadratic }             -- 78-81
  match Fista.fit (P'.composite lipschitz) a none false fuel P.coefs with                     -- 83-85
  | .ok hist s =>
    let P'' : SimpleProblem n := { P' with coefs := s.coefs }
    (.ok s.coefs (P''.objective s.coefs) hist, { P'' with quadratic := oldq })              -- 88-93
  | .nanObjective => (.raised, P')
  | .proxError s => (.raised, { P' with coefs := s.coefs })
  | .zeroStep s => (.raised, { P' with coefs := s.coefs })
  | .diverged => (.diverged, P')

end SimpleProblem

end Verif.Model
