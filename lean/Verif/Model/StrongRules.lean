import Verif.Model.LassoPath

/-!
# Model of `strong_rules` (`regreg/paths/__init__.py:217-372`)

The path object is abstract: its KKT check, strong set and elastic net gradient are arbitrary functions, so the theorems
hold for every subclass of `grouped_path`.  `lassoPath` is the instance of `paths/lasso.py`.

Simplifications: a solution is one array (no `.T`); the step size, the tolerance halving and the debug flags only
influence the subproblem solver, which is an arbitrary function of the number of earlier calls (so it may depend on the
whole history) and of its arguments; exact arithmetic.  Groups are indices of type `G`, features of type `V`, cases of
type `M`.
-/

namespace Verif.Model.StrongRules

variable {K : Type*} [Field K] [LinearOrder K] {G V M : Type*} [Fintype G] [Fintype V] [Fintype M]

/-- What `strong_rules` uses of a path object. -/
structure PathObj (K G V M : Type*) where
  /-- `path_obj.X` as a matrix -/
  X : M → V → K
  /-- `saturated_loss.smooth_objective(., 'grad')` -/
  satGrad : (M → K) → M → K
  /-- `saturated_loss.smooth_objective(., 'func')` -/
  satFunc : (M → K) → K
  /-- the features of a group -/
  groupVars : G → V → Bool
  /-- `path_obj.alpha` -/
  alpha : K
  /-- `path_obj.enet_grad(solution, penalized, lagrange)`; with `subset` the same entries, restricted -/
  enetGrad : (V → K) → K → V → K
  /-- `path_obj.strong_set(lagrange_cur, lagrange_new, grad)`, as a boolean per group -/
  strongSet : K → K → (V → K) → G → Bool
  /-- `path_obj.check_KKT(grad, solution, lagrange)` -/
  checkKKT : (V → K) → (V → K) → K → (G → Bool) × (G → K)
  /-- `path_obj.check_KKT` with the arrays and the penalty restricted to the features of a set of groups; the values
  at other groups are ignored -/
  checkKKTOn : (G → Bool) → (V → K) → (V → K) → K → (G → Bool) × (G → K)

/-- A subproblem solver: `solve n solution S lagrange` is the answer to the `n`-th call of `solve_subproblem` of the
run; only its entries at the features of the groups in `S` are used. -/
abbrev Solver (K G V : Type*) := ℕ → (V → K) → (G → Bool) → K → V → K

/-- `X.dot(b)` -/
def linpred (P : PathObj K G V M) (b : V → K) (m : M) : K := ∑ v, P.X m v * b v

/-- the features of the groups of `S` (`subproblem_vars`) -/
def varsOf (P : PathObj K G V M) (S : G → Bool) (v : V) : Bool := decide (∃ g, S g = true ∧ P.groupVars g v = true)

/-- `subproblem_linpred`: `sub_X.dot(sub_soln)`, `lasso.py:208`: the columns of the subproblem only -/
def subLinpred (P : PathObj K G V M) (S : G → Bool) (soln : V → K) (m : M) : K :=
  ∑ v, if varsOf P S v then P.X m v * soln v else 0

/-- `full_gradient`, `__init__.py:58-65` -/
def fullGradient (P : PathObj K G V M) (eta : M → K) (v : V) : K := ∑ m, P.X m v * P.satGrad eta m

/-- the failing flags, `__init__.py:300-303` and `320-323` -/
def failing (checkActive : Bool) (r : (G → Bool) × (G → K)) (g : G) : Bool :=
  (checkActive && r.1 g) || decide (0 ≤ r.2 g)

/-- variables of `strong_rules` that survive an iteration of the `while` loop -/
structure State (K G V M : Type*) where
  solution : V → K
  grad : V → K
  linearPredictor : M → K
  allFailing : G → Bool
  sub : G → Bool
  /-- number of calls of the subproblem solver so far -/
  calls : ℕ

/-- how the `while True` loop was left -/
inductive Exit | converged | warned
  deriving DecidableEq

/-- outcome of one iteration of the `while` loop -/
inductive Step (K G V M : Type*)
  | stop (e : Exit) (s : State K G V M)
  | again (s : State K G V M)

/-- the end of the body of the `while` loop, `__init__.py:333-353`, after `tries` earlier iterations: `soln` and `eta`
are the solution and the linear predictor of the subproblem on `sub` -/
def afterFailure (P : PathObj K G V M) (maxTries : ℕ) (lamNew : K) (tries : ℕ) (s : State K G V M) (sub : G → Bool)
    (soln : V → K) (eta : M → K) (solution grad : V → K) (allFailing : G → Bool) : Step K G V M :=
  if (tries + 1) % 5 = 0 then
    let solution' := fun v => if varsOf P sub v then soln v else 0
    let grad' := fun v => fullGradient P eta v + P.enetGrad solution' lamNew v
    if maxTries ≤ tries + 1 then
      .stop .warned { s with solution := solution', grad := grad', allFailing := allFailing, sub := sub,
                             calls := s.calls + 1 }
    else
      .again { s with solution := solution', grad := grad', allFailing := allFailing,
                      sub := fun g => sub g || allFailing g, calls := s.calls + 1 }
  else
    .again { s with solution := solution, grad := grad, allFailing := allFailing,
                    sub := fun g => sub g || allFailing g, calls := s.calls + 1 }

/-- one iteration of the `while True` loop, `__init__.py:257-353` -/
def step (P : PathObj K G V M) (solve : Solver K G V) (checkActive : Bool) (maxTries : ℕ) (lamNew lamCur : K)
    (tries : ℕ) (s : State K G V M) : Step K G V M :=
  let sub := fun g => s.sub g || s.allFailing g
  let soln := solve s.calls s.solution sub lamNew
  let eta := subLinpred P sub soln
  let solution := fun v => if varsOf P sub v then soln v else s.solution v
  let strong := P.strongSet (lamCur * P.alpha) (lamNew * P.alpha) s.grad
  let strongGrad := fun v => fullGradient P eta v + P.enetGrad solution lamNew v
  let r := P.checkKKTOn strong strongGrad solution (P.alpha * lamNew)
  let strongFailing := fun g => strong g && failing checkActive r g
  if ∃ g, strongFailing g = true then
    afterFailure P maxTries lamNew tries s sub soln eta solution s.grad (fun g => s.allFailing g || strongFailing g)
  else
    let grad := fun v => fullGradient P eta v + P.enetGrad solution lamNew v
    let allFailing := failing checkActive (P.checkKKT grad solution (P.alpha * lamNew))
    if ∃ g, allFailing g = true then
      afterFailure P maxTries lamNew tries s sub soln eta solution grad allFailing
    else
      .stop .converged { s with solution := solution, grad := grad, linearPredictor := eta,
                                allFailing := allFailing, sub := sub, calls := s.calls + 1 }

/-- the `while True` loop for one lagrange value; `none`: out of fuel -/
def loop (P : PathObj K G V M) (solve : Solver K G V) (checkActive : Bool) (maxTries : ℕ) (lamNew lamCur : K) :
    ℕ → ℕ → State K G V M → Option (Exit × State K G V M)
  | 0, _, _ => none
  | fuel + 1, tries, s =>
    match step P solve checkActive maxTries lamNew lamCur tries s with
    | .stop e s' => some (e, s')
    | .again s' => loop P solve checkActive maxTries lamNew lamCur fuel (tries + 1) s'

/-- the number of iterations after which the `while` loop has stopped: the first positive multiple of five that is at
least `max_tries` -/
def maxIter (maxTries : ℕ) : ℕ := 5 * (maxTries / 5 + 1)

/-- one appended solution: the lagrange value, `solution`, the deviance, and whether the warning was issued -/
structure Entry (K V : Type*) where
  lagrange : K
  beta : V → K
  deviance : K
  exit : Exit

/-- the `for` loop over `zip(lagrange_seq[1:], lagrange_seq[:-1])`, `__init__.py:250-356` -/
def overSeq (P : PathObj K G V M) (solve : Solver K G V) (checkActive : Bool) (maxTries : ℕ) :
    K → List K → State K G V M → Option (List (Entry K V))
  | _, [], _ => some []
  | lamCur, lamNew :: rest, s =>
    match loop P solve checkActive maxTries lamNew lamCur (maxIter maxTries) 0 s with
    | none => none
    | some (e, s') =>
      (overSeq P solve checkActive maxTries lamNew rest s').map
        ({ lagrange := lamNew, beta := s'.solution, deviance := P.satFunc s'.linearPredictor, exit := e } :: ·)

/-- `strong_rules`, `__init__.py:217-372`: the solutions appended after the initial one.  `none` would mean that a
`while` loop was still running after `maxIter` iterations (`Verif.Props.C40_terminates` says it never is); an empty
lagrange sequence has nothing to append. -/
def strongRules (P : PathObj K G V M) (solve : Solver K G V) (checkActive : Bool) (maxTries : ℕ) (seq : List K)
    (solution grad : V → K) : Option (List (Entry K V)) :=
  match seq with
  | [] => some []
  | lam0 :: rest =>
    overSeq P solve checkActive maxTries lam0 rest
      { solution := solution, grad := grad, linearPredictor := linpred P solution, allFailing := fun _ => false,
        sub := fun _ => false, calls := 0 }

/-- The path object of `paths/lasso.py`: every feature is its own group (`lasso.py:36`).  `tol` is the default
`1.e-2` of `_check_KKT`. -/
def lassoPath [DecidableEq V] (X : M → V → K) (satGrad : (M → K) → M → K) (satFunc : (M → K) → K) (w enet : V → K)
    (alpha tol : K) : PathObj K V V M where
  X := X
  satGrad := satGrad
  satFunc := satFunc
  groupVars := fun g v => decide (g = v)
  alpha := alpha
  enetGrad := fun b lam => LassoPath.enetGrad alpha enet b (fun v => decide (w v ≠ 0)) lam
  strongSet := fun lamCur lamNew g => LassoPath.strongSet w lamCur lamNew g
  checkKKT := fun g b lam => LassoPath.checkKKT w g b lam tol
  checkKKTOn := fun S g b lam =>
    let r := LassoPath.checkKKT (ι := {v // S v = true}) (fun i => w i) (fun i => g i) (fun i => b i) lam tol
    (fun v => if h : S v = true then r.1 ⟨v, h⟩ else false, fun v => if h : S v = true then r.2 ⟨v, h⟩ else -1)

end Verif.Model.StrongRules
