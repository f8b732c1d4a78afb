import Verif.Model.MixedKKT

/-!
# Model of `mixed_lasso_path` (`regreg/paths/mixed_lasso.py`)

The loss is given by the gradient `grad` of `β ↦ loss(Xn β)` on all coefficients.  A loss built by the factory on a subset
of the columns is the same function at the vector extended by zero.  No column is dropped (`which_0` false everywhere), so
`nonzero` is the identity.  The subproblem solver is a parameter.  Exact real arithmetic.

The assignments `self.solution[set][:] = …` and `grad_solution[set][:] = …` (lines 316, 318, 332, 350, 351) write to
temporary copies made by Boolean indexing and have no effect, so they do not appear here.
-/

namespace Verif.Model.MixedPath
open Verif.Spec Verif.Model

variable {p q : ℕ}

/-! ## The cached attributes `_null_soln` and `_lagrange_max` -/

/-- the two cached attributes; `none` = not set -/
structure Cache (p : ℕ) where
  nullSoln : Option (Fin p → ℝ)
  lagrangeMax : Option (WithBot ℝ)

/-- the part of `lagrange_max`, `paths/mixed_lasso.py:144-153`, that runs when `_null_soln` is set to `b`; `D b` is the
dual seminorm of the gradient at `b` -/
def lagrangeMaxAt (D : (Fin p → ℝ) → WithBot ℝ) (b : Fin p → ℝ) (c : Cache p) : WithBot ℝ × Cache p :=
  match c.lagrangeMax with
  | some l => (l, c)
  | none => (D b, { c with lagrangeMax := some (D b) })

/-- `null_solution`, `paths/mixed_lasso.py:135-142`; `solveNull l` is the solution of the problem restricted to
`initial_active` at lagrange parameter `l`, extended by zero.  The recursion through `lagrange_max` ends at once because
`_null_soln` has been set to zero. -/
def nullSolution (D : (Fin p → ℝ) → WithBot ℝ) (solveNull : WithBot ℝ → Fin p → ℝ) (c : Cache p) :
    (Fin p → ℝ) × Cache p :=
  match c.nullSoln with
  | some b => (b, c)
  | none =>
    let zero : Fin p → ℝ := fun _ => 0
    let (l, c') := lagrangeMaxAt D zero { c with nullSoln := some zero }
    (solveNull l, { c' with nullSoln := some (solveNull l) })

/-- `lagrange_max`, `paths/mixed_lasso.py:144-153` -/
def lagrangeMax (D : (Fin p → ℝ) → WithBot ℝ) (solveNull : WithBot ℝ → Fin p → ℝ) (c : Cache p) : WithBot ℝ × Cache p :=
  match c.lagrangeMax with
  | some l => (l, c)
  | none =>
    let (b, c') := nullSolution D solveNull c
    (D b, { c' with lagrangeMax := some (D b) })

/-- one read of one of the two properties -/
inductive Access where
  | nullSolution
  | lagrangeMax

/-- the effect of one read -/
def Access.run (D : (Fin p → ℝ) → WithBot ℝ) (solveNull : WithBot ℝ → Fin p → ℝ) (c : Cache p) : Access → Cache p
  | .nullSolution => (MixedPath.nullSolution D solveNull c).2
  | .lagrangeMax => (MixedPath.lagrangeMax D solveNull c).2

/-! ## The elastic net -/

/-- the attribute `_elastic_net`: a quadratic `coef/2 ‖x‖² + linear_term · Σ x` after `collapsed()`, with a scalar linear
term -/
structure Enet where
  coef : ℝ
  lin : ℝ

/-- the property `elastic_net`, `paths/mixed_lasso.py:118-123`: the stored quadratic is multiplied in place -/
def Enet.access (e : Enet) (lam : ℝ) : Enet := ⟨e.coef * lam, e.lin * lam⟩

/-! ## The main loop -/

/-- the data of a path that do not change -/
structure Data (p q : ℕ) where
  grad : (Fin p → ℝ) → Fin p → ℝ
  kind : Fin p → Kind q
  w : Fin q → ℝ

/-- `solve_subproblem`, `paths/mixed_lasso.py:250-260`: number of the call, warm start, candidate set, lagrange parameter.
The result is extended by zero by the caller below (`adjoint_map`, line 256). -/
abbrev Solver (p : ℕ) := ℕ → (Fin p → ℝ) → (Fin p → Bool) → ℝ → Fin p → ℝ

/-- the attributes and local variables of `main` that change -/
structure State (p : ℕ) where
  sol : Fin p → ℝ
  gradSol : Fin p → ℝ
  allFailing : Fin p → Bool
  everActive : Fin p → Bool
  enet : Enet
  calls : ℕ

/-- `grad`, `paths/mixed_lasso.py:197-212`, with the elastic net as returned by the property -/
noncomputable def Data.fullGrad (D : Data p q) (e : Enet) (b : Fin p → ℝ) (i : Fin p) : ℝ :=
  D.grad b i + if D.kind i ≠ .unpenalized then e.coef * b i + e.lin else 0

/-- `initial_active`, `paths/mixed_lasso.py:103-104` -/
def Data.initialActive (D : Data p q) (i : Fin p) : Bool := decide (D.kind i = .unpenalized ∨ D.kind i = .nonnegative)

/-- `strong_failing` scattered back, `paths/mixed_lasso.py:320-330`: the check of the problem restricted to the strong set,
at the part of the solution inside the strong set.  A strong set contains all or none of the coordinates of a group, so
the weights of the restricted penalty are those of the full one. -/
noncomputable def Data.strongFailing (D : Data p q) (e : Enet) (S : Fin p → Bool) (b : Fin p → ℝ) (lam : ℝ) (i : Fin p) :
    Bool :=
  let bS : Fin p → ℝ := fun k => if S k then b k else 0
  let gS : Fin p → ℝ := fun k => if S k then D.grad bS k + (e.coef * bS k + e.lin) else 0
  S i && MixedKKT.checkKKT D.kind D.w gS bS lam (1 / 100) i

open Classical in
/-- one pass of the `while True` loop up to the test for acceptance, `paths/mixed_lasso.py:302-344`; the Boolean says
whether the pass ended with `break` -/
noncomputable def Data.attempt (D : Data p q) (solve : Solver p) (lamCur lamNew : ℝ) (s : State p) : State p × Bool :=
  let strong := MixedKKT.strongSet D.kind D.w s.gradSol lamCur lamNew 1
  let S : Fin p → Bool := fun i => s.everActive i || s.allFailing i
  let r := solve s.calls s.sol S lamNew
  let sol : Fin p → ℝ := fun i => if S i then r i else 0
  let e1 := s.enet.access lamNew
  let sf := D.strongFailing e1 strong sol lamNew
  if ∃ i, sf i = true then
    ({ s with sol := sol, enet := e1, calls := s.calls + 1, allFailing := fun i => s.allFailing i || sf i }, false)
  else
    let e2 := e1.access lamNew
    let g := D.fullGrad e2 sol
    let fail := MixedKKT.checkKKT D.kind D.w g sol lamNew (1 / 100)
    if ∃ i, fail i = true then
      ({ sol := sol, gradSol := g, enet := e2, calls := s.calls + 1, allFailing := fail,
         everActive := fun i => s.everActive i || fail i }, false)
    else
      ({ sol := sol, gradSol := g, enet := e2, calls := s.calls + 1, allFailing := fail,
         everActive := fun i => s.everActive i || decide (sol i ≠ 0) }, true)

/-- how the passes for one lagrange parameter ended -/
inductive Exit where
  | converged
  | warned
  deriving DecidableEq

/-- the `while True` loop, `paths/mixed_lasso.py:301-358`, with `fuel = 10 - num_tries` passes left: after every fifth
pass the gradient is recomputed, after the tenth the loop is left with a warning. -/
noncomputable def Data.tries (D : Data p q) (solve : Solver p) (lamCur lamNew : ℝ) : ℕ → State p → State p × Exit
  | 0, s => (s, .warned)
  | fuel + 1, s =>
    let (s', ok) := D.attempt solve lamCur lamNew s
    if ok then (s', .converged)
    else if fuel % 5 = 0 then
      let e := s'.enet.access lamNew
      D.tries solve lamCur lamNew fuel { s' with enet := e, gradSol := D.fullGrad e s'.sol }
    else D.tries solve lamCur lamNew fuel s'

/-- what is appended for one lagrange parameter -/
structure Entry (p : ℕ) where
  lagrange : ℝ
  sol : Fin p → ℝ
  exit : Exit

/-- the `for` loop, `paths/mixed_lasso.py:294-363` -/
noncomputable def Data.loop (D : Data p q) (solve : Solver p) : ℝ → List ℝ → State p → List (Entry p) × State p
  | _, [], s => ([], s)
  | lamCur, lamNew :: rest, s =>
    let (s', ex) := D.tries solve lamCur lamNew 10 s
    let (out, s'') := D.loop solve lamNew rest s'
    (⟨lamNew, s'.sol, ex⟩ :: out, s'')

/-- the state at the entry of the `for` loop, `paths/mixed_lasso.py:277-292`: `lamProblem` is the lagrange parameter of
`self._problem` -/
noncomputable def Data.start (D : Data p q) (null : Fin p → ℝ) (enet : Enet) (lamProblem : ℝ) : State p :=
  let e := enet.access lamProblem
  { sol := null, gradSol := D.fullGrad e null, allFailing := fun _ => false, everActive := D.initialActive, enet := e,
    calls := 0 }

/-- `main`, `paths/mixed_lasso.py:262-381`, for the sequence `lam0 :: seq`: the entries after the first solution -/
noncomputable def Data.main (D : Data p q) (solve : Solver p) (null : Fin p → ℝ) (enet : Enet) (lamProblem lam0 : ℝ)
    (seq : List ℝ) : List (Entry p) × State p :=
  D.loop solve lam0 seq (D.start null enet lamProblem)

/-- the rows of `beta.T`, `paths/mixed_lasso.py:284-285, 360-361`: only the first solution is divided by the scalings -/
noncomputable def betaRows (null scalings : Fin p → ℝ) (out : List (Entry p)) : List (Fin p → ℝ) :=
  (fun i => null i / scalings i) :: out.map (·.sol)

/-- the list `df`, `paths/mixed_lasso.py:289, 363`: `ever_active.shape[0]` is the number of coefficients -/
def dfs (D : Data p q) (out : List (Entry p)) : List ℕ :=
  (Finset.univ.filter fun i => D.initialActive i = true).card :: out.map fun _ => p

end Verif.Model.MixedPath
