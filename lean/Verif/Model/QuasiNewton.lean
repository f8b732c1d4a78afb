import Verif.Model.IdentityQuadratic
import Mathlib.Analysis.Real.Sqrt
import Mathlib.Data.Fintype.Lattice

/-!
# Model of `quasi_newton` in `regreg/problems/newton.py`

Matrices are functions of two indices.  The inner solver (`quadratic_problem.solve`, a FISTA run), the line search
(`scipy.optimize.fmin_powell`) and the smooth and nonsmooth parts are parameters.
-/

namespace Verif.Model.QN

variable {n : ℕ}

/-- numpy `dot` of two vectors -/
def vdot (x y : Fin n → ℝ) : ℝ := ∑ i, x i * y i

/-- `M.dot(x)` -/
def mulVec (M : Fin n → Fin n → ℝ) (x : Fin n → ℝ) : Fin n → ℝ := fun i => ∑ j, M i j * x j

/-- `quasi_newton.__init__`, `newton.py:65-68`: `H0 + damping_term * diag(H0).mean() * I` with `damping_term = 1.`
(line 31). -/
noncomputable def initHessian (H0 : Fin n → Fin n → ℝ) : Fin n → Fin n → ℝ :=
  fun i j => H0 i j + 1 * (((∑ k, H0 k k) / n) * if i = j then 1 else 0)

/-- Outcome of `update_hessian`. -/
inductive Update (n : ℕ)
  | ok (B : Fin n → Fin n → ℝ)
  /-- `ValueError('failure in BFGS update -- dot product is negative')`, line 131 -/
  | valueError
  /-- a division by zero on line 136: the entries of `self.hessian` become inf or nan, nothing is raised -/
  | nonfinite

/-- `quasi_newton.update_hessian`, `newton.py:94-136`. -/
noncomputable def updateHessian (B : Fin n → Fin n → ℝ) (oldSoln newSoln oldGrad newGrad : Fin n → ℝ) : Update n :=
  let y := fun i => newGrad i - oldGrad i                                   -- 125
  let s := fun i => newSoln i - oldSoln i                                   -- 126
  let Bs := mulVec B s                                                      -- 128
  if vdot y s < -(1 / 100000) then .valueError                              -- 130-131
  else if vdot y s = 0 ∨ vdot s Bs = 0 then .nonfinite
  else .ok fun i j => B i j + (y i * y j / vdot y s - Bs i * Bs j / vdot s Bs)   -- 136

/-- `quasi_newton.converged`, `newton.py:314-344`, for `n > 0`. -/
def converged [NeZero n] (old new : Fin n → ℝ) : Prop :=
  Finset.univ.sup' Finset.univ_nonempty (fun i => |old i - new i|) < 1 / 1000000 * Real.sqrt (∑ i, new i ^ 2)

/-- What the solver is given: gradient of the smooth part, the inner solver as a function of the matrix, the linear
term and the warm start, and the line search as a function of the current point and the direction. -/
structure Oracles (n : ℕ) where
  grad : (Fin n → ℝ) → Fin n → ℝ
  inner : (Fin n → Fin n → ℝ) → (Fin n → ℝ) → (Fin n → ℝ) → Fin n → ℝ
  search : (Fin n → ℝ) → (Fin n → ℝ) → ℝ

/-- The attributes `hessian`, `coefs` between iterations. -/
structure State (n : ℕ) where
  hessian : Fin n → Fin n → ℝ
  coefs : Fin n → ℝ

/-- linear term of the inner problem, `newton.py:238-241` -/
def linearTerm (o : Oracles n) (s : State n) : Fin n → ℝ :=
  fun i => o.grad s.coefs i - mulVec s.hessian s.coefs i

/-- `solve_inner_loop`, `newton.py:202-250`: the solution `quad_soln` (`direction` is `quad_soln - coefs`). -/
def innerSoln (o : Oracles n) (s : State n) : Fin n → ℝ := o.inner s.hessian (linearTerm o s) s.coefs

/-- `self.coefs + delta` with `delta = stepsize * (quad_soln - self.coefs)`, `newton.py:249, 289` -/
def nextCoefs (o : Oracles n) (s : State n) : Fin n → ℝ :=
  let d := fun i => innerSoln o s i - s.coefs i
  fun i => s.coefs i + o.search s.coefs d * d i

/-- Outcome of `solve`: the returned coefficients, the ValueError of the update, or a non-finite matrix. -/
inductive Outcome (n : ℕ)
  | done (s : State n) (coefs : Fin n → ℝ)
  | valueError
  | nonfinite
  /-- `niter = 0`: `quad_soln` is unbound on line 309 -/
  | unbound

open Classical in
/-- The loop of `quasi_newton.solve`, `newton.py:283-312`; `last` is the last `quad_soln`. -/
noncomputable def loop [NeZero n] (o : Oracles n) : ℕ → Option (Fin n → ℝ) → State n → Outcome n
  | 0, none, _ => .unbound
  | 0, some q, s => .done s q                                               -- 309: `self.coefs[:] = quad_soln`
  | k + 1, _, s =>
    let q := innerSoln o s
    let new := nextCoefs o s
    if converged s.coefs new then .done s q                                 -- 292-298
    else match updateHessian s.hessian s.coefs new (o.grad s.coefs) (o.grad new) with   -- 300
      | .ok B => loop o k (some q) ⟨B, new⟩                                 -- 304
      | .valueError => .valueError
      | .nonfinite => .nonfinite

/-- `quasi_newton(...).solve(niter)` from the initial Hessian guess and the initial coefficients. -/
noncomputable def solve [NeZero n] (o : Oracles n) (H0 : Fin n → Fin n → ℝ) (x0 : Fin n → ℝ) (niter : ℕ := 30) :
    Outcome n :=
  loop o niter none ⟨initHessian H0, x0⟩

end Verif.Model.QN
