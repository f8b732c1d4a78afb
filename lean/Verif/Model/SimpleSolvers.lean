import Verif.Model.IdentityQuadratic
import Verif.Model.L2Norm

/-!
# Model of the solvers of `regreg/problems/simple.py` built on `simple_problem.solve`: `gengrad`

The inner call `simple_problem.solve(q)` (modelled in `Verif.Model.Fista`) is a parameter here; the theorems suppose that it
returns an exact minimiser.  `debug` printing is left out.
-/

namespace Verif.Model.SimpleSolvers

noncomputable section

variable {n : ℕ}

/-- what `gengrad` calls on its problem: `smooth_objective(x, 'both')`, `nonsmooth_objective(x)` (no feasibility check, so a
number) and `solve(q)` -/
structure GGProblem (n : ℕ) where
  smooth : (Fin n → ℝ) → ℝ
  grad : (Fin n → ℝ) → Fin n → ℝ
  nonsmooth : (Fin n → ℝ) → ℝ
  solve : Quad (Fin n) ℝ → Fin n → ℝ

/-- `simple_problem.solve(identity_quadratic(lipschitz, coef, g, 0))`, `problems/simple.py:107` -/
def ggStep (P : GGProblem n) (lipschitz : ℝ) (coef : Fin n → ℝ) : Fin n → ℝ :=
  P.solve (Quad.init (some lipschitz) (some (.arr coef)) (some (.arr (P.grad coef))) (some 0))

/-- `coef_stop_check`, `problems/simple.py:109-112` -/
def coefCheck (tol : ℝ) (coef newcoef : Fin n → ℝ) : Prop :=
  npNorm (fun i => coef i - newcoef i) ≤ tol * max (max (npNorm coef) (npNorm newcoef)) 1

/-- `obj_stop_check`, `problems/simple.py:116`; `none` is `np.inf`, whose distance to a number is inf -/
def objCheck (tol : ℝ) (value : Option ℝ) (vnew : ℝ) : Prop :=
  match value with
  | none => False
  | some v => |v - vnew| ≤ tol * max vnew 1

open Classical in
/-- the `while True` loop of `gengrad`, `problems/simple.py:104-126`; the first argument is `max_its - itercount` -/
def ggLoop (P : GGProblem n) (lipschitz tol : ℝ) (coefStop : Bool) : ℕ → (Fin n → ℝ) → Option ℝ → (Fin n → ℝ)
  | 0, coef, _ => coef
  | r + 1, coef, value =>
    let vnew := P.smooth coef + P.nonsmooth coef
    let newcoef := ggStep P lipschitz coef
    if (if coefStop then coefCheck tol coef newcoef else objCheck tol value vnew) then coef
    else ggLoop P lipschitz tol coefStop r newcoef (some vnew)

/-- `gengrad(simple_problem, lipschitz, tol, max_its, coef_stop)`, `problems/simple.py:96-126`, for `max_its ≥ 0`; `coefs` is
`simple_problem.coefs` -/
def gengrad (P : GGProblem n) (coefs : Fin n → ℝ) (lipschitz : ℝ) (tol : ℝ := 1 / 10 ^ 8) (maxIts : ℕ := 1000)
    (coefStop : Bool := false) : Fin n → ℝ :=
  ggLoop P lipschitz tol coefStop maxIts coefs none

end

end Verif.Model.SimpleSolvers
