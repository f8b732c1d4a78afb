import Verif.Model.QuasiNewton
import Mathlib.Algebra.Order.Monoid.WithTop

/-!
# Model of a whole run of `quasi_newton` (regreg/problems/newton.py): objective, line search criterion, inner problem, recorded values

The inner solver (`quadratic_problem.solve`, FISTA) and `scipy.optimize.fmin_powell` are parameters.
-/

namespace Verif.Model.QN

variable {n : ℕ}

noncomputable section

/-- The attributes of a `quasi_newton` object that do not change: the smooth atom (value and gradient, `none` for nan, and its
attribute `quadratic`), the penalty with its feasibility flag, and the attribute `quadratic`. -/
structure Problem (n : ℕ) where
  smooth : (Fin n → ℝ) → Option ℝ
  grad : (Fin n → ℝ) → Option (Fin n → ℝ)
  pen : (Fin n → ℝ) → Bool → WithTop ℝ
  lossQuad : Quad (Fin n) ℝ
  quad : Quad (Fin n) ℝ

namespace Problem

/-- `nonsmooth_objective`, `newton.py:162-181` -/
def nonsmooth (p : Problem n) (x : Fin n → ℝ) (cf : Bool) : WithTop ℝ :=
  p.pen x cf + ((p.lossQuad.funcVal x : ℝ) : WithTop ℝ) + ((p.quad.funcVal x : ℝ) : WithTop ℝ)

/-- `objective`, `newton.py:79-92`: the string 'func' is passed as `check_feasibility`; `none`: nan -/
def objective (p : Problem n) (x : Fin n → ℝ) : Option (WithTop ℝ) :=
  match p.smooth x with
  | some v => some ((v : WithTop ℝ) + p.nonsmooth x true)
  | none => none

/-- `BIG`, `newton.py:371` -/
def big : WithTop ℝ := ((10 ^ 16 : ℝ) : WithTop ℝ)

/-- the function `restriction` minimised by `backtrack`, `newton.py:373-382` -/
def restriction (p : Problem n) (d x : Fin n → ℝ) (t : ℝ) : WithTop ℝ :=
  let z := fun i => x i + t * d i
  let val := match p.smooth z with
    | some v => (v : WithTop ℝ) + p.nonsmooth z true
    | none => big                                                             -- 377-378
  match p.grad z with
  | some _ => val
  | none => val + big                                                         -- 380-381

/-- the quadratic `quad + self.quadratic` of the inner problem, `newton.py:238-247`; the quadratic of the smooth atom is not used -/
def innerQuad (p : Problem n) (B : Fin n → Fin n → ℝ) (G x : Fin n → ℝ) : Quad (Fin n) ℝ :=
  (⟨0, some (.scalar 0), some (.arr fun i => G i - mulVec B x i), 0⟩ : Quad (Fin n) ℝ).add (some p.quad)

end Problem

/-- The inner solver applied to `½ u'Bu + quadratic(u) + penalty(u)` with a warm start, and the minimiser `fmin_powell` applied to a
function of the step. -/
structure Solvers (n : ℕ) where
  inner : (Fin n → Fin n → ℝ) → Quad (Fin n) ℝ → (Fin n → ℝ) → Fin n → ℝ
  search : (ℝ → WithTop ℝ) → ℝ

/-- Outcome of `solve`: the state `s` at the end of the loop (the last point of the line search, before `self.coefs[:] = quad_soln`), the
returned `quad_soln` and the attribute `solver_results` (without the initial `inf`). -/
inductive RunOutcome (n : ℕ)
  | done (s : State n) (coefs : Fin n → ℝ) (results : List (WithTop ℝ))
  | valueError
  | nonfinite
  | unbound

/-- `solve_inner_loop`, `newton.py:202-250`: `quad_soln` -/
def Problem.innerSoln (p : Problem n) (o : Solvers n) (s : State n) (G : Fin n → ℝ) : Fin n → ℝ :=
  o.inner s.hessian (p.innerQuad s.hessian G s.coefs) s.coefs

/-- the step chosen by `backtrack`, `newton.py:384-391` -/
def Problem.step (p : Problem n) (o : Solvers n) (s : State n) (q : Fin n → ℝ) : ℝ :=
  o.search (p.restriction (fun i => q i - s.coefs i) s.coefs)

/-- `self.coefs + delta`, `newton.py:287` -/
def Problem.next (p : Problem n) (o : Solvers n) (s : State n) (q : Fin n → ℝ) : Fin n → ℝ :=
  fun i => s.coefs i + p.step o s q * (q i - s.coefs i)

open Classical in
/-- The loop of `quasi_newton.solve`, `newton.py:280-312`, with the recorded values.  A nan gradient makes everything nan. -/
def runLoop [NeZero n] (p : Problem n) (o : Solvers n) : ℕ → Option (Fin n → ℝ) → State n → List (WithTop ℝ) → RunOutcome n
  | 0, none, _, _ => .unbound
  | 0, some q, s, res => .done s q res                                        -- 309
  | k + 1, _, s, res =>
    match p.grad s.coefs with
    | none => .nonfinite
    | some G =>
      let q := p.innerSoln o s G
      let new := p.next o s q
      match p.grad new with
      | none => .nonfinite
      | some G' =>
        if converged s.coefs new then .done s q res                           -- 292-298
        else match updateHessian s.hessian s.coefs new G G' with              -- 300
          | .ok B => runLoop p o k (some q) ⟨B, new⟩
              (res ++ [p.restriction (fun i => q i - s.coefs i) s.coefs (p.step o s q)])   -- 304-306
          | .valueError => .valueError
          | .nonfinite => .nonfinite

/-- `quasi_newton(loss, penalty, H0, quadratic).solve(niter)` from coefficients `x0` -/
def Problem.run [NeZero n] (p : Problem n) (o : Solvers n) (H0 : Fin n → Fin n → ℝ) (x0 : Fin n → ℝ) (niter : ℕ) : RunOutcome n :=
  runLoop p o niter none ⟨initHessian H0, x0⟩ []

end

end Verif.Model.QN
