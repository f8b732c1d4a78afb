import Verif.Model.L2Norm

/-!
# Model of the outer loops of `nesta` and `tfocs`, `regreg/problems/simple.py:128-360`

The inner problem of a pass (built from `smoothed` and solved by `simple_problem.solve`) is a parameter: a function of the smoothing
constant and the smoothing center.  The theorems suppose it is solved exactly, and that the attribute `grad` read afterwards is the
one at the solution (the code reads the one of the last evaluation with a gradient).  The warning at `max_iters` is left out.
-/

namespace Verif.Model.Nesta

noncomputable section

variable {n m : ℕ}

/-- a pass of `nesta`, lines 194-208: `solve eps dual_coef` is the pair `(primal_coef, smoothed.grad)`, `objective` is `updated` -/
structure Rounds (n m : ℕ) where
  solve : ℝ → (Fin m → ℝ) → (Fin n → ℝ) × (Fin m → ℝ)
  objective : ℝ → (Fin m → ℝ) → (Fin n → ℝ) → ℝ

/-- `smoothed.grad + idx / (idx + 3.) * (smoothed.grad - dual_coef)`, lines 222 and 356 -/
def extrapolate {k : ℕ} (idx : ℕ) (grad center : Fin k → ℝ) : Fin k → ℝ :=
  fun i => grad i + (idx : ℝ) / ((idx : ℝ) + 3) * (grad i - center i)

/-- the convergence test of `nesta`, lines 211-218; `value = none` is `np.inf` -/
def nestaStop (coefStop : Bool) (coefTol : ℝ) (minIters idx : ℕ) (dual grad : Fin m → ℝ) (value : Option ℝ) (updated : ℝ) : Prop :=
  if coefStop then npNorm (fun i => dual i - grad i) < coefTol * (npNorm grad + 1) ∧ minIters ≤ idx
  else (∃ v, value = some v ∧ |updated - v| < coefTol * (|updated| + 1)) ∧ minIters ≤ idx

open Classical in
/-- `for idx, eps in enumerate(epsilon)`, lines 193-226.  `primal` is the variable `primal_coef`, unbound (`none`) before the first
pass; returning it unbound is an UnboundLocalError, `none`. -/
def nestaLoop (R : Rounds n m) (coefStop : Bool) (coefTol : ℝ) (minIters : ℕ) :
    ℕ → List ℝ → (Fin m → ℝ) → Option ℝ → Option (Fin n → ℝ) → Option ((Fin n → ℝ) × (Fin m → ℝ))
  | _, [], dual, _, primal => primal.map fun x => (x, dual)
  | idx, eps :: rest, dual, value, _ =>
    let r := R.solve eps dual
    let updated := R.objective eps dual r.1
    if nestaStop coefStop coefTol minIters idx dual r.2 value updated then some (r.1, dual)
    else nestaLoop R coefStop coefTol minIters (idx + 1) rest (extrapolate idx r.2 dual) (some updated) (some r.1)

/-- `nesta`, lines 128-226: `epsilon = [1]*max_iters` when not given (line 179-180), zero initial dual when not given (183-186) -/
def nesta (R : Rounds n m) (epsilon : Option (List ℝ)) (maxIters : ℕ := 100) (minIters : ℕ := 5) (coefTol : ℝ := 1 / 10 ^ 6)
    (initialDual : Option (Fin m → ℝ) := none) (coefStop : Bool := false) : Option ((Fin n → ℝ) × (Fin m → ℝ)) :=
  nestaLoop R coefStop coefTol minIters 0 (epsilon.getD (List.replicate maxIters 1)) (initialDual.getD fun _ => 0) none none

open Classical in
/-- the loop of `tfocs`, lines 343-360: `solve eps primal_coef` is the pair `(dual_coef, final_smooth.grad)` -/
def tfocsLoop (solve : ℝ → (Fin n → ℝ) → (Fin m → ℝ) × (Fin n → ℝ)) (coefTol : ℝ) :
    ℕ → List ℝ → (Fin n → ℝ) → Option (Fin m → ℝ) → Option ((Fin n → ℝ) × (Fin m → ℝ))
  | _, [], primal, dual => dual.map fun u => (primal, u)
  | idx, eps :: rest, primal, _ =>
    let r := solve eps primal
    if npNorm (fun i => primal i - r.2 i) < coefTol * max (npNorm r.2) 1 then some (primal, r.1)
    else tfocsLoop solve coefTol (idx + 1) rest (extrapolate idx r.2 primal) (some r.1)

/-- `tfocs`, lines 228-360 -/
def tfocs (solve : ℝ → (Fin n → ℝ) → (Fin m → ℝ) × (Fin n → ℝ)) (epsilon : Option (List ℝ)) (maxIters : ℕ := 100)
    (coefTol : ℝ := 1 / 10 ^ 6) : Option ((Fin n → ℝ) × (Fin m → ℝ)) :=
  tfocsLoop solve coefTol 0 (epsilon.getD (List.replicate maxIters 1)) (fun _ => 0) none

end

end Verif.Model.Nesta
