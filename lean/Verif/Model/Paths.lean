import Verif.Model.LassoPath
import Verif.Model.Weighted
import Mathlib.Analysis.SpecialFunctions.Log.Basic

/-!
# Model of `default_lagrange_sequence` (`regreg/paths/__init__.py`)
-/

namespace Verif.Model.Paths

open Verif.Model.Weighted

/-- `supnorm.seminorm(arg, lagrange, check_feasibility)` of `weighted_atoms.py:213-227`.  `none`: `max` of an empty
array raises ValueError. -/
def supSeminorm {K : Type*} [Field K] [LinearOrder K] {p : ℕ} (w : Fin p → WithTop K) (arg : Fin p → K) (lagrange : K)
    (check : Bool) : Option (WithTop K) :=
  if check ∧ ∃ i, w i = ⊤ ∧ arg i ≠ 0 then some ⊤
  else
    (((List.finRange p).filterMap fun i => wcase (w i) none fun a => some |arg i * a|).max?).map
      fun m => ((lagrange * m : K) : WithTop K)

/-- `np.linspace(a, b, n)`: `a + k * (b - a) / (n - 1)`; a single point is `a`. -/
noncomputable def linspace (a b : ℝ) (n : ℕ) : List ℝ :=
  (List.range n).map fun k : ℕ => if n ≤ 1 then a else a + (k : ℝ) * ((b - a) / ((n : ℝ) - 1))

/-- last line of `default_lagrange_sequence`, `paths/__init__.py:213-215`, given `lagrange_max` -/
noncomputable def lagrangeSeq (lagrangeMax prop : ℝ) (nstep : ℕ) (alpha : ℝ) : List ℝ :=
  (((linspace (Real.log prop) 0 nstep).map fun t => lagrangeMax * Real.exp t).reverse).map fun v => v / alpha

/-- `default_lagrange_sequence(penalty, null_solution, lagrange_proportion, nstep, alpha)`,
`paths/__init__.py:206-215`, for `penalty = weighted l1norm(w, lagrange=1)`, whose conjugate is a weighted supnorm with
the inverse weights; the argument called `null_solution` is the gradient at the null solution. `none`: ValueError. -/
noncomputable def defaultLagrangeSequence {p : ℕ} (w : Fin p → WithTop ℝ) (nullGrad : Fin p → ℝ) (prop : ℝ)
    (nstep : ℕ) (alpha : ℝ) : Option (List ℝ) :=
  match supSeminorm (conjugateWeights w) nullGrad 1 false with
  | some (some m) => some (lagrangeSeq m prop nstep alpha)
  | _ => none

end Verif.Model.Paths
