import Verif.Model.Paths
import Verif.Model.Conjugate

/-!
# Model of `default_lagrange_sequence` for the unweighted seminorms
-/

namespace Verif.Model.Paths
open Verif.Model

/-- `default_lagrange_sequence(penalty, null_solution, lagrange_proportion, nstep, alpha)`, `paths/__init__.py:206-215`, for a penalty
of one of the seven classes of `seminorms.py`: line 211 takes the conjugate of the penalty, line 212 calls its `seminorm` with
`lagrange=1` and the default `check_feasibility=False`.  `none`: the number is infinite, which no class returns without the check. -/
noncomputable def penaltySequence {p : ℕ} (k : Klass) (nullGrad : Fin (p + 1) → ℝ) (prop : ℝ) (nstep : ℕ) (alpha : ℝ) :
    Option (List ℝ) :=
  match k.conj.seminorm nullGrad 1 false with
  | some m => some (lagrangeSeq m prop nstep alpha)
  | none => none

end Verif.Model.Paths
