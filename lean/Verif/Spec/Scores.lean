import Verif.Model.Scores
import Verif.Spec.Links

/-!
# Specification vocabulary for the scores of binary regressions
-/

namespace Verif.Model.Sklearn
open Verif.Spec

variable {n : ℕ}

/-- textbook inverse link: success probability at a linear predictor -/
noncomputable def Family.inv : Family → ℝ → ℝ
  | .logistic => sigmoid
  | .probit => ncdf
  | .cloglog => cloglogInv

/-- largest linear predictor at which the losses are evaluated without clipping -/
def Family.bound : Family → ℝ
  | .logistic => 100
  | .probit => 20
  | .cloglog => 5

/-- admissible successes and trials: binary successes without trials, `0 ≤ sᵢ ≤ mᵢ` with trials -/
def ValidCounts (s : Fin n → ℝ) : Option (Fin n → ℝ) → Prop
  | none => ∀ i, s i = 0 ∨ s i = 1
  | some m => ∀ i, 0 ≤ s i ∧ s i ≤ m i

/-- weighted negative log-likelihood of the family -/
noncomputable def Family.nll (F : Family) (w s m x : Fin n → ℝ) : ℝ := ∑ i, w i * binomialNll F.inv (s i) (m i) (x i)

end Verif.Model.Sklearn
