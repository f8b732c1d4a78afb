import Verif.Spec.Smooth
import Mathlib.Analysis.SpecialFunctions.Log.Basic

/-!
# Specification: textbook negative log-likelihoods of one observation with linear predictor `t`
-/

namespace Verif.Spec

noncomputable section

/-- half squared error for response `y` -/
def gaussianNll (y t : ℝ) : ℝ := (t - y) ^ 2 / 2
/-- Poisson with count `c`, up to the constant `log c!` -/
def poissonNll (c t : ℝ) : ℝ := Real.exp t - c * t
/-- binomial with `s` successes out of `m`, up to the binomial coefficient -/
def logisticNll (s m t : ℝ) : ℝ := m * Real.log (1 + Real.exp t) - s * t
/-- Huber's function: quadratic for `|r| ≤ eps`, linear beyond -/
def huberFn (eps r : ℝ) : ℝ := if |r| ≤ eps then r ^ 2 / (2 * eps) else |r| - eps / 2
/-- hinge loss at margin `z` smoothed on an interval of length `eps` -/
def smoothHinge (eps z : ℝ) : ℝ :=
  if 1 ≤ z then 0 else if 1 - eps ≤ z then (1 - z) ^ 2 / (2 * eps) else 1 - z - eps / 2

/-- `coef * ∑ᵢ wᵢ ℓᵢ(xᵢ - oᵢ)`: a weighted separable loss with an offset. -/
def totalLoss {n : ℕ} (coef : ℝ) (w o : Fin n → ℝ) (ell : Fin n → ℝ → ℝ) (x : Fin n → ℝ) : ℝ :=
  coef * ∑ i, w i * ell i (x i - o i)

/-- the weight of case `i`: the caller's weight times the loss' own weight, absent weights being one -/
def effWeight {n : ℕ} (own arg : Option (Fin n → ℝ)) (i : Fin n) : ℝ := (arg.elim 1 fun a => a i) * own.elim 1 fun w => w i

/-- the offset of case `i`, zero if there is none -/
def effOffset {n : ℕ} (o : Option (Fin n → ℝ)) (i : Fin n) : ℝ := o.elim 0 fun o => o i

end
end Verif.Spec
