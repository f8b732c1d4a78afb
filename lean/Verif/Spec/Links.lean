import Mathlib.Analysis.SpecialFunctions.Log.Basic
import Mathlib.Analysis.SpecialFunctions.Gaussian.GaussianIntegral

/-!
# Specification: the normal distribution, and binomial likelihoods for a given inverse link
-/

namespace Verif.Spec

noncomputable section

/-- density of the standard normal distribution -/
def npdf (t : ℝ) : ℝ := Real.exp (-(1 / 2) * t ^ 2) / Real.sqrt (2 * Real.pi)

/-- distribution function of the standard normal distribution: `P(Z ≤ x)` -/
def ncdf (x : ℝ) : ℝ := ∫ t in Set.Iic x, npdf t

/-- survival function of the standard normal distribution: `P(Z > x)` -/
def nsf (x : ℝ) : ℝ := ∫ t in Set.Ioi x, npdf t

/-- inverse of the complementary log-log link -/
def cloglogInv (x : ℝ) : ℝ := 1 - Real.exp (-Real.exp x)

/-- negative log-likelihood of `s` successes out of `m` when the success probability at linear predictor `x` is
`inv x`, up to the binomial coefficient -/
def binomialNll (inv : ℝ → ℝ) (s m x : ℝ) : ℝ := -(s * Real.log (inv x) + (m - s) * Real.log (1 - inv x))

/-- half the deviance of `s` successes out of `m` against success probability `p`: the loss in log-likelihood compared
with the saturated fit `p = s / m` (`0 log 0 = 0`) -/
def halfDeviance (s m p : ℝ) : ℝ := s * Real.log (s / m / p) + (m - s) * Real.log ((1 - s / m) / (1 - p))

/-- inverse of the logistic link -/
def sigmoid (x : ℝ) : ℝ := Real.exp x / (1 + Real.exp x)

end
end Verif.Spec
