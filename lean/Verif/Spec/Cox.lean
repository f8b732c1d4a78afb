import Mathlib.Analysis.SpecialFunctions.Log.Basic
import Mathlib.Algebra.BigOperators.Fin

/-!
# Specification: Breslow's partial likelihood
-/

namespace Verif.Spec
noncomputable section
open Classical

/-- total weight at risk when case `i` has its event: `∑ wⱼ exp(ηⱼ)` over the cases `j` whose time is at least `Tᵢ` -/
def riskTotal {n : ℕ} (T w η : Fin n → ℝ) (i : Fin n) : ℝ := ∑ j with T i ≤ T j, w j * Real.exp (η j)

/-- negative log partial likelihood (ties handled by Breslow's rule); `c i` is 1 for an event, 0 for a censored case -/
def coxNll {n : ℕ} (T : Fin n → ℝ) (c : Fin n → ℕ) (w η : Fin n → ℝ) : ℝ :=
  ∑ i, c i * w i * (Real.log (riskTotal T w η i) - η i)

/-- every risk set holds positive weight -/
def RiskPositive {n : ℕ} (T w : Fin n → ℝ) : Prop := ∀ i, ∃ j, T i ≤ T j ∧ 0 < w j

/-- `σ` sorts the times -/
def IsArgsort {n : ℕ} (T : Fin n → ℝ) (σ : Equiv.Perm (Fin n)) : Prop := ∀ a b, a ≤ b → T (σ a) ≤ T (σ b)

end
end Verif.Spec
