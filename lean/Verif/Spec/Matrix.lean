import Verif.Spec.Opt
import Mathlib.Data.Real.Basic

/-!
# Specification: symmetric positive definite matrices
-/

namespace Verif.Spec

variable {n : ℕ}

/-- `M x` -/
def matVec (M : Fin n → Fin n → ℝ) (x : Fin n → ℝ) : Fin n → ℝ := fun i => ∑ j, M i j * x j

/-- `xᵀ M x` -/
noncomputable def quadForm (M : Fin n → Fin n → ℝ) (x : Fin n → ℝ) : ℝ := dot x (matVec M x)

/-- `M` is symmetric. -/
def IsSymm (M : Fin n → Fin n → ℝ) : Prop := ∀ i j, M i j = M j i

/-- `M` is symmetric with `xᵀ M x > 0` for `x ≠ 0`. -/
def IsPosDef (M : Fin n → Fin n → ℝ) : Prop := IsSymm M ∧ ∀ x, x ≠ 0 → 0 < quadForm M x

/-- `M` is symmetric with `xᵀ M x ≥ 0`. -/
def IsPosSemidef (M : Fin n → Fin n → ℝ) : Prop := IsSymm M ∧ ∀ x, 0 ≤ quadForm M x

end Verif.Spec
