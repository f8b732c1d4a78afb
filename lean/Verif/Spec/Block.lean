import Verif.Spec.Opt
import Mathlib.Analysis.SpecialFunctions.Sqrt

/-! # Specification vocabulary: norms of the rows of a matrix -/

namespace Verif.Spec

/-- Euclidean norm of row `i` of an `n × p` matrix -/
noncomputable def rowNorm2 {n p : ℕ} (Z : Fin n × Fin p → ℝ) (i : Fin n) : ℝ := Real.sqrt (∑ j, Z (i, j) ^ 2)

/-- `a` has the values of `P` on the nonzero rows of `X` and is undefined (nan) on the zero rows. -/
def ExceptZeroRows {n p : ℕ} (X : Fin n × Fin p → ℝ) (a : Fin n × Fin p → Option ℝ) (P : Fin n × Fin p → ℝ) : Prop :=
  ∀ i j, a (i, j) = open Classical in if ∀ k, X (i, k) = 0 then none else some (P (i, j))

end Verif.Spec
