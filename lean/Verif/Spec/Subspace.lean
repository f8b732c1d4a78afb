import Verif.Spec.Opt
import Mathlib.Data.Real.Basic

/-! # Specification vocabulary: subspaces given by a matrix of row vectors -/

namespace Verif.Spec

variable {n k : ℕ}

/-- linear combinations of the rows of `basis` -/
def rowSpan (basis : Fin k → Fin n → ℝ) : Set (Fin n → ℝ) := {z | ∃ c : Fin k → ℝ, z = fun i => ∑ a, c a * basis a i}

/-- vectors orthogonal to the rows of `basis` -/
def rowOrthogonal (basis : Fin k → Fin n → ℝ) : Set (Fin n → ℝ) := {z | ∀ a, ∑ i, basis a i * z i = 0}

/-- the rows are orthonormal -/
def OrthonormalRows (basis : Fin k → Fin n → ℝ) : Prop := ∀ a b, ∑ i, basis a i * basis b i = if a = b then 1 else 0

end Verif.Spec
