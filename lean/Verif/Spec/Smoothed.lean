import Verif.Spec.Opt
import Mathlib.Order.WithBot
import Mathlib.Data.Real.Basic

/-! # Specification: the smoothed version of a function -/

namespace Verif.Spec

variable {n : ℕ}

/-- `V x = sup_u ⟨x,u⟩ - fstar u - q u`, and the supremum is attained at `G x` and nowhere else. -/
def IsSmoothedBy (fstar : (Fin n → ℝ) → WithTop ℝ) (q V : (Fin n → ℝ) → ℝ) (G : (Fin n → ℝ) → Fin n → ℝ) : Prop :=
  ∀ x, (∃ s : ℝ, fstar (G x) = ((s : ℝ) : WithTop ℝ) ∧ V x = dot x (G x) - s - q (G x)) ∧
    ∀ (u : Fin n → ℝ) (s : ℝ), fstar u = ((s : ℝ) : WithTop ℝ) → u ≠ G x → dot x u - s - q u < V x

/-- The map `G` is `M`-Lipschitz for the Euclidean norm. -/
def IsLipschitzWith (M : ℝ) (G : (Fin n → ℝ) → Fin n → ℝ) : Prop :=
  ∀ x y, sqDist (G x) (G y) ≤ M ^ 2 * sqDist x y

end Verif.Spec
