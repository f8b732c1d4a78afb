import Mathlib.Data.Real.Basic
import Mathlib.Algebra.BigOperators.Group.Finset.Basic
import Mathlib.Data.Fintype.Basic

/-! The contract of a (thin) QR factorisation. -/

namespace Verif.Spec

/-- `A = Q R`, the columns of `Q` orthonormal, `R` upper triangular -/
structure IsQr {m q : ℕ} (A Q : Fin m → Fin q → ℝ) (R : Fin q → Fin q → ℝ) : Prop where
  eq : ∀ i a, A i a = ∑ b, Q i b * R b a
  orth : ∀ a b, ∑ i, Q i a * Q i b = if a = b then 1 else 0
  tri : ∀ a b, a < b → R b a = 0

end Verif.Spec
