import Verif.Spec.Opt
import Mathlib.Algebra.Order.Monoid.WithTop
import Mathlib.Data.List.Pairwise

/-!
# Specification: minimisers of functions with values in `K ∪ {∞}`, disjoint index maps
-/

namespace Verif.Spec

variable {K : Type*} [Field K] [LinearOrder K] [IsStrictOrderedRing K]

/-- `p` is the unique minimiser of `F`, and `F p` is finite. -/
def IsUniqueMinTop {α : Type*} (F : α → WithTop K) (p : α) : Prop :=
  F p ≠ ⊤ ∧ ∀ z, z ≠ p → F p < F z

/-- The two index maps select no common position. -/
def SelectDisjoint {α β γ : Type*} (s : α → γ) (t : β → γ) : Prop := ∀ a b, s a ≠ t b

end Verif.Spec
