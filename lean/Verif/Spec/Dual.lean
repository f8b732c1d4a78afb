import Verif.Spec.Opt
import Mathlib.Order.Bounds.Basic
import Mathlib.Order.WithBot

/-! # Specification vocabulary: support functions and Fenchel conjugates -/

namespace Verif.Spec

variable {K : Type*} [Field K] [LinearOrder K] [IsStrictOrderedRing K]
variable {ι : Type*} [Fintype ι]

/-- `f x = max_{y ∈ C} ⟨x,y⟩`: a finite value is attained, an infinite one means the inner products are
unbounded. -/
def IsSupportFn (C : Set (ι → K)) (f : (ι → K) → WithTop K) : Prop :=
  ∀ x, (∀ v : K, f x = v → IsGreatest ((fun y => dot x y) '' C) v) ∧
    (f x = ⊤ → ¬ BddAbove ((fun y => dot x y) '' C))

/-- `g` is the Fenchel conjugate of `f` (functions with values in `K ∪ {+∞}`):
`g y = sup_x ⟨x,y⟩ - f x`. -/
def IsConjugate (f g : (ι → K) → WithTop K) : Prop :=
  ∀ y, (∀ v : K, g y = v → IsLUB {t : K | ∃ x a, f x = ((a : K) : WithTop K) ∧ t = dot x y - a} v) ∧
    (g y = ⊤ → ¬ BddAbove {t : K | ∃ x a, f x = ((a : K) : WithTop K) ∧ t = dot x y - a})

end Verif.Spec
