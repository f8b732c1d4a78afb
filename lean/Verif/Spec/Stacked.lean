import Verif.Spec.Smooth
import Mathlib.Algebra.BigOperators.Fin

/-!
# Specification: blocks of a stacked vector
-/

namespace Verif.Spec

/-- Block `d` of a vector made of consecutive blocks of the given sizes: entry `k` of the block is entry
`sizes 0 + ... + sizes (d-1) + k` of the vector (`stackPos_val`). -/
def stackPos {m : ℕ} {sizes : Fin m → ℕ} (d : Fin m) (k : Fin (sizes d)) : Fin (∑ d, sizes d) := finSigmaFinEquiv ⟨d, k⟩

lemma stackPos_val {m : ℕ} {sizes : Fin m → ℕ} (d : Fin m) (k : Fin (sizes d)) :
    (stackPos d k : ℕ) = ∑ i : Fin d, sizes (Fin.castLE d.2.le i) + k := finSigmaFinEquiv_apply _

/-- block `d` of `x` -/
def block {m : ℕ} {sizes : Fin m → ℕ} (x : Fin (∑ d, sizes d) → ℝ) (d : Fin m) : Fin (sizes d) → ℝ := fun k => x (stackPos d k)

end Verif.Spec
