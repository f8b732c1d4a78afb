import Mathlib.Order.WithBot
import Mathlib.Algebra.Field.Basic
import Mathlib.Data.Fin.Basic

/-!
# Specification: extended weights

Weights take values in `WithTop K`; `⊤` is `np.inf`.
-/

namespace Verif.Spec

variable {K : Type*} [Field K] {n : ℕ}

/-- finite part of a weight: `0` at an infinite weight -/
def wt (w : Fin n → WithTop K) (i : Fin n) : K := (w i).untopD 0

/-- vectors whose coordinates of infinite weight vanish -/
def topZero (w : Fin n → WithTop K) : Set (Fin n → K) := {z | ∀ i, w i = ⊤ → z i = 0}

end Verif.Spec
