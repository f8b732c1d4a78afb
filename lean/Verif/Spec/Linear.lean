import Verif.Spec.Opt

/-! # Specification: linear maps and their adjoints on coordinate vectors -/

namespace Verif.Spec

variable {K : Type*} [Field K] {m k : ℕ}

/-- `Lt` is the adjoint of `L`: `⟨L x, u⟩ = ⟨x, Lt u⟩` for all `x`, `u`. -/
def IsAdjoint (L : (Fin m → K) → Fin k → K) (Lt : (Fin k → K) → Fin m → K) : Prop :=
  ∀ x u, ∑ i, L x i * u i = ∑ j, x j * Lt u j

/-- `L` is linear. -/
def IsLin (L : (Fin m → K) → Fin k → K) : Prop :=
  ∀ (a b : K) x y i, L (fun j => a * x j + b * y j) i = a * L x i + b * L y i

end Verif.Spec
