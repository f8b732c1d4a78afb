import Verif.Spec.Dual
import Verif.Spec.Separable
import Mathlib.Data.Real.Basic

/-!
# Specification: a problem `min f(x) + H(x)` with `H(x) = g*(D x)` and its dual

Functions take values in `ℝ ∪ {+∞}`.
-/

namespace Verif.Spec

variable {n k : ℕ}

/-- The numbers `⟨u, z⟩ - g(u)` over the domain of `g`. -/
def conjSet (g : (Fin k → ℝ) → WithTop ℝ) (z : Fin k → ℝ) : Set ℝ :=
  {t | ∃ u s, g u = ((s : ℝ) : WithTop ℝ) ∧ t = dot u z - s}

/-- `H(x) = sup_u ⟨u, D x⟩ - g(u)` for every `x`; `+∞` means unbounded above. -/
def Represents (D : (Fin n → ℝ) → Fin k → ℝ) (g : (Fin k → ℝ) → WithTop ℝ) (H : (Fin n → ℝ) → WithTop ℝ) : Prop :=
  ∀ x, (∀ v : ℝ, H x = v → IsLUB (conjSet g (D x)) v) ∧ (H x = ⊤ → ¬ BddAbove (conjSet g (D x)))

/-- `g` is convex on its domain. -/
def ConvexTop (g : (Fin k → ℝ) → WithTop ℝ) : Prop :=
  ∀ u v (a b : ℝ), g u = ((a : ℝ) : WithTop ℝ) → g v = ((b : ℝ) : WithTop ℝ) → ∀ t : ℝ, 0 ≤ t → t ≤ 1 →
    ∃ c : ℝ, g (fun i => (1 - t) * u i + t * v i) = ((c : ℝ) : WithTop ℝ) ∧ c ≤ (1 - t) * a + t * b

/-- `V` is the conjugate of `f` and `G z` the unique maximiser of `⟨z, x⟩ - f(x)`. -/
def IsSmoothConjugate (f : (Fin n → ℝ) → WithTop ℝ) (V : (Fin n → ℝ) → ℝ) (G : (Fin n → ℝ) → Fin n → ℝ) : Prop :=
  ∀ z, (∃ s : ℝ, f (G z) = ((s : ℝ) : WithTop ℝ) ∧ V z = dot z (G z) - s) ∧
    ∀ x (s : ℝ), f x = ((s : ℝ) : WithTop ℝ) → x ≠ G z → dot z x - s < V z

/-- `f` is strongly convex with constant `μ` on its domain. -/
def StronglyConvexTop (μ : ℝ) (f : (Fin n → ℝ) → WithTop ℝ) : Prop :=
  ∀ u v (a b : ℝ), f u = ((a : ℝ) : WithTop ℝ) → f v = ((b : ℝ) : WithTop ℝ) → ∀ t : ℝ, 0 ≤ t → t ≤ 1 →
    ∃ c : ℝ, f (fun i => (1 - t) * u i + t * v i) = ((c : ℝ) : WithTop ℝ) ∧
      c ≤ (1 - t) * a + t * b - μ / 2 * (t * (1 - t)) * sqDist u v

/-- `u` minimises `Φ` and `Φ u` is finite. -/
def IsMinTop (Φ : (Fin k → ℝ) → WithTop ℝ) (u : Fin k → ℝ) : Prop := Φ u ≠ ⊤ ∧ ∀ v, Φ u ≤ Φ v

end Verif.Spec
