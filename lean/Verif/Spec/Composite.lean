import Verif.Spec.Opt
import Verif.Spec.Smooth

/-!
# Specification: convex composite problems `f + h` over a set `S`
-/

namespace Verif.Spec

variable {n : ℕ}

/-- `f` is convex and `g` is its gradient, everywhere. -/
structure ConvexWithGradient (f : (Fin n → ℝ) → ℝ) (g : (Fin n → ℝ) → Fin n → ℝ) : Prop where
  convex : IsConvex f
  gradient : ∀ x, IsGradientAt f (g x) x

/-- `S` is a convex set and `h` is convex on it. -/
def IsConvexFnOn (h : (Fin n → ℝ) → ℝ) (S : Set (Fin n → ℝ)) : Prop :=
  ∀ x ∈ S, ∀ y ∈ S, ∀ a b : ℝ, 0 ≤ a → 0 ≤ b → a + b = 1 →
    (fun i => a * x i + b * y i) ∈ S ∧ h (fun i => a * x i + b * y i) ≤ a * h x + b * h y

/-- `x` minimises `F` over `S`. -/
def Minimises (F : (Fin n → ℝ) → ℝ) (S : Set (Fin n → ℝ)) (x : Fin n → ℝ) : Prop :=
  x ∈ S ∧ ∀ u ∈ S, F x ≤ F u

/-- `f z ≤ f x + ⟨g, z - x⟩ + L/2 ‖z - x‖²`. -/
def QuadraticUpperBound (f : (Fin n → ℝ) → ℝ) (g : Fin n → ℝ) (L : ℝ) (x z : Fin n → ℝ) : Prop :=
  f z ≤ f x + dot g (fun i => z i - x i) + L / 2 * sqDist z x

/-- `z` is the proximal gradient point: the unique minimiser of `L/2 ‖u - x‖² + ⟨g, u⟩ + h u` over `S`. -/
def IsProxStep (L : ℝ) (h : (Fin n → ℝ) → ℝ) (S : Set (Fin n → ℝ)) (x g z : Fin n → ℝ) : Prop :=
  IsUniqueMinOn (fun u => L / 2 * sqDist u x + dot g u + h u) S z

/-- The gradient of `f` is `M`-Lipschitz in the two forms used by a backtracking test: the descent lemma holds and
`|⟨z - x, g x - g z⟩| ≤ M ‖z - x‖²`. -/
structure SmoothWith (f : (Fin n → ℝ) → ℝ) (g : (Fin n → ℝ) → Fin n → ℝ) (M : ℝ) : Prop where
  descent : ∀ x z, QuadraticUpperBound f (g x) M x z
  monotone : ∀ x z, |dot (fun i => z i - x i) (fun i => g x i - g z i)| ≤ M * sqDist z x

end Verif.Spec
