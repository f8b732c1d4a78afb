import Verif.Spec.Saddle

/-!
# Specification: `minimise f(x) + g(z) subject to D x + a = z, z in T`, with a Lagrange multiplier
-/

namespace Verif.Spec

variable {n m : ℕ}

/-- `(xs, zs)` is feasible and, with the multiplier `ys`, minimises `f(x) + g(z) + ⟨ys, D x + a - z⟩` over all `x` and all `z` in `T`. -/
structure IsLagrangePoint (f : (Fin n → ℝ) → ℝ) (g : (Fin m → ℝ) → ℝ) (T : Set (Fin m → ℝ)) (D : Fin m → Fin n → ℝ) (a : Fin m → ℝ)
    (xs : Fin n → ℝ) (zs ys : Fin m → ℝ) : Prop where
  mem : zs ∈ T
  feasible : zs = affineMap D a xs
  optimal : ∀ x, ∀ z ∈ T, f xs + g zs ≤ f x + g z + dot ys (fun i => affineMap D a x i - z i)

/-- The solution of the constrained problem solves `minimise f(x) + g(D x + a)`. -/
theorem IsLagrangePoint.minimises {f : (Fin n → ℝ) → ℝ} {g : (Fin m → ℝ) → ℝ} {T : Set (Fin m → ℝ)} {D : Fin m → Fin n → ℝ}
    {a : Fin m → ℝ} {xs : Fin n → ℝ} {zs ys : Fin m → ℝ} (h : IsLagrangePoint f g T D a xs zs ys) :
    Minimises (fun x => f x + g (affineMap D a x)) {x | affineMap D a x ∈ T} xs := by
  obtain ⟨h1, h2, h3⟩ := h
  subst h2
  refine ⟨h1, fun x hx => ?_⟩
  have := h3 x _ hx
  simpa [dot] using this

end Verif.Spec
