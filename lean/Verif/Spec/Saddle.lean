import Verif.Spec.Composite

/-!
# Specification: `minimise F(x) + h(D x + a)` as a saddle point problem

With `G` the convex conjugate of `h` the problem is `min over x in S, max over u in T of F(x) + ⟨u, D x + a⟩ - G(u)`.
-/

namespace Verif.Spec

variable {n m : ℕ}

/-- `D x + a` -/
noncomputable def affineMap (D : Fin m → Fin n → ℝ) (a : Fin m → ℝ) (x : Fin n → ℝ) : Fin m → ℝ := fun i => ∑ j, D i j * x j + a i

/-- `F(x) + ⟨u, D x + a⟩ - G(u)` -/
noncomputable def lagrangian (F : (Fin n → ℝ) → ℝ) (D : Fin m → Fin n → ℝ) (a : Fin m → ℝ) (G : (Fin m → ℝ) → ℝ) (x : Fin n → ℝ) (u : Fin m → ℝ) : ℝ :=
  F x + dot u (affineMap D a x) - G u

/-- `(x, u)` is a saddle point: `x` solves the primal problem and `u` the dual one. -/
def IsSaddle (F : (Fin n → ℝ) → ℝ) (S : Set (Fin n → ℝ)) (D : Fin m → Fin n → ℝ) (a : Fin m → ℝ) (G : (Fin m → ℝ) → ℝ)
    (T : Set (Fin m → ℝ)) (x : Fin n → ℝ) (u : Fin m → ℝ) : Prop :=
  x ∈ S ∧ u ∈ T ∧ (∀ u' ∈ T, lagrangian F D a G x u' ≤ lagrangian F D a G x u) ∧
    (∀ x' ∈ S, lagrangian F D a G x u ≤ lagrangian F D a G x' u)

/-- `h` with domain `Z` is the conjugate of `G` on `T`: `h(z) = sup over u in T of ⟨u, z⟩ - G(u)`, finite exactly on `Z`. -/
structure IsConjugateOf (h : (Fin m → ℝ) → ℝ) (Z : Set (Fin m → ℝ)) (G : (Fin m → ℝ) → ℝ) (T : Set (Fin m → ℝ)) : Prop where
  isLUB : ∀ z ∈ Z, IsLUB {v | ∃ u ∈ T, v = dot u z - G u} (h z)
  domain : ∀ z, BddAbove {v | ∃ u ∈ T, v = dot u z - G u} → z ∈ Z

/-- `(x, u)` is the exact result of the smoothed problem with constant `eps` and center `y`: with
`s(x) = max over u in T of ⟨u, D x + a⟩ - G(u) - eps/2 ‖u - y‖²`, `x` minimises `F + s` over `S`, and `u` is the maximiser in `s(x)`
(the gradient of the smoothed function before composition with `D`). -/
def IsSmoothedSolution (F : (Fin n → ℝ) → ℝ) (S : Set (Fin n → ℝ)) (D : Fin m → Fin n → ℝ) (a : Fin m → ℝ) (G : (Fin m → ℝ) → ℝ)
    (T : Set (Fin m → ℝ)) (eps : ℝ) (y : Fin m → ℝ) (x : Fin n → ℝ) (u : Fin m → ℝ) : Prop :=
  ∃ arg : (Fin n → ℝ) → Fin m → ℝ,
    (∀ x', IsUniqueMinOn (fun v => -(dot v (affineMap D a x') - G v - eps / 2 * sqDist v y)) T (arg x')) ∧
    u = arg x ∧
    Minimises (fun x' => F x' + (dot (arg x') (affineMap D a x') - G (arg x') - eps / 2 * sqDist (arg x') y)) S x

end Verif.Spec
