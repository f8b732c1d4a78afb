import Verif.Spec.Admm
import Verif.Lemmas.Saddle
import Verif.Lemmas.L2

set_option linter.unusedSectionVars false
set_option linter.unusedVariables false

/-!
# One step of the alternating direction method of multipliers
-/

namespace Verif.Lemmas
open Verif.Spec Verif.Model

variable {n m : ℕ} {f : (Fin n → ℝ) → ℝ} {g : (Fin m → ℝ) → ℝ} {T : Set (Fin m → ℝ)} {D : Fin m → Fin n → ℝ} {a : Fin m → ℝ}

/-- the minimiser of a convex function plus `ρ/2 ‖D x‖² + ⟨w, D x⟩` -/
lemma augmented_ineq {S : Set (Fin n → ℝ)} (hf : IsConvexFnOn f S) (rho : ℝ) (w : Fin m → ℝ) {xp : Fin n → ℝ}
    (hx : Minimises (fun x => f x + rho / 2 * ∑ i, (∑ j, D i j * x j) ^ 2 + ∑ i, w i * ∑ j, D i j * x j) S xp)
    (x : Fin n → ℝ) (hxS : x ∈ S) :
    f xp ≤ f x + ∑ i, (w i + rho * ∑ j, D i j * xp j) * (∑ j, D i j * x j - ∑ j, D i j * xp j) := by
  set C := rho / 2 * ∑ i, (∑ j, D i j * x j - ∑ j, D i j * xp j) ^ 2 with hC
  have key := nonneg_of_small (A := f x - f xp + ∑ i, (w i + rho * ∑ j, D i j * xp j) * (∑ j, D i j * x j - ∑ j, D i j * xp j))
    (C := C) (fun t ht ht1 => ?_)
  · linarith
  · obtain ⟨hm, hc⟩ := hf xp hx.1 x hxS (1 - t) t (by linarith) ht.le (by ring)
    have h1 := hx.2 _ hm
    simp only at h1
    have e : ∀ i, ∑ j, D i j * ((1 - t) * xp j + t * x j) =
        ∑ j, D i j * xp j + t * (∑ j, D i j * x j - ∑ j, D i j * xp j) := by
      intro i
      rw [← Finset.sum_sub_distrib, Finset.mul_sum, ← Finset.sum_add_distrib]
      exact Finset.sum_congr rfl fun j _ => by ring
    simp only [e] at h1
    have e2 : rho / 2 * ∑ i, (∑ j, D i j * xp j + t * (∑ j, D i j * x j - ∑ j, D i j * xp j)) ^ 2 +
        ∑ i, w i * (∑ j, D i j * xp j + t * (∑ j, D i j * x j - ∑ j, D i j * xp j)) =
        rho / 2 * ∑ i, (∑ j, D i j * xp j) ^ 2 + ∑ i, w i * ∑ j, D i j * xp j +
        t * (∑ i, (w i + rho * ∑ j, D i j * xp j) * (∑ j, D i j * x j - ∑ j, D i j * xp j)) + t ^ 2 * C := by
      rw [hC]
      simp only [Finset.mul_sum, ← Finset.sum_add_distrib]
      refine Finset.sum_congr rfl fun i _ => ?_
      simp only [← Finset.mul_sum]
      ring
    have h2 : 0 ≤ t * (f x - f xp + ∑ i, (w i + rho * ∑ j, D i j * xp j) * (∑ j, D i j * x j - ∑ j, D i j * xp j)) + t ^ 2 * C := by
      nlinarith
    have h3 : t * (-(t * C)) ≤ t * (f x - f xp + ∑ i, (w i + rho * ∑ j, D i j * xp j) * (∑ j, D i j * x j - ∑ j, D i j * xp j)) := by
      nlinarith
    exact le_of_mul_le_mul_left h3 ht

/-- the proximal point of `g` with center `c` and linear term `-y` -/
lemma prox_ineq (hg : IsConvexFnOn g T) {rho : ℝ} (hr : 0 < rho) {c y zp : Fin m → ℝ}
    (hz : IsUniqueMinOn (fun u => g u + (rho / 2 * sqDist u c + dot (fun i => -y i) u)) T zp) (z : Fin m → ℝ) (hzT : z ∈ T) :
    g zp ≤ g z - ∑ i, (y i + rho * (c i - zp i)) * (z i - zp i) := by
  have hs : IsProxStep rho g T c (fun i => -y i) zp := by
    refine ⟨hz.1, fun u hu hne => ?_⟩
    have := hz.2 u hu hne
    simp only at this ⊢
    linarith
  have h := three_point hr hg hs z hzT
  have e : rho / 2 * sqDist z c - rho / 2 * sqDist zp c - rho / 2 * sqDist z zp = ∑ i, rho * (zp i - c i) * (z i - zp i) := by
    unfold sqDist
    rw [Finset.mul_sum, Finset.mul_sum, Finset.mul_sum, ← Finset.sum_sub_distrib, ← Finset.sum_sub_distrib]
    exact Finset.sum_congr rfl fun i _ => by ring
  have e2 : dot (fun i => -y i) z - dot (fun i => -y i) zp = - ∑ i, y i * (z i - zp i) := by
    unfold dot
    rw [← Finset.sum_sub_distrib, ← Finset.sum_neg_distrib]
    exact Finset.sum_congr rfl fun i _ => by ring
  have e3 : ∑ i, (y i + rho * (c i - zp i)) * (z i - zp i) = ∑ i, y i * (z i - zp i) - ∑ i, rho * (zp i - c i) * (z i - zp i) := by
    rw [← Finset.sum_sub_distrib]
    exact Finset.sum_congr rfl fun i _ => by ring
  rw [e3]
  linarith

end Verif.Lemmas
