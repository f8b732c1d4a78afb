import Verif.Spec.Saddle
import Verif.Lemmas.ProxGrad

set_option linter.unusedSectionVars false
set_option linter.unusedVariables false

/-! # Proximal point steps on the dual of a saddle point problem -/

namespace Verif.Lemmas
open Verif.Spec

variable {n m : ℕ} {F : (Fin n → ℝ) → ℝ} {S : Set (Fin n → ℝ)} {D : Fin m → Fin n → ℝ} {a : Fin m → ℝ} {G : (Fin m → ℝ) → ℝ}
  {T : Set (Fin m → ℝ)}

lemma nonneg_of_small {A C : ℝ} (h : ∀ t : ℝ, 0 < t → t ≤ 1 → -(t * C) ≤ A) : 0 ≤ A := by
  by_contra hlt
  push Not at hlt
  rcases le_or_gt C 0 with hC | hC
  · have := h 1 one_pos le_rfl
    linarith
  · have h1 := h (min 1 (-A / (2 * C))) (lt_min one_pos (div_pos (by linarith) (by linarith))) (min_le_left _ _)
    have h2 : min 1 (-A / (2 * C)) * C ≤ -A / (2 * C) * C := mul_le_mul_of_nonneg_right (min_le_right _ _) hC.le
    have h3 : -A / (2 * C) * C = -A / 2 := by field_simp
    linarith

lemma dot_add_smul_right (u z w : Fin m → ℝ) (t : ℝ) : dot u (fun i => z i + t * w i) = dot u z + t * dot u w := by
  unfold dot
  rw [Finset.mul_sum, ← Finset.sum_add_distrib]
  exact Finset.sum_congr rfl fun i _ => by ring

lemma dot_sub_left (x y g : Fin n → ℝ) : dot (fun i => x i - y i) g = dot x g - dot y g := by
  unfold dot; rw [← Finset.sum_sub_distrib]; exact Finset.sum_congr rfl fun i _ => by ring

lemma affineMap_mix (D : Fin m → Fin n → ℝ) (a : Fin m → ℝ) (x y : Fin n → ℝ) (t : ℝ) :
    affineMap D a (fun j => (1 - t) * x j + t * y j) =
      fun i => affineMap D a x i + t * (affineMap D a y i - affineMap D a x i) := by
  funext i
  unfold affineMap
  have : ∑ j, D i j * ((1 - t) * x j + t * y j) = (1 - t) * ∑ j, D i j * x j + t * ∑ j, D i j * y j := by
    rw [Finset.mul_sum, Finset.mul_sum, ← Finset.sum_add_distrib]
    exact Finset.sum_congr rfl fun j _ => by ring
  rw [this]; ring

/-- Young's inequality -/
lemma dot_le_young {eps : ℝ} (he : 0 < eps) (v w : Fin m → ℝ) :
    dot v w ≤ eps / 2 * ∑ i, v i ^ 2 + 1 / (2 * eps) * ∑ i, w i ^ 2 := by
  unfold dot
  rw [Finset.mul_sum, Finset.mul_sum, ← Finset.sum_add_distrib]
  refine Finset.sum_le_sum fun i _ => ?_
  have h : 0 ≤ 1 / (2 * eps) * (eps * v i - w i) ^ 2 := mul_nonneg (by positivity) (sq_nonneg _)
  have e : 1 / (2 * eps) * (eps * v i - w i) ^ 2 = eps / 2 * v i ^ 2 + 1 / (2 * eps) * w i ^ 2 - v i * w i := by
    field_simp; ring
  linarith

/-- strong concavity of the smoothed maximisation -/
lemma smoothed_strong {eps : ℝ} (he : 0 < eps) (hG : IsConvexFnOn G T) {y z u : Fin m → ℝ}
    (hu : IsUniqueMinOn (fun v => -(dot v z - G v - eps / 2 * sqDist v y)) T u) (v : Fin m → ℝ) (hv : v ∈ T) :
    dot v z - G v - eps / 2 * sqDist v y + eps / 2 * sqDist v u ≤ dot u z - G u - eps / 2 * sqDist u y := by
  have hstep : IsProxStep eps G T y (fun i => -z i) u := by
    refine ⟨hu.1, fun w hw hne => ?_⟩
    have h1 := hu.2 w hw hne
    have e : ∀ w : Fin m → ℝ, dot (fun i => -z i) w = -dot w z := by
      intro w; unfold dot; rw [← Finset.sum_neg_distrib]; exact Finset.sum_congr rfl fun i _ => by ring
    simp only [e] at h1 ⊢
    linarith
  have h2 := three_point he hG hstep v hv
  have e : ∀ w : Fin m → ℝ, dot (fun i => -z i) w = -dot w z := by
    intro w; unfold dot; rw [← Finset.sum_neg_distrib]; exact Finset.sum_congr rfl fun i _ => by ring
  rw [e, e] at h2
  linarith

/-- the primal point of a smoothed solution minimises the Lagrangian at the dual point -/
lemma smoothed_primal {eps : ℝ} (he : 0 < eps) (hF : IsConvexFnOn F S) (hG : IsConvexFnOn G T) {y u : Fin m → ℝ} {x : Fin n → ℝ}
    (h : IsSmoothedSolution F S D a G T eps y x u) (x' : Fin n → ℝ) (hx' : x' ∈ S) :
    lagrangian F D a G x u ≤ lagrangian F D a G x' u := by
  obtain ⟨arg, harg, hu, hx, hmin⟩ := h
  set w : Fin m → ℝ := fun i => affineMap D a x' i - affineMap D a x i with hw
  have key : 0 ≤ F x' - F x + dot u w := by
    refine nonneg_of_small (C := 1 / (2 * eps) * ∑ i, w i ^ 2) fun t ht ht1 => ?_
    obtain ⟨hS, hFt⟩ := hF x hx x' hx' (1 - t) t (by linarith) ht.le (by ring)
    set xt : Fin n → ℝ := fun j => (1 - t) * x j + t * x' j with hxt
    have h1 := hmin xt hS
    simp only at h1
    set ut := arg xt with hut
    have h2 := smoothed_strong he hG (harg x) ut (harg xt).1
    rw [← hu] at h1 h2
    have h3 : dot ut (affineMap D a xt) = dot ut (affineMap D a x) + t * dot ut w := by
      rw [hxt, affineMap_mix]
      exact dot_add_smul_right _ _ _ _
    have h4 := dot_le_young he (fun i => ut i - u i) (fun i => t * w i)
    have h5 : dot (fun i => ut i - u i) (fun i => t * w i) = t * (dot ut w - dot u w) := by
      unfold dot
      rw [← Finset.sum_sub_distrib, Finset.mul_sum]
      exact Finset.sum_congr rfl fun i _ => by ring
    have h6 : ∑ i, (t * w i) ^ 2 = t ^ 2 * ∑ i, w i ^ 2 := by
      rw [Finset.mul_sum]; exact Finset.sum_congr rfl fun i _ => by ring
    have h7 : ∑ i, (ut i - u i) ^ 2 = sqDist ut u := rfl
    rw [h5, h6, h7] at h4
    have h8 : t * (-(t * (1 / (2 * eps) * ∑ i, w i ^ 2))) ≤ t * (F x' - F x + dot u w) := by
      have e : t * (-(t * (1 / (2 * eps) * ∑ i, w i ^ 2))) = -(1 / (2 * eps) * (t ^ 2 * ∑ i, w i ^ 2)) := by ring
      rw [e]
      nlinarith
    exact le_of_mul_le_mul_left h8 ht
  have e : dot u w = dot u (affineMap D a x') - dot u (affineMap D a x) := dot_sub_right _ _ _
  unfold lagrangian
  linarith

/-- the gap certificate of a smoothed solution -/
lemma smoothed_gap {eps : ℝ} (he : 0 < eps) (hF : IsConvexFnOn F S) (hG : IsConvexFnOn G T) {y u : Fin m → ℝ} {x : Fin n → ℝ}
    (h : IsSmoothedSolution F S D a G T eps y x u) (x' : Fin n → ℝ) (hx' : x' ∈ S) (u' : Fin m → ℝ) (hu' : u' ∈ T) :
    lagrangian F D a G x u' + eps / 2 * sqDist u' u + eps / 2 * sqDist u y ≤ lagrangian F D a G x' u + eps / 2 * sqDist u' y := by
  have h1 := smoothed_primal he hF hG h x' hx'
  obtain ⟨arg, harg, hu, hx, hmin⟩ := h
  have h2 := harg x
  rw [← hu] at h2
  have h3 := smoothed_strong he hG h2 u' hu'
  unfold lagrangian at *
  linarith

/-- distance to any dual solution -/
lemma smoothed_quasi {eps : ℝ} (he : 0 < eps) (hF : IsConvexFnOn F S) (hG : IsConvexFnOn G T) {y u : Fin m → ℝ} {x : Fin n → ℝ}
    (h : IsSmoothedSolution F S D a G T eps y x u) {xs : Fin n → ℝ} {us : Fin m → ℝ} (hs : IsSaddle F S D a G T xs us) :
    sqDist u us + sqDist u y ≤ sqDist y us := by
  have h1 := smoothed_gap he hF hG h xs hs.1 us hs.2.1
  have hxS : x ∈ S := h.choose_spec.2.2.1
  have huT : u ∈ T := by
    obtain ⟨arg, harg, hu, _⟩ := h
    rw [hu]; exact (harg x).1
  have h2 := hs.2.2.1 u huT
  have h3 := hs.2.2.2 x hxS
  rw [sqDist_comm us u, sqDist_comm us y] at h1
  have : eps / 2 * (sqDist u us + sqDist u y) ≤ eps / 2 * sqDist y us := by linarith
  exact le_of_mul_le_mul_left this (by linarith)

lemma sqDist_relaxed (t : ℝ) (u y s : Fin m → ℝ) :
    sqDist (fun i => u i + t * (u i - y i)) s = (1 + t) * sqDist u s - t * sqDist y s + t * (1 + t) * sqDist u y := by
  unfold sqDist
  rw [Finset.mul_sum, Finset.mul_sum, Finset.mul_sum, ← Finset.sum_sub_distrib, ← Finset.sum_add_distrib]
  exact Finset.sum_congr rfl fun i _ => by ring

/-- the relaxed step -/
lemma smoothed_fejer {eps t : ℝ} (he : 0 < eps) (ht : 0 ≤ t) (hF : IsConvexFnOn F S) (hG : IsConvexFnOn G T) {y u : Fin m → ℝ}
    {x : Fin n → ℝ} (h : IsSmoothedSolution F S D a G T eps y x u) {xs : Fin n → ℝ} {us : Fin m → ℝ}
    (hs : IsSaddle F S D a G T xs us) :
    sqDist (fun i => u i + t * (u i - y i)) us + (1 - t ^ 2) * sqDist u y ≤ sqDist y us := by
  have h1 := smoothed_quasi he hF hG h hs
  rw [sqDist_relaxed]
  nlinarith [mul_le_mul_of_nonneg_left h1 (by linarith : 0 ≤ 1 + t)]

/-- exchanging the roles of the two variables -/
lemma lagrangian_swap (F : (Fin n → ℝ) → ℝ) (D : Fin m → Fin n → ℝ) (a : Fin m → ℝ) (G : (Fin m → ℝ) → ℝ) (x : Fin n → ℝ)
    (u : Fin m → ℝ) :
    lagrangian (fun v => G v - dot a v) (fun j i => -D i j) (fun _ => 0) F u x = -lagrangian F D a G x u := by
  unfold lagrangian affineMap dot
  have e1 : ∑ j, x j * (∑ i, -D i j * u i + 0) = -∑ i, u i * ∑ j, D i j * x j := by
    simp only [add_zero, Finset.mul_sum]
    rw [Finset.sum_comm, ← Finset.sum_neg_distrib]
    refine Finset.sum_congr rfl fun i _ => ?_
    rw [← Finset.sum_neg_distrib]
    exact Finset.sum_congr rfl fun j _ => by ring
  have e2 : ∑ i, u i * (∑ j, D i j * x j + a i) = ∑ i, u i * ∑ j, D i j * x j + ∑ i, a i * u i := by
    rw [← Finset.sum_add_distrib]; exact Finset.sum_congr rfl fun i _ => by ring
  rw [e1, e2]; ring

lemma isSaddle_swap {xs : Fin n → ℝ} {us : Fin m → ℝ} (h : IsSaddle F S D a G T xs us) :
    IsSaddle (fun v => G v - dot a v) T (fun j i => -D i j) (fun _ => 0) F S us xs := by
  refine ⟨h.2.1, h.1, fun x' hx' => ?_, fun u' hu' => ?_⟩
  · rw [lagrangian_swap, lagrangian_swap]; linarith [h.2.2.2 x' hx']
  · rw [lagrangian_swap, lagrangian_swap]; linarith [h.2.2.1 u' hu']

lemma convex_sub_linear {k : ℕ} {H : (Fin k → ℝ) → ℝ} {U : Set (Fin k → ℝ)} (hH : IsConvexFnOn H U) (b : Fin k → ℝ) :
    IsConvexFnOn (fun v => H v - dot b v) U := by
  intro x hx y hy s t hs ht hst
  obtain ⟨h1, h2⟩ := hH x hx y hy s t hs ht hst
  refine ⟨h1, ?_⟩
  have : dot b (fun i => s * x i + t * y i) = s * dot b x + t * dot b y := by
    unfold dot
    rw [Finset.mul_sum, Finset.mul_sum, ← Finset.sum_add_distrib]
    exact Finset.sum_congr rfl fun i _ => by ring
  simp only
  rw [this]; linarith

/-- a saddle point solves `minimise F(x) + h(D x + a)` -/
lemma saddle_primal {h : (Fin m → ℝ) → ℝ} {Z : Set (Fin m → ℝ)} (hc : IsConjugateOf h Z G T) {x : Fin n → ℝ} {u : Fin m → ℝ}
    (hs : IsSaddle F S D a G T x u) :
    affineMap D a x ∈ Z ∧ Minimises (fun x' => F x' + h (affineMap D a x')) {x' | x' ∈ S ∧ affineMap D a x' ∈ Z} x := by
  have hub : dot u (affineMap D a x) - G u ∈ upperBounds {v | ∃ u ∈ T, v = dot u (affineMap D a x) - G u} := by
    rintro v ⟨u', hu', rfl⟩
    have := hs.2.2.1 u' hu'
    unfold lagrangian at this
    linarith
  have hZ : affineMap D a x ∈ Z := hc.domain _ ⟨_, hub⟩
  refine ⟨hZ, ⟨hs.1, hZ⟩, ?_⟩
  rintro x' ⟨hx', hz'⟩
  have h1 : h (affineMap D a x) ≤ dot u (affineMap D a x) - G u := (hc.isLUB _ hZ).2 hub
  have h2 : dot u (affineMap D a x') - G u ≤ h (affineMap D a x') := (hc.isLUB _ hz').1 ⟨u, hs.2.1, rfl⟩
  have h3 := hs.2.2.2 x' hx'
  unfold lagrangian at h3
  simp only
  linarith

end Verif.Lemmas
