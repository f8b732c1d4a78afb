import Verif.Spec.Composite
import Verif.Lemmas.Prox
import Mathlib.Analysis.Calculus.Deriv.Basic
import Mathlib.Analysis.Calculus.Deriv.Comp
import Mathlib.Analysis.Calculus.Deriv.Slope
import Mathlib.Analysis.Calculus.Deriv.Prod
import Mathlib.Analysis.Calculus.Deriv.Mul
import Mathlib.Analysis.Calculus.Deriv.Add
import Mathlib.Tactic.FieldSimp

set_option linter.unusedSectionVars false
set_option linter.unusedVariables false

/-! # The proximal gradient inequalities -/

namespace Verif.Lemmas
open Verif.Spec Filter Topology

variable {n : ℕ}

lemma dot_comm' (x y : Fin n → ℝ) : dot x y = dot y x := by
  unfold dot; exact Finset.sum_congr rfl fun i _ => mul_comm _ _

lemma dot_sub_right (g x y : Fin n → ℝ) : dot g (fun i => x i - y i) = dot g x - dot g y := by
  unfold dot; rw [← Finset.sum_sub_distrib]; exact Finset.sum_congr rfl fun i _ => by ring

/-- directional derivative -/
lemma dir_deriv {f : (Fin n → ℝ) → ℝ} {g x : Fin n → ℝ} (h : IsGradientAt f g x) (d : Fin n → ℝ) :
    Tendsto (fun t : ℝ => (f (fun i => x i + t * d i) - f x) / t) (𝓝[>] 0) (𝓝 (dot g d)) := by
  have hl : HasDerivAt (fun t : ℝ => fun i => x i + t * d i) d 0 := by
    rw [hasDerivAt_pi]
    intro i
    simpa using ((hasDerivAt_id (0 : ℝ)).mul_const (d i)).const_add (x i)
  have h0 : (fun i => x i + (0 : ℝ) * d i) = x := by funext i; ring
  have h' : HasFDerivAt f (∑ i, g i • (ContinuousLinearMap.proj i : (Fin n → ℝ) →L[ℝ] ℝ))
      ((fun t : ℝ => fun i => x i + t * d i) 0) := by
    simp only [h0]; exact h
  have hd := h'.comp_hasDerivAt (0 : ℝ) hl
  have e : (∑ i, g i • (ContinuousLinearMap.proj i : (Fin n → ℝ) →L[ℝ] ℝ)) d = dot g d := by
    simp [dot, sum_apply]
  rw [e] at hd
  have hs := (hasDerivAt_iff_tendsto_slope.1 hd).mono_left (nhdsWithin_mono (0 : ℝ) (s := Set.Ioi 0) (t := {0}ᶜ)
    (fun t ht => ne_of_gt (show (0:ℝ) < t from ht)))
  refine hs.congr fun t => ?_
  simp only [slope, vsub_eq_sub, sub_zero, smul_eq_mul, Function.comp_apply, h0]
  rw [inv_mul_eq_div]

lemma dir_ge {f : (Fin n → ℝ) → ℝ} {g x : Fin n → ℝ} (h : IsGradientAt f g x) (d : Fin n → ℝ) (c : ℝ)
    (hc : ∀ t : ℝ, 0 < t → t ≤ 1 → t * c ≤ f (fun i => x i + t * d i) - f x) : c ≤ dot g d := by
  refine ge_of_tendsto (dir_deriv h d) ?_
  have : Set.Ioc (0:ℝ) 1 ∈ 𝓝[>] (0:ℝ) := Ioc_mem_nhdsGT one_pos
  filter_upwards [this] with t ht
  rw [le_div_iff₀ ht.1, mul_comm]
  exact hc t ht.1 ht.2

lemma dir_le {f : (Fin n → ℝ) → ℝ} {g x : Fin n → ℝ} (h : IsGradientAt f g x) (d : Fin n → ℝ) (c : ℝ)
    (hc : ∀ t : ℝ, 0 < t → t ≤ 1 → f (fun i => x i + t * d i) - f x ≤ t * c) : dot g d ≤ c := by
  refine le_of_tendsto (dir_deriv h d) ?_
  have : Set.Ioc (0:ℝ) 1 ∈ 𝓝[>] (0:ℝ) := Ioc_mem_nhdsGT one_pos
  filter_upwards [this] with t ht
  rw [div_le_iff₀ ht.1, mul_comm]
  exact hc t ht.1 ht.2

lemma tangent {f : (Fin n → ℝ) → ℝ} {g : (Fin n → ℝ) → Fin n → ℝ} (h : ConvexWithGradient f g) (x y : Fin n → ℝ) :
    f x + dot (g x) (fun i => y i - x i) ≤ f y := by
  have : dot (g x) (fun i => y i - x i) ≤ f y - f x := by
    refine dir_le (h.gradient x) _ _ fun t ht ht1 => ?_
    have := h.convex x y (1 - t) t (by linarith) ht.le (by ring)
    have e : (fun i => x i + t * (y i - x i)) = fun i => (1 - t) * x i + t * y i := by funext i; ring
    rw [e]; linarith
  linarith

private lemma limit_aux {c A : ℝ} (hc : 0 ≤ c) (h : ∀ t : ℝ, 0 < t → t ≤ 1 → c - t * c ≤ A) : c ≤ A := by
  by_contra hlt
  push Not at hlt
  have h1 := h 1 one_pos le_rfl
  have hA : 0 ≤ A := by linarith
  have hc' : 0 < c := lt_of_le_of_lt hA hlt
  have h2 := h ((c - A) / (2 * c)) (div_pos (by linarith) (by linarith)) (by rw [div_le_one (by linarith)]; linarith)
  have e : (c - A) / (2 * c) * c = (c - A) / 2 := by field_simp
  rw [e] at h2
  linarith

lemma sqDist_mix (z u x : Fin n → ℝ) (t : ℝ) :
    sqDist (fun i => (1 - t) * z i + t * u i) x = (1 - t) * sqDist z x + t * sqDist u x - t * (1 - t) * sqDist u z := by
  unfold sqDist
  rw [Finset.mul_sum, Finset.mul_sum, Finset.mul_sum, ← Finset.sum_add_distrib, ← Finset.sum_sub_distrib]
  exact Finset.sum_congr rfl fun i _ => by ring

lemma dot_mix (g z u : Fin n → ℝ) (t : ℝ) :
    dot g (fun i => (1 - t) * z i + t * u i) = (1 - t) * dot g z + t * dot g u := by
  unfold dot
  rw [Finset.mul_sum, Finset.mul_sum, ← Finset.sum_add_distrib]
  exact Finset.sum_congr rfl fun i _ => by ring

lemma three_point {L : ℝ} (hL : 0 < L) {h : (Fin n → ℝ) → ℝ} {S : Set (Fin n → ℝ)} (hh : IsConvexFnOn h S)
    {x g z : Fin n → ℝ} (hz : IsProxStep L h S x g z) (u : Fin n → ℝ) (hu : u ∈ S) :
    L / 2 * sqDist z x + dot g z + h z + L / 2 * sqDist u z ≤ L / 2 * sqDist u x + dot g u + h u := by
  have key : L / 2 * sqDist u z ≤ (L / 2 * sqDist u x + dot g u + h u) - (L / 2 * sqDist z x + dot g z + h z) := by
    refine limit_aux (mul_nonneg (by linarith) (sqDist_nonneg _ _)) fun t ht ht1 => ?_
    obtain ⟨hw, hhw⟩ := hh z hz.1 u hu (1 - t) t (by linarith) ht.le (by ring)
    have hmin : L / 2 * sqDist z x + dot g z + h z ≤
        L / 2 * sqDist (fun i => (1 - t) * z i + t * u i) x + dot g (fun i => (1 - t) * z i + t * u i) +
          h (fun i => (1 - t) * z i + t * u i) := by
      by_cases e : (fun i => (1 - t) * z i + t * u i) = z
      · rw [e]
      · exact (hz.2 _ hw e).le
    rw [sqDist_mix, dot_mix] at hmin
    have : t * (L / 2 * sqDist u z - t * (L / 2 * sqDist u z)) ≤
        t * ((L / 2 * sqDist u x + dot g u + h u) - (L / 2 * sqDist z x + dot g z + h z)) := by nlinarith
    exact le_of_mul_le_mul_left this ht
  linarith

/-- the basic inequality of a proximal gradient step whose upper bound test passed -/
lemma prox_grad_ineq {L : ℝ} (hL : 0 < L) {f h : (Fin n → ℝ) → ℝ} {g : (Fin n → ℝ) → Fin n → ℝ}
    {S : Set (Fin n → ℝ)} (hf : ConvexWithGradient f g) (hh : IsConvexFnOn h S) {x z : Fin n → ℝ}
    (hz : IsProxStep L h S x (g x) z) (hb : QuadraticUpperBound f (g x) L x z) (u : Fin n → ℝ) (hu : u ∈ S) :
    f z + h z + L / 2 * sqDist u z ≤ f u + h u + L / 2 * sqDist u x := by
  have h1 := three_point hL hh hz u hu
  have h2 := tangent hf x u
  unfold QuadraticUpperBound at hb
  rw [dot_sub_right] at h2 hb
  linarith

lemma prox_grad_decrease {L : ℝ} (hL : 0 < L) {f h : (Fin n → ℝ) → ℝ} {g : Fin n → ℝ}
    {S : Set (Fin n → ℝ)} (hh : IsConvexFnOn h S) {x z : Fin n → ℝ} (hx : x ∈ S)
    (hz : IsProxStep L h S x g z) (hb : QuadraticUpperBound f g L x z) :
    f z + h z ≤ f x + h x - L / 2 * sqDist z x := by
  have h1 := three_point hL hh hz x hx
  unfold QuadraticUpperBound at hb
  rw [dot_sub_right] at hb
  rw [sqDist_self, sqDist_comm x z] at h1
  linarith

lemma minimiser_isProxStep {L : ℝ} (hL : 0 < L) {f h : (Fin n → ℝ) → ℝ} {g : Fin n → ℝ}
    {S : Set (Fin n → ℝ)} {x : Fin n → ℝ} (hg : IsGradientAt f g x) (hh : IsConvexFnOn h S)
    (hx : Minimises (fun u => f u + h u) S x) : IsProxStep L h S x g x := by
  refine ⟨hx.1, fun u hu hne => ?_⟩
  have h1 : -(h u - h x) ≤ dot g (fun i => u i - x i) := by
    refine dir_ge hg _ _ fun t ht ht1 => ?_
    obtain ⟨hw, hhw⟩ := hh x hx.1 u hu (1 - t) t (by linarith) ht.le (by ring)
    have e : (fun i => x i + t * (u i - x i)) = fun i => (1 - t) * x i + t * u i := by funext i; ring
    rw [e]
    have := hx.2 _ hw
    simp only at this
    linarith
  rw [dot_sub_right] at h1
  have := mul_pos (half_pos hL) (sqDist_pos hne)
  simp only
  rw [sqDist_self]
  linarith

lemma isProxStep_minimiser {L : ℝ} (hL : 0 < L) {f h : (Fin n → ℝ) → ℝ} {g : (Fin n → ℝ) → Fin n → ℝ}
    {S : Set (Fin n → ℝ)} (hf : ConvexWithGradient f g) (hh : IsConvexFnOn h S) {x : Fin n → ℝ}
    (hx : IsProxStep L h S x (g x) x) : Minimises (fun u => f u + h u) S x := by
  refine ⟨hx.1, fun u hu => ?_⟩
  have h1 := three_point hL hh hx u hu
  have h2 := tangent hf x u
  rw [dot_sub_right] at h2
  rw [sqDist_self] at h1
  simp only
  linarith

/-! ## The accelerated rate -/

lemma sqDist_scale (t : ℝ) (ht : 0 < t) (c u q : Fin n → ℝ) :
    t ^ 2 * sqDist (fun i => (1 - 1 / t) * c i + 1 / t * u i) q = sqDist (fun i => t * q i - (t - 1) * c i) u := by
  unfold sqDist
  rw [Finset.mul_sum]
  refine Finset.sum_congr rfl fun i _ => ?_
  field_simp
  ring

/-- the inequality behind acceleration: a step from `y` compared with the mixture of the kept point `c` and `u` -/
lemma accel_ineq {L t : ℝ} (hL : 0 < L) (ht : 1 ≤ t) {f h : (Fin n → ℝ) → ℝ} {g : (Fin n → ℝ) → Fin n → ℝ}
    {S : Set (Fin n → ℝ)} (hf : ConvexWithGradient f g) (hh : IsConvexFnOn h S) {y p c u : Fin n → ℝ}
    (hp : IsProxStep L h S y (g y) p) (hb : QuadraticUpperBound f (g y) L y p) (hu : u ∈ S) (hc : c ∈ S ∨ t = 1) :
    t ^ 2 * (f p + h p - (f u + h u)) + L / 2 * sqDist (fun i => t * p i - (t - 1) * c i) u ≤
      t * (t - 1) * (f c + h c - (f u + h u)) + L / 2 * sqDist (fun i => t * y i - (t - 1) * c i) u := by
  have ht0 : 0 < t := by linarith
  rcases hc with hc | hc
  · have h1t : 1 / t ≤ 1 := by rw [div_le_one ht0]; exact ht
    have h1t0 : 0 ≤ 1 / t := by positivity
    obtain ⟨hm, hhm⟩ := hh c hc u hu (1 - 1 / t) (1 / t) (by linarith) h1t0 (by ring)
    have hfm := hf.convex c u (1 - 1 / t) (1 / t) (by linarith) h1t0 (by ring)
    have key := prox_grad_ineq hL hf hh hp hb _ hm
    have e1 := sqDist_scale t ht0 c u p
    have e2 := sqDist_scale t ht0 c u y
    have hF : t ^ 2 * (f (fun i => (1 - 1 / t) * c i + 1 / t * u i) + h (fun i => (1 - 1 / t) * c i + 1 / t * u i)) ≤
        t * (t - 1) * (f c + h c) + t * (f u + h u) := by
      have := mul_le_mul_of_nonneg_left (add_le_add hfm hhm) (sq_nonneg t)
      refine le_trans this (le_of_eq ?_)
      field_simp
      ring
    have := mul_le_mul_of_nonneg_left key (sq_nonneg t)
    nlinarith
  · subst hc
    have key := prox_grad_ineq hL hf hh hp hb u hu
    have e : ∀ q : Fin n → ℝ, sqDist (fun i => (1:ℝ) * q i - (1 - 1) * c i) u = sqDist u q := by
      intro q; rw [sqDist_comm]; congr 1; funext i; ring
    rw [e, e]
    linarith

end Verif.Lemmas
