import Verif.Lemmas.ProxGrad
import Verif.Spec.Dual
import Verif.Model.Smoothed
import Mathlib.Analysis.Asymptotics.Lemmas
import Mathlib.Analysis.Normed.Group.Constructions

set_option linter.unusedSectionVars false
set_option linter.unusedVariables false

/-! # Smoothed functions: gradient and Lipschitz constant of the conjugate of a strongly convex function -/

namespace Verif.Lemmas
open Verif.Spec Verif.Model Filter Topology Asymptotics

variable {n : ℕ}

lemma dot_young {c : ℝ} (hc : 0 < c) (a b : Fin n → ℝ) :
    dot a b ≤ 1 / (2 * c) * ∑ i, a i ^ 2 + c / 2 * ∑ i, b i ^ 2 := by
  unfold dot
  rw [Finset.mul_sum, Finset.mul_sum, ← Finset.sum_add_distrib]
  refine Finset.sum_le_sum fun i _ => ?_
  have h : 0 ≤ (a i - c * b i) ^ 2 := sq_nonneg _
  have e : 1 / (2 * c) * a i ^ 2 + c / 2 * b i ^ 2 - a i * b i = (a i - c * b i) ^ 2 / (2 * c) := by
    field_simp; ring
  have := div_nonneg h (by linarith : (0:ℝ) ≤ 2 * c)
  linarith

/-- `p x` minimises `c/2 ‖u - m‖² + ⟨l - x, u⟩ + h u` over `S`, for every `x` -/
def IsDualPoint (c : ℝ) (h : (Fin n → ℝ) → ℝ) (S : Set (Fin n → ℝ)) (m l : Fin n → ℝ)
    (p : (Fin n → ℝ) → Fin n → ℝ) : Prop :=
  ∀ x, IsProxStep c h S m (fun i => l i - x i) (p x)

/-- value at the dual point -/
noncomputable def dualValue (c : ℝ) (h : (Fin n → ℝ) → ℝ) (m l : Fin n → ℝ) (p : (Fin n → ℝ) → Fin n → ℝ)
    (x : Fin n → ℝ) : ℝ :=
  dot x (p x) - (c / 2 * sqDist (p x) m + dot l (p x) + h (p x))

private lemma dot_sub_left (l x u : Fin n → ℝ) : dot (fun i => l i - x i) u = dot l u - dot x u := by
  unfold dot; rw [← Finset.sum_sub_distrib]; exact Finset.sum_congr rfl fun i _ => by ring

variable {c : ℝ} {h : (Fin n → ℝ) → ℝ} {S : Set (Fin n → ℝ)} {m l : Fin n → ℝ} {p : (Fin n → ℝ) → Fin n → ℝ}

private lemma strong (hc : 0 < c) (hh : IsConvexFnOn h S) (hp : IsDualPoint c h S m l p) (x u : Fin n → ℝ)
    (hu : u ∈ S) :
    dot x u - (c / 2 * sqDist u m + dot l u + h u) + c / 2 * sqDist u (p x) ≤ dualValue c h m l p x := by
  have := three_point hc hh (hp x) u hu
  rw [dot_sub_left, dot_sub_left] at this
  unfold dualValue
  linarith

lemma dual_monotone (hc : 0 < c) (hh : IsConvexFnOn h S) (hp : IsDualPoint c h S m l p) (x y : Fin n → ℝ) :
    c * sqDist (p y) (p x) ≤ dot (fun i => y i - x i) (fun i => p y i - p x i) := by
  have h1 := strong hc hh hp x (p y) (hp y).1
  have h2 := strong hc hh hp y (p x) (hp x).1
  unfold dualValue at h1 h2
  rw [sqDist_comm (p x) (p y)] at h2
  rw [dot_sub_right, dot_sub_left, dot_sub_left]
  linarith

lemma dual_lipschitz (hc : 0 < c) (hh : IsConvexFnOn h S) (hp : IsDualPoint c h S m l p) (x y : Fin n → ℝ) :
    sqDist (p y) (p x) ≤ (1 / c) ^ 2 * sqDist y x := by
  have h1 := dual_monotone hc hh hp x y
  have h2 := dot_young hc (fun i => y i - x i) (fun i => p y i - p x i)
  have e1 : ∑ i, (y i - x i) ^ 2 = sqDist y x := rfl
  have e2 : ∑ i, (p y i - p x i) ^ 2 = sqDist (p y) (p x) := rfl
  rw [e1, e2] at h2
  have h3 : c / 2 * sqDist (p y) (p x) ≤ 1 / (2 * c) * sqDist y x := by linarith
  have e : (1 / c) ^ 2 * sqDist y x = 2 / c * (1 / (2 * c) * sqDist y x) := by field_simp
  have e' : sqDist (p y) (p x) = 2 / c * (c / 2 * sqDist (p y) (p x)) := by field_simp
  rw [e, e']
  exact mul_le_mul_of_nonneg_left h3 (by positivity)

private lemma sum_sq_le (v : Fin n → ℝ) : ∑ i, v i ^ 2 ≤ n * ‖v‖ ^ 2 := by
  calc ∑ i, v i ^ 2 ≤ ∑ _i : Fin n, ‖v‖ ^ 2 := by
        refine Finset.sum_le_sum fun i _ => ?_
        have := norm_le_pi_norm v i
        rw [Real.norm_eq_abs] at this
        rw [← sq_abs]
        exact pow_le_pow_left₀ (abs_nonneg _) this 2
    _ = n * ‖v‖ ^ 2 := by simp

/-- a function with a quadratic two-sided remainder has the given gradient -/
lemma isGradientAt_of_quadratic {f : (Fin n → ℝ) → ℝ} {g x : Fin n → ℝ} (C : ℝ)
    (hb : ∀ y, |f y - f x - dot g (fun i => y i - x i)| ≤ C * sqDist y x) : IsGradientAt f g x := by
  unfold IsGradientAt
  rw [hasFDerivAt_iff_isLittleO]
  have e : ∀ v : Fin n → ℝ, (∑ i, g i • (ContinuousLinearMap.proj i : (Fin n → ℝ) →L[ℝ] ℝ)) v = dot g v := by
    intro v; simp [dot, sum_apply]
  have hC : ∀ y, |f y - f x - dot g (fun i => y i - x i)| ≤ |C| * n * ‖‖y - x‖ ^ 2‖ := by
    intro y
    refine (hb y).trans ?_
    have h1 : sqDist y x ≤ n * ‖y - x‖ ^ 2 := sum_sq_le (y - x)
    have h0 : 0 ≤ sqDist y x := sqDist_nonneg _ _
    rw [Real.norm_eq_abs, abs_of_nonneg (sq_nonneg ‖y - x‖)]
    calc C * sqDist y x ≤ |C| * sqDist y x := mul_le_mul_of_nonneg_right (le_abs_self C) h0
      _ ≤ |C| * (n * ‖y - x‖ ^ 2) := mul_le_mul_of_nonneg_left h1 (abs_nonneg C)
      _ = |C| * n * ‖y - x‖ ^ 2 := by ring
  have hO : (fun y => f y - f x - (∑ i, g i • (ContinuousLinearMap.proj i : (Fin n → ℝ) →L[ℝ] ℝ)) (y - x)) =O[𝓝 x]
      fun y => ‖y - x‖ ^ 2 := by
    refine IsBigO.of_bound (|C| * n) (Eventually.of_forall fun y => ?_)
    rw [e, Real.norm_eq_abs]
    exact hC y
  have ho : (fun y => ‖y - x‖ ^ 2) =o[𝓝 x] fun y => y - x := by
    have h1 : (fun v : Fin n → ℝ => ‖v‖ ^ 2) =o[𝓝 0] fun v => v := isLittleO_norm_pow_id one_lt_two
    have h2 : Tendsto (fun y : Fin n → ℝ => y - x) (𝓝 x) (𝓝 0) := by
      have : Tendsto (fun y : Fin n → ℝ => y - x) (𝓝 x) (𝓝 (x - x)) := (continuous_id.sub continuous_const).tendsto x
      rwa [sub_self] at this
    exact h1.comp_tendsto h2
  exact hO.trans_isLittleO ho

lemma dual_gradient (hc : 0 < c) (hh : IsConvexFnOn h S) (hp : IsDualPoint c h S m l p) (x : Fin n → ℝ) :
    IsGradientAt (dualValue c h m l p) (p x) x := by
  refine isGradientAt_of_quadratic (1 / c) fun y => ?_
  have h1 := strong hc hh hp x (p y) (hp y).1
  have h2 := strong hc hh hp y (p x) (hp x).1
  have n1 : 0 ≤ c / 2 * sqDist (p y) (p x) := mul_nonneg (by linarith) (sqDist_nonneg _ _)
  rw [sqDist_comm (p x) (p y)] at h2
  have h3 := dot_young hc (fun i => y i - x i) (fun i => p y i - p x i)
  have e1 : ∑ i, (y i - x i) ^ 2 = sqDist y x := rfl
  have e2 : ∑ i, (p y i - p x i) ^ 2 = sqDist (p y) (p x) := rfl
  rw [e1, e2, dot_sub_right, dot_sub_left, dot_sub_left] at h3
  have e3 : 1 / (2 * c) * sqDist y x ≤ 1 / c * sqDist y x := by
    apply mul_le_mul_of_nonneg_right _ (sqDist_nonneg _ _)
    rw [div_le_div_iff₀ (by linarith) hc]; linarith
  have v : ∀ z, dualValue c h m l p z = dot z (p z) - (c / 2 * sqDist (p z) m + dot l (p z) + h (p z)) := fun z => rfl
  have d1 := v x
  have d2 := v y
  rw [dot_comm' (p x), dot_sub_left, abs_le]
  constructor
  · have : 0 ≤ 1 / c * sqDist y x := mul_nonneg (by positivity) (sqDist_nonneg _ _)
    linarith
  · linarith

/-! ### conjugates are convex -/

lemma conj_unique {ι : Type*} [Fintype ι] {f g g' : (ι → ℝ) → WithTop ℝ} (h : IsConjugate f g)
    (h' : IsConjugate f g') : g = g' := by
  funext y
  cases hg : g y with
  | top =>
    cases hg' : g' y with
    | top => rfl
    | coe v => exact absurd ⟨v, ((h' y).1 v hg').1⟩ ((h y).2 hg)
  | coe v =>
    cases hg' : g' y with
    | top => exact absurd ⟨v, ((h y).1 v hg).1⟩ ((h' y).2 hg')
    | coe v' => rw [((h y).1 v hg).unique ((h' y).1 v' hg')]

lemma conj_convex {f g : (Fin n → ℝ) → WithTop ℝ} (h : IsConjugate f g) :
    IsConvexFnOn (fun u => (g u).untopD 0) {u | g u ≠ ⊤} := by
  intro x hx y hy a b ha hb hab
  obtain ⟨vx, hvx⟩ := WithTop.ne_top_iff_exists.1 hx
  obtain ⟨vy, hvy⟩ := WithTop.ne_top_iff_exists.1 hy
  have lx := (h x).1 vx hvx.symm
  have ly := (h y).1 vy hvy.symm
  have hub : a * vx + b * vy ∈ upperBounds {t : ℝ | ∃ z c, f z = ((c : ℝ) : WithTop ℝ) ∧
      t = dot z (fun i => a * x i + b * y i) - c} := by
    rintro t ⟨z, c, hz, rfl⟩
    have h1 := lx.1 ⟨z, c, hz, rfl⟩
    have h2 := ly.1 ⟨z, c, hz, rfl⟩
    have e : dot z (fun i => a * x i + b * y i) = a * dot z x + b * dot z y := by
      unfold dot; rw [Finset.mul_sum, Finset.mul_sum, ← Finset.sum_add_distrib]
      exact Finset.sum_congr rfl fun i _ => by ring
    rw [e]
    have : a * (dot z x - c) + b * (dot z y - c) = a * dot z x + b * dot z y - c := by
      have : c = (a + b) * c := by rw [hab, one_mul]
      linear_combination this
    nlinarith [mul_le_mul_of_nonneg_left h1 ha, mul_le_mul_of_nonneg_left h2 hb]
  have hne : g (fun i => a * x i + b * y i) ≠ ⊤ := fun e => (h _).2 e ⟨_, hub⟩
  refine ⟨hne, ?_⟩
  obtain ⟨v, hv⟩ := WithTop.ne_top_iff_exists.1 hne
  have lv := (h _).1 v hv.symm
  simp only [← hvx, ← hvy, ← hv, WithTop.untopD_coe]
  exact lv.2 hub

end Verif.Lemmas
