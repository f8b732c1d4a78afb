import Verif.Model.Regression
import Verif.Lemmas.Losses
import Verif.Lemmas.Smooth
import Verif.Spec.Composite
import Mathlib.Algebra.Order.BigOperators.Ring.Finset
import Mathlib.Tactic.Linarith
import Mathlib.Tactic.Positivity

/-!
# Lemmas about glm losses as functions of the coefficients: convexity, gradient and curvature
-/

set_option linter.unusedSectionVars false
set_option linter.unusedVariables false

namespace Verif.Lemmas
open Verif.Model Verif.Spec

variable {n p : ℕ}

lemma clip_key {lo : ℝ} (hlo : lo ≤ 1) {eps : ℝ} (he : 0 < eps) (a u : ℝ) (h1 : lo ≤ u) (h2 : u ≤ 1) :
    (a - eps * max lo (min (a / eps) 1)) * (u - max lo (min (a / eps) 1)) ≤ 0 := by
  set p := max lo (min (a / eps) 1) with hp
  rcases le_total (a / eps) lo with h | h
  · have : p = lo := by rw [hp, min_eq_left (h.trans hlo), max_eq_left h]
    rw [this]
    have : a ≤ eps * lo := by rw [div_le_iff₀ he] at h; linarith
    nlinarith
  · rcases le_total (a / eps) 1 with h' | h'
    · have : p = a / eps := by rw [hp, min_eq_left h', max_eq_right h]
      rw [this, mul_div_cancel₀ _ he.ne']; simp
    · have : p = 1 := by rw [hp, min_eq_right h', max_eq_right hlo]
      rw [this]
      have : eps ≤ a := by rw [le_div_iff₀ he] at h'; linarith
      nlinarith

/-- upper quadratic bound of the value function of a clipped ratio -/
lemma clip_upper {lo : ℝ} (hlo : lo ≤ 1) {eps : ℝ} (he : 0 < eps) (a b : ℝ) :
    let p := fun a : ℝ => max lo (min (a / eps) 1)
    let h := fun a : ℝ => a * p a - eps * p a ^ 2 / 2
    h b ≤ h a + p a * (b - a) + 1 / eps / 2 * (b - a) ^ 2 := by
  intro p h
  have hk : (a - eps * p a) * (p b - p a) ≤ 0 :=
    clip_key hlo he a (p b) (clip_mem hlo _).1 (clip_mem hlo _).2
  have hsq : 0 ≤ (eps * (p b - p a) - (b - a)) ^ 2 / (2 * eps) := by positivity
  have e : (eps * (p b - p a) - (b - a)) ^ 2 / (2 * eps) =
      eps / 2 * (p b - p a) ^ 2 - (p b - p a) * (b - a) + 1 / eps / 2 * (b - a) ^ 2 := by
    field_simp; ring
  rw [e] at hsq
  simp only [h]
  nlinarith

/-- `φ` is convex with derivative `ψ` and curvature at most `κ`, by inequalities. -/
structure Curved (φ ψ : ℝ → ℝ) (κ : ℝ) : Prop where
  tangent : ∀ x y, φ x + ψ x * (y - x) ≤ φ y
  upper : ∀ x y, φ y ≤ φ x + ψ x * (y - x) + κ / 2 * (y - x) ^ 2
  deriv : ∀ x, HasDerivAt φ (ψ x) x

lemma curved_gaussian (y : Fin n → ℝ) (i : Fin n) : Curved (phi (.gaussian y) i) (psi (.gaussian y) i) 1 := by
  refine ⟨fun x z => ?_, fun x z => ?_, fun x => hasDerivAt_gaussian (y i) x⟩
  · simp only [phi, psi]; nlinarith [sq_nonneg (z - x)]
  · simp only [phi, psi]; nlinarith [sq_nonneg (z - x)]

lemma curved_huber (y : Fin n → ℝ) {eps : ℝ} (he : 0 < eps) (i : Fin n) :
    Curved (phi (.huber y eps) i) (psi (.huber y eps) i) (1 / eps) := by
  refine ⟨fun x z => ?_, fun x z => ?_, fun x => hasDerivAt_huber he (y i) x⟩
  · simp only [phi, psi, huberPair_eq he]
    have := clip_tangent (lo := -1) (by norm_num) he (x - y i) (z - y i)
    dsimp only at this
    rw [show z - y i - (x - y i) = z - x by ring] at this
    exact this
  · simp only [phi, psi, huberPair_eq he]
    have := clip_upper (lo := -1) (by norm_num) he (x - y i) (z - y i)
    dsimp only at this
    rw [show z - y i - (x - y i) = z - x by ring] at this
    exact this

lemma curved_svm (s : Fin n → ℝ) (hs : ∀ i, s i = 0 ∨ s i = 1) (i : Fin n) :
    Curved (phi (.huberSvm s 1) i) (psi (.huberSvm s 1) i) 1 := by
  have h2 : (2 * s i - 1) ^ 2 = 1 := by rcases hs i with h | h <;> rw [h] <;> norm_num
  refine ⟨fun x z => ?_, fun x z => ?_, fun x => hasDerivAt_svm (2 * s i - 1) x⟩
  · simp only [phi, psi, huberSvmPair_one]
    have := clip_tangent (lo := 0) (by norm_num) one_pos (1 - (2 * s i - 1) * x) (1 - (2 * s i - 1) * z)
    dsimp only at this
    nlinarith [this]
  · simp only [phi, psi, huberSvmPair_one]
    have := clip_upper (lo := 0) (by norm_num) one_pos (1 - (2 * s i - 1) * x) (1 - (2 * s i - 1) * z)
    dsimp only at this
    have e : (1 - (2 * s i - 1) * z - (1 - (2 * s i - 1) * x)) ^ 2 = (z - x) ^ 2 := by
      rw [show (1 - (2 * s i - 1) * z - (1 - (2 * s i - 1) * x)) ^ 2 = (2 * s i - 1) ^ 2 * (z - x) ^ 2 by ring, h2, one_mul]
    rw [e] at this
    nlinarith [this]

/-- linear predictor of a glm -/
def predictor (X : Fin n → Fin p → ℝ) (o : Fin p → ℝ) (so : Fin n → ℝ) (β : Fin p → ℝ) (i : Fin n) : ℝ :=
  ∑ j, X i j * (β j - o j) - so i

lemma predictor_sub (X : Fin n → Fin p → ℝ) (o : Fin p → ℝ) (so : Fin n → ℝ) (x z : Fin p → ℝ) (i : Fin n) :
    predictor X o so z i - predictor X o so x i = ∑ j, X i j * (z j - x j) := by
  unfold predictor
  rw [sub_sub_sub_cancel_right, ← Finset.sum_sub_distrib]
  exact Finset.sum_congr rfl fun j _ => by ring

/-- value of a glm loss -/
def glmVal (X : Fin n → Fin p → ℝ) (o : Fin p → ℝ) (so w : Fin n → ℝ) (c : ℝ) (φ : Fin n → ℝ → ℝ) (β : Fin p → ℝ) : ℝ :=
  c * ∑ i, w i * φ i (predictor X o so β i)

/-- gradient of a glm loss -/
def glmGrad (X : Fin n → Fin p → ℝ) (o : Fin p → ℝ) (so w : Fin n → ℝ) (c : ℝ) (ψ : Fin n → ℝ → ℝ) (β : Fin p → ℝ)
    (j : Fin p) : ℝ := ∑ i, X i j * (c * (w i * ψ i (predictor X o so β i)))

lemma dot_glmGrad (X : Fin n → Fin p → ℝ) (o : Fin p → ℝ) (so w : Fin n → ℝ) (c : ℝ) (ψ : Fin n → ℝ → ℝ)
    (x z : Fin p → ℝ) : dot (glmGrad X o so w c ψ x) (fun j => z j - x j) =
      c * ∑ i, w i * (ψ i (predictor X o so x i) * (predictor X o so z i - predictor X o so x i)) := by
  unfold dot glmGrad
  simp only [predictor_sub, Finset.sum_mul, Finset.mul_sum]
  rw [Finset.sum_comm]
  exact Finset.sum_congr rfl fun i _ => Finset.sum_congr rfl fun j _ => by ring

lemma glm_tangent {X : Fin n → Fin p → ℝ} {o : Fin p → ℝ} {so w : Fin n → ℝ} {c κ : ℝ} {φ ψ : Fin n → ℝ → ℝ}
    (hc : 0 ≤ c) (hw : ∀ i, 0 ≤ w i) (h : ∀ i x y, φ i x + ψ i x * (y - x) ≤ φ i y) (x z : Fin p → ℝ) :
    glmVal X o so w c φ x + dot (glmGrad X o so w c ψ x) (fun j => z j - x j) ≤ glmVal X o so w c φ z := by
  rw [dot_glmGrad]
  unfold glmVal
  rw [← mul_add, ← Finset.sum_add_distrib]
  refine mul_le_mul_of_nonneg_left (Finset.sum_le_sum fun i _ => ?_) hc
  rw [← mul_add]
  exact mul_le_mul_of_nonneg_left (h i _ _) (hw i)

lemma glm_upper {X : Fin n → Fin p → ℝ} {o : Fin p → ℝ} {so w : Fin n → ℝ} {c κ M : ℝ} {φ ψ : Fin n → ℝ → ℝ}
    (hc : 0 ≤ c) (hw : ∀ i, 0 ≤ w i) (hκ : 0 ≤ κ)
    (h : ∀ i x y, φ i y ≤ φ i x + ψ i x * (y - x) + κ / 2 * (y - x) ^ 2)
    (hM : c * κ * ∑ i, w i * ∑ j, X i j ^ 2 ≤ M) (x z : Fin p → ℝ) :
    QuadraticUpperBound (glmVal X o so w c φ) (glmGrad X o so w c ψ x) M x z := by
  unfold QuadraticUpperBound
  rw [dot_glmGrad]
  have hcs : ∀ i, (predictor X o so z i - predictor X o so x i) ^ 2 ≤ (∑ j, X i j ^ 2) * sqDist z x := by
    intro i
    rw [predictor_sub]
    exact Finset.sum_mul_sq_le_sq_mul_sq _ _ _
  have h1 : glmVal X o so w c φ z ≤ c * ∑ i, w i * (φ i (predictor X o so x i) +
      ψ i (predictor X o so x i) * (predictor X o so z i - predictor X o so x i) +
      κ / 2 * ((∑ j, X i j ^ 2) * sqDist z x)) := by
    unfold glmVal
    refine mul_le_mul_of_nonneg_left (Finset.sum_le_sum fun i _ => ?_) hc
    refine mul_le_mul_of_nonneg_left ((h i (predictor X o so x i) _).trans ?_) (hw i)
    have := mul_le_mul_of_nonneg_left (hcs i) (show 0 ≤ κ / 2 by linarith)
    linarith
  refine h1.trans ?_
  have e : c * ∑ i, w i * (φ i (predictor X o so x i) +
      ψ i (predictor X o so x i) * (predictor X o so z i - predictor X o so x i) +
      κ / 2 * ((∑ j, X i j ^ 2) * sqDist z x)) = glmVal X o so w c φ x +
      c * ∑ i, w i * (ψ i (predictor X o so x i) * (predictor X o so z i - predictor X o so x i)) +
      (c * κ * ∑ i, w i * ∑ j, X i j ^ 2) / 2 * sqDist z x := by
    unfold glmVal
    simp only [mul_add, Finset.sum_add_distrib]
    have : ∑ i, w i * (κ / 2 * ((∑ j, X i j ^ 2) * sqDist z x)) = κ / 2 * sqDist z x * ∑ i, w i * ∑ j, X i j ^ 2 := by
      rw [Finset.mul_sum]; exact Finset.sum_congr rfl fun i _ => by ring
    rw [this]; ring
  rw [e]
  have hd : 0 ≤ sqDist z x := Finset.sum_nonneg fun i _ => sq_nonneg _
  have := mul_le_mul_of_nonneg_right hM hd
  linarith

lemma convex_of_tangents {f : (Fin p → ℝ) → ℝ} {g : (Fin p → ℝ) → Fin p → ℝ}
    (h : ∀ x z, f x + dot (g x) (fun j => z j - x j) ≤ f z) : IsConvex f := by
  intro x y a b ha hb hab
  set m : Fin p → ℝ := fun i => a * x i + b * y i with hm
  have h1 := mul_le_mul_of_nonneg_left (h m x) ha
  have h2 := mul_le_mul_of_nonneg_left (h m y) hb
  have e : a * dot (g m) (fun j => x j - m j) + b * dot (g m) (fun j => y j - m j) = 0 := by
    unfold dot
    rw [Finset.mul_sum, Finset.mul_sum, ← Finset.sum_add_distrib]
    apply Finset.sum_eq_zero
    intro j _
    simp only [hm]
    have hb' : b = 1 - a := by linarith
    rw [hb']; ring
  have e2 : a * f m + b * f m = f m := by rw [← add_mul, hab, one_mul]
  linarith

lemma smooth_of_bounds {f : (Fin p → ℝ) → ℝ} {g : (Fin p → ℝ) → Fin p → ℝ} {M : ℝ}
    (h : ∀ x z, f x + dot (g x) (fun j => z j - x j) ≤ f z) (hM : ∀ x z, QuadraticUpperBound f (g x) M x z) :
    SmoothWith f g M := by
  refine ⟨hM, fun x z => ?_⟩
  have e : dot (fun i => z i - x i) (fun i => g x i - g z i) =
      dot (g x) (fun i => z i - x i) + dot (g z) (fun i => x i - z i) := by
    unfold dot
    rw [← Finset.sum_add_distrib]
    exact Finset.sum_congr rfl fun i _ => by ring
  have hs : sqDist x z = sqDist z x := by
    unfold sqDist; exact Finset.sum_congr rfl fun i _ => by ring
  have h1 := h x z
  have h2 := h z x
  have h3 := hM x z
  have h4 := hM z x
  unfold QuadraticUpperBound at h3 h4
  rw [hs] at h4
  rw [e, abs_le]
  constructor <;> linarith

lemma glm_gradient {X : Fin n → Fin p → ℝ} {o : Fin p → ℝ} {so w : Fin n → ℝ} {c : ℝ} {φ ψ : Fin n → ℝ → ℝ}
    (h : ∀ i t, HasDerivAt (φ i) (ψ i t) t) (x : Fin p → ℝ) :
    IsGradientAt (glmVal X o so w c φ) (glmGrad X o so w c ψ x) x := by
  have e : ∀ y : Fin p → ℝ, (fun i => ∑ j, X i j * y j + -∑ j, X i j * o j) = fun i => ∑ j, X i j * (y j - o j) := by
    intro y; funext i
    rw [← sub_eq_add_neg, ← Finset.sum_sub_distrib]
    exact Finset.sum_congr rfl fun j _ => by ring
  have hg := grad_totalLoss c w so φ (fun i => ψ i (predictor X o so x i)) (fun i => ∑ j, X i j * x j + -∑ j, X i j * o j)
    (fun i => by
      have e1 := congrFun (e x) i
      rw [e1]
      exact h i _)
  refine grad_congr (grad_comp_affine X (fun i => -∑ j, X i j * o j) x hg) ?_ ?_
  · funext y
    rw [e y]; rfl
  · rfl

end Verif.Lemmas
