import Verif.Model.StrongRules
import Verif.Spec.LassoPath
import Verif.Spec.Smooth
import Verif.Lemmas.Smooth
import Verif.Props.C39_LassoKKT
import Mathlib.Analysis.Calculus.Deriv.Pow
import Mathlib.Tactic.Ring

/-!
# Glue between the path model and the elastic net specification
-/

set_option linter.unusedSectionVars false
set_option linter.unusedVariables false

namespace Verif.Lemmas
open Verif.Model.StrongRules Verif.Spec Verif.Props
open Verif.Model (npSign)

variable {p m : ℕ} {X : Fin m → Fin p → ℝ} {satGrad : (Fin m → ℝ) → Fin m → ℝ} {satFunc : (Fin m → ℝ) → ℝ}
  {w enet : Fin p → ℝ} {alpha tol lam : ℝ}

/-- the gradient checked by the path code at the linear predictor of `b` -/
noncomputable def pathGrad (X : Fin m → Fin p → ℝ) (satGrad : (Fin m → ℝ) → Fin m → ℝ) (satFunc : (Fin m → ℝ) → ℝ)
    (w enet : Fin p → ℝ) (alpha tol lam : ℝ) (b : Fin p → ℝ) (v : Fin p) : ℝ :=
  let P := lassoPath X satGrad satFunc w enet alpha tol
  fullGradient P (linpred P b) v + P.enetGrad b lam v

lemma enetGrad_eq (b : Fin p → ℝ) (v : Fin p) :
    (lassoPath X satGrad satFunc w enet alpha tol).enetGrad b lam v =
      (1 - alpha) * (if w v = 0 then 1 else lam) * enet v / 2 * (2 * b v) := by
  unfold lassoPath Model.LassoPath.enetGrad
  dsimp only
  by_cases h : w v = 0
  · simp [h]; ring
  · simp [h]; ring

lemma enet_gradient (hg : ∀ eta, IsGradientAt satFunc (satGrad eta) eta) (b : Fin p → ℝ) :
    IsGradientAt (enetSmooth X satFunc w enet alpha lam) (pathGrad X satGrad satFunc w enet alpha tol lam b) b := by
  have h1 : IsGradientAt (fun y : Fin p → ℝ => satFunc fun k => ∑ i, X k i * y i)
      (fun v => ∑ k, X k v * satGrad (fun k => ∑ i, X k i * b i) k) b := by
    have := grad_comp_affine X (fun _ => 0) b (by simpa using hg (fun k => ∑ i, X k i * b i))
    simpa using this
  have h2 := isGradientAt_sum (n := p)
    (fun i t => (1 - alpha) * (if w i = 0 then 1 else lam) * enet i / 2 * t ^ 2)
    (fun i => (1 - alpha) * (if w i = 0 then 1 else lam) * enet i / 2 * (2 * b i)) b (by
      intro i
      have := (hasDerivAt_pow 2 (b i)).const_mul ((1 - alpha) * (if w i = 0 then 1 else lam) * enet i / 2)
      simpa using this)
  refine grad_congr (grad_add h1 h2) rfl ?_
  funext v
  unfold pathGrad
  dsimp only
  rw [enetGrad_eq]
  rfl

lemma enet_convexWithGradient (hf : ConvexWithGradient satFunc satGrad) (ha : alpha ≤ 1) (hl : 0 ≤ lam)
    (he : ∀ i, 0 ≤ enet i) :
    ConvexWithGradient (enetSmooth X satFunc w enet alpha lam) (pathGrad X satGrad satFunc w enet alpha tol lam) := by
  refine ⟨?_, fun b => enet_gradient hf.gradient b⟩
  intro x y a b h0 h1 hab
  unfold enetSmooth
  have e : (fun k => ∑ i, X k i * (a * x i + b * y i)) =
      fun k => a * (∑ i, X k i * x i) + b * (∑ i, X k i * y i) := by
    funext k
    rw [Finset.mul_sum, Finset.mul_sum, ← Finset.sum_add_distrib]
    exact Finset.sum_congr rfl fun i _ => by ring
  have h2 := hf.convex (fun k => ∑ i, X k i * x i) (fun k => ∑ i, X k i * y i) a b h0 h1 hab
  have h3 : ∑ i, (1 - alpha) * (if w i = 0 then 1 else lam) * enet i / 2 * (a * x i + b * y i) ^ 2 ≤
      a * ∑ i, (1 - alpha) * (if w i = 0 then 1 else lam) * enet i / 2 * x i ^ 2 +
      b * ∑ i, (1 - alpha) * (if w i = 0 then 1 else lam) * enet i / 2 * y i ^ 2 := by
    rw [Finset.mul_sum, Finset.mul_sum, ← Finset.sum_add_distrib]
    refine Finset.sum_le_sum fun i _ => ?_
    have hc : 0 ≤ (1 - alpha) * (if w i = 0 then 1 else lam) * enet i / 2 := by
      have : (0:ℝ) ≤ if w i = 0 then 1 else lam := by split_ifs <;> linarith
      have h1' : 0 ≤ 1 - alpha := by linarith
      have := he i
      positivity
    have hq : (a * x i + b * y i) ^ 2 ≤ a * x i ^ 2 + b * y i ^ 2 := by
      have : b = 1 - a := by linarith
      subst this
      nlinarith [mul_nonneg (mul_nonneg h0 h1) (sq_nonneg (x i - y i))]
    nlinarith [mul_le_mul_of_nonneg_left hq hc]
  dsimp only
  rw [e]
  linarith

/-- if `b`, supported in `S`, minimises the elastic net objective among the vectors supported in `S`, then no active
penalised feature is flagged by the full check -/
lemma enet_active_ok (hg : ∀ eta, IsGradientAt satFunc (satGrad eta) eta) (ha : 0 < alpha) (hl : 0 < lam)
    (ht : 0 ≤ tol) (hw : ∀ i, 0 ≤ w i) (S : Fin p → Prop) (b : Fin p → ℝ) (hb : ∀ i, ¬ S i → b i = 0)
    (hmin : ∀ u : Fin p → ℝ, (∀ i, ¬ S i → u i = 0) →
      enetObjective X satFunc w enet alpha lam b ≤ enetObjective X satFunc w enet alpha lam u) (i : Fin p)
    (hi : S i) :
    (Model.LassoPath.checkKKT w (pathGrad X satGrad satFunc w enet alpha tol lam b) b (alpha * lam) tol).1 i = false ∧
    (Model.LassoPath.checkKKT w (pathGrad X satGrad satFunc w enet alpha tol lam b) b (alpha * lam) tol).2 i < 0 := by
  classical
  set g := pathGrad X satGrad satFunc w enet alpha tol lam b with hgdef
  set D : Fin p → Fin p → ℝ := fun i j => if i = j ∧ S j then 1 else 0 with hD
  have hDx : ∀ (y : Fin p → ℝ) i, ∑ j, D i j * y j = if S i then y i else 0 := by
    intro y i
    rw [Finset.sum_eq_single i]
    · simp only [hD, true_and]; split_ifs <;> simp
    · intro j _ hj; simp [hD, Ne.symm hj]
    · simp
  have hbS : (fun i => if S i then b i else 0) = b := by
    funext i; split_ifs with h
    · rfl
    · exact (hb i h).symm
  set F : (Fin p → ℝ) → ℝ := fun y => enetSmooth X satFunc w enet alpha lam (fun i => if S i then y i else 0) with hF
  have hFg : IsGradientAt F (fun j => if S j then g j else 0) b := by
    have h0 : IsGradientAt (enetSmooth X satFunc w enet alpha lam) g (fun i => ∑ j, D i j * b j + 0) := by
      have : (fun i => ∑ j, D i j * b j + 0) = b := by
        funext i; rw [add_zero, hDx]; exact congrFun hbS i
      rw [this]; exact enet_gradient hg b
    refine grad_congr (grad_comp_affine D (fun _ => 0) b h0) ?_ ?_
    · funext y; simp only [hF, add_zero, hDx]
    · funext j
      rw [Finset.sum_eq_single j]
      · simp only [hD, true_and]; split_ifs <;> simp
      · intro k _ hk; simp [hD, hk]
      · simp
  have hFmin : Minimises (fun u => F u + (alpha * lam) * weightedL1 w u) Set.univ b := by
    refine ⟨Set.mem_univ _, fun u _ => ?_⟩
    have h1 := hmin (fun i => if S i then u i else 0) (fun i h => if_neg h)
    have h2 : weightedL1 w (fun i => if S i then u i else 0) ≤ weightedL1 w u := by
      unfold weightedL1
      refine Finset.sum_le_sum fun i _ => ?_
      dsimp only
      split_ifs
      · exact le_rfl
      · rw [abs_zero, mul_zero]; exact mul_nonneg (hw i) (abs_nonneg _)
    have h3 := mul_le_mul_of_nonneg_left h2 (mul_pos ha hl).le
    unfold enetObjective at h1
    simp only [hF]
    rw [hbS]
    linarith
  have hno := C39_complete (tol := tol) w b (mul_pos ha hl) ht hw hFg hFmin
  have h1 := hno.1 i
  have h2 := hno.2 i
  have hgi : (fun j => if S j then g j else 0) i = g i := by simp [hi]
  constructor
  · unfold Model.LassoPath.checkKKT Model.LassoPath.checkKKT' at h1 ⊢
    unfold Model.LassoPath.activeFailing at h1 ⊢
    dsimp only at h1 ⊢
    simp only [hi, if_true] at h1
    exact h1
  · have e2 := (rank_neg_iff w (fun j => if S j then g j else 0) b (alpha * lam) tol i).1 h2
    refine (rank_neg_iff w g b (alpha * lam) tol i).2 ?_
    unfold Model.LassoPath.inactiveTerms at e2 ⊢
    simp only [hi, if_true] at e2
    exact e2

end Verif.Lemmas
