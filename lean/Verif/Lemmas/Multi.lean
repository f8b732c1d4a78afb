import Verif.Model.Multinomial
import Verif.Lemmas.Losses
import Mathlib.Algebra.BigOperators.Fin

/-! # Lemmas for the losses of a matrix argument -/

set_option linter.unusedSectionVars false
set_option linter.unusedVariables false

namespace Verif.Lemmas
open Verif.Model Verif.Spec

variable {n q m p : ℕ}

lemma grad_comp1 {f : (Fin n → ℝ) → ℝ} {g x : Fin n → ℝ} {φ : ℝ → ℝ} {d : ℝ} (h : IsGradientAt f g x)
    (hφ : HasDerivAt φ d (f x)) : IsGradientAt (fun y => φ (f y)) (fun k => d * g k) x := by
  unfold IsGradientAt at *
  have := hφ.comp_hasFDerivAt x h
  refine this.congr_fderiv ?_
  rw [Finset.smul_sum]
  exact Finset.sum_congr rfl fun i _ => by rw [smul_smul]

lemma nll_eq (hq : 0 < q) (c η : Fin q → ℝ) :
    multinomialNll c η = (∑ j, c j) * Real.log (∑ k, Real.exp (η k)) - ∑ j, c j * η j := by
  have hpos : 0 < ∑ k, Real.exp (η k) :=
    Finset.sum_pos (fun k _ => Real.exp_pos _) ⟨⟨0, hq⟩, Finset.mem_univ _⟩
  unfold multinomialNll
  rw [Finset.sum_mul, ← Finset.sum_sub_distrib, ← Finset.sum_neg_distrib]
  refine Finset.sum_congr rfl fun j _ => ?_
  rw [Real.log_div (Real.exp_ne_zero _) hpos.ne', Real.log_exp]; ring

lemma grad_multinomial (hq : 0 < q) (c η : Fin q → ℝ) :
    IsGradientAt (multinomialNll c) (fun j => (∑ k, c k) / (∑ k, Real.exp (η k)) * Real.exp (η j) - c j) η := by
  have hpos : 0 < ∑ k, Real.exp (η k) :=
    Finset.sum_pos (fun k _ => Real.exp_pos _) ⟨⟨0, hq⟩, Finset.mem_univ _⟩
  have h1 := isGradientAt_sum (fun _ t => Real.exp t) (fun j => Real.exp (η j)) η fun j => Real.hasDerivAt_exp _
  have h2 := grad_smul (grad_comp1 h1 (Real.hasDerivAt_log hpos.ne')) (∑ k, c k)
  have h3 := isGradientAt_sum (fun j t => -(c j) * t) (fun j => -(c j)) η fun j => by
    simpa using (hasDerivAt_id (η j)).const_mul (-(c j))
  refine grad_congr (grad_add h2 h3) ?_ ?_
  · funext y; rw [nll_eq hq]; simp only [neg_mul, Finset.sum_neg_distrib]; ring
  · funext j; rw [div_eq_mul_inv]; ring

lemma convex_multinomial (hq : 0 < q) {c : Fin q → ℝ} (hc : ∀ j, 0 ≤ c j) : IsConvex (multinomialNll c) := by
  intro x y a b ha hb hab
  rw [nll_eq hq, nll_eq hq, nll_eq hq]
  set z : Fin q → ℝ := fun i => a * x i + b * y i with hz
  have hpos : ∀ z : Fin q → ℝ, 0 < ∑ k, Real.exp (z k) := fun z =>
    Finset.sum_pos (fun k _ => Real.exp_pos _) ⟨⟨0, hq⟩, Finset.mem_univ _⟩
  have key : ∀ t : Fin q → ℝ, Real.log (∑ k, Real.exp (z k)) + ∑ j, Real.exp (z j) / (∑ k, Real.exp (z k)) * (t j - z j) ≤
      Real.log (∑ k, Real.exp (t k)) := fun t => by
    have := logsumexp_tangent Finset.univ (fun _ => 1) z t (fun _ _ => zero_le_one) (by simpa using hpos z)
    simpa using this
  have k1 := mul_le_mul_of_nonneg_left (key x) ha
  have k2 := mul_le_mul_of_nonneg_left (key y) hb
  have e : a * (∑ j, Real.exp (z j) / (∑ k, Real.exp (z k)) * (x j - z j)) +
      b * (∑ j, Real.exp (z j) / (∑ k, Real.exp (z k)) * (y j - z j)) = 0 := by
    rw [Finset.mul_sum, Finset.mul_sum, ← Finset.sum_add_distrib]
    refine Finset.sum_eq_zero fun j _ => ?_
    have : a * (x j - z j) + b * (y j - z j) = 0 := by
      simp only [hz]
      have : b = 1 - a := by linarith
      subst this; ring
    linear_combination (Real.exp (z j) / (∑ k, Real.exp (z k))) * this
  have hl : Real.log (∑ k, Real.exp (z k)) ≤ a * Real.log (∑ k, Real.exp (x k)) + b * Real.log (∑ k, Real.exp (y k)) := by
    have h1 : a * Real.log (∑ k, Real.exp (z k)) + b * Real.log (∑ k, Real.exp (z k)) = Real.log (∑ k, Real.exp (z k)) := by
      rw [← add_mul, hab, one_mul]
    nlinarith [k1, k2, e, h1]
  have hC : 0 ≤ ∑ j, c j := Finset.sum_nonneg fun j _ => hc j
  have hm := mul_le_mul_of_nonneg_left hl hC
  have hlin : ∑ j, c j * z j = a * ∑ j, c j * x j + b * ∑ j, c j * y j := by
    rw [Finset.mul_sum, Finset.mul_sum, ← Finset.sum_add_distrib]
    exact Finset.sum_congr rfl fun j _ => by simp only [hz]; ring
  rw [hlin]
  nlinarith [hm]

/-- extension by the baseline parameter as an affine map -/
private lemma snoc_affine (η : Fin q → ℝ) : (Fin.snoc (α := fun _ => ℝ) η 0 : Fin (q + 1) → ℝ) =
    fun k => ∑ j, (if k = j.castSucc then (1:ℝ) else 0) * η j + 0 := by
  funext k
  refine Fin.lastCases ?_ (fun i => ?_) k
  · rw [Fin.snoc_last, add_zero]
    symm
    refine Finset.sum_eq_zero fun j _ => ?_
    rw [if_neg (Fin.castSucc_lt_last j).ne', zero_mul]
  · simp [Fin.snoc_castSucc]

lemma sum_exp_snoc (η : Fin q → ℝ) : ∑ k, Real.exp ((Fin.snoc (α := fun _ => ℝ) η 0 : Fin (q + 1) → ℝ) k) =
    1 + ∑ j, Real.exp (η j) := by
  rw [Fin.sum_univ_castSucc]; simp; ring

lemma baseline_eq (c : Fin (q + 1) → ℝ) (η : Fin q → ℝ) :
    baselineNll c η = (∑ j, c j) * Real.log (1 + ∑ k, Real.exp (η k)) - ∑ j, c (Fin.castSucc j) * η j := by
  unfold baselineNll
  rw [nll_eq (Nat.succ_pos _), sum_exp_snoc, Fin.sum_univ_castSucc (f := fun j => c j * _)]
  simp

lemma grad_baseline (c : Fin (q + 1) → ℝ) (η : Fin q → ℝ) :
    IsGradientAt (baselineNll c) (fun j => (∑ k, c k) / (1 + ∑ k, Real.exp (η k)) * Real.exp (η j) - c j.castSucc) η := by
  have h := grad_comp_affine (fun (k : Fin (q + 1)) j => if k = j.castSucc then (1:ℝ) else 0) (fun _ => 0) η
    (by rw [← snoc_affine]; exact grad_multinomial (Nat.succ_pos q) c (Fin.snoc (α := fun _ => ℝ) η 0))
  refine grad_congr h ?_ ?_
  · funext y; rw [← snoc_affine]; rfl
  · funext j
    rw [sum_exp_snoc]
    simp

lemma convex_baseline {c : Fin (q + 1) → ℝ} (hc : ∀ j, 0 ≤ c j) : IsConvex (baselineNll c) := by
  intro x y a b ha hb hab
  have h := convex_multinomial (Nat.succ_pos q) hc (Fin.snoc (α := fun _ => ℝ) x 0) (Fin.snoc (α := fun _ => ℝ) y 0) a b ha hb hab
  unfold baselineNll
  convert h using 2
  funext k
  refine Fin.lastCases ?_ (fun i => ?_) k <;> simp

/-- the likelihood of one row -/
noncomputable def rowNll (d : MultiData n q) (i : Fin n) : (Fin q → ℝ) → ℝ :=
  match d with
  | .full c => multinomialNll (c i)
  | .baseline c => baselineNll (c i)

/-- its gradient as computed -/
noncomputable def rowGrad (d : MultiData n q) (i : Fin n) (η : Fin q → ℝ) (j : Fin q) : ℝ :=
  MultiLoss.trials d i / MultiLoss.denom d (fun _ k => Real.exp (η k)) i * Real.exp (η j) - MultiLoss.first d i j

lemma grad_row (hq : 0 < q) (d : MultiData n q) (i : Fin n) (η : Fin q → ℝ) : IsGradientAt (rowNll d i) (rowGrad d i η) η := by
  cases d with
  | full c => exact grad_multinomial hq (c i) η
  | baseline c => exact grad_baseline (c i) η

lemma value_eq (hq : 0 < q) (L : MultiLoss n q) (eta : Fin n → Fin q → ℝ) (cw : Fin n → ℝ) :
    L.value eta cw = L.coef * ∑ i, cw i * rowNll L.data i (eta i) := by
  have key : ∀ i, rowNll L.data i (eta i) = MultiLoss.trials L.data i *
      Real.log (MultiLoss.denom L.data (fun i j => Real.exp (eta i j)) i) - ∑ j, MultiLoss.first L.data i j * eta i j := by
    intro i
    cases L.data with
    | full c => exact nll_eq hq (c i) _
    | baseline c => exact baseline_eq (c i) _
  unfold MultiLoss.value
  dsimp only
  rw [scaleR_eq, ← mul_neg]
  congr 1
  rw [← Finset.sum_sub_distrib, ← Finset.sum_neg_distrib]
  refine Finset.sum_congr rfl fun i _ => ?_
  rw [key i, mul_sub, Finset.mul_sum, neg_sub]
  congr 1
  · ring
  · exact Finset.sum_congr rfl fun j _ => by ring

lemma gradient_eq (L : MultiLoss n q) (eta : Fin n → Fin q → ℝ) (cw : Fin n → ℝ) :
    L.gradient eta cw = fun i j => L.coef * (cw i * rowGrad L.data i (eta i) j) := by
  funext i j
  unfold MultiLoss.gradient
  rw [scaleR_eq]
  unfold rowGrad
  have : MultiLoss.denom L.data (fun i j => Real.exp (eta i j)) i = MultiLoss.denom L.data (fun _ k => Real.exp (eta i k)) i := by
    cases L.data <;> rfl
  rw [this]; ring

lemma clip_id {x : ℝ} (h : |x| ≤ 50) : MultiLoss.clip x = x := by
  rw [abs_le] at h
  unfold MultiLoss.clip
  rw [max_eq_left h.1, min_eq_left h.2]

/-! ## gradients of functions of a matrix -/

/-- coordinate functional -/
noncomputable abbrev pr (i : Fin n) (j : Fin q) : (Fin n → Fin q → ℝ) →L[ℝ] ℝ :=
  (ContinuousLinearMap.proj j : (Fin q → ℝ) →L[ℝ] ℝ).comp (ContinuousLinearMap.proj i : (Fin n → Fin q → ℝ) →L[ℝ] (Fin q → ℝ))

lemma fderiv_pick {f : (Fin m → ℝ) → ℝ} {g : Fin m → ℝ} (A : Fin m → Fin n) (B : Fin m → Fin q) (o : Fin m → ℝ)
    (x : Fin n → Fin q → ℝ) (h : IsGradientAt f g (fun a => x (A a) (B a) - o a)) :
    HasFDerivAt (fun y : Fin n → Fin q → ℝ => f fun a => y (A a) (B a) - o a) (∑ a, g a • pr (A a) (B a)) x := by
  unfold IsGradientAt at h
  have hT : HasFDerivAt (fun y : Fin n → Fin q → ℝ => fun a => y (A a) (B a) - o a)
      (ContinuousLinearMap.pi fun a => pr (A a) (B a)) x := by
    rw [hasFDerivAt_pi]
    intro a
    exact (pr (n := n) (q := q) (A a) (B a)).hasFDerivAt.sub_const (o a)
  have := h.comp x hT
  refine this.congr_fderiv ?_
  ext y
  simp [pr]

/-- a weighted sum of functions of the rows -/
lemma grad2_rows (c : ℝ) (w : Fin n → ℝ) (o : Fin n → Fin q → ℝ) (ell : Fin n → (Fin q → ℝ) → ℝ) (G : Fin n → Fin q → ℝ)
    (x : Fin n → Fin q → ℝ) (h : ∀ i, IsGradientAt (ell i) (G i) (fun j => x i j - o i j)) :
    IsGradientAt2 (fun y => c * ∑ i, w i * ell i fun j => y i j - o i j) (fun i j => c * (w i * G i j)) x := by
  unfold IsGradientAt2
  have h1 : ∀ i ∈ Finset.univ, HasFDerivAt (fun y : Fin n → Fin q → ℝ => w i * ell i fun j => y i j - o i j)
      (w i • ∑ j, G i j • pr i j) x := fun i _ => (fderiv_pick (fun _ => i) (fun j => j) (o i) x (h i)).const_mul (w i)
  have := (HasFDerivAt.fun_sum h1).const_mul c
  refine this.congr_fderiv ?_
  simp only [Finset.smul_sum, smul_smul]

/-- a sum of functions of the columns -/
lemma grad2_cols (c : ℝ) (o : Fin n → Fin q → ℝ) (F : Fin q → (Fin n → ℝ) → ℝ) (G : Fin q → Fin n → ℝ)
    (x : Fin n → Fin q → ℝ) (h : ∀ j, IsGradientAt (F j) (G j) (fun i => x i j - o i j)) :
    IsGradientAt2 (fun y => c * ∑ j, F j fun i => y i j - o i j) (fun i j => c * G j i) x := by
  unfold IsGradientAt2
  have h1 : ∀ j ∈ Finset.univ, HasFDerivAt (fun y : Fin n → Fin q → ℝ => F j fun i => y i j - o i j)
      (∑ i, G j i • pr i j) x := fun j _ => fderiv_pick (fun i => i) (fun _ => j) (fun i => o i j) x (h j)
  have := (HasFDerivAt.fun_sum h1).const_mul c
  refine this.congr_fderiv ?_
  rw [Finset.sum_comm]
  simp only [Finset.smul_sum, smul_smul]

lemma grad2_congr {f f' : (Fin n → Fin q → ℝ) → ℝ} {G x : Fin n → Fin q → ℝ} (h : IsGradientAt2 f G x)
    (e : f' =ᶠ[nhds x] f) : IsGradientAt2 f' G x := HasFDerivAt.congr_of_eventuallyEq h e

/-- composition with `B ↦ X (B - O)` -/
lemma grad2_comp_dot {f : (Fin n → Fin q → ℝ) → ℝ} {G : Fin n → Fin q → ℝ} (X : Fin n → Fin p → ℝ) (o : Option (Fin p → Fin q → ℝ))
    (B : Fin p → Fin q → ℝ) (h : IsGradientAt2 f G (Mglm.dot X (MultiLoss.applyOffset o B))) :
    IsGradientAt2 (fun B => f (Mglm.dot X (MultiLoss.applyOffset o B))) (Mglm.dotT X G) B := by
  unfold IsGradientAt2 at h ⊢
  have hO : HasFDerivAt (fun B : Fin p → Fin q → ℝ => MultiLoss.applyOffset o B)
      (ContinuousLinearMap.id ℝ (Fin p → Fin q → ℝ)) B := by
    cases o with
    | none => exact hasFDerivAt_id B
    | some o => exact (hasFDerivAt_id B).sub_const o
  have hT : HasFDerivAt (fun B : Fin p → Fin q → ℝ => Mglm.dot X (MultiLoss.applyOffset o B))
      (ContinuousLinearMap.pi fun i => ContinuousLinearMap.pi fun j => ∑ k, X i k • pr k j) B := by
    rw [hasFDerivAt_pi]
    intro i
    rw [hasFDerivAt_pi]
    intro j
    have h1 : ∀ k ∈ Finset.univ, HasFDerivAt (fun B : Fin p → Fin q → ℝ => X i k * MultiLoss.applyOffset o B k j)
        (X i k • pr k j) B := fun k _ => by
      have := ((pr (n := p) (q := q) k j).hasFDerivAt.comp B hO).const_mul (X i k)
      exact this
    exact HasFDerivAt.fun_sum h1
  have := h.comp B hT
  refine this.congr_fderiv ?_
  ext y
  simp only [Mglm.dotT, ContinuousLinearMap.comp_apply, sum_apply, smul_apply,
    ContinuousLinearMap.proj_apply, ContinuousLinearMap.pi_apply, smul_eq_mul]
  simp only [Finset.mul_sum, Finset.sum_mul]
  have e : ∀ i, ∑ j, ∑ k, G i j * (X i k * y k j) = ∑ k, ∑ j, G i j * (X i k * y k j) := fun i => Finset.sum_comm
  simp only [e]
  rw [Finset.sum_comm]
  refine Finset.sum_congr rfl fun k _ => ?_
  rw [Finset.sum_comm]
  exact Finset.sum_congr rfl fun j _ => Finset.sum_congr rfl fun i _ => by ring

end Verif.Lemmas
