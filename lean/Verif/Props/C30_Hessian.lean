import Verif.Lemmas.Losses
import Mathlib.Tactic.FinCases

/-!
# C30: `hessian` is the derivative of 'grad' for the gaussian, poisson and logistic losses and for `glm`
(Cox: `C30_cox_...` in `C51_Cox.lean`.)
-/

set_option linter.unusedSectionVars false
set_option linter.unusedVariables false

namespace Verif.Props
open Verif.Model Verif.Spec Verif.Lemmas

variable {n p : ℕ}

private lemma jac_of (c : ℝ) (w o : Fin n → ℝ) (ps : Fin n → ℝ → ℝ) (d x : Fin n → ℝ)
    (h : ∀ i, HasDerivAt (ps i) (d i) (x i - o i)) :
    IsJacobianAt (fun x i => c * (w i * ps i (x i - o i))) (diagMat fun i => c * (w i * d i)) x := by
  intro i
  have h1 := grad_totalLoss c (fun j => if i = j then w i else 0) o ps d x h
  refine grad_congr h1 ?_ ?_
  · funext y; simp [totalLoss]
  · funext j
    by_cases hij : i = j
    · subst hij; simp [diagMat]
    · simp [diagMat, hij]

/-- **C30** gaussian_loglike.hessian returns the diagonal of the derivative of the returned gradient at every point, for
all offsets and weights. -/
theorem C30_gaussian (L : Loss n) (y : Fin n → ℝ) (hL : L.data = .gaussian y) (arg : Option (Fin n → ℝ)) (x : Fin n → ℝ) :
    ∃ F G h, Evaluates (fun x m => (L.smoothObjective x m arg).1) F G ∧ (L.hessian x arg).1 = .diag h ∧
      IsJacobianAt G (diagMat h) x := by
  refine ⟨_, _, fun i => L.coef * (Loss.cw L.caseWeights arg i * 1), evaluates_loss L arg, ?_, ?_⟩
  · simp only [Loss.hessian, hL, scaleV_eq, one_mul, mul_one]
  · refine jac_of _ _ _ _ _ x fun i => ?_
    rw [hL]
    exact (hasDerivAt_id _).sub_const (y i)

/-- **C30** poisson_loglike.hessian, without an offset.  Missing: with an offset, which `hessian` does not apply, it is
false (`C30_offset_fails`). -/
theorem C30_poisson_partial (L : Loss n) (c : Fin n → ℝ) (hL : L.data = .poisson c) (ho : L.offset = none)
    (arg : Option (Fin n → ℝ)) (x : Fin n → ℝ) :
    ∃ F G h, Evaluates (fun x m => (L.smoothObjective x m arg).1) F G ∧ (L.hessian x arg).1 = .diag h ∧
      IsJacobianAt G (diagMat h) x := by
  refine ⟨_, _, fun i => L.coef * (Loss.cw L.caseWeights arg i * Real.exp (x i - offV L.offset i)), evaluates_loss L arg, ?_, ?_⟩
  · simp only [Loss.hessian, hL, scaleV_eq, ho, offV, sub_zero]
  · refine jac_of _ _ _ _ _ x fun i => ?_
    rw [hL]
    exact (Real.hasDerivAt_exp _).sub_const (c i)

private lemma hasDerivAt_sigmoid (x : ℝ) :
    HasDerivAt (fun t => Real.exp t / (1 + Real.exp t)) (Real.exp x / (1 + Real.exp x) ^ 2) x := by
  have h1 : HasDerivAt (fun t => 1 + Real.exp t) (Real.exp x) x := (Real.hasDerivAt_exp x).const_add 1
  refine ((Real.hasDerivAt_exp x).div h1 (by positivity)).congr_deriv ?_
  congr 1; ring

private lemma hasDerivAt_ratio1 {x : ℝ} (hx : x < 100) :
    HasDerivAt Loss.ratio1 (Real.exp x / (1 + Real.exp x) ^ 2) x := by
  refine (hasDerivAt_sigmoid x).congr_of_eventuallyEq ?_
  filter_upwards [Iio_mem_nhds hx] with t ht
  simp only [Loss.ratio1, if_pos (le_of_lt (Set.mem_Iio.mp ht))]

/-- **C30** logistic_loglike.hessian, without an offset and with every linear predictor below 100.  Missing: with an
offset (`C30_offset_fails`) and with predictors above 100 (`C30_logistic_fails`) it is false. -/
theorem C30_logistic_partial (L : Loss n) (s m : Fin n → ℝ) (hL : L.data = .logistic s m) (ho : L.offset = none)
    (arg : Option (Fin n → ℝ)) (x : Fin n → ℝ) (hx : ∀ i, x i < 100) :
    ∃ F G h, Evaluates (fun x m => (L.smoothObjective x m arg).1) F G ∧ (L.hessian x arg).1 = .diag h ∧
      IsJacobianAt G (diagMat h) x := by
  refine ⟨_, _, fun i => L.coef * (Loss.cw L.caseWeights arg i *
    (m i * (Real.exp (x i - offV L.offset i) / (1 + Real.exp (x i - offV L.offset i)) ^ 2))), evaluates_loss L arg, ?_, ?_⟩
  · have hno : ¬ ∃ j, x j > 100 := by rintro ⟨j, hj⟩; exact absurd hj (not_lt.mpr (hx j).le)
    simp only [Loss.hessian, hL, scaleV_eq, ho, offV, sub_zero, Loss.hessExp, if_neg hno]
    congr 1; funext i; ring
  · refine jac_of _ _ _ _ _ x fun i => ?_
    rw [hL]
    have hx' : x i - offV L.offset i < 100 := by simpa [ho, offV] using hx i
    exact ((hasDerivAt_ratio1 hx').const_mul (m i)).sub_const (s i)

/-- the hypotheses are met -/
example : ∃ L : Loss 2, L.data = .logistic ![1, 0] ![2, 1] ∧ L.offset = none ∧ ∀ i, (![3, -1] : Fin 2 → ℝ) i < 100 :=
  ⟨⟨.logistic ![1, 0] ![2, 1], 2, none, Quad.init none none none none, some ![1, 2]⟩, rfl, rfl, by
    intro i; fin_cases i <;> norm_num⟩

private lemma eval_unique {ev : Objective n} {f f' : (Fin n → ℝ) → ℝ} {g g' : (Fin n → ℝ) → Fin n → ℝ}
    (h : Evaluates ev f g) (h' : Evaluates ev f' g') : g = g' := by
  funext x; have h1 := (h x).2.1; rw [(h' x).2.1] at h1; injection h1 with h1; exact h1.symm

private lemma jac_unique {g : (Fin n → ℝ) → Fin n → ℝ} {h h' : Fin n → ℝ} {x : Fin n → ℝ}
    (h1 : IsJacobianAt g (diagMat h) x) (h2 : IsJacobianAt g (diagMat h') x) : h = h' := by
  funext i
  have := HasFDerivAt.unique (h1 i) (h2 i)
  have := congrArg (fun L : (Fin n → ℝ) →L[ℝ] ℝ => L (Pi.single i 1)) this
  simpa [diagMat, Pi.single_apply] using this

/-- **C30** fails with an offset: the poisson and logistic Hessians are evaluated at the wrong point. -/
theorem C30_offset_fails :
    (∃ (L : Loss 1) (x : Fin 1 → ℝ), L.data = .poisson (fun _ => 1) ∧ ¬ ∃ F G h,
      Evaluates (fun x m => (L.smoothObjective x m none).1) F G ∧ (L.hessian x none).1 = .diag h ∧
      IsJacobianAt G (diagMat h) x) ∧
    (∃ (L : Loss 1) (x : Fin 1 → ℝ), L.data = .logistic (fun _ => 1) (fun _ => 1) ∧ ¬ ∃ F G h,
      Evaluates (fun x m => (L.smoothObjective x m none).1) F G ∧ (L.hessian x none).1 = .diag h ∧
      IsJacobianAt G (diagMat h) x) := by
  constructor
  · let L : Loss 1 := ⟨.poisson fun _ => 1, 1, some fun _ => 1, Quad.init none none none none, none⟩
    refine ⟨L, fun _ => 0, rfl, ?_⟩
    rintro ⟨F, G, h, hE, hh, hJ⟩
    rw [eval_unique hE (evaluates_loss L none)] at hJ
    have hT := jac_of L.coef (Loss.cw L.caseWeights none) (offV L.offset) (psi L.data) (fun i => Real.exp (0 - 1))
      (fun _ => 0) (fun i => by
        exact (Real.hasDerivAt_exp _).sub_const (1:ℝ))
    have he := congrFun (jac_unique hJ hT) 0
    have hh' : h = fun _ => 1 := by
      simp only [Loss.hessian, L, scaleV_eq, Loss.cw] at hh
      injection hh with hh
      rw [← hh]; funext i; simp
    rw [hh'] at he
    simp [L, Loss.cw] at he
    have h1 := Real.exp_eq_one_iff (-1) |>.mp he.symm
    norm_num at h1
  · let L : Loss 1 := ⟨.logistic (fun _ => 1) (fun _ => 1), 1, some fun _ => 1, Quad.init none none none none, none⟩
    refine ⟨L, fun _ => 0, rfl, ?_⟩
    rintro ⟨F, G, h, hE, hh, hJ⟩
    rw [eval_unique hE (evaluates_loss L none)] at hJ
    have hT := jac_of L.coef (Loss.cw L.caseWeights none) (offV L.offset) (psi L.data)
      (fun i => 1 * (Real.exp (0 - 1) / (1 + Real.exp (0 - 1)) ^ 2))
      (fun _ => 0) (fun i => by
        exact ((hasDerivAt_ratio1 (show (0:ℝ) - 1 < 100 by norm_num)).const_mul (1:ℝ)).sub_const (1:ℝ))
    have he := congrFun (jac_unique hJ hT) 0
    have hno : ¬ ∃ j : Fin 1, (0:ℝ) > 100 := by rintro ⟨_, h⟩; norm_num at h
    have hh' : h = fun _ => 1 / 4 := by
      simp only [Loss.hessian, L, scaleV_eq, Loss.cw, Loss.hessExp, if_neg hno] at hh
      injection hh with hh
      rw [← hh]; funext i; simp; norm_num
    rw [hh'] at he
    simp [L, Loss.cw] at he
    have hp := Real.exp_pos (-1)
    rw [inv_eq_one_div, div_eq_div_iff (by norm_num) (by positivity)] at he
    have hsq : (1 - Real.exp (-1)) ^ 2 = 0 := by nlinarith
    have h1 : Real.exp (-1) = 1 := by nlinarith [pow_eq_zero_iff (n := 2) (by norm_num) |>.mp hsq]
    rw [Real.exp_eq_one_iff] at h1
    norm_num at h1

/-- **C30** fails for logistic_loglike when one predictor exceeds 100: at `x = (0, 0, 200)` the middle entry is computed
from `exp(100)` because the integer index array is negated bitwise (binary.py 170). -/
theorem C30_logistic_fails : ∃ (L : Loss 3) (x : Fin 3 → ℝ), L.data = .logistic (fun _ => 1) (fun _ => 1) ∧
    L.offset = none ∧ L.caseWeights = none ∧ (∀ i, x i ≠ 100) ∧ ¬ ∃ F G h,
      Evaluates (fun x m => (L.smoothObjective x m none).1) F G ∧ (L.hessian x none).1 = .diag h ∧
      IsJacobianAt G (diagMat h) x := by
  let L : Loss 3 := ⟨.logistic (fun _ => 1) (fun _ => 1), 1, none, Quad.init none none none none, none⟩
  refine ⟨L, ![0, 0, 200], rfl, rfl, rfl, ?_, ?_⟩
  · intro i; fin_cases i <;> norm_num
  rintro ⟨F, G, h, hE, hh, hJ⟩
  rw [eval_unique hE (evaluates_loss L none)] at hJ
  -- gradient of the middle component of 'grad'
  have h1 := hJ 1
  have h2 : IsGradientAt (fun y : Fin 3 → ℝ => L.coef * (Loss.cw L.caseWeights none 1 * psi L.data 1 (y 1 - offV L.offset 1)))
      (fun j => if (1 : Fin 3) = j then 1 / 4 else 0) ![0, 0, 200] := by
    have := isGradientAt_sum (n := 3) (fun i t => if (1 : Fin 3) = i then (1 * Loss.ratio1 t - 1) else 0)
      (fun j => if (1 : Fin 3) = j then 1 / 4 else 0) ![0, 0, 200] (fun i => by
        by_cases hi : (1 : Fin 3) = i
        · subst hi
          simp only [if_true]
          have := (((hasDerivAt_ratio1 (show (0:ℝ) < 100 by norm_num)).const_mul (1:ℝ)).sub_const (1:ℝ))
          refine this.congr_deriv ?_
          simp; norm_num
        · simp only [if_neg hi]
          exact hasDerivAt_const _ _)
    refine grad_congr this ?_ rfl
    funext y
    simp [L, psi, offV, Loss.cw]
  have hu := congrArg (fun T : (Fin 3 → ℝ) →L[ℝ] ℝ => T (Pi.single 1 1)) (HasFDerivAt.unique h1 h2)
  simp [diagMat] at hu
  have hov : ∃ j : Fin 3, (![0, 0, 200] : Fin 3 → ℝ) j > 100 := ⟨2, by simp; norm_num⟩
  have hrev : ∃ j : Fin 3, (![0, 0, 200] : Fin 3 → ℝ) j ≤ 100 ∧ (1 : Fin 3) = Fin.rev j := ⟨1, by norm_num, by decide⟩
  have hh1 : h 1 = Real.exp 100 / (1 + Real.exp 100) ^ 2 := by
    simp only [Loss.hessian, L, scaleV_eq, Loss.cw] at hh
    injection hh with hh
    rw [← hh]
    simp only [Loss.hessExp, if_pos hov, if_pos hrev]
    ring
  rw [hh1] at hu
  have hp := Real.exp_pos 100
  rw [inv_eq_one_div, div_eq_div_iff (by positivity) (by norm_num)] at hu
  have hsq : (1 - Real.exp 100) ^ 2 = 0 := by nlinarith
  have h1 : Real.exp 100 = 1 := by nlinarith [pow_eq_zero_iff (n := 2) (by norm_num) |>.mp hsq]
  rw [Real.exp_eq_one_iff] at h1
  norm_num at h1

/-! ## glm -/

private lemma dot_eq (X : Fin n → Fin p → ℝ) (β : Fin p → ℝ) :
    Glm.dot X β = fun i => ∑ j, X i j * β j + (fun _ : Fin n => (0:ℝ)) i := by
  funext i; simp [Glm.dot]

/-- **C30** `glm.hessian(β)` is the derivative of `glm`'s gradient when neither the glm nor the loss has an offset and
the loss' own Hessian is the derivative of its gradient at `Xβ`.  Missing: offsets, which `glm.hessian` does not apply. -/
theorem C30_glm_partial (G : Glm p n) (ho : G.offset = none) (β : Fin p → ℝ) (F : (Fin n → ℝ) → ℝ)
    (g : (Fin n → ℝ) → Fin n → ℝ) (h : Fin n → ℝ)
    (hE : Evaluates (fun x m => (G.loss.smoothObjective x m (some G.caseWeights)).1) F g)
    (hh : (G.loss.hessian (Glm.dot G.X β) (some G.caseWeights)).1 = .diag h)
    (hJ : IsJacobianAt g (diagMat h) (Glm.dot G.X β)) :
    ∃ F' g' H, Evaluates (fun b m => (G.smoothObjective b m).1) F' g' ∧ (G.hessian β).1 = .mat H ∧
      IsJacobianAt g' H β := by
  refine ⟨fun b => F (Glm.dot G.X b), fun b => Glm.dotT G.X (g (Glm.dot G.X b)),
    fun j k => ∑ i, G.X i j * (h i * G.X i k), ?_, ?_, ?_⟩
  · intro b
    obtain ⟨h1, h2, h3⟩ := hE (Glm.dot G.X b)
    dsimp only at h1 h2 h3
    simp only [Glm.smoothObjective, ho, Smooth.applyOffset, h1, h2, h3, and_self]
  · simp only [Glm.hessian, hh]
  · intro j
    -- gradient of `b ↦ ∑ᵢ X i j * gᵢ(X b)`
    have h1 : ∀ i, IsGradientAt (fun b : Fin p → ℝ => g (Glm.dot G.X b) i) (fun k => h i * G.X i k) β := by
      intro i
      have h2 := hJ i
      rw [dot_eq] at h2
      refine grad_congr (grad_comp_affine _ _ β h2) ?_ ?_
      · funext b; rw [dot_eq]
      · funext k; simp [diagMat, mul_comm]
    have h2 : ∀ s : Finset (Fin n), IsGradientAt (fun b : Fin p → ℝ => ∑ i ∈ s, G.X i j * g (Glm.dot G.X b) i)
        (fun k => ∑ i ∈ s, G.X i j * (h i * G.X i k)) β := by
      intro s
      classical
      induction s using Finset.induction_on with
      | empty => simpa using isGradientAt_const 0 β
      | insert a s ha ih =>
        simp only [Finset.sum_insert ha]
        exact grad_add (grad_smul (h1 a) _) ih
    exact h2 Finset.univ

end Verif.Props
