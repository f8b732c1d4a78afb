import Verif.Lemmas.Cox
import Mathlib.Tactic.FinCases
import Mathlib.Data.Fin.Tuple.Sort

/-!
# C51: the Cox loops compute the partial likelihood, its gradient and its Hessian, for every tie pattern
and the Cox parts of C28 (gradient), C29 (convexity), C30 (Hessian), C31 (no side effects), C32 (copy, subsample)
-/

set_option linter.unusedSectionVars false
set_option linter.unusedVariables false

namespace Verif.Props
open Verif.Model Verif.Spec Verif.Lemmas
open scoped Classical

variable {n : ℕ}

/-- A Cox loss some sequence of constructor (with any sorting permutation), evaluations, Hessians, copies and
subsamples produces. -/
inductive ReachableCox {n : ℕ} : CoxLoss n → Prop
  | init {T c coef o w σ L} : IsArgsort T σ → CoxLoss.init T c coef o w σ = some L → ReachableCox L
  | call {L op} : ReachableCox L → ReachableCox (L.run [op])
  | copy {L σ C} : ReachableCox L → IsArgsort L.T σ → L.copy σ = some C → ReachableCox C
  | subsample {L σ C idx} : ReachableCox L → IsArgsort L.T σ → L.subsample idx σ = some C → ReachableCox C

/-- `smooth_objective` returns the numbers `f x` and `g x` (no nan) in the modes asked for, at every `x` -/
def CoxEvaluates {n : ℕ} (L : CoxLoss n) (arg : Option (Fin n → ℝ)) (f : (Fin n → ℝ) → ℝ) (g : (Fin n → ℝ) → Fin n → ℝ) : Prop :=
  ∀ x, (L.smoothObjective x .func arg).1 = .val (some (f x)) ∧
    (∃ b, (L.smoothObjective x .grad arg).1 = .grad (fun i => some (g x i)) b) ∧
    ∃ b, (L.smoothObjective x .both arg).1 = .both (some (f x)) (fun i => some (g x i)) b

private def Inv (L : CoxLoss n) : Prop := CoxOk L ∧ 0 ≤ L.coef ∧ ∀ i, 0 ≤ L.caseWeights i

private lemma init_eq {T : Fin n → ℝ} {c : Fin n → ℕ} {coef : ℝ} {o w : Option (Fin n → ℝ)} {σ : Equiv.Perm (Fin n)} {L : CoxLoss n}
    (h : CoxLoss.init T c coef o w σ = some L) : 0 ≤ coef ∧ ∃ W : Fin n → ℝ, (∀ i, 0 ≤ W i) ∧ (W = fun i => w.elim 1 fun w => w i) ∧
      L = ⟨T, c, σ, Cox.rankmin T, Cox.rankmax T, coef, o, W, Cox.zeroBuffers n⟩ := by
  by_cases hc : coef < 0
  · simp [CoxLoss.init, Smooth.atomInit, hc] at h
  refine ⟨not_lt.mp hc, ?_⟩
  cases w with
  | none =>
    simp only [CoxLoss.init, Smooth.atomInit, if_neg hc] at h
    rw [if_neg (by simp)] at h
    injection h with h
    exact ⟨fun _ => 1, fun _ => zero_le_one, rfl, h.symm⟩
  | some W =>
    by_cases hw : ∀ i, 0 ≤ W i
    · simp only [CoxLoss.init, Smooth.atomInit, if_neg hc, if_neg (not_not.mpr hw)] at h
      injection h with h
      exact ⟨W, hw, rfl, h.symm⟩
    · simp only [CoxLoss.init, Smooth.atomInit, if_neg hc, if_pos hw] at h
      cases h

private lemma init_some (T : Fin n → ℝ) (c : Fin n → ℕ) {coef : ℝ} (hc : 0 ≤ coef) (o : Option (Fin n → ℝ)) {w : Fin n → ℝ}
    (hw : ∀ i, 0 ≤ w i) (σ : Equiv.Perm (Fin n)) : CoxLoss.init T c coef o (some w) σ =
      some ⟨T, c, σ, Cox.rankmin T, Cox.rankmax T, coef, o, w, Cox.zeroBuffers n⟩ := by
  simp only [CoxLoss.init, Smooth.atomInit, if_neg (not_lt.mpr hc), if_neg (not_not.mpr hw)]

private lemma call_same (L : CoxLoss n) (op : CoxLoss.Op n) : ∃ b, L.run [op] = { L with buf := b } := by
  cases op with
  | smooth x m arg => cases m <;> exact ⟨_, rfl⟩
  | hess x r arg => exact ⟨_, rfl⟩

private lemma run_same (L : CoxLoss n) (ops : List (CoxLoss.Op n)) : ∃ b, L.run ops = { L with buf := b } := by
  induction ops generalizing L with
  | nil => exact ⟨L.buf, rfl⟩
  | cons op ops ih =>
    obtain ⟨b, hb⟩ := call_same L op
    have h : L.run (op :: ops) = (L.run [op]).run ops := by cases op <;> rfl
    rw [h, hb]
    obtain ⟨b', hb'⟩ := ih { L with buf := b }
    exact ⟨b', hb'⟩

private lemma inv_buf {L : CoxLoss n} (h : Inv L) (b : Cox.Buffers n) : Inv { L with buf := b } := h

private lemma inv_of {L : CoxLoss n} (h : ReachableCox L) : Inv L := by
  induction h with
  | @init T c coef o w σ L hσ h =>
    obtain ⟨h1, W, h2, _, h3⟩ := init_eq h
    subst h3
    exact ⟨⟨σ, hσ, rfl, rfl, rfl⟩, h1, h2⟩
  | @call L op hL ih =>
    obtain ⟨b, hb⟩ := call_same L op
    rw [hb]; exact inv_buf ih b
  | @copy L σ C hL hσ h ih =>
    obtain ⟨h1, W, h2, _, h3⟩ := init_eq h
    subst h3
    exact ⟨⟨σ, hσ, rfl, rfl, rfl⟩, h1, h2⟩
  | @subsample L σ C idx hL hσ h ih =>
    unfold CoxLoss.subsample CoxLoss.copy at h
    rw [init_some _ _ ih.2.1 _ ih.2.2] at h
    injection h with h
    subst h
    refine ⟨⟨σ, hσ, rfl, rfl, rfl⟩, ih.2.1, ?_⟩
    intro i
    simp only
    split_ifs <;> simp [ih.2.2 i]

private lemma cw_eq (L : CoxLoss n) (arg : Option (Fin n → ℝ)) : L.cw arg = effWeight (some L.caseWeights) arg := by
  funext i; cases arg <;> simp [CoxLoss.cw, effWeight]

private lemma off_eq (o : Option (Fin n → ℝ)) (x : Fin n → ℝ) : Smooth.applyOffset o x = fun i => x i - effOffset o i := by
  funext i; cases o <;> simp [Smooth.applyOffset, effOffset]

private lemma scaleF_some (c f : ℝ) : CoxLoss.scaleF c (some f) = some (c * f) := by
  unfold CoxLoss.scaleF
  split_ifs with h
  · simp [mul_comm]
  · simp [not_not.mp h]

private lemma smooth_eq {L : CoxLoss n} (h : CoxOk L) (x : Fin n → ℝ) (arg : Option (Fin n → ℝ)) :
    (L.smoothObjective x .func arg).1 = .val (CoxLoss.scaleF L.coef (coxF L.T L.cens (L.cw arg) (Smooth.applyOffset L.offset x))) ∧
    (L.smoothObjective x .grad arg).1 = .grad (fun i => CoxLoss.scaleF L.coef (coxG L.T L.cens (L.cw arg) (Smooth.applyOffset L.offset x) i))
      (decide (L.coef = 1)) ∧
    (L.smoothObjective x .both arg).1 = .both (CoxLoss.scaleF L.coef (coxF L.T L.cens (L.cw arg) (Smooth.applyOffset L.offset x)))
      (fun i => CoxLoss.scaleF L.coef (coxG L.T L.cens (L.cw arg) (Smooth.applyOffset L.offset x) i)) (decide (L.coef = 1)) := by
  refine ⟨?_, ?_, ?_⟩
  · simp only [CoxLoss.smoothObjective, (objCall_eq h _ _ _).1]
  · simp only [CoxLoss.smoothObjective, gradCall_eq h]
  · simp only [CoxLoss.smoothObjective, (objCall_eq h _ _ _).1, (objCall_eq h _ _ _).2, gradCall_eq h]

private lemma risk_pos {T w : Fin n → ℝ} (hw : ∀ i, 0 ≤ w i) (hr : RiskPositive T w) (η : Fin n → ℝ) (i : Fin n) :
    0 < riskTotal T w η i := by
  obtain ⟨j, hj, hjw⟩ := hr i
  unfold riskTotal
  refine Finset.sum_pos' (fun k _ => mul_nonneg (hw k) (Real.exp_pos _).le) ⟨j, by simp [hj], mul_pos hjw (Real.exp_pos _)⟩

private lemma coxF_some {T w : Fin n → ℝ} (c : Fin n → ℕ) (hw : ∀ i, 0 ≤ w i) (hr : RiskPositive T w) (η : Fin n → ℝ) :
    coxF T c w η = some (coxNll T c w η) := by
  unfold coxF coxNll
  refine flSum_some _ fun i _ => ?_
  unfold Fl.mulLogSub
  rw [if_neg (risk_pos hw hr η i).ne']

/-- the gradient the loops compute -/
private noncomputable def gr (T : Fin n → ℝ) (c : Fin n → ℕ) (w η : Fin n → ℝ) (i : Fin n) : ℝ :=
  (∑ j with T j ≤ T i, c j * w j / riskTotal T w η j) * (Real.exp (η i) * w i) - c i * w i

private lemma coxG_some {T w : Fin n → ℝ} (c : Fin n → ℕ) (hw : ∀ i, 0 ≤ w i) (hr : RiskPositive T w) (η : Fin n → ℝ) (i : Fin n) :
    coxG T c w η i = some (gr T c w η i) := by
  unfold coxG gr
  rw [flSum_some (fun j => c j * w j / riskTotal T w η j) fun j _ => by
    unfold Fl.div; rw [if_neg (risk_pos hw hr η j).ne']]
  rfl

/-! ## calculus -/

private lemma grad_finsum {ι : Type} (s : Finset ι) (f : ι → (Fin n → ℝ) → ℝ) (g : ι → Fin n → ℝ) (x : Fin n → ℝ)
    (h : ∀ i ∈ s, IsGradientAt (f i) (g i) x) :
    IsGradientAt (fun y => ∑ i ∈ s, f i y) (fun k => ∑ i ∈ s, g i k) x := by
  induction s using Finset.induction_on with
  | empty => simpa using isGradientAt_const 0 x
  | insert a s ha ih =>
    simp only [Finset.sum_insert ha]
    exact grad_add (h a (Finset.mem_insert_self _ _)) (ih fun i hi => h i (Finset.mem_insert_of_mem hi))

private lemma grad_comp1 {f : (Fin n → ℝ) → ℝ} {g x : Fin n → ℝ} {φ : ℝ → ℝ} {d : ℝ} (h : IsGradientAt f g x)
    (hφ : HasDerivAt φ d (f x)) : IsGradientAt (fun y => φ (f y)) (fun k => d * g k) x := by
  unfold IsGradientAt at *
  have := hφ.comp_hasFDerivAt x h
  refine this.congr_fderiv ?_
  rw [Finset.smul_sum]
  exact Finset.sum_congr rfl fun i _ => by rw [smul_smul]

private lemma grad_mul {f f' : (Fin n → ℝ) → ℝ} {g g' x : Fin n → ℝ} (h : IsGradientAt f g x) (h' : IsGradientAt f' g' x) :
    IsGradientAt (fun y => f y * f' y) (fun k => f x * g' k + f' x * g k) x := by
  unfold IsGradientAt at *
  have := h.fun_mul h'
  refine this.congr_fderiv ?_
  rw [Finset.smul_sum, Finset.smul_sum, ← Finset.sum_add_distrib]
  exact Finset.sum_congr rfl fun i _ => by rw [smul_smul, smul_smul, ← add_smul]

private lemma grad_coord (i : Fin n) (x : Fin n → ℝ) : IsGradientAt (fun y => y i) (fun k => if i = k then 1 else 0) x := by
  have := isGradientAt_sum (fun k t => if i = k then t else 0) (fun k => if i = k then 1 else 0) x (fun k => by
    by_cases h : i = k
    · simp only [if_pos h]; exact hasDerivAt_id _
    · simp only [if_neg h]; exact hasDerivAt_const _ _)
  refine grad_congr this ?_ rfl
  funext y; simp

private lemma grad_risk (T w : Fin n → ℝ) (i : Fin n) (η : Fin n → ℝ) :
    IsGradientAt (fun η => riskTotal T w η i) (fun k => if T i ≤ T k then w k * Real.exp (η k) else 0) η := by
  have := isGradientAt_sum (fun k t => if T i ≤ T k then w k * Real.exp t else 0)
    (fun k => if T i ≤ T k then w k * Real.exp (η k) else 0) η (fun k => by
      by_cases h : T i ≤ T k
      · simp only [if_pos h]; exact (Real.hasDerivAt_exp _).const_mul _
      · simp only [if_neg h]; exact hasDerivAt_const _ _)
  refine grad_congr this ?_ rfl
  funext y; unfold riskTotal; rw [Finset.sum_filter]

private lemma grad_nll {T w : Fin n → ℝ} (c : Fin n → ℕ) (hw : ∀ i, 0 ≤ w i) (hr : RiskPositive T w) (η : Fin n → ℝ) :
    IsGradientAt (coxNll T c w) (gr T c w η) η := by
  have h1 : ∀ i, IsGradientAt (fun η => (c i * w i : ℝ) * (Real.log (riskTotal T w η i) - η i))
      (fun k => (c i * w i : ℝ) * ((riskTotal T w η i)⁻¹ * (if T i ≤ T k then w k * Real.exp (η k) else 0)
        + -1 * (if i = k then 1 else 0))) η := by
    intro i
    have ha := grad_comp1 (grad_risk T w i η) (Real.hasDerivAt_log (risk_pos hw hr η i).ne')
    have hb := grad_smul (grad_coord i η) (-1)
    refine grad_congr (grad_smul (grad_add ha hb) (c i * w i)) ?_ rfl
    funext y; ring
  have h2 := grad_finsum Finset.univ _ _ η fun i _ => h1 i
  refine grad_congr h2 rfl ?_
  funext k
  unfold gr
  simp only [mul_add, Finset.sum_add_distrib]
  rw [sub_eq_add_neg]
  congr 1
  · rw [Finset.sum_mul, Finset.sum_filter]
    refine Finset.sum_congr rfl fun j _ => ?_
    split_ifs
    · rw [div_eq_mul_inv]; ring
    · simp
  · simp

/-- the Hessian matrix -/
private noncomputable def he (T : Fin n → ℝ) (c : Fin n → ℕ) (w η : Fin n → ℝ) (i k : Fin n) : ℝ :=
  (∑ j with T j ≤ T i, c j * w j / riskTotal T w η j) * (if i = k then Real.exp (η i) * w i else 0) +
  (Real.exp (η i) * w i) * ∑ j with T j ≤ T i, c j * w j * (-((riskTotal T w η j ^ 2)⁻¹) * (if T j ≤ T k then w k * Real.exp (η k) else 0))

private lemma jac_gr {T w : Fin n → ℝ} (c : Fin n → ℕ) (hw : ∀ i, 0 ≤ w i) (hr : RiskPositive T w) (η : Fin n → ℝ) :
    IsJacobianAt (gr T c w) (he T c w η) η := by
  intro i
  have h1 : ∀ j, IsGradientAt (fun η => (c j * w j : ℝ) / riskTotal T w η j)
      (fun k => c j * w j * (-((riskTotal T w η j ^ 2)⁻¹) * (if T j ≤ T k then w k * Real.exp (η k) else 0))) η := by
    intro j
    have := grad_smul (grad_comp1 (grad_risk T w j η) (hasDerivAt_inv (risk_pos hw hr η j).ne')) (c j * w j)
    refine grad_congr this ?_ rfl
    funext y; rw [div_eq_mul_inv]
  have h2 := grad_finsum (Finset.univ.filter fun j => T j ≤ T i) _ _ η fun j _ => h1 j
  have h3 : IsGradientAt (fun η : Fin n → ℝ => Real.exp (η i) * w i) (fun k => if i = k then Real.exp (η i) * w i else 0) η := by
    have := grad_comp1 (grad_coord i η) ((Real.hasDerivAt_exp (η i)).mul_const (w i))
    refine grad_congr this rfl ?_
    funext k; split_ifs <;> simp
  have h4 := grad_add (grad_mul h2 h3) (isGradientAt_const (-(c i * w i : ℝ)) η)
  refine grad_congr h4 ?_ ?_
  · funext y; unfold gr; ring
  · funext k; unfold he; ring

private lemma coxH_some {T w : Fin n → ℝ} (c : Fin n → ℕ) (hw : ∀ i, 0 ≤ w i) (hr : RiskPositive T w) (η z : Fin n → ℝ) (i : Fin n) :
    coxH T c w η z i = some (∑ k, he T c w η i k * z k) := by
  unfold coxH
  rw [flSum_some (fun j => c j * w j / riskTotal T w η j) fun j _ => by
    unfold Fl.div; rw [if_neg (risk_pos hw hr η j).ne']]
  rw [flSum_some (fun j => c j * w j * (∑ k with T j ≤ T k, z k * (Real.exp (η k) * w k)) / (riskTotal T w η j * riskTotal T w η j))
    fun j _ => by
      unfold Fl.div
      rw [if_neg (mul_pos (risk_pos hw hr η j) (risk_pos hw hr η j)).ne']]
  simp only [Option.bind_some, Option.map_some]
  congr 1
  unfold he
  simp only [add_mul, Finset.sum_add_distrib]
  have e1 : ∑ k, (∑ j with T j ≤ T i, (c j * w j : ℝ) / riskTotal T w η j) * (if i = k then Real.exp (η i) * w i else 0) * z k =
      (∑ j with T j ≤ T i, (c j * w j : ℝ) / riskTotal T w η j) * (Real.exp (η i) * w i) * z i := by
    simp
  have e2 : ∑ k, Real.exp (η i) * w i * (∑ j with T j ≤ T i, c j * w j * (-((riskTotal T w η j ^ 2)⁻¹) *
        (if T j ≤ T k then w k * Real.exp (η k) else 0))) * z k =
      - (Real.exp (η i) * w i * ∑ j with T j ≤ T i, c j * w j * (∑ k with T j ≤ T k, z k * (Real.exp (η k) * w k)) /
        (riskTotal T w η j * riskTotal T w η j)) := by
    rw [← mul_neg, ← Finset.sum_neg_distrib, Finset.mul_sum]
    simp only [Finset.mul_sum, Finset.sum_mul]
    rw [Finset.sum_comm]
    refine Finset.sum_congr rfl fun j _ => ?_
    rw [Finset.sum_filter, Finset.sum_div, ← Finset.sum_neg_distrib, Finset.mul_sum]
    refine Finset.sum_congr rfl fun k _ => ?_
    split_ifs
    · rw [div_eq_mul_inv, pow_two]; ring
    · simp
  rw [e1, e2]
  ring

/-! ## two cases, for the counterexamples -/

private lemma filt0 : (Finset.univ.filter fun j : Fin 2 => (![1, 2] : Fin 2 → ℝ) 0 ≤ ![1, 2] j) = Finset.univ := by
  refine Finset.filter_true_of_mem fun j _ => ?_
  rcases (by omega : j = 0 ∨ j = 1) with h | h <;> rw [h] <;> simp

private lemma filt1 : (Finset.univ.filter fun j : Fin 2 => (![1, 2] : Fin 2 → ℝ) j ≤ ![1, 2] 0) = {0} := by
  ext j
  rw [Finset.mem_filter]
  rcases (by omega : j = 0 ∨ j = 1) with h | h <;> rw [h] <;> simp

private lemma filt2 : (Finset.univ.filter fun j : Fin 2 => (![2, 1] : Fin 2 → ℝ) 0 ≤ ![2, 1] j) = {0} := by
  ext j
  rw [Finset.mem_filter]
  rcases (by omega : j = 0 ∨ j = 1) with h | h <;> rw [h] <;> simp

/-! ## theorems -/

private lemma eff_nonneg {L : CoxLoss n} (h : Inv L) {arg : Option (Fin n → ℝ)} (ha : ∀ a, arg = some a → ∀ i, 0 ≤ a i) (i : Fin n) :
    0 ≤ effWeight (some L.caseWeights) arg i := by
  unfold effWeight
  refine mul_nonneg ?_ (h.2.2 i)
  cases arg with
  | none => simp
  | some a => exact ha a rfl i

/-- **C51** for every reachable Cox loss (any times, ties, sorting permutation, censoring, nonnegative weights, any
evaluation history) in which every risk set has positive weight: the C loops return `coef` times Breslow's negative log
partial likelihood at `x - offset`, and a gradient array; no nan.  Missing: risk sets of weight zero, where they return
nan (`C51_zero_risk_fails`). -/
theorem C51_value_partial (L : CoxLoss n) (hL : ReachableCox L) (arg : Option (Fin n → ℝ)) (ha : ∀ a, arg = some a → ∀ i, 0 ≤ a i)
    (hr : RiskPositive L.T (effWeight (some L.caseWeights) arg)) :
    ∃ g, CoxEvaluates L arg
      (fun x => L.coef * coxNll L.T L.cens (effWeight (some L.caseWeights) arg) fun i => x i - effOffset L.offset i) g ∧
      ∀ x, IsGradientAt
        (fun x => L.coef * coxNll L.T L.cens (effWeight (some L.caseWeights) arg) fun i => x i - effOffset L.offset i) (g x) x := by
  have hI := inv_of hL
  have hw := eff_nonneg hI ha
  refine ⟨fun x i => L.coef * gr L.T L.cens (effWeight (some L.caseWeights) arg) (fun i => x i - effOffset L.offset i) i, ?_, ?_⟩
  · intro x
    obtain ⟨h1, h2, h3⟩ := smooth_eq hI.1 x arg
    simp only [cw_eq, off_eq, coxF_some L.cens hw hr, coxG_some L.cens hw hr, scaleF_some] at h1 h2 h3
    exact ⟨h1, ⟨_, h2⟩, ⟨_, h3⟩⟩
  · intro x
    refine grad_smul ?_ _
    have h := grad_comp_offset L.offset x (f := coxNll L.T L.cens (effWeight (some L.caseWeights) arg))
      (g := gr L.T L.cens (effWeight (some L.caseWeights) arg) (fun i => x i - effOffset L.offset i)) (by
        rw [off_eq]; exact grad_nll L.cens hw hr _)
    refine grad_congr h ?_ rfl
    funext y; rw [off_eq]

/-- the values of `C51_value_partial` with the gradient written out -/
lemma cox_evaluates (L : CoxLoss n) (hL : ReachableCox L) (arg : Option (Fin n → ℝ)) (ha : ∀ a, arg = some a → ∀ i, 0 ≤ a i)
    (hr : RiskPositive L.T (effWeight (some L.caseWeights) arg)) :
    0 ≤ L.coef ∧ (∀ i, 0 ≤ effWeight (some L.caseWeights) arg i) ∧
    CoxEvaluates L arg
      (fun x => L.coef * coxNll L.T L.cens (effWeight (some L.caseWeights) arg) fun i => x i - effOffset L.offset i)
      (fun x i => L.coef * ((∑ j with L.T j ≤ L.T i, L.cens j * effWeight (some L.caseWeights) arg j /
          riskTotal L.T (effWeight (some L.caseWeights) arg) (fun i => x i - effOffset L.offset i) j) *
          (Real.exp (x i - effOffset L.offset i) * effWeight (some L.caseWeights) arg i) -
          L.cens i * effWeight (some L.caseWeights) arg i)) := by
  have hI := inv_of hL
  have hw := eff_nonneg hI ha
  refine ⟨hI.2.1, hw, fun x => ?_⟩
  obtain ⟨h1, h2, h3⟩ := smooth_eq hI.1 x arg
  simp only [cw_eq, off_eq, coxF_some L.cens hw hr, coxG_some L.cens hw hr, scaleF_some] at h1 h2 h3
  exact ⟨h1, ⟨_, h2⟩, ⟨_, h3⟩⟩

/-- **C28** for the Cox loss: the gradient returned is the gradient of the value returned, at every point.  (Partial for
the same reason as `C51_value_partial`.) -/
theorem C28_cox_partial (L : CoxLoss n) (hL : ReachableCox L) (arg : Option (Fin n → ℝ)) (ha : ∀ a, arg = some a → ∀ i, 0 ≤ a i)
    (hr : RiskPositive L.T (effWeight (some L.caseWeights) arg)) :
    ∃ f g, CoxEvaluates L arg f g ∧ ∀ x, IsGradientAt f (g x) x := by
  obtain ⟨g, h1, h2⟩ := C51_value_partial L hL arg ha hr
  exact ⟨_, g, h1, h2⟩

/-- the hypotheses are met: three cases, two tied, one censored, one offset -/
example : ∃ L : CoxLoss 3, ReachableCox L ∧ L.T = ![1, 1, 2] ∧ L.cens = ![1, 0, 1] ∧
    RiskPositive L.T (effWeight (some L.caseWeights) none) := by
  refine ⟨_, .init (σ := Equiv.refl _) ?_ (init_some ![1, 1, 2] ![1, 0, 1] (coef := 1) (by norm_num) (some ![1, 2, 3])
    (w := ![1, 0, 2]) (by intro i; fin_cases i <;> simp) _), rfl, rfl, ?_⟩
  · intro a b hab
    fin_cases a <;> fin_cases b <;> simp at hab ⊢
  · intro i
    refine ⟨2, ?_, ?_⟩
    · fin_cases i <;> simp
    · simp [effWeight]

/-- **C51** the result does not depend on which sorting permutation `argsort` picked among ties, nor on the history:
two losses with the same data evaluate alike in every mode (nan included). -/
theorem C51_order_irrelevant (L L' : CoxLoss n) (hL : ReachableCox L) (hL' : ReachableCox L') (hT : L'.T = L.T)
    (hc : L'.cens = L.cens) (hco : L'.coef = L.coef) (ho : L'.offset = L.offset) (hw : L'.caseWeights = L.caseWeights)
    (x z : Fin n → ℝ) (m : Mode) (arg : Option (Fin n → ℝ)) :
    (L'.smoothObjective x m arg).1 = (L.smoothObjective x m arg).1 ∧
    (L'.hessianMult x z arg).1 = (L.hessianMult x z arg).1 := by
  have h := smooth_eq (inv_of hL).1 x arg
  have h' := smooth_eq (inv_of hL').1 x arg
  have hcw : L'.cw arg = L.cw arg := by rw [cw_eq, cw_eq, hw]
  rw [hT, hc, hco, ho, hcw] at h'
  constructor
  · cases m
    · rw [h.1, h'.1]
    · rw [h.2.1, h'.2.1]
    · rw [h.2.2, h'.2.2]
    · rfl
  · funext i
    rw [hessianMult_eq (inv_of hL).1, hessianMult_eq (inv_of hL').1, hT, hc, ho, hcw]

/-- **C51** fails when some risk set has weight zero, by the weights of the loss or those of the caller: the loops return nan as value,
even if the case itself is censored or has weight zero. -/
theorem C51_zero_risk_fails (L : CoxLoss n) (hL : ReachableCox L) (i : Fin n) (arg : Option (Fin n → ℝ))
    (hi : ∀ j, L.T i ≤ L.T j → effWeight (some L.caseWeights) arg j = 0) (x : Fin n → ℝ) :
    (L.smoothObjective x .func arg).1 = .val none := by
  rw [(smooth_eq (inv_of hL).1 x arg).1]
  have hR : riskTotal L.T (L.cw arg) (Smooth.applyOffset L.offset x) i = 0 := by
    unfold riskTotal
    refine Finset.sum_eq_zero fun j hj => ?_
    rw [cw_eq]
    simp only [Finset.mem_filter, Finset.mem_univ, true_and] at hj
    rw [hi j hj, zero_mul]
  have hN : coxF L.T L.cens (L.cw arg) (Smooth.applyOffset L.offset x) = none := by
    unfold coxF
    refine flSum_none (Finset.mem_univ i) ?_
    unfold Fl.mulLogSub
    rw [if_pos hR]
  rw [hN]
  unfold CoxLoss.scaleF
  split_ifs <;> rfl

/-- **C51** fails after assigning new data through the `data` property: the ordering is stale and the value is not the
partial likelihood of the new data. -/
theorem C51_set_data_fails : ∃ (L : CoxLoss 2) (T : Fin 2 → ℝ) (c : Fin 2 → ℕ) (x : Fin 2 → ℝ), ReachableCox L ∧
    L.coef = 1 ∧ L.offset = none ∧ L.caseWeights = (fun _ => 1) ∧
    ((L.setData T c).smoothObjective x .func none).1 ≠ .val (some (coxNll T c (fun _ => 1) x)) := by
  have hσ : IsArgsort ![1, 2] (Equiv.refl (Fin 2)) := by
    intro a b hab
    fin_cases a <;> fin_cases b <;> simp at hab ⊢
  have hi := init_some ![1, 2] ![1, 0] (coef := 1) (by norm_num) none (w := fun _ => 1) (by intro i; norm_num) (Equiv.refl (Fin 2))
  have hR := ReachableCox.init hσ hi
  refine ⟨_, ![2, 1], ![1, 0], fun _ => 0, hR, rfl, rfl, rfl, ?_⟩
  -- the stale loops give log 2, the new data log 1
  have h1 := (smooth_eq (inv_of hR).1 (fun _ => 0) none).1
  intro h
  have h2 : ((CoxLoss.setData ⟨![1, 2], ![1, 0], (Equiv.refl (Fin 2)), Cox.rankmin ![1, 2], Cox.rankmax ![1, 2], 1, none, fun _ => 1,
      Cox.zeroBuffers 2⟩ ![2, 1] ![1, 0]).smoothObjective (fun _ => 0) .func none).1 =
      (CoxLoss.smoothObjective ⟨![1, 2], ![1, 0], (Equiv.refl (Fin 2)), Cox.rankmin ![1, 2], Cox.rankmax ![1, 2], 1, none, fun _ => 1,
      Cox.zeroBuffers 2⟩ (fun _ => 0) .func none).1 := rfl
  rw [h2, h1] at h
  have hw : ∀ i : Fin 2, (0:ℝ) ≤ (fun _ => 1 : Fin 2 → ℝ) i := fun _ => zero_le_one
  have hcw : (CoxLoss.cw ⟨![1, 2], ![1, 0], (Equiv.refl (Fin 2)), Cox.rankmin ![1, 2], Cox.rankmax ![1, 2], 1, none, fun _ => 1,
      Cox.zeroBuffers 2⟩ none : Fin 2 → ℝ) = fun _ => 1 := by funext i; simp [CoxLoss.cw]
  rw [hcw, coxF_some _ hw (fun i => ⟨i, le_refl _, one_pos⟩), scaleF_some] at h
  injection h with h
  injection h with h
  have f0 := filt0
  have f1 := filt2
  simp only [coxNll, Fin.sum_univ_two, riskTotal, f0, f1] at h
  simp [Smooth.applyOffset] at h
  norm_num at h

/-- **C29** the Cox loss is convex in its argument (for nonnegative weights and risk sets of positive weight; otherwise
it is nan). -/
theorem C29_cox_partial (L : CoxLoss n) (hL : ReachableCox L) (arg : Option (Fin n → ℝ)) (ha : ∀ a, arg = some a → ∀ i, 0 ≤ a i)
    (hr : RiskPositive L.T (effWeight (some L.caseWeights) arg)) :
    ∃ f g, CoxEvaluates L arg f g ∧ IsConvex f := by
  obtain ⟨g, h1, _⟩ := C51_value_partial L hL arg ha hr
  refine ⟨_, g, h1, ?_⟩
  have hI := inv_of hL
  have hw := eff_nonneg hI ha
  set W := effWeight (some L.caseWeights) arg with hW
  intro x y a b ha' hb' hab
  rw [mul_left_comm a, mul_left_comm b, ← mul_add]
  refine mul_le_mul_of_nonneg_left ?_ hI.2.1
  unfold coxNll
  rw [Finset.mul_sum, Finset.mul_sum, ← Finset.sum_add_distrib]
  refine Finset.sum_le_sum fun i _ => ?_
  rw [mul_left_comm a, mul_left_comm b, ← mul_add]
  refine mul_le_mul_of_nonneg_left ?_ (mul_nonneg (Nat.cast_nonneg _) (hw i))
  set o := effOffset L.offset with ho
  have hz : (fun i => a * x i + b * y i - o i) = fun i => a * (x i - o i) + b * (y i - o i) := by
    funext i
    have : b = 1 - a := by linarith
    subst this; ring
  rw [hz]
  set u : Fin n → ℝ := fun i => x i - o i
  set v : Fin n → ℝ := fun i => y i - o i
  set z : Fin n → ℝ := fun i => a * u i + b * v i with hzd
  have key : ∀ t : Fin n → ℝ, Real.log (riskTotal L.T W z i) + ∑ j with L.T i ≤ L.T j,
      W j * Real.exp (z j) / riskTotal L.T W z i * (t j - z j) ≤ Real.log (riskTotal L.T W t i) := fun t =>
    logsumexp_tangent _ W z t (fun j _ => hw j) (risk_pos hw hr z i)
  have k1 := mul_le_mul_of_nonneg_left (key u) ha'
  have k2 := mul_le_mul_of_nonneg_left (key v) hb'
  have e : a * (∑ j with L.T i ≤ L.T j, W j * Real.exp (z j) / riskTotal L.T W z i * (u j - z j)) +
      b * (∑ j with L.T i ≤ L.T j, W j * Real.exp (z j) / riskTotal L.T W z i * (v j - z j)) = 0 := by
    rw [Finset.mul_sum, Finset.mul_sum, ← Finset.sum_add_distrib]
    refine Finset.sum_eq_zero fun j _ => ?_
    have : a * (u j - z j) + b * (v j - z j) = 0 := by
      simp only [hzd]
      have : b = 1 - a := by linarith
      subst this; ring
    linear_combination (W j * Real.exp (z j) / riskTotal L.T W z i) * this
  have hlin : a * Real.log (riskTotal L.T W z i) + b * Real.log (riskTotal L.T W z i) = Real.log (riskTotal L.T W z i) := by
    rw [← add_mul, hab, one_mul]
  show Real.log (riskTotal L.T W z i) - (a * u i + b * v i) ≤ a * (Real.log (riskTotal L.T W u i) - u i) + b * (Real.log (riskTotal L.T W v i) - v i)
  nlinarith [k1, k2, e, hlin]

/-- **C30** `hessian_mult(x, z)` of the Cox loss is the derivative of the returned gradient times `z`, at every point and
for every direction, offsets included, for `coef = 1`.  Missing: other coefficients, which `hessian_mult` ignores
(`C30_cox_coef_fails`), and risk sets of weight zero. -/
theorem C30_cox_partial (L : CoxLoss n) (hL : ReachableCox L) (hc : L.coef = 1) (arg : Option (Fin n → ℝ))
    (ha : ∀ a, arg = some a → ∀ i, 0 ≤ a i) (hr : RiskPositive L.T (effWeight (some L.caseWeights) arg)) (x : Fin n → ℝ) :
    ∃ f g H, CoxEvaluates L arg f g ∧ IsJacobianAt g H x ∧
      ∀ z, (L.hessianMult x z arg).1 = fun i => some (∑ k, H i k * z k) := by
  have hI := inv_of hL
  have hw := eff_nonneg hI ha
  refine ⟨fun x => L.coef * coxNll L.T L.cens (effWeight (some L.caseWeights) arg) fun i => x i - effOffset L.offset i,
    fun x i => gr L.T L.cens (effWeight (some L.caseWeights) arg) (fun i => x i - effOffset L.offset i) i,
    he L.T L.cens (effWeight (some L.caseWeights) arg) (fun i => x i - effOffset L.offset i), ?_, ?_, ?_⟩
  · intro x
    obtain ⟨h1, h2, h3⟩ := smooth_eq hI.1 x arg
    simp only [cw_eq, off_eq, coxF_some L.cens hw hr, coxG_some L.cens hw hr, scaleF_some] at h1 h2 h3
    have e : ∀ i, L.coef * gr L.T L.cens (effWeight (some L.caseWeights) arg) (fun i => x i - effOffset L.offset i) i =
      gr L.T L.cens (effWeight (some L.caseWeights) arg) (fun i => x i - effOffset L.offset i) i := by intro i; rw [hc, one_mul]
    simp only [e] at h2 h3
    exact ⟨h1, ⟨_, h2⟩, ⟨_, h3⟩⟩
  · intro i
    have h := grad_comp_offset L.offset x (f := fun η => gr L.T L.cens (effWeight (some L.caseWeights) arg) η i)
      (g := he L.T L.cens (effWeight (some L.caseWeights) arg) (fun i => x i - effOffset L.offset i) i) (by
        rw [off_eq]; exact jac_gr L.cens hw hr _ i)
    refine grad_congr h ?_ rfl
    funext y; rw [off_eq]
  · intro z
    funext i
    rw [hessianMult_eq hI.1, cw_eq, off_eq, coxH_some L.cens hw hr]

/-- **C30** fails for the Cox loss with `coef = 2`: `hessian_mult` returns half the derivative of the gradient. -/
theorem C30_cox_coef_fails : ∃ (L : CoxLoss 2) (x : Fin 2 → ℝ), ReachableCox L ∧
    RiskPositive L.T (effWeight (some L.caseWeights) none) ∧
    ¬ ∃ f g H, CoxEvaluates L none f g ∧ IsJacobianAt g H x ∧
      ∀ z, (L.hessianMult x z none).1 = fun i => some (∑ k, H i k * z k) := by
  have hσ : IsArgsort ![1, 2] (Equiv.refl (Fin 2)) := by
    intro a b hab
    fin_cases a <;> fin_cases b <;> simp at hab ⊢
  have hi := init_some ![1, 2] ![1, 0] (coef := 2) (by norm_num) none (w := fun _ => 1) (by intro i; norm_num) (Equiv.refl (Fin 2))
  have hR := ReachableCox.init hσ hi
  refine ⟨_, fun _ => 0, hR, fun i => ⟨i, le_refl _, by simp [effWeight]⟩, ?_⟩
  rintro ⟨f, g, H, hE, hJ, hH⟩
  have hw : ∀ i : Fin 2, (0:ℝ) ≤ (fun _ => 1 : Fin 2 → ℝ) i := fun _ => zero_le_one
  have hr : RiskPositive ![1, 2] (fun _ => 1 : Fin 2 → ℝ) := fun i => ⟨i, le_refl _, one_pos⟩
  have hcw : (CoxLoss.cw ⟨![1, 2], ![1, 0], (Equiv.refl (Fin 2)), Cox.rankmin ![1, 2], Cox.rankmax ![1, 2], 2, none, fun _ => 1,
      Cox.zeroBuffers 2⟩ none : Fin 2 → ℝ) = fun _ => 1 := by funext i; simp [CoxLoss.cw]
  have hg : g = fun x i => 2 * gr ![1, 2] ![1, 0] (fun _ => 1) x i := by
    funext x
    obtain ⟨b, h1⟩ := (hE x).2.1
    have h2 := (smooth_eq (inv_of hR).1 x none).2.1
    rw [h2, hcw] at h1
    simp only [coxG_some _ hw hr, scaleF_some] at h1
    injection h1 with h1
    funext i
    have := congrFun h1 i
    simp only [Option.some.injEq] at this
    exact this.symm
  have hj : IsJacobianAt g (fun i k => 2 * he ![1, 2] ![1, 0] (fun _ => 1) (fun _ => 0) i k) (fun _ => 0) := by
    rw [hg]
    intro i
    exact grad_smul (jac_gr _ hw hr _ i) 2
  have hu := congrArg (fun T : (Fin 2 → ℝ) →L[ℝ] ℝ => T (Pi.single 0 1)) (HasFDerivAt.unique (hJ 0) (hj 0))
  simp at hu
  have hm := congrFun (hH (Pi.single 0 1)) 0
  rw [hessianMult_eq (inv_of hR).1, hcw] at hm
  simp only [coxH_some _ hw hr] at hm
  injection hm with hm
  simp [Smooth.applyOffset] at hm
  rw [hu] at hm
  have hzero : he ![1, 2] ![1, 0] (fun _ => 1) (fun _ : Fin 2 => 0) 0 0 = 0 := by linarith
  have f0 := filt0
  have f1 := filt1
  have hrisk : riskTotal ![1, 2] (fun _ => 1) (fun _ : Fin 2 => 0) 0 = 2 := by
    unfold riskTotal; rw [f0]; simp
  unfold he at hzero
  rw [f1] at hzero
  simp [hrisk] at hzero
  norm_num at hzero

/-- **C31** evaluation history is irrelevant for the Cox loss: after any sequence of evaluations and Hessian products,
which all write into the object's work buffers, every result is what it would have been at the start. -/
theorem C31_cox (L : CoxLoss n) (hL : ReachableCox L) (hist : List (CoxLoss.Op n)) (x z : Fin n → ℝ) (m : Mode)
    (arg : Option (Fin n → ℝ)) :
    ((L.run hist).smoothObjective x m arg).1 = (L.smoothObjective x m arg).1 ∧
    ((L.run hist).hessianMult x z arg).1 = (L.hessianMult x z arg).1 := by
  have hR : ∀ (hist : List (CoxLoss.Op n)) (L : CoxLoss n), ReachableCox L → ReachableCox (L.run hist) := by
    intro hist
    induction hist with
    | nil => exact fun L h => h
    | cons op ops ih =>
      intro L h
      have e : L.run (op :: ops) = (L.run [op]).run ops := by cases op <;> rfl
      rw [e]
      exact ih _ (.call h)
  obtain ⟨b, hb⟩ := run_same L hist
  have h := hR hist L hL
  rw [hb] at h ⊢
  exact C51_order_irrelevant L _ hL h rfl rfl rfl rfl rfl x z m arg

/-- the gradient array a caller holds from an earlier evaluation `r`, after a later evaluation left the object as `L'` -/
def heldGradient {n : ℕ} (r : CoxEval n) (L' : CoxLoss n) : Option (Fin n → Fl) :=
  match r with
  | .grad g shared => some (if shared then L'.buf.G else g)
  | .both _ g shared => some (if shared then L'.buf.G else g)
  | _ => none

/-- **C31** fails for a gradient returned by a Cox loss with `coef = 1`: it is the object's buffer, so the next
evaluation overwrites the array the caller holds. -/
theorem C31_cox_alias_fails : ∃ (L : CoxLoss 2) (x y : Fin 2 → ℝ), ReachableCox L ∧
    heldGradient (L.smoothObjective x .grad none).1 (L.smoothObjective x .grad none).2 ≠
    heldGradient (L.smoothObjective x .grad none).1 ((L.smoothObjective x .grad none).2.smoothObjective y .grad none).2 := by
  have hσ : IsArgsort ![1, 2] (Equiv.refl (Fin 2)) := by
    intro a b hab
    fin_cases a <;> fin_cases b <;> simp at hab ⊢
  have hi := init_some ![1, 2] ![1, 0] (coef := 1) (by norm_num) none (w := fun _ => 1) (by intro i; norm_num) (Equiv.refl (Fin 2))
  have hR := ReachableCox.init hσ hi
  refine ⟨_, fun _ => 0, ![Real.log 2, 0], hR, ?_⟩
  set L : CoxLoss 2 := ⟨![1, 2], ![1, 0], (Equiv.refl (Fin 2)), Cox.rankmin ![1, 2], Cox.rankmax ![1, 2], 1, none, fun _ => 1,
      Cox.zeroBuffers 2⟩ with hLd
  have hw : ∀ i : Fin 2, (0:ℝ) ≤ (fun _ => 1 : Fin 2 → ℝ) i := fun _ => zero_le_one
  have hr : RiskPositive ![1, 2] (fun _ => 1 : Fin 2 → ℝ) := fun i => ⟨i, le_refl _, one_pos⟩
  have hcw : ∀ b, ({ L with buf := b } : CoxLoss 2).cw none = fun _ => 1 := by intro b; funext i; simp [CoxLoss.cw, L]
  have hG : ∀ b (x : Fin 2 → ℝ), (({ L with buf := b } : CoxLoss 2).smoothObjective x .grad none).2.buf.G =
      fun i => some (gr ![1, 2] ![1, 0] (fun _ => 1) x i) := by
    intro b x
    funext i
    show (CoxLoss.gradCall _ _ _ _).G i = _
    rw [gradCall_eq (L := { L with buf := b }) (inv_of hR).1, hcw b]
    exact coxG_some _ hw hr _ i
  have h1 : (L.smoothObjective (fun _ => 0) .grad none).1 =
      .grad (fun i => CoxLoss.scaleF 1 ((L.smoothObjective (fun _ => 0) .grad none).2.buf.G i)) true := by
    simp [CoxLoss.smoothObjective, L]
  rw [h1]
  simp only [heldGradient, if_true]
  intro h
  injection h with h
  have h0 := congrFun h 0
  have e1 : (L.smoothObjective (fun _ => 0) .grad none).2.buf.G 0 = some (gr ![1, 2] ![1, 0] (fun _ => 1) (fun _ => 0) 0) :=
    congrFun (hG L.buf fun _ => 0) 0
  have e2 : ((L.smoothObjective (fun _ => 0) .grad none).2.smoothObjective ![Real.log 2, 0] .grad none).2.buf.G 0 =
      some (gr ![1, 2] ![1, 0] (fun _ => 1) ![Real.log 2, 0] 0) :=
    congrFun (hG (L.smoothObjective (fun _ => 0) .grad none).2.buf ![Real.log 2, 0]) 0
  rw [e1, e2] at h0
  injection h0 with h0
  have f0 := filt0
  have f1 := filt1
  have r1 : riskTotal ![1, 2] (fun _ => 1) (fun _ : Fin 2 => 0) 0 = 2 := by unfold riskTotal; rw [f0]; simp
  have r2 : riskTotal ![1, 2] (fun _ => 1) ![Real.log 2, 0] 0 = 3 := by
    unfold riskTotal; rw [f0]; simp [Fin.sum_univ_two, Real.exp_log]; norm_num
  unfold gr at h0
  rw [f1] at h0
  simp [r1, r2, Real.exp_log] at h0
  norm_num at h0

/-- **C32** `copy` of a Cox loss succeeds and evaluates alike everywhere, whatever permutation its new `argsort` picks. -/
theorem C32_cox_copy (L : CoxLoss n) (hL : ReachableCox L) (σ : Equiv.Perm (Fin n)) (hσ : IsArgsort L.T σ) :
    ∃ C, L.copy σ = some C ∧ ∀ x z m arg, (C.smoothObjective x m arg).1 = (L.smoothObjective x m arg).1 ∧
      (C.hessianMult x z arg).1 = (L.hessianMult x z arg).1 := by
  have hI := inv_of hL
  have h := init_some L.T L.cens hI.2.1 L.offset hI.2.2 σ
  exact ⟨_, h, fun x z m arg => C51_order_irrelevant L _ hL (.copy hL hσ h) rfl rfl rfl rfl rfl x z m arg⟩

/-- **C32** `subsample(idx)` of a Cox loss is the partial likelihood of the selected cases (both the sum over events and
the risk sets range over `idx`), if the largest time still has positive weight.  Missing: dropping all such cases makes
the value nan (`C32_cox_subsample_fails`). -/
theorem C32_cox_subsample_partial (L : CoxLoss n) (hL : ReachableCox L) (idx : Finset (Fin n)) (σ : Equiv.Perm (Fin n))
    (hσ : IsArgsort L.T σ) (hr : RiskPositive L.T fun i => if i ∈ idx then L.caseWeights i else 0) :
    ∃ C g, L.subsample idx σ = some C ∧ CoxEvaluates C none
      (fun x => L.coef * ∑ i ∈ idx, L.cens i * L.caseWeights i *
        (Real.log (∑ j ∈ idx with L.T i ≤ L.T j, L.caseWeights j * Real.exp (x j - effOffset L.offset j)) -
          (x i - effOffset L.offset i))) g := by
  have hI := inv_of hL
  have h := init_some L.T L.cens hI.2.1 L.offset hI.2.2 σ
  have hs : L.subsample idx σ = some ⟨L.T, L.cens, σ, Cox.rankmin L.T, Cox.rankmax L.T, L.coef, L.offset,
      fun i => L.caseWeights i * if i ∈ idx then 1 else 0, Cox.zeroBuffers n⟩ := by
    unfold CoxLoss.subsample CoxLoss.copy
    rw [h]
  have hW : effWeight (some fun i => L.caseWeights i * if i ∈ idx then 1 else 0) none =
      fun i => if i ∈ idx then L.caseWeights i else 0 := by
    funext i; simp [effWeight]
  obtain ⟨g, hg, _⟩ := C51_value_partial _ (.subsample hL hσ hs) none (by intro a h; cases h) (by
    simp only [hW]; exact hr)
  refine ⟨_, g, hs, ?_⟩
  intro x
  have hx := hg x
  simp only [hW] at hx
  have e : coxNll L.T L.cens (fun i => if i ∈ idx then L.caseWeights i else 0) (fun i => x i - effOffset L.offset i) =
      ∑ i ∈ idx, L.cens i * L.caseWeights i *
        (Real.log (∑ j ∈ idx with L.T i ≤ L.T j, L.caseWeights j * Real.exp (x j - effOffset L.offset j)) -
          (x i - effOffset L.offset i)) := by
    unfold coxNll
    rw [← Finset.sum_subset (Finset.subset_univ idx) fun i _ hi => by simp [hi]]
    refine Finset.sum_congr rfl fun i hi => ?_
    have : riskTotal L.T (fun i => if i ∈ idx then L.caseWeights i else 0) (fun i => x i - effOffset L.offset i) i =
        ∑ j ∈ idx with L.T i ≤ L.T j, L.caseWeights j * Real.exp (x j - effOffset L.offset j) := by
      unfold riskTotal
      rw [Finset.sum_filter, Finset.sum_filter, ← Finset.sum_subset (Finset.subset_univ idx) fun j _ hj => by simp [hj]]
      exact Finset.sum_congr rfl fun j hj => by simp only [if_pos hj]
    rw [this]
    simp only [if_pos hi]
  rw [e] at hx
  exact hx

/-- **C32** fails for a subsample that drops the case with the largest time: its value is nan. -/
theorem C32_cox_subsample_fails : ∃ (L C : CoxLoss 2), ReachableCox L ∧ L.subsample {0} (Equiv.refl _) = some C ∧
    (C.smoothObjective (fun _ => 0) .func none).1 = .val none := by
  have hσ : IsArgsort ![1, 2] (Equiv.refl (Fin 2)) := by
    intro a b hab
    fin_cases a <;> fin_cases b <;> simp at hab ⊢
  have hi := init_some ![1, 2] ![1, 1] (coef := 1) (by norm_num) none (w := fun _ => 1) (by intro i; norm_num) (Equiv.refl (Fin 2))
  have hR := ReachableCox.init hσ hi
  have hs : CoxLoss.subsample ⟨![1, 2], ![1, 1], (Equiv.refl (Fin 2)), Cox.rankmin ![1, 2], Cox.rankmax ![1, 2], 1, none,
      fun _ => 1, Cox.zeroBuffers 2⟩ {0} (Equiv.refl _) = some ⟨![1, 2], ![1, 1], (Equiv.refl (Fin 2)), Cox.rankmin ![1, 2],
      Cox.rankmax ![1, 2], 1, none, fun i => 1 * if i ∈ ({0} : Finset (Fin 2)) then 1 else 0, Cox.zeroBuffers 2⟩ := by
    unfold CoxLoss.subsample CoxLoss.copy
    rw [hi]
  refine ⟨_, _, hR, hs, ?_⟩
  refine C51_zero_risk_fails _ (.subsample hR hσ hs) 1 none ?_ _
  intro j hj
  fin_cases j
  · norm_num at hj
  · simp [effWeight]

/-- a sorting permutation always exists, so the constructor is total on nonnegative coefficients and weights -/
theorem C51_argsort_exists (T : Fin n → ℝ) : ∃ σ : Equiv.Perm (Fin n), IsArgsort T σ :=
  ⟨Tuple.sort T, fun a b hab => Tuple.monotone_sort T hab⟩

end Verif.Props
