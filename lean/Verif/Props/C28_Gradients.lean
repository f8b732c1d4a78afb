import Verif.Lemmas.Losses
import Mathlib.Tactic.FinCases
import Mathlib.Analysis.Calculus.Deriv.Prod

/-!
# C28: 'grad' is the gradient of 'func' for the separable losses and the quadratic loss
(Cox: `C28_cox_...` in `C51_Cox.lean`; multinomial: `C28_multinomial_...` in `C28_Multinomial.lean`.)
-/

set_option linter.unusedSectionVars false
set_option linter.unusedVariables false

namespace Verif.Props
open Verif.Model Verif.Spec Verif.Lemmas

variable {n : ℕ}

private lemma cw_eq (own arg : Option (Fin n → ℝ)) : Loss.cw own arg = effWeight own arg := by
  funext i; cases own <;> cases arg <;> simp [Loss.cw, effWeight]

private lemma offV_eq (o : Option (Fin n → ℝ)) : offV o = effOffset o := by
  funext i; cases o <;> simp [offV, effOffset]

private lemma eval_of (L : Loss n) (arg : Option (Fin n → ℝ)) (ell : Fin n → ℝ → ℝ) (h : phi L.data = ell) :
    Evaluates (fun x m => (L.smoothObjective x m arg).1)
      (totalLoss L.coef (effWeight L.caseWeights arg) (effOffset L.offset) ell)
      (fun x i => L.coef * (effWeight L.caseWeights arg i * psi L.data i (x i - effOffset L.offset i))) := by
  have := evaluates_loss L arg
  rw [cw_eq, offV_eq, h] at this
  exact this

/-- **C28** gaussian_loglike: the value is `coef ∑ wᵢ (xᵢ - oᵢ - yᵢ)²/2` and the returned gradient is its gradient at
every point, for all responses, offsets and weights. -/
theorem C28_gaussian (L : Loss n) (y : Fin n → ℝ) (hL : L.data = .gaussian y) (arg : Option (Fin n → ℝ)) :
    let F := totalLoss L.coef (effWeight L.caseWeights arg) (effOffset L.offset) fun i => gaussianNll (y i)
    ∃ G, Evaluates (fun x m => (L.smoothObjective x m arg).1) F G ∧ ∀ x, IsGradientAt F (G x) x := by
  refine ⟨_, eval_of L arg _ (by rw [hL]; rfl), fun x => grad_totalLoss _ _ _ _ _ x fun i => ?_⟩
  rw [hL]; exact hasDerivAt_gaussian (y i) _

/-- **C28** poisson_loglike: the value is `coef ∑ wᵢ (exp tᵢ - cᵢ tᵢ)`, `t = x - o`, and the returned gradient is its
gradient at every point. -/
theorem C28_poisson (L : Loss n) (c : Fin n → ℝ) (hL : L.data = .poisson c) (arg : Option (Fin n → ℝ)) :
    let F := totalLoss L.coef (effWeight L.caseWeights arg) (effOffset L.offset) fun i => poissonNll (c i)
    ∃ G, Evaluates (fun x m => (L.smoothObjective x m arg).1) F G ∧ ∀ x, IsGradientAt F (G x) x := by
  refine ⟨_, eval_of L arg _ (by rw [hL]; rfl), fun x => grad_totalLoss _ _ _ _ _ x fun i => ?_⟩
  rw [hL]; exact hasDerivAt_poisson (c i) _

lemma huberFn_eq {eps : ℝ} (he : 0 < eps) (a : ℝ) : (Loss.huberPair eps a).1 = huberFn eps a := by
  rw [huberPair_eq he]
  unfold huberFn
  dsimp only
  by_cases h : |a| ≤ eps
  · rw [if_pos h]
    rw [abs_le] at h
    have h1 : a / eps ≤ 1 := by rw [div_le_one he]; exact h.2
    have h2 : -1 ≤ a / eps := by rw [le_div_iff₀ he]; linarith [h.1]
    rw [min_eq_left h1, max_eq_right h2]
    field_simp; ring
  · rw [if_neg h]
    rw [not_le] at h
    rcases le_total 0 a with h0 | h0
    · rw [abs_of_nonneg h0] at h ⊢
      have h1 : 1 ≤ a / eps := by rw [le_div_iff₀ he]; linarith
      rw [min_eq_right h1, max_eq_right (by norm_num)]; ring
    · rw [abs_of_nonpos h0] at h ⊢
      have h1 : a / eps ≤ -1 := by rw [div_le_iff₀ he]; linarith
      rw [min_eq_left (by linarith), max_eq_left h1]; ring

/-- **C28** huber_loss with a positive smoothing parameter: the value is the weighted sum of Huber functions of the
residuals and the returned gradient is its gradient at every point, the break points included. -/
theorem C28_huber (L : Loss n) (y : Fin n → ℝ) (eps : ℝ) (he : 0 < eps) (hL : L.data = .huber y eps)
    (arg : Option (Fin n → ℝ)) :
    let F := totalLoss L.coef (effWeight L.caseWeights arg) (effOffset L.offset) fun i t => huberFn eps (t - y i)
    ∃ G, Evaluates (fun x m => (L.smoothObjective x m arg).1) F G ∧ ∀ x, IsGradientAt F (G x) x := by
  have hphi : phi L.data = fun i t => huberFn eps (t - y i) := by
    rw [hL]; funext i t; exact huberFn_eq he _
  refine ⟨_, eval_of L arg _ hphi, fun x => grad_totalLoss _ _ _ _ _ x fun i => ?_⟩
  have e : (fun t => huberFn eps (t - y i)) = fun t => (Loss.huberPair eps (t - y i)).1 :=
    funext fun t => (huberFn_eq he _).symm
  rw [e, hL]; exact hasDerivAt_huber he (y i) _

lemma hinge_eq (z : ℝ) : (Loss.huberSvmPair 1 z).1 = smoothHinge 1 z := by
  rw [huberSvmPair_one]
  unfold smoothHinge
  dsimp only
  by_cases h : 1 ≤ z
  · rw [if_pos h, min_eq_left (by linarith), max_eq_left (by linarith)]; ring
  · rw [if_neg h]
    push Not at h
    by_cases h2 : 1 - 1 ≤ z
    · rw [if_pos h2, min_eq_left (by linarith), max_eq_right (by linarith)]; ring
    · rw [if_neg h2]
      push Not at h2
      rw [min_eq_right (by linarith), max_eq_right (by norm_num)]; ring

/-- **C28** huber_svm with smoothing parameter 1: the value is the weighted sum of smoothed hinge losses of the margins
`(2 yᵢ - 1) tᵢ` and the returned gradient is its gradient at every point.  Missing: any other smoothing parameter, for
which it is false (`C28_huber_svm_fails`). -/
theorem C28_huber_svm_partial (L : Loss n) (s : Fin n → ℝ) (hL : L.data = .huberSvm s 1) (arg : Option (Fin n → ℝ)) :
    let F := totalLoss L.coef (effWeight L.caseWeights arg) (effOffset L.offset)
      fun i t => smoothHinge 1 ((2 * s i - 1) * t)
    ∃ G, Evaluates (fun x m => (L.smoothObjective x m arg).1) F G ∧ ∀ x, IsGradientAt F (G x) x := by
  have hphi : phi L.data = fun i t => smoothHinge 1 ((2 * s i - 1) * t) := by
    rw [hL]; funext i t; exact hinge_eq _
  refine ⟨_, eval_of L arg _ hphi, fun x => grad_totalLoss _ _ _ _ _ x fun i => ?_⟩
  have e : (fun t => smoothHinge 1 ((2 * s i - 1) * t)) = fun t => (Loss.huberSvmPair 1 ((2 * s i - 1) * t)).1 :=
    funext fun t => (hinge_eq _).symm
  rw [e, hL]; exact hasDerivAt_svm _ _

/-- a loss with one observation -/
private noncomputable def one (d : LossData 1) : Loss 1 := ⟨d, 1, none, Quad.init none none none none, none⟩

private lemma one_eval (d : LossData 1) : Evaluates (fun x m => ((one d).smoothObjective x m none).1)
    (fun x => phi d 0 (x 0)) (fun x _ => psi d 0 (x 0)) := by
  have := evaluates_loss (one d) none
  intro x
  have h := this x
  have e : totalLoss (one d).coef (Loss.cw (one d).caseWeights none) (offV (one d).offset) (phi (one d).data) x
      = phi d 0 (x 0) := by
    simp [totalLoss, one, offV, Loss.cw]
  have e2 : (fun i => (one d).coef * (Loss.cw (one d).caseWeights none i * psi (one d).data i (x i - offV (one d).offset i)))
      = fun _ => psi d 0 (x 0) := by
    funext i; fin_cases i; simp [one, offV, Loss.cw]
  dsimp only at h
  rw [e, e2] at h
  exact h

private lemma eval_unique {ev : Objective n} {f f' : (Fin n → ℝ) → ℝ} {g g' : (Fin n → ℝ) → Fin n → ℝ}
    (h : Evaluates ev f g) (h' : Evaluates ev f' g') : f = f' ∧ g = g' := by
  constructor
  · funext x; have h1 := (h x).1; rw [(h' x).1] at h1; injection h1 with h1; exact h1.symm
  · funext x; have h1 := (h x).2.1; rw [(h' x).2.1] at h1; injection h1 with h1; exact h1.symm

/-- a gradient in one dimension is a derivative -/
private lemma grad_one {f : ℝ → ℝ} {d x : ℝ} (h : IsGradientAt (fun y : Fin 1 → ℝ => f (y 0)) (fun _ => d) (fun _ => x)) :
    HasDerivAt f d x := by
  have h1 : HasDerivAt (fun t : ℝ => (fun _ : Fin 1 => t)) (fun _ => 1) x := by
    rw [hasDerivAt_pi]; intro i; exact hasDerivAt_id x
  unfold IsGradientAt at h
  have h2 := HasFDerivAt.comp_hasDerivAt (f := fun t : ℝ => (fun _ : Fin 1 => t)) x h h1
  refine h2.congr_deriv ?_
  simp

/-- **C28** fails for huber_svm with any other positive smoothing parameter: there are binary data and a point at which
the returned vector is not the gradient of the returned value. -/
theorem C28_huber_svm_fails (eps : ℝ) (he : 0 < eps) (h1 : eps ≠ 1) :
    ∃ (L : Loss 1) (x : Fin 1 → ℝ), L.data = .huberSvm (fun _ => 1) eps ∧
      Loss.init (.huberSvm (fun _ => 1) eps) L.coef L.offset L.quad L.caseWeights = some L ∧
      ¬ ∃ F G, Evaluates (fun x m => (L.smoothObjective x m none).1) F G ∧ IsGradientAt F (G x) x := by
  refine ⟨one (.huberSvm (fun _ => 1) eps), fun _ => 1 - eps / 2, rfl, ?_, ?_⟩
  · have h10 : ¬ ((1:ℝ) < 0) := by norm_num
    simp [Loss.init, Smooth.atomInit, one, Loss.dataError, Loss.devQuad, Loss.devConst, h10]
  rintro ⟨F, G, hE, hg⟩
  obtain ⟨rfl, rfl⟩ := eval_unique hE (one_eval _)
  have hd := grad_one (f := phi (.huberSvm (fun _ => 1) eps) (0 : Fin 1)) hg
  -- near the point the value is `(1 - eps/2) ((1-z)/eps)²`
  have hev : phi (.huberSvm (fun _ => 1) eps) (0 : Fin 1) =ᶠ[nhds (1 - eps / 2)]
      fun z => (1 - eps / 2) * ((1 - z) / eps) ^ 2 := by
    filter_upwards [Ioo_mem_nhds (show 1 - eps < 1 - eps / 2 by linarith) (show 1 - eps / 2 < 1 by linarith)] with z hz
    have hz1 : 0 < (1 - z) / eps := div_pos (by linarith [hz.2]) he
    have hz2 : (1 - z) / eps < 1 := by rw [div_lt_one he]; linarith [hz.1]
    have e : (2 * (1:ℝ) - 1) * z = z := by ring
    simp only [phi, Loss.huberSvmPair, e, if_pos hz1, if_pos hz2, if_neg (not_le.mpr hz2)]
    ring
  have hd2 : HasDerivAt (fun z => (1 - eps / 2) * ((1 - z) / eps) ^ 2) (-(2 - eps) / (2 * eps)) (1 - eps / 2) := by
    refine hasDerivAt_of_quad (C := |(1 - eps / 2) / eps ^ 2|) fun z => ?_
    have : (1 - eps / 2) * ((1 - z) / eps) ^ 2 - (1 - eps / 2) * ((1 - (1 - eps / 2)) / eps) ^ 2 -
        -(2 - eps) / (2 * eps) * (z - (1 - eps / 2)) = (1 - eps / 2) / eps ^ 2 * (z - (1 - eps / 2)) ^ 2 := by
      field_simp; ring
    rw [this, abs_mul, abs_of_nonneg (sq_nonneg (z - (1 - eps / 2)))]
  have hu := (hd.congr_of_eventuallyEq hev.symm).unique hd2
  have hpsi : psi (.huberSvm (fun _ => 1) eps) (0 : Fin 1) (1 - eps / 2) = -(1 / 2) := by
    have e : (1 - (2 * (1:ℝ) - 1) * (1 - eps / 2)) / eps = 1 / 2 := by field_simp; ring
    simp only [psi, Loss.huberSvmPair, e]
    norm_num
  rw [hpsi] at hu
  field_simp at hu
  exact h1 (by linarith)

/-- **C28** logistic_loglike.  The returned gradient is the gradient of the returned value at every point where no
`xᵢ - oᵢ` equals 100; where all are at most 100 the value is the binomial negative log-likelihood; and everywhere the
value and the gradient are within `coef ∑ wᵢ mᵢ e⁻¹⁰⁰` and `coef wᵢ mᵢ e⁻¹⁰⁰` of the likelihood and its gradient.
Missing: points with a coordinate at 100, where the value jumps (`C28_logistic_fails`). -/
theorem C28_logistic_partial (L : Loss n) (s m : Fin n → ℝ) (hm : ∀ i, 0 ≤ m i) (hL : L.data = .logistic s m)
    (arg : Option (Fin n → ℝ)) (hc : 0 ≤ L.coef) (hw : ∀ i, 0 ≤ effWeight L.caseWeights arg i) :
    let T := totalLoss L.coef (effWeight L.caseWeights arg) (effOffset L.offset) fun i => logisticNll (s i) (m i)
    ∃ F G, Evaluates (fun x m => (L.smoothObjective x m arg).1) F G ∧
      (∀ x, (∀ i, x i - effOffset L.offset i ≠ 100) → IsGradientAt F (G x) x) ∧
      (∀ x, (∀ i, x i - effOffset L.offset i ≤ 100) → F x = T x ∧ IsGradientAt T (G x) x) ∧
      (∀ x, |F x - T x| ≤ L.coef * ∑ i, effWeight L.caseWeights arg i * m i * Real.exp (-100)) ∧
      (∀ x, ∃ g, IsGradientAt T g x ∧
        ∀ i, |G x i - g i| ≤ L.coef * (effWeight L.caseWeights arg i * m i * Real.exp (-100))) := by
  intro T
  set w := effWeight L.caseWeights arg with hwd
  set o := effOffset L.offset with hod
  have hT : ∀ x, IsGradientAt T (fun i => L.coef * (w i * (m i * (Real.exp (x i - o i) / (1 + Real.exp (x i - o i))) - s i))) x := by
    intro x
    refine grad_totalLoss _ _ _ _ _ x fun i => ?_
    have h1 := (hasDerivAt_log1exp (x i - o i)).const_mul (m i)
    have h2 : HasDerivAt (fun t : ℝ => s i * t) (s i * 1) (x i - o i) := (hasDerivAt_id _).const_mul (s i)
    rw [mul_one] at h2
    exact h1.sub h2
  refine ⟨_, _, eval_of L arg _ rfl, ?_, ?_, ?_, ?_⟩
  · intro x hx
    refine grad_totalLoss _ _ _ _ _ x fun i => ?_
    rw [hL]
    have h1 := (hasDerivAt_logExp (hx i)).const_mul (m i)
    have h2 : HasDerivAt (fun t : ℝ => s i * t) (s i * 1) (x i - o i) := (hasDerivAt_id _).const_mul (s i)
    rw [mul_one] at h2
    exact h1.sub h2
  · intro x hx
    constructor
    · simp only [T, totalLoss]
      congr 1
      refine Finset.sum_congr rfl fun i _ => ?_
      have hxi : x i - effOffset L.offset i ≤ 100 := hx i
      rw [hL]; simp only [phi, logisticNll, Loss.logExp, if_pos hxi]
    · refine grad_congr (hT x) rfl ?_
      funext i
      rw [hL]; simp only [psi, Loss.ratio1]
      rw [if_pos (hx i)]
  · intro x
    simp only [T, totalLoss]
    rw [← mul_sub, ← Finset.sum_sub_distrib, abs_mul, abs_of_nonneg hc]
    refine mul_le_mul_of_nonneg_left ((Finset.abs_sum_le_sum_abs _ _).trans (Finset.sum_le_sum fun i _ => ?_)) hc
    have h := logExp_close (x i - o i)
    have e : w i * phi L.data i (x i - o i) - w i * logisticNll (s i) (m i) (x i - o i) =
        -(w i * m i * (Real.log (1 + Real.exp (x i - o i)) - Loss.logExp (x i - o i))) := by
      rw [hL]; simp only [phi, logisticNll]; ring
    rw [e, abs_neg, abs_of_nonneg (mul_nonneg (mul_nonneg (hw i) (hm i)) h.1)]
    exact mul_le_mul_of_nonneg_left h.2 (mul_nonneg (hw i) (hm i))
  · intro x
    refine ⟨_, hT x, fun i => ?_⟩
    have h := ratio1_close (x i - o i)
    have e : L.coef * (w i * psi L.data i (x i - o i)) -
        L.coef * (w i * (m i * (Real.exp (x i - o i) / (1 + Real.exp (x i - o i))) - s i)) =
        L.coef * (w i * m i * (Loss.ratio1 (x i - o i) - Real.exp (x i - o i) / (1 + Real.exp (x i - o i)))) := by
      rw [hL]; simp only [psi]; ring
    show |L.coef * (w i * psi L.data i (x i - o i)) -
        L.coef * (w i * (m i * (Real.exp (x i - o i) / (1 + Real.exp (x i - o i))) - s i))| ≤ _
    rw [e, abs_of_nonneg (mul_nonneg hc (mul_nonneg (mul_nonneg (hw i) (hm i)) h.1))]
    exact mul_le_mul_of_nonneg_left (mul_le_mul_of_nonneg_left h.2 (mul_nonneg (hw i) (hm i))) hc

private lemma logExp_jump : Loss.logExp 100 > 100 := by
  simp only [Loss.logExp, le_refl, if_true]
  have : Real.log (Real.exp 100) < Real.log (1 + Real.exp 100) :=
    Real.log_lt_log (Real.exp_pos _) (by linarith)
  rwa [Real.log_exp] at this

/-- **C28** fails for logistic_loglike at `x = 100`: the value returned there has no gradient at all. -/
theorem C28_logistic_fails : ∃ (L : Loss 1) (x : Fin 1 → ℝ), L.data = .logistic (fun _ => 0) (fun _ => 1) ∧
    (∃ q, Loss.init (.logistic (fun _ => 0) (fun _ => 1)) 1 none q none = some L) ∧
    ¬ ∃ F G, Evaluates (fun x m => (L.smoothObjective x m none).1) F G ∧ ∃ g, IsGradientAt F g x := by
  let q : Quad (Fin 1) ℝ := Quad.init none none none none
  let L : Loss 1 := ⟨.logistic (fun _ => 0) (fun _ => 1), 1, none, Loss.devQuad 1 (.logistic (fun _ => 0) (fun _ => 1)) q, none⟩
  refine ⟨L, fun _ => 100, rfl, ⟨q, ?_⟩, ?_⟩
  · have hd : ¬ Loss.dataError (.logistic (fun _ : Fin 1 => (0:ℝ)) (fun _ => 1)) := by
      simp [Loss.dataError]
    have h1 : Smooth.atomInit (n := 1) 1 none = some (1, none) := by
      unfold Smooth.atomInit; rw [if_neg (by norm_num)]
    have h2 : ¬ ∃ w : Fin 1 → ℝ, (none : Option (Fin 1 → ℝ)) = some w ∧ ¬ ∀ i, 0 ≤ w i := by simp
    unfold Loss.init
    rw [h1]
    simp only [if_neg hd, if_neg h2]
    rfl
  rintro ⟨F, G, hE, g, hg⟩
  have hL := evaluates_loss L none
  have hF := (eval_unique hE hL).1
  have hF2 : F = fun x => Loss.logExp (x 0) := by
    rw [hF]; funext x; simp [totalLoss, L, offV, Loss.cw, phi]
  rw [hF2] at hg
  have hcont : ContinuousAt (fun x : Fin 1 → ℝ => Loss.logExp (x 0)) (fun _ => 100) := HasFDerivAt.continuousAt hg
  have hcont2 : ContinuousAt (fun t : ℝ => Loss.logExp t) 100 := by
    have h1 : ContinuousAt (fun t : ℝ => (fun _ : Fin 1 => t)) 100 :=
      (continuous_pi fun _ => continuous_id).continuousAt
    exact ContinuousAt.comp (f := fun t : ℝ => (fun _ : Fin 1 => t)) (x := 100) hcont h1
  have hlim : Filter.Tendsto Loss.logExp (nhdsWithin 100 (Set.Ioi 100)) (nhds (Loss.logExp 100)) :=
    hcont2.tendsto.mono_left nhdsWithin_le_nhds
  have hlim2 : Filter.Tendsto Loss.logExp (nhdsWithin 100 (Set.Ioi 100)) (nhds 100) := by
    have : Filter.Tendsto (fun t : ℝ => t) (nhdsWithin 100 (Set.Ioi 100)) (nhds 100) :=
      Filter.tendsto_id.mono_left nhdsWithin_le_nhds
    refine this.congr' ?_
    filter_upwards [self_mem_nhdsWithin] with t ht
    simp only [Loss.logExp, if_neg (not_le.mpr (Set.mem_Ioi.mp ht))]
  have := tendsto_nhds_unique hlim hlim2
  exact absurd this (ne_of_gt logExp_jump)

/-- the hypotheses of `C28_logistic_partial` are met by a weighted, offset loss with 2 trials -/
example : ∃ L : Loss 2, L.data = .logistic ![1, 0] ![2, 1] ∧ (0 ≤ L.coef) ∧
    (∀ i, 0 ≤ effWeight L.caseWeights (some ![1, 3]) i) :=
  ⟨⟨.logistic ![1, 0] ![2, 1], 2, some ![1, -1], Quad.init none none none none, some ![1, 2]⟩, rfl, by norm_num, by
    intro i; fin_cases i <;> simp [effWeight]⟩

/-! ## Quadratic loss -/

/-- **C28** quadratic_loss: with no `Q`, a diagonal `Q`, a symmetric `Q` or a self-adjoint transform the returned gradient is the gradient of the
returned value `coef/2 (x-o)'Q(x-o)` at every point.  Missing: a `Q` that is not symmetric, which the constructor
accepts and for which it is false (`C28_quadratic_fails`). -/
theorem C28_quadratic_partial (coef : ℝ) (o : Option (Fin n → ℝ)) (Q : Smooth.QForm n)
    (hQ : ∀ M, Q = .full M → ∀ i j, M i j = M j i)
    (hT : ∀ T, Q = .transform T → distinctSelectors T ∧ ∀ x y, ∑ i, T.lin x i * y i = ∑ i, x i * T.lin y i) :
    ∃ F G, Evaluates (Smooth.quadraticLoss coef o Q) F G ∧
      (∀ x, F x = coef / 2 * ∑ i, (x i - effOffset o i) * Q.app (fun j => x j - effOffset o j) i) ∧
      ∀ x, IsGradientAt F (G x) x := by
  have key : ∀ M : Fin n → Fin n → ℝ, (∀ i j, M i j = M j i) → ∀ z : Fin n → ℝ,
      IsGradientAt (fun z => coef / 2 * ∑ i, z i * ∑ j, M i j * z j) (fun i => coef * ∑ j, M i j * z j) z := by
    intro M hM z
    have h1 : IsGradientAt (fun z : Fin n → ℝ => ∑ i, z i * ∑ j, M i j * z j) (fun i => 2 * ∑ j, M i j * z j) z := by
      unfold IsGradientAt
      have hc : ∀ i, HasFDerivAt (fun y : Fin n → ℝ => y i) (ContinuousLinearMap.proj i : (Fin n → ℝ) →L[ℝ] ℝ) z :=
        fun i => hasFDerivAt_apply i z
      have hs : ∀ i, HasFDerivAt (fun y : Fin n → ℝ => ∑ j, M i j * y j)
          (∑ j, M i j • (ContinuousLinearMap.proj j : (Fin n → ℝ) →L[ℝ] ℝ)) z :=
        fun i => HasFDerivAt.fun_sum fun j _ => (hc j).const_mul _
      have ht := HasFDerivAt.fun_sum (u := Finset.univ) fun i _ => (hc i).mul (hs i)
      refine ht.congr_fderiv ?_
      ext v
      simp only [add_apply, sum_apply, smul_apply, ContinuousLinearMap.proj_apply, smul_eq_mul]
      have e1 : ∑ i, z i * ∑ j, M i j * v j = ∑ i, (∑ j, M i j * z j) * v i := by
        simp only [Finset.mul_sum, Finset.sum_mul]
        rw [Finset.sum_comm]
        exact Finset.sum_congr rfl fun i _ => Finset.sum_congr rfl fun j _ => by rw [hM i j]; ring
      simp only [Finset.sum_add_distrib]
      rw [e1, ← Finset.sum_add_distrib]
      exact Finset.sum_congr rfl fun i _ => by ring
    refine grad_congr (grad_smul h1 (coef / 2)) rfl ?_
    funext i; ring
  -- every form is given by a symmetric matrix
  have hM : ∃ M : Fin n → Fin n → ℝ, (∀ i j, M i j = M j i) ∧ ∀ z, Q.app z = fun i => ∑ j, M i j * z j := by
    cases Q with
    | none => exact ⟨fun i j => if i = j then 1 else 0, fun i j => by simp [eq_comm], fun z => by
        funext i; simp [Smooth.QForm.app]⟩
    | diag d => exact ⟨fun i j => if i = j then d i else 0, fun i j => by
        by_cases h : i = j
        · subst h; rfl
        · simp only [if_neg h, if_neg (Ne.symm h)], fun z => by
        funext i; simp [Smooth.QForm.app]⟩
    | full M => exact ⟨M, hQ M rfl, fun z => rfl⟩
    | transform T =>
      obtain ⟨hd, hs⟩ := hT T rfl
      refine ⟨toMat T, fun i j => ?_, fun z => ?_⟩
      · have := hs (Pi.single j 1) (Pi.single i 1)
        simpa [Pi.single_apply, toMat] using this
      · exact (C24_matrix T hd).1 z
  obtain ⟨M, hsym, hMe⟩ := hM
  refine ⟨fun x => coef / 2 * ∑ i, (x i - effOffset o i) * Q.app (fun j => x j - effOffset o j) i,
    fun x i => coef * Q.app (fun j => x j - effOffset o j) i, ?_, fun _ => rfl, ?_⟩
  · have hs : ∀ v : Fin n → ℝ, Real.sqrt (∑ i, v i ^ 2) ^ 2 = ∑ i, v i * v i := by
      intro v
      rw [Real.sq_sqrt (Finset.sum_nonneg fun i _ => sq_nonneg _)]
      exact Finset.sum_congr rfl fun i _ => by ring
    intro x
    have ho : Smooth.applyOffset o x = fun i => x i - effOffset o i := by rw [applyOffset_eq, offV_eq]
    cases Q <;> simp [Smooth.quadraticLoss, scaleR_eq, scaleV_eq, Smooth.QForm.app, hs, ho, mul_div_right_comm]
  · intro x
    have h := key M hsym (fun i => x i - effOffset o i)
    have h2 : IsGradientAt (fun z => coef / 2 * ∑ i, z i * Q.app z i) (fun i => coef * Q.app (fun j => x j - effOffset o j) i)
        (Smooth.applyOffset o x) := by
      rw [applyOffset_eq, offV_eq]
      simp only [hMe]; exact h
    have h3 := grad_comp_offset o x h2
    simp only [applyOffset_eq, offV_eq] at h3
    exact h3

/-- **C28** fails for `quadratic_loss` with a matrix that is not symmetric. -/
theorem C28_quadratic_fails : ∃ (Q : Fin 2 → Fin 2 → ℝ) (x : Fin 2 → ℝ),
    ¬ ∃ F G, Evaluates (Smooth.quadraticLoss 1 none (.full Q)) F G ∧ IsGradientAt F (G x) x := by
  refine ⟨![![0, 1], ![0, 0]], ![1, 1], ?_⟩
  rintro ⟨F, G, hE, hg⟩
  have hF : F = fun x => x 0 * x 1 / 2 := by
    funext x
    have h1 := (hE x).1
    simp [Smooth.quadraticLoss, scaleR_eq, Smooth.QForm.app, Smooth.applyOffset, Fin.sum_univ_two] at h1
    exact h1.symm
  have hG : G ![1, 1] = ![1, 0] := by
    have h1 := (hE ![1, 1]).2.1
    simp [Smooth.quadraticLoss, scaleV_eq, Smooth.QForm.app, Smooth.applyOffset, Fin.sum_univ_two] at h1
    rw [← h1]; funext i; fin_cases i <;> simp
  have hsym := C28_quadratic_partial (n := 2) 1 none (.full ![![0, 1 / 2], ![1 / 2, 0]]) (by
    intro M h i j; injection h with h; subst h; fin_cases i <;> fin_cases j <;> rfl) (by intro T h; cases h)
  obtain ⟨F', G', hE', hF', hg'⟩ := hsym
  have hFF : F' = F := by
    funext x; rw [hF', hF]
    simp [Smooth.QForm.app, effOffset, Fin.sum_univ_two]; ring
  have hG' : G' ![1, 1] = ![1 / 2, 1 / 2] := by
    have h1 := (hE' ![1, 1]).2.1
    simp [Smooth.quadraticLoss, scaleV_eq, Smooth.QForm.app, Smooth.applyOffset, Fin.sum_univ_two] at h1
    rw [← h1]; funext i; fin_cases i <;> simp
  have h2 := hg' ![1, 1]
  rw [hFF, hG'] at h2
  rw [hG] at hg
  have := HasFDerivAt.unique hg h2
  have := congrArg (fun L : (Fin 2 → ℝ) →L[ℝ] ℝ => L ![1, 0]) this
  simp [Fin.sum_univ_two] at this

end Verif.Props
