import Verif.Model.Scores
import Verif.Spec.Sklearn
import Verif.Spec.Scores
import Verif.Props.C28_Gradients
import Verif.Props.C49_Sklearn
import Verif.Props.C51_Cox
import Verif.Props.C73_Deviance
import Verif.Lemmas.Normal
import Verif.Lemmas.Losses
import Mathlib.Analysis.Complex.ExponentialBounds

/-!
# C83: scores and predicted probabilities of the estimators for binary, Huber, Cox and multinomial regression
-/

set_option linter.unusedSectionVars false
set_option linter.unusedVariables false

namespace Verif.Props
open Verif.Model Verif.Model.Sklearn Verif.Spec Verif.Lemmas

variable {n p : ℕ}

/-! ### the value of a fresh loss -/

/-- per observation value the code computes -/
private noncomputable def cell : Family → ℝ → ℝ → ℝ → ℝ
  | .logistic, s, m, x => m * Loss.logExp x - s * x
  | .probit, s, m, x => -(s * Real.log (BinLink.probit.prob x) + (m - s) * Real.log (BinLink.probit.probC x))
  | .cloglog, s, m, x => -(s * Real.log (BinLink.cloglog.prob x) + (m - s) * Real.log (BinLink.cloglog.probC x))

/-- the offset a fresh loss applies -/
private noncomputable def usedOffset : Family → Option (Fin n → ℝ) → Fin n → ℝ
  | .logistic, o => effOffset o
  | _, _ => fun _ => 0

private lemma cw_eff (own arg : Option (Fin n → ℝ)) : Loss.cw own arg = effWeight own arg := by
  funext i; cases own <;> cases arg <;> simp [Loss.cw, effWeight]

private lemma resolve_eq {s : Fin n → ℝ} {trials : Option (Fin n → ℝ)} (h : ValidCounts s trials) :
    Loss.resolveTrials s trials = some (trials.getD fun _ => 1) := by
  cases trials with
  | none => exact if_pos h
  | some t => rfl

private lemma counts_bounds {s : Fin n → ℝ} {trials : Option (Fin n → ℝ)} (h : ValidCounts s trials) (i : Fin n) :
    0 ≤ s i ∧ s i ≤ trials.getD (fun _ => 1) i := by
  cases trials with
  | none => rcases h i with h | h <;> simp [h]
  | some t => exact h i

private lemma link_value (l : BinLink) {s : Fin n → ℝ} {trials : Option (Fin n → ℝ)} (h : ValidCounts s trials) {coef : ℝ}
    (hc : 0 ≤ coef) (o : Option (Fin n → ℝ)) {own : Option (Fin n → ℝ)} (hw : ∀ v, own = some v → ∀ i, 0 ≤ v i)
    (x : Fin n → ℝ) (arg : Option (Fin n → ℝ)) :
    linkValue l s trials coef o own x arg = some (coef * ∑ i, effWeight own arg i *
      -(s i * Real.log (l.prob (x i)) + (trials.getD (fun _ => 1) i - s i) * Real.log (l.probC (x i)))) := by
  obtain ⟨L, h1, h2, h3, h4, h5, h6⟩ := (C72_constructor l s trials coef o (Quad.init none none none none) own).mpr
    ⟨hc, hw, fun e => by subst e; exact h, fun m e => by subst e; exact h⟩
  unfold linkValue
  rw [h1]
  simp only [BinLoss.smoothObjective, BinLoss.value, scaleR_eq, cw_eff, h2, h3, h4, h5, h6, Option.some.injEq]
  rw [← mul_neg, ← Finset.sum_neg_distrib]
  congr 1
  exact Finset.sum_congr rfl fun i _ => by ring

private lemma value_eq (F : Family) {s : Fin n → ℝ} {trials : Option (Fin n → ℝ)} (h : ValidCounts s trials) {coef : ℝ}
    (hc : 0 ≤ coef) (o : Option (Fin n → ℝ)) {own : Option (Fin n → ℝ)} (hw : ∀ v, own = some v → ∀ i, 0 ≤ v i)
    (x : Fin n → ℝ) (arg : Option (Fin n → ℝ)) :
    F.value s trials coef o own x arg = some (coef * ∑ i, effWeight own arg i *
      cell F (s i) (trials.getD (fun _ => 1) i) (x i - usedOffset F o i)) := by
  cases F with
  | logistic =>
    unfold Family.value
    rw [resolve_eq h]
    have hd : ¬ Loss.dataError (.logistic s (trials.getD fun _ => 1)) := by
      rintro (⟨i, hi⟩ | ⟨i, hi⟩)
      · linarith [(counts_bounds h i).2]
      · linarith [(counts_bounds h i).1]
    dsimp only
    rw [loss_init _ hc hd o _ own hw]
    dsimp only
    have hE := (evaluates_loss ⟨.logistic s (trials.getD fun _ => 1), coef, o,
      Loss.devQuad coef (.logistic s (trials.getD fun _ => 1)) (Quad.init none none none none), own⟩ arg x).1
    dsimp only at hE
    rw [hE]
    simp only [totalLoss, cw_eff, Option.some.injEq]
    congr 1
    refine Finset.sum_congr rfl fun i _ => ?_
    have e : offV o i = effOffset o i := by cases o <;> rfl
    simp only [phi, cell, usedOffset, e]
  | probit =>
    simp only [Family.value, link_value .probit h hc o hw x arg, cell, usedOffset, sub_zero]
  | cloglog =>
    simp only [Family.value, link_value .cloglog h hc o hw x arg, cell, usedOffset, sub_zero]

private lemma logistic_cell {s m x : ℝ} (hx : |x| ≤ 100) : m * Loss.logExp x - s * x = binomialNll sigmoid s m x := by
  have h1 : (0:ℝ) < 1 + Real.exp x := by positivity
  have e1 : Real.log (sigmoid x) = x - Real.log (1 + Real.exp x) := by
    unfold sigmoid; rw [Real.log_div (Real.exp_pos x).ne' h1.ne', Real.log_exp]
  have e2 : Real.log (1 - sigmoid x) = -Real.log (1 + Real.exp x) := by
    have : 1 - sigmoid x = (1 + Real.exp x)⁻¹ := by unfold sigmoid; field_simp; ring
    rw [this, Real.log_inv]
  rw [Loss.logExp, if_pos (abs_le.mp hx).2, binomialNll, e1, e2]
  ring

private lemma cell_eq (F : Family) {s m x : ℝ} (hx : |x| ≤ F.bound) : cell F s m x = binomialNll F.inv s m x := by
  cases F with
  | logistic => exact logistic_cell hx
  | probit =>
    simp only [Family.bound, abs_le] at hx
    simp only [cell, binomialNll, Family.inv, BinLink.prob, BinLink.probC, if_neg (not_lt.mpr hx.1), gt_iff_lt,
      if_neg (not_lt.mpr hx.2), nsf_eq]
  | cloglog =>
    simp only [Family.bound, abs_le] at hx
    have e : BinLink.clip5 x = x := by rw [BinLink.clip5, max_eq_left hx.1, min_eq_left hx.2]
    simp only [cell, binomialNll, Family.inv, BinLink.prob, BinLink.probC, e, cloglogInv]
    norm_num

private lemma value_nll (F : Family) {s : Fin n → ℝ} {trials : Option (Fin n → ℝ)} (h : ValidCounts s trials)
    {w : Option (Fin n → ℝ)} (hw : ∀ v, w = some v → ∀ i, 0 ≤ v i) {x : Fin n → ℝ} (hx : ∀ i, |x i| ≤ F.bound) :
    F.value s trials 1 none w x none = some (F.nll (effWeight w none) s (trials.getD fun _ => 1) x) := by
  have e : ∀ i, usedOffset F (none : Option (Fin n → ℝ)) i = 0 := by intro i; cases F <;> rfl
  rw [value_eq F h zero_le_one none hw, one_mul]
  congr 1
  refine Finset.sum_congr rfl fun i _ => ?_
  rw [e, sub_zero, cell_eq F (hx i)]

private lemma split_pair (s t : Fin n → ℝ) : splitResponse n (.d2 n 2 fun i => ![s i, t i]) = some (s, some t) := by
  simp [splitResponse]

private lemma split_vec (s : Fin n → ℝ) : splitResponse n (.d1 n s) = some (s, none) := by
  simp [splitResponse]

private lemma squeeze_pair (hn : n ≠ 1) (s t : Fin n → ℝ) :
    squeeze (fun i => ![s i, t i]) = .d2 n 2 fun i => ![s i, t i] := by
  simp [squeeze, hn]

private lemma eff_some (w : Fin n → ℝ) : effWeight (some w) none = w := by funext i; simp [effWeight]

/-! ### deviance scores -/

/-- **C83** The `deviance` score of the logistic, probit and complementary log-log regressions is minus twice the weighted
binomial negative log-likelihood of the predictions: the response columns are successes and trials, the weights are case
weight times sample weight, and the offset column is subtracted from `X.dot(coefs)`.  Missing: linear predictors beyond the
bound at which the losses clip (100, 20, 5). -/
theorem C83_deviance_partial (F : Family) (hn : n ≠ 1) (lin s t c o sw : Fin n → ℝ) (hst : ∀ i, 0 ≤ s i ∧ s i ≤ t i)
    (hw : ∀ i, 0 ≤ c i * sw i) (hB : ∀ i, |lin i - o i| ≤ F.bound) :
    (score true true (F.sat .deviance) lin (.mat 4 (withColumns (fun i => ![s i, t i]) c o)) (some sw)).map Prod.fst =
      some (.num (-(2 * F.nll (fun i => c i * sw i) s t fun i => lin i - o i))) := by
  rw [(C49_score_weights (F.sat .deviance) lin (fun i => ![s i, t i]) c o sw).1, squeeze_pair hn]
  have hv := value_nll F (s := s) (trials := some t) hst (w := some fun i => c i * sw i)
    (fun v e => by cases e; exact hw) hB
  simp only [Family.sat, split_pair, hv, eff_some, Option.getD_some]
  congr 2
  ring

/-- **C83** `mean_deviance` of logistic and probit regression is the deviance score over the number of observations.
Missing: complementary log-log regression, where it is false (`C83_mean_deviance_fails`). -/
theorem C83_mean_deviance_partial (F : Family) (hF : F ≠ .cloglog) (pred s : Fin n → ℝ) (trials w : Option (Fin n → ℝ))
    (response : Arr) (hr : splitResponse n response = some (s, trials)) (hs : ValidCounts s trials)
    (hw : ∀ v, w = some v → ∀ i, 0 ≤ v i) :
    ∃ d, F.sat .deviance pred response w = .num d ∧ F.sat .meanDeviance pred response w = .num (d / n) := by
  have hv := value_eq F hs zero_le_one none hw pred none
  cases F with
  | cloglog => exact absurd rfl hF
  | logistic => exact ⟨_, by simp only [Family.sat, hr, hv]; rfl, by simp only [Family.sat, hr, hv]⟩
  | probit => exact ⟨_, by simp only [Family.sat, hr, hv]; rfl, by simp only [Family.sat, hr, hv]⟩

/-- hypotheses met: two observations with 1 of 2 and 3 of 3 successes, weights 2 and 1, offsets 1 and 0 -/
example : ∃ s t c o sw lin : Fin 2 → ℝ, (∀ i, 0 ≤ s i ∧ s i ≤ t i) ∧ (∀ i, 0 ≤ c i * sw i) ∧
    ∀ i, |lin i - o i| ≤ Family.bound .cloglog :=
  ⟨![1, 3], ![2, 3], ![2, 1], ![1, 0], ![1, 1], ![3, -2], by intro i; fin_cases i <;> norm_num,
    by intro i; fin_cases i <;> norm_num, by intro i; fin_cases i <;> norm_num [Family.bound, abs_le]⟩

/-- **C83** fails for complementary log-log regression: `mean_deviance` is not divided by the number of observations, for
every admissible response. -/
theorem C83_mean_deviance_fails (pred s : Fin n → ℝ) (trials w : Option (Fin n → ℝ))
    (response : Arr) (hr : splitResponse n response = some (s, trials)) (hs : ValidCounts s trials)
    (hw : ∀ v, w = some v → ∀ i, 0 ≤ v i) :
    ∃ d, Family.sat .cloglog .deviance pred response w = .num d ∧
      Family.sat .cloglog .meanDeviance pred response w = .num d := by
  have hv := value_eq .cloglog hs zero_le_one none hw pred none
  exact ⟨_, by simp only [Family.sat, hr, hv]; rfl, by simp only [Family.sat, hr, hv]⟩

/-- the hypotheses are met: a binary response of two observations -/
example : splitResponse 2 (.d1 2 ![1, 0]) = some (![1, 0], none) ∧ ValidCounts (![1, 0] : Fin 2 → ℝ) none :=
  ⟨split_vec _, by intro i; fin_cases i <;> simp⟩

/-! ### fit and score -/

/-- **C83** On the training data, at any coefficients (no bound on the linear predictors), the deviance score is `-2 / coef`
times the loss that `fit` minimises: fit and score read the same columns and weights.  For logistic regression this holds
with an offset column.  Missing: probit and complementary log-log regression with an offset (`C83_fit_offset_fails`). -/
theorem C83_fit_score_partial (F : Family) (hn : n ≠ 1) (X : Fin n → Fin p → ℝ) (β : Fin p → ℝ) (s t c o : Fin n → ℝ)
    (hst : ∀ i, 0 ≤ s i ∧ s i ≤ t i) (hc : ∀ i, 0 ≤ c i) {coef : ℝ} (hcoef : 0 < coef)
    (ho : F = .logistic ∨ ∀ i, o i = 0) :
    ∃ f, F.fitted true true coef X (.mat 4 (withColumns (fun i => ![s i, t i]) c o)) β = some f ∧
      (score true true (F.sat .deviance) (Glm.dot X β) (.mat 4 (withColumns (fun i => ![s i, t i]) c o)) none).map
        Prod.fst = some (.num (-2 / coef * f)) := by
  have hv := value_eq F (s := s) (trials := some t) hst zero_le_one none (own := some c)
    (fun v e => by cases e; exact hc) (fun i => Glm.dot X β i - o i) none
  have hv' := value_eq F (s := s) (trials := some t) hst hcoef.le (some o) (own := none)
    (fun v e => by cases e) (Glm.dot X β) (some c)
  refine ⟨_, by
    unfold Family.fitted
    rw [C49_both_columns, squeeze_pair hn]
    simp only [split_pair, Option.getD_some, not_forall, not_le]
    rw [if_neg (by rintro ⟨i, hi⟩; linarith [hc i])]
    exact hv', ?_⟩
  rw [(C49_score_weights (F.sat .deviance) (Glm.dot X β) (fun i => ![s i, t i]) c o fun _ => 1).2.1, squeeze_pair hn]
  simp only [Family.sat, split_pair, hv, Option.map_some, one_mul, Option.getD_some]
  congr 2
  have e0 : ∀ i, usedOffset F (none : Option (Fin n → ℝ)) i = 0 := by intro i; cases F <;> rfl
  have e1 : ∀ i, Glm.dot X β i - usedOffset F (some o) i = Glm.dot X β i - o i := by
    intro i
    rcases ho with rfl | h
    · rfl
    · cases F <;> simp [usedOffset, effOffset, h i]
  simp only [e0, e1, sub_zero, effWeight, Option.elim, one_mul, mul_one]
  field_simp

/-- hypotheses met: two observations with trials, one feature, offset -/
example : ∃ (s t c : Fin 2 → ℝ), (∀ i, 0 ≤ s i ∧ s i ≤ t i) ∧ (∀ i, 0 ≤ c i) :=
  ⟨![1, 3], ![2, 3], ![2, 1], by intro i; fin_cases i <;> norm_num, by intro i; fin_cases i <;> norm_num⟩

/-- **C83** fails for probit and complementary log-log regression with an offset: `fit` minimises a loss that does not depend
on the offset column, while `score` subtracts it. -/
theorem C83_fit_offset_fails (F : Family) (hF : F ≠ .logistic) :
    (∀ {n p : ℕ} (X : Fin n → Fin p → ℝ) (β : Fin p → ℝ) (s t c o o' : Fin n → ℝ) (coef : ℝ), n ≠ 1 → 0 ≤ coef →
      (∀ i, 0 ≤ s i ∧ s i ≤ t i) → (∀ i, 0 ≤ c i) →
      F.fitted true true coef X (.mat 4 (withColumns (fun i => ![s i, t i]) c o)) β =
        F.fitted true true coef X (.mat 4 (withColumns (fun i => ![s i, t i]) c o')) β) ∧
    ∃ (lin s t c o o' : Fin 2 → ℝ) (d d' : ℝ), d ≠ d' ∧
      (score true true (F.sat .deviance) lin (.mat 4 (withColumns (fun i => ![s i, t i]) c o)) none).map Prod.fst =
        some (.num d) ∧
      (score true true (F.sat .deviance) lin (.mat 4 (withColumns (fun i => ![s i, t i]) c o')) none).map Prod.fst =
        some (.num d') := by
  constructor
  · intro n p X β s t c o o' coef hn hcoef hst hc
    have e1 : usedOffset F (some o) = usedOffset F (some o') := by
      cases F with
      | logistic => exact absurd rfl hF
      | probit => rfl
      | cloglog => rfl
    have hv := fun oo : Fin n → ℝ => value_eq F (s := s) (trials := some t) hst hcoef (some oo) (own := none)
      (fun v e => by cases e) (Glm.dot X β) (some c)
    unfold Family.fitted
    rw [C49_both_columns, C49_both_columns, squeeze_pair hn]
    simp only [split_pair, Option.getD_some] at hv ⊢
    rw [hv o, hv o', e1]
  · have hst : ∀ i : Fin 2, 0 ≤ (fun _ => (1:ℝ) : Fin 2 → ℝ) i ∧ (fun _ => (1:ℝ) : Fin 2 → ℝ) i ≤ (fun _ => (1:ℝ) : Fin 2 → ℝ) i :=
      fun i => ⟨zero_le_one, le_refl _⟩
    have hB : (1:ℝ) ≤ F.bound := by cases F <;> norm_num [Family.bound]
    have hd : ∀ a : ℝ, |a| ≤ 1 → (score true true (F.sat .deviance) (fun _ : Fin 2 => (0:ℝ))
        (.mat 4 (withColumns (fun i => ![(fun _ => (1:ℝ) : Fin 2 → ℝ) i, (fun _ => (1:ℝ) : Fin 2 → ℝ) i]) (fun _ => 1)
          fun _ => a)) none).map Prod.fst = some (.num (4 * Real.log (F.inv (-a)))) := by
      intro a ha
      rw [(C49_score_weights (F.sat .deviance) (fun _ : Fin 2 => (0:ℝ)) (fun i =>
        ![(fun _ => (1:ℝ) : Fin 2 → ℝ) i, (fun _ => (1:ℝ) : Fin 2 → ℝ) i]) (fun _ => 1) (fun _ => a) fun _ => 1).2.1,
        squeeze_pair (by decide)]
      have hv := value_nll F (s := fun _ : Fin 2 => (1:ℝ)) (trials := some fun _ => 1) hst (w := some fun _ => 1)
        (fun v e => by cases e; exact fun _ => zero_le_one) (x := fun _ => 0 - a)
        (fun i => by rw [zero_sub, abs_neg]; exact ha.trans hB)
      simp only [Family.sat, split_pair, hv, eff_some, Option.map_some]
      congr 2
      simp only [Family.nll, binomialNll, Fin.sum_univ_two, Option.getD_some, zero_sub]
      ring
    refine ⟨fun _ => 0, fun _ => 1, fun _ => 1, fun _ => 1, fun _ => 0, fun _ => 1, _, _, ?_, hd 0 (by simp), hd 1 (by simp)⟩
    intro h
    have hpos : ∀ x, 0 < F.inv x := by
      cases F with
      | logistic => exact absurd rfl hF
      | probit => exact ncdf_pos
      | cloglog => exact cloglogInv_pos
    have hmono : StrictMono F.inv := by
      cases F with
      | logistic => exact absurd rfl hF
      | probit => exact ncdf_strictMono
      | cloglog => exact cloglogInv_strictMono
    have h1 := Real.log_lt_log (hpos (-1)) (hmono (show (-1:ℝ) < -0 by norm_num))
    linarith

/-! ### R² -/

/-- Every level strictly between 0 and 1 is taken by the normal distribution function. -/
private lemma ncdf_surj {q : ℝ} (h0 : 0 < q) (h1 : q < 1) : ∃ x, ncdf x = q := by
  have hlow : ∀ e : ℝ, 0 < e → ∃ x, ncdf x < e := by
    intro e he
    have hev := (npdf_tendsto.eventually (gt_mem_nhds he)).and (Filter.eventually_le_atBot (-1))
    obtain ⟨x, hx1, hx2⟩ := hev.exists
    refine ⟨x, ?_⟩
    have := ncdf_mills x
    nlinarith [ncdf_pos x]
  obtain ⟨a, ha⟩ := hlow q h0
  obtain ⟨b, hb⟩ := hlow (1 - q) (by linarith)
  have hb' : q < ncdf (-b) := by rw [← nsf_eq_ncdf_neg, nsf_eq]; linarith
  have hab : a < -b := ncdf_strictMono.lt_iff_lt.mp (ha.trans hb')
  have hcont : Continuous ncdf := continuous_iff_continuousAt.mpr fun x => (hasDerivAt_ncdf x).continuousAt
  obtain ⟨x, _, hx⟩ := intermediate_value_Icc hab.le hcont.continuousOn ⟨ha.le, hb'.le⟩
  exact ⟨x, hx⟩

private lemma ncdf_ppf {q : ℝ} (h0 : 0 < q) (h1 : q < 1) : ncdf (normPpf q) = q := by
  obtain ⟨x, rfl⟩ := ncdf_surj h0 h1
  congr 1
  have : {y | ncdf x ≤ ncdf y} = Set.Ici x := by
    ext y; exact ncdf_strictMono.le_iff_le
  rw [normPpf, this, csInf_Ici]

private lemma sigmoid_logit {q : ℝ} (h0 : 0 < q) (h1 : q < 1) : sigmoid (Real.log (q / (1 - q))) = q := by
  have h2 : (0:ℝ) < 1 - q := by linarith
  rw [sigmoid, Real.exp_log (div_pos h0 h2)]
  field_simp
  ring

private lemma inv_mem (F : Family) (x : ℝ) : 0 < F.inv x ∧ F.inv x < 1 := by
  cases F with
  | logistic =>
    have h := Real.exp_pos x
    exact ⟨div_pos h (by linarith), by unfold Family.inv sigmoid; rw [div_lt_one (by linarith)]; linarith⟩
  | probit => exact ⟨ncdf_pos x, ncdf_lt_one x⟩
  | cloglog => exact ⟨cloglogInv_pos x, cloglogInv_lt_one x⟩

/-- cross entropy of success probability `q` against `r` -/
private noncomputable def xent (q r : ℝ) : ℝ := -(q * Real.log r + (1 - q) * Real.log (1 - r))

private lemma xent_le {q r : ℝ} (h0 : 0 < q) (h1 : q < 1) (r0 : 0 < r) (r1 : r < 1) : xent q q ≤ xent q r := by
  have h := C73_deviance_nonneg one_pos h0.le h1.le r0 r1
  rw [halfDeviance, div_one, Real.log_div h0.ne' r0.ne', Real.log_div (by linarith) (by linarith)] at h
  have h := h.1
  unfold xent
  nlinarith

private lemma xent_pos {q r : ℝ} (h0 : 0 < q) (h1 : q < 1) (r0 : 0 < r) (r1 : r < 1) : 0 < xent q r := by
  have a := Real.log_neg r0 r1
  have b := Real.log_neg (by linarith : (0:ℝ) < 1 - r) (by linarith)
  unfold xent
  nlinarith

private lemma const_nll (F : Family) (hn : 0 < n) (s : Fin n → ℝ) (a : ℝ) :
    F.nll (fun _ => 1) s (fun _ => 1) (fun _ => a) = n * xent ((∑ i, s i) / n) (F.inv a) := by
  have hn' : (n:ℝ) ≠ 0 := by positivity
  unfold Family.nll binomialNll xent
  simp only [one_mul]
  rw [Finset.sum_neg_distrib, Finset.sum_add_distrib, ← Finset.sum_mul, ← Finset.sum_mul, Finset.sum_sub_distrib]
  simp only [Finset.sum_const, Finset.card_univ, Fintype.card_fin, nsmul_eq_mul, mul_one]
  field_simp

/-- **C83** `R2` of logistic and probit regression without weights or offset, for a binary response that is not constant: the
null model of the formula has the mean response as success probability, its own score is 0, and every constant predictor
scores at most 0: the null model is the best constant.  The null predictor and the constants are within the bound at which
the losses clip.  Missing: complementary log-log regression (`C83_cloglog_null_fails`), case weights
(`C83_R2_weights_fails`), trials (`C83_R2_trials_fails`). -/
theorem C83_R2_null_partial (F : Family) (hF : F ≠ .cloglog) (s : Fin n → ℝ) (hs : ∀ i, s i = 0 ∨ s i = 1)
    (h0 : 0 < (∑ i, s i) / n) (h1 : (∑ i, s i) / n < 1) (hB : |F.null ((∑ i, s i) / n)| ≤ F.bound) :
    F.inv (F.null ((∑ i, s i) / n)) = (∑ i, s i) / n ∧
    F.sat .R2 (fun _ : Fin n => F.null ((∑ i, s i) / n)) (.d1 n s) none = .num 0 ∧
    ∀ a, |a| ≤ F.bound → ∃ r ≤ 0, F.sat .R2 (fun _ : Fin n => a) (.d1 n s) none = .num r := by
  have hn : 0 < n := by
    rcases Nat.eq_zero_or_pos n with h | h
    · subst h; simp at h0
    · exact h
  have hn' : (0:ℝ) < n := by exact_mod_cast hn
  set q := (∑ i, s i) / n with hq
  have hinv : F.inv (F.null q) = q := by
    cases F with
    | logistic => exact sigmoid_logit h0 h1
    | probit => exact ncdf_ppf h0 h1
    | cloglog => exact absurd rfl hF
  have e1 : effWeight (none : Option (Fin n → ℝ)) none = fun _ => 1 := by funext i; simp [effWeight]
  have hval : ∀ a, |a| ≤ F.bound → F.value s none 1 none none (fun _ => a) none = some (n * xent q (F.inv a)) := by
    intro a ha
    rw [value_nll F (trials := none) hs (fun v e => by cases e) (fun _ => ha), e1]
    exact congrArg some (const_nll F hn s a)
  have hT : 0 < n * xent q (F.inv (F.null q)) := by rw [hinv]; exact mul_pos hn' (xent_pos h0 h1 h0 h1)
  have hsat : ∀ a, |a| ≤ F.bound → F.sat .R2 (fun _ : Fin n => a) (.d1 n s) none =
      .num (1 - 2 * (n * xent q (F.inv a)) / (2 * (n * xent q (F.inv (F.null q))))) := by
    intro a ha
    simp only [Family.sat, split_vec, hval a ha]
    rw [if_pos ⟨h0, h1⟩]
    simp only [← hq, hval _ hB]
    rw [if_neg (by positivity)]
  refine ⟨hinv, ?_, fun a ha => ⟨_, ?_, hsat a ha⟩⟩
  · rw [hsat _ hB, div_self (by positivity), sub_self]
  · have hle := xent_le h0 h1 (inv_mem F a).1 (inv_mem F a).2
    rw [sub_nonpos, le_div_iff₀ (by positivity), one_mul]
    rw [hinv]
    nlinarith

/-- hypotheses met: one success and one failure, logistic regression -/
example : ∃ s : Fin 2 → ℝ, (∀ i, s i = 0 ∨ s i = 1) ∧ 0 < (∑ i, s i) / (2:ℕ) ∧ (∑ i, s i) / (2:ℕ) < 1 ∧
    |Family.null .logistic ((∑ i, s i) / (2:ℕ))| ≤ Family.bound .logistic := by
  refine ⟨![1, 0], by intro i; fin_cases i <;> simp, by simp, by simp; norm_num, ?_⟩
  have : (1:ℝ) / 2 / (1 - 1 / 2) = 1 := by norm_num
  simp only [Fin.sum_univ_two, Matrix.cons_val_zero, Matrix.cons_val_one, Family.null, Family.bound, add_zero, Nat.cast_ofNat,
    this, Real.log_one]
  norm_num

private lemma log2_bounds : (0.69:ℝ) < Real.log 2 ∧ Real.log 2 < 0.7 :=
  ⟨by linarith [Real.log_two_gt_d9], by linarith [Real.log_two_lt_d9]⟩

/-- **C83** fails for complementary log-log regression: the null predictor is a Gumbel quantile, which does not give the mean
response as success probability; for one success and one failure the constant model with probability 1/2 has a positive
`R2`. -/
theorem C83_cloglog_null_fails :
    Family.inv .cloglog (Family.null .cloglog (1 / 2)) ≠ 1 / 2 ∧
    ∃ a r : ℝ, Family.inv .cloglog a = 1 / 2 ∧ 0 < r ∧
      Family.sat .cloglog .R2 (fun _ : Fin 2 => a) (.d1 2 ![1, 0]) none = .num r := by
  obtain ⟨hl1, hl2⟩ := log2_bounds
  have hl0 : 0 < Real.log 2 := by linarith
  have ehalf : -Real.log (1 / 2 : ℝ) = Real.log 2 := by rw [one_div, Real.log_inv, neg_neg]
  have ea : Real.exp (Real.log (Real.log 2)) = Real.log 2 := Real.exp_log hl0
  have eb : Real.exp (-Real.log (Real.log 2)) = (Real.log 2)⁻¹ := by rw [Real.exp_neg, ea]
  have habs : |Real.log (Real.log 2)| ≤ 5 := by
    rw [abs_le]
    constructor
    · have := Real.one_sub_inv_le_log_of_pos hl0
      have h2 : (Real.log 2)⁻¹ ≤ 2 := by
        rw [inv_le_comm₀ hl0 two_pos]; linarith
      linarith
    · have := Real.log_nonpos hl0.le (by linarith)
      linarith
  have hnull : Family.null .cloglog (1 / 2) = -Real.log (Real.log 2) := by
    simp only [Family.null, gumbelPpf, ehalf]
  have hinva : Family.inv .cloglog (Real.log (Real.log 2)) = 1 / 2 := by
    simp only [Family.inv, cloglogInv, ea, Real.exp_neg, Real.exp_log two_pos]; norm_num
  have hne : Family.inv .cloglog (Family.null .cloglog (1 / 2)) ≠ 1 / 2 := by
    rw [hnull]
    intro h
    rw [← hinva] at h
    have := cloglogInv_strictMono.injective h
    have h3 := Real.log_neg hl0 (by linarith)
    linarith
  refine ⟨hne, Real.log (Real.log 2), ?_⟩
  set q : ℝ := (∑ i, (![1, 0] : Fin 2 → ℝ) i) / (2:ℕ) with hq
  have hq2 : q = 1 / 2 := by rw [hq]; simp
  have hval : ∀ a, |a| ≤ 5 → Family.value .cloglog (![1, 0] : Fin 2 → ℝ) none 1 none none (fun _ => a) none =
      some ((2:ℕ) * xent (1 / 2) (Family.inv .cloglog a)) := by
    intro a ha
    have e1 : effWeight (none : Option (Fin 2 → ℝ)) none = fun _ => 1 := by funext i; simp [effWeight]
    rw [value_nll .cloglog (trials := none) (by intro i; fin_cases i <;> simp) (fun v e => by cases e) (fun _ => ha), e1,
      ← hq2]
    exact congrArg some (const_nll .cloglog two_pos _ a)
  have hr := inv_mem .cloglog (Family.null .cloglog (1 / 2))
  set r := Family.inv .cloglog (Family.null .cloglog (1 / 2)) with hrd
  have hlt : xent (1 / 2) (1 / 2) < xent (1 / 2) r := by
    have h1 : r * (1 - r) < 1 / 4 := by
      have : 0 < (r - 1 / 2) ^ 2 := by
        have : r - 1 / 2 ≠ 0 := sub_ne_zero.mpr hne
        positivity
      nlinarith
    have h2 := Real.log_lt_log (mul_pos hr.1 (by linarith [hr.2])) h1
    rw [Real.log_mul hr.1.ne' (by linarith [hr.2]), show (1:ℝ) / 4 = 1 / 2 * (1 / 2) by norm_num,
      Real.log_mul (by norm_num) (by norm_num)] at h2
    unfold xent
    norm_num at h2 ⊢
    linarith
  have hp : 0 < xent (1 / 2) (1 / 2) := xent_pos (by norm_num) (by norm_num) (by norm_num) (by norm_num)
  refine ⟨1 - 2 * ((2:ℕ) * xent (1 / 2) (1 / 2)) / (2 * ((2:ℕ) * xent (1 / 2) r)), hinva, ?_, ?_⟩
  · rw [sub_pos, div_lt_one (by push_cast; linarith)]
    push_cast
    linarith
  · simp only [Family.sat, split_vec, hval _ habs, ← hq, hq2]
    rw [if_pos (by norm_num)]
    rw [hval _ (by rw [hnull, abs_neg]; exact habs), hinva, ← hrd]
    simp only
    rw [if_neg (by push_cast; linarith)]

/-- **C83** fails with case weights: the null model ignores them, so constant predictors can have a positive `R2`.  Logistic
regression, one success of weight 3 and one failure of weight 1, constant probability 3/4. -/
theorem C83_R2_weights_fails :
    ∃ r > 0, Family.sat .logistic .R2 (fun _ : Fin 2 => Real.log 3) (.d1 2 ![1, 0]) (some ![3, 1]) = .num r := by
  have hs : ValidCounts (![1, 0] : Fin 2 → ℝ) none := by intro i; fin_cases i <;> simp
  have hw : ∀ v, (some ![3, 1] : Option (Fin 2 → ℝ)) = some v → ∀ i, 0 ≤ v i := by
    intro v e; cases e; intro i; fin_cases i <;> norm_num
  have l3 : |Real.log 3| ≤ 100 := by
    rw [abs_of_pos (Real.log_pos (by norm_num))]
    have := Real.log_le_sub_one_of_pos (show (0:ℝ) < 3 by norm_num)
    linarith
  have hv : ∀ a, |a| ≤ 100 → Family.value .logistic (![1, 0] : Fin 2 → ℝ) none 1 none (some ![3, 1]) (fun _ => a) none =
      some (4 * Real.log (1 + Real.exp a) - 3 * a) := by
    intro a ha
    rw [value_eq .logistic hs zero_le_one none hw]
    congr 1
    simp only [Fin.sum_univ_two, effWeight, usedOffset, effOffset, cell, Option.elim, sub_zero, Loss.logExp,
      if_pos (abs_le.mp ha).2, Option.getD_none, Matrix.cons_val_zero, Matrix.cons_val_one]
    ring
  have hv3 := hv _ l3
  have hv0 := hv 0 (by norm_num)
  rw [Real.exp_log (by norm_num)] at hv3
  simp only [Real.exp_zero, mul_zero, sub_zero] at hv0
  have e4 : Real.log (1 + 3) = 2 * Real.log 2 := by
    rw [show (1:ℝ) + 3 = 2 ^ 2 by norm_num, Real.log_pow]; norm_num
  have h2 : 0 < Real.log 2 := Real.log_pos (by norm_num)
  have h3 : 4 * Real.log 2 < 3 * Real.log 3 := by
    have := Real.log_lt_log (show (0:ℝ) < 2 ^ 4 by norm_num) (show (2:ℝ) ^ 4 < 3 ^ 3 by norm_num)
    rw [Real.log_pow, Real.log_pow] at this
    norm_num at this
    linarith
  have hmean : (∑ i, (![1, 0] : Fin 2 → ℝ) i) / (2:ℕ) = 1 / 2 := by simp
  have hnull : Family.null .logistic (1 / 2) = 0 := by
    have : (1:ℝ) / 2 / (1 - 1 / 2) = 1 := by norm_num
    simp only [Family.null, this, Real.log_one]
  refine ⟨_, ?_, by
    simp only [Family.sat, split_vec, hv3, hmean, hnull, hv0]
    rw [if_pos (by norm_num), if_neg (by norm_num)]⟩
  rw [gt_iff_lt, sub_pos, div_lt_one (by norm_num; linarith), e4]
  norm_num
  linarith

/-- **C83** fails for responses with trials: `R2` and `accuracy` raise for every two column response (three observations or
more). -/
theorem C83_R2_trials_fails (F : Family) (hn : 3 ≤ n) (pred s t : Fin n → ℝ) (w : Option (Fin n → ℝ))
    (hst : ∀ i, 0 ≤ s i ∧ s i ≤ t i) (hw : ∀ v, w = some v → ∀ i, 0 ≤ v i) :
    F.sat .R2 pred (.d2 n 2 fun i => ![s i, t i]) w = .error ∧
      F.sat .accuracy pred (.d2 n 2 fun i => ![s i, t i]) w = .error := by
  have hv := value_eq F (s := s) (trials := some t) hst zero_le_one none hw pred none
  constructor
  · simp only [Family.sat, split_pair, hv]
  · simp only [Family.sat, split_pair]

/-! ### predicted probabilities and labels -/

/-- **C83** `predict_proba` of the logistic and probit classifiers is a probability, and `predict` is `True` exactly when it
exceeds one half.  For complementary log-log it is the model probability.  Missing: labels of the complementary log-log
classifier (`C83_cloglog_label_fails`). -/
theorem C83_labels_partial (F : Family) (X : Fin n → Fin p → ℝ) (β : Fin p → ℝ) (i : Fin n) :
    F.proba X β i = F.inv (Glm.dot X β i) ∧ 0 < F.proba X β i ∧ F.proba X β i < 1 ∧
    (F ≠ .cloglog → (1 / 2 < F.proba X β i ↔ predictLabel X β i)) := by
  have e : F.proba X β i = F.inv (Glm.dot X β i) := by cases F <;> rfl
  refine ⟨e, e ▸ (inv_mem F _).1, e ▸ (inv_mem F _).2, fun hF => ?_⟩
  cases F with
  | logistic => exact (C49_logistic_proba X β i).2.2
  | probit =>
    have h0 : ncdf 0 = 1 / 2 := by
      have h1 := ncdf_add_nsf 0
      rw [nsf_eq_ncdf_neg, neg_zero] at h1
      linarith
    change 1 / 2 < ncdf _ ↔ _
    rw [← h0, ncdf_strictMono.lt_iff_lt]
    rfl
  | cloglog => exact absurd rfl hF

/-- **C83** fails for the complementary log-log classifier: at linear predictor 0 the predicted probability is `1 - 1/e`,
more than one half, but the label is `False`. -/
theorem C83_cloglog_label_fails : ∃ (X : Fin 1 → Fin 1 → ℝ) (β : Fin 1 → ℝ),
    1 / 2 < Family.proba .cloglog X β 0 ∧ ¬ predictLabel X β 0 := by
  refine ⟨fun _ _ => 1, fun _ => 0, ?_, ?_⟩
  · simp only [Family.proba, Glm.dot, mul_zero, Finset.sum_const_zero, Real.exp_zero]
    have h1 : (2:ℝ) < Real.exp 1 := by linarith [Real.exp_one_gt_d9]
    have h2 : Real.exp (-1) < 1 / 2 := by
      rw [Real.exp_neg, one_div]
      exact inv_strictAnti₀ two_pos h1
    linarith
  · simp [predictLabel, Glm.dot]

private lemma foldl_argmax {k : ℕ} (v : Fin (k + 1) → ℝ) (l : List (Fin k)) (b : Fin (k + 1)) :
    let r := l.foldl (fun b j => open Classical in if v b < v j.succ then j.succ else b) b
    v b ≤ v r ∧ (∀ j ∈ l, v j.succ ≤ v r) := by
  induction l generalizing b with
  | nil => exact ⟨le_refl _, by simp⟩
  | cons j l ih =>
    simp only [List.foldl_cons]
    classical
    split_ifs with h
    · obtain ⟨h1, h2⟩ := ih j.succ
      exact ⟨h.le.trans h1, by rintro i (_ | ⟨_, hi⟩); exacts [h1, h2 i hi]⟩
    · obtain ⟨h1, h2⟩ := ih b
      exact ⟨h1, by rintro i (_ | ⟨_, hi⟩); exacts [(not_lt.mp h).trans h1, h2 i hi]⟩

/-- **C83** The label predicted by the multinomial classifier has the largest fitted (softmax) probability, for any number of
classes and observations. -/
theorem C83_multinomial_label {k : ℕ} (v : Fin (k + 1) → ℝ) :
    ∃ j, argmaxRow v = some j ∧
      ∀ i, Real.exp (v i) / ∑ l, Real.exp (v l) ≤ Real.exp (v j) / ∑ l, Real.exp (v l) := by
  refine ⟨_, rfl, fun i => ?_⟩
  have h := foldl_argmax v (List.finRange k) 0
  have hle : v i ≤ v ((List.finRange k).foldl (fun b j => open Classical in if v b < v j.succ then j.succ else b) 0) := by
    rcases Fin.eq_zero_or_eq_succ i with rfl | ⟨j, rfl⟩
    · exact h.1
    · exact h.2 j (List.mem_finRange j)
  have hpos : 0 < ∑ l, Real.exp (v l) := Finset.sum_pos (fun l _ => Real.exp_pos _) Finset.univ_nonempty
  exact div_le_div_of_nonneg_right (Real.exp_le_exp.mpr hle) hpos.le

/-! ### Huber and Cox regression -/

private lemma huberLoss_eq (y : Fin n → ℝ) {eps : ℝ} (he : 0 < eps) {w : Option (Fin n → ℝ)}
    (hw : ∀ v, w = some v → ∀ i, 0 ≤ v i) (x : Fin n → ℝ) :
    huberLoss y eps w x = some (∑ i, effWeight w none i * huberFn eps (x i - y i)) := by
  unfold huberLoss
  rw [loss_init _ zero_le_one (by simp [Loss.dataError]) none _ w hw]
  obtain ⟨G, hG, _⟩ := C28_huber ⟨.huber y eps, 1, none, Loss.devQuad 1 (.huber y eps) (Quad.init none none none none), w⟩
    y eps he rfl none
  have hx := (hG x).1
  dsimp only at hx ⊢
  rw [hx]
  simp [totalLoss, effOffset]

/-- **C83** Huber regression: the `deviance` score is minus the weighted sum of Huber functions of the residuals of the
predictions; `mean_deviance` divides it by the number of observations. -/
theorem C83_huber_deviance (pred y : Fin n → ℝ) {eps : ℝ} (he : 0 < eps) (w : Option (Fin n → ℝ))
    (hw : ∀ v, w = some v → ∀ i, 0 ≤ v i) :
    huberScore .deviance eps pred y w = .num (-∑ i, effWeight w none i * huberFn eps (pred i - y i)) ∧
    huberScore .meanDeviance eps pred y w = .num ((-∑ i, effWeight w none i * huberFn eps (pred i - y i)) / n) := by
  simp only [huberScore, huberLoss_eq y he hw, and_self]

/-- **C83** Huber regression: at any coefficients the deviance score of `X.dot(beta) - offset` is `-1 / coef` times the loss
that `fit` minimises. -/
theorem C83_huber_fit_score (X : Fin n → Fin p → ℝ) (β : Fin p → ℝ) (y c o : Fin n → ℝ) {eps coef : ℝ} (he : 0 < eps)
    (hcoef : 0 < coef) (hc : ∀ i, 0 ≤ c i) :
    ∃ f, huberFitted coef eps X y (some c) (some o) β = some f ∧
      huberScore .deviance eps (fun i => Glm.dot X β i - o i) y (some c) = .num (-1 / coef * f) := by
  refine ⟨coef * ∑ i, c i * huberFn eps (Glm.dot X β i - o i - y i), ?_, ?_⟩
  · unfold huberFitted Glm.build
    rw [loss_init _ hcoef.le (by simp [Loss.dataError]) (some o) _ none (fun v e => by cases e)]
    dsimp only
    unfold Glm.init
    dsimp only
    rw [if_neg (not_not.mpr hc)]
    obtain ⟨G, hG, _⟩ := C28_huber ⟨.huber y eps, coef, some o, Loss.devQuad coef (.huber y eps)
      (Quad.init none none none none), none⟩ y eps he rfl (some c)
    have hx := (hG (Glm.dot X β)).1
    dsimp only [Glm.smoothObjective, Smooth.applyOffset] at hx ⊢
    rw [hx]
    simp [totalLoss, effOffset, effWeight]
  · rw [(C83_huber_deviance _ y he (some c) (fun v e => by cases e; exact hc)).1, eff_some]
    congr 1
    field_simp

/-- hypotheses met -/
example : ∃ (X : Fin 2 → Fin 1 → ℝ) (y c o : Fin 2 → ℝ) (eps coef : ℝ), 0 < eps ∧ 0 < coef ∧ ∀ i, 0 ≤ c i :=
  ⟨fun _ _ => 1, ![3, -1], ![1, 2], ![0, 1], 1 / 2, 2, by norm_num, by norm_num, by intro i; fin_cases i <;> norm_num⟩

/-- **C83** fails for `R2` of Huber regression: the null model predicts the mean response, which is not the best constant for
the Huber loss.  Responses 0, 0, 0, 4 and smoothing parameter 1: the constant 0 has `R2 = 1/8`. -/
theorem C83_huber_null_fails :
    huberScore .R2 1 (fun _ : Fin 4 => 0) ![0, 0, 0, 4] none = .num (1 / 8) := by
  have e : ∀ x, huberLoss (![0, 0, 0, 4] : Fin 4 → ℝ) 1 none x = _ :=
    huberLoss_eq _ one_pos (fun v e => by cases e)
  simp only [huberScore, e, Fin.sum_univ_four, effWeight, Option.elim]
  have h0 : huberFn 1 (0:ℝ) = 0 := by norm_num [huberFn]
  have h1 : huberFn 1 (1:ℝ) = 1 / 2 := by norm_num [huberFn]
  have h4 : huberFn 1 (-4:ℝ) = 7 / 2 := by norm_num [huberFn, abs_of_neg]
  have h3 : huberFn 1 (-3:ℝ) = 5 / 2 := by norm_num [huberFn, abs_of_neg]
  have m2 : (![0, 0, 0, 4] : Fin 4 → ℝ) 2 = 0 := rfl
  have m3 : (![0, 0, 0, 4] : Fin 4 → ℝ) 3 = 4 := rfl
  norm_num [h0, h1, h3, h4, m2, m3]

private lemma coxLoss_eq (T : Fin n → ℝ) (cens : Fin n → ℕ) (w : Fin n → ℝ) (hw : ∀ i, 0 ≤ w i) (hr : RiskPositive T w)
    {σ : Equiv.Perm (Fin n)} (hσ : IsArgsort T σ) (x : Fin n → ℝ) :
    coxLoss T cens (some w) σ x = some (some (coxNll T cens w x)) := by
  have h : CoxLoss.init T cens 1 none (some w) σ =
      some ⟨T, cens, σ, Cox.rankmin T, Cox.rankmax T, 1, none, w, Cox.zeroBuffers n⟩ := by
    simp only [CoxLoss.init, Smooth.atomInit, if_neg (not_lt.mpr zero_le_one), if_neg (not_not.mpr hw)]
  have ew : effWeight (some w) none = w := eff_some w
  obtain ⟨g, hg, _⟩ := C51_value_partial _ (.init hσ h) none (fun a e => by cases e) (by rw [ew]; exact hr)
  unfold coxLoss
  rw [h]
  dsimp only
  rw [(hg x).1]
  simp [ew, effOffset]

/-- **C83** Cox regression, weights such that every risk set has positive weight: the `deviance` score is minus twice the
negative log partial likelihood of the predictions, and `mean_deviance` divides it by the number of cases. -/
theorem C83_cox_deviance (pred T : Fin n → ℝ) (cens : Fin n → ℕ) (w : Fin n → ℝ) (hw : ∀ i, 0 ≤ w i)
    (hr : RiskPositive T w) {σ : Equiv.Perm (Fin n)} (hσ : IsArgsort T σ) :
    coxScore .deviance pred T cens (some w) σ = .num (-2 * coxNll T cens w pred) ∧
    coxScore .meanDeviance pred T cens (some w) σ = .num (-2 * coxNll T cens w pred / n) := by
  simp only [coxScore, coxLoss_eq T cens w hw hr hσ, and_self]

/-- **C83** Cox regression without weights scores like unit weights, for every method. -/
theorem C83_cox_unweighted (m : Method) (pred T : Fin n → ℝ) (cens : Fin n → ℕ) (σ : Equiv.Perm (Fin n)) :
    coxScore m pred T cens none σ = coxScore m pred T cens (some fun _ => 1) σ := by
  have h : ∀ x, coxLoss T cens none σ x = coxLoss T cens (some fun _ => 1) σ x := fun x => rfl
  simp only [coxScore, h]

private lemma coxNll_const (T : Fin n → ℝ) (cens : Fin n → ℕ) (w : Fin n → ℝ) (hw : ∀ i, 0 ≤ w i) (hr : RiskPositive T w)
    (a : ℝ) : coxNll T cens w (fun _ => a) = coxNll T cens w (fun _ => 0) := by
  unfold coxNll
  refine Finset.sum_congr rfl fun i _ => ?_
  congr 1
  have e : riskTotal T w (fun _ => a) i = riskTotal T w (fun _ => 0) i * Real.exp a := by
    unfold riskTotal
    rw [Finset.sum_mul]
    exact Finset.sum_congr rfl fun j _ => by rw [Real.exp_zero, mul_one]
  have hp : 0 < riskTotal T w (fun _ => 0) i := by
    obtain ⟨j, hj, hwj⟩ := hr i
    unfold riskTotal
    classical
    refine Finset.sum_pos' (fun j _ => mul_nonneg (hw j) (Real.exp_pos _).le) ⟨j, ?_, mul_pos hwj (Real.exp_pos _)⟩
    simpa using hj
  rw [e, Real.log_mul hp.ne' (Real.exp_pos a).ne', Real.log_exp]
  ring

/-- **C83** fails for `R2` of Cox regression: predictions without any information (all equal) score `-1` instead of 0, because
the deviance of the null model is not doubled, for every data set whose null deviance is not 0. -/
theorem C83_cox_R2_fails (T : Fin n → ℝ) (cens : Fin n → ℕ) (w : Fin n → ℝ) (hw : ∀ i, 0 ≤ w i)
    (hr : RiskPositive T w) {σ : Equiv.Perm (Fin n)} (hσ : IsArgsort T σ) (h0 : coxNll T cens w (fun _ => 0) ≠ 0) (a : ℝ) :
    coxScore .R2 (fun _ => a) T cens (some w) σ = .num (-1) := by
  simp only [coxScore, coxLoss_eq T cens w hw hr hσ, coxNll_const T cens w hw hr]
  rw [if_neg h0]
  congr 1
  field_simp
  norm_num

/-- hypotheses met: two events at times 1 and 2, null deviance `log 2` -/
example : ∃ (T : Fin 2 → ℝ) (cens : Fin 2 → ℕ) (w : Fin 2 → ℝ) (σ : Equiv.Perm (Fin 2)), (∀ i, 0 ≤ w i) ∧
    RiskPositive T w ∧ IsArgsort T σ ∧ coxNll T cens w (fun _ => 0) ≠ 0 := by
  refine ⟨![1, 2], ![1, 1], ![1, 1], Equiv.refl _, by intro i; fin_cases i <;> norm_num, ?_, ?_, ?_⟩
  · intro i
    exact ⟨i, le_refl _, by fin_cases i <;> norm_num⟩
  · intro a b h
    fin_cases a <;> fin_cases b <;> simp_all
  · have h0 : riskTotal (![1, 2] : Fin 2 → ℝ) ![1, 1] (fun _ => 0) 0 = 2 := by
      rw [riskTotal, Finset.sum_filter, Fin.sum_univ_two]; norm_num
    have h1 : riskTotal (![1, 2] : Fin 2 → ℝ) ![1, 1] (fun _ => 0) 1 = 1 := by
      classical
      simp [riskTotal, Finset.sum_filter, Fin.sum_univ_two]
    simp only [coxNll, Fin.sum_univ_two, h0, h1, Real.log_one]
    norm_num

end Verif.Props
