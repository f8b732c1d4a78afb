import Verif.Model.ScoresMulti
import Verif.Props.C28_Gradients
import Verif.Props.C28_Multi
import Mathlib.Analysis.Complex.ExponentialBounds

/-!
# C87: scores and probabilities of the Huber SVM and multinomial estimators
-/

set_option linter.unusedSectionVars false
set_option linter.unusedVariables false

namespace Verif.Props
open Verif.Model Verif.Model.Sklearn Verif.Lemmas Verif.Spec

variable {n p k : ℕ}

/-! ### Huber SVM -/

private lemma svmLoss_eq (y : Fin n → ℝ) (eps : ℝ) {w : Option (Fin n → ℝ)} (hw : ∀ v, w = some v → ∀ i, 0 ≤ v i) (x : Fin n → ℝ) :
    svmLoss y eps w x = some (∑ i, effWeight w none i * (Loss.huberSvmPair eps ((2 * y i - 1) * x i)).1) := by
  unfold svmLoss
  rw [loss_init _ zero_le_one (by simp [Loss.dataError]) none _ w hw]
  dsimp only
  cases w with
  | none => simp [Loss.smoothObjective, Smooth.applyOffset, Loss.cw, scaleR_eq, effWeight]
  | some w => simp [Loss.smoothObjective, Smooth.applyOffset, Loss.cw, scaleR_eq, effWeight, mul_comm]

private lemma pair_one (z : ℝ) : (Loss.huberSvmPair 1 z).1 = smoothHinge 1 z := by
  rw [huberSvmPair_one]
  unfold smoothHinge
  by_cases h : 1 ≤ z
  · rw [if_pos h, max_eq_left (by simp; exact Or.inl h)]; norm_num
  · push Not at h
    rw [if_neg (not_le.2 h)]
    by_cases h' : 1 - 1 ≤ z
    · have h2 : (1 - z) / 1 ≤ 1 := by rw [div_one]; linarith
      rw [if_pos h', min_eq_left h2, max_eq_right (by rw [div_one]; linarith)]; ring
    · push Not at h'
      have h2 : 1 ≤ (1 - z) / 1 := by rw [div_one]; linarith
      rw [if_neg (not_le.2 h'), min_eq_right h2, max_eq_right zero_le_one]; ring

/-- **C87** Huber SVM with smoothing parameter 1: the `deviance` score is minus the weighted sum of smoothed hinge losses of the
predictions at the margins `(2 yᵢ - 1) ŷᵢ`; `mean_deviance` divides it by the number of observations.  Missing: any other
smoothing parameter (`C87_svm_deviance_fails`). -/
theorem C87_svm_deviance_partial (pred y : Fin n → ℝ) (w : Option (Fin n → ℝ)) (hw : ∀ v, w = some v → ∀ i, 0 ≤ v i) :
    svmScore .deviance 1 pred y w = .num (-∑ i, effWeight w none i * smoothHinge 1 ((2 * y i - 1) * pred i)) ∧
    svmScore .meanDeviance 1 pred y w = .num (-(∑ i, effWeight w none i * smoothHinge 1 ((2 * y i - 1) * pred i)) / n) := by
  simp only [svmScore, svmLoss_eq y 1 hw, pair_one, and_self]

example : ∀ v, (some ![1, 2] : Option (Fin 2 → ℝ)) = some v → ∀ i, 0 ≤ v i := by
  rintro v ⟨⟩ i; fin_cases i <;> norm_num

/-- **C87** Huber SVM, every smoothing parameter: on the training data, at any coefficients, the `deviance` score is `-1/coef` times
the loss that `fit` minimises, with case weights and an offset column (which the score subtracts from the predictions). -/
theorem C87_svm_fit_score (X : Fin n → Fin p → ℝ) (β : Fin p → ℝ) (y : Fin n → ℝ) (eps : ℝ) {coef : ℝ} (hc : 0 < coef)
    (w o : Option (Fin n → ℝ)) (hw : ∀ v, w = some v → ∀ i, 0 ≤ v i) :
    ∃ f, svmFitted coef eps X y w o β = some f ∧
      svmScore .deviance eps (fun i => (∑ j, X i j * β j) - o.elim 0 fun o => o i) y w = .num (-1 / coef * f) := by
  have hbuild : Glm.build X (.huberSvm y eps) coef o none w = some ⟨X, ⟨.huberSvm y eps, coef, o,
      Loss.devQuad coef (.huberSvm y eps) (Quad.init none none none none), none⟩, none, w.getD fun _ => 1⟩ := by
    unfold Glm.build
    rw [loss_init _ hc.le (by simp [Loss.dataError]) o _ none (by rintro v ⟨⟩)]
    simp only [Glm.init]
    cases w with
    | none => rw [if_neg (by simp)]; rfl
    | some w => rw [if_neg (by simpa using hw w rfl)]; rfl
  refine ⟨coef * ∑ i, effWeight w none i *
    (Loss.huberSvmPair eps ((2 * y i - 1) * ((∑ j, X i j * β j) - o.elim 0 fun o => o i))).1, ?_, ?_⟩
  · unfold svmFitted
    rw [hbuild]
    dsimp only
    have hsum : ∀ x : Fin n → ℝ, ∀ c : Fin n → ℝ, ∑ i, (Loss.huberSvmPair eps ((2 * y i - 1) * x i)).1 * c i =
        ∑ i, c i * (Loss.huberSvmPair eps ((2 * y i - 1) * x i)).1 := fun x c => Finset.sum_congr rfl fun i _ => mul_comm _ _
    have hcw : effWeight w none = (w.getD fun _ => 1 : Fin n → ℝ) := by
      funext i; cases w <;> simp [effWeight]
    cases o with
    | none => simp [Glm.smoothObjective, Loss.smoothObjective, Smooth.applyOffset, Loss.cw, scaleR_eq, Glm.dot, hcw, mul_comm]
    | some o => simp [Glm.smoothObjective, Loss.smoothObjective, Smooth.applyOffset, Loss.cw, scaleR_eq, Glm.dot, hcw, mul_comm]
  · simp only [svmScore, svmLoss_eq y eps hw]
    congr 1
    field_simp

/-- **C87** fails for every other smoothing parameter: one success predicted with margin `1 - 2 eps` scores `-(2 - eps/2)`, the
smoothed hinge loss is `3/2 eps`. -/
theorem C87_svm_deviance_fails (eps : ℝ) (he : 0 < eps) (hne : eps ≠ 1) :
    ∃ (pred y : Fin 1 → ℝ) (d : ℝ), svmScore .deviance eps pred y none = .num d ∧
      d ≠ -∑ i, smoothHinge eps ((2 * y i - 1) * pred i) := by
  refine ⟨fun _ => 1 - 2 * eps, fun _ => 1, -(2 - eps / 2), ?_, ?_⟩
  · have hw : ∀ v, (none : Option (Fin 1 → ℝ)) = some v → ∀ i, 0 ≤ v i := by rintro v ⟨⟩
    simp only [svmScore, svmLoss_eq _ eps hw, effWeight]
    have e : (1 - (1 - 2 * eps)) / eps = 2 := by field_simp; ring
    have h2 : (Loss.huberSvmPair eps (1 - 2 * eps)).1 = 2 - eps / 2 := by
      unfold Loss.huberSvmPair
      rw [e]; norm_num
    norm_num
    rw [h2]
    ring
  · have h1 : smoothHinge eps (1 - 2 * eps) = 3 / 2 * eps := by
      unfold smoothHinge
      rw [if_neg (by linarith), if_neg (by linarith)]; ring
    norm_num
    rw [h1]
    intro h
    apply hne
    linarith

/-- **C87** fails for `R2` of the Huber SVM: the null predictor is the mean of the 0/1 response, never negative, so when failures are in
the majority a constant predictor has a positive `R2`.  Three failures, one success, smoothing parameter 1. -/
theorem C87_svm_R2_fails : ∃ r > 0, svmScore .R2 1 (fun _ : Fin 4 => -1) ![0, 0, 0, 1] none = .num r := by
  have hw : ∀ v, (none : Option (Fin 4 → ℝ)) = some v → ∀ i, 0 ≤ v i := by rintro v ⟨⟩
  refine ⟨1 - (3 / 2) / (9 / 4 + 9 / 32), by norm_num, ?_⟩
  simp only [svmScore, svmLoss_eq _ 1 hw, pair_one]
  have e1 : ∑ i, effWeight (none : Option (Fin 4 → ℝ)) none i * smoothHinge 1 ((2 * (![0, 0, 0, 1] : Fin 4 → ℝ) i - 1) * -1) = 3 / 2 := by
    simp [Fin.sum_univ_four, effWeight, smoothHinge]; norm_num
  have e2 : (∑ i, (![0, 0, 0, 1] : Fin 4 → ℝ) i) / (4 : ℕ) = 1 / 4 := by simp [Fin.sum_univ_four]
  have e3 : ∑ i, effWeight (none : Option (Fin 4 → ℝ)) none i * smoothHinge 1 ((2 * (![0, 0, 0, 1] : Fin 4 → ℝ) i - 1) * (1 / 4)) =
      9 / 4 + 9 / 32 := by
    simp [Fin.sum_univ_four, effWeight, smoothHinge]; norm_num
  rw [e1, e2, e3, if_neg (by norm_num)]

/-! ### multinomial regression -/

private lemma multi_init (c : Fin n → Fin k → ℝ) (hc : ∀ i j, 0 ≤ c i j) {w : Option (Fin n → ℝ)} (hw : ∀ v, w = some v → ∀ i, 0 ≤ v i) :
    MultiLoss.init ⟨fun _ => w.getD fun _ => 1, 1⟩ (.full c) 1 none (w.map fun _ => 0) =
      some ⟨.full c, 1, none, w.map fun _ => 0⟩ := by
  unfold MultiLoss.init
  rw [if_neg (by norm_num), if_neg, if_neg]
  · rintro ⟨r, hr, h⟩
    cases w with
    | none => cases hr
    | some w => exact h (hw w rfl)
  · rintro ⟨i, j, h⟩
    exact absurd (hc i j) (not_le.2 h)

private lemma multiLoss_eq (hk : 0 < k) (c : Fin n → Fin k → ℝ) (hc : ∀ i j, 0 ≤ c i j) {w : Option (Fin n → ℝ)}
    (hw : ∀ v, w = some v → ∀ i, 0 ≤ v i) (x : Fin n → Fin k → ℝ) :
    (∃ f, multiLoss c w x = some f) ∧
      ((∀ i j, |x i j| ≤ 50) → multiLoss c w x = some (∑ i, multinomialNll (c i) (x i))) := by
  obtain ⟨F, G, h1, h2, _⟩ := C28_multinomial_partial hk ⟨.full c, 1, none, w.map fun _ => 0⟩ none
  have e : multiLoss c w x = some (F x) := by
    unfold multiLoss
    rw [multi_init c hc hw]
    dsimp only
    rw [(h1 x).1]
  refine ⟨⟨_, e⟩, fun hx => ?_⟩
  rw [e, h2 x (fun i j => by simpa [matOr] using hx i j)]
  simp [wtOr, countsNll, matOr]

/-- **C87** multinomial regression without weights: where no prediction exceeds 50 in absolute value the `deviance` score is minus twice
the multinomial negative log likelihood of the counts, and `mean_deviance` divides it by the number of observations.
Missing: weights (`C87_multinomial_weights_fails`) and larger predictions, which the loss clips. -/
theorem C87_multinomial_deviance_partial (hk : 0 < k) (pred c : Fin n → Fin k → ℝ) (hc : ∀ i j, 0 ≤ c i j)
    (hp : ∀ i j, |pred i j| ≤ 50) :
    multiDeviance false pred c none = .num (-2 * ∑ i, multinomialNll (c i) (pred i)) ∧
    multiDeviance true pred c none = .num (-2 * (∑ i, multinomialNll (c i) (pred i)) / n) := by
  unfold multiDeviance
  rw [(multiLoss_eq hk c hc (w := none) (by rintro v ⟨⟩) pred).2 hp]
  exact ⟨rfl, rfl⟩

private lemma multiFitted_eq (hk : 0 < k) (X : Fin n → Fin p → ℝ) (B : Fin p → Fin k → ℝ) (c : Fin n → Fin k → ℝ)
    (hc : ∀ i j, 0 ≤ c i j) {coef : ℝ} (hcoef : 0 ≤ coef) (w : Option (Fin n → ℝ))
    (hp : ∀ i j, |∑ l, X i l * B l j| ≤ 50) :
    multiFitted coef X c w B = some (coef * ∑ i, wtOr w i * multinomialNll (c i) fun j => ∑ l, X i l * B l j) := by
  have hinit : MultiLoss.init ⟨fun _ _ => 1, 0⟩ (.full c) coef none none = some ⟨.full c, coef, none, none⟩ := by
    unfold MultiLoss.init
    rw [if_neg (not_lt.2 hcoef), if_neg, if_neg]
    · rintro ⟨r, hr, h⟩
      cases hr
    · rintro ⟨i, j, h⟩
      exact absurd (hc i j) (not_le.2 h)
  unfold multiFitted Mglm.multinomial
  rw [hinit]
  dsimp only [Option.map]
  obtain ⟨F, D, h1, h2, _⟩ := C28_mglm_partial hk (Mglm.init X (⟨.full c, coef, none, none⟩ : MultiLoss n k) none w)
  have hpred : ∀ i j, predictor (Mglm.init X (⟨.full c, coef, none, none⟩ : MultiLoss n k) none w) B i j = ∑ l, X i l * B l j := by
    intro i j
    simp [predictor, Mglm.init, matOr]
  rw [(h1 B).1]
  dsimp only
  rw [h2 B (fun i j => by rw [hpred]; exact hp i j)]
  congr 2
  refine Finset.sum_congr rfl fun i _ => ?_
  have e1 : (Mglm.init X (⟨.full c, coef, none, none⟩ : MultiLoss n k) none w).caseWeights i = wtOr w i := by
    cases w <;> rfl
  rw [e1]
  congr 1
  show multinomialNll (c i) _ = _
  congr 1
  funext j
  exact hpred i j

/-- **C87** multinomial regression without weights: on the training data the `deviance` score is `-2/coef` times the loss `fit`
minimises (no prediction beyond 50). -/
theorem C87_multinomial_fit_score_partial (hk : 0 < k) (X : Fin n → Fin p → ℝ) (B : Fin p → Fin k → ℝ) (c : Fin n → Fin k → ℝ)
    (hc : ∀ i j, 0 ≤ c i j) {coef : ℝ} (hcoef : 0 < coef) (hp : ∀ i j, |∑ l, X i l * B l j| ≤ 50) :
    ∃ f, multiFitted coef X c none B = some f ∧
      multiDeviance false (fun i j => ∑ l, X i l * B l j) c none = .num (-2 / coef * f) := by
  refine ⟨_, multiFitted_eq hk X B c hc hcoef.le none hp, ?_⟩
  rw [(C87_multinomial_deviance_partial hk _ c hc hp).1]
  congr 1
  simp only [wtOr, Option.elim, one_mul]
  field_simp

/-- hypotheses met: two observations, three classes -/
example : (∀ i j, 0 ≤ (fun (i : Fin 2) (j : Fin 3) => if (i : ℕ) = j then (1:ℝ) else 0) i j) ∧
    ∀ (i : Fin 2) (j : Fin 3), |∑ l : Fin 1, (1:ℝ) * (j : ℝ)| ≤ 50 := by
  refine ⟨fun i j => by dsimp only; split_ifs <;> norm_num, fun i j => ?_⟩
  fin_cases j <;> norm_num

/-- **C87** fails with case weights: `fit` minimises the weighted loss, but the score does not depend on the weights, for any data; so
for the weights 2 of a single observation the score is not `-2/coef` times the fitted loss. -/
theorem C87_multinomial_weights_fails :
    (∀ {n k : ℕ} (hk : 0 < k) (mean : Bool) (pred c : Fin n → Fin k → ℝ) (hc : ∀ i j, 0 ≤ c i j) (w : Fin n → ℝ),
      (∀ i, 0 ≤ w i) → multiDeviance mean pred c (some w) = multiDeviance mean pred c none) ∧
    ∃ (X : Fin 1 → Fin 1 → ℝ) (B : Fin 1 → Fin 2 → ℝ) (c : Fin 1 → Fin 2 → ℝ) (w : Fin 1 → ℝ) (f d : ℝ),
      multiFitted 1 X c (some w) B = some f ∧
      multiDeviance false (fun i j => ∑ l, X i l * B l j) c (some w) = .num d ∧ d ≠ -2 * f := by
  have hall : ∀ {n k : ℕ} (hk : 0 < k) (mean : Bool) (pred c : Fin n → Fin k → ℝ) (hc : ∀ i j, 0 ≤ c i j) (w : Fin n → ℝ),
      (∀ i, 0 ≤ w i) → multiDeviance mean pred c (some w) = multiDeviance mean pred c none := by
    intro n k hk mean pred c hc w hw
    unfold multiDeviance multiLoss
    rw [multi_init c hc (w := some w) (by rintro v ⟨⟩; exact hw), multi_init c hc (w := none) (by rintro v ⟨⟩)]
    rfl
  refine ⟨hall, fun _ _ => 0, fun _ _ => 0, fun _ j => if j = 0 then 1 else 0, fun _ => 2, 2 * Real.log 2, -2 * Real.log 2, ?_, ?_, ?_⟩
  · rw [multiFitted_eq (by norm_num) _ _ _ (by intro i j; split_ifs <;> norm_num) zero_le_one _ (by simp)]
    simp [wtOr, multinomialNll]
  · rw [hall (by norm_num) _ _ _ (by intro i j; split_ifs <;> norm_num) _ (by simp),
      (C87_multinomial_deviance_partial (by norm_num) _ _ (by intro i j; split_ifs <;> norm_num) (by simp)).1]
    simp [multinomialNll]
  · have := Real.log_pos (show (1:ℝ) < 2 by norm_num)
    intro h
    linarith

/-- **C87** fails for `R2` of multinomial regression: it raises for every response with at least two observations and two classes, as
many observations as classes excepted. -/
theorem C87_multinomial_R2_fails (hk : 2 ≤ k) (hn : 2 ≤ n) (hne : n ≠ k) (pred c : Fin n → Fin k → ℝ) (hc : ∀ i j, 0 ≤ c i j)
    (w : Option (Fin n → ℝ)) (hw : ∀ v, w = some v → ∀ i, 0 ≤ v i) : multiR2 pred c w = some .error := by
  obtain ⟨f, hf⟩ := (multiLoss_eq (by omega) c hc hw pred).1
  unfold multiR2
  rw [hf]
  dsimp only
  have : bcast k n = none := by
    unfold bcast
    rw [if_neg (Ne.symm hne), if_neg (by omega), if_neg (by omega)]
  rw [this]

/-- Specification: the fitted probabilities of one observation -/
noncomputable def softmax (η : Fin k → ℝ) (j : Fin k) : ℝ := Real.exp (η j) / ∑ l, Real.exp (η l)

/-- **C87** for a single observation with at least two classes, `predict_proba` of the multinomial classifier returns the softmax
probabilities, which are positive and add to one.  Missing: several observations (`C87_multinomial_proba_fails`). -/
theorem C87_multinomial_proba_partial (hk : 2 ≤ k) (lin : Fin 1 → Fin k → ℝ) :
    multiProba lin = some ⟨k, fun i j => softmax (lin i) j⟩ ∧ (∀ j, 0 < softmax (lin 0) j) ∧ ∑ j, softmax (lin 0) j = 1 := by
  have hpos : 0 < ∑ l, Real.exp (lin 0 l) :=
    Finset.sum_pos (fun l _ => Real.exp_pos _) ⟨⟨0, by omega⟩, Finset.mem_univ _⟩
  refine ⟨?_, fun j => div_pos (Real.exp_pos _) hpos, ?_⟩
  · unfold multiProba
    rw [dif_neg (by omega), dif_neg (by omega), dif_pos rfl]
    congr 2
    funext i j
    have : i = 0 := Subsingleton.elim _ _
    subst this
    rfl
  · unfold softmax
    rw [← Finset.sum_div, div_self hpos.ne']

/-- **C87** fails for several observations: `predict_proba` raises unless their number is the number of classes (at least two of each),
and then it divides by the sums of the wrong rows, so that rows need not add to one. -/
theorem C87_multinomial_proba_fails :
    (∀ {n k : ℕ} (lin : Fin n → Fin k → ℝ), 2 ≤ n → 2 ≤ k → n ≠ k → multiProba lin = none) ∧
    ∃ (lin : Fin 2 → Fin 2 → ℝ) (P : Fin 2 → Fin 2 → ℝ), multiProba lin = some ⟨2, P⟩ ∧ ∑ j, P 0 j ≠ 1 := by
  constructor
  · intro n k lin hn hk hne
    unfold multiProba
    rw [dif_neg (Ne.symm hne), dif_neg (by omega), dif_neg (by omega)]
  · refine ⟨fun i j => if i = 0 then 0 else Real.log 3, fun i j => if i = j then 1 / 2 else if i = 0 then 1 / 6 else 3 / 2, ?_, ?_⟩
    · unfold multiProba
      rw [dif_pos rfl]
      congr 2
      funext i j
      fin_cases i <;> fin_cases j <;> simp [Real.exp_log] <;> norm_num
    · simp [Fin.sum_univ_two]
      norm_num

end Verif.Props
