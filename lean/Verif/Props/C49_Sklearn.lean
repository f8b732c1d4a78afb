import Verif.Model.Sklearn
import Verif.Spec.Sklearn
import Mathlib.Tactic.Linarith
import Mathlib.Tactic.NormNum
import Mathlib.Tactic.FinCases
import Mathlib.Tactic.Positivity
import Mathlib.Data.Fin.VecNotation

/-! # C49: column conventions and scores of the sklearn estimators -/

set_option linter.unusedSectionVars false
set_option linter.unusedVariables false

namespace Verif.Props
open Verif.Model Verif.Model.Sklearn Verif.Spec

variable {n k : ℕ}

private lemma neg1 : negIndex (k + 1) 1 = some ⟨k, by omega⟩ := by
  unfold negIndex; rw [dif_pos (by omega)]; rfl

private lemma neg1' : negIndex (k + 2) 1 = some ⟨k + 1, by omega⟩ := by
  unfold negIndex; rw [dif_pos (by omega)]; rfl

private lemma neg2 : negIndex (k + 2) 2 = some ⟨k, by omega⟩ := by
  unfold negIndex; rw [dif_pos (by omega)]; rfl

/-- C49: no flag: the whole argument is the response. -/
theorem C49_no_columns (v : Fin n → ℝ) (M : Fin n → Fin k → ℝ) :
    checkY false false (.vec v) = some (.d1 n v, none, none) ∧
    checkY false false (.mat k M) = some (.d2 n k M, none, none) := ⟨rfl, rfl⟩

/-- C49: `case_weights=True` only: the last column is the case weights, the others (squeezed) the response. -/
theorem C49_weights_column (R : Fin n → Fin k → ℝ) (c : Fin n → ℝ) :
    checkY true false (.mat (k + 1) (withColumn R c)) = some (squeeze R, some c, none) := by
  simp only [checkY, table, column, neg1, Option.map_some, Option.isSome_some, Option.isSome_none]
  simp [withColumn]

/-- C49: `offset=True` only: the last column is the offset. -/
theorem C49_offset_column (R : Fin n → Fin k → ℝ) (o : Fin n → ℝ) :
    checkY false true (.mat (k + 1) (withColumn R o)) = some (squeeze R, none, some o) := by
  simp only [checkY, table, column, neg1, Option.map_some, Option.isSome_some, Option.isSome_none]
  simp [withColumn]

/-- C49: both flags: the last but one column is the case weights and the last the offset. -/
theorem C49_both_columns (R : Fin n → Fin k → ℝ) (c o : Fin n → ℝ) :
    checkY true true (.mat (k + 2) (withColumns R c o)) = some (squeeze R, some c, some o) := by
  simp only [checkY, table, column, neg1', neg2, Option.map_some, Option.isSome_some]
  have e : (fun i (j : Fin k) => withColumns R c o i ⟨j, by omega⟩) = R := by
    funext i j; simp [withColumns]
  refine Option.some_inj.2 (Prod.ext (congrArg squeeze e) ?_)
  simp [withColumns]

/-- C49: with at least two observations the response keeps its observations: one response column gives a vector, several
columns stay a matrix. -/
theorem C49_response_shape (hn : n ≠ 1) (v : Fin n → ℝ) (R : Fin n → Fin k → ℝ) (hk : k ≠ 1) :
    squeeze (fun i (_ : Fin 1) => v i) = .d1 n v ∧ squeeze R = .d2 n k R := by
  constructor <;> simp [squeeze, hn, hk]

/-- C49 fails for one observation: the squeezed response is not a vector of length one but a 0-dimensional array, and a
two column response (successes and trials, times and censoring) becomes a vector. -/
theorem C49_single_observation_fails (a b c : ℝ) :
    checkY true false (.mat 2 (withColumn (fun (_ : Fin 1) (_ : Fin 1) => a) fun _ => c)) =
      some (.d0 a, some fun _ => c, none) ∧
    checkY true false (.mat 3 (withColumn (fun (_ : Fin 1) => ![a, b]) fun _ => c)) =
      some (.d1 2 ![a, b], some fun _ => c, none) := by
  rw [C49_weights_column, C49_weights_column]
  constructor <;> simp [squeeze]

/-- C49: the flags are checked against the argument: a one dimensional `y`, or one without room for the flagged columns,
raises. -/
theorem C49_missing_columns (cw off : Bool) (h : cw = true ∨ off = true) (v : Fin n → ℝ) (M0 : Fin n → Fin 0 → ℝ)
    (M1 : Fin n → Fin 1 → ℝ) :
    checkY cw off (.vec v) = none ∧ checkY cw off (.mat 0 M0) = none ∧ checkY true true (.mat 1 M1) = none := by
  refine ⟨?_, ?_, ?_⟩
  · cases cw <;> cases off <;> simp_all [checkY, table]
  · cases cw <;> cases off <;> simp_all [checkY, table, column, negIndex]
  · simp [checkY, table, column, negIndex]

/-- C49: `score` with case weights and offset: `_saturated_score` receives the linear predictor minus the offset, the
response, and the case weights times the sample weights. -/
theorem C49_score_weights {S : Type*} (sat : (Fin n → ℝ) → Arr → Option (Fin n → ℝ) → S) (lin : Fin n → ℝ)
    (R : Fin n → Fin k → ℝ) (c o s : Fin n → ℝ) :
    (score true true sat lin (.mat (k + 2) (withColumns R c o)) (some s)).map Prod.fst =
        some (sat (fun i => lin i - o i) (squeeze R) (some fun i => c i * s i)) ∧
    score true true sat lin (.mat (k + 2) (withColumns R c o)) none =
        some (sat (fun i => lin i - o i) (squeeze R) (some c), .mat (k + 2) (withColumns R c o)) ∧
    (score true false sat lin (.mat (k + 1) (withColumn R c)) (some s)).map Prod.fst =
        some (sat lin (squeeze R) (some fun i => c i * s i)) ∧
    score true false sat lin (.mat (k + 1) (withColumn R c)) none =
        some (sat lin (squeeze R) (some c), .mat (k + 1) (withColumn R c)) ∧
    score false true sat lin (.mat (k + 1) (withColumn R o)) none =
        some (sat (fun i => lin i - o i) (squeeze R) none, .mat (k + 1) (withColumn R o)) := by
  unfold score
  simp [C49_weights_column, C49_both_columns, C49_offset_column]

/-- C49 fails: without a case weight column `score` ignores `sample_weight` altogether, for every estimator, argument and
sample weights. -/
theorem C49_sample_weight_ignored_fails {S : Type*} (off : Bool) (sat : (Fin n → ℝ) → Arr → Option (Fin n → ℝ) → S)
    (lin : Fin n → ℝ) (y : YArg n) (s : Fin n → ℝ) :
    score false off sat lin y (some s) = score false off sat lin y none := by
  unfold score
  cases h : checkY false off y with
  | none => rfl
  | some r =>
    obtain ⟨resp, w, o⟩ := r
    have hw : w = none := by
      cases off
      · simp [checkY, table] at h; exact h.2.1.symm
      · cases y with
        | vec v => simp [checkY, table] at h
        | mat m M =>
          simp only [checkY, table, column] at h
          cases h1 : negIndex m 1 with
          | none => simp [h1] at h
          | some j => simp [h1] at h; exact h.2.1.symm
    subst hw
    rfl

/-- C49 fails: scoring with sample weights overwrites the case weight column of the caller's `y` by the product. -/
theorem C49_score_mutates_fails {S : Type*} (sat : (Fin n → ℝ) → Arr → Option (Fin n → ℝ) → S) (lin : Fin n → ℝ)
    (R : Fin n → Fin k → ℝ) (c o s : Fin n → ℝ) :
    score true true sat lin (.mat (k + 2) (withColumns R c o)) (some s) =
      some (sat (fun i => lin i - o i) (squeeze R) (some fun i => c i * s i),
        .mat (k + 2) (withColumns R (fun i => c i * s i) o)) := by
  unfold score
  rw [C49_both_columns]
  simp only [table, scaleColumn, Option.bind_some, neg2]
  congr 3
  funext i j
  by_cases h : j.val = k
  · have e : j = ⟨k, by omega⟩ := Fin.ext h
    rw [e]
    simp [withColumns]
  · have e : ¬ ((⟨k, by omega⟩ : Fin (k + 2)) = j) := fun h' => h (by rw [← h'])
    simp only [Option.some.injEq, e, if_false, withColumns, h]

private lemma gaussian_init (y : Fin n → ℝ) {coef : ℝ} (hc : 0 ≤ coef) (o w : Option (Fin n → ℝ))
    (hw : ∀ v, w = some v → ∀ i, 0 ≤ v i) :
    Loss.init (.gaussian y) coef o (Quad.init none none none none) w =
      some { data := .gaussian y, coef := coef, offset := o, quad := Quad.init none none none none, caseWeights := w } := by
  unfold Loss.init Smooth.atomInit
  rw [if_neg (not_lt.2 hc)]
  dsimp only
  rw [if_neg (by simp [Loss.dataError]), if_neg (fun ⟨v, h1, h2⟩ => h2 (hw v h1))]
  rfl

private lemma gaussianLoss_eq (y w yhat : Fin n → ℝ) (hw : ∀ i, 0 ≤ w i) :
    gaussianLoss y (some w) yhat = some ((∑ i, w i * (yhat i - y i) ^ 2) / 2) := by
  unfold gaussianLoss
  rw [gaussian_init y zero_le_one none (some w) (fun v h => by cases h; exact hw)]
  simp [Loss.smoothObjective, Loss.cw, Smooth.applyOffset, Smooth.scaleR]

/-- C49: the Gaussian scores with case weights, an offset and sample weights (nonnegative products), one response column
and `n ≠ 1`: minus the weighted deviance of the offset-corrected predictions, the same divided by `n`, and the weighted
R². -/
theorem C49_gaussian_scores (hn : n ≠ 1) (lin y c o s : Fin n → ℝ) (hcs : ∀ i, 0 ≤ c i * s i) :
    (score true true (gaussianSat .deviance) lin (.mat 3 (withColumns (fun i (_ : Fin 1) => y i) c o)) (some s)).map
        Prod.fst = some (.num (-weightedSS (fun i => c i * s i) y lin o)) ∧
    (score true true (gaussianSat .meanDeviance) lin (.mat 3 (withColumns (fun i (_ : Fin 1) => y i) c o)) (some s)).map
        Prod.fst = some (.num (-weightedSS (fun i => c i * s i) y lin o / n)) ∧
    (weightedSS (fun i => c i * s i) y (fun _ => (∑ i, y i) / n) (fun _ => 0) ≠ 0 →
      (score true true (gaussianSat .R2) lin (.mat 3 (withColumns (fun i (_ : Fin 1) => y i) c o)) (some s)).map Prod.fst =
        some (.num (1 - weightedSS (fun i => c i * s i) y lin o /
          weightedSS (fun i => c i * s i) y (fun _ => (∑ i, y i) / n) (fun _ => 0)))) := by
  have hsq : squeeze (fun i (_ : Fin 1) => y i) = .d1 n y := (C49_response_shape (k := 0) hn y (fun _ j => j.elim0) (by decide)).1
  have key := fun S (sat : (Fin n → ℝ) → Arr → Option (Fin n → ℝ) → S) =>
    (C49_score_weights sat lin (fun i (_ : Fin 1) => y i) c o s).1
  have g := fun yhat => gaussianLoss_eq y (fun i => c i * s i) yhat hcs
  refine ⟨?_, ?_, fun hT => ?_⟩
  · rw [key, hsq]
    simp only [gaussianSat, dif_pos, gaussianScore, g]
    congr 2
    unfold weightedSS; ring
  · rw [key, hsq]
    simp only [gaussianSat, dif_pos, gaussianScore, g]
    congr 2
    unfold weightedSS; ring
  · rw [key, hsq]
    have e1 : ∀ a : ℝ, 2 * (a / 2) = a := fun a => by ring
    simp only [weightedSS, sub_zero] at hT ⊢
    simp only [gaussianSat, dif_pos, gaussianScore, g, e1, if_neg hT]

/-- hypotheses met: two observations, weights 1, 2, sample weights 1, 1; the total sum of squares is not zero -/
example : (2 : ℕ) ≠ 1 ∧ (∀ i, 0 ≤ (![1, 2] : Fin 2 → ℝ) i * (![1, 1] : Fin 2 → ℝ) i) ∧
    weightedSS (fun i => (![1, 2] : Fin 2 → ℝ) i * (![1, 1] : Fin 2 → ℝ) i) ![0, 2]
      (fun _ => (∑ i, (![0, 2] : Fin 2 → ℝ) i) / (2 : ℕ)) (fun _ => 0) ≠ 0 := by
  refine ⟨by decide, fun i => by fin_cases i <;> simp, ?_⟩
  simp [weightedSS, Fin.sum_univ_two]; norm_num

/-- C49: fitting and scoring read the same columns and use the offset with the same sign: on the training data the
`deviance` score at any coefficients is `-2 / coef` times the loss that `fit` minimises. -/
theorem C49_fit_score {p : ℕ} (hn : n ≠ 1) (X : Fin n → Fin p → ℝ) (β : Fin p → ℝ) (y c o : Fin n → ℝ)
    (hc : ∀ i, 0 ≤ c i) {coef : ℝ} (hcoef : 0 < coef) :
    ∃ G f, gaussianLoglike true true coef X (.mat 3 (withColumns (fun i (_ : Fin 1) => y i) c o)) = some G ∧
      (G.smoothObjective β .func).1 = .val f ∧
      (score true true (gaussianSat .deviance) (Glm.dot X β) (.mat 3 (withColumns (fun i (_ : Fin 1) => y i) c o))
        none).map Prod.fst = some (.num (-2 / coef * f)) := by
  have hsq : squeeze (fun i (_ : Fin 1) => y i) = .d1 n y := (C49_response_shape (k := 0) hn y (fun _ j => j.elim0) (by decide)).1
  rw [(C49_score_weights _ _ (fun i (_ : Fin 1) => y i) c o (fun _ => 1)).2.1, hsq]
  unfold gaussianLoglike
  rw [C49_both_columns, hsq]
  refine ⟨{ X := X, loss := { data := .gaussian y, coef := coef, offset := some o,
                              quad := Quad.init none none none none, caseWeights := none },
            offset := none, caseWeights := c }, coef * (∑ i, c i * (Glm.dot X β i - o i - y i) ^ 2) / 2, ?_, ?_, ?_⟩
  · simp only [dif_pos, Glm.build]
    rw [gaussian_init _ hcoef.le _ none (fun v h => by cases h)]
    simp [Glm.init, hc]
  · simp [Glm.smoothObjective, Loss.smoothObjective, Loss.cw, Smooth.applyOffset, Smooth.scaleR]
    split_ifs with h
    · rw [h, one_mul]
    · ring
  · simp only [gaussianSat, dif_pos, gaussianScore, gaussianLoss_eq y c _ hc, Option.map_some]
    congr 2
    field_simp

/-- C49: `accuracy` of the logistic regression estimator is the fraction of observations whose label is predicted. -/
theorem C49_accuracy (pred y : Fin n → ℝ) (hy : ∀ i, y i = 0 ∨ y i = 1) :
    Sklearn.accuracy pred y = ((Finset.univ.filter fun i => (y i = 1 ↔ 0 < pred i)).card : ℝ) / n := by
  classical
  unfold Sklearn.accuracy
  congr 1
  rw [Finset.card_filter]
  push_cast
  refine Finset.sum_congr rfl fun i _ => ?_
  rcases hy i with h | h <;> by_cases hp : 0 < pred i <;> simp [h, hp]

/-- hypothesis met -/
example : ∀ i, (![0, 1, 1] : Fin 3 → ℝ) i = 0 ∨ (![0, 1, 1] : Fin 3 → ℝ) i = 1 := by
  intro i; fin_cases i <;> simp

/-- C49 fails for the classifiers: `score` compares the labels with the *linear predictors*.  Whenever no linear predictor
equals a label the reported accuracy is 0 — also when `predict` gets every label right, as in the witness. -/
theorem C49_classifier_accuracy_fails :
    (∀ (pred y : Fin n → ℝ), (∀ i, pred i ≠ y i) → classifierAccuracy pred y = 0) ∧
    ∃ (X : Fin 2 → Fin 1 → ℝ) (β : Fin 1 → ℝ) (y : Fin 2 → ℝ),
      (∀ i, predictLabel X β i ↔ y i = 1) ∧ (∀ i, y i = 0 ∨ y i = 1) ∧ Sklearn.accuracy (Glm.dot X β) y = 1 ∧
      score false false (fun pr r _ => match r with
          | .d1 2 v => some (classifierAccuracy pr v)
          | _ => none) (Glm.dot X β) (.vec y) none = some (some 0, .vec y) := by
  have h0 : ∀ (m : ℕ) (pred y : Fin m → ℝ), (∀ i, pred i ≠ y i) → classifierAccuracy pred y = 0 := by
    intro m pred y h
    unfold classifierAccuracy
    rw [Finset.sum_eq_zero fun i _ => if_neg (h i), zero_div]
  refine ⟨h0 n, ![![2], ![-2]], ![1], ![1, 0], ?_, ?_, ?_, ?_⟩
  · intro i; fin_cases i <;> simp [predictLabel, Glm.dot]
  · intro i; fin_cases i <;> simp
  · unfold Sklearn.accuracy
    rw [Fin.sum_univ_two]
    simp [Glm.dot]
  · simp only [score, checkY, table]
    rw [h0]
    intro i; fin_cases i <;> simp [Glm.dot]

/-- C49: `predict_proba` of the logistic classifier is a probability, above one half exactly when `predict` says true. -/
theorem C49_logistic_proba {p : ℕ} (X : Fin n → Fin p → ℝ) (β : Fin p → ℝ) (i : Fin n) :
    0 < logisticProba X β i ∧ logisticProba X β i < 1 ∧ (1 / 2 < logisticProba X β i ↔ predictLabel X β i) := by
  have h := Real.exp_pos (Glm.dot X β i)
  unfold logisticProba predictLabel
  refine ⟨by positivity, by rw [div_lt_one (by positivity)]; linarith, ?_⟩
  rw [div_lt_div_iff₀ two_pos (by positivity)]
  constructor
  · intro h1
    by_contra h2
    have := Real.exp_le_one_iff.2 (not_lt.1 h2)
    linarith
  · intro h1
    have := Real.one_lt_exp_iff.2 h1
    linarith

/-- C49 fails for `predict_proba` of the multinomial classifier: three observations and two classes raise, and two
observations of two classes give a first row that sums to 2/3. -/
theorem C49_multinomial_proba_fails :
    multinomialProba (fun (_ : Fin 3) (_ : Fin 2) => (0:ℝ)) = none ∧
    ∃ M, multinomialProba (![![0, 0], ![Real.log 2, Real.log 4]] : Fin 2 → Fin 2 → ℝ) = some (.d2 2 2 M) ∧
      M 0 0 + M 0 1 = 2 / 3 := by
  constructor
  · simp [multinomialProba]
  · refine ⟨_, by simp only [multinomialProba]; rw [dif_pos trivial], ?_⟩
    simp [Fin.sum_univ_two, Real.exp_log]
    norm_num

end Verif.Props
