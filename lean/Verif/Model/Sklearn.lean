import Verif.Model.Losses

/-!
# Model of the estimator mixins of `regreg/sklearn/base.py` and of the scores of `gaussian.py`, `logistic.py`

Float arrays, exact arithmetic, `n` observations; a `y` argument is one or two dimensional.  `none` is an exception.
Fitting is not modelled here: `self._coefs` is a parameter.
-/

namespace Verif.Model.Sklearn

noncomputable section

/-- the `y` argument of `fit` and `score` -/
inductive YArg (n : ℕ)
  | vec (v : Fin n → ℝ)
  | mat (m : ℕ) (M : Fin n → Fin m → ℝ)

/-- an array of dimension 0, 1 or 2 -/
inductive Arr
  | d0 (a : ℝ)
  | d1 (n : ℕ) (v : Fin n → ℝ)
  | d2 (n k : ℕ) (M : Fin n → Fin k → ℝ)

/-- `np.squeeze` of a two dimensional array -/
def squeeze {n k : ℕ} (M : Fin n → Fin k → ℝ) : Arr :=
  if hn : n = 1 then
    if hk : k = 1 then .d0 (M ⟨0, by omega⟩ ⟨0, by omega⟩) else .d1 k (M ⟨0, by omega⟩)
  else if hk : k = 1 then .d1 n fun i => M i ⟨0, by omega⟩
  else .d2 n k M

/-- position of a negative Python index `-idx` in an axis of length `m`; `none`: IndexError -/
def negIndex (m idx : ℕ) : Option (Fin m) := if h : 1 ≤ idx ∧ idx ≤ m then some ⟨m - idx, by omega⟩ else none

/-- the table of `_check_y_arg`, base.py 190-195: the column numbers of case weights and offset, as `idx` with Python
index `-idx`; `none` in the first component stands for `response_idx is None` -/
def table : Bool → Bool → Option (Option ℕ × Option ℕ)
  | false, false => none
  | false, true => some (none, some 1)
  | true, false => some (some 1, none)
  | true, true => some (some 2, some 1)

/-- a column picked by an entry of the table -/
def column {n m : ℕ} (M : Fin n → Fin m → ℝ) : Option ℕ → Option (Option (Fin n → ℝ))
  | none => some none
  | some idx => (negIndex m idx).map fun j => some fun i => M i j

/-- `base_mixin._check_y_arg`, base.py 184-218; `y[:, :neg_index]` keeps the columns before `m - k`, where `k` counts the
extra columns -/
def checkY {n : ℕ} (caseWeights offset : Bool) (y : YArg n) :
    Option (Arr × Option (Fin n → ℝ) × Option (Fin n → ℝ)) :=
  match table caseWeights offset with
  | none => some (match y with | .vec v => .d1 n v | .mat m M => .d2 n m M, none, none)
  | some (cwIdx, offIdx) =>
    match y with
    | .vec _ => none
    | .mat m M =>
      match column M cwIdx, column M offIdx with
      | some w, some o =>
        let k := (if cwIdx.isSome then 1 else 0) + (if offIdx.isSome then 1 else 0)
        some (squeeze fun i (j : Fin (m - k)) => M i ⟨j, by omega⟩, w, o)
      | _, _ => none

/-- `case_weights *= sample_weight`, base.py 174-175: `case_weights` is a view of a column of `y` -/
def scaleColumn {n : ℕ} (idx : Option ℕ) (s : Fin n → ℝ) : YArg n → YArg n
  | .vec v => .vec v
  | .mat m M => .mat m fun i j => if idx.bind (negIndex m) = some j then M i j * s i else M i j

/-- `base_mixin.score`, base.py 149-176, with the caller's `y` after the call; `lin` is `X.dot(self._coefs)`, `sat` is
`_saturated_score` -/
def score {n : ℕ} {S : Type*} (caseWeights offset : Bool) (sat : (Fin n → ℝ) → Arr → Option (Fin n → ℝ) → S)
    (lin : Fin n → ℝ) (y : YArg n) (sampleWeight : Option (Fin n → ℝ)) : Option (S × YArg n) :=
  match checkY caseWeights offset y with
  | none => none
  | some (response, w, o) =>
    let predictions : Fin n → ℝ := match o with | none => lin | some o => fun i => lin i - o i
    match sampleWeight, w with
    | some s, some w => some (sat predictions response (some fun i => w i * s i),
        scaleColumn ((table caseWeights offset).bind fun t => t.1) s y)
    | _, _ => some (sat predictions response w, y)

/-- `score_method` -/
inductive Method
  | deviance
  | meanDeviance
  | R2
  | other

/-- value of a score: an exception, a number, or nan -/
inductive Val
  | error
  | num (r : ℝ)
  | nan

/-- the function `loss` of gaussian.py 35-37: a fresh `gaussian_loglike` with the case weights, evaluated once -/
def gaussianLoss {n : ℕ} (response : Fin n → ℝ) (w : Option (Fin n → ℝ)) (yhat : Fin n → ℝ) : Option ℝ :=
  match Loss.init (.gaussian response) 1 none (Quad.init none none none none) w with
  | none => none
  | some L => match (L.smoothObjective yhat .func none).1 with
    | .val f => some f
    | _ => none

open Classical in
/-- `sklearn_gaussian._saturated_score`, gaussian.py 30-53, for a one dimensional response with `n` entries (other shapes
broadcast against `predictions` and are not modelled) and `n >= 1`; a zero `SST` gives nan or inf -/
def gaussianScore {n : ℕ} (method : Method) (predictions : Fin n → ℝ) (response : Fin n → ℝ) (w : Option (Fin n → ℝ)) :
    Val :=
  match gaussianLoss response w predictions with
  | none => .error
  | some l => match method with
    | .deviance => .num (-2 * l)
    | .meanDeviance => .num (-2 * l / n)
    | .R2 => match gaussianLoss response w (fun _ => (∑ i, response i) / n) with
      | none => .error
      | some t => if 2 * t = 0 then .nan else .num (1 - 2 * l / (2 * t))
    | .other => .nan

/-- `sklearn_gaussian._saturated_score` on the arrays `score` hands it -/
def gaussianSat {n : ℕ} (method : Method) (predictions : Fin n → ℝ) (response : Arr) (w : Option (Fin n → ℝ)) : Val :=
  match response with
  | .d1 m v => if h : m = n then gaussianScore method predictions (fun i => v ⟨i, by omega⟩) w else .error
  | _ => .error

/-- `glm.gaussian(X, response, case_weights=..., coef=self.coef, saturated_offset=...)` in
`sklearn_gaussian._loglike_factory`, gaussian.py 21-27: the loss minimised by `fit` -/
def gaussianLoglike {p n : ℕ} (caseWeights offset : Bool) (coef : ℝ) (X : Fin n → Fin p → ℝ) (y : YArg n) :
    Option (Glm p n) :=
  match checkY caseWeights offset y with
  | some (.d1 m v, w, o) => if h : m = n then Glm.build X (.gaussian fun i => v ⟨i, by omega⟩) coef o none w else none
  | _ => none

open Classical in
/-- `accuracy` of `sklearn_logistic._saturated_score`, logistic.py 72-74: `labels = predictions > 0`,
`np.mean(labels == response)` -/
def accuracy {n : ℕ} (predictions response : Fin n → ℝ) : ℝ :=
  (∑ i, if (if predictions i > 0 then (1 : ℝ) else 0) = response i then (1 : ℝ) else 0) / n

open Classical in
/-- `accuracy` of `sklearn_logistic_classifier._saturated_score`, logistic.py 107-120: `np.mean(predictions == successes)`,
called by `base_mixin.score` on linear predictors -/
def classifierAccuracy {n : ℕ} (predictions response : Fin n → ℝ) : ℝ :=
  (∑ i, if predictions i = response i then (1 : ℝ) else 0) / n

/-- `classifier_mixin.predict`, base.py 426-442 -/
def predictLabel {p n : ℕ} (X : Fin n → Fin p → ℝ) (β : Fin p → ℝ) (i : Fin n) : Prop := Glm.dot X β i > 0

/-- `sklearn_logistic_classifier.predict_proba`, logistic.py 123-139 -/
def logisticProba {p n : ℕ} (X : Fin n → Fin p → ℝ) (β : Fin p → ℝ) (i : Fin n) : ℝ :=
  Real.exp (Glm.dot X β i) / (1 + Real.exp (Glm.dot X β i))

/-- `sklearn_multinomial_classifier.predict_proba`, multinomial.py 122-138: `exp_lin / exp_lin.sum(1)`, which numpy
broadcasts along the *last* axis: shapes `(n, k)` and `(n,)` agree for `n = k` (column `j` divided by the sum of row `j`)
or `n = 1`; for `k = 1` the result is `(n, n)`; otherwise ValueError (`none`) -/
def multinomialProba {n k : ℕ} (lin : Fin n → Fin k → ℝ) : Option Arr :=
  let rowSum : Fin n → ℝ := fun i => ∑ j, Real.exp (lin i j)
  if h : n = k then some (.d2 n k fun i j => Real.exp (lin i j) / rowSum ⟨j, by omega⟩)
  else if h : n = 1 then some (.d2 n k fun i j => Real.exp (lin i j) / rowSum ⟨0, by omega⟩)
  else if h : k = 1 then some (.d2 n n fun i j => Real.exp (lin i ⟨0, by omega⟩) / rowSum j)
  else none

end

end Verif.Model.Sklearn
