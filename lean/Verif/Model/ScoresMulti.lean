import Verif.Model.Scores
import Verif.Model.Multinomial

/-!
# Model of the estimators in `regreg/sklearn/huber_svm.py` and `regreg/sklearn/multinomial.py`

Exact arithmetic, as in `Model/Scores.lean`.  The response, case weights and offset are those that `_check_y_arg`
returned.
-/

namespace Verif.Model.Sklearn
open Verif.Spec

noncomputable section

/-- the function `loss` of `huber_svm.py:93-96` -/
def svmLoss {n : ℕ} (response : Fin n → ℝ) (eps : ℝ) (w : Option (Fin n → ℝ)) (yhat : Fin n → ℝ) : Option ℝ :=
  match Loss.init (.huberSvm response eps) 1 none (Quad.init none none none none) w with
  | none => none
  | some L => match (L.smoothObjective yhat .func none).1 with
    | .val f => some f
    | _ => none

open Classical in
/-- `sklearn_huber_svm._saturated_score`, `huber_svm.py:88-110`: the null predictor of `R2` is the mean response -/
def svmScore {n : ℕ} (method : Method) (eps : ℝ) (predictions response : Fin n → ℝ) (w : Option (Fin n → ℝ)) : Val :=
  match svmLoss response eps w predictions with
  | none => .error
  | some l => match method with
    | .deviance => .num (-l)
    | .meanDeviance => .num (-l / n)
    | .R2 => match svmLoss response eps w (fun _ => (∑ i, response i) / n) with
      | none => .error
      | some t => if t = 0 then .nan else .num (1 - l / t)
    | .other => .nan

/-- `glm.huber_svm(X, response, smoothing_parameter, ...)` of `huber_svm.py:79-86` evaluated at `beta` -/
def svmFitted {p n : ℕ} (coef eps : ℝ) (X : Fin n → Fin p → ℝ) (response : Fin n → ℝ) (w o : Option (Fin n → ℝ))
    (β : Fin p → ℝ) : Option ℝ :=
  match Glm.build X (.huberSvm response eps) coef o none w with
  | none => none
  | some G => match (G.smoothObjective β .func).1 with
    | .val f => some f
    | _ => none

/-- the function `loss` of `multinomial.py:43-45`: the case weights are given to the constructor; they occupy one cell of the
heap of weight arrays -/
def multiLoss {n k : ℕ} (response : Fin n → Fin k → ℝ) (w : Option (Fin n → ℝ)) (yhat : Fin n → Fin k → ℝ) : Option ℝ :=
  match MultiLoss.init ⟨fun _ => w.getD fun _ => 1, 1⟩ (.full response) 1 none (w.map fun _ => 0) with
  | none => none
  | some L => match L.smoothObjective none yhat .func with
    | .val f => some f
    | _ => none

/-- `sklearn_multinomial._saturated_score`, `multinomial.py:36-65`, methods 'deviance' and 'mean_deviance' -/
def multiDeviance {n k : ℕ} (mean : Bool) (predictions response : Fin n → Fin k → ℝ) (w : Option (Fin n → ℝ)) : Val :=
  match multiLoss response w predictions with
  | none => .error
  | some l => if mean then .num (-2 * l / n) else .num (-2 * l)

/-- numpy's rule for one axis -/
def bcast (a b : ℕ) : Option ℕ := if a = b then some a else if a = 1 then some b else if b = 1 then some a else none

/-- the method 'R2' of the same function.  The argument of the loss for the null model is `np.multiply.outer` of a vector of
length `k` with an `n × k` array, of shape `(k, n, k)`; the loss multiplies `cw[:, None]`, of shape `(k, 1)`, with the
counts, of shape `(n, k)` (`mglm.py:829-844`), which needs `k` and `n` to broadcast.  Where they do, the outcome is not
modelled (`none`); the loss of the predictions comes first. -/
def multiR2 {n k : ℕ} (predictions response : Fin n → Fin k → ℝ) (w : Option (Fin n → ℝ)) : Option Val :=
  match multiLoss response w predictions with
  | none => some .error
  | some _ => match bcast k n with
    | none => some .error
    | some _ => none

/-- `mglm.multinomial(X, successes, case_weights=, coef=, saturated_offset=None)` of `multinomial.py:25-34` evaluated at `B` -/
def multiFitted {p n k : ℕ} (coef : ℝ) (X : Fin n → Fin p → ℝ) (response : Fin n → Fin k → ℝ) (w : Option (Fin n → ℝ))
    (B : Fin p → Fin k → ℝ) : Option ℝ :=
  match Mglm.multinomial ⟨fun _ _ => 1, 0⟩ X (.full response) w coef none none with
  | none => none
  | some G => match G.smoothObjective B .func with
    | .val f => some f
    | _ => none

/-- `sklearn_multinomial_classifier.predict_proba`, `multinomial.py:122-141`: `exp_lin` has the shape `(n, k)` and
`exp_lin.sum(1)` the shape `(n,)`, which is matched with the *last* axis; `none` is a ValueError.  The result is an array of
shape `(n, j)` with `j` the broadcast of `k` and `n`. -/
def multiProba {n k : ℕ} (lin : Fin n → Fin k → ℝ) : Option ((j : ℕ) × (Fin n → Fin j → ℝ)) :=
  if h : k = n then some ⟨k, fun i j => Real.exp (lin i j) / ∑ l, Real.exp (lin (Fin.cast h j) l)⟩
  else if h : k = 1 then some ⟨n, fun i j => Real.exp (lin i ⟨0, by omega⟩) / ∑ l, Real.exp (lin j l)⟩
  else if h : n = 1 then some ⟨k, fun i j => Real.exp (lin i j) / ∑ l, Real.exp (lin ⟨0, by omega⟩ l)⟩
  else none

end

end Verif.Model.Sklearn
