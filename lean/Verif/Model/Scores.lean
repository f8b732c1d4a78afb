import Verif.Model.Sklearn
import Verif.Model.BinaryLinks
import Verif.Model.Cox

/-!
# Model of the losses and scores of the estimators in `regreg/sklearn/{logistic,probit,cloglog,huber,cox,multinomial}.py`

Exact arithmetic; `scipy.stats.norm.ppf` and `scipy.stats.gumbel_r.ppf` are the exact quantile functions.  `Val` is
`error` for an exception and `nan` for nan or inf.
-/

namespace Verif.Model.Sklearn
open Verif.Spec

noncomputable section

/-- the three binary regression families: `logistic.py`, `probit.py`, `cloglog.py` -/
inductive Family
  | logistic
  | probit
  | cloglog

/-- `score_method` of these classes -/
inductive BMethod
  | deviance
  | meanDeviance
  | R2
  | accuracy
  | other

/-- a fresh `probit_loglike` or `cloglog_loglike` evaluated once, mode 'func' -/
def linkValue {n : ℕ} (l : BinLink) (s : Fin n → ℝ) (trials : Option (Fin n → ℝ)) (coef : ℝ) (o own : Option (Fin n → ℝ))
    (x : Fin n → ℝ) (arg : Option (Fin n → ℝ)) : Option ℝ :=
  match BinLoss.init l s trials coef o (Quad.init none none none none) own with
  | none => none
  | some L => match (L.smoothObjective x .func arg).1 with
    | .val f => some f
    | _ => none

/-- a fresh saturated loss of the family evaluated once, mode 'func': `logistic.py:55-58`, `probit.py:54-57`,
`cloglog.py:55-58` in the scores, `smooth/glm.py` 412-426, 482-495, 549-560 in the factories -/
def Family.value {n : ℕ} (F : Family) (s : Fin n → ℝ) (trials : Option (Fin n → ℝ)) (coef : ℝ) (o own : Option (Fin n → ℝ))
    (x : Fin n → ℝ) (arg : Option (Fin n → ℝ)) : Option ℝ :=
  match F with
  | .logistic =>
    match Loss.resolveTrials s trials with
    | none => none
    | some t =>
      match Loss.init (.logistic s t) coef o (Quad.init none none none none) own with
      | none => none
      | some L => match (L.smoothObjective x .func arg).1 with
        | .val f => some f
        | _ => none
  | .probit => linkValue .probit s trials coef o own x arg
  | .cloglog => linkValue .cloglog s trials coef o own x arg

/-- successes and trials of a response: `logistic.py:27-32`, `46-51` and the same lines of `probit.py`, `cloglog.py` -/
def splitResponse (n : ℕ) : Arr → Option ((Fin n → ℝ) × Option (Fin n → ℝ))
  | .d1 m v => if h : m = n then some (fun i => v ⟨i, by omega⟩, none) else none
  | .d2 m k M =>
    if h : m = n ∧ 2 ≤ k then
      some (fun i => M ⟨i, by omega⟩ ⟨0, by omega⟩, some fun i => M ⟨i, by omega⟩ ⟨1, by omega⟩)
    else none
  | .d0 _ => none

open Classical in
/-- the loss minimised by `fit`: `_loglike_factory` (`logistic.py:24-39`, `90-105`, `probit.py:25-40`, `91-106`,
`cloglog.py:26-41`, `92-107`) followed by `smooth_objective(beta, 'func')` of the `glm`, `smooth/glm.py` 96-135: the case
weights belong to the `glm`, which passes them to the saturated loss -/
def Family.fitted {p n : ℕ} (F : Family) (caseWeights offset : Bool) (coef : ℝ) (X : Fin n → Fin p → ℝ) (y : YArg n)
    (β : Fin p → ℝ) : Option ℝ :=
  match checkY caseWeights offset y with
  | none => none
  | some (response, w, o) =>
    match splitResponse n response with
    | none => none
    | some (s, trials) =>
      let cw : Fin n → ℝ := w.getD fun _ => 1
      if ¬ ∀ i, 0 ≤ cw i then none else F.value s trials coef o none (Glm.dot X β) (some cw)

/-- `scipy.stats.norm.ppf`: the quantile function of the normal distribution -/
def normPpf (q : ℝ) : ℝ := sInf {x | q ≤ ncdf x}

/-- `scipy.stats.gumbel_r.ppf`: the inverse of `exp(-exp(-x))` -/
def gumbelPpf (q : ℝ) : ℝ := -Real.log (-Real.log q)

/-- the linear predictor of the null model in `R2`: `logistic.py:68-70`, `probit.py:67-69`, `cloglog.py:68-70`, for a mean
response strictly between 0 and 1 -/
def Family.null : Family → ℝ → ℝ
  | .logistic, q => Real.log (q / (1 - q))
  | .probit, q => normPpf q
  | .cloglog, q => gumbelPpf q

open Classical in
/-- `_saturated_score` of the three regression classes: `logistic.py:41-77`, `probit.py:42-77`, `cloglog.py:43-78`.  For a
two dimensional response the array `ones_like(response)` in `R2` has two columns, so the loss raises (three observations or
more), and so does the comparison of `accuracy` (the outcome of comparing arrays that do not broadcast depends on the numpy
version).  A mean response of 0 or 1 makes the null predictor infinite and the score nan. -/
def Family.sat {n : ℕ} (F : Family) (method : BMethod) (predictions : Fin n → ℝ) (response : Arr)
    (w : Option (Fin n → ℝ)) : Val :=
  match splitResponse n response with
  | none => .error
  | some (s, trials) =>
    match method with
    | .deviance => match F.value s trials 1 none w predictions none with
      | none => .error
      | some l => .num (-2 * l)
    | .meanDeviance => match F.value s trials 1 none w predictions none with
      | none => .error
      | some l => match F with
        | .cloglog => .num (-2 * l)
        | _ => .num (-2 * l / n)
    | .R2 => match F.value s trials 1 none w predictions none with
      | none => .error
      | some l => match trials with
        | some _ => .error
        | none =>
          let mean := (∑ i, s i) / n
          if 0 < mean ∧ mean < 1 then
            match F.value s none 1 none w (fun _ => F.null mean) none with
            | none => .error
            | some t => if 2 * t = 0 then .nan else .num (1 - 2 * l / (2 * t))
          else .nan
    | .accuracy => match trials with
      | some _ => .error
      | none => .num (Sklearn.accuracy predictions s)
    | .other => .nan

/-- `predict_proba` of the classifiers: `logistic.py:123-142`, `probit.py:124-142`, `cloglog.py:125-143` -/
def Family.proba {p n : ℕ} (F : Family) (X : Fin n → Fin p → ℝ) (β : Fin p → ℝ) (i : Fin n) : ℝ :=
  match F with
  | .logistic => logisticProba X β i
  | .probit => ncdf (Glm.dot X β i)
  | .cloglog => 1 - Real.exp (-Real.exp (Glm.dot X β i))

/-- the function `loss` of `huber.py:92-95` -/
def huberLoss {n : ℕ} (response : Fin n → ℝ) (eps : ℝ) (w : Option (Fin n → ℝ)) (yhat : Fin n → ℝ) : Option ℝ :=
  match Loss.init (.huber response eps) 1 none (Quad.init none none none none) w with
  | none => none
  | some L => match (L.smoothObjective yhat .func none).1 with
    | .val f => some f
    | _ => none

open Classical in
/-- `sklearn_huber._saturated_score`, `huber.py:87-108`, for a one dimensional response -/
def huberScore {n : ℕ} (method : Method) (eps : ℝ) (predictions response : Fin n → ℝ) (w : Option (Fin n → ℝ)) : Val :=
  match huberLoss response eps w predictions with
  | none => .error
  | some l => match method with
    | .deviance => .num (-l)
    | .meanDeviance => .num (-l / n)
    | .R2 => match huberLoss response eps w (fun _ => (∑ i, response i) / n) with
      | none => .error
      | some t => if t = 0 then .nan else .num (1 - l / t)
    | .other => .nan

/-- `glm.huber(X, response, smoothing_parameter, ...)` of `huber.py:78-85` evaluated at `beta`, for the response, case
weights and offset that `_check_y_arg` returned -/
def huberFitted {p n : ℕ} (coef eps : ℝ) (X : Fin n → Fin p → ℝ) (response : Fin n → ℝ) (w o : Option (Fin n → ℝ))
    (β : Fin p → ℝ) : Option ℝ :=
  match Glm.build X (.huber response eps) coef o none w with
  | none => none
  | some G => match (G.smoothObjective β .func).1 with
    | .val f => some f
    | _ => none

/-- the function `loss` of `cox.py:41-44`; the outer `none` is an exception, the inner one nan -/
def coxLoss {n : ℕ} (T : Fin n → ℝ) (cens : Fin n → ℕ) (w : Option (Fin n → ℝ)) (σ : Equiv.Perm (Fin n))
    (yhat : Fin n → ℝ) : Option Fl :=
  match CoxLoss.init T cens 1 none w σ with
  | none => none
  | some L => match (L.smoothObjective yhat .func none).1 with
    | .val f => some f
    | _ => none

open Classical in
/-- `sklearn_cox._saturated_score`, `cox.py:33-61`: `response` has the columns event times and censoring; the null predictor
of `R2` is the mean of all its entries, and its loss is not doubled -/
def coxScore {n : ℕ} (method : Method) (predictions : Fin n → ℝ) (T : Fin n → ℝ) (cens : Fin n → ℕ)
    (w : Option (Fin n → ℝ)) (σ : Equiv.Perm (Fin n)) : Val :=
  match coxLoss T cens w σ predictions with
  | none => .error
  | some none => match method with
    | _ => .nan
  | some (some l) => match method with
    | .deviance => .num (-2 * l)
    | .meanDeviance => .num (-2 * l / n)
    | .R2 => match coxLoss T cens w σ (fun _ => (∑ i, (T i + cens i)) / (2 * n)) with
      | none => .error
      | some none => .nan
      | some (some t) => if t = 0 then .nan else .num (1 - 2 * l / t)
    | .other => .nan

/-- `sklearn_multinomial_classifier.predict`, `multinomial.py:102-120`: `np.argmax` of a row, the first position of the
largest entry; `none`: no columns (ValueError) -/
def argmaxRow : {k : ℕ} → (Fin k → ℝ) → Option (Fin k)
  | 0, _ => none
  | k + 1, v => open Classical in
    some ((List.finRange k).foldl (fun b j => if v b < v j.succ then j.succ else b) 0)

end

end Verif.Model.Sklearn
