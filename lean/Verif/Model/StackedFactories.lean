import Verif.Model.MultiRegression
import Verif.Model.Cox

/-!
# Model of the class methods of `mglm` and `stacked_common_loglike` that build multi-response losses, `mglm.py:213-269, 428-743`

Arrays hold floating point numbers.  A stack of Cox losses with its state, because `cox_loglike` objects write work buffers.
-/

namespace Verif.Model
open Verif.Spec

noncomputable section

variable {n p q : ℕ}

/-- what a call of a class method does -/
inductive Made (α : Type) where
  | object (a : α)
  | nameError
  | typeError
  | valueError

/-- the outcome of a constructor whose only exception is a ValueError -/
def Made.ofOption {α : Type} : Option α → Made α
  | some a => .object a
  | none => .valueError

/-- the list comprehension over the columns: an exception of one column loss ends it -/
def Stacked.columns (l : Fin q → Option (Loss n)) : Option (Fin q → Loss n) :=
  if h : ∀ j, (l j).isSome then some fun j => (l j).get (h j) else none

/-! Name resolution.  The class methods below name variables which are bound neither by their parameters nor by the module, so the model
looks every name up. -/

/-- what a name can be bound to in these methods -/
inductive PyVal (n p q : ℕ) where
  | design (X : Fin n → Fin p → ℝ)
  | losses (l : Fin q → Loss n)
  | arrays (a : Fin n → Fin q → ℝ)
  | weights (w : Option (Fin n → ℝ))
  | offset (o : Option (Fin n → Fin q → ℝ))
  | coefOffset (o : Option (Fin p → Fin q → ℝ))
  | number (c : ℝ)
  | noneVal
  | other

/-- the names bound at the level of the module: `mglm.py:1-21` (imports) and its classes and functions (lines 23, 271, 745, 882) -/
def Mglm.moduleNames : List String :=
  ["warnings", "copy", "np", "sparse", "smooth_atom", "affine_smooth", "astransform", "linear_transform", "affine_transform",
   "identity_quadratic", "l1norm", "cox_loglike", "glm", "gaussian_loglike", "logistic_loglike", "poisson_loglike", "huber_loss",
   "huber_svm", "mglm", "stacked_common_loglike", "multinomial_loglike", "multinomial_baseline_loglike"]

/-- Python's lookup of a name: the frame of the call, then the module (none of the names looked up here is a builtin); `none`: NameError -/
def PyVal.find (frame : List (String × PyVal n p q)) (name : String) : Option (PyVal n p q) :=
  match frame.lookup name with
  | some v => some v
  | none => if name ∈ Mglm.moduleNames then some .other else none

/-- what `logistic_loglike` receives in the place of `shape` -/
inductive ShapeArg (n : ℕ) where
  | tuple (m : ℕ)
  | floats (v : Fin n → ℝ)

/-- `logistic_loglike(shape, successes, coef=coef)`, `binary.py:18-55`: `zeros(shape)` (`composite.py:37`) accepts a tuple and raises
TypeError for a nonempty array of floating point numbers.  Simplification: a tuple of another length than the responses, which numpy
broadcasts or rejects later, is answered by ValueError. -/
def Stacked.logisticLoss (shape : ShapeArg n) (successes : Fin n → ℝ) (coef : ℝ) : Made (Loss n) :=
  match shape with
  | .floats _ => .typeError
  | .tuple m =>
    if m = n then
      match Loss.resolveTrials successes none with
      | none => .valueError
      | some t => Made.ofOption (Loss.init (.logistic successes t) coef none (Quad.init none none none none) none)
    else .valueError

/-- the exception of an outcome -/
def Made.exc {α β : Type} : Made α → Option (Made β)
  | .object _ => none
  | .nameError => some .nameError
  | .typeError => some .typeError
  | .valueError => some .valueError

/-- the object of an outcome -/
def Made.obj {α : Type} : Made α → Option α
  | .object a => some a
  | _ => none

/-- a list comprehension of column losses, followed by `klass(losses, offset=offset, case_weights=case_weights)`: the first exception
ends it -/
def Stacked.comprehension (l : Fin q → Made (Loss n)) (offset : Option (Fin n → Fin q → ℝ)) (caseWeights : Option (Fin n → ℝ)) :
    Made (Stacked n q) :=
  match (List.finRange q).findSome? fun j => (l j).exc with
  | some e => e
  | none =>
    match Stacked.columns fun j => (l j).obj with
    | none => .valueError
    | some l => Made.ofOption (Stacked.init l 1 offset caseWeights)

/-- `[logistic_loglike(successes[i], trials[i], coef=coef) for i in range(len(successes))]`, `mglm.py:519-522, 568-571`, with the names
`successes` and `trials` resolved in the frame.  The first parameter of `logistic_loglike` is the shape, so the responses are taken for
the shape and the trials for the responses.  Subscripting `None` is a TypeError. -/
def Stacked.logisticBody (frame : List (String × PyVal n p q)) (coef : ℝ) (offset : Option (Fin n → Fin q → ℝ))
    (caseWeights : Option (Fin n → ℝ)) : Made (Stacked n q) :=
  match PyVal.find frame "successes" with
  | none => .nameError
  | some (.arrays s) =>
    Stacked.comprehension (fun j =>
      match PyVal.find frame "trials" with
      | none => .nameError
      | some (.arrays t) => Stacked.logisticLoss (.floats fun i => s i j) (fun i => t i j) coef
      | some _ => .typeError) offset caseWeights
  | some _ => .typeError

/-- `mglm.stacked(X, losses, case_weights, coef, offset, saturated_offset, quadratic, initial)`, `mglm.py:213-269`: the call on lines
259-262 is `stacked_common_loglike(losses, successes, coef=coef, offset=saturated_offset)`; with two values for `coef` it would be a
TypeError even if `successes` were bound. -/
def Mglm.stacked (X : Fin n → Fin p → ℝ) (losses : Fin q → Loss n) (caseWeights : Option (Fin n → ℝ)) (coef : ℝ)
    (offset : Option (Fin p → Fin q → ℝ)) (saturatedOffset : Option (Fin n → Fin q → ℝ)) : Made (StackedGlm p n q) :=
  let frame : List (String × PyVal n p q) :=
    [("klass", .other), ("X", .design X), ("losses", .losses losses), ("case_weights", .weights caseWeights), ("coef", .number coef),
     ("offset", .coefOffset offset), ("saturated_offset", .offset saturatedOffset), ("quadratic", .other), ("initial", .other)]
  match PyVal.find frame "stacked_common_loglike", PyVal.find frame "losses", PyVal.find frame "successes" with
  | some _, some (.losses _), some _ => .typeError
  | _, _, _ => .nameError

/-- `stacked_common_loglike.poisson(counts, case_weights, coef, offset, quadratic, initial)`, `mglm.py:530-577`: the body is the one of
`logistic` -/
def Stacked.poisson (counts : Fin n → Fin q → ℝ) (caseWeights : Option (Fin n → ℝ)) (coef : ℝ)
    (offset : Option (Fin n → Fin q → ℝ)) : Made (Stacked n q) :=
  Stacked.logisticBody (p := 0)
    [("klass", .other), ("counts", .arrays counts), ("case_weights", .weights caseWeights), ("coef", .number coef),
     ("offset", .offset offset), ("quadratic", .other), ("initial", .other)] coef offset caseWeights

/-- `stacked_common_loglike.huber(X, response, smoothing_parameter, ...)`, `mglm.py:579-632`: the list comprehension runs over the name
`responses` -/
def Stacked.huber (X : Fin n → Fin p → ℝ) (response : Fin n → Fin q → ℝ) (eps : ℝ) (caseWeights : Option (Fin n → ℝ)) (coef : ℝ)
    (offset : Option (Fin n → Fin q → ℝ)) : Made (Stacked n q) :=
  let frame : List (String × PyVal n p q) :=
    [("klass", .other), ("X", .design X), ("response", .arrays response), ("smoothing_parameter", .number eps),
     ("case_weights", .weights caseWeights), ("coef", .number coef), ("offset", .offset offset), ("quadratic", .other), ("initial", .other)]
  match PyVal.find frame "responses" with
  | none => .nameError
  | some (.arrays r) =>
    Stacked.comprehension (fun j =>
      Made.ofOption (Loss.init (.huber (fun i => r i j) eps) 1 none (Quad.init none none none none) none)) offset caseWeights
  | some _ => .typeError

/-- `stacked_common_loglike.logistic(successes, trials, ...)`, `mglm.py:476-528`, at least one column of at least one case.
Simplification: responses of an integer type, which numpy accepts as a shape, are not modelled. -/
def Stacked.logistic (successes : Fin (n + 1) → Fin (q + 1) → ℝ) (trials : Option (Fin (n + 1) → Fin (q + 1) → ℝ))
    (caseWeights : Option (Fin (n + 1) → ℝ)) (coef : ℝ) (offset : Option (Fin (n + 1) → Fin (q + 1) → ℝ)) :
    Made (Stacked (n + 1) (q + 1)) :=
  Stacked.logisticBody (p := 0)
    [("klass", .other), ("successes", .arrays successes), ("trials", trials.elim .noneVal .arrays), ("case_weights", .weights caseWeights),
     ("coef", .number coef), ("offset", .offset offset), ("quadratic", .other), ("initial", .other)] coef offset caseWeights

/-- `stacked_common_loglike.huber_svm(X, successes, smoothing_parameter, case_weights, coef, offset, ...)`, `mglm.py:634-687`:
`huber_svm(response.shape, response, smoothing_parameter)` per column; `X` and `coef` are not used. -/
def Stacked.huberSvm (_X : Fin n → Fin p → ℝ) (successes : Fin n → Fin q → ℝ) (eps : ℝ) (caseWeights : Option (Fin n → ℝ)) (_coef : ℝ)
    (offset : Option (Fin n → Fin q → ℝ)) : Made (Stacked n q) :=
  match Stacked.columns fun j => Loss.init (.huberSvm (fun i => successes i j) eps) 1 none (Quad.init none none none none) none with
  | none => .valueError
  | some l => Made.ofOption (Stacked.init l 1 offset caseWeights)

/-! ### a stack of Cox losses -/

/-- `stacked_common_loglike` over `cox_loglike` columns, `mglm.py:281-311` -/
structure StackedCox (n q : ℕ) where
  losses : Fin q → CoxLoss n
  coef : ℝ
  offset : Option (Fin n → Fin q → ℝ)
  caseWeights : Option (Fin n → ℝ)
  /-- the buffer `self._gradient` -/
  buf : Fin n → Fin q → Fl

/-- result of an evaluation -/
inductive Eval2F (n q : ℕ) where
  | val (f : Fl)
  | grad (g : Fin n → Fin q → Fl)
  | both (f : Fl) (g : Fin n → Fin q → Fl)
  | valueError

namespace StackedCox

open Classical in
/-- `__init__`, `mglm.py:281-311`; `none`: ValueError -/
def init (losses : Fin q → CoxLoss n) (coef : ℝ) (offset : Option (Fin n → Fin q → ℝ)) (caseWeights : Option (Fin n → ℝ)) :
    Option (StackedCox n q) :=
  if coef < 0 then none
  else if ∃ w, caseWeights = some w ∧ ¬ ∀ i, 0 ≤ w i then none
  else some { losses := losses, coef := coef, offset := offset, caseWeights := caseWeights, buf := fun _ _ => some 0 }

/-- `stacked_common_loglike.cox(X, event_times, censoring, coef, offset, quadratic, initial, case_weights)`, `mglm.py:689-743`: one
`cox_loglike(shape, event_times[i], censoring[i], coef=coef)` per column; `X` is not used and `coef` is not passed on to the stack.
`σ j` is what `np.argsort` returned for column `j`. -/
def cox (_X : Fin n → Fin p → ℝ) (T : Fin q → Fin n → ℝ) (cens : Fin q → Fin n → ℕ) (coef : ℝ) (offset : Option (Fin n → Fin q → ℝ))
    (caseWeights : Option (Fin n → ℝ)) (σ : Fin q → Equiv.Perm (Fin n)) : Made (StackedCox n q) :=
  if h : ∀ j, (CoxLoss.init (T j) (cens j) coef none none (σ j)).isSome then
    Made.ofOption (init (fun j => (CoxLoss.init (T j) (cens j) coef none none (σ j)).get (h j)) 1 offset caseWeights)
  else .valueError

/-- state of the loops over the columns -/
structure Loop (n q : ℕ) where
  losses : Fin q → CoxLoss n
  cw : Fin n → ℝ
  value : Fl
  buf : Fin n → Fin q → Fl

/-- one pass of the loops, `mglm.py:353-374`; the column loss multiplies the array `cw` in place by its own weights
(`cox.py:96-100`) -/
def column (x : Fin n → Fin q → ℝ) (mode : Mode) (s : Loop n q) (j : Fin q) : Loop n q :=
  let r := (s.losses j).smoothObjective (fun k => x k j) mode (some s.cw)
  let put : (Fin n → Fl) → Fin n → Fin q → Fl := fun g k l => if l = j then g k else s.buf k l
  let s' : Loop n q := { s with losses := Function.update s.losses j r.2, cw := fun i => s.cw i * (s.losses j).caseWeights i }
  match r.1 with
  | .val f => { s' with value := Fl.add s.value f }
  | .grad g _ => { s' with buf := put g }
  | .both f g _ => { s' with value := Fl.add s.value f, buf := put g }
  | .valueError => s'

/-- `smooth_objective(natural_param, mode, case_weights=arg)`, `mglm.py:313-376`, with the object and the caller's array after the
call -/
def smoothObjective (S : StackedCox n q) (arg : Option (Fin n → ℝ)) (x : Fin n → Fin q → ℝ) (mode : Mode) :
    Eval2F n q × StackedCox n q × Option (Fin n → ℝ) :=
  let cw0 : Fin n → ℝ := arg.getD fun _ => 1
  let cw : Fin n → ℝ := S.caseWeights.elim cw0 fun w i => cw0 i * w i
  let x := MultiLoss.applyOffset S.offset x
  match mode with
  | .other => (.valueError, S, arg.map fun _ => cw)
  | mode =>
    let s := (List.finRange q).foldl (column x mode) { losses := S.losses, cw := cw, value := some 0, buf := S.buf }
    let S' := { S with losses := s.losses, buf := s.buf }
    let g : Fin n → Fin q → Fl := fun k j => CoxLoss.scaleF S.coef (s.buf k j)
    let r : Eval2F n q := match mode with
      | .func => .val (CoxLoss.scaleF S.coef s.value)
      | .grad => .grad g
      | _ => .both (CoxLoss.scaleF S.coef s.value) g
    (r, S', arg.map fun _ => s.cw)

end StackedCox

/-- `mglm` over a stack of Cox losses, `mglm.py:32-81` -/
structure CoxMglm (p n q : ℕ) where
  X : Fin n → Fin p → ℝ
  loss : StackedCox n q
  offset : Option (Fin p → Fin q → ℝ)
  caseWeights : Fin n → ℝ

namespace CoxMglm

/-- `mglm.__init__`, `mglm.py:32-81` -/
def init (X : Fin n → Fin p → ℝ) (loss : StackedCox n q) (offset : Option (Fin p → Fin q → ℝ)) (caseWeights : Option (Fin n → ℝ)) :
    CoxMglm p n q :=
  { X := X, loss := loss, offset := offset, caseWeights := caseWeights.getD fun _ => 1 }

open Classical in
/-- `X.T.dot(U)` of an array that may hold nan: an entry is nan as soon as a nan takes part in it -/
def dotT (X : Fin n → Fin p → ℝ) (U : Fin n → Fin q → Fl) : Fin p → Fin q → Fl := fun k j =>
  if ∀ i, (U i j).isSome then some (∑ i, X i k * (U i j).getD 0) else none

/-- `smooth_objective(beta, mode)`, inherited from `glm` (`glm.py:96-135`), and the object after the call -/
def smoothObjective (G : CoxMglm p n q) (B : Fin p → Fin q → ℝ) (mode : Mode) : Eval2F p q × CoxMglm p n q :=
  let r := G.loss.smoothObjective (some G.caseWeights) (Mglm.dot G.X (MultiLoss.applyOffset G.offset B)) mode
  let G' := { G with loss := r.2.1, caseWeights := r.2.2.getD G.caseWeights }
  (match r.1 with
    | .val f => .val f
    | .grad g => .grad (dotT G.X g)
    | .both f g => .both f (dotT G.X g)
    | .valueError => .valueError, G')

/-- the object after a history of calls -/
def run (G : CoxMglm p n q) : List ((Fin p → Fin q → ℝ) × Mode) → CoxMglm p n q
  | [] => G
  | c :: l => run (G.smoothObjective c.1 c.2).2 l

open Classical in
/-- the object as a loss given the keyword `quadratic`: what one call returns; a nan is reported as ValueError -/
def toLoss (G : CoxMglm p n q) (quad : Option (Quad (Fin (p * q)) ℝ)) : QuadLoss (p * q) :=
  { obj := fun x mode => match (G.smoothObjective (rows x) mode).1 with
      | .val (some f) => .val f
      | .grad g => if ∀ k j, (g k j).isSome then .grad (unrows fun k j => (g k j).getD 0) else .valueError
      | .both (some f) g => if ∀ k j, (g k j).isSome then .both f (unrows fun k j => (g k j).getD 0) else .valueError
      | _ => .valueError
    quad := quad.getD (Quad.init none none none none) }

end CoxMglm
end
end Verif.Model
