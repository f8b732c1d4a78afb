import Verif.Model.Smooth
import Verif.Model.IdentityQuadratic
import Mathlib.Analysis.SpecialFunctions.Log.Basic
import Mathlib.Algebra.Order.Round

/-!
# Model of the separable losses of regreg/smooth/glm.py and regreg/smooth/binary.py, and of `glm`

Exact reals, one dimensional arrays, at least one observation (`np.min`/`np.max` of an empty array raise).
Arrays handed to a call are mutable: every evaluation returns, next to its result, the content of the caller's
`case_weights` array after the call.
-/

namespace Verif.Model
open Verif.Spec

noncomputable section

/-- The data attributes of a saturated loss.
* `gaussian_loglike.response` (glm.py 864-867), `poisson_loglike.counts` (glm.py 1042-1046),
* `huber_loss.response`, `.smoothing_parameter` (glm.py 1235-1243),
* `logistic_loglike.successes`, `.trials` (binary.py 189-214),
* `huber_svm.successes`, `.smoothing_parameter` (binary.py 775-780). -/
inductive LossData (n : ℕ)
  | gaussian (response : Fin n → ℝ)
  | poisson (counts : Fin n → ℝ)
  | huber (response : Fin n → ℝ) (eps : ℝ)
  | logistic (successes trials : Fin n → ℝ)
  | huberSvm (successes : Fin n → ℝ) (eps : ℝ)

/-- A saturated loss: data, `coef`, `offset`, `quadratic` and `case_weights` attributes. -/
structure Loss (n : ℕ) where
  data : LossData n
  coef : ℝ
  offset : Option (Fin n → ℝ)
  quad : Quad (Fin n) ℝ
  caseWeights : Option (Fin n → ℝ)

namespace Loss

/-- The data checks of the constructors that raise ValueError: glm.py 1048-1051 (`np.allclose(np.round(c), c)` has
tolerance `1e-8 + 1e-5 |c|`, and `np.min(c) < 0`); binary.py 209-213 for given `trials`. -/
def dataError {n : ℕ} : LossData n → Prop
  | .poisson c => (∃ i, ¬ |(round (c i) : ℝ) - c i| ≤ 1 / 10 ^ 8 + 1 / 10 ^ 5 * |c i|) ∨ ∃ i, c i < 0
  | .logistic s t => (∃ i, t i - s i < 0) ∨ ∃ i, s i < 0
  | _ => False

/-- The constant of the quadratic `devq` the constructor adds: glm.py 1053-1060 (poisson; `coef` appears twice) and
binary.py 37-46 (logistic). -/
def devConst {n : ℕ} (coef : ℝ) : LossData n → Option ℝ
  | .poisson c =>
    let terms : Fin n → ℝ := fun i => if c i = 0 then 0 else -(coef * ((c i - 1) * Real.log (c i)))
    some (-(-coef * ∑ i, terms i))
  | .logistic s t =>
    let saturated : Fin n → ℝ := fun i => s i / t i
    let terms : Fin n → ℝ := fun i => if saturated i ≠ 0 ∧ saturated i ≠ 1 then
      Real.log (saturated i) * s i + Real.log (1 - saturated i) * (t i - s i) else 0
    some (-(-coef * ∑ i, terms i))
  | _ => none

/-- the quadratic after the constructor: `self.quadratic += devq` (glm.py 1060, binary.py 46) -/
def devQuad {n : ℕ} (coef : ℝ) (d : LossData n) (q : Quad (Fin n) ℝ) : Quad (Fin n) ℝ :=
  match devConst coef d with
  | some c => q.add (some (Quad.init (some 0) (some (.scalar 0)) (some (.scalar 0)) (some c)))
  | none => q

open Classical in
/-- The constructors: glm.py 848-876, 1026-1067, 1218-1252, binary.py 18-55, 758-789 on top of
`smooth_atom.__init__` (smooth/__init__.py 43-52).  `none` is ValueError. -/
def init {n : ℕ} (d : LossData n) (coef : ℝ) (offset : Option (Fin n → ℝ)) (quad : Quad (Fin n) ℝ)
    (caseWeights : Option (Fin n → ℝ)) : Option (Loss n) :=
  match Smooth.atomInit coef offset with
  | none => none
  | some (coef, offset) =>
    if dataError d then none
    else if ∃ w, caseWeights = some w ∧ ¬ ∀ i, 0 ≤ w i then none
    else some { data := d, coef := coef, offset := offset, quad := devQuad coef d quad, caseWeights := caseWeights }

open Classical in
/-- `logistic_loglike.set_data` without trials, binary.py 205-208: successes must be binary and `trials` is all ones;
`none` is ValueError.  With trials they are stored as given. -/
def resolveTrials {n : ℕ} (successes : Fin n → ℝ) : Option (Fin n → ℝ) → Option (Fin n → ℝ)
  | none => if ∀ i, successes i = 0 ∨ successes i = 1 then some fun _ => 1 else none
  | some t => some t

/-- `cw` in every `smooth_objective` and `hessian`: the caller's weights (ones if not given) multiplied in place by
the loss' own weights.  glm.py 912-916, 956-960, 1103-1107, 1150-1154, 1288-1292; binary.py 91-95, 168-172, 825-829. -/
def cw {n : ℕ} (own arg : Option (Fin n → ℝ)) : Fin n → ℝ :=
  let a : Fin n → ℝ := match arg with
    | some a => a
    | none => fun _ => 1
  match own with
  | some w => fun i => a i * w i
  | none => a

/-- The caller's array after the call: `cw` is the same array object, so `cw *= self.case_weights` is visible. -/
def argAfter {n : ℕ} (own arg : Option (Fin n → ℝ)) : Option (Fin n → ℝ) :=
  match arg with
  | some _ => some (cw own arg)
  | none => none

/-- `np.sign` -/
def npSign (a : ℝ) : ℝ := if 0 < a then 1 else if a < 0 then -1 else 0

/-- `_huber_loss`, glm.py 1387-1392: per-observation loss and gradient. -/
def huberPair (eps a : ℝ) : ℝ × ℝ :=
  let proj := npSign a * min (|a| / eps) 1
  (a * proj - eps * proj ^ 2 / 2, proj)

/-- `_huber_svm`, binary.py 925-929. -/
def huberSvmPair (eps z : ℝ) : ℝ × ℝ :=
  let arg := (1 - z) / eps
  let proj := (if 0 < arg then 1 else 0) * (if arg < 1 then 1 else 0) * arg + (if 1 ≤ arg then 1 else 0)
  (arg * proj - eps * proj ^ 2 / 2, -proj)

/-- `log_exp_x` of `logistic_loglike.smooth_objective`, binary.py 101-117: `x` itself where `x > 100`.  The compressed
array `exp_x` is written entrywise; without overflow all entries are `≤ 100`. -/
def logExp (x : ℝ) : ℝ := if x ≤ 100 then Real.log (1 + Real.exp x) else x

/-- `ratio / trials`, same lines. -/
def ratio1 (x : ℝ) : ℝ := if x ≤ 100 then Real.exp x / (1 + Real.exp x) else 1

/-- `smooth_objective(x, mode, case_weights=arg)` of the five losses, with the caller's array after the call:
glm.py 878-931 (gaussian), 1069-1126 (poisson), 1254-1308 (huber); binary.py 57-143 (logistic), 791-846 (huber_svm). -/
def smoothObjective {n : ℕ} (L : Loss n) (x0 : Fin n → ℝ) (mode : Mode) (arg : Option (Fin n → ℝ)) :
    Eval n × Option (Fin n → ℝ) :=
  let w := cw L.caseWeights arg
  let after := argAfter L.caseWeights arg
  let x := Smooth.applyOffset L.offset x0
  match L.data with
  | .gaussian y =>
    let resid : Fin n → ℝ := fun i => x i - y i
    match mode with
    | .both => (.both (Smooth.scaleR L.coef (∑ i, w i * resid i ^ 2) / 2) (Smooth.scaleV L.coef fun i => w i * resid i), after)
    | .grad => (.grad (Smooth.scaleV L.coef fun i => w i * resid i), after)
    | .func => (.val (Smooth.scaleR L.coef (∑ i, w i * resid i ^ 2) / 2), after)
    | .other => (.valueError, after)
  | .poisson c =>
    match mode with
    | .both => (.both (-Smooth.scaleR L.coef (-(∑ i, w i * Real.exp (x i)) + ∑ i, w i * c i * x i))
        (fun i => -Smooth.scaleV L.coef (fun i => w i * (c i - Real.exp (x i))) i), after)
    | .grad => (.grad (fun i => -Smooth.scaleV L.coef (fun i => w i * (c i - Real.exp (x i))) i), after)
    | .func => (.val (-Smooth.scaleR L.coef (-(∑ i, w i * Real.exp (x i)) + ∑ i, w i * c i * x i)), after)
    | .other => (.valueError, after)
  | .huber y eps =>
    let r : Fin n → ℝ × ℝ := fun i => huberPair eps (x i - y i)
    match mode with
    | .both => (.both (Smooth.scaleR L.coef (∑ i, (r i).1 * w i)) (Smooth.scaleV L.coef fun i => (r i).2 * w i), after)
    | .grad => (.grad (Smooth.scaleV L.coef fun i => (r i).2 * w i), after)
    | .func => (.val (Smooth.scaleR L.coef (∑ i, (r i).1 * w i)), after)
    | .other => (.valueError, after)
  | .logistic s t =>
    match mode with
    | .both => (.both (-Smooth.scaleR L.coef (∑ i, w i * s i * x i - ∑ i, w i * t i * logExp (x i)))
        (fun i => -Smooth.scaleV L.coef (fun i => w i * (s i - t i * ratio1 (x i))) i), after)
    | .grad => (.grad (fun i => -Smooth.scaleV L.coef (fun i => w i * (s i - t i * ratio1 (x i))) i), after)
    | .func => (.val (-Smooth.scaleR L.coef (∑ i, w i * s i * x i - ∑ i, w i * t i * logExp (x i))), after)
    | .other => (.valueError, after)
  | .huberSvm s eps =>
    let r : Fin n → ℝ × ℝ := fun i =>
      let p := huberSvmPair eps ((2 * s i - 1) * x i)
      (p.1, p.2 * (2 * s i - 1))
    match mode with
    | .both => (.both (Smooth.scaleR L.coef (∑ i, (r i).1 * w i)) (Smooth.scaleV L.coef fun i => (r i).2 * w i), after)
    | .grad => (.grad (Smooth.scaleV L.coef fun i => (r i).2 * w i), after)
    | .func => (.val (Smooth.scaleR L.coef (∑ i, (r i).1 * w i)), after)
    | .other => (.valueError, after)

/-- Result of `hessian`: the diagonal, or NotImplementedError. -/
inductive Hess (n : ℕ)
  | diag (h : Fin n → ℝ)
  | notImplemented

open Classical in
/-- `exp_x` in `logistic_loglike.hessian`, binary.py 174-182.  On overflow `~not_overflow_ind` negates the *integers*
in the index array, so position `-1-j`, that is `n-1-j`, is overwritten for every `j` without overflow. -/
def hessExp {n : ℕ} (x : Fin n → ℝ) : Fin n → ℝ := fun i =>
  if ∃ j, x j > 100 then
    if ∃ j, x j ≤ 100 ∧ i = Fin.rev j then Real.exp 100
    else if x i ≤ 100 then Real.exp (x i) else 0
  else Real.exp (x i)

/-- `hessian(x, case_weights=arg)`: glm.py 933-961 (gaussian), 1128-1156 (poisson), 1310-1332 (huber); binary.py
145-184 (logistic), 848-870 (huber_svm).  None of them applies the offset. -/
def hessian {n : ℕ} (L : Loss n) (x : Fin n → ℝ) (arg : Option (Fin n → ℝ)) : Hess n × Option (Fin n → ℝ) :=
  let w := cw L.caseWeights arg
  let after := argAfter L.caseWeights arg
  match L.data with
  | .gaussian _ => (.diag (Smooth.scaleV L.coef fun i => 1 * w i), after)
  | .poisson _ => (.diag (Smooth.scaleV L.coef fun i => w i * Real.exp (x i)), after)
  | .logistic _ t => (.diag (Smooth.scaleV L.coef fun i => hessExp x i / (1 + hessExp x i) ^ 2 * t i * w i), after)
  | .huber _ _ => (.notImplemented, arg)
  | .huberSvm _ _ => (.notImplemented, arg)

/-- `composite.objective`, problems/composite.py 83-84 with `nonsmooth_objective` 73-74: the value plus the quadratic. -/
def objective {n : ℕ} (L : Loss n) (x : Fin n → ℝ) : Option ℝ :=
  match (L.smoothObjective x .func none).1 with
  | .val f => some (f + L.quad.funcVal x)
  | _ => none

/-- `__copy__`: glm.py 971-978, 1166-1174, 1375-1383; binary.py 218-227, 913-921.  The constructor runs again on the
copied attributes; `huber_loss` and `huber_svm` do not pass `case_weights`. -/
def copy {n : ℕ} (L : Loss n) : Option (Loss n) :=
  match L.data with
  | .huber y eps => init (.huber y eps) L.coef L.offset L.quad none
  | .huberSvm s eps => init (.huberSvm s eps) L.coef L.offset L.quad none
  | d => init d L.coef L.offset L.quad L.caseWeights

open Classical in
/-- `subsample(case_idx)`: glm.py 980-1013, 1176-1209, 1342-1373; binary.py 229-262, 880-911: copy, then multiply the
copy's weights (ones if there are none) by the indicator of the index set. -/
def subsample {n : ℕ} (L : Loss n) (idx : Finset (Fin n)) : Option (Loss n) :=
  match L.copy with
  | none => none
  | some C =>
    let w : Fin n → ℝ := match C.caseWeights with
      | some w => w
      | none => fun _ => 1
    some { C with caseWeights := some fun i => w i * if i ∈ idx then 1 else 0 }

end Loss

/-- A `glm` object: design matrix, saturated loss, offset and the array of case weights (glm.py 67-94). -/
structure Glm (p n : ℕ) where
  X : Fin n → Fin p → ℝ
  loss : Loss n
  offset : Option (Fin p → ℝ)
  caseWeights : Fin n → ℝ

namespace Glm

open Classical in
/-- `glm.__init__`, glm.py 35-94; `none` is ValueError.  Simplification: `X` is an ndarray and `quadratic`,
`initial` are not part of the state. -/
def init {p n : ℕ} (X : Fin n → Fin p → ℝ) (loss : Loss n) (offset : Option (Fin p → ℝ))
    (caseWeights : Option (Fin n → ℝ)) : Option (Glm p n) :=
  let w : Fin n → ℝ := match caseWeights with
    | some w => w
    | none => fun _ => 1
  if ¬ ∀ i, 0 ≤ w i then none
  else some { X := X, loss := loss, offset := offset, caseWeights := w }

/-- `X.dot(beta)` -/
def dot {p n : ℕ} (X : Fin n → Fin p → ℝ) (β : Fin p → ℝ) : Fin n → ℝ := fun i => ∑ j, X i j * β j

/-- `X.T.dot(u)` -/
def dotT {p n : ℕ} (X : Fin n → Fin p → ℝ) (u : Fin n → ℝ) : Fin p → ℝ := fun j => ∑ i, X i j * u i

/-- `glm.smooth_objective`, glm.py 96-135, with the glm after the call: its own `case_weights` array is what it passes
to the loss, which may multiply it in place.  `self.coef` is 1, so `scale` is the identity. -/
def smoothObjective {p n : ℕ} (G : Glm p n) (β0 : Fin p → ℝ) (mode : Mode) : Eval p × Glm p n :=
  let β := Smooth.applyOffset G.offset β0
  let r := G.loss.smoothObjective (dot G.X β) mode (some G.caseWeights)
  let G' := { G with caseWeights := r.2.getD G.caseWeights }
  match mode, r.1 with
  | .func, .val f => (.val f, G')
  | .grad, .grad g => (.grad (dotT G.X g), G')
  | .both, .both f g => (.both f (dotT G.X g), G')
  | _, .valueError => (.valueError, G')
  | _, _ => (.typeError, G')

/-- Result of `glm.hessian`. -/
inductive Hess (p : ℕ)
  | mat (H : Fin p → Fin p → ℝ)
  | notImplemented

/-- `glm.hessian`, glm.py 208-248, for a loss with a `hessian` method and an ndarray `X`: the linear predictor is
`X beta` without the offset. -/
def hessian {p n : ℕ} (G : Glm p n) (β : Fin p → ℝ) : Hess p × Glm p n :=
  let r := G.loss.hessian (dot G.X β) (some G.caseWeights)
  let G' := { G with caseWeights := r.2.getD G.caseWeights }
  match r.1 with
  | .diag W => (.mat fun j k => ∑ i, G.X i j * (W i * G.X i k), G')
  | .notImplemented => (.notImplemented, G')

/-- `glm.__copy__`, glm.py 253-262. -/
def copy {p n : ℕ} (G : Glm p n) : Option (Glm p n) :=
  match G.loss.copy with
  | none => none
  | some L => init G.X L G.offset (some G.caseWeights)

open Classical in
/-- `glm.subsample(idx)`, glm.py 264-294. -/
def subsample {p n : ℕ} (G : Glm p n) (idx : Finset (Fin n)) : Option (Glm p n) :=
  match G.copy with
  | none => none
  | some C => some { C with caseWeights := fun i => C.caseWeights i * if i ∈ idx then 1 else 0 }

/-- The classmethods `glm.gaussian`, `.logistic`, `.poisson`, `.huber`, `.huber_svm` (glm.py 296-357, 359-426, 566-625,
627-694, 696-763): build the loss from the data, `coef` and `saturated_offset` only, then the glm.  The logistic data
carry resolved trials. -/
def build {p n : ℕ} (X : Fin n → Fin p → ℝ) (d : LossData n) (coef : ℝ) (saturatedOffset : Option (Fin n → ℝ))
    (offset : Option (Fin p → ℝ)) (caseWeights : Option (Fin n → ℝ)) : Option (Glm p n) :=
  match Loss.init d coef saturatedOffset (Quad.init none none none none) none with
  | none => none
  | some L => init X L offset caseWeights

/-- A call on a glm: `smooth_objective(β, mode)` or `hessian(β)`. -/
inductive Op (p : ℕ)
  | smooth (β : Fin p → ℝ) (mode : Mode)
  | hess (β : Fin p → ℝ)

/-- A sequence of calls, the glm threaded through. -/
def run {p n : ℕ} (G : Glm p n) : List (Op p) → Glm p n
  | [] => G
  | .smooth β m :: rest => run (G.smoothObjective β m).2 rest
  | .hess β :: rest => run (G.hessian β).2 rest

end Glm

end
end Verif.Model
