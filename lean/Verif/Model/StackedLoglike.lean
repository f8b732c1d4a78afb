import Verif.Model.Losses
import Mathlib.Algebra.BigOperators.Fin

/-!
# Model of `stacked_loglike` (regreg/smooth/glm.py 1394-1981) and of the `stacked_*` factories of
regreg/paths/sparse_group_block.py 420-452

`m` saturated losses with their own numbers of observations `sizes d`, stacked in one long vector.  Exact reals.
-/

set_option linter.unusedVariables false

namespace Verif.Model
open Verif.Spec

noncomputable section

/-- One of the stacked losses as the stack sees it: the number of dimensions of its `data` attribute (2 for Cox, 1 for the
others) and `smooth_objective(x, mode)`, called without case weights (glm.py 1491, 1496, 1501). -/
structure StackCol (n : ℕ) where
  dims : ℕ
  eval : (Fin n → ℝ) → Mode → Eval n

/-- a separable loss of glm.py or binary.py as a part of a stack; its `data` is one dimensional (glm.py 963-964, 1158-1159,
1334-1335; binary.py 186-187, 872-873) -/
def StackCol.ofLoss {n : ℕ} (L : Loss n) : StackCol n := ⟨1, fun x mode => (L.smoothObjective x mode none).1⟩

/-- Result of a constructor call. -/
inductive Built (α : Type)
  | ok (a : α)
  | valueError
  | typeError
  | nameError

/-- The attributes of a `stacked_loglike`.  Simplification: `quadratic`, `initial` and the stacked copy of the data are not
part of the state; they take no part in `smooth_objective`. -/
structure StackedLoss {m : ℕ} (sizes : Fin m → ℕ) where
  losses : (d : Fin m) → StackCol (sizes d)
  coef : ℝ
  offset : Option (Fin (∑ d, sizes d) → ℝ)
  caseWeights : Option (Fin (∑ d, sizes d) → ℝ)
  /-- start of each slice: `self._slices[d] = slice(start, start + size, 1)` -/
  starts : Fin m → ℕ
  /-- the buffer `self._gradient` -/
  buf : Fin (∑ d, sizes d) → ℝ

namespace StackedLoss

variable {m : ℕ} {sizes : Fin m → ℕ}

/-- the loop over the losses computing the slices, glm.py 1430-1434: state `idx` and the starts recorded so far -/
def sliceLoop (sizes : Fin m → ℕ) : ℕ × (Fin m → ℕ) :=
  (List.finRange m).foldl (fun s d => (s.1 + sizes d, fun e => if e = d then s.1 else s.2 e)) (0, fun _ => 0)

open Classical in
/-- `__init__`, glm.py 1405-1447.  Without losses `np.sum([])` is the float `0.` and `np.zeros((0.,))` raises TypeError.
The check of the shape of `case_weights` is part of the type. -/
def init (losses : (d : Fin m) → StackCol (sizes d)) (coef : ℝ) (offset caseWeights : Option (Fin (∑ d, sizes d) → ℝ)) :
    Built (StackedLoss sizes) :=
  if m = 0 then .typeError
  else if coef < 0 then .valueError                                                     -- smooth/__init__.py 50-51
  else if ¬ ((∀ d, (losses d).dims = 1) ∨ ∀ d, (losses d).dims = 2) then .valueError    -- 1420-1428
  else if ∃ w, caseWeights = some w ∧ ¬ ∀ i, 0 ≤ w i then .valueError                   -- 1439-1441
  else .ok { losses := losses, coef := coef, offset := offset, caseWeights := caseWeights,
             starts := (sliceLoop sizes).2, buf := fun _ => 0 }

/-- `linpred[slice]`: entries `start, ..., start + size - 1`.  (Positions outside the vector do not occur; they read as 0.) -/
def slice {N : ℕ} (start size : ℕ) (x : Fin N → ℝ) : Fin size → ℝ := fun k =>
  if h : start + k < N then x ⟨start + k, h⟩ else 0

/-- `buf[slice] = g` -/
def setSlice {N : ℕ} (start size : ℕ) (buf : Fin N → ℝ) (g : Fin size → ℝ) : Fin N → ℝ := fun t =>
  if h : start ≤ t ∧ (t : ℕ) < start + size then g ⟨t - start, by omega⟩ else buf t

/-- state of the loops: the value so far and the gradient buffer; `ok = false` after an exception -/
structure Loop (N : ℕ) where
  ok : Bool
  value : ℝ
  buf : Fin N → ℝ

/-- one pass of the three loops over the slices, glm.py 1489-1503 -/
def column (S : StackedLoss sizes) (x : Fin (∑ d, sizes d) → ℝ) (mode : Mode) (s : Loop (∑ d, sizes d)) (d : Fin m) :
    Loop (∑ d, sizes d) :=
  let start := S.starts d
  match mode, (S.losses d).eval (slice start (sizes d) x) mode with
  | .grad, .grad g => { s with buf := setSlice start (sizes d) s.buf g }
  | .func, .val f => { s with value := s.value + f }
  | .both, .both f g => { s with value := s.value + f, buf := setSlice start (sizes d) s.buf g }
  | _, _ => { s with ok := false }

/-- `smooth_objective(natural_param, mode, case_weights=arg)`, glm.py 1449-1506, with the object and the caller's array
after the call.  Lines 1480-1484 compute `cw` (in place, in the caller's array) and nothing reads it afterwards. -/
def smoothObjective (S : StackedLoss sizes) (arg : Option (Fin (∑ d, sizes d) → ℝ)) (x0 : Fin (∑ d, sizes d) → ℝ) (mode : Mode) :
    Eval (∑ d, sizes d) × StackedLoss sizes × Option (Fin (∑ d, sizes d) → ℝ) :=
  let after := Loss.argAfter S.caseWeights arg                                          -- 1480-1484
  let x := Smooth.applyOffset S.offset x0                                               -- 1486-1488
  let s := (List.finRange m).foldl (S.column x mode) { ok := true, value := 0, buf := S.buf }
  let S' := { S with buf := s.buf }
  match mode with
  | .grad => (if s.ok then .grad (Smooth.scaleV S.coef s.buf) else .typeError, S', after)
  | .func => (if s.ok then .val (Smooth.scaleR S.coef s.value) else .typeError, S', after)
  | .both => (if s.ok then .both (Smooth.scaleR S.coef s.value) (Smooth.scaleV S.coef s.buf) else .typeError, S', after)
  | .other => (.valueError, S, after)

/-- `__copy__`, glm.py 1516-1522: the list is copied, the losses are shared -/
def copy (S : StackedLoss sizes) : Built (StackedLoss sizes) := init S.losses S.coef S.offset S.caseWeights

open Classical in
/-- `subsample(case_idx)`, glm.py 1524-1555 -/
def subsample (S : StackedLoss sizes) (idx : Finset (Fin (∑ d, sizes d))) : Built (StackedLoss sizes) :=
  match S.copy with
  | .ok C =>
    let w : Fin (∑ d, sizes d) → ℝ := C.caseWeights.getD fun _ => 1
    .ok { C with caseWeights := some fun i => w i * if i ∈ idx then 1 else 0 }
  | e => e

/-- a history of calls of `smooth_objective` -/
def run (S : StackedLoss sizes) : List (Option (Fin (∑ d, sizes d) → ℝ) × (Fin (∑ d, sizes d) → ℝ) × Mode) → StackedLoss sizes
  | [] => S
  | c :: cs => (S.smoothObjective c.1 c.2.1 c.2.2).2.1.run cs

open Classical in
/-- the list of losses a classmethod builds: an exception of any of the constructors is raised -/
def ofLosses (mk : (d : Fin m) → Option (Loss (sizes d))) (coef : ℝ) (offset caseWeights : Option (Fin (∑ d, sizes d) → ℝ)) :
    Built (StackedLoss sizes) :=
  if h : ∀ d, (mk d).isSome then init (fun d => StackCol.ofLoss ((mk d).get (h d))) coef offset caseWeights else .valueError

/-- `stacked_loglike.gaussian(responses, case_weights, coef, offset)`, glm.py 1557-1604: `coef` goes to the losses. -/
def gaussian (responses : (d : Fin m) → Fin (sizes d) → ℝ) (caseWeights : Option (Fin (∑ d, sizes d) → ℝ)) (coef : ℝ)
    (offset : Option (Fin (∑ d, sizes d) → ℝ)) : Built (StackedLoss sizes) :=
  ofLosses (fun d => Loss.init (.gaussian (responses d)) coef none (Quad.init none none none none) none) 1 offset caseWeights

/-- `stacked_loglike.huber(X, responses, smoothing_parameter, case_weights, coef, offset)`, glm.py 1817-1870: `coef` is not
used, and neither is `X` (which is left out here). -/
def huber (responses : (d : Fin m) → Fin (sizes d) → ℝ) (eps : ℝ) (caseWeights : Option (Fin (∑ d, sizes d) → ℝ)) (coef : ℝ)
    (offset : Option (Fin (∑ d, sizes d) → ℝ)) : Built (StackedLoss sizes) :=
  ofLosses (fun d => Loss.init (.huber (responses d) eps) 1 none (Quad.init none none none none) none) 1 offset caseWeights

/-- `stacked_loglike.huber_svm(X, successes, smoothing_parameter, case_weights, coef, offset)`, glm.py 1872-1925; as above. -/
def huberSvm (successes : (d : Fin m) → Fin (sizes d) → ℝ) (eps : ℝ) (caseWeights : Option (Fin (∑ d, sizes d) → ℝ)) (coef : ℝ)
    (offset : Option (Fin (∑ d, sizes d) → ℝ)) : Built (StackedLoss sizes) :=
  ofLosses (fun d => Loss.init (.huberSvm (successes d) eps) 1 none (Quad.init none none none none) none) 1 offset caseWeights

/-- `stacked_loglike.logistic`, `.probit`, `.cloglog` (successes, trials, case_weights, coef, offset), glm.py 1606-1766.
With `trials=None`, `trials[i]` raises TypeError.  Otherwise `logistic_loglike(successes[i], trials[i], coef=coef)` takes the
array `successes[i]` as `shape`, and `np.zeros(shape)` (problems/composite.py 36) raises TypeError for an array of floats.
Simplification: arrays of floats, each with at least one entry (an array of integers is accepted as a shape). -/
def binary (successes : (d : Fin m) → Fin (sizes d) → ℝ) (trials : Option ((d : Fin m) → Fin (sizes d) → ℝ))
    (caseWeights : Option (Fin (∑ d, sizes d) → ℝ)) (coef : ℝ) (offset : Option (Fin (∑ d, sizes d) → ℝ)) :
    Built (StackedLoss sizes) :=
  if m = 0 then init (fun _ => ⟨1, fun _ _ => .typeError⟩) 1 offset caseWeights
  else match trials with
    | none => .typeError
    | some _ => .typeError

/-- `stacked_loglike.poisson(counts, case_weights, coef, offset)`, glm.py 1768-1815: the body reads the name `successes`,
which is neither an argument nor a global. -/
def poisson (counts : (d : Fin m) → Fin (sizes d) → ℝ) (caseWeights : Option (Fin (∑ d, sizes d) → ℝ)) (coef : ℝ)
    (offset : Option (Fin (∑ d, sizes d) → ℝ)) : Built (StackedLoss sizes) := .nameError

end StackedLoss

/-- The factories `stacked_gaussian`, ... of paths/sparse_group_block.py 420-452. -/
inductive StackFamily
  | gaussian | cox | logistic | probit | cloglog | poisson | huber | huberSvm

namespace StackFamily

/-- number of positional arguments of the classmethod without default (glm.py 1557, 1606, 1660, 1714, 1768, 1817, 1872, 1927) -/
def required : StackFamily → ℕ
  | .gaussian => 1
  | .logistic => 1
  | .probit => 1
  | .cloglog => 1
  | .poisson => 1
  | .huber => 3
  | .huberSvm => 3
  | .cox => 3

/-- number of arguments the factory passes (sparse_group_block.py 421, 425, 430, 434, 438, 442, 446, 450) -/
def passed : StackFamily → ℕ
  | .gaussian => 1
  | .logistic => 1
  | .probit => 1
  | .cloglog => 1
  | .poisson => 1
  | .huber => 2
  | .huberSvm => 2
  | .cox => 2

/-- the call of the classmethod in the factory: a missing positional argument is a TypeError; otherwise the responses are
passed and everything else has its default value.  `eps` is the smoothing parameter. -/
def loss {m : ℕ} {sizes : Fin m → ℕ} (fam : StackFamily) (Ys : (d : Fin m) → Fin (sizes d) → ℝ) (eps : ℝ) :
    Built (StackedLoss sizes) :=
  if fam.passed < fam.required then .typeError
  else match fam with
    | .gaussian => StackedLoss.gaussian Ys none 1 none
    | .logistic => StackedLoss.binary Ys none none 1 none
    | .probit => StackedLoss.binary Ys none none 1 none
    | .cloglog => StackedLoss.binary Ys none none 1 none
    | .poisson => StackedLoss.poisson Ys none 1 none
    | .huber => StackedLoss.huber Ys eps none 1 none
    | .huberSvm => StackedLoss.huberSvm Ys eps none 1 none
    | .cox => .typeError

end StackFamily

end

end Verif.Model
