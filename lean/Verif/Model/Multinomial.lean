import Verif.Spec.Multi
import Verif.Model.LossHeap

/-!
# Model of regreg/smooth/mglm.py

`multinomial_loglike`, `multinomial_baseline_loglike`, `stacked_common_loglike` and `mglm`.  Exact reals, dense arrays,
at least one case and one column.  The classmethods `mglm.stacked` and `stacked_common_loglike.logistic`, `.poisson`, `.huber`,
`.huber_svm`, `.cox` are in `Model/StackedFactories.lean`.
-/

namespace Verif.Model
open Verif.Spec

noncomputable section

/-- `counts` of `multinomial_loglike` (one column per category) or of `multinomial_baseline_loglike` (one more category
than columns of the argument), mglm.py 745-805, 882-945. -/
inductive MultiData (n q : ℕ)
  | full (counts : Fin n → Fin q → ℝ)
  | baseline (counts : Fin n → Fin (q + 1) → ℝ)

/-- A multinomial loss.  `ref` is the address of the `case_weights` array, if any. -/
structure MultiLoss (n q : ℕ) where
  data : MultiData n q
  coef : ℝ
  offset : Option (Fin n → Fin q → ℝ)
  ref : Option ℕ

namespace MultiLoss

variable {n q : ℕ}

/-- the constructors' ValueErrors, mglm.py 778-779 and 913-916 (`np.allclose` as in `Loss.dataError`) -/
def dataError : MultiData n q → Prop
  | .full c => ∃ i j, c i j < 0
  | .baseline c => (∃ i j, ¬ |(round (c i j) : ℝ) - c i j| ≤ 1 / 10 ^ 8 + 1 / 10 ^ 5 * |c i j|) ∨ ∃ i j, c i j < 0

open Classical in
/-- The constructors, mglm.py 754-802, 890-942.  Simplification: `quadratic` and `initial` are not part of the state.
`none` is ValueError.  The given weight array is kept, not copied (`np.asarray`). -/
def init (h : WHeap n) (d : MultiData n q) (coef : ℝ) (offset : Option (Fin n → Fin q → ℝ)) (ref : Option ℕ) :
    Option (MultiLoss n q) :=
  if coef < 0 then none
  else if dataError d then none
  else if ∃ r, ref = some r ∧ ¬ ∀ i, 0 ≤ h.cell r i then none
  else some { data := d, coef := coef, offset := offset, ref := ref }

/-- `self.counts`, resp. `self.firstcounts`, mglm.py 772-774, 910 -/
def first : MultiData n q → Fin n → Fin q → ℝ
  | .full c => c
  | .baseline c => fun i j => c i j.castSucc

/-- `self.trials = np.sum(self.counts, axis=1)`, mglm.py 781, 918 -/
def trials : MultiData n q → Fin n → ℝ
  | .full c => fun i => ∑ j, c i j
  | .baseline c => fun i => ∑ j, c i j

/-- `np.sum(exp_eta, axis=1)`, resp. `1. + np.sum(exp_eta, axis=1)`, mglm.py 837-848, 979-990 -/
def denom (d : MultiData n q) (e : Fin n → Fin q → ℝ) (i : Fin n) : ℝ :=
  match d with
  | .full _ => ∑ j, e i j
  | .baseline _ => 1 + ∑ j, e i j

/-- `overflow_clip = 50`; `np.clip` -/
def clip (x : ℝ) : ℝ := min (max x (-50)) 50

/-- `apply_offset` on matrices, problems/composite.py 112-118 -/
def applyOffset {m : ℕ} (o : Option (Fin m → Fin q → ℝ)) (x : Fin m → Fin q → ℝ) : Fin m → Fin q → ℝ :=
  match o with
  | some o => fun i j => x i j - o i j
  | none => x

/-- the value, mglm.py 838, 848, 980, 990 -/
def value (L : MultiLoss n q) (eta : Fin n → Fin q → ℝ) (cw : Fin n → ℝ) : ℝ :=
  let e : Fin n → Fin q → ℝ := fun i j => Real.exp (eta i j)
  (-Smooth.scaleR L.coef ((∑ i, ∑ j, cw i * first L.data i j * eta i j) -
    ∑ i, cw i * trials L.data i * Real.log (denom L.data e i)))

/-- the gradient, mglm.py 837-839, 843-844, 979-981, 985-986 -/
def gradient (L : MultiLoss n q) (eta : Fin n → Fin q → ℝ) (cw : Fin n → ℝ) : Fin n → Fin q → ℝ :=
  let e : Fin n → Fin q → ℝ := fun i j => Real.exp (eta i j)
  fun i j => -Smooth.scaleR L.coef (cw i * (first L.data i j - trials L.data i / denom L.data e i * e i j))

/-- `smooth_objective(natural_param, mode, case_weights=arg)`, mglm.py 812-851, 952-993.  The loss' own `case_weights`
are not consulted, and nothing is written. -/
def smoothObjective (L : MultiLoss n q) (arg : Option (Fin n → ℝ)) (x : Fin n → Fin q → ℝ) (mode : Mode) : Eval2 n q :=
  let eta : Fin n → Fin q → ℝ := fun i j => clip (applyOffset L.offset x i j)
  let cw : Fin n → ℝ := arg.getD fun _ => 1
  match mode with
  | .both => .both (L.value eta cw) (L.gradient eta cw) false
  | .grad => .grad (L.gradient eta cw) false
  | .func => .val (L.value eta cw)
  | .other => .valueError

/-- `copy(loss)`: neither class defines `__copy__`, so it is Python's shallow copy: the same references. -/
def copy (L : MultiLoss n q) : MultiLoss n q := L

open Classical in
/-- `subsample(case_idx)`, mglm.py 853-880, 995-1022, on the heap of weight arrays: a new array of ones if there are no
weights, otherwise the array the copy shares with the original; then an in-place product. -/
def subsample (L : MultiLoss n q) (h : WHeap n) (idx : Finset (Fin n)) : MultiLoss n q × WHeap n :=
  let c := L.copy
  let (r, h2) := match c.ref with
    | some r => (r, h)
    | none => LossObj.alloc h fun _ => 1
  ({ c with ref := some r },
   { h2 with cell := fun k => if k = r then fun i => h2.cell r i * (if i ∈ idx then 1 else 0) else h2.cell k })

end MultiLoss

/-- `stacked_common_loglike`: `q` separable losses, one per column (mglm.py 271-311). -/
structure Stacked (n q : ℕ) where
  losses : Fin q → Loss n
  coef : ℝ
  offset : Option (Fin n → Fin q → ℝ)
  caseWeights : Option (Fin n → ℝ)
  /-- the buffer `self._gradient` -/
  buf : Fin n → Fin q → ℝ

namespace Stacked

variable {n q : ℕ}

open Classical in
/-- `__init__`, mglm.py 282-311; `none` is ValueError.  Simplification: the stacked copy of the data is not modelled. -/
def init (losses : Fin q → Loss n) (coef : ℝ) (offset : Option (Fin n → Fin q → ℝ)) (caseWeights : Option (Fin n → ℝ)) :
    Option (Stacked n q) :=
  if coef < 0 then none
  else if ∃ w, caseWeights = some w ∧ ¬ ∀ i, 0 ≤ w i then none
  else some { losses := losses, coef := coef, offset := offset, caseWeights := caseWeights, buf := fun _ _ => 0 }

/-- state of the loops: the array `cw`, the accumulated value and the gradient buffer; `ok = false` after an exception -/
structure Loop (n q : ℕ) where
  ok : Bool
  cw : Fin n → ℝ
  value : ℝ
  buf : Fin n → Fin q → ℝ

/-- one pass of the loops over the columns, mglm.py 353-374.  The column loss receives the array `cw` itself and may
multiply it in place by its own weights (`Loss.smoothObjective` returns the array after the call). -/
def column (S : Stacked n q) (x : Fin n → Fin q → ℝ) (mode : Mode) (s : Loop n q) (i : Fin q) : Loop n q :=
  let r := (S.losses i).smoothObjective (fun k => x k i) mode (some s.cw)
  let cw := r.2.getD s.cw
  let put : (Fin n → ℝ) → Fin n → Fin q → ℝ := fun g k j => if j = i then g k else s.buf k j
  match mode, r.1 with
  | .func, .val f => { s with cw := cw, value := s.value + f }
  | .grad, .grad g => { s with cw := cw, buf := put g }
  | .both, .both f g => { s with cw := cw, value := s.value + f, buf := put g }
  | _, _ => { s with ok := false }

/-- `smooth_objective(natural_param, mode, case_weights=arg)`, mglm.py 313-376, with the object and the caller's array
after the call: `cw *= self.case_weights` writes into the caller's array. -/
def smoothObjective (S : Stacked n q) (arg : Option (Fin n → ℝ)) (x : Fin n → Fin q → ℝ) (mode : Mode) :
    Eval2 n q × Stacked n q × Option (Fin n → ℝ) :=
  let cw0 : Fin n → ℝ := arg.getD fun _ => 1
  let cw : Fin n → ℝ := S.caseWeights.elim cw0 fun w i => cw0 i * w i
  let x := MultiLoss.applyOffset S.offset x
  let s := (List.finRange q).foldl (S.column x mode) { ok := true, cw := cw, value := 0, buf := S.buf }
  let S' := { S with buf := s.buf }
  let out : Option (Fin n → ℝ) := arg.map fun _ => s.cw
  match mode with
  | .other => (.valueError, S, arg.map fun _ => cw)
  | .func => (if s.ok then .val (Smooth.scaleR S.coef s.value) else .typeError, S', out)
  | .grad => (if s.ok then .grad (fun k j => Smooth.scaleR S.coef (s.buf k j)) (decide (S.coef = 1)) else .typeError, S', out)
  | .both => (if s.ok then .both (Smooth.scaleR S.coef s.value) (fun k j => Smooth.scaleR S.coef (s.buf k j))
      (decide (S.coef = 1)) else .typeError, S', out)

/-- `__copy__`, mglm.py 388-394: `copy(self._losses)` copies the list, the column losses are shared (they have no mutable
state of their own that evaluation writes). -/
def copy (S : Stacked n q) : Option (Stacked n q) := init S.losses S.coef S.offset S.caseWeights

open Classical in
/-- `subsample(case_idx)`, mglm.py 396-427; the copy's array is new. -/
def subsample (S : Stacked n q) (idx : Finset (Fin n)) : Option (Stacked n q) :=
  match S.copy with
  | none => none
  | some C =>
    let w : Fin n → ℝ := C.caseWeights.getD fun _ => 1
    some { C with caseWeights := some fun i => w i * (if i ∈ idx then 1 else 0) }

end Stacked

/-- A `mglm` with a multinomial loss (mglm.py 32-81): coefficients are `p × q`. -/
structure Mglm (p n q : ℕ) where
  X : Fin n → Fin p → ℝ
  loss : MultiLoss n q
  offset : Option (Fin p → Fin q → ℝ)
  caseWeights : Fin n → ℝ

namespace Mglm

variable {p n q : ℕ}

/-- `mglm.__init__`, mglm.py 32-81: no check on the weights. -/
def init (X : Fin n → Fin p → ℝ) (loss : MultiLoss n q) (offset : Option (Fin p → Fin q → ℝ)) (caseWeights : Option (Fin n → ℝ)) :
    Mglm p n q :=
  { X := X, loss := loss, offset := offset, caseWeights := caseWeights.getD fun _ => 1 }

/-- `mglm.multinomial`, mglm.py 146-206 -/
def multinomial (h : WHeap n) (X : Fin n → Fin p → ℝ) (d : MultiData n q) (caseWeights : Option (Fin n → ℝ)) (coef : ℝ)
    (saturatedOffset : Option (Fin n → Fin q → ℝ)) (offset : Option (Fin p → Fin q → ℝ)) : Option (Mglm p n q) :=
  (MultiLoss.init h d coef saturatedOffset none).map fun L => init X L offset caseWeights

/-- `X.dot(B)` -/
def dot (X : Fin n → Fin p → ℝ) (B : Fin p → Fin q → ℝ) : Fin n → Fin q → ℝ := fun i j => ∑ k, X i k * B k j

/-- `X.T.dot(U)` -/
def dotT (X : Fin n → Fin p → ℝ) (U : Fin n → Fin q → ℝ) : Fin p → Fin q → ℝ := fun k j => ∑ i, X i k * U i j

/-- `smooth_objective(beta, mode)`, inherited from `glm` (glm.py 96-135) -/
def smoothObjective (G : Mglm p n q) (B : Fin p → Fin q → ℝ) (mode : Mode) : Eval2 p q :=
  let B' := MultiLoss.applyOffset G.offset B
  match mode, G.loss.smoothObjective (some G.caseWeights) (dot G.X B') mode with
  | .func, .val f => .val f
  | .grad, .grad g _ => .grad (dotT G.X g) false
  | .both, .both f g _ => .both f (dotT G.X g) false
  | _, .valueError => .valueError
  | _, _ => .typeError

/-- `__copy__`, mglm.py 136-144; the weight array is copied -/
def copy (G : Mglm p n q) : Mglm p n q := init G.X G.loss.copy G.offset (some G.caseWeights)

open Classical in
/-- `subsample(idx)`, mglm.py 83-113 -/
def subsample (G : Mglm p n q) (idx : Finset (Fin n)) : Mglm p n q :=
  { G.copy with caseWeights := fun i => G.copy.caseWeights i * (if i ∈ idx then 1 else 0) }

end Mglm
end
end Verif.Model
