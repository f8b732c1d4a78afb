import Verif.Model.Smooth
import Verif.Spec.Cox
import Mathlib.Data.List.FinRange
import Mathlib.Logic.Equiv.Defs

/-!
# Model of regreg/smooth/cox.py, cox_utils.pyx and cox_fns.c

Exact reals plus one non-number: `Option ℝ`, `none` standing for nan.  It arises in exactly two places, the division
`c*w/0` and the product `c*w*log 0`.  (Over the reals both happen only if every weight in a risk set is zero; then
`c*w = 0` and the C code computes `0/0` and `0*(-inf)`, which are nan.)  Loops are folds over `0..ncase-1` in the C
code's order, with explicit buffer writes.
-/

namespace Verif.Model
open Verif.Spec

noncomputable section

/-- a floating point value that may be nan -/
abbrev Fl := Option ℝ

namespace Fl
/-- addition -/
def add (a b : Fl) : Fl := a.bind fun x => b.map fun y => x + y
/-- `a / b`, nan for `b = 0` (see the header) -/
def div (a b : ℝ) : Fl := if b = 0 then none else some (a / b)
/-- `a * log b`, nan for `b = 0` (see the header) -/
def mulLogSub (a b c : ℝ) : Fl := if b = 0 then none else some (a * (Real.log b - c))
end Fl

namespace Cox

variable {n : ℕ}

/-- `_update_cox_exp`, cox_fns.c 11-41: `(cur_val, exp, exp_accum)` after the loop. -/
def updateExp (η w : Fin n → ℝ) (ord : Fin n → Fin n) (e a : Fin n → ℝ) : ℝ × (Fin n → ℝ) × (Fin n → ℝ) :=
  (List.finRange n).foldl (fun s idx =>
    let o := ord (Fin.rev idx)
    let v := Real.exp (η o) * w o
    let cur := s.1 + v
    (cur, Function.update s.2.1 o v, Function.update s.2.2 (Fin.rev idx) cur)) (0, e, a)

/-- `_update_cox_expZ`, cox_fns.c 43-71. -/
def updateExpZ (right exp : Fin n → ℝ) (ord : Fin n → Fin n) (a : Fin n → ℝ) : ℝ × (Fin n → ℝ) :=
  (List.finRange n).foldl (fun s idx =>
    let o := ord (Fin.rev idx)
    let cur := s.1 + right o * exp o
    (cur, Function.update s.2 (Fin.rev idx) cur)) (0, a)

/-- `_update_outer_1st`, cox_fns.c 73-106. -/
def updateOuter1 (accum w : Fin n → ℝ) (cens : Fin n → ℕ) (ord rankmin : Fin n → Fin n) (a : Fin n → Fl) : Fl × (Fin n → Fl) :=
  (List.finRange n).foldl (fun s idx =>
    let o := ord idx
    let cur := Fl.add s.1 (Fl.div (cens o * w o) (accum (rankmin o)))
    (cur, Function.update s.2 idx cur)) (some 0, a)

/-- `_update_outer_2nd`, cox_fns.c 108-142. -/
def updateOuter2 (accum accumZ w : Fin n → ℝ) (cens : Fin n → ℕ) (ord rankmin : Fin n → Fin n) (a : Fin n → Fl) :
    Fl × (Fin n → Fl) :=
  (List.finRange n).foldl (fun s idx =>
    let o := ord idx
    let r := rankmin o
    let cur := Fl.add s.1 (Fl.div (cens o * w o * accumZ r) (accum r * accum r))
    (cur, Function.update s.2 idx cur)) (some 0, a)

/-- `_cox_objective`, cox_fns.c 146-177. -/
def objectiveLoop (η accum w : Fin n → ℝ) (cens : Fin n → ℕ) (rankmin : Fin n → Fin n) : Fl :=
  (List.finRange n).foldl (fun cur idx => Fl.add cur (Fl.mulLogSub (cens idx * w idx) (accum (rankmin idx)) (η idx))) (some 0)

/-- `_cox_gradient`, cox_fns.c 179-211. -/
def gradientLoop (exp w : Fin n → ℝ) (outer1 : Fin n → Fl) (cens : Fin n → ℕ) (rankmax : Fin n → Fin n) (g : Fin n → Fl) :
    Fin n → Fl :=
  (List.finRange n).foldl (fun g idx =>
    Function.update g idx ((outer1 (rankmax idx)).map fun o => o * exp idx - cens idx * w idx)) g

/-- `_cox_hessian`, cox_fns.c 213-245. -/
def hessianLoop (exp right : Fin n → ℝ) (outer1 outer2 : Fin n → Fl) (rankmax : Fin n → Fin n) (h : Fin n → Fl) : Fin n → Fl :=
  (List.finRange n).foldl (fun h idx =>
    Function.update h idx ((outer1 (rankmax idx)).bind fun o1 => (outer2 (rankmax idx)).map fun o2 =>
      exp idx * (o1 * right idx - o2))) h

/-- the work buffers of the object, cox.py 51-56 -/
structure Buffers (n : ℕ) where
  G : Fin n → Fl
  exp : Fin n → ℝ
  accum : Fin n → ℝ
  accumZ : Fin n → ℝ
  outer1 : Fin n → Fl
  outer2 : Fin n → Fl

/-- The buffers as the constructor creates them (zeros), cox.py 51-56. -/
def zeroBuffers (n : ℕ) : Buffers n := ⟨fun _ => some 0, fun _ => 0, fun _ => 0, fun _ => 0, fun _ => some 0, fun _ => some 0⟩

open Classical in
/-- `rankdata(event_times, method='min') - 1` (scipy): the number of strictly smaller times. cox.py 40. -/
def rankmin (T : Fin n → ℝ) (i : Fin n) : Fin n :=
  ⟨(Finset.univ.filter fun j => T j < T i).card, by
    have h : (Finset.univ.filter fun j => T j < T i) ⊂ Finset.univ := by
      rw [Finset.filter_ssubset]; exact ⟨i, Finset.mem_univ i, lt_irrefl _⟩
    simpa using Finset.card_lt_card h⟩

open Classical in
/-- `rankdata(event_times, method='max') - 1` (scipy): the number of times that are no larger, minus one. cox.py 39. -/
def rankmax (T : Fin n → ℝ) (i : Fin n) : Fin n :=
  ⟨(Finset.univ.filter fun j => T j ≤ T i).card - 1, by
    have h : (Finset.univ.filter fun j => T j ≤ T i).card ≤ n := by simpa using Finset.card_filter_le Finset.univ fun j => T j ≤ T i
    have := i.isLt
    omega⟩

end Cox

/-- A `cox_loglike` object, cox.py 19-56.  `case_weights` is never None. -/
structure CoxLoss (n : ℕ) where
  T : Fin n → ℝ
  cens : Fin n → ℕ
  ord : Fin n → Fin n
  rankmin : Fin n → Fin n
  rankmax : Fin n → Fin n
  coef : ℝ
  offset : Option (Fin n → ℝ)
  caseWeights : Fin n → ℝ
  buf : Cox.Buffers n

/-- Result of an evaluation.  `shared = true` says the returned gradient is the object's own buffer `_G`. -/
inductive CoxEval (n : ℕ)
  | val (f : Fl)
  | grad (g : Fin n → Fl) (shared : Bool)
  | both (f : Fl) (g : Fin n → Fl) (shared : Bool)
  | valueError

namespace CoxLoss
variable {n : ℕ}

open Classical in
/-- `cox_loglike.__init__`, cox.py 19-56; `none` is ValueError.  `σ` is what `np.argsort` returned: its sort is not
stable, so any sorting permutation is allowed (`IsArgsort` is the contract of `argsort`). -/
def init (T : Fin n → ℝ) (cens : Fin n → ℕ) (coef : ℝ) (offset : Option (Fin n → ℝ)) (caseWeights : Option (Fin n → ℝ))
    (σ : Equiv.Perm (Fin n)) : Option (CoxLoss n) :=
  match Smooth.atomInit coef offset with
  | none => none
  | some (coef, offset) =>
    let w : Fin n → ℝ := match caseWeights with
      | some w => w
      | none => fun _ => 1
    if ¬ ∀ i, 0 ≤ w i then none
    else some { T := T, cens := cens, ord := σ, rankmin := Cox.rankmin T, rankmax := Cox.rankmax T, coef := coef,
                offset := offset, caseWeights := w, buf := Cox.zeroBuffers n }

/-- `cw`, cox.py 91-95 and 171-175: the caller's array (ones if absent) times the object's weights. -/
def cw (L : CoxLoss n) (arg : Option (Fin n → ℝ)) : Fin n → ℝ :=
  match arg with
  | some a => fun i => a i * L.caseWeights i
  | none => fun i => 1 * L.caseWeights i

/-- `scale` of a value, smooth/__init__.py 128-133 -/
def scaleF (coef : ℝ) (f : Fl) : Fl := if coef ≠ 1 then f.map (· * coef) else f

/-- `cox_gradient`, cox_utils.pyx 146-218: three loops writing into the buffers; returns the buffer `_G`. -/
def gradCall (L : CoxLoss n) (η w : Fin n → ℝ) (b : Cox.Buffers n) : Cox.Buffers n :=
  let (_, e, a) := Cox.updateExp η w L.ord b.exp b.accum
  let (_, o1) := Cox.updateOuter1 a w L.cens L.ord L.rankmin b.outer1
  let G := Cox.gradientLoop e w o1 L.cens L.rankmax b.G
  { b with exp := e, accum := a, outer1 := o1, G := G }

/-- `cox_objective`, cox_utils.pyx 82-144. -/
def objCall (L : CoxLoss n) (η w : Fin n → ℝ) (b : Cox.Buffers n) : Fl × Cox.Buffers n :=
  let (_, e, a) := Cox.updateExp η w L.ord b.exp b.accum
  let (_, o1) := Cox.updateOuter1 a w L.cens L.ord L.rankmin b.outer1
  (Cox.objectiveLoop η a w L.cens L.rankmin, { b with exp := e, accum := a, outer1 := o1 })

/-- `smooth_objective(natural_param, mode, case_weights=arg)`, cox.py 58-136, with the object after the call. `scale`
returns its argument itself when `coef` is 1, so the gradient handed out is then the buffer. -/
def smoothObjective (L : CoxLoss n) (x : Fin n → ℝ) (mode : Mode) (arg : Option (Fin n → ℝ)) : CoxEval n × CoxLoss n :=
  let η := Smooth.applyOffset L.offset x
  let w := L.cw arg
  let sG : (Fin n → Fl) → Fin n → Fl := fun g i => scaleF L.coef (g i)
  let al : Bool := decide (L.coef = 1)
  match mode with
  | .both =>
    let b := L.gradCall η w L.buf
    let r := L.objCall η w b
    (.both (scaleF L.coef r.1) (sG r.2.G) al, { L with buf := r.2 })
  | .grad =>
    let b := L.gradCall η w L.buf
    (.grad (sG b.G) al, { L with buf := b })
  | .func =>
    let r := L.objCall η w L.buf
    (.val (scaleF L.coef r.1), { L with buf := r.2 })
  | .other => (.valueError, L)

/-- `hessian_mult(natural_param, right_vector, case_weights=arg)`, cox.py 140-194 with cox_utils.pyx 220-317; `coef`
is not applied.  The result array is fresh (zeros). -/
def hessianMult (L : CoxLoss n) (x right : Fin n → ℝ) (arg : Option (Fin n → ℝ)) : (Fin n → Fl) × CoxLoss n :=
  let w := L.cw arg
  let η := Smooth.applyOffset L.offset x
  let (_, e, a) := Cox.updateExp η w L.ord L.buf.exp L.buf.accum
  let (_, o1) := Cox.updateOuter1 a w L.cens L.ord L.rankmin L.buf.outer1
  let (_, z) := Cox.updateExpZ right e L.ord L.buf.accumZ
  let (_, o2) := Cox.updateOuter2 a z w L.cens L.ord L.rankmin L.buf.outer2
  (Cox.hessianLoop e right o1 o2 L.rankmax fun _ => some 0,
    { L with buf := { L.buf with exp := e, accum := a, accumZ := z, outer1 := o1, outer2 := o2 } })

/-- `set_data` through the `data` property, cox.py 199-204: times and censoring are replaced, ordering and ranks are
not recomputed. -/
def setData (L : CoxLoss n) (T : Fin n → ℝ) (cens : Fin n → ℕ) : CoxLoss n := { L with T := T, cens := cens }

/-- `__copy__`, cox.py 206-215: the constructor runs again (`σ` is the new argsort). -/
def copy (L : CoxLoss n) (σ : Equiv.Perm (Fin n)) : Option (CoxLoss n) :=
  init L.T L.cens L.coef L.offset (some L.caseWeights) σ

open Classical in
/-- `subsample(case_idx)`, cox.py 217-248. -/
def subsample (L : CoxLoss n) (idx : Finset (Fin n)) (σ : Equiv.Perm (Fin n)) : Option (CoxLoss n) :=
  match L.copy σ with
  | none => none
  | some C => some { C with caseWeights := fun i => C.caseWeights i * if i ∈ idx then 1 else 0 }

/-- A call on the object. -/
inductive Op (n : ℕ)
  | smooth (x : Fin n → ℝ) (mode : Mode) (arg : Option (Fin n → ℝ))
  | hess (x right : Fin n → ℝ) (arg : Option (Fin n → ℝ))

/-- the object after a sequence of calls -/
def run (L : CoxLoss n) : List (Op n) → CoxLoss n
  | [] => L
  | .smooth x m arg :: rest => run (L.smoothObjective x m arg).2 rest
  | .hess x r arg :: rest => run (L.hessianMult x r arg).2 rest

end CoxLoss
end
end Verif.Model
