import Verif.Model.Losses

/-!
# Copies and subsamples of losses as objects with shared arrays

`case_weights *= idx_bool` in the `subsample` methods writes into an array object.  Here arrays live in a heap and an
object holds a reference, so that sharing between an object and its copies is visible.
-/

namespace Verif.Model

noncomputable section

/-- Weight arrays by address; `next` is the first unused address. -/
structure WHeap (n : ℕ) where
  cell : ℕ → Fin n → ℝ
  next : ℕ

/-- A loss object whose `case_weights` is a reference (or None); other attributes are never written in place. -/
structure LossObj (n : ℕ) where
  data : LossData n
  coef : ℝ
  offset : Option (Fin n → ℝ)
  quad : Quad (Fin n) ℝ
  ref : Option ℕ

namespace LossObj

variable {n : ℕ}

/-- what the object denotes in a heap -/
def view (o : LossObj n) (h : WHeap n) : Loss n :=
  { data := o.data, coef := o.coef, offset := o.offset, quad := o.quad, caseWeights := o.ref.map h.cell }

/-- allocate an array -/
def alloc (h : WHeap n) (a : Fin n → ℝ) : ℕ × WHeap n :=
  (h.next, { cell := fun k => if k = h.next then a else h.cell k, next := h.next + 1 })

/-- the object the constructor builds around the array at `ref`: `np.asarray` keeps the same array object -/
def build (L : Loss n) (ref : Option ℕ) : LossObj n :=
  { data := L.data, coef := L.coef, offset := L.offset, quad := L.quad, ref := ref }

/-- does the `__copy__` of this class pass `case_weights` on (see `Loss.copy`) -/
def passesWeights : LossData n → Bool
  | .huber _ _ => false
  | .huberSvm _ _ => false
  | _ => true

/-- `__copy__` on the heap: `copy(self.case_weights)` is a new array (glm.py 978, 1174; binary.py 227). `none` is an
exception in the constructor. -/
def copy (o : LossObj n) (h : WHeap n) : Option (LossObj n × WHeap n) :=
  match o.ref, passesWeights o.data with
  | some r, true =>
    let (r', h') := alloc h (h.cell r)
    (Loss.init o.data o.coef o.offset o.quad (some (h'.cell r'))).map fun L => (build L (some r'), h')
  | _, _ => (Loss.init o.data o.coef o.offset o.quad none).map fun L => (build L none, h)

open Classical in
/-- `subsample(case_idx)` on the heap: copy, allocate ones if the copy has no weights, then multiply the copy's array in
place by the indicator (glm.py 1001-1010, 1197-1206, 1363-1372; binary.py 250-259, 901-910). -/
def subsample (o : LossObj n) (h : WHeap n) (idx : Finset (Fin n)) : Option (LossObj n × WHeap n) :=
  match o.copy h with
  | none => none
  | some (c, h1) =>
    let (r, h2) := match c.ref with
      | some r => (r, h1)
      | none => alloc h1 fun _ => 1
    let h3 : WHeap n := { h2 with cell := fun k => if k = r then fun i => h2.cell r i * (if i ∈ idx then 1 else 0) else h2.cell k }
    some ({ c with ref := some r }, h3)

/-- a call on one of the live objects -/
inductive Op (n : ℕ)
  | copy (k : ℕ)
  | subsample (k : ℕ) (idx : Finset (Fin n))

/-- live objects and the heap -/
structure State (n : ℕ) where
  objs : List (LossObj n)
  heap : WHeap n

/-- one call; the new object is appended.  A call that raises (or names no object) leaves the state as it is. -/
def step (s : State n) : Op n → State n
  | .copy k =>
    match s.objs[k]? with
    | none => s
    | some o => match o.copy s.heap with
      | none => s
      | some (c, h) => { objs := s.objs ++ [c], heap := h }
  | .subsample k idx =>
    match s.objs[k]? with
    | none => s
    | some o => match o.subsample s.heap idx with
      | none => s
      | some (c, h) => { objs := s.objs ++ [c], heap := h }

/-- a sequence of calls -/
def runOps (s : State n) (ops : List (Op n)) : State n := ops.foldl step s

end LossObj
end
end Verif.Model
