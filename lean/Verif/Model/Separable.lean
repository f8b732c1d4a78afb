import Verif.Model.AtomProximal
import Mathlib.Data.List.FinRange
import Mathlib.Data.Finset.Image

/-!
# Model of `regreg/problems/separable.py`

An ndarray of shape `shape` is flattened; a group (any numpy index object) is the list of the flat positions it
selects.  Only `shapes=[]` (no reshaping) is modelled.  The atoms on the blocks are arbitrary: an atom is its
`nonsmooth_objective(·, check_feasibility=True)` (`⊤` for `np.inf`) and its `proximal`.
-/

namespace Verif.Model

variable {K : Type*} [Field K] [LinearOrder K]

/-- A numpy index into an array of size `n`: position `idx j` of the array is entry `j` of the selection. -/
structure Selector (n : ℕ) where
  len : ℕ
  idx : Fin len → Fin n

namespace Selector
variable {n : ℕ}

/-- `x[group]` -/
def take (s : Selector n) (x : Fin n → K) : Fin s.len → K := fun j => x (s.idx j)

/-- `v[group] = w`: entries are written one after the other. -/
def put (s : Selector n) (v : Fin n → K) (w : Fin s.len → K) : Fin n → K :=
  (List.finRange s.len).foldl (fun v j => Function.update v (s.idx j) (w j)) v

/-- `set(list(indices[group].reshape(-1)))`, `separable.py:47` -/
def subset (s : Selector n) : Finset (Fin n) := Finset.univ.image s.idx

end Selector

/-- `has_overlap`, `separable.py:17-55` (the flat index array of line 44 is the identity). -/
def hasOverlap {n : ℕ} (groups : List (Selector n)) : Bool :=
  let subsets := groups.map Selector.subset                                -- 45-48
  (List.range subsets.length).any fun i => (List.range i).any fun j =>     -- 49-50
    let subset1 := subsets.getD i ∅
    let subset2 := subsets.getD j ∅
    decide (subset1 ≠ subset2 ∧ (subset1 ∩ subset2).Nonempty)              -- 53

/-- `identity_quadratic.__getitem__`, `identity_quadratic.py:174-191`: `get_shapes` calls `zeroify` (lines 89-92,
164), so `None` becomes 0; floats are kept, arrays are sliced, the constant is dropped. -/
def Quad.restrict {n : ℕ} (q : Quad (Fin n) K) (s : Selector n) : Quad (Fin s.len) K :=
  let f : Option (PyVec (Fin n) K) → Option (PyVec (Fin s.len) K) := fun
    | none => some (.scalar 0)
    | some (.scalar c) => some (.scalar c)
    | some (.arr v) => some (.arr (s.take v))
  { coef := q.coef, center := f q.center, linear := f q.linear, const := 0 }

/-- An atom together with the group it acts on. -/
structure Block (n : ℕ) (K : Type*) where
  group : Selector n
  nonsmooth : (Fin group.len → K) → WithTop K
  proximal : Quad (Fin group.len) K → ProxResult (Fin group.len) K

/-- An object of class `separable`, `separable.py:57-79`. -/
structure Separable (n : ℕ) (K : Type*) where
  blocks : List (Block n K)

namespace Separable
variable {n : ℕ}

/-- `separable.__init__`, `separable.py:59-79`; `none` is the ValueError of line 67.  The default of
`test_for_overlap` is `False`. -/
def init (blocks : List (Block n K)) (testForOverlap : Bool := false) : Option (Separable n K) :=
  if testForOverlap && hasOverlap (blocks.map (·.group)) then none else some ⟨blocks⟩

/-- `separable.nonsmooth_objective`, `separable.py:122-132`, with `check_feasibility=True`. -/
def nonsmooth (s : Separable n K) (x : Fin n → K) : WithTop K :=
  s.blocks.foldl (fun value b => value + b.nonsmooth (b.group.take x)) 0

/-- The loop of `separable.proximal`, `separable.py:139-146`.  Errors of the atoms propagate. -/
def proxLoop (proxq : Quad (Fin n) K) : List (Block n K) → (Fin n → K) → ProxResult (Fin n) K
  | [], v => .ok v
  | b :: bs, v =>
    match b.proximal (proxq.restrict b.group) with
    | .ok w => proxLoop proxq bs (b.group.put v w)
    | .valueError => .valueError
    | .typeError => .typeError
    | .scalarArgument => .scalarArgument
    | .baseError => .baseError

/-- `separable.proximal`, `separable.py:134-147`: line 138 starts from the proximal map of the cone `zero`
(`cones.py:399-400`, `cone_prox x = x`). -/
def proximal (s : Separable n K) (proxq : Quad (Fin n) K) : ProxResult (Fin n) K :=
  match coneProximal some none ⟨0, some (.scalar 0), some (.scalar 0), 0⟩ (some proxq) with
  | .ok v => proxLoop proxq s.blocks v
  | e => e

end Separable

end Verif.Model
