import Verif.Model.Affine

/-!
# Shared result buffers and the `offset` attribute

Arrays live in a heap (a list of arrays; the position is the address).  A method that returns an array returns its
address, so that a later write through another reference is visible, as with numpy arrays.
-/

namespace Verif.Model

/-- heap of arrays of length `n` -/
abbrev Heap (K : Type) (n : ℕ) := List (Fin n → K)

namespace Heap
variable {K : Type} {n : ℕ}

/-- `np.zeros(shape)` and every other fresh array -/
def alloc (h : Heap K n) (v : Fin n → K) : Heap K n × ℕ := (h ++ [v], h.length)

/-- what a reference to address `a` shows now -/
def read (h : Heap K n) (a : ℕ) : Option (Fin n → K) := h[a]?

/-- `arr[...] = v` for the array at address `a` -/
def write (h : Heap K n) (a : ℕ) (v : Fin n → K) : Heap K n := h.set a v

end Heap

namespace Buffers

variable {K : Type} [Field K] [LinearOrder K] [DecidableEq K]

/-- `self._output[self.index_obj] = v`: entries outside `index_obj` keep what they were, repeated positions: the last
assignment wins (`regreg/affine/__init__.py:336`). -/
def assignAt {m r : ℕ} (idx : Fin r → Fin m) (v : Fin r → K) (old : Fin m → K) : Fin m → K := fun i =>
  ((List.finRange r).foldl (fun (acc : K) j => if idx j = i then v j else acc) (old i))

/-- A `selector` object with heap: `out` is the address in `_output`, `none` before the first call. -/
structure SelState (K : Type) (m : ℕ) where
  heap : Heap K m
  out : Option ℕ

/-- `selector.adjoint_map`, `regreg/affine/__init__.py:331-337`, without `reshape`. -/
def selAdjoint {m r k : ℕ} (idx : Fin r → Fin m) (T : Aff K r k) (s : SelState K m) (u : Fin k → K) :
    SelState K m × ℕ :=
  let (heap, a) := match s.out with
    | none => s.heap.alloc fun _ => 0                        -- 332-333
    | some a => (s.heap, a)
  let old := (heap.read a).getD fun _ => 0
  (⟨heap.write a (assignAt idx (T.adj u) old), some a⟩, a)    -- 336-337

/-- A history of calls of `adjoint_map`: final state and the addresses returned. -/
def selRun {m r k : ℕ} (idx : Fin r → Fin m) (T : Aff K r k) : SelState K m → List (Fin k → K) → SelState K m × List ℕ
  | s, [] => (s, [])
  | s, u :: us =>
    let (s1, a) := selAdjoint idx T s u
    let (s2, as) := selRun idx T s1 us
    (s2, a :: as)

/-- `posneg.adjoint_map`, `regreg/affine/__init__.py:963-967`; `buf` is the address of `_adjoint_output`, allocated by
the constructor (line 953). -/
def posnegAdjoint {m k : ℕ} (T : Aff K m k) (buf : ℕ) (heap : Heap K (m + m)) (u : Fin k → K) : Heap K (m + m) × ℕ :=
  (heap.write buf (Fin.append (T.adj u) fun i => -T.adj u i), buf)

/-- Gradient of an object keeping a gradient buffer: `cox_loglike.smooth_objective(·, 'grad')` (`cox.py:99-128`, buffer
`_G`) and `stacked_loglike` (`glm.py:1479-1482`, buffer `_gradient`).  `grad` is the value computed into the buffer.
`smooth_atom.scale` (`smooth/__init__.py:128-141`) returns the same array when `coef == 1` and a new one otherwise. -/
def bufGrad {n : ℕ} (grad : (Fin n → K) → Fin n → K) (coef : K) (buf : ℕ) (heap : Heap K n) (x : Fin n → K) :
    Heap K n × ℕ :=
  let heap := heap.write buf (grad x)
  if coef ≠ 1 then heap.alloc fun i => coef * grad x i else (heap, buf)

end Buffers

namespace Offset

variable {K : Type} [Field K] [DecidableEq K] {n : ℕ}

/-- attribute `_offset` of a composite: absent, or `None` / an array -/
abbrev Attr (K : Type) (n : ℕ) := Option (Option (Fin n → K))

/-- `composite.set_offset`, `regreg/problems/composite.py:41-47` -/
def set (st : Attr K n) (value : Option (Fin n → K)) : Attr K n :=
  match value with
  | some v => if ∃ i, v i ≠ 0 then some (some v) else st
  | none => some none

/-- `composite.get_offset`, lines 49-52 -/
def get (st : Attr K n) : Option (Fin n → K) :=
  match st with
  | none => none
  | some o => o

/-- `composite.apply_offset`, lines 112-118 -/
def apply (st : Attr K n) (x : Fin n → K) : Fin n → K :=
  match get st with
  | some o => fun i => x i - o i
  | none => x

/-- the constructor, lines 21-24: one assignment on an object without the attribute -/
def init (value : Option (Fin n → K)) : Attr K n := set none value

end Offset

end Verif.Model
