import Verif.Model.AtomMode

/-!
# Atoms as objects that hold references: copies, conjugates and affine compositions

The classes of `regreg/atoms` keep their offset, quadratic, weights and coefficients as references to arrays and to
`identity_quadratic` objects, which `numpy` writes in place.  Here arrays and quadratics live in a heap, so that
sharing between an atom, its copies, its conjugate and the transforms it is composed with is visible.
-/

namespace Verif.Model
namespace AtomHeap

variable {K : Type*} [Field K] [LinearOrder K]

/-- a float or a reference to an array -/
inductive Num (K : Type*) where
  | scalar (c : K)
  | arr (r : ℕ)

/-- an `identity_quadratic` object, `identity_quadratic.py:40-61`: `asarray` keeps the array it is given -/
structure QCell (K : Type*) where
  coef : K
  center : Option (Num K)
  linear : Option (Num K)
  const : K

/-- Families of classes with the same `__copy__`. -/
inductive Family where
  /-- the classes of `seminorms.py`, the block norms with a fixed atom (`l1_l2`, `linf_l2`, `l1_l1`, `linf_linf`), the
  norms of `svd_norms.py` -/
  | seminorm
  | weighted | slope | groupLasso | sparseGroup | sparseGroupBlock
  /-- `block_sum`, `block_max` with the class of the blocks as first argument -/
  | blockSum
  | cone | linearConstraint | groupCone | svdCone | simplex | mixed
  deriving DecidableEq

/-- does `__copy__` pass `copy(self.quadratic)` (as opposed to `self.quadratic`): `seminorms.py:141`,
`weighted_atoms.py:55`, `slope.py:92`, `group_lasso.py:105`, `sparse_group_lasso.py:123`, `sparse_group_block.py:117`,
`cones.py:44`, `linear_constraints.py:57`, `group_lasso.py:468`, `svd_norms.py:197`, `simplex.py:30`, `159-162`,
`mixed_lasso.py:96`, `279` -/
def Family.copiesQuad : Family → Bool
  | .seminorm | .groupLasso | .cone | .groupCone => true
  | _ => false

/-- does `__copy__` pass the coefficients as `initial` (same lines; the constructor copies them,
`problems/composite.py:36-39`) -/
def Family.keepsCoefs : Family → Bool
  | .seminorm | .linearConstraint | .simplex => false
  | _ => true

/-- does `__copy__` pass a new `weights` dictionary (or does the constructor make one): all but `mixed_lasso.py:93`,
`276`, stored as is on line 55 -/
def Family.copiesDict : Family → Bool
  | .mixed => false
  | _ => true

/-- the classes derived from `seminorm`: the constructor checks lagrange and bound (`AtomState.init`) -/
def Family.isSeminorm : Family → Bool
  | .cone | .linearConstraint | .groupCone | .svdCone | .simplex | .mixed => false
  | _ => true

/-- lagrange and bound after the constructor: `AtomState.init` for the seminorms (`none` is its exception), plain
attributes otherwise -/
def Family.ctorMode (f : Family) (lagrange bound : Option K) : Option (AtomState K) :=
  if f.isSeminorm then
    match AtomState.init lagrange bound with
    | .ok m => some m
    | .error _ => none
  else some ⟨lagrange, bound⟩

/-- An atom.  `tag` and `dual` stand for what is never written: which of the classes of the family, shape, groups,
scalar weights.  `par` is the array parameter (`weights` of the weighted atoms and of slope, `basis`, `lasso_weights`,
`penalty_structure`), `dict` the dictionary `weights` of the group classes (its values in the order of the groups),
`snap` the values of the two when the constructor computed its derived arrays (`invweights`, `_weight_array`, ...). -/
structure ACell (K : Type*) where
  fam : Family
  tag : ℕ
  dual : Bool
  size : ℕ
  mode : AtomState K
  par : ℕ
  dict : ℕ
  snap : List K × List K
  offset : Option ℕ
  quad : ℕ
  coefs : ℕ

/-- live arrays, quadratics, atoms and transforms (given by the reference to their `affine_offset`) -/
structure State (K : Type*) where
  arr : ℕ → List K
  nextArr : ℕ
  qd : ℕ → QCell K
  nextQd : ℕ
  atoms : List (ACell K)
  trans : List ℕ

/-- a new array -/
def State.allocArr (s : State K) (l : List K) : ℕ × State K :=
  (s.nextArr, { s with arr := Function.update s.arr s.nextArr l, nextArr := s.nextArr + 1 })

/-- a new quadratic object -/
def State.allocQd (s : State K) (q : QCell K) : ℕ × State K :=
  (s.nextQd, { s with qd := Function.update s.qd s.nextQd q, nextQd := s.nextQd + 1 })

/-- `a[i] = v`, `a += ...` and the like: the contents of an array object change -/
def State.writeArr (s : State K) (r : ℕ) (l : List K) : State K := { s with arr := Function.update s.arr r l }

/-- assignment to attributes of a quadratic object -/
def State.writeQd (s : State K) (r : ℕ) (q : QCell K) : State K := { s with qd := Function.update s.qd r q }

/-- `copy(v)` of a float or an array -/
def State.copyNum (s : State K) : Option (Num K) → Option (Num K) × State K
  | some (.arr r) => let (r', s') := s.allocArr (s.arr r); (some (.arr r'), s')
  | v => (v, s)

/-- `identity_quadratic.__copy__`, `identity_quadratic.py:70-74` -/
def State.copyQd (s : State K) (r : ℕ) : ℕ × State K :=
  let q := s.qd r
  let (c, s) := s.copyNum q.center
  let (l, s) := s.copyNum q.linear
  s.allocQd ⟨q.coef, c, l, q.const⟩

/-- `composite.set_offset` on a new object, `problems/composite.py:41-47`: an all-zero array is not stored -/
def State.ctorOffset (s : State K) (r : Option ℕ) : Option ℕ :=
  match r with
  | some r => if (s.arr r).any (· ≠ 0) then some r else none
  | none => none

/-- `composite.offset = value`, `problems/composite.py:41-47`: assigning zeros leaves the old offset -/
def State.setOffset (s : State K) (old : Option ℕ) : Option ℕ → Option ℕ
  | some r => if (s.arr r).any (· ≠ 0) then some r else old
  | none => none

/-- `copy(self.offset)` -/
def State.copyOffset (s : State K) : Option ℕ → Option ℕ × State K
  | some r => let (r', s') := s.allocArr (s.arr r); (some r', s')
  | none => (none, s)

/-- the dictionary of weights of the copy: `copy(self.weights)` or `self.weights` -/
def State.copyDict (s : State K) (a : ACell K) : ℕ × State K :=
  if a.fam.copiesDict then s.allocArr (s.arr a.dict) else (a.dict, s)

/-- the quadratic of the copy: `copy(self.quadratic)` or `self.quadratic` -/
def State.passQuad (s : State K) (a : ACell K) : ℕ × State K :=
  if a.fam.copiesQuad then s.copyQd a.quad else (a.quad, s)

/-- The `__copy__` methods (lines at `Family.copiesQuad`).  `none` is an exception: `block_sum` and `block_max` inherit
`seminorm.__copy__`, which passes the shape where the constructor expects the class of the blocks and no shape
(`block_norms.py:34`, TypeError). -/
def State.copyAtom (s : State K) (a : ACell K) : Option (ACell K × State K) :=
  if a.fam = .blockSum then none
  else
    match a.fam.ctorMode a.mode.lagrange a.mode.bound with
    | none => none
    | some mode =>
      let (par, s) := s.allocArr (s.arr a.par)
      let (dict, s) := s.copyDict a
      let (off, s) := s.copyOffset a.offset
      let (quad, s) := s.passQuad a
      let (coefs, s) := s.allocArr (if a.fam.keepsCoefs then s.arr a.coefs else List.replicate a.size 0)
      some ({ a with mode := mode, par := par, dict := dict, snap := (s.arr par, s.arr dict),
                     offset := s.ctorOffset off, quad := quad, coefs := coefs }, s)

/-- the array behind a linear term, if it is an array -/
def Num.ref? : Option (Num K) → Option ℕ
  | some (.arr r) => some r
  | _ => none

/-- a float other than 0: as an offset it would be an array without dimensions, which is not represented here -/
def Num.isFloat : Option (Num K) → Bool
  | some (.scalar c) => c ≠ 0
  | _ => false

/-- `np.sum(offset * linear_term)`, `atoms/__init__.py:217-219`, 0 when one of them is (None or a float 0) -/
def State.dot (s : State K) : Option ℕ → Option ℕ → K
  | some o, some l => (List.zipWith (· * ·) (s.arr o) (s.arr l)).sum
  | _, _ => 0

/-- `get_conjugate` for the families without array parameters (`seminorms.py:177-202`, `cones.py:66-83`,
`simplex.py:46-60`) when the coefficient is 0, with `_work_out_conjugate`, `atoms/__init__.py:203-226`: the array of the
linear term becomes the offset of the new object, and the offset array its linear term.  `none`: not one of these
families, a positive coefficient (the result is not an atom), a float as linear term, or the constructor raises. -/
def State.conjAtom (s : State K) (a : ACell K) : Option (ACell K × State K) :=
  if (a.fam = .seminorm ∨ a.fam = .cone ∨ a.fam = .simplex) ∧ (s.qd a.quad).coef = 0 ∧
      Num.isFloat (s.qd a.quad).linear = false then
    match a.fam.ctorMode a.mode.bound a.mode.lagrange with
    | none => none
    | some mode =>
      let q := s.qd a.quad
      let lin := q.linear
      let (quad, s) := s.allocQd ⟨0, some (.scalar 0),
        some (match a.offset with | some o => .arr o | none => .scalar 0), -q.const - s.dot a.offset (Num.ref? lin)⟩
      let (par, s) := s.allocArr []
      let (dict, s) := s.allocArr []
      let (coefs, s) := s.allocArr (List.replicate a.size 0)
      some (⟨a.fam, a.tag, !a.dual, a.size, mode, par, dict, ([], []), s.ctorOffset (Num.ref? lin), quad, coefs⟩, s)
  else none

/-- `affine_atom.__init__`, `atoms/__init__.py:114-126`, with a transform whose `affine_offset` is the array at `t`:
the inner atom.  `self.atom.offset += affine_offset` writes into the copied array, `= affine_offset` keeps the array of
the transform.  `none`: `copy` raises or the shapes differ. -/
def State.affineAtom (s : State K) (a : ACell K) (t : ℕ) : Option (ACell K × State K) :=
  match s.copyAtom a with
  | none => none
  | some (c, s) =>
    match c.offset with
    | some o =>
      if (s.arr o).length = (s.arr t).length then
        some (c, s.writeArr o (List.zipWith (· + ·) (s.arr o) (s.arr t)))
      else none
    | none => some ({ c with offset := s.setOffset c.offset (some t) }, s)

/-- a float or an array given by the caller -/
inductive Val (K : Type*) where
  | scalar (c : K)
  | arr (l : List K)

/-- a quadratic given by the caller -/
structure QVal (K : Type*) where
  coef : K
  center : Option (Val K)
  linear : Option (Val K)
  const : K

/-- the caller makes an array object -/
def State.newNum (s : State K) : Option (Val K) → Option (Num K) × State K
  | some (.arr l) => let (r, s) := s.allocArr l; (some (.arr r), s)
  | some (.scalar c) => (some (.scalar c), s)
  | none => (none, s)

/-- the caller makes a quadratic object -/
def State.newQd (s : State K) (q : QVal K) : ℕ × State K :=
  let (c, s) := s.newNum q.center
  let (l, s) := s.newNum q.linear
  s.allocQd ⟨q.coef, c, l, q.const⟩

/-- the caller makes an offset array, or passes None -/
def State.newOffset (s : State K) : Option (List K) → Option ℕ × State K
  | some l => let (r, s) := s.allocArr l; (some r, s)
  | none => (none, s)

/-- What a program can do with its atoms and transforms.  The first group makes objects, the second assigns
attributes, the third changes an object behind an attribute in place. -/
inductive Op (K : Type*) where
  | create (fam : Family) (tag : ℕ) (dual : Bool) (size : ℕ) (lagrange bound : Option K) (par dict : List K)
      (offset : Option (List K)) (quad : QVal K) (coefs : List K)
  | newTransform (alpha : List K)
  | copy (k : ℕ)
  | conjugate (k : ℕ)
  | affine (k t : ℕ)
  | setLagrange (k : ℕ) (v : Option K)
  | setBound (k : ℕ) (v : Option K)
  | setOffset (k : ℕ) (v : Option (List K))
  | setQuadratic (k : ℕ) (q : QVal K)
  /-- `solve`: `self.coefs = self.proximal(...)`, `problems/composite.py:177` -/
  | solve (k : ℕ) (answer : List K)
  | quadCoef (k : ℕ) (c : K)
  | quadConst (k : ℕ) (c : K)
  | centerWrite (k : ℕ) (l : List K)
  | linearWrite (k : ℕ) (l : List K)
  | offsetWrite (k : ℕ) (l : List K)
  | coefsWrite (k : ℕ) (l : List K)
  | parWrite (k : ℕ) (l : List K)
  | dictWrite (k : ℕ) (l : List K)
  /-- `set_weight(group, weight)` of the group classes, `group_lasso.py:83-89`: dictionary and derived array -/
  | setWeight (k i : ℕ) (w : K)

/-- append a new atom, or nothing after an exception -/
def State.push (s : State K) : Option (ACell K × State K) → State K
  | some (c, s') => { s' with atoms := s'.atoms ++ [c] }
  | none => s

/-- replace atom `k` -/
def State.put (s : State K) (k : ℕ) (a : ACell K) : State K := { s with atoms := s.atoms.set k a }

/-- the constructor on values made by the caller -/
def State.create (s : State K) (fam : Family) (tag : ℕ) (dual : Bool) (size : ℕ) (lagrange bound : Option K)
    (par dict : List K) (offset : Option (List K)) (quad : QVal K) (coefs : List K) : Option (ACell K × State K) :=
  match fam.ctorMode lagrange bound with
  | none => none
  | some mode =>
    let (p, s) := s.allocArr par
    let (d, s) := s.allocArr dict
    let (o, s) := s.newOffset offset
    let (q, s) := s.newQd quad
    let (c, s) := s.allocArr coefs
    some (⟨fam, tag, dual, size, mode, p, d, (par, dict), s.ctorOffset o, q, c⟩, s)

/-- One call.  A call that raises, or names no object, leaves the state as it is. -/
def State.step (s : State K) : Op K → State K
  | .create fam tag dual size l b par dict off q c => s.push (s.create fam tag dual size l b par dict off q c)
  | .newTransform alpha => let (r, s) := s.allocArr alpha; { s with trans := s.trans ++ [r] }
  | .copy k => match s.atoms[k]? with
    | none => s
    | some a => s.push (s.copyAtom a)
  | .conjugate k => match s.atoms[k]? with
    | none => s
    | some a => s.push (s.conjAtom a)
  | .affine k t => match s.atoms[k]?, s.trans[t]? with
    | some a, some r => s.push (s.affineAtom a r)
    | _, _ => s
  | .setLagrange k v => match s.atoms[k]? with
    | none => s
    | some a => s.put k { a with mode := if a.fam.isSeminorm then (AtomState.step a.mode (.setLagrange v)).1 else ⟨v, a.mode.bound⟩ }
  | .setBound k v => match s.atoms[k]? with
    | none => s
    | some a => s.put k { a with mode := if a.fam.isSeminorm then (AtomState.step a.mode (.setBound v)).1 else ⟨a.mode.lagrange, v⟩ }
  | .setOffset k v => match s.atoms[k]? with
    | none => s
    | some a => match v with
      | none => s.put k { a with offset := none }
      | some l => let (r, s) := s.allocArr l; s.put k { a with offset := s.setOffset a.offset (some r) }
  | .setQuadratic k q => match s.atoms[k]? with
    | none => s
    | some a => let (r, s) := s.newQd q; s.put k { a with quad := r }
  | .solve k x => match s.atoms[k]? with
    | none => s
    | some a => let (r, s) := s.allocArr x; s.put k { a with coefs := r }
  | .quadCoef k c => match s.atoms[k]? with
    | none => s
    | some a => s.writeQd a.quad { s.qd a.quad with coef := c }
  | .quadConst k c => match s.atoms[k]? with
    | none => s
    | some a => s.writeQd a.quad { s.qd a.quad with const := c }
  | .centerWrite k l => match s.atoms[k]? with
    | none => s
    | some a => match Num.ref? (s.qd a.quad).center with
      | some r => s.writeArr r l
      | none => s
  | .linearWrite k l => match s.atoms[k]? with
    | none => s
    | some a => match Num.ref? (s.qd a.quad).linear with
      | some r => s.writeArr r l
      | none => s
  | .offsetWrite k l => match s.atoms[k]? with
    | none => s
    | some a => match a.offset with
      | some r => s.writeArr r l
      | none => s
  | .coefsWrite k l => match s.atoms[k]? with
    | none => s
    | some a => s.writeArr a.coefs l
  | .parWrite k l => match s.atoms[k]? with
    | none => s
    | some a => s.writeArr a.par l
  | .dictWrite k l => match s.atoms[k]? with
    | none => s
    | some a => s.writeArr a.dict l
  | .setWeight k i w => match s.atoms[k]? with
    | none => s
    | some a => if a.fam = .groupLasso ∨ a.fam = .sparseGroup then
        (s.writeArr a.dict ((s.arr a.dict).set i w)).put k { a with snap := (a.snap.1, a.snap.2.set i w) }
      else s

/-- nothing made yet -/
def State.empty : State K := ⟨fun _ => [], 0, fun _ => ⟨0, none, none, 0⟩, 0, [], []⟩

/-- a program -/
def State.run (s : State K) (ops : List (Op K)) : State K := ops.foldl State.step s

/-- What the methods of an atom read: every value they compute is a function of this. -/
structure View (K : Type*) where
  fam : Family
  tag : ℕ
  dual : Bool
  size : ℕ
  mode : AtomState K
  par : List K
  dict : List K
  snap : List K × List K
  offset : Option (List K)
  quad : QVal K
  coefs : List K

/-- read a float or an array -/
def State.num (s : State K) : Option (Num K) → Option (Val K)
  | some (.arr r) => some (.arr (s.arr r))
  | some (.scalar c) => some (.scalar c)
  | none => none

/-- read a quadratic -/
def State.quad (s : State K) (r : ℕ) : QVal K :=
  ⟨(s.qd r).coef, s.num (s.qd r).center, s.num (s.qd r).linear, (s.qd r).const⟩

/-- read an atom -/
def State.view (s : State K) (a : ACell K) : View K :=
  ⟨a.fam, a.tag, a.dual, a.size, a.mode, s.arr a.par, s.arr a.dict, a.snap, a.offset.map s.arr, s.quad a.quad,
    s.arr a.coefs⟩

/-- read atom number `k` -/
def State.look (s : State K) (k : ℕ) : Option (View K) := s.atoms[k]?.map s.view

end AtomHeap
end Verif.Model
