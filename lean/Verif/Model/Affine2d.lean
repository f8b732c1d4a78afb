import Verif.Model.Affine

/-!
# Model of the methods of transforms called with a two-dimensional array, and of `todense` (`affine/__init__.py`)

The argument has the rows of the one-dimensional case and `q` columns.  `none`: an exception of numpy, for `q ≥ 2` and blocks that are not
empty (the only sizes for which the exceptions are claimed to be modelled: a matrix with one column may be accepted where `none` is
written).  The values are those of the code for every `q`.
-/

namespace Verif.Model.Aff

variable {K : Type} [Field K] [LinearOrder K]

/-- a list of results, none of which is an exception -/
def allSome {N : ℕ} {α : Type} (f : Fin N → Option α) : Option (Fin N → α) :=
  if h : ∀ i, (f i).isSome then some fun i => (f i).get (h i) else none

/-- `x - x.mean(0)`, line 489: the mean of each column -/
def center2 {n q : ℕ} (x : Fin n → Fin q → K) : Fin n → Fin q → K := fun i c => x i c - (∑ j, x j c) / (n : K)

/-- `self.scalings * x`, line 346, for `scalings` of shape `(n,)` and `x` of shape `(n, q)`: numpy aligns the last axes, so `scalings` runs
along the columns -/
def scale2 {n q : ℕ} (s : Fin n → K) (x : Fin n → Fin q → K) : Option (Fin n → Fin q → K) :=
  if n = 1 then some fun i c => s i * x i c
  else if h : q = n then some fun i c => s (Fin.cast h c) * x i c
  else none

/-- `broadcast_first(offset, v, add)`, lines 9-33 and 223: the offset as a column -/
def addOffset2 {k q : ℕ} (o : Option (Fin k → K)) (v : Fin k → Fin q → K) : Fin k → Fin q → K :=
  match o with
  | some a => fun i c => a i + v i c
  | none => v

/-- the methods `linear_map`, `adjoint_map` and `affine_map` for arguments with `q` columns -/
structure Methods2 (K : Type) (m k q : ℕ) where
  lin : (Fin m → Fin q → K) → Option (Fin k → Fin q → K)
  adj : (Fin k → Fin q → K) → Option (Fin m → Fin q → K)
  aff : (Fin m → Fin q → K) → Option (Fin k → Fin q → K)

/-- The methods class by class.  `vstack`, `hstack`, `product`, `reshape` read or write arrays of the one-dimensional shape.  `posneg`
takes an array with a first axis of length two, so its `linear_map` of a matrix is another thing: it is not modelled here and no theorem
is about it. -/
def meth2 (q : ℕ) : {m k : ℕ} → Aff K m k → Methods2 K m k q
  | _, _, .matrix D o =>
    { lin := fun x => some fun i c => ∑ j, D i j * x j c                          -- 151-157
      adj := fun u => some fun j c => ∑ i, D i j * u i c                          -- 253-263
      aff := fun x => some (addOffset2 o fun i c => ∑ j, D i j * x j c) }         -- 217-224
  | _, _, .noneD o =>
    { lin := fun x => some x                                                      -- 147-148
      adj := fun u => some u                                                      -- 250-251
      aff := fun x => some (addOffset2 (some o) x) }
  | _, _, .diag d o =>
    { lin := fun x => some fun i c => d i * x i c                                 -- 153-155, 9-33
      adj := fun u => some fun i c => d i * u i c                                 -- 256-258
      aff := fun x => some (addOffset2 o fun i c => d i * x i c) }
  | _, _, .wrap T o =>
    { lin := (T.meth2 q).lin                                                      -- 149-150
      adj := (T.meth2 q).adj                                                      -- 259-260
      aff := fun x => ((T.meth2 q).aff x).map (addOffset2 o) }                    -- 217-224
  | _, _, .selector idx T =>
    { lin := fun x => (T.meth2 q).lin fun j => x (idx j)                          -- 319-323: rows of `x`
      adj := fun _ => none                                                        -- 331-337: `_output` has one axis
      aff := fun x => (T.meth2 q).aff fun j => x (idx j) }                        -- 325-329
  | _, _, .scaler s => { lin := scale2 s, adj := scale2 s, aff := scale2 s }      -- 345-352
  | _, _, .reshape => { lin := fun _ => none, adj := fun _ => none, aff := fun _ => none }   -- 364-371
  | _, _, .addIntercept T =>
    { lin := fun x => ((T.meth2 q).lin fun j => x j.succ).map fun v i c => v i c + x 0 c     -- 472-473: `x[0]` is a row
      adj := fun _ => none                                                        -- 475-476: `hstack` of one and two axes
      aff := fun x => ((T.meth2 q).aff fun j => x j.succ).map fun v i c => v i c + x 0 c }   -- 469-470
  | _, _, .centering => { lin := fun x => some (center2 x), adj := fun u => some (center2 u), aff := fun x => some (center2 x) }   -- 485-492
  | _, _, .identity => { lin := fun x => some x, adj := fun u => some u, aff := fun x => some x }   -- 505-512
  | _, _, .vstack _ _ => { lin := fun _ => none, adj := fun _ => none, aff := fun _ => none }       -- 552-572
  | _, _, .hstack _ _ => { lin := fun _ => none, adj := fun _ => none, aff := fun _ => none }       -- 613-638
  | _, _, .product _ _ _ => { lin := fun _ => none, adj := fun _ => none, aff := fun _ => none }    -- 685-713
  | _, _, .aslinear T => { lin := (T.meth2 q).lin, adj := (T.meth2 q).adj, aff := (T.meth2 q).lin } -- 759-766
  | _, _, .adjoint T => { lin := (T.meth2 q).adj, adj := (T.meth2 q).lin, aff := (T.meth2 q).adj }  -- 780-787
  | _, _, .residual T =>
    { lin := fun x => ((T.meth2 q).lin x).map fun v i c => x i c - v i c          -- 831-832
      adj := fun u => ((T.meth2 q).adj u).map fun v i c => u i c - v i c          -- 837-838
      aff := fun x => ((T.meth2 q).aff x).map fun v i c => x i c - v i c }        -- 834-835
  | _, _, .composition S T =>
    { lin := fun x => ((T.meth2 q).lin x).bind (S.meth2 q).lin                    -- 858-862
      adj := fun u => ((S.meth2 q).adj u).bind (T.meth2 q).adj                    -- 870-874
      aff := fun x => ((T.meth2 q).aff x).bind (S.meth2 q).aff }                  -- 864-868
  | _, _, .affineSum T w =>
    { lin := fun x => (allSome fun i => ((T i).meth2 q).lin x).map fun v o c => ∑ i, w i * v i o c   -- 900-904
      adj := fun u => (allSome fun i => ((T i).meth2 q).adj u).map fun v o c => ∑ i, w i * v i o c   -- 912-916
      aff := fun x => (allSome fun i => ((T i).meth2 q).aff x).map fun v o c => ∑ i, w i * v i o c } -- 906-910
  | _, _, .scalarMultiply T a =>
    { lin := fun x => ((T.meth2 q).lin x).map fun v i c => if a ≠ 1 then v i c * a else v i c        -- 933-937
      adj := fun u => ((T.meth2 q).adj u).map fun v i c => if a ≠ 1 then v i c * a else v i c        -- 940-944
      aff := fun x => ((T.meth2 q).aff x).map fun v i c => if a ≠ 1 then v i c * a else v i c }      -- 927-931
  | _, _, .posneg _ => { lin := fun _ => none, adj := fun _ => none, aff := fun _ => none }          -- 956-967

/-- Outcome of `todense`. -/
inductive Dense (K : Type) (m k : ℕ)
  | ok (M : Fin k → Fin m → K)
  /-- an exception -/
  | raised
  /-- `linear_map` is applied to an identity matrix of another size than its argument should have (see `shapes`) -/
  | wrongSize

/-- `todense(transform)`, lines 969-978: `linear_map(np.identity(np.product(input_shape)))` -/
def todense {m k : ℕ} (T : Aff K m k) : Dense K m k :=
  if T.shapes.1 = m then
    match (T.meth2 m).lin fun j c => if j = c then 1 else 0 with
    | some M => .ok M
    | none => .raised
  else .wrongSize

/-- `tensorize(transform, q)`, lines 789-815.  `affine_offset` is read from the transform; `none`: AttributeError. -/
def tensorize (q : ℕ) {m k : ℕ} (T : Aff K m k) : Option (Methods2 K m k q) :=
  match T.off with
  | .missing => none
  | .none => some { lin := (T.meth2 q).lin, adj := (T.meth2 q).adj, aff := (T.meth2 q).lin }
  | .arr o => some { lin := (T.meth2 q).lin, adj := (T.meth2 q).adj, aff := fun x => ((T.meth2 q).lin x).map fun v i c => v i c + o i }

end Verif.Model.Aff
