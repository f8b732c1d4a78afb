import Mathlib.Algebra.BigOperators.Fin
import Mathlib.Algebra.Order.Field.Basic
import Mathlib.Analysis.SpecialFunctions.Sqrt
import Mathlib.Data.Matrix.Mul

/-!
# Model of `regreg/affine/__init__.py`

`Aff K m k` is a transform object taking arrays of length `m` to arrays of length `k`; every constructor is a
class (or a branch of the constructor of `affine_transform`).  Only one-dimensional arrays are modelled; an array of a
higher dimensional shape is represented by its C-order flattening, so `reshape` is the identity.
Slices `slice(total, total + increment)` of the stacking classes are the blocks of `finSigmaFinEquiv`
(`finSigmaFinEquiv ⟨i, j⟩` has value `Σ_{l<i} size l + j`).
-/

namespace Verif.Model

/-- A transform object. -/
inductive Aff (K : Type) : ℕ → ℕ → Type where
  /-- `affine_transform(D, offset)` with a dense or sparse matrix, `affine/__init__.py:42-123` -/
  | matrix {m k : ℕ} (D : Fin k → Fin m → K) (offset : Option (Fin k → K)) : Aff K m k
  /-- `affine_transform(None, offset)`, lines 71-77 -/
  | noneD {n : ℕ} (offset : Fin n → K) : Aff K n n
  /-- `affine_transform(d, offset, diag=True)`, lines 107-111 -/
  | diag {n : ℕ} (d : Fin n → K) (offset : Option (Fin n → K)) : Aff K n n
  /-- `affine_transform(T, offset)` with a transform `T` having all six attributes, lines 90-101 -/
  | wrap {m k : ℕ} (T : Aff K m k) (offset : Option (Fin k → K)) : Aff K m k
  /-- `selector(index_obj, (m,), T)`: `idx` lists the selected positions in order, lines 273-337 -/
  | selector {m r k : ℕ} (idx : Fin r → Fin m) (T : Aff K r k) : Aff K m k
  /-- `scaler`, lines 339-353 -/
  | scaler {n : ℕ} (s : Fin n → K) : Aff K n n
  /-- `reshape`, lines 355-374 -/
  | reshape {n : ℕ} : Aff K n n
  /-- `add_intercept`, lines 461-476 -/
  | addIntercept {m k : ℕ} (T : Aff K m k) : Aff K (m + 1) k
  /-- `centering`, lines 478-492 -/
  | centering {n : ℕ} : Aff K n n
  /-- `identity`, lines 494-512 -/
  | identity {n : ℕ} : Aff K n n
  /-- `vstack`, lines 514-572 -/
  | vstack {N m : ℕ} (ks : Fin N → ℕ) (T : (i : Fin N) → Aff K m (ks i)) : Aff K m (∑ i, ks i)
  /-- `hstack`, lines 574-638 -/
  | hstack {N k : ℕ} (ms : Fin N → ℕ) (T : (i : Fin N) → Aff K (ms i) k) : Aff K (∑ i, ms i) k
  /-- `product`, lines 640-713 -/
  | product {N : ℕ} (ms ks : Fin N → ℕ) (T : (i : Fin N) → Aff K (ms i) (ks i)) : Aff K (∑ i, ms i) (∑ i, ks i)
  /-- `aslinear`, lines 749-766 -/
  | aslinear {m k : ℕ} (T : Aff K m k) : Aff K m k
  /-- `adjoint`, lines 768-787 -/
  | adjoint {m k : ℕ} (T : Aff K m k) : Aff K k m
  /-- `residual`, lines 817-838 -/
  | residual {n : ℕ} (T : Aff K n n) : Aff K n n
  /-- `composition(S, T)`, lines 840-874.  `composition(T1, ..., Tn)` runs the same loop over the list and is
  `composition(T1, composition(T2, ...))` here. -/
  | composition {a b c : ℕ} (S : Aff K b c) (T : Aff K a b) : Aff K a c
  /-- `affine_sum`, lines 876-916; the list is not empty (line 890) -/
  | affineSum {N m k : ℕ} (T : Fin (N + 1) → Aff K m k) (weights : Fin (N + 1) → K) : Aff K m k
  /-- `scalar_multiply`, lines 919-944 -/
  | scalarMultiply {m k : ℕ} (T : Aff K m k) (scalar : K) : Aff K m k
  /-- `posneg`, lines 946-967; the input of shape `(2, m)` is flattened -/
  | posneg {m k : ℕ} (T : Aff K m k) : Aff K (m + m) k

namespace Aff

variable {K : Type} [Field K] [LinearOrder K]

/-- `x - x.mean(0)`, line 489. -/
def center {n : ℕ} (x : Fin n → K) : Fin n → K := fun i => x i - (∑ j, x j) / (n : K)

/-- `result = np.empty(shape); result[g] = v_g for each block g`, lines 555-557, 632-636, 693-699. -/
def fill {N : ℕ} (ks : Fin N → ℕ) (v : (i : Fin N) → Fin (ks i) → K) : Fin (∑ i, ks i) → K :=
  fun o => v (finSigmaFinEquiv.symm o).1 (finSigmaFinEquiv.symm o).2

/-- block `x[g]` -/
def block {N : ℕ} (ks : Fin N → ℕ) (x : Fin (∑ i, ks i) → K) (i : Fin N) : Fin (ks i) → K :=
  fun j => x (finSigmaFinEquiv ⟨i, j⟩)

/-- `_output[index_obj] = v` on a zero array: for repeated positions the last assignment wins, lines 331-337.
The entries outside `index_obj` of the shared buffer are never written. -/
def scatter {m r : ℕ} (idx : Fin r → Fin m) (v : Fin r → K) : Fin m → K := fun i =>
  ((List.finRange r).foldl (fun (acc : K) j => if idx j = i then v j else acc) 0)

/-- attribute `affine_offset` -/
inductive Off (K : Type) (k : ℕ) where
  /-- the class never sets it: reading it raises AttributeError -/
  | missing
  | none
  | arr (v : Fin k → K)

/-- `if affine_offset is not None` branch of `affine_map`, e.g. lines 564-567 -/
def Off.addTo {k : ℕ} (o : Off K k) (v : Fin k → K) : Fin k → K :=
  match o with
  | .arr a => fun i => v i + a i
  | _ => v

/-- an optional constructor argument as attribute value -/
def Off.ofOption {k : ℕ} : Option (Fin k → K) → Off K k
  | some a => .arr a
  | Option.none => .none

/-- `if np.all(np.equal(v, 0)): None else v`, lines 550-551, 606-607, 680-681. -/
def Off.ofNonzero {k : ℕ} (v : Fin k → K) : Off K k := if ∀ i, v i = 0 then .none else .arr v

/-- `np.allclose(v, 0)`: `|v| ≤ 1e-8`. -/
def allclose0 {k : ℕ} (v : Fin k → K) : Prop := ∀ i, |v i| ≤ 1 / 10 ^ 8

instance {k : ℕ} (v : Fin k → K) : Decidable (allclose0 v) := by unfold allclose0; infer_instance

/-- the methods `linear_map`, `adjoint_map`, `affine_map` and the attribute `affine_offset` of an object -/
structure Methods (K : Type) (m k : ℕ) where
  lin : (Fin m → K) → Fin k → K
  adj : (Fin k → K) → Fin m → K
  aff : (Fin m → K) → Fin k → K
  off : Off K k

/-- The methods of a transform object, class by class. -/
def meth : {m k : ℕ} → Aff K m k → Methods K m k
  | _, _, .matrix D o =>
    { lin := fun x i => ∑ j, D i j * x j                            -- 150
      adj := fun u j => ∑ i, D i j * u i                            -- 253-263
      aff := fun x => (Off.ofOption o).addTo fun i => ∑ j, D i j * x j   -- 220-226
      off := Off.ofOption o }
  | _, _, .noneD o =>
    { lin := fun x => x                                             -- 141-142
      adj := fun u => u                                             -- 251-252
      aff := fun x i => x i + o i                                   -- 220-226
      off := .arr o }
  | _, _, .diag d o =>
    { lin := fun x i => d i * x i                                   -- 147-149
      adj := fun u i => d i * u i                                   -- 257-259
      aff := fun x => (Off.ofOption o).addTo fun i => d i * x i     -- 220-226
      off := Off.ofOption o }
  | _, _, .wrap T o =>
    { lin := T.meth.lin                                             -- 143-144
      adj := T.meth.adj                                             -- 260-261
      aff := fun x => (Off.ofOption o).addTo (T.meth.aff x)         -- 218-226
      off := Off.ofOption o }
  | _, _, .selector idx T =>
    { lin := fun x => T.meth.lin fun j => x (idx j)                 -- 319-323
      adj := fun u => scatter idx (T.meth.adj u)                    -- 331-337
      aff := fun x => T.meth.aff fun j => x (idx j)                 -- 325-329
      off := T.meth.off }                                           -- 312
  | _, _, .scaler s =>
    { lin := fun x i => s i * x i, adj := fun u i => s i * u i, aff := fun x i => s i * x i, off := .missing }
  | _, _, .reshape => { lin := fun x => x, adj := fun u => u, aff := fun x => x, off := .missing }
  | _, _, .addIntercept T =>
    { lin := fun x i => T.meth.lin (fun j => x j.succ) i + x 0      -- 472-473
      adj := fun u => Fin.cons (∑ i, u i) (T.meth.adj u)            -- 475-476
      aff := fun x i => T.meth.aff (fun j => x j.succ) i + x 0      -- 469-470
      off := .missing }
  | _, _, .centering => { lin := center, adj := center, aff := center, off := .none }
  | _, _, .identity => { lin := fun x => x, adj := fun u => u, aff := fun x => x, off := .none }
  | _, _, .vstack ks T =>
    let off := Off.ofNonzero (fill ks fun i => (T i).meth.aff fun _ => 0)         -- 545-551
    { lin := fun x => fill ks fun i => (T i).meth.lin x                           -- 553-557
      adj := fun u o => ∑ i, (T i).meth.adj (block ks u i) o                      -- 568-573
      aff := fun x => off.addTo (fill ks fun i => (T i).meth.lin x)               -- 559-566
      off := off }
  | _, _, .hstack ms T =>
    let off := Off.ofNonzero fun o => ∑ i, (T i).meth.aff (fun _ => 0) o          -- 601-607
    { lin := fun x o => ∑ i, (T i).meth.lin (block ms x i) o                      -- 609-614
      adj := fun u => fill ms fun i => (T i).meth.adj u                           -- 626-636
      aff := fun x => off.addTo fun o => ∑ i, (T i).meth.lin (block ms x i) o     -- 616-624
      off := off }
  | _, _, .product ms ks T =>
    let off := Off.ofNonzero (fill ks fun i => (T i).meth.aff fun _ => 0)         -- 675-681
    { lin := fun x => fill ks fun i => (T i).meth.lin (block ms x i)              -- 683-690
      adj := fun u => fill ms fun i => (T i).meth.adj (block ks u i)              -- 704-712
      aff := fun x => off.addTo (fill ks fun i => (T i).meth.lin (block ms x i))  -- 692-702
      off := off }
  | _, _, .aslinear T =>
    { lin := T.meth.lin, adj := T.meth.adj, aff := T.meth.lin, off := .none }
  | _, _, .adjoint T =>
    { lin := T.meth.adj, adj := T.meth.lin, aff := T.meth.adj, off := .none }
  | _, _, .residual T =>
    { lin := fun x i => x i - T.meth.lin x i                        -- 831-832
      adj := fun u i => u i - T.meth.adj u i                        -- 837-838
      aff := fun x i => x i - T.meth.aff x i                        -- 834-835
      off := .none }                                                -- 827
  | _, _, .composition S T =>
    { lin := fun x => S.meth.lin (T.meth.lin x)                     -- 858-862
      adj := fun u => T.meth.adj (S.meth.adj u)                     -- 870-874
      aff := fun x => S.meth.aff (T.meth.aff x)                     -- 864-868
      off := if ¬ allclose0 (S.meth.aff (T.meth.aff fun _ => 0)) then .none       -- 852-856
             else .arr (S.meth.aff (T.meth.aff fun _ => 0)) }
  | _, _, .affineSum T w =>
    { lin := fun x o => ∑ i, w i * (T i).meth.lin x o               -- 900-904
      adj := fun u o => ∑ i, w i * (T i).meth.adj u o               -- 912-916
      aff := fun x o => ∑ i, w i * (T i).meth.aff x o               -- 906-910
      off := if allclose0 (fun o => ∑ i, w i * (T i).meth.aff (fun _ => 0) o) then .none   -- 893-898
             else .arr fun o => ∑ i, w i * (T i).meth.aff (fun _ => 0) o }
  | _, _, .scalarMultiply T c =>
    { lin := fun x i => if c ≠ 1 then T.meth.lin x i * c else T.meth.lin x i      -- 933-937
      adj := fun u i => if c ≠ 1 then T.meth.adj u i * c else T.meth.adj u i      -- 940-944
      aff := fun x i => if c ≠ 1 then T.meth.aff x i * c else T.meth.aff x i      -- 927-931
      off := .none }                                                              -- 924
  | _, _, .posneg (m := m) T =>
    { lin := fun x i => T.meth.lin (fun j => x (Fin.castAdd m j)) i - T.meth.lin (fun j => x (Fin.natAdd m j)) i
      adj := fun u => Fin.append (T.meth.adj u) (fun i => -T.meth.adj u i)        -- 963-967
      aff := fun x i => T.meth.lin (fun j => x (Fin.castAdd m j)) i - T.meth.lin (fun j => x (Fin.natAdd m j)) i
      off := .none }                                                -- 951-961

/-- method `linear_map` -/
def lin {m k : ℕ} (T : Aff K m k) : (Fin m → K) → Fin k → K := T.meth.lin
/-- method `adjoint_map` -/
def adj {m k : ℕ} (T : Aff K m k) : (Fin k → K) → Fin m → K := T.meth.adj
/-- method `affine_map` -/
def aff {m k : ℕ} (T : Aff K m k) : (Fin m → K) → Fin k → K := T.meth.aff
/-- attribute `affine_offset` -/
def off {m k : ℕ} (T : Aff K m k) : Off K k := T.meth.off

/-- attributes `(input_shape, output_shape)` as set by the constructors; `aslinear` (lines 756-757) swaps them. -/
def shapes : {m k : ℕ} → Aff K m k → ℕ × ℕ
  | _, _, .matrix (m := m) (k := k) _ _ => (m, k)
  | _, _, .noneD (n := n) _ => (n, n)
  | _, _, .diag (n := n) _ _ => (n, n)
  | _, _, .wrap T _ => T.shapes
  | _, _, .selector (m := m) _ T => (m, T.shapes.2)
  | _, _, .scaler (n := n) _ => (n, n)
  | _, _, .reshape (n := n) => (n, n)
  | _, _, .addIntercept T => (T.shapes.1 + 1, T.shapes.2)
  | _, _, .centering (n := n) => (n, n)
  | _, _, .identity (n := n) => (n, n)
  | _, _, .vstack (N := N) (m := m) _ T => (if h : 0 < N then (T ⟨0, h⟩).shapes.1 else m, ∑ i, (T i).shapes.2)
  | _, _, .hstack (N := N) (k := k) _ T => (∑ i, (T i).shapes.1, if h : 0 < N then (T ⟨0, h⟩).shapes.2 else k)
  | _, _, .product _ _ T => (∑ i, (T i).shapes.1, ∑ i, (T i).shapes.2)
  | _, _, .aslinear T => (T.shapes.2, T.shapes.1)
  | _, _, .adjoint T => (T.shapes.2, T.shapes.1)
  | _, _, .residual T => T.shapes
  | _, _, .composition S T => (T.shapes.1, S.shapes.2)
  | _, _, .affineSum T _ => (T 0).shapes
  | _, _, .scalarMultiply T _ => T.shapes
  | _, _, .posneg T => (T.shapes.1 + T.shapes.1, T.shapes.2)

/-- `normalize(M, center, scale, intercept, ddof, value)`, lines 384-459, for an `n × p` matrix.
`isSparse`: `scipy.sparse` input; `none`: `tmp` is undefined for sparse input with `center=False`
(lines 427-436), NameError. -/
noncomputable def normCore {n p : ℕ} (isSparse : Bool) (M : Fin n → Fin p → ℝ) (ctr scale : Bool) (ddof value : ℝ) :
    Option (Aff ℝ p n) :=
  let colMeans : Fin p → ℝ := if ctr then fun j => (∑ i, M i j) / n else fun _ => 0
  let ddof := if ctr then ddof else ddof - 1
  if isSparse = true ∧ ctr = false ∧ scale = true then none
  else
    let colScales : Fin p → ℝ := fun j => Real.sqrt ((∑ i, M i j ^ 2 - n * colMeans j ^ 2) / (n - ddof))
    let inv : Fin p → ℝ := fun j => if colScales j > 0 then 1 / colScales j else 0
    let core : Aff ℝ p n :=
      if scale then .composition (.matrix M none) (.diag (fun j => inv j * value) none) else .matrix M none
    some (if ctr then .composition .centering core else core)

end Aff
end Verif.Model
