import Verif.Model.Affine

/-!
# Model of `regreg/affine/block_maps.py`, of `tensorize` (`affine/__init__.py:789-815`) and of the transform methods of `factored_matrix`
(`affine/factored_matrix.py:20-113`)

The transforms of a block map have one-dimensional inputs and outputs; they are objects of `Verif.Model.Aff`.
-/

namespace Verif.Model.BlockMaps

noncomputable section

variable {K : Type} [Field K] [LinearOrder K] {N p : ℕ}

/-- `block_columns.linear_map`, `block_maps.py:73-81`: block `i` of the result is `T_i.linear_map(arg[:,i])` -/
def columnsLin (ks : Fin N → ℕ) (T : (i : Fin N) → Aff K p (ks i)) (arg : Fin p → Fin N → K) : Fin (∑ i, ks i) → K :=
  Aff.fill ks fun i => (T i).lin fun j => arg j i

/-- `block_columns.affine_map`, `block_maps.py:63-71` -/
def columnsAff (ks : Fin N → ℕ) (T : (i : Fin N) → Aff K p (ks i)) (arg : Fin p → Fin N → K) : Fin (∑ i, ks i) → K :=
  Aff.fill ks fun i => (T i).aff fun j => arg j i

/-- `block_columns.adjoint_map`, `block_maps.py:83-91`: `_adj_buffer[:,i] = T_i.adjoint_map(arg[slice_i])` -/
def columnsAdj (ks : Fin N → ℕ) (T : (i : Fin N) → Aff K p (ks i)) (arg : Fin (∑ i, ks i) → K) : Fin p → Fin N → K :=
  fun j i => (T i).adj (Aff.block ks arg i) j

/-- `block_rows._adjoint`, `block_maps.py:128-129`: `block_columns([adjoint(trans) for trans in transforms])` -/
def rowsAdjoints {ms : Fin N → ℕ} (T : (i : Fin N) → Aff K (ms i) p) : (i : Fin N) → Aff K p (ms i) := fun i => .adjoint (T i)

/-- `block_rows.linear_map`, `block_maps.py:154-156`: `self._adjointT.linear_map(arg)` is `self._adjoint.adjoint_map(arg)` -/
def rowsLin (ms : Fin N → ℕ) (T : (i : Fin N) → Aff K (ms i) p) (arg : Fin (∑ i, ms i) → K) : Fin p → Fin N → K :=
  columnsAdj ms (rowsAdjoints T) arg

/-- `_offset = np.array([trans.affine_map(zeros)]).T`, `block_maps.py:139-144` -/
def rowsOffset {ms : Fin N → ℕ} (T : (i : Fin N) → Aff K (ms i) p) : Fin p → Fin N → K := fun j i => (T i).aff (fun _ => 0) j

/-- `block_rows.affine_map`, `block_maps.py:150-152` -/
def rowsAff (ms : Fin N → ℕ) (T : (i : Fin N) → Aff K (ms i) p) (arg : Fin (∑ i, ms i) → K) : Fin p → Fin N → K :=
  fun j i => rowsLin ms T arg j i + rowsOffset T j i

/-- `block_rows.adjoint_map`, `block_maps.py:158-160` -/
def rowsAdj (ms : Fin N → ℕ) (T : (i : Fin N) → Aff K (ms i) p) (arg : Fin p → Fin N → K) : Fin (∑ i, ms i) → K :=
  columnsLin ms (rowsAdjoints T) arg

/-! ## tensorize of a matrix transform -/

/-- `tensorize.linear_map`, `affine/__init__.py:805-806`, for `affine_transform(D, offset)`: `D.dot(x)` -/
def tensorLin {m k q : ℕ} (D : Fin k → Fin m → K) (x : Fin m → Fin q → K) : Fin k → Fin q → K := fun i c => ∑ j, D i j * x j c

/-- `tensorize.affine_map`, `affine/__init__.py:808-812`: `v + affine_offset[:, np.newaxis]` -/
def tensorAff {m k q : ℕ} (D : Fin k → Fin m → K) (offset : Option (Fin k → K)) (x : Fin m → Fin q → K) : Fin k → Fin q → K :=
  match offset with
  | some o => fun i c => tensorLin D x i c + o i
  | none => tensorLin D x

/-- `tensorize.adjoint_map`, `affine/__init__.py:814-815`: `D.T.dot(x)` -/
def tensorAdj {m k q : ℕ} (D : Fin k → Fin m → K) (u : Fin k → Fin q → K) : Fin m → Fin q → K := fun j c => ∑ i, D i j * u i c

/-! ## factored_matrix -/

/-- `_factors = U, D, VT` of shapes `(n, r)`, `(r,)`, `(r, m)`; with `r = 1` the attribute `rankone` is set and `D` has shape `(1,1)`,
`factored_matrix.py:76-89` -/
structure Factors (K : Type) (n m r : ℕ) where
  U : Fin n → Fin r → K
  D : Fin r → K
  VT : Fin r → Fin m → K
  offset : Option (Fin n → K)

/-- `np.dot(VT, x)` etc. -/
def dotv {n m : ℕ} (A : Fin n → Fin m → K) (x : Fin m → K) : Fin n → K := fun i => ∑ j, A i j * x j

/-- `factors[1][0,0]` -/
def Factors.d00 {n m r : ℕ} (F : Factors K n m r) (h : r = 1) : K := F.D ⟨0, by omega⟩

/-- `_getX`, `factored_matrix.py:69-74` -/
def Factors.X {n m r : ℕ} (F : Factors K n m r) : Fin n → Fin m → K :=
  if h : r = 1 then fun i j => F.d00 h * ∑ a, F.U i a * F.VT a j
  else fun i j => ∑ a, F.U i a * (F.D a * F.VT a j)

/-- `linear_map`, `factored_matrix.py:91-95` -/
def Factors.lin {n m r : ℕ} (F : Factors K n m r) (x : Fin m → K) : Fin n → K :=
  if h : r = 1 then fun i => F.d00 h * dotv F.U (dotv F.VT x) i
  else dotv F.U fun a => F.D a * dotv F.VT x a

/-- `adjoint_map`, `factored_matrix.py:97-101` -/
def Factors.adj {n m r : ℕ} (F : Factors K n m r) (u : Fin n → K) : Fin m → K :=
  if h : r = 1 then fun j => F.d00 h * dotv (fun j a => F.VT a j) (dotv (fun a i => F.U i a) u) j
  else dotv (fun j a => F.VT a j) fun a => F.D a * dotv (fun a i => F.U i a) u a

/-- `affine_map`, `factored_matrix.py:103-113` -/
def Factors.aff {n m r : ℕ} (F : Factors K n m r) (x : Fin m → K) : Fin n → K :=
  match F.offset with
  | some o => fun i => F.lin x i + o i
  | none => F.lin x

end

end Verif.Model.BlockMaps
