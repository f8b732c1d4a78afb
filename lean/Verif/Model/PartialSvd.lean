import Verif.Model.SvdNorms

/-!
# Model of `compute_iterative_svd` and of the atoms `nuclear_norm`, `operator_norm` of `regreg/affine/factored_matrix.py`

The block power iteration inside `partial_svd` (lines 339-361: repeated QR factorisations from a random start) is modelled in
`Model/PowerSvd.lean`.  Here it is taken to have converged exactly: it returns the leading columns of a thin singular value decomposition `s` of the matrix, the same one at
every call.  An array of singular triplets is the list of its positions in `s`; `np.diagonal(R)` has the singular values in descending
order, so `np.fabs` and the signs have no effect.  `k + 1` is `min(n, p)`.
-/

namespace Verif.Model.PartialSvd
open Verif.Model.Svd

noncomputable section

variable {n p k : ℕ}

/-- exceptions -/
inductive Exc where
  | valueError
  | typeError
  | indexError
  deriving DecidableEq

/-- `D.min()` of a non-empty array -/
def listMin : List ℝ → ℝ
  | [] => 0
  | d :: l => l.foldl min d

/-- `np.max(D)` of a non-empty array -/
def listMax : List ℝ → ℝ
  | [] => 0
  | d :: l => l.foldl max d

/-- `D[-1]` -/
def listLast (l : List ℝ) : ℝ := l.getLastD 0

/-- what `partial_svd(..., return_full=True)` returns: positions of the returned triplets, or the flattened zero triplet -/
inductive Part (k : ℕ) where
  | triplets (idx : List (Fin (k + 1)))
  /-- `U[:,ind[0]], np.zeros((1,1)), V[:,ind[0]].T`, line 367: one-dimensional `U` and `VT` -/
  | flat

/-- the array `D` of singular values -/
def Part.values (d : Fin (k + 1) → ℝ) : Part k → List ℝ
  | .triplets idx => idx.map d
  | .flat => [0]

/-- number of columns of `U` (`1` if it is one-dimensional) -/
def Part.width : Part k → ℕ
  | .triplets idx => idx.length
  | .flat => 1

/-- `partial_svd`, `factored_matrix.py:317-367`, for a transform with `k + 1` input dimensions, at convergence.  `warm` is the number of
columns of `warm_start`; if there are more than `q` of them `np.random.standard_normal((n, q - warm))` raises ValueError (lines 324-332). -/
def partialSvd (d : Fin (k + 1) → ℝ) (rank padding : ℕ) (warm : Option ℕ) : Except Exc (Part k) :=
  let rank := min rank (k + 1)                                        -- 322
  let q := min (rank + padding) (k + 1)                               -- 323
  if q < warm.getD 0 then .error .valueError                          -- 324-332
  else
    let nonzero := ((List.finRange (k + 1)).take q).filter fun a => decide (d a > 1 / 10 ^ 12)   -- 361-363
    if nonzero = [] then .ok .flat else .ok (.triplets nonzero)       -- 364-367

/-- `stopping_rule is not None and stopping_rule(np.fabs(D))`, line 224 -/
def applyRule : Option (List ℝ → Bool) → List ℝ → Bool
  | some r, D => r D
  | none, _ => false

/-- the loop of `compute_iterative_svd`, `factored_matrix.py:212-232`; `none`: the fuel ran out -/
def iterLoop (d : Fin (k + 1) → ℝ) (minSingular : ℝ) (padding maxRank : ℕ) (rule : Option (List ℝ → Bool)) :
    ℕ → ℕ → Option ℕ → Part k → Option (Except Exc (Part k))
  | 0, _, _, _ => none
  | fuel + 1, rank, warm, cur =>
    match partialSvd d rank padding warm with
    | .error e => some (.error e)
    | .ok P =>
      let D := P.values d
      if D.length < rank then some (.ok P)                             -- 221
      else if applyRule rule D then some (.ok P)   -- 224
      else
        let rank := 2 * rank                                           -- 227
        if rank > maxRank then some (.error .valueError)               -- 228
        else if listMax D < 1 / 10 ^ 14 then some (.ok P)              -- 231
        else if listLast D ≥ minSingular * listMax D then iterLoop d minSingular padding maxRank rule fuel rank (some P.width) P   -- 212
        else some (.ok P)

/-- `np.round(0.1 * m)`: halves to even -/
def roundTenth (m : ℕ) : ℕ :=
  let q := m / 10
  if m % 10 < 5 then q else if 5 < m % 10 then q + 1 else if q % 2 = 0 then q else q + 1

/-- the initial rank, lines 199-202 -/
def startRank (k : ℕ) : Option ℕ → ℕ
  | none => roundTenth (k + 1) + 1
  | some r => max r 1

/-- `compute_iterative_svd`, `factored_matrix.py:186-244`, with the default `update_rank` and `max_rank`.  The transposition for wide
matrices exchanges the roles of `U` and `VT` and back (lines 194-197, 235-244).  Before the first pass `D = [1.]` and the loop condition is
`1 ≥ min_singular`; if it fails `D >= min_singular` compares a list with a float.  The last step keeps the positions with
`D >= min_singular`; for a flattened result `D[ind]` is `[[0.]]` or empty. -/
def iterativeSvd (d : Fin (k + 1) → ℝ) (initialRank : Option ℕ) (warm : Option ℕ) (minSingular : ℝ) (rule : Option (List ℝ → Bool))
    (padding : ℕ) : Option (Except Exc (Part k)) :=
  if 1 ≥ minSingular then
    (iterLoop d minSingular padding (2 * (k + 1)) rule (k + 3) (startRank k initialRank) warm .flat).map fun r =>
      r.map fun P => match P with
        | .triplets idx => .triplets (idx.filter fun a => decide (d a ≥ minSingular))
        | .flat => .flat
  else some (.error .typeError)

/-- the matrix `U[:,idx] diag(v) VT[idx,:]` -/
def assemble (s : Triple n p k) (idx : List (Fin (k + 1))) (v : Fin (k + 1) → ℝ) : Fin n × Fin p → ℝ :=
  fun ij => (idx.map fun a => s.U ij.1 a * (v a * s.V a ij.2)).sum

/-- `factored_matrix(X)`, then `.X`: constructor lines 28-67 with `min_singular = 0`, `initial_rank = initial = None`.  A flattened result
with `D = [[0.]]` is a rank one matrix with singular value zero. -/
def factoredX (s : Triple n p k) : Option (Except Exc (Fin n × Fin p → ℝ)) :=
  (iterativeSvd s.D none none 0 none 5).map fun r => r.map fun P => match P with
    | .triplets idx => assemble s idx s.D
    | .flat => fun _ => 0

/-- default `min_singular` of `compute_iterative_svd` -/
def minSing : ℝ := 1 / 10 ^ 16

/-- `nuclear_norm.lagrange_prox`, `factored_matrix.py:413-441`.  The state `st` of an atom between calls is `initial_rank`, also the number
of columns of `warm_start`, which the constructor makes equal; the new state is returned with the result.  `warm_start` is never `None`, so `padding = 0`.
`lipschitz` is not used (line 438).  After a flattened result `D[ind]` has shape `(0,1)` and `U[:,keep]` raises IndexError. -/
def nuclearLagrangeProx (s : Triple n p k) (st : ℕ) (_lipschitz lagrange : ℝ) : Option (Except Exc ((Fin n × Fin p → ℝ) × ℕ)) :=
  (iterativeSvd s.D (some st) (some st) minSing (some fun D => decide (listMin D ≤ lagrange)) 0).map fun r =>
    match r with
    | .error e => .error e
    | .ok .flat => .error .indexError
    | .ok (.triplets idx) =>
      .ok (assemble s (idx.filter fun a => decide (s.D a - lagrange > 0)) (fun a => s.D a - lagrange), idx.length)

/-- `nuclear_norm.bound_prox`, `factored_matrix.py:444-471`; the last component of the outer option is the root finder of `l1norm.bound_prox` -/
def nuclearBoundProx (s : Triple n p k) (st : ℕ) (bound : ℝ) : Option (Except Exc ((Fin n × Fin p → ℝ) × ℕ)) :=
  (iterativeSvd s.D (some st) (some st) minSing
    (some fun D => decide ((D.map fun x => x - listMin D).sum > bound)) 0).bind fun r =>
    match r with
    | .error e => some (.error e)
    | .ok .flat => some (.error .indexError)
    | .ok (.triplets idx) =>
      (L1.boundProx (fun i : Fin idx.length => s.D (idx.get i)) bound).map fun projected =>
        .ok (fun ij => ∑ i ∈ Finset.univ.filter (fun i => projected i > 0),
          s.U ij.1 (idx.get i) * (projected i * s.V (idx.get i) ij.2), idx.length)

/-- `operator_norm.lagrange_prox`, `factored_matrix.py:538-543`: `affine_sum([X, dual_proj], [1., -1.])` -/
def operatorLagrangeProx (X : Fin n × Fin p → ℝ) (s : Triple n p k) (st : ℕ) (lipschitz lagrange : ℝ) :
    Option (Except Exc ((Fin n × Fin p → ℝ) × ℕ)) :=
  (nuclearBoundProx s st (lagrange / lipschitz)).map fun r => r.map fun z => (fun ij => X ij - z.1 ij, z.2)

/-- `operator_norm.bound_prox`, `factored_matrix.py:546-551` -/
def operatorBoundProx (X : Fin n × Fin p → ℝ) (s : Triple n p k) (st : ℕ) (bound : ℝ) :
    Option (Except Exc ((Fin n × Fin p → ℝ) × ℕ)) :=
  (nuclearLagrangeProx s st 1 bound).map fun r => r.map fun z => (fun ij => X ij - z.1 ij, z.2)

/-- constructor of `nuclear_norm`, `factored_matrix.py:379-400`, for shape `(n, p)`: the state; `warm` is the shape of a given `warm_start`.
The message of the ValueError is formatted with a pair for one `%s`, which raises TypeError. -/
def nuclearInit (n p : ℕ) (initialRank : ℕ) (warm : Option (ℕ × ℕ)) : Except Exc ℕ :=
  match warm with
  | none => .ok initialRank
  | some w => if w ≠ (max n p, initialRank) then .error .typeError else .ok initialRank

/-- constructor of `operator_norm`, `factored_matrix.py:501-526`: the warm start has `shape[0]` rows and is passed to `nuclear_norm` -/
def operatorInit (n p : ℕ) (initialRank : ℕ) (warm : Option (ℕ × ℕ)) : Except Exc ℕ :=
  match warm with
  | none => nuclearInit n p initialRank (some (n, initialRank))
  | some w => if w ≠ (n, initialRank) then .error .typeError else nuclearInit n p initialRank (some w)

end

end Verif.Model.PartialSvd
