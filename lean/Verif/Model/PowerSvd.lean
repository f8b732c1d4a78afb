import Mathlib.Analysis.SpecialFunctions.Sqrt
import Mathlib.Data.Real.Sign

/-!
# Model of `partial_svd` of `regreg/affine/factored_matrix.py`: the block power iteration

Exact reals.  `np.linalg.qr` is a parameter (its contract is stated with the theorems), and so are the random numbers.  The transform is
a matrix `X`; `n` and `p` are its output and input dimension.  `Model/PartialSvd.lean` models the callers, for an iteration that has
converged.
-/

namespace Verif.Model.PowerSvd

noncomputable section

variable {n p q : ℕ}

/-- `transform.linear_map(V)` of an array of columns -/
def linMap (X : Fin n → Fin p → ℝ) (V : Fin p → Fin q → ℝ) : Fin n → Fin q → ℝ := fun i a => ∑ j, X i j * V j a

/-- `transform.adjoint_map(U)` of an array of columns -/
def adjMap (X : Fin n → Fin p → ℝ) (U : Fin n → Fin q → ℝ) : Fin p → Fin q → ℝ := fun j a => ∑ i, X i j * U i a

/-- `np.linalg.qr` for arrays of `m` rows and at most as many columns, in its default mode: `Q` has the shape of the argument -/
structure Qr (m q : ℕ) where
  Q : (Fin m → Fin q → ℝ) → Fin m → Fin q → ℝ
  R : (Fin m → Fin q → ℝ) → Fin q → Fin q → ℝ

/-- `np.linalg.norm` of a vector -/
def vnorm {m : ℕ} (v : Fin m → ℝ) : ℝ := Real.sqrt (∑ i, v i ^ 2)

/-- the variables of the loop; `sv` is `old_singular_values`, `rel` is `singular_rel_change > tol` -/
structure State (n p q rank : ℕ) where
  U : Fin n → Fin q → ℝ
  V : Fin p → Fin q → ℝ
  R : Fin q → Fin q → ℝ
  sv : Fin rank → ℝ
  rel : Bool
  itercount : ℕ
  /-- `stopping_rule` asked to leave the loop -/
  broke : Bool

open Classical in
/-- `singular_rel_change > tol`, `factored_matrix.py:353, 345`: numpy divides by zero to `inf`, and zero by zero to nan, which is not
greater than `tol` -/
def changed {rank : ℕ} (tol : ℝ) (sv old : Fin rank → ℝ) : Bool :=
  if vnorm sv = 0 then decide (vnorm (fun a => sv a - old a) ≠ 0) else decide (tol < vnorm (fun a => sv a - old a) / vnorm sv)

/-- one pass, `factored_matrix.py:350-359`; `h` says that `rank` is at most the number of columns -/
def step {rank : ℕ} (h : rank ≤ q) (X : Fin n → Fin p → ℝ) (qp : Qr p q) (qn : Qr n q) (tol : ℝ)
    (rule : Option ((Fin rank → ℝ) → Bool)) (s : State n p q rank) : State n p q rank :=
  let V := qp.Q (adjMap X s.U)                                        -- 350
  let XV := linMap X V                                                -- 351
  let U := qn.Q XV                                                    -- 352
  let R := qn.R XV
  let sv : Fin rank → ℝ := fun a => R (a.castLE h) (a.castLE h)       -- 353
  { U := U
    V := V
    R := R
    rel := changed tol sv s.sv                                        -- 354
    sv := sv                                                          -- 355
    itercount := s.itercount + 1                                      -- 356
    broke := match rule with                                          -- 358-359
      | some f => f fun a => |sv a|
      | none => false }

/-- the loop, `factored_matrix.py:345-359`, with `k` passes left of `max_its` -/
def loop {rank : ℕ} (h : rank ≤ q) (X : Fin n → Fin p → ℝ) (qp : Qr p q) (qn : Qr n q) (tol : ℝ)
    (rule : Option ((Fin rank → ℝ) → Bool)) : ℕ → State n p q rank → State n p q rank
  | 0, s => s
  | k + 1, s => if s.rel = true ∧ s.broke = false then loop h X qp qn tol rule k (step h X qp qn tol rule s) else s

open Classical in
/-- the variables before the loop, `factored_matrix.py:339-343`; `V` and `R` are not bound yet -/
def start {rank : ℕ} (tol : ℝ) (U0 : Fin n → Fin q → ℝ) : State n p q rank :=
  ⟨U0, fun _ _ => 0, fun _ _ => 0, fun _ => 0, decide (tol < 1), 0, false⟩

/-- a returned triplet: a column of `U`, an entry of `D`, a row of `VT` -/
structure Triplet (n p : ℕ) where
  u : Fin n → ℝ
  d : ℝ
  v : Fin p → ℝ

/-- what the call does -/
inductive Result (n p : ℕ) where
  | triplets (l : List (Triplet n p))
  /-- `U[:,ind[0]], np.zeros((1,1)), V[:,ind[0]].T`, one-dimensional `U` and `VT` -/
  | flat (u : Fin n → ℝ) (v : Fin p → ℝ)
  /-- more columns in `warm_start` than wanted: negative dimensions for the random numbers -/
  | valueError
  /-- `np.diagonal(R)` is too short -/
  | indexError
  /-- `R` is not bound: no pass was made -/
  | unboundLocal
  /-- not modelled: more columns than rows, but no more singular values wanted than there are -/
  | wide

/-- `rank = int(np.min([rank, p]))`, `factored_matrix.py:322` -/
def effRank (p rank : ℕ) : ℕ := min rank p

/-- `q = np.min([rank + padding, p])`, `factored_matrix.py:323` -/
def width (p rank padding : ℕ) : ℕ := min (effRank p rank + padding) p

lemma effRank_le (p rank padding : ℕ) : effRank p rank ≤ width p rank padding :=
  le_min (Nat.le_add_right _ _) (min_le_right _ _)

/-- `factored_matrix.py:324-334`: the columns of `warm_start`, then random ones -/
def startU (q : ℕ) (warm : List (Fin n → ℝ)) (rnd : Fin n → Fin q → ℝ) : Fin n → Fin q → ℝ :=
  fun i a => (warm[a.val]?).elim (rnd i a) fun c => c i

open Classical in
/-- `factored_matrix.py:361-367`; `m` is `len(ind)` -/
def finish {rank : ℕ} (m : ℕ) (s : State n p q rank) : Result n p :=
  match (List.finRange q).filter (fun a => decide (a.val < m ∧ |s.R a a| > 1 / 10 ^ 12)) with
  | a :: l => .triplets ((a :: l).map fun a => ⟨fun i => s.U i a * Real.sign (s.R a a), |s.R a a|, fun j => s.V j a⟩)
  | [] => match ((List.finRange q).filter fun a => decide (a.val < m)).head? with
    | some a => .flat (fun i => s.U i a) fun j => s.V j a
    | none => .indexError

/-- the variables after the loop -/
def final (X : Fin n → Fin p → ℝ) (rank padding : ℕ) (qp : Qr p (width p rank padding)) (qn : Qr n (width p rank padding))
    (maxIts : ℕ) (tol : ℝ) (warm : List (Fin n → ℝ)) (rnd : Fin n → Fin (width p rank padding) → ℝ)
    (rule : Option ((Fin (effRank p rank) → ℝ) → Bool)) : State n p (width p rank padding) (effRank p rank) :=
  loop (effRank_le p rank padding) X qp qn tol rule maxIts (start tol (startU _ warm rnd))

/-- `partial_svd(transform, rank, padding, max_its, tol, warm_start, return_full, stopping_rule)`, `factored_matrix.py:247-367`.  `warm` is
the list of columns of `warm_start` (none if it is not given; a one-dimensional array is one column). -/
def partialSvd (X : Fin n → Fin p → ℝ) (rank padding : ℕ) (qp : Qr p (width p rank padding)) (qn : Qr n (width p rank padding))
    (maxIts : ℕ) (tol : ℝ) (warm : List (Fin n → ℝ)) (rnd : Fin n → Fin (width p rank padding) → ℝ) (full : Bool)
    (rule : Option ((Fin (effRank p rank) → ℝ) → Bool)) : Result n p :=
  if width p rank padding < warm.length then .valueError
  else if maxIts = 0 ∨ ¬ tol < 1 then .unboundLocal
  else if n < effRank p rank then .indexError
  else if n < width p rank padding then (if full then .indexError else .wide)
  else finish (if full then width p rank padding else effRank p rank) (final X rank padding qp qn maxIts tol warm rnd rule)

end
end Verif.Model.PowerSvd
