import Verif.Model.L2Norm
import Verif.Model.AtomMode
import Verif.Model.Gauge
import Mathlib.Logic.Equiv.Fin.Basic

/-!
# Model of `regreg/atoms/block_norms.py` and `regreg/atoms/sparse_group_block.py`

An array of shape `(n, p)` is a function on `Fin n × Fin p`; `reshape` is the identity.  The numerical methods take the
already resolved parameter (see `Verif.Model.AtomMode`).  The division of a zero row by its norm is `0/0`: entries are
`Option ℝ` with `none` for nan.  An outer `none` is an exception.
-/

namespace Verif.Model.Block

noncomputable section

variable {n p : ℕ}

/-- an array of shape `(n, p)` -/
abbrev Mat (n p : ℕ) := Fin n × Fin p → ℝ

/-- `np.sqrt((arg**2).sum(1))[i]` -/
def rowNorm (X : Mat n p) (i : Fin n) : ℝ := Real.sqrt (∑ j, X (i, j) ^ 2)

/-- `a / b` for numbers `a ≤ b` in absolute value: nan for `b = 0` (then `a = 0` too) -/
def fdiv (a b : ℝ) : Option ℝ := if b = 0 then none else some (a / b)

/-- the C-order flattening `arg.reshape(-1)` as a list -/
def flat (X : Mat n p) : List ℝ := List.ofFn fun k : Fin (n * p) => X (finProdFinEquiv.symm k)

namespace L1L2

/-- `l1_l2.seminorm`, `block_norms.py:497-502` -/
def seminorm (X : Mat n p) (lagrange : ℝ) : ℝ := lagrange * ∑ i, rowNorm X i

/-- `l1_l2.constraint`, `block_norms.py:489-494` -/
def constraint (X : Mat n p) (bound : ℝ) : WithTop ℝ :=
  if ∑ i, rowNorm X i ≤ bound * (1 + atomTol) then 0 else ⊤

/-- `l1_l2.lagrange_prox`, `block_norms.py:465-470` -/
def lagrangeProx (X : Mat n p) (lipschitz lagrange : ℝ) : Fin n × Fin p → Option ℝ := fun ij =>
  let norm := rowNorm X ij.1
  (fdiv (max (norm - lagrange / lipschitz) 0) norm).map fun mult => X ij * mult

/-- `l1_l2.bound_prox`, `block_norms.py:473-486`; the root finder never returns `np.inf` (see `Verif.Model.projl1`) -/
def boundProx (X : Mat n p) (bound : ℝ) : Option (Fin n × Fin p → Option ℝ) :=
  (findC bound 0 (List.ofFn (rowNorm X))).map fun cut ij =>
    let norm := rowNorm X ij.1
    let projFactor := (norm - cut) * b2k (norm > cut)
    (fdiv projFactor norm).map fun factor => X ij * factor

end L1L2

namespace LinfL2

/-- `linf_l2.seminorm`, `block_norms.py:272-277`; at least one row -/
def seminorm (X : Mat (n + 1) p) (lagrange : ℝ) : ℝ := lagrange * npMax (rowNorm X)

/-- `linf_l2.constraint`, `block_norms.py:264-269` -/
def constraint (X : Mat (n + 1) p) (bound : ℝ) : WithTop ℝ :=
  if npMax (rowNorm X) ≤ bound * (1 + atomTol) then 0 else ⊤

/-- `linf_l2.bound_prox`, `block_norms.py:280-287` -/
def boundProx (X : Mat n p) (bound : ℝ) : Fin n × Fin p → Option ℝ := fun ij =>
  let norm := rowNorm X ij.1
  if norm ≥ bound then (fdiv bound norm).map fun f => X ij * f else some (X ij)

/-- `linf_l2.lagrange_prox`, `block_norms.py:290-302` -/
def lagrangeProx (X : Mat n p) (lipschitz lagrange : ℝ) : Option (Fin n × Fin p → Option ℝ) :=
  (findC (lagrange / lipschitz) 0 (List.ofFn (rowNorm X))).map fun cut ij =>
    let norm := rowNorm X ij.1
    let projFactor := (norm - cut) * b2k (norm > cut)
    (fdiv (norm - projFactor) norm).map fun factor => X ij * factor

end LinfL2

namespace L1L1

/-- `l1_l1.seminorm`, `block_norms.py:592-597` -/
def seminorm (X : Mat n p) (lagrange : ℝ) : ℝ := lagrange * ∑ ij, |X ij|

/-- `l1_l1.constraint`, `block_norms.py:584-589` -/
def constraint (X : Mat n p) (bound : ℝ) : WithTop ℝ := if ∑ ij, |X ij| ≤ bound * (1 + atomTol) then 0 else ⊤

/-- `l1_l1.lagrange_prox`, `block_norms.py:577-581` -/
def lagrangeProx (X : Mat n p) (lipschitz lagrange : ℝ) : Mat n p := fun ij =>
  max (|X ij| - lagrange / lipschitz) 0 * npSign (X ij)

/-- `l1_l1.bound_prox`, `block_norms.py:600-607` -/
def boundProx (X : Mat n p) (bound : ℝ) : Option (Mat n p) :=
  (findC bound 0 ((flat X).map fun a => |a|)).map fun cut ij =>
    npSign (X ij) * (|X ij| - cut) * b2k (|X ij| > cut)

end L1L1

namespace LinfLinf

/-- `linf_linf.seminorm`, `block_norms.py:383-388` -/
def seminorm (X : Mat (n + 1) (p + 1)) (lagrange : ℝ) : ℝ :=
  lagrange * Finset.univ.sup' Finset.univ_nonempty fun ij => |X ij|

/-- `linf_linf.constraint`, `block_norms.py:375-380` -/
def constraint (X : Mat (n + 1) (p + 1)) (bound : ℝ) : WithTop ℝ :=
  if Finset.univ.sup' Finset.univ_nonempty (fun ij => |X ij|) ≤ bound * (1 + atomTol) then 0 else ⊤

/-- `linf_linf.bound_prox`, `block_norms.py:391-395` -/
def boundProx (X : Mat n p) (bound : ℝ) : Mat n p := fun ij => npClip (X ij) (-bound) bound

/-- `linf_linf.lagrange_prox`, `block_norms.py:398-407` -/
def lagrangeProx (X : Mat n p) (lipschitz lagrange : ℝ) : Option (Mat n p) :=
  (findC (lagrange / lipschitz) 0 ((flat X).map fun a => |a|)).map fun cut ij =>
    X ij - npSign (X ij) * (|X ij| - cut) * b2k (|X ij| > cut)

end LinfLinf

/-- Outcome of a method of the generic classes. -/
inductive Out (α : Type)
  | ok (a : α)
  /-- `xrange` is not defined in Python 3 -/
  | nameError
  | valueError

/-- `block_sum.lagrange_prox`, `block_norms.py:86-93` (parameter resolved): the loop header raises. -/
def sumLagrangeProx (_X : Mat n p) (_lipschitz _lagrange : ℝ) : Out (Mat n p) := .nameError

/-- `block_sum.bound_prox`, `block_norms.py:96-99`: `return 0 * x` -/
def sumBoundProx (X : Mat n p) (_bound : ℝ) : Out (Mat n p) := .ok fun ij => 0 * X ij

/-- `block_max.bound_prox`, `block_norms.py:199-207` (parameter resolved): the loop header raises. -/
def maxBoundProx (_X : Mat n p) (_bound : ℝ) : Out (Mat n p) := .nameError

/-- `block_max.lagrange_prox`, `block_norms.py:195-196` -/
def maxLagrangeProx (_X : Mat n p) (_lipschitz _lagrange : ℝ) : Out (Mat n p) := .valueError

/-- Parameters of a block norm object: its own, and those of the atom it keeps for one row (`self.atom`,
`block_norms.py:42-53`), which gets the same values from the constructor and is never touched again. -/
structure Params where
  own : AtomState ℝ
  inner : AtomState ℝ

namespace Params

/-- `block_sum.__init__`, `block_norms.py:34-53` -/
def init (lagrange bound : Option ℝ) : Except PyExc Params :=
  match AtomState.init lagrange bound, AtomState.init lagrange bound with
  | .ok a, .ok b => .ok ⟨a, b⟩
  | .error e, _ => .error e
  | _, .error e => .error e

/-- `obj.lagrange = v` -/
def setLagrange (s : Params) (v : ℝ) : Except PyExc Params := (s.own.setLagrange (some v)).map fun o => { s with own := o }

/-- `obj.bound = v` -/
def setBound (s : Params) (v : ℝ) : Except PyExc Params := (s.own.setBound (some v)).map fun o => { s with own := o }

/-- parameters of `obj.conjugate` for a zero quadratic: `conj_atom = self.atom.conjugate` has the row atom's parameters
swapped (`seminorms.py:186-190`) and its parameters are passed on (`block_norms.py:126-133, 311-318, 539-546`;
`sparse_group_block.py:91-104`). -/
def conjugate (s : Params) : Except PyExc Params :=
  match AtomState.init s.inner.bound s.inner.lagrange with
  | .ok c => init c.lagrange c.bound
  | .error e => .error e

/-- `block_sum.constraint`, `block_norms.py:77-83`: the row seminorms are asked for without a parameter, so the row atom
uses its own (`seminorms.py:1173-1183`); `values i` is the row norm of row `i` for parameter `1`.  `none`: an exception
(no parameter in the row atom, or comparison with a bound which is `None`). -/
def sumConstraint (s : Params) (values : Fin n → ℝ) : Option (WithTop ℝ) :=
  match s.inner.resolveLagrange none, s.own.bound with
  | .ok l, some b => some (if ∑ i, l * values i ≤ b * (1 + atomTol) then 0 else ⊤)
  | _, _ => none

/-- `block_max.constraint`, `block_norms.py:185-192`, called without `bound` -/
def maxConstraint (s : Params) (values : Fin (n + 1) → ℝ) : Option (WithTop ℝ) :=
  match s.own.bound with
  | some b => some (if npMax (fun i => 1 * values i) ≤ b * (1 + atomTol) then 0 else ⊤)
  | none => none

/-- assignments to `lagrange` and `bound`; one that raises leaves the object as it was -/
def run (s : Params) (ops : List (AtomState.Op ℝ)) : Params := { s with own := (s.own.run ops).1 }

end Params

namespace Sparse

/-- `_lagrange_prox(arg, l1_weight, l2_weight)`, `sparse_group_block.py:256-260` -/
def lagrangeProx (X : Mat n p) (a w : ℝ) : Mat n p := fun ij =>
  let soft : Mat n p := fun ij => npSign (X ij) * max (|X ij| - a) 0
  let norm := rowNorm soft ij.1
  soft ij * (max (norm - w) 0 / (norm + b2k (norm = 0)))

/-- `sparse_group_block.seminorm`, `sparse_group_block.py:79-87` -/
def seminorm (X : Mat n p) (l1Weight l2Weight lagrange : ℝ) : ℝ :=
  lagrange * (l1Weight * ∑ ij, |X ij| + l2Weight * ∑ i, rowNorm X i)

/-- `sparse_group_block.lagrange_prox`, `sparse_group_block.py:57-63` -/
def prox (X : Mat n p) (l1Weight l2Weight lipschitz lagrange : ℝ) : Mat n p :=
  lagrangeProx X (lagrange * l1Weight / lipschitz) (lagrange * l2Weight / lipschitz)

/-- `sparse_group_block_dual.bound_prox`, `sparse_group_block.py:182-188` -/
def dualBoundProx (X : Mat n p) (l1Weight l2Weight bound : ℝ) : Mat n p := fun ij =>
  X ij - lagrangeProx X (bound * l1Weight) (bound * l2Weight) ij

/-- `sparse_group_block.terms`, `sparse_group_block.py:142-144`: `l1_weight` is used for both parts -/
def terms (X : Mat n p) (l1Weight _l2Weight : ℝ) (i : Fin n) : ℝ :=
  (∑ j, |X (i, j)|) * l1Weight + rowNorm X i * l1Weight

/-- `_inside_set`, `sparse_group_block.py:264-271`; `np.linalg.norm` of a matrix is the Frobenius norm -/
def insideSet (X : Mat n p) (bound l1Weight l2Weight : ℝ) : Prop :=
  ¬ (npNorm (lagrangeProx X (bound * l1Weight) (bound * l2Weight)) > max (npNorm X) 1 * (1 / 10 ^ 10))

open Classical in
/-- `_gauge_function_dual`, `sparse_group_block.py:273-352`: the search of `sparse_group_lasso.py:328-392` with another
membership test and default tolerance -/
def gaugeDual (X : Mat n p) (l1Weight l2Weight tol : ℝ) (maxIter fuel : ℕ) : Option (Gauge.Result ℝ) :=
  Gauge.gaugeDual (fun t => decide (insideSet X t l1Weight l2Weight)) tol maxIter fuel

/-- the value `r` of `_gauge_function_dual` compared with `bound * (1 + tol)`, `sparse_group_block_dual.constraint`,
`sparse_group_block.py:191-198`; `none`: an exception -/
def dualConstraint (r : Gauge.Result ℝ) (bound : ℝ) : Option (WithTop ℝ) :=
  match r with
  | .zero => some (if 0 ≤ bound * (1 + atomTol) then 0 else ⊤)
  | .inf => some ⊤
  | .value m => some (if m ≤ bound * (1 + atomTol) then 0 else ⊤)
  | _ => none

end Sparse

end

end Verif.Model.Block
