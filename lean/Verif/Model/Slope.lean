import Verif.Model.Isotonic
import Verif.Model.Seminorms
import Mathlib.Data.Fin.Tuple.Sort

/-! # Model of `regreg/atoms/slope.py` -/

namespace Verif.Model.Slope

variable {K : Type*} [Field K] [LinearOrder K]

/-- `np.sort`: the sorted values, in increasing order. -/
def npSort {n : ℕ} (f : Fin n → K) : Fin n → K := fun i => f (Tuple.sort f i)

/-- `np.cumsum`. -/
def npCumsum {n : ℕ} (f : Fin n → K) : Fin n → K := fun k => ∑ j ∈ Finset.univ.filter (fun j => j ≤ k), f j

/-- `slope.seminorm`, `slope.py:64-69`. -/
def seminorm {n : ℕ} (weights x : Fin n → K) (lagrange : K) : K :=
  lagrange * ∑ i : Fin n, |npSort (fun j => |x j|) i.rev * weights i|

/-- `slope.constraint`, `slope.py:72-79`. -/
def constraint {n : ℕ} (weights x : Fin n → K) (bound : K) : WithTop K :=
  if seminorm weights x 1 ≤ bound * (1 + atomTol) then 0 else ⊤

/-- `_basic_proximal_map`, `slope.py:201-222`.  `arg` is the result of `np.argsort(np.fabs(center))` (the order of
ties is numpy's choice), `iso` the isotonic regression routine: `sklearn.isotonic.isotonic_regression` or `pav`.
`none`: the isotonic regression routine did not terminate. -/
def basicProximalMap {n : ℕ} (iso : (Fin n → K) → Option (Fin n → K)) (arg : Equiv.Perm (Fin n))
    (center weights : Fin n → K) : Option (Fin n → K) :=
  (iso fun i => |center (arg i)| - weights i.rev).map fun s =>        -- 212-217
    fun j => max (s (arg.symm j)) 0 * npSign (center j)               -- 217-221

/-- `isotonic_regression_py`, imported at `slope.py:18`, on an array of length `n`. -/
def isoPy {n : ℕ} (fuel : ℕ) (y : Fin n → K) : Option (Fin n → K) :=
  (Isotonic.pav n (fun i => if h : i < n then y ⟨i, h⟩ else 0) fuel).map fun s => fun i => s i

/-- `slope.lagrange_prox`, `slope.py:82-84`. -/
def lagrangeProx {n : ℕ} (iso : (Fin n → K) → Option (Fin n → K)) (arg : Equiv.Perm (Fin n))
    (weights x : Fin n → K) (lipschitz lagrange : K) : Option (Fin n → K) :=
  basicProximalMap iso arg x fun i => weights i * lagrange / lipschitz

/-- `slope_conjugate.seminorm`, `slope.py:167-174`. -/
def conjSeminorm {n : ℕ} (weights x : Fin (n + 1) → K) (lagrange : K) : K :=
  lagrange * npMax fun i => |npCumsum (fun j => npSort (fun j => |x j|) j.rev) i / npCumsum weights i|

/-- `slope_conjugate.constraint`, `slope.py:177-184`. -/
def conjConstraint {n : ℕ} (weights x : Fin (n + 1) → K) (bound : K) : WithTop K :=
  if conjSeminorm weights x 1 ≤ bound * (1 + atomTol) then 0 else ⊤

/-- `slope_conjugate.bound_prox`, `slope.py:191-199`. -/
def conjBoundProx {n : ℕ} (iso : (Fin n → K) → Option (Fin n → K)) (arg : Equiv.Perm (Fin n))
    (weights x : Fin n → K) (bound : K) : Option (Fin n → K) :=
  (basicProximalMap iso arg x fun i => weights i * bound).map fun p => fun i => x i - p i

end Verif.Model.Slope
