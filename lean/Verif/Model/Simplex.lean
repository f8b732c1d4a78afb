import Verif.Model.PiecewiseLinear
import Verif.Model.L2Norm

/-! # Model of `regreg/atoms/simplex.py` -/

namespace Verif.Model

variable {K : Type*} [Field K] [LinearOrder K]

namespace Simplex

/-- `simplex_constraint._basic_prox`, `simplex.py:89-92` (`lipschitz` is ignored). -/
def basicProx {n : ℕ} (arg : Fin n → K) : Option (Fin n → K) :=
  (findUncon 1 (List.ofFn arg)).map fun value => fun i => max (arg i - value) 0

/-- `simplex_constraint.constraint`, `simplex.py:95-101`; `none` if the projection raises (empty array). -/
noncomputable def constraint {n : ℕ} (arg : Fin n → ℝ) : Option (WithTop ℝ) :=
  (basicProx arg).map fun proj =>
    if npNorm (fun i => arg i - proj i) / max (npNorm arg) 1 < atomTol then 0 else ⊤

end Simplex

namespace Maximum

/-- `maximum._basic_prox`, `simplex.py:220-223`. -/
def basicProx {n : ℕ} (arg : Fin n → K) (lipschitz : K) : Option (Fin n → K) :=
  (findUncon (1 / lipschitz) (List.ofFn arg)).map fun value => fun i => arg i - max (arg i - value) 0

/-- the value in `maximum.nonsmooth_objective`, `simplex.py:252`. -/
def value {n : ℕ} (arg : Fin (n + 1) → K) : K := npMax arg

end Maximum

end Verif.Model
