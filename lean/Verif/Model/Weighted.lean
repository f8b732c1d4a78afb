import Verif.Model.Seminorms
import Mathlib.Data.List.FinRange

/-!
# Model of `regreg/atoms/weighted_atoms.py`

Weights are `Fin n → WithTop K`: `np.inf` is an allowed weight (it is what `get_conjugate` produces from a
zero weight).  A numpy result that can contain nan is `Fin n → Option K`, `none` meaning nan.
`sorted` is the tie order chosen by `np.argsort`, see `Verif.Model.PiecewiseLinear`.
-/

namespace Verif.Model.Weighted

variable {K : Type*} [Field K] [LinearOrder K]

/-- case distinction on an extended weight: infinite or finite -/
def wcase {β : Type*} (a : WithTop K) (t : β) (f : K → β) : β :=
  match a with
  | ⊤ => t
  | (c : K) => f c

omit [Field K] [LinearOrder K] in
@[simp] lemma wcase_top {β : Type*} (t : β) (f : K → β) : wcase ⊤ t f = t := rfl
omit [Field K] [LinearOrder K] in
@[simp] lemma wcase_coe {β : Type*} (c : K) (t : β) (f : K → β) : wcase (c : WithTop K) t f = f c := rfl

omit [LinearOrder K] in
@[simp] lemma wcase_zero {β : Type*} (t : β) (f : K → β) : wcase (0 : WithTop K) t f = f 0 := rfl
omit [LinearOrder K] in
@[simp] lemma wcase_one {β : Type*} (t : β) (f : K → β) : wcase (1 : WithTop K) t f = f 1 := rfl

/-- `invweights`, `weighted_atoms.py:37-40`: `1/w`, `inf` for a zero weight; `1/inf = 0`. -/
def invweights {n : ℕ} (w : Fin n → WithTop K) (i : Fin n) : WithTop K :=
  wcase (w i) (((0 : K) : WithTop K)) fun a => if a = 0 then ⊤ else ((1 / a : K) : WithTop K)

/-- the compressed arrays `(np.fabs(arg[_keep]), weights[_keep])`, `_keep` = finite and nonzero weight,
`weighted_atoms.py:183-189` and `242-248`. -/
def keep {n : ℕ} (w : Fin n → WithTop K) (arg : Fin n → K) : List (K × K) :=
  (List.finRange n).filterMap fun i =>
    wcase (w i) (none) fun a => if a = 0 then none else some (|arg i|, a)

/-- `l1norm.seminorm(arg, lagrange, check_feasibility)`, `weighted_atoms.py:147-161`. -/
def l1Seminorm {n : ℕ} (w : Fin n → WithTop K) (arg : Fin n → K) (lagrange : K) (check : Bool) : WithTop K :=
  if check ∧ ∃ i, w i = ⊤ ∧ arg i ≠ 0 then ⊤
  else ((lagrange * ∑ i, wcase (w i) 0 fun a => |arg i * a| : K) : WithTop K)

/-- `l1norm.lagrange_prox`, `weighted_atoms.py:175-178`.  For an infinite weight `lagrange * inf` is `inf` for
`lagrange > 0` (result 0), nan for `lagrange = 0`. -/
def l1LagrangeProx {n : ℕ} (w : Fin n → WithTop K) (arg : Fin n → K) (lipschitz lagrange : K) (i : Fin n) :
    Option K :=
  wcase (w i) (if lagrange = 0 then none else some (npSign (arg i) * 0)) fun a => some (npSign (arg i) * max (|arg i| - lagrange * a / lipschitz) 0)

/-- `l1norm.bound_prox`, `weighted_atoms.py:181-192`: `cut = weights * (_lagrange + _isinf)`; for an infinite
weight the cut is `inf` and the value 0.  Outer `none`: the root finder raised. -/
def l1BoundProx {n : ℕ} (w : Fin n → WithTop K) (sorted : List (K × K)) (arg : Fin n → K) (bound : K) :
    Option (Fin n → K) :=
  (findW bound 0 (keep w arg) sorted).map fun lag i =>
    wcase (w i) (npSign (arg i) * 0) fun a => npSign (arg i) * max (|arg i| - a * (lag + 0)) 0

/-- `supnorm.lagrange_prox`, `weighted_atoms.py:239-251`, written with `weights = invweights`:
`resid = sign(arg) * maximum(|arg| - _lagrange * weights, 0)`; for an infinite inverse weight `0 * inf` is nan. -/
def supLagrangeProx {n : ℕ} (w : Fin n → WithTop K) (sorted : List (K × K)) (arg : Fin n → K)
    (lipschitz lagrange : K) : Option (Fin n → Option K) :=
  (findW (lagrange / lipschitz) 0 (keep (invweights w) arg) sorted).map fun lag i =>
    wcase (invweights w i) (if lag = 0 then none else some (arg i - npSign (arg i) * 0)) fun a => some (arg i - npSign (arg i) * max (|arg i| - lag * a) 0)

/-- `supnorm.bound_prox`, `weighted_atoms.py:254-256`: `np.clip(arg, -bound*invweights, bound*invweights)`;
`bound * inf` is nan for `bound = 0`. -/
def supBoundProx {n : ℕ} (w : Fin n → WithTop K) (arg : Fin n → K) (bound : K) (i : Fin n) : Option K :=
  wcase (invweights w i) (if bound = 0 then none else some (arg i)) fun a => some (npClip (arg i) (-bound * a) (bound * a))

/-- `get_conjugate` with zero quadratic: the class is swapped, the weights inverted and the parameter kept,
`weighted_atoms.py:92-116`. -/
def conjugateWeights {n : ℕ} (w : Fin n → WithTop K) : Fin n → WithTop K := invweights w

end Verif.Model.Weighted
