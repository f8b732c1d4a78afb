import Verif.Model.PiecewiseLinear
import Mathlib.Data.List.OfFn

/-! # Model of `regreg/atoms/projl1_cython.pyx` -/

namespace Verif.Model

variable {K : Type*} [Field K] [LinearOrder K]

/-- `soft_threshold`, one iteration of the loop, `projl1_cython.pyx:36-47`. -/
def softThr (xi lagrange : K) : K :=
  if xi > 0 then
    if xi < lagrange then 0 else xi - lagrange
  else
    if xi > -lagrange then 0 else xi + lagrange

/-- `projl1`, `projl1_cython.pyx:17-27`.  `find_solution_piecewise_linear_c` never returns `np.inf`,
so the test `cut < np.inf` always succeeds. -/
def projl1 {n : ℕ} (x : Fin n → K) (bound : K) : Option (Fin n → K) :=
  (findC bound 0 (List.ofFn fun i => |x i|)).map fun cut => fun i => softThr (x i) cut

/-- `projl1_epigraph`, `projl1_cython.pyx:51-71`; `center` is split in `x = center[:-1]`, `norm = center[-1]`.
The initial `result` is all zeros (line 64). -/
def projl1Epigraph {n : ℕ} (x : Fin n → K) (norm : K) : Option ((Fin n → K) × K) :=
  (findC norm 1 (List.ofFn fun i => |x i|)).map fun cut =>
    if norm + cut ≥ 0 then (fun i => softThr (x i) cut, norm + cut)
    else (fun _ => 0, 0)

end Verif.Model
