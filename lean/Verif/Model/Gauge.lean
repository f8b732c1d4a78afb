import Verif.Model.MixedLasso

/-!
# Model of the gauge bisections of `regreg/atoms/sparse_group_lasso.py`

`gauge_function_dual` (`328-392`) and `_gauge_function_dual_strong` (`413-495`) run the same search; they differ in the
membership test.  `ins t` is the test at scale `t`: `inside_set(atom, point / t)`, resp.
`_inside_set_strong(point, t, ...)`.  Exact arithmetic; `max_iter >= 1` (the code never leaves its first loop for
`max_iter = 0`).
-/

namespace Verif.Model.Gauge

variable {K : Type*} [Field K] [LinearOrder K]

/-- outcome of a gauge function: the numbers `0` and `np.inf` of the early returns, `mid`, an unbound `mid`, or a failed
assertion -/
inductive Result (K : Type*)
  | zero
  | inf
  | value (mid : K)
  | unbound
  | assertion

/-- halving until the test fails, `sparse_group_lasso.py:351-362`; first argument: iterations left, `none`: `return 0` -/
def findLower (ins : K → Bool) : ℕ → K → K → Option (K × K)
  | 0, _, _ => none
  | k + 1, lower, upper => if ins (lower / 2) = false then some (lower / 2, upper) else findLower ins k (lower / 2) (lower / 2)

/-- doubling until the test succeeds, `sparse_group_lasso.py:367-378`; `none`: `return np.inf` -/
def findUpper (ins : K → Bool) : ℕ → K → K → Option (K × K)
  | 0, _, _ => none
  | k + 1, lower, upper => if ins (upper * 2) = true then some (lower, upper * 2) else findUpper ins k (upper * 2) (upper * 2)

/-- the binary search, `sparse_group_lasso.py:384-392`; the outer `none` means out of fuel, the inner one that `mid` was
never assigned -/
def bisect (ins : K → Bool) (tol : K) : ℕ → K → K → Option K → Option (Option K)
  | 0, _, _, _ => none
  | fuel + 1, lower, upper, mid =>
    if tol * (1 / 2) * (upper + lower) < upper - lower then
      let m := 1 / 2 * (upper + lower)
      if ins m then bisect ins tol fuel lower m (some m) else bisect ins tol fuel m upper (some m)
    else some mid

/-- assertions and binary search, `sparse_group_lasso.py:380-392` -/
def finish (ins : K → Bool) (tol : K) (fuel : ℕ) (lower upper : K) : Option (Result K) :=
  if ins lower = true ∨ ins upper = false then some .assertion
  else (bisect ins tol fuel lower upper none).map fun m => match m with | none => .unbound | some m => .value m

/-- `gauge_function_dual`, `sparse_group_lasso.py:328-392`; `none`: the binary search is still running after `fuel`
iterations -/
def gaugeDual (ins : K → Bool) (tol : K) (maxIter fuel : ℕ) : Option (Result K) :=
  if ins 1 = true then
    match findLower ins maxIter 1 1 with
    | none => some .zero
    | some (l, u) => finish ins tol fuel l u
  else
    match findUpper ins maxIter 1 1 with
    | none => some .inf
    | some (l, u) => finish ins tol fuel l u

open Classical in
/-- `gauge_function_dual(atom, point)` for a `sparse_group_lasso` atom -/
noncomputable def sparseGroup {p q : ℕ} (grp : Fin p → Fin q) (a : Fin p → ℝ) (w : Fin q → ℝ) (x : Fin p → ℝ) (tol : ℝ)
    (maxIter fuel : ℕ) : Option (Result ℝ) :=
  gaugeDual (fun t => decide (SparseGroup.insideSet grp a w fun i => x i / t)) tol maxIter fuel

/-- `_inside_set_strong`, `sparse_group_lasso.py:403-412` -/
noncomputable def insideStrong {ι : Type*} [Fintype ι] (point : ι → ℝ) (bound : ℝ) (lasso : ι → ℝ) (w tol : ℝ) : Prop :=
  npNorm (fun i => max (|point i| - bound * lasso i) 0) ≤ bound * (w + tol)

open Classical in
/-- first component of `_gauge_function_dual_strong`, `sparse_group_lasso.py:413-490`; the two subgradients of the result are not modelled -/
noncomputable def strong {ι : Type*} [Fintype ι] (point lasso : ι → ℝ) (w insideTol tol : ℝ) (maxIter fuel : ℕ) :
    Option (Result ℝ) :=
  gaugeDual (fun t => decide (insideStrong point t lasso w insideTol)) tol maxIter fuel

end Verif.Model.Gauge
