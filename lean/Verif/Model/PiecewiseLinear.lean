import Mathlib.Algebra.Order.Field.Basic
import Mathlib.Data.List.Sort
import Mathlib.Algebra.BigOperators.Group.List.Basic

/-!
# Model of `regreg/atoms/piecewise_linear.pyx`

Floats are elements of a linearly ordered field `K`.  The result is an `Option`: `none` stands for a Python
exception (`IndexError` on an empty array, `ZeroDivisionError` of a Cython C-double division).
`np.argsort` followed by indexing from the top is represented by the list of knots in descending order.
-/

namespace Verif.Model

variable {K : Type*} [Field K] [LinearOrder K]

/-- A Cython division of C doubles: raises `ZeroDivisionError` for a zero denominator
(the `.pyx` files do not set `cdivision`). -/
def cdiv (a b : K) : Option K := if b = 0 then none else some (a / b)

/-- `piecewise_linear.pyx:125-144` (the `for j in range(q-1)` loop of
`find_solution_piecewise_linear_c` and the code after it).
The last argument lists `knots[order[q-2]], ..., knots[order[0]]`, i.e. the knots still to be visited. -/
def plLoop (b : K) : (slope curV curX : K) → List K → Option K
  | slope, curV, curX, [] =>
    -- lines 138-143: the loop ran to completion without `stop`
    let slope' := slope - 1
    let intercept := curV - curX * slope'
    cdiv (b - intercept) slope'
  | slope, curV, curX, nextX :: rest =>
    -- lines 126-134
    let slope' := slope - 1
    let nextV := curV + slope' * (nextX - curX)
    if nextV > b then
      let intercept := curV - curX * slope'
      cdiv (b - intercept) slope'
    else
      plLoop b slope' nextV nextX rest

/-- knots in descending order (`np.argsort` read from the top), `piecewise_linear.pyx:113,116,127`. -/
def descSort (l : List K) : List K := l.insertionSort (fun a b => b ≤ a)

/-- `find_solution_piecewise_linear_c`, `piecewise_linear.pyx:80-144`. -/
def findC (b slope : K) (norms : List K) : Option K :=
  if norms.sum < b then some 0                                   -- 109-110
  else match descSort norms with
    | [] => none                                                 -- 116: `order[q-1]` raises IndexError
    | curX :: rest => plLoop b (-slope) (-slope * curX) curX rest   -- 115-144

/-- `find_solution_piecewise_linear_uncon`, `piecewise_linear.pyx:146-195`: no early return and slope 0. -/
def findUncon (b : K) (values : List K) : Option K :=
  match descSort values with
  | [] => none                                                   -- 167
  | curX :: rest => plLoop b 0 (0 * curX) curX rest              -- 166-195 (loop text identical to 125-144)

/-- `piecewise_linear.pyx:59-78`: loop of the weighted version.  The list holds the remaining
`(knot, weight)` pairs in the order visited, `curW` is the weight of the current knot. -/
def wplLoop (b : K) : (slope curV curX curW : K) → List (K × K) → Option K
  | slope, curV, curX, curW, [] =>
    let slope' := slope - curW ^ 2
    let intercept := curV - curX * slope'
    cdiv (b - intercept) slope'
  | slope, curV, curX, curW, (nextX, nextW) :: rest =>
    let slope' := slope - curW ^ 2
    let nextV := curV + slope' * (nextX - curX)
    if nextV > b then
      let intercept := curV - curX * slope'
      cdiv (b - intercept) slope'
    else
      wplLoop b slope' nextV nextX nextW rest

/-- `piecewise_linear.pyx:46`: `knots = norms / np.maximum(weights, 1e-20)`, paired with the weights. -/
def wKnots (nw : List (K × K)) : List (K × K) :=
  nw.map fun p => (p.1 / max p.2 (1 / 10 ^ 20), p.2)

/-- `find_solution_piecewise_linear`, `piecewise_linear.pyx:11-78`.  `nw` is the list of
`(norms[i], weights[i])`.  `sorted` is the list of `(knot, weight)` pairs in the order produced by
`np.argsort(knots)` read from the top; ties may come in any order, so it is a parameter that the theorems
constrain only to be a descending rearrangement of `wKnots nw`. -/
def findW (b slope : K) (nw : List (K × K)) (sorted : List (K × K)) : Option K :=
  if (nw.map fun p => p.2 * p.1).sum < b then some 0             -- 43-44
  else match sorted with
    | [] => none                                                 -- 50
    | (curX, curW) :: rest => wplLoop b (-slope) (-slope * curX) curX curW rest  -- 49-78

/-- `sorted` is a possible outcome of `order = np.argsort(knots)` read from the top
(`piecewise_linear.pyx:46-50, 61-62`): a descending rearrangement, ties in any order. -/
def IsDescArgsort (nw sorted : List (K × K)) : Prop :=
  sorted.Perm (wKnots nw) ∧ sorted.Pairwise (fun a b => b.1 ≤ a.1)

end Verif.Model
