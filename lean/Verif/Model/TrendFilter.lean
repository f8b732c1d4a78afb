import Verif.Model.Slope
import Mathlib.Algebra.BigOperators.Intervals

/-!
# Model of `regreg/affine/fused_lasso.py`

Arrays of length `n` are functions on `ℕ` read at positions `< n`; matrices are functions `row → column → entry`.
-/

namespace Verif.Model
namespace TrendFilter

variable {K : Type*} [Field K] [LinearOrder K]

/-- `inv_steps[steps != 0] = 1. / steps[steps != 0]` on zeros, lines 44-45 -/
def invStep (s : K) : K := if s ≠ 0 then 1 / s else 0

/-- row `i` of `np.dot(np.diag(inv_steps), (-np.identity(n-j+1) + np.diag(np.ones(n-j), k=1))[:-1])`, lines 42-46 -/
def Dstep (X : ℕ → K) (j i c : ℕ) : K :=
  invStep (X (i + j) - X i) * ((if c = i then -1 else 0) + (if c = i + 1 then 1 else 0))

/-- `Dfinal` after `j` passes through the loop, lines 40-47; `n = X.shape[0]` -/
def diffMat (X : ℕ → K) (n : ℕ) : ℕ → ℕ → ℕ → K
  | 0, i, l => if i = l then 1 else 0
  | j + 1, i, l => ∑ c ∈ Finset.range (n - j), Dstep X (j + 1) i c * diffMat X n j c l

/-- an array as function on `ℕ` -/
def arr {n : ℕ} (x : Fin n → K) : ℕ → K := fun i => if h : i < n then x ⟨i, h⟩ else 0

/-- `difference_transform(X, order, sorted)`, lines 7-50: `n - order` rows, `n` columns -/
def differenceTransform {n : ℕ} (X : Fin n → K) (order : ℕ) (sorted : Bool) : ℕ → ℕ → K :=
  diffMat (arr (if sorted then X else Slope.npSort X)) n order

/-- `trend_filter(knots, order).linear_map`, lines 52-70.  The knots are passed on unsorted with `sorted=True`
(lines 59-60), so no sorting takes place. -/
def trendFilterLin {n : ℕ} (knots : Fin n → K) (order : ℕ) (x : ℕ → K) : ℕ → K := fun i =>
  ∑ l ∈ Finset.range n, differenceTransform knots order true i l * x l

/-- `trend_filter(knots, order).adjoint_map`, lines 75-76 -/
def trendFilterAdj {n : ℕ} (knots : Fin n → K) (order : ℕ) (u : ℕ → K) : ℕ → K := fun l =>
  ∑ i ∈ Finset.range (n - order), differenceTransform knots order true i l * u i

/-- `steps` of `trend_filter_inverse`: differences of the sorted knots, lines 83-84 -/
def steps {n : ℕ} (knots : Fin n → K) : ℕ → K := fun i => arr (Slope.npSort knots) (i + 1) - arr (Slope.npSort knots) i

/-- `v` of lines 101-102 before centering: `v[0] = 0`, `v[1:] = np.cumsum(x * steps)` -/
def cumSteps {n : ℕ} (knots : Fin n → K) (x : ℕ → K) : ℕ → K := fun i => ∑ l ∈ Finset.range i, x l * steps knots l

/-- `trend_filter_inverse(knots).linear_map` of a 1-dimensional array, lines 99-104; input length `n-1`, output `n` -/
def inverseLin {n : ℕ} (knots : Fin n → K) (x : ℕ → K) : ℕ → K := fun i =>
  cumSteps knots x i - (∑ l ∈ Finset.range n, cumSteps knots x l) / n

/-- `trend_filter_inverse(knots).adjoint_map` of a 1-dimensional array, lines 115-119: the reversed cumulative sum
`np.cumsum(x[1:][::-1])[::-1]` is the sum over the positions from `i + 1` on. -/
def inverseAdj {n : ℕ} (knots : Fin n → K) (u : ℕ → K) : ℕ → K := fun i =>
  (∑ l ∈ Finset.Ico (i + 1) n, (u l - (∑ t ∈ Finset.range n, u t) / n)) * steps knots i

/-- `linear_map` of a 2-dimensional array (`rows × q`), lines 105-110: `axis=0` -/
def inverseLin2 {n : ℕ} (knots : Fin n → K) (x : ℕ → ℕ → K) : ℕ → ℕ → K := fun i c =>
  inverseLin knots (fun l => x l c) i

/-- `adjoint_map` of a 2-dimensional array, lines 120-124: `np.cumsum(x[1:][::-1], 1)[::-1]` accumulates along axis 1,
the columns, not along the reversed rows. -/
def inverseAdj2 {n : ℕ} (knots : Fin n → K) (u : ℕ → ℕ → K) : ℕ → ℕ → K := fun i c =>
  (∑ c' ∈ Finset.range (c + 1), (u (i + 1) c' - (∑ t ∈ Finset.range n, u t c') / n)) * steps knots i

end TrendFilter
end Verif.Model
