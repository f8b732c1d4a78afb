import Mathlib.Algebra.BigOperators.Intervals
import Mathlib.Algebra.Order.Ring.Int
import Mathlib.Algebra.Order.Field.Basic

/-!
# Model of `regreg/affine/image2d.py`

Matrices are functions `row → column → entry`; the columns are the vertices `(a, b)` of the `m × n` lattice in C order
(the strides of a boolean array of shape `(m, n)` are `(n, 1)`), `a * n + b`.
-/

namespace Verif.Model
namespace Image2d

/-- `sparse.csr_matrix((val * np.ones(cnt), [np.arange(cnt) + idx, np.dot(vertices, strides) + np.dot(shift, strides)]))`
where `vertices = np.indices((cnt/width, width)).reshape((2,-1)).T + base` -/
def coo (n cnt idx width : ℕ) (base shift : ℕ × ℕ) (val : ℤ) (r c : ℕ) : ℤ :=
  ∑ t ∈ Finset.range cnt,
    if t + idx = r ∧ ((t / width + base.1) * n + (t % width + base.2)) + (shift.1 * n + shift.2) = c then val else 0

/-- `formD(m, n)`, lines 101-209; `2*(m*n-1)` rows, `m*n` columns -/
def formD (m n : ℕ) (r c : ℕ) : ℤ :=
  let A := (m - 1) * (n - 1)
  let D1 := coo n A 0 (n - 1) (0, 0) (0, 0) 1 r c                                        -- 144-152
  let D2 := coo n A 0 (n - 1) (0, 0) (1, 0) (-1) r c
  let idx := A
  let D5 := coo n (n - 1) idx (n - 1) (m - 1, 0) (0, 0) 1 r c                            -- 157-168
  let D6 := coo n (n - 1) idx (n - 1) (m - 1, 0) (0, 1) (-1) r c
  let idx := idx + (n - 1)
  let D7 := coo n (m - 1) idx 1 (0, n - 1) (0, 0) 1 r c                                  -- 173-184
  let D8 := coo n (m - 1) idx 1 (0, n - 1) (1, 0) (-1) r c
  let idx := idx + (m - 1)
  let D3 := coo n A idx (n - 1) (0, 0) (0, 0) 1 r c                                      -- 190-205
  let D4 := coo n A idx (n - 1) (0, 0) (0, 1) (-1) r c
  D1 + D2 + D3 + D4 + D5 + D6 + D7 + D8

/-- number of rows of `formD`, line 140 -/
def formDRows (m n : ℕ) : ℕ := 2 * (m * n - 1)

/-- `formD_smaller(m, n)`, lines 5-98 -/
def formDSmaller (m n : ℕ) (r c : ℕ) : ℤ :=
  let A := (m - 1) * (n - 1)
  let D1 := coo n A 0 (n - 1) (0, 0) (0, 0) 1 r c                                        -- 47-54
  let D2 := coo n A 0 (n - 1) (0, 0) (1, 0) (-1) r c
  let idx := A
  let D3 := coo n A idx (n - 1) (0, 0) (0, 0) 1 r c                                      -- 57-63
  let D4 := coo n A idx (n - 1) (0, 0) (0, 1) (-1) r c
  let idx := idx + A
  let D5 := coo n (n - 1) idx (n - 1) (m - 1, 0) (0, 0) 1 r c                            -- 70-80
  let D6 := coo n (n - 1) idx (n - 1) (m - 1, 0) (0, 1) (-1) r c
  let idx := idx + (n - 1)
  let D7 := coo n (m - 1) idx 1 (0, n - 1) (0, 0) 1 r c                                  -- 85-96
  let D8 := coo n (m - 1) idx 1 (0, n - 1) (1, 0) (-1) r c
  D1 + D2 + D3 + D4 + D5 + D6 + D7 + D8

/-- number of rows of `formD_smaller` -/
def formDSmallerRows (m n : ℕ) : ℕ := 2 * (m - 1) * (n - 1) + (m - 1) + (n - 1)

variable {K : Type*} [Field K]

/-- `image2d_differences((m,n)).linear_map`, lines 238-239: `v.reshape((2, m*n-1)).T`; entry `(i, s)` -/
def diffLin (m n : ℕ) (x : ℕ → K) (i s : ℕ) : K :=
  ∑ c ∈ Finset.range (m * n), (formD m n (s * (m * n - 1) + i) c : K) * x c

/-- `adjoint_map`, lines 283-284: `D.T * u.T.reshape(-1)`; `u.T.reshape(-1)` has entry `u[r % (mn-1), r / (mn-1)]` at
`r` -/
def diffAdj (m n : ℕ) (u : ℕ → ℕ → K) (c : ℕ) : K :=
  ∑ r ∈ Finset.range (formDRows m n), (formD m n r c : K) * u (r % (m * n - 1)) (r / (m * n - 1))

end Image2d
end Verif.Model
