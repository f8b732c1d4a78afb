import Mathlib.Algebra.Order.Field.Basic
import Mathlib.Algebra.BigOperators.Intervals

/-!
# Model of `regreg/atoms/_isotonic.pyx` and `regreg/atoms/_isotonic_py.py`

An array of length `N` is a function `ℕ → K` of which only the entries `0 ≤ i < N` are read or written.
-/

namespace Verif.Model.Isotonic

variable {K : Type*} [Field K] [LinearOrder K]

/-- `while k < n and solution[k] >= solution[k + 1]: k += 1`, `_isotonic.pyx:44-45`; `n` is the last index. -/
def runEnd (n : ℕ) (s : ℕ → K) (k : ℕ) : ℕ :=
  if k < n ∧ s k ≥ s (k + 1) then runEnd n s (k + 1) else k
termination_by n - k

/-- Replace `solution[i:k+1]` by its weighted average, `_isotonic.pyx:50-56`. -/
def pool (w s : ℕ → K) (i k : ℕ) : ℕ → K :=
  let m := (∑ j ∈ Finset.Ico i (k + 1), s j * w j) / (∑ j ∈ Finset.Ico i (k + 1), w j)
  fun j => if i ≤ j ∧ j ≤ k then m else s j

omit [Field K] in
theorem le_runEnd (n : ℕ) (s : ℕ → K) (k : ℕ) : k ≤ runEnd n s k := by
  unfold runEnd
  split_ifs
  · exact le_trans (Nat.le_succ k) (le_runEnd n s (k + 1))
  · exact le_refl _
termination_by n - k

/-- One pass over the array, `_isotonic.pyx:40-58`; returns the array and the flag `pooled`. -/
def onePass (n : ℕ) (w s : ℕ → K) (i : ℕ) (pooled : Bool) : (ℕ → K) × Bool :=
  if i < n then
    let k := runEnd n s i
    if s i ≠ s k then onePass n w (pool w s i k) (k + 1) true
    else onePass n w s (k + 1) pooled
  else (s, pooled)
termination_by n - i
decreasing_by
  all_goals
    have := le_runEnd n s i
    omega

/-- `while 1:` loop, `_isotonic.pyx:38-61`.  `none`: the fuel ran out. -/
def passes (n : ℕ) (w : ℕ → K) : ℕ → (ℕ → K) → Option (ℕ → K)
  | 0, _ => none
  | fuel + 1, s =>
    let r := onePass n w s 0 false
    if r.2 then passes n w fuel r.1 else some r.1

/-- `_isotonic_regression`, `_isotonic.pyx:18-63`, for arrays of length `N`. -/
def isotonicRegression (N : ℕ) (y w : ℕ → K) (fuel : ℕ) : Option (ℕ → K) :=
  if N ≤ 1 then some y                                          -- 31-32
  else passes (N - 1) w fuel y

/-- State of `pav`: values and level sets. -/
structure PavState (K : Type*) where
  v : ℕ → K
  start : ℕ → ℕ
  last : ℕ → ℕ

/-- `viol = np.where(deriv < 0)[0]; viol[0]`, `_isotonic_py.py:24-28`: first `i` with `v[i+1] - v[i] < 0`. -/
def firstViol (N : ℕ) (v : ℕ → K) : Option ℕ :=
  (List.range (N - 1)).find? fun i => decide (v (i + 1) - v i < 0)

/-- Body of the loop of `pav`, `_isotonic_py.py:28-41`. -/
def pavStep (st : PavState K) (i : ℕ) : PavState K :=
  let a := st.start i
  let b := st.last (i + 1)
  let val := (∑ j ∈ Finset.Ico a (b + 1), st.v j) / ((b - a + 1 : ℕ) : K)
  { v := fun j => if a ≤ j ∧ j ≤ b then val else st.v j
    start := fun j => if a ≤ j ∧ j ≤ b then a else st.start j
    last := fun j => if a ≤ j ∧ j ≤ b then b else st.last j }

/-- `while flag:`, `_isotonic_py.py:23-41`.  `none`: the fuel ran out. -/
def pavLoop (N : ℕ) : ℕ → PavState K → Option (ℕ → K)
  | 0, _ => none
  | fuel + 1, st =>
    match firstViol N st.v with
    | none => some st.v
    | some i => pavLoop N fuel (pavStep st i)

/-- `pav`, `_isotonic_py.py:9-42`, on a float array of length `N`. -/
def pav (N : ℕ) (y : ℕ → K) (fuel : ℕ) : Option (ℕ → K) := pavLoop N fuel ⟨y, id, id⟩

end Verif.Model.Isotonic
