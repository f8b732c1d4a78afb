import Verif.Model.Multiscale
import Mathlib.Analysis.SpecialFunctions.Log.Basic
import Mathlib.Analysis.Real.Sqrt
import Mathlib.Data.List.Sort
import Mathlib.Algebra.Order.Floor.Semiring

/-!
# Model of the change point statistic, `regreg/affine/multiscale.py:173-254`

Numbers are real.  The signal has the length `p` of the transform.
-/

namespace Verif.Model
namespace Multiscale

/-- `M.sizes[k]`, line 56 -/
def size (M : Obj ℝ) (k : ℕ) : ℝ := ((M.slices.getD k (0, 0)).2 : ℝ) - (M.slices.getD k (0, 0)).1

/-- `np.std(Z)` -/
noncomputable def std (p : ℕ) (Z : ℕ → ℝ) : ℝ := Real.sqrt ((∑ t ∈ Finset.range p, center p Z t ^ 2) / p)

/-- `np.argmax` of an array of length `n` without nan: the first position of the largest entry -/
noncomputable def argmax (f : ℕ → ℝ) (n : ℕ) : ℕ :=
  open Classical in (List.range n).foldl (fun b k => if f b < f k then k else b) 0

/-- What `SMUCE_stat` does. -/
inductive SmuceOut where
  /-- `(T[idx], M.slices[idx])` -/
  | ok (value : ℝ) (slice : ℕ × ℕ)
  /-- the same with a nan value -/
  | nan (slice : ℕ × ℕ)
  /-- `UnboundLocalError`: `sigma_hat` is only assigned when `sigma is None` -/
  | unbound
  /-- `ValueError` of `np.argmax` of an empty array -/
  | empty

/-- `SMUCE_stat`, lines 188-220: the result and the transform afterwards (line 214 overwrites its scaling and `old` is never
used).  With `np.std(Z) == 0` every entry of `T` is `0/0 - ...`, nan, and `np.argmax` returns the position of the first nan. -/
noncomputable def smuce (M : Obj ℝ) (Z : ℕ → ℝ) (sigma : Option ℝ) : SmuceOut × Obj ℝ :=
  let M' : Obj ℝ := { M with scaling := some fun k => Real.sqrt (size M k) }                        -- 214
  let Z0 := center M.p Z                                                                            -- 215
  match sigma with
  | some _ => (.unbound, M')                                                                        -- 216-218
  | none =>
    open Classical in
    let sd := std M.p Z                                                                             -- 217
    let T : ℕ → ℝ := fun k => |lin M' Z0 k / sd| - Real.sqrt (2 * Real.log (M.p / size M k))        -- 218
    if M.slices.length = 0 then (.empty, M')
    else if sd = 0 then (.nan (M.slices.getD 0 (0, 0)), M')
    else
      let idx := argmax T M.slices.length                                                           -- 219
      (.ok (T idx) (M.slices.getD idx (0, 0)), M')                                                  -- 220

/-- `np.percentile(V, 100*quantile)` (linear interpolation); `none`: `V` is empty or the quantile is not in `[0, 1]`. -/
noncomputable def percentile (V : List ℝ) (quantile : ℝ) : Option ℝ :=
  open Classical in
  if V = [] ∨ quantile < 0 ∨ 1 < quantile then none
  else
    let s := V.insertionSort (· ≤ ·)
    let h := ((V.length : ℝ) - 1) * quantile
    let i := ⌊h⌋₊
    some (s.getD i 0 + (h - i) * (s.getD (min (i + 1) (V.length - 1)) 0 - s.getD i 0))

/-- the loop of `choose_tuning_parameter`, lines 249-253; the draws are arbitrary; `none`: a nan or an exception -/
noncomputable def smuceDraws (M : Obj ℝ) : List (ℕ → ℝ) → Option (List ℝ) × Obj ℝ
  | [] => (some [], M)
  | Z :: draws =>
    match smuce M Z none with
    | (.ok v _, M') =>
      match smuceDraws M' draws with
      | (some V, M'') => (some (v :: V), M'')
      | (none, M'') => (none, M'')
    | (_, M') => (none, M')

/-- `choose_tuning_parameter`, lines 222-254, on given draws: the argument `sigma` is not used. -/
noncomputable def chooseTuning (M : Obj ℝ) (draws : List (ℕ → ℝ)) (quantile : ℝ) (sigma : Option ℝ) : Option ℝ × Obj ℝ :=
  match smuceDraws M draws with
  | (some V, M') => (percentile V quantile, M')
  | (none, M') => (none, M')

/-- `form_matrix(slices)`, lines 173-186: entry `(l, k)` of the matrix and `length[k]` -/
noncomputable def formMatrix (p : ℕ) (slices : List (ℕ × ℕ)) : (ℕ → ℕ → ℝ) × (ℕ → ℝ) :=
  let XE : ℕ → ℕ → ℝ := fun l k =>
    if (slices.getD k (0, 0)).1 ≤ l ∧ l < (slices.getD k (0, 0)).2 then 1 else 0                     -- 180-182
  let len : ℕ → ℝ := fun k => ((slices.getD k (0, 0)).2 : ℝ) - (slices.getD k (0, 0)).1              -- 183
  (fun l k => (XE l k - (∑ t ∈ Finset.range p, XE t k) / p) / Real.sqrt (len k), len)                -- 185-186

end Multiscale
end Verif.Model
