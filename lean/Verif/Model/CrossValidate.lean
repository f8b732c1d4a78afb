import Mathlib.Data.Rat.Floor
import Mathlib.Data.Fintype.Perm
import Mathlib.Data.Finset.Sort
import Mathlib.Algebra.Order.Field.Rat

/-!
# Model of the folds built by `cross_validate` (`regreg/paths/cross_validate.py`)

The division and the multiplication are floating point operations: `fl` is the rounding.  `fl = id` is exact
arithmetic, `ieee` is round-to-nearest-even with a 53 bit significand.
-/

namespace Verif.Model.CrossValidate

/-- `2 ^ e` for an integer exponent -/
def pow2 (e : ℤ) : ℚ := if 0 ≤ e then 2 ^ e.toNat else 1 / 2 ^ (-e).toNat

/-- exponent of a positive rational: the `e` with `2^e ≤ x < 2^(e+1)` -/
def expo (x : ℚ) : ℤ :=
  let e : ℤ := (Nat.log2 x.num.toNat : ℤ) - (Nat.log2 x.den : ℤ)
  if x < pow2 e then e - 1 else e

/-- nearest integer, ties to even -/
def roundEven (m : ℚ) : ℤ :=
  let r := m.floor
  let d := m - r
  if d < 1 / 2 then r else if 1 / 2 < d then r + 1 else if r % 2 = 0 then r else r + 1

/-- IEEE-754 double rounding of a nonnegative rational in the normal range -/
def ieee (x : ℚ) : ℚ :=
  if x ≤ 0 then 0
  else
    let u := pow2 (expo x - 52)
    roundEven (x / u) * u

/-- entry `i` of `np.floor(np.arange(nsample) / nsample * cv).astype(int)`, `cross_validate.py:51` (and `141`). -/
def label (fl : ℚ → ℚ) (n cv i : ℕ) : ℤ := (fl (fl ((i : ℚ) / n) * cv)).floor

/-- `groups` after `np.random.shuffle`, `cross_validate.py:52` (and `142`): the labels in an arbitrary order. -/
def groups (fl : ℚ → ℚ) (n cv : ℕ) (shuffle : Equiv.Perm (Fin n)) (i : Fin n) : ℤ := label fl n cv (shuffle i)

/-- `[(groups != g, groups == g) for g in np.unique(groups)]`, `cross_validate.py:53-54` (and `143-144`): (train, test) pairs. -/
def folds (fl : ℚ → ℚ) (n cv : ℕ) (shuffle : Equiv.Perm (Fin n)) : List ((Fin n → Bool) × (Fin n → Bool)) :=
  ((Finset.univ.image (groups fl n cv shuffle)).sort (· ≤ ·)).map fun g =>
    (fun i => decide (groups fl n cv shuffle i ≠ g), fun i => decide (groups fl n cv shuffle i = g))

/-- `mask.sum()` -/
def count {n : ℕ} (mask : Fin n → Bool) : ℕ := (Finset.univ.filter fun i => mask i = true).card

/-- factor applied to the coefficient of the training loss, `cross_validate.py:70`:
`train.shape[0] / train.sum()`; `none`: division by zero (numpy gives inf). -/
def coefFactor {n : ℕ} (train : Fin n → Bool) : Option ℚ :=
  if count train = 0 then none else some ((n : ℚ) / count train)

end Verif.Model.CrossValidate
