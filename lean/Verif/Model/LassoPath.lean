import Mathlib.Algebra.Order.Field.Basic
import Mathlib.Algebra.BigOperators.Fin
import Mathlib.Data.Fintype.BigOperators
import Verif.Model.Seminorms

/-!
# Model of the KKT checks and screening rules of `regreg/paths/lasso.py`

Arrays are functions on a finite index type `ι` (all features, or the features of a subset); boolean arrays are
`ι → Bool`.  Exact arithmetic.
-/

namespace Verif.Model.LassoPath

variable {K : Type*} [Field K] [LinearOrder K] {ι : Type*} [Fintype ι]

/-- `scipy.stats.rankdata(t)` (default method 'average'): half of (number smaller + number not larger + 1). -/
def rankdata (t : ι → K) (i : ι) : K :=
  (((Finset.univ.filter fun j => t j < t i).card : K) + ((Finset.univ.filter fun j => t j ≤ t i).card : K) + 1) / 2

/-- `np.mean(lasso_weights[lasso_weights > 0])`, `lasso.py:370`: nan (`none`) when no weight is positive. -/
def meanPositive (w : ι → K) : Option K :=
  let s := Finset.univ.filter fun i => 0 < w i
  if s.card = 0 then none else some ((∑ i ∈ s, w i) / (s.card : K))

/-- `inactive_terms`, `lasso.py:363-365` -/
def inactiveTerms (w g b : ι → K) (lam : K) (i : ι) : K :=
  if 0 < (if b i = 0 then 1 else 0) * w i then |g i / (lam * w i)| else 0

/-- `inactive_ranks`, `lasso.py:366-367` -/
def inactiveRanks (w g b : ι → K) (lam tol : K) (i : ι) : K :=
  if inactiveTerms w g b lam i ≤ 1 + tol then -1
  else (Fintype.card ι : K) - rankdata (inactiveTerms w g b lam) i

/-- `active_failing`, `lasso.py:355-357` and `369-370`: 0, `ACTIVE = 1` or `UNPENALIZED = 3`.  A comparison with nan
is False. -/
def activeFailing (w g b : ι → K) (lam tol : K) (i : ι) : ℕ :=
  if w i = 0 then
    match meanPositive w with
    | none => 0
    | some m => if tol < |g i / m| then 3 else 0
  else if 0 < (if b i = 0 then 0 else 1) * w i then
    if tol < |g i / (lam * w i) + npSign (b i)| then 1 else 0
  else 0

/-- `_check_KKT`, `lasso.py:340-374`.  The assertion on line 372 is a theorem
(`Verif.Props.C39_assertion`). -/
def checkKKT' (w g b : ι → K) (lam tol : K) : (ι → ℕ) × (ι → K) :=
  (activeFailing w g b lam tol, inactiveRanks w g b lam tol)

/-- `lasso_path.check_KKT`, `lasso.py:117-159`: `value[0] > 0, value[1]`; `tol` keeps its default `1.e-2` there and is
a parameter here. -/
def checkKKT (w g b : ι → K) (lam tol : K) : (ι → Bool) × (ι → K) :=
  let value := checkKKT' w g b lam tol
  (fun i => decide (0 < value.1 i), value.2)

/-- `_strong_set`, `lasso.py:298-311`; a zero weight gives `np.inf > thresh`. -/
def strongSet (w : ι → K) (lamCur lamNew : K) (g : ι → K) (i : ι) : Bool :=
  let thresh := 2 * lamNew - lamCur
  if w i = 0 then true
  else decide (thresh < (if 0 < w i then |g i| / w i else |g i|))

/-- `lasso_path.enet_grad` on all variables, `lasso.py:213-227`. -/
def enetGrad (alpha : K) (enet b : ι → K) (penalized : ι → Bool) (lam : K) (i : ι) : K :=
  let G := (1 - alpha) * b i * enet i
  if penalized i then G * lam else G

/-- diagonal of the quadratic in `_restricted_elastic_net`, `lasso.py:313-325` (before restriction to the candidate
set) -/
def enetParams (alpha : K) (enet w : ι → K) (lam : K) (i : ι) : K :=
  let new := enet i * (1 - alpha)
  if w i ≠ 0 then new * lam else new

end Verif.Model.LassoPath
