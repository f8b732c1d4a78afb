import Verif.Model.MixedLasso
import Verif.Model.GroupPath

/-!
# Model of the screening rule and the optimality check of `mixed_lasso`

`strong_set`, `check_KKT` (`regreg/atoms/mixed_lasso.py:406-453`) with `strong_set_mixed_lasso`,
`check_KKT_mixed_lasso`, `seminorm_mixed_lasso_dual` (`regreg/atoms/mixed_lasso_cython.pyx:138-318`) and the function
`strong_set` of `regreg/atoms/group_lasso.py:751-767`.  Exact real arithmetic; `np.int` is read as the integer type it
was (it no longer exists in recent versions of numpy).  The function `check_KKT` of `group_lasso.py:769-801` is not
modelled: it raises `NameError` at its first statement (`solutionn`).
-/

namespace Verif.Model.MixedKKT
open Verif.Spec Verif.Model

variable {p q : ℕ}

/-- `strong_set`, `mixed_lasso.py:406-430`, with `strong_set_mixed_lasso`, `mixed_lasso_cython.pyx:138-171`.  `true`
means that the coordinate is kept.  For a group the weight multiplies only the first term of the threshold (line 164);
`value` stays 0 at unpenalised coordinates, so these are kept. -/
noncomputable def strongSet (κ : Fin p → Kind q) (w : Fin q → ℝ) (x : Fin p → ℝ) (lamCur lamNew slope : ℝ) (i : Fin p) :
    Bool :=
  !(match κ i with
    | .unpenalized => false
    | .l1 => decide (|x i| < (slope + 1) * lamNew - slope * lamCur)
    | .positivePart => decide (-x i < (slope + 1) * lamNew - slope * lamCur)
    | .nonnegative => decide (-x i < -|lamNew - lamCur| * slope)
    | .group j => decide (normsCython κ x j < w j * (slope + 1) * lamNew - slope * lamCur))

/-- `np.fabs(-g / lagrange - target) >= tol`, `mixed_lasso_cython.pyx:205, 227`.  For `lagrange = 0` the quotient is
`±inf` when `g ≠ 0`, which passes the comparison, and nan when `g = 0`, which does not. -/
noncomputable def slack (g lam target tol : ℝ) : Bool :=
  if lam = 0 then decide (g ≠ 0) else decide (|-g / lam - target| ≥ tol)

/-- one Boolean added to a float array -/
def bit (b : Bool) : ℕ := if b then 1 else 0

/-- the array `failing` of `check_KKT_mixed_lasso`, `mixed_lasso_cython.pyx:173-273`.  `snorms[j]` is a sum of squares,
of which only `!= 0` is used (lines 258-270). -/
noncomputable def failing (κ : Fin p → Kind q) (w : Fin q → ℝ) (grad soln : Fin p → ℝ) (lam tol nntol : ℝ) (i : Fin p) :
    ℕ :=
  match κ i with
  | .unpenalized => 0
  | .l1 => bit (decide (|grad i| > lam * (1 + tol))) +
      (if soln i ≠ 0 then bit (slack (grad i) lam (npSign (soln i)) tol) else 0)
  | .positivePart => bit (decide (-grad i > lam * (1 + tol))) +
      (if soln i ≠ 0 then bit (slack (grad i) lam 1 tol) else 0)
  | .nonnegative => bit (decide (-grad i > lam * tol)) +
      (if soln i ≠ 0 then bit (decide (-grad i < -nntol)) else 0)
  | .group j => bit (decide (normsCython κ grad j > w j * lam * (1 + tol))) +
      (if (∑ k, if κ k = .group j then soln k ^ 2 else 0) ≠ 0 then
        bit (decide (normsCython κ grad j < w j * lam * (1 - tol))) else 0)

/-- `check_KKT`, `mixed_lasso.py:432-453`: `tol` is forwarded, `nntol` keeps its default `1.e-2`
(`mixed_lasso_cython.pyx:183`). -/
noncomputable def checkKKT (κ : Fin p → Kind q) (w : Fin q → ℝ) (grad soln : Fin p → ℝ) (lam tol : ℝ) (i : Fin p) : Bool :=
  decide (failing κ w grad soln lam tol (1 / 100) i > 0)

/-- `seminorm_mixed_lasso_dual`, `mixed_lasso_cython.pyx:275-318`, with the default `check_feasibility = 0`; `⊥` is
`-inf`. -/
noncomputable def dualSeminorm (κ : Fin p → Kind q) (w : Fin q → ℝ) (x : Fin p → ℝ) : WithBot ℝ :=
  let v1 := (List.finRange p).foldl (fun v i => if κ i = .l1 then max v ((|x i| : ℝ) : WithBot ℝ) else v) ⊥
  let v2 := (List.finRange p).foldl
    (fun v i => if κ i = .positivePart then max v ((max (x i) 0 : ℝ) : WithBot ℝ) else v) v1
  (List.finRange q).foldl
    (fun v j => if w j > 0 then max v ((normsCython κ x j / w j : ℝ) : WithBot ℝ) else v) v2

/-- membership of group `g` in the result of the function `strong_set` of `atoms/group_lasso.py:751-767` -/
noncomputable def groupStrongSet (grp : Fin p → Fin q) (w : Fin q → ℝ) (lamCur lamNew : ℝ) (grad : Fin p → ℝ)
    (slope : ℝ) (g : Fin q) : Bool :=
  decide (GroupPath.dualTerm grp w grad g ≥ (((slope + 1) * lamNew - slope * lamCur : ℝ) : WithTop ℝ))

end Verif.Model.MixedKKT
