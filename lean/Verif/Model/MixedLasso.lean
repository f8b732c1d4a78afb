import Verif.Model.PiecewiseLinear
import Verif.Model.L2Norm
import Verif.Spec.Groups
import Mathlib.Data.List.OfFn

/-!
# Model of `regreg/atoms/mixed_lasso_cython.pyx`, `group_lasso.py`, `mixed_lasso.py`, `sparse_group_lasso.py`

The penalty structure is a function `κ : Fin p → Kind q`: the index arrays `l1_penalty`, `unpenalized`,
`positive_part`, `nonnegative` list the coordinates of each kind and `groups[i] = j ≥ 0` for group
coordinates (`mixed_lasso.py:61-74`).  For `group_lasso` every coordinate is a group coordinate and the four
index arrays are empty (`group_lasso.py:58-81`).  The buffers `norms`, `factors`, `projection` are zeroed by
each caller, so they are local here (see C53 for the sharing of the returned buffer).
-/

namespace Verif.Model
open Verif.Spec

/-- the accumulation loops `norms[groups[i]] += x[i]**2; norms[j] = np.sqrt(norms[j])`,
`mixed_lasso_cython.pyx:35-40` (repeated at 75-80, 112-120, 290-305, 339-344, 403-408). -/
noncomputable def normsCython {p q : ℕ} (κ : Fin p → Kind q) (x : Fin p → ℝ) (j : Fin q) : ℝ :=
  Real.sqrt (((List.finRange p).filter fun i => κ i = .group j).foldl (fun s i => s + x i ^ 2) 0)

/-- `factors[j]`, `mixed_lasso_cython.pyx:41-44, 81-84, 364-367`. -/
noncomputable def factor (b w n : ℝ) : ℝ := if n > 0 then min 1 (b * w / n) else 1

/-- the array `projection`, `mixed_lasso_cython.pyx:46-56` (text repeated at 86-93), at level `b`.
`none` is nan: `x * minimum(1, b/|x|)` with `x = 0` and `b ≤ 0`; for `b > 0`, `b/0 = inf`. -/
noncomputable def mixedProjection {p q : ℕ} (κ : Fin p → Kind q) (w : Fin q → ℝ) (b : ℝ) (x : Fin p → ℝ)
    (i : Fin p) : Option ℝ :=
  match κ i with
  | .group j => some (x i * factor b (w j) (normsCython κ x j))
  | .l1 => if x i = 0 then (if 0 < b then some (x i * 1) else none) else some (x i * min 1 (b / |x i|))
  | .unpenalized => some 0
  | .positivePart => some (min b (x i))
  | .nonnegative => some (min (x i) 0)

/-- `mixed_lasso_lagrange_prox`, `mixed_lasso_cython.pyx:16-58`. -/
noncomputable def mixedLagrangeProx {p q : ℕ} (κ : Fin p → Kind q) (w : Fin q → ℝ) (x : Fin p → ℝ)
    (lipschitz lagrange : ℝ) (i : Fin p) : Option ℝ :=
  (mixedProjection κ w (lagrange / lipschitz) x i).map fun v => x i - v

/-- `mixed_lasso_dual_bound_prox`, `mixed_lasso_cython.pyx:60-95`. -/
noncomputable def mixedDualBoundProx {p q : ℕ} (κ : Fin p → Kind q) (w : Fin q → ℝ) (x : Fin p → ℝ)
    (bound : ℝ) (i : Fin p) : Option ℝ :=
  mixedProjection κ w bound x i

/-- `seminorm_mixed_lasso`, `mixed_lasso_cython.pyx:97-135`, with finite weights. -/
noncomputable def mixedSeminorm {p q : ℕ} (κ : Fin p → Kind q) (w : Fin q → ℝ) (x : Fin p → ℝ)
    (checkFeasibility : Bool) (nntol : ℝ) : WithTop ℝ :=
  let value := (∑ i, if κ i = .l1 then |x i| else 0) + (∑ i, if κ i = .positivePart then max (x i) 0 else 0) +
    ∑ j, w j * normsCython κ x j
  if checkFeasibility ∧ ((∃ i, κ i = .positivePart ∧ x i < 1 / 10 ^ 5) ∨ (∃ i, κ i = .nonnegative ∧ x i < nntol))
    then ⊤ else value

namespace GroupLasso

variable {p q : ℕ} (grp : Fin p → Fin q) (w : Fin q → ℝ)

/-- `_group_array`, with the four reserved index arrays empty, `group_lasso.py:65-78`. -/
def kind (i : Fin p) : Kind q := .group (grp i)

/-- `group_lasso.seminorm`, `group_lasso.py:191-209`, finite weights, `check_feasibility` not forwarded. -/
noncomputable def seminorm (x : Fin p → ℝ) (lagrange : ℝ) : ℝ :=
  lagrange * ∑ j, w j * normsCython (kind grp) x j

/-- `group_lasso.constraint`, `group_lasso.py:258-264` (no tolerance). -/
noncomputable def constraint (x : Fin p → ℝ) (bound : ℝ) : WithTop ℝ :=
  if seminorm grp w x 1 ≤ bound then 0 else ⊤

/-- `group_lasso.lagrange_prox`, `group_lasso.py:212-233`.  All coordinates are group coordinates, so no
nan can occur. -/
noncomputable def lagrangeProx (x : Fin p → ℝ) (lipschitz lagrange : ℝ) (i : Fin p) : ℝ :=
  x i - x i * factor (lagrange / lipschitz) (w (grp i)) (normsCython (kind grp) x (grp i))

/-- the arrays `fnorms`, `fweights` handed to the root finder, `mixed_lasso_cython.pyx:352-356`. -/
noncomputable def knotInput (x : Fin p → ℝ) : List (ℝ × ℝ) :=
  List.ofFn fun j : Fin q => (normsCython (kind grp) x j, w j)

/-- `group_lasso.bound_prox`, `group_lasso.py:236-255` with `mixed_lasso_bound_prox`,
`mixed_lasso_cython.pyx:320-380`; `l1term` and `ppterm` are empty.  `none` = exception of the root finder.
`cut < inf` always holds for the values the root finder returns. -/
noncomputable def boundProx (sorted : List (ℝ × ℝ)) (x : Fin p → ℝ) (bound : ℝ) : Option (Fin p → ℝ) :=
  (findW bound 0 (knotInput grp w x) sorted).map fun cut i =>
    x i - x i * factor cut (w (grp i)) (normsCython (kind grp) x (grp i))

/-- `group_lasso_dual.seminorm`, `group_lasso.py:340-357` with `seminorm_mixed_lasso_dual`,
`mixed_lasso_cython.pyx:275-318`.  The positional argument `False` lands in `nntol`, so
`check_feasibility` keeps its default 0 and a group of weight `≤ 0` is skipped.
`⊥` is `-inf`, the starting value for an empty `l1_penalty`. -/
noncomputable def dualSeminorm (x : Fin p → ℝ) : WithBot ℝ :=
  (List.finRange q).foldl (fun v j =>
    if w j > 0 then max v ((normsCython (kind grp) x j / w j : ℝ) : WithBot ℝ) else v) ⊥

/-- `group_lasso_dual.constraint`: inherited from `group_lasso.constraint`, `group_lasso.py:258-264`. -/
noncomputable def dualConstraint (x : Fin p → ℝ) (bound : ℝ) : WithTop ℝ :=
  if dualSeminorm grp w x ≤ (bound : WithBot ℝ) then 0 else ⊤

/-- `group_lasso_dual.bound_prox`, `group_lasso.py:360-379`. -/
noncomputable def dualBoundProx (x : Fin p → ℝ) (bound : ℝ) (i : Fin p) : ℝ :=
  x i * factor bound (w (grp i)) (normsCython (kind grp) x (grp i))

/-- `group_lasso_dual.lagrange_prox`, `group_lasso.py:382-402`. -/
noncomputable def dualLagrangeProx (sorted : List (ℝ × ℝ)) (x : Fin p → ℝ) (lipschitz lagrange : ℝ) :
    Option (Fin p → ℝ) :=
  (boundProx grp w sorted x (lagrange / lipschitz)).map fun r i => x i - r i

/-- `mixed_lasso_epigraph`, `mixed_lasso_cython.pyx:382-451`, as called by `group_lasso_epigraph`
(`group_lasso.py:536-554`); `center` is the pair `(center[:-1], center[-1])`. -/
noncomputable def epigraph (sorted : List (ℝ × ℝ)) (center : (Fin p → ℝ) × ℝ) : Option ((Fin p → ℝ) × ℝ) :=
  (findW center.2 1 (knotInput grp w center.1) sorted).map fun cut =>
    if center.2 + cut ≥ 0 then
      (fun i => center.1 i - center.1 i * factor cut (w (grp i)) (normsCython (kind grp) center.1 (grp i)),
        center.2 + cut)
    else (fun _ => 0, 0)

/-- `group_lasso_epigraph_polar.cone_prox`, `group_lasso.py:585-603`. -/
noncomputable def epigraphPolarProx (sorted : List (ℝ × ℝ)) (arg : (Fin p → ℝ) × ℝ) :
    Option ((Fin p → ℝ) × ℝ) :=
  (epigraph grp w sorted arg).map fun r => (fun i => arg.1 i - r.1 i, arg.2 - r.2)

/-- `group_lasso_dual_epigraph.cone_prox`, `group_lasso.py:642-660`. -/
noncomputable def dualEpigraphProx (sorted : List (ℝ × ℝ)) (arg : (Fin p → ℝ) × ℝ) :
    Option ((Fin p → ℝ) × ℝ) :=
  (epigraph grp w sorted (fun i => -arg.1 i, -arg.2)).map fun r => (fun i => arg.1 i + r.1 i, arg.2 + r.2)

/-- `group_lasso_dual_epigraph_polar.cone_prox`, `group_lasso.py:700-718`. -/
noncomputable def dualEpigraphPolarProx (sorted : List (ℝ × ℝ)) (arg : (Fin p → ℝ) × ℝ) :
    Option ((Fin p → ℝ) × ℝ) :=
  (epigraph grp w sorted (fun i => -arg.1 i, -arg.2)).map fun r => (fun i => -r.1 i, -r.2)

end GroupLasso

namespace SparseGroup

variable {p q : ℕ} (grp : Fin p → Fin q) (a : Fin p → ℝ) (w : Fin q → ℝ)

/-- `weighted_atoms.l1norm.lagrange_prox` with finite weights, `weighted_atoms.py:175-178`. -/
noncomputable def softThr (x : Fin p → ℝ) (lipschitz lagrange : ℝ) (i : Fin p) : ℝ :=
  npSign (x i) * max (|x i| - lagrange * a i / lipschitz) 0

/-- `sparse_group_lasso.seminorm`, `sparse_group_lasso.py:66-81`, finite weights. -/
noncomputable def seminorm (x : Fin p → ℝ) (lagrange : ℝ) : ℝ :=
  GroupLasso.seminorm grp w x lagrange + lagrange * ∑ i, |x i * a i|

/-- `sparse_group_lasso.lagrange_prox`, `sparse_group_lasso.py:95-113`. -/
noncomputable def lagrangeProx (x : Fin p → ℝ) (lipschitz lagrange : ℝ) : Fin p → ℝ :=
  GroupLasso.lagrangeProx grp w (softThr a x lipschitz lagrange) lipschitz lagrange

/-- `sparse_group_lasso_dual.bound_prox`, `sparse_group_lasso.py:273-276`. -/
noncomputable def dualBoundProx (x : Fin p → ℝ) (bound : ℝ) (i : Fin p) : ℝ :=
  x i - lagrangeProx grp a w x 1 bound i

/-- `inside_set` for the primal class, `sparse_group_lasso.py:303-326`. -/
noncomputable def insideSet (x : Fin p → ℝ) : Prop :=
  ¬ (npNorm (fun i => (x i - lagrangeProx grp a w x 1 1 i) - x i) > max (npNorm x) 1 * (1 / 10 ^ 7))

end SparseGroup

end Verif.Model
