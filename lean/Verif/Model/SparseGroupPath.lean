import Verif.Model.GroupPath
import Verif.Model.Gauge

/-!
# Model of the sparse group paths (`regreg/paths/sparse_group_lasso.py`, `regreg/paths/sparse_group_block.py`)

Features have type `V`, group labels type `G`, `grp v` is the group of a feature.  Exact real arithmetic.  `insideTol` is
the default `1.e-5` of `_inside_set_strong`; `gTol` and `maxIter` are the defaults `1.e-6` and `50` of
`_gauge_function_dual_strong`; `tol` is the default `1.e-2` of `_check_KKT`.
-/

namespace Verif.Model.SparseGroupPath

open Verif.Model.GroupPath (sel candidateBool subsampleColumns)

/-! ### the gauge with its subgradients -/

/-- what `_gauge_function_dual_strong` returns: `(0, None, None)`, `(np.inf, None, None)`, or the number with the two
subgradients (the second is nan, `none`, if it is computed as `0 / 0`) -/
inductive StrongResult (ι : Type*)
  | zero
  | inf
  | value (mid : ℝ) (l1 : ι → ℝ) (l2 : Option (ι → ℝ))

open Classical in
/-- `_gauge_function_dual_strong`, `atoms/sparse_group_lasso.py:413-495`, with the two subgradients; `none`: the search is
still running after `fuel` iterations, or an exception -/
noncomputable def dualStrong {ι : Type*} [Fintype ι] (point lasso : ι → ℝ) (w insideTol gTol : ℝ) (maxIter fuel : ℕ) :
    Option (StrongResult ι) :=
  match Gauge.strong point lasso w insideTol gTol maxIter fuel with
  | some .zero => some .zero
  | some .inf => some .inf
  | some (.value mid) =>
    let soft := fun i => max (|point i| - mid * lasso i) 0 * npSign (point i)
    let l1 := fun i => point i - soft i
    let l2 := if npNorm soft = 0 then none else some fun i => soft i / npNorm soft * w * mid
    some (.value mid l1 l2)
  | some .unbound => none
  | some .assertion => none
  | none => none

/-! ### the check of one group, shared by both files -/

/-- the numbers that `_check_KKT` passes around: `insideTol, gTol, maxIter`, the tolerance of the check, the fuel of the
searches -/
structure Tols where
  insideTol : ℝ
  gTol : ℝ
  maxIter : ℕ
  tol : ℝ
  fuel : ℕ

/-- the defaults of `_inside_set_strong`, `_gauge_function_dual_strong`, `_check_KKT` -/
noncomputable def Tols.default (fuel : ℕ) : Tols := ⟨1 / 10 ^ 5, 1 / 10 ^ 6, 50, 1 / 10 ^ 2, fuel⟩

open Classical in
/-- an active group, `paths/sparse_group_lasso.py:397-413` and `paths/sparse_group_block.py:548-567`: 0 or the last code
assigned.  `none`: the search fails, or its subgradients are `None` (`TypeError`).  A comparison with nan is False. -/
noncomputable def activeCode {ι : Type*} [Fintype ι] (grad b lasso : ι → ℝ) (w lam : ℝ) (T : Tols) : Option ℕ :=
  match dualStrong (fun i => -grad i) lasso w T.insideTol T.gTol T.maxIter T.fuel with
  | some (.value val l1 l2) =>
    let code := if val < lam * (1 - T.tol) then 11 else 0
    let code := if npNorm (fun i => if b i = 0 then 0 else l1 i - lasso i * npSign (b i) * lam) > T.tol * max 1 (npNorm b)
      then 10 else code
    let code := match l2 with
      | some l2 =>
        if npNorm l2 = 0 then code
        else if npNorm (fun i => l2 i / npNorm l2 - b i / npNorm b) > T.tol then 12 else code
      | none => code
    some code
  | some .zero => none
  | some .inf => none
  | none => none

/-- an inactive group: `_gauge_function_dual_strong(...)[0] / lagrange`, `paths/sparse_group_lasso.py:414-416`,
`paths/sparse_group_block.py:569-573`; `⊤` is `np.inf` -/
noncomputable def inactiveTerm {ι : Type*} [Fintype ι] (grad lasso : ι → ℝ) (w lam : ℝ) (T : Tols) : Option (WithTop ℝ) :=
  match dualStrong (fun i => -grad i) lasso w T.insideTol T.gTol T.maxIter T.fuel with
  | some .zero => some ((0 / lam : ℝ) : WithTop ℝ)
  | some .inf => some ⊤
  | some (.value val _ _) => some ((val / lam : ℝ) : WithTop ℝ)
  | none => none

/-! ### `sparse_group_lasso_path` -/

section lasso

variable {V G : Type*} [Fintype V] [Fintype G] [DecidableEq G]

/-- the weights held by a `sparse_group_lasso` object: `lasso_weights`, `weights`, and the copy of the lasso weights inside
`_weighted_l1norm` -/
structure Penalty (V G : Type*) where
  lasso : V → ℝ
  w : G → ℝ
  l1atom : V → ℝ

/-- `sparse_group_lasso.__init__`, `atoms/sparse_group_lasso.py:39-64`, with `group_lasso.__init__`,
`atoms/group_lasso.py:40-82`: a group without weight gets the square root of its size.  The dictionary has no other keys. -/
noncomputable def Penalty.init (grp : V → G) (lasso : V → ℝ) (weights : G → Option ℝ) : Penalty V G where
  lasso := lasso
  w := fun g => (weights g).getD (Real.sqrt (Fintype.card {v // grp v = g}))
  l1atom := lasso

/-- the penalty of a new path, `paths/sparse_group_lasso.py:46-50`: group weights and `lasso_weights` are rescaled, the
inner `_weighted_l1norm` is not -/
noncomputable def pathPenalty (grp : V → G) (lasso : V → ℝ) (weights : G → Option ℝ) (l1alpha : ℝ) : Penalty V G :=
  let pen := Penalty.init grp lasso weights
  { lasso := fun v => pen.lasso v * l1alpha, w := fun g => (1 - l1alpha) * pen.w g, l1atom := pen.l1atom }

/-- the penalty of `path.subsample(case_idx)`, `paths/sparse_group_lasso.py:150-158`, from the penalty of the path -/
noncomputable def subsamplePenalty (grp : V → G) (pen : Penalty V G) (l1alpha : ℝ) : Penalty V G :=
  pathPenalty grp pen.lasso (fun g => some (pen.w g)) l1alpha

/-- `sparse_group_lasso.seminorm(x, lagrange)` of such an object, `atoms/sparse_group_lasso.py:66-81` -/
noncomputable def Penalty.seminorm (grp : V → G) (pen : Penalty V G) (x : V → ℝ) (lagrange : ℝ) : ℝ :=
  lagrange * ∑ g, npNorm (sel grp x g) * pen.w g + lagrange * ∑ v, |x v * pen.l1atom v|

/-- one entry of `sparse_group_lasso.terms`, `atoms/sparse_group_lasso.py:128-157` -/
noncomputable def Penalty.term (grp : V → G) (pen : Penalty V G) (x : V → ℝ) (g : G) : ℝ :=
  npNorm (sel grp x g) * pen.w g + ∑ v : {v // grp v = g}, |x v * pen.lasso v|

open Classical in
/-- `unpenalized`, `paths/sparse_group_lasso.py:96-119`.  The operator `+` binds stronger than `==`: the weight is compared
with `0 + np.any(...)`. -/
noncomputable def unpenalized (grp : V → G) (pen : Penalty V G) (g : G) : Bool :=
  decide (pen.w g = 0 + if ∃ v, grp v = g ∧ pen.lasso v = 0 then 1 else 0)

/-- `_strong_set`, `paths/sparse_group_lasso.py:304-325`, with `slope_estimate = 1` -/
noncomputable def strongSet (grp : V → G) (pen : Penalty V G) (insideTol lamCur lamNew : ℝ) (grad : V → ℝ) (g : G) : Prop :=
  ¬ Gauge.insideStrong (sel grp grad g) ((1 + 1) * lamNew - 1 * lamCur) (sel grp pen.lasso g) (pen.w g) insideTol

/-- outcome of the loop body of `_check_KKT` for one group -/
inductive GroupCheck
  | active (code : ℕ)
  | inactive (term : WithTop ℝ)

/-- entry of `active_results` -/
def GroupCheck.code : GroupCheck → ℕ
  | .active c => c
  | .inactive _ => 0

/-- entry of `inactive_results` -/
noncomputable def GroupCheck.term : GroupCheck → WithTop ℝ
  | .active _ => 0
  | .inactive t => t

open Classical in
/-- the loop body of `_check_KKT`, `paths/sparse_group_lasso.py:390-418`; the unpenalised branch refers to an undefined
name (`none`) -/
noncomputable def groupCheck (grp : V → G) (pen : Penalty V G) (grad b : V → ℝ) (lam : ℝ) (T : Tols) (g : G) :
    Option GroupCheck :=
  if pen.term grp b g > 1 / 10 ^ 6 * npNorm b then
    (activeCode (sel grp grad g) (sel grp b g) (sel grp pen.lasso g) (pen.w g) lam T).map .active
  else if (∑ v : {v // grp v = g}, pen.lasso v) + pen.w g > 0 then
    (inactiveTerm (sel grp grad g) (sel grp pen.lasso g) (pen.w g) lam T).map .inactive
  else none

open Classical in
/-- `rankdata` of numbers that may be infinite (ties share the average rank) -/
noncomputable def rankTop {ι : Type*} [Fintype ι] (t : ι → WithTop ℝ) (i : ι) : ℝ :=
  (((Finset.univ.filter fun j => t j < t i).card : ℝ) + ((Finset.univ.filter fun j => t j ≤ t i).card : ℝ) + 1) / 2

open Classical in
/-- `sparse_group_lasso_path.check_KKT`, `paths/sparse_group_lasso.py:160-201`, with `_check_KKT`, `364-423`; `none`: an
exception -/
noncomputable def checkKKT (grp : V → G) (pen : Penalty V G) (grad b : V → ℝ) (lam : ℝ) (T : Tols) :
    Option ((G → Bool) × (G → ℝ)) :=
  if h : ∀ g, (groupCheck grp pen grad b lam T g).isSome then
    let r := fun g => (groupCheck grp pen grad b lam T g).get (h g)
    let inactive := fun g => (r g).term
    some (fun g => decide ((r g).code > 0),
      fun g => if inactive g ≤ ((1 + T.tol : ℝ) : WithTop ℝ) then -1 else (Fintype.card G : ℝ) - rankTop inactive g)
  else none

/-- diagonal of the elastic net quadratic, `enet_loss` (inherited, `paths/group_lasso.py:80-88`) with `_penalized_vars` all
False, `paths/sparse_group_lasso.py:69-70`: `new_params[penalized] *= lagrange` changes nothing -/
def enetParams (alpha : ℝ) (enet : V → ℝ) (lam : ℝ) (v : V) : ℝ :=
  let penalized : V → Bool := fun _ => false
  let new := enet v * (1 - alpha)
  if penalized v then new * lam else new

/-- objective of the problem of `sparse_group_lasso_path.solve_subproblem`, `paths/sparse_group_lasso.py:219-246`, with
`_restricted_problem`, `343-360`, on the features of the groups in `S`; the restricted penalty is built from
`penalty.lasso_weights` and `penalty.weights` -/
noncomputable def subObjective {M : Type*} [DecidableEq V] (X : M → V → ℝ) (satFunc : (M → ℝ) → ℝ) (grp : V → G)
    (pen : Penalty V G) (enet : V → ℝ) (alpha lam : ℝ) (S : G → Bool) (y : {v // candidateBool grp S v = true} → ℝ) : ℝ :=
  let loss := satFunc fun m => ∑ c, subsampleColumns X (candidateBool grp S) m c * y c
  let ridge := if alpha < 1 then (∑ c, y c * (enetParams alpha enet lam c * y c)) / 2 else 0
  let penalty := alpha * lam * ∑ g : {g // S g = true}, npNorm (sel (fun c => grp c.1) y g.1) * pen.w g +
    alpha * lam * ∑ c, |y c * pen.lasso c|
  loss + ridge + penalty

end lasso

/-! ### `sparse_group_common_path`, `sparse_group_block_path` -/

section block

/-- the state of such a path that concerns the penalty: the attributes `l1_penalty`, `l2_penalty` and the two weights of
`self.penalty` -/
structure BlockPenalty where
  l1 : ℝ
  l2 : ℝ
  l1Weight : ℝ
  l2Weight : ℝ

/-- `sparse_group_common_path.__init__`, `paths/sparse_group_block.py:55-69`, for numbers: the attributes are rescaled, the
penalty is built from the arguments -/
def BlockPenalty.init (l1 l2 : ℝ) (l1alpha : Option ℝ) : BlockPenalty :=
  match l1alpha with
  | none => ⟨l1, l2, l1, l2⟩
  | some a => ⟨l1 * a, l2 * (1 - a), l1, l2⟩

/-- the penalty of `path.subsample(case_idx)`, `paths/sparse_group_block.py:161-168` and `411-418` -/
def BlockPenalty.subsample (p : BlockPenalty) : BlockPenalty := .init p.l1 p.l2 none

variable {n k : ℕ}

/-- `active`, `paths/sparse_group_block.py:543-544`: `norm_soln > tol * max(norm_soln.sum(0), 1)` -/
noncomputable def blockActive (b : Fin n → Fin k → ℝ) (tol : ℝ) (g : Fin n) : Prop :=
  npNorm (b g) > tol * max (∑ h, npNorm (b h)) 1

open Classical in
/-- both loops of `_check_KKT`, `paths/sparse_group_block.py:548-573`, at one row -/
noncomputable def blockGroupCheck (pen : BlockPenalty) (grad b : Fin n → Fin k → ℝ) (lam : ℝ) (T : Tols) (g : Fin n) :
    Option GroupCheck :=
  if blockActive b T.tol g then
    (activeCode (grad g) (b g) (fun _ => pen.l1Weight) pen.l2Weight lam T).map .active
  else (inactiveTerm (grad g) (fun _ => pen.l1Weight) pen.l2Weight lam T).map .inactive

open Classical in
/-- `sparse_group_common_path.check_KKT`, `paths/sparse_group_block.py:171-211`, with `_check_KKT`, `523-577`.  `argsort` is
any rearrangement of `0, ..., n-1`. -/
noncomputable def blockCheckKKT (argsort : (Fin n → WithTop ℝ) → Equiv.Perm (Fin n)) (pen : BlockPenalty)
    (grad b : Fin n → Fin k → ℝ) (lam : ℝ) (T : Tols) : Option ((Fin n → Bool) × (Fin n → ℝ)) :=
  if h : ∀ g, (blockGroupCheck pen grad b lam T g).isSome then
    let r := fun g => (blockGroupCheck pen grad b lam T g).get (h g)
    let inactive := fun g => (r g).term
    some (fun g => decide ((r g).code > 0),
      fun g => if inactive g ≤ ((1 + T.tol : ℝ) : WithTop ℝ) then -1 else (n : ℝ) - ((argsort inactive g : ℕ) : ℝ))
  else none

/-- `_strong_set`, `paths/sparse_group_block.py:501-521`, with `slope_estimate = 1` -/
noncomputable def blockStrongSet (pen : BlockPenalty) (insideTol lamCur lamNew : ℝ) (grad : Fin n → Fin k → ℝ) (g : Fin n) :
    Prop :=
  ¬ Gauge.insideStrong (grad g) ((1 + 1) * lamNew - 1 * lamCur) (fun _ => pen.l1Weight) pen.l2Weight insideTol

end block

end Verif.Model.SparseGroupPath
