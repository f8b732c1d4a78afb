import Verif.Model.AtomRegression
import Verif.Model.Gauge
import Verif.Model.GroupPath
import Verif.Model.SparseGroupPath

/-!
# Model of the dual classes of the structured penalties, and of `terms`

`group_lasso_dual`, `sparse_group_lasso_dual`, the weighted `supnorm` and `slope_conjugate` as classes derived from `seminorm`, and
the methods `terms` of the group and weighted classes.  In an `ObjVal`, `nan` stands for an exception or a nan.
-/

namespace Verif.Model
open Verif.Spec Verif.Model.Fista

variable {m q : ℕ}

/-- `lagrange * v` for the value `v` of `seminorm_mixed_lasso_dual`.  `-inf` (no group of positive weight) is represented by `nan`,
since an `ObjVal` has no such value. -/
noncomputable def ObjVal.ofBotMul (l : ℝ) : WithBot ℝ → ObjVal
  | ⊥ => .nan
  | (r : ℝ) => .num (l * r)

/-- `group_lasso_dual`, `group_lasso.py:290-402`; `constraint` is inherited, `258-264`; `sort x` is the order chosen by `np.argsort`
in the root finder -/
noncomputable def GroupLasso.dualCls (grp : Fin m → Fin q) (w : Fin q → ℝ) (sort : (Fin m → ℝ) → List (ℝ × ℝ)) :
    SeminormClass m :=
  { seminorm := fun x l _ => ObjVal.ofBotMul l (GroupLasso.dualSeminorm grp w x)
    constraint := fun x b => ObjVal.ofTop (GroupLasso.dualConstraint grp w x b)
    lagrangeProx := fun x L l => GroupLasso.dualLagrangeProx grp w (sort x) x L l
    boundProx := fun x b => some (GroupLasso.dualBoundProx grp w x b) }

/-- `gauge * lagrange` for the answer of `gauge_function_dual`, `sparse_group_lasso.py:258`; `inf * 0` is nan, an exception is
`nan` as well -/
noncomputable def Gauge.Result.times (l : ℝ) : Option (Gauge.Result ℝ) → ObjVal
  | some .zero => .num 0
  | some .inf => if l = 0 then .nan else .inf
  | some (.value v) => .num (v * l)
  | _ => .nan

/-- `base_conjugate`, `sparse_group_lasso.py:237-252`: `sparse_group_lasso(groups, lasso_weights, weights=weights,
lagrange=self.bound)`.  The constructor raises `ValueError` when neither `lagrange` nor `bound` is given
(`seminorms.py:43-46`), i.e. whenever the dual atom is in Lagrange form.  The result is the `lagrange` of the new atom. -/
def SparseGroup.baseConjugate (selfBound : Option ℝ) : Option ℝ := selfBound

open Classical in
/-- `sparse_group_lasso_dual`, `sparse_group_lasso.py:228-276`, for an object with attribute `bound = selfBound`.
`constraint` returns the truth value of `inside_set(base_conjugate, x)`: `True` counts as 1 and `False` as 0 in a sum, and its
argument `bound` is not used.  `lagrange_prox` raises `NotImplementedError`. -/
noncomputable def SparseGroup.dualCls (grp : Fin m → Fin q) (a : Fin m → ℝ) (w : Fin q → ℝ) (selfBound : Option ℝ) (fuel : ℕ) :
    SeminormClass m :=
  { seminorm := fun x l _ =>
      match SparseGroup.baseConjugate selfBound with
      | none => .nan
      | some _ => Gauge.Result.times l (Gauge.sparseGroup grp a w x (1 / 10 ^ 10) 50 fuel)
    constraint := fun x _ =>
      match SparseGroup.baseConjugate selfBound with
      | none => .nan
      | some _ => if SparseGroup.insideSet grp a w x then .num 1 else .num 0
    lagrangeProx := fun _ _ _ => none
    boundProx := fun x b =>
      match SparseGroup.baseConjugate selfBound with
      | none => none
      | some _ => some (SparseGroup.dualBoundProx grp a w x b) }

/-- the attribute `bound` of an atom, `seminorms.py:52-57` -/
def AtomParam.boundAttr : AtomParam ℝ → Option ℝ
  | .bound b => some b
  | .lagrange _ => none

/-- an object of class `sparse_group_lasso_dual` -/
noncomputable def SparseGroup.dualAtom (grp : Fin m → Fin q) (a : Fin m → ℝ) (w : Fin q → ℝ) (par : AtomParam ℝ)
    (offset : Option (PyVec (Fin m) ℝ)) (sq : Quad (Fin m) ℝ) (fuel : ℕ) : NonsmoothAtom m :=
  (SparseGroup.dualCls grp a w par.boundAttr fuel).atom par offset sq

namespace Weighted

/-- the finite entries of `np.fabs(arg[finite] * self.weights[finite])`, `weighted_atoms.py:226` -/
noncomputable def supList (w : Fin m → WithTop ℝ) (arg : Fin m → ℝ) : List ℝ :=
  (List.finRange m).filterMap fun i => wcase (w i) none fun a => some |arg i * a|

/-- `arr.max()`: `ValueError` (`none`) for an empty array -/
noncomputable def listMax : List ℝ → Option ℝ
  | [] => none
  | x :: l => some (l.foldl max x)

open Classical in
/-- `supnorm.seminorm(arg, lagrange, check_feasibility)`, `weighted_atoms.py:213-226`; `none`: an exception -/
noncomputable def supSeminorm (w : Fin m → WithTop ℝ) (arg : Fin m → ℝ) (lagrange : ℝ) (check : Bool) : Option (WithTop ℝ) :=
  if check ∧ ∃ i, w i = ⊤ ∧ arg i ≠ 0 then some ⊤
  else (listMax (supList w arg)).map fun v => ((lagrange * v : ℝ) : WithTop ℝ)

open Classical in
/-- `supnorm.constraint`, `weighted_atoms.py:229-236` -/
noncomputable def supConstraint (w : Fin m → WithTop ℝ) (arg : Fin m → ℝ) (bound : ℝ) : Option (WithTop ℝ) :=
  (supSeminorm w arg 1 true).map fun v => if v ≤ ((bound * (1 + atomTol) : ℝ) : WithTop ℝ) then 0 else ⊤

/-- an optional extended value -/
noncomputable def objOf : Option (WithTop ℝ) → ObjVal
  | none => .nan
  | some v => ObjVal.ofTop v

/-- an array with nan entries counts as no answer -/
noncomputable def noNan (R : Fin m → Option ℝ) : Option (Fin m → ℝ) :=
  if ∀ i, (R i).isSome then some fun i => (R i).getD 0 else none

/-- the weighted `supnorm`, `weighted_atoms.py:204-256` -/
noncomputable def supcls (w : Fin m → WithTop ℝ) (sort : (Fin m → ℝ) → List (ℝ × ℝ)) : SeminormClass m :=
  { seminorm := fun x l c => objOf (supSeminorm w x l c)
    constraint := fun x b => objOf (supConstraint w x b)
    lagrangeProx := fun x L l => (supLagrangeProx w (sort x) x L l).bind noNan
    boundProx := fun x b => noNan (supBoundProx w x b) }

/-- `l1norm.terms(arg)`, `weighted_atoms.py:194-201`; `none` is nan (`0 * inf`), `some ⊤` is `inf` -/
noncomputable def l1Terms (w : Fin m → WithTop ℝ) (arg : Fin m → ℝ) (i : Fin m) : Option (WithTop ℝ) :=
  wcase (w i) (if |arg i| = 0 then none else some ⊤) fun a => some ((|arg i| * a : ℝ) : WithTop ℝ)

/-- `supnorm.terms(arg)`, `weighted_atoms.py:258-268`, with `check_feasibility=True`: `|arg| / weights`, overwritten where the weight
is 0; `|arg| / inf` is 0 -/
noncomputable def supTerms (w : Fin m → WithTop ℝ) (arg : Fin m → ℝ) (i : Fin m) : WithTop ℝ :=
  wcase (w i) (0 : WithTop ℝ) fun a => if a = 0 then (if |arg i| ≠ 0 then ⊤ else 0) else ((|arg i| / a : ℝ) : WithTop ℝ)

end Weighted

/-- `slope_conjugate`, `slope.py:150-199`; `lagrange_prox` raises `NotImplementedError` -/
noncomputable def Slope.conjCls {p : ℕ} (iso : (Fin (p + 1) → ℝ) → Option (Fin (p + 1) → ℝ))
    (arg : (Fin (p + 1) → ℝ) → Equiv.Perm (Fin (p + 1))) (w : Fin (p + 1) → ℝ) : SeminormClass (p + 1) :=
  { seminorm := fun x l _ => .num (Slope.conjSeminorm w x l)
    constraint := fun x b => ObjVal.ofTop (Slope.conjConstraint w x b)
    lagrangeProx := fun _ _ _ => none
    boundProx := fun x b => Slope.conjBoundProx iso (arg x) w x b }

/-- one entry of `group_lasso.terms(arg)`, `group_lasso.py:164-188` -/
noncomputable def GroupLasso.terms (grp : Fin m → Fin q) (w : Fin q → ℝ) (x : Fin m → ℝ) (g : Fin q) : ℝ :=
  npNorm (GroupPath.sel grp x g) * w g

/-- one entry of `group_lasso_dual.terms(arg, check_feasibility)`, `group_lasso.py:304-337` -/
noncomputable def GroupLasso.dualTerms (grp : Fin m → Fin q) (w : Fin q → ℝ) (x : Fin m → ℝ) (check : Bool) (g : Fin q) :
    WithTop ℝ :=
  if w g > 0 then ((npNorm (GroupPath.sel grp x g) / w g : ℝ) : WithTop ℝ)
  else if check = true ∧ npNorm (GroupPath.sel grp x g) > 0 then ⊤ else 0

/-- one entry of `sparse_group_lasso.terms(arg)`, `sparse_group_lasso.py:128-157`, of an object whose weights were not changed after
construction -/
noncomputable def SparseGroup.terms (grp : Fin m → Fin q) (a : Fin m → ℝ) (w : Fin q → ℝ) (x : Fin m → ℝ) (g : Fin q) : ℝ :=
  (SparseGroupPath.Penalty.term grp { lasso := a, w := w, l1atom := a } x g)

/-- one entry of `sparse_group_lasso_dual.terms(arg)`, `sparse_group_lasso.py:278-301`: the first component of
`_gauge_function_dual_strong` with its defaults `tol=1e-6`, `max_iter=50` and the tolerance `1e-5` of `_inside_set_strong` -/
noncomputable def SparseGroup.dualTerms (grp : Fin m → Fin q) (a : Fin m → ℝ) (w : Fin q → ℝ) (x : Fin m → ℝ) (fuel : ℕ)
    (g : Fin q) : Option (Gauge.Result ℝ) :=
  Gauge.strong (GroupPath.sel grp x g) (GroupPath.sel grp a g) (w g) (1 / 10 ^ 5) (1 / 10 ^ 6) 50 fuel

end Verif.Model
