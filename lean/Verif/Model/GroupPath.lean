import Verif.Model.StrongRules
import Verif.Model.L2Norm

/-!
# Model of `group_lasso_path` (`regreg/paths/group_lasso.py`)

Features have type `V`, group labels (the entries of `penalty._sorted_groupids`) type `G`; `grp v` is the group of a
feature and `w g` its weight.  Exact real arithmetic.  `tol` is the default `1.e-2` of `_check_KKT`.
-/

namespace Verif.Model.GroupPath

variable {V G : Type*} [Fintype V] [Fintype G] [DecidableEq G]

/-- `arr[group]` with `group = penalty.groups == g` -/
def sel (grp : V → G) (x : V → ℝ) (g : G) : {v // grp v = g} → ℝ := fun v => x v

/-- one entry of `group_lasso_dual.terms(arg, check_feasibility=True)`, `atoms/group_lasso.py:304-337`; `⊤` is
`np.inf` -/
noncomputable def dualTerm (grp : V → G) (w : G → ℝ) (x : V → ℝ) (g : G) : WithTop ℝ :=
  if w g > 0 then ((npNorm (sel grp x g) / w g : ℝ) : WithTop ℝ)
  else if npNorm (sel grp x g) > 0 then ⊤ else 0

/-- `active`, `paths/group_lasso.py:390` -/
noncomputable def active (grp : V → G) (w : G → ℝ) (b : V → ℝ) (g : G) : Prop := dualTerm grp w b g ≠ 0 ∧ w g > 0

open Classical in
/-- `active_results`, `paths/group_lasso.py:392-395`: 0, `ACTIVE = 1` or `UNPENALIZED = 3` -/
noncomputable def activeResults (grp : V → G) (w : G → ℝ) (grad b : V → ℝ) (lam tol : ℝ) (g : G) : ℕ :=
  if active grp w b g then
    if npNorm (fun v => sel grp b g v * lam * w g / npNorm (sel grp b g) + sel grp grad g v) > tol then 1 else 0
  else if w g = 0 then
    if npNorm (sel grp grad g) > tol * ((∑ h, w h) / (Fintype.card G : ℝ)) then 3 else 0
  else 0

open Classical in
/-- `inactive_results`, `paths/group_lasso.py:396-397` -/
noncomputable def inactiveResults (grp : V → G) (w : G → ℝ) (grad b : V → ℝ) (lam : ℝ) (g : G) : ℝ :=
  if active grp w b g then 0 else if w g = 0 then 0 else npNorm (sel grp grad g) / (lam * w g)

/-- `inactive_ranks`, `paths/group_lasso.py:400-401` -/
noncomputable def inactiveRanks (grp : V → G) (w : G → ℝ) (grad b : V → ℝ) (lam tol : ℝ) (g : G) : ℝ :=
  if inactiveResults grp w grad b lam g ≤ 1 + tol then -1
  else (Fintype.card G : ℝ) - LassoPath.rankdata (inactiveResults grp w grad b lam) g

/-- `group_lasso_path.check_KKT`, `paths/group_lasso.py:127-169`, with `_check_KKT`, `paths/group_lasso.py:369-403` -/
noncomputable def checkKKT (grp : V → G) (w : G → ℝ) (grad b : V → ℝ) (lam tol : ℝ) : (G → Bool) × (G → ℝ) :=
  (fun g => decide (activeResults grp w grad b lam tol g > 0), inactiveRanks grp w grad b lam tol)

/-- `_strong_set`, `paths/group_lasso.py:322-334`, with `slope_estimate = 1` -/
noncomputable def strongSet (grp : V → G) (w : G → ℝ) (lamCur lamNew : ℝ) (grad : V → ℝ) (g : G) : Bool :=
  decide (dualTerm grp w grad g > (((1 + 1) * lamNew - 1 * lamCur : ℝ) : WithTop ℝ))

/-- `unpenalized`, `paths/group_lasso.py:240-263`: the groups of weight 0 -/
noncomputable def unpenalized (w : G → ℝ) (g : G) : Bool := decide (w g = 0)

/-- `_candidate_bool`, `paths/group_lasso.py:313-320`: the features of the groups in `S` -/
def candidateBool (grp : V → G) (S : G → Bool) (v : V) : Bool := decide (∃ g, S g = true ∧ grp v = g)

/-- `_penalized_vars`, `paths/group_lasso.py:51-54` -/
noncomputable def penalizedVars (grp : V → G) (w : G → ℝ) (v : V) : Bool := !candidateBool grp (unpenalized w) v

/-- `group_lasso_path.enet_grad`, `paths/group_lasso.py:212-225`, on all features -/
noncomputable def enetGrad (grp : V → G) (w : G → ℝ) (alpha : ℝ) (enet b : V → ℝ) (lam : ℝ) (v : V) : ℝ :=
  let G := (1 - alpha) * b v * enet v
  if penalizedVars grp w v then G * lam else G

/-- the diagonal of the quadratic of `_restricted_elastic_net`, `paths/group_lasso.py:336-351`, before restriction to
the candidate groups -/
noncomputable def enetParams (grp : V → G) (w : G → ℝ) (alpha : ℝ) (enet : V → ℝ) (lam : ℝ) (v : V) : ℝ :=
  let new := enet v * (1 - alpha)
  if penalizedVars grp w v then new * lam else new

variable {M : Type*}

/-- `subsample_columns`, `paths/__init__.py:9-18`: the columns of the candidate features, each computed as `X.dot` of a
one-hot vector -/
def subsampleColumns [DecidableEq V] (X : M → V → ℝ) (S : V → Bool) (m : M) (c : {v // S v = true}) : ℝ :=
  ∑ v, X m v * (if v = c then 1 else 0)

/-- objective of the problem of `group_lasso_path.solve_subproblem`, `paths/group_lasso.py:185-210`, with
`_restricted_problem` (`353-367`), `_restricted_elastic_net` (`336-351`) and `quadratic_loss` with a diagonal `Q`
(`smooth/quadratic.py:152-162`), on the features of the groups in `S`: loss, plus elastic net term if `alpha < 1`, plus
group lasso penalty of the groups in `S` with lagrange parameter `alpha * lagrange` -/
noncomputable def subObjective [DecidableEq V] (X : M → V → ℝ) (satFunc : (M → ℝ) → ℝ) (grp : V → G) (w : G → ℝ)
    (enet : V → ℝ) (alpha lam : ℝ) (S : G → Bool) (y : {v // candidateBool grp S v = true} → ℝ) : ℝ :=
  let loss := satFunc fun m => ∑ c, subsampleColumns X (candidateBool grp S) m c * y c
  let ridge := if alpha < 1 then (∑ c, y c * (enetParams grp w alpha enet lam c * y c)) / 2 else 0
  let penalty := alpha * lam * ∑ g : {g // S g = true}, npNorm (sel (fun c => grp c.1) y g.1) * w g
  loss + ridge + penalty

/-- the path object of `paths/group_lasso.py`.  The check on a set of groups gets the features of these groups and the
penalty of `restricted_penalty` (`268-275`), whose group labels are the labels present: those of the set, as every label
has a feature. -/
noncomputable def groupPath (X : M → V → ℝ) (satGrad : (M → ℝ) → M → ℝ) (satFunc : (M → ℝ) → ℝ) (grp : V → G) (w : G → ℝ)
    (enet : V → ℝ) (alpha tol : ℝ) : StrongRules.PathObj ℝ G V M where
  X := X
  satGrad := satGrad
  satFunc := satFunc
  groupVars := fun g v => decide (grp v = g)
  alpha := alpha
  enetGrad := fun b lam => enetGrad grp w alpha enet b lam
  strongSet := fun lamCur lamNew g => strongSet grp w lamCur lamNew g
  checkKKT := fun g b lam => checkKKT grp w g b lam tol
  checkKKTOn := fun S g b lam =>
    let r := checkKKT (V := {v // S (grp v) = true}) (G := {g // S g = true}) (fun v => ⟨grp v, v.2⟩) (fun g => w g)
      (fun v => g v) (fun v => b v) lam tol
    (fun g => if h : S g = true then r.1 ⟨g, h⟩ else false, fun g => if h : S g = true then r.2 ⟨g, h⟩ else -1)

end Verif.Model.GroupPath
