import Verif.Model.Regression
import Verif.Model.Separable
import Verif.Model.MixedLasso
import Verif.Model.Simplex
import Verif.Model.Weighted
import Verif.Model.Slope
import Verif.Model.Cones
import Verif.Model.LinearConstraints

/-!
# Model of `simple_problem(glm, atom)` for an arbitrary nonsmooth atom

The classes of atoms derived from `seminorm` and from `cone`, the two atoms of `simplex.py`, `mixed_lasso` and `separable`,
as the objects `simple_problem` sees: `proximal` and `nonsmooth_objective`.
-/

namespace Verif.Model

variable {m : ℕ}

/-- what `simple_problem` uses of a nonsmooth atom (`problems/simple.py:32-39`): `solve(q)`, which is `proximal(q)`
(`composite.py:174-181` without `return_optimum`), and `nonsmooth_objective(x, check_feasibility)`. -/
structure NonsmoothAtom (m : ℕ) where
  proximal : Quad (Fin m) ℝ → ProxResult (Fin m) ℝ
  nonsmooth : (Fin m → ℝ) → Bool → ObjVal

/-- `apply_offset`, `problems/composite.py:112-118` -/
def atomShift (offset : Option (PyVec (Fin m) ℝ)) (x : Fin m → ℝ) : Fin m → ℝ :=
  match offset with
  | none => x
  | some o => fun i => x i - o.get i

/-- a class derived from `seminorm`: its methods `seminorm(arg, lagrange, check_feasibility)`, `constraint(arg, bound)`,
`lagrange_prox(arg, lipschitz, lagrange)` and `bound_prox(arg, bound)` -/
structure SeminormClass (m : ℕ) where
  seminorm : (Fin m → ℝ) → ℝ → Bool → ObjVal
  constraint : (Fin m → ℝ) → ℝ → ObjVal
  lagrangeProx : (Fin m → ℝ) → ℝ → ℝ → Option (Fin m → ℝ)
  boundProx : (Fin m → ℝ) → ℝ → Option (Fin m → ℝ)

/-- an instance of a class derived from `seminorm`: `proximal`, `seminorms.py:285-364`, and `nonsmooth_objective`,
`seminorms.py:451-490` -/
noncomputable def SeminormClass.atom (k : SeminormClass m) (par : AtomParam ℝ) (offset : Option (PyVec (Fin m) ℝ))
    (sq : Quad (Fin m) ℝ) : NonsmoothAtom m :=
  { proximal := fun Q => seminormProximal k.lagrangeProx k.boundProx par offset sq (some Q)
    nonsmooth := fun x check =>
      let z := atomShift offset x
      let v := match par with
        | .bound b => if check then k.constraint z b else .num 0
        | .lagrange l => k.seminorm z l check
      v.add (.num (sq.funcVal x)) }

/-- a class derived from `cone` -/
structure ConeClass (m : ℕ) where
  constraint : (Fin m → ℝ) → ObjVal
  coneProx : (Fin m → ℝ) → Option (Fin m → ℝ)

/-- an instance of a class derived from `cone`: `proximal`, `cones.py:193-203`, and `nonsmooth_objective`,
`cones.py:137-151` -/
noncomputable def ConeClass.atom (k : ConeClass m) (offset : Option (PyVec (Fin m) ℝ)) (sq : Quad (Fin m) ℝ) :
    NonsmoothAtom m :=
  { proximal := fun Q => coneProximal k.coneProx offset sq (some Q)
    nonsmooth := fun x check =>
      (if check then k.constraint (atomShift offset x) else .num 0).add (.num (sq.funcVal x)) }

/-- the seven classes of `seminorms.py` -/
noncomputable def AtomObj.toAtom {p : ℕ} (A : AtomObj (Fin (p + 1)) ℝ) : NonsmoothAtom (p + 1) :=
  { proximal := A.proximal
    nonsmooth := fun x check => match A.nonsmoothObjective x check with
      | some v => ObjVal.ofTop v
      | none => .nan }

/-- `group_lasso`, `group_lasso.py:191-264`; `sort x` is the order chosen by `np.argsort` in the root finder -/
noncomputable def GroupLasso.cls {q : ℕ} (grp : Fin m → Fin q) (w : Fin q → ℝ) (sort : (Fin m → ℝ) → List (ℝ × ℝ)) :
    SeminormClass m :=
  { seminorm := fun x l _ => .num (GroupLasso.seminorm grp w x l)
    constraint := fun x b => ObjVal.ofTop (GroupLasso.constraint grp w x b)
    lagrangeProx := fun x L l => some (GroupLasso.lagrangeProx grp w x L l)
    boundProx := fun x b => GroupLasso.boundProx grp w (sort x) x b }

/-- `sparse_group_lasso`, `sparse_group_lasso.py:66-117`: `bound_prox` raises `NotImplementedError` -/
noncomputable def SparseGroup.cls {q : ℕ} (grp : Fin m → Fin q) (a : Fin m → ℝ) (w : Fin q → ℝ) : SeminormClass m :=
  { seminorm := fun x l _ => .num (SparseGroup.seminorm grp a w x l)
    constraint := fun x b => if SparseGroup.seminorm grp a w x 1 ≤ b * (1 + atomTol) then .num 0 else .inf
    lagrangeProx := fun x L l => some (SparseGroup.lagrangeProx grp a w x L l)
    boundProx := fun _ _ => none }

/-- `weighted_atoms.l1norm`, `weighted_atoms.py:147-192`; a nan in the result of the proximal map is `none` -/
noncomputable def Weighted.l1cls (w : Fin m → WithTop ℝ) (sort : (Fin m → ℝ) → List (ℝ × ℝ)) : SeminormClass m :=
  { seminorm := fun x l c => ObjVal.ofTop (Weighted.l1Seminorm w x l c)
    constraint := fun x b => if Weighted.l1Seminorm w x 1 true ≤ ((b * (1 + atomTol) : ℝ) : WithTop ℝ) then .num 0 else .inf
    lagrangeProx := fun x L l =>
      if ∀ i, (Weighted.l1LagrangeProx w x L l i).isSome then some fun i => (Weighted.l1LagrangeProx w x L l i).getD 0 else none
    boundProx := fun x b => Weighted.l1BoundProx w (sort x) x b }

/-- `slope`, `slope.py:64-88`; `arg x` is the order chosen by `np.argsort`, `bound_prox` raises -/
noncomputable def Slope.cls (iso : (Fin m → ℝ) → Option (Fin m → ℝ)) (arg : (Fin m → ℝ) → Equiv.Perm (Fin m)) (w : Fin m → ℝ) :
    SeminormClass m :=
  { seminorm := fun x l _ => .num (Slope.seminorm w x l)
    constraint := fun x b => ObjVal.ofTop (Slope.constraint w x b)
    lagrangeProx := fun x L l => Slope.lagrangeProx iso (arg x) w x L l
    boundProx := fun _ _ => none }

/-- `nonnegative`, `cones.py:311-345` -/
noncomputable def Cone.nonnegCls {p : ℕ} : ConeClass (p + 1) :=
  { constraint := fun x => ObjVal.ofTop (Cone.nonnegConstraint x), coneProx := fun x => some (Cone.nonnegProx x) }

/-- `nonpositive`, `cones.py:347-382` -/
noncomputable def Cone.nonposCls {p : ℕ} : ConeClass (p + 1) :=
  { constraint := fun x => ObjVal.ofTop (Cone.nonposConstraint x), coneProx := fun x => some (Cone.nonposProx x) }

/-- `zero`, `cones.py:384-413` -/
noncomputable def Cone.zeroCls : ConeClass m :=
  { constraint := fun x => ObjVal.ofTop (Cone.zeroConstraint x), coneProx := fun x => some (Cone.zeroProx x) }

/-- `zero_constraint`, `cones.py:415-446` -/
noncomputable def Cone.zeroConstraintCls : ConeClass m :=
  { constraint := fun x => ObjVal.ofTop (Cone.zeroConstraintConstraint x)
    coneProx := fun x => some (Cone.zeroConstraintProx x) }

/-- `linear_constraints.projection`, `linear_constraints.py:102-145` -/
noncomputable def LinCon.projectionCls {k : ℕ} (basis : Fin k → Fin m → ℝ) : ConeClass m :=
  { constraint := fun x => ObjVal.ofTop (LinCon.projectionConstraint basis x)
    coneProx := fun x => some (LinCon.projectionProx basis x) }

/-- `linear_constraints.projection_complement`, `linear_constraints.py:147-183` -/
noncomputable def LinCon.complementCls {k : ℕ} (basis : Fin k → Fin m → ℝ) : ConeClass m :=
  { constraint := fun x => ObjVal.ofTop (LinCon.complementConstraint basis x)
    coneProx := fun x => some (LinCon.complementProx basis x) }

/-- `simplex_constraint`: `proximal` (`simplex.py:73-87`) and `nonsmooth_objective` (`simplex.py:103-132`) have the text of
those of a cone -/
noncomputable def Simplex.cls : ConeClass m :=
  { constraint := fun x => match Simplex.constraint x with
      | some v => ObjVal.ofTop v
      | none => .nan
    coneProx := Simplex.basicProx }

/-- `maximum`, `simplex.py:135-256`: `proximal` has the text of that of a seminorm in Lagrange mode with multiplier 1, and
`nonsmooth_objective` is the largest coordinate plus the quadratic -/
noncomputable def Maximum.atom {p : ℕ} (offset : Option (PyVec (Fin (p + 1)) ℝ)) (sq : Quad (Fin (p + 1)) ℝ) :
    NonsmoothAtom (p + 1) :=
  { proximal := fun Q =>
      seminormProximal (fun x L _ => Maximum.basicProx x L) (fun _ _ => none) (.lagrange 1) offset sq (some Q)
    nonsmooth := fun x _ => (ObjVal.num (Maximum.value (atomShift offset x))).add (.num (sq.funcVal x)) }

/-- `v * self.lagrange` for the value `v` of `seminorm_mixed_lasso` -/
noncomputable def timesLagrange (v : WithTop ℝ) (lagrange : ℝ) : ObjVal :=
  WithTop.recTopCoe (if lagrange = 0 then .nan else .inf) (fun v => .num (v * lagrange)) v

/-- `mixed_lasso` with multiplier `lagrange`: `proximal`, `mixed_lasso.py:182-232`, and `nonsmooth_objective`,
`mixed_lasso.py:158-180`, which takes the offset off twice (`nonsmooth_objective` and `seminorm` both call `apply_offset`).
`nntol` has its default value.  A nan in the result of the proximal map is `baseError`. -/
noncomputable def mixedLassoAtom {q : ℕ} (κ : Fin m → Spec.Kind q) (w : Fin q → ℝ) (lagrange : ℝ)
    (offset : Option (PyVec (Fin m) ℝ)) (sq : Quad (Fin m) ℝ) : NonsmoothAtom m :=
  { proximal := fun Q => seminormProximal (fun x L l =>
        if ∀ i, (mixedLagrangeProx κ w x L l i).isSome then some fun i => (mixedLagrangeProx κ w x L l i).getD 0 else none)
      (fun _ _ => none) (.lagrange lagrange) offset sq (some Q)
    nonsmooth := fun x check =>
      (timesLagrange (mixedSeminorm κ w (atomShift offset (atomShift offset x)) check (1 / 10 ^ 5)) lagrange).add
        (.num (sq.funcVal x)) }

/-- the atom of one group of a `separable` as a `Block`; the value is the one with the feasibility check -/
noncomputable def NonsmoothAtom.block (g : Selector m) (A : NonsmoothAtom g.len) : Block m ℝ :=
  { group := g
    nonsmooth := fun x => match A.nonsmooth x true with
      | .num v => v
      | _ => ⊤
    proximal := A.proximal }

/-- `separable`: `proximal`, `separable.py:134-147`, and `nonsmooth_objective`, `separable.py:122-132` -/
noncomputable def separableAtom (bs : List (Σ g : Selector m, NonsmoothAtom g.len)) : NonsmoothAtom m :=
  { proximal := (Separable.mk (bs.map fun b => b.2.block b.1)).proximal
    nonsmooth := fun x check => bs.foldl (fun v b => v.add (b.2.nonsmooth (b.1.take x) check)) (.num 0) }

/-- `simple_problem(loss, atom)`, `problems/simple.py:19-39`, for a glm with the keyword `quadratic`, as in
`SimpleProblem.regression`, and any nonsmooth atom -/
noncomputable def SimpleProblem.withAtom {p n : ℕ} (G : Glm (p + 1) n) (quad : Option (Quad (Fin (p + 1)) ℝ))
    (A : NonsmoothAtom (p + 1)) (coefs : Fin (p + 1) → ℝ) : SimpleProblem (p + 1) :=
  { smooth := fun x => match (G.smoothObjective x .func).1 with
      | .val f => .num f
      | _ => .nan
    grad := fun x => match (G.smoothObjective x .grad).1 with
      | .grad g => g
      | _ => fun _ => 0
    smoothQuad := quad.getD (Quad.init none none none none)
    atomSolve := fun q => match A.proximal q with
      | .ok z => some z
      | _ => none
    atomNonsmooth := A.nonsmooth
    quadratic := Quad.init none none none none
    coefs := coefs }

end Verif.Model
