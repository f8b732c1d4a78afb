import Verif.Model.Smooth
import Verif.Model.Separable
import Verif.Model.Cones
import Verif.Model.Smoothed

/-!
# Model of `regreg/problems/dual_problem.py`

Arrays are one dimensional.  A nonsmooth atom is its `nonsmooth_objective(·, check_feasibility)` and its `proximal`.
-/

namespace Verif.Model

open Verif.Spec (Mode Eval)

/-- A nonsmooth atom on arrays of length `k`. -/
structure DualAtom (k : ℕ) where
  value : (Fin k → ℝ) → Bool → WithTop ℝ
  proximal : Quad (Fin k) ℝ → ProxResult (Fin k) ℝ

/-- a seminorm object used as the dual atom; objects with neither parameter set, whose evaluation raises, do not occur
here -/
noncomputable def AtomObj.asDual {k : ℕ} (a : AtomObj (Fin (k + 1)) ℝ) : DualAtom (k + 1) :=
  ⟨fun u cf => (a.nonsmoothObjective u cf).getD ⊤, a.proximal⟩

/-- A `dual_problem` object, `dual_problem.py:35-46`: `f_conjugate` is any object with a `smooth_objective`. -/
structure DualProblem (n k : ℕ) where
  fc : Objective n
  T : Aff ℝ n k
  atom : DualAtom k

namespace DualProblem
variable {n k : ℕ}

/-- `self.affine_fc = affine_smooth(f_conjugate, scalar_multiply(adjoint(transform), -1))`, line 45 -/
noncomputable def affineFc (P : DualProblem n k) : Objective k :=
  Smooth.affineSmooth P.fc (.scalarMultiply (.adjoint P.T) (-1))

/-- the attribute `affine_fc.grad` written by one evaluation, `smooth/__init__.py:236-247`: the gradient of
`f_conjugate` before the adjoint is applied; mode `func` does not write it. -/
noncomputable def storedGrad (P : DualProblem n k) (u : Fin k → ℝ) (mode : Mode) : Option (Fin n → ℝ) :=
  let eta := (Aff.scalarMultiply (.adjoint P.T) (-1)).aff u
  match mode with
  | .both => match P.fc eta .both with
    | .both _ g => some g
    | _ => none
  | .grad => match P.fc eta .grad with
    | .grad g => some g
    | _ => none
  | _ => none

/-- `smooth_objective`, lines 58-67: the result and the new value of the attribute `primal` (`none`: not set yet). -/
noncomputable def smoothObjective (P : DualProblem n k) (primal : Option (Fin n → ℝ)) (u : Fin k → ℝ) (mode : Mode) :
    Eval k × Option (Fin n → ℝ) :=
  (P.affineFc u mode, match P.storedGrad u mode with
    | some g => some g
    | none => primal)

/-- `nonsmooth_objective`, lines 69-73; `affine_fc.nonsmooth_objective` is its quadratic, which is zero. -/
noncomputable def nonsmoothObjective (P : DualProblem n k) (u : Fin k → ℝ) (cf : Bool) : WithTop ℝ := P.atom.value u cf + 0

/-- `composite.objective`, `composite.py:82-83`; `none`: the smooth part did not return a number. -/
noncomputable def objective (P : DualProblem n k) (u : Fin k → ℝ) (cf : Bool) : Option (WithTop ℝ) :=
  match P.affineFc u .func with
  | .val v => some ((v : WithTop ℝ) + P.nonsmoothObjective u cf)
  | _ => none

/-- the attribute `primal` after the evaluations `calls` of `smooth_objective`, whoever makes them -/
noncomputable def primalAfter (P : DualProblem n k) (primal : Option (Fin n → ℝ)) (calls : List ((Fin k → ℝ) × Mode)) :
    Option (Fin n → ℝ) :=
  calls.foldl (fun p c => (P.smoothObjective p c.1 c.2).2) primal

/-- `solve()`, lines 81-86, where `calls` are the evaluations made by `FISTA(self).fit`.  `none`: AttributeError, no
gradient was ever evaluated. -/
noncomputable def solve (P : DualProblem n k) (calls : List ((Fin k → ℝ) × Mode)) : Option (Fin n → ℝ) :=
  P.primalAfter none calls

/-- `solve(return_optimum=True)`, lines 84-85: `self.objective` is the *dual* objective, here in the only case where
the shapes allow the call, `n = k`. -/
noncomputable def solveOptimum {n : ℕ} (P : DualProblem n n) (calls : List ((Fin n → ℝ) × Mode)) :
    Option (Option (WithTop ℝ) × (Fin n → ℝ)) :=
  (P.solve calls).map fun x => (P.objective x false, x)

end DualProblem

/-- slice `i` of `vstack(...).output_slices`, `affine/__init__.py:524-537` -/
def sliceOf {N : ℕ} (ks : Fin N → ℕ) (i : Fin N) : Selector (∑ i, ks i) := ⟨ks i, fun j => finSigmaFinEquiv ⟨i, j⟩⟩

/-- `separable(transform.output_shape, dual_atoms, transform.output_slices)`, lines 140-141 -/
noncomputable def stackedAtom {N : ℕ} (ks : Fin N → ℕ) (g : (i : Fin N) → DualAtom (ks i)) (cf : Bool) :
    Separable (∑ i, ks i) ℝ :=
  ⟨List.ofFn fun i => ⟨sliceOf ks i, fun x => (g i).value x cf, (g i).proximal⟩⟩

/-- `zero_nonsmooth(shape).dual = (identity(shape), zero_constraint(shape))`, `cones.py:87-115` (`get_dual`), 117-121 (`linear_transform`), 407-412 -/
noncomputable def zeroDualAtom (n : ℕ) : DualAtom n :=
  ⟨fun x cf => if cf then Cone.zeroConstraintConstraint x else 0, fun q =>
    coneProximal (fun x => some (Cone.zeroConstraintProx x)) none ⟨0, some (.scalar 0), some (.scalar 0), 0⟩ (some q)⟩

/-- `stacked_dual(shape, *primary_atoms)`, lines 104-145, given the pairs `atom.dual = (T i, g i)`: the transform and the
dual atom returned, with the length of the dual variable. -/
noncomputable def stackedDual (n : ℕ) : {N : ℕ} → (ks : Fin N → ℕ) → ((i : Fin N) → Aff ℝ n (ks i)) →
    ((i : Fin N) → DualAtom (ks i)) → (k : ℕ) × Aff ℝ n k × DualAtom k
  | 0, _, _, _ => ⟨n, .identity, zeroDualAtom n⟩                                  -- 131-132
  | 1, ks, T, g => ⟨ks 0, T 0, g 0⟩                                               -- 143-144
  | _ + 2, ks, T, g =>                                                            -- 138-142
    ⟨∑ i, ks i, .vstack ks T, ⟨fun x cf => (stackedAtom ks g cf).nonsmooth x, (stackedAtom ks g true).proximal⟩⟩

end Verif.Model
