import Verif.Model.Conjugate
import Verif.Model.AtomProximal
import Verif.Spec.Smooth

/-!
# Model of `atom.smoothed` and `smooth_conjugate` (`atoms/__init__.py`, `problems/composite.py`)
-/

namespace Verif.Model

open Verif.Spec (Mode Eval)

variable {n : ℕ}

/-- dispatch of `lagrange_prox` on the class -/
noncomputable def Klass.lagrangeProx (k : Klass) (x : Fin (n + 1) → ℝ) (L lam : ℝ) : Option (Fin (n + 1) → ℝ) :=
  match k with
  | .l1norm => some (L1.lagrangeProx x L lam)
  | .supnorm => Sup.lagrangeProx x L lam
  | .l2norm => some (L2.lagrangeProx x L lam)
  | .positivePart => some (PosPart.lagrangeProx x L lam)
  | .constrainedMax => ConMax.lagrangeProx x L lam
  | .constrainedPositivePart => some (ConPosPart.lagrangeProx x L lam)
  | .maxPositivePart => MaxPosPart.lagrangeProx x L lam

/-- dispatch of `bound_prox` on the class -/
noncomputable def Klass.boundProx (k : Klass) (x : Fin (n + 1) → ℝ) (b : ℝ) : Option (Fin (n + 1) → ℝ) :=
  match k with
  | .l1norm => L1.boundProx x b
  | .supnorm => some (Sup.boundProx x b)
  | .l2norm => some (L2.boundProx x b)
  | .positivePart => PosPart.boundProx x b
  | .constrainedMax => some (ConMax.boundProx x b)
  | .constrainedPositivePart => ConPosPart.boundProx x b
  | .maxPositivePart => some (MaxPosPart.boundProx x b)

/-- `seminorm.proximal` of an object, `seminorms.py:285-364`: bound mode when `self.bound` is not `None`.  An object
with neither parameter set would fail in `get_lagrange`. -/
noncomputable def AtomObj.proximal (a : AtomObj (Fin (n + 1)) ℝ) (q : Quad (Fin (n + 1)) ℝ) :
    ProxResult (Fin (n + 1)) ℝ :=
  match a.st.bound, a.st.lagrange with
  | some b, _ => seminormProximal a.klass.lagrangeProx a.klass.boundProx (.bound b) a.offset a.quad (some q)
  | none, some l => seminormProximal a.klass.lagrangeProx a.klass.boundProx (.lagrange l) a.offset a.quad (some q)
  | none, none => .baseError

/-- the number, if it is not `np.inf` -/
noncomputable def finite? (x : WithTop ℝ) : Option ℝ := WithTop.recTopCoe none some x

/-- `nonsmooth.solve(quadratic, return_optimum=True)`, `composite.py:174-181`: the pair (value, argmin).
`self.objective` is `0. + nonsmooth_objective` without feasibility check.  `none`: an exception, or an infinite
value. -/
noncomputable def AtomObj.solve (a : AtomObj (Fin (n + 1)) ℝ) (q : Quad (Fin (n + 1)) ℝ) :
    Option (ℝ × (Fin (n + 1) → ℝ)) :=
  match a.proximal q with
  | .ok p => ((a.nonsmoothObjective p false).bind finite?).map fun v => (0 + v + q.funcVal p, p)
  | _ => none

/-- A `smooth_conjugate` object: `self.atom` and `self.smoothing_quadratic`. -/
structure SmoothConj (n : ℕ) where
  atom : AtomObj (Fin (n + 1)) ℝ
  smoothing : Quad (Fin (n + 1)) ℝ

/-- `smooth_conjugate.__init__`, `composite.py:228-253`: `none` is the ValueError for a total coefficient 0. -/
noncomputable def SmoothConj.init (atom : AtomObj (Fin (n + 1)) ℝ)
    (smoothing : Quad (Fin (n + 1)) ℝ := ⟨0, some (.scalar 0), some (.scalar 0), 0⟩) : Option (SmoothConj n) :=
  if (atom.quad.add (some smoothing)).coef = 0 then none else some ⟨atom, smoothing⟩

/-- the attribute `lipschitz` set by the constructor, `composite.py:250` (and `get_lipschitz` with zero
quadratic) -/
noncomputable def SmoothConj.lipschitz (s : SmoothConj n) : ℝ := 1 / (s.atom.quad.add (some s.smoothing)).coef

/-- the quadratic handed to the atom, `composite.py:380` -/
noncomputable def SmoothConj.query (s : SmoothConj n) (x : Fin (n + 1) → ℝ) : Quad (Fin (n + 1)) ℝ :=
  s.smoothing.add (some ⟨0, some (.scalar 0), some (.arr fun i => -x i), 0⟩)

/-- `smooth_conjugate.smooth_objective`, `composite.py:371-401`; a failing `atom.solve` is reported as `typeError`
(not reached in the theorems). -/
noncomputable def SmoothConj.smoothObjective (s : SmoothConj n) (x : Fin (n + 1) → ℝ) : Mode → Eval (n + 1)
  | .both => match s.atom.solve (s.query x) with
    | some (v, p) => .both (-v) p
    | none => .typeError
  | .grad => match s.atom.proximal (s.query x) with
    | .ok p => .grad p
    | _ => .typeError
  | .func => match s.atom.solve (s.query x) with
    | some (v, _) => .val (-v)
    | none => .typeError
  | .other => .valueError

/-- Outcome of `smoothed`. -/
inductive SmoothedResult (n : ℕ)
  | ok (s : SmoothConj n)
  | valueError
  /-- `smooth_conjugate(..., quadratic=newq)` is called with an unknown keyword: `composite.py:318` -/
  | typeError
  /-- the conjugate is again an atom (total coefficient 0) -/
  | atom (a : AtomObj (Fin (n + 1)) ℝ)

/-- `atom.smoothed`, `atoms/__init__.py:71-86`, for a seminorm: the conjugate gets the quadratic
`smoothing_quadratic + conjugate.quadratic` and is conjugated again. -/
noncomputable def AtomObj.smoothed (a : AtomObj (Fin (n + 1)) ℝ) (q : Quad (Fin (n + 1)) ℝ) : SmoothedResult n :=
  match a.getConjugate with
  | .raised _ => .valueError
  | .smoothConjugate _ => if q.coef = 0 then .valueError else .typeError
  | .atom c =>
    if q.coef = 0 then .valueError
    else
      let c' : AtomObj (Fin (n + 1)) ℝ := { c with quad := q.add (some c.quad) }
      match c'.getConjugate with
      | .raised _ => .valueError
      | .atom d => .atom d
      | .smoothConjugate d => match SmoothConj.init d with
        | none => .valueError
        | some s => .ok s

end Verif.Model
