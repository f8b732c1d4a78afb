import Verif.Model.AtomMode
import Verif.Model.IdentityQuadratic
import Verif.Model.L2Norm

/-!
# Model of `seminorm.get_conjugate`, `seminorm.nonsmooth_objective` and `_work_out_conjugate`
-/

namespace Verif.Model

/-- the seminorm classes with a registered conjugate, `seminorms.py:1163-1169` -/
inductive Klass where
  | l1norm | supnorm | l2norm | positivePart | constrainedMax | constrainedPositivePart | maxPositivePart
  deriving DecidableEq

/-- `conjugate_seminorm_pairs`, `seminorms.py:1163-1169`. -/
def Klass.conj : Klass → Klass
  | .l1norm => .supnorm
  | .supnorm => .l1norm
  | .l2norm => .l2norm
  | .positivePart => .constrainedMax
  | .constrainedMax => .positivePart
  | .constrainedPositivePart => .maxPositivePart
  | .maxPositivePart => .constrainedPositivePart

/-- A seminorm object: class, parameters, offset and quadratic. -/
structure AtomObj (ι K : Type*) where
  klass : Klass
  st : AtomState K
  offset : Option (PyVec ι K)
  quad : Quad ι K

section
variable {ι K : Type*} [Fintype ι] [Field K] [LinearOrder K]

/-- `composite.set_offset` in the constructor, `problems/composite.py:41-54`: `_offset` is not set yet, so an
all-zero value reads back as `None`. -/
def ctorOffset (value : Option (PyVec ι K)) : Option (PyVec ι K) :=
  match value with
  | none => none
  | some v => if v.allZero then none else some v

/-- `np.sum(v)` of a float or array -/
def PyVec.npSum : PyVec ι K → K
  | .scalar c => c
  | .arr v => ∑ i, v i

/-- `_work_out_conjugate`, `atoms/__init__.py:203-226`. -/
def workOutConjugate (offset : Option (PyVec ι K)) (q : Quad ι K) : Option (PyVec ι K) × Quad ι K :=
  let off : PyVec ι K := offset.getD (.scalar 0)                -- 210-213
  let lin : PyVec ι K := q.linear.getD (.scalar 0)              -- 214-217
  (q.linear,                                                    -- 222-225
   Quad.init (some 0) (some (.scalar 0)) (some off)
     (some (-q.const - (PyVec.map₂ (· * ·) off lin).npSum)))    -- 218-220

/-- outcome of `get_conjugate` -/
inductive ConjResult (ι K : Type*) where
  | atom (a : AtomObj ι K)
  | smoothConjugate (a : AtomObj ι K)
  | raised (e : PyExc)

/-- `seminorm.get_conjugate`, `seminorms.py:177-202` (the `_conjugate` cache written on lines 199-200 is never
read). -/
def AtomObj.getConjugate (a : AtomObj ι K) : ConjResult ι K :=
  if a.quad.coef = 0 then
    let r := workOutConjugate a.offset a.quad
    match AtomState.init a.st.bound a.st.lagrange with
    | .ok st => .atom ⟨a.klass.conj, st, ctorOffset r.1, r.2⟩
    | .error e => .raised e
  else .smoothConjugate a

/-- `composite.apply_offset`, `problems/composite.py:112-118`. -/
def AtomObj.applyOffset (a : AtomObj ι K) (x : ι → K) : ι → K :=
  match a.offset with
  | some o => fun i => x i - o.get i
  | none => x

end

variable {n : ℕ}

/-- dispatch of `seminorm(x, check_feasibility=...)` on the class -/
noncomputable def Klass.seminorm (k : Klass) (x : Fin (n + 1) → ℝ) (lagrange : ℝ) (cf : Bool) : WithTop ℝ :=
  match k with
  | .l1norm => ((L1.seminorm x lagrange : ℝ) : WithTop ℝ)
  | .supnorm => ((Sup.seminorm x lagrange : ℝ) : WithTop ℝ)
  | .l2norm => ((L2.seminorm x lagrange : ℝ) : WithTop ℝ)
  | .positivePart => ((PosPart.seminorm x lagrange : ℝ) : WithTop ℝ)
  | .constrainedMax => ConMax.seminorm x lagrange cf
  | .constrainedPositivePart => ConPosPart.seminorm x lagrange cf
  | .maxPositivePart => ((MaxPosPart.seminorm x lagrange : ℝ) : WithTop ℝ)

/-- dispatch of `constraint(x)` on the class -/
noncomputable def Klass.constraint (k : Klass) (x : Fin (n + 1) → ℝ) (bound : ℝ) : WithTop ℝ :=
  match k with
  | .l1norm => L1.constraint x bound
  | .supnorm => Sup.constraint x bound
  | .l2norm => L2.constraint x bound
  | .positivePart => PosPart.constraint x bound
  | .constrainedMax => ConMax.constraint x bound
  | .constrainedPositivePart => ConPosPart.constraint x bound
  | .maxPositivePart => MaxPosPart.constraint x bound

/-- `seminorm.nonsmooth_objective`, `seminorms.py:451-490`.  `none`: neither parameter is set, ValueError from
`get_lagrange`. -/
noncomputable def AtomObj.nonsmoothObjective (a : AtomObj (Fin (n + 1)) ℝ) (x : Fin (n + 1) → ℝ) (cf : Bool) :
    Option (WithTop ℝ) :=
  let xo := a.applyOffset x
  match a.st.bound with
  | some b =>
    let value := if cf then a.klass.constraint xo b else 0
    some (value + ((a.quad.funcVal x : ℝ) : WithTop ℝ))
  | none =>
    match a.st.lagrange with
    | some l => some (a.klass.seminorm xo l cf + ((a.quad.funcVal x : ℝ) : WithTop ℝ))
    | none => none

end Verif.Model
