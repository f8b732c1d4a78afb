import Verif.Model.DualProblem
import Verif.Model.AffineAtom

/-!
# Model of `regreg/problems/container.py`

Arrays are one dimensional and all atoms have the same shape.  A smooth atom is its `smooth_objective` and its
quadratic; the solver used for the dual problem inside `proximal` and the solver used in `solve` are parameters.
-/

namespace Verif.Model

open Verif.Spec (Mode Eval)

variable {n : ℕ}

/-- A nonsmooth atom in a container: the pair `atom.dual = (T, dual)`, the method `proximal` of `dual.conjugate`, and
`nonsmooth_objective(·, check_feasibility)`. -/
structure ContAtom (n : ℕ) where
  k : ℕ
  T : Aff ℝ n k
  dual : DualAtom k
  conjProx : Quad (Fin k) ℝ → ProxResult (Fin k) ℝ
  value : (Fin n → ℝ) → Bool → WithTop ℝ

/-- A smooth atom; its `nonsmooth_objective` is the value of its quadratic, `composite.py:72-73`. -/
structure ContSmooth (n : ℕ) where
  obj : Objective n
  quad : Quad (Fin n) ℝ

/-- An argument of the constructor. -/
inductive ContArg (n : ℕ)
  | nonsmooth (a : ContAtom n)
  | smooth (a : ContSmooth n)
  | other

/-- A `container` object. -/
structure Container (n : ℕ) where
  nonsmooth : List (ContAtom n)
  smooth : List (ContSmooth n)
  quadratic : Quad (Fin n) ℝ

/-- Outcome of the constructor. -/
inductive ContInit (n : ℕ)
  | ok (c : Container n)
  | valueError
  | indexError

/-- the cone `zero(shape)`, `cones.py:383-418`: its dual is `(identity, zero_constraint)`, whose conjugate is `zero` -/
noncomputable def zeroContAtom (n : ℕ) : ContAtom n :=
  ⟨n, .identity, zeroDualAtom n, fun q => coneProximal some none ⟨0, some (.scalar 0), some (.scalar 0), 0⟩ (some q),
    fun _ _ => 0⟩

/-- the loop over the arguments, `container.py:29-38`; `none`: ValueError -/
def Container.collect : List (ContArg n) → Option (List (ContAtom n) × List (ContSmooth n))
  | [] => some ([], [])
  | .nonsmooth a :: l => (Container.collect l).map fun p => (a :: p.1, p.2)
  | .smooth a :: l => (Container.collect l).map fun p => (p.1, a :: p.2)
  | .other :: _ => none

/-- `container.__init__`, `container.py:26-50`.  The attribute `quadratic` is created on first use with all fields
`None`, `composite.py:125-131`. -/
noncomputable def Container.init (args : List (ContArg n)) : ContInit n :=
  match Container.collect args with
  | none => .valueError                                                        -- 38
  | some ([], []) => .valueError                                               -- 40-41
  | some (_ :: _, []) => .indexError                                           -- 46: `self.smooth_atoms[0]`
  | some ([], s) => .ok ⟨[zeroContAtom n], s, Quad.init none none none none⟩   -- 43-44
  | some (a, s) => .ok ⟨a, s, Quad.init none none none none⟩

namespace Container

/-- `self.smoothq`, `container.py:49-51` -/
noncomputable def smoothq (C : Container n) : Quad (Fin n) ℝ :=
  C.smooth.foldl (fun q a => q.add (some a.quad)) ⟨0, some (.scalar 0), some (.scalar 0), 0⟩

/-- loop of mode 'func', `container.py:60-62` -/
noncomputable def funcLoop (x : Fin n → ℝ) : List (ContSmooth n) → ℝ → Eval n
  | [], v => .val v
  | a :: l, v => match a.obj x .func with
    | .val w => funcLoop x l (v + w)
    | .valueError => .valueError
    | _ => .typeError

/-- loop of mode 'both', `container.py:65-69` -/
noncomputable def bothLoop (x : Fin n → ℝ) : List (ContSmooth n) → ℝ → (Fin n → ℝ) → Eval n
  | [], v, g => .both v g
  | a :: l, v, g => match a.obj x .both with
    | .both w h => bothLoop x l (v + w) fun i => g i + h i
    | .valueError => .valueError
    | _ => .typeError

/-- loop of mode 'grad', `container.py:73-75` -/
noncomputable def gradLoop (x : Fin n → ℝ) : List (ContSmooth n) → (Fin n → ℝ) → Eval n
  | [], g => .grad g
  | a :: l, g => match a.obj x .grad with
    | .grad h => gradLoop x l fun i => g i + h i
    | .valueError => .valueError
    | _ => .typeError

/-- `smooth_objective`, `container.py:53-78` -/
noncomputable def smoothObjective (C : Container n) : Objective n := fun x mode =>
  match mode with
  | .func => funcLoop x C.smooth 0
  | .both => bothLoop x C.smooth 0 fun _ => 0
  | .grad => gradLoop x C.smooth fun _ => 0
  | .other => .valueError

/-- `nonsmooth_objective`, `container.py:80-86` -/
noncomputable def nonsmoothObjective (C : Container n) (x : Fin n → ℝ) (cf : Bool) : WithTop ℝ :=
  let v := C.nonsmooth.foldl (fun v a => v + a.value x cf) 0
  let v := C.smooth.foldl (fun v a => v + ((a.quad.funcVal x : ℝ) : WithTop ℝ)) v
  v + ((C.quadratic.funcVal x : ℝ) : WithTop ℝ)

/-- `composite.objective`, `composite.py:82-83`; `none`: the smooth part did not return a number -/
noncomputable def objective (C : Container n) (x : Fin n → ℝ) (cf : Bool) : Option (WithTop ℝ) :=
  match C.smoothObjective x .func with
  | .val v => some ((v : WithTop ℝ) + C.nonsmoothObjective x cf)
  | _ => none

/-- `proxq + self.quadratic + self.smoothq`, `container.py:109`, 149 -/
noncomputable def totalq (C : Container n) (proxq : Quad (Fin n) ℝ) : Quad (Fin n) ℝ :=
  (proxq.add (some C.quadratic)).add (some C.smoothq)

/-- `zero_nonsmooth(shape)` with `quadratic = q`, conjugated: the `smooth_conjugate` object of `container.py:108-110`,
whose `smooth_objective` is `composite.py:371-401` with `solve` of `composite.py:174-181`.  A failing `proximal` is
reported as `typeError`. -/
noncomputable def conjOfQuad (q : Quad (Fin n) ℝ) : Objective n := fun x mode =>
  let query : Quad (Fin n) ℝ := (⟨0, some (.scalar 0), some (.scalar 0), 0⟩ : Quad (Fin n) ℝ).add
    (some ⟨0, some (.scalar 0), some (.arr fun i => -x i), 0⟩)                 -- composite.py:380
  match mode with
  | .other => .valueError
  | .grad => match coneProximal some none q (some query) with
    | .ok p => .grad p
    | _ => .typeError
  | .both => match coneProximal some none q (some query) with
    | .ok p => .both (-(0 + (0 + q.funcVal p) + query.funcVal p)) p
    | _ => .typeError
  | .func => match coneProximal some none q (some query) with
    | .ok p => .val (-(0 + (0 + q.funcVal p) + query.funcVal p))
    | _ => .typeError

/-- `stacked_dual(shape, *self.nonsmooth_atoms)`, `container.py:46` -/
noncomputable def stack (C : Container n) : (k : ℕ) × Aff ℝ n k × DualAtom k :=
  stackedDual n (fun i : Fin C.nonsmooth.length => (C.nonsmooth.get i).k) (fun i => (C.nonsmooth.get i).T)
    fun i => (C.nonsmooth.get i).dual

/-- the dual problem built by `proximal`, `container.py:107-113` -/
noncomputable def dualProblem (C : Container n) (proxq : Quad (Fin n) ℝ) : DualProblem n C.stack.1 :=
  ⟨conjOfQuad (C.totalq proxq), C.stack.2.1, C.stack.2.2⟩

/-- `container.py:140-145`: `x - grad / lipschitz - transform.adjoint_map(u / lipschitz)` -/
noncomputable def primalPoint {k : ℕ} (T : Aff ℝ n k) (proxq : Quad (Fin n) ℝ) (u : Fin k → ℝ) : ProxResult (Fin n) ℝ :=
  match proxq.center, proxq.linear with
  | some x, some g => .ok fun j => x.get j - g.get j / proxq.coef - T.adj (fun i => u i / proxq.coef) j
  | _, _ => .typeError

/-- `z[index_obj] = w` where `w` has length `k` and `index_obj` selects `r` entries; another length is a broadcasting
error -/
noncomputable def assign {r k : ℕ} (z : Fin n → ℝ) (idx : Fin r → Fin n) (w : Fin k → ℝ) : ProxResult (Fin n) ℝ :=
  if h : r = k then .ok (Selector.put ⟨r, idx⟩ z fun j => w (Fin.cast h j)) else .valueError

/-- the quadratic `q[index_obj]` handed to an atom on arrays of length `k`; for another length the arithmetic inside
`proximal` fails -/
noncomputable def restrictTo {r k : ℕ} (q : Quad (Fin n) ℝ) (idx : Fin r → Fin n) (h : r = k) : Quad (Fin k) ℝ :=
  h ▸ q.restrict ⟨r, idx⟩

/-- selector case, `container.py:152-155`, where `q` is the total quadratic; `x` is the float `0.` -/
noncomputable def selectorProx {r k : ℕ} (idx : Fin r → Fin n) (conjProx : Quad (Fin k) ℝ → ProxResult (Fin k) ℝ)
    (q : Quad (Fin n) ℝ) : ProxResult (Fin n) ℝ :=
  match q.center, q.linear with
  | some x, some (.arr l) =>
    if h : r = k then
      match conjProx (restrictTo q idx h) with
      | .ok w => assign (fun i => x.get i - l i / q.coef) idx w
      | .valueError => .valueError
      | .typeError => .typeError
      | .scalarArgument => .scalarArgument
      | .baseError => .baseError
    else .valueError
  | _, _ => .typeError                                                          -- a float does not support `z[...] =`

/-- branch `container.py:147-156` for one transform; `none`: the transform is neither an identity nor a selector -/
noncomputable def directProx : {n k : ℕ} → Aff ℝ n k → (Quad (Fin k) ℝ → ProxResult (Fin k) ℝ) → Quad (Fin n) ℝ →
    Option (ProxResult (Fin n) ℝ)
  | _, _, .identity, conjProx, q => some (conjProx q)
  | _, _, .selector idx _, conjProx, q => some (selectorProx idx conjProx q)
  | _, _, _, _, _ => none

/-- the test of line 97: with two or more nonsmooth atoms the transform is a `vstack` -/
noncomputable def direct (C : Container n) (q : Quad (Fin n) ℝ) : Option (ProxResult (Fin n) ℝ) :=
  match C.nonsmooth with
  | [a] => directProx a.T a.conjProx q
  | _ => none

/-- `proximal`, `container.py:89-156`, where `fit` is the solver of the dual problem. -/
noncomputable def proximal (C : Container n) (fit : (k : ℕ) → DualProblem n k → Fin k → ℝ) (proxq : Quad (Fin n) ℝ) :
    ProxResult (Fin n) ℝ :=
  match C.direct (C.totalq proxq) with
  | some r => r                                                                -- 148-156
  | none => primalPoint C.stack.2.1 proxq (fit _ (C.dualProblem proxq))        -- 99-145

/-- `solve(quadratic)`, `container.py:158-172`, where `fit` is FISTA applied to the container: the coefficients returned
and the value of the attribute `quadratic` afterwards.  `newq` is computed on line 160 and never used. -/
noncomputable def solve (C : Container n) (fit : Container n → Fin n → ℝ) (quadratic : Option (Quad (Fin n) ℝ)) :
    (Fin n → ℝ) × Quad (Fin n) ℝ :=
  let oldnew := match quadratic with
    | some q => (C.quadratic, C.quadratic.add (some q))                        -- 160
    | none => (C.quadratic, C.quadratic)                                       -- 162
  (fit C, oldnew.1)                                                            -- 164-172

end Container

/-- an `affine_atom` built from a seminorm as member of a container; `none`: its dual or the conjugate of that is not an
atom -/
noncomputable def AffAtom.toCont {m k : ℕ} (A : AffAtom m k) : Option (ContAtom m) :=
  match A.dual with
  | some (D, .atom g) => match g.getConjugate with
    | .atom c => some ⟨k + 1, D, g.asDual, c.proximal, fun x cf => (A.nonsmoothObjective x cf).getD ⊤⟩
    | _ => none
  | _ => none

/-- a seminorm atom as member of a container: `linear_transform` is the identity, `atoms/__init__.py:46-59` -/
noncomputable def AtomObj.toCont {k : ℕ} (a : AtomObj (Fin (k + 1)) ℝ) : Option (ContAtom (k + 1)) :=
  match a.getConjugate with
  | .atom g => match g.getConjugate with
    | .atom c => some ⟨k + 1, .identity, g.asDual, c.proximal, fun x cf => (a.nonsmoothObjective x cf).getD ⊤⟩
    | _ => none
  | _ => none

end Verif.Model
