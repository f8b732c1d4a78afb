import Verif.Model.AtomRegression
import Verif.Model.MixedObj

/-!
# Model of `==` and `copy` for the penalties and for `identity_quadratic`

A penalty of shape `(p+1,)` is its class with the parameters of the class, the mode (`lagrange`, `bound`), the offset and the
quadratic.  Only the classes whose value and proximal map are modelled in `Model/AtomRegression.lean` are listed; the classes
on matrices inherit the methods of `seminorm` and `cone`.
-/

namespace Verif.Model

open Classical

/-- a class with its own parameters.  `groupLasso`, `sparseGroup`: the labels and the dictionary `weights` given by the caller -/
inductive PenaltyClass (p : ℕ) where
  | plain (k : Klass)
  | weighted (w : Fin (p + 1) → WithTop ℝ)
  | slope (w : Fin (p + 1) → ℝ)
  | groupLasso (lab : Fin (p + 1) → ℤ) (weights : ℤ → Option ℝ)
  | sparseGroup (lab : Fin (p + 1) → ℤ) (lasso : Fin (p + 1) → ℝ) (weights : ℤ → Option ℝ)
  | mixed (lab : Fin (p + 1) → ℤ) (weights : ℤ → Option ℝ)
  | nonnegative | nonpositive | zero | zeroConstraint | simplex | maximum
  | projection (k : ℕ) (basis : Fin k → Fin (p + 1) → ℝ)
  | complement (k : ℕ) (basis : Fin k → Fin (p + 1) → ℝ)

/-- a penalty object -/
structure Penalty (p : ℕ) where
  cls : PenaltyClass p
  st : AtomState ℝ
  offset : Option (PyVec (Fin (p + 1)) ℝ)
  quad : Quad (Fin (p + 1)) ℝ

namespace Penalty

variable {p p' : ℕ}

/-- the attribute `weights` of a group LASSO, `group_lasso.py:57`, 66-72: the dictionary of the caller, completed with the
square root of the size of each group it does not mention -/
noncomputable def groupDict (lab : Fin (p + 1) → ℤ) (weights : ℤ → Option ℝ) (g : ℤ) : Option ℝ :=
  if ∃ i, lab i = g then
    some ((weights g).getD (Real.sqrt ((List.finRange (p + 1)).filter fun i => lab i = g).length))
  else weights g

/-- the mode the constructor of the class accepts: `seminorm.__init__` (`seminorms.py:34-58`), a required `lagrange` for
`mixed_lasso` (`mixed_lasso.py:46-79`), none for the cones, `simplex_constraint` and `maximum`; `none` is a ValueError or a
TypeError for a missing or unknown keyword.  The checks of the weights (`weighted_atoms.py:42-43`, `slope.py:48-51`) and
of the array shapes are left out. -/
noncomputable def ctorMode (c : PenaltyClass p) (lagrange bound : Option ℝ) : Option (AtomState ℝ) :=
  match c with
  | .plain _ | .weighted _ | .slope _ | .groupLasso .. | .sparseGroup .. =>
    match AtomState.init lagrange bound with
    | .ok st => some st
    | .error _ => none
  | .mixed .. => match lagrange, bound with
    | some l, none => some ⟨some l, none⟩
    | _, _ => none
  | _ => match lagrange, bound with
    | none, none => some ⟨none, none⟩
    | _, _ => none

/-- the attribute dictionaries the constructor fills in, `group_lasso.py:57`, 66-72; `mixed_lasso.py:57` keeps the argument -/
noncomputable def ctorClass : PenaltyClass p → PenaltyClass p
  | .groupLasso lab w => .groupLasso lab (groupDict lab w)
  | .sparseGroup lab a w => .sparseGroup lab a (groupDict lab w)
  | c => c

/-- the constructor of the class: mode, then `composite.__init__` (`problems/composite.py:20-47`: a zero offset is read back
as `None`, no quadratic means `sq(0,0,0,0)`) -/
noncomputable def new (c : PenaltyClass p) (lagrange bound : Option ℝ) (offset : Option (PyVec (Fin (p + 1)) ℝ))
    (quadratic : Option (Quad (Fin (p + 1)) ℝ)) : Option (Penalty p) :=
  (ctorMode c lagrange bound).map fun st =>
    ⟨ctorClass c, st, ctorOffset offset, quadratic.getD ⟨0, some (.scalar 0), some (.scalar 0), 0⟩⟩

/-- `__copy__` of every class: the constructor with the parameters of the object (`seminorms.py:136-141`,
`weighted_atoms.py:53-59`, `slope.py:90-96`, `group_lasso.py:99-106`, `sparse_group_lasso.py:119-127`,
`mixed_lasso.py:90-96`, `cones.py:40-44`, `linear_constraints.py:53-57`, `simplex.py:27-30`, 159-162).  Which arrays
are shared is `Model/AtomHeap.lean`. -/
noncomputable def copy (A : Penalty p) : Option (Penalty p) :=
  new A.cls A.st.lagrange A.st.bound A.offset (some A.quad)

/-- `np.allclose(a, b)` at one entry with the default `rtol=1e-5`, `atol=1e-8` -/
def Close (a b : ℝ) : Prop := |a - b| ≤ 1 / 10 ^ 8 + 1 / 10 ^ 5 * |b|

/-- equality of two integer arrays of the shapes of the objects, after the test `self.shape == other.shape` -/
def SameLabels (lab : Fin (p + 1) → ℤ) (lab' : Fin (p' + 1) → ℤ) : Prop :=
  ∃ h : p = p', ∀ i, lab i = lab' (Fin.cast (by rw [h]) i)

/-- `np.all(np.equal(self.weights, other.weights))`, `weighted_atoms.py:47`: arrays of length 1 are broadcast, other
different lengths raise ValueError (`none`) -/
noncomputable def weightsEqual (w : Fin (p + 1) → WithTop ℝ) (w' : Fin (p' + 1) → WithTop ℝ) : Option Bool :=
  if h : p = p' then some (decide (∀ i, w i = w' (Fin.cast (by rw [h]) i)))
  else if p = 0 then some (decide (∀ j, w 0 = w' j))
  else if p' = 0 then some (decide (∀ i, w i = w' 0))
  else none

/-- row `r` of a basis after broadcasting along the first axis -/
def bcRow {n k : ℕ} (basis : Fin k → Fin n → ℝ) (r : ℕ) (j : Fin n) : ℝ :=
  if h : r < k then basis ⟨r, h⟩ j else if h : 0 < k then basis ⟨0, h⟩ j else 0

/-- `np.allclose(other.basis, self.basis)` for bases with the same number of columns, `linear_constraints.py:50`; `none`:
the numbers of rows cannot be broadcast (ValueError) -/
noncomputable def basesClose {n k k' : ℕ} (basis : Fin k → Fin n → ℝ) (basis' : Fin k' → Fin n → ℝ) : Option Bool :=
  if k = k' ∨ k = 1 ∨ k' = 1 then
    some (decide (∀ r < if k = 1 then k' else k, ∀ j, Close (bcRow basis' r j) (bcRow basis r j)))
  else none

/-- `linear_constraint.__eq__` for two objects of the same class, `linear_constraints.py:47-51` -/
noncomputable def linearEq {k k' : ℕ} (basis : Fin k → Fin (p + 1) → ℝ) (basis' : Fin k' → Fin (p' + 1) → ℝ) : Option Bool :=
  if h : p = p' then basesClose basis (fun r j => basis' r (Fin.cast (by rw [h]) j)) else some false

/-- `A == B`; `none` is an exception.  `seminorm.__eq__` (`seminorms.py:129-134`) is the method of `slope` as well,
`group_lasso.__eq__` (`group_lasso.py:91-97`) that of `sparse_group_lasso`; further `weighted_atoms.py:45-51`,
`mixed_lasso.py:82-88`, `cones.py:35-38`, `simplex.py:22-25`, 154-157 and `linear_constraints.py:47-51`.  Objects of
different classes are not equal. -/
noncomputable def eq (A : Penalty p) (B : Penalty p') : Option Bool :=
  match A.cls, B.cls with
  | .plain k, .plain k' => some (decide (k = k' ∧ A.st.eq B.st))
  | .slope _, .slope _ => some (decide (A.st.eq B.st))
  | .weighted w, .weighted w' => (weightsEqual w w').map fun e => decide (A.st.eq B.st) && e
  | .groupLasso lab d, .groupLasso lab' d' =>
    some (decide (SameLabels lab lab' ∧ d = d' ∧ A.st.lagrange = B.st.lagrange))
  | .sparseGroup lab _ d, .sparseGroup lab' _ d' =>
    some (decide (SameLabels lab lab' ∧ d = d' ∧ A.st.lagrange = B.st.lagrange))
  | .mixed lab d, .mixed lab' d' =>
    some (decide (SameLabels lab lab' ∧ d = d' ∧ A.st.lagrange = B.st.lagrange))
  | .nonnegative, .nonnegative | .nonpositive, .nonpositive | .zero, .zero | .zeroConstraint, .zeroConstraint
  | .simplex, .simplex | .maximum, .maximum => some (decide (p = p'))
  | .projection _ b, .projection _ b' => linearEq b b'
  | .complement _ b, .complement _ b' => linearEq b b'
  | _, _ => some false

/-- numerical routines the values and proximal maps depend on, fixed once: the order chosen by `np.argsort`, the isotonic
regression, the order in which a Python set of labels is enumerated -/
structure Env where
  sort : ∀ {n : ℕ}, (Fin n → ℝ) → List (ℝ × ℝ)
  iso : ∀ {n : ℕ}, (Fin n → ℝ) → Option (Fin n → ℝ)
  arg : ∀ {n : ℕ}, (Fin n → ℝ) → Equiv.Perm (Fin n)
  enum : ∀ {n : ℕ}, (Fin n → ℤ) → List ℤ

/-- `sorted(np.unique(self.groups))`, `group_lasso.py:62` -/
def sortedIds (lab : Fin (p + 1) → ℤ) : List ℤ := (List.ofFn lab).dedup.mergeSort (fun a b => a ≤ b)

lemma mem_sortedIds (lab : Fin (p + 1) → ℤ) (i : Fin (p + 1)) : lab i ∈ sortedIds lab := by
  rw [sortedIds, List.mem_mergeSort, List.mem_dedup, List.mem_ofFn]
  exact ⟨i, rfl⟩

/-- `self._group_array`, `group_lasso.py:58`, 65-67 -/
def groupIndex (lab : Fin (p + 1) → ℤ) (i : Fin (p + 1)) : Fin (sortedIds lab).length :=
  ⟨(sortedIds lab).idxOf (lab i), List.idxOf_lt_length_of_mem (mem_sortedIds lab i)⟩

/-- `self._weight_array`, `group_lasso.py:63`, 70-71, read from the completed dictionary -/
noncomputable def weightArray (lab : Fin (p + 1) → ℤ) (dict : ℤ → Option ℝ) (j : Fin (sortedIds lab).length) : ℝ :=
  (dict (sortedIds lab)[j]).getD 1

/-- the parameter a seminorm works with: `bound` if it is set -/
def param (st : AtomState ℝ) : AtomParam ℝ :=
  match st.bound with
  | some b => .bound b
  | none => .lagrange (st.lagrange.getD 0)

/-- the observable behaviour of the object: `proximal` and `nonsmooth_objective` of its class
(`Model/AtomRegression.lean`) -/
noncomputable def atom (env : Env) (A : Penalty p) : NonsmoothAtom (p + 1) :=
  match A.cls with
  | .plain k => (AtomObj.mk k A.st A.offset A.quad).toAtom
  | .weighted w => (Weighted.l1cls w env.sort).atom (param A.st) A.offset A.quad
  | .slope w => (Slope.cls env.iso env.arg w).atom (param A.st) A.offset A.quad
  | .groupLasso lab d => (GroupLasso.cls (groupIndex lab) (weightArray lab d) env.sort).atom (param A.st) A.offset A.quad
  | .sparseGroup lab a d => (SparseGroup.cls (groupIndex lab) a (weightArray lab d)).atom (param A.st) A.offset A.quad
  | .mixed lab d =>
    let M : MixedObj (p + 1) := ⟨false, lab, d, env.enum lab, A.st.lagrange.getD 0, A.offset, A.quad⟩
    mixedLassoAtom M.kind M.weightArray (A.st.lagrange.getD 0) A.offset A.quad
  | .nonnegative => Cone.nonnegCls.atom A.offset A.quad
  | .nonpositive => Cone.nonposCls.atom A.offset A.quad
  | .zero => Cone.zeroCls.atom A.offset A.quad
  | .zeroConstraint => Cone.zeroConstraintCls.atom A.offset A.quad
  | .simplex => Simplex.cls.atom A.offset A.quad
  | .maximum => Maximum.atom A.offset A.quad
  | .projection _ b => (LinCon.projectionCls b).atom A.offset A.quad
  | .complement _ b => (LinCon.complementCls b).atom A.offset A.quad

end Penalty

namespace Quad

variable {ι : Type*} [Fintype ι]

/-- `allclose(a, b)` for `center` or `linear_term`: `None` raises TypeError (`none`); a float is broadcast -/
noncomputable def closeVec (a b : Option (PyVec ι ℝ)) : Option Bool :=
  match a, b with
  | some (.scalar x), some (.scalar y) => some (decide (Penalty.Close x y))
  | some x, some y => some (decide (∀ i, Penalty.Close (x.get i) (y.get i)))
  | _, _ => none

/-- `identity_quadratic.__eq__` with another quadratic, `identity_quadratic.py:33-38`: `and` stops at the first `False`;
`none` is the TypeError of `allclose(None, ...)`.  (With any other object the method returns `None`.) -/
noncomputable def eq (q r : Quad ι ℝ) : Option Bool :=
  if ¬ Penalty.Close q.coef r.coef then some false
  else match closeVec q.center r.center with
    | none => none
    | some false => some false
    | some true => match closeVec q.linear r.linear with
      | none => none
      | some false => some false
      | some true => some (decide (Penalty.Close q.const r.const))

/-- `identity_quadratic.noneify`, `identity_quadratic.py:76-87`; `none`: AttributeError, line 86 reads an attribute
`center_term` that does not exist.  (The assignment to `linear_term` on line 85 has then been made; the object is mutated in
place, here the new value is returned.) -/
noncomputable def noneify (q : Quad ι ℝ) : Option (Quad ι ℝ) :=
  match q.center with
  | some _ => none
  | none => some { q with linear := match q.linear with
      | some l => if l.allZero then none else some l
      | none => none }

end Quad

end Verif.Model
