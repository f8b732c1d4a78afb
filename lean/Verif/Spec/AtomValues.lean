import Verif.Model.AtomHeap

/-!
# Atoms as independent values

The specification for programs that make, copy, conjugate, compose and modify atoms: no references at all.  The state is
a list of records, a call names one record, and reads and writes that record only.
-/

namespace Verif.Spec
open Verif.Model Verif.Model.AtomHeap

variable {K : Type*} [Field K] [LinearOrder K]

/-- the atoms and the offsets of the transforms of a program -/
structure AtomWorld (K : Type*) where
  atoms : List (View K)
  trans : List (List K)

/-- an array of zeros is the same as no offset -/
def dropZero (o : Option (List K)) : Option (List K) := o.filter fun l => l.any (· ≠ 0)

/-- lagrange and bound as the constructor accepts them -/
def modeOf (f : Family) (lagrange bound : Option K) : Option (AtomState K) :=
  if f.isSeminorm then (AtomState.init lagrange bound).toOption else some ⟨lagrange, bound⟩

/-- a copy: the same class, parameters, offset and quadratic; derived arrays recomputed; the classes that drop the
coefficients start at 0 -/
def copyView (v : View K) : Option (View K) :=
  if v.fam = .blockSum then none else
  (modeOf v.fam v.mode.lagrange v.mode.bound).map fun m =>
    { v with mode := m, snap := (v.par, v.dict), offset := dropZero v.offset,
             coefs := if v.fam.keepsCoefs then v.coefs else List.replicate v.size 0 }

/-- the linear term as an array, if there is one -/
def linArr : Option (Val K) → Option (List K)
  | some (.arr l) => some l
  | _ => none

/-- a float other than 0 -/
def isFloat : Option (Val K) → Bool
  | some (.scalar c) => c ≠ 0
  | _ => false

/-- the conjugate: linear term and offset change places -/
def conjView (v : View K) : Option (View K) :=
  if (v.fam = .seminorm ∨ v.fam = .cone ∨ v.fam = .simplex) ∧ v.quad.coef = 0 ∧ isFloat v.quad.linear = false then
    (modeOf v.fam v.mode.bound v.mode.lagrange).map fun m =>
      ⟨v.fam, v.tag, !v.dual, v.size, m, [], [], ([], []), dropZero (linArr v.quad.linear),
        ⟨0, some (.scalar 0), some ((v.offset.map Val.arr).getD (.scalar 0)),
          -v.quad.const - (List.zipWith (· * ·) (v.offset.getD []) ((linArr v.quad.linear).getD [])).sum⟩,
        List.replicate v.size 0⟩
  else none

/-- the atom inside the composition with an affine map of offset `alpha` -/
def affineView (v : View K) (alpha : List K) : Option (View K) :=
  (copyView v).bind fun c => match c.offset with
    | some o => if o.length = alpha.length then some { c with offset := some (List.zipWith (· + ·) o alpha) } else none
    | none => some { c with offset := dropZero (some alpha) }

/-- change an array if the attribute is one -/
def overwrite (l : List K) : Option (Val K) → Option (Val K)
  | some (.arr _) => some (.arr l)
  | v => v

/-- what a call does to the record it names -/
def applyOp : Op K → View K → View K
  | .setLagrange _ x, v =>
    { v with mode := if v.fam.isSeminorm then (AtomState.step v.mode (.setLagrange x)).1 else ⟨x, v.mode.bound⟩ }
  | .setBound _ x, v =>
    { v with mode := if v.fam.isSeminorm then (AtomState.step v.mode (.setBound x)).1 else ⟨v.mode.lagrange, x⟩ }
  | .setOffset _ none, v => { v with offset := none }
  | .setOffset _ (some l), v => if l.any (· ≠ 0) then { v with offset := some l } else v
  | .setQuadratic _ q, v => { v with quad := q }
  | .solve _ x, v => { v with coefs := x }
  | .quadCoef _ c, v => { v with quad := { v.quad with coef := c } }
  | .quadConst _ c, v => { v with quad := { v.quad with const := c } }
  | .centerWrite _ l, v => { v with quad := { v.quad with center := overwrite l v.quad.center } }
  | .linearWrite _ l, v => { v with quad := { v.quad with linear := overwrite l v.quad.linear } }
  | .offsetWrite _ l, v => { v with offset := v.offset.map fun _ => l }
  | .coefsWrite _ l, v => { v with coefs := l }
  | .parWrite _ l, v => { v with par := l }
  | .dictWrite _ l, v => { v with dict := l }
  | .setWeight _ i w, v => if v.fam = .groupLasso ∨ v.fam = .sparseGroup then
      { v with dict := v.dict.set i w, snap := (v.snap.1, v.snap.2.set i w) } else v
  | _, v => v

/-- the record a modifying call names -/
def opTarget : Op K → Option ℕ
  | .setLagrange k _ | .setBound k _ | .setOffset k _ | .setQuadratic k _ | .solve k _ | .quadCoef k _
  | .quadConst k _ | .centerWrite k _ | .linearWrite k _ | .offsetWrite k _ | .coefsWrite k _ | .parWrite k _
  | .dictWrite k _ | .setWeight k _ _ => some k
  | _ => none

/-- the record a call makes, if it makes one and does not raise -/
def newView (w : AtomWorld K) : Op K → Option (View K)
  | .create fam tag dual size l b par dict off q c => (modeOf fam l b).map fun m =>
      ⟨fam, tag, dual, size, m, par, dict, (par, dict), dropZero off, q, c⟩
  | .copy k => w.atoms[k]?.bind copyView
  | .conjugate k => w.atoms[k]?.bind conjView
  | .affine k t => w.atoms[k]?.bind fun v => w.trans[t]?.bind fun alpha => affineView v alpha
  | _ => none

/-- the transform a call makes -/
def newTrans : Op K → List (List K)
  | .newTransform alpha => [alpha]
  | _ => []

/-- one call: a new record at the end, a new transform, or a change to the record named -/
def AtomWorld.step (w : AtomWorld K) (op : Op K) : AtomWorld K :=
  ⟨(match opTarget op with
    | some k => w.atoms.modify k (applyOp op)
    | none => w.atoms) ++ (newView w op).toList,
   w.trans ++ newTrans op⟩

/-- a program on values -/
def AtomWorld.run (w : AtomWorld K) (ops : List (Op K)) : AtomWorld K := ops.foldl AtomWorld.step w

/-- the values behind the references -/
def atomWorld (s : AtomHeap.State K) : AtomWorld K := ⟨s.atoms.map s.view, s.trans.map s.arr⟩

/-- calls that make objects sharing arrays with others: conjugates, compositions -/
def makesAlias : Op K → Bool
  | .conjugate _ | .affine _ _ => true
  | _ => false

/-- calls that write in place into the arrays such objects share: offset, centre, linear term -/
def writesShared : Op K → Bool
  | .centerWrite _ _ | .linearWrite _ _ | .offsetWrite _ _ => true
  | _ => false

/-- no write through a quadratic or a dictionary of weights in the classes whose copies share it -/
def ownsTarget (w : AtomWorld K) : Op K → Prop
  | .quadCoef k _ | .quadConst k _ | .centerWrite k _ | .linearWrite k _ =>
    ∀ v, w.atoms[k]? = some v → v.fam.copiesQuad = true
  | .dictWrite k _ => ∀ v, w.atoms[k]? = some v → v.fam.copiesDict = true
  | _ => True

/-- `ownsTarget` along a program -/
def ownsTargets (w : AtomWorld K) : List (Op K) → Prop
  | [] => True
  | op :: ops => ownsTarget w op ∧ ownsTargets (w.step op) ops

end Verif.Spec
