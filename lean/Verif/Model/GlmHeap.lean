import Verif.Model.Losses

/-!
# GLM losses as objects with shared arrays and shared saturated losses

`Model/Losses.lean` models a `glm` as a value.  In the program it is an object: it keeps references to the caller's design,
response and weight arrays, to a saturated loss object that the caller may hold as well, and to two transforms built from
the design.  Here arrays and losses live in stores and objects hold references, so that what one statement does to other
objects is visible.

Simplifications: the design is an ndarray (its transforms hold a reference to it: affine/__init__.py 71, 739-747); arrays
have the right shape; `initial`, and the quadratic of a saturated loss, which a `glm` never reads, are left out; the
`trials` of a logistic loss are never edited in place.
-/

namespace Verif.Model
open Verif.Spec

noncomputable section

namespace GlmHeap

variable {p n : ℕ}

/-- the class of a saturated loss with the parameters that are not its response: `trials` for the logistic loss
(binary.py 199-214), `smoothing_parameter` for the two huber losses (glm.py 1235-1243, binary.py 775-780) -/
inductive LossClass (n : ℕ)
  | gaussian
  | poisson
  | huber (eps : ℝ)
  | logistic (trials : Fin n → ℝ)
  | huberSvm (eps : ℝ)

/-- the data of a loss of this class with the given response -/
def LossClass.data : LossClass n → (Fin n → ℝ) → LossData n
  | .gaussian, y => .gaussian y
  | .poisson, y => .poisson y
  | .huber eps, y => .huber y eps
  | .logistic t, y => .logistic y t
  | .huberSvm eps, y => .huberSvm y eps

/-- A reference: something the caller created and holds a name for, or something created inside the library. -/
inductive Ref
  | user (k : ℕ)
  | own (k : ℕ)
  deriving DecidableEq

/-- A saturated loss object; `resp` is its `response`/`counts`/`successes` attribute, `own` its `case_weights`. -/
structure SatObj (n : ℕ) where
  cls : LossClass n
  resp : Ref
  coef : ℝ
  offset : Option (Fin n → ℝ)
  own : Option Ref

/-- A `glm` object, glm.py 73-94: `_X`, the array inside `affine_atom.affine_transform`, `saturated_loss`,
`case_weights`, `coef`, `offset`, `quadratic`.  (`_transform` is always built from `_X`, lines 142-143.) -/
structure GlmObj (p n : ℕ) where
  X : Ref
  tX : Ref
  loss : Ref
  cw : Ref
  coef : ℝ
  offset : Option (Fin p → ℝ)
  quad : Quad (Fin p) ℝ

/-- the stores: arrays and losses of the caller, arrays and losses created by the library, and the `glm` objects -/
structure Heap (p n : ℕ) where
  umats : List (Fin n → Fin p → ℝ)
  uvecs : List (Fin n → ℝ)
  ulosses : List (SatObj n)
  imats : List (Fin n → Fin p → ℝ)
  ivecs : List (Fin n → ℝ)
  ilosses : List (SatObj n)
  glms : List (GlmObj p n)

/-- no objects -/
def Heap.empty : Heap p n := ⟨[], [], [], [], [], [], []⟩

namespace Heap

/-- the content of an array -/
def vec (h : Heap p n) : Ref → Fin n → ℝ
  | .user k => h.uvecs.getD k 0
  | .own k => h.ivecs.getD k 0

/-- the content of a design array -/
def mat (h : Heap p n) : Ref → Fin n → Fin p → ℝ
  | .user k => h.umats.getD k 0
  | .own k => h.imats.getD k 0

/-- the loss object at a reference -/
def loss (h : Heap p n) : Ref → Option (SatObj n)
  | .user k => h.ulosses[k]?
  | .own k => h.ilosses[k]?

/-- a new array made by the library -/
def allocVec (h : Heap p n) (v : Fin n → ℝ) : Ref × Heap p n :=
  (.own h.ivecs.length, { h with ivecs := h.ivecs ++ [v] })

/-- a new design array made by the library -/
def allocMat (h : Heap p n) (M : Fin n → Fin p → ℝ) : Ref × Heap p n :=
  (.own h.imats.length, { h with imats := h.imats ++ [M] })

/-- a new loss object made by the library -/
def allocLoss (h : Heap p n) (L : SatObj n) : Ref × Heap p n :=
  (.own h.ilosses.length, { h with ilosses := h.ilosses ++ [L] })

/-- an in-place write, `a[:] = v` -/
def writeVec (h : Heap p n) (r : Ref) (v : Fin n → ℝ) : Heap p n :=
  match r with
  | .user k => { h with uvecs := h.uvecs.set k v }
  | .own k => { h with ivecs := h.ivecs.set k v }

/-- an in-place write into a design array -/
def writeMat (h : Heap p n) (r : Ref) (M : Fin n → Fin p → ℝ) : Heap p n :=
  match r with
  | .user k => { h with umats := h.umats.set k M }
  | .own k => { h with imats := h.imats.set k M }

/-- assignment to attributes of a loss object -/
def setLoss (h : Heap p n) (r : Ref) (L : SatObj n) : Heap p n :=
  match r with
  | .user k => { h with ulosses := h.ulosses.set k L }
  | .own k => { h with ilosses := h.ilosses.set k L }

/-- assignment to attributes of a `glm` object -/
def setGlm (h : Heap p n) (g : ℕ) (G : GlmObj p n) : Heap p n := { h with glms := h.glms.set g G }

/-- a new `glm` object -/
def pushGlm (h : Heap p n) (G : GlmObj p n) : Heap p n := { h with glms := h.glms ++ [G] }

/-- what a loss object denotes -/
def lossValue (h : Heap p n) (L : SatObj n) : Loss n :=
  { data := L.cls.data (h.vec L.resp), coef := L.coef, offset := L.offset, quad := Quad.init none none none none,
    caseWeights := L.own.map h.vec }

open Classical in
/-- `loss.data = Y`, glm.py 966-967, 1161-1162, 1337-1338 and binary.py 875-876 store the array; the logistic loss (binary.py
189-214) stores a float copy, *then* checks it against its trials.  The Boolean is True if it raises ValueError. -/
def setResponse (h : Heap p n) (ℓ : Ref) (y : Ref) : Heap p n × Bool :=
  match h.loss ℓ with
  | none => (h, true)
  | some L =>
    match L.cls with
    | .logistic t =>
      let (r, h1) := h.allocVec (h.vec y)
      (h1.setLoss ℓ { L with resp := r }, decide ((∃ i, t i - h.vec y i < 0) ∨ ∃ i, h.vec y i < 0))
    | _ => (h.setLoss ℓ { L with resp := y }, false)

/-- `glm.data = X, Y`, glm.py 140-145: `_transform` and `_X`, then the response of the saturated loss.  The transform
inside `affine_atom` stays. -/
def setData (h : Heap p n) (g : ℕ) (G : GlmObj p n) (X y : Ref) : Heap p n × Bool :=
  (h.setGlm g { G with X := X }).setResponse G.loss y

/-- `cw *= self.case_weights` on the `glm`'s own weight array, which it passes to the saturated loss: glm.py 124, 237 with
912-916, 956-960, 1103-1107, 1150-1154, 1288-1292; binary.py 91-95, 168-172, 825-829. -/
def foldWeights (h : Heap p n) (G : GlmObj p n) (L : SatObj n) : Heap p n :=
  match L.own with
  | none => h
  | some w => h.writeVec G.cw fun i => h.vec G.cw i * h.vec w i

/-- `self.scale` on a result, smooth/__init__.py 128-133 -/
def scaleEval (coef : ℝ) : Eval p → Eval p
  | .val f => .val (Smooth.scaleR coef f)
  | .grad g => .grad (Smooth.scaleV coef g)
  | .both f g => .both (Smooth.scaleR coef f) (Smooth.scaleV coef g)
  | e => e

/-- `glm.smooth_objective(beta, mode)`, glm.py 96-135, and the heap after the call -/
def smoothObjective (h : Heap p n) (G : GlmObj p n) (β0 : Fin p → ℝ) (mode : Mode) : Eval p × Heap p n :=
  match h.loss G.loss with
  | none => (.typeError, h)
  | some L =>
    let h1 := h.foldWeights G L
    let V : Loss n := { h1.lossValue L with caseWeights := none }
    let r := V.smoothObjective (Glm.dot (h1.mat G.tX) (Smooth.applyOffset G.offset β0)) mode (some (h1.vec G.cw))
    match mode, r.1 with
    | .func, .val f => (scaleEval G.coef (.val f), h1)
    | .grad, .grad u => (scaleEval G.coef (.grad (Glm.dotT (h1.mat G.tX) u)), h1)
    | .both, .both f u => (scaleEval G.coef (.both f (Glm.dotT (h1.mat G.tX) u)), h1)
    | _, .valueError => (.valueError, h1)
    | _, _ => (.typeError, h1)

/-- `glm.hessian(beta)`, glm.py 208-248, and the heap after the call; the design is `_X`.  The huber losses raise
NotImplementedError before they touch the weights (glm.py 1310-1332, binary.py 848-870). -/
def hessian (h : Heap p n) (G : GlmObj p n) (β : Fin p → ℝ) : Glm.Hess p × Heap p n :=
  match h.loss G.loss with
  | none => (.notImplemented, h)
  | some L =>
    let h1 := h.foldWeights G L
    let V : Loss n := { h1.lossValue L with caseWeights := none }
    match (V.hessian (Glm.dot (h1.mat G.X) β) (some (h1.vec G.cw))).1 with
    | .diag W => (.mat fun j k => ∑ i, h1.mat G.X i j * (W i * h1.mat G.X i k), h1)
    | .notImplemented => (.notImplemented, h)

/-- does `__copy__` of the class pass `case_weights` on: not in the huber losses (glm.py 1375-1383, binary.py 913-921) -/
def LossClass.passesWeights : LossClass n → Bool
  | .huber _ => false
  | .huberSvm _ => false
  | _ => true

open Classical in
/-- `glm.__copy__`, glm.py 253-262: new arrays for design, response, weights, a copy of the saturated loss (glm.py 971-978,
1166-1174, 1375-1383; binary.py 218-227, 913-921), and the constructor, which does not get `coef`.  `none` is a ValueError
of one of the constructors.  The copies of the response made for the loss and then for `self.data = X, Y` are one array
here. -/
def copy (h : Heap p n) (G : GlmObj p n) : Option (Heap p n) :=
  match h.loss G.loss with
  | none => none
  | some L =>
    let own := if LossClass.passesWeights L.cls then L.own else none
    match Loss.init (L.cls.data (h.vec L.resp)) L.coef L.offset (Quad.init none none none none) (own.map h.vec) with
    | none => none
    | some _ =>
      if ¬ ∀ i, 0 ≤ h.vec G.cw i then none
      else
        let (x, h1) := h.allocMat (h.mat G.X)
        let (y, h2) := h1.allocVec (h.vec L.resp)
        let (w, h3) := h2.allocVec (h.vec G.cw)
        let (o, h4) : Option Ref × Heap p n := match own with
          | none => (none, h3)
          | some r => (some (h3.allocVec (h.vec r)).1, (h3.allocVec (h.vec r)).2)
        let (ℓ, h5) := h4.allocLoss { L with resp := y, own := o }
        some (h5.pushGlm { X := x, tX := x, loss := ℓ, cw := w, coef := 1, offset := G.offset, quad := G.quad })

open Classical in
/-- `glm.subsample(idx)`, glm.py 264-294: `case_weights *= idx_bool` on the copy, the last object. -/
def subsample (h : Heap p n) (G : GlmObj p n) (idx : Finset (Fin n)) : Option (Heap p n) :=
  match h.copy G with
  | none => none
  | some h1 => match h1.glms.getLast? with
    | none => none
    | some C => some (h1.writeVec C.cw fun i => h1.vec C.cw i * if i ∈ idx then 1 else 0)

open Classical in
/-- The constructor of a saturated loss around the caller's arrays, as in `Loss.init` (glm.py 848-876, 1026-1067,
1218-1252; binary.py 18-55, 758-789): the response is kept as a reference, by the logistic loss as a float copy. -/
def newLoss (h : Heap p n) (cls : LossClass n) (y : Ref) (coef : ℝ) (off : Option (Fin n → ℝ)) (w : Option Ref) :
    Option (SatObj n × Heap p n) :=
  match Loss.init (cls.data (h.vec y)) coef off (Quad.init none none none none) (w.map h.vec) with
  | none => none
  | some _ =>
    match cls with
    | .logistic _ =>
      let (r, h1) := h.allocVec (h.vec y)
      some ({ cls := cls, resp := r, coef := coef, offset := off, own := w }, h1)
    | _ => some ({ cls := cls, resp := y, coef := coef, offset := off, own := w }, h)

open Classical in
/-- `glm(X, Y, loss, ...)`, glm.py 35-94: `self.data = X, Y` writes the response of `loss`; weights that are not given are
`np.ones`; negative weights raise after that.  The Boolean is True if it raises, and then there is no new `glm`. -/
def newGlm (h : Heap p n) (X y ℓ : Ref) (w : Option Ref) (off : Option (Fin p → ℝ)) (quad : Quad (Fin p) ℝ) :
    Heap p n × Bool :=
  match h.setResponse ℓ y with
  | (h1, true) => (h1, true)
  | (h1, false) =>
    let (r, h2) := match w with
      | some r => (r, h1)
      | none => h1.allocVec fun _ => 1
    if ¬ ∀ i, 0 ≤ h2.vec r i then (h2, true)
    else (h2.pushGlm { X := X, tX := X, loss := ℓ, cw := r, coef := 1, offset := off, quad := quad }, false)

/-- `glm.gaussian`, `.poisson`, `.huber`, `.logistic`, `.huber_svm`, glm.py 296-357, 359-426, 566-625, 627-694, 696-763: a new
saturated loss without weights, then the constructor. -/
def buildGlm (h : Heap p n) (cls : LossClass n) (X y : Ref) (coef : ℝ) (soff : Option (Fin n → ℝ))
    (w : Option Ref) (off : Option (Fin p → ℝ)) (quad : Quad (Fin p) ℝ) : Heap p n × Bool :=
  match h.newLoss cls y coef soff none with
  | none => (h, true)
  | some (L, h1) =>
    let (ℓ, h2) := h1.allocLoss L
    h2.newGlm X y ℓ w off quad

end Heap

/-- A statement of the caller.  Arrays and losses of the caller are named by their position, `glm` objects as well. -/
inductive Op (p n : ℕ)
  /-- `M = np.array(...)` -/
  | matrix (M : Fin n → Fin p → ℝ)
  /-- `v = np.array(...)` -/
  | array (v : Fin n → ℝ)
  /-- `M[:] = ...` on an array of the caller -/
  | editMatrix (k : ℕ) (M : Fin n → Fin p → ℝ)
  /-- `v[:] = ...` on an array of the caller -/
  | editArray (k : ℕ) (v : Fin n → ℝ)
  /-- `loss = gaussian_loglike(shape, y, coef=..., offset=..., case_weights=w)` and the like -/
  | loss (cls : LossClass n) (y : ℕ) (coef : ℝ) (off : Option (Fin n → ℝ)) (w : Option ℕ)
  /-- `glm(X, y, loss, offset=..., quadratic=..., case_weights=w)` -/
  | glm (X y ℓ : ℕ) (w : Option ℕ) (off : Option (Fin p → ℝ)) (quad : Quad (Fin p) ℝ)
  /-- `glm.gaussian(X, y, ...)` and the like -/
  | build (cls : LossClass n) (X y : ℕ) (coef : ℝ) (soff : Option (Fin n → ℝ)) (w : Option ℕ)
      (off : Option (Fin p → ℝ)) (quad : Quad (Fin p) ℝ)
  /-- `copy(g)` -/
  | copy (g : ℕ)
  /-- `g.subsample(idx)` -/
  | subsample (g : ℕ) (idx : Finset (Fin n))
  /-- `g.smooth_objective(beta, mode)`; `objective` and `gradient` are its modes 'func' and 'grad' (glm.py 169-206) -/
  | eval (g : ℕ) (β : Fin p → ℝ) (mode : Mode)
  /-- `g.hessian(beta)` -/
  | hess (g : ℕ) (β : Fin p → ℝ)
  /-- `g.linear_predictor(beta)` -/
  | linpred (g : ℕ) (β : Fin p → ℝ)
  /-- `g.nonsmooth_objective(beta)`: the quadratic (composite.py 73-74) -/
  | penalty (g : ℕ) (β : Fin p → ℝ)
  /-- `g.data` -/
  | getData (g : ℕ)
  /-- `g.data = X, y` -/
  | setData (g X y : ℕ)
  /-- `g.data = g.data[0], y` -/
  | setResponse (g y : ℕ)
  /-- `g.case_weights = w` -/
  | setWeights (g w : ℕ)
  /-- `g.coef = c` -/
  | setCoef (g : ℕ) (c : ℝ)
  /-- `g.saturated_loss.coef = c` -/
  | setLossCoef (g : ℕ) (c : ℝ)
  /-- `g.offset = o` -/
  | setOffset (g : ℕ) (o : Option (Fin p → ℝ))
  /-- `g.quadratic = q` -/
  | setQuad (g : ℕ) (q : Quad (Fin p) ℝ)
  /-- `g.case_weights = g2.case_weights` -/
  | shareWeights (g g2 : ℕ)
  /-- `g.saturated_loss = g2.saturated_loss` -/
  | shareLoss (g g2 : ℕ)
  /-- `g.case_weights[:] = v` -/
  | editWeights (g : ℕ) (v : Fin n → ℝ)
  /-- `g.data[1][:] = v` -/
  | editResponse (g : ℕ) (v : Fin n → ℝ)
  /-- `g.data[0][:] = M` -/
  | editDesign (g : ℕ) (M : Fin n → Fin p → ℝ)

/-- what the caller sees of a statement -/
inductive Obs (p n : ℕ)
  | done
  | raised
  /-- the statement names something that does not exist -/
  | badName
  | eval (e : Eval p)
  | hess (H : Glm.Hess p)
  | vec (v : Fin n → ℝ)
  | num (x : ℝ)
  | data (X : Fin n → Fin p → ℝ) (y : Fin n → ℝ)

namespace Heap

/-- a new state or an exception that leaves the state as it was -/
def orRaise (h : Heap p n) : Option (Heap p n) → Obs p n × Heap p n
  | none => (.raised, h)
  | some h' => (.done, h')

/-- a new state and whether an exception was raised -/
def flag : Heap p n × Bool → Obs p n × Heap p n
  | (h, b) => (if b then .raised else .done, h)

/-- a statement about the `glm` object `g` -/
def withGlm (h : Heap p n) (g : ℕ) (f : GlmObj p n → Obs p n × Heap p n) : Obs p n × Heap p n :=
  match h.glms[g]? with
  | none => (.badName, h)
  | some G => f G

/-- does the caller's optional array exist -/
def hasArray (h : Heap p n) : Option ℕ → Bool
  | none => true
  | some k => decide (k < h.uvecs.length)

/-- one statement -/
def step (h : Heap p n) : Op p n → Obs p n × Heap p n
  | .matrix M => (.done, { h with umats := h.umats ++ [M] })
  | .array v => (.done, { h with uvecs := h.uvecs ++ [v] })
  | .editMatrix k M => (.done, h.writeMat (.user k) M)
  | .editArray k v => (.done, h.writeVec (.user k) v)
  | .loss cls y coef off w =>
    if h.hasArray (some y) && h.hasArray w then
      match h.newLoss cls (.user y) coef off (w.map .user) with
      | none => (.raised, h)
      | some (L, h1) => (.done, { h1 with ulosses := h1.ulosses ++ [L] })
    else (.badName, h)
  | .glm X y ℓ w off quad =>
    if X < h.umats.length && h.hasArray (some y) && h.hasArray w && ℓ < h.ulosses.length then
      flag (h.newGlm (.user X) (.user y) (.user ℓ) (w.map .user) off quad)
    else (.badName, h)
  | .build cls X y coef soff w off quad =>
    if X < h.umats.length && h.hasArray (some y) && h.hasArray w then
      flag (h.buildGlm cls (.user X) (.user y) coef soff (w.map .user) off quad)
    else (.badName, h)
  | .copy g => h.withGlm g fun G => h.orRaise (h.copy G)
  | .subsample g idx => h.withGlm g fun G => h.orRaise (h.subsample G idx)
  | .eval g β mode => h.withGlm g fun G => ((.eval (h.smoothObjective G β mode).1), (h.smoothObjective G β mode).2)
  | .hess g β => h.withGlm g fun G => ((.hess (h.hessian G β).1), (h.hessian G β).2)
  | .linpred g β => h.withGlm g fun G => (.vec (Glm.dot (h.mat G.X) β), h)
  | .penalty g β => h.withGlm g fun G => (.num (G.quad.funcVal β), h)
  | .getData g => h.withGlm g fun G => match h.loss G.loss with
    | none => (.badName, h)
    | some L => (.data (h.mat G.X) (h.vec L.resp), h)
  | .setData g X y => h.withGlm g fun G =>
    if X < h.umats.length && h.hasArray (some y) then flag (h.setData g G (.user X) (.user y)) else (.badName, h)
  | .setResponse g y => h.withGlm g fun G =>
    if h.hasArray (some y) then flag (h.setData g G G.X (.user y)) else (.badName, h)
  | .setWeights g w => h.withGlm g fun G =>
    if h.hasArray (some w) then (.done, h.setGlm g { G with cw := .user w }) else (.badName, h)
  | .setCoef g c => h.withGlm g fun G => (.done, h.setGlm g { G with coef := c })
  | .setLossCoef g c => h.withGlm g fun G => match h.loss G.loss with
    | none => (.badName, h)
    | some L => (.done, h.setLoss G.loss { L with coef := c })
  | .setOffset g o => h.withGlm g fun G => (.done, h.setGlm g { G with offset := o })
  | .setQuad g q => h.withGlm g fun G => (.done, h.setGlm g { G with quad := q })
  | .shareWeights g g2 => h.withGlm g fun G => h.withGlm g2 fun G2 => (.done, h.setGlm g { G with cw := G2.cw })
  | .shareLoss g g2 => h.withGlm g fun G => h.withGlm g2 fun G2 => (.done, h.setGlm g { G with loss := G2.loss })
  | .editWeights g v => h.withGlm g fun G => (.done, h.writeVec G.cw v)
  | .editResponse g v => h.withGlm g fun G => match h.loss G.loss with
    | none => (.badName, h)
    | some L => (.done, h.writeVec L.resp v)
  | .editDesign g M => h.withGlm g fun G => (.done, h.writeMat G.X M)

/-- a program: what the caller sees, and the final state -/
def run (h : Heap p n) : List (Op p n) → List (Obs p n) × Heap p n
  | [] => ([], h)
  | op :: ops => ((h.step op).1 :: (run (h.step op).2 ops).1, (run (h.step op).2 ops).2)

end Heap
end GlmHeap
end
end Verif.Model
