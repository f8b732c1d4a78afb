import Verif.Model.GlmHeap

/-!
# What a caller expects of GLM losses: independent values

A `glm` is a value: design, saturated loss, weights, offset, coefficient and quadratic.  Every statement changes only the
loss it names, a copy is an equal value, a statement that raises changes nothing, and evaluating changes nothing.
The value `Glm` with its `smoothObjective`, `hessian`, `copy`, `subsample` and `build` is the one of `Model/Losses.lean`, about
which C28-C32 are proved.
-/

namespace Verif.Spec
open Verif.Model Verif.Model.GlmHeap

noncomputable section

variable {p n : ℕ}

/-- a `glm` as a value -/
structure GlmVal (p n : ℕ) where
  glm : Glm p n
  coef : ℝ
  quad : Quad (Fin p) ℝ

/-- the caller's arrays and the `glm` values -/
structure GlmWorld (p n : ℕ) where
  mats : List (Fin n → Fin p → ℝ)
  vecs : List (Fin n → ℝ)
  glms : List (GlmVal p n)

/-- nothing yet -/
def GlmWorld.empty : GlmWorld p n := ⟨[], [], []⟩

/-- the response inside the data of a loss -/
def LossData.response : LossData n → Fin n → ℝ
  | .gaussian y => y
  | .poisson y => y
  | .huber y _ => y
  | .logistic s _ => s
  | .huberSvm s _ => s

/-- the same kind of data with another response -/
def LossData.withResponse (y : Fin n → ℝ) : LossData n → LossData n
  | .gaussian _ => .gaussian y
  | .poisson _ => .poisson y
  | .huber _ eps => .huber y eps
  | .logistic _ t => .logistic y t
  | .huberSvm _ eps => .huberSvm y eps

/-- a response a loss refuses: not between 0 and the number of trials -/
def Refused (y : Fin n → ℝ) : LossData n → Prop
  | .logistic _ t => (∃ i, t i < y i) ∨ ∃ i, y i < 0
  | _ => False

/-- `c` times a result -/
def timesEval (c : ℝ) : Eval p → Eval p
  | .val f => .val (c * f)
  | .grad g => .grad fun j => c * g j
  | .both f g => .both (c * f) fun j => c * g j
  | e => e

/-- `c` times a Hessian -/
def timesHess (c : ℝ) : Glm.Hess p → Glm.Hess p
  | .mat H => .mat fun i j => c * H i j
  | .notImplemented => .notImplemented

namespace GlmVal

/-- another design and response -/
def setData (v : GlmVal p n) (X : Fin n → Fin p → ℝ) (y : Fin n → ℝ) : GlmVal p n :=
  { v with glm := { v.glm with X := X, loss := { v.glm.loss with data := LossData.withResponse y v.glm.loss.data } } }

end GlmVal

namespace GlmWorld

/-- a statement about the loss `g` -/
def withGlm (s : GlmWorld p n) (g : ℕ) (f : GlmVal p n → Obs p n × GlmWorld p n) : Obs p n × GlmWorld p n :=
  match s.glms[g]? with
  | none => (.badName, s)
  | some v => f v

/-- `g` gets the value `v` -/
def set (s : GlmWorld p n) (g : ℕ) (v : GlmVal p n) : GlmWorld p n := { s with glms := s.glms.set g v }

/-- a new loss, or an exception -/
def push (s : GlmWorld p n) (coef : ℝ) (quad : Quad (Fin p) ℝ) : Option (Glm p n) → Obs p n × GlmWorld p n
  | none => (.raised, s)
  | some G => (.done, { s with glms := s.glms ++ [{ glm := G, coef := coef, quad := quad }] })

open Classical in
/-- one statement -/
def step (s : GlmWorld p n) : Op p n → Obs p n × GlmWorld p n
  | .matrix M => (.done, { s with mats := s.mats ++ [M] })
  | .array v => (.done, { s with vecs := s.vecs ++ [v] })
  | .editMatrix k M => (.done, { s with mats := s.mats.set k M })
  | .editArray k v => (.done, { s with vecs := s.vecs.set k v })
  | .build cls X y coef soff w off quad =>
    match s.mats[X]?, s.vecs[y]?, (match w with | none => some none | some k => (s.vecs[k]?).map some) with
    | some X, some y, some w => s.push 1 quad (Glm.build X (cls.data y) coef soff off w)
    | _, _, _ => (.badName, s)
  | .copy g => s.withGlm g fun v => s.push v.coef v.quad v.glm.copy
  | .subsample g idx => s.withGlm g fun v => s.push v.coef v.quad (v.glm.subsample idx)
  | .eval g β mode => s.withGlm g fun v => (.eval (timesEval v.coef (v.glm.smoothObjective β mode).1), s)
  | .hess g β => s.withGlm g fun v => (.hess (timesHess v.coef (v.glm.hessian β).1), s)
  | .linpred g β => s.withGlm g fun v => (.vec fun i => ∑ j, v.glm.X i j * β j, s)
  | .penalty g β => s.withGlm g fun v => (.num (v.quad.funcVal β), s)
  | .getData g => s.withGlm g fun v => (.data v.glm.X (LossData.response v.glm.loss.data), s)
  | .setData g X y => s.withGlm g fun v => match s.mats[X]?, s.vecs[y]? with
    | some X, some y => if Refused y v.glm.loss.data then (.raised, s) else (.done, s.set g (v.setData X y))
    | _, _ => (.badName, s)
  | .setResponse g y => s.withGlm g fun v => match s.vecs[y]? with
    | some y => if Refused y v.glm.loss.data then (.raised, s) else (.done, s.set g (v.setData v.glm.X y))
    | _ => (.badName, s)
  | .setWeights g w => s.withGlm g fun v => match s.vecs[w]? with
    | some w => (.done, s.set g { v with glm := { v.glm with caseWeights := w } })
    | none => (.badName, s)
  | .setCoef g c => s.withGlm g fun v => (.done, s.set g { v with coef := c })
  | .setLossCoef g c => s.withGlm g fun v =>
    (.done, s.set g { v with glm := { v.glm with loss := { v.glm.loss with coef := c } } })
  | .setOffset g o => s.withGlm g fun v => (.done, s.set g { v with glm := { v.glm with offset := o } })
  | .setQuad g q => s.withGlm g fun v => (.done, s.set g { v with quad := q })
  | .shareWeights g g2 => s.withGlm g fun v => s.withGlm g2 fun v2 =>
    (.done, s.set g { v with glm := { v.glm with caseWeights := v2.glm.caseWeights } })
  | .shareLoss g g2 => s.withGlm g fun v => s.withGlm g2 fun v2 =>
    (.done, s.set g { v with glm := { v.glm with loss := v2.glm.loss } })
  | .editWeights g w => s.withGlm g fun v => (.done, s.set g { v with glm := { v.glm with caseWeights := w } })
  | .editResponse g y => s.withGlm g fun v => (.done, s.set g (v.setData v.glm.X y))
  | .editDesign g X => s.withGlm g fun v => (.done, s.set g { v with glm := { v.glm with X := X } })
  -- saturated losses made by the caller are not values of this world
  | .loss _ _ _ _ _ => (.badName, s)
  | .glm _ _ _ _ _ _ => (.badName, s)

/-- a program -/
def run (s : GlmWorld p n) : List (Op p n) → List (Obs p n) × GlmWorld p n
  | [] => ([], s)
  | op :: ops => ((s.step op).1 :: (run (s.step op).2 ops).1, (run (s.step op).2 ops).2)

/-- The statements for which `glm` objects are as good as values, in a given state:
* losses come from `glm.gaussian` and the like, and no saturated loss is shared;
* no array is edited in place;
* `data` is assigned with an equal design, and not to a response the loss refuses;
* an object with a `coef` other than 1 is not copied, and its Hessian not asked for. -/
def Fair (s : GlmWorld p n) : Op p n → Prop
  | .editMatrix _ _ | .editArray _ _ | .editWeights _ _ | .editResponse _ _ | .editDesign _ _ => False
  | .loss _ _ _ _ _ | .glm _ _ _ _ _ _ | .shareLoss _ _ => False
  | .setData g X y => ∀ v M w, s.glms[g]? = some v → s.mats[X]? = some M → s.vecs[y]? = some w →
      M = v.glm.X ∧ ¬ Refused w v.glm.loss.data
  | .setResponse g y => ∀ v w, s.glms[g]? = some v → s.vecs[y]? = some w → ¬ Refused w v.glm.loss.data
  | .copy g | .subsample g _ | .hess g _ => ∀ v, s.glms[g]? = some v → v.coef = 1
  | _ => True

/-- every statement of the program is fair when it is executed -/
def FairRun (s : GlmWorld p n) : List (Op p n) → Prop
  | [] => True
  | op :: ops => s.Fair op ∧ FairRun (s.step op).2 ops

end GlmWorld

/-- the `glm` objects a statement names -/
def Op.objects : Op p n → List ℕ
  | .copy g | .subsample g _ | .eval g _ _ | .hess g _ | .linpred g _ | .penalty g _ | .getData g | .setData g _ _ | .setResponse g _
  | .setWeights g _ | .setCoef g _ | .setLossCoef g _ | .setOffset g _ | .setQuad g _ | .editWeights g _ | .editResponse g _
  | .editDesign g _ => [g]
  | .shareWeights g g2 | .shareLoss g g2 => [g, g2]
  | .matrix _ | .array _ | .editMatrix _ _ | .editArray _ _ | .loss _ _ _ _ _ | .glm _ _ _ _ _ _ | .build _ _ _ _ _ _ _ _ => []

/-- the vectors of the caller a statement names -/
def Op.arrays : Op p n → List ℕ
  | .editArray k _ => [k]
  | .loss _ y _ _ w | .glm _ y _ w _ _ | .build _ _ y _ _ w _ _ => y :: w.toList
  | .setData _ _ y | .setResponse _ y => [y]
  | .setWeights _ w => [w]
  | _ => []

/-- the matrices of the caller a statement names -/
def Op.designs : Op p n → List ℕ
  | .editMatrix k _ => [k]
  | .glm X _ _ _ _ _ | .build _ X _ _ _ _ _ _ | .setData _ X _ => [X]
  | _ => []

/-- the saturated losses of the caller a statement names -/
def Op.losses : Op p n → List ℕ
  | .glm _ _ l _ _ _ => [l]
  | _ => []

/-- the statements that only ask an object for something -/
def Op.Asks (c : ℕ) : Op p n → Prop
  | .eval g _ _ | .hess g _ | .linpred g _ | .penalty g _ | .getData g => g = c
  | _ => False

/-- what the caller sees of the statement `q` after the program `ops` -/
def answer (ops : List (Op p n)) (q : Op p n) : Obs p n := ((Heap.empty.run ops).2.step q).1

/-- the number of `glm` objects, vectors, matrices and saturated losses the caller has names for after the program `ops` -/
def names (ops : List (Op p n)) : ℕ × ℕ × ℕ × ℕ :=
  let h := (Heap.empty.run ops).2
  (h.glms.length, h.uvecs.length, h.umats.length, h.ulosses.length)

/-- the statement makes an independent object -/
def Op.Makes : Op p n → Prop
  | .copy _ | .subsample _ _ => True
  | _ => False

end
end Verif.Spec
