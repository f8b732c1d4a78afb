import Verif.Model.AtomRegression
import Verif.Model.Cox
import Verif.Model.ConjugateClass

/-!
# Model of `simple_problem(loss, atom)` for an arbitrary smooth loss and an arbitrary nonsmooth atom

A loss is the object `simple_problem` sees: its `smooth_objective` and its quadratic (`QuadLoss`).  `smooth.sum` and `affine_smooth` build
losses from losses.  The Cox regression `glm.cox` is one more loss.
-/

namespace Verif.Model
open Verif.Spec

variable {m n p : ℕ}

noncomputable section

/-- `smooth.sum(atoms, weights)`, `smooth/__init__.py:302-374`.  The constructor does not touch the quadratic, which is then
the default one (`composite.py:126-133`); that of the summands is not used. -/
def QuadLoss.sum (weights : List ℝ) (atoms : List (QuadLoss m)) : QuadLoss m :=
  { obj := Smooth.sumObj weights (atoms.map QuadLoss.obj)
    quad := Quad.init none none none none }

/-- `affine_smooth(atom, transform)`, `smooth/__init__.py:170-253`: as in `sum`, the quadratic is the default one -/
def QuadLoss.affine (S : QuadLoss n) (T : Aff ℝ m n) : QuadLoss m :=
  { obj := Smooth.affineSmooth S.obj T
    quad := Quad.init none none none none }

/-- `simple_problem(loss, atom)`, `problems/simple.py:19-39`; `coefs` is the `coefs` of the atom (line 22).  `nan` stands for an
exception of the loss. -/
def SimpleProblem.ofLoss (S : QuadLoss m) (A : NonsmoothAtom m) (coefs : Fin m → ℝ) : SimpleProblem m :=
  { smooth := fun x => match S.obj x .func with
      | .val f => .num f
      | _ => .nan
    grad := fun x => match S.obj x .grad with
      | .grad g => g
      | _ => fun _ => 0
    smoothQuad := S.quad
    atomSolve := fun q => match A.proximal q with
      | .ok z => some z
      | _ => none
    atomNonsmooth := A.nonsmooth
    quadratic := Quad.init none none none none
    coefs := coefs }

/-- a glm given the keyword `quadratic`, as a loss (`glm.py:35-94`) -/
def Glm.toLoss (G : Glm p n) (quad : Option (Quad (Fin p) ℝ)) : QuadLoss p :=
  { obj := fun x mode => (G.smoothObjective x mode).1
    quad := quad.getD (Quad.init none none none none) }

/-- a glm whose saturated loss is a `cox_loglike`, `glm.py:35-94` -/
structure CoxGlm (p n : ℕ) where
  X : Fin n → Fin p → ℝ
  offset : Option (Fin p → ℝ)
  caseWeights : Fin n → ℝ
  loss : CoxLoss n

namespace CoxGlm

open Classical in
/-- `glm.cox(X, event_times, censoring, case_weights, coef, saturated_offset, offset)`, `glm.py:766-832` with the constructor
`glm.py:74-94`.  The loss gets no case weights.  The constructor assigns the same data to the loss again (`glm.py:76`, `set_data`,
`cox.py:199-204`), which changes nothing.  `σ` is what `np.argsort` returned; `none` is ValueError. -/
def build (X : Fin n → Fin p → ℝ) (T : Fin n → ℝ) (cens : Fin n → ℕ) (coef : ℝ) (saturatedOffset : Option (Fin n → ℝ))
    (offset : Option (Fin p → ℝ)) (caseWeights : Option (Fin n → ℝ)) (σ : Equiv.Perm (Fin n)) : Option (CoxGlm p n) :=
  match CoxLoss.init T cens coef saturatedOffset none σ with
  | none => none
  | some L =>
    let w : Fin n → ℝ := match caseWeights with
      | some w => w
      | none => fun _ => 1
    if ¬ ∀ i, 0 ≤ w i then none
    else some ⟨X, offset, w, L.setData T cens⟩

/-- `adjoint_map(g)`, that is `X' g`: a nan in `g` makes every entry nan -/
def adjoint (X : Fin n → Fin p → ℝ) (g : Fin n → Fl) : Fin p → Fl := fun j =>
  if ∀ i, (g i).isSome then some (∑ i, X i j * (g i).getD 0) else none

/-- `glm.smooth_objective`, `glm.py:96-135`, with the glm after the call.  The loss multiplies the weights of the glm by its own
in place (`cox.py:91-95`).  `scale` does nothing: the `coef` of the glm is 1 (`glm.py:91`).  The loss raises for an undocumented
mode. -/
def smoothObjective (G : CoxGlm p n) (β : Fin p → ℝ) (mode : Mode) : CoxEval p × CoxGlm p n :=
  let b := Smooth.applyOffset G.offset β
  let η : Fin n → ℝ := fun i => ∑ j, G.X i j * b j
  let r := G.loss.smoothObjective η mode (some G.caseWeights)
  let G' : CoxGlm p n := { G with loss := r.2, caseWeights := G.loss.cw (some G.caseWeights) }
  match r.1 with
  | .val f => (.val f, G')
  | .grad g _ => (.grad (adjoint G.X g) false, G')
  | .both f g _ => (.both f (adjoint G.X g) false, G')
  | .valueError => (.valueError, G')

/-- a sequence of calls `smooth_objective(β, mode)`, the glm threaded through -/
def run (G : CoxGlm p n) : List ((Fin p → ℝ) × Mode) → CoxGlm p n
  | [] => G
  | c :: rest => run (G.smoothObjective c.1 c.2).2 rest

/-- the gradient if it holds no nan -/
def numbers (g : Fin p → Fl) : Option (Fin p → ℝ) := if ∀ i, (g i).isSome then some fun i => (g i).getD 0 else none

/-- the Cox regression as a loss.  A nan is reported as an exception: `FISTA.fit` raises on it (`algorithms.py:112-113`). -/
def toLoss (G : CoxGlm p n) (quad : Option (Quad (Fin p) ℝ)) : QuadLoss p :=
  { obj := fun x mode => match (G.smoothObjective x mode).1 with
      | .val (some f) => .val f
      | .grad g _ => match numbers g with
        | some g => .grad g
        | none => .valueError
      | .both (some f) g _ => match numbers g with
        | some g => .both f g
        | none => .valueError
      | _ => .valueError
    quad := quad.getD (Quad.init none none none none) }

end CoxGlm

end
end Verif.Model
