import Verif.Model.BinaryLinks
import Verif.Model.AnyLoss

/-!
# Model of the probit and complementary log-log regressions, `glm.probit` and `glm.cloglog`

Dense design matrices, exact reals, as in `Verif.Model.Regression`.
-/

namespace Verif.Model
open Verif.Spec

variable {p n : ℕ}

noncomputable section

/-- a glm whose saturated loss is a `probit_loglike` or `cloglog_loglike`, `glm.py:35-94`; `coef` of the glm is 1 -/
structure BinGlm (p n : ℕ) where
  X : Fin n → Fin p → ℝ
  offset : Option (Fin p → ℝ)
  caseWeights : Fin n → ℝ
  loss : BinLoss n

open Classical in
/-- `set_data((successes, trials))`, binary.py 430-455, 675-700: the pair is checked and stored, the array of trials is converted
to floats; `none` is ValueError -/
def BinLoss.setData (L : BinLoss n) (successes trials : Fin n → ℝ) : Option (BinLoss n) :=
  if (∃ i, trials i - successes i < 0) ∨ ∃ i, successes i < 0 then none
  else some { L with successes := successes, trials := trials }

namespace BinGlm

open Classical in
/-- `glm.probit` (`glm.py:429-497`) and `glm.cloglog` (`glm.py:499-564`) with the constructor `glm.py:74-94`.  The loss gets no
case weights and the default quadratic; the constructor of the glm assigns `(successes, loss.trials)` to it again
(`glm.py:76, 141-146`).  The shape check of the weights is not modelled.  `none` is ValueError. -/
def build (link : BinLink) (X : Fin n → Fin p → ℝ) (successes : Fin n → ℝ) (trials : Option (Fin n → ℝ)) (coef : ℝ)
    (saturatedOffset : Option (Fin n → ℝ)) (offset : Option (Fin p → ℝ)) (caseWeights : Option (Fin n → ℝ)) :
    Option (BinGlm p n) :=
  match BinLoss.init link successes trials coef saturatedOffset (Quad.init none none none none) none with
  | none => none
  | some L => match L.setData successes L.trials with
    | none => none
    | some L =>
      let w : Fin n → ℝ := match caseWeights with
        | some w => w
        | none => fun _ => 1
      if ¬ ∀ i, 0 ≤ w i then none
      else some ⟨X, offset, w, L⟩

/-- `linear_predictor(beta)`, `glm.py:150-167`: `X beta`, the offset is not applied -/
def linearPredictor (G : BinGlm p n) (β : Fin p → ℝ) : Fin n → ℝ := fun i => ∑ j, G.X i j * β j

/-- `glm.smooth_objective`, `glm.py:96-135`, with the glm after the call: the loss multiplies the weights of the glm by its own in
place (binary.py 351-355, 590-594).  `scale` does nothing: the `coef` of the glm is 1.  The loss raises for an undocumented mode. -/
def smoothObjective (G : BinGlm p n) (β : Fin p → ℝ) (mode : Mode) : Eval p × BinGlm p n :=
  let b := Smooth.applyOffset G.offset β
  let η : Fin n → ℝ := fun i => ∑ j, G.X i j * b j
  let r := G.loss.smoothObjective η mode (some G.caseWeights)
  let G' : BinGlm p n := { G with caseWeights := r.2.getD G.caseWeights }
  match r.1 with
  | .val f => (.val f, G')
  | .grad g => (.grad fun j => ∑ i, G.X i j * g i, G')
  | .both f g => (.both f fun j => ∑ i, G.X i j * g i, G')
  | e => (.valueError, G')

/-- a sequence of calls `smooth_objective(β, mode)`, the glm threaded through -/
def run (G : BinGlm p n) : List ((Fin p → ℝ) × Mode) → BinGlm p n
  | [] => G
  | c :: rest => run (G.smoothObjective c.1 c.2).2 rest

/-- the regression given the keyword `quadratic`, as a loss -/
def toLoss (G : BinGlm p n) (quad : Option (Quad (Fin p) ℝ)) : QuadLoss p :=
  { obj := fun x mode => (G.smoothObjective x mode).1
    quad := quad.getD (Quad.init none none none none) }

end BinGlm

end
end Verif.Model
