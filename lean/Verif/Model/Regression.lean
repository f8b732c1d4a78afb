import Verif.Model.Fista
import Verif.Model.Losses
import Verif.Model.Smoothed

/-!
# Model of a penalised regression put together: `simple_problem(glm, atom)`

The parts are modelled elsewhere: the glm in `Verif.Model.Losses`, the atom in `Verif.Model.Conjugate` and
`Verif.Model.Smoothed`, the solver in `Verif.Model.Fista`.  This file only connects them.
-/

namespace Verif.Model

/-- the number an objective returns, `np.inf` being `⊤` -/
noncomputable def ObjVal.ofTop (v : WithTop ℝ) : ObjVal := WithTop.recTopCoe .inf .num v

/-- `simple_problem(loss, atom)`, `problems/simple.py:19-39`, for a glm with the keyword `quadratic` and a seminorm atom.
`coefs` is the `coefs` of the atom (line 22), zero unless the atom was given `initial`.  The problem's own quadratic is the
default one.  `nan` stands for an exception of the loss or of `nonsmooth_objective`; `atomSolve` is `none` when `solve` of the
atom (`composite.py:174-181`, without `return_optimum`) raises.  Simplification: the glm is the one before the call - `C31`
shows that evaluating a glm built by a classmethod leaves it as it was. -/
noncomputable def SimpleProblem.regression {p n : ℕ} (G : Glm (p + 1) n) (quad : Option (Quad (Fin (p + 1)) ℝ))
    (A : AtomObj (Fin (p + 1)) ℝ) (coefs : Fin (p + 1) → ℝ) : SimpleProblem (p + 1) :=
  { smooth := fun x => match (G.smoothObjective x .func).1 with
      | .val f => .num f
      | _ => .nan
    grad := fun x => match (G.smoothObjective x .grad).1 with
      | .grad g => g
      | _ => fun _ => 0
    smoothQuad := quad.getD (Quad.init none none none none)
    atomSolve := fun q => match A.proximal q with
      | .ok z => some z
      | _ => none
    atomNonsmooth := fun x check => match A.nonsmoothObjective x check with
      | some v => ObjVal.ofTop v
      | none => .nan
    quadratic := Quad.init none none none none
    coefs := coefs }

end Verif.Model
