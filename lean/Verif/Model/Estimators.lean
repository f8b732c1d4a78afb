import Verif.Model.Fista
import Verif.Model.AtomProximal

/-!
# Model of `fit` of the penalised estimators, `regreg/sklearn/base.py`

The log-likelihood built by `_loglike_factory` is given by its value and gradient (Model/Scores.lean, Model/Losses.lean
model the factories; `glm` objects carry no quadratic).  The solver is the model of FISTA.
-/

namespace Verif.Model.Sklearn

noncomputable section

variable {p : ℕ}

/-- An atom in lagrange form without offset as the estimator sees it: `seminorm(x, lagrange=1)`, `lagrange_prox` of its class,
the attribute `lagrange` (`⊤`: `np.inf`) and the attribute `quadratic`. -/
structure LagAtom (p : ℕ) where
  pen : (Fin p → ℝ) → ℝ
  lagrangeProx : (Fin p → ℝ) → ℝ → WithTop ℝ → Option (Fin p → ℝ)
  lagrange : WithTop ℝ
  quad : Quad (Fin p) ℝ

namespace LagAtom

/-- `lagrange * value`, the last line of the `seminorm` methods (e.g. `seminorms.py:636`): `np.inf * 0` is nan -/
def lagTimes (lagrange : WithTop ℝ) (value : ℝ) : ObjVal :=
  match lagrange with
  | some l => .num (l * value)
  | none => open Classical in if value = 0 then .nan else .inf

/-- `nonsmooth_objective`, `seminorms.py:451-488`, lagrange form, no offset -/
def nonsmooth (A : LagAtom p) (x : Fin p → ℝ) (_check : Bool) : ObjVal :=
  (lagTimes A.lagrange (A.pen x)).add (.num (A.quad.funcVal x))

/-- `atom.solve(q)`: `composite`-less atoms return `self.proximal(q)`, `seminorms.py:285-364`; `none`: it raised -/
def solve (A : LagAtom p) (q : Quad (Fin p) ℝ) : Option (Fin p → ℝ) :=
  match seminormProximal (fun arg L _ => A.lagrangeProx arg L A.lagrange) (fun _ _ => none) (.lagrange 0) none A.quad
    (some q) with
  | .ok u => some u
  | _ => none

end LagAtom

/-- Constructor arguments of `lagrange_mixin`, `base.py:240-316`, that `fit` reads.  `ctor` is
`atom_constructor(score, **atom_params)`; it returns an atom with a finite `lagrange`. -/
structure Estimator (p : ℕ) where
  ctor : (Fin p → ℝ) → LagAtom p
  enetAlpha : ℝ
  unpenalized : Bool
  solveArgs : FitArgs
  initial : Option (Fin p → ℝ)

namespace Estimator

/-- `_construct_atom`, `base.py:363-371`.  Simplification: for `lagrange = np.inf` the elastic net branch is not modelled
(the atom is returned as it is). -/
def constructAtom (E : Estimator p) (score : Fin p → ℝ) : LagAtom p :=
  let A := E.ctor score
  open Classical in
  if E.enetAlpha ≠ 0 then
    match A.lagrange with
    | some l => { A with lagrange := some (l * (1 - E.enetAlpha))
                         quad := Quad.init (some (E.enetAlpha * l)) (some (.scalar 0)) (some (.scalar 0)) (some 0) }
    | none => A
  else A

/-- `simple_problem(loglike, atom)`, `simple.py:19-22`; the coefficients are the atom's, zeros at construction -/
def problem (f : (Fin p → ℝ) → ℝ) (g : (Fin p → ℝ) → Fin p → ℝ) (A : LagAtom p) (coefs : Fin p → ℝ) : SimpleProblem p :=
  { smooth := fun x => .num (f x), grad := g, smoothQuad := Quad.init none none none none, atomSolve := A.solve
    atomNonsmooth := A.nonsmooth, quadratic := Quad.init none none none none, coefs := coefs }

/-- `lagrange_mixin.fit`, `base.py:318-353`, and `_fit_null_soln`, `base.py:355-361` (which solves with the default
arguments of FISTA, from zero). -/
def fit (E : Estimator p) (f : (Fin p → ℝ) → ℝ) (g : (Fin p → ℝ) → Fin p → ℝ) (lipschitz : ℝ) (fuel : ℕ) :
    SimpleProblem.SolveOutcome p :=
  let nullGrad := g fun _ => 0                                                               -- 344
  let A := E.constructAtom nullGrad                                                          -- 345
  let last (score : Fin p → ℝ) : SimpleProblem.SolveOutcome p :=
    ((problem f g (E.constructAtom score) (E.initial.getD fun _ => 0)).solve none E.solveArgs lipschitz fuel).1   -- 348-352
  if E.unpenalized then
    match ((problem f g { A with lagrange := ⊤ } fun _ => 0).solve none {} lipschitz fuel).1 with   -- 355-360
    | .ok nullSoln _ _ => last (g nullSoln)
    | .raised => .raised
    | .diverged => .diverged
  else last nullGrad

/-- `base_mixin.fit`, `base.py:101-128`: the atom comes from `atom_constructor(**atom_params)`.  The constructor argument
`quadratic` is stored (line 99) and never read. -/
def baseFit (A : LagAtom p) (solveArgs : FitArgs) (initial : Option (Fin p → ℝ)) (f : (Fin p → ℝ) → ℝ)
    (g : (Fin p → ℝ) → Fin p → ℝ) (lipschitz : ℝ) (fuel : ℕ) : SimpleProblem.SolveOutcome p :=
  ((problem f g A (initial.getD fun _ => 0)).solve none solveArgs lipschitz fuel).1

end Estimator

end

end Verif.Model.Sklearn
