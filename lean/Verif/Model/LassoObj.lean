import Verif.Model.Losses
import Verif.Model.GroupPath
import Verif.Model.StrongRules
import Verif.Model.WarmStart
import Verif.Model.CrossValidate

/-!
# Model of `lasso_path` objects (regreg/paths/lasso.py) and of `cross_validate` (regreg/paths/cross_validate.py)

Exact reals.  The path object carries its saturated loss (one of the losses of `Model/Losses.lean`), the design as a transform,
the weights, the elastic net parameters, and the null solution with its gradient that the constructor computes.  The solver of
`simple_problem(loss, penalty)` is an arbitrary function of the number of earlier calls of the run, the smooth part, the penalty
and the warm start.  Not modelled: the warning of lines 52-54, `ever_active`, step sizes and tolerances handed to the solver, and
the gradient that `solve_subproblem` returns, which no caller reads.
-/

namespace Verif.Model.LassoObj
open Verif.Spec

noncomputable section

/-- `self.X = astransform(X)`, lasso.py 31: an `affine_transform` with a matrix and possibly an offset (affine/__init__.py
40-124, 739-747); a plain array has no offset. -/
structure Design (p n : ℕ) where
  X : Fin n → Fin p → ℝ
  offset : Option (Fin n → ℝ)

namespace Design
variable {p n : ℕ}

/-- `X.dot(b)`: the linear part only, affine/__init__.py 126-176 -/
def dot (D : Design p n) (b : Fin p → ℝ) (i : Fin n) : ℝ := ∑ j, D.X i j * b j

/-- `X.affine_map(b)`, affine/__init__.py 194-224 -/
def affineMap (D : Design p n) (b : Fin p → ℝ) (i : Fin n) : ℝ :=
  match D.offset with
  | none => D.dot b i
  | some o => o i + D.dot b i

/-- `X.T.dot(u)`, affine/__init__.py 226-262, 768-787 -/
def adjoint (D : Design p n) (u : Fin n → ℝ) (j : Fin p) : ℝ := ∑ i, D.X i j * u i

end Design

/-- `loss.smooth_objective(x, 'func')` -/
def funcAt {n : ℕ} (L : Loss n) (x : Fin n → ℝ) : ℝ :=
  match (L.smoothObjective x .func none).1 with
  | .val f => f
  | _ => 0

/-- `loss.smooth_objective(x, 'grad')` -/
def gradAt {n : ℕ} (L : Loss n) (x : Fin n → ℝ) : Fin n → ℝ :=
  match (L.smoothObjective x .grad none).1 with
  | .grad g => g
  | _ => fun _ => 0

/-- `loss.data`: glm.py 963-964, 1158-1159, 1334-1335; binary.py 186-187, 872-873 -/
def response {n : ℕ} (L : Loss n) : Fin n → ℝ :=
  match L.data with
  | .gaussian y => y
  | .poisson c => c
  | .huber y _ => y
  | .logistic s _ => s
  | .huberSvm s _ => s

end

/-- the attributes of a `lasso_path`: lasso.py 30-66 -/
structure Obj (p n : ℕ) where
  loss : Loss n
  design : Design p n
  w : Fin p → ℝ
  enet : Fin p → ℝ
  alpha : ℝ
  solution : Fin p → ℝ
  grad : Fin p → ℝ

noncomputable section

/-- `simple_problem(smooth, penalty)` on the features of a candidate set, with `coefs[:] = warm`, then `solve`; the first argument
is the number of calls made before -/
abbrev SubSolver (p : ℕ) := ℕ → (S : Fin p → Bool) → (({v // S v = true} → ℝ) → ℝ) → (({v // S v = true} → ℝ) → ℝ) →
  ({v // S v = true} → ℝ) → {v // S v = true} → ℝ

section sub
variable {p n : ℕ} (L : Loss n) (D : Design p n) (w enet : Fin p → ℝ) (alpha : ℝ)

/-- `sub_X.dot(b)` with `sub_X = subsample_columns(X, candidate_set)`, lasso.py 334, 208 -/
def subLinpred (S : Fin p → Bool) (b : {v // S v = true} → ℝ) (i : Fin n) : ℝ := ∑ c, GroupPath.subsampleColumns D.X S i c * b c

/-- the smooth part of the subproblem: `affine_smooth(saturated_loss, X_candidate)`, lasso.py 335, plus, when `alpha < 1`, the
elastic net term, lasso.py 198-202, 313-325 with the diagonal `quadratic_loss` of smooth/quadratic.py -/
def subSmooth (S : Fin p → Bool) (lam : ℝ) (b : {v // S v = true} → ℝ) : ℝ :=
  let loss := funcAt L (subLinpred D S b)
  if alpha < 1 then loss + (∑ c : {v // S v = true}, b c * (LassoPath.enetParams alpha enet w lam c * b c)) / 2 else loss

/-- the penalty of the subproblem: `weighted_l1norm((lagrange * weights)[candidate_set] * alpha, lagrange=1.)`, lasso.py 190-195,
336 -/
def subPenalty (S : Fin p → Bool) (lam : ℝ) (b : {v // S v = true} → ℝ) : ℝ :=
  1 * ∑ c : {v // S v = true}, |b c * (lam * w c * alpha)|

/-- `solve_subproblem`, lasso.py 184-211: the solution on the candidate features -/
def solveSubproblem (solve : SubSolver p) (calls : ℕ) (solution : Fin p → ℝ) (S : Fin p → Bool) (lam : ℝ) :
    {v // S v = true} → ℝ :=
  solve calls S (subSmooth L D w enet alpha S lam) (subPenalty w alpha S lam) fun c => solution c

end sub

/-- `BIG`, lasso.py 19 -/
def BIG : ℝ := 10 ^ 12

open Classical in
/-- `lasso_path.__init__`, lasso.py 21-69; `none` is the ValueError of a negative weight (weighted_atoms.py 42-43).  The
elastic net parameters are ones unless given. -/
def init {p n : ℕ} (solve : SubSolver p) (L : Loss n) (D : Design p n) (w : Fin p → ℝ) (enet : Option (Fin p → ℝ)) (alpha : ℝ) :
    Option (Obj p n) :=
  if ¬ ∀ j, 0 ≤ w j then none
  else
    let e : Fin p → ℝ := match enet with
      | none => fun _ => 1
      | some e => e
    let unpenalized : Fin p → Bool := fun j => decide (w j = 0)
    let (solution, linpred) :=
      if ∃ j, unpenalized j = true then
        let null := solveSubproblem L D w e alpha solve 0 (fun _ => 0) unpenalized BIG
        ((fun j => if h : unpenalized j = true then null ⟨j, h⟩ else 0 : Fin p → ℝ), subLinpred D unpenalized null)
      else ((fun _ => 0 : Fin p → ℝ), (fun _ => 0 : Fin n → ℝ))
    some { loss := L, design := D, w := w, enet := e, alpha := alpha, solution := solution,
           grad := fun j => D.adjoint (gradAt L linpred) j +
             LassoPath.enetGrad alpha e solution (fun j => !unpenalized j) 1 j }

/-- the factories `gaussian`, `poisson`, `huber`, `logistic`, `huber_svm` of lasso.py 250-287: the loss with its default
arguments, then the path -/
def factory {p n : ℕ} (solve : SubSolver p) (d : LossData n) (D : Design p n) (w : Fin p → ℝ) (enet : Option (Fin p → ℝ))
    (alpha : ℝ) : Option (Obj p n) :=
  match Loss.init d 1 none (Quad.init none none none none) none with
  | none => none
  | some L => init solve L D w enet alpha

/-- `path.subsample(case_idx)`, lasso.py 84-115 -/
def subsample {p n : ℕ} (solve : SubSolver p) (P : Obj p n) (idx : Finset (Fin n)) : Option (Obj p n) :=
  match P.loss.subsample idx with
  | none => none
  | some L => init solve L P.design P.w (some P.enet) P.alpha

/-- what `strong_rules` uses of the path: `X.dot`, `X.T.dot` and the columns of `X` are those of the linear part -/
def toPath {p n : ℕ} (tol : ℝ) (P : Obj p n) : StrongRules.PathObj ℝ (Fin p) (Fin p) (Fin n) :=
  StrongRules.lassoPath P.design.X (gradAt P.loss) (funcAt P.loss) P.w P.enet P.alpha tol

/-- `path.solve_subproblem` as the subproblem solver of `strong_rules` -/
def toSolver {p n : ℕ} (solve : SubSolver p) (P : Obj p n) : StrongRules.Solver ℝ (Fin p) (Fin p) :=
  fun calls warm S lam v => if h : S v = true then
    solveSubproblem P.loss P.design P.w P.enet P.alpha solve calls warm S lam ⟨v, h⟩ else 0

/-- what `warm_start` uses of the path: `full_loss` is `affine_smooth(saturated_loss, X)`, which applies `X.affine_map`
(paths/__init__.py 36-40, smooth/__init__.py 235); `enet_loss`, lasso.py 74-82; `restricted_penalty(None)`, lasso.py 176-182 -/
def toWarm {p n : ℕ} (P : Obj p n) : WarmStart.WarmPath (Fin p → ℝ) where
  loss b := funcAt P.loss (P.design.affineMap b)
  enetLoss lam b := (∑ j, b j * (LassoPath.enetParams P.alpha P.enet P.w lam j * b j)) / 2
  penalty b := ∑ j, |b j * P.w j|
  alpha := P.alpha

/-- `path_fitter(path, lagrange_seq, initial_data)['beta']`; `none`: an exception -/
abbrev Fitter (p n : ℕ) := Obj p n → List ℝ → (Fin p → ℝ) × (Fin p → ℝ) → Option (List (Fin p → ℝ))

/-- `strong_rules` with its default `check_active` and `max_tries`, paths/__init__.py 217-372: the first row of `beta` is the
initial solution.  The tolerance of the KKT check is `1.e-2` (lasso.py 344). -/
def strongFit {p n : ℕ} (solve : SubSolver p) : Fitter p n := fun P seq initial =>
  (StrongRules.strongRules (toPath (1 / 100) P) (toSolver solve P) false 20 seq initial.1 initial.2).map
    fun es => initial.1 :: es.map StrongRules.Entry.beta

/-- `warm_start`, paths/__init__.py 374-429, with the initial step `step` -/
def warmFit {p n : ℕ} (solve : WarmStart.Solver (Fin p → ℝ)) (step : ℝ) : Fitter p n := fun P seq initial =>
  (WarmStart.warmStart (toWarm P) solve seq initial.1 step).map WarmStart.Output.beta

/-- A `score` function: the linear predictors and the responses of the cases `T`. -/
abbrev Score (n : ℕ) := (T : Finset (Fin n)) → ({i // i ∈ T} → ℝ) → ({i // i ∈ T} → ℝ) → ℝ

/-- the default score `np.linalg.norm(x-y)**2 / y.shape[0]`, cross_validate.py 21 -/
def defaultScore (n : ℕ) : Score n := fun T x y => Real.sqrt (∑ i, (x i - y i) ^ 2) ^ 2 / T.card

/-- `path.linpred(coef, X, test)` on a two dimensional `coef`, paths/__init__.py 96-103, transposed: `linpred.T[k]` for every
row `k` of `coef` -/
def linpredRows {p n : ℕ} (D : Design p n) (betas : List (Fin p → ℝ)) (T : Finset (Fin n)) : List ({i // i ∈ T} → ℝ) :=
  betas.map fun b i => D.dot b i

/-- `train_path` of `fit_fold`, cross_validate.py 69-70; `none`: an exception or, without training cases, an infinite `coef` -/
def trainPath {p n : ℕ} (solve : SubSolver p) (P : Obj p n) (train : Fin n → Bool) : Option (Obj p n) :=
  match subsample solve P (Finset.univ.filter fun i => train i = true), CrossValidate.coefFactor train with
  | some Q, some c => some { Q with loss := { Q.loss with coef := Q.loss.coef * (c : ℝ) } }
  | _, _ => none

/-- `fit_fold`, cross_validate.py 63-75 -/
def fitFold {p n : ℕ} (solve : SubSolver p) (fit : Fitter p n) (P : Obj p n) (seq : List ℝ)
    (initial : (Fin p → ℝ) × (Fin p → ℝ)) (train : Fin n → Bool) : Option (List (Fin p → ℝ)) :=
  match trainPath solve P train with
  | some Q => fit Q seq initial
  | none => none

/-- `np.mean(scores, 0), np.std(scores, 0)`, cross_validate.py 97: `scores[f][k]`; the rows have to have the same length -/
def columnStats (scores : List (List ℝ)) : Option (List ℝ × List ℝ) :=
  match scores with
  | [] => none
  | r :: _ =>
    if ∀ s ∈ scores, s.length = r.length then
      let mean : ℕ → ℝ := fun k => (scores.map fun s => s.getD k 0).sum / scores.length
      let std : ℕ → ℝ := fun k => Real.sqrt ((scores.map fun s => (s.getD k 0 - mean k) ^ 2).sum / scores.length)
      some ((List.range r.length).map mean, (List.range r.length).map std)
    else none

/-- `Parallel(...)(jobs)`: the results of all folds, in order; an exception in one of them is raised -/
def collect {α : Type} : List (Option α) → Option (List α)
  | [] => some []
  | none :: _ => none
  | some a :: rest => match collect rest with
    | none => none
    | some as => some (a :: as)

/-- `cross_validate(path_obj, lagrange_seq, path_fitter, initial_data, cv, score=...)` after the folds have been formed,
cross_validate.py 59-97 -/
def crossValidate {p n : ℕ} (solve : SubSolver p) (fit : Fitter p n) (P : Obj p n) (seq : List ℝ)
    (initial : Option ((Fin p → ℝ) × (Fin p → ℝ))) (score : Score n) (folds : List ((Fin n → Bool) × (Fin n → Bool))) :
    Option (List ℝ × List ℝ) :=
  let data := initial.getD (P.solution, P.grad)                                                  -- 59-61
  match collect (folds.map fun f => fitFold solve fit P seq data f.1) with                       -- 77-88
  | none => none
  | some results =>
    let scores := (folds.zip results).map fun r =>                                               -- 90-95
      let T := Finset.univ.filter fun i => r.1.2 i = true
      (linpredRows P.design r.2 T).map fun x => score T x fun i => response P.loss i
    columnStats scores

/-- `path.linpred(coef, X, test)` on `coef` of shape `(l, q, p)`, paths/__init__.py 96-102: `coef.T` of shape `(p, q, l)` is
reshaped to `(p, q * l)` in C order, multiplied by `X`, restricted to `test`, and reshaped to `(len(test), q, l)` -/
def linpred3 {p n q l t : ℕ} (D : Design p n) (coef : Fin l → Fin q → Fin p → ℝ) (test : Fin t → Fin n) :
    Fin t → Fin q → Fin l → ℝ :=
  let coefT : Fin p → Fin q → Fin l → ℝ := fun a j k => coef k j a
  let flat : Fin p → Fin (q * l) → ℝ := fun a m => coefT a (finProdFinEquiv.symm m).1 (finProdFinEquiv.symm m).2
  let lin : Fin t → Fin (q * l) → ℝ := fun i m => D.dot (fun a => flat a m) (test i)
  fun i j k => lin i (finProdFinEquiv (j, k))

end

end Verif.Model.LassoObj
