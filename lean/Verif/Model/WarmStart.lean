import Verif.Model.LassoPath
import Mathlib.Data.Real.Basic
import Mathlib.Data.List.MinMax

/-!
# Model of `warm_start` (regreg/paths/__init__.py 374-429)

Exact reals.  Not modelled: the initial step from `power_L` (a parameter here), `inner_tol` (a property of the solver here),
the verbose printing, and `solve_args`, whose entries `tol` and `start_step` are overwritten before each use.
-/

namespace Verif.Model.WarmStart

noncomputable section

/-- What `warm_start` uses of a path object: the smooth loss at the coefficients (`full_loss`, lines 36-40), `enet_loss(lagrange)`,
the penalty `restricted_penalty(None)` at lagrange parameter 1, and `alpha`. -/
structure WarmPath (V : Type) where
  loss : V → ℝ
  enetLoss : ℝ → V → ℝ
  penalty : V → ℝ
  alpha : ℝ

/-- The objects of a `lasso_path` (paths/lasso.py): `full_loss` is the saturated loss at `X.dot(b)`; `enet_loss` (lines 74-82) is
the `quadratic_loss` of `_restricted_elastic_net` (lines 313-325); `restricted_penalty(None)` (lines 176-182) is a weighted l1
norm. -/
def lassoWarm {p m : ℕ} (X : Fin m → Fin p → ℝ) (satFunc : (Fin m → ℝ) → ℝ) (w enet : Fin p → ℝ) (alpha : ℝ) :
    WarmPath (Fin p → ℝ) where
  loss b := satFunc fun k => ∑ i, X k i * b i
  enetLoss lam b := (∑ i, b i * (LassoPath.enetParams alpha enet w lam i * b i)) / 2
  penalty b := ∑ i, |b i * w i|
  alpha := alpha

/-- `simple_problem(smooth, penalty)` with `coefs[:] = start`, solved with `start_step`: solution and `final_step`.  The first
argument is the number of calls made before. -/
abbrev Solver (V : Type) := ℕ → (V → ℝ) → (V → ℝ) → V → ℝ → V × ℝ

/-- one point of the path as recorded in `solutions`, `objective` -/
structure Entry (V : Type) where
  lagrange : ℝ
  beta : V
  objective : ℝ

/-- the `for lagrange in lagrange_seq` loop, lines 401-421; returns the entries and the last `final_step` -/
def loop {V : Type} (P : WarmPath V) (solve : Solver V) : List ℝ → ℕ → V → ℝ → List (Entry V) × ℝ
  | [], _, _, step => ([], step)
  | lam :: rest, n, solution, step =>
    let total := fun v => P.loss v + P.enetLoss lam v                    -- 402-403
    let pen := fun v => lam * P.alpha * P.penalty v                       -- 404
    let r := solve n total pen solution step                              -- 406-410
    let out := loop P solve rest (n + 1) r.1 r.2
    ({ lagrange := lam, beta := r.1, objective := P.loss r.1 } :: out.1, out.2)

/-- `np.max` of a nonempty list -/
def maxList : List ℝ → ℝ
  | [] => 0
  | a :: l => l.foldl max a

/-- the returned dictionary; a devratio is `none` when it is a division by zero (nan or inf) -/
structure Output (V : Type) where
  devratio : List (Option ℝ)
  lagrange : List ℝ
  beta : List V

/-- `warm_start(path_obj, lagrange_seq, (initial, _))`; `none` is the ValueError of `max` of an empty array (line 425) -/
def warmStart {V : Type} (P : WarmPath V) (solve : Solver V) (seq : List ℝ) (initial : V) (step : ℝ) : Option (Output V) :=
  let es := (loop P solve seq 0 initial step).1
  match es with
  | [] => none
  | es =>
    let objective := es.map Entry.objective
    let mx := maxList objective
    some { devratio := objective.map fun o => if mx = 0 then none else some (1 - o / mx)
           lagrange := seq
           beta := es.map Entry.beta }

end

end Verif.Model.WarmStart
