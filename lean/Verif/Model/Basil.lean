import Verif.Model.StrongRules
import Mathlib.Order.WithBot

/-!
# Model of `basil` (`regreg/paths/basil.py`)

Same conventions as `Verif.Model.StrongRules`.  Not modelled: `linear_predictor` and `last_grad`, which have no effect
on the result of `basil` (`cur_soln` is assigned on line 138 and never used), and the step size handed to the
subproblem solver.
-/

namespace Verif.Model.Basil
open Verif.Model.StrongRules

variable {K : Type*} [Field K] [LinearOrder K] {G V M : Type*} [Fintype G] [Fintype V] [Fintype M]

/-- what one run of the `for` loop of `basil_inner_loop` leaves behind -/
structure Inner (K G V : Type*) where
  /-- `lagrange_solved` and `solutions` -/
  solved : List (K × (V → K))
  /-- `ever_active` -/
  everActive : G → Bool
  /-- the array `grad_solution`: it is the caller's array, overwritten on line 76 -/
  grad : V → K
  /-- number of calls of the subproblem solver so far -/
  calls : ℕ

/-- the indicator of the groups with an active feature, `updated_ever_active(active_set(solution))`, line 89 -/
def activeGroups (P : PathObj K G V M) (b : V → K) (g : G) : Bool := decide (∃ v, P.groupVars g v = true ∧ b v ≠ 0)

/-- the `for lagrange in lagrange_subseq` loop, `basil.py:53-99`, on the subproblem `sub` -/
def innerFor (P : PathObj K G V M) (solve : Solver K G V) (checkActive : Bool) (sub : G → Bool) :
    List K → (V → K) → (V → K) → (G → Bool) → ℕ → Inner K G V
  | [], _, grad, ever, calls => { solved := [], everActive := ever, grad := grad, calls := calls }
  | lam :: rest, warm, _, ever, calls =>
    let soln := solve calls warm sub lam
    let eta := subLinpred P sub soln
    let solution := fun v => if varsOf P sub v then soln v else warm v
    let grad := fun v => fullGradient P eta v + P.enetGrad solution lam v
    let allFailing := failing checkActive (P.checkKKT grad solution (P.alpha * lam))
    if ∃ g, allFailing g = true then
      { solved := [], everActive := fun g => ever g || sub g || allFailing g, grad := grad, calls := calls + 1 }
    else
      let r := innerFor P solve checkActive sub rest solution grad
        (fun g => ever g || activeGroups P solution g) (calls + 1)
      { r with solved := (lam, solution) :: r.solved }

/-- `np.min` of a nonempty list -/
def minList : List K → K
  | [] => 0
  | a :: l => l.foldl min a

/-- the subproblem of an inner loop, `basil.py:31-33` and `45-51` -/
def innerSub (P : PathObj K G V M) (unpen : G → Bool) (stepNvar : ℕ) (subseq : List K) (solution grad : V → K)
    (cand : G → Bool) (g : G) : Bool :=
  let ranks := (P.checkKKT grad solution (P.alpha * minList subseq)).2
  let M := min stepNvar (Finset.univ.filter fun g => 0 ≤ ranks g).card
  (decide (ranks g < (M : K)) && decide (0 ≤ ranks g)) || unpen g || cand g

/-- `basil_inner_loop`, `basil.py:4-104` -/
def innerLoop (P : PathObj K G V M) (unpen : G → Bool) (solve : Solver K G V) (checkActive : Bool) (stepNvar : ℕ)
    (subseq : List K) (solution grad : V → K) (cand : G → Bool) (calls : ℕ) : Inner K G V :=
  innerFor P solve checkActive (innerSub P unpen stepNvar subseq solution grad cand) subseq solution grad unpen calls

/-- `np.min(lagrange_solved)`, `lagrange_solved` starting as `[np.inf]` -/
def minSolved (solved : List (K × (V → K))) : WithTop K := (solved.map fun x => ((x.1 : K) : WithTop K)).foldr min ⊤

/-- `lagrange_seq[lagrange_start:(lagrange_start + step_lagrange)]`, `basil.py:123-124` -/
def candidates (seq : List K) (stepLagrange : ℕ) (solved : List (K × (V → K))) : List K :=
  let start := (seq.filter fun l => decide (minSolved solved ≤ ((l : K) : WithTop K))).length
  (seq.drop start).take stepLagrange

/-- the `while True` loop of `basil`, `basil.py:121-143`; `none`: out of fuel.  `check_active` keeps its default
`False`: `basil` does not pass it on.  `cur_data` stays `initial_data`, whose gradient array is overwritten by the inner
loop. -/
def loop (P : PathObj K G V M) (unpen : G → Bool) (solve : Solver K G V) (stepNvar stepLagrange : ℕ) (seq : List K)
    (solution : V → K) : ℕ → (V → K) → (G → Bool) → ℕ → List (K × (V → K)) → Option (List (K × (V → K)))
  | 0, _, _, _, _ => none
  | fuel + 1, grad, cand, calls, solved =>
    let lagrangeCand := candidates seq stepLagrange solved
    if lagrangeCand = [] then some solved
    else
      let r := innerLoop P unpen solve false stepNvar lagrangeCand solution grad cand calls
      loop P unpen solve stepNvar stepLagrange seq solution fuel r.grad r.everActive r.calls (solved ++ r.solved)

/-- `basil`, `basil.py:106-145`: the solutions, each with its lagrange value. -/
def basil (P : PathObj K G V M) (unpen : G → Bool) (solve : Solver K G V) (stepNvar stepLagrange : ℕ) (seq : List K)
    (solution grad : V → K) (fuel : ℕ) : Option (List (K × (V → K))) :=
  loop P unpen solve stepNvar stepLagrange seq solution fuel grad (fun _ => false) 0 []

end Verif.Model.Basil
