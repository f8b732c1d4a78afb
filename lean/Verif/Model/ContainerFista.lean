import Verif.Model.Container
import Verif.Model.Fista

/-!
# Model of the solver run inside `container.proximal`, `regreg/problems/container.py:97-145`

`Model/Container.lean` leaves the solver of the dual problem open.  Here it is the solver of the library, with the
settings made at lines 100-136.  The exceptions of the solver are not distinguished.
-/

set_option linter.unusedVariables false

namespace Verif.Model

open Verif.Spec (Mode Eval)

variable {n k : ℕ}

/-- a float which may be `np.inf` -/
noncomputable def ObjVal.ofValue : WithTop ℝ → ObjVal
  | some r => .num r
  | none => .inf

/-- the `dual_problem` object as `FISTA` sees it: `smooth_objective` and `nonsmooth_objective` of
`dual_problem.py:58-73`, `proximal` of lines 75-79 (called through `composite.proximal_step`, `composite.py:97-110`), and
the attribute `lipschitz` set at `container.py:131`.  An evaluation which does not return a number is `nan`. -/
noncomputable def DualProblem.composite (P : DualProblem n k) (lipschitz : ℝ) : Composite k where
  smooth u := match (P.smoothObjective none u .func).1 with
    | .val v => .num v
    | _ => .nan
  grad u := match (P.smoothObjective none u .grad).1 with
    | .grad g => g
    | _ => fun _ => 0
  nonsmooth u cf := .ofValue (P.nonsmoothObjective u cf)
  proximal q := match P.atom.proximal q with
    | .ok p => some p
    | _ => none
  lipschitz := lipschitz

/-- `prox_defaults`, `container.py:100-104` -/
noncomputable def Container.proxDefaults : FitArgs := { tol := some 1e-14, minIts := some 5, maxIts := some 5000 }

/-- `dualopt.fit(**prox_control)`, `container.py:122-136`: a fresh solver with `perform_backtrack = False`, for the dual
problem with `lipschitz = dual_reference_lipschitz / proxq.coef`; `start` is `dualp.coefs`, which is zero
(`dual_problem.py:46`) unless somebody has set the attribute `dual_minimizer`. -/
noncomputable def Container.dualRun (C : Container n) (control : FitArgs) (refLipschitz : ℝ) (proxq : Quad (Fin n) ℝ)
    (start : Fin C.stack.1 → ℝ) : Fista.Outcome C.stack.1 :=
  Fista.fit ((C.dualProblem proxq).composite (refLipschitz / proxq.coef)) { control with performBacktrack := false } none
    false 0 start

/-- `proximal(proxq, prox_control)` with `return_objective_hist`, `container.py:89-145`, in the case where the transform
is neither an identity nor a selector: the vector and the history; `none`: an exception. -/
noncomputable def Container.proximalHist (C : Container n) (control : FitArgs) (refLipschitz : ℝ) (proxq : Quad (Fin n) ℝ)
    (start : Fin C.stack.1 → ℝ) : Option ((Fin n → ℝ) × List ObjVal) :=
  match C.dualRun control refLipschitz proxq start with
  | .ok hist s => match Container.primalPoint C.stack.2.1 proxq s.coefs with
    | .ok p => some (p, hist)
    | _ => none
  | _ => none

end Verif.Model
