import Verif.Model.Losses
import Verif.Spec.Links

/-!
# Model of `probit_loglike` and `cloglog_loglike` of regreg/smooth/binary.py

Exact reals, one dimensional arrays, at least one observation.  `scipy.stats.norm.pdf`, `.cdf`, `.sf` are the exact
density, distribution and survival function of the standard normal distribution.  As in `Verif.Model.Losses` every
evaluation returns the content of the caller's `case_weights` array after the call.
-/

namespace Verif.Model
open Verif.Spec

noncomputable section

/-- which of the two classes: `probit_loglike` (binary.py 268-506) or `cloglog_loglike` (binary.py 508-752) -/
inductive BinLink | probit | cloglog

namespace BinLink

/-- `np.clip(x, -5, 5)`, binary.py 597-598, 751 -/
def clip5 (x : ℝ) : ℝ := min (max x (-5)) 5

/-- `prob` of `smooth_objective`: binary.py 358-359 (probit), 599, 601 (cloglog) -/
def prob : BinLink → ℝ → ℝ
  | probit, x => if x < -20 then ncdf (-20) else ncdf x
  | cloglog, x => 1 - Real.exp (-Real.exp (clip5 x))

/-- `prob_c` of `smooth_objective`: binary.py 360-361 (probit), 600, 602 (cloglog) -/
def probC : BinLink → ℝ → ℝ
  | probit, x => if x > 20 then nsf 20 else nsf x
  | cloglog, x => Real.exp (-Real.exp (clip5 x))

/-- `pdf`: binary.py 367, 375, 424 (probit); 607-608, 616-617, 667-668 (cloglog), from the unclipped argument -/
def pdf : BinLink → ℝ → ℝ
  | probit, x => npdf x
  | cloglog, x => Real.exp (x - Real.exp x)

/-- `mean_function`: binary.py 505-506 (probit), 750-752 (cloglog) -/
def mean : BinLink → ℝ → ℝ
  | probit, x => ncdf x
  | cloglog, x => 1 - Real.exp (-Real.exp (clip5 x))

end BinLink

/-- attributes of a `probit_loglike` or `cloglog_loglike` object -/
structure BinLoss (n : ℕ) where
  link : BinLink
  successes : Fin n → ℝ
  trials : Fin n → ℝ
  coef : ℝ
  offset : Option (Fin n → ℝ)
  quad : Quad (Fin n) ℝ
  caseWeights : Option (Fin n → ℝ)

namespace BinLoss

open Classical in
/-- The constructors, binary.py 276-313 and 516-553, with `set_data` 430-455, 675-700: without `trials` the successes
must be binary and there is one trial each; the dtype of `trials` and the shape check of `case_weights` are not modelled.
The quadratic `devq` is the one of `logistic_loglike` (same lines, binary.py 37-46).  `none` is ValueError. -/
def init {n : ℕ} (link : BinLink) (successes : Fin n → ℝ) (trials : Option (Fin n → ℝ)) (coef : ℝ)
    (offset : Option (Fin n → ℝ)) (quad : Quad (Fin n) ℝ) (caseWeights : Option (Fin n → ℝ)) : Option (BinLoss n) :=
  match Smooth.atomInit coef offset with
  | none => none
  | some (coef, offset) =>
    match Loss.resolveTrials successes trials with
    | none => none
    | some t =>
      if trials ≠ none ∧ ((∃ i, t i - successes i < 0) ∨ ∃ i, successes i < 0) then none
      else if ∃ w, caseWeights = some w ∧ ¬ ∀ i, 0 ≤ w i then none
      else some { link := link, successes := successes, trials := t, coef := coef, offset := offset,
                  quad := Loss.devQuad coef (.logistic successes t) quad, caseWeights := caseWeights }

/-- `f` of `smooth_objective`, binary.py 365-370, 382-386; 605-611, 625-629 -/
def value {n : ℕ} (L : BinLoss n) (w x : Fin n → ℝ) : ℝ :=
  -Smooth.scaleR L.coef (∑ i, w i * (L.successes i * Real.log (L.link.prob (x i)) +
    (L.trials i - L.successes i) * Real.log (L.link.probC (x i))))

/-- `g` of `smooth_objective`, binary.py 371-372, 376-377; 612-613, 619-620 -/
def gradient {n : ℕ} (L : BinLoss n) (w x : Fin n → ℝ) : Fin n → ℝ := fun i =>
  -Smooth.scaleV L.coef (fun i => w i * L.link.pdf (x i) *
    (L.successes i / L.link.prob (x i) - (L.trials i - L.successes i) / L.link.probC (x i))) i

/-- `smooth_objective(x, mode, case_weights=arg)`, binary.py 315-389 and 555-632, with the caller's array after the call.
Unlike `logistic_loglike` neither class applies the offset. -/
def smoothObjective {n : ℕ} (L : BinLoss n) (x : Fin n → ℝ) (mode : Mode) (arg : Option (Fin n → ℝ)) :
    Eval n × Option (Fin n → ℝ) :=
  let w := Loss.cw L.caseWeights arg
  let after := Loss.argAfter L.caseWeights arg
  match mode with
  | .both => (.both (L.value w x) (L.gradient w x), after)
  | .grad => (.grad (L.gradient w x), after)
  | .func => (.val (L.value w x), after)
  | .other => (.valueError, after)

/-- `hessian(x, case_weights=arg)`, binary.py 393-425 and 636-670, with the caller's array after the call. -/
def hessian {n : ℕ} (L : BinLoss n) (x : Fin n → ℝ) (arg : Option (Fin n → ℝ)) : (Fin n → ℝ) × Option (Fin n → ℝ) :=
  let w := Loss.cw L.caseWeights arg
  let V : Fin n → ℝ := fun i => L.link.mean (x i) * (1 - L.link.mean (x i))
  (Smooth.scaleV L.coef fun i => L.link.pdf (x i) ^ 2 * L.trials i * w i / V i, Loss.argAfter L.caseWeights arg)

/-- `composite.objective`, problems/composite.py 83-84: the value plus the quadratic -/
def objective {n : ℕ} (L : BinLoss n) (x : Fin n → ℝ) : ℝ :=
  L.value (Loss.cw L.caseWeights none) x + L.quad.funcVal x

/-- `__copy__`, binary.py 459-468, 704-713: the constructor runs again, now with the stored trials -/
def copy {n : ℕ} (L : BinLoss n) : Option (BinLoss n) :=
  init L.link L.successes (some L.trials) L.coef L.offset L.quad L.caseWeights

open Classical in
/-- `subsample(case_idx)`, binary.py 470-501, 715-746 -/
def subsample {n : ℕ} (L : BinLoss n) (idx : Finset (Fin n)) : Option (BinLoss n) :=
  match L.copy with
  | none => none
  | some C =>
    let w : Fin n → ℝ := match C.caseWeights with
      | some w => w
      | none => fun _ => 1
    some { C with caseWeights := some fun i => w i * if i ∈ idx then 1 else 0 }

end BinLoss

end
end Verif.Model
