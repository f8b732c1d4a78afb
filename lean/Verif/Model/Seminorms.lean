import Verif.Model.Projl1
import Mathlib.Algebra.Order.BigOperators.Group.Finset
import Mathlib.Data.Fintype.BigOperators
import Mathlib.Order.WithBot

/-!
# Model of the atoms of `regreg/atoms/seminorms.py`

Each atom is modelled by the four numerical methods `seminorm`, `constraint`, `lagrange_prox`, `bound_prox`
as functions of the array and of the already resolved parameter (`get_lagrange` / `get_bound`,
lines 1173-1195, are modelled in `Verif.Model.AtomMode`).  Arrays are one-dimensional.
`np.inf` is `⊤ : WithTop K`.
-/

namespace Verif.Model

variable {K : Type*} [Field K] [LinearOrder K]

/-- `np.sign`. -/
def npSign (x : K) : K := if x > 0 then 1 else if x < 0 then -1 else 0

/-- `np.clip(a, lo, hi)` = `np.minimum(np.maximum(a, lo), hi)`. -/
def npClip (a lo hi : K) : K := min (max a lo) hi

/-- a Boolean array element used as a number -/
def b2k (b : Prop) [Decidable b] : K := if b then 1 else 0

/-- `atom.tol`, `atoms/__init__.py:26`. -/
def atomTol : K := 1 / 10 ^ 5

/-- `np.max` of a one-dimensional array (at least one entry). -/
def npMax {n : ℕ} (x : Fin (n + 1) → K) : K := Finset.univ.sup' Finset.univ_nonempty x

namespace L1

/-- `l1norm.seminorm`, `seminorms.py:632-636`. -/
def seminorm {n : ℕ} (arg : Fin n → K) (lagrange : K) : K := lagrange * ∑ i, |arg i|

/-- `l1norm.constraint`, `seminorms.py:639-645`. -/
def constraint {n : ℕ} (arg : Fin n → K) (bound : K) : WithTop K :=
  if ∑ i, |arg i| ≤ bound * (1 + atomTol) then 0 else ⊤

/-- `l1norm.lagrange_prox`, `seminorms.py:648-650`. -/
def lagrangeProx {n : ℕ} (arg : Fin n → K) (lipschitz lagrange : K) : Fin n → K :=
  fun i => npSign (arg i) * max (|arg i| - lagrange / lipschitz) 0

/-- `l1norm.bound_prox`, `seminorms.py:653-660`; the root finder never returns `np.inf`. -/
def boundProx {n : ℕ} (arg : Fin n → K) (bound : K) : Option (Fin n → K) :=
  (findC bound 0 (List.ofFn fun i => |arg i|)).map fun cut =>
    fun i => npSign (arg i) * (|arg i| - cut) * b2k (|arg i| > cut)

end L1

namespace Sup

/-- `supnorm.seminorm`, `seminorms.py:703-707`. -/
def seminorm {n : ℕ} (arg : Fin (n + 1) → K) (lagrange : K) : K := lagrange * npMax (fun i => |arg i|)

/-- `supnorm.constraint`, `seminorms.py:710-716`. -/
def constraint {n : ℕ} (arg : Fin n → K) (bound : K) : WithTop K :=
  if ∀ i, |arg i| ≤ bound * (1 + atomTol) then 0 else ⊤

/-- `supnorm.lagrange_prox`, `seminorms.py:719-728`. -/
def lagrangeProx {n : ℕ} (arg : Fin n → K) (lipschitz lagrange : K) : Option (Fin n → K) :=
  (findC (lagrange / lipschitz) 0 (List.ofFn fun i => |arg i|)).map fun cut =>
    fun i => arg i - npSign (arg i) * (|arg i| - cut) * b2k (|arg i| > cut)

/-- `supnorm.bound_prox`, `seminorms.py:731-733`. -/
def boundProx {n : ℕ} (arg : Fin n → K) (bound : K) : Fin n → K := fun i => npClip (arg i) (-bound) bound

end Sup

/-- The pattern `pos = v > 0; if np.any(pos): v[pos] = projl1(v[pos], bound)` used at
`seminorms.py:900-902, 972-974, 1048-1061, 1130-1132`: the positive entries, in order, are projected by
`projl1`; entry `i` of the others is `other i`. -/
def projPos {n : ℕ} (v : Fin n → K) (other : Fin n → K) (bound : K) : Option (Fin n → K) :=
  if ∃ i, v i > 0 then
    -- `projl1(v[pos], bound)`: root finder on the compressed array, then soft thresholding of its entries
    (findC bound 0 (((List.ofFn v).filter (fun a => decide (a > 0))).map fun a => |a|)).map fun cut =>
      fun i => if v i > 0 then softThr (v i) cut else other i
  else some other

namespace PosPart

/-- `positive_part.seminorm`, `seminorms.py:869-873`. -/
def seminorm {n : ℕ} (arg : Fin n → K) (lagrange : K) : K := lagrange * ∑ i, max (arg i) 0

/-- `positive_part.constraint`, `seminorms.py:876-882`. -/
def constraint {n : ℕ} (arg : Fin n → K) (bound : K) : WithTop K :=
  if ∑ i, max (arg i) 0 ≤ bound * (1 + atomTol) then 0 else ⊤

/-- `positive_part.lagrange_prox`, `seminorms.py:885-892`. -/
def lagrangeProx {n : ℕ} (arg : Fin n → K) (lipschitz lagrange : K) : Fin n → K :=
  fun i => if arg i > 0 then max (arg i - lagrange / lipschitz) 0 else arg i

/-- `positive_part.bound_prox`, `seminorms.py:895-903`. -/
def boundProx {n : ℕ} (arg : Fin n → K) (bound : K) : Option (Fin n → K) := projPos arg arg bound

end PosPart

namespace ConMax

/-- `constrained_max.seminorm`, `seminorms.py:946-954`. -/
def seminorm {n : ℕ} (arg : Fin (n + 1) → K) (lagrange : K) (checkFeasibility : Bool) : WithTop K :=
  let anyneg := ∃ i, arg i < 0 + atomTol
  let v := lagrange * npMax arg
  if ¬ anyneg ∨ checkFeasibility = false then (v : WithTop K) else ⊤

/-- `constrained_max.constraint`, `seminorms.py:957-964`. -/
def constraint {n : ℕ} (arg : Fin (n + 1) → K) (bound : K) : WithTop K :=
  let anyneg := ∃ i, arg i < 0 + atomTol
  let inside := npMax arg ≤ bound * (1 + atomTol)
  if inside ∧ ¬ anyneg then 0 else ⊤

/-- `constrained_max.lagrange_prox`, `seminorms.py:967-975`. -/
def lagrangeProx {n : ℕ} (arg : Fin n → K) (lipschitz lagrange : K) : Option (Fin n → K) :=
  (projPos arg arg (lagrange / lipschitz)).map fun v => fun i => arg i - v i

/-- `constrained_max.bound_prox`, `seminorms.py:978-980`. -/
def boundProx {n : ℕ} (arg : Fin n → K) (bound : K) : Fin n → K := fun i => npClip (arg i) 0 bound

end ConMax

namespace ConPosPart

/-- `constrained_positive_part.seminorm`, `seminorms.py:1024-1032`. -/
def seminorm {n : ℕ} (arg : Fin n → K) (lagrange : K) (checkFeasibility : Bool) : WithTop K :=
  let anyneg := ∃ i, arg i < 0 + atomTol
  let v := ∑ i, max (arg i) 0
  if ¬ anyneg ∨ checkFeasibility = false then ((v * lagrange : K) : WithTop K) else ⊤

/-- `constrained_positive_part.constraint`, `seminorms.py:1035-1040`. -/
def constraint {n : ℕ} (arg : Fin n → K) (bound : K) : WithTop K :=
  let value := seminorm arg 1 true
  if value ≥ ((bound * (1 + atomTol) : K) : WithTop K) then ⊤ else 0

/-- `constrained_positive_part.lagrange_prox`, `seminorms.py:1043-1051`. -/
def lagrangeProx {n : ℕ} (arg : Fin n → K) (lipschitz lagrange : K) : Fin n → K :=
  fun i => if arg i > 0 then max (arg i - lagrange / lipschitz) 0 else 0

/-- `constrained_positive_part.bound_prox`, `seminorms.py:1054-1062`. -/
def boundProx {n : ℕ} (arg : Fin n → K) (bound : K) : Option (Fin n → K) :=
  projPos arg (fun _ => 0) bound

end ConPosPart

namespace MaxPosPart

/-- `max_positive_part.seminorm`, `seminorms.py:1105-1109`. -/
def seminorm {n : ℕ} (arg : Fin (n + 1) → K) (lagrange : K) : K := npMax (fun i => max (arg i) 0) * lagrange

/-- `max_positive_part.constraint`, `seminorms.py:1112-1117`. -/
def constraint {n : ℕ} (arg : Fin (n + 1) → K) (bound : K) : WithTop K :=
  if npMax (fun i => max (arg i) 0) ≥ bound * (1 + atomTol) then ⊤ else 0

/-- `max_positive_part.bound_prox`, `seminorms.py:1120-1122`: `np.clip(arg, -inf, bound)`. -/
def boundProx {n : ℕ} (arg : Fin n → K) (bound : K) : Fin n → K := fun i => min (arg i) bound

/-- `max_positive_part.lagrange_prox`, `seminorms.py:1125-1133`. -/
def lagrangeProx {n : ℕ} (arg : Fin n → K) (lipschitz lagrange : K) : Option (Fin n → K) :=
  (projPos arg (fun _ => 0) (lagrange / lipschitz)).map fun v => fun i => arg i - v i

end MaxPosPart

end Verif.Model
