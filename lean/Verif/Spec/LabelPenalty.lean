import Verif.Spec.Groups
import Mathlib.Order.WithBot

/-!
# Specification: the mixed penalty described by the labels the user passes

A coordinate labelled `-1` is not penalised, `-2` gets an l1 penalty, `-3` a positive part (and the constraint `≥ 0`),
`-4` only the constraint `≥ 0`; all coordinates with another common label form a group.  Nothing here refers to the
model.
-/

namespace Verif.Spec

variable {p : ℕ}

/-- the labels of the groups -/
def groupLabels (lab : Fin p → ℤ) : Finset ℤ :=
  (Finset.univ.image lab).filter fun g => g ≠ -1 ∧ g ≠ -2 ∧ g ≠ -3 ∧ g ≠ -4

/-- Euclidean norm of the coordinates with label `g` -/
noncomputable def labelNorm (lab : Fin p → ℤ) (z : Fin p → ℝ) (g : ℤ) : ℝ :=
  Real.sqrt (∑ i, if lab i = g then z i ^ 2 else 0)

/-- weight of a group: the one the user gives, otherwise the square root of its size -/
noncomputable def labelWeight (lab : Fin p → ℤ) (W : ℤ → Option ℝ) (g : ℤ) : ℝ :=
  (W g).getD (Real.sqrt (Finset.univ.filter fun i => lab i = g).card)

/-- `Σ_{l1} |z_i| + Σ_{positive part} z_i + Σ_groups w_g ‖z[g]‖₂` -/
noncomputable def labelPenalty (lab : Fin p → ℤ) (W : ℤ → Option ℝ) (z : Fin p → ℝ) : ℝ :=
  (∑ i, if lab i = -2 then |z i| else 0) + (∑ i, if lab i = -3 then z i else 0) +
    ∑ g ∈ groupLabels lab, labelWeight lab W g * labelNorm lab z g

/-- the points at which the penalty is finite -/
def labelDomain (lab : Fin p → ℤ) : Set (Fin p → ℝ) := {z | ∀ i, lab i = -3 ∨ lab i = -4 → 0 ≤ z i}

/-- the set whose support function is `b` times the penalty -/
def labelDualBall (lab : Fin p → ℤ) (W : ℤ → Option ℝ) (b : ℝ) : Set (Fin p → ℝ) :=
  {z | (∀ i, lab i = -1 → z i = 0) ∧ (∀ i, lab i = -2 → |z i| ≤ b) ∧ (∀ i, lab i = -3 → z i ≤ b) ∧
    (∀ i, lab i = -4 → z i ≤ 0) ∧ ∀ g ∈ groupLabels lab, labelNorm lab z g ≤ b * labelWeight lab W g}

open Classical in
/-- The function without offset and quadratic of a mixed LASSO (`dual = false`: `r` times the penalty, `+∞` outside its
domain) or of its dual (`dual = true`: indicator of the dual ball of radius `r`). -/
noncomputable def labelFn (lab : Fin p → ℤ) (W : ℤ → Option ℝ) (dual : Bool) (r : ℝ) (z : Fin p → ℝ) : WithTop ℝ :=
  if dual then (if z ∈ labelDualBall lab W r then 0 else ⊤)
  else if z ∈ labelDomain lab then ((r * labelPenalty lab W z : ℝ) : WithTop ℝ) else ⊤

end Verif.Spec
