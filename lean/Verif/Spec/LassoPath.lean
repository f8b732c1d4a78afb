import Verif.Spec.Composite
import Mathlib.Algebra.BigOperators.Fin

/-!
# Specification of the elastic net problem solved along a lasso path
-/

namespace Verif.Spec

variable {p m : ℕ}

/-- A KKT check reports nothing: no True in the first array, no rank ≥ 0 in the second. -/
def NoFailure (r : (Fin p → Bool) × (Fin p → ℝ)) : Prop := (∀ i, r.1 i = false) ∧ ∀ i, r.2 i < 0

/-- the weighted l1 penalty -/
noncomputable def weightedL1 (w b : Fin p → ℝ) : ℝ := ∑ i, w i * |b i|

/-- mean of the positive weights -/
noncomputable def meanPos (w : Fin p → ℝ) : ℝ :=
  (∑ i ∈ Finset.univ.filter (fun i => 0 < w i), w i) / ((Finset.univ.filter fun i => 0 < w i).card : ℝ)

/-- smooth part of the elastic net problem: the loss at `X b` plus the ridge term, in front of which the lagrange
parameter stands for the penalised features only -/
noncomputable def enetSmooth (X : Fin m → Fin p → ℝ) (loss : (Fin m → ℝ) → ℝ) (w enet : Fin p → ℝ) (alpha lam : ℝ)
    (b : Fin p → ℝ) : ℝ :=
  loss (fun k => ∑ i, X k i * b i) + ∑ i, (1 - alpha) * (if w i = 0 then 1 else lam) * enet i / 2 * b i ^ 2

/-- the elastic net objective at the lagrange parameter `lam` -/
noncomputable def enetObjective (X : Fin m → Fin p → ℝ) (loss : (Fin m → ℝ) → ℝ) (w enet : Fin p → ℝ) (alpha lam : ℝ)
    (b : Fin p → ℝ) : ℝ :=
  enetSmooth X loss w enet alpha lam b + alpha * lam * weightedL1 w b

/-- A KKT check reports no failing group: no inactive group has a rank (a number ≥ 0), and, when active groups are
checked as well, no active group is flagged. -/
def PassesScreen {K G : Type*} [Zero K] [LT K] (checkActive : Bool) (r : (G → Bool) × (G → K)) : Prop :=
  ∀ g, r.2 g < 0 ∧ (checkActive = true → r.1 g = false)

end Verif.Spec
