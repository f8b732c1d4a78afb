import Verif.Spec.Opt
import Mathlib.Analysis.SpecialFunctions.Sqrt

/-! # Specification vocabulary: group penalties -/

namespace Verif.Spec

/-- Euclidean norm of the block of `z` of the coordinates with label `j`. -/
noncomputable def blockNorm {p q : ℕ} (grp : Fin p → Fin q) (z : Fin p → ℝ) (j : Fin q) : ℝ :=
  Real.sqrt (∑ i, if grp i = j then z i ^ 2 else 0)

/-- group lasso norm `Σ_g w_g ‖z[g]‖₂` -/
noncomputable def groupNorm {p q : ℕ} (grp : Fin p → Fin q) (w : Fin q → ℝ) (z : Fin p → ℝ) : ℝ :=
  ∑ j, w j * blockNorm grp z j

/-- the dual norm `max_g ‖z[g]‖/w_g` over the groups of positive weight -/
noncomputable def groupDualNorm {p q : ℕ} [NeZero q] (grp : Fin p → Fin q) (w : Fin q → ℝ) (z : Fin p → ℝ) : ℝ :=
  maxCoord fun j => if w j = 0 then 0 else blockNorm grp z j / w j

/-- The penalty structure of a `mixed_lasso` atom, one entry per coordinate. -/
inductive Kind (q : ℕ) where
  | unpenalized
  | l1
  | positivePart
  | nonnegative
  | group (j : Fin q)
  deriving DecidableEq

/-- Euclidean norm of the coordinates of group `j`. -/
noncomputable def kindNorm {p q : ℕ} (κ : Fin p → Kind q) (z : Fin p → ℝ) (j : Fin q) : ℝ :=
  Real.sqrt (∑ i, if κ i = .group j then z i ^ 2 else 0)

/-- mixed penalty `Σ_{l1}|z_i| + Σ_{positive part} z_i + Σ_g w_g‖z[g]‖₂` -/
noncomputable def mixedPenalty {p q : ℕ} (κ : Fin p → Kind q) (w : Fin q → ℝ) (z : Fin p → ℝ) : ℝ :=
  (∑ i, if κ i = .l1 then |z i| else 0) + (∑ i, if κ i = .positivePart then z i else 0) +
    ∑ j, w j * kindNorm κ z j

/-- domain of the mixed penalty: the coordinates of kind positive part or nonnegative are `≥ 0` -/
def mixedDomain {p q : ℕ} (κ : Fin p → Kind q) : Set (Fin p → ℝ) :=
  {z | ∀ i, κ i = .positivePart ∨ κ i = .nonnegative → 0 ≤ z i}

end Verif.Spec
