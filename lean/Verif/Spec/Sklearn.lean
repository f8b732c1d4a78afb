import Mathlib.Analysis.SpecialFunctions.Exp

/-! # Specification vocabulary: `y` arguments assembled from their documented columns -/

namespace Verif.Spec

variable {n k : ℕ}

/-- response columns followed by one extra column -/
noncomputable def withColumn (R : Fin n → Fin k → ℝ) (c : Fin n → ℝ) : Fin n → Fin (k + 1) → ℝ :=
  fun i j => if h : j.val < k then R i ⟨j, h⟩ else c i

/-- response columns, then case weights, then offset -/
noncomputable def withColumns (R : Fin n → Fin k → ℝ) (c o : Fin n → ℝ) : Fin n → Fin (k + 2) → ℝ :=
  fun i j => if h : j.val < k then R i ⟨j, h⟩ else if j.val = k then c i else o i

/-- weighted residual sum of squares of the linear predictor `lin - o` -/
noncomputable def weightedSS (w y lin o : Fin n → ℝ) : ℝ := ∑ i, w i * (lin i - o i - y i) ^ 2

end Verif.Spec
