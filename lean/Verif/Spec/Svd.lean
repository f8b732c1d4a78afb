import Verif.Spec.Opt
import Verif.Model.SvdNorms
import Mathlib.Analysis.SpecialFunctions.Sqrt

/-! # Specification vocabulary: singular value decompositions, operator norm, nuclear norm

The two norms are defined without reference to singular values. -/

namespace Verif.Spec

variable {n p k : ℕ}

/-- The numpy contract of `U, D, V = np.linalg.svd(X, full_matrices=False)`: `X = U diag(D) V`, the columns of `U` and the rows
of `V` are orthonormal, the singular values are nonnegative and sorted in descending order. -/
structure IsSvd (X : Fin n × Fin p → ℝ) (s : Model.Svd.Triple n p k) : Prop where
  eq : ∀ i j, X (i, j) = ∑ a, s.U i a * s.D a * s.V a j
  left : ∀ a b, ∑ i, s.U i a * s.U i b = if a = b then 1 else 0
  right : ∀ a b, ∑ j, s.V a j * s.V b j = if a = b then 1 else 0
  nonneg : ∀ a, 0 ≤ s.D a
  sorted : ∀ a b, a ≤ b → s.D b ≤ s.D a

/-- Euclidean norm -/
noncomputable def norm2 {ι : Type*} [Fintype ι] (v : ι → ℝ) : ℝ := Real.sqrt (∑ i, v i ^ 2)

/-- `W` multiplies Euclidean lengths by at most `c` -/
def OpLe (W : Fin n × Fin p → ℝ) (c : ℝ) : Prop :=
  ∀ v : Fin p → ℝ, norm2 (fun i => ∑ j, W (i, j) * v j) ≤ c * norm2 v

/-- operator norm: the least `c ≥ 0` such that `W` multiplies lengths by at most `c` -/
noncomputable def opNorm (W : Fin n × Fin p → ℝ) : ℝ := sInf {c | 0 ≤ c ∧ OpLe W c}

/-- nuclear norm: the dual of the operator norm, `sup {⟨Z, W⟩ : ‖W‖_op ≤ 1}` -/
noncomputable def nucNorm (Z : Fin n × Fin p → ℝ) : ℝ := sSup {t | ∃ W, OpLe W 1 ∧ t = dot Z W}

end Verif.Spec
