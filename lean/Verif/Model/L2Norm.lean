import Verif.Model.Seminorms
import Mathlib.Analysis.SpecialFunctions.Sqrt

/-! # Model of `l2norm`, `regreg/atoms/seminorms.py:764-808` -/

namespace Verif.Model

/-- `np.linalg.norm` of a one-dimensional array. -/
noncomputable def npNorm {ι : Type*} [Fintype ι] (x : ι → ℝ) : ℝ := Real.sqrt (∑ i, x i ^ 2)

namespace L2

/-- `l2norm.seminorm`, `seminorms.py:776-780`. -/
noncomputable def seminorm {ι : Type*} [Fintype ι] (arg : ι → ℝ) (lagrange : ℝ) : ℝ := lagrange * npNorm arg

/-- `l2norm.constraint`, `seminorms.py:783-789`. -/
noncomputable def constraint {ι : Type*} [Fintype ι] (arg : ι → ℝ) (bound : ℝ) : WithTop ℝ :=
  if npNorm arg ≤ bound * (1 + atomTol) then 0 else ⊤

/-- `l2norm.lagrange_prox`, `seminorms.py:792-799`. -/
noncomputable def lagrangeProx {ι : Type*} [Fintype ι] (arg : ι → ℝ) (lipschitz lagrange : ℝ) : ι → ℝ :=
  let n := npNorm arg
  let proj := if n ≤ lagrange / lipschitz then arg else fun i => (lagrange / (lipschitz * n)) * arg i
  fun i => arg i - proj i

/-- `l2norm.bound_prox`, `seminorms.py:802-808`. -/
noncomputable def boundProx {ι : Type*} [Fintype ι] (arg : ι → ℝ) (bound : ℝ) : ι → ℝ :=
  let n := npNorm arg
  if n ≤ bound then arg else fun i => (bound / n) * arg i

end L2

end Verif.Model
