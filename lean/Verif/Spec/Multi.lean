import Verif.Spec.Smooth
import Mathlib.Analysis.SpecialFunctions.Log.Basic
import Mathlib.Topology.Algebra.Module.ContinuousLinearMap.PiProd

/-!
# Specification: losses of a matrix argument, and the multinomial likelihood
-/

namespace Verif.Spec

noncomputable section

/-- What `smooth_objective(x, mode)` returns for an `n × q` argument; `shared` says that the array returned is one the
loss object keeps and writes to in later calls. -/
inductive Eval2 (n q : ℕ)
  | val (f : ℝ)
  | grad (g : Fin n → Fin q → ℝ) (shared : Bool)
  | both (f : ℝ) (g : Fin n → Fin q → ℝ) (shared : Bool)
  | valueError
  | typeError

/-- at the point `x` the three documented modes return `f`, `g` or the pair of them -/
def EvaluatesAt2 {n q : ℕ} (ev : (Fin n → Fin q → ℝ) → Mode → Eval2 n q) (x : Fin n → Fin q → ℝ) (f : ℝ)
    (g : Fin n → Fin q → ℝ) : Prop :=
  ev x .func = .val f ∧ (∃ b, ev x .grad = .grad g b) ∧ ∃ b, ev x .both = .both f g b

/-- `G` is the gradient of `f` at `x`: `f (x + h) = f x + ∑ᵢⱼ Gᵢⱼ hᵢⱼ + o(h)` -/
def IsGradientAt2 {n q : ℕ} (f : (Fin n → Fin q → ℝ) → ℝ) (G x : Fin n → Fin q → ℝ) : Prop :=
  HasFDerivAt f (∑ i, ∑ j, G i j • ((ContinuousLinearMap.proj j : (Fin q → ℝ) →L[ℝ] ℝ).comp
    (ContinuousLinearMap.proj i : (Fin n → Fin q → ℝ) →L[ℝ] (Fin q → ℝ)))) x

/-- minus the log of `∏ⱼ pⱼ ^ cⱼ` with `pⱼ = exp ηⱼ / ∑ₖ exp ηₖ`: `cⱼ` observations in category `j` -/
def multinomialNll {q : ℕ} (c η : Fin q → ℝ) : ℝ := -∑ j, c j * Real.log (Real.exp (η j) / ∑ k, Real.exp (η k))

/-- the same with `q + 1` categories, the last one being the baseline with parameter 0 -/
def baselineNll {q : ℕ} (c : Fin (q + 1) → ℝ) (η : Fin q → ℝ) : ℝ :=
  multinomialNll c (Fin.snoc (α := fun _ => ℝ) η 0)

end
end Verif.Spec
