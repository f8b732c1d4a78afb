import Mathlib.Analysis.Calculus.FDeriv.Basic
import Mathlib.Analysis.Calculus.FDeriv.Pi
import Mathlib.Topology.Algebra.Module.ContinuousLinearMap.PiProd
import Mathlib.Analysis.Convex.Function
import Mathlib.Analysis.RCLike.Basic

/-!
# Specification: what it means to evaluate a smooth objective correctly

`Mode` and `Eval` are the arguments and results a caller of `smooth_objective` sees.
-/

namespace Verif.Spec

/-- The string a caller passes as `mode`; `other` is any string which is not one of the three documented ones. -/
inductive Mode | func | grad | both | other

/-- What a call `smooth_objective(x, mode)` on `n` coordinates returns. -/
inductive Eval (n : ℕ)
  | val (f : ℝ)
  | grad (g : Fin n → ℝ)
  | both (f : ℝ) (g : Fin n → ℝ)
  /-- a Python `None` is returned -/
  | pyNone
  /-- `ValueError` -/
  | valueError
  /-- `TypeError`: unpacking or arithmetic on a value of the wrong kind -/
  | typeError

/-- In the three documented modes `ev` returns the value `f x`, the vector `g x`, or the pair of them. -/
def Evaluates {n : ℕ} (ev : (Fin n → ℝ) → Mode → Eval n) (f : (Fin n → ℝ) → ℝ)
    (g : (Fin n → ℝ) → Fin n → ℝ) : Prop :=
  ∀ x, ev x .func = .val (f x) ∧ ev x .grad = .grad (g x) ∧ ev x .both = .both (f x) (g x)

/-- `g` is the gradient of `f` at `x`: `f (x + h) = f x + ∑ gᵢ hᵢ + o(h)`. -/
def IsGradientAt {n : ℕ} (f : (Fin n → ℝ) → ℝ) (g : Fin n → ℝ) (x : Fin n → ℝ) : Prop :=
  HasFDerivAt f (∑ i, g i • (ContinuousLinearMap.proj i : (Fin n → ℝ) →L[ℝ] ℝ)) x

/-- `H` is the derivative of the vector field `g` at `x`: row `i` is the gradient of `gᵢ`. -/
def IsJacobianAt {n : ℕ} (g : (Fin n → ℝ) → Fin n → ℝ) (H : Fin n → Fin n → ℝ) (x : Fin n → ℝ) : Prop :=
  ∀ i, IsGradientAt (fun y => g y i) (H i) x

/-- `f` is convex on all of `ℝⁿ`. -/
def IsConvex {n : ℕ} (f : (Fin n → ℝ) → ℝ) : Prop :=
  ∀ x y : Fin n → ℝ, ∀ a b : ℝ, 0 ≤ a → 0 ≤ b → a + b = 1 →
    f (fun i => a * x i + b * y i) ≤ a * f x + b * f y

/-- The diagonal matrix with diagonal `h`. -/
def diagMat {n : ℕ} (h : Fin n → ℝ) : Fin n → Fin n → ℝ := fun i j => if i = j then h i else 0

end Verif.Spec
