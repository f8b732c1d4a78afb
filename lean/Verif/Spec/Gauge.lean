import Verif.Spec.Opt
import Verif.Model.Gauge
import Mathlib.Order.Bounds.Basic

/-! # Specification vocabulary: dual norms and approximate values of a gauge -/

namespace Verif.Spec

/-- `g` is the dual norm of `x` for the penalty `h`: `g = sup {⟨x,z⟩ : h z ≤ 1}` -/
def IsDualNorm {ι : Type*} [Fintype ι] (h : (ι → ℝ) → ℝ) (x : ι → ℝ) (g : ℝ) : Prop :=
  IsLUB {t | ∃ z, h z ≤ 1 ∧ t = dot x z} g

/-- What a gauge search may answer when the true gauge is `g`: the returned number `r` satisfies
`r ≤ (1 + τ) g` and `g ≤ (1 + η)(1 + τ) r + δ`; `0` (`inf`) is returned only for a gauge out of range of the `m` halvings
(doublings) the search tries; no assertion fails and no unbound variable is returned. -/
def GaugeAnswer (g τ η δ : ℝ) (m : ℕ) : Model.Gauge.Result ℝ → Prop
  | .zero => g ≤ (1 + η) / 2 ^ m + δ
  | .inf => 2 ^ m < g
  | .value r => 0 < r ∧ r ≤ (1 + τ) * g ∧ g ≤ (1 + η) * ((1 + τ) * r) + δ
  | .unbound => False
  | .assertion => False

end Verif.Spec
