import Verif.Lemmas.L2
import Mathlib.Data.Fin.VecNotation

/-! # C06: proximal maps of the l2 norm.

`Real.sqrt (∑ i, z i ^ 2)` is the Euclidean norm, written out in the statements. -/

set_option linter.unusedSectionVars false
set_option linter.unusedVariables false

namespace Verif.Props
open Verif.Model Verif.Lemmas Verif.Spec

variable {ι : Type*} [Fintype ι]

/-- C06: `l2norm.lagrange_prox`. -/
theorem C06_l2norm_lagrange_prox (x : ι → ℝ) (L lam : ℝ) (hL : 0 < L) (hl : 0 ≤ lam) :
    IsProx L (fun z => lam * Real.sqrt (∑ i, z i ^ 2)) x (L2.lagrangeProx x L lam) :=
  isProx_of_subgrad hL fun z => l2_lagrange_sub x hL hl z

/-- C06: `l2norm.bound_prox`. -/
theorem C06_l2norm_bound_prox (x : ι → ℝ) (bound : ℝ) (hb : 0 ≤ bound) :
    IsProj {z | Real.sqrt (∑ i, z i ^ 2) ≤ bound} x (L2.boundProx x bound) := by
  obtain ⟨h1, h2⟩ := l2_bound_vi x hb
  refine isProj_of_vi h1 fun z hz => le_trans (h2 z) ?_
  have h3 := l2_bound_le x hb
  have hz' : npNorm z ≤ bound := hz
  exact mul_nonpos_of_nonneg_of_nonpos (by linarith) (by linarith)

/-- C06: no division by zero is reached: the norm in the denominators of both methods is positive in the
branch that divides. -/
theorem C06_no_zero_division (x : ι → ℝ) (bound L lam : ℝ) (hb : 0 ≤ bound) (hL : 0 < L) (hl : 0 ≤ lam) :
    (¬ npNorm x ≤ bound → npNorm x ≠ 0) ∧ (¬ npNorm x ≤ lam / L → L * npNorm x ≠ 0) := by
  constructor
  · intro h e; exact h (by rw [e]; exact hb)
  · intro h e
    rcases mul_eq_zero.1 e with e | e
    · exact hL.ne' e
    · exact h (by rw [e]; positivity)

/-- hypotheses met at a nonzero point outside the ball: (3,4) is shrunk to (1.2,1.6) -/
example : L2.lagrangeProx (![3, 4] : Fin 2 → ℝ) 1 3 = ![6/5, 8/5] := by
  have h : npNorm (![3, 4] : Fin 2 → ℝ) = 5 := by
    unfold npNorm; rw [Fin.sum_univ_two, Real.sqrt_eq_iff_mul_self_eq (by positivity) (by norm_num)]
    norm_num
  funext i
  unfold L2.lagrangeProx
  rw [h]
  fin_cases i <;> norm_num

end Verif.Props
