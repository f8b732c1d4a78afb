import Verif.Model.LassoPath
import Mathlib.Algebra.Order.Ring.Cast
import Mathlib.Tactic.Linarith

/-!
# Lemmas on the KKT check of `paths/lasso.py`
-/

namespace Verif.Lemmas
open Verif.Model.LassoPath

variable {K : Type*} [Field K] [LinearOrder K] [IsStrictOrderedRing K] {ι : Type*} [Fintype ι]

lemma rank_le (t : ι → K) (i : ι) : rankdata t i ≤ (Fintype.card ι : K) := by
  unfold rankdata
  have h1 : (Finset.univ.filter fun j => t j < t i).card + 1 ≤ Fintype.card ι := by
    have : (Finset.univ.filter fun j => t j < t i) ⊂ Finset.univ := by
      refine ⟨Finset.filter_subset _ _, fun h => ?_⟩
      have := h (Finset.mem_univ i)
      simp at this
    exact Finset.card_lt_card this
  have h2 : (Finset.univ.filter fun j => t j ≤ t i).card ≤ Fintype.card ι :=
    Finset.card_le_card (Finset.filter_subset (fun j => t j ≤ t i) Finset.univ)
  have h1' : ((Finset.univ.filter fun j => t j < t i).card : K) + 1 ≤ Fintype.card ι := by exact_mod_cast h1
  have h2' : ((Finset.univ.filter fun j => t j ≤ t i).card : K) ≤ Fintype.card ι := by exact_mod_cast h2
  linarith

lemma rank_neg_iff (w g b : ι → K) (lam tol : K) (i : ι) :
    inactiveRanks w g b lam tol i < 0 ↔ inactiveTerms w g b lam i ≤ 1 + tol := by
  unfold inactiveRanks
  by_cases h : inactiveTerms w g b lam i ≤ 1 + tol
  · rw [if_pos h]; exact ⟨fun _ => h, fun _ => by norm_num⟩
  · rw [if_neg h]
    have := rank_le (inactiveTerms w g b lam) i
    exact ⟨fun h' => by linarith, fun h' => absurd h' h⟩

end Verif.Lemmas
