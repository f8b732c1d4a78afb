import Verif.Model.Simplex
import Verif.Model.AtomProximal
import Verif.Lemmas.L2
import Verif.Lemmas.SoftThr
import Verif.Spec.Dual
import Verif.Props.C01_PiecewiseLinear
import Verif.Props.C10_Proximal

/-! # C18: projection on the simplex and the proximal map of the maximum -/

set_option linter.unusedSectionVars false
set_option linter.unusedVariables false

namespace Verif.Props
open Verif.Model Verif.Lemmas Verif.Spec

variable {K : Type*} [Field K] [LinearOrder K] [IsStrictOrderedRing K]

/-- the probability simplex -/
def simplexSet (n : ℕ) : Set (Fin n → K) := {z | (∀ i, 0 ≤ z i) ∧ ∑ i, z i = 1}

private lemma uncon_ofFn {n : ℕ} (b : K) (hb : 0 ≤ b) (x : Fin (n + 1) → K) :
    ∃ t, findUncon b (List.ofFn x) = some t ∧ ∑ i, max (x i - t) 0 = b := by
  obtain ⟨t, h1, h2, _⟩ := C01_findUncon b (List.ofFn x) (by simp) hb
  refine ⟨t, h1, ?_⟩
  rw [← h2, List.map_ofFn, List.sum_ofFn]
  rfl

/-- C18: for every nonempty vector the projection on the simplex is returned. -/
theorem C18_simplex {n : ℕ} (x : Fin (n + 1) → K) :
    ∃ p, Simplex.basicProx x = some p ∧ IsProj (simplexSet (n + 1)) x p := by
  obtain ⟨t, h1, h2⟩ := uncon_ofFn 1 zero_le_one x
  refine ⟨fun i => max (x i - t) 0, by unfold Simplex.basicProx; rw [h1]; rfl, ?_⟩
  refine isProj_of_vi (S := simplexSet (n + 1)) ⟨fun i => le_max_right _ _, h2⟩ ?_
  rintro z ⟨hz, hs⟩
  calc ∑ i, (x i - max (x i - t) 0) * (z i - max (x i - t) 0) ≤ ∑ i, t * (z i - max (x i - t) 0) := by
        apply Finset.sum_le_sum; intro i _
        rcases le_total 0 (x i - t) with h | h
        · rw [max_eq_left h]; apply le_of_eq; ring
        · rw [max_eq_right h]; have := hz i; nlinarith
    _ = 0 := by rw [← Finset.mul_sum, Finset.sum_sub_distrib, hs, h2, sub_self, mul_zero]

/-- C18: the proximal map of `max` with any positive Lipschitz constant. -/
theorem C18_maximum {n : ℕ} (x : Fin (n + 1) → K) (L : K) (hL : 0 < L) :
    ∃ p, Maximum.basicProx x L = some p ∧ IsProx L (fun z => maxCoord z) x p := by
  obtain ⟨t, h1, h2⟩ := uncon_ofFn (1 / L) (by positivity) x
  refine ⟨fun i => x i - max (x i - t) 0, by unfold Maximum.basicProx; rw [h1]; rfl, ?_⟩
  apply isProx_of_subgrad hL
  intro z
  have hp : maxCoord (fun i => x i - max (x i - t) 0) ≤ t := by
    apply maxCoord_le; intro i; have := le_max_left (x i - t) 0; linarith
  have h3 : L * ∑ i, max (x i - t) 0 = 1 := by rw [h2]; field_simp
  have h4 : L * ∑ i, (x i - (x i - max (x i - t) 0)) * (z i - (x i - max (x i - t) 0)) ≤ maxCoord z - t := by
    calc L * ∑ i, (x i - (x i - max (x i - t) 0)) * (z i - (x i - max (x i - t) 0))
        ≤ L * ∑ i, max (x i - t) 0 * (maxCoord z - t) := by
          apply mul_le_mul_of_nonneg_left _ hL.le
          apply Finset.sum_le_sum; intro i _
          have hz := le_maxCoord z i
          rcases le_total 0 (x i - t) with h | h
          · rw [max_eq_left h]; nlinarith
          · rw [max_eq_right h]; simp
      _ = maxCoord z - t := by rw [← Finset.sum_mul, ← mul_assoc, h3, one_mul]
  linarith

/-- the empty vector raises IndexError in both -/
theorem C18_empty (L : K) : Simplex.basicProx (Fin.elim0 : Fin 0 → K) = none ∧
    Maximum.basicProx (Fin.elim0 : Fin 0 → K) L = none := by
  simp [Simplex.basicProx, Maximum.basicProx, findUncon, descSort]

/-- C18: `proximal` of the simplex constraint with any own quadratic, offset and proximal quadratic. -/
theorem C18_simplex_proximal {n : ℕ} (offset : Option (PyVec (Fin (n + 1)) K)) (sq : Quad (Fin (n + 1)) K)
    (q : Option (Quad (Fin (n + 1)) K)) (p : Fin (n + 1) → K)
    (hcoef : 0 < sq.coef + quadCoef q) (hok : coneProximal Simplex.basicProx offset sq q = .ok p) :
    IsUniqueMinOn (fun x => quadVal q x + quadVal (some sq) x)
      {x | (fun i => x i - denote offset i) ∈ simplexSet (n + 1)} p := by
  refine C10_cone_proximal _ _ ?_ offset sq q p hcoef hok
  intro arg p hp
  obtain ⟨p', h1, h2⟩ := C18_simplex arg
  rw [hp] at h1; injection h1 with h1; rw [h1]; exact h2

/-- C18: the registered pair is dual: `max x = max {⟨x,y⟩ : y in the simplex}`. -/
theorem C18_dual {n : ℕ} :
    IsSupportFn (simplexSet (K := K) (n + 1)) (fun x => ((Maximum.value x : K) : WithTop K)) := by
  intro x
  refine ⟨fun v hv => ?_, fun h => absurd h WithTop.coe_ne_top⟩
  rw [WithTop.coe_inj] at hv
  subst hv
  obtain ⟨k, hk⟩ := exists_maxCoord x
  refine ⟨⟨fun i => if i = k then 1 else 0, ⟨fun i => by dsimp only; split_ifs <;> simp, by simp⟩, ?_⟩, ?_⟩
  · simp only [dot, mul_ite, mul_one, mul_zero, Finset.sum_ite_eq', Finset.mem_univ, if_true]
    exact hk.symm
  · rintro _ ⟨y, ⟨hy, hs⟩, rfl⟩
    simp only [dot]
    calc ∑ i, x i * y i ≤ ∑ i, maxCoord x * y i :=
          Finset.sum_le_sum fun i _ => mul_le_mul_of_nonneg_right (le_maxCoord x i) (hy i)
      _ = maxCoord x := by rw [← Finset.mul_sum, hs, mul_one]

/-- C18: `constraint` accepts every point of the simplex, and rejects every point whose relative distance to it is
at least the tolerance. -/
theorem C18_constraint {n : ℕ} (x : Fin (n + 1) → ℝ) :
    (x ∈ simplexSet (n + 1) → Simplex.constraint x = some 0) ∧
    ((∀ z ∈ simplexSet (n + 1), 1 / 10 ^ 5 * max (Real.sqrt (∑ i, x i ^ 2)) 1 ≤ Real.sqrt (∑ i, (x i - z i) ^ 2)) →
      Simplex.constraint x = some ⊤) := by
  obtain ⟨p, h1, h2⟩ := C18_simplex x
  constructor
  · intro hx
    have hself : IsProj (simplexSet (n + 1)) x x := isProj_of_vi hx fun z _ => by simp
    have : p = x := IsUniqueMinOn.unique h2 hself
    subst this
    unfold Simplex.constraint
    rw [h1, Option.map_some]
    have : npNorm (fun i => p i - p i) = 0 := by simp [npNorm]
    rw [this, zero_div, if_pos (by unfold atomTol; positivity)]
  · intro h
    unfold Simplex.constraint
    rw [h1, Option.map_some, if_neg]
    rw [not_lt, le_div_iff₀ (lt_of_lt_of_le one_pos (le_max_right _ _))]
    exact h p h2.1

example : (![1/4, 3/4] : Fin 2 → ℚ) ∈ simplexSet 2 := by
  refine ⟨fun i => by fin_cases i <;> norm_num, by rw [Fin.sum_univ_two]; norm_num⟩

end Verif.Props
