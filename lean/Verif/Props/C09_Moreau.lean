import Verif.Props.C02_Seminorms
import Verif.Props.C06_L2

/-!
# C09: Moreau decomposition between the proximal maps of the registered pairs

`x = lagrange_prox(x, L, lam) + bound_prox_partner(L*x, lam) / L`, for the values actually returned.
-/

set_option linter.unusedSectionVars false
set_option linter.unusedVariables false

namespace Verif.Props
open Verif.Model Verif.Lemmas Verif.Spec

variable {K : Type*} [Field K] [LinearOrder K] [IsStrictOrderedRing K]

private lemma proj_scale {ι : Type*} [Fintype ι] {S T : Set (ι → K)} {x p : ι → K} {c : K} (hc : 0 < c)
    (hST : ∀ z, z ∈ T ↔ (fun i => c * z i) ∈ S) (h : IsProj T x p) :
    IsProj S (fun i => c * x i) (fun i => c * p i) := by
  refine ⟨(hST p).1 h.1, fun z hz hne => ?_⟩
  have e : ∀ w : ι → K, (fun i => c * (c⁻¹ * w i)) = w := by
    intro w; funext i; field_simp
  have hz' : (fun i => c⁻¹ * z i) ∈ T := (hST _).2 (by rw [e]; exact hz)
  have h2 := h.2 _ hz' (fun e' => hne (by rw [← e z, ← e']))
  have sc : ∀ u v : ι → K, sqDist (fun i => c * u i) (fun i => c * v i) = c ^ 2 * sqDist u v := by
    intro u v; unfold sqDist; rw [Finset.mul_sum]
    exact Finset.sum_congr rfl fun i _ => by ring
  simp only at h2 ⊢
  rw [sc, ← e z, sc]
  exact mul_lt_mul_of_pos_left h2 (by positivity)

/-- l1norm / supnorm -/
theorem C09_l1_sup {n : ℕ} (x : Fin n → K) (L lam : K) (hL : 0 < L) (hl : 0 ≤ lam) (i : Fin n) :
    L1.lagrangeProx x L lam i + Sup.boundProx (fun j => L * x j) lam i / L = x i := by
  have hc : 0 ≤ lam / L := div_nonneg hl hL.le
  have hLl : L * (lam / L) = lam := by field_simp
  have e1 : L1.lagrangeProx x L lam i = softThr (x i) (lam / L) := softThr_eq_sign_max _ hc
  have e2 : Sup.boundProx (fun j => L * x j) lam i = L * npClip (x i) (-(lam / L)) (lam / L) := by
    unfold Sup.boundProx npClip
    rw [mul_min_of_nonneg _ _ hL.le, mul_max_of_nonneg _ _ hL.le, mul_neg, hLl]
  rw [e1, e2, mul_div_cancel_left₀ _ hL.ne']
  unfold softThr npClip
  split_ifs with h1 h2 h3
  · rw [max_eq_left (by linarith), min_eq_left h2.le]; ring
  · rw [max_eq_left (by linarith), min_eq_right (by linarith)]; ring
  · rw [max_eq_left h3.le, min_eq_left (by linarith)]; ring
  · rw [max_eq_right (by linarith), min_eq_left (by linarith)]; ring

/-- supnorm / l1norm -/
theorem C09_sup_l1 {n : ℕ} (x : Fin (n + 1) → K) (L lam : K) (hL : 0 < L) (hl : 0 ≤ lam) :
    ∃ p q, Sup.lagrangeProx x L lam = some p ∧ L1.boundProx (fun j => L * x j) lam = some q ∧
      ∀ i, p i + q i / L = x i := by
  obtain ⟨q, h1, h2⟩ := C02_l1norm_bound_prox (fun j => L * x j) lam hl
  obtain ⟨v, h3, h4⟩ := C02_l1norm_bound_prox x (lam / L) (div_nonneg hl hL.le)
  have h5 : q = fun i => L * v i := by
    refine IsUniqueMinOn.unique h2 (proj_scale hL (fun z => ?_) h4)
    simp only [Set.mem_ofPred_eq, abs_mul, abs_of_pos hL, ← Finset.mul_sum]
    rw [le_div_iff₀' hL]
  refine ⟨fun i => x i - v i, q, ?_, h1, fun i => ?_⟩
  · unfold L1.boundProx at h3
    unfold Sup.lagrangeProx
    obtain ⟨c, hc, e⟩ := Option.map_eq_some_iff.1 h3
    rw [hc]; simp only [Option.map_some, ← e]
  · rw [h5]; field_simp; ring

/-- l2norm is its own partner -/
theorem C09_l2 {ι : Type*} [Fintype ι] (x : ι → ℝ) (L lam : ℝ) (hL : 0 < L) (hl : 0 ≤ lam) (i : ι) :
    L2.lagrangeProx x L lam i + L2.boundProx (fun j => L * x j) lam i / L = x i := by
  have h1 := C06_l2norm_bound_prox (fun j => L * x j) lam hl
  have h2 := C06_l2norm_bound_prox x (lam / L) (div_nonneg hl hL.le)
  have h5 : L2.boundProx (fun j => L * x j) lam = fun i => L * L2.boundProx x (lam / L) i := by
    refine IsUniqueMinOn.unique h1 (proj_scale hL (fun z => ?_) h2)
    have : npNorm (fun i => L * z i) = L * npNorm z := by rw [npNorm_smul, abs_of_pos hL]
    change npNorm z ≤ lam / L ↔ npNorm (fun i => L * z i) ≤ lam
    rw [this, le_div_iff₀' hL]
  rw [h5, l2_lagrange_eq x hL, mul_div_cancel_left₀ _ hL.ne']; ring

/-- positive_part / constrained_max -/
theorem C09_positive_part {n : ℕ} (x : Fin n → K) (L lam : K) (hL : 0 < L) (hl : 0 ≤ lam) (i : Fin n) :
    PosPart.lagrangeProx x L lam i + ConMax.boundProx (fun j => L * x j) lam i / L = x i := by
  have hc : 0 ≤ lam / L := div_nonneg hl hL.le
  have hLl : L * (lam / L) = lam := by field_simp
  have e2 : ConMax.boundProx (fun j => L * x j) lam i = L * npClip (x i) 0 (lam / L) := by
    unfold ConMax.boundProx npClip
    rw [mul_min_of_nonneg _ _ hL.le, mul_max_of_nonneg _ _ hL.le, hLl, mul_zero]
  rw [e2, mul_div_cancel_left₀ _ hL.ne']
  unfold PosPart.lagrangeProx npClip
  split_ifs with h
  · rw [max_eq_left h.le]
    rcases le_total (x i) (lam / L) with h' | h'
    · rw [max_eq_right (by linarith), min_eq_left h']; ring
    · rw [max_eq_left (by linarith), min_eq_right h']; ring
  · rw [max_eq_right (not_lt.1 h), min_eq_left hc]; ring

/-- constrained_max / positive_part -/
theorem C09_constrained_max {n : ℕ} (x : Fin n → K) (L lam : K) (hL : 0 < L) (hl : 0 ≤ lam) :
    ∃ p q, ConMax.lagrangeProx x L lam = some p ∧ PosPart.boundProx (fun j => L * x j) lam = some q ∧
      ∀ i, p i + q i / L = x i := by
  obtain ⟨q, h1, h2⟩ := C07_positive_part_bound_prox (fun j => L * x j) lam hl
  obtain ⟨v, h3, h4⟩ := C07_positive_part_bound_prox x (lam / L) (div_nonneg hl hL.le)
  have h5 : q = fun i => L * v i := by
    refine IsUniqueMinOn.unique h2 (proj_scale hL (fun z => ?_) h4)
    have : ∀ i, max (L * z i) 0 = L * max (z i) 0 := fun i => by
      rw [mul_max_of_nonneg _ _ hL.le, mul_zero]
    simp only [Set.mem_ofPred_eq, this, ← Finset.mul_sum]
    rw [le_div_iff₀' hL]
  refine ⟨fun i => x i - v i, q, ?_, h1, fun i => ?_⟩
  · unfold PosPart.boundProx at h3; unfold ConMax.lagrangeProx; rw [h3]; rfl
  · rw [h5]; field_simp; ring

/-- constrained_positive_part / max_positive_part -/
theorem C09_constrained_positive_part {n : ℕ} (x : Fin n → K) (L lam : K) (hL : 0 < L) (hl : 0 ≤ lam)
    (i : Fin n) :
    ConPosPart.lagrangeProx x L lam i + MaxPosPart.boundProx (fun j => L * x j) lam i / L = x i := by
  have hc : 0 ≤ lam / L := div_nonneg hl hL.le
  have hLl : L * (lam / L) = lam := by field_simp
  have e2 : MaxPosPart.boundProx (fun j => L * x j) lam i = L * min (x i) (lam / L) := by
    unfold MaxPosPart.boundProx
    rw [mul_min_of_nonneg _ _ hL.le, hLl]
  rw [e2, mul_div_cancel_left₀ _ hL.ne']
  unfold ConPosPart.lagrangeProx
  split_ifs with h
  · rcases le_total (x i) (lam / L) with h' | h'
    · rw [max_eq_right (by linarith), min_eq_left h']; ring
    · rw [max_eq_left (by linarith), min_eq_right h']; ring
  · rw [min_eq_left (le_trans (not_lt.1 h) hc)]; ring

/-- max_positive_part / constrained_positive_part -/
theorem C09_max_positive_part {n : ℕ} (x : Fin n → K) (L lam : K) (hL : 0 < L) (hl : 0 ≤ lam) :
    ∃ p q, MaxPosPart.lagrangeProx x L lam = some p ∧ ConPosPart.boundProx (fun j => L * x j) lam = some q ∧
      ∀ i, p i + q i / L = x i := by
  obtain ⟨q, h1, h2⟩ := C07_constrained_positive_part_bound_prox (fun j => L * x j) lam hl
  obtain ⟨v, h3, h4⟩ := C07_constrained_positive_part_bound_prox x (lam / L) (div_nonneg hl hL.le)
  have h5 : q = fun i => L * v i := by
    refine IsUniqueMinOn.unique h2 (proj_scale hL (fun z => ?_) h4)
    simp only [Set.mem_ofPred_eq, ← Finset.mul_sum]
    rw [le_div_iff₀' hL]
    have : ∀ i, 0 ≤ z i ↔ 0 ≤ L * z i := fun i => (mul_nonneg_iff_of_pos_left hL).symm
    simp only [this]
  refine ⟨fun i => x i - v i, q, ?_, h1, fun i => ?_⟩
  · unfold ConPosPart.boundProx at h3; unfold MaxPosPart.lagrangeProx; rw [h3]; rfl
  · rw [h5]; field_simp; ring

/-- a concrete input: L = 2, lam = 1, x = (3,-1) -/
example : ∃ p q, Sup.lagrangeProx (![3, -1] : Fin 2 → ℚ) 2 1 = some p ∧
    L1.boundProx (fun j => 2 * (![3, -1] : Fin 2 → ℚ) j) 1 = some q ∧
      ∀ i, p i + q i / 2 = (![3, -1] : Fin 2 → ℚ) i := C09_sup_l1 _ _ _ (by norm_num) (by norm_num)

end Verif.Props
