import Verif.Lemmas.Block
import Verif.Props.C50_Gauge

/-! # C58: the sparse group penalty of matrices and its dual -/

set_option linter.unusedSectionVars false
set_option linter.unusedVariables false

namespace Verif.Props
open Verif.Model Verif.Model.Block Verif.Lemmas Verif.Spec

variable {n p : ℕ}

/-- C58: the value of the penalty. -/
theorem C58_seminorm (X : Mat n p) (l1 l2 lam : ℝ) :
    Sparse.seminorm X l1 l2 lam = lam * (l1 * norm1 X + l2 * ∑ i, rowNorm2 X i) := rfl

private lemma sparse_eq (X : Mat n p) {a w : ℝ} (ha : 0 ≤ a) (hw : 0 ≤ w) :
    Sparse.lagrangeProx X a w = shrink (fun ij => softThr (X ij) a) w := by
  have hs : (fun ij : Fin n × Fin p => npSign (X ij) * max (|X ij| - a) 0) = fun ij => softThr (X ij) a := by
    funext ij; exact softThr_eq_sign_max _ ha
  funext ⟨i, j⟩
  unfold Sparse.lagrangeProx shrink
  dsimp only
  rw [hs]
  by_cases h : rowNorm (fun ij => softThr (X ij) a) i = 0
  · rw [(rowNorm_eq_zero _ i).1 h j, softThr_eq_sign_max _ ha, (rowNorm_eq_zero _ i).1 h j]; simp
  · rw [softThr_eq_sign_max _ ha]
    unfold b2k
    rw [if_neg h, add_zero]

/-- the subgradient inequality -/
private lemma sparse_sub (X : Mat n p) {a w : ℝ} (ha : 0 ≤ a) (hw : 0 ≤ w) (z : Mat n p) :
    (a * norm1 (Sparse.lagrangeProx X a w) + w * ∑ i, rowNorm2 (Sparse.lagrangeProx X a w) i) +
      ∑ ij, (X ij - Sparse.lagrangeProx X a w ij) * (z ij - Sparse.lagrangeProx X a w ij) ≤
      a * norm1 z + w * ∑ i, rowNorm2 z i := by
  rw [sparse_eq X ha hw]
  set S : Mat n p := fun ij => softThr (X ij) a with hS
  have h1 := shrink_sub S hw z
  set P := shrink S w with hP
  have h2 : ∀ ij, a * |P ij| + (X ij - S ij) * (z ij - P ij) ≤ a * |z ij| := by
    intro ij
    set f := max (rowNorm S ij.1 - w) 0 / rowNorm S ij.1 with hf
    have hf0 : 0 ≤ f := div_nonneg (le_max_right _ _) (rowNorm_nonneg _ _)
    have e : P ij = S ij * f := rfl
    have h3 : (X ij - S ij) * S ij = a * |S ij| := softThr_mul _ ha
    have h4 : (X ij - S ij) * z ij ≤ a * |z ij| :=
      calc (X ij - S ij) * z ij ≤ |(X ij - S ij) * z ij| := le_abs_self _
        _ = |X ij - S ij| * |z ij| := abs_mul _ _
        _ ≤ a * |z ij| := mul_le_mul_of_nonneg_right (softThr_resid _ ha) (abs_nonneg _)
    have h5 : (X ij - S ij) * P ij = a * |P ij| := by
      rw [e, abs_mul, abs_of_nonneg hf0, ← mul_assoc, h3]; ring
    rw [mul_sub, h5]; linarith
  have h3 : a * norm1 P + ∑ ij, (X ij - S ij) * (z ij - P ij) ≤ a * norm1 z := by
    unfold norm1
    rw [Finset.mul_sum, Finset.mul_sum, ← Finset.sum_add_distrib]
    exact Finset.sum_le_sum fun ij _ => h2 ij
  have e : ∑ ij, (X ij - P ij) * (z ij - P ij) =
      ∑ ij, (X ij - S ij) * (z ij - P ij) + ∑ ij, (S ij - P ij) * (z ij - P ij) := by
    rw [← Finset.sum_add_distrib]; exact Finset.sum_congr rfl fun ij _ => by ring
  have h1' : w * ∑ i, rowNorm2 P i + ∑ ij, (S ij - P ij) * (z ij - P ij) ≤ w * ∑ i, rowNorm2 z i := h1
  rw [e]; linarith

/-- C58: `sparse_group_block.lagrange_prox` is the proximal map of `lam (l1 Σ_ij|z_ij| + l2 Σ_i‖z_i‖₂)`, for every argument
(zero rows included). -/
theorem C58_lagrange_prox (X : Mat n p) {l1 l2 L lam : ℝ} (h1 : 0 ≤ l1) (h2 : 0 ≤ l2) (hL : 0 < L) (hl : 0 ≤ lam) :
    IsProx L (fun z => lam * (l1 * norm1 z + l2 * ∑ i, rowNorm2 z i)) X (Sparse.prox X l1 l2 L lam) := by
  apply isProx_of_subgrad hL
  intro z
  have h := sparse_sub X (a := lam * l1 / L) (w := lam * l2 / L) (div_nonneg (mul_nonneg hl h1) hL.le)
    (div_nonneg (mul_nonneg hl h2) hL.le) z
  set P := Sparse.lagrangeProx X (lam * l1 / L) (lam * l2 / L) with hP
  show lam * (l1 * norm1 P + l2 * ∑ i, rowNorm2 P i) + L * ∑ ij, (X ij - P ij) * (z ij - P ij) ≤ _
  have key : ∀ y : Mat n p, lam * (l1 * norm1 y + l2 * ∑ i, rowNorm2 y i) =
      L * (lam * l1 / L * norm1 y + lam * l2 / L * ∑ i, rowNorm2 y i) := by intro y; field_simp
  rw [key, key, ← mul_add]
  exact mul_le_mul_of_nonneg_left h hL.le

private lemma sparse_polar (X : Mat n p) {a w : ℝ} (ha : 0 ≤ a) (hw : 0 ≤ w) :
    (∑ ij, (X ij - Sparse.lagrangeProx X a w ij) * Sparse.lagrangeProx X a w ij =
      a * norm1 (Sparse.lagrangeProx X a w) + w * ∑ i, rowNorm2 (Sparse.lagrangeProx X a w) i) ∧
    ∀ z : Mat n p, ∑ ij, (X ij - Sparse.lagrangeProx X a w ij) * z ij ≤ a * norm1 z + w * ∑ i, rowNorm2 z i := by
  set P := Sparse.lagrangeProx X a w with hP
  have hsub : ∀ z : Mat n p, (a * norm1 P + w * ∑ i, rowNorm2 P i) +
      (∑ ij, (X ij - P ij) * z ij - ∑ ij, (X ij - P ij) * P ij) ≤ a * norm1 z + w * ∑ i, rowNorm2 z i := by
    intro z
    have h := sparse_sub X ha hw z
    rw [← Finset.sum_sub_distrib]
    simp only [← mul_sub]
    exact h
  have h0 := hsub fun _ => 0
  have h2 := hsub fun ij => 2 * P ij
  have e0 : norm1 (fun _ : Fin n × Fin p => (0:ℝ)) = 0 := by simp [norm1]
  have e0' : ∀ i, rowNorm2 (fun _ : Fin n × Fin p => (0:ℝ)) i = 0 := fun i => by simp [rowNorm2]
  have e2 : norm1 (fun ij => 2 * P ij) = 2 * norm1 P := by
    unfold norm1; rw [Finset.mul_sum]; exact Finset.sum_congr rfl fun ij _ => by rw [abs_mul]; norm_num
  have e2' : ∀ i, rowNorm2 (fun ij => 2 * P ij) i = 2 * rowNorm2 P i := fun i => by
    have := npNorm_smul 2 (row P i)
    rw [abs_of_pos (by norm_num : (0:ℝ) < 2)] at this
    exact this
  have e3 : ∑ ij, (X ij - P ij) * (2 * P ij) = 2 * ∑ ij, (X ij - P ij) * P ij := by
    rw [Finset.mul_sum]; exact Finset.sum_congr rfl fun ij _ => by ring
  simp only [e0, e0', mul_zero, Finset.sum_const_zero] at h0
  simp only [e2, e2', e3, ← Finset.mul_sum] at h2
  have heq : ∑ ij, (X ij - P ij) * P ij = a * norm1 P + w * ∑ i, rowNorm2 P i := by
    apply le_antisymm <;> linarith
  exact ⟨heq, fun z => by have := hsub z; linarith⟩

/-- C58: `sparse_group_block_dual.bound_prox` is the projection on the ball of radius `bound` of the dual norm, i.e. on
`{u : ⟨u,z⟩ ≤ bound (l1 Σ|z_ij| + l2 Σ‖z_i‖) for all z}`. -/
theorem C58_dual_bound_prox (X : Mat n p) {l1 l2 b : ℝ} (h1 : 0 ≤ l1) (h2 : 0 ≤ l2) (hb : 0 ≤ b) :
    IsProj {u | ∀ z, dot u z ≤ b * (l1 * norm1 z + l2 * ∑ i, rowNorm2 z i)} X (Sparse.dualBoundProx X l1 l2 b) := by
  obtain ⟨heq, hpol⟩ := sparse_polar X (a := b * l1) (w := b * l2) (mul_nonneg hb h1) (mul_nonneg hb h2)
  set P := Sparse.lagrangeProx X (b * l1) (b * l2) with hP
  have e : Sparse.dualBoundProx X l1 l2 b = fun ij => X ij - P ij := rfl
  rw [e]
  apply isProj_of_vi
  · intro z
    have := hpol z
    unfold dot
    calc _ ≤ b * l1 * norm1 z + b * l2 * ∑ i, rowNorm2 z i := this
      _ = _ := by ring
  · intro u hu
    have h := hu P
    have e2 : ∑ ij, (X ij - (X ij - P ij)) * (u ij - (X ij - P ij)) = dot u P - ∑ ij, (X ij - P ij) * P ij := by
      unfold dot; rw [← Finset.sum_sub_distrib]; exact Finset.sum_congr rfl fun ij _ => by ring
    rw [e2, heq]
    linarith

private lemma npNorm_le_norm1 {ι : Type*} [Fintype ι] (z : ι → ℝ) : npNorm z ≤ norm1 z := by
  have h0 : 0 ≤ norm1 z := Finset.sum_nonneg fun i _ => abs_nonneg _
  unfold npNorm
  rw [Real.sqrt_le_left h0, sq, norm1, Finset.sum_mul]
  refine Finset.sum_le_sum fun i _ => ?_
  rw [← sq_abs, sq]
  exact mul_le_mul_of_nonneg_left (Finset.single_le_sum (f := fun i => |z i|) (fun i _ => abs_nonneg _) (Finset.mem_univ i))
    (abs_nonneg _)

private lemma npNorm_le_rows (z : Mat n p) : npNorm z ≤ ∑ i, rowNorm2 z i := by
  have e : npNorm z = npNorm (rowNorm2 z) := by
    unfold npNorm
    congr 1
    rw [sum_rows]
    exact Finset.sum_congr rfl fun i _ => (sq_npNorm (row z i)).symm
  rw [e]
  refine le_trans (npNorm_le_norm1 _) (le_of_eq ?_)
  exact Finset.sum_congr rfl fun i _ => abs_of_nonneg (rowNorm_nonneg z i)

/-- C58 (existence): the dual norm is finite as soon as one of the weights is positive. -/
theorem C58_dual_norm_exists (X : Mat n p) {l1 l2 : ℝ} (h1 : 0 ≤ l1) (h2 : 0 ≤ l2) (hpos : 0 < l1 + l2) :
    ∃ g, IsDualNorm (fun z => l1 * norm1 z + l2 * ∑ i, rowNorm2 z i) X g := by
  refine dualNorm_exists (ρ := l1 + l2) ?_ hpos ?_ X
  · intro c z hc
    have e1 : norm1 (fun ij => c * z ij) = c * norm1 z := by
      unfold norm1; rw [Finset.mul_sum]; exact Finset.sum_congr rfl fun ij _ => by rw [abs_mul, abs_of_nonneg hc]
    have e2 : ∀ i, rowNorm2 (fun ij => c * z ij) i = c * rowNorm2 z i := fun i => by
      have := npNorm_smul c (row z i)
      rw [abs_of_nonneg hc] at this
      exact this
    simp only [e1, e2, ← Finset.mul_sum]; ring
  · intro z
    have a1 := mul_le_mul_of_nonneg_left (npNorm_le_norm1 z) h1
    have a2 := mul_le_mul_of_nonneg_left (npNorm_le_rows z) h2
    rw [add_mul]; linarith

/-- C58 (partial): `sparse_group_block_dual.seminorm` with `lagrange=1`: the search ends and its answer is within relative
tolerance `tol / (1 - tol/2)` of the dual norm, up to an absolute error `1e-10 max(‖X‖,1) / (l1 + l2)`.  Missing: accuracy
relative to the dual norm for small arguments, which fails (`C58_small_fails`). -/
theorem C58_gauge_partial (X : Mat n p) {l1 l2 : ℝ} (h1 : 0 ≤ l1) (h2 : 0 ≤ l2) (hpos : 0 < l1 + l2) {g : ℝ}
    (hg : IsDualNorm (fun z => l1 * norm1 z + l2 * ∑ i, rowNorm2 z i) X g) {tol : ℝ} (ht : 0 < tol) (ht' : tol ≤ 1 / 2)
    (m : ℕ) :
    ∃ N, ∀ fuel, N ≤ fuel → ∃ r, Sparse.gaugeDual X l1 l2 tol m fuel = some r ∧
      GaugeAnswer g (tol / (1 - tol / 2)) 0 (max (Real.sqrt (∑ ij, X ij ^ 2)) 1 * (1 / 10 ^ 10) / (l1 + l2)) m r := by
  classical
  unfold Sparse.gaugeDual
  have hhom : ∀ (c : ℝ) (z : Mat n p), 0 ≤ c → l1 * norm1 (fun ij => c * z ij) + l2 * ∑ i, rowNorm2 (fun ij => c * z ij) i =
      c * (l1 * norm1 z + l2 * ∑ i, rowNorm2 z i) := by
    intro c z hc
    have e1 : norm1 (fun ij => c * z ij) = c * norm1 z := by
      unfold norm1; rw [Finset.mul_sum]; exact Finset.sum_congr rfl fun ij _ => by rw [abs_mul, abs_of_nonneg hc]
    have e2 : ∀ i, rowNorm2 (fun ij => c * z ij) i = c * rowNorm2 z i := fun i => by
      have := npNorm_smul c (row z i)
      rw [abs_of_nonneg hc] at this
      exact this
    simp only [e1, e2, ← Finset.mul_sum]; ring
  have hlow : ∀ z : Mat n p, (l1 + l2) * npNorm z ≤ l1 * norm1 z + l2 * ∑ i, rowNorm2 z i := by
    intro z
    have a1 := mul_le_mul_of_nonneg_left (npNorm_le_norm1 z) h1
    have a2 := mul_le_mul_of_nonneg_left (npNorm_le_rows z) h2
    rw [add_mul]; linarith
  have hε : 0 ≤ max (npNorm X) 1 * (1 / 10 ^ 10) := mul_nonneg (le_trans zero_le_one (le_max_right _ _)) (by norm_num)
  refine C50_bisection _ le_rfl (div_nonneg hε hpos.le) ht ht' (fun t h0 hgt => ?_) (fun t h0 hin => ?_) m
  · apply decide_eq_true
    have hb := (dualNorm_le_iff (h := fun z => l1 * norm1 z + l2 * ∑ i, rowNorm2 z i) hhom hpos hlow hg h0).1 hgt
    obtain ⟨heq, _⟩ := sparse_polar X (a := t * l1) (w := t * l2) (mul_nonneg h0.le h1) (mul_nonneg h0.le h2)
    unfold Sparse.insideSet
    set P := Sparse.lagrangeProx X (t * l1) (t * l2) with hP
    have h3 := hb P
    have e1 : dot (fun i => X i / t) P = dot X P / t := by
      unfold dot; rw [Finset.sum_div]; exact Finset.sum_congr rfl fun i _ => by ring
    rw [e1, div_le_iff₀ h0] at h3
    have e2 : ∑ ij, (X ij - P ij) * P ij = dot X P - npNorm P ^ 2 := by
      rw [sq_npNorm]; unfold dot; rw [← Finset.sum_sub_distrib]; exact Finset.sum_congr rfl fun ij _ => by ring
    rw [e2] at heq
    have hsq : npNorm P ^ 2 ≤ 0 := by nlinarith
    have hP0 : npNorm P = 0 := by nlinarith [npNorm_nonneg P]
    rw [hP0, not_lt]
    exact hε
  · replace hin := of_decide_eq_true hin
    unfold Sparse.insideSet at hin
    obtain ⟨_, hpol⟩ := sparse_polar X (a := t * l1) (w := t * l2) (mul_nonneg h0.le h1) (mul_nonneg h0.le h2)
    set P := Sparse.lagrangeProx X (t * l1) (t * l2) with hP
    rw [not_lt] at hin
    rw [add_zero, one_mul]
    apply hg.2
    rintro s ⟨z, hz, rfl⟩
    have a1 := hpol z
    have a2 := cauchy P z
    have e : dot X z = ∑ ij, (X ij - P ij) * z ij + ∑ ij, P ij * z ij := by
      unfold dot; rw [← Finset.sum_add_distrib]; exact Finset.sum_congr rfl fun ij _ => by ring
    have hzn : npNorm z ≤ 1 / (l1 + l2) := by
      rw [le_div_iff₀ hpos]; have := hlow z; dsimp only at hz; linarith
    have a3 : npNorm P * npNorm z ≤ max (npNorm X) 1 * (1 / 10 ^ 10) / (l1 + l2) :=
      calc npNorm P * npNorm z ≤ max (npNorm X) 1 * (1 / 10 ^ 10) * (1 / (l1 + l2)) :=
            mul_le_mul hin hzn (npNorm_nonneg z) hε
        _ = _ := by rw [mul_one_div]
    have a4 : t * l1 * norm1 z + t * l2 * ∑ i, rowNorm2 z i ≤ t := by
      have : t * (l1 * norm1 z + l2 * ∑ i, rowNorm2 z i) ≤ t * 1 := mul_le_mul_of_nonneg_left hz h0.le
      linarith
    rw [e]
    show _ ≤ t + max (npNorm X) 1 * (1 / 10 ^ 10) / (l1 + l2)
    linarith

/-- C58: with the defaults (`tol=1e-6`, 50 steps) and a bound in the range of the search, `sparse_group_block_dual.constraint`
accepts the points of the ball — in particular what `bound_prox` returns — and accepts no point whose dual norm exceeds the
bound by more than a relative `1.2e-5` and the absolute error of the search. -/
theorem C58_dual_constraint (X : Mat n p) {l1 l2 b : ℝ} (h1 : 0 ≤ l1) (h2 : 0 ≤ l2) (hpos : 0 < l1 + l2) (hb : 0 ≤ b)
    (hb' : b ≤ 2 ^ 50) :
    ∃ N, ∀ fuel, N ≤ fuel → ∃ r c, Sparse.gaugeDual X l1 l2 (1 / 10 ^ 6) 50 fuel = some r ∧
      Sparse.dualConstraint r b = some c ∧
      ((∀ z, dot X z ≤ b * (l1 * norm1 z + l2 * ∑ i, rowNorm2 z i)) → c = 0) ∧
      (c = 0 → ∀ z, dot X z ≤ (b * (1 + 12 / 10 ^ 6) + 1 / 2 ^ 50 +
        max (Real.sqrt (∑ ij, X ij ^ 2)) 1 * (1 / 10 ^ 10) / (l1 + l2)) * (l1 * norm1 z + l2 * ∑ i, rowNorm2 z i)) := by
  obtain ⟨g, hg⟩ := C58_dual_norm_exists X h1 h2 hpos
  obtain ⟨N, hN⟩ := C58_gauge_partial X h1 h2 hpos hg (tol := 1 / 10 ^ 6) (by norm_num) (by norm_num) 50
  refine ⟨N, fun fuel hf => ?_⟩
  obtain ⟨r, hr, hans⟩ := hN fuel hf
  set δ := max (Real.sqrt (∑ ij, X ij ^ 2)) 1 * (1 / 10 ^ 10) / (l1 + l2) with hδ
  have hδ0 : 0 ≤ δ := div_nonneg (mul_nonneg (le_trans zero_le_one (le_max_right _ _)) (by norm_num)) hpos.le
  have hlow : ∀ z : Mat n p, (l1 + l2) * npNorm z ≤ l1 * norm1 z + l2 * ∑ i, rowNorm2 z i := by
    intro z
    have a1 := mul_le_mul_of_nonneg_left (npNorm_le_norm1 z) h1
    have a2 := mul_le_mul_of_nonneg_left (npNorm_le_rows z) h2
    rw [add_mul]; linarith
  have hhom : ∀ (c : ℝ) (z : Mat n p), 0 ≤ c → l1 * norm1 (fun ij => c * z ij) + l2 * ∑ i, rowNorm2 (fun ij => c * z ij) i =
      c * (l1 * norm1 z + l2 * ∑ i, rowNorm2 z i) := by
    intro c z hc
    have e1 : norm1 (fun ij => c * z ij) = c * norm1 z := by
      unfold norm1; rw [Finset.mul_sum]; exact Finset.sum_congr rfl fun ij _ => by rw [abs_mul, abs_of_nonneg hc]
    have e2 : ∀ i, rowNorm2 (fun ij => c * z ij) i = c * rowNorm2 z i := fun i => by
      have := npNorm_smul c (row z i)
      rw [abs_of_nonneg hc] at this
      exact this
    simp only [e1, e2, ← Finset.mul_sum]; ring
  have hg0 : 0 ≤ g := dualNorm_nonneg (h := fun z => l1 * norm1 z + l2 * ∑ i, rowNorm2 z i) hhom hg
  -- from a bound on g to the ball
  have hball : ∀ T, g ≤ T → ∀ z, dot X z ≤ T * (l1 * norm1 z + l2 * ∑ i, rowNorm2 z i) := by
    intro T hT z
    have hz0 : 0 ≤ l1 * norm1 z + l2 * ∑ i, rowNorm2 z i := le_trans (mul_nonneg hpos.le (npNorm_nonneg z)) (hlow z)
    have hT' : ∀ ε > 0, dot X z ≤ (T + ε) * (l1 * norm1 z + l2 * ∑ i, rowNorm2 z i) := by
      intro ε hε
      have h0 : 0 < T + ε := by linarith
      have := (dualNorm_le_iff (h := fun z => l1 * norm1 z + l2 * ∑ i, rowNorm2 z i) hhom hpos hlow hg h0).1 (by linarith) z
      have e1 : dot (fun i => X i / (T + ε)) z = dot X z / (T + ε) := by
        unfold dot; rw [Finset.sum_div]; exact Finset.sum_congr rfl fun i _ => by ring
      rw [e1, div_le_iff₀ h0] at this
      linarith
    by_contra hc
    push Not at hc
    rcases hz0.eq_or_lt with h | h
    · have := hT' 1 one_pos
      rw [← h, mul_zero] at this hc
      linarith
    · have := hT' ((dot X z - T * (l1 * norm1 z + l2 * ∑ i, rowNorm2 z i)) / (2 * (l1 * norm1 z + l2 * ∑ i, rowNorm2 z i)))
        (div_pos (by linarith) (by linarith))
      rw [add_mul, div_mul_eq_mul_div] at this
      have e : (dot X z - T * (l1 * norm1 z + l2 * ∑ i, rowNorm2 z i)) * (l1 * norm1 z + l2 * ∑ i, rowNorm2 z i) /
          (2 * (l1 * norm1 z + l2 * ∑ i, rowNorm2 z i)) = (dot X z - T * (l1 * norm1 z + l2 * ∑ i, rowNorm2 z i)) / 2 := by
        field_simp
      rw [e] at this
      linarith
  have hgle : (∀ z, dot X z ≤ b * (l1 * norm1 z + l2 * ∑ i, rowNorm2 z i)) → g ≤ b := by
    intro h
    apply hg.2
    rintro s ⟨z, hz, rfl⟩
    exact le_trans (h z) (by have := mul_le_mul_of_nonneg_left hz hb; linarith)
  have hτ : (1:ℝ) / 10 ^ 6 / (1 - 1 / 10 ^ 6 / 2) ≤ 1000001 / 10 ^ 12 := by norm_num
  have hτ0 : (0:ℝ) ≤ 1 / 10 ^ 6 / (1 - 1 / 10 ^ 6 / 2) := by norm_num
  set τ : ℝ := 1 / 10 ^ 6 / (1 - 1 / 10 ^ 6 / 2) with hτd
  cases r with
  | zero =>
    have h : g ≤ (1 + 0) / 2 ^ 50 + δ := hans
    refine ⟨_, _, hr, rfl, fun _ => ?_, fun _ z => ?_⟩
    · rw [if_pos]; exact mul_nonneg hb (by unfold atomTol; norm_num)
    · apply hball
      rw [add_zero] at h
      nlinarith
  | inf =>
    have h : (2:ℝ) ^ 50 < g := hans
    refine ⟨_, _, hr, rfl, fun hx => ?_, fun hc => ?_⟩
    · have := hgle hx; exact absurd (lt_of_lt_of_le h (le_trans this hb')) (lt_irrefl _)
    · exact absurd hc (by simp)
  | unbound => exact hans.elim
  | assertion => exact hans.elim
  | value v =>
    obtain ⟨hv, ha, hb2⟩ := hans
    refine ⟨_, _, hr, rfl, fun hx => ?_, fun hc z => ?_⟩
    · rw [if_pos]
      have h3 := hgle hx
      unfold atomTol
      calc v ≤ (1 + τ) * g := ha
        _ ≤ (1 + τ) * b := mul_le_mul_of_nonneg_left h3 (by linarith)
        _ ≤ b * (1 + 1 / 10 ^ 5) := by rw [mul_comm]; exact mul_le_mul_of_nonneg_left (by norm_num [hτd]) hb
    · have hv' : v ≤ b * (1 + 1 / 10 ^ 5) := by
        by_contra hne
        rw [if_neg (by unfold atomTol; exact hne)] at hc
        exact absurd hc (by simp)
      apply hball
      have h5 : (1 + τ) * v ≤ b * (1 + 12 / 10 ^ 6) := by
        calc (1 + τ) * v ≤ (1 + τ) * (b * (1 + 1 / 10 ^ 5)) := mul_le_mul_of_nonneg_left hv' (by linarith)
          _ = b * ((1 + τ) * (1 + 1 / 10 ^ 5)) := by ring
          _ ≤ b * (1 + 12 / 10 ^ 6) := mul_le_mul_of_nonneg_left (by norm_num [hτd]) hb
      have h6 : (0:ℝ) ≤ 1 / 2 ^ 50 := by norm_num
      rw [add_zero, one_mul] at hb2
      exact le_trans hb2 (add_le_add (le_add_of_le_of_nonneg h5 h6) le_rfl)

/-- C58 fails for small arguments: whenever `‖X‖ ≤ 1e-10` the computed dual norm is 0, although it is a norm. -/
theorem C58_small_fails :
    (∀ (n p : ℕ) (X : Mat n p) (l1 l2 tol : ℝ) (m fuel : ℕ), 0 ≤ l1 → 0 ≤ l2 → Real.sqrt (∑ ij, X ij ^ 2) ≤ 1 / 10 ^ 10 →
      Sparse.gaugeDual X l1 l2 tol m fuel = some .zero) ∧
    ∃ X : Mat 1 1, Real.sqrt (∑ ij, X ij ^ 2) ≤ 1 / 10 ^ 10 ∧
      IsDualNorm (fun z => 1 * norm1 z + 0 * ∑ i, rowNorm2 z i) X (1 / 10 ^ 10) := by
  classical
  constructor
  · intro n p X l1 l2 tol m fuel h1 h2 hX
    have hin : ∀ t, 0 < t → Sparse.insideSet X t l1 l2 := by
      intro t ht
      unfold Sparse.insideSet
      obtain ⟨heq, hpol⟩ := sparse_polar X (a := t * l1) (w := t * l2) (mul_nonneg ht.le h1) (mul_nonneg ht.le h2)
      set P := Sparse.lagrangeProx X (t * l1) (t * l2)
      have hP : npNorm P ≤ npNorm X := by
        rcases (npNorm_nonneg P).eq_or_lt with h | h
        · rw [← h]; exact npNorm_nonneg X
        · refine le_of_mul_le_mul_right ?_ h
          have e2 : ∑ ij, (X ij - P ij) * P ij = ∑ ij, X ij * P ij - npNorm P ^ 2 := by
            rw [sq_npNorm, ← Finset.sum_sub_distrib]; exact Finset.sum_congr rfl fun ij _ => by ring
          have h0 : 0 ≤ t * l1 * norm1 P + t * l2 * ∑ i, rowNorm2 P i :=
            add_nonneg (mul_nonneg (mul_nonneg ht.le h1) (Finset.sum_nonneg fun _ _ => abs_nonneg _))
              (mul_nonneg (mul_nonneg ht.le h2) (Finset.sum_nonneg fun i _ => rowNorm_nonneg P i))
          have := cauchy X P
          nlinarith
      rw [not_lt]
      have h3 : (1:ℝ) ≤ max (npNorm X) 1 := le_max_right _ _
      have h4 : npNorm X ≤ 1 / 10 ^ 10 := hX
      calc npNorm P ≤ 1 / 10 ^ 10 := le_trans hP h4
        _ = 1 * (1 / 10 ^ 10) := by rw [one_mul]
        _ ≤ _ := mul_le_mul_of_nonneg_right h3 (by norm_num)
    unfold Sparse.gaugeDual Gauge.gaugeDual
    rw [if_pos (decide_eq_true (hin 1 one_pos))]
    have hfl : ∀ (k : ℕ) (l u : ℝ), 0 < l →
        Gauge.findLower (fun t => decide (Sparse.insideSet X t l1 l2)) k l u = none := by
      intro k
      induction k with
      | zero => intro l u _; rfl
      | succ k ih =>
        intro l u hl
        rw [Gauge.findLower, if_neg (by simp [hin (l / 2) (by linarith)])]
        exact ih _ _ (by linarith)
    rw [hfl m 1 1 one_pos]
  · refine ⟨fun _ => 1 / 10 ^ 10, ?_, ?_⟩
    · rw [Fintype.sum_prod_type]
      simp only [Finset.univ_unique, Finset.sum_singleton]
      rw [Real.sqrt_sq (by norm_num)]
    · constructor
      · rintro s ⟨z, hz, rfl⟩
        have e : norm1 z = |z (0, 0)| := by
          unfold norm1; rw [Fintype.sum_prod_type]; simp
        dsimp only at hz
        rw [zero_mul, add_zero, one_mul, e] at hz
        have e2 : dot (fun _ => (1:ℝ) / 10 ^ 10) z = 1 / 10 ^ 10 * z (0, 0) := by
          unfold dot; rw [Fintype.sum_prod_type]; simp
        rw [e2]
        have := le_trans (le_abs_self _) hz
        linarith
      · intro u hu
        refine hu ⟨fun _ => 1, ?_, ?_⟩
        · dsimp only; unfold norm1; rw [Fintype.sum_prod_type]; simp
        · unfold dot; rw [Fintype.sum_prod_type]; simp

/-- C58 fails for `sparse_group_block.terms`: documented as the terms summed in the seminorm, it uses `l1_weight` for both
parts, so the terms of the 1×1 matrix `(1)` with weights 1 and 2 sum to 2 while the seminorm is 3. -/
theorem C58_terms_fails : ∃ X : Mat 1 1, ∑ i, Sparse.terms X 1 2 i = 2 ∧ Sparse.seminorm X 1 2 1 = 3 := by
  refine ⟨fun _ => 1, ?_, ?_⟩
  · simp [Sparse.terms, rowNorm]; norm_num
  · unfold Sparse.seminorm rowNorm
    rw [Fintype.sum_prod_type]
    simp; norm_num

/-- Non-vacuity: weights 1 and 2, a 2×2 matrix with a zero row. -/
example : ∃ (X : Mat 2 2) (g : ℝ), (∀ j, X (1, j) = 0) ∧ X (0, 0) = 5 ∧
    IsDualNorm (fun z => 1 * norm1 z + 2 * ∑ i, rowNorm2 z i) X g := by
  obtain ⟨g, hg⟩ := C58_dual_norm_exists (fun ij : Fin 2 × Fin 2 => if ij.1 = 0 then 5 else 0) (l1 := 1) (l2 := 2)
    zero_le_one zero_le_two (by norm_num)
  exact ⟨_, g, by simp, by simp, hg⟩

end Verif.Props
