import Verif.Lemmas.Block
import Mathlib.Data.Fin.VecNotation
import Mathlib.Tactic.FinCases
import Mathlib.Tactic.NormNum

/-!
# C57: block norms of matrices

`rowNorm2 Z i` is the Euclidean norm of row `i`; `ExceptZeroRows X a P` says that the returned array `a` has the values of
`P` on the nonzero rows of the argument `X` and nan on its zero rows (see `Verif.Spec.Block`).
-/

set_option linter.unusedSectionVars false
set_option linter.unusedVariables false

namespace Verif.Props
open Verif.Model Verif.Model.Block Verif.Lemmas Verif.Spec

variable {n p : ℕ}

/-! ### values and constraints -/

/-- C57: the values of the four norms. -/
theorem C57_seminorm (X : Mat (n + 1) (p + 1)) (lam : ℝ) :
    L1L2.seminorm X lam = lam * ∑ i, rowNorm2 X i ∧
    LinfL2.seminorm X lam = lam * maxCoord (rowNorm2 X) ∧
    L1L1.seminorm X lam = lam * norm1 X ∧
    LinfLinf.seminorm X lam = lam * maxCoord fun ij => |X ij| := ⟨rfl, rfl, rfl, rfl⟩

/-- C57: the four constraints are `0` exactly when the norm is at most `bound` up to the relative tolerance, and
infinite otherwise. -/
theorem C57_constraint (X : Mat (n + 1) (p + 1)) (b : ℝ) :
    L1L2.constraint X b = (if ∑ i, rowNorm2 X i ≤ b * (1 + 1 / 10 ^ 5) then 0 else ⊤) ∧
    LinfL2.constraint X b = (if maxCoord (rowNorm2 X) ≤ b * (1 + 1 / 10 ^ 5) then 0 else ⊤) ∧
    L1L1.constraint X b = (if norm1 X ≤ b * (1 + 1 / 10 ^ 5) then 0 else ⊤) ∧
    LinfLinf.constraint X b = (if maxCoord (fun ij => |X ij|) ≤ b * (1 + 1 / 10 ^ 5) then 0 else ⊤) :=
  ⟨rfl, rfl, rfl, rfl⟩

/-! ### `l1_l2` -/

/-- C57: `l1_l2.lagrange_prox` is the proximal map of `lam Σ_i ‖z_i‖₂` on the nonzero rows.  Missing: the zero rows of the
argument, see `C57_zero_rows_fails`. -/
theorem C57_l1_l2_lagrange_prox_partial (X : Mat n p) {L lam : ℝ} (hL : 0 < L) (hl : 0 ≤ lam) :
    ∃ P, ExceptZeroRows X (L1L2.lagrangeProx X L lam) P ∧ IsProx L (fun z => lam * ∑ i, rowNorm2 z i) X P := by
  refine ⟨shrink X (lam / L), fdiv_zero_rows X fun i => max (rowNorm X i - lam / L) 0, ?_⟩
  apply isProx_of_subgrad hL
  intro z
  have h := shrink_sub X (div_nonneg hl hL.le) z
  have e : lam = L * (lam / L) := by field_simp
  show lam * ∑ i, rowNorm (shrink X (lam / L)) i + _ ≤ lam * ∑ i, rowNorm z i
  calc lam * ∑ i, rowNorm (shrink X (lam / L)) i + L * ∑ ij, (X ij - shrink X (lam / L) ij) * (z ij - shrink X (lam / L) ij)
      = L * (lam / L * ∑ i, rowNorm (shrink X (lam / L)) i +
          ∑ ij, (X ij - shrink X (lam / L) ij) * (z ij - shrink X (lam / L) ij)) := by
        rw [mul_add, ← mul_assoc, ← e]
    _ ≤ L * (lam / L * ∑ i, rowNorm z i) := mul_le_mul_of_nonneg_left h hL.le
    _ = lam * ∑ i, rowNorm z i := by rw [← mul_assoc, ← e]

/-- C57: `l1_l2.bound_prox` is the projection on `Σ_i ‖z_i‖₂ ≤ bound` on the nonzero rows. Missing: the zero rows. -/
theorem C57_l1_l2_bound_prox_partial (X : Mat (n + 1) p) {b : ℝ} (hb : 0 ≤ b) :
    ∃ a P, L1L2.boundProx X b = some a ∧ ExceptZeroRows X a P ∧ IsProj {z | ∑ i, rowNorm2 z i ≤ b} X P := by
  obtain ⟨cut, h1, h2, h3⟩ := findC_rows X hb
  refine ⟨_, shrink X cut, by unfold L1L2.boundProx; rw [h1]; rfl, ?_, ?_⟩
  · have := fdiv_zero_rows X fun i => (rowNorm X i - cut) * b2k (rowNorm X i > cut)
    simp only [cut_factor] at this ⊢
    exact this
  · apply isProj_of_vi
    · show ∑ i, rowNorm (shrink X cut) i ≤ b
      rcases h3 with ⟨_, h⟩ | h <;> linarith
    · intro z hz
      have hz' : ∑ i, rowNorm z i ≤ b := hz
      have h := shrink_sub X h2 z
      rcases h3 with ⟨h0, _⟩ | h'
      · rw [h0] at h ⊢; linarith
      · rw [h'] at h
        have := mul_le_mul_of_nonneg_left hz' h2
        linarith

/-! ### `linf_l2` -/

/-- C57: `linf_l2.bound_prox` is the projection on `max_i ‖z_i‖₂ ≤ bound`, for a positive bound.  Missing: `bound = 0`, see
`C57_linf_l2_bound_zero_fails`. -/
theorem C57_linf_l2_bound_prox_partial (X : Mat n p) {b : ℝ} (hb : 0 < b) :
    ∃ P, (LinfL2.boundProx X b = fun ij => some (P ij)) ∧ IsProj {z | ∀ i, rowNorm2 z i ≤ b} X P := by
  have hbp : ∀ ij : Fin n × Fin p, LinfL2.boundProx X b ij = some (L2.boundProx (row X ij.1) b ij.2) := by
    rintro ⟨i, j⟩
    unfold LinfL2.boundProx fdiv L2.boundProx
    dsimp only
    rw [← rowNorm_eq]
    by_cases h : rowNorm X i ≥ b
    · have h0 : rowNorm X i ≠ 0 := by linarith
      rw [if_pos h, if_neg h0]
      by_cases h' : rowNorm X i ≤ b
      · have e : rowNorm X i = b := le_antisymm h' h
        rw [if_pos h', e, div_self hb.ne']
        show some (X (i, j) * 1) = some (X (i, j))
        rw [mul_one]
      · rw [if_neg h']
        show some (X (i, j) * (b / rowNorm X i)) = some (b / rowNorm X i * X (i, j))
        rw [mul_comm]
    · rw [if_neg h, if_pos (by linarith [not_le.1 h])]; rfl
  refine ⟨fun ij => L2.boundProx (row X ij.1) b ij.2, funext hbp, ?_⟩
  apply isProj_of_vi
  · intro i; exact (l2_bound_vi (row X i) hb.le).1
  · intro z hz
    rw [sum_rows]
    apply Finset.sum_nonpos
    intro i _
    have h := (l2_bound_vi (row X i) hb.le).2 (row z i)
    have h2 := l2_bound_le (row X i) hb.le
    have h3 : npNorm (row z i) ≤ b := hz i
    have : (npNorm (row X i) - npNorm (L2.boundProx (row X i) b)) * (npNorm (row z i) - b) ≤ 0 :=
      mul_nonpos_of_nonneg_of_nonpos (by linarith) (by linarith)
    exact le_trans h this

/-- C57: `linf_l2.lagrange_prox` is the proximal map of `lam max_i ‖z_i‖₂` on the nonzero rows.  Missing: the zero rows. -/
theorem C57_linf_l2_lagrange_prox_partial (X : Mat (n + 1) p) {L lam : ℝ} (hL : 0 < L) (hl : 0 ≤ lam) :
    ∃ a P, LinfL2.lagrangeProx X L lam = some a ∧ ExceptZeroRows X a P ∧
      IsProx L (fun z => lam * maxCoord (rowNorm2 z)) X P := by
  have hc : 0 ≤ lam / L := div_nonneg hl hL.le
  obtain ⟨cut, h1, h2, h3⟩ := findC_rows X hc
  have hfac : ∀ i, rowNorm X i - max (rowNorm X i - cut) 0 = min (rowNorm X i) cut := by
    intro i
    rcases le_total (rowNorm X i) cut with h | h
    · rw [max_eq_right (by linarith), min_eq_left h, sub_zero]
    · rw [max_eq_left (by linarith), min_eq_right h]; ring
  have hPQ : ∀ ij : Fin (n + 1) × Fin p,
      X ij * ((rowNorm X ij.1 - max (rowNorm X ij.1 - cut) 0) / rowNorm X ij.1) = X ij - shrink X cut ij := by
    rintro ⟨i, j⟩
    unfold shrink
    dsimp only
    by_cases h : rowNorm X i = 0
    · rw [(rowNorm_eq_zero X i).1 h j]; ring
    · field_simp
  refine ⟨_, fun ij => X ij * ((rowNorm X ij.1 - max (rowNorm X ij.1 - cut) 0) / rowNorm X ij.1),
    by unfold LinfL2.lagrangeProx; rw [h1]; rfl, ?_, ?_⟩
  · have := fdiv_zero_rows X fun i => rowNorm X i - (rowNorm X i - cut) * b2k (rowNorm X i > cut)
    simp only [cut_factor] at this ⊢
    exact this
  · set P : Mat (n + 1) p := fun ij => X ij * ((rowNorm X ij.1 - max (rowNorm X ij.1 - cut) 0) / rowNorm X ij.1) with hP
    have hPnorm : ∀ i, rowNorm P i = min (rowNorm X i) cut := by
      intro i
      have hn := rowNorm_nonneg X i
      have e : row P i = fun j => ((rowNorm X i - max (rowNorm X i - cut) 0) / rowNorm X i) * row X i j := by
        funext j; rw [hP]; unfold row; dsimp only; ring
      have hmin : 0 ≤ min (rowNorm X i) cut := le_min hn h2
      rw [rowNorm_eq, e, npNorm_smul, ← rowNorm_eq, hfac, abs_of_nonneg (div_nonneg hmin hn)]
      by_cases h : rowNorm X i = 0
      · rw [h, mul_zero, min_eq_left h2]
      · field_simp
    apply isProx_of_subgrad hL
    intro z
    have hQ : ∀ ij, X ij - P ij = shrink X cut ij := fun ij => by
      have := hPQ ij
      have e : P ij = X ij - shrink X cut ij := this
      rw [e]; ring
    have hQP : ∑ ij, shrink X cut ij * P ij = cut * ∑ i, rowNorm (shrink X cut) i := by
      rw [sum_rows, Finset.mul_sum]
      refine Finset.sum_congr rfl fun i _ => ?_
      rw [rowNorm_shrink X h2]
      have e : ∑ j, shrink X cut (i, j) * P (i, j) =
          (max (rowNorm X i - cut) 0 / rowNorm X i) * ((rowNorm X i - max (rowNorm X i - cut) 0) / rowNorm X i) *
            rowNorm X i ^ 2 := by
        have hs : rowNorm X i ^ 2 = ∑ j, X (i, j) ^ 2 := sq_npNorm (row X i)
        rw [hs, Finset.mul_sum]
        refine Finset.sum_congr rfl fun j _ => ?_
        rw [hP]; unfold shrink; dsimp only; ring
      rw [e, hfac]
      by_cases h : rowNorm X i = 0
      · rw [h, max_eq_right (by linarith)]; simp
      · have : max (rowNorm X i - cut) 0 / rowNorm X i * (min (rowNorm X i) cut / rowNorm X i) * rowNorm X i ^ 2 =
            max (rowNorm X i - cut) 0 * min (rowNorm X i) cut := by field_simp
        rw [this]
        rcases le_total (rowNorm X i) cut with h' | h'
        · rw [max_eq_right (by linarith)]; ring
        · rw [min_eq_right h']; ring
    have hsum : ∑ i, rowNorm (shrink X cut) i ≤ lam / L := by rcases h3 with ⟨_, h⟩ | h <;> linarith
    have hM0 : 0 ≤ maxCoord (rowNorm2 z) := le_trans (rowNorm_nonneg z 0) (le_maxCoord (rowNorm2 z) 0)
    have hQz : ∑ ij, shrink X cut ij * z ij ≤ lam / L * maxCoord (rowNorm2 z) :=
      calc ∑ ij, shrink X cut ij * z ij ≤ ∑ i, rowNorm (shrink X cut) i * rowNorm z i := inner_rows _ _
        _ ≤ ∑ i, rowNorm (shrink X cut) i * maxCoord (rowNorm2 z) := Finset.sum_le_sum fun i _ =>
            mul_le_mul_of_nonneg_left (le_maxCoord (rowNorm2 z) i) (rowNorm_nonneg _ _)
        _ = (∑ i, rowNorm (shrink X cut) i) * maxCoord (rowNorm2 z) := by rw [Finset.sum_mul]
        _ ≤ lam / L * maxCoord (rowNorm2 z) := mul_le_mul_of_nonneg_right hsum hM0
    have hPmax : maxCoord (rowNorm2 P) ≤ cut := maxCoord_le fun i => by
      rw [rowNorm2_eq, hPnorm]; exact min_le_right _ _
    have hPl : lam / L * maxCoord (rowNorm2 P) ≤ cut * ∑ i, rowNorm (shrink X cut) i := by
      rcases h3 with ⟨h0, _⟩ | h
      · rw [h0] at hPmax ⊢
        rw [zero_mul]; exact mul_nonpos_of_nonneg_of_nonpos hc hPmax
      · rw [h, mul_comm]; exact mul_le_mul_of_nonneg_right hPmax hc
    have hin : ∑ ij, (X ij - P ij) * (z ij - P ij) = ∑ ij, shrink X cut ij * z ij - cut * ∑ i, rowNorm (shrink X cut) i := by
      rw [← hQP, ← Finset.sum_sub_distrib]
      exact Finset.sum_congr rfl fun ij _ => by rw [hQ]; ring
    have e : lam = L * (lam / L) := by field_simp
    rw [hin]
    calc lam * maxCoord (rowNorm2 P) + L * (∑ ij, shrink X cut ij * z ij - cut * ∑ i, rowNorm (shrink X cut) i)
        = L * (lam / L * maxCoord (rowNorm2 P) + (∑ ij, shrink X cut ij * z ij - cut * ∑ i, rowNorm (shrink X cut) i)) := by
          rw [mul_add, ← mul_assoc, ← e]
      _ ≤ L * (lam / L * maxCoord (rowNorm2 z)) := mul_le_mul_of_nonneg_left (by linarith) hL.le
      _ = lam * maxCoord (rowNorm2 z) := by rw [← mul_assoc, ← e]

/-! ### `l1_l1` and `linf_linf` -/

/-- C57: `l1_l1.lagrange_prox` is the proximal map of `lam Σ_ij |z_ij|`. -/
theorem C57_l1_l1_lagrange_prox (X : Mat n p) {L lam : ℝ} (hL : 0 < L) (hl : 0 ≤ lam) :
    IsProx L (fun z => lam * norm1 z) X (L1L1.lagrangeProx X L lam) := by
  have hc : 0 ≤ lam / L := div_nonneg hl hL.le
  have hP : L1L1.lagrangeProx X L lam = fun ij => softThr (X ij) (lam / L) := by
    funext ij
    unfold L1L1.lagrangeProx
    rw [mul_comm, softThr_eq_sign_max _ hc]
  rw [hP]
  have e : lam = L * (lam / L) := by field_simp
  have : (fun z : Mat n p => lam * norm1 z) = fun z => ∑ ij, lam * |z ij| := by
    funext z; unfold norm1; rw [Finset.mul_sum]
  rw [this]
  apply isProx_of_coord hL (h := fun _ t => lam * |t|)
  intro ij z
  set s := softThr (X ij) (lam / L) with hs
  have h1 : (X ij - s) * s = lam / L * |s| := softThr_mul _ hc
  have h2 : (X ij - s) * z ≤ lam / L * |z| :=
    calc (X ij - s) * z ≤ |(X ij - s) * z| := le_abs_self _
      _ = |X ij - s| * |z| := abs_mul _ _
      _ ≤ lam / L * |z| := mul_le_mul_of_nonneg_right (softThr_resid _ hc) (abs_nonneg _)
  calc lam * |s| + L * ((X ij - s) * (z - s)) = L * (lam / L) * |s| + L * ((X ij - s) * z - (X ij - s) * s) := by
        rw [← e]; ring
    _ = L * ((X ij - s) * z) := by rw [h1]; ring
    _ ≤ L * (lam / L * |z|) := mul_le_mul_of_nonneg_left h2 hL.le
    _ = lam * |z| := by rw [← mul_assoc, ← e]

/-- C57: `l1_l1.bound_prox` is the projection on `Σ_ij |z_ij| ≤ bound`. -/
theorem C57_l1_l1_bound_prox (X : Mat (n + 1) (p + 1)) {b : ℝ} (hb : 0 ≤ b) :
    ∃ P, L1L1.boundProx X b = some P ∧ IsProj {z | norm1 z ≤ b} X P := by
  obtain ⟨cut, h1, h2, h3⟩ := findC_flat X hb
  refine ⟨fun ij => softThr (X ij) cut, ?_, ?_⟩
  · unfold L1L1.boundProx
    rw [h1]
    show some _ = some _
    congr 1
    funext ij
    exact softThr_eq_sign_cut _ h2
  · apply isProj_of_vi
    · show ∑ ij, |softThr (X ij) cut| ≤ b
      rcases h3 with ⟨_, h⟩ | h <;> linarith
    · intro z hz; exact l1_vi_gen h2 h3 hz

/-- C57: `linf_linf.bound_prox` is the projection on `max_ij |z_ij| ≤ bound`. -/
theorem C57_linf_linf_bound_prox (X : Mat n p) {b : ℝ} (hb : 0 ≤ b) :
    IsProj {z | ∀ ij, |z ij| ≤ b} X (LinfLinf.boundProx X b) := by
  apply isProj_of_vi
  · intro ij
    unfold LinfLinf.boundProx npClip
    rw [abs_le]
    exact ⟨le_min (le_max_right _ _) (by linarith), min_le_right _ _⟩
  · intro z hz
    apply Finset.sum_nonpos
    intro ij _
    have h := abs_le.1 (hz ij)
    unfold LinfLinf.boundProx npClip
    rcases le_total (X ij) (-b) with h1 | h1
    · rw [max_eq_right h1, min_eq_left (by linarith)]
      exact mul_nonpos_of_nonpos_of_nonneg (by linarith) (by linarith)
    · rw [max_eq_left h1]
      rcases le_total (X ij) b with h2 | h2
      · rw [min_eq_left h2]; simp
      · rw [min_eq_right h2]
        exact mul_nonpos_of_nonneg_of_nonpos (by linarith) (by linarith)

/-- C57: `linf_linf.lagrange_prox` is the proximal map of `lam max_ij |z_ij|`. -/
theorem C57_linf_linf_lagrange_prox (X : Mat (n + 1) (p + 1)) {L lam : ℝ} (hL : 0 < L) (hl : 0 ≤ lam) :
    ∃ P, LinfLinf.lagrangeProx X L lam = some P ∧ IsProx L (fun z => lam * maxCoord fun ij => |z ij|) X P := by
  have hc : 0 ≤ lam / L := div_nonneg hl hL.le
  obtain ⟨cut, h1, h2, h3⟩ := findC_flat X hc
  set Q : Mat (n + 1) (p + 1) := fun ij => softThr (X ij) cut with hQ
  refine ⟨fun ij => X ij - Q ij, ?_, ?_⟩
  · unfold LinfLinf.lagrangeProx
    rw [h1]
    show some _ = some _
    congr 1
    funext ij
    dsimp only
    rw [softThr_eq_sign_cut _ h2]
  · apply isProx_of_subgrad hL
    intro z
    have hsum : ∑ ij, |Q ij| ≤ lam / L := by rcases h3 with ⟨_, h⟩ | h <;> linarith
    have hM0 : 0 ≤ maxCoord fun ij => |z ij| := le_trans (abs_nonneg (z 0)) (le_maxCoord (fun ij => |z ij|) 0)
    have hQz : ∑ ij, Q ij * z ij ≤ lam / L * maxCoord fun ij => |z ij| :=
      calc ∑ ij, Q ij * z ij ≤ ∑ ij, |Q ij| * maxCoord (fun ij => |z ij|) := Finset.sum_le_sum fun ij _ =>
            calc Q ij * z ij ≤ |Q ij * z ij| := le_abs_self _
              _ = |Q ij| * |z ij| := abs_mul _ _
              _ ≤ _ := mul_le_mul_of_nonneg_left (le_maxCoord (fun ij => |z ij|) ij) (abs_nonneg _)
        _ = (∑ ij, |Q ij|) * maxCoord (fun ij => |z ij|) := by rw [Finset.sum_mul]
        _ ≤ _ := mul_le_mul_of_nonneg_right hsum hM0
    have hQP : ∑ ij, Q ij * (X ij - Q ij) = cut * ∑ ij, |Q ij| := by
      rw [Finset.mul_sum]
      exact Finset.sum_congr rfl fun ij _ => by rw [mul_comm]; exact softThr_mul _ h2
    have hPmax : maxCoord (fun ij => |X ij - Q ij|) ≤ cut := maxCoord_le fun ij => softThr_resid _ h2
    have hPl : lam / L * maxCoord (fun ij => |X ij - Q ij|) ≤ cut * ∑ ij, |Q ij| := by
      rcases h3 with ⟨h0, _⟩ | h
      · rw [h0] at hPmax
        rw [h0, zero_mul]; exact mul_nonpos_of_nonneg_of_nonpos hc hPmax
      · have h' : ∑ ij, |Q ij| = lam / L := h
        rw [h', mul_comm]; exact mul_le_mul_of_nonneg_right hPmax hc
    have hin : ∑ ij, (X ij - (X ij - Q ij)) * (z ij - (X ij - Q ij)) = ∑ ij, Q ij * z ij - cut * ∑ ij, |Q ij| := by
      rw [← hQP, ← Finset.sum_sub_distrib]
      exact Finset.sum_congr rfl fun ij _ => by ring
    have e : lam = L * (lam / L) := by field_simp
    dsimp only
    rw [hin]
    calc lam * maxCoord (fun ij => |X ij - Q ij|) + L * (∑ ij, Q ij * z ij - cut * ∑ ij, |Q ij|)
        = L * (lam / L * maxCoord (fun ij => |X ij - Q ij|) + (∑ ij, Q ij * z ij - cut * ∑ ij, |Q ij|)) := by
          rw [mul_add, ← mul_assoc, ← e]
      _ ≤ L * (lam / L * maxCoord fun ij => |z ij|) := mul_le_mul_of_nonneg_left (by linarith) hL.le
      _ = lam * maxCoord fun ij => |z ij| := by rw [← mul_assoc, ← e]

/-! ### conjugate pairs -/

/-- C57: the pairs `l1_l2`/`linf_l2` and `l1_l1`/`linf_linf` used for conjugates are pairs of dual norms. -/
theorem C57_dual_norms (X : Mat (n + 1) (p + 1)) :
    IsDualNorm (fun z => L1L2.seminorm z 1) X (LinfL2.seminorm X 1) ∧
    IsDualNorm (fun z => LinfL2.seminorm z 1) X (L1L2.seminorm X 1) ∧
    IsDualNorm (fun z => L1L1.seminorm z 1) X (LinfLinf.seminorm X 1) ∧
    IsDualNorm (fun z => LinfLinf.seminorm z 1) X (L1L1.seminorm X 1) := by
  classical
  have a1 : ∀ Z : Mat (n + 1) (p + 1), L1L2.seminorm Z 1 = ∑ i, rowNorm Z i := fun Z => one_mul _
  have a2 : ∀ Z : Mat (n + 1) (p + 1), LinfL2.seminorm Z 1 = maxCoord (rowNorm Z) := fun Z => one_mul _
  have a3 : ∀ Z : Mat (n + 1) (p + 1), L1L1.seminorm Z 1 = ∑ ij, |Z ij| := fun Z => one_mul _
  have a4 : ∀ Z : Mat (n + 1) (p + 1), LinfLinf.seminorm Z 1 = maxCoord fun ij => |Z ij| := fun Z => one_mul _
  simp only [a1, a2, a3, a4]
  have hM : 0 ≤ maxCoord (rowNorm X) := le_trans (rowNorm_nonneg X 0) (le_maxCoord (rowNorm X) 0)
  have hM' : 0 ≤ maxCoord fun ij => |X ij| := le_trans (abs_nonneg (X 0)) (le_maxCoord (fun ij => |X ij|) 0)
  have hunit : ∀ i, ∑ j, X (i, j) * (X (i, j) / rowNorm X i) = rowNorm X i := by
    intro i
    by_cases h : rowNorm X i = 0
    · rw [h]; simp
    · have hs : rowNorm X i ^ 2 = ∑ j, X (i, j) ^ 2 := sq_npNorm (row X i)
      calc ∑ j, X (i, j) * (X (i, j) / rowNorm X i) = ∑ j, (1 / rowNorm X i) * X (i, j) ^ 2 :=
            Finset.sum_congr rfl fun j _ => by ring
        _ = (1 / rowNorm X i) * rowNorm X i ^ 2 := by rw [← Finset.mul_sum, hs]
        _ = rowNorm X i := by field_simp
  have hun : ∀ i, npNorm (fun j => X (i, j) / rowNorm X i) ≤ 1 := by
    intro i
    have e : (fun j => X (i, j) / rowNorm X i) = fun j => (1 / rowNorm X i) * row X i j := by
      funext j; unfold row; ring
    rw [e, npNorm_smul, ← rowNorm_eq, abs_of_nonneg (div_nonneg zero_le_one (rowNorm_nonneg X i))]
    by_cases h : rowNorm X i = 0
    · rw [h]; simp
    · have : 1 / rowNorm X i * rowNorm X i = 1 := by field_simp
      rw [this]
  refine ⟨isDualNorm_of ?_ ?_, isDualNorm_of ?_ ?_, isDualNorm_of ?_ ?_, isDualNorm_of ?_ ?_⟩
  · intro z hz
    calc dot X z ≤ ∑ i, rowNorm X i * rowNorm z i := inner_rows X z
      _ ≤ ∑ i, maxCoord (rowNorm X) * rowNorm z i := Finset.sum_le_sum fun i _ =>
          mul_le_mul_of_nonneg_right (le_maxCoord (rowNorm X) i) (rowNorm_nonneg _ _)
      _ = maxCoord (rowNorm X) * ∑ i, rowNorm z i := by rw [Finset.mul_sum]
      _ ≤ maxCoord (rowNorm X) * 1 := mul_le_mul_of_nonneg_left hz hM
      _ = maxCoord (rowNorm X) := mul_one _
  · obtain ⟨i0, h0⟩ := exists_maxCoord (rowNorm X)
    refine ⟨fun ij => if ij.1 = i0 then X ij / rowNorm X ij.1 else 0, ?_, ?_⟩
    · have : ∀ i, rowNorm (fun ij : Fin (n + 1) × Fin (p + 1) => if ij.1 = i0 then X ij / rowNorm X ij.1 else 0) i =
          if i = i0 then npNorm (fun j => X (i0, j) / rowNorm X i0) else 0 := by
        intro i
        by_cases h : i = i0
        · subst h; rw [if_pos rfl]; unfold rowNorm npNorm; simp
        · rw [if_neg h]; unfold rowNorm; simp [h]
      simp only [this, Finset.sum_ite_eq', Finset.mem_univ, if_true]
      exact hun i0
    · unfold dot
      rw [sum_rows, Finset.sum_eq_single i0, h0]
      · simp only [if_true]; exact hunit i0
      · intro i _ h; simp [h]
      · simp
  · intro z hz
    calc dot X z ≤ ∑ i, rowNorm X i * rowNorm z i := inner_rows X z
      _ ≤ ∑ i, rowNorm X i := Finset.sum_le_sum fun i _ => by
          have := le_trans (le_maxCoord (rowNorm z) i) hz
          nlinarith [rowNorm_nonneg X i]
  · refine ⟨fun ij => X ij / rowNorm X ij.1, ?_, ?_⟩
    · exact maxCoord_le fun i => hun i
    · unfold dot
      rw [sum_rows]
      exact Finset.sum_congr rfl fun i _ => hunit i
  · intro z hz
    calc dot X z ≤ ∑ ij, |X ij| * |z ij| := Finset.sum_le_sum fun ij _ => by rw [← abs_mul]; exact le_abs_self _
      _ ≤ ∑ ij, maxCoord (fun ij => |X ij|) * |z ij| := Finset.sum_le_sum fun ij _ =>
          mul_le_mul_of_nonneg_right (le_maxCoord (fun ij => |X ij|) ij) (abs_nonneg _)
      _ = maxCoord (fun ij => |X ij|) * ∑ ij, |z ij| := by rw [Finset.mul_sum]
      _ ≤ maxCoord (fun ij => |X ij|) * 1 := mul_le_mul_of_nonneg_left hz hM'
      _ = _ := mul_one _
  · obtain ⟨k, hk⟩ := exists_maxCoord fun ij => |X ij|
    refine ⟨fun ij => if ij = k then (if 0 ≤ X k then 1 else -1) else 0, ?_, ?_⟩
    · rw [Finset.sum_eq_single k]
      · dsimp only; rw [if_pos rfl]; split_ifs <;> simp
      · intro b _ h; simp [h]
      · simp
    · unfold dot
      rw [Finset.sum_eq_single k, hk]
      · dsimp only; rw [if_pos rfl]
        split_ifs with h
        · rw [abs_of_nonneg h, mul_one]
        · rw [abs_of_neg (not_le.1 h)]; ring
      · intro b _ h; simp [h]
      · simp
  · intro z hz
    exact Finset.sum_le_sum fun ij _ => by
      have h1 := le_trans (le_maxCoord (fun ij => |z ij|) ij) hz
      calc X ij * z ij ≤ |X ij * z ij| := le_abs_self _
        _ = |X ij| * |z ij| := abs_mul _ _
        _ ≤ |X ij| * 1 := mul_le_mul_of_nonneg_left h1 (abs_nonneg _)
        _ = |X ij| := mul_one _
  · refine ⟨fun ij => if 0 ≤ X ij then 1 else -1, ?_, ?_⟩
    · apply maxCoord_le; intro ij; dsimp only; split_ifs <;> simp
    · unfold dot
      refine Finset.sum_congr rfl fun ij _ => ?_
      dsimp only
      split_ifs with h
      · rw [abs_of_nonneg h, mul_one]
      · rw [abs_of_neg (not_le.1 h)]; ring

/-- C57: the conjugate of a freshly constructed block norm has the same parameter in the other role, and so has the
conjugate of the conjugate. -/
theorem C57_conjugate_params (v : ℝ) (hv : 0 ≤ v) :
    (∃ s t u, Params.init (some v) none = .ok s ∧ s.conjugate = .ok t ∧ t.conjugate = .ok u ∧
      t.own.lagrange = none ∧ t.own.bound = some v ∧ u.own = s.own) ∧
    (∃ s t u, Params.init none (some v) = .ok s ∧ s.conjugate = .ok t ∧ t.conjugate = .ok u ∧
      t.own.lagrange = some v ∧ t.own.bound = none ∧ u.own = s.own) := by
  have h := not_lt.2 hv
  constructor
  · refine ⟨⟨⟨some v, none⟩, ⟨some v, none⟩⟩, ⟨⟨none, some v⟩, ⟨none, some v⟩⟩, ⟨⟨some v, none⟩, ⟨some v, none⟩⟩, ?_⟩
    simp [Params.init, Params.conjugate, AtomState.init, h]
  · refine ⟨⟨⟨none, some v⟩, ⟨none, some v⟩⟩, ⟨⟨some v, none⟩, ⟨some v, none⟩⟩, ⟨⟨none, some v⟩, ⟨none, some v⟩⟩, ?_⟩
    simp [Params.init, Params.conjugate, AtomState.init, h]

/-! ### what does not hold -/

/-- C57 fails: after `penalty.lagrange = 2` the conjugate of a penalty constructed with `lagrange=1` still has
`bound=1`. -/
theorem C57_conjugate_stale_fails :
    ∃ s s' t : Params, Params.init (some 1) none = .ok s ∧ s.setLagrange 2 = .ok s' ∧ s'.own.lagrange = some 2 ∧
      s'.conjugate = .ok t ∧ t.own.bound = some 1 := by
  refine ⟨⟨⟨some 1, none⟩, ⟨some 1, none⟩⟩, ⟨⟨some 2, none⟩, ⟨some 1, none⟩⟩, ⟨⟨none, some 1⟩, ⟨none, some 1⟩⟩, ?_⟩
  have h : ¬ ((1:ℝ) < 0) := by norm_num
  refine ⟨by simp [Params.init, AtomState.init, h], by rfl, rfl, by simp [Params.init, Params.conjugate, AtomState.init, h], rfl⟩

/-- C57 fails on arguments with a zero row, whatever the parameters: `l1_l2.lagrange_prox`, `l1_l2.bound_prox` and
`linf_l2.lagrange_prox` return nan there. -/
theorem C57_zero_rows_fails (X : Mat (n + 1) p) (i : Fin (n + 1)) (hi : ∀ k, X (i, k) = 0) {L lam b : ℝ} (hL : 0 < L)
    (hl : 0 ≤ lam) (hb : 0 ≤ b) (j : Fin p) :
    L1L2.lagrangeProx X L lam (i, j) = none ∧ (∃ a, L1L2.boundProx X b = some a ∧ a (i, j) = none) ∧
      ∃ a, LinfL2.lagrangeProx X L lam = some a ∧ a (i, j) = none := by
  obtain ⟨P1, h1, _⟩ := C57_l1_l2_lagrange_prox_partial X hL hl
  obtain ⟨a2, P2, e2, h2, _⟩ := C57_l1_l2_bound_prox_partial X hb
  obtain ⟨a3, P3, e3, h3, _⟩ := C57_linf_l2_lagrange_prox_partial X hL hl
  refine ⟨by rw [h1 i j, if_pos hi], ⟨a2, e2, by rw [h2 i j, if_pos hi]⟩, ⟨a3, e3, by rw [h3 i j, if_pos hi]⟩⟩

/-- C57 fails for `linf_l2.bound_prox` with `bound = 0` and a zero row: nan instead of 0. -/
theorem C57_linf_l2_bound_zero_fails (X : Mat n p) (i : Fin n) (hi : ∀ k, X (i, k) = 0) (j : Fin p) :
    LinfL2.boundProx X 0 (i, j) = none := by
  unfold LinfL2.boundProx fdiv
  dsimp only
  rw [(rowNorm_eq_zero X i).2 hi]
  simp

/-- C57 fails for `block_sum.bound_prox`, which always returns 0: for every point of the ball except 0 this is not the
projection. -/
theorem C57_block_sum_bound_prox_fails (nrm : (Fin p → ℝ) → ℝ) (X : Mat n p) (b : ℝ)
    (hX : ∑ i, nrm (fun j => X (i, j)) ≤ b) (hne : X ≠ 0) :
    ∃ P, sumBoundProx X b = .ok P ∧ ¬ IsProj {z : Mat n p | ∑ i, nrm (fun j => z (i, j)) ≤ b} X P := by
  refine ⟨_, rfl, fun h => ?_⟩
  have h0 : (fun ij => 0 * X ij) = (0 : Mat n p) := by funext ij; simp
  rw [h0] at h
  have := h.2 X hX hne
  dsimp only at this
  rw [sqDist_self] at this
  exact absurd this (not_lt.2 (sqDist_nonneg _ _))

/-- C57 fails for `block_sum.constraint` in bound mode: it raises for every argument, whatever assignments to `lagrange`
and `bound` were made after construction. -/
theorem C57_block_sum_constraint_fails (b : ℝ) (s : Params) (hs : Params.init none (some b) = .ok s)
    (ops : List (AtomState.Op ℝ)) (values : Fin n → ℝ) : (s.run ops).sumConstraint values = none := by
  unfold Params.init AtomState.init at hs
  dsimp only at hs
  by_cases h : b < 0
  · simp [h] at hs
  · simp [h] at hs
    subst hs
    unfold Params.run Params.sumConstraint AtomState.resolveLagrange
    rfl

/-- C57: `block_max.constraint` in bound mode compares the largest row norm with the bound. -/
theorem C57_block_max_constraint (b : ℝ) (hb : 0 ≤ b) (values : Fin (n + 1) → ℝ) :
    ∃ s, Params.init none (some b) = .ok s ∧
      s.maxConstraint values = some (if maxCoord values ≤ b * (1 + 1 / 10 ^ 5) then 0 else ⊤) := by
  refine ⟨⟨⟨none, some b⟩, ⟨none, some b⟩⟩, ?_, ?_⟩
  · simp [Params.init, AtomState.init, not_lt.2 hb]
  · unfold Params.maxConstraint
    simp only [one_mul]
    rfl

/-- Non-vacuity: a matrix with a nonzero and a zero row. -/
example : ∃ X : Mat 2 2, (∃ k, X (0, k) ≠ 0) ∧ (∀ k, X (1, k) = 0) ∧ L1L2.lagrangeProx X 1 1 (0, 0) = some (12 / 5) ∧
    L1L2.lagrangeProx X 1 1 (1, 0) = none := by
  have h5 : Real.sqrt ((3:ℝ) ^ 2 + 4 ^ 2) = 5 := by
    rw [show ((3:ℝ) ^ 2 + 4 ^ 2) = 5 ^ 2 by norm_num, Real.sqrt_sq (by norm_num)]
  refine ⟨fun ij => if ij.1 = 0 then (if ij.2 = 0 then 3 else 4) else 0, ⟨0, by simp⟩, by simp, ?_, ?_⟩
  · unfold L1L2.lagrangeProx rowNorm fdiv
    simp only [Fin.sum_univ_two]
    simp [h5]
    norm_num
  · unfold L1L2.lagrangeProx rowNorm fdiv
    simp

end Verif.Props
