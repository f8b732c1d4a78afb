import Verif.Lemmas.Gauge
import Verif.Props.C22_SparseGroup
import Mathlib.Tactic.NormNum

/-! # C50: dual gauges computed by bisection -/

set_option linter.unusedSectionVars false
set_option linter.unusedVariables false

namespace Verif.Props
open Verif.Model Verif.Lemmas Verif.Spec

variable {p q : ℕ}

/-- C50: the search itself.  If the membership test accepts every scale from the gauge `g` on, and accepts no scale much
below `g` (`g ≤ (1 + η) t + δ` for accepted `t`), the search ends and its answer is within relative tolerance
`τ = tol / (1 - tol/2)` of `g`, up to `η` and `δ`. -/
theorem C50_bisection (ins : ℝ → Bool) {g η δ tol : ℝ} (hη : 0 ≤ η) (hδ : 0 ≤ δ) (ht : 0 < tol) (ht' : tol ≤ 1 / 2)
    (hin : ∀ t, 0 < t → g ≤ t → ins t = true) (hout : ∀ t, 0 < t → ins t = true → g ≤ (1 + η) * t + δ) (m : ℕ) :
    ∃ N, ∀ fuel, N ≤ fuel → ∃ r, Gauge.gaugeDual ins tol m fuel = some r ∧
      GaugeAnswer g (tol / (1 - tol / 2)) η δ m r := by
  obtain ⟨N, hN⟩ := gaugeDual_spec ins ht ht' m
  refine ⟨N, fun fuel hf => ?_⟩
  obtain ⟨r, hr, h⟩ := hN fuel hf
  refine ⟨r, hr, ?_⟩
  have hno : ∀ t, 0 < t → ins t = false → t < g := fun t h0 h1 => by
    by_contra hc
    have := hin t h0 (not_lt.1 hc)
    rw [h1] at this; exact Bool.noConfusion this
  rcases h with ⟨rfl, h⟩ | ⟨rfl, h⟩ | ⟨v, rfl, l, u, hl, hlu, hil, hiu, hs, hv⟩
  · have := hout _ (by positivity) h
    show g ≤ (1 + η) / 2 ^ m + δ
    rwa [mul_one_div] at this
  · exact hno _ (by positivity) h
  · have h1 := hno l hl hil
    have h2 := hout u (by linarith) hiu
    have hd : 0 < 1 - tol / 2 := by linarith
    have hu : u ≤ (1 + tol / (1 - tol / 2)) * l := by
      have e : 1 + tol / (1 - tol / 2) = (1 + tol / 2) / (1 - tol / 2) := by
        rw [eq_div_iff hd.ne', add_mul, div_mul_cancel₀ _ hd.ne']; ring
      rw [e, div_mul_eq_mul_div, le_div_iff₀ hd]
      nlinarith
    have hτ : 0 ≤ tol / (1 - tol / 2) := by positivity
    set τ := tol / (1 - tol / 2)
    have hvl : l ≤ v ∧ v ≤ u := by rcases hv with rfl | rfl <;> constructor <;> linarith
    refine ⟨by linarith, ?_, ?_⟩
    · calc v ≤ u := hvl.2
        _ ≤ (1 + τ) * l := hu
        _ ≤ (1 + τ) * g := mul_le_mul_of_nonneg_left h1.le (by linarith)
    · have : u ≤ (1 + τ) * v := le_trans hu (mul_le_mul_of_nonneg_left hvl.1 (by linarith))
      have := mul_le_mul_of_nonneg_left this (by linarith : 0 ≤ 1 + η)
      linarith

/-- the hypotheses are met by an exact test of `3 ≤ t` -/
example : ∃ N, ∀ fuel, N ≤ fuel → ∃ r, Gauge.gaugeDual (fun t : ℝ => decide (3 ≤ t)) (1 / 10 ^ 10) 50 fuel = some r ∧
    GaugeAnswer 3 (1 / 10 ^ 10 / (1 - 1 / 10 ^ 10 / 2)) 0 0 50 r :=
  C50_bisection _ le_rfl le_rfl (by norm_num) (by norm_num) (fun t _ h => by simpa using h)
    (fun t _ h => by simpa using h) 50

/-- the sparse group LASSO penalty -/
private noncomputable abbrev pen (grp : Fin p → Fin q) (a : Fin p → ℝ) (w : Fin q → ℝ) (z : Fin p → ℝ) : ℝ :=
  ∑ i, a i * |z i| + groupNorm grp w z

private lemma pen_hom (grp : Fin p → Fin q) (a : Fin p → ℝ) (w : Fin q → ℝ) (c : ℝ) (z : Fin p → ℝ) (hc : 0 ≤ c) :
    pen grp a w (fun i => c * z i) = c * pen grp a w z := by
  unfold pen groupNorm
  rw [mul_add, Finset.mul_sum, Finset.mul_sum]
  congr 1
  · exact Finset.sum_congr rfl fun i _ => by rw [abs_mul, abs_of_nonneg hc]; ring
  · refine Finset.sum_congr rfl fun j _ => ?_
    have : blockNorm grp (fun i => c * z i) j = c * blockNorm grp z j := by
      unfold blockNorm
      have : ∑ i, (if grp i = j then (c * z i) ^ 2 else 0) = c ^ 2 * ∑ i, (if grp i = j then z i ^ 2 else 0) := by
        rw [Finset.mul_sum]; exact Finset.sum_congr rfl fun i _ => by split_ifs <;> ring
      rw [this, Real.sqrt_mul (sq_nonneg c), Real.sqrt_sq hc]
    rw [this]; ring

private lemma sq_blockNorm (grp : Fin p → Fin q) (z : Fin p → ℝ) (j : Fin q) :
    blockNorm grp z j ^ 2 = ∑ i, if grp i = j then z i ^ 2 else 0 :=
  Real.sq_sqrt (Finset.sum_nonneg fun i _ => by split_ifs <;> positivity)

private lemma blockNorm_le (grp : Fin p → Fin q) (z : Fin p → ℝ) (j : Fin q) : blockNorm grp z j ≤ npNorm z :=
  Real.sqrt_le_sqrt (Finset.sum_le_sum fun i _ => by split_ifs <;> nlinarith [sq_nonneg (z i)])

private lemma abs_le_npNorm {ι : Type*} [Fintype ι] (z : ι → ℝ) (i : ι) : |z i| ≤ npNorm z := by
  rw [← Real.sqrt_sq_eq_abs]
  exact Real.sqrt_le_sqrt (Finset.single_le_sum (f := fun i => z i ^ 2) (fun i _ => sq_nonneg _) (Finset.mem_univ i))

private lemma pen_lower {grp : Fin p → Fin q} {a : Fin p → ℝ} {w : Fin q → ℝ} (ha : ∀ i, 0 ≤ a i) (hw : ∀ j, 0 ≤ w j)
    {ρ : ℝ} (hρ : ∀ i, ρ ≤ a i + w (grp i)) (z : Fin p → ℝ) : ρ * npNorm z ≤ pen grp a w z := by
  have hp : 0 ≤ pen grp a w z := add_nonneg (Finset.sum_nonneg fun i _ => mul_nonneg (ha i) (abs_nonneg _))
    (Finset.sum_nonneg fun j _ => mul_nonneg (hw j) (Real.sqrt_nonneg _))
  rcases (npNorm_nonneg z).eq_or_lt with h | h
  · rw [← h, mul_zero]; exact hp
  · refine le_of_mul_le_mul_right ?_ h
    have e1 : ρ * npNorm z * npNorm z = ∑ i, ρ * z i ^ 2 := by
      rw [mul_assoc, ← sq, sq_npNorm, Finset.mul_sum]
    have e2 : ∑ i, w (grp i) * z i ^ 2 = ∑ j, w j * blockNorm grp z j ^ 2 := by
      simp only [sq_blockNorm, Finset.mul_sum]
      rw [Finset.sum_comm]
      refine Finset.sum_congr rfl fun i _ => ?_
      simp
    calc ρ * npNorm z * npNorm z = ∑ i, ρ * z i ^ 2 := e1
      _ ≤ ∑ i, (a i + w (grp i)) * z i ^ 2 := Finset.sum_le_sum fun i _ => mul_le_mul_of_nonneg_right (hρ i) (sq_nonneg _)
      _ = ∑ i, a i * |z i| * |z i| + ∑ j, w j * blockNorm grp z j ^ 2 := by
        rw [← e2, ← Finset.sum_add_distrib]
        exact Finset.sum_congr rfl fun i _ => by rw [mul_assoc, abs_mul_abs_self]; ring
      _ ≤ ∑ i, a i * |z i| * npNorm z + ∑ j, w j * blockNorm grp z j * npNorm z := by
        refine add_le_add (Finset.sum_le_sum fun i _ => ?_) (Finset.sum_le_sum fun j _ => ?_)
        · exact mul_le_mul_of_nonneg_left (abs_le_npNorm z i) (mul_nonneg (ha i) (abs_nonneg _))
        · rw [sq, ← mul_assoc]
          exact mul_le_mul_of_nonneg_left (blockNorm_le grp z j) (mul_nonneg (hw j) (Real.sqrt_nonneg _))
      _ = pen grp a w z * npNorm z := by
        unfold pen groupNorm; rw [add_mul, Finset.sum_mul, Finset.sum_mul]

private lemma pen_upper {grp : Fin p → Fin q} {a : Fin p → ℝ} {w : Fin q → ℝ} (ha : ∀ i, 0 ≤ a i) (hw : ∀ j, 0 ≤ w j)
    (z : Fin p → ℝ) : pen grp a w z ≤ (∑ i, a i + ∑ j, w j) * npNorm z := by
  unfold pen groupNorm
  rw [add_mul, Finset.sum_mul, Finset.sum_mul]
  exact add_le_add (Finset.sum_le_sum fun i _ => mul_le_mul_of_nonneg_left (abs_le_npNorm z i) (ha i))
    (Finset.sum_le_sum fun j _ => mul_le_mul_of_nonneg_left (blockNorm_le grp z j) (hw j))

private lemma block_holder' (grp : Fin p → Fin q) (x z : Fin p → ℝ) :
    ∑ i, x i * z i ≤ ∑ j, blockNorm grp x j * blockNorm grp z j := by
  refine le_trans (block_holder grp x z) (le_of_eq (Finset.sum_congr rfl fun j _ => ?_))
  rw [blockNorm_eq, blockNorm_eq]

/-- C50 (existence): the dual norm of the penalty is finite as soon as every feature is penalised. -/
theorem C50_dual_norm_exists (grp : Fin p → Fin q) (a : Fin p → ℝ) (ha : ∀ i, 0 ≤ a i) (w : Fin q → ℝ)
    (hw : ∀ j, 0 ≤ w j) (hpos : ∀ i, 0 < a i + w (grp i)) (x : Fin p → ℝ) :
    ∃ g, IsDualNorm (fun z => ∑ i, a i * |z i| + groupNorm grp w z) x g := by
  obtain ⟨ρ, hρ, h⟩ : ∃ ρ : ℝ, 0 < ρ ∧ ∀ i, ρ ≤ a i + w (grp i) := by
    rcases isEmpty_or_nonempty (Fin p) with h | h
    · exact ⟨1, one_pos, fun i => h.elim i⟩
    · obtain ⟨i0, _, hi0⟩ := Finset.exists_min_image Finset.univ (fun i => a i + w (grp i)) Finset.univ_nonempty
      exact ⟨_, hpos i0, fun i => hi0 i (Finset.mem_univ i)⟩
  exact dualNorm_exists (pen_hom grp a w) hρ (pen_lower ha hw h) x

/-- C50 (partial): `gauge_function_dual` of a sparse group LASSO atom, i.e. `sparse_group_lasso_dual.seminorm` with
lagrange 1, for every point: the search ends, and its answer is within relative tolerance `tol / (1 - tol/2)` of the dual
norm `sup {⟨x,z⟩ : Σ a_i|z_i| + Σ w_g‖z[g]‖ ≤ 1}` — up to the factor `1 + η` the tolerance `1e-7` of `inside_set` costs,
which is what is missing from the full property.  `ρ` is any lower bound of the total weight of a feature. -/
theorem C50_sparse_group_partial (grp : Fin p → Fin q) (a : Fin p → ℝ) (ha : ∀ i, 0 ≤ a i) (w : Fin q → ℝ)
    (hw : ∀ j, 0 ≤ w j) {ρ : ℝ} (hρ : 0 < ρ) (hpos : ∀ i, ρ ≤ a i + w (grp i)) (x : Fin p → ℝ) {g : ℝ}
    (hg : IsDualNorm (fun z => ∑ i, a i * |z i| + groupNorm grp w z) x g) {tol : ℝ} (ht : 0 < tol)
    (ht' : tol ≤ 1 / 2) (m : ℕ) :
    ∃ N, ∀ fuel, N ≤ fuel → ∃ r, Gauge.sparseGroup grp a w x tol m fuel = some r ∧
      GaugeAnswer g (tol / (1 - tol / 2)) (max 1 (∑ i, a i + ∑ j, w j) / ((10 ^ 7 - 1) * ρ)) 0 m r := by
  classical
  unfold Gauge.sparseGroup
  set R := ∑ i, a i + ∑ j, w j with hR
  have hm1 : (1:ℝ) ≤ max 1 R := le_max_left _ _
  have hη : 0 ≤ max 1 R / ((10 ^ 7 - 1) * ρ) := by
    apply div_nonneg (by linarith); apply mul_nonneg (by norm_num) hρ.le
  have hlow := pen_lower (grp := grp) ha hw hpos
  refine C50_bisection _ hη le_rfl ht ht' (fun t h0 hgt => ?_) (fun t h0 hin => ?_) m
  · -- in the dual ball the proximal point is zero
    apply decide_eq_true
    have hb := (dualNorm_le_iff (pen_hom grp a w) hρ hlow hg h0).1 hgt
    set y : Fin p → ℝ := fun i => x i / t
    have hprox := C22_lagrange_prox grp a ha w hw y (L := 1) (lam := 1) one_pos zero_le_one
    set P := SparseGroup.lagrangeProx grp a w y 1 1 with hP
    have hP0 : npNorm P = 0 := by
      by_contra hne
      have hpp : 0 < npNorm P := lt_of_le_of_ne (npNorm_nonneg P) (Ne.symm hne)
      have hz : (fun _ => (0:ℝ)) ≠ P := fun h => hne (by rw [← h, npNorm_zero])
      have h1 := hprox.2 (fun _ => 0) (Set.mem_univ _) hz
      have h2 := hb P
      have h3 : groupNorm grp w (fun _ => (0:ℝ)) = 0 := by
        unfold groupNorm blockNorm; simp
      have e : sqDist P y = npNorm P ^ 2 - 2 * dot y P + sqDist (fun _ => 0) y := by
        rw [sq_npNorm]; unfold sqDist dot
        rw [Finset.mul_sum, ← Finset.sum_sub_distrib, ← Finset.sum_add_distrib]
        exact Finset.sum_congr rfl fun i _ => by ring
      simp only [e, abs_zero, mul_zero, Finset.sum_const_zero, h3] at h1
      unfold pen at h2
      nlinarith
    unfold SparseGroup.insideSet
    have e : (fun i => y i - SparseGroup.lagrangeProx grp a w y 1 1 i - y i) = fun i => (-1) * P i := by
      funext i; rw [← hP]; ring
    rw [e, npNorm_smul, hP0, mul_zero, not_lt]
    exact mul_nonneg (le_trans zero_le_one (le_max_right _ _)) (by norm_num)
  · replace hin := of_decide_eq_true hin
    set y : Fin p → ℝ := fun i => x i / t with hy
    have hproj := (C22_dual_bound_prox grp a ha w hw y (b := 1) zero_le_one).1
    set P := SparseGroup.lagrangeProx grp a w y 1 1 with hP
    unfold SparseGroup.insideSet at hin
    have e : (fun i => y i - SparseGroup.lagrangeProx grp a w y 1 1 i - y i) = fun i => (-1) * P i := by
      funext i; rw [← hP]; ring
    rw [e, npNorm_smul, abs_neg, abs_one, one_mul, not_lt] at hin
    -- the projection `y - P` is in the dual ball
    obtain ⟨u, v, hs, hu, hv⟩ := hproj
    have hs' : ∀ i, y i - P i = u i + v i := hs
    have hball : ∀ z, ∑ i, (y i - P i) * z i ≤ pen grp a w z := by
      intro z
      have h1 : ∑ i, u i * z i ≤ ∑ i, a i * |z i| := Finset.sum_le_sum fun i _ => by
        calc u i * z i ≤ |u i| * |z i| := by rw [← abs_mul]; exact le_abs_self _
          _ ≤ a i * |z i| := mul_le_mul_of_nonneg_right (by simpa using hu i) (abs_nonneg _)
      have h2 : ∑ i, v i * z i ≤ groupNorm grp w z := by
        refine le_trans (block_holder' grp v z) (Finset.sum_le_sum fun j _ => ?_)
        exact mul_le_mul_of_nonneg_right (by simpa using hv j) (Real.sqrt_nonneg _)
      have : ∑ i, (y i - P i) * z i = ∑ i, u i * z i + ∑ i, v i * z i := by
        rw [← Finset.sum_add_distrib]; exact Finset.sum_congr rfl fun i _ => by rw [hs']; ring
      rw [this]; exact add_le_add h1 h2
    -- its norm is at most R
    have hD : npNorm (fun i => y i - P i) ≤ R := by
      rcases (npNorm_nonneg fun i => y i - P i).eq_or_lt with h | h
      · rw [← h]; exact add_nonneg (Finset.sum_nonneg fun i _ => ha i) (Finset.sum_nonneg fun j _ => hw j)
      · refine le_of_mul_le_mul_right ?_ h
        have h1 := hball fun i => y i - P i
        have h2 := pen_upper (grp := grp) ha hw fun i => y i - P i
        have h3 := sq_npNorm fun i => y i - P i
        have h4 : ∑ i, (y i - P i) * (y i - P i) = ∑ i, (y i - P i) ^ 2 := Finset.sum_congr rfl fun i _ => by ring
        nlinarith
    have hy1 : npNorm y ≤ R + npNorm P := by
      rcases (npNorm_nonneg y).eq_or_lt with h | h
      · rw [← h]; exact add_nonneg (le_trans (npNorm_nonneg _) hD) (npNorm_nonneg P)
      · refine le_of_mul_le_mul_right ?_ h
        have h1 := cauchy (fun i => y i - P i) y
        have h2 := cauchy P y
        have h3 : npNorm y * npNorm y = ∑ i, (y i - P i) * y i + ∑ i, P i * y i := by
          rw [← sq, sq_npNorm, ← Finset.sum_add_distrib]; exact Finset.sum_congr rfl fun i _ => by ring
        nlinarith
    have hPn : npNorm P ≤ max 1 R / (10 ^ 7 - 1) := by
      rw [le_div_iff₀ (by norm_num)]
      have h1 : max (npNorm y) 1 ≤ max 1 R + npNorm P := max_le (by linarith [le_max_right 1 R]) (by
        linarith [npNorm_nonneg P])
      nlinarith
    -- conclude through the scaled ball
    have hη1 : 0 < 1 + max 1 R / ((10 ^ 7 - 1) * ρ) := by linarith
    rw [add_zero]
    rw [dualNorm_le_iff (pen_hom grp a w) hρ hlow hg (mul_pos hη1 h0)]
    intro z
    have h1 := hball z
    have h2 := cauchy P z
    have h3 : dot y z = ∑ i, (y i - P i) * z i + ∑ i, P i * z i := by
      unfold dot; rw [← Finset.sum_add_distrib]; exact Finset.sum_congr rfl fun i _ => by ring
    have h4 : npNorm P * npNorm z ≤ max 1 R / ((10 ^ 7 - 1) * ρ) * pen grp a w z := by
      calc npNorm P * npNorm z ≤ max 1 R / (10 ^ 7 - 1) * npNorm z := mul_le_mul_of_nonneg_right hPn (npNorm_nonneg z)
        _ = max 1 R / ((10 ^ 7 - 1) * ρ) * (ρ * npNorm z) := by field_simp
        _ ≤ _ := mul_le_mul_of_nonneg_left (hlow z) hη
    have h5 : dot (fun i => x i / ((1 + max 1 R / ((10 ^ 7 - 1) * ρ)) * t)) z =
        dot y z / (1 + max 1 R / ((10 ^ 7 - 1) * ρ)) := by
      unfold dot; rw [Finset.sum_div, hy]
      exact Finset.sum_congr rfl fun i _ => by
        show x i / (_ * t) * z i = x i / t * z i / _
        rw [mul_comm _ t, ← div_div, div_mul_eq_mul_div]
    rw [h5, div_le_iff₀ hη1]
    show _ ≤ pen grp a w z * _
    linarith

/-- hypotheses met: two features in one group, one of them without lasso weight; `ρ = 1`, `R = 2` -/
example : ∃ g : ℝ, ∃ N, ∀ fuel, N ≤ fuel → ∃ r,
    Gauge.sparseGroup (![0, 0] : Fin 2 → Fin 1) ![0, 1] ![1] ![3, 4] (1 / 10 ^ 10) 50 fuel = some r ∧
      GaugeAnswer g (1 / 10 ^ 10 / (1 - 1 / 10 ^ 10 / 2)) (max 1 (∑ i, (![0, 1] : Fin 2 → ℝ) i + ∑ j, (![1] : Fin 1 → ℝ) j) /
        ((10 ^ 7 - 1) * 1)) 0 50 r := by
  have ha : ∀ i, 0 ≤ (![0, 1] : Fin 2 → ℝ) i := by intro i; fin_cases i <;> simp
  have hw : ∀ j, 0 ≤ (![1] : Fin 1 → ℝ) j := by intro j; fin_cases j; simp
  have hpos : ∀ i, 1 ≤ (![0, 1] : Fin 2 → ℝ) i + (![1] : Fin 1 → ℝ) ((![0, 0] : Fin 2 → Fin 1) i) := by
    intro i; fin_cases i <;> norm_num
  obtain ⟨g, hg⟩ := C50_dual_norm_exists (![0, 0] : Fin 2 → Fin 1) ![0, 1] ha ![1] hw
    (fun i => lt_of_lt_of_le one_pos (hpos i)) ![3, 4]
  exact ⟨g, C50_sparse_group_partial _ _ ha _ hw one_pos hpos _ hg (by norm_num) (by norm_num) 50⟩

private lemma one_dim (t : ℝ) (ht : 0 < t) :
    SparseGroup.insideSet (![0] : Fin 1 → Fin 1) ![1] ![0] (fun i => (![1] : Fin 1 → ℝ) i / t) ↔ 1 - 1 / 10 ^ 7 ≤ t := by
  have hp : SparseGroup.lagrangeProx (![0] : Fin 1 → Fin 1) ![1] ![0] (fun i => (![1] : Fin 1 → ℝ) i / t) 1 1 =
      fun _ => max (1 / t - 1) 0 := by
    have hs : SparseGroup.softThr ![1] (fun i => (![1] : Fin 1 → ℝ) i / t) 1 1 = fun _ => max (1 / t - 1) 0 := by
      funext i
      have h0 : 0 < 1 / t := by positivity
      fin_cases i
      simp [SparseGroup.softThr, npSign, abs_of_pos ht, ht]
    unfold SparseGroup.lagrangeProx
    rw [hs]
    funext i
    fin_cases i
    simp only [GroupLasso.lagrangeProx, factor, normsCython_eq, npNorm, rk, GroupLasso.kind]
    rcases (le_max_right (1 / t - 1) 0).eq_or_lt with h | h
    · rw [← h]; simp
    · simp
  unfold SparseGroup.insideSet
  rw [hp, not_lt]
  have e1 : npNorm (fun i : Fin 1 => (![1] : Fin 1 → ℝ) i / t - (fun _ : Fin 1 => max (1 / t - 1) 0) i -
      (![1] : Fin 1 → ℝ) i / t) = max (1 / t - 1) 0 := by
    unfold npNorm
    rw [Fin.sum_univ_one]
    dsimp only
    rw [sub_sub_cancel_left, neg_sq, Real.sqrt_sq (le_max_right _ _)]
  have e2 : npNorm (fun i : Fin 1 => (![1] : Fin 1 → ℝ) i / t) = 1 / t := by
    unfold npNorm
    rw [Fin.sum_univ_one]
    exact Real.sqrt_sq (x := 1 / t) (by positivity)
  rw [e1, e2]
  rcases le_total t 1 with h | h
  · have h1 : 1 ≤ 1 / t := by rw [le_div_iff₀ ht]; linarith
    rw [max_eq_left (by linarith), max_eq_left h1]
    constructor
    · intro h2
      have : 1 / t * (1 - 1 / 10 ^ 7) ≤ 1 := by linarith
      rw [div_mul_eq_mul_div, div_le_one ht] at this
      linarith
    · intro h2
      have : 1 / t * (1 - 1 / 10 ^ 7) ≤ 1 := by rw [div_mul_eq_mul_div, div_le_one ht]; linarith
      linarith
  · have h1 : 1 / t ≤ 1 := by rw [div_le_one ht]; exact h
    rw [max_eq_right (by linarith), max_eq_right h1]
    constructor
    · intro _; linarith [show (0:ℝ) < 1 / 10 ^ 7 by norm_num]
    · intro _; norm_num

/-- C50 fails as stated: for one feature with lasso weight 1, no group weight and the point 1, the dual norm is 1, and
`gauge_function_dual` with its default `tol=1e-10` returns a number below `1 - 9e-8`: the tolerance of `inside_set` is a
thousand times larger than the one asked of the gauge. -/
theorem C50_tolerance_fails :
    IsDualNorm (fun z => ∑ i, (![1] : Fin 1 → ℝ) i * |z i| + groupNorm (![0] : Fin 1 → Fin 1) ![0] z) ![1] 1 ∧
    ∃ N, ∀ fuel, N ≤ fuel → ∃ r, Gauge.sparseGroup (![0] : Fin 1 → Fin 1) ![1] ![0] ![1] (1 / 10 ^ 10) 50 fuel =
      some (.value r) ∧ r < 1 - 9 / 10 ^ 8 := by
  classical
  constructor
  · constructor
    · rintro s ⟨z, hz, rfl⟩
      simp [groupNorm] at hz
      simpa [dot] using le_trans (le_abs_self _) hz
    · intro b hb
      exact hb ⟨![1], by simp [groupNorm], by simp [dot]⟩
  · obtain ⟨N, hN⟩ := C50_bisection
      (fun t => decide (SparseGroup.insideSet (![0] : Fin 1 → Fin 1) ![1] ![0] (fun i => (![1] : Fin 1 → ℝ) i / t)))
      (g := 1 - 1 / 10 ^ 7) (η := 0) (δ := 0) (tol := 1 / 10 ^ 10) le_rfl le_rfl (by norm_num) (by norm_num)
      (fun t h0 h => decide_eq_true ((one_dim t h0).2 h))
      (fun t h0 h => by have := (one_dim t h0).1 (of_decide_eq_true h); linarith) 50
    refine ⟨N, fun fuel hf => ?_⟩
    obtain ⟨r, hr, h⟩ := hN fuel hf
    cases r with
    | zero => exact absurd h (by simp only [GaugeAnswer]; norm_num)
    | inf => exact absurd h (by simp only [GaugeAnswer]; norm_num)
    | unbound => exact h.elim
    | assertion => exact h.elim
    | value r =>
      refine ⟨r, hr, lt_of_le_of_lt h.2.1 (by norm_num)⟩

/-- C50: the search behind `sparse_group_lasso_dual.terms` (one group, `lasso` weights and a group weight `w`): its answer
approximates the dual norm of `Σ a_i|z_i| + w‖z‖`, with relative tolerance `tol / (1 - tol/2)` and the factor
`1 + insideTol / ρ` that the tolerance added to the group weight costs. -/
theorem C50_strong_terms_partial {ι : Type*} [Fintype ι] (a : ι → ℝ) (ha : ∀ i, 0 ≤ a i) {w : ℝ} (hw : 0 ≤ w)
    {ρ : ℝ} (hρ : 0 < ρ) (hpos : ∀ i, ρ ≤ a i + w) (x : ι → ℝ) {g : ℝ}
    (hg : IsDualNorm (fun z => ∑ i, a i * |z i| + w * Real.sqrt (∑ i, z i ^ 2)) x g) {insideTol tol : ℝ}
    (hi : 0 ≤ insideTol) (ht : 0 < tol) (ht' : tol ≤ 1 / 2) (m : ℕ) :
    ∃ N, ∀ fuel, N ≤ fuel → ∃ r, Gauge.strong x a w insideTol tol m fuel = some r ∧
      GaugeAnswer g (tol / (1 - tol / 2)) (insideTol / ρ) 0 m r := by
  classical
  unfold Gauge.strong
  have hom : ∀ (c : ℝ) (z : ι → ℝ), 0 ≤ c → ∑ i, a i * |c * z i| + w * npNorm (fun i => c * z i) =
      c * (∑ i, a i * |z i| + w * npNorm z) := by
    intro c z hc
    rw [npNorm_smul, mul_add, Finset.mul_sum, abs_of_nonneg hc]
    congr 1
    · exact Finset.sum_congr rfl fun i _ => by rw [abs_mul, abs_of_nonneg hc]; ring
    · ring
  have hlow : ∀ z : ι → ℝ, ρ * npNorm z ≤ ∑ i, a i * |z i| + w * npNorm z := by
    intro z
    rcases (npNorm_nonneg z).eq_or_lt with h | h
    · rw [← h, mul_zero, mul_zero, add_zero]; exact Finset.sum_nonneg fun i _ => mul_nonneg (ha i) (abs_nonneg _)
    · refine le_of_mul_le_mul_right ?_ h
      have e1 : ρ * npNorm z * npNorm z = ∑ i, ρ * z i ^ 2 := by
        rw [mul_assoc, ← sq, sq_npNorm, Finset.mul_sum]
      have e2 : w * npNorm z * npNorm z = ∑ i, w * z i ^ 2 := by
        rw [mul_assoc, ← sq, sq_npNorm, Finset.mul_sum]
      rw [e1, add_mul, e2, Finset.sum_mul, ← Finset.sum_add_distrib]
      refine Finset.sum_le_sum fun i _ => ?_
      have h1 : a i * |z i| * |z i| ≤ a i * |z i| * npNorm z :=
        mul_le_mul_of_nonneg_left (abs_le_npNorm z i) (mul_nonneg (ha i) (abs_nonneg _))
      rw [mul_assoc, abs_mul_abs_self] at h1
      nlinarith [hpos i, sq_nonneg (z i)]
  have hη : 0 ≤ insideTol / ρ := div_nonneg hi hρ.le
  refine C50_bisection _ hη le_rfl ht ht' (fun t h0 hgt => ?_) (fun t h0 hin => ?_) m
  · apply decide_eq_true
    have hb := (dualNorm_le_iff (h := fun z => ∑ i, a i * |z i| + w * npNorm z) hom hρ hlow hg h0).1 hgt
    unfold Gauge.insideStrong
    -- test against the thresholded point itself
    set s : ι → ℝ := fun i => max (|x i| - t * a i) 0 with hs
    have hs0 : ∀ i, 0 ≤ s i := fun i => le_max_right _ _
    rcases (npNorm_nonneg s).eq_or_lt with h | h
    · rw [← h]; exact mul_nonneg h0.le (by linarith)
    · have h1 := hb fun i => if 0 ≤ x i then s i else - s i
      have e1 : dot (fun i => x i / t) (fun i => if 0 ≤ x i then s i else - s i) = ∑ i, |x i| * s i / t := by
        unfold dot
        refine Finset.sum_congr rfl fun i _ => ?_
        dsimp only
        split_ifs with hx
        · rw [abs_of_nonneg hx]; ring
        · rw [abs_of_neg (not_le.1 hx)]; ring
      have e2 : npNorm (fun i => if 0 ≤ x i then s i else - s i) = npNorm s := by
        unfold npNorm
        congr 1
        exact Finset.sum_congr rfl fun i _ => by dsimp only; split_ifs <;> ring
      have e3 : ∀ i, |if 0 ≤ x i then s i else - s i| = s i := fun i => by
        split_ifs
        · exact abs_of_nonneg (hs0 i)
        · rw [abs_neg]; exact abs_of_nonneg (hs0 i)
      simp only [e1, e2, e3] at h1
      have e4 : ∑ i, |x i| * s i / t = ∑ i, a i * s i + npNorm s ^ 2 / t := by
        rw [sq_npNorm, Finset.sum_div, ← Finset.sum_add_distrib]
        refine Finset.sum_congr rfl fun i _ => ?_
        rcases le_total (|x i| - t * a i) 0 with hc | hc
        · have : s i = 0 := max_eq_right hc
          rw [this]; simp
        · have : s i = |x i| - t * a i := max_eq_left hc
          have hx : |x i| = s i + t * a i := by linarith
          rw [hx]; field_simp; ring
      rw [e4] at h1
      have h2 : npNorm s * npNorm s ≤ w * t * npNorm s := by
        have : npNorm s ^ 2 / t ≤ w * npNorm s := by linarith
        rw [div_le_iff₀ h0] at this; nlinarith
      have h3 := le_of_mul_le_mul_right h2 h
      nlinarith
  · replace hin := of_decide_eq_true hin
    unfold Gauge.insideStrong at hin
    have hη1 : 0 < 1 + insideTol / ρ := by linarith
    rw [add_zero, dualNorm_le_iff (h := fun z => ∑ i, a i * |z i| + w * npNorm z) hom hρ hlow hg (mul_pos hη1 h0)]
    intro z
    set s : ι → ℝ := fun i => max (|x i| - t * a i) 0 with hs
    have hs0 : ∀ i, 0 ≤ s i := fun i => le_max_right _ _
    have h1 : ∑ i, x i * z i ≤ t * ∑ i, a i * |z i| + npNorm s * npNorm z := by
      have e0 : npNorm (fun i => |z i|) = npNorm z := by
        unfold npNorm; congr 1; exact Finset.sum_congr rfl fun i _ => sq_abs _
      have h2 := cauchy s fun i => |z i|
      rw [e0] at h2
      refine le_trans ?_ (add_le_add le_rfl h2)
      rw [Finset.mul_sum, ← Finset.sum_add_distrib]
      refine Finset.sum_le_sum fun i _ => ?_
      have h3 : |x i| ≤ t * a i + s i := by linarith [le_max_left (|x i| - t * a i) 0]
      calc x i * z i ≤ |x i| * |z i| := by rw [← abs_mul]; exact le_abs_self _
        _ ≤ (t * a i + s i) * |z i| := mul_le_mul_of_nonneg_right h3 (abs_nonneg _)
        _ = _ := by ring
    have h2 : npNorm s * npNorm z ≤ t * (w + insideTol) * npNorm z := mul_le_mul_of_nonneg_right hin (npNorm_nonneg z)
    have h3 : insideTol * npNorm z ≤ insideTol / ρ * (∑ i, a i * |z i| + w * npNorm z) := by
      calc insideTol * npNorm z = insideTol / ρ * (ρ * npNorm z) := by field_simp
        _ ≤ _ := mul_le_mul_of_nonneg_left (hlow z) hη
    have h4 : dot (fun i => x i / ((1 + insideTol / ρ) * t)) z = (∑ i, x i * z i) / ((1 + insideTol / ρ) * t) := by
      unfold dot; rw [Finset.sum_div]; exact Finset.sum_congr rfl fun i _ => by ring
    rw [h4, div_le_iff₀ (mul_pos hη1 h0)]
    have h5 := mul_le_mul_of_nonneg_left h3 h0.le
    show _ ≤ (∑ i, a i * |z i| + w * npNorm z) * _
    nlinarith

/-- hypotheses met: the first group of the docstring example of `terms`, `arg = [2, 4]`, unit lasso weights and group
weight `√2`; `ρ = 1` -/
example : ∃ g : ℝ, ∃ N, ∀ fuel, N ≤ fuel → ∃ r,
    Gauge.strong (![2, 4] : Fin 2 → ℝ) ![1, 1] (Real.sqrt 2) (1 / 10 ^ 5) (1 / 10 ^ 6) 50 fuel = some r ∧
      GaugeAnswer g (1 / 10 ^ 6 / (1 - 1 / 10 ^ 6 / 2)) (1 / 10 ^ 5 / 1) 0 50 r := by
  have ha : ∀ i, 0 ≤ (![1, 1] : Fin 2 → ℝ) i := by intro i; fin_cases i <;> simp
  have hpos : ∀ i, 1 ≤ (![1, 1] : Fin 2 → ℝ) i + Real.sqrt 2 := by
    intro i; have := Real.sqrt_nonneg 2; fin_cases i <;> simp
  obtain ⟨g, hg⟩ := dualNorm_exists (ι := Fin 2)
    (h := fun z => ∑ i, (![1, 1] : Fin 2 → ℝ) i * |z i| + Real.sqrt 2 * Real.sqrt (∑ i, z i ^ 2)) (ρ := 1)
    (fun c z hc => by
      have := npNorm_smul c z
      unfold npNorm at this
      simp only [this, mul_add, Finset.mul_sum, abs_of_nonneg hc, abs_mul]
      congr 1
      · exact Finset.sum_congr rfl fun i _ => by ring
      · ring) one_pos
    (fun z => by
      have h1 : npNorm z ≤ Real.sqrt 2 * Real.sqrt (∑ i, z i ^ 2) := by
        have : (1:ℝ) ≤ Real.sqrt 2 := by rw [Real.le_sqrt' one_pos]; norm_num
        have h0 := npNorm_nonneg z
        unfold npNorm at h0 ⊢
        nlinarith
      have h2 : 0 ≤ ∑ i, (![1, 1] : Fin 2 → ℝ) i * |z i| := Finset.sum_nonneg fun i _ => mul_nonneg (ha i) (abs_nonneg _)
      linarith) ![2, 4]
  exact ⟨g, C50_strong_terms_partial _ ha (Real.sqrt_nonneg 2) one_pos hpos _ hg (by norm_num) (by norm_num)
    (by norm_num) 50⟩

end Verif.Props
