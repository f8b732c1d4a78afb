import Verif.Model.PowerL
import Verif.Props.C24_Affine
import Mathlib.Algebra.Order.Chebyshev
import Mathlib.Algebra.BigOperators.Field

/-!
# C52: `power_L`
-/

set_option linter.unusedSectionVars false
set_option linter.unusedVariables false

namespace Verif.Props
open Verif.Model Verif.Spec

variable {m k : ℕ}

private lemma npNorm_nonneg {n : ℕ} (x : Fin n → ℝ) : 0 ≤ npNorm x := Real.sqrt_nonneg _

private lemma npNorm_sq {n : ℕ} (x : Fin n → ℝ) : npNorm x ^ 2 = ∑ i, x i ^ 2 :=
  Real.sq_sqrt (Finset.sum_nonneg fun i _ => sq_nonneg _)

private lemma dot_le {n : ℕ} (x y : Fin n → ℝ) : ∑ i, x i * y i ≤ npNorm x * npNorm y := by
  apply le_of_sq_le_sq _ (mul_nonneg (npNorm_nonneg x) (npNorm_nonneg y)) |> fun h => h
  rw [mul_pow, npNorm_sq, npNorm_sq]
  exact Finset.sum_mul_sq_le_sq_mul_sq _ _ _

private lemma npNorm_div {n : ℕ} (x : Fin n → ℝ) (c : ℝ) (hc : 0 < c) : npNorm (fun i => x i / c) = npNorm x / c := by
  have h : npNorm (fun i => x i / c) ^ 2 = (npNorm x / c) ^ 2 := by
    rw [npNorm_sq, div_pow, npNorm_sq, Finset.sum_div]
    exact Finset.sum_congr rfl fun i _ => by rw [div_pow]
  exact (sq_eq_sq₀ (npNorm_nonneg _) (div_nonneg (npNorm_nonneg _) hc.le)).1 h

private lemma gram_le (T : Aff ℝ m k) (h : distinctSelectors T) (L : ℝ)
    (hL : ∀ x, ∑ i, T.lin x i ^ 2 ≤ L * ∑ j, x j ^ 2) (v : Fin m → ℝ) :
    npNorm (T.adj (T.lin v)) ≤ L * npNorm v := by
  have hT := C24_adjoint_partial T h
  set w := T.adj (T.lin v) with hw
  by_cases h0 : npNorm w = 0
  · rw [h0]
    by_contra hn
    push Not at hn
    have h1 := hL v
    have h2 : 0 ≤ ∑ i, T.lin v i ^ 2 := Finset.sum_nonneg fun i _ => sq_nonneg _
    rw [← npNorm_sq v] at h1
    have h3 := npNorm_nonneg v
    have : 0 < npNorm v := by
      rcases h3.lt_or_eq with h | h
      · exact h
      · rw [← h] at hn; simp at hn
    nlinarith
  have hpos : 0 < npNorm w := lt_of_le_of_ne (npNorm_nonneg _) (Ne.symm h0)
  have e : npNorm w ^ 2 = ∑ i, T.lin w i * T.lin v i := by
    rw [npNorm_sq, hT w (T.lin v)]
    exact Finset.sum_congr rfl fun i _ => by rw [sq, hw]
  have h1 : npNorm w ^ 2 ≤ npNorm (T.lin w) * npNorm (T.lin v) := by rw [e]; exact dot_le _ _
  have h2 : npNorm (T.lin w) ^ 2 ≤ L * npNorm w ^ 2 := by rw [npNorm_sq, npNorm_sq]; exact hL w
  have h3 : npNorm (T.lin v) ^ 2 ≤ L * npNorm v ^ 2 := by rw [npNorm_sq, npNorm_sq]; exact hL v
  have hL0 : 0 ≤ L := by
    by_contra hn
    have := mul_neg_of_neg_of_pos (not_le.1 hn) (pow_pos hpos 2)
    linarith [sq_nonneg (npNorm (T.lin w))]
  have h4 : (npNorm w ^ 2) ^ 2 ≤ (L * npNorm w * npNorm v) ^ 2 := by
    calc (npNorm w ^ 2) ^ 2 ≤ (npNorm (T.lin w) * npNorm (T.lin v)) ^ 2 :=
          pow_le_pow_left₀ (sq_nonneg _) h1 2
      _ = npNorm (T.lin w) ^ 2 * npNorm (T.lin v) ^ 2 := by ring
      _ ≤ (L * npNorm w ^ 2) * (L * npNorm v ^ 2) :=
          mul_le_mul h2 h3 (sq_nonneg _) (mul_nonneg hL0 (sq_nonneg _))
      _ = _ := by ring
  have h5 : npNorm w ^ 2 ≤ L * npNorm w * npNorm v :=
    (pow_le_pow_iff_left₀ (sq_nonneg _) (mul_nonneg (mul_nonneg hL0 hpos.le) (npNorm_nonneg _)) two_ne_zero).1 h4
  have : npNorm w * npNorm w ≤ npNorm w * (L * npNorm v) := by nlinarith
  exact le_of_mul_le_mul_left this hpos

/-- the norm grows along normalised iterates -/
private lemma gram_mono (T : Aff ℝ m k) (h : distinctSelectors T) (v : Fin m → ℝ) (hv : npNorm v = 1)
    (c : ℝ) (hc : 0 < c) (hn : npNorm (T.adj (T.lin v)) = c) :
    c ≤ npNorm (T.adj (T.lin fun i => T.adj (T.lin v) i / c)) := by
  have hT := C24_adjoint_partial T h
  set w := T.adj (T.lin v) with hw
  set u : Fin m → ℝ := fun i => w i / c with hu
  have e1 : ∑ i, T.lin u i * T.lin v i = c := by
    rw [hT u (T.lin v)]
    have : ∀ j, u j * T.adj (T.lin v) j = w j ^ 2 / c := by intro j; rw [← hw, hu]; ring
    simp only [this]
    rw [← Finset.sum_div, ← npNorm_sq, hn]; field_simp
  have e2 : ∑ i, T.lin u i * T.lin v i = ∑ j, v j * T.adj (T.lin u) j := by
    rw [← hT v (T.lin u)]
    exact Finset.sum_congr rfl fun i _ => mul_comm _ _
  rw [← e1, e2]
  calc _ ≤ npNorm v * npNorm (T.adj (T.lin u)) := dot_le _ _
    _ = _ := by rw [hv, one_mul]

private lemma loop_le (T : Aff ℝ m k) (h : distinctSelectors T) (L : ℝ)
    (hL : ∀ x, ∑ i, T.lin x i ^ 2 ≤ L * ∑ j, x j ^ 2) (tol : ℝ) (r : ℕ) :
    ∀ (v : Fin m → ℝ) (old norm B : ℝ), npNorm v = 1 → norm ≤ B → L ≤ B → 0 ≤ B → ∀ a,
      powerLoop T tol r v old norm = .val a → a ≤ B := by
  induction r with
  | zero => intro v old norm B _ hn _ _ a ha; rw [powerLoop] at ha; injection ha with ha; exact ha ▸ hn
  | succ r ih =>
    intro v old norm B hv hn hLB hB a ha
    rw [powerLoop] at ha
    by_cases h1 : |norm - old| / norm > tol
    swap
    · rw [if_neg h1] at ha; injection ha with ha; exact ha ▸ hn
    rw [if_pos h1] at ha
    by_cases h2 : npNorm (T.adj (T.lin v)) = 0
    · simp only [if_pos h2] at ha
      split_ifs at ha
      injection ha with ha; exact ha ▸ hB
    · simp only [if_neg h2] at ha
      have hp : 0 < npNorm (T.adj (T.lin v)) := lt_of_le_of_ne (npNorm_nonneg _) (Ne.symm h2)
      have hle := gram_le T h L hL v
      rw [hv, mul_one] at hle
      exact ih _ _ _ B (by rw [npNorm_div _ _ hp]; exact div_self h2) (hle.trans hLB) hLB hB a ha

private lemma loop_ge (T : Aff ℝ m k) (h : distinctSelectors T) (tol : ℝ) (r : ℕ) :
    ∀ (v : Fin m → ℝ) (old norm : ℝ), npNorm v = 1 → 0 < norm → norm ≤ npNorm (T.adj (T.lin v)) → ∃ a,
      powerLoop T tol r v old norm = .val a ∧ norm ≤ a := by
  induction r with
  | zero => intro v old norm _ _ _; exact ⟨norm, by rw [powerLoop], le_rfl⟩
  | succ r ih =>
    intro v old norm hv hn hle
    rw [powerLoop]
    have hp : 0 < npNorm (T.adj (T.lin v)) := hn.trans_le hle
    by_cases h1 : |norm - old| / norm > tol
    · rw [if_pos h1]
      simp only [if_neg hp.ne']
      obtain ⟨a, ha, hb⟩ := ih (fun i => T.adj (T.lin v) i / npNorm (T.adj (T.lin v))) norm _
        (by rw [npNorm_div _ _ hp]; exact div_self hp.ne') hp (gram_mono T h v hv _ hp rfl)
      exact ⟨a, ha, hle.trans hb⟩
    · rw [if_neg h1]; exact ⟨norm, rfl, le_rfl⟩

/-- C52: if `‖T x‖² ≤ L ‖x‖²` for all `x` and the loop does not stop after its first iteration, the value returned is
at most `L`, for every starting vector, every tolerance and every `max_its ≥ 2`.
Missing: runs that stop after one iteration (see `C52_overestimates_fails`). -/
theorem C52_at_most_partial (T : Aff ℝ m k) (h : distinctSelectors T) (L : ℝ)
    (hL : ∀ x, ∑ i, T.lin x i ^ 2 ≤ L * ∑ j, x j ^ 2) (maxIts : ℕ) (hm : 2 ≤ maxIts) (tol : ℝ) (htol : tol < 1)
    (v0 : Fin m → ℝ)
    (hfirst : |npNorm (T.adj (T.lin v0)) - 1| / npNorm (T.adj (T.lin v0)) > tol) (a : ℝ)
    (ha : powerL T maxIts tol v0 = .val a) (hpos : npNorm (T.adj (T.lin v0)) ≠ 0) : a ≤ L := by
  obtain ⟨r, rfl⟩ : ∃ r, maxIts = r + 2 := ⟨maxIts - 2, by omega⟩
  have hp : 0 < npNorm (T.adj (T.lin v0)) := lt_of_le_of_ne (npNorm_nonneg _) (Ne.symm hpos)
  unfold powerL at ha
  rw [powerLoop, if_pos (by norm_num; exact htol)] at ha
  simp only [if_neg hpos] at ha
  rw [powerLoop, if_pos hfirst] at ha
  set v1 : Fin m → ℝ := fun i => T.adj (T.lin v0) i / npNorm (T.adj (T.lin v0)) with hv1
  have hn1 : npNorm v1 = 1 := by rw [hv1, npNorm_div _ _ hp]; exact div_self hpos
  have hle := gram_le T h L hL v1
  rw [hn1, mul_one] at hle
  have hL0 : 0 ≤ L := (npNorm_nonneg _).trans hle
  by_cases h2 : npNorm (T.adj (T.lin v1)) = 0
  · simp only [if_pos h2] at ha
    split_ifs at ha
    injection ha with ha; exact ha ▸ hL0
  · simp only [if_neg h2] at ha
    have hp2 : 0 < npNorm (T.adj (T.lin v1)) := lt_of_le_of_ne (npNorm_nonneg _) (Ne.symm h2)
    exact loop_le T h L hL tol r _ _ _ L (by rw [npNorm_div _ _ hp2]; exact div_self h2) hle le_rfl hL0 a ha

/-- C52: in all cases with at least one iteration the value is at most `L max(1, ‖v0‖)`, `v0` the starting vector. -/
theorem C52_at_most_start (T : Aff ℝ m k) (h : distinctSelectors T) (L : ℝ)
    (hL : ∀ x, ∑ i, T.lin x i ^ 2 ≤ L * ∑ j, x j ^ 2) (maxIts : ℕ) (hm : 1 ≤ maxIts) (tol : ℝ) (htol : tol < 1)
    (v0 : Fin m → ℝ) (hL0 : 0 ≤ L) (a : ℝ) (ha : powerL T maxIts tol v0 = .val a) :
    a ≤ L * max 1 (Real.sqrt (∑ i, v0 i ^ 2)) := by
  obtain ⟨r, rfl⟩ : ∃ r, maxIts = r + 1 := ⟨maxIts - 1, by omega⟩
  have hB : 0 ≤ L * max 1 (npNorm v0) := mul_nonneg hL0 (le_trans zero_le_one (le_max_left _ _))
  show a ≤ L * max 1 (npNorm v0)
  unfold powerL at ha
  rw [powerLoop, if_pos (by norm_num; exact htol)] at ha
  by_cases h2 : npNorm (T.adj (T.lin v0)) = 0
  · simp only [if_pos h2] at ha
    split_ifs at ha
    injection ha with ha; exact ha ▸ hB
  · simp only [if_neg h2] at ha
    have hp2 : 0 < npNorm (T.adj (T.lin v0)) := lt_of_le_of_ne (npNorm_nonneg _) (Ne.symm h2)
    refine loop_le T h L hL tol r _ _ _ (L * max 1 (npNorm v0)) (by rw [npNorm_div _ _ hp2]; exact div_self h2)
      ((gram_le T h L hL v0).trans (mul_le_mul_of_nonneg_left (le_max_right _ _) hL0)) ?_ hB a ha
    calc L = L * 1 := by ring
      _ ≤ _ := mul_le_mul_of_nonneg_left (le_max_left _ _) hL0

/-- C52: unless the starting vector is in the null space a number (never `nan`) is returned, and it is a lower estimate
that improves on the Rayleigh-type quotient `‖TᵀT v‖/‖v‖` of the first iterate when more than one iteration is run. -/
theorem C52_returns_number (T : Aff ℝ m k) (h : distinctSelectors T) (maxIts : ℕ) (hm : 2 ≤ maxIts)
    (tol : ℝ) (htol : tol < 1) (v0 v1 : Fin m → ℝ) (hv1 : v1 = T.adj (T.lin v0)) (hne : v1 ≠ 0) :
    ∃ a, powerL T maxIts tol v0 = .val a ∧ 0 < a ∧
      (|npNorm v1 - 1| / npNorm v1 > tol → npNorm (T.adj (T.lin fun i => v1 i / npNorm v1)) ≤ a) := by
  obtain ⟨r, rfl⟩ : ∃ r, maxIts = r + 2 := ⟨maxIts - 2, by omega⟩
  have hT := C24_adjoint_partial T h
  have hp : 0 < npNorm v1 := by
    refine lt_of_le_of_ne (npNorm_nonneg _) fun h0 => hne ?_
    have : ∑ i, v1 i ^ 2 = 0 := by rw [← npNorm_sq, ← h0]; norm_num
    rw [Finset.sum_eq_zero_iff_of_nonneg (fun i _ => sq_nonneg _)] at this
    funext i
    exact pow_eq_zero_iff two_ne_zero |>.1 (this i (Finset.mem_univ _))
  unfold powerL
  rw [powerLoop, if_pos (by norm_num; exact htol)]
  rw [← hv1]
  simp only [if_neg hp.ne']
  rw [powerLoop]
  set u : Fin m → ℝ := fun i => v1 i / npNorm v1 with hu
  have hun : npNorm u = 1 := by rw [hu, npNorm_div _ _ hp]; exact div_self hp.ne'
  have hp2 : 0 < npNorm (T.adj (T.lin u)) := by
    refine lt_of_le_of_ne (npNorm_nonneg _) fun h0 => ?_
    -- then `T u = 0`, hence `v1 ⟂ v1`
    have hz : ∀ j, T.adj (T.lin u) j = 0 := by
      have : ∑ i, T.adj (T.lin u) i ^ 2 = 0 := by rw [← npNorm_sq, ← h0]; norm_num
      rw [Finset.sum_eq_zero_iff_of_nonneg (fun i _ => sq_nonneg _)] at this
      intro j
      exact pow_eq_zero_iff two_ne_zero |>.1 (this j (Finset.mem_univ _))
    have h1 := hT v0 (T.lin u)
    simp only [hz, mul_zero, Finset.sum_const_zero] at h1
    have h2 := hT u (T.lin v0)
    rw [← hv1] at h2
    have h3 : ∑ i, T.lin u i * T.lin v0 i = 0 := by
      rw [← h1]; exact Finset.sum_congr rfl fun i _ => mul_comm _ _
    rw [h3] at h2
    have h4 : ∑ j, u j * v1 j = npNorm v1 := by
      have : ∀ j, u j * v1 j = v1 j ^ 2 / npNorm v1 := by intro j; rw [hu]; ring
      simp only [this]
      rw [← Finset.sum_div, ← npNorm_sq, sq, mul_div_assoc, div_self hp.ne', mul_one]
    rw [h4] at h2
    exact hp.ne h2
  by_cases h1 : |npNorm v1 - 1| / npNorm v1 > tol
  · rw [if_pos h1]
    simp only [if_neg hp2.ne']
    obtain ⟨a, ha, hb⟩ := loop_ge T h tol r (fun i => T.adj (T.lin u) i / npNorm (T.adj (T.lin u))) (npNorm v1) _
        (by rw [npNorm_div _ _ hp2]; exact div_self hp2.ne') hp2 (gram_mono T h u hun _ hp2 rfl)
    exact ⟨a, ha, hp2.trans_le hb, fun _ => hb⟩
  · rw [if_neg h1]; exact ⟨_, rfl, hp, fun h => absurd h h1⟩

private lemma one_run (v : ℝ) (hv : 0 < v) :
    npNorm (Aff.adj (.matrix (fun (_ : Fin 1) (_ : Fin 1) => (1:ℝ)) none)
      (Aff.lin (.matrix (fun (_ : Fin 1) (_ : Fin 1) => (1:ℝ)) none) fun _ => v)) = v := by
  simp [npNorm, Aff.adj, Aff.lin, Aff.meth, Real.sqrt_sq hv.le]

/-- C52 does not hold as stated: with the default arguments (`max_its=500, tol=1e-8`) and the 1 x 1 identity matrix the
starting vector `1 + 10⁻⁹` gives `1 + 10⁻⁹ > 1`, and with `max_its=1` the starting vector 2 gives 2. -/
theorem C52_overestimates_fails :
    (∃ (T : Aff ℝ 1 1) (v0 : Fin 1 → ℝ) (a : ℝ), (∀ x, ∑ i, T.lin x i ^ 2 ≤ 1 * ∑ j, x j ^ 2) ∧
      powerL T 500 (1 / 10 ^ 8) v0 = .val a ∧ 1 < a) ∧
    (∃ (T : Aff ℝ 1 1) (v0 : Fin 1 → ℝ), (∀ x, ∑ i, T.lin x i ^ 2 ≤ 1 * ∑ j, x j ^ 2) ∧
      powerL T 1 (1 / 10 ^ 8) v0 = .val 2) := by
  have hb : ∀ x, ∑ i, Aff.lin (.matrix (fun (_ : Fin 1) (_ : Fin 1) => (1:ℝ)) none) x i ^ 2 ≤ 1 * ∑ j, x j ^ 2 := by
    intro x; simp [Aff.lin, Aff.meth]
  refine ⟨⟨.matrix (fun _ _ => 1) none, fun _ => 1 + 1 / 10 ^ 9, 1 + 1 / 10 ^ 9, hb, ?_, by norm_num⟩,
    ⟨.matrix (fun _ _ => 1) none, fun _ => 2, hb, ?_⟩⟩
  · unfold powerL
    rw [show (500:ℕ) = 498 + 1 + 1 from rfl, powerLoop, if_pos (by norm_num)]
    simp only [one_run _ (show (0:ℝ) < 1 + 1 / 10 ^ 9 by norm_num)]
    rw [if_neg (by norm_num), powerLoop, if_neg (by norm_num [abs_of_pos])]
  · unfold powerL
    show powerLoop _ _ (0 + 1) _ _ _ = _
    rw [powerLoop, if_pos (by norm_num)]
    simp only [one_run _ (show (0:ℝ) < 2 by norm_num)]
    rw [if_neg (by norm_num), powerLoop]

/-- hypotheses met: the 1 x 1 matrix `2`, starting vector 1 -/
example : ∃ (T : Aff ℝ 1 1) (v0 : Fin 1 → ℝ), distinctSelectors T ∧ (∀ x, ∑ i, T.lin x i ^ 2 ≤ 4 * ∑ j, x j ^ 2) ∧
    |npNorm (T.adj (T.lin v0)) - 1| / npNorm (T.adj (T.lin v0)) > 1 / 10 ^ 8 ∧ T.adj (T.lin v0) ≠ 0 := by
  have e : npNorm (Aff.adj (.matrix (fun (_ : Fin 1) (_ : Fin 1) => (2:ℝ)) none)
      (Aff.lin (.matrix (fun (_ : Fin 1) (_ : Fin 1) => (2:ℝ)) none) fun _ => 1)) = 4 := by
    simp only [npNorm, Aff.adj, Aff.lin, Aff.meth, Fin.sum_univ_one]
    rw [Real.sqrt_sq (by norm_num)]; norm_num
  refine ⟨.matrix (fun _ _ => 2) none, fun _ => 1, trivial, ?_, ?_, ?_⟩
  · intro x; simp only [Aff.lin, Aff.meth, Fin.sum_univ_one]; nlinarith
  · rw [e]; norm_num [abs_of_pos]
  · intro h; have := congrFun h 0; norm_num [Aff.adj, Aff.lin, Aff.meth] at this

end Verif.Props
