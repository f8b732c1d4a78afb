import Verif.Lemmas.Slope
import Verif.Spec.Dual
import Mathlib.Tactic.FinCases
import Mathlib.Algebra.BigOperators.Field
import Mathlib.Tactic.NormNum
import Mathlib.Data.Fin.VecNotation

/-! # C20: the SLOPE penalty and its dual -/

set_option linter.unusedSectionVars false
set_option linter.unusedVariables false

namespace Verif.Props
open Verif.Model Verif.Model.Slope Verif.Lemmas Verif.Spec

variable {K : Type*} [Field K] [LinearOrder K] [IsStrictOrderedRing K]

/-- The isotonic regression routine returns the unique nondecreasing least squares fit. -/
def IsIsoRoutine {n : ℕ} (iso : (Fin n → K) → Option (Fin n → K)) : Prop :=
  ∀ d, ∃ s, iso d = some s ∧ Monotone s ∧
    ∀ z : Fin n → K, Monotone z → z ≠ s → ∑ i, (d i - s i) ^ 2 < ∑ i, (d i - z i) ^ 2

/-- C20: the pure Python routine qualifies (termination within `n+1` rounds included). -/
theorem C20_isoPy {n : ℕ} (fuel : ℕ) (hf : n < fuel) : IsIsoRoutine (K := K) (n := n) (isoPy fuel) := by
  intro d
  obtain ⟨t, h1, h2, h3⟩ := isoPy_fit d hf
  have := isoFit_of_inv h2 h3
  exact ⟨_, h1, this.1, this.2⟩

/-- C20: the value is `λ` times the largest `Σ w_i |x_{π(i)}|` over all orderings `π` of the coordinates. -/
theorem C20_seminorm_spec {n : ℕ} {w : Fin n → K} (hw : Antitone w) (hw0 : ∀ i, 0 < w i) (x : Fin n → K)
    {lagrange : K} (hl : 0 ≤ lagrange) :
    IsGreatest {t | ∃ π : Equiv.Perm (Fin n), t = lagrange * ∑ i, w i * |x (π i)|} (Slope.seminorm w x lagrange) := by
  rw [slope_seminorm_eq fun i => (hw0 i).le]
  have hv : Monotone fun i : Fin n => w i.rev := fun i j hij => hw (Fin.rev_le_rev.2 hij)
  constructor
  · refine ⟨Fin.revPerm.trans (Tuple.sort fun j => |x j|), ?_⟩
    congr 1
    rw [← Equiv.sum_comp Fin.revPerm]
    refine Finset.sum_congr rfl fun i _ => ?_
    simp [npSort]
  · rintro t ⟨π, rfl⟩
    apply mul_le_mul_of_nonneg_left _ hl
    have := rearr (b := fun j => |x j|) hv (Fin.revPerm.trans π)
    refine le_trans (le_of_eq ?_) this
    rw [← Equiv.sum_comp Fin.revPerm]
    refine Finset.sum_congr rfl fun i _ => ?_
    simp

/-- C20: for every center, every positive nonincreasing weights and every tie-breaking of `argsort`, `lagrange_prox`
returns the unique minimiser of `L/2‖z-x‖² + λ·slope(z)`. -/
theorem C20_lagrange_prox {n : ℕ} {iso : (Fin n → K) → Option (Fin n → K)} (hiso : IsIsoRoutine iso)
    {w : Fin n → K} (hw : Antitone w) (hw0 : ∀ i, 0 < w i) (x : Fin n → K) (arg : Equiv.Perm (Fin n))
    (harg : Monotone fun i => |x (arg i)|) {L lagrange : K} (hL : 0 < L) (hl : 0 ≤ lagrange) :
    ∃ p, lagrangeProx iso arg w x L lagrange = some p ∧ IsProx L (fun z => Slope.seminorm w z lagrange) x p := by
  have hc : 0 ≤ lagrange / L := div_nonneg hl hL.le
  have hw' : Antitone fun i => w i * lagrange / L := by
    intro i j hij
    simp only [mul_div_assoc]
    exact mul_le_mul_of_nonneg_right (hw hij) hc
  have hw0' : ∀ i, 0 ≤ w i * lagrange / L := fun i => by
    rw [mul_div_assoc]; exact mul_nonneg (hw0 i).le hc
  obtain ⟨s, h1, h2⟩ := hiso fun i => |x (arg i)| - w i.rev * lagrange / L
  obtain ⟨p, h3, h4⟩ := slope_facts harg hw' hw0' h1 h2
  refine ⟨p, h3, isProx_of_subgrad hL fun z => ?_⟩
  rw [slope_seminorm_eq fun i => (hw0 i).le, slope_seminorm_eq fun i => (hw0 i).le]
  have e : ∀ y : Fin n → K, lagrange * ∑ i : Fin n, w i.rev * npSort (fun j => |y j|) i =
      L * ∑ i : Fin n, w i.rev * lagrange / L * npSort (fun j => |y j|) i := by
    intro y
    rw [Finset.mul_sum, Finset.mul_sum]
    refine Finset.sum_congr rfl fun i _ => ?_
    field_simp
  rw [e, e]
  have h5 := h4.dual z
  have h6 := h4.eq
  rw [← h6, ← mul_add]
  apply mul_le_mul_of_nonneg_left _ hL.le
  refine le_trans (le_of_eq ?_) h5
  rw [← Finset.sum_add_distrib]
  exact Finset.sum_congr rfl fun i _ => by ring

/-- C20: the dual constraint: `bound_prox` of the conjugate is the projection on the dual ball. -/
theorem C20_conjugate_bound_prox {n : ℕ} {iso : (Fin (n + 1) → K) → Option (Fin (n + 1) → K)} (hiso : IsIsoRoutine iso)
    {w : Fin (n + 1) → K} (hw : Antitone w) (hw0 : ∀ i, 0 < w i) (x : Fin (n + 1) → K) (arg : Equiv.Perm (Fin (n + 1)))
    (harg : Monotone fun i => |x (arg i)|) {bound : K} (hb : 0 ≤ bound) :
    ∃ p, conjBoundProx iso arg w x bound = some p ∧ IsProj {y | conjSeminorm w y 1 ≤ bound} x p := by
  have hw' : Antitone fun i => w i * bound := fun i j hij => mul_le_mul_of_nonneg_right (hw hij) hb
  have hw0' : ∀ i, 0 ≤ w i * bound := fun i => mul_nonneg (hw0 i).le hb
  obtain ⟨s, h1, h2⟩ := hiso fun i => |x (arg i)| - w i.rev * bound
  obtain ⟨p, h3, h4⟩ := slope_facts harg hw' hw0' h1 h2
  refine ⟨_, by rw [conjBoundProx, h3]; rfl, isProj_of_vi (S := {y | conjSeminorm w y 1 ≤ bound}) ?_ ?_⟩
  · show conjSeminorm w _ 1 ≤ bound
    rw [conjSeminorm_le_iff hw0]
    intro k
    have h5 := h4.dualsort (fun i => if k ≤ i then 1 else 0) (fun i j hij => by
      by_cases hi : k ≤ i
      · simp [hi, hi.trans hij]
      · simp only [hi, if_false]; split_ifs <;> simp) (fun i => by split_ifs <;> simp)
    simp only [mul_ite, mul_one, mul_zero] at h5
    refine h5.trans (le_of_eq (Finset.sum_congr rfl fun i _ => ?_))
    split_ifs <;> ring
  · intro z hz
    have hz' := (conjSeminorm_le_iff hw0 z bound).1 hz
    have h5 : ∑ i, z i * p i ≤ ∑ i : Fin (n + 1), npSort (fun j => |z j|) i * npSort (fun j => |p j|) i := by
      have h6 := rearr (r := npSort fun j => |p j|) (b := fun j => |z j|) (npSort_mono _) (Tuple.sort fun j => |p j|)
      calc ∑ i, z i * p i ≤ ∑ i, |p i| * |z i| := Finset.sum_le_sum fun i _ => by
            rw [mul_comm, ← abs_mul]; exact le_abs_self _
        _ = ∑ i, npSort (fun j => |p j|) i * |z (Tuple.sort (fun j => |p j|) i)| := by
            rw [← Equiv.sum_comp (Tuple.sort fun j => |p j|)]; rfl
        _ ≤ _ := h6
        _ = _ := Finset.sum_congr rfl fun i _ => mul_comm _ _
    have h6 := tail_pair_le (npSort_mono fun j => |p j|) (fun i => npSort_nonneg (fun j => abs_nonneg _) i) hz'
    have h7 := h4.eq
    have h8 : ∑ i, (x i - (x i - p i)) * (z i - (x i - p i)) = ∑ i, z i * p i - ∑ i, (x i - p i) * p i := by
      rw [← Finset.sum_sub_distrib]; exact Finset.sum_congr rfl fun i _ => by ring
    rw [h8, h7]
    have h9 : ∑ i : Fin (n + 1), w i.rev * bound * npSort (fun j => |p j|) i =
        ∑ i : Fin (n + 1), bound * w i.rev * npSort (fun j => |p j|) i := Finset.sum_congr rfl fun i _ => by ring
    rw [h9]; linarith

/-- a vector whose sorted absolute values are `v` paired with `x` in the order of `|x|` -/
private lemma pair_attain {n : ℕ} (x v : Fin n → K) (hv : Monotone v) (hv0 : ∀ i, 0 ≤ v i) :
    ∃ y : Fin n → K, npSort (fun j => |y j|) = v ∧ dot x y = ∑ i, v i * npSort (fun j => |x j|) i := by
  set σ := Tuple.sort fun j => |x j| with hσ
  refine ⟨fun j => (if 0 ≤ x j then 1 else -1) * v (σ.symm j), ?_, ?_⟩
  · have e : (fun j => |(if 0 ≤ x j then 1 else -1) * v (σ.symm j)|) ∘ σ = v := by
      funext i
      simp only [Function.comp, Equiv.symm_apply_apply]
      split_ifs
      · rw [one_mul, abs_of_nonneg (hv0 i)]
      · rw [neg_one_mul, abs_neg, abs_of_nonneg (hv0 i)]
    rw [npSort_eq (σ := σ), e]
    rw [e]; exact hv
  · unfold dot
    rw [← Equiv.sum_comp σ]
    refine Finset.sum_congr rfl fun i _ => ?_
    simp only [Equiv.symm_apply_apply, npSort]
    rw [← hσ]
    split_ifs with h
    · rw [abs_of_nonneg h]; ring
    · rw [abs_of_neg (not_le.1 h)]; ring

private lemma dot_le_sorted {n : ℕ} (x y : Fin n → K) :
    dot x y ≤ ∑ i, npSort (fun j => |y j|) i * npSort (fun j => |x j|) i := by
  have h6 := rearr (r := npSort fun j => |x j|) (b := fun j => |y j|) (npSort_mono _) (Tuple.sort fun j => |x j|)
  calc ∑ i, x i * y i ≤ ∑ i, |x i| * |y i| := Finset.sum_le_sum fun i _ => by
        rw [← abs_mul]; exact le_abs_self _
    _ = ∑ i, npSort (fun j => |x j|) i * |y (Tuple.sort (fun j => |x j|) i)| := by
        rw [← Equiv.sum_comp (Tuple.sort fun j => |x j|)]; rfl
    _ ≤ _ := h6
    _ = _ := Finset.sum_congr rfl fun i _ => mul_comm _ _

/-- C20: SLOPE is the support function of the unit ball of its registered dual. -/
theorem C20_support_function {n : ℕ} {w : Fin (n + 1) → K} (hw : Antitone w) (hw0 : ∀ i, 0 < w i) :
    IsSupportFn {y | conjSeminorm w y 1 ≤ 1} (fun x => ((Slope.seminorm w x 1 : K) : WithTop K)) := by
  intro x
  refine ⟨fun v hv => ?_, fun h => absurd h WithTop.coe_ne_top⟩
  have hv' : Slope.seminorm w x 1 = v := WithTop.coe_injective hv
  rw [← hv', slope_seminorm_eq fun i => (hw0 i).le, one_mul]
  constructor
  · obtain ⟨y, h1, h2⟩ := pair_attain x (fun i => w i.rev) (fun i j hij => hw (Fin.rev_le_rev.2 hij)) (fun i => (hw0 _).le)
    refine ⟨y, ?_, h2⟩
    show conjSeminorm w y 1 ≤ 1
    rw [conjSeminorm_le_iff hw0]
    intro k
    rw [h1]; simp
  · rintro _ ⟨y, hy, rfl⟩
    have hy' := (conjSeminorm_le_iff hw0 y 1).1 hy
    have := tail_pair_le (npSort_mono fun j => |x j|) (fun i => npSort_nonneg (fun j => abs_nonneg _) i) hy'
    simp only [one_mul] at this
    exact (dot_le_sorted x y).trans this

/-- C20: and conversely the registered dual is the support function of the SLOPE unit ball. -/
theorem C20_conjugate_support_function {n : ℕ} {w : Fin (n + 1) → K} (hw : Antitone w) (hw0 : ∀ i, 0 < w i) :
    IsSupportFn {y | Slope.seminorm w y 1 ≤ 1} (fun x => ((conjSeminorm w x 1 : K) : WithTop K)) := by
  intro x
  refine ⟨fun v hv => ?_, fun h => absurd h WithTop.coe_ne_top⟩
  have hv' : conjSeminorm w x 1 = v := WithTop.coe_injective hv
  rw [← hv']
  constructor
  · -- the cut at which the maximum is attained
    obtain ⟨k, _, hk⟩ := Finset.exists_mem_eq_sup' Finset.univ_nonempty
      (fun i => |npCumsum (fun j => npSort (fun j => |x j|) j.rev) i / npCumsum w i|)
    have hc := cumsum_pos hw0 k
    obtain ⟨y, h1, h2⟩ := pair_attain x (fun i => if k.rev ≤ i then 1 / npCumsum w k else 0) (fun i j hij => by
      by_cases hi : k.rev ≤ i
      · simp [hi, hi.trans hij]
      · simp only [hi, if_false]; split_ifs <;> simp [hc.le]) (fun i => by
        split_ifs <;> simp [hc.le])
    refine ⟨y, ?_, ?_⟩
    · show Slope.seminorm w y 1 ≤ 1
      rw [slope_seminorm_eq fun i => (hw0 i).le, one_mul, h1]
      have h3 : npCumsum w k = ∑ i, if k.rev ≤ i then w i.rev else 0 := by
        rw [← cumsum_rev (fun i => w i.rev)]; simp
      have : ∑ i : Fin (n + 1), w i.rev * (if k.rev ≤ i then 1 / npCumsum w k else 0) =
          (∑ i : Fin (n + 1), if k.rev ≤ i then w i.rev else 0) / npCumsum w k := by
        rw [Finset.sum_div]
        refine Finset.sum_congr rfl fun i _ => ?_
        split_ifs <;> ring
      rw [this, ← h3, div_self hc.ne']
    · show dot x y = _
      rw [h2]
      unfold conjSeminorm npMax
      rw [one_mul, hk]
      have h3 : 0 ≤ npCumsum (fun j => npSort (fun j => |x j|) j.rev) k :=
        Finset.sum_nonneg fun i _ => abs_nonneg _
      rw [abs_of_nonneg (div_nonneg h3 hc.le), cumsum_rev, Finset.sum_div]
      refine Finset.sum_congr rfl fun i _ => ?_
      split_ifs <;> ring
  · rintro _ ⟨y, hy, rfl⟩
    have hx := (conjSeminorm_le_iff hw0 x _).1 (le_refl (conjSeminorm w x 1))
    have h1 := tail_pair_le (npSort_mono fun j => |y j|) (fun i => npSort_nonneg (fun j => abs_nonneg _) i) hx
    have h2 := dot_le_sorted y x
    have h3 : dot x y = dot y x := Finset.sum_congr rfl fun i _ => mul_comm _ _
    have h4 : Slope.seminorm w y 1 ≤ 1 := hy
    rw [slope_seminorm_eq fun i => (hw0 i).le, one_mul] at h4
    have h5 : ∑ i : Fin (n + 1), conjSeminorm w x 1 * w i.rev * npSort (fun j => |y j|) i =
        conjSeminorm w x 1 * ∑ i : Fin (n + 1), w i.rev * npSort (fun j => |y j|) i := by
      rw [Finset.mul_sum]; exact Finset.sum_congr rfl fun i _ => by ring
    have h6 : 0 ≤ conjSeminorm w x 1 := by
      unfold conjSeminorm
      rw [one_mul]
      exact le_trans (abs_nonneg _) (Finset.le_sup' (fun i => |npCumsum (fun j => npSort (fun j => |x j|) j.rev) i / npCumsum w i|) (Finset.mem_univ 0))
    show dot x y ≤ _
    rw [h3]
    rw [h5] at h1
    nlinarith

/-- the hypotheses hold for a concrete case: weights (2,1), center (1,-3), sorted by the identity -/
example : ∃ p, lagrangeProx (isoPy 3) (Equiv.refl (Fin 2)) ![2, 1] ![(1:ℚ), -3] 1 1 = some p ∧
    IsProx 1 (fun z => Slope.seminorm ![2, 1] z 1) ![(1:ℚ), -3] p := by
  apply C20_lagrange_prox (C20_isoPy 3 (by norm_num))
  · intro i j hij; fin_cases i <;> fin_cases j <;> simp_all
  · intro i; fin_cases i <;> simp
  · intro i j hij; fin_cases i <;> fin_cases j <;> simp_all
  · norm_num
  · norm_num

end Verif.Props
