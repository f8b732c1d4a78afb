import Verif.Lemmas.SoftThr
import Mathlib.Tactic.FinCases
import Mathlib.Data.Fin.VecNotation
import Mathlib.Tactic.FieldSimp

/-!
# C02, C03, C05, C07: proximal maps of the polyhedral seminorm atoms

`IsProj S x p` : `p` is the unique closest point of `S` to `x`;
`IsProx L h x p` : `p` is the unique minimiser of `L/2‖z-x‖²+h z` (see `Verif.Spec.Opt`).
-/

set_option linter.unusedSectionVars false
set_option linter.unusedVariables false

namespace Verif.Props
open Verif.Model Verif.Lemmas Verif.Spec

variable {K : Type*} [Field K] [LinearOrder K] [IsStrictOrderedRing K]

private lemma l1_vi {n : ℕ} {x z : Fin n → K} {cut b : K} (hc : 0 ≤ cut)
    (hor : (cut = 0 ∧ ∑ i, |softThr (x i) cut| < b) ∨ ∑ i, |softThr (x i) cut| = b)
    (hz : ∑ i, |z i| ≤ b) :
    ∑ i, (x i - softThr (x i) cut) * (z i - softThr (x i) cut) ≤ 0 := by
  have h1 : ∀ i, (x i - softThr (x i) cut) * (z i - softThr (x i) cut) ≤
      cut * |z i| - cut * |softThr (x i) cut| := by
    intro i
    rw [mul_sub, softThr_mul _ hc]
    have : (x i - softThr (x i) cut) * z i ≤ cut * |z i| := by
      calc (x i - softThr (x i) cut) * z i ≤ |(x i - softThr (x i) cut) * z i| := le_abs_self _
        _ = |x i - softThr (x i) cut| * |z i| := abs_mul _ _
        _ ≤ cut * |z i| := mul_le_mul_of_nonneg_right (softThr_resid _ hc) (abs_nonneg _)
    linarith
  calc ∑ i, (x i - softThr (x i) cut) * (z i - softThr (x i) cut)
      ≤ ∑ i, (cut * |z i| - cut * |softThr (x i) cut|) := Finset.sum_le_sum fun i _ => h1 i
    _ = cut * (∑ i, |z i| - ∑ i, |softThr (x i) cut|) := by
        rw [mul_sub, Finset.mul_sum, Finset.mul_sum, Finset.sum_sub_distrib]
    _ ≤ 0 := by
        rcases hor with ⟨rfl, _⟩ | h
        · simp
        · rw [h]; nlinarith

/-- C02: `projl1(x, bound)` is the Euclidean projection on the l1 ball. -/
theorem C02_projl1 {n : ℕ} (x : Fin (n + 1) → K) (bound : K) (hb : 0 ≤ bound) :
    ∃ p, projl1 x bound = some p ∧ IsProj {z | ∑ i, |z i| ≤ bound} x p := by
  obtain ⟨cut, h1, h2, h3⟩ := findC_abs x hb
  refine ⟨fun i => softThr (x i) cut, by unfold projl1; rw [h1]; rfl, isProj_of_vi ?_ ?_⟩
  · rcases h3 with ⟨_, h⟩ | h
    · exact h.le
    · exact h.le
  · intro z hz; exact l1_vi h2 h3 hz

/-- C02: a point of the ball is returned unchanged. -/
theorem C02_projl1_fixed {n : ℕ} (x : Fin (n + 1) → K) (bound : K) (hx : ∑ i, |x i| ≤ bound) :
    projl1 x bound = some x := by
  have hb : 0 ≤ bound := le_trans (Finset.sum_nonneg fun i _ => abs_nonneg _) hx
  obtain ⟨p, h1, h2⟩ := C02_projl1 x bound hb
  rw [h1]; congr 1
  by_contra hne
  have := h2.2 x hx (fun e => hne e.symm)
  simp only [sqDist_self] at this
  exact absurd this (not_lt.2 (sqDist_nonneg _ _))

/-- C02: `l1norm.bound_prox`. -/
theorem C02_l1norm_bound_prox {n : ℕ} (x : Fin (n + 1) → K) (bound : K) (hb : 0 ≤ bound) :
    ∃ p, L1.boundProx x bound = some p ∧ IsProj {z | ∑ i, |z i| ≤ bound} x p := by
  obtain ⟨cut, h1, h2, h3⟩ := findC_abs x hb
  refine ⟨fun i => softThr (x i) cut, ?_, isProj_of_vi ?_ ?_⟩
  · unfold L1.boundProx; rw [h1]; simp [softThr_eq_sign_cut _ h2]
  · rcases h3 with ⟨_, h⟩ | h
    · exact h.le
    · exact h.le
  · intro z hz; exact l1_vi h2 h3 hz

example : (0:ℚ) ≤ 2 ∧ projl1 (![3, -1] : Fin 2 → ℚ) 2 = some ![2, 0] := by
  refine ⟨by norm_num, ?_⟩
  obtain ⟨p, h1, h2⟩ := C02_projl1 (![3, -1] : Fin 2 → ℚ) 2 (by norm_num)
  have h3 : IsProj {z : Fin 2 → ℚ | ∑ i, |z i| ≤ 2} ![3, -1] ![2, 0] := by
    apply isProj_of_vi
    · simp
    · intro z hz
      simp only [Set.mem_ofPred_eq, Fin.sum_univ_two] at hz
      simp only [Fin.sum_univ_two, Matrix.cons_val_zero, Matrix.cons_val_one]
      have := le_abs_self (z 0); have := neg_abs_le (z 1)
      linarith
  rw [h1, IsUniqueMinOn.unique h2 h3]

/-- C03: `l1norm.lagrange_prox` is the proximal map of `lagrange * ‖·‖₁`. -/
theorem C03_l1norm_lagrange_prox {n : ℕ} (x : Fin n → K) (L lam : K) (hL : 0 < L) (hl : 0 ≤ lam) :
    IsProx L (fun z => lam * ∑ i, |z i|) x (L1.lagrangeProx x L lam) := by
  have hc : 0 ≤ lam / L := div_nonneg hl hL.le
  have e : L1.lagrangeProx x L lam = fun i => softThr (x i) (lam / L) := by
    funext i; exact softThr_eq_sign_max _ hc
  rw [e]
  have := isProx_of_coord (h := fun _ z => lam * |z|) hL (x := x) (p := fun i => softThr (x i) (lam / L)) (by
    intro i z
    rw [mul_sub, softThr_mul _ hc]
    have h1 : (x i - softThr (x i) (lam / L)) * z ≤ lam / L * |z| := by
      calc (x i - softThr (x i) (lam / L)) * z ≤ |(x i - softThr (x i) (lam / L)) * z| := le_abs_self _
        _ = |x i - softThr (x i) (lam / L)| * |z| := abs_mul _ _
        _ ≤ lam / L * |z| := mul_le_mul_of_nonneg_right (softThr_resid _ hc) (abs_nonneg _)
    have h2 : L * (lam / L * |z|) = lam * |z| := by field_simp
    have h3 : L * (lam / L * |softThr (x i) (lam / L)|) = lam * |softThr (x i) (lam / L)| := by field_simp
    have h4 := mul_le_mul_of_nonneg_left h1 hL.le
    rw [mul_sub]; linarith)
  simpa [Finset.mul_sum] using this

example : IsProx (2:ℚ) (fun z => 1 * ∑ i, |z i|) (![1, -3, 1/4] : Fin 3 → ℚ)
    (L1.lagrangeProx ![1, -3, 1/4] 2 1) := C03_l1norm_lagrange_prox _ _ _ (by norm_num) (by norm_num)

/-- C05: `supnorm.bound_prox` is the projection on the sup-norm ball. -/
theorem C05_supnorm_bound_prox {n : ℕ} (x : Fin n → K) (bound : K) (hb : 0 ≤ bound) :
    IsProj {z | ∀ i, |z i| ≤ bound} x (Sup.boundProx x bound) := by
  apply isProj_of_vi
  · intro i
    unfold Sup.boundProx npClip
    rw [abs_le]
    refine ⟨le_min (le_max_right _ _) (by linarith), min_le_right _ _⟩
  · intro z hz
    apply Finset.sum_nonpos
    intro i _
    obtain ⟨h1, h2⟩ := abs_le.1 (hz i)
    simp only [Sup.boundProx, npClip]
    rcases le_total (x i) (-bound) with h | h
    · rw [max_eq_right h, min_eq_left (by linarith)]; nlinarith
    · rw [max_eq_left h]
      rcases le_total (x i) bound with h' | h'
      · rw [min_eq_left h']; simp
      · rw [min_eq_right h']; nlinarith

example : (0:ℚ) ≤ 1 ∧ Sup.boundProx (![3, -1/2] : Fin 2 → ℚ) 1 = ![1, -1/2] := by
  refine ⟨by norm_num, ?_⟩
  ext i; fin_cases i <;> norm_num [Sup.boundProx, npClip]

/-- C05: `supnorm.lagrange_prox` is the proximal map of `lagrange * max|z_i|`. -/
theorem C05_supnorm_lagrange_prox {n : ℕ} (x : Fin (n + 1) → K) (L lam : K) (hL : 0 < L) (hl : 0 ≤ lam) :
    ∃ p, Sup.lagrangeProx x L lam = some p ∧ IsProx L (fun z => lam * maxCoord fun i => |z i|) x p := by
  have hb : 0 ≤ lam / L := div_nonneg hl hL.le
  have hLl : L * (lam / L) = lam := by field_simp
  obtain ⟨cut, h1, h2, h3⟩ := findC_abs x hb
  refine ⟨fun i => x i - softThr (x i) cut, ?_, isProx_of_subgrad hL ?_⟩
  · unfold Sup.lagrangeProx; rw [h1]; simp [softThr_eq_sign_cut _ h2]
  · intro z
    simp only [sub_sub_cancel]
    have hsum : ∑ i, |softThr (x i) cut| ≤ lam / L := by
      rcases h3 with ⟨_, h⟩ | h; exacts [h.le, h.le]
    have hz0 : 0 ≤ maxCoord fun i => |z i| := le_trans (abs_nonneg (z 0)) (le_maxCoord (fun i => |z i|) 0)
    have e : ∑ i, softThr (x i) cut * (z i - (x i - softThr (x i) cut)) =
        ∑ i, softThr (x i) cut * z i - cut * ∑ i, |softThr (x i) cut| := by
      rw [Finset.mul_sum, ← Finset.sum_sub_distrib]
      refine Finset.sum_congr rfl fun i _ => ?_
      rw [← softThr_mul _ h2]; ring
    have hz : ∑ i, softThr (x i) cut * z i ≤ lam / L * maxCoord fun i => |z i| := by
      calc ∑ i, softThr (x i) cut * z i ≤ ∑ i, |softThr (x i) cut| * maxCoord fun i => |z i| := by
            apply Finset.sum_le_sum; intro i _
            calc softThr (x i) cut * z i ≤ |softThr (x i) cut * z i| := le_abs_self _
              _ = |softThr (x i) cut| * |z i| := abs_mul _ _
              _ ≤ _ := mul_le_mul_of_nonneg_left (le_maxCoord (fun i => |z i|) i) (abs_nonneg _)
        _ = (∑ i, |softThr (x i) cut|) * maxCoord fun i => |z i| := by rw [Finset.sum_mul]
        _ ≤ _ := mul_le_mul_of_nonneg_right hsum hz0
    have hp : maxCoord (fun i => |x i - softThr (x i) cut|) ≤ cut := maxCoord_le fun i => softThr_resid _ h2
    rw [e, mul_sub]
    have hz' := mul_le_mul_of_nonneg_left hz hL.le
    rw [← mul_assoc, hLl] at hz'
    have hlast : lam * maxCoord (fun i => |x i - softThr (x i) cut|) ≤ L * (cut * ∑ i, |softThr (x i) cut|) := by
      rcases h3 with ⟨rfl, _⟩ | h
      · have h0 : maxCoord (fun i => |x i - softThr (x i) 0|) ≤ 0 := hp
        nlinarith
      · rw [h]
        calc lam * _ ≤ lam * cut := mul_le_mul_of_nonneg_left hp hl
          _ = L * (cut * (lam / L)) := by rw [← hLl]; field_simp
    linarith

example : ∃ p, Sup.lagrangeProx (![3, -1, 2] : Fin 3 → ℚ) 1 (1/2) = some p ∧
    IsProx 1 (fun z => 1/2 * maxCoord fun i => |z i|) ![3, -1, 2] p :=
  C05_supnorm_lagrange_prox _ _ _ (by norm_num) (by norm_num)

/-! ### C07: the positive-part family -/

private lemma projPos_spec {n : ℕ} (x other : Fin n → K) {b : K} (hb : 0 ≤ b) :
    ∃ cut v, projPos x other b = some v ∧ 0 ≤ cut ∧
      (∀ i, 0 < x i → v i = softThr (x i) cut) ∧ (∀ i, x i ≤ 0 → v i = other i) ∧
      ((cut = 0 ∧ ∑ i, (if x i > 0 then softThr (x i) cut else 0) ≤ b) ∨
        ∑ i, (if x i > 0 then softThr (x i) cut else 0) = b) := by
  unfold projPos
  by_cases hex : ∃ i, x i > 0
  · obtain ⟨cut, h1, h2, h3⟩ := findC_pos x hex hb
    rw [if_pos hex, h1]
    refine ⟨cut, _, rfl, h2, ?_, ?_, ?_⟩
    · intro i hi; simp [hi]
    · intro i hi; simp [not_lt.2 hi]
    · rcases h3 with ⟨h, h'⟩ | h
      · exact Or.inl ⟨h, h'.le⟩
      · exact Or.inr h
  · rw [if_neg hex]
    push Not at hex
    refine ⟨0, other, rfl, le_refl _, ?_, fun i _ => rfl, Or.inl ⟨rfl, ?_⟩⟩
    · intro i hi; exact absurd hi (not_lt.2 (hex i))
    · rw [Finset.sum_eq_zero]
      · exact hb
      · intro i _; rw [if_neg (not_lt.2 (hex i))]

private lemma softThr_pos_resid {x c : K} (hx : 0 < x) (hc : 0 ≤ c) : 0 ≤ x - softThr x c ∧ x - softThr x c ≤ c := by
  refine ⟨?_, le_trans (le_abs_self _) (softThr_resid x hc)⟩
  unfold softThr; split_ifs <;> linarith

private lemma softThr_pos_mul {x c : K} (hx : 0 < x) (hc : 0 ≤ c) :
    (x - softThr x c) * softThr x c = c * softThr x c := by
  rw [softThr_mul x hc, abs_of_nonneg (softThr_nonneg hx)]

/-- C07: `positive_part.lagrange_prox`. -/
theorem C07_positive_part_lagrange_prox {n : ℕ} (x : Fin n → K) (L lam : K) (hL : 0 < L) (hl : 0 ≤ lam) :
    IsProx L (fun z => lam * ∑ i, max (z i) 0) x (PosPart.lagrangeProx x L lam) := by
  have := isProx_of_coord (h := fun _ z => lam * max z 0) hL (x := x) (p := PosPart.lagrangeProx x L lam) (by
    intro i z
    have hc : 0 ≤ lam / L := div_nonneg hl hL.le
    have hLl : L * (lam / L) = lam := by field_simp
    have hz1 := le_max_left z 0
    have hz2 := le_max_right z 0
    simp only [PosPart.lagrangeProx]
    split_ifs with h
    · rcases le_total (lam / L) (x i) with h' | h'
      · rw [max_eq_left (by linarith : 0 ≤ x i - lam / L), max_eq_left (by linarith)]
        have : L * ((x i - (x i - lam / L)) * (z - (x i - lam / L))) = lam * (z - (x i - lam / L)) := by
          rw [sub_sub_cancel, ← mul_assoc, hLl]
        rw [this]; nlinarith
      · rw [max_eq_right (by linarith : x i - lam / L ≤ 0)]
        simp only [max_self, sub_zero, mul_zero, zero_add]
        have h3 : L * x i ≤ lam := by rw [← hLl]; exact mul_le_mul_of_nonneg_left h' hL.le
        have h4 : 0 < L * x i := mul_pos hL h
        calc L * (x i * z) = (L * x i) * z := by ring
          _ ≤ (L * x i) * max z 0 := mul_le_mul_of_nonneg_left hz1 h4.le
          _ ≤ lam * max z 0 := mul_le_mul_of_nonneg_right h3 hz2
    · push Not at h
      rw [max_eq_right h]
      simp only [sub_self, zero_mul, mul_zero, add_zero]
      positivity)
  simpa [Finset.mul_sum] using this

/-- C07: `positive_part.bound_prox`. -/
theorem C07_positive_part_bound_prox {n : ℕ} (x : Fin n → K) (bound : K) (hb : 0 ≤ bound) :
    ∃ p, PosPart.boundProx x bound = some p ∧ IsProj {z | ∑ i, max (z i) 0 ≤ bound} x p := by
  obtain ⟨cut, v, h1, h2, hpos, hneg, h3⟩ := projPos_spec x x hb
  refine ⟨v, h1, isProj_of_vi ?_ ?_⟩
  · have : ∑ i, max (v i) 0 = ∑ i, (if x i > 0 then softThr (x i) cut else 0) := by
      refine Finset.sum_congr rfl fun i _ => ?_
      split_ifs with h
      · rw [hpos i h, max_eq_left (softThr_nonneg h)]
      · push Not at h; rw [hneg i h, max_eq_right h]
    simp only [Set.mem_ofPred_eq]
    rw [this]; rcases h3 with ⟨_, h⟩ | h; exacts [h, h.le]
  · intro z hz
    simp only [Set.mem_ofPred_eq] at hz
    have h4 : ∀ i, (x i - v i) * (z i - v i) ≤
        cut * max (z i) 0 - cut * (if x i > 0 then softThr (x i) cut else 0) := by
      intro i
      have hz1 := le_max_left (z i) 0
      have hz2 := le_max_right (z i) 0
      split_ifs with h
      · rw [hpos i h, mul_sub, softThr_pos_mul h h2]
        obtain ⟨h5, h6⟩ := softThr_pos_resid h h2
        have : (x i - softThr (x i) cut) * z i ≤ cut * max (z i) 0 :=
          le_trans (mul_le_mul_of_nonneg_left hz1 h5) (mul_le_mul_of_nonneg_right h6 hz2)
        linarith
      · push Not at h; rw [hneg i h]; simp; positivity
    calc _ ≤ ∑ i, (cut * max (z i) 0 - cut * (if x i > 0 then softThr (x i) cut else 0)) :=
          Finset.sum_le_sum fun i _ => h4 i
      _ = cut * (∑ i, max (z i) 0 - ∑ i, (if x i > 0 then softThr (x i) cut else 0)) := by
          rw [mul_sub, Finset.mul_sum, Finset.mul_sum, Finset.sum_sub_distrib]
      _ ≤ 0 := by
          rcases h3 with ⟨rfl, _⟩ | h
          · simp
          · rw [h]; nlinarith

/-- C07: `constrained_max.bound_prox` is the projection on `[0, bound]^n`. -/
theorem C07_constrained_max_bound_prox {n : ℕ} (x : Fin n → K) (bound : K) (hb : 0 ≤ bound) :
    IsProj {z | ∀ i, 0 ≤ z i ∧ z i ≤ bound} x (ConMax.boundProx x bound) := by
  apply isProj_of_vi
  · intro i
    unfold ConMax.boundProx npClip
    exact ⟨le_min (le_max_right _ _) hb, min_le_right _ _⟩
  · intro z hz
    apply Finset.sum_nonpos
    intro i _
    obtain ⟨h1, h2⟩ := hz i
    simp only [ConMax.boundProx, npClip]
    rcases le_total (x i) 0 with h | h
    · rw [max_eq_right h, min_eq_left hb]; nlinarith
    · rw [max_eq_left h]
      rcases le_total (x i) bound with h' | h'
      · rw [min_eq_left h']; simp
      · rw [min_eq_right h']; nlinarith

/-- C07: `constrained_max.lagrange_prox` minimises `L/2‖z-x‖² + lagrange*max(z)` over `z ≥ 0`. -/
theorem C07_constrained_max_lagrange_prox {n : ℕ} (x : Fin (n + 1) → K) (L lam : K) (hL : 0 < L) (hl : 0 ≤ lam) :
    ∃ p, ConMax.lagrangeProx x L lam = some p ∧ IsProxOn L (fun z => lam * maxCoord z) {z | ∀ i, 0 ≤ z i} x p := by
  have hb : 0 ≤ lam / L := div_nonneg hl hL.le
  have hLl : L * (lam / L) = lam := by field_simp
  obtain ⟨cut, v, h1, h2, hpos, hneg, h3⟩ := projPos_spec x x hb
  refine ⟨fun i => x i - v i, by simp [ConMax.lagrangeProx, h1], isProxOn_of_subgrad hL ?_ ?_⟩
  · intro i
    rcases lt_or_ge 0 (x i) with h | h
    · simp only [hpos i h]; exact (softThr_pos_resid h h2).1
    · simp [hneg i h]
  · intro z hz
    simp only [sub_sub_cancel]
    have hz0 : 0 ≤ maxCoord z := le_trans (hz 0) (le_maxCoord z 0)
    set s := ∑ i, (if x i > 0 then softThr (x i) cut else 0) with hs
    have hsle : s ≤ lam / L := by rcases h3 with ⟨_, h⟩ | h; exacts [h, h.le]
    have hp : maxCoord (fun i => x i - v i) ≤ cut := by
      apply maxCoord_le; intro i
      rcases lt_or_ge 0 (x i) with h | h
      · rw [hpos i h]; exact (softThr_pos_resid h h2).2
      · rw [hneg i h]; simpa using h2
    have h5 : ∑ i, v i * (z i - (x i - v i)) ≤ s * maxCoord z - cut * s := by
      rw [hs, Finset.sum_mul, Finset.mul_sum, ← Finset.sum_sub_distrib]
      apply Finset.sum_le_sum; intro i _
      split_ifs with h
      · rw [hpos i h, mul_sub]
        have e := softThr_pos_mul h h2
        have : softThr (x i) cut * z i ≤ softThr (x i) cut * maxCoord z :=
          mul_le_mul_of_nonneg_left (le_maxCoord z i) (softThr_nonneg h)
        nlinarith
      · push Not at h
        rw [hneg i h]; simp
        exact mul_nonpos_of_nonpos_of_nonneg h (hz i)
    have h6 : L * (s * maxCoord z) ≤ lam * maxCoord z := by
      rw [← hLl, mul_assoc]
      exact mul_le_mul_of_nonneg_left (mul_le_mul_of_nonneg_right hsle hz0) hL.le
    have h7 : lam * maxCoord (fun i => x i - v i) ≤ L * (cut * s) := by
      rcases h3 with ⟨h0, _⟩ | h
      · rw [h0] at hp ⊢; nlinarith
      · rw [h]
        calc lam * _ ≤ lam * cut := mul_le_mul_of_nonneg_left hp hl
          _ = L * (cut * (lam / L)) := by rw [← hLl]; field_simp
    have h8 := mul_le_mul_of_nonneg_left h5 hL.le
    rw [mul_sub] at h8
    linarith

/-- C07: `constrained_positive_part.lagrange_prox` minimises `L/2‖z-x‖² + lagrange*Σ z` over `z ≥ 0`. -/
theorem C07_constrained_positive_part_lagrange_prox {n : ℕ} (x : Fin n → K) (L lam : K) (hL : 0 < L)
    (hl : 0 ≤ lam) :
    IsProxOn L (fun z => lam * ∑ i, z i) {z | ∀ i, 0 ≤ z i} x (ConPosPart.lagrangeProx x L lam) := by
  have hc : 0 ≤ lam / L := div_nonneg hl hL.le
  have hLl : L * (lam / L) = lam := by field_simp
  apply isProxOn_of_subgrad hL
  · intro i; simp only [ConPosPart.lagrangeProx]; split_ifs
    · exact le_max_right _ _
    · exact le_refl _
  · intro z hz
    rw [Finset.mul_sum, Finset.mul_sum, Finset.mul_sum, ← Finset.sum_add_distrib]
    apply Finset.sum_le_sum; intro i _
    have hzi := hz i
    simp only [ConPosPart.lagrangeProx]
    split_ifs with h
    · rcases le_total (lam / L) (x i) with h' | h'
      · rw [max_eq_left (by linarith : 0 ≤ x i - lam / L)]
        have : L * ((x i - (x i - lam / L)) * (z i - (x i - lam / L))) = lam * (z i - (x i - lam / L)) := by
          rw [sub_sub_cancel, ← mul_assoc, hLl]
        rw [this]; nlinarith
      · rw [max_eq_right (by linarith : x i - lam / L ≤ 0)]
        have h3 : L * x i ≤ lam := by rw [← hLl]; exact mul_le_mul_of_nonneg_left h' hL.le
        simp only [sub_zero, mul_zero, zero_add]
        calc L * (x i * z i) = (L * x i) * z i := by ring
          _ ≤ lam * z i := mul_le_mul_of_nonneg_right h3 hzi
    · push Not at h
      simp only [sub_zero, mul_zero, zero_add]
      have : x i * z i ≤ 0 := mul_nonpos_of_nonpos_of_nonneg h hzi
      nlinarith [mul_nonneg hl hzi]

/-- C07: `constrained_positive_part.bound_prox` projects on `{z ≥ 0, Σ z ≤ bound}`. -/
theorem C07_constrained_positive_part_bound_prox {n : ℕ} (x : Fin n → K) (bound : K) (hb : 0 ≤ bound) :
    ∃ p, ConPosPart.boundProx x bound = some p ∧ IsProj {z | (∀ i, 0 ≤ z i) ∧ ∑ i, z i ≤ bound} x p := by
  obtain ⟨cut, v, h1, h2, hpos, hneg, h3⟩ := projPos_spec x (fun _ => 0) hb
  have hv : ∑ i, v i = ∑ i, (if x i > 0 then softThr (x i) cut else 0) := by
    refine Finset.sum_congr rfl fun i _ => ?_
    split_ifs with h
    · rw [hpos i h]
    · push Not at h; rw [hneg i h]
  refine ⟨v, h1, isProj_of_vi ⟨?_, ?_⟩ ?_⟩
  · intro i
    rcases lt_or_ge 0 (x i) with h | h
    · rw [hpos i h]; exact softThr_nonneg h
    · rw [hneg i h]
  · rw [hv]; rcases h3 with ⟨_, h⟩ | h; exacts [h, h.le]
  · rintro z ⟨hz, hzs⟩
    have h4 : ∀ i, (x i - v i) * (z i - v i) ≤ cut * z i - cut * (if x i > 0 then softThr (x i) cut else 0) := by
      intro i
      split_ifs with h
      · rw [hpos i h, mul_sub, softThr_pos_mul h h2]
        obtain ⟨h5, h6⟩ := softThr_pos_resid h h2
        have := mul_le_mul_of_nonneg_right h6 (hz i)
        linarith
      · push Not at h; rw [hneg i h]; simp
        have : x i * z i ≤ 0 := mul_nonpos_of_nonpos_of_nonneg h (hz i)
        nlinarith [mul_nonneg h2 (hz i)]
    calc _ ≤ ∑ i, (cut * z i - cut * (if x i > 0 then softThr (x i) cut else 0)) :=
          Finset.sum_le_sum fun i _ => h4 i
      _ = cut * (∑ i, z i - ∑ i, (if x i > 0 then softThr (x i) cut else 0)) := by
          rw [mul_sub, Finset.mul_sum, Finset.mul_sum, Finset.sum_sub_distrib]
      _ ≤ 0 := by
          rcases h3 with ⟨rfl, _⟩ | h
          · simp
          · rw [h]; nlinarith

/-- C07: `max_positive_part.bound_prox` projects on `{z : max(z⁺) ≤ bound}`. -/
theorem C07_max_positive_part_bound_prox {n : ℕ} (x : Fin n → K) (bound : K) (hb : 0 ≤ bound) :
    IsProj {z | ∀ i, max (z i) 0 ≤ bound} x (MaxPosPart.boundProx x bound) := by
  apply isProj_of_vi
  · intro i; unfold MaxPosPart.boundProx; exact max_le (min_le_right _ _) hb
  · intro z hz
    apply Finset.sum_nonpos
    intro i _
    have h2 := le_trans (le_max_left _ _) (hz i)
    simp only [MaxPosPart.boundProx]
    rcases le_total (x i) bound with h' | h'
    · rw [min_eq_left h']; simp
    · rw [min_eq_right h']; nlinarith

/-- C07: `max_positive_part.lagrange_prox` is the proximal map of `lagrange * max(z⁺)`. -/
theorem C07_max_positive_part_lagrange_prox {n : ℕ} (x : Fin (n + 1) → K) (L lam : K) (hL : 0 < L) (hl : 0 ≤ lam) :
    ∃ p, MaxPosPart.lagrangeProx x L lam = some p ∧
      IsProx L (fun z => lam * maxCoord fun i => max (z i) 0) x p := by
  have hb : 0 ≤ lam / L := div_nonneg hl hL.le
  have hLl : L * (lam / L) = lam := by field_simp
  obtain ⟨cut, v, h1, h2, hpos, hneg, h3⟩ := projPos_spec x (fun _ => 0) hb
  refine ⟨fun i => x i - v i, by simp [MaxPosPart.lagrangeProx, h1], isProx_of_subgrad hL ?_⟩
  intro z
  simp only [sub_sub_cancel]
  set M := maxCoord (fun i => max (z i) 0) with hM
  have hz0 : 0 ≤ M := le_trans (le_max_right (z 0) 0) (le_maxCoord (fun i => max (z i) 0) 0)
  set s := ∑ i, (if x i > 0 then softThr (x i) cut else 0) with hs
  have hsle : s ≤ lam / L := by rcases h3 with ⟨_, h⟩ | h; exacts [h, h.le]
  have hp : maxCoord (fun i => max (x i - v i) 0) ≤ cut := by
    apply maxCoord_le; intro i
    rcases lt_or_ge 0 (x i) with h | h
    · rw [hpos i h]; exact max_le (softThr_pos_resid h h2).2 h2
    · rw [hneg i h]; exact max_le (by linarith) h2
  have h5 : ∑ i, v i * (z i - (x i - v i)) ≤ s * M - cut * s := by
    rw [hs, Finset.sum_mul, Finset.mul_sum, ← Finset.sum_sub_distrib]
    apply Finset.sum_le_sum; intro i _
    split_ifs with h
    · rw [hpos i h, mul_sub]
      have e := softThr_pos_mul h h2
      have : softThr (x i) cut * z i ≤ softThr (x i) cut * M :=
        mul_le_mul_of_nonneg_left (le_trans (le_max_left _ _) (le_maxCoord (fun i => max (z i) 0) i))
          (softThr_nonneg h)
      nlinarith
    · push Not at h
      rw [hneg i h]; simp
  have h6 : L * (s * M) ≤ lam * M := by
    rw [← hLl, mul_assoc]
    exact mul_le_mul_of_nonneg_left (mul_le_mul_of_nonneg_right hsle hz0) hL.le
  have h7 : lam * maxCoord (fun i => max (x i - v i) 0) ≤ L * (cut * s) := by
    rcases h3 with ⟨h0, _⟩ | h
    · rw [h0] at hp ⊢; nlinarith
    · rw [h]
      calc lam * _ ≤ lam * cut := mul_le_mul_of_nonneg_left hp hl
        _ = L * (cut * (lam / L)) := by rw [← hLl]; field_simp
  have h8 := mul_le_mul_of_nonneg_left h5 hL.le
  rw [mul_sub] at h8
  linarith

/-- concrete inputs meeting the hypotheses, mixed signs -/
example : ∃ p, PosPart.boundProx (![3, -1, 2] : Fin 3 → ℚ) 1 = some p ∧
    IsProj {z | ∑ i, max (z i) 0 ≤ 1} ![3, -1, 2] p := C07_positive_part_bound_prox _ _ (by norm_num)
example : ∃ p, ConMax.lagrangeProx (![3, -1, 2] : Fin 3 → ℚ) 2 1 = some p ∧
    IsProxOn 2 (fun z => 1 * maxCoord z) {z | ∀ i, 0 ≤ z i} ![3, -1, 2] p :=
  C07_constrained_max_lagrange_prox _ _ _ (by norm_num) (by norm_num)
example : ∃ p, MaxPosPart.lagrangeProx (![3, -1, 2] : Fin 3 → ℚ) 2 1 = some p ∧
    IsProx 2 (fun z => 1 * maxCoord fun i => max (z i) 0) ![3, -1, 2] p :=
  C07_max_positive_part_lagrange_prox _ _ _ (by norm_num) (by norm_num)

end Verif.Props
