import Verif.Model.Cones
import Verif.Lemmas.Cone
import Verif.Lemmas.L2
import Verif.Props.C04_Epigraph

/-! # C16 and C17: cone projections -/

set_option linter.unusedSectionVars false
set_option linter.unusedVariables false

namespace Verif.Props
open Verif.Model Verif.Lemmas Verif.Spec

variable {K : Type*} [Field K] [LinearOrder K] [IsStrictOrderedRing K]

/-! ## C16: coordinate cones -/

theorem C16_nonnegative {n : ℕ} (x : Fin n → K) : IsProj {z | ∀ i, 0 ≤ z i} x (Cone.nonnegProx x) := by
  apply isProj_of_vi
  · intro i; exact le_max_right _ _
  · intro z hz
    apply Finset.sum_nonpos; intro i _
    unfold Cone.nonnegProx
    rcases le_total 0 (x i) with h | h
    · rw [max_eq_left h]; simp
    · rw [max_eq_right h]; nlinarith [hz i]

/-- **C16** `nonpositive.cone_prox` is the projection on the nonpositive orthant. -/
theorem C16_nonpositive {n : ℕ} (x : Fin n → K) : IsProj {z | ∀ i, z i ≤ 0} x (Cone.nonposProx x) := by
  apply isProj_of_vi
  · intro i; exact min_le_right _ _
  · intro z hz
    apply Finset.sum_nonpos; intro i _
    unfold Cone.nonposProx
    rcases le_total 0 (x i) with h | h
    · rw [min_eq_right h]; nlinarith [hz i]
    · rw [min_eq_left h]; simp

/-- `zero` is the support function of `{0}`, so its cone is the whole space. -/
theorem C16_zero {n : ℕ} (x : Fin n → K) : IsProj Set.univ x (Cone.zeroProx x) := by
  apply isProj_of_vi (Set.mem_univ _)
  intro z _; simp [Cone.zeroProx]

/-- **C16** `zero_constraint.cone_prox` is the projection on the origin. -/
theorem C16_zero_constraint {n : ℕ} (x : Fin n → K) : IsProj {z | ∀ i, z i = 0} x (Cone.zeroConstraintProx x) := by
  apply isProj_of_vi
  · intro i; rfl
  · intro z hz
    apply Finset.sum_nonpos; intro i _
    simp [Cone.zeroConstraintProx, hz i]

/-- The registered polar pairs (nonnegative, nonpositive) and (zero, zero_constraint) sum to the input. -/
theorem C16_moreau {n : ℕ} (x : Fin n → K) (i : Fin n) :
    Cone.nonnegProx x i + Cone.nonposProx x i = x i ∧ Cone.zeroProx x i + Cone.zeroConstraintProx x i = x i := by
  constructor
  · unfold Cone.nonnegProx Cone.nonposProx
    rcases le_total 0 (x i) with h | h
    · rw [max_eq_left h, min_eq_right h, add_zero]
    · rw [max_eq_right h, min_eq_left h, zero_add]
  · simp [Cone.zeroProx, Cone.zeroConstraintProx]

/-- `constraint` accepts every projected point. -/
theorem C16_feasible {n : ℕ} (x : Fin (n + 1) → K) :
    Cone.nonnegConstraint (Cone.nonnegProx x) = 0 ∧ Cone.nonposConstraint (Cone.nonposProx x) = 0 := by
  have hnn : ∀ y : Fin (n + 1) → K, 0 ≤ npMax (fun i => |y i|) * atomTol := fun y =>
    mul_nonneg (le_trans (abs_nonneg (y 0)) (le_maxCoord (fun i => |y i|) 0)) (by unfold atomTol; positivity)
  constructor
  · unfold Cone.nonnegConstraint
    dsimp only
    rw [if_pos]
    intro i
    have := hnn (Cone.nonnegProx x)
    have : 0 ≤ Cone.nonnegProx x i := le_max_right _ _
    linarith
  · unfold Cone.nonposConstraint
    dsimp only
    rw [if_pos]
    intro i
    have := hnn (Cone.nonposProx x)
    have : Cone.nonposProx x i ≤ 0 := min_le_right _ _
    linarith

/-- Conversely, with zero slack: whenever `constraint` rejects, the point is outside the cone. -/
theorem C16_reject {n : ℕ} (x : Fin (n + 1) → K) :
    (Cone.nonnegConstraint x = ⊤ → ∃ i, x i < 0) ∧ (Cone.nonposConstraint x = ⊤ → ∃ i, 0 < x i) := by
  have hnn : 0 ≤ npMax (fun i => |x i|) * atomTol :=
    mul_nonneg (le_trans (abs_nonneg (x 0)) (le_maxCoord (fun i => |x i|) 0)) (by unfold atomTol; positivity)
  constructor
  · intro h
    by_contra hc
    push Not at hc
    unfold Cone.nonnegConstraint at h
    dsimp only at h
    rw [if_pos fun i => by have := hc i; linarith] at h
    exact WithTop.zero_ne_top h
  · intro h
    by_contra hc
    push Not at hc
    unfold Cone.nonposConstraint at h
    dsimp only at h
    rw [if_pos fun i => by have := hc i; linarith] at h
    exact WithTop.zero_ne_top h

example : Cone.nonnegProx (![1, -2] : Fin 2 → ℚ) = ![1, 0] := by
  funext i; fin_cases i <;> simp [Cone.nonnegProx]

/-! ## C17: epigraph cones -/

/-- l1 epigraph -/
theorem C17_l1_epigraph {n : ℕ} (x : (Fin (n + 1) → K) × K) :
    ∃ p, Cone.l1EpiProx x = some p ∧ IsProjPair {z | ∑ i, |z.1 i| ≤ z.2} x p :=
  C04_projl1_epigraph x.1 x.2

private lemma cone_l1 {n : ℕ} : IsConvexCone {z : (Fin n → K) × K | ∑ i, |z.1 i| ≤ z.2} := by
  intro x hx y hy s t hs ht
  simp only [Set.mem_ofPred_eq] at hx hy ⊢
  calc ∑ i, |s * x.1 i + t * y.1 i| ≤ ∑ i, (s * |x.1 i| + t * |y.1 i|) := by
        apply Finset.sum_le_sum; intro i _
        calc |s * x.1 i + t * y.1 i| ≤ |s * x.1 i| + |t * y.1 i| := abs_add_le _ _
          _ = _ := by rw [abs_mul, abs_mul, abs_of_nonneg hs, abs_of_nonneg ht]
    _ = s * ∑ i, |x.1 i| + t * ∑ i, |y.1 i| := by rw [Finset.sum_add_distrib, Finset.mul_sum, Finset.mul_sum]
    _ ≤ _ := add_le_add (mul_le_mul_of_nonneg_left hx hs) (mul_le_mul_of_nonneg_left hy ht)

/-- polar of the l1 epigraph -/
private lemma polar_l1 {n : ℕ} :
    polarPair {z : (Fin (n + 1) → K) × K | ∑ i, |z.1 i| ≤ z.2} = {z | ∀ i, |z.1 i| ≤ -z.2} := by
  ext w
  constructor
  · intro h i
    have := h (fun j => if j = i then (if 0 ≤ w.1 i then 1 else -1) else 0, 1) (by
      have : ∀ j, |(if j = i then (if 0 ≤ w.1 i then (1:K) else -1) else 0)| = if j = i then 1 else 0 := by
        intro j; split_ifs <;> simp
      simp [this])
    simp only [pdot, mul_ite, mul_zero, Finset.sum_ite_eq', Finset.mem_univ, if_true, mul_one] at this
    split_ifs at this with h0
    · rw [abs_of_nonneg h0]; linarith
    · rw [abs_of_neg (not_le.1 h0)]; linarith
  · intro h z hz
    simp only [Set.mem_ofPred_eq] at h hz
    unfold pdot
    have hw : 0 ≤ -w.2 := le_trans (abs_nonneg _) (h 0)
    have : ∑ i, w.1 i * z.1 i ≤ -w.2 * ∑ i, |z.1 i| := by
      rw [Finset.mul_sum]
      apply Finset.sum_le_sum; intro i _
      calc w.1 i * z.1 i ≤ |w.1 i * z.1 i| := le_abs_self _
        _ = |w.1 i| * |z.1 i| := abs_mul _ _
        _ ≤ _ := mul_le_mul_of_nonneg_right (h i) (abs_nonneg _)
    nlinarith

/-- polar of the l1 epigraph: `{(u,s) : max|u| ≤ -s}` -/
theorem C17_l1_epigraph_polar {n : ℕ} (x : (Fin (n + 1) → K) × K) :
    ∃ p, Cone.l1EpiPolarProx x = some p ∧ IsProjPair {z | ∀ i, |z.1 i| ≤ -z.2} x p := by
  obtain ⟨p, h1, h2⟩ := C04_projl1_epigraph x.1 x.2
  refine ⟨_, by unfold Cone.l1EpiPolarProx; rw [h1]; rfl, ?_⟩
  have := moreau_pair cone_l1 h2
  rw [polar_l1] at this
  exact this

/-- negative of the l1 epigraph: `{(u,s) : Σ|u| ≤ -s}` -/
theorem C17_linf_epigraph_polar {n : ℕ} (x : (Fin (n + 1) → K) × K) :
    ∃ p, Cone.linfEpiPolarProx x = some p ∧ IsProjPair {z | ∑ i, |z.1 i| ≤ -z.2} x p := by
  obtain ⟨p, h1, h2⟩ := C04_projl1_epigraph (fun i => -x.1 i) (-x.2)
  refine ⟨_, by unfold Cone.linfEpiPolarProx; rw [h1]; rfl, ?_⟩
  have := isProjPair_neg (x := x) h2
  simpa using this

/-- sup norm epigraph: `{(u,s) : max|u| ≤ s}` -/
theorem C17_linf_epigraph {n : ℕ} (x : (Fin (n + 1) → K) × K) :
    ∃ p, Cone.linfEpiProx x = some p ∧ IsProjPair {z | ∀ i, |z.1 i| ≤ z.2} x p := by
  obtain ⟨p, h1, h2⟩ := C04_projl1_epigraph (fun i => -x.1 i) (-x.2)
  refine ⟨_, by unfold Cone.linfEpiProx; rw [h1]; rfl, ?_⟩
  have h3 := moreau_pair cone_l1 h2
  rw [polar_l1] at h3
  have h4 := isProjPair_neg (x := x) h3
  have e : ((fun i => -(-x.1 i - p.1 i), -(-x.2 - p.2)) : (Fin (n + 1) → K) × K) =
      (fun i => x.1 i + p.1 i, x.2 + p.2) := by
    ext1
    · funext i; ring
    · ring
  simp only at h4
  rw [e] at h4
  simpa using h4

/-- l2 epigraph (partial): correct for every point with nonzero vector part that is not strictly inside the cone.
Missing: points strictly inside are moved (`C17_l2_epigraph_fails`), and for a zero vector part the code divides by
zero (`C17_l2_epigraph_nan`). -/
theorem C17_l2_epigraph_partial {n : ℕ} (x : (Fin n → ℝ) × ℝ) (h0 : ∃ i, x.1 i ≠ 0)
    (h : x.2 ≤ Real.sqrt (∑ i, x.1 i ^ 2)) :
    ∃ p, Cone.l2EpiProx x = some p ∧ IsProjPair {z | Real.sqrt (∑ i, z.1 i ^ 2) ≤ z.2} x p := by
  have hN : npNorm x.1 ≠ 0 := by
    intro e; obtain ⟨i, hi⟩ := h0; exact hi (npNorm_eq_zero e i)
  have hNpos : 0 < npNorm x.1 := lt_of_le_of_ne (npNorm_nonneg _) (Ne.symm hN)
  change x.2 ≤ npNorm x.1 at h
  refine ⟨_, by unfold Cone.l2EpiProx; dsimp only; rw [if_neg hN], ?_⟩
  set N := npNorm x.1 with hNd
  have e1 : N - (N - x.2) / 2 = (N + x.2) / 2 := by ring
  have e2 : x.2 + (N - x.2) / 2 = (N + x.2) / 2 := by ring
  rw [e1, e2]
  set m := max ((N + x.2) / 2) 0 with hm
  have hm0 : 0 ≤ m := le_max_right _ _
  have hnorm : npNorm (fun i => x.1 i / N * m) = m := by
    have : (fun i => x.1 i / N * m) = fun i => (m / N) * x.1 i := by funext i; ring
    rw [this, npNorm_smul, abs_of_nonneg (by positivity), ← hNd]; field_simp
  apply isProjPair_of_vi
  · exact hnorm.le
  · rintro ⟨z, r⟩ hz
    have hz' : npNorm z ≤ r := hz
    simp only
    -- x - p = (1 - m/N) x on the vector part
    have e3 : ∑ i, (x.1 i - x.1 i / N * m) * (z i - x.1 i / N * m) =
        (1 - m / N) * (∑ i, x.1 i * z i) - (1 - m / N) * m * N := by
      have hsq : ∑ i, x.1 i * x.1 i = N ^ 2 := by
        rw [hNd, sq_npNorm]; exact Finset.sum_congr rfl fun i _ => by ring
      have : ∑ i, (x.1 i - x.1 i / N * m) * (z i - x.1 i / N * m) =
        (1 - m / N) * (∑ i, x.1 i * z i) - (1 - m / N) * (m / N) * ∑ i, x.1 i * x.1 i := by
        rw [Finset.mul_sum, Finset.mul_sum, ← Finset.sum_sub_distrib]
        exact Finset.sum_congr rfl fun i _ => by ring
      rw [this, hsq]; field_simp
    rw [e3]
    have hc := cauchy x.1 z
    rw [← hNd] at hc
    have hmN : m ≤ N := max_le (by linarith) hNpos.le
    have hcoef : 0 ≤ 1 - m / N := by rw [sub_nonneg, div_le_one hNpos]; exact hmN
    have h5 : (1 - m / N) * (∑ i, x.1 i * z i) ≤ (1 - m / N) * (N * r) :=
      mul_le_mul_of_nonneg_left (hc.trans (mul_le_mul_of_nonneg_left hz' hNpos.le)) hcoef
    have h6 : (1 - m / N) * (N * r) - (1 - m / N) * m * N = (N - m) * (r - m) := by field_simp
    have h7 : (N - m) * (r - m) + (x.2 - m) * (r - m) ≤ 0 := by
      have hr : 0 ≤ r := le_trans (npNorm_nonneg z) hz'
      rcases le_total 0 ((N + x.2) / 2) with hs | hs
      · have : m = (N + x.2) / 2 := max_eq_left hs
        rw [this]; nlinarith
      · have : m = 0 := max_eq_right hs
        rw [this]; nlinarith
    linarith

/-- l2 epigraph polar (partial, same exclusions mirrored). -/
theorem C17_l2_epigraph_polar_partial {n : ℕ} (x : (Fin n → ℝ) × ℝ) (h0 : ∃ i, x.1 i ≠ 0)
    (h : -x.2 ≤ Real.sqrt (∑ i, x.1 i ^ 2)) :
    ∃ p, Cone.l2EpiPolarProx x = some p ∧ IsProjPair {z | Real.sqrt (∑ i, z.1 i ^ 2) ≤ -z.2} x p := by
  obtain ⟨p, h1, h2⟩ := C17_l2_epigraph_partial (fun i => -x.1 i, -x.2)
    (by obtain ⟨i, hi⟩ := h0; exact ⟨i, by simpa using hi⟩) (by simpa using h)
  refine ⟨_, by unfold Cone.l2EpiPolarProx; rw [h1]; rfl, ?_⟩
  have := isProjPair_neg (x := x) h2
  simpa using this

/-- C17 is false for l2_epigraph: the point (1; 3) is inside the epigraph but is mapped to (2; 2). -/
theorem C17_l2_epigraph_fails :
    (((fun _ => 1, 3) : (Fin 1 → ℝ) × ℝ) ∈ {z : (Fin 1 → ℝ) × ℝ | Real.sqrt (∑ i, z.1 i ^ 2) ≤ z.2}) ∧
    Cone.l2EpiProx ((fun _ => 1, 3) : (Fin 1 → ℝ) × ℝ) = some (fun _ => 2, 2) ∧
    ¬ IsProjPair {z : (Fin 1 → ℝ) × ℝ | Real.sqrt (∑ i, z.1 i ^ 2) ≤ z.2} (fun _ => 1, 3) (fun _ => 2, 2) := by
  have hmem : ((fun _ => 1, 3) : (Fin 1 → ℝ) × ℝ) ∈ {z : (Fin 1 → ℝ) × ℝ | Real.sqrt (∑ i, z.1 i ^ 2) ≤ z.2} := by
    simp
  refine ⟨hmem, ?_, ?_⟩
  · have : npNorm (fun _ : Fin 1 => (1:ℝ)) = 1 := by simp [npNorm]
    unfold Cone.l2EpiProx
    simp only [this]
    norm_num
  · rintro ⟨_, h⟩
    have hne : ((fun _ => 1, 3) : (Fin 1 → ℝ) × ℝ) ≠ (fun _ => 2, 2) := by
      intro e
      have := congrArg Prod.snd e
      norm_num at this
    have := h _ hmem hne
    simp only [sqDist] at this
    norm_num at this

/-- and for a zero vector part the result is not a number, in every dimension and for every norm. -/
theorem C17_l2_epigraph_nan {n : ℕ} (s : ℝ) : Cone.l2EpiProx ((fun _ => 0, s) : (Fin n → ℝ) × ℝ) = none := by
  unfold Cone.l2EpiProx
  simp only [npNorm_zero]
  simp

/-- `constraint` accepts the projected points of the four polyhedral epigraph cones. -/
theorem C17_feasible {n : ℕ} (x : (Fin (n + 1) → K) × K) :
    (∀ p, Cone.l1EpiProx x = some p → Cone.l1EpiConstraint p = 0) ∧
    (∀ p, Cone.l1EpiPolarProx x = some p → Cone.l1EpiPolarConstraint p = 0) ∧
    (∀ p, Cone.linfEpiProx x = some p → Cone.linfEpiConstraint p = 0) ∧
    (∀ p, Cone.linfEpiPolarProx x = some p → Cone.linfEpiPolarConstraint p = 0) := by
  have ht : (0:K) ≤ atomTol := by unfold atomTol; positivity
  have up : ∀ s : K, 0 ≤ s → s ≤ (1 + atomTol) * s := fun s hs => by nlinarith
  refine ⟨?_, ?_, ?_, ?_⟩
  · intro p hp
    obtain ⟨q, h1, h2, _⟩ := C17_l1_epigraph x
    rw [hp] at h1; injection h1 with h1; subst h1
    simp only [Set.mem_ofPred_eq] at h2
    unfold Cone.l1EpiConstraint
    rw [if_pos (h2.trans (up _ ((Finset.sum_nonneg fun i _ => abs_nonneg _).trans h2)))]
  · intro p hp
    obtain ⟨q, h1, h2, _⟩ := C17_l1_epigraph_polar x
    rw [hp] at h1; injection h1 with h1; subst h1
    simp only [Set.mem_ofPred_eq] at h2
    unfold Cone.l1EpiPolarConstraint
    rw [if_pos]
    refine le_trans ?_ (up _ ((abs_nonneg _).trans (h2 0)))
    exact maxCoord_le fun i => by rw [abs_neg]; exact h2 i
  · intro p hp
    obtain ⟨q, h1, h2, _⟩ := C17_linf_epigraph x
    rw [hp] at h1; injection h1 with h1; subst h1
    simp only [Set.mem_ofPred_eq] at h2
    unfold Cone.linfEpiConstraint
    rw [if_pos]
    refine le_trans ?_ (up _ ((abs_nonneg _).trans (h2 0)))
    exact maxCoord_le h2
  · intro p hp
    obtain ⟨q, h1, h2, _⟩ := C17_linf_epigraph_polar x
    rw [hp] at h1; injection h1 with h1; subst h1
    simp only [Set.mem_ofPred_eq] at h2
    unfold Cone.linfEpiPolarConstraint
    rw [if_pos (h2.trans (up _ ((Finset.sum_nonneg fun i _ => abs_nonneg _).trans h2)))]

/-- a point meeting the hypotheses of the l2 theorem: (3,4; 1) -/
example : (∃ i, (![3, 4] : Fin 2 → ℝ) i ≠ 0) ∧ (1:ℝ) ≤ Real.sqrt (∑ i, (![3, 4] : Fin 2 → ℝ) i ^ 2) := by
  refine ⟨⟨0, by norm_num⟩, ?_⟩
  rw [Fin.sum_univ_two]
  apply Real.le_sqrt_of_sq_le
  norm_num

end Verif.Props
