import Verif.Model.Paths
import Verif.Props.C39_LassoKKT
import Mathlib.Tactic.NormNum
import Mathlib.Data.List.MinMax

/-!
# C43: the default sequence of Lagrange parameters
-/

set_option linter.unusedSectionVars false
set_option linter.unusedVariables false

namespace Verif.Props
open Verif.Model.Paths Verif.Model.LassoPath Verif.Model.Weighted Verif.Spec Verif.Lemmas

variable {p : ℕ}

/-- `m` is the largest ratio `|gᵢ| / wᵢ` over the penalised coordinates. -/
def IsLagrangeMax (w g : Fin p → ℝ) (m : ℝ) : Prop := IsGreatest {t | ∃ i, 0 < w i ∧ t = |g i| / w i} m

private lemma max?_greatest {l : List ℝ} {m : ℝ} (h : l.max? = some m) : IsGreatest {t | t ∈ l} m := by
  rw [List.max?_eq_some_iff] at h
  exact ⟨h.1, fun t ht => h.2 t ht⟩

private lemma supSeminorm_spec (w g : Fin p → ℝ) (hw : ∀ i, 0 ≤ w i) (hpos : ∃ i, 0 < w i) :
    ∃ m, supSeminorm (conjugateWeights fun i => ((w i : ℝ) : WithTop ℝ)) g 1 false = some ((m : ℝ) : WithTop ℝ) ∧
      IsLagrangeMax w g m := by
  set l := (List.finRange p).filterMap fun i =>
    wcase (conjugateWeights (fun i => ((w i : ℝ) : WithTop ℝ)) i) none fun a => some |g i * a| with hl
  have hmem : ∀ t, t ∈ l ↔ ∃ i, 0 < w i ∧ t = |g i| / w i := by
    intro t
    rw [hl, List.mem_filterMap]
    constructor
    · rintro ⟨i, _, hi⟩
      simp only [conjugateWeights, invweights, wcase_coe] at hi
      by_cases h0 : w i = 0
      · rw [if_pos h0, wcase_top] at hi; cases hi
      · rw [if_neg h0, wcase_coe, Option.some_inj] at hi
        have hp : 0 < w i := lt_of_le_of_ne (hw i) (Ne.symm h0)
        exact ⟨i, hp, by rw [← hi, mul_one_div, abs_div, abs_of_pos hp]⟩
    · rintro ⟨i, hp, rfl⟩
      refine ⟨i, List.mem_finRange i, ?_⟩
      simp only [conjugateWeights, invweights, wcase_coe]
      rw [if_neg hp.ne', wcase_coe, mul_one_div, abs_div, abs_of_pos hp]
  have hne : l ≠ [] := by
    obtain ⟨i, hi⟩ := hpos
    intro h
    have := (hmem (|g i| / w i)).2 ⟨i, hi, rfl⟩
    rw [h] at this
    cases this
  obtain ⟨m, hm⟩ : ∃ m, l.max? = some m := by
    cases h : l.max? with
    | none => rw [List.max?_eq_none_iff] at h; exact absurd h hne
    | some m => exact ⟨m, rfl⟩
  refine ⟨m, ?_, ?_⟩
  · unfold supSeminorm
    rw [if_neg (by simp)]
    rw [← hl, hm]
    simp
  · have := max?_greatest hm
    unfold IsLagrangeMax
    have e : {t | t ∈ l} = {t | ∃ i, 0 < w i ∧ t = |g i| / w i} := by ext t; exact hmem t
    rwa [e] at this

/-- entry `k` of the sequence -/
lemma lagrangeSeq_eq (m prop : ℝ) (nstep : ℕ) (h2 : 2 ≤ nstep) (alpha : ℝ) :
    lagrangeSeq m prop nstep alpha = (List.range nstep).map fun k : ℕ =>
      m * Real.exp (Real.log prop * ((k : ℝ) / ((nstep : ℝ) - 1))) / alpha := by
  have hn : ((nstep : ℝ) - 1) ≠ 0 := by
    have : (2:ℝ) ≤ nstep := by exact_mod_cast h2
    linarith
  unfold lagrangeSeq linspace
  apply List.ext_getElem
  · simp
  · intro k hk1 hk2
    have hk : k < nstep := by simpa using hk2
    simp only [List.getElem_map, List.getElem_reverse, List.length_map, List.length_range, List.getElem_range]
    rw [if_neg (by omega)]
    congr 3
    have : ((nstep - 1 - k : ℕ) : ℝ) = (nstep : ℝ) - 1 - k := by
      rw [Nat.cast_sub (by omega), Nat.cast_sub (by omega)]; norm_num
    rw [this]
    field_simp
    ring

/-- C43: with at least two steps, `0 < lagrange_proportion < 1` and a nonzero gradient on the penalised coordinates,
the default sequence has `nstep` entries, starts at `lagrange_max / alpha`, ends at
`lagrange_proportion * lagrange_max / alpha`, and is strictly decreasing. -/
theorem C43_sequence (w g : Fin p → ℝ) (hw : ∀ i, 0 ≤ w i) (hg : ∃ i, 0 < w i ∧ g i ≠ 0) (prop alpha : ℝ)
    (hp0 : 0 < prop) (hp1 : prop < 1) (ha : 0 < alpha) (nstep : ℕ) (hn : 2 ≤ nstep) :
    ∃ l m, defaultLagrangeSequence (fun i => ((w i : ℝ) : WithTop ℝ)) g prop nstep alpha = some l ∧
      IsLagrangeMax w g m ∧ l.length = nstep ∧ l.head? = some (m / alpha) ∧ l.getLast? = some (prop * m / alpha) ∧
      l.Pairwise (· > ·) ∧ ∀ v ∈ l, 0 < v := by
  obtain ⟨i, hwi, hgi⟩ := hg
  obtain ⟨m, h1, h2⟩ := supSeminorm_spec w g hw ⟨i, hwi⟩
  have hm : 0 < m := lt_of_lt_of_le (div_pos (abs_pos.2 hgi) hwi) (h2.2 ⟨i, hwi, rfl⟩)
  have hr : (0:ℝ) < (nstep : ℝ) - 1 := by
    have : (2:ℝ) ≤ nstep := by exact_mod_cast hn
    linarith
  have hlog : Real.log prop < 0 := Real.log_neg hp0 hp1
  obtain ⟨k, rfl⟩ : ∃ k, nstep = k + 1 := ⟨nstep - 1, by omega⟩
  refine ⟨lagrangeSeq m prop (k + 1) alpha, m, ?_, h2, ?_⟩
  · unfold defaultLagrangeSequence; rw [h1]
  · rw [lagrangeSeq_eq _ _ _ hn]
    refine ⟨by simp, ?_, ?_, ?_, ?_⟩
    · simp [List.range_succ_eq_map]
    · have : ((k + 1 : ℕ) : ℝ) - 1 = k := by push_cast; ring
      rw [this] at hr
      rw [List.range_succ, List.map_append, List.map_singleton, List.getLast?_append]
      simp only [List.getLast?_singleton, Option.some_or, Option.some_inj]
      rw [this, div_self hr.ne', mul_one, Real.exp_log hp0, mul_comm m]
    · rw [List.pairwise_map]
      refine List.Pairwise.imp ?_ List.pairwise_lt_range
      intro a b hab
      have hab' : (a : ℝ) < b := by exact_mod_cast hab
      have h3 : Real.log prop * ((b : ℝ) / (((k + 1 : ℕ) : ℝ) - 1)) < Real.log prop * ((a : ℝ) / (((k + 1 : ℕ) : ℝ) - 1)) :=
        mul_lt_mul_of_neg_left (div_lt_div_of_pos_right hab' hr) hlog
      exact div_lt_div_of_pos_right (mul_lt_mul_of_pos_left (Real.exp_lt_exp.2 h3) hm) ha
    · intro v hv
      rw [List.mem_map] at hv
      obtain ⟨j, _, rfl⟩ := hv
      positivity

/-- C43 fails for `nstep = 1`: the only value is `lagrange_proportion * lagrange_max / alpha`. -/
theorem C43_one_step_fails (m prop alpha : ℝ) (hm : 0 < m) (hp0 : 0 < prop) (hp1 : prop < 1) (ha : 0 < alpha) :
    lagrangeSeq m prop 1 alpha = [prop * m / alpha] ∧ prop * m / alpha < m / alpha := by
  constructor
  · simp [lagrangeSeq, linspace, Real.exp_log hp0, mul_comm m]
  · exact div_lt_div_of_pos_right (by nlinarith) ha

/-- C43: let `b₀` be the null solution (0 on the penalised coordinates, gradient 0 on the others) of a convex loss.
For every `lam` with `alpha * lam ≥ lagrange_max`, `b₀` minimises `loss + alpha*lam ∑ wᵢ|bᵢ|`. -/
theorem C43_null_optimal {f : (Fin p → ℝ) → ℝ} {grad : (Fin p → ℝ) → Fin p → ℝ} (hf : ConvexWithGradient f grad)
    (w b₀ : Fin p → ℝ) (hw : ∀ i, 0 ≤ w i) (hpen : ∀ i, w i ≠ 0 → b₀ i = 0) (hunpen : ∀ i, w i = 0 → grad b₀ i = 0)
    {m alpha lam : ℝ} (hm : IsLagrangeMax w (grad b₀) m) (hlam : m ≤ alpha * lam) :
    Minimises (fun u => f u + alpha * lam * weightedL1 w u) Set.univ b₀ := by
  refine ⟨Set.mem_univ _, fun u _ => ?_⟩
  have h1 := tangent hf b₀ u
  have h0 : weightedL1 w b₀ = 0 := by
    unfold weightedL1
    refine Finset.sum_eq_zero fun i _ => ?_
    by_cases h : w i = 0
    · rw [h, zero_mul]
    · rw [hpen i h, abs_zero, mul_zero]
  have h2 : -(alpha * lam * weightedL1 w u) ≤ dot (grad b₀) (fun i => u i - b₀ i) := by
    unfold weightedL1 dot
    rw [Finset.mul_sum, ← Finset.sum_neg_distrib]
    refine Finset.sum_le_sum fun i _ => ?_
    by_cases h : w i = 0
    · rw [h, hunpen i h]; simp
    · have hp : 0 < w i := lt_of_le_of_ne (hw i) (Ne.symm h)
      have h3 := hm.2 ⟨i, hp, rfl⟩
      rw [div_le_iff₀ hp] at h3
      dsimp only
      rw [hpen i h, sub_zero]
      have h4 := neg_abs_le (grad b₀ i * u i)
      rw [abs_mul] at h4
      have h5 : |grad b₀ i| * |u i| ≤ alpha * lam * w i * |u i| :=
        mul_le_mul_of_nonneg_right (h3.trans (mul_le_mul_of_nonneg_right hlam hp.le)) (abs_nonneg _)
      linarith
  simp only [h0, mul_zero, add_zero]
  linarith

/-- C43: `lagrange_max` is the exact threshold: below it the null solution is not optimal. -/
theorem C43_threshold {f : (Fin p → ℝ) → ℝ} {grad : (Fin p → ℝ) → Fin p → ℝ} (hf : ConvexWithGradient f grad)
    (w b₀ : Fin p → ℝ) (hw : ∀ i, 0 ≤ w i) (hpen : ∀ i, w i ≠ 0 → b₀ i = 0)
    {m lam : ℝ} (hm : IsLagrangeMax w (grad b₀) m) (h0 : 0 < lam) (hlam : lam < m) :
    ¬ Minimises (fun u => f u + lam * weightedL1 w u) Set.univ b₀ := by
  intro h
  have hno := C39_complete (tol := 0) w b₀ h0 le_rfl hw (hf.gradient b₀) h
  obtain ⟨⟨i, hp, hi⟩, _⟩ := hm
  have h1 : ¬ 0 ≤ (checkKKT' w (grad b₀) b₀ lam 0).2 i := not_le.2 (hno.2 i)
  rw [C39_assertion] at h1
  push Not at h1
  unfold inactiveTerms at h1
  rw [if_pos (by rw [if_pos (hpen i hp.ne'), one_mul]; exact hp), abs_div, abs_of_pos (mul_pos h0 hp),
    div_le_iff₀ (mul_pos h0 hp)] at h1
  rw [eq_div_iff hp.ne'] at hi
  have := mul_lt_mul_of_pos_right hlam hp
  linarith

/-- concrete case of `C43_sequence` -/
example : ∃ (w g : Fin 2 → ℝ), (∀ i, 0 ≤ w i) ∧ (∃ i, 0 < w i ∧ g i ≠ 0) ∧ IsLagrangeMax w g 3 := by
  refine ⟨![0, 2], ![0, 6], ?_, ⟨1, by norm_num, by norm_num⟩, ⟨1, by norm_num, by norm_num⟩, ?_⟩
  · intro i; fin_cases i <;> norm_num
  · rintro t ⟨i, hi, rfl⟩
    fin_cases i
    · simp at hi
    · norm_num

end Verif.Props
