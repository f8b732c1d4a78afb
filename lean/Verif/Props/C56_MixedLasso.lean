import Verif.Lemmas.MixedLasso
import Mathlib.Data.Fin.VecNotation
import Mathlib.Tactic.FinCases
import Mathlib.Tactic.NormNum

/-! # C56: the mixed LASSO penalty (l1, unpenalised, positive part, nonnegative and group coordinates) -/

set_option linter.unusedSectionVars false
set_option linter.unusedVariables false

namespace Verif.Props
open Verif.Model Verif.Lemmas Verif.Spec

variable {p q : ℕ}

/-- the l1 coordinate: `x * min(1, b/|x|)` clips `x` to `[-b, b]` -/
private lemma l1_clip {x b : ℝ} (hb : 0 ≤ b) (hx : x ≠ 0) :
    |x * min 1 (b / |x|)| ≤ b ∧ ∀ z, |z| ≤ b → (x - x * min 1 (b / |x|)) * (z - x * min 1 (b / |x|)) ≤ 0 := by
  have ha : 0 < |x| := abs_pos.2 hx
  rcases le_total |x| b with h | h
  · rw [min_eq_left (by rw [le_div_iff₀ ha]; linarith)]
    simp [h]
  · rw [min_eq_right (by rw [div_le_one ha]; exact h)]
    have h1 : |x * (b / |x|)| = b := by
      rw [abs_mul, abs_div, abs_abs, abs_of_nonneg hb]; field_simp
    refine ⟨h1.le, fun z hz => ?_⟩
    have h2 : x - x * (b / |x|) = x * ((|x| - b) / |x|) := by field_simp
    rw [h2]
    have h3 : x * (x * (b / |x|)) = b * |x| := by
      have : x * x = |x| * |x| := (abs_mul_abs_self x).symm
      calc x * (x * (b / |x|)) = (x * x) * (b / |x|) := by ring
        _ = (|x| * |x|) * (b / |x|) := by rw [this]
        _ = b * |x| := by field_simp
    have h4 : x * z ≤ |x| * b := by
      calc x * z ≤ |x| * |z| := by rw [← abs_mul]; exact le_abs_self _
        _ ≤ _ := mul_le_mul_of_nonneg_left hz ha.le
    have h5 : 0 ≤ (|x| - b) / |x| := div_nonneg (by linarith) ha.le
    calc x * ((|x| - b) / |x|) * (z - x * (b / |x|)) = (|x| - b) / |x| * (x * z - x * (x * (b / |x|))) := by ring
      _ = (|x| - b) / |x| * (x * z - b * |x|) := by rw [h3]
      _ ≤ 0 := mul_nonpos_of_nonneg_of_nonpos h5 (by linarith)

/-- the values of the projection array, no nan -/
private lemma proj_some (κ : Fin p → Kind q) (w : Fin q → ℝ) (x : Fin p → ℝ) {b : ℝ}
    (hnan : 0 < b ∨ ∀ i, κ i = .l1 → x i ≠ 0) :
    ∃ P : Fin p → ℝ, (∀ i, mixedProjection κ w b x i = some (P i)) := by
  have : ∀ i, ∃ v, mixedProjection κ w b x i = some v := by
    intro i
    unfold mixedProjection
    rcases h : κ i with _ | _ | _ | _ | g
    · exact ⟨_, rfl⟩
    · dsimp only
      by_cases h0 : x i = 0
      · rcases hnan with hb | hn
        · rw [if_pos h0, if_pos hb]; exact ⟨_, rfl⟩
        · exact absurd h0 (hn i h)
      · rw [if_neg h0]; exact ⟨_, rfl⟩
    · exact ⟨_, rfl⟩
    · exact ⟨_, rfl⟩
    · exact ⟨_, rfl⟩
  choose P hP using this
  exact ⟨P, hP⟩

/-- scalar facts for the non-group coordinates -/
private lemma proj_facts (κ : Fin p → Kind q) (w : Fin q → ℝ) (x : Fin p → ℝ) {b : ℝ} (hb : 0 ≤ b)
    (P : Fin p → ℝ) (hP : ∀ i, mixedProjection κ w b x i = some (P i)) (i : Fin p) :
    (κ i = .unpenalized → P i = 0) ∧
    (κ i = .l1 → |P i| ≤ b ∧ ∀ z, |z| ≤ b → (x i - P i) * (z - P i) ≤ 0) ∧
    (κ i = .positivePart → P i = min b (x i)) ∧
    (κ i = .nonnegative → P i = min (x i) 0) ∧
    (∀ j, κ i = .group j → P i = x i * factor b (w j) (normsCython κ x j)) := by
  have h := hP i
  unfold mixedProjection at h
  refine ⟨fun hk => ?_, fun hk => ?_, fun hk => ?_, fun hk => ?_, fun j hk => ?_⟩ <;> rw [hk] at h <;> dsimp only at h
  · exact (Option.some.inj h).symm
  · by_cases h0 : x i = 0
    · rw [if_pos h0] at h
      by_cases hb' : 0 < b
      · rw [if_pos hb'] at h
        have := Option.some.inj h
        rw [← this, h0]; simp [hb]
      · rw [if_neg hb'] at h; exact absurd h (by simp)
    · rw [if_neg h0] at h
      have := Option.some.inj h
      rw [← this]; exact l1_clip hb h0
  · exact (Option.some.inj h).symm
  · exact (Option.some.inj h).symm
  · exact (Option.some.inj h).symm

/-- C56: `mixed_lasso_lagrange_prox` (`mixed_lasso.proximal`) is the proximal map of the mixed penalty on
its domain, for every penalty structure.  (`lagrange = 0` with a zero l1 coordinate is excluded, see below.) -/
theorem C56_lagrange_prox_partial (κ : Fin p → Kind q) (w : Fin q → ℝ) (hw : ∀ j, 0 ≤ w j) (x : Fin p → ℝ)
    {L lam : ℝ} (hL : 0 < L) (hl : 0 ≤ lam) (hnan : 0 < lam ∨ ∀ i, κ i = .l1 → x i ≠ 0) :
    ∃ P : Fin p → ℝ, (∀ i, mixedLagrangeProx κ w x L lam i = some (P i)) ∧
      IsProxOn L (fun z => lam * mixedPenalty κ w z) (mixedDomain κ) x P := by
  have hb : 0 ≤ lam / L := div_nonneg hl hL.le
  obtain ⟨R, hR⟩ := proj_some κ w x (b := lam / L) (by
    rcases hnan with h | h
    · exact Or.inl (div_pos h hL)
    · exact Or.inr h)
  have hf := proj_facts κ w x hb R hR
  refine ⟨fun i => x i - R i, fun i => by unfold mixedLagrangeProx; rw [hR i]; rfl, ?_⟩
  apply isProxOn_of_subgrad hL
  · intro i hi
    show 0 ≤ x i - R i
    rcases hi with hi | hi
    · rw [(hf i).2.2.1 hi, sub_nonneg]; exact min_le_right _ _
    · rw [(hf i).2.2.2.1 hi, sub_nonneg]; exact min_le_left _ _
  · intro z hz
    rw [sum_by_kind κ fun i => (x i - (x i - R i)) * (z i - (x i - R i))]
    unfold mixedPenalty
    simp only [kindNorm_eq]
    -- groups
    have hg : lam * ∑ j, w j * npNorm (rk κ j fun i => x i - R i) +
        L * ∑ j, ∑ i, (if κ i = .group j then (x i - (x i - R i)) * (z i - (x i - R i)) else 0) ≤
        lam * ∑ j, w j * npNorm (rk κ j z) := by
      rw [Finset.mul_sum, Finset.mul_sum, Finset.mul_sum, ← Finset.sum_add_distrib]
      exact Finset.sum_le_sum fun j _ => block_subgrad κ w hL j (mul_nonneg hl (hw j)) x R z
        (fun i hi => (hf i).2.2.2.2 j hi)
    -- other coordinates
    have hc : ∀ i, lam * ((if κ i = .l1 then |x i - R i| else 0) + (if κ i = .positivePart then x i - R i else 0)) +
        L * ng (κ i) ((x i - (x i - R i)) * (z i - (x i - R i))) ≤
        lam * ((if κ i = .l1 then |z i| else 0) + (if κ i = .positivePart then z i else 0)) := by
      intro i
      obtain ⟨f1, f2, f3, f4, f5⟩ := hf i
      have hlL : L * (lam / L) = lam := by field_simp
      rcases hk : κ i with _ | _ | _ | _ | g
      · simp [f1 hk, ng]
      · obtain ⟨h1, h2⟩ := f2 hk
        simp only [ng, if_true, reduceCtorEq, if_false, add_zero]
        -- `|x - R| * b ≤ R (x - R)`
        have h3 : lam / L * |x i - R i| ≤ R i * (x i - R i) := by
          rcases le_total 0 (x i - R i) with h | h
          · have := h2 (lam / L) (by rw [abs_of_nonneg hb])
            rw [abs_of_nonneg h]; nlinarith
          · have := h2 (-(lam / L)) (by rw [abs_neg, abs_of_nonneg hb])
            rw [abs_of_nonpos h]; nlinarith
        have h4 : R i * z i ≤ lam / L * |z i| := by
          calc R i * z i ≤ |R i| * |z i| := by rw [← abs_mul]; exact le_abs_self _
            _ ≤ _ := mul_le_mul_of_nonneg_right h1 (abs_nonneg _)
        have h5 : (x i - (x i - R i)) * (z i - (x i - R i)) ≤ lam / L * |z i| - lam / L * |x i - R i| := by
          nlinarith
        calc lam * |x i - R i| + L * ((x i - (x i - R i)) * (z i - (x i - R i)))
            ≤ lam * |x i - R i| + L * (lam / L * |z i| - lam / L * |x i - R i|) := by
              have := mul_le_mul_of_nonneg_left h5 hL.le
              linarith
          _ = lam * |z i| := by
              rw [mul_sub, ← mul_assoc, ← mul_assoc, hlL]; ring
      · simp only [ng, if_true, reduceCtorEq, if_false, zero_add]
        have hz0 : 0 ≤ z i := hz i (Or.inl hk)
        have e := f3 hk
        have h5 : (x i - (x i - R i)) * (z i - (x i - R i)) ≤ lam / L * z i - lam / L * (x i - R i) := by
          rw [e]
          rcases le_total (lam / L) (x i) with h | h
          · rw [min_eq_left h]; nlinarith
          · rw [min_eq_right h]; nlinarith
        calc lam * (x i - R i) + L * ((x i - (x i - R i)) * (z i - (x i - R i)))
            ≤ lam * (x i - R i) + L * (lam / L * z i - lam / L * (x i - R i)) := by
              have := mul_le_mul_of_nonneg_left h5 hL.le
              linarith
          _ = lam * z i := by field_simp; ring
      · simp only [ng, reduceCtorEq, if_false, add_zero, mul_zero, zero_add]
        have hz0 : 0 ≤ z i := hz i (Or.inr hk)
        rw [f4 hk]
        have : (x i - (x i - min (x i) 0)) * (z i - (x i - min (x i) 0)) ≤ 0 := by
          rcases le_total (x i) 0 with h | h
          · rw [min_eq_left h]; nlinarith
          · rw [min_eq_right h]; simp
        nlinarith
      · simp [ng]
    have hcs := Finset.sum_le_sum fun i (_ : i ∈ Finset.univ) => hc i
    rw [Finset.sum_add_distrib, ← Finset.mul_sum, ← Finset.mul_sum, ← Finset.mul_sum, Finset.sum_add_distrib,
      Finset.sum_add_distrib] at hcs
    rw [mul_add lam, mul_add L, mul_add lam (_ + _)]
    linarith

/-- C56: with `lagrange = 0` a zero l1 coordinate yields nan (`0 * minimum(1, 0/0)`), although the proximal
point is the input. -/
theorem C56_lagrange_zero_fails :
    ∃ (κ : Fin 1 → Kind 0) (x : Fin 1 → ℝ), mixedLagrangeProx κ (fun j => j.elim0) x 1 0 0 = none ∧
      IsProxOn 1 (fun z => (0:ℝ) * mixedPenalty κ (fun j => j.elim0) z) (mixedDomain κ) x x := by
  refine ⟨fun _ => .l1, fun _ => 0, ?_, ?_⟩
  · simp [mixedLagrangeProx, mixedProjection]
  · apply isProxOn_of_subgrad one_pos
    · intro i hi; simp
    · intro z hz; simp

/-- C56: `mixed_lasso_dual_bound_prox` is the projection on the dual ball. -/
theorem C56_dual_bound_prox (κ : Fin p → Kind q) (w : Fin q → ℝ) (hw : ∀ j, 0 ≤ w j) (x : Fin p → ℝ)
    {b : ℝ} (hb : 0 ≤ b) (hnan : 0 < b ∨ ∀ i, κ i = .l1 → x i ≠ 0) :
    ∃ P : Fin p → ℝ, (∀ i, mixedDualBoundProx κ w x b i = some (P i)) ∧
      IsProj {z | (∀ i, κ i = .unpenalized → z i = 0) ∧ (∀ i, κ i = .l1 → |z i| ≤ b) ∧
        (∀ i, κ i = .positivePart → z i ≤ b) ∧ (∀ i, κ i = .nonnegative → z i ≤ 0) ∧
        ∀ j, kindNorm κ z j ≤ b * w j} x P := by
  obtain ⟨P, hP⟩ := proj_some κ w x hnan
  have hf := proj_facts κ w x hb P hP
  have hblock := fun j => block_vi κ w (b := b) j (mul_nonneg hb (hw j)) x P (fun i hi => (hf i).2.2.2.2 j hi)
  refine ⟨P, hP, ?_⟩
  apply isProj_of_vi
  · refine ⟨fun i h => (hf i).1 h, fun i h => ((hf i).2.1 h).1, fun i h => ?_, fun i h => ?_, fun j => ?_⟩
    · rw [(hf i).2.2.1 h]; exact min_le_left _ _
    · rw [(hf i).2.2.2.1 h]; exact min_le_right _ _
    · rw [kindNorm_eq]; exact (hblock j).1
  · rintro z ⟨z1, z2, z3, z4, z5⟩
    rw [sum_by_kind κ]
    have h1 : ∑ j, ∑ i, (if κ i = .group j then (x i - P i) * (z i - P i) else 0) ≤ 0 :=
      Finset.sum_nonpos fun j _ => (hblock j).2 z (by rw [← kindNorm_eq]; exact z5 j)
    have h2 : ∑ i, ng (κ i) ((x i - P i) * (z i - P i)) ≤ 0 := by
      apply Finset.sum_nonpos
      intro i _
      obtain ⟨f1, f2, f3, f4, f5⟩ := hf i
      rcases hk : κ i with _ | _ | _ | _ | g
      · simp [f1 hk, z1 i hk, ng]
      · exact (f2 hk).2 _ (z2 i hk)
      · have := z3 i hk
        simp only [f3 hk, ng]
        rcases le_total b (x i) with h | h
        · rw [min_eq_left h]; nlinarith
        · rw [min_eq_right h]; simp
      · have := z4 i hk
        simp only [f4 hk, ng]
        rcases le_total (x i) 0 with h | h
        · rw [min_eq_left h]; simp
        · rw [min_eq_right h]; nlinarith
      · exact le_refl _
    linarith

/-- C56: `seminorm(x, check_feasibility=True)` reports `+inf` at the feasible point 0 of a nonnegative
coordinate: the test is `x.min() < tol` instead of `x.min() < -tol`. -/
theorem C56_seminorm_feasibility_fails :
    ∃ (κ : Fin 1 → Kind 0) (z : Fin 1 → ℝ), z ∈ mixedDomain κ ∧
      mixedSeminorm κ (fun j => j.elim0) z true (1 / 10 ^ 5) = ⊤ := by
  refine ⟨fun _ => .nonnegative, fun _ => 0, fun i _ => le_refl _, ?_⟩
  simp [mixedSeminorm]

/-- C56: without the feasibility check the reported value is the penalty, on the domain. -/
theorem C56_seminorm (κ : Fin p → Kind q) (w : Fin q → ℝ) (z : Fin p → ℝ) (hz : z ∈ mixedDomain κ) (t : ℝ) :
    mixedSeminorm κ w z false t = (mixedPenalty κ w z : ℝ) := by
  unfold mixedSeminorm mixedPenalty
  simp only [Bool.false_eq_true, false_and, if_false, kindNorm_eq, normsCython_eq]
  congr 3
  apply Finset.sum_congr rfl
  intro i _
  split_ifs with h
  · rw [max_eq_left (hz i (Or.inl h))]
  · rfl

/-- hypotheses met by a structure with all five kinds -/
example : ∃ P : Fin 5 → ℝ, (∀ i, mixedLagrangeProx
      (![.l1, .unpenalized, .positivePart, .nonnegative, .group 0] : Fin 5 → Kind 1) ![2] ![1, 2, 3, -4, 0] 1 1 i
        = some (P i)) ∧
    IsProxOn 1 (fun z => 1 * mixedPenalty (![.l1, .unpenalized, .positivePart, .nonnegative, .group 0] : Fin 5 → Kind 1) ![2] z)
      (mixedDomain (![.l1, .unpenalized, .positivePart, .nonnegative, .group 0] : Fin 5 → Kind 1)) ![1, 2, 3, -4, 0] P :=
  C56_lagrange_prox_partial _ _ (by intro j; fin_cases j; simp) _ one_pos zero_le_one (Or.inl one_pos)

end Verif.Props
