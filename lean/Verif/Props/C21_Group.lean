import Verif.Lemmas.Group
import Mathlib.Data.Fin.VecNotation
import Mathlib.Tactic.FinCases
import Mathlib.Tactic.NormNum

/-! # C21: group LASSO and its dual -/

set_option linter.unusedSectionVars false
set_option linter.unusedVariables false

namespace Verif.Props
open Verif.Model Verif.Lemmas Verif.Spec

variable {p q : ℕ}

private lemma groupNorm_rk (grp : Fin p → Fin q) (w : Fin q → ℝ) (z : Fin p → ℝ) :
    groupNorm grp w z = ∑ j, w j * npNorm (rk (GroupLasso.kind grp) j z) := by
  unfold groupNorm
  exact Finset.sum_congr rfl fun j _ => by rw [blockNorm_eq]

/-- C21: the value reported by `group_lasso.seminorm` is the group norm. -/
theorem C21_seminorm (grp : Fin p → Fin q) (w : Fin q → ℝ) (x : Fin p → ℝ) (lam : ℝ) :
    GroupLasso.seminorm grp w x lam = lam * groupNorm grp w x := by
  unfold GroupLasso.seminorm
  rw [groupNorm_rk]
  congr 1
  exact Finset.sum_congr rfl fun j _ => by rw [normsCython_eq]

/-- C21: `group_lasso.lagrange_prox` is the proximal map of `lam Σ_g w_g‖z[g]‖`; weights may be zero and
blocks may vanish. -/
theorem C21_lagrange_prox (grp : Fin p → Fin q) (w : Fin q → ℝ) (hw : ∀ j, 0 ≤ w j) (x : Fin p → ℝ)
    {L lam : ℝ} (hL : 0 < L) (hl : 0 ≤ lam) :
    IsProx L (fun z => lam * groupNorm grp w z) x (GroupLasso.lagrangeProx grp w x L lam) := by
  apply isProx_of_subgrad hL
  intro z
  have h := group_subgrad grp w hw hL hl x (GroupLasso.lagrangeProx grp w x L lam) (fun i => rfl) z
  simp only [groupNorm_rk]
  exact h

/-- C21: `group_lasso_dual.bound_prox` is the projection on `{‖z[g]‖ ≤ bound * w_g for all g}`. -/
theorem C21_dual_bound_prox (grp : Fin p → Fin q) (w : Fin q → ℝ) (hw : ∀ j, 0 ≤ w j) (x : Fin p → ℝ)
    {b : ℝ} (hb : 0 ≤ b) :
    IsProj {z | ∀ j, blockNorm grp z j ≤ b * w j} x (GroupLasso.dualBoundProx grp w x b) := by
  have key := fun j => block_vi (GroupLasso.kind grp) w (b := b) j (mul_nonneg hb (hw j)) x
    (GroupLasso.dualBoundProx grp w x b) (by
      intro i hi
      have : grp i = j := by simpa [GroupLasso.kind] using hi
      unfold GroupLasso.dualBoundProx
      rw [this])
  apply isProj_of_vi
  · intro j; rw [blockNorm_eq]; exact (key j).1
  · intro z hz
    rw [sum_by_group grp]
    exact Finset.sum_nonpos fun j _ => (key j).2 z (by rw [← blockNorm_eq]; exact hz j)

/-- C21: `group_lasso.bound_prox` is the projection on `{Σ_g w_g‖z[g]‖ ≤ bound}`, whatever order
`np.argsort` gives to ties.  Weights are 0 or at least `1e-20` (the guard of the root finder). -/
theorem C21_bound_prox (grp : Fin p → Fin q) (w : Fin q → ℝ) (hw : ∀ j, w j = 0 ∨ 1 / 10 ^ 20 ≤ w j)
    (x : Fin p → ℝ) {b : ℝ} (hb : 0 ≤ b) (hpos : 0 < b ∨ ∃ j, w j ≠ 0) (sorted : List (ℝ × ℝ))
    (hs : IsDescArgsort (GroupLasso.knotInput grp w x) sorted) :
    ∃ P, GroupLasso.boundProx grp w sorted x b = some P ∧ IsProj {z | groupNorm grp w z ≤ b} x P := by
  have hw0 : ∀ j, 0 ≤ w j := fun j => by
    rcases hw j with h | h
    · rw [h]
    · exact le_trans (by positivity) h
  obtain ⟨cut, h1, h2, h3⟩ := group_cut grp w hw hb hpos x sorted hs
  unfold GroupLasso.boundProx
  rw [h1, Option.map_some]
  refine ⟨_, rfl, ?_⟩
  set P : Fin p → ℝ := fun i => x i - x i * factor cut (w (grp i)) (normsCython (GroupLasso.kind grp) x (grp i))
    with hP
  have hres := groupNorm_resid grp w hw0 h2 x
  rw [← hP] at hres
  have hle : groupNorm grp w P ≤ b ∧ cut * groupNorm grp w P = cut * b := by
    rw [groupNorm_rk, hres]
    rcases h3 with ⟨rfl, h3⟩ | h3
    · refine ⟨?_, by ring⟩
      refine le_trans (Finset.sum_le_sum fun j _ => ?_) h3.le
      apply mul_le_mul_of_nonneg_left _ (hw0 j)
      have := npNorm_rk_le (GroupLasso.kind grp) j x
      split_ifs <;> simp [this]
    · rw [h3]; exact ⟨le_refl _, rfl⟩
  apply isProj_of_vi hle.1
  intro z hz
  have h := group_subgrad grp w hw0 one_pos h2 x P (fun i => by rw [div_one]) z
  rw [← groupNorm_rk, ← groupNorm_rk, hle.2, one_mul] at h
  have : cut * groupNorm grp w z ≤ cut * b := mul_le_mul_of_nonneg_left hz h2
  linarith

private lemma holder_dual [NeZero q] (grp : Fin p → Fin q) (w : Fin q → ℝ) (hw : ∀ j, 0 ≤ w j)
    (x z : Fin p → ℝ) (hz : ∀ j, w j = 0 → blockNorm grp z j = 0) :
    ∑ i, x i * z i ≤ groupNorm grp w x * groupDualNorm grp w z := by
  refine le_trans (block_holder grp x z) ?_
  unfold groupNorm
  rw [Finset.sum_mul]
  apply Finset.sum_le_sum
  intro j _
  rw [← blockNorm_eq, ← blockNorm_eq]
  have hx : 0 ≤ blockNorm grp x j := Real.sqrt_nonneg _
  by_cases h : w j = 0
  · rw [hz j h, h]; simp
  · have hwp : 0 < w j := lt_of_le_of_ne (hw j) (Ne.symm h)
    have h1 : blockNorm grp z j / w j ≤ groupDualNorm grp w z := by
      have := le_maxCoord (fun j => if w j = 0 then 0 else blockNorm grp z j / w j) j
      simp only [if_neg h] at this
      exact this
    rw [div_le_iff₀ hwp] at h1
    calc blockNorm grp x j * blockNorm grp z j ≤ blockNorm grp x j * (groupDualNorm grp w z * w j) :=
          mul_le_mul_of_nonneg_left h1 hx
      _ = w j * blockNorm grp x j * groupDualNorm grp w z := by ring

/-- C21: `group_lasso_dual.lagrange_prox` is the proximal map of `lam * max_g ‖z[g]‖/w_g`, where a group of
weight zero is constrained to vanish. -/
theorem C21_dual_lagrange_prox [NeZero q] (grp : Fin p → Fin q) (w : Fin q → ℝ)
    (hw : ∀ j, w j = 0 ∨ 1 / 10 ^ 20 ≤ w j) (x : Fin p → ℝ) {L lam : ℝ} (hL : 0 < L) (hl : 0 ≤ lam)
    (hpos : 0 < lam ∨ ∃ j, w j ≠ 0) (sorted : List (ℝ × ℝ))
    (hs : IsDescArgsort (GroupLasso.knotInput grp w x) sorted) :
    ∃ P, GroupLasso.dualLagrangeProx grp w sorted x L lam = some P ∧
      IsProxOn L (fun z => lam * groupDualNorm grp w z) {z | ∀ j, w j = 0 → blockNorm grp z j = 0} x P := by
  have hw0 : ∀ j, 0 ≤ w j := fun j => by
    rcases hw j with h | h
    · rw [h]
    · exact le_trans (by positivity) h
  have hb : 0 ≤ lam / L := div_nonneg hl hL.le
  obtain ⟨cut, h1, h2, h3⟩ := group_cut grp w hw hb (by
    rcases hpos with h | h
    · exact Or.inl (div_pos h hL)
    · exact Or.inr h) x sorted hs
  unfold GroupLasso.dualLagrangeProx GroupLasso.boundProx
  rw [h1, Option.map_some, Option.map_some]
  refine ⟨_, rfl, ?_⟩
  set R : Fin p → ℝ := fun i => x i - x i * factor cut (w (grp i)) (normsCython (GroupLasso.kind grp) x (grp i))
    with hR
  have hres := groupNorm_resid grp w hw0 h2 x
  rw [← hR] at hres
  set P : Fin p → ℝ := fun i => x i - R i with hP
  have hPd : P = GroupLasso.dualBoundProx grp w x cut := by
    funext i; simp only [hP, hR, GroupLasso.dualBoundProx]; ring
  have hproj := C21_dual_bound_prox grp w hw0 x h2
  rw [← hPd] at hproj
  have hle : groupNorm grp w R ≤ lam / L ∧ cut * groupNorm grp w R = cut * (lam / L) := by
    rw [groupNorm_rk, hres]
    rcases h3 with ⟨rfl, h3⟩ | h3
    · refine ⟨?_, by ring⟩
      refine le_trans (Finset.sum_le_sum fun j _ => ?_) h3.le
      apply mul_le_mul_of_nonneg_left _ (hw0 j)
      have := npNorm_rk_le (GroupLasso.kind grp) j x
      split_ifs <;> simp [this]
    · rw [h3]; exact ⟨le_refl _, rfl⟩
  have hPz : ∀ j, w j = 0 → blockNorm grp P j = 0 := by
    intro j hj
    have := hproj.1 j
    rw [hj, mul_zero] at this
    exact le_antisymm this (Real.sqrt_nonneg _)
  apply isProxOn_of_subgrad (S := {z | ∀ j, w j = 0 → blockNorm grp z j = 0}) hL hPz
  intro z hz
  have hPn : groupDualNorm grp w P ≤ cut := by
    apply maxCoord_le
    intro j
    split_ifs with h
    · exact h2
    · have hwp : 0 < w j := lt_of_le_of_ne (hw0 j) (Ne.symm h)
      rw [div_le_iff₀ hwp]; exact hproj.1 j
  have hxz : ∑ i, (x i - P i) * (z i - P i) = ∑ i, R i * z i - ∑ i, R i * P i := by
    rw [← Finset.sum_sub_distrib]
    exact Finset.sum_congr rfl fun i _ => by simp only [hP]; ring
  -- `⟨R, P⟩ ≥ cut * groupNorm R`, from the subgradient inequality at `z = 0`
  have hRP : cut * groupNorm grp w R ≤ ∑ i, R i * P i := by
    have h := group_subgrad grp w hw0 one_pos h2 x R (fun i => by rw [div_one]) (fun _ => 0)
    rw [← groupNorm_rk, one_mul] at h
    have e1 : ∑ i, (x i - R i) * (0 - R i) = -∑ i, R i * P i := by
      rw [← Finset.sum_neg_distrib]
      exact Finset.sum_congr rfl fun i _ => by simp only [hP]; ring
    have e2 : ∑ j, w j * npNorm (rk (GroupLasso.kind grp) j fun _ : Fin p => (0:ℝ)) = 0 := by
      apply Finset.sum_eq_zero; intro j _
      have : (rk (GroupLasso.kind grp) j fun _ : Fin p => (0:ℝ)) = fun _ => 0 := by
        funext i; unfold rk; split_ifs <;> rfl
      rw [this, npNorm_zero, mul_zero]
    rw [e1, e2] at h
    linarith
  have hRz := holder_dual grp w hw0 R z hz
  have hzn : 0 ≤ groupDualNorm grp w z := by
    refine le_trans ?_ (le_maxCoord (fun j => if w j = 0 then 0 else blockNorm grp z j / w j) 0)
    split_ifs
    · exact le_refl _
    · exact div_nonneg (Real.sqrt_nonneg _) (hw0 0)
  have h5 : L * ∑ i, R i * z i ≤ lam * groupDualNorm grp w z := by
    calc L * ∑ i, R i * z i ≤ L * (groupNorm grp w R * groupDualNorm grp w z) :=
          mul_le_mul_of_nonneg_left hRz hL.le
      _ ≤ L * (lam / L * groupDualNorm grp w z) :=
          mul_le_mul_of_nonneg_left (mul_le_mul_of_nonneg_right hle.1 hzn) hL.le
      _ = lam * groupDualNorm grp w z := by field_simp
  have h6 : lam * groupDualNorm grp w P ≤ L * ∑ i, R i * P i := by
    calc lam * groupDualNorm grp w P ≤ lam * cut := mul_le_mul_of_nonneg_left hPn hl
      _ = L * (cut * (lam / L)) := by field_simp
      _ = L * (cut * groupNorm grp w R) := by rw [hle.2]
      _ ≤ _ := mul_le_mul_of_nonneg_left hRP hL.le
  rw [hxz, mul_sub]; linarith

/-- C21: the two norms are dual: for positive weights `groupDualNorm` is the support function of the unit
ball of `groupNorm` (the inequality, and attainment for every `z`). -/
theorem C21_duality [NeZero q] (grp : Fin p → Fin q) (w : Fin q → ℝ) (hw : ∀ j, 0 < w j) (z : Fin p → ℝ) :
    IsGreatest ((fun x => dot x z) '' {x | groupNorm grp w x ≤ 1}) (groupDualNorm grp w z) := by
  have hw0 := fun j => (hw j).le
  have hnn : 0 ≤ groupDualNorm grp w z := by
    refine le_trans ?_ (le_maxCoord (fun j => if w j = 0 then 0 else blockNorm grp z j / w j) 0)
    rw [if_neg (hw 0).ne']
    exact div_nonneg (Real.sqrt_nonneg _) (hw0 0)
  constructor
  · obtain ⟨j, hj⟩ := exists_maxCoord fun j => if w j = 0 then 0 else blockNorm grp z j / w j
    rw [if_neg (hw j).ne'] at hj
    have hj' : groupDualNorm grp w z = blockNorm grp z j / w j := hj
    set n := blockNorm grp z j with hn
    have hn0 : 0 ≤ n := Real.sqrt_nonneg _
    -- the block of `z`, scaled
    refine ⟨fun i => (1 / (w j * n)) * rk (GroupLasso.kind grp) j z i, ?_, ?_⟩
    · have hb : ∀ k, npNorm (rk (GroupLasso.kind grp) k fun i => (1 / (w j * n)) * rk (GroupLasso.kind grp) j z i) =
          if k = j then 1 / (w j * n) * n else 0 := by
        intro k
        split_ifs with h
        · subst h
          have : (rk (GroupLasso.kind grp) k fun i => (1 / (w k * n)) * rk (GroupLasso.kind grp) k z i) =
              fun i => (1 / (w k * n)) * rk (GroupLasso.kind grp) k z i := by
            funext i; unfold rk; by_cases hi : GroupLasso.kind grp i = Kind.group k <;> simp [hi]
          rw [this, npNorm_smul, ← blockNorm_eq, ← hn, abs_of_nonneg]
          exact div_nonneg zero_le_one (mul_nonneg (hw0 k) hn0)
        · have : (rk (GroupLasso.kind grp) k fun i => (1 / (w j * n)) * rk (GroupLasso.kind grp) j z i) =
              fun _ => 0 := by
            funext i; unfold rk
            by_cases h1 : GroupLasso.kind grp i = Kind.group k
            · have h2 : ¬ GroupLasso.kind grp i = Kind.group j := by
                rw [h1]; simpa using h
              rw [if_pos h1]; simp [h2]
            · rw [if_neg h1]
          rw [this, npNorm_zero]
      show groupNorm grp w _ ≤ 1
      rw [groupNorm_rk]
      simp only [hb]
      simp only [mul_ite, mul_zero, Finset.sum_ite_eq', Finset.mem_univ, if_true]
      rcases eq_or_lt_of_le hn0 with h | h
      · rw [← h]; simp
      · have := hw j
        apply le_of_eq; field_simp
    · show dot _ z = _
      unfold dot
      have e : ∑ i, (1 / (w j * n)) * rk (GroupLasso.kind grp) j z i * z i = 1 / (w j * n) * n ^ 2 := by
        rw [hn, blockNorm_eq, sq_npNorm, Finset.mul_sum]
        apply Finset.sum_congr rfl
        intro i _
        unfold rk
        split_ifs <;> ring
      rw [e, hj']
      rcases eq_or_lt_of_le hn0 with h | h
      · rw [← h]; simp
      · have := hw j
        field_simp
  · rintro _ ⟨x, hx, rfl⟩
    have h := holder_dual grp w hw0 x z (fun j h => absurd h (hw j).ne')
    have : groupNorm grp w x * groupDualNorm grp w z ≤ 1 * groupDualNorm grp w z :=
      mul_le_mul_of_nonneg_right hx hnn
    simp only [dot]
    linarith

lemma foldl_max_pos (l : List (Fin q)) (w : Fin q → ℝ) (hw : ∀ j, 0 < w j) (f : Fin q → ℝ)
    (v : WithBot ℝ) (c : ℝ) :
    (l.foldl (fun v j => if w j > 0 then max v ((f j : ℝ) : WithBot ℝ) else v) v ≤ (c : WithBot ℝ)) ↔
      v ≤ (c : WithBot ℝ) ∧ ∀ j ∈ l, f j ≤ c := by
  induction l generalizing v with
  | nil => simp
  | cons a l ih =>
    rw [List.foldl_cons, if_pos (hw a), ih]
    simp only [max_le_iff, WithBot.coe_le_coe, List.mem_cons, forall_eq_or_imp]
    tauto

/-- C21: with positive weights, `group_lasso_dual.constraint` reports 0 exactly on the ball on which
`bound_prox` projects; the projected point is therefore reported feasible. -/
theorem C21_dual_constraint_partial (grp : Fin p → Fin q) (w : Fin q → ℝ) (hw : ∀ j, 0 < w j) (x : Fin p → ℝ)
    (b : ℝ) :
    GroupLasso.dualConstraint grp w x b = 0 ↔ ∀ j, blockNorm grp x j ≤ b * w j := by
  unfold GroupLasso.dualConstraint GroupLasso.dualSeminorm
  have e := foldl_max_pos (List.finRange q) w hw (fun j => normsCython (GroupLasso.kind grp) x j / w j) ⊥ b
  constructor
  · intro h j
    by_contra hc
    rw [if_neg] at h
    · exact WithTop.top_ne_zero h
    · rw [e]
      rintro ⟨-, h2⟩
      apply hc
      have := h2 j (List.mem_finRange j)
      rw [div_le_iff₀ (hw j), normsCython_eq, ← blockNorm_eq] at this
      exact this
  · intro h
    rw [if_pos]
    rw [e]
    refine ⟨bot_le, fun j _ => ?_⟩
    rw [div_le_iff₀ (hw j), normsCython_eq, ← blockNorm_eq]
    exact h j

/-- C21: with a zero weight the dual feasibility test is wrong: groups `{0}`, `{1}`, weights `(0, 1)`,
point `(5, 0)`, bound 1 is accepted although the first block must vanish; the positional `False` that was
meant for `check_feasibility` is bound to `nntol`. -/
theorem C21_dual_constraint_fails :
    ∃ (grp : Fin 2 → Fin 2) (w : Fin 2 → ℝ) (x : Fin 2 → ℝ), (∀ j, 0 ≤ w j) ∧
      GroupLasso.dualConstraint grp w x 1 = 0 ∧ ¬ (∀ j, blockNorm grp x j ≤ 1 * w j) := by
  refine ⟨id, ![0, 1], ![5, 0], ?_, ?_, ?_⟩
  · intro j; fin_cases j <;> simp
  · unfold GroupLasso.dualConstraint
    rw [if_pos]
    unfold GroupLasso.dualSeminorm
    simp [List.finRange_succ, normsCython_eq, npNorm, rk, GroupLasso.kind]
  · intro h
    have := h 0
    simp [blockNorm] at this
    norm_num at this

/-- C21: if every weight is zero, `group_lasso.bound_prox(x, bound=0)` raises (division by zero in the root
finder) although the constraint holds everywhere. -/
theorem C21_bound_prox_zero_weights_fails :
    ∃ (grp : Fin 1 → Fin 1) (w : Fin 1 → ℝ) (x : Fin 1 → ℝ) (sorted : List (ℝ × ℝ)),
      IsDescArgsort (GroupLasso.knotInput grp w x) sorted ∧ groupNorm grp w x ≤ 0 ∧
      GroupLasso.boundProx grp w sorted x 0 = none := by
  refine ⟨id, fun _ => 0, fun _ => 1, wKnots (GroupLasso.knotInput id (fun _ => 0) fun _ => 1), ⟨List.Perm.refl _, ?_⟩,
    by simp [groupNorm], ?_⟩
  · simp [GroupLasso.knotInput, wKnots]
  · simp [GroupLasso.boundProx, GroupLasso.knotInput, findW, wKnots, wplLoop, cdiv]

/-- the hypotheses of the theorems above are met by groups `{0,1}`, `{2}` with a zero weight -/
example : ∃ (w : Fin 2 → ℝ) (sorted : List (ℝ × ℝ)),
    (∀ j, w j = 0 ∨ 1 / 10 ^ 20 ≤ w j) ∧ (∃ j, w j ≠ 0) ∧ (∃ j, w j = 0) ∧
    IsDescArgsort (GroupLasso.knotInput ![0, 0, 1] w ![3, 4, 1]) sorted := by
  obtain ⟨s, hs⟩ := exists_argsort (GroupLasso.knotInput ![0, 0, 1] ![2, 0] ![3, 4, 1])
  refine ⟨![2, 0], s, ?_, ⟨0, by simp⟩, ⟨1, by simp⟩, hs⟩
  intro j; fin_cases j
  · right; norm_num
  · left; rfl

/-- a concrete value: the block `(3,4)` of weight 2 at `lam = 1`, `L = 1` shrinks by the factor `3/5` -/
example : GroupLasso.lagrangeProx (![0, 0] : Fin 2 → Fin 1) ![2] ![3, 4] 1 1 0 = 9 / 5 := by
  have h : Real.sqrt (3 ^ 2 + 4 ^ 2) = 5 := by
    rw [show (3:ℝ) ^ 2 + 4 ^ 2 = 5 ^ 2 by norm_num]; exact Real.sqrt_sq (by norm_num)
  simp [GroupLasso.lagrangeProx, factor, normsCython_eq, npNorm, rk, GroupLasso.kind, Fin.sum_univ_two]
  rw [h]; norm_num

end Verif.Props
