import Verif.Lemmas.Group
import Mathlib.Data.Fin.VecNotation
import Mathlib.Tactic.FinCases
import Mathlib.Tactic.NormNum

/-! # C55: epigraph cones of the group LASSO norm and of its dual -/

set_option linter.unusedSectionVars false
set_option linter.unusedVariables false

namespace Verif.Props
open Verif.Model Verif.Lemmas Verif.Spec

variable {p q : ℕ}

private lemma gn_rk (grp : Fin p → Fin q) (w : Fin q → ℝ) (z : Fin p → ℝ) :
    groupNorm grp w z = ∑ j, w j * npNorm (rk (GroupLasso.kind grp) j z) := by
  unfold groupNorm
  exact Finset.sum_congr rfl fun j _ => by rw [blockNorm_eq]

private lemma gn_nonneg (grp : Fin p → Fin q) {w : Fin q → ℝ} (hw : ∀ j, 0 ≤ w j) (z : Fin p → ℝ) :
    0 ≤ groupNorm grp w z := Finset.sum_nonneg fun j _ => mul_nonneg (hw j) (Real.sqrt_nonneg _)

/-- below the lowest point of the piecewise-linear function the first segment is used -/
private lemma wplLoop_below (b curX curW : ℝ) (rest : List (ℝ × ℝ))
    (hs : ((curX, curW) :: rest).Pairwise (fun a b => b.1 ≤ a.1)) (hb : b < -1 * curX) :
    wplLoop b (-1) (-1 * curX) curX curW rest = some ((curW ^ 2 * curX - b) / (1 + curW ^ 2)) := by
  have hpos : (0:ℝ) < 1 + curW ^ 2 := by positivity
  have hne : (-1 - curW ^ 2 : ℝ) ≠ 0 := by nlinarith
  have hval : (b - (-1 * curX - curX * (-1 - curW ^ 2))) / (-1 - curW ^ 2) =
      (curW ^ 2 * curX - b) / (1 + curW ^ 2) := by
    rw [div_eq_div_iff hne hpos.ne']; ring
  cases rest with
  | nil =>
    simp only [wplLoop, cdiv]
    rw [if_neg hne, hval]
  | cons nx rest =>
    obtain ⟨nx, nw⟩ := nx
    simp only [wplLoop, cdiv]
    have h1 : nx ≤ curX := by
      have := List.rel_of_pairwise_cons hs (a' := (nx, nw)) (by simp)
      exact this
    rw [if_pos (by nlinarith [sq_nonneg curW]), if_neg hne, hval]

/-- C55: `group_lasso_epigraph.cone_prox` is the projection on `{(v,u) : Σ_g w_g‖v[g]‖ ≤ u}` for every
center, every group structure and every tie order.  Weights at least `1e-20`. -/
theorem C55_epigraph (grp : Fin p → Fin (q + 1)) (w : Fin (q + 1) → ℝ) (hw : ∀ j, 1 / 10 ^ 20 ≤ w j)
    (x : Fin p → ℝ) (norm : ℝ) (sorted : List (ℝ × ℝ))
    (hs : IsDescArgsort (GroupLasso.knotInput grp w x) sorted) :
    ∃ P, GroupLasso.epigraph grp w sorted (x, norm) = some P ∧
      IsProjPair {z | groupNorm grp w z.1 ≤ z.2} (x, norm) P := by
  have hε : (0:ℝ) < 1 / 10 ^ 20 := by positivity
  have hwp : ∀ j, 0 < w j := fun j => lt_of_lt_of_le hε (hw j)
  have hw0 : ∀ j, 0 ≤ w j := fun j => (hwp j).le
  -- a cut with the root property gives the projection
  have main : ∀ cut, findW norm 1 (GroupLasso.knotInput grp w x) sorted = some cut → 0 ≤ cut →
      ((cut = 0 ∧ groupNorm grp w x ≤ norm) ∨
        ∑ j, w j * (if w j * cut < normsCython (GroupLasso.kind grp) x j
          then normsCython (GroupLasso.kind grp) x j - w j * cut else 0) = cut + norm) →
      ∃ P, GroupLasso.epigraph grp w sorted (x, norm) = some P ∧
        IsProjPair {z | groupNorm grp w z.1 ≤ z.2} (x, norm) P := by
    intro cut hf hc hroot
    have hres := groupNorm_resid grp w hw0 hc x
    set R : Fin p → ℝ := fun i => x i - x i * factor cut (w (grp i)) (normsCython (GroupLasso.kind grp) x (grp i))
      with hR
    have hRn : groupNorm grp w R ≤ norm + cut ∧ cut * groupNorm grp w R = cut * (norm + cut) := by
      rw [gn_rk, hres]
      rcases hroot with ⟨rfl, h3⟩ | h3
      · refine ⟨?_, by ring⟩
        rw [add_zero]
        rw [gn_rk] at h3
        refine le_trans (Finset.sum_le_sum fun j _ => ?_) h3
        apply mul_le_mul_of_nonneg_left _ (hw0 j)
        have := npNorm_rk_le (GroupLasso.kind grp) j x
        rw [← normsCython_eq]
        split_ifs <;> simp [this]
      · rw [h3]; constructor
        · linarith
        · ring
    have hge : norm + cut ≥ 0 := le_trans (gn_nonneg grp hw0 R) hRn.1
    refine ⟨(R, norm + cut), ?_, isProjPair_of_vi hRn.1 ?_⟩
    · unfold GroupLasso.epigraph
      rw [hf, Option.map_some]
      simp only
      rw [if_pos hge]
    · rintro ⟨z, r⟩ hz
      simp only [Set.mem_ofPred_eq] at hz
      have h := group_subgrad grp w hw0 one_pos hc x R (fun i => by rw [div_one]) z
      rw [← gn_rk, ← gn_rk, hRn.2, one_mul] at h
      simp only
      nlinarith [mul_le_mul_of_nonneg_left hz hc]
  by_cases hbig : ∑ j, w j * normsCython (GroupLasso.kind grp) x j < norm
  · refine main 0 ?_ (le_refl _) (Or.inl ⟨rfl, ?_⟩)
    · unfold findW; rw [if_pos]; rw [knotInput_sum]; exact hbig
    · rw [gn_rk]
      refine le_trans (le_of_eq (Finset.sum_congr rfl fun j _ => ?_)) hbig.le
      rw [normsCython_eq]
  · push Not at hbig
    by_cases hlow : ∃ a ∈ GroupLasso.knotInput grp w x, -1 * (a.1 / max a.2 (1 / 10 ^ 20)) ≤ norm
    · obtain ⟨t, h1, h2, h3⟩ := C01_findW norm 1 (GroupLasso.knotInput grp w x) sorted zero_le_one
        (by intro a ha; obtain ⟨j, rfl⟩ := knotInput_mem ha; exact npNorm_rk_le _ _ _)
        (by intro a ha; obtain ⟨j, rfl⟩ := knotInput_mem ha; exact Or.inr (hw j)) hs.1 hs.2
        (Or.inl one_pos) hlow (by rw [knotInput_sum]; exact hbig)
      rw [knotInput_sum] at h3
      exact main t h1 h2 (Or.inr (by linarith))
    · -- polar cone: the answer is the apex
      push Not at hlow
      match hsd : sorted with
      | [] =>
        exfalso
        have := hs.1.symm.eq_nil
        simp [wKnots, GroupLasso.knotInput] at this
      | (curX, curW) :: rest =>
        have hmem : (curX, curW) ∈ wKnots (GroupLasso.knotInput grp w x) := hs.1.mem_iff.1 (by simp)
        unfold wKnots at hmem
        obtain ⟨a, ha, hae⟩ := List.mem_map.1 hmem
        have hlow' := hlow a ha
        obtain ⟨j0, rfl⟩ := knotInput_mem ha
        obtain ⟨e1, e2⟩ := Prod.mk.inj hae
        have hbX : norm < -1 * curX := by rw [← e1]; exact hlow'
        have hcW : 0 < curW := by rw [← e2]; exact hwp j0
        have hcut : findW norm 1 (GroupLasso.knotInput grp w x) ((curX, curW) :: rest) =
            some ((curW ^ 2 * curX - norm) / (1 + curW ^ 2)) := by
          unfold findW
          rw [if_neg (by rw [knotInput_sum]; exact not_lt.2 hbig)]
          exact wplLoop_below norm curX curW rest hs.2 hbX
        have hneg : norm + (curW ^ 2 * curX - norm) / (1 + curW ^ 2) < 0 := by
          have hp : (0:ℝ) < 1 + curW ^ 2 := by positivity
          have : norm + (curW ^ 2 * curX - norm) / (1 + curW ^ 2) = curW ^ 2 * (norm + curX) / (1 + curW ^ 2) := by
            field_simp; ring
          rw [this]
          apply div_neg_of_neg_of_pos _ hp
          exact mul_neg_of_pos_of_neg (by positivity) (by linarith)
        refine ⟨(fun _ => 0, 0), ?_, isProjPair_of_vi ?_ ?_⟩
        · unfold GroupLasso.epigraph
          rw [hcut, Option.map_some]
          simp only
          rw [if_neg (not_le.2 hneg)]
        · show groupNorm grp w (fun _ => 0) ≤ 0
          simp [groupNorm, blockNorm]
        · rintro ⟨z, r⟩ hz
          simp only [Set.mem_ofPred_eq] at hz
          simp only [sub_zero]
          -- each block norm is at most `-norm * w_j`
          have hbl : ∀ j, npNorm (rk (GroupLasso.kind grp) j x) ≤ -norm * w j := by
            intro j
            have := hlow _ (knotInput_mk grp w x j)
            simp only at this
            rw [max_eq_left (hw j), normsCython_eq] at this
            have h2 : npNorm (rk (GroupLasso.kind grp) j x) / w j ≤ -norm := by linarith
            rw [div_le_iff₀ (hwp j)] at h2
            exact h2
          have h1 : ∑ i, x i * z i ≤ -norm * groupNorm grp w z := by
            refine le_trans (block_holder grp x z) ?_
            rw [gn_rk, Finset.mul_sum]
            apply Finset.sum_le_sum; intro j _
            calc _ ≤ (-norm * w j) * npNorm (rk (GroupLasso.kind grp) j z) :=
                  mul_le_mul_of_nonneg_right (hbl j) (npNorm_nonneg _)
              _ = _ := by ring
          have hn0 : 0 ≤ -norm := by
            have := hbl 0
            have h3 := npNorm_nonneg (rk (GroupLasso.kind grp) 0 x)
            have h4 := hwp 0
            by_contra hc
            push Not at hc
            nlinarith
          nlinarith [mul_le_mul_of_nonneg_left hz hn0]

/-- the epigraph is a convex cone -/
lemma epi_cone (grp : Fin p → Fin q) {w : Fin q → ℝ} (hw : ∀ j, 0 ≤ w j) :
    IsConvexCone {z : (Fin p → ℝ) × ℝ | groupNorm grp w z.1 ≤ z.2} := by
  rintro ⟨x, a⟩ hx ⟨y, b⟩ hy s t hs ht
  simp only [Set.mem_ofPred_eq] at *
  have h : groupNorm grp w (fun i => s * x i + t * y i) ≤ s * groupNorm grp w x + t * groupNorm grp w y := by
    rw [gn_rk, gn_rk, gn_rk, Finset.mul_sum, Finset.mul_sum, ← Finset.sum_add_distrib]
    apply Finset.sum_le_sum; intro j _
    have e : (rk (GroupLasso.kind grp) j fun i => s * x i + t * y i) =
        fun i => s * rk (GroupLasso.kind grp) j x i + t * rk (GroupLasso.kind grp) j y i := by
      funext i; unfold rk; split_ifs <;> simp
    have h1 := npNorm_add_le (fun i => s * rk (GroupLasso.kind grp) j x i)
      (fun i => t * rk (GroupLasso.kind grp) j y i)
    rw [npNorm_smul, npNorm_smul, abs_of_nonneg hs, abs_of_nonneg ht] at h1
    rw [e]
    calc _ ≤ w j * (s * npNorm (rk (GroupLasso.kind grp) j x) + t * npNorm (rk (GroupLasso.kind grp) j y)) :=
          mul_le_mul_of_nonneg_left h1 (hw j)
      _ = _ := by ring
  nlinarith [mul_le_mul_of_nonneg_left hx hs, mul_le_mul_of_nonneg_left hy ht]

/-- polar of the epigraph: `max_g ‖y[g]‖/w_g ≤ -s` -/
lemma epi_polar (grp : Fin p → Fin (q + 1)) {w : Fin (q + 1) → ℝ} (hw : ∀ j, 0 < w j) :
    polarPair {z : (Fin p → ℝ) × ℝ | groupNorm grp w z.1 ≤ z.2} =
      {y | ∀ j, blockNorm grp y.1 j ≤ -y.2 * w j} := by
  ext ⟨y, s⟩
  constructor
  · intro h j
    have hs : s ≤ 0 := by
      have := h (fun _ => 0, 1) (by
        show groupNorm grp w (fun _ => 0) ≤ 1
        simp [groupNorm, blockNorm])
      simpa [pdot] using this
    have hn0 : 0 ≤ npNorm (rk (GroupLasso.kind grp) j y) := npNorm_nonneg _
    have hb : ∀ k, npNorm (rk (GroupLasso.kind grp) k (rk (GroupLasso.kind grp) j y)) =
        if k = j then npNorm (rk (GroupLasso.kind grp) j y) else 0 := by
      intro k
      split_ifs with hk
      · subst hk
        congr 1
        funext i; unfold rk; by_cases hi : GroupLasso.kind grp i = Kind.group k <;> simp [hi]
      · have : rk (GroupLasso.kind grp) k (rk (GroupLasso.kind grp) j y) = fun _ => 0 := by
          funext i; unfold rk
          by_cases h1 : GroupLasso.kind grp i = Kind.group k
          · have h2 : ¬ GroupLasso.kind grp i = Kind.group j := by
              rw [h1]; simpa using hk
            rw [if_pos h1]; simp [h2]
          · rw [if_neg h1]
        rw [this, npNorm_zero]
    have := h (rk (GroupLasso.kind grp) j y, w j * npNorm (rk (GroupLasso.kind grp) j y)) (by
      show groupNorm grp w _ ≤ _
      rw [gn_rk]
      simp only [hb]
      simp)
    unfold pdot at this
    simp only at this
    have e : ∑ i, y i * rk (GroupLasso.kind grp) j y i = npNorm (rk (GroupLasso.kind grp) j y) ^ 2 := by
      rw [sq_npNorm]
      apply Finset.sum_congr rfl; intro i _
      unfold rk; split_ifs <;> ring
    rw [e] at this
    show blockNorm grp y j ≤ -s * w j
    rw [blockNorm_eq]
    rcases eq_or_lt_of_le hn0 with h0 | h0
    · rw [← h0]; exact mul_nonneg (by linarith) (hw j).le
    · by_contra hc
      push Not at hc
      nlinarith
  · intro h
    rintro ⟨z, r⟩ hz
    simp only [Set.mem_ofPred_eq] at hz h
    unfold pdot
    simp only
    have hs : s ≤ 0 := by
      have h1 := h 0
      have h2 : 0 ≤ blockNorm grp y 0 := Real.sqrt_nonneg _
      by_contra hc
      push Not at hc
      nlinarith [hw 0]
    have h1 : ∑ i, y i * z i ≤ -s * groupNorm grp w z := by
      refine le_trans (block_holder grp y z) ?_
      rw [gn_rk, Finset.mul_sum]
      apply Finset.sum_le_sum; intro j _
      have := h j
      rw [blockNorm_eq] at this
      calc _ ≤ (-s * w j) * npNorm (rk (GroupLasso.kind grp) j z) :=
            mul_le_mul_of_nonneg_right this (npNorm_nonneg _)
        _ = _ := by ring
    nlinarith

/-- C55: `group_lasso_epigraph_polar.cone_prox` projects on `{(v,u) : ‖v[g]‖ ≤ -u w_g for all g}`. -/
theorem C55_epigraph_polar (grp : Fin p → Fin (q + 1)) (w : Fin (q + 1) → ℝ) (hw : ∀ j, 1 / 10 ^ 20 ≤ w j)
    (x : Fin p → ℝ) (norm : ℝ) (sorted : List (ℝ × ℝ))
    (hs : IsDescArgsort (GroupLasso.knotInput grp w x) sorted) :
    ∃ P, GroupLasso.epigraphPolarProx grp w sorted (x, norm) = some P ∧
      IsProjPair {z | ∀ j, blockNorm grp z.1 j ≤ -z.2 * w j} (x, norm) P := by
  have hwp : ∀ j, 0 < w j := fun j => lt_of_lt_of_le (by positivity) (hw j)
  obtain ⟨P, h1, h2⟩ := C55_epigraph grp w hw x norm sorted hs
  refine ⟨_, by unfold GroupLasso.epigraphPolarProx; rw [h1]; rfl, ?_⟩
  rw [← epi_polar grp hwp]
  exact moreau_pair (epi_cone grp fun j => (hwp j).le) h2

/-- C55: `group_lasso_dual_epigraph_polar.cone_prox` projects on `{(v,u) : Σ_g w_g‖v[g]‖ ≤ -u}`. -/
theorem C55_dual_epigraph_polar (grp : Fin p → Fin (q + 1)) (w : Fin (q + 1) → ℝ) (hw : ∀ j, 1 / 10 ^ 20 ≤ w j)
    (x : Fin p → ℝ) (norm : ℝ) (sorted : List (ℝ × ℝ))
    (hs : IsDescArgsort (GroupLasso.knotInput grp w fun i => -x i) sorted) :
    ∃ P, GroupLasso.dualEpigraphPolarProx grp w sorted (x, norm) = some P ∧
      IsProjPair {z | groupNorm grp w z.1 ≤ -z.2} (x, norm) P := by
  obtain ⟨P, h1, h2⟩ := C55_epigraph grp w hw (fun i => -x i) (-norm) sorted hs
  refine ⟨_, by unfold GroupLasso.dualEpigraphPolarProx; rw [h1]; rfl, ?_⟩
  have h3 := isProjPair_neg (x := (x, norm)) h2
  have e : {z : (Fin p → ℝ) × ℝ | groupNorm grp w z.1 ≤ -z.2} =
      {z | ((fun i => -z.1 i, -z.2) : (Fin p → ℝ) × ℝ) ∈ {z : (Fin p → ℝ) × ℝ | groupNorm grp w z.1 ≤ z.2}} := by
    ext ⟨z, r⟩
    simp only [Set.mem_ofPred_eq, groupNorm, blockNorm, neg_sq]
  rw [e]; exact h3

/-- C55: `group_lasso_dual_epigraph.cone_prox` projects on `{(v,u) : ‖v[g]‖ ≤ u w_g for all g}`. -/
theorem C55_dual_epigraph (grp : Fin p → Fin (q + 1)) (w : Fin (q + 1) → ℝ) (hw : ∀ j, 1 / 10 ^ 20 ≤ w j)
    (x : Fin p → ℝ) (norm : ℝ) (sorted : List (ℝ × ℝ))
    (hs : IsDescArgsort (GroupLasso.knotInput grp w fun i => -x i) sorted) :
    ∃ P, GroupLasso.dualEpigraphProx grp w sorted (x, norm) = some P ∧
      IsProjPair {z | ∀ j, blockNorm grp z.1 j ≤ z.2 * w j} (x, norm) P := by
  obtain ⟨P, h1, h2⟩ := C55_epigraph_polar grp w hw (fun i => -x i) (-norm) sorted hs
  have hepi : GroupLasso.epigraphPolarProx grp w sorted (fun i => -x i, -norm) = some P := h1
  unfold GroupLasso.epigraphPolarProx at hepi
  obtain ⟨Q, hQ, hP⟩ := Option.map_eq_some_iff.1 hepi
  refine ⟨(fun i => -P.1 i, -P.2), ?_, ?_⟩
  · unfold GroupLasso.dualEpigraphProx
    simp only
    rw [hQ, Option.map_some, ← hP]
    simp only [Option.some.injEq, Prod.mk.injEq]
    constructor
    · funext i; ring
    · ring
  · have h3 := isProjPair_neg (x := (x, norm)) h2
    have e : {z : (Fin p → ℝ) × ℝ | ∀ j, blockNorm grp z.1 j ≤ z.2 * w j} =
        {z | ((fun i => -z.1 i, -z.2) : (Fin p → ℝ) × ℝ) ∈
          {z : (Fin p → ℝ) × ℝ | ∀ j, blockNorm grp z.1 j ≤ -z.2 * w j}} := by
      ext ⟨z, r⟩
      simp only [Set.mem_ofPred_eq, blockNorm, neg_sq, neg_neg]
    rw [e]; exact h3

/-- hypotheses met by two groups with weights 1 and 2 -/
example : (∀ j, 1 / 10 ^ 20 ≤ (![1, 2] : Fin 2 → ℝ) j) ∧
    ∃ s, IsDescArgsort (GroupLasso.knotInput ![0, 0, 1] ![1, 2] ![3, 4, 1]) s :=
  ⟨by intro j; fin_cases j <;> norm_num, exists_argsort _⟩

end Verif.Props
