import Verif.Lemmas.SparseGroupPath
import Verif.Props.C74_GroupPath
import Verif.Lemmas.Lsq
import Mathlib.Algebra.BigOperators.Field

/-!
# C75: the sparse group lasso path
-/

set_option linter.unusedSectionVars false
set_option linter.unusedVariables false

namespace Verif.Props
open Verif.Model Verif.Model.SparseGroupPath Verif.Spec Verif.Lemmas
open Verif.Model.GroupPath (sel candidateBool subsampleColumns)

variable {p q m : ℕ}

/-- the sparse group lasso penalty of one group: `Σ_{i ∈ g} a_i |z_i| + c ‖z[g]‖` -/
noncomputable def sgBlock (grp : Fin p → Fin q) (a : Fin p → ℝ) (c : ℝ) (z : Fin p → ℝ) (g : Fin q) : ℝ :=
  (∑ i, if grp i = g then a i * |z i| else 0) + c * blockNorm grp z g

/-- inner product over one group -/
noncomputable def dotBlock (grp : Fin p → Fin q) (x z : Fin p → ℝ) (g : Fin q) : ℝ :=
  ∑ i, if grp i = g then x i * z i else 0

/-- The largest dual gauge, up to the tolerance of the membership test, that `check_KKT` accepts in an inactive group:
`lam` enlarged by the tolerances, or the smallest scale the search looks at. -/
noncomputable def acceptedGauge (T : Tols) (lam : ℝ) : ℝ :=
  max ((1 + T.gTol / (1 - T.gTol / 2)) * ((1 + T.tol) * lam)) (1 / 2 ^ T.maxIter)

private lemma sum_block (grp : Fin p → Fin q) (F : Fin p → ℝ) (g : Fin q) :
    ∑ v : {v // grp v = g}, F v = ∑ i, if grp i = g then F i else 0 := by
  rw [← Finset.sum_filter]
  exact (Finset.sum_subtype _ (by simp) F).symm

/-- what an accepted inactive group means -/
private lemma inactive_sound {ι : Type*} [Fintype ι] {grad lasso : ι → ℝ} {w lam : ℝ} {T : Tols} (hl : 0 < lam)
    (ha : ∀ i, 0 ≤ lasso i) (hw : 0 ≤ w) (hi : 0 ≤ T.insideTol) (ht : 0 < T.gTol) (ht' : T.gTol ≤ 1 / 2)
    {t : WithTop ℝ} (h : inactiveTerm grad lasso w lam T = some t) (hle : t ≤ ((1 + T.tol : ℝ) : WithTop ℝ)) (z : ι → ℝ) :
    ∑ i, -grad i * z i ≤ acceptedGauge T lam * (∑ i, lasso i * |z i| + (w + T.insideTol) * npNorm z) := by
  classical
  have key : ∃ s, 0 < s ∧ s ≤ acceptedGauge T lam ∧ Gauge.insideStrong (fun i => -grad i) s lasso w T.insideTol := by
    unfold inactiveTerm dualStrong at h
    cases hs : Gauge.strong (fun i => -grad i) lasso w T.insideTol T.gTol T.maxIter T.fuel with
    | none => rw [hs] at h; exact absurd h (by simp)
    | some r =>
      rw [hs] at h
      have hsound := gaugeDual_sound _ ht ht' T.maxIter T.fuel hs
      rcases hsound with ⟨rfl, hin⟩ | ⟨rfl, hin⟩ | ⟨v, rfl, hst⟩
      · exact ⟨1 / 2 ^ T.maxIter, by positivity, le_max_right _ _, of_decide_eq_true hin⟩
      · simp only [Option.some.injEq] at h
        rw [← h] at hle
        exact absurd hle (by simp)
      · simp only [Option.some.injEq] at h
        rw [← h, WithTop.coe_le_coe, div_le_iff₀ hl] at hle
        obtain ⟨l, u, _, _, hiu, hu0, huv, _⟩ := stopped_le ht ht' hst
        refine ⟨u, hu0, le_trans (le_trans huv ?_) (le_max_left _ _), of_decide_eq_true hiu⟩
        have : 0 ≤ T.gTol / (1 - T.gTol / 2) := div_nonneg ht.le (by linarith)
        exact mul_le_mul_of_nonneg_left hle (by linarith)
  obtain ⟨s, hs0, hsle, hin⟩ := key
  have h1 := (thr_iff (fun i => -grad i) lasso (mul_nonneg hs0.le (by linarith : 0 ≤ w + T.insideTol))).1 hin z
  refine le_trans h1 (mul_le_mul_of_nonneg_right hsle ?_)
  exact add_nonneg (Finset.sum_nonneg fun i _ => mul_nonneg (ha i) (abs_nonneg _))
    (mul_nonneg (by linarith) (npNorm_nonneg z))

/-- a successful check, group by group -/
private lemma check_group {grp : Fin p → Fin q} {pen : Penalty (Fin p) (Fin q)} {grad b : Fin p → ℝ} {lam : ℝ} {T : Tols}
    {r : (Fin q → Bool) × (Fin q → ℝ)} (h : checkKKT grp pen grad b lam T = some r) (hno : NoFailure r) (g : Fin q) :
    ∃ c, groupCheck grp pen grad b lam T g = some c ∧ c.code = 0 ∧ c.term ≤ ((1 + T.tol : ℝ) : WithTop ℝ) := by
  classical
  unfold checkKKT at h
  by_cases hall : ∀ g, (groupCheck grp pen grad b lam T g).isSome
  · rw [dif_pos hall] at h
    dsimp only at h
    injection h with h
    subst h
    refine ⟨(groupCheck grp pen grad b lam T g).get (hall g), (Option.some_get _).symm, ?_, ?_⟩
    · have := hno.1 g
      simpa using this
    · by_contra hc
      have := hno.2 g
      dsimp only at this
      rw [if_neg hc] at this
      have hr : rankTop (fun g => ((groupCheck grp pen grad b lam T g).get (hall g)).term) g ≤ (Fintype.card (Fin q) : ℝ) := by
        unfold rankTop
        set t := fun g => ((groupCheck grp pen grad b lam T g).get (hall g)).term
        have h1 : (Finset.univ.filter fun j => t j < t g).card + 1 ≤ Fintype.card (Fin q) := by
          have : (Finset.univ.filter fun j => t j < t g) ⊂ Finset.univ := by
            refine ⟨Finset.filter_subset _ _, fun h => ?_⟩
            have := h (Finset.mem_univ g)
            simp at this
          exact Finset.card_lt_card this
        have h2 : (Finset.univ.filter fun j => t j ≤ t g).card ≤ Fintype.card (Fin q) :=
          Finset.card_le_card (Finset.filter_subset (fun j => t j ≤ t g) Finset.univ)
        have h1' : ((Finset.univ.filter fun j => t j < t g).card : ℝ) + 1 ≤ Fintype.card (Fin q) := by exact_mod_cast h1
        have h2' : ((Finset.univ.filter fun j => t j ≤ t g).card : ℝ) ≤ Fintype.card (Fin q) := by exact_mod_cast h2
        linarith
      linarith
  · rw [dif_neg hall] at h
    exact absurd h (by simp)

/-- **C75** If `check_KKT` returns and reports no failing group, in every group it takes for inactive the (negative) gradient
lies in the ball of the dual norm of the group's penalty, of a radius at most `acceptedGauge` (`lam` up to the tolerances),
the group weight enlarged by the tolerance of the membership test. -/
theorem C75_inactive (grp : Fin p → Fin q) (pen : Penalty (Fin p) (Fin q)) (ha : ∀ i, 0 ≤ pen.lasso i) (hw : ∀ g, 0 ≤ pen.w g)
    (grad b : Fin p → ℝ) {lam : ℝ} (hl : 0 < lam) (T : Tols) (hi : 0 ≤ T.insideTol) (ht : 0 < T.gTol) (ht' : T.gTol ≤ 1 / 2)
    {r : (Fin q → Bool) × (Fin q → ℝ)} (h : checkKKT grp pen grad b lam T = some r) (hno : NoFailure r) (g : Fin q)
    (hg : pen.term grp b g ≤ 1 / 10 ^ 6 * npNorm b) (z : Fin p → ℝ) :
    -dotBlock grp grad z g ≤ acceptedGauge T lam * sgBlock grp pen.lasso (pen.w g + T.insideTol) z g := by
  obtain ⟨c, hc, _, hc2⟩ := check_group h hno g
  unfold groupCheck at hc
  rw [if_neg (not_lt.2 hg)] at hc
  split_ifs at hc with hpos
  cases hin : inactiveTerm (sel grp grad g) (sel grp pen.lasso g) (pen.w g) lam T with
  | none => rw [hin] at hc; exact absurd hc (by simp)
  | some t =>
    rw [hin] at hc
    simp only [Option.map_some, Option.some.injEq] at hc
    rw [← hc] at hc2
    have hc3 : t ≤ ((1 + T.tol : ℝ) : WithTop ℝ) := hc2
    have := inactive_sound (lasso := sel grp pen.lasso g) hl (fun i => ha i) (hw g) hi ht ht' hin hc3 (sel grp z g)
    unfold dotBlock sgBlock
    rw [blockNorm_sel, ← sum_block grp (fun i => grad i * z i), ← sum_block grp (fun i => pen.lasso i * |z i|),
      ← Finset.sum_neg_distrib]
    simpa [sel] using this

/-- **C75** (partial: only for the zero vector; `C75_active_fails` shows what happens in active groups)  If the zero
vector passes `check_KKT`, it is optimal, for a convex loss, up to the tolerances: its loss is at most that of any `u` plus
the penalty of `u` at the lagrange parameter `acceptedGauge` (`lam` up to the tolerances). -/
theorem C75_zero_partial {f : (Fin p → ℝ) → ℝ} {grad : (Fin p → ℝ) → Fin p → ℝ} (hf : ConvexWithGradient f grad)
    (grp : Fin p → Fin q) (pen : Penalty (Fin p) (Fin q)) (ha : ∀ i, 0 ≤ pen.lasso i) (hw : ∀ g, 0 ≤ pen.w g)
    {lam : ℝ} (hl : 0 < lam) (T : Tols) (hi : 0 ≤ T.insideTol) (ht : 0 < T.gTol) (ht' : T.gTol ≤ 1 / 2)
    {r : (Fin q → Bool) × (Fin q → ℝ)} (h : checkKKT grp pen (grad fun _ => 0) (fun _ => 0) lam T = some r)
    (hno : NoFailure r) (u : Fin p → ℝ) :
    f (fun _ => 0) ≤ f u + acceptedGauge T lam *
      (∑ i, pen.lasso i * |u i| + groupNorm grp (fun g => pen.w g + T.insideTol) u) := by
  have h1 := tangent hf (fun _ => 0) u
  have h2 := Finset.sum_le_sum fun g (_ : g ∈ Finset.univ) =>
    C75_inactive grp pen ha hw (grad fun _ => 0) (fun _ => 0) hl T hi ht ht' h hno g (by
      have : sel grp (fun _ => (0:ℝ)) g = fun _ => 0 := rfl
      simp [Penalty.term, this, npNorm_zero]) u
  rw [Finset.sum_neg_distrib, ← Finset.mul_sum] at h2
  have e1 : ∑ g, dotBlock grp (grad fun _ => 0) u g = dot (grad fun _ => 0) (fun i => u i - 0) := by
    unfold dotBlock dot
    rw [Finset.sum_comm]
    exact Finset.sum_congr rfl fun i _ => by simp
  have e2 : ∑ g, sgBlock grp pen.lasso (pen.w g + T.insideTol) u g =
      ∑ i, pen.lasso i * |u i| + groupNorm grp (fun g => pen.w g + T.insideTol) u := by
    unfold sgBlock groupNorm
    rw [Finset.sum_add_distrib, Finset.sum_comm]
    congr 1
    exact Finset.sum_congr rfl fun i _ => by simp
  rw [e1, e2] at h2
  linarith

/-- an exact zero block is accepted -/
private lemma inactive_complete {ι : Type*} [Fintype ι] {grad lasso : ι → ℝ} {w lam : ℝ} {insideTol gTol tol : ℝ} {m : ℕ}
    (hl : 0 < lam) (ha : ∀ i, 0 ≤ lasso i) (hw : 0 ≤ w) (hi : 0 ≤ insideTol) (ht : 0 < gTol) (ht' : gTol ≤ 1 / 2)
    (htol : gTol / (1 - gTol / 2) ≤ tol) (hm : lam ≤ 2 ^ m)
    (hz : ∀ z : ι → ℝ, ∑ i, -grad i * z i ≤ lam * (∑ i, lasso i * |z i| + w * npNorm z)) :
    ∃ N, ∀ fuel, N ≤ fuel → ∃ t, inactiveTerm grad lasso w lam ⟨insideTol, gTol, m, tol, fuel⟩ = some t ∧
      t ≤ ((1 + tol : ℝ) : WithTop ℝ) := by
  classical
  have hins : ∀ s, lam ≤ s → decide (Gauge.insideStrong (fun i => -grad i) s lasso w insideTol) = true := by
    intro s hs
    have hs0 : 0 < s := by linarith
    apply decide_eq_true
    refine (thr_iff (fun i => -grad i) lasso (mul_nonneg hs0.le (by linarith : 0 ≤ w + insideTol))).2 fun z => ?_
    refine le_trans (hz z) ?_
    have hA : 0 ≤ ∑ i, lasso i * |z i| := Finset.sum_nonneg fun i _ => mul_nonneg (ha i) (abs_nonneg _)
    have hB := npNorm_nonneg z
    have h1 : ∑ i, lasso i * |z i| + w * npNorm z ≤ ∑ i, lasso i * |z i| + (w + insideTol) * npNorm z := by nlinarith
    exact mul_le_mul hs h1 (by positivity) hs0.le
  have htol0 : 0 ≤ gTol / (1 - gTol / 2) := div_nonneg ht.le (by linarith)
  obtain ⟨N, hN⟩ := gaugeDual_spec (fun t => decide (Gauge.insideStrong (fun i => -grad i) t lasso w insideTol)) ht ht' m
  refine ⟨N, fun fuel hf => ?_⟩
  obtain ⟨r, hr, hs⟩ := hN fuel hf
  have hr' : Gauge.strong (fun i => -grad i) lasso w insideTol gTol m fuel = some r := hr
  unfold inactiveTerm dualStrong
  dsimp only
  rw [hr']
  rcases hs with ⟨rfl, hin⟩ | ⟨rfl, hin⟩ | ⟨v, rfl, hst⟩
  · refine ⟨_, rfl, ?_⟩
    rw [WithTop.coe_le_coe, zero_div]; linarith
  · have := hins _ hm
    rw [this] at hin
    exact absurd hin (by simp)
  · refine ⟨_, rfl, ?_⟩
    obtain ⟨l, u, hl0, hil, _, _, _, hvl⟩ := stopped_le ht ht' hst
    have hllam : l < lam := by
      by_contra hc
      have := hins l (not_lt.1 hc)
      rw [this] at hil
      exact absurd hil (by simp)
    rw [WithTop.coe_le_coe, div_le_iff₀ hl]
    refine le_trans hvl ?_
    calc (1 + gTol / (1 - gTol / 2)) * l ≤ (1 + tol) * l := mul_le_mul_of_nonneg_right (by linarith) hl0.le
      _ ≤ (1 + tol) * lam := mul_le_mul_of_nonneg_left hllam.le (by linarith)

private lemma pen_group (grp : Fin p → Fin q) (a : Fin p → ℝ) (w : Fin q → ℝ) (u : Fin p → ℝ) :
    ∑ i, a i * |u i| + groupNorm grp w u = ∑ g, blockPen (sel grp a g) (w g) (sel grp u g) := by
  unfold blockPen groupNorm
  rw [Finset.sum_add_distrib]
  congr 1
  · have : ∀ g, ∑ v, sel grp a g v * |sel grp u g v| = ∑ i, if grp i = g then a i * |u i| else 0 := fun g =>
      sum_block grp (fun i => a i * |u i|) g
    simp only [this]
    rw [Finset.sum_comm]
    exact Finset.sum_congr rfl fun i _ => by simp
  · exact Finset.sum_congr rfl fun g _ => by rw [blockNorm_sel]

/-- the optimality conditions, group by group -/
private lemma group_vi {f : (Fin p → ℝ) → ℝ} {grad b : Fin p → ℝ} (hg : IsGradientAt f grad b) (grp : Fin p → Fin q)
    {a : Fin p → ℝ} (ha : ∀ i, 0 ≤ a i) {w : Fin q → ℝ} (hw : ∀ g, 0 ≤ w g) {lam : ℝ} (hl : 0 < lam)
    (hb : Minimises (fun u => f u + lam * (∑ i, a i * |u i| + groupNorm grp w u)) Set.univ b) (g : Fin q)
    (z : {v // grp v = g} → ℝ) :
    ∑ v, -sel grp grad g v * (z v - sel grp b g v) ≤
      lam * (blockPen (sel grp a g) (w g) z - blockPen (sel grp a g) (w g) (sel grp b g)) := by
  classical
  set d : Fin p → ℝ := fun i => if h : grp i = g then z ⟨i, h⟩ - b i else 0 with hd
  have hsd : sel grp d g = fun v => z v - sel grp b g v := by funext v; simp [sel, hd, v.2]
  have hsd' : ∀ j, j ≠ g → sel grp d j = fun _ => 0 := by
    intro j hj
    funext v
    have hv : grp v.1 ≠ g := fun h => hj (by rw [← v.2, h])
    simp [sel, hd, hv]
  set D := blockPen (sel grp a g) (w g) z - blockPen (sel grp a g) (w g) (sel grp b g) with hD
  have h1 := dir_ge hg d (-(lam * D)) (fun t ht0 ht1 => by
    have h2 := hb.2 (fun i => b i + t * d i) (Set.mem_univ _)
    dsimp only at h2
    rw [pen_group, pen_group] at h2
    have h3 : ∑ j, blockPen (sel grp a j) (w j) (sel grp (fun i => b i + t * d i) j) ≤
        ∑ j, blockPen (sel grp a j) (w j) (sel grp b j) + t * D := by
      rw [← Finset.add_sum_erase _ _ (Finset.mem_univ g), ← Finset.add_sum_erase _ (fun j => blockPen (sel grp a j) (w j) (sel grp b j)) (Finset.mem_univ g)]
      have e1 : ∑ j ∈ Finset.univ.erase g, blockPen (sel grp a j) (w j) (sel grp (fun i => b i + t * d i) j) =
          ∑ j ∈ Finset.univ.erase g, blockPen (sel grp a j) (w j) (sel grp b j) := by
        refine Finset.sum_congr rfl fun j hj => ?_
        have : sel grp (fun i => b i + t * d i) j = sel grp b j := by
          funext v
          have := congrFun (hsd' j (Finset.ne_of_mem_erase hj)) v
          simp only [sel] at this ⊢
          rw [this]; ring
        rw [this]
      have e2 : sel grp (fun i => b i + t * d i) g = fun v => (1 - t) * sel grp b g v + t * z v := by
        funext v
        have := congrFun hsd v
        simp only [sel] at this ⊢
        rw [this]; ring
      rw [e1, e2]
      have e3 := blockPen_add_le (fun v => ha v) (hw g) (fun v => (1 - t) * sel grp b g v) (fun v => t * z v) (a := sel grp a g)
      rw [blockPen_smul (by linarith), blockPen_smul ht0.le] at e3
      nlinarith
    have h4 := mul_le_mul_of_nonneg_left h3 hl.le
    nlinarith)
  have h2 : dot grad d = ∑ v, sel grp grad g v * (z v - sel grp b g v) := by
    unfold dot
    have : ∑ i, grad i * d i = ∑ i, if grp i = g then grad i * d i else 0 := by
      refine Finset.sum_congr rfl fun i _ => ?_
      split_ifs with h
      · rfl
      · simp [hd, h]
    rw [this, ← sum_block grp (fun i => grad i * d i)]
    exact Finset.sum_congr rfl fun v _ => by
      have := congrFun hsd v
      simp only [sel] at this ⊢
      rw [this]
  rw [h2] at h1
  have h3 : ∑ v, -sel grp grad g v * (z v - sel grp b g v) = -∑ v, sel grp grad g v * (z v - sel grp b g v) := by
    rw [← Finset.sum_neg_distrib]; exact Finset.sum_congr rfl fun v _ => by ring
  linarith

/-- the check succeeds if every group does -/
private lemma check_ok {grp : Fin p → Fin q} {pen : Penalty (Fin p) (Fin q)} {grad b : Fin p → ℝ} {lam : ℝ} {T : Tols}
    (htol : ∀ g : Fin q, 0 ≤ 1 + T.tol)
    (h : ∀ g, groupCheck grp pen grad b lam T g = some (.active 0) ∨
      ∃ t, groupCheck grp pen grad b lam T g = some (.inactive t) ∧ t ≤ ((1 + T.tol : ℝ) : WithTop ℝ)) :
    ∃ r, checkKKT grp pen grad b lam T = some r ∧ NoFailure r := by
  classical
  have hall : ∀ g, (groupCheck grp pen grad b lam T g).isSome := by
    intro g; rcases h g with h | ⟨t, h, _⟩ <;> rw [h] <;> rfl
  unfold checkKKT
  rw [dif_pos hall]
  refine ⟨_, rfl, fun g => ?_, fun g => ?_⟩
  · rcases h g with h | ⟨t, h, _⟩ <;> simp [h, GroupCheck.code]
  · dsimp only
    rw [if_pos]
    · norm_num
    · rcases h g with h | ⟨t, h, h2⟩
      · simp only [h, Option.get_some, GroupCheck.term]
        rw [← WithTop.coe_zero, WithTop.coe_le_coe]
        exact htol g
      · simpa [h, GroupCheck.term] using h2

/-- How small the tolerance of the gauge search has to be, compared with the tolerance `tol` of the check and the weights of
a group, for the check to accept every exact solution: `η` bounds the relative error of the gauge. -/
structure FineEnough (insideTol gTol tol lam w normA η : ℝ) : Prop where
  search : gTol / (1 - gTol / 2) ≤ η
  inside : 1 - η ≤ w / ((w + insideTol) * (1 + gTol / (1 - gTol / 2)))
  gauge : η ≤ tol
  l1 : η * lam * normA ≤ tol
  direction : 2 * η * normA ≤ tol * w

/-- **C75** Converse: if every group has a positive group weight and the tolerances of the gauge search are fine enough (see
the example below for the defaults), every minimiser of the penalised problem passes the check. -/
theorem C75_complete {f : (Fin p → ℝ) → ℝ} {grad b : Fin p → ℝ} (hg : IsGradientAt f grad b)
    (grp : Fin p → Fin q) (pen : Penalty (Fin p) (Fin q)) (ha : ∀ i, 0 ≤ pen.lasso i) (hw : ∀ g, 0 < pen.w g)
    {lam insideTol gTol tol : ℝ} {mi : ℕ} (hl : 0 < lam) (hi : 0 ≤ insideTol) (ht : 0 < gTol) (ht' : gTol ≤ 1 / 2)
    (htol : tol ≤ 1) {η : Fin q → ℝ} (hη : ∀ g, FineEnough insideTol gTol tol lam (pen.w g) (blockNorm grp pen.lasso g) (η g))
    (hm1 : lam ≤ 2 ^ mi) (hm2 : ∀ g, 1 / 2 ^ mi < lam * (1 - η g))
    (hb : Minimises (fun u => f u + lam * (∑ i, pen.lasso i * |u i| + groupNorm grp pen.w u)) Set.univ b) :
    ∃ N, ∀ fuel, N ≤ fuel → ∃ r, checkKKT grp pen grad b lam ⟨insideTol, gTol, mi, tol, fuel⟩ = some r ∧ NoFailure r := by
  classical
  have hτ0 : 0 ≤ gTol / (1 - gTol / 2) := div_nonneg ht.le (by linarith)
  have hvi := fun g => group_vi hg grp ha (fun g => (hw g).le) hl hb g
  have hgrp : ∀ g, ∃ N, ∀ fuel, N ≤ fuel →
      (groupCheck grp pen grad b lam ⟨insideTol, gTol, mi, tol, fuel⟩ g = some (.active 0) ∨
      ∃ t, groupCheck grp pen grad b lam ⟨insideTol, gTol, mi, tol, fuel⟩ g = some (.inactive t) ∧
        t ≤ ((1 + tol : ℝ) : WithTop ℝ)) := by
    intro g
    have F := hη g
    rw [blockNorm_sel] at F
    by_cases hact : pen.term grp b g > 1 / 10 ^ 6 * npNorm b
    · have hbn : npNorm (sel grp b g) ≠ 0 := by
        intro h0
        have h1 := npNorm_eq_zero h0
        have : pen.term grp b g = 0 := by
          unfold Penalty.term
          rw [h0, zero_mul, zero_add]
          refine Finset.sum_eq_zero fun v _ => ?_
          have := h1 v
          simp only [sel] at this
          rw [this, zero_mul, abs_zero]
        rw [this] at hact
        have := npNorm_nonneg b
        have : 0 ≤ 1 / 10 ^ 6 * npNorm b := by positivity
        linarith
      have hA := npNorm_nonneg (sel grp pen.lasso g)
      obtain ⟨N, hN⟩ := active_complete (a := sel grp pen.lasso g) hl (fun v => ha v) (hw g) hi ht ht' hbn
        (fun v => vi_coord (a := sel grp pen.lasso g) hl (fun v => ha v) (hw g).le hbn (hvi g) v) F.search F.inside F.gauge F.l1 F.direction
        (by have := hw g; nlinarith [F.direction]) hm1 (hm2 g)
      refine ⟨N, fun fuel hf => .inl ?_⟩
      unfold groupCheck
      rw [if_pos hact]
      have := hN fuel hf
      rw [this]; rfl
    · obtain ⟨N, hN⟩ := inactive_complete (insideTol := insideTol) (gTol := gTol) (tol := tol) (m := mi) hl
        (fun v : {v // grp v = g} => ha v) (hw g).le hi ht ht' (le_trans F.search F.gauge) hm1
        (vi_ball hl.le (fun v => ha v) (hw g).le (hvi g))
      refine ⟨N, fun fuel hf => .inr ?_⟩
      obtain ⟨t, h1, h2⟩ := hN fuel hf
      refine ⟨t, ?_, h2⟩
      unfold groupCheck
      have hpos : (∑ v : {v // grp v = g}, pen.lasso v) + pen.w g > 0 :=
        add_pos_of_nonneg_of_pos (Finset.sum_nonneg fun v _ => ha v) (hw g)
      rw [if_neg hact, if_pos hpos]
      have h1' : inactiveTerm (sel grp grad g) (sel grp pen.lasso g) (pen.w g) lam ⟨insideTol, gTol, mi, tol, fuel⟩ = some t := h1
      rw [h1']; rfl
  choose N hN using hgrp
  refine ⟨Finset.univ.sup N, fun fuel hf => check_ok ?_ fun g =>
    hN g fuel (le_trans (Finset.le_sup (f := N) (Finset.mem_univ g)) hf)⟩
  intro g
  dsimp only
  have := (hη g).search
  have := (hη g).gauge
  linarith

/-- **C75** What an accepted active group with a positive group weight means: its dual gauge is at least `lam`, up to the
tolerances, and on its nonzero coordinates the negative gradient is `lam * lasso_i * sign(b_i) + s * b_i / ‖b[g]‖` up to the
tolerance, for some `s ≥ 0`.  (It should be `s = lam * w_g`; `C75_active_fails` shows that it can be far larger.) -/
theorem C75_active (grp : Fin p → Fin q) (pen : Penalty (Fin p) (Fin q)) (ha : ∀ i, 0 ≤ pen.lasso i)
    (grad b : Fin p → ℝ) {lam : ℝ} (T : Tols) (hi : 0 ≤ T.insideTol) (ht : 0 < T.gTol) (ht' : T.gTol ≤ 1 / 2)
    {r : (Fin q → Bool) × (Fin q → ℝ)} (h : checkKKT grp pen grad b lam T = some r) (hno : NoFailure r) (g : Fin q)
    (hw : 0 < pen.w g) (hg : 1 / 10 ^ 6 * Real.sqrt (∑ i, b i ^ 2) < sgBlock grp pen.lasso (pen.w g) b g) :
    (∃ z : Fin p → ℝ, lam * (1 - T.tol) * sgBlock grp pen.lasso (pen.w g + T.insideTol) z g <
        (1 + T.gTol / (1 - T.gTol / 2)) * -dotBlock grp grad z g) ∧
    ∃ s, 0 ≤ s ∧ Real.sqrt (∑ i, if grp i = g ∧ b i ≠ 0 then
        (grad i + lam * pen.lasso i * SignType.sign (b i) + s * (b i / blockNorm grp b g)) ^ 2 else 0) ≤
      T.tol * (max 1 (blockNorm grp b g) + s) := by
  classical
  obtain ⟨c, hc, hc0, _⟩ := check_group h hno g
  have hterm : pen.term grp b g = sgBlock grp pen.lasso (pen.w g) b g := by
    unfold Penalty.term sgBlock
    rw [blockNorm_sel, ← sum_block grp (fun i => pen.lasso i * |b i|), add_comm, mul_comm]
    congr 1
    exact Finset.sum_congr rfl fun v _ => by rw [abs_mul, abs_of_nonneg (ha v)]; ring
  unfold groupCheck at hc
  have hact : pen.term grp b g > 1 / 10 ^ 6 * npNorm b := by rw [hterm]; exact hg
  rw [if_pos hact] at hc
  cases hin : activeCode (sel grp grad g) (sel grp b g) (sel grp pen.lasso g) (pen.w g) lam T with
  | none => rw [hin] at hc; exact absurd hc (by simp)
  | some t =>
    rw [hin] at hc
    simp only [Option.map_some, Option.some.injEq] at hc
    rw [← hc] at hc0
    have ht0 : t = 0 := hc0
    rw [ht0] at hin
    obtain ⟨⟨z, hz⟩, s, hs0, hs⟩ := active_sound (lasso := sel grp pen.lasso g) (fun v => ha v) hw hi ht ht' hin
    constructor
    · refine ⟨fun i => if h : grp i = g then z ⟨i, h⟩ else 0, ?_⟩
      set d : Fin p → ℝ := fun i => if h : grp i = g then z ⟨i, h⟩ else 0 with hd
      have hsd : sel grp d g = z := by funext v; simp [sel, hd, v.2]
      unfold dotBlock sgBlock
      rw [blockNorm_sel, ← sum_block grp (fun i => grad i * d i), ← sum_block grp (fun i => pen.lasso i * |d i|),
        ← Finset.sum_neg_distrib, hsd]
      have e : ∀ v : {v // grp v = g}, d v = z v := fun v => congrFun hsd v
      simp only [e]
      simpa [sel] using hz
    · refine ⟨s, hs0, ?_⟩
      rw [blockNorm_sel]
      refine le_trans (le_of_eq ?_) hs
      unfold npNorm
      congr 1
      have e : ∀ i, (if grp i = g ∧ b i ≠ 0 then
          (grad i + lam * pen.lasso i * SignType.sign (b i) + s * (b i / Real.sqrt (∑ v, sel grp b g v ^ 2))) ^ 2 else 0) =
          if grp i = g then (if b i = 0 then 0 else grad i + lam * pen.lasso i * npSign (b i) + s * (b i / Real.sqrt (∑ v, sel grp b g v ^ 2))) ^ 2 else 0 := by
        intro i
        have hsgn : ((SignType.sign (b i) : SignType) : ℝ) = npSign (b i) := by
          unfold npSign
          rcases lt_trichotomy (b i) 0 with h0 | h0 | h0
          · rw [if_neg (not_lt.2 h0.le), if_pos h0, sign_neg h0]; simp
          · rw [h0]; simp
          · rw [if_pos h0, sign_pos h0]; simp
        rw [hsgn]
        by_cases h1 : grp i = g <;> by_cases h2 : b i = 0 <;> simp [h1, h2]
      rw [Finset.sum_congr rfl fun i _ => e i, ← sum_block grp]
      rfl

/-- **C75** (partial: only for the zero vector) Conversely, if every group is penalised and the zero vector minimises the
penalised problem, it passes the check. -/
theorem C75_zero_complete_partial {f : (Fin p → ℝ) → ℝ} {grad : Fin p → ℝ} (hg : IsGradientAt f grad fun _ => 0)
    (grp : Fin p → Fin q) (pen : Penalty (Fin p) (Fin q)) (ha : ∀ i, 0 ≤ pen.lasso i) (hw : ∀ g, 0 ≤ pen.w g)
    (hpen : ∀ g, 0 < pen.w g ∨ ∃ i, grp i = g ∧ 0 < pen.lasso i)
    {lam insideTol gTol tol : ℝ} {mi : ℕ} (hl : 0 < lam) (hi : 0 ≤ insideTol) (ht : 0 < gTol) (ht' : gTol ≤ 1 / 2)
    (htol : gTol / (1 - gTol / 2) ≤ tol) (hm : lam ≤ 2 ^ mi)
    (hb : Minimises (fun u => f u + lam * (∑ i, pen.lasso i * |u i| + groupNorm grp pen.w u)) Set.univ fun _ => 0) :
    ∃ N, ∀ fuel, N ≤ fuel → ∃ r, checkKKT grp pen grad (fun _ => 0) lam ⟨insideTol, gTol, mi, tol, fuel⟩ = some r ∧
      NoFailure r := by
  classical
  -- the gradient condition, group by group
  have hz : ∀ g, ∀ z : {v // grp v = g} → ℝ,
      ∑ v, -sel grp grad g v * z v ≤ lam * (∑ v, sel grp pen.lasso g v * |z v| + pen.w g * npNorm z) := by
    intro g z
    set d : Fin p → ℝ := fun i => if h : grp i = g then z ⟨i, h⟩ else 0 with hd
    have hsd : sel grp d g = z := by funext v; simp [sel, hd, v.2]
    have hpen1 : ∑ i, pen.lasso i * |d i| + groupNorm grp pen.w d =
        ∑ v, sel grp pen.lasso g v * |z v| + pen.w g * npNorm z := by
      congr 1
      · have : ∑ i, pen.lasso i * |d i| = ∑ i, if grp i = g then pen.lasso i * |d i| else 0 := by
          refine Finset.sum_congr rfl fun i _ => ?_
          split_ifs with h
          · rfl
          · simp [hd, h]
        rw [this, ← sum_block grp (fun i => pen.lasso i * |d i|)]
        exact Finset.sum_congr rfl fun v _ => by rw [← hsd]; rfl
      · unfold groupNorm
        rw [Finset.sum_eq_single g]
        · rw [blockNorm_sel, hsd]
        · intro j _ hj
          rw [blockNorm_sel]
          have : sel grp d j = fun _ => 0 := by
            funext v
            have hv : grp v.1 ≠ g := fun h => hj (by rw [← v.2, h])
            simp [sel, hd, hv]
          rw [this, npNorm_zero, mul_zero]
        · intro h; exact absurd (Finset.mem_univ g) h
    have h1 := dir_ge hg d (-(lam * (∑ v, sel grp pen.lasso g v * |z v| + pen.w g * npNorm z))) (fun t ht0 ht1 => by
      have h2 := hb.2 (fun i => 0 + t * d i) (Set.mem_univ _)
      have h3 : groupNorm grp pen.w (fun i => 0 + t * d i) = t * groupNorm grp pen.w d := by
        unfold groupNorm
        rw [Finset.mul_sum]
        refine Finset.sum_congr rfl fun j _ => ?_
        rw [blockNorm_sel, blockNorm_sel]
        have : sel grp (fun i => 0 + t * d i) j = fun v => t * sel grp d j v := by funext v; simp [sel]
        rw [this, npNorm_smul, abs_of_pos ht0]; ring
      have h4 : ∑ i, pen.lasso i * |0 + t * d i| = t * ∑ i, pen.lasso i * |d i| := by
        rw [Finset.mul_sum]
        exact Finset.sum_congr rfl fun i _ => by rw [zero_add, abs_mul, abs_of_pos ht0]; ring
      have h5 : groupNorm grp pen.w (fun _ => 0) = 0 := by
        unfold groupNorm
        refine Finset.sum_eq_zero fun j _ => ?_
        rw [blockNorm_sel]
        have : sel grp (fun _ => (0:ℝ)) j = fun _ => 0 := rfl
        rw [this, npNorm_zero, mul_zero]
      dsimp only at h2
      rw [h3, h4, h5, ← mul_add, hpen1] at h2
      simp only [abs_zero, mul_zero, Finset.sum_const_zero, add_zero] at h2
      linarith)
    have h2 : dot grad d = ∑ v, sel grp grad g v * z v := by
      unfold dot
      have : ∑ i, grad i * d i = ∑ i, if grp i = g then grad i * d i else 0 := by
        refine Finset.sum_congr rfl fun i _ => ?_
        split_ifs with h
        · rfl
        · simp [hd, h]
      rw [this, ← sum_block grp (fun i => grad i * d i)]
      exact Finset.sum_congr rfl fun v _ => by rw [← hsd]; rfl
    rw [h2] at h1
    have h3 : ∑ v, -sel grp grad g v * z v = -∑ v, sel grp grad g v * z v := by
      rw [← Finset.sum_neg_distrib]; exact Finset.sum_congr rfl fun v _ => by ring
    linarith
  have hgrp := fun g => inactive_complete (insideTol := insideTol) (gTol := gTol) (tol := tol) (m := mi) hl
    (fun v : {v // grp v = g} => ha v) (hw g) hi ht ht' htol hm (hz g)
  choose N hN using hgrp
  refine ⟨Finset.univ.sup N, fun fuel hf => ?_⟩
  have hc : ∀ g, ∃ t, groupCheck grp pen grad (fun _ => 0) lam ⟨insideTol, gTol, mi, tol, fuel⟩ g = some (.inactive t) ∧
      t ≤ ((1 + tol : ℝ) : WithTop ℝ) := by
    intro g
    obtain ⟨t, h1, h2⟩ := hN g fuel (le_trans (Finset.le_sup (f := N) (Finset.mem_univ g)) hf)
    refine ⟨t, ?_, h2⟩
    unfold groupCheck
    have h0 : pen.term grp (fun _ => 0) g = 0 := by
      have : sel grp (fun _ => (0:ℝ)) g = fun _ => 0 := rfl
      simp [Penalty.term, this, npNorm_zero]
    have hpos : (∑ v : {v // grp v = g}, pen.lasso v) + pen.w g > 0 := by
      rcases hpen g with h | ⟨i, rfl, h⟩
      · exact add_pos_of_nonneg_of_pos (Finset.sum_nonneg fun v _ => ha v) h
      · refine add_pos_of_pos_of_nonneg ?_ (hw _)
        exact Finset.sum_pos' (fun v _ => ha v) ⟨⟨i, rfl⟩, Finset.mem_univ _, h⟩
    rw [if_neg (by rw [h0, npNorm_zero]; norm_num), if_pos hpos]
    have h1' : inactiveTerm (sel grp grad g) (sel grp pen.lasso g) (pen.w g) lam ⟨insideTol, gTol, mi, tol, fuel⟩ = some t := h1
    rw [h1']; rfl
  have hall : ∀ g, (groupCheck grp pen grad (fun _ => 0) lam ⟨insideTol, gTol, mi, tol, fuel⟩ g).isSome := by
    intro g; obtain ⟨t, h, _⟩ := hc g; rw [h]; rfl
  unfold checkKKT
  rw [dif_pos hall]
  refine ⟨_, rfl, fun g => ?_, fun g => ?_⟩
  · obtain ⟨t, h, _⟩ := hc g
    simp [h, GroupCheck.code]
  · obtain ⟨t, h, h2⟩ := hc g
    dsimp only
    rw [if_pos]
    · norm_num
    · simpa [h, GroupCheck.term] using h2

/-- **C75** The strong set: for a threshold `≥ 0`, a group is kept exactly when some direction supported in it has inner
product with the gradient larger than the threshold times the group's penalty (the group weight enlarged by the tolerance
of the membership test). -/
theorem C75_strong_set (grp : Fin p → Fin q) (pen : Penalty (Fin p) (Fin q)) (hw : ∀ g, 0 ≤ pen.w g) {insideTol : ℝ}
    (hi : 0 ≤ insideTol) {lamCur lamNew : ℝ} (hthr : lamCur ≤ 2 * lamNew) (grad : Fin p → ℝ) (g : Fin q) :
    strongSet grp pen insideTol lamCur lamNew grad g ↔
      ∃ z, (2 * lamNew - lamCur) * sgBlock grp pen.lasso (pen.w g + insideTol) z g < dotBlock grp grad z g := by
  unfold strongSet Gauge.insideStrong
  rw [show (1 + 1) * lamNew - 1 * lamCur = 2 * lamNew - lamCur by ring,
    thr_iff _ _ (mul_nonneg (by linarith) (add_nonneg (hw g) hi))]
  push Not
  have conv : ∀ z : Fin p → ℝ, sgBlock grp pen.lasso (pen.w g + insideTol) z g =
      ∑ v, sel grp pen.lasso g v * |sel grp z g v| + (pen.w g + insideTol) * npNorm (sel grp z g) := by
    intro z
    unfold sgBlock
    rw [blockNorm_sel, ← sum_block grp (fun i => pen.lasso i * |z i|)]
    rfl
  have convd : ∀ z : Fin p → ℝ, dotBlock grp grad z g = ∑ v, sel grp grad g v * sel grp z g v := by
    intro z
    unfold dotBlock
    rw [← sum_block grp (fun i => grad i * z i)]
    rfl
  constructor
  · rintro ⟨z, hz⟩
    refine ⟨fun i => if h : grp i = g then z ⟨i, h⟩ else 0, ?_⟩
    have hs : sel grp (fun i => if h : grp i = g then z ⟨i, h⟩ else 0) g = z := by funext v; simp [sel, v.2]
    rw [conv, convd, hs]
    exact hz
  · rintro ⟨z, hz⟩
    refine ⟨sel grp z g, ?_⟩
    rw [conv, convd] at hz
    exact hz

/-- **C75** The strong rule: if the gradient of a group moves, in the dual norm of the group's penalty, by at most the change
of the lagrange parameter, then a discarded group satisfies the optimality condition of a zero block at the next lagrange
parameter, up to the tolerance of the membership test. -/
theorem C75_strong_rule (grp : Fin p → Fin q) (pen : Penalty (Fin p) (Fin q)) {insideTol lamCur lamNew : ℝ}
    (grad gradNew : Fin p → ℝ) (g : Fin q)
    (hslope : ∀ z, dotBlock grp (fun i => gradNew i - grad i) z g ≤ (lamCur - lamNew) * sgBlock grp pen.lasso (pen.w g) z g)
    (h : ¬ strongSet grp pen insideTol lamCur lamNew grad g) (z : Fin p → ℝ) :
    dotBlock grp gradNew z g ≤ lamNew * sgBlock grp pen.lasso (pen.w g) z g +
      (2 * lamNew - lamCur) * insideTol * blockNorm grp z g := by
  unfold strongSet at h
  rw [not_not] at h
  have h0 : 0 ≤ ((1 + 1) * lamNew - 1 * lamCur) * (pen.w g + insideTol) := le_trans (npNorm_nonneg _) h
  have h1 := (thr_iff _ _ h0).1 h (sel grp z g)
  have h2 := hslope z
  have e1 : dotBlock grp gradNew z g = dotBlock grp (fun i => gradNew i - grad i) z g + dotBlock grp grad z g := by
    unfold dotBlock
    rw [← Finset.sum_add_distrib]
    refine Finset.sum_congr rfl fun i _ => ?_
    split_ifs <;> ring
  have e2 : dotBlock grp grad z g = ∑ v, sel grp grad g v * sel grp z g v := by
    unfold dotBlock
    rw [← sum_block grp (fun i => grad i * z i)]
    rfl
  have e3 : sgBlock grp pen.lasso (pen.w g) z g =
      ∑ v, sel grp pen.lasso g v * |sel grp z g v| + pen.w g * npNorm (sel grp z g) := by
    unfold sgBlock
    rw [blockNorm_sel, ← sum_block grp (fun i => pen.lasso i * |z i|)]
    rfl
  rw [e1, blockNorm_sel]
  rw [e3] at h2 ⊢
  rw [← e2] at h1
  nlinarith

/-- the weight of a group: the given one, or by default the square root of the number of its features -/
noncomputable def groupWeight (grp : Fin p → Fin q) (weights : Fin q → Option ℝ) (g : Fin q) : ℝ :=
  match weights g with
  | some w => w
  | none => Real.sqrt ((Finset.univ.filter fun i => grp i = g).card : ℝ)

/-- **C75** The weights of the path: the terms of its penalty add up to
`l1_alpha Σ a_i |x_i| + (1 - l1_alpha) Σ_g w_g ‖x[g]‖`, where a group that is given no weight has the square root of its size. -/
theorem C75_penalty (grp : Fin p → Fin q) (a : Fin p → ℝ) (ha : ∀ i, 0 ≤ a i) (weights : Fin q → Option ℝ) {l1alpha : ℝ}
    (h0 : 0 ≤ l1alpha) (x : Fin p → ℝ) :
    ∑ g, (pathPenalty grp a weights l1alpha).term grp x g =
      l1alpha * ∑ i, a i * |x i| + (1 - l1alpha) * groupNorm grp (groupWeight grp weights) x := by
  have hw : ∀ g, (weights g).getD (Real.sqrt (Fintype.card {v // grp v = g})) = groupWeight grp weights g := by
    intro g
    unfold groupWeight
    cases h : weights g with
    | none => simp only [Option.getD_none]; rw [Fintype.card_subtype]
    | some w => rfl
  unfold Penalty.term pathPenalty Penalty.init groupNorm
  simp only [hw]
  rw [Finset.sum_add_distrib, sum_sel grp (fun v => |x v * (a v * l1alpha)|), add_comm, Finset.mul_sum, Finset.mul_sum]
  congr 1
  · refine Finset.sum_congr rfl fun i _ => ?_
    rw [abs_mul, abs_of_nonneg (mul_nonneg (ha i) h0)]; ring
  · refine Finset.sum_congr rfl fun g _ => ?_
    rw [blockNorm_sel]; ring

/-- loss, ridge term with the coefficients `ridge`, sparse group lasso penalty -/
noncomputable def sgObjective (X : Fin m → Fin p → ℝ) (loss : (Fin m → ℝ) → ℝ) (grp : Fin p → Fin q) (a : Fin p → ℝ)
    (w : Fin q → ℝ) (ridge : Fin p → ℝ) (lam : ℝ) (b : Fin p → ℝ) : ℝ :=
  loss (fun k => ∑ i, X k i * b i) + ∑ i, ridge i / 2 * b i ^ 2 + lam * (∑ i, a i * |b i| + groupNorm grp w b)

/-- **C75** The problem handed to the solver is the full problem restricted to the candidate groups.  Its ridge term has the
coefficients `(1 - alpha) enet_i`, without the lagrange parameter (`C75_ridge_fails`). -/
theorem C75_subproblem (X : Fin m → Fin p → ℝ) (loss : (Fin m → ℝ) → ℝ) (grp : Fin p → Fin q)
    (pen : Penalty (Fin p) (Fin q)) (ha : ∀ i, 0 ≤ pen.lasso i) (enet : Fin p → ℝ) {alpha lam : ℝ} (ha1 : alpha ≤ 1)
    (S : Fin q → Bool) (y : {v // candidateBool grp S v = true} → ℝ) :
    subObjective X loss grp pen enet alpha lam S y =
      sgObjective X loss grp pen.lasso pen.w (fun i => (1 - alpha) * enet i) (alpha * lam)
        (fun i => if h : candidateBool grp S i = true then y ⟨i, h⟩ else 0) := by
  classical
  -- reuse the group lasso case with all group weights nonzero in the ridge term
  set z : Fin p → ℝ := fun i => if h : candidateBool grp S i = true then y ⟨i, h⟩ else 0 with hz
  have hzy : ∀ c : {v // candidateBool grp S v = true}, z c = y c := by
    intro c; simp [hz, c.2]
  have hz0 : ∀ i, candidateBool grp S i ≠ true → z i = 0 := by intro i hi; simp [hz, hi]
  have hsum : ∀ F : Fin p → ℝ, (∀ i, candidateBool grp S i ≠ true → F i = 0) →
      ∑ c : {v // candidateBool grp S v = true}, F c = ∑ i, F i := by
    intro F hF
    rw [← Finset.sum_subtype (Finset.univ.filter fun i => candidateBool grp S i = true) (by simp) F, Finset.sum_filter]
    refine Finset.sum_congr rfl fun i _ => ?_
    split_ifs with h
    · rfl
    · exact (hF i h).symm
  have hgl := C74_subproblem (X := X) (satFunc := loss) (grp := grp) (w := pen.w) (enet := fun _ => 0) (alpha := alpha)
    (lam := lam) ha1 S y
  rw [← hz] at hgl
  unfold GroupPath.subObjective groupEnetObjective enetSmooth GroupPath.enetParams at hgl
  simp only [zero_mul, mul_zero, ite_self, Finset.sum_const_zero, zero_div, add_zero] at hgl
  have h2 : (if alpha < 1 then (∑ c, y c * (enetParams alpha enet lam c.1 * y c)) / 2 else 0) =
      ∑ i, (1 - alpha) * enet i / 2 * z i ^ 2 := by
    have e : ∑ i, (1 - alpha) * enet i / 2 * z i ^ 2 =
        (∑ c : {v // candidateBool grp S v = true}, y c * (enetParams alpha enet lam c.1 * y c)) / 2 := by
      rw [← hsum (fun i => (1 - alpha) * enet i / 2 * z i ^ 2) (fun i hi => by rw [hz0 i hi]; ring), Finset.sum_div]
      refine Finset.sum_congr rfl fun c _ => ?_
      rw [hzy]
      unfold enetParams
      simp only [Bool.false_eq_true, if_false]
      ring
    by_cases h : alpha < 1
    · rw [if_pos h, e]
    · have : alpha = 1 := le_antisymm ha1 (not_lt.1 h)
      rw [if_neg h, this]
      simp
  have h3 : ∑ c : {v // candidateBool grp S v = true}, |y c * pen.lasso c| = ∑ i, pen.lasso i * |z i| := by
    rw [← hsum (fun i => pen.lasso i * |z i|) (fun i hi => by rw [hz0 i hi]; simp)]
    refine Finset.sum_congr rfl fun c _ => ?_
    rw [hzy, abs_mul, abs_of_nonneg (ha c), mul_comm]
  unfold subObjective sgObjective
  dsimp only
  rw [h2, h3]
  linarith

/-- **C75** (negation) The ridge term of a penalised group lacks the lagrange parameter that the lasso and group lasso paths
put in front of it (`enetSmooth`): one feature, `alpha = 1/2`, `lagrange = 2`, value 1. -/
theorem C75_ridge_fails : ∃ (y : {v : Fin 1 // candidateBool (fun _ : Fin 1 => (0 : Fin 1)) (fun _ => true) v = true} → ℝ),
    subObjective (fun (_ : Fin 1) (_ : Fin 1) => (0 : ℝ)) (fun _ => 0) (fun _ : Fin 1 => (0 : Fin 1))
        ⟨fun _ => 1, fun _ => 1, fun _ => 1⟩ (fun _ => 1) (1 / 2) 2 (fun _ => true) y ≠
      sgObjective (fun (_ : Fin 1) (_ : Fin 1) => (0 : ℝ)) (fun _ => 0) (fun _ : Fin 1 => (0 : Fin 1)) (fun _ => 1)
        (fun _ => 1) (fun _ => (1 - 1 / 2) * 2 * 1) (1 / 2 * 2)
        (fun i => if h : candidateBool (fun _ : Fin 1 => (0 : Fin 1)) (fun _ => true) i = true then y ⟨i, h⟩ else 0) := by
  refine ⟨fun _ => 1, ?_⟩
  rw [C75_subproblem _ _ _ _ (fun _ => by norm_num) _ (by norm_num)]
  have hc : candidateBool (fun _ : Fin 1 => (0 : Fin 1)) (fun _ => true) 0 = true := by decide
  unfold sgObjective
  simp only [Fin.sum_univ_one, hc, dif_pos]
  norm_num

/-- **C75** (negation) `path.penalty.seminorm` is not the path's penalty: the constructor rescales `lasso_weights` but not
the inner weighted l1 norm.  One feature, unit weights, `l1_alpha = 1/2`, at 1: `3/2` instead of 1. -/
theorem C75_seminorm_fails :
    (pathPenalty (fun _ : Fin 1 => (0 : Fin 1)) (fun _ => 1) (fun _ => some 1) (1 / 2)).seminorm (fun _ => 0) (fun _ => 1) 1 ≠
      ∑ g, (pathPenalty (fun _ : Fin 1 => (0 : Fin 1)) (fun _ => 1) (fun _ => some 1) (1 / 2)).term (fun _ => 0) (fun _ => 1) g := by
  rw [C75_penalty _ _ (fun _ => by norm_num) (fun _ => some 1) (by norm_num)]
  unfold Penalty.seminorm pathPenalty Penalty.init groupNorm groupWeight
  simp only [Fin.sum_univ_one, ← blockNorm_sel]
  simp [blockNorm]
  norm_num

/-- **C75** (negation) `path.subsample` does not keep the penalty: the constructor rescales the already scaled weights.  For
all data: the subsampled path has the weights `l1_alpha² a` and `(1 - l1_alpha)² w`. -/
theorem C75_subsample_fails (grp : Fin p → Fin q) (a : Fin p → ℝ) (w : Fin q → ℝ) (l1alpha : ℝ) :
    let pen := pathPenalty grp a (fun g => some (w g)) l1alpha
    let sub := subsamplePenalty grp pen l1alpha
    (∀ i, pen.lasso i = l1alpha * a i ∧ sub.lasso i = l1alpha ^ 2 * a i) ∧
      ∀ g, pen.w g = (1 - l1alpha) * w g ∧ sub.w g = (1 - l1alpha) ^ 2 * w g := by
  refine ⟨fun i => ⟨?_, ?_⟩, fun g => ⟨?_, ?_⟩⟩ <;>
    simp only [subsamplePenalty, pathPenalty, Penalty.init, Option.getD_some] <;> ring

/-- **C75** (negation) `unpenalized` flags the wrong groups: never a group without any penalty, and always a group whose
weight is 0 but all of whose features have nonzero lasso weights. -/
theorem C75_unpenalized_fails (grp : Fin p → Fin q) (pen : Penalty (Fin p) (Fin q)) (g : Fin q) (hw : pen.w g = 0) :
    ((∀ i, grp i = g → pen.lasso i = 0) → (∃ i, grp i = g) → unpenalized grp pen g = false) ∧
      ((∀ i, grp i = g → pen.lasso i ≠ 0) → unpenalized grp pen g = true) := by
  classical
  unfold unpenalized
  constructor
  · rintro h ⟨i, hi⟩
    rw [if_pos ⟨i, hi, h i hi⟩, hw]
    simp
  · intro h
    rw [if_neg (by rintro ⟨i, hi, h0⟩; exact h i hi h0), hw]
    simp

/-- **C75** (negation) With a group that is not penalised at all, `check_KKT` raises an exception, whatever its arguments. -/
theorem C75_unpenalized_check_fails (grp : Fin p → Fin q) (pen : Penalty (Fin p) (Fin q)) (g : Fin q) (hw : pen.w g = 0)
    (h : ∀ i, grp i = g → pen.lasso i = 0) (grad b : Fin p → ℝ) (lam : ℝ) (T : Tols) :
    checkKKT grp pen grad b lam T = none := by
  unfold checkKKT
  rw [dif_neg]
  intro hall
  have := hall g
  unfold groupCheck at this
  have hz : ∀ v : {v // grp v = g}, pen.lasso v = 0 := fun v => h v v.2
  have h0 : pen.term grp b g = 0 := by
    unfold Penalty.term
    simp [hw, hz]
  rw [if_neg (by rw [h0, gt_iff_lt, not_lt]; exact mul_nonneg (by norm_num) (npNorm_nonneg b)),
    if_neg (by simp [hw, hz])] at this
  exact absurd this (by simp)

private lemma one_norm (x : {v : Fin 1 // (0 : Fin 1) = 0} → ℝ) : npNorm x = |x ⟨0, rfl⟩| := by
  unfold npNorm
  have : ∑ i, x i ^ 2 = x ⟨0, rfl⟩ ^ 2 := by
    rw [Fintype.sum_eq_single ⟨0, rfl⟩]
    intro v hv
    exact absurd (Subtype.ext (Subsingleton.elim _ _)) hv
  rw [this, Real.sqrt_sq_eq_abs]

/-- **C75** (negation) The check accepts points that are far from optimal: in an active group it never asks whether the
gradient is too large.  One feature, `lasso_weights = 0.95` and group weight `0.05` (unit weights and the default `l1_alpha`),
`lagrange = 1`, loss `(u - (10^6 + 1000))²/2`, whose gradient at `b = 10^6` is `-1000`: the check reports no failure, while
the objective at `b` exceeds that at `10^6 + 999` by more than `498000`. -/
theorem C75_active_fails :
    (∃ N, ∀ fuel, N ≤ fuel → ∃ r, checkKKT (fun _ : Fin 1 => (0 : Fin 1)) ⟨fun _ => 95 / 100, fun _ => 5 / 100, fun _ => 1⟩
      (fun _ => -1000) (fun _ => 10 ^ 6) 1 (Tols.default fuel) = some r ∧ NoFailure r) ∧
    ConvexWithGradient (lsqLoss fun _ : Fin 1 => 10 ^ 6 + 1000) (fun u i => u i - (10 ^ 6 + 1000)) ∧
    (fun _ : Fin 1 => (-1000 : ℝ)) = (fun (u : Fin 1 → ℝ) i => u i - (10 ^ 6 + 1000)) (fun _ => 10 ^ 6) ∧
    lsqLoss (fun _ : Fin 1 => 10 ^ 6 + 1000) (fun _ => 10 ^ 6 + 999) +
        1 * (∑ i : Fin 1, 95 / 100 * |(10 : ℝ) ^ 6 + 999| + groupNorm (fun _ : Fin 1 => (0 : Fin 1)) (fun _ => 5 / 100) (fun _ => 10 ^ 6 + 999)) +
        498000 <
      lsqLoss (fun _ : Fin 1 => 10 ^ 6 + 1000) (fun _ => 10 ^ 6) +
        1 * (∑ i : Fin 1, 95 / 100 * |(10 : ℝ) ^ 6| + groupNorm (fun _ : Fin 1 => (0 : Fin 1)) (fun _ => 5 / 100) (fun _ => 10 ^ 6)) := by
  classical
  refine ⟨?_, ?_, ?_, ?_⟩
  · set G : Fin 1 → Fin 1 := fun _ => 0
    set pen : Penalty (Fin 1) (Fin 1) := ⟨fun _ => 95 / 100, fun _ => 5 / 100, fun _ => 1⟩ with hpen
    have hins : ∀ t : ℝ, 0 < t → (Gauge.insideStrong (ι := {v : Fin 1 // G v = 0}) (fun _ => 1000) t (fun _ => 95 / 100) (5 / 100)
        (1 / 10 ^ 5) ↔ 1000 ≤ t * (1 + 1 / 10 ^ 5)) := by
      intro t ht
      unfold Gauge.insideStrong
      rw [one_norm, abs_of_nonneg (le_max_right _ _), abs_of_pos (by norm_num : (0:ℝ) < 1000), max_le_iff]
      constructor
      · rintro ⟨h, _⟩; linarith
      · intro h; exact ⟨by linarith, by positivity⟩
    obtain ⟨N, hN⟩ := gaugeDual_spec (fun t => decide (Gauge.insideStrong (ι := {v : Fin 1 // G v = 0}) (fun _ => 1000) t
      (fun _ => 95 / 100) (5 / 100) (1 / 10 ^ 5))) (tol := 1 / 10 ^ 6) (by norm_num) (by norm_num) 50
    refine ⟨N, fun fuel hf => ?_⟩
    obtain ⟨r, hr, hs⟩ := hN fuel hf
    have hr' : Gauge.strong (ι := {v : Fin 1 // G v = 0}) (fun _ => 1000) (fun _ => 95 / 100) (5 / 100) (1 / 10 ^ 5)
        (1 / 10 ^ 6) 50 fuel = some r := hr
    have hval : ∃ v, r = .value v ∧ 999 ≤ v ∧ v ≤ 1001 := by
      rcases hs with ⟨rfl, hin⟩ | ⟨rfl, hin⟩ | ⟨v, rfl, hst⟩
      · have := (hins _ (by positivity)).1 (of_decide_eq_true hin)
        norm_num at this
      · have := mt (hins _ (by positivity)).2 (of_decide_eq_false hin)
        norm_num at this
      · obtain ⟨l, u, hl0, hil, hiu, hu0, huv, hvl⟩ := stopped_le (by norm_num) (by norm_num) hst
        have h1 := mt (hins l hl0).2 (of_decide_eq_false hil)
        have h2 := (hins u hu0).1 (of_decide_eq_true hiu)
        push Not at h1
        norm_num at h1 h2 huv hvl
        exact ⟨v, rfl, by linarith, by linarith⟩
    obtain ⟨v, rfl, hv1, hv2⟩ := hval
    have hgc : groupCheck G pen (fun _ => -1000) (fun _ => 10 ^ 6) 1 (Tols.default fuel) 0 = some (.active 0) := by
      unfold groupCheck
      have hterm : pen.term G (fun _ => 10 ^ 6) 0 = 10 ^ 6 := by
        unfold Penalty.term
        rw [one_norm]
        have : ∑ v : {v : Fin 1 // G v = 0}, |(10:ℝ) ^ 6 * pen.lasso v| = 10 ^ 6 * (95 / 100) := by
          rw [Fintype.sum_eq_single ⟨0, rfl⟩]
          · rw [hpen]; norm_num
          · intro v hv; exact absurd (Subtype.ext (Subsingleton.elim _ _)) hv
        rw [this, hpen]
        simp only [sel]
        norm_num
      have hnb : npNorm (fun _ : Fin 1 => (10:ℝ) ^ 6) = 10 ^ 6 := by
        unfold npNorm
        rw [Fin.sum_univ_one]
        exact Real.sqrt_sq (by norm_num)
      rw [if_pos (by rw [hterm, hnb]; norm_num)]
      have hac : activeCode (sel G (fun _ => -1000) 0) (sel G (fun _ => 10 ^ 6) 0) (sel G pen.lasso 0) (pen.w 0) 1
          (Tols.default fuel) = some 0 := by
        unfold activeCode dualStrong
        have e : Gauge.strong (fun i => -sel G (fun _ => -1000) 0 i) (sel G pen.lasso 0) (pen.w 0)
            (Tols.default fuel).insideTol (Tols.default fuel).gTol (Tols.default fuel).maxIter (Tols.default fuel).fuel =
            some (.value v) := by
          have : (fun i => -sel G (fun _ => (-1000 : ℝ)) 0 i) = fun _ => 1000 := by funext i; simp [sel]
          rw [this]; exact hr'
        rw [e]
        have hsoft : ∀ i : {v : Fin 1 // G v = 0}, max (|(-sel G (fun _ => (-1000 : ℝ)) 0 i)| - v * sel G pen.lasso 0 i) 0 *
            npSign (-sel G (fun _ => (-1000 : ℝ)) 0 i) = 1000 - v * (95 / 100) := by
          intro i
          have h1 : -sel G (fun _ => (-1000 : ℝ)) 0 i = 1000 := by simp [sel]
          have h2 : sel G pen.lasso 0 i = 95 / 100 := rfl
          rw [h1, h2, abs_of_pos (by norm_num), max_eq_left (by linarith)]
          norm_num [npSign]
        have hpos : (0:ℝ) < 1000 - v * (95 / 100) := by linarith
        have hn : npNorm (fun _ : {v : Fin 1 // G v = 0} => 1000 - v * (95 / 100)) = 1000 - v * (95 / 100) := by
          rw [one_norm, abs_of_pos hpos]
        have hl2 : npNorm (fun i : {v : Fin 1 // G v = 0} =>
            (1000 - v * (95 / 100)) / (1000 - v * (95 / 100)) * pen.w 0 * v) = 5 / 100 * v := by
          rw [one_norm, div_self hpos.ne', one_mul, hpen]
          exact abs_of_pos (by linarith)
        have hb : npNorm (sel G (fun _ => (10:ℝ) ^ 6) 0) = 10 ^ 6 := by
          rw [one_norm]; simp only [sel]; norm_num
        dsimp only
        simp only [hsoft, hn]
        rw [if_neg hpos.ne']
        dsimp only
        rw [hl2, if_neg (by linarith : ¬ (5 / 100 * v = 0))]
        have h3 : ¬ (npNorm (fun i : {v : Fin 1 // G v = 0} =>
            (1000 - v * (95 / 100)) / (1000 - v * (95 / 100)) * pen.w 0 * v / (5 / 100 * v) -
              sel G (fun _ => (10:ℝ) ^ 6) 0 i / npNorm (sel G (fun _ => (10:ℝ) ^ 6) 0)) > (Tols.default fuel).tol) := by
          rw [one_norm, hb, div_self hpos.ne', one_mul, hpen]
          simp only [sel]
          rw [div_self (by linarith : (5 / 100 * v) ≠ 0), div_self (by norm_num), sub_self, abs_zero]
          simp only [Tols.default]; norm_num
        rw [if_neg h3]
        have h4 : ¬ (npNorm (fun i : {v : Fin 1 // G v = 0} => if sel G (fun _ => (10:ℝ) ^ 6) 0 i = 0 then 0 else
            -sel G (fun _ => (-1000 : ℝ)) 0 i - (1000 - v * (95 / 100)) -
              sel G pen.lasso 0 i * npSign (sel G (fun _ => (10:ℝ) ^ 6) 0 i) * 1) >
            (Tols.default fuel).tol * max 1 (npNorm (sel G (fun _ => (10:ℝ) ^ 6) 0))) := by
          rw [one_norm, hb, hpen]
          simp only [sel, Tols.default]
          have h6 : ¬ ((10:ℝ) ^ 6 = 0) := by norm_num
          have hsg : npSign ((10:ℝ) ^ 6) = 1 := by norm_num [npSign]
          split_ifs
          rw [max_eq_right (by norm_num), gt_iff_lt, not_lt, abs_le, hsg]
          constructor <;> norm_num <;> linarith
        rw [if_neg h4]
        rw [if_neg (by simp only [Tols.default]; norm_num; linarith)]
      rw [hac]; rfl
    have hall : ∀ g, groupCheck G pen (fun _ => -1000) (fun _ => 10 ^ 6) 1 (Tols.default fuel) g = some (.active 0) := by
      intro g; rw [Subsingleton.elim g 0]; exact hgc
    unfold checkKKT
    rw [dif_pos (fun g => by rw [hall g]; rfl)]
    refine ⟨_, rfl, fun g => ?_, fun g => ?_⟩
    · simp [hall g, GroupCheck.code]
    · dsimp only
      rw [if_pos]
      · norm_num
      · simp only [hall g, Option.get_some, GroupCheck.term]
        rw [← WithTop.coe_zero, WithTop.coe_le_coe]
        simp only [Tols.default]; norm_num
  · exact lsqLoss_convex _
  · funext i; norm_num
  · have hG : ∀ c : ℝ, 0 ≤ c → groupNorm (fun _ : Fin 1 => (0 : Fin 1)) (fun _ => 5 / 100) (fun _ => c) = 5 / 100 * c := by
      intro c hc
      unfold groupNorm blockNorm
      simp only [Fin.sum_univ_one, if_true]
      rw [Real.sqrt_sq hc]
    rw [hG _ (by norm_num), hG _ (by norm_num)]
    unfold lsqLoss
    simp only [Fin.sum_univ_one]
    rw [abs_of_pos (by norm_num), abs_of_pos (by norm_num)]
    norm_num

/-- hypotheses of `C75_zero_complete_partial` and with it of `C75_zero_partial`, `C75_inactive`: one group of two features,
loss `‖u - (1/2, 0)‖²/2`, unit weights, `lagrange = 1`; zero is the minimiser -/
example : IsGradientAt (lsqLoss ![1 / 2, 0]) (fun i => 0 - (![1 / 2, 0] : Fin 2 → ℝ) i) (fun _ => 0) ∧
    Minimises (fun u => lsqLoss ![1 / 2, 0] u + 1 * (∑ i, 1 * |u i| + groupNorm (fun _ : Fin 2 => (0 : Fin 1)) (fun _ => 1) u))
      Set.univ fun _ => 0 := by
  refine ⟨(lsqLoss_convex _).gradient _, Set.mem_univ _, fun u _ => ?_⟩
  have hG : groupNorm (fun _ : Fin 2 => (0 : Fin 1)) (fun _ => 1) (fun _ => 0) = 0 := by simp [groupNorm, blockNorm]
  have hG' : 0 ≤ groupNorm (fun _ : Fin 2 => (0 : Fin 1)) (fun _ => 1) u := by
    unfold groupNorm blockNorm
    exact Finset.sum_nonneg fun j _ => mul_nonneg zero_le_one (Real.sqrt_nonneg _)
  dsimp only
  rw [hG]
  simp only [lsqLoss, Fin.sum_univ_two, Matrix.cons_val_zero, Matrix.cons_val_one, abs_zero]
  have := le_abs_self (u 0)
  have := abs_nonneg (u 1)
  have := abs_nonneg (u 0)
  nlinarith [sq_nonneg (u 0), sq_nonneg (u 1)]

/-- the default tolerances are fine enough for a group of one feature with unit weights and the default `l1_alpha = 0.95` at
`lagrange = 1` (hypotheses of `C75_complete`; `C75_active_fails` has a passing active group for `C75_active`) -/
example : FineEnough (1 / 10 ^ 5) (1 / 10 ^ 6) (1 / 10 ^ 2) 1 (5 / 100) (blockNorm (fun _ : Fin 1 => (0 : Fin 1)) (fun _ => 95 / 100) 0)
    (21 / 10 ^ 5) := by
  have : blockNorm (fun _ : Fin 1 => (0 : Fin 1)) (fun _ => 95 / 100) 0 = 95 / 100 := by
    unfold blockNorm
    simp only [Fin.sum_univ_one, if_true]
    rw [Real.sqrt_sq (by norm_num)]
  rw [this]
  constructor <;> norm_num

/-- a discarded group whose gradient moves slowly enough: hypotheses of `C75_strong_rule` -/
example : ¬ strongSet (fun _ : Fin 2 => (0 : Fin 1)) ⟨fun _ => 1, fun _ => 1, fun _ => 1⟩ (1 / 10 ^ 5) 6 5 (fun _ => 0) 0 ∧
    ∀ z, dotBlock (fun _ : Fin 2 => (0 : Fin 1)) (fun _ => 1 / 2 - 0) z 0 ≤
      (6 - 5) * sgBlock (fun _ : Fin 2 => (0 : Fin 1)) (fun _ => 1) 1 z 0 := by
  constructor
  · rw [C75_strong_set _ _ (fun _ => by norm_num) (by norm_num) (by norm_num)]
    rintro ⟨z, hz⟩
    have h1 : dotBlock (fun _ : Fin 2 => (0 : Fin 1)) (fun _ => 0) z 0 = 0 := by simp [dotBlock]
    have h2 : 0 ≤ sgBlock (fun _ : Fin 2 => (0 : Fin 1)) (fun _ => 1) (1 + 1 / 10 ^ 5) z 0 := by
      unfold sgBlock blockNorm
      refine add_nonneg (Finset.sum_nonneg fun i _ => ?_) (mul_nonneg (by norm_num) (Real.sqrt_nonneg _))
      simp
    rw [h1] at hz
    dsimp only at hz
    nlinarith
  · intro z
    unfold dotBlock sgBlock
    simp only [if_true, Fin.sum_univ_two]
    have h0 : 0 ≤ blockNorm (fun _ : Fin 2 => (0 : Fin 1)) z 0 := Real.sqrt_nonneg _
    have := le_abs_self (z 0)
    have := le_abs_self (z 1)
    have := abs_nonneg (z 0)
    have := abs_nonneg (z 1)
    linarith

/-! ### C76: the multi-response paths -/

section block

variable {n k : ℕ}

/-- the sparse group penalty of one row -/
noncomputable def rowPenalty (l1 l2 : ℝ) (z : Fin k → ℝ) : ℝ := l1 * ∑ j, |z j| + l2 * Real.sqrt (∑ j, z j ^ 2)

private lemma rowPenalty_eq (l1 l2 : ℝ) (z : Fin k → ℝ) :
    ∑ j, l1 * |z j| + l2 * npNorm z = rowPenalty l1 l2 z := by
  unfold rowPenalty npNorm
  rw [Finset.mul_sum]

private lemma block_check_group {argsort : (Fin n → WithTop ℝ) → Equiv.Perm (Fin n)} {pen : BlockPenalty}
    {grad b : Fin n → Fin k → ℝ} {lam : ℝ} {T : Tols} {r : (Fin n → Bool) × (Fin n → ℝ)}
    (h : blockCheckKKT argsort pen grad b lam T = some r) (hno : NoFailure r) (g : Fin n) :
    ∃ c, blockGroupCheck pen grad b lam T g = some c ∧ c.code = 0 ∧ c.term ≤ ((1 + T.tol : ℝ) : WithTop ℝ) := by
  classical
  unfold blockCheckKKT at h
  by_cases hall : ∀ g, (blockGroupCheck pen grad b lam T g).isSome
  · rw [dif_pos hall] at h
    dsimp only at h
    injection h with h
    subst h
    refine ⟨(blockGroupCheck pen grad b lam T g).get (hall g), (Option.some_get _).symm, ?_, ?_⟩
    · have := hno.1 g
      simpa using this
    · by_contra hc
      have := hno.2 g
      dsimp only at this
      rw [if_neg hc] at this
      have h2 : (((argsort fun g => ((blockGroupCheck pen grad b lam T g).get (hall g)).term) g : ℕ) : ℝ) ≤ (n : ℝ) := by
        exact_mod_cast (Fin.is_lt _).le
      linarith
  · rw [dif_neg hall] at h
    exact absurd h (by simp)

/-- **C76** If `check_KKT` of a `sparse_group_common_path` (or block path) returns and reports no failing row, then in every
row it takes for inactive (norm at most `tol * max(sum of the norms, 1)`) the negative gradient lies in the dual ball of
radius `acceptedGauge`, i.e. `lam` up to the tolerances.  `argsort` may order ties as it likes. -/
theorem C76_inactive (argsort : (Fin n → WithTop ℝ) → Equiv.Perm (Fin n)) (pen : BlockPenalty) (h1 : 0 ≤ pen.l1Weight)
    (h2 : 0 ≤ pen.l2Weight) (grad b : Fin n → Fin k → ℝ) {lam : ℝ} (hl : 0 < lam) (T : Tols) (hi : 0 ≤ T.insideTol)
    (ht : 0 < T.gTol) (ht' : T.gTol ≤ 1 / 2) {r : (Fin n → Bool) × (Fin n → ℝ)}
    (h : blockCheckKKT argsort pen grad b lam T = some r) (hno : NoFailure r) (g : Fin n)
    (hg : Real.sqrt (∑ j, b g j ^ 2) ≤ T.tol * max (∑ i, Real.sqrt (∑ j, b i j ^ 2)) 1) (z : Fin k → ℝ) :
    -(∑ j, grad g j * z j) ≤ acceptedGauge T lam * rowPenalty pen.l1Weight (pen.l2Weight + T.insideTol) z := by
  obtain ⟨c, hc, _, hc2⟩ := block_check_group h hno g
  unfold blockGroupCheck at hc
  rw [if_neg (fun ha : blockActive b T.tol g => absurd hg (not_le.2 ha))] at hc
  cases hin : inactiveTerm (grad g) (fun _ => pen.l1Weight) pen.l2Weight lam T with
  | none => rw [hin] at hc; exact absurd hc (by simp)
  | some t =>
    rw [hin] at hc
    simp only [Option.map_some, Option.some.injEq] at hc
    rw [← hc] at hc2
    have hc3 : t ≤ ((1 + T.tol : ℝ) : WithTop ℝ) := hc2
    have := inactive_sound (lasso := fun _ => pen.l1Weight) hl (fun _ => h1) h2 hi ht ht' hin hc3 z
    rw [rowPenalty_eq] at this
    rw [← Finset.sum_neg_distrib]
    simpa using this

/-- **C76** (partial: only for the zero matrix; active rows are checked by the code of `C75_active_fails`)  If the zero
matrix passes `check_KKT` and `grad` is a subgradient of the loss at zero, the loss at zero is at most that at any `u` plus
the penalty of `u` at the lagrange parameter `acceptedGauge` (`lam` up to the tolerances). -/
theorem C76_zero_partial (argsort : (Fin n → WithTop ℝ) → Equiv.Perm (Fin n)) (pen : BlockPenalty) (h1 : 0 ≤ pen.l1Weight)
    (h2 : 0 ≤ pen.l2Weight) (f : (Fin n → Fin k → ℝ) → ℝ) (grad : Fin n → Fin k → ℝ)
    (hf : ∀ u, f (fun _ _ => 0) + ∑ i, ∑ j, grad i j * u i j ≤ f u) {lam : ℝ} (hl : 0 < lam) (T : Tols)
    (hi : 0 ≤ T.insideTol) (ht : 0 < T.gTol) (ht' : T.gTol ≤ 1 / 2) (htol : 0 ≤ T.tol)
    {r : (Fin n → Bool) × (Fin n → ℝ)} (h : blockCheckKKT argsort pen grad (fun _ _ => 0) lam T = some r)
    (hno : NoFailure r) (u : Fin n → Fin k → ℝ) :
    f (fun _ _ => 0) ≤ f u + acceptedGauge T lam * ∑ i, rowPenalty pen.l1Weight (pen.l2Weight + T.insideTol) (u i) := by
  have h3 := Finset.sum_le_sum fun g (_ : g ∈ Finset.univ) =>
    C76_inactive argsort pen h1 h2 grad (fun _ _ => 0) hl T hi ht ht' h hno g (by
      simpa using htol) (u g)
  rw [Finset.sum_neg_distrib, ← Finset.mul_sum] at h3
  have := hf u
  linarith

/-- **C76** Converse: if the weight of the group norm is positive and the tolerances of the gauge search are fine enough, a
matrix that satisfies the optimality conditions row by row (the negative gradient of a row is `lam` times a subgradient of
the row's penalty) passes the check. -/
theorem C76_complete (argsort : (Fin n → WithTop ℝ) → Equiv.Perm (Fin n)) (pen : BlockPenalty)
    (h1 : 0 ≤ pen.l1Weight) (h2 : 0 < pen.l2Weight) (grad b : Fin n → Fin k → ℝ) {lam insideTol gTol tol η : ℝ} {mi : ℕ}
    (hl : 0 < lam) (hi : 0 ≤ insideTol) (ht : 0 < gTol) (ht' : gTol ≤ 1 / 2) (htol : tol ≤ 1)
    (hη : FineEnough insideTol gTol tol lam pen.l2Weight (Real.sqrt k * pen.l1Weight) η)
    (hm1 : lam ≤ 2 ^ mi) (hm2 : 1 / 2 ^ mi < lam * (1 - η))
    (hopt : ∀ g z, -(∑ j, grad g j * (z j - b g j)) ≤
      lam * (rowPenalty pen.l1Weight pen.l2Weight z - rowPenalty pen.l1Weight pen.l2Weight (b g))) :
    ∃ N, ∀ fuel, N ≤ fuel → ∃ r,
      blockCheckKKT argsort pen grad b lam ⟨insideTol, gTol, mi, tol, fuel⟩ = some r ∧ NoFailure r := by
  classical
  have hτ0 : 0 ≤ gTol / (1 - gTol / 2) := div_nonneg ht.le (by linarith)
  have htol0 : 0 ≤ tol := le_trans hτ0 (le_trans hη.search hη.gauge)
  have hA : npNorm (fun _ : Fin k => pen.l1Weight) = Real.sqrt k * pen.l1Weight := by
    unfold npNorm
    rw [Finset.sum_const, Finset.card_univ, Fintype.card_fin, nsmul_eq_mul, Real.sqrt_mul (by positivity), Real.sqrt_sq h1]
  have hvi : ∀ g z, ∑ j, -grad g j * (z j - b g j) ≤
      lam * (blockPen (fun _ => pen.l1Weight) pen.l2Weight z - blockPen (fun _ => pen.l1Weight) pen.l2Weight (b g)) := by
    intro g z
    have := hopt g z
    rw [← rowPenalty_eq, ← rowPenalty_eq, ← Finset.sum_neg_distrib] at this
    unfold blockPen
    refine le_trans (le_of_eq ?_) this
    exact Finset.sum_congr rfl fun j _ => by ring
  have hgrp : ∀ g, ∃ N, ∀ fuel, N ≤ fuel →
      (blockGroupCheck pen grad b lam ⟨insideTol, gTol, mi, tol, fuel⟩ g = some (.active 0) ∨
      ∃ t, blockGroupCheck pen grad b lam ⟨insideTol, gTol, mi, tol, fuel⟩ g = some (.inactive t) ∧
        t ≤ ((1 + tol : ℝ) : WithTop ℝ)) := by
    intro g
    by_cases hact : blockActive b tol g
    · have hbn : npNorm (b g) ≠ 0 := by
        intro h0
        unfold blockActive at hact
        rw [h0] at hact
        exact absurd hact (not_lt.2 (mul_nonneg htol0 (le_max_of_le_right zero_le_one)))
      have hA0 : 0 ≤ Real.sqrt k * pen.l1Weight := mul_nonneg (Real.sqrt_nonneg _) h1
      obtain ⟨N, hN⟩ := active_complete (a := fun _ => pen.l1Weight) hl (fun _ => h1) h2 hi ht ht' hbn
        (fun v => vi_coord (a := fun _ => pen.l1Weight) hl (fun _ => h1) h2.le hbn (hvi g) v) hη.search hη.inside hη.gauge
        (by rw [hA]; exact hη.l1) (by rw [hA]; exact hη.direction)
        (by rw [hA]; nlinarith [hη.direction]) hm1 hm2
      refine ⟨N, fun fuel hf => .inl ?_⟩
      unfold blockGroupCheck
      rw [if_pos hact, hN fuel hf]; rfl
    · obtain ⟨N, hN⟩ := inactive_complete (insideTol := insideTol) (gTol := gTol) (tol := tol) (m := mi) hl
        (fun _ : Fin k => h1) h2.le hi ht ht' (le_trans hη.search hη.gauge) hm1
        (vi_ball (a := fun _ => pen.l1Weight) hl.le (fun _ => h1) h2.le (hvi g))
      refine ⟨N, fun fuel hf => .inr ?_⟩
      obtain ⟨t, h3, h4⟩ := hN fuel hf
      refine ⟨t, ?_, h4⟩
      unfold blockGroupCheck
      rw [if_neg hact, h3]; rfl
  choose N hN using hgrp
  refine ⟨Finset.univ.sup N, fun fuel hf => ?_⟩
  have hc := fun g => hN g fuel (le_trans (Finset.le_sup (f := N) (Finset.mem_univ g)) hf)
  unfold blockCheckKKT
  rw [dif_pos (fun g => by rcases hc g with h | ⟨t, h, _⟩ <;> rw [h] <;> rfl)]
  refine ⟨_, rfl, fun g => ?_, fun g => ?_⟩
  · rcases hc g with h | ⟨t, h, _⟩ <;> simp [h, GroupCheck.code]
  · dsimp only
    rw [if_pos]
    · norm_num
    · rcases hc g with h | ⟨t, h, h2⟩
      · simp only [h, Option.get_some, GroupCheck.term]
        rw [← WithTop.coe_zero, WithTop.coe_le_coe]
        linarith
      · simpa [h, GroupCheck.term] using h2

/-- **C76** What an accepted active row means: as `C75_active`. -/
theorem C76_active (argsort : (Fin n → WithTop ℝ) → Equiv.Perm (Fin n)) (pen : BlockPenalty) (h1 : 0 ≤ pen.l1Weight)
    (h2 : 0 < pen.l2Weight) (grad b : Fin n → Fin k → ℝ) {lam : ℝ} (T : Tols) (hi : 0 ≤ T.insideTol)
    (ht : 0 < T.gTol) (ht' : T.gTol ≤ 1 / 2) {r : (Fin n → Bool) × (Fin n → ℝ)}
    (h : blockCheckKKT argsort pen grad b lam T = some r) (hno : NoFailure r) (g : Fin n)
    (hg : T.tol * max (∑ i, Real.sqrt (∑ j, b i j ^ 2)) 1 < Real.sqrt (∑ j, b g j ^ 2)) :
    (∃ z : Fin k → ℝ, lam * (1 - T.tol) * rowPenalty pen.l1Weight (pen.l2Weight + T.insideTol) z <
        (1 + T.gTol / (1 - T.gTol / 2)) * -(∑ j, grad g j * z j)) ∧
    ∃ s, 0 ≤ s ∧ Real.sqrt (∑ j, if b g j = 0 then 0 else
        (grad g j + lam * pen.l1Weight * SignType.sign (b g j) + s * (b g j / Real.sqrt (∑ j, b g j ^ 2))) ^ 2) ≤
      T.tol * (max 1 (Real.sqrt (∑ j, b g j ^ 2)) + s) := by
  obtain ⟨c, hc, hc0, _⟩ := block_check_group h hno g
  unfold blockGroupCheck at hc
  rw [if_pos (show blockActive b T.tol g from hg)] at hc
  cases hin : activeCode (grad g) (b g) (fun _ => pen.l1Weight) pen.l2Weight lam T with
  | none => rw [hin] at hc; exact absurd hc (by simp)
  | some t =>
    rw [hin] at hc
    simp only [Option.map_some, Option.some.injEq] at hc
    rw [← hc] at hc0
    have ht0 : t = 0 := hc0
    rw [ht0] at hin
    obtain ⟨⟨z, hz⟩, s, hs0, hs⟩ := active_sound (lasso := fun _ => pen.l1Weight) (fun _ => h1) h2 hi ht ht' hin
    constructor
    · refine ⟨z, ?_⟩
      rw [rowPenalty_eq] at hz
      rw [← Finset.sum_neg_distrib]
      simpa using hz
    · refine ⟨s, hs0, le_trans (le_of_eq ?_) hs⟩
      unfold npNorm
      congr 1
      refine Finset.sum_congr rfl fun j _ => ?_
      have hsgn : ((SignType.sign (b g j) : SignType) : ℝ) = npSign (b g j) := by
        unfold npSign
        rcases lt_trichotomy (b g j) 0 with h0 | h0 | h0
        · rw [if_neg (not_lt.2 h0.le), if_pos h0, sign_neg h0]; simp
        · rw [h0]; simp
        · rw [if_pos h0, sign_pos h0]; simp
      rw [hsgn]
      by_cases h2 : b g j = 0 <;> simp [h2]

/-- **C76** The strong rule for rows. -/
theorem C76_strong_rule (pen : BlockPenalty) {insideTol lamCur lamNew : ℝ} (grad gradNew : Fin n → Fin k → ℝ) (g : Fin n)
    (hslope : ∀ z, ∑ j, (gradNew g j - grad g j) * z j ≤ (lamCur - lamNew) * rowPenalty pen.l1Weight pen.l2Weight z)
    (h : ¬ blockStrongSet pen insideTol lamCur lamNew grad g) (z : Fin k → ℝ) :
    ∑ j, gradNew g j * z j ≤ lamNew * rowPenalty pen.l1Weight pen.l2Weight z +
      (2 * lamNew - lamCur) * insideTol * Real.sqrt (∑ j, z j ^ 2) := by
  unfold blockStrongSet at h
  rw [not_not] at h
  have h0 : 0 ≤ ((1 + 1) * lamNew - 1 * lamCur) * (pen.l2Weight + insideTol) := le_trans (npNorm_nonneg _) h
  have h1 := (thr_iff _ _ h0).1 h z
  have h2 := hslope z
  have e1 : ∑ j, gradNew g j * z j = ∑ j, (gradNew g j - grad g j) * z j + ∑ j, grad g j * z j := by
    rw [← Finset.sum_add_distrib]
    exact Finset.sum_congr rfl fun j _ => by ring
  have e2 : ∑ j, (fun _ : Fin k => pen.l1Weight) j * |z j| + (pen.l2Weight + insideTol) * npNorm z =
      rowPenalty pen.l1Weight pen.l2Weight z + insideTol * Real.sqrt (∑ j, z j ^ 2) := by
    unfold rowPenalty npNorm
    rw [← Finset.mul_sum]; ring
  rw [e2] at h1
  rw [e1]
  nlinarith

/-- **C76** Without `l1_alpha` the path's penalty has the weights passed in, and subsampling keeps them. -/
theorem C76_subsample (l1 l2 : ℝ) :
    (BlockPenalty.init l1 l2 none).l1Weight = l1 ∧ (BlockPenalty.init l1 l2 none).l2Weight = l2 ∧
      (BlockPenalty.init l1 l2 none).subsample.l1Weight = l1 ∧ (BlockPenalty.init l1 l2 none).subsample.l2Weight = l2 :=
  ⟨rfl, rfl, rfl, rfl⟩

/-- **C76** (negation) `l1_alpha` has no effect on the penalty of the path (it is documented to mix the two penalties), but it
does on that of its subsamples. -/
theorem C76_l1_alpha_fails (l1 l2 a : ℝ) :
    (BlockPenalty.init l1 l2 (some a)).l1Weight = l1 ∧ (BlockPenalty.init l1 l2 (some a)).l2Weight = l2 ∧
      (BlockPenalty.init l1 l2 (some a)).subsample.l1Weight = a * l1 ∧
      (BlockPenalty.init l1 l2 (some a)).subsample.l2Weight = (1 - a) * l2 :=
  ⟨rfl, rfl, mul_comm _ _, mul_comm _ _⟩

/-- hypotheses of `C76_complete` (which provides those of `C76_inactive` and `C76_zero_partial`): two rows of one column,
weights `0.95` and `0.05`, a nonzero row with gradient `-1` and a zero row with a smaller gradient, `lagrange = 1` -/
example : ∀ (g : Fin 2) (z : Fin 1 → ℝ), -(∑ j, (![fun _ => -1, fun _ => 1 / 2] : Fin 2 → Fin 1 → ℝ) g j *
    (z j - (![fun _ => 3, fun _ => 0] : Fin 2 → Fin 1 → ℝ) g j)) ≤
      1 * (rowPenalty (95 / 100) (5 / 100) z -
        rowPenalty (95 / 100) (5 / 100) ((![fun _ => 3, fun _ => 0] : Fin 2 → Fin 1 → ℝ) g)) := by
  have hr : ∀ z : Fin 1 → ℝ, rowPenalty (95 / 100) (5 / 100) z = |z 0| := by
    intro z
    unfold rowPenalty
    rw [Fin.sum_univ_one, Fin.sum_univ_one, Real.sqrt_sq_eq_abs]
    ring
  intro g z
  rw [hr, hr, Fin.sum_univ_one]
  have h1 := le_abs_self (z 0)
  have h2 := neg_abs_le (z 0)
  have h3 := abs_nonneg (z 0)
  fin_cases g
  · simp; linarith
  · simp; linarith

/-- a discarded row: hypotheses of `C76_strong_rule` -/
example : ¬ blockStrongSet (n := 1) (k := 2) ⟨1, 1, 1, 1⟩ (1 / 10 ^ 5) 6 5 (fun _ _ => 0) 0 := by
  unfold blockStrongSet Gauge.insideStrong
  have : (fun i : Fin 2 => max (|(0:ℝ)| - ((1 + 1) * 5 - 1 * 6) * 1) 0) = fun _ => 0 := by
    funext i; norm_num
  rw [this, npNorm_zero]
  norm_num

end block

end Verif.Props
