import Verif.Lemmas.GroupPath
import Verif.Lemmas.EnetPath
import Verif.Props.C40_StrongRules
import Mathlib.Algebra.BigOperators.Field

/-!
# C74: the group lasso path
-/

set_option linter.unusedSectionVars false
set_option linter.unusedVariables false

namespace Verif.Props
open Verif.Model Verif.Model.GroupPath Verif.Spec Verif.Lemmas
open Verif.Model.StrongRules (Solver Entry Exit strongRules linpred varsOf)

variable {p q m : ℕ}

/-- the elastic net objective with a group lasso penalty, at the lagrange parameter `lam`: loss at `X b`, ridge term (in
front of which the lagrange parameter stands for the features of penalised groups only), `alpha * lam * Σ_g w_g ‖b[g]‖` -/
noncomputable def groupEnetObjective (X : Fin m → Fin p → ℝ) (loss : (Fin m → ℝ) → ℝ) (grp : Fin p → Fin q) (w : Fin q → ℝ)
    (enet : Fin p → ℝ) (alpha lam : ℝ) (b : Fin p → ℝ) : ℝ :=
  enetSmooth X loss (fun i => w (grp i)) enet alpha lam b + alpha * lam * groupNorm grp w b

/-- slack allowed by the check in front of `‖u[g] - b[g]‖`: the mean of the weights for an unpenalised group, 1 for an
active one, `lam * w_g` for an inactive one -/
noncomputable def groupSlack (grp : Fin p → Fin q) (w : Fin q → ℝ) (b : Fin p → ℝ) (lam : ℝ) (g : Fin q) : ℝ :=
  if w g = 0 then (∑ h, w h) / q else if blockNorm grp b g = 0 then lam * w g else 1

private lemma coord (grp : Fin p → Fin q) (w : Fin q → ℝ) (grad b : Fin p → ℝ) {lam tol : ℝ} (hl : 0 < lam)
    (hw : ∀ g, 0 ≤ w g) (hno : NoFailure (checkKKT grp w grad b lam tol)) (u : Fin p → ℝ) (g : Fin q) :
    lam * (w g * blockNorm grp b g) - lam * (w g * blockNorm grp u g) -
      tol * (groupSlack grp w b lam g * blockNorm grp (fun i => u i - b i) g) ≤
      ∑ v : {v // grp v = g}, grad v * (u v - b v) := by
  have ha := (groupCheck_false_iff grp w grad b lam tol g).1 (hno.1 g)
  have hi := (groupRank_neg_iff grp w grad b lam tol g).1 (hno.2 g)
  unfold activeResults at ha
  unfold inactiveResults at hi
  unfold groupSlack
  simp only [blockNorm_sel]
  by_cases hw0 : w g = 0
  · have hna : ¬ active grp w b g := by rw [active_iff]; rintro ⟨_, h⟩; exact h.ne' hw0
    rw [if_neg hna, if_pos hw0] at ha
    have hle : npNorm (sel grp grad g) ≤ tol * ((∑ h, w h) / (Fintype.card (Fin q) : ℝ)) := by
      by_contra h
      rw [if_pos (not_le.1 h)] at ha
      exact absurd ha (by norm_num)
    rw [Fintype.card_fin] at hle
    rw [if_pos hw0, hw0]
    have := block_small (d := sel grp (fun i => u i - b i) g) hle
    simp only [sel] at this ⊢
    linarith
  · have hwp : 0 < w g := lt_of_le_of_ne (hw g) (Ne.symm hw0)
    rw [if_neg hw0]
    by_cases hb : npNorm (sel grp b g) = 0
    · have hna : ¬ active grp w b g := by rw [active_iff]; rintro ⟨h, _⟩; exact h hb
      rw [if_neg hna, if_neg hw0, div_le_iff₀ (mul_pos hl hwp)] at hi
      rw [if_pos hb, hb]
      have hb0 : ∀ v : {v // grp v = g}, b v = 0 := npNorm_eq_zero hb
      have h1 := block_small (d := sel grp (fun i => u i - b i) g) hi
      have h2 : sel grp (fun i => u i - b i) g = sel grp u g := by
        funext v; simp [sel, hb0 v]
      have h3 : ∑ v : {v // grp v = g}, grad v * (u v - b v) = ∑ v, sel grp grad g v * sel grp u g v := by
        refine Finset.sum_congr rfl fun v _ => ?_
        simp [sel, hb0 v]
      rw [h3]
      rw [h2] at h1 ⊢
      linarith
    · rw [if_neg hb]
      rw [if_pos ((active_iff grp w b g).2 ⟨hb, hwp⟩)] at ha
      have hle : npNorm (fun v => sel grp b g v * (lam * w g) / npNorm (sel grp b g) + sel grp grad g v) ≤ tol := by
        by_contra h
        rw [if_pos (by simpa [mul_assoc] using not_le.1 h)] at ha
        exact absurd ha (by norm_num)
      have := block_active (u := sel grp u g) (mul_nonneg hl.le hwp.le) hb hle
      have h5 : npNorm (fun v => sel grp u g v - sel grp b g v) = npNorm (sel grp (fun i => u i - b i) g) := rfl
      have h6 : ∑ v, sel grp grad g v * (sel grp u g v - sel grp b g v) =
          ∑ v : {v // grp v = g}, grad v * (u v - b v) := rfl
      rw [h5, h6] at this
      linarith

/-- **C74** If `group_lasso_path.check_KKT` at tolerance `tol` reports no failing group for `(grad, b)`, where `grad` is the
gradient at `b` of a convex loss, then `b` is optimal for `loss + lam Σ_g w_g ‖b[g]‖` up to `tol` times the sum over the
groups of `‖u[g] - b[g]‖` times: the mean weight (unpenalised groups), 1 (active groups), `lam w_g` (inactive groups).
Weights may be zero, even all of them. -/
theorem C74_suboptimality {f : (Fin p → ℝ) → ℝ} {grad : (Fin p → ℝ) → Fin p → ℝ} (hf : ConvexWithGradient f grad)
    (grp : Fin p → Fin q) (w : Fin q → ℝ) (b : Fin p → ℝ) {lam tol : ℝ} (hl : 0 < lam) (hw : ∀ g, 0 ≤ w g)
    (hno : NoFailure (checkKKT grp w (grad b) b lam tol)) (u : Fin p → ℝ) :
    f b + lam * groupNorm grp w b ≤ f u + lam * groupNorm grp w u +
      tol * ∑ g, groupSlack grp w b lam g * blockNorm grp (fun i => u i - b i) g := by
  have h1 := tangent hf b u
  have h2 := Finset.sum_le_sum fun g (_ : g ∈ Finset.univ) => coord grp w (grad b) b hl hw hno u g
  rw [sum_sel grp (fun v => grad b v * (u v - b v)), Finset.sum_sub_distrib, Finset.sum_sub_distrib, ← Finset.mul_sum,
    ← Finset.mul_sum, ← Finset.mul_sum] at h2
  have h3 : dot (grad b) (fun i => u i - b i) = ∑ i, grad b i * (u i - b i) := rfl
  unfold groupNorm
  linarith

/-- **C74** At tolerance 0 the checked point minimises the penalised problem. -/
theorem C74_optimal {f : (Fin p → ℝ) → ℝ} {grad : (Fin p → ℝ) → Fin p → ℝ} (hf : ConvexWithGradient f grad)
    (grp : Fin p → Fin q) (w : Fin q → ℝ) (b : Fin p → ℝ) {lam : ℝ} (hl : 0 < lam) (hw : ∀ g, 0 ≤ w g)
    (hno : NoFailure (checkKKT grp w (grad b) b lam 0)) :
    Minimises (fun u => f u + lam * groupNorm grp w u) Set.univ b := by
  refine ⟨Set.mem_univ _, fun u _ => ?_⟩
  have := C74_suboptimality hf grp w b hl hw hno u
  simpa using this

/-- optimality along the directions supported in one group -/
private lemma group_dir {f : (Fin p → ℝ) → ℝ} {grad b : Fin p → ℝ} (grp : Fin p → Fin q) (w : Fin q → ℝ) {lam : ℝ}
    (hg : IsGradientAt f grad b) (g : Fin q)
    (hmin : ∀ u : Fin p → ℝ, (∀ i, grp i ≠ g → u i = b i) →
      f b + lam * groupNorm grp w b ≤ f u + lam * groupNorm grp w u)
    (s : Fin p → ℝ) (c : ℝ)
    (hc : ∀ t : ℝ, 0 < t → t ≤ 1 →
      lam * w g * (npNorm (fun v => sel grp b g v + t * sel grp s g v) - npNorm (sel grp b g)) ≤ t * c) :
    -c ≤ ∑ v : {v // grp v = g}, grad v * s v := by
  have := dir_ge hg (fun i => if grp i = g then s i else 0) (-c) (fun t ht ht1 => by
    have h1 := hmin (fun j => b j + t * (if grp j = g then s j else 0)) (fun i hi => by simp [hi])
    have h2 : groupNorm grp w (fun j => b j + t * (if grp j = g then s j else 0)) - groupNorm grp w b =
        w g * (npNorm (fun v => sel grp b g v + t * sel grp s g v) - npNorm (sel grp b g)) := by
      unfold groupNorm
      rw [← Finset.sum_sub_distrib, Finset.sum_eq_single g]
      · rw [blockNorm_sel, blockNorm_sel, mul_sub]
        congr 3
        funext v
        simp [sel, v.2]
      · intro j _ hj
        rw [blockNorm_sel, blockNorm_sel]
        have : sel grp (fun j => b j + t * (if grp j = g then s j else 0)) j = sel grp b j := by
          funext v
          simp [sel, v.2, hj]
        rw [this, sub_self]
      · intro h; exact absurd (Finset.mem_univ g) h
    have h3 := hc t ht ht1
    have h4 : lam * groupNorm grp w (fun j => b j + t * (if grp j = g then s j else 0)) = lam * groupNorm grp w b +
        lam * w g * (npNorm (fun v => sel grp b g v + t * sel grp s g v) - npNorm (sel grp b g)) := by
      rw [← sub_eq_iff_eq_add', ← mul_sub, h2]; ring
    linarith)
  have e : dot grad (fun i => if grp i = g then s i else 0) = ∑ v : {v // grp v = g}, grad v * s v := by
    unfold dot
    rw [← Finset.sum_subtype (Finset.univ.filter fun i => grp i = g) (by simp) (fun i => grad i * s i),
      Finset.sum_filter]
    refine Finset.sum_congr rfl fun i _ => ?_
    by_cases h : grp i = g
    · dsimp only; rw [if_pos h, if_pos h]
    · dsimp only; rw [if_neg h, if_neg h, mul_zero]
  rwa [e] at this

/-- a point that is optimal along the directions supported in the group `g` passes the check at `g` -/
private lemma group_ok {f : (Fin p → ℝ) → ℝ} {grad b : Fin p → ℝ} (grp : Fin p → Fin q) (w : Fin q → ℝ) {lam tol : ℝ}
    (hl : 0 < lam) (ht : 0 ≤ tol) (hw : ∀ g, 0 ≤ w g) (hg : IsGradientAt f grad b) (g : Fin q)
    (hmin : ∀ u : Fin p → ℝ, (∀ i, grp i ≠ g → u i = b i) →
      f b + lam * groupNorm grp w b ≤ f u + lam * groupNorm grp w u) :
    (checkKKT grp w grad b lam tol).1 g = false ∧ (checkKKT grp w grad b lam tol).2 g < 0 := by
  have hlw : 0 ≤ lam * w g := mul_nonneg hl.le (hw g)
  have kkt : npNorm (sel grp grad g) ≤ lam * w g := by
    have h := group_dir grp w hg g hmin (fun i => -grad i) (lam * w g * npNorm (sel grp grad g)) (fun t ht ht1 => by
      have h1 := npNorm_add_le (sel grp b g) (fun v => t * sel grp (fun i => -grad i) g v)
      have h2 : npNorm (fun v => t * sel grp (fun i => -grad i) g v) = t * npNorm (sel grp grad g) := by
        rw [npNorm_smul, abs_of_pos ht]
        congr 1
        have h3 := npNorm_smul (-1) (sel grp grad g)
        have h4 : (fun i => -1 * sel grp grad g i) = sel grp (fun i => -grad i) g := by
          funext v; simp [sel]
        rw [h4] at h3
        simpa using h3
      rw [h2] at h1
      have h3 := mul_le_mul_of_nonneg_left h1 hlw
      linarith)
    have h2 : ∑ v : {v // grp v = g}, grad v * (fun i => -grad i) v = -npNorm (sel grp grad g) ^ 2 := by
      rw [sq_npNorm, ← Finset.sum_neg_distrib]
      exact Finset.sum_congr rfl fun v _ => by simp only [sel]; ring
    rw [h2] at h
    rcases (npNorm_nonneg (sel grp grad g)).eq_or_lt with h0 | h0
    · rw [← h0]; exact hlw
    · by_contra hc
      push Not at hc
      nlinarith
  have act : npNorm (sel grp b g) ≠ 0 →
      npNorm (fun v => sel grp b g v * (lam * w g) / npNorm (sel grp b g) + sel grp grad g v) = 0 := by
    intro hb
    refine block_parallel hlw hb kkt ?_
    have h := group_dir grp w hg g hmin (fun i => -b i) (-(lam * w g * npNorm (sel grp b g))) (fun t ht ht1 => by
      have e : (fun v => sel grp b g v + t * sel grp (fun i => -b i) g v) = fun v => (1 - t) * sel grp b g v := by
        funext v; simp only [sel]; ring
      rw [e, npNorm_smul, abs_of_nonneg (by linarith)]
      apply le_of_eq; ring)
    have h2 : ∑ v : {v // grp v = g}, grad v * (fun i => -b i) v = -∑ v, sel grp grad g v * sel grp b g v := by
      rw [← Finset.sum_neg_distrib]
      exact Finset.sum_congr rfl fun v _ => by simp only [sel]; ring
    rw [h2] at h
    linarith
  constructor
  · rw [groupCheck_false_iff]
    unfold activeResults
    by_cases ha : active grp w b g
    · rw [if_pos ha]
      have h0 := act ((active_iff grp w b g).1 ha).1
      simp only [← mul_assoc] at h0
      rw [h0, if_neg (not_lt.2 ht)]
    · rw [if_neg ha]
      by_cases hw0 : w g = 0
      · rw [if_pos hw0]
        rw [hw0, mul_zero] at kkt
        rw [if_neg]
        rw [not_lt]
        refine kkt.trans (mul_nonneg ht (div_nonneg (Finset.sum_nonneg fun h _ => hw h) (Nat.cast_nonneg _)))
      · rw [if_neg hw0]
  · refine (groupRank_neg_iff grp w grad b lam tol g).2 ?_
    unfold inactiveResults
    by_cases ha : active grp w b g
    · rw [if_pos ha]; linarith
    · rw [if_neg ha]
      by_cases hw0 : w g = 0
      · rw [if_pos hw0]; linarith
      · rw [if_neg hw0]
        have hwp : 0 < lam * w g := mul_pos hl (lt_of_le_of_ne (hw g) (Ne.symm hw0))
        rw [div_le_iff₀ hwp]
        nlinarith

/-- **C74** Converse: every minimiser passes the check at every tolerance `≥ 0`, so the check never rejects an exact solution. -/
theorem C74_complete {f : (Fin p → ℝ) → ℝ} {grad b : Fin p → ℝ} (grp : Fin p → Fin q) (w : Fin q → ℝ) {lam tol : ℝ}
    (hl : 0 < lam) (ht : 0 ≤ tol) (hw : ∀ g, 0 ≤ w g) (hg : IsGradientAt f grad b)
    (hb : Minimises (fun u => f u + lam * groupNorm grp w u) Set.univ b) :
    NoFailure (checkKKT grp w grad b lam tol) := by
  have := fun g => group_ok (tol := tol) grp w hl ht hw hg g (fun u _ => hb.2 u (Set.mem_univ _))
  exact ⟨fun g => (this g).1, fun g => (this g).2⟩

/-- **C74** The strong rule: if the gradient of a group moves by at most its weight times the change of the lagrange
parameter, every discarded group satisfies the optimality condition of a zero block at the next lagrange parameter. -/
theorem C74_strong_rule (grp : Fin p → Fin q) (w : Fin q → ℝ) (hw : ∀ g, 0 ≤ w g) (grad gradNew : Fin p → ℝ)
    {lamCur lamNew : ℝ} (hslope : ∀ g, blockNorm grp (fun i => gradNew i - grad i) g ≤ w g * (lamCur - lamNew)) (g : Fin q)
    (h : strongSet grp w lamCur lamNew grad g = false) : blockNorm grp gradNew g ≤ lamNew * w g := by
  unfold strongSet dualTerm at h
  rw [decide_eq_false_iff_not] at h
  have h1 := hslope g
  have h2 : blockNorm grp gradNew g ≤ blockNorm grp (fun i => gradNew i - grad i) g + blockNorm grp grad g := by
    simp only [blockNorm_sel]
    have := npNorm_add_le (sel grp (fun i => gradNew i - grad i) g) (sel grp grad g)
    have h4 : (fun i => sel grp (fun i => gradNew i - grad i) g i + sel grp grad g i) = sel grp gradNew g := by
      funext v; simp [sel]
    rwa [h4] at this
  by_cases hwp : w g > 0
  · rw [if_pos hwp, gt_iff_lt, WithTop.coe_lt_coe, not_lt, div_le_iff₀ hwp, ← blockNorm_sel] at h
    nlinarith
  · have hw0 : w g = 0 := le_antisymm (not_lt.1 hwp) (hw g)
    rw [if_neg hwp] at h
    have hz : npNorm (sel grp grad g) ≤ 0 := by
      by_contra hc
      rw [if_pos (not_le.1 hc)] at h
      exact h (WithTop.coe_lt_top _)
    rw [← blockNorm_sel] at hz
    rw [hw0] at h1 ⊢
    linarith

/-- **C74** exactly the groups whose scaled gradient norm exceeds `2 lagrange_new - lagrange_cur`, and the unpenalised ones
whose gradient is not zero, are kept (for a threshold `≥ 0`). -/
theorem C74_strong_set (grp : Fin p → Fin q) (w : Fin q → ℝ) (hw : ∀ g, 0 ≤ w g) (grad : Fin p → ℝ) {lamCur lamNew : ℝ}
    (hthr : lamCur ≤ 2 * lamNew) (g : Fin q) :
    strongSet grp w lamCur lamNew grad g = true ↔ w g * (2 * lamNew - lamCur) < blockNorm grp grad g := by
  unfold strongSet dualTerm
  rw [decide_eq_true_eq, blockNorm_sel]
  by_cases hwp : w g > 0
  · rw [if_pos hwp, gt_iff_lt, WithTop.coe_lt_coe, lt_div_iff₀ hwp]
    constructor <;> intro h <;> linarith
  · have hw0 : w g = 0 := le_antisymm (not_lt.1 hwp) (hw g)
    rw [if_neg hwp, hw0, zero_mul]
    by_cases hz : npNorm (sel grp grad g) > 0
    · rw [if_pos hz]
      exact ⟨fun _ => hz, fun _ => WithTop.coe_lt_top _⟩
    · rw [if_neg hz]
      refine ⟨fun h => absurd h ?_, fun h => absurd h hz⟩
      rw [gt_iff_lt, ← WithTop.coe_zero, WithTop.coe_lt_coe]
      linarith

section path

variable {X : Fin m → Fin p → ℝ} {satGrad : (Fin m → ℝ) → Fin m → ℝ} {satFunc : (Fin m → ℝ) → ℝ}
  {grp : Fin p → Fin q} {w : Fin q → ℝ} {enet : Fin p → ℝ} {alpha tol lam : ℝ}

private lemma penalized_eq (v : Fin p) : penalizedVars grp w v = decide (w (grp v) ≠ 0) := by
  unfold penalizedVars candidateBool unpenalized
  by_cases h : w (grp v) = 0 <;> simp [h]

/-- **C74** the group lasso path object screens with this rule. -/
theorem C74_path_strong_set (hw : ∀ g, 0 ≤ w g) (grad : Fin p → ℝ) {lamCur lamNew : ℝ} (hthr : lamCur ≤ 2 * lamNew) (g : Fin q) :
    (groupPath X satGrad satFunc grp w enet alpha tol).strongSet lamCur lamNew grad g = true ↔
      w g * (2 * lamNew - lamCur) < blockNorm grp grad g :=
  C74_strong_set grp w hw grad hthr g

/-- **C74** the check on a set of groups agrees with the check on all of them: it flags an inactive group exactly if the group is in
the set and the full check flags it, and the same for an active penalised group (for unpenalised ones the threshold depends on the
mean weight of the set). -/
theorem C74_path_check_on (S : Fin q → Bool) (grad b : Fin p → ℝ) (g : Fin q) :
    (0 ≤ ((groupPath X satGrad satFunc grp w enet alpha tol).checkKKTOn S grad b lam).2 g ↔
      S g = true ∧ 0 ≤ ((groupPath X satGrad satFunc grp w enet alpha tol).checkKKT grad b lam).2 g) ∧
    (w g ≠ 0 → (((groupPath X satGrad satFunc grp w enet alpha tol).checkKKTOn S grad b lam).1 g = true ↔
      S g = true ∧ ((groupPath X satGrad satFunc grp w enet alpha tol).checkKKT grad b lam).1 g = true)) := by
  have hneg : ¬ (0 : ℝ) ≤ -1 := by norm_num
  simp only [groupPath, checkKKT]
  by_cases hS : S g = true
  · let e : {v : {v // S (grp v) = true} // (⟨grp v, v.2⟩ : {g // S g = true}) = ⟨g, hS⟩} ≃ {v // grp v = g} :=
      { toFun := fun v => ⟨v.1.1, congrArg Subtype.val v.2⟩
        invFun := fun v => ⟨⟨v.1, by rw [v.2]; exact hS⟩, Subtype.ext v.2⟩
        left_inv := fun _ => rfl
        right_inv := fun _ => rfl }
    have hn : ∀ F : {v // grp v = g} → ℝ, npNorm (fun v => F (e v)) = npNorm F := fun F => by
      unfold npNorm
      rw [Equiv.sum_comp e (fun v => F v ^ 2)]
    have hsub : ∀ F : Fin p → ℝ, npNorm (sel (V := {v // S (grp v) = true}) (G := {g // S g = true}) (fun v => ⟨grp v, v.2⟩)
        (fun v => F v) ⟨g, hS⟩) = npNorm (sel grp F g) := fun F => hn (sel grp F g)
    have hact : active (V := {v // S (grp v) = true}) (G := {g // S g = true}) (fun v => ⟨grp v, v.2⟩) (fun g => w g)
        (fun v => b v) ⟨g, hS⟩ ↔ active grp w b g := by
      rw [active_iff, active_iff, hsub]
    have hin : inactiveResults (V := {v // S (grp v) = true}) (G := {g // S g = true}) (fun v => ⟨grp v, v.2⟩) (fun g => w g)
        (fun v => grad v) (fun v => b v) lam ⟨g, hS⟩ = inactiveResults grp w grad b lam g := by
      unfold inactiveResults
      by_cases hA : active grp w b g
      · rw [if_pos (hact.2 hA), if_pos hA]
      · rw [if_neg (fun h => hA (hact.1 h)), if_neg hA, hsub]
    simp only [hS, dif_pos, true_and]
    refine ⟨?_, fun hwg => ?_⟩
    · rw [← not_lt, ← not_lt, groupRank_neg_iff, groupRank_neg_iff, hin]
    · have hr : activeResults (V := {v // S (grp v) = true}) (G := {g // S g = true}) (fun v => ⟨grp v, v.2⟩) (fun g => w g)
          (fun v => grad v) (fun v => b v) lam tol ⟨g, hS⟩ = activeResults grp w grad b lam tol g := by
        unfold activeResults
        by_cases hA : active grp w b g
        · rw [if_pos (hact.2 hA), if_pos hA, hsub]
          have := hn (fun v => sel grp b g v * lam * w g / npNorm (sel grp b g) + sel grp grad g v)
          rw [← this]
          rfl
        · rw [if_neg (fun h => hA (hact.1 h)), if_neg hA, if_neg hwg, if_neg hwg]
      rw [decide_eq_true_iff, decide_eq_true_iff, hr]
  · simp [hS, hneg]

private lemma pathGrad_eq (b : Fin p → ℝ) :
    (fun v => StrongRules.fullGradient (groupPath X satGrad satFunc grp w enet alpha tol)
        (linpred (groupPath X satGrad satFunc grp w enet alpha tol) b) v +
      (groupPath X satGrad satFunc grp w enet alpha tol).enetGrad b lam v) =
      pathGrad X satGrad satFunc (fun i => w (grp i)) enet alpha tol lam b := by
  funext v
  have : (groupPath X satGrad satFunc grp w enet alpha tol).enetGrad b lam v =
      (StrongRules.lassoPath X satGrad satFunc (fun i => w (grp i)) enet alpha tol).enetGrad b lam v := by
    simp only [groupPath, enetGrad, StrongRules.lassoPath, LassoPath.enetGrad, penalized_eq]
  rw [this]
  rfl

private lemma lam_pos {G V M : Type*} [Fintype G] [Fintype V] [Fintype M] (P : StrongRules.PathObj ℝ G V M)
    (solve : Solver ℝ G V) (ca : Bool) (mt : ℕ) (seq : List ℝ) (hseq : ∀ l ∈ seq, 0 < l) (s grad : V → ℝ)
    (out : List (Entry ℝ V)) (h : strongRules P solve ca mt seq s grad = some out) (e : Entry ℝ V) (he : e ∈ out) :
    0 < e.lagrange := by
  obtain ⟨out', h1, h2⟩ := C40_terminates P solve ca mt seq s grad
  rw [h] at h1
  injection h1 with h1
  subst h1
  have : e.lagrange ∈ seq.tail := by rw [← h2]; exact List.mem_map_of_mem he
  exact hseq _ (List.mem_of_mem_tail this)

/-- **C74** `strong_rules` with `check_active` on a group lasso path, started at zero: a solution appended without the
warning is optimal for the full group elastic net problem at its lagrange value up to the tolerance of the check, whatever
the subproblem solver did. -/
theorem C74_check_active (hf : ConvexWithGradient satFunc satGrad) (ha : 0 < alpha) (ha1 : alpha ≤ 1)
    (hw : ∀ g, 0 ≤ w g) (he : ∀ i, 0 ≤ enet i) (solve : Solver ℝ (Fin q) (Fin p))
    (mt : ℕ) (seq : List ℝ) (hseq : ∀ l ∈ seq, 0 < l) (grad : Fin p → ℝ) (out : List (Entry ℝ (Fin p)))
    (h : strongRules (groupPath X satGrad satFunc grp w enet alpha tol) solve true mt seq (fun _ => 0) grad = some out) :
    ∀ e ∈ out, e.exit = Exit.converged → ∀ u,
      groupEnetObjective X satFunc grp w enet alpha e.lagrange e.beta ≤
        groupEnetObjective X satFunc grp w enet alpha e.lagrange u +
        tol * ∑ g, groupSlack grp w e.beta (alpha * e.lagrange) g * blockNorm grp (fun i => u i - e.beta i) g := by
  intro e hmem hex u
  have hlam := lam_pos _ solve true mt seq hseq _ grad out h e hmem
  have hs := (C40_screen_zero_start _ solve true mt seq grad out h e hmem hex).1
  rw [pathGrad_eq] at hs
  have hc := enet_convexWithGradient (X := X) (w := fun i => w (grp i)) (tol := tol) hf ha1 hlam.le he
  exact C74_suboptimality hc grp w e.beta (mul_pos ha hlam) hw ⟨fun g => (hs g).2 rfl, fun g => (hs g).1⟩ u

/-- The subproblem solver is exact: its answer, extended by zero, minimises the group elastic net objective among the
vectors that vanish outside the groups of the subproblem. -/
def ExactGroupSolver (X : Fin m → Fin p → ℝ) (satFunc : (Fin m → ℝ) → ℝ) (grp : Fin p → Fin q) (w : Fin q → ℝ)
    (enet : Fin p → ℝ) (alpha : ℝ) (solve : Solver ℝ (Fin q) (Fin p)) : Prop :=
  ∀ (n : ℕ) (warm : Fin p → ℝ) (S : Fin q → Bool) (lam : ℝ), 0 < lam → ∀ u : Fin p → ℝ,
    (∀ i, S (grp i) = false → u i = 0) →
    groupEnetObjective X satFunc grp w enet alpha lam (fun i => if S (grp i) then solve n warm S lam i else 0) ≤
      groupEnetObjective X satFunc grp w enet alpha lam u

/-- **C74** `strong_rules` with the default `check_active = False` on a group lasso path all of whose groups are penalised,
started at zero, with an exact subproblem solver: a solution appended without the warning is optimal up to the tolerance of
the check. -/
theorem C74_exact (hf : ConvexWithGradient satFunc satGrad) (ha : 0 < alpha) (ha1 : alpha ≤ 1)
    (ht : 0 ≤ tol) (hw : ∀ g, 0 < w g) (he : ∀ i, 0 ≤ enet i) (solve : Solver ℝ (Fin q) (Fin p))
    (hsolve : ExactGroupSolver X satFunc grp w enet alpha solve) (ca : Bool)
    (mt : ℕ) (seq : List ℝ) (hseq : ∀ l ∈ seq, 0 < l) (grad : Fin p → ℝ) (out : List (Entry ℝ (Fin p)))
    (h : strongRules (groupPath X satGrad satFunc grp w enet alpha tol) solve ca mt seq (fun _ => 0) grad = some out) :
    ∀ e ∈ out, e.exit = Exit.converged → ∀ u,
      groupEnetObjective X satFunc grp w enet alpha e.lagrange e.beta ≤
        groupEnetObjective X satFunc grp w enet alpha e.lagrange u +
        tol * ∑ g, groupSlack grp w e.beta (alpha * e.lagrange) g * blockNorm grp (fun i => u i - e.beta i) g := by
  intro e hmem hex u
  have hlam := lam_pos _ solve ca mt seq hseq _ grad out h e hmem
  have hs := (C40_screen_zero_start _ solve ca mt seq grad out h e hmem hex).1
  rw [pathGrad_eq] at hs
  obtain ⟨n, warm, S, hb⟩ := C40_from_solver _ solve ca mt seq grad out h e hmem
  have hv : ∀ v, varsOf (groupPath X satGrad satFunc grp w enet alpha tol) S v = S (grp v) := by
    intro v; unfold varsOf groupPath; by_cases hS : S (grp v) = true <;> simp [hS]
  simp only [hv] at hb
  have hb0 : ∀ i, S (grp i) = false → e.beta i = 0 := by
    intro i hi; rw [hb]; simp [hi]
  have hmin : ∀ u : Fin p → ℝ, (∀ i, S (grp i) = false → u i = 0) →
      groupEnetObjective X satFunc grp w enet alpha e.lagrange e.beta ≤
        groupEnetObjective X satFunc grp w enet alpha e.lagrange u := by
    intro u hu
    rw [hb]
    exact hsolve n warm S e.lagrange hlam u hu
  have hc := enet_convexWithGradient (X := X) (w := fun i => w (grp i)) (tol := tol) hf ha1 hlam.le he
  have hno : NoFailure (checkKKT grp w (pathGrad X satGrad satFunc (fun i => w (grp i)) enet alpha tol e.lagrange e.beta)
      e.beta (alpha * e.lagrange) tol) := by
    refine ⟨fun g => ?_, fun g => (hs g).1⟩
    by_cases hg : S g = true
    · refine (group_ok (tol := tol) grp w (mul_pos ha hlam) ht (fun g => (hw g).le) (hc.gradient e.beta) g ?_).1
      intro u hu
      exact hmin u (fun i hi => by
        rw [hu i (fun h => by rw [h, hg] at hi; exact absurd hi (by simp))]
        exact hb0 i hi)
    · rw [groupCheck_false_iff]
      unfold activeResults
      have hz : npNorm (sel grp e.beta g) = 0 := by
        have : sel grp e.beta g = fun _ => 0 := by
          funext v
          exact hb0 v (by rw [v.2]; simpa using hg)
        rw [this, npNorm_zero]
      rw [if_neg (fun ha => ((active_iff grp w e.beta g).1 ha).1 hz), if_neg (hw g).ne']
  exact C74_suboptimality hc grp w e.beta (mul_pos ha hlam) (fun g => (hw g).le) hno u

/-- **C74** The problem handed to the solver for a set of groups is the full problem restricted to the vectors that vanish
outside these groups: its objective at `y` is the full objective at `y` extended by zero. -/
theorem C74_subproblem (ha1 : alpha ≤ 1) (S : Fin q → Bool) (y : {v // candidateBool grp S v = true} → ℝ) :
    subObjective X satFunc grp w enet alpha lam S y = groupEnetObjective X satFunc grp w enet alpha lam
      (fun i => if h : candidateBool grp S i = true then y ⟨i, h⟩ else 0) := by
  classical
  set z : Fin p → ℝ := fun i => if h : candidateBool grp S i = true then y ⟨i, h⟩ else 0 with hz
  have hzy : ∀ c : {v // candidateBool grp S v = true}, z c = y c := by
    intro c; simp [hz, c.2]
  have hz0 : ∀ i, candidateBool grp S i ≠ true → z i = 0 := by intro i hi; simp [hz, hi]
  have hsum : ∀ F : Fin p → ℝ, (∀ i, candidateBool grp S i ≠ true → F i = 0) →
      ∑ c : {v // candidateBool grp S v = true}, F c = ∑ i, F i := by
    intro F hF
    rw [← Finset.sum_subtype (Finset.univ.filter fun i => candidateBool grp S i = true) (by simp) F, Finset.sum_filter]
    refine Finset.sum_congr rfl fun i _ => ?_
    split_ifs with h
    · rfl
    · exact (hF i h).symm
  have hcand : ∀ i, candidateBool grp S i = S (grp i) := by
    intro i; unfold candidateBool; by_cases h : S (grp i) = true <;> simp [h]
  have h1 : (fun k : Fin m => ∑ c, subsampleColumns X (candidateBool grp S) k c * y c) = fun k => ∑ i, X k i * z i := by
    funext k
    rw [← hsum (fun i => X k i * z i) (fun i hi => by rw [hz0 i hi, mul_zero])]
    refine Finset.sum_congr rfl fun c _ => ?_
    unfold subsampleColumns
    rw [hzy]
    simp
  have h2 : (if alpha < 1 then (∑ c, y c * (enetParams grp w alpha enet lam c * y c)) / 2 else 0) =
      ∑ i, (1 - alpha) * (if w (grp i) = 0 then 1 else lam) * enet i / 2 * z i ^ 2 := by
    have e : ∑ i, (1 - alpha) * (if w (grp i) = 0 then 1 else lam) * enet i / 2 * z i ^ 2 =
        (∑ c : {v // candidateBool grp S v = true}, y c * (enetParams grp w alpha enet lam c * y c)) / 2 := by
      rw [← hsum (fun i => (1 - alpha) * (if w (grp i) = 0 then 1 else lam) * enet i / 2 * z i ^ 2)
        (fun i hi => by rw [hz0 i hi]; ring), Finset.sum_div]
      refine Finset.sum_congr rfl fun c _ => ?_
      rw [hzy]
      unfold enetParams
      rw [penalized_eq]
      by_cases h : w (grp c) = 0
      · simp [h]; ring
      · simp [h]; ring
    by_cases h : alpha < 1
    · rw [if_pos h, e]
    · have : alpha = 1 := le_antisymm ha1 (not_lt.1 h)
      rw [if_neg h, this]
      simp
  have h3 : ∑ g : {g // S g = true}, npNorm (sel (fun c : {v // candidateBool grp S v = true} => grp c.1) y g.1) * w g =
      groupNorm grp w z := by
    unfold groupNorm
    have hg : ∀ g, S g = true →
        npNorm (sel (fun c : {v // candidateBool grp S v = true} => grp c.1) y g) = blockNorm grp z g := by
      intro g hg
      unfold npNorm blockNorm sel
      congr 1
      rw [← Finset.sum_subtype (Finset.univ.filter fun c : {v // candidateBool grp S v = true} => grp c.1 = g) (by simp)
        (fun c => y c ^ 2), Finset.sum_filter]
      rw [← hsum (fun i => if grp i = g then z i ^ 2 else 0) (fun i hi => by rw [hz0 i hi]; simp)]
      refine Finset.sum_congr rfl fun c _ => ?_
      rw [hzy]
    have : ∑ g, w g * blockNorm grp z g = ∑ g, if S g = true then w g * blockNorm grp z g else 0 := by
      refine Finset.sum_congr rfl fun g _ => ?_
      split_ifs with h
      · rfl
      · have : blockNorm grp z g = 0 := by
          unfold blockNorm
          rw [Finset.sum_eq_zero, Real.sqrt_zero]
          intro i _
          split_ifs with hi
          · rw [hz0 i (by rw [hcand, hi]; exact h)]; simp
          · rfl
        rw [this, mul_zero]
    rw [this, ← Finset.sum_filter, Finset.sum_subtype (p := fun g => S g = true) (Finset.univ.filter fun g => S g = true) (by simp)]
    exact Finset.sum_congr rfl fun g _ => by rw [hg g g.2, mul_comm]
  unfold subObjective groupEnetObjective enetSmooth
  dsimp only
  rw [h1, h2, h3]

end path

/-- the hypotheses of `C74_optimal` can be met: one group of two features, loss `‖u - (6, 8)‖²/2`, `lam = 5`, `b = (3, 4)` -/
example : NoFailure (checkKKT (fun _ : Fin 2 => (0 : Fin 1)) (fun _ => 1)
    (fun i => (![3, 4] : Fin 2 → ℝ) i - (![6, 8] : Fin 2 → ℝ) i) ![3, 4] 5 0) := by
  have hb : npNorm (sel (fun _ : Fin 2 => (0 : Fin 1)) (![3, 4] : Fin 2 → ℝ) 0) = 5 := by
    rw [← blockNorm_sel]
    simp only [blockNorm, Fin.sum_univ_two]
    rw [if_pos trivial, if_pos trivial]
    rw [show (![3, 4] : Fin 2 → ℝ) 0 ^ 2 + (![3, 4] : Fin 2 → ℝ) 1 ^ 2 = 5 ^ 2 by norm_num]
    exact Real.sqrt_sq (by norm_num)
  have hact : active (fun _ : Fin 2 => (0 : Fin 1)) (fun _ => 1) (![3, 4] : Fin 2 → ℝ) 0 := by
    rw [active_iff, hb]; norm_num
  constructor
  · intro g
    rw [Subsingleton.elim g 0, groupCheck_false_iff]
    unfold activeResults
    rw [if_pos hact, hb]
    have : (fun v : {v : Fin 2 // (0 : Fin 1) = 0} => sel (fun _ : Fin 2 => (0 : Fin 1)) (![3, 4] : Fin 2 → ℝ) 0 v * 5 * 1 / 5 +
        sel (fun _ : Fin 2 => (0 : Fin 1)) (fun i => (![3, 4] : Fin 2 → ℝ) i - (![6, 8] : Fin 2 → ℝ) i) 0 v) = fun _ => 0 := by
      funext v
      obtain ⟨v, hv⟩ := v
      fin_cases v <;> norm_num [sel]
    rw [this, npNorm_zero]
    norm_num
  · intro g
    rw [Subsingleton.elim g 0]
    refine (groupRank_neg_iff _ _ _ _ _ _ _).2 ?_
    unfold inactiveResults
    rw [if_pos hact]
    norm_num

/-- the slope hypothesis of `C74_strong_rule` with a discarded group -/
example : strongSet (fun _ : Fin 2 => (0 : Fin 1)) (fun _ => 1) 6 5 (fun _ => (0 : ℝ)) 0 = false ∧
    ∀ g, blockNorm (fun _ : Fin 2 => (0 : Fin 1)) (fun i => (![3 / 5, 4 / 5] : Fin 2 → ℝ) i - 0) g ≤ 1 * (6 - 5) := by
  constructor
  · unfold strongSet dualTerm
    have : sel (fun _ : Fin 2 => (0 : Fin 1)) (fun _ => (0 : ℝ)) 0 = fun _ => 0 := rfl
    rw [this, npNorm_zero, if_pos one_pos, decide_eq_false_iff_not, gt_iff_lt, WithTop.coe_lt_coe]
    norm_num
  · intro g
    rw [Subsingleton.elim g 0]
    simp only [blockNorm, Fin.sum_univ_two]
    rw [if_pos trivial, if_pos trivial, Real.sqrt_le_left (by norm_num)]
    norm_num

/-- exact solvers exist: soft-thresholding for one feature with response 2 -/
example : ExactGroupSolver (p := 1) (q := 1) (m := 1) (fun _ _ => 1) (fun eta => (eta 0 - 2) ^ 2 / 2) (fun _ => 0)
    (fun _ => 1) (fun _ => 1) 1 (fun _ _ _ lam _ => max (2 - lam) 0) := by
  intro n warm S lam hl u hu
  have hB : ∀ z : Fin 1 → ℝ, groupNorm (fun _ : Fin 1 => (0 : Fin 1)) (fun _ => 1) z = |z 0| := by
    intro z
    simp [groupNorm, blockNorm, Real.sqrt_sq_eq_abs]
  unfold groupEnetObjective enetSmooth
  rw [hB, hB]
  simp only [Fin.sum_univ_one, Fin.isValue]
  by_cases hS : S 0 = true
  · simp only [hS, if_true]
    rcases le_total lam 2 with h | h
    · rw [max_eq_left (by linarith), abs_of_nonneg (by linarith : (0:ℝ) ≤ 2 - lam)]
      have h2 := le_abs_self (u 0)
      nlinarith [sq_nonneg (u 0 - (2 - lam)), mul_le_mul_of_nonneg_left h2 hl.le]
    · rw [max_eq_right (by linarith), abs_zero]
      have h2 := le_abs_self (u 0)
      have h3 := abs_nonneg (u 0)
      nlinarith [sq_nonneg (u 0), mul_le_mul_of_nonneg_right h h3]
  · have h0 : S 0 = false := by simpa using hS
    simp [h0, hu 0 h0]

end Verif.Props
