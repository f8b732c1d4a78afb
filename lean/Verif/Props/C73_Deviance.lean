import Verif.Props.C72_BinaryLinks
import Mathlib.Analysis.Complex.ExponentialBounds

/-!
# C73: the objective of a log-likelihood loss is half the deviance

The constructors of the binomial losses add a constant to the quadratic term so that `objective` is zero at the saturated
fit.  `halfDeviance` is the textbook quantity.
-/

set_option linter.unusedSectionVars false
set_option linter.unusedVariables false

namespace Verif.Props
open Verif.Model Verif.Spec Verif.Lemmas

variable {n : ℕ}

/-- the center of the caller's quadratic, if any, is an array -/
def NoScalarCenter (q : Quad (Fin n) ℝ) : Prop := ∀ c, q.center ≠ some (.scalar c)

private lemma devQuad_val (c : ℝ) (d : LossData n) (q : Quad (Fin n) ℝ) (hq : NoScalarCenter q) {k : ℝ}
    (hk : Loss.devConst c d = some k) (x : Fin n → ℝ) : (Loss.devQuad c d q).funcVal x = q.funcVal x + k := by
  simp only [Loss.devQuad, hk, add_funcVal, collapsed_funcVal]
  have e1 : centerDefect q = 0 := by
    unfold centerDefect
    split
    · rename_i c' h; exact absurd h (hq c')
    · rfl
  have e2 : (Quad.init (some 0) (some (.scalar 0)) (some (.scalar 0)) (some k) : Quad (Fin n) ℝ).funcVal x = k := by
    rw [funcVal_eq]; simp [Quad.init, linearAt]
  rw [e1, e2]
  simp [Quad.init]

/-- the saturated log-likelihood the constructor computes, with the mask for `s = 0` and `s = m` -/
private noncomputable def satTerm (s m : ℝ) : ℝ :=
  if s / m ≠ 0 ∧ s / m ≠ 1 then Real.log (s / m) * s + Real.log (1 - s / m) * (m - s) else 0

private lemma satTerm_eq {s m : ℝ} (hm : 0 < m) : satTerm s m = s * Real.log (s / m) + (m - s) * Real.log (1 - s / m) := by
  unfold satTerm
  split_ifs with h
  · ring
  · by_cases h0 : s / m = 0
    · rw [h0]; simp
    · have h1 : s / m = 1 := by
        by_contra h1; exact h ⟨h0, h1⟩
      rw [h1]; simp

private lemma devConst_logistic (c : ℝ) (s t : Fin n → ℝ) :
    Loss.devConst c (.logistic s t) = some (c * ∑ i, satTerm (s i) (t i)) := by
  simp only [Loss.devConst, satTerm]
  congr 1
  ring

private lemma nll_add_sat {s m p : ℝ} (hm : 0 < m) (hs : 0 ≤ s) (hsm : s ≤ m) (hp : 0 < p) (hp1 : p < 1) :
    -(s * Real.log p + (m - s) * Real.log (1 - p)) + satTerm s m = halfDeviance s m p := by
  rw [satTerm_eq hm]
  unfold halfDeviance
  have h1 : s * Real.log (s / m / p) = s * Real.log (s / m) - s * Real.log p := by
    rcases eq_or_lt_of_le hs with h | h
    · rw [← h]; simp
    · rw [Real.log_div (div_pos h hm).ne' hp.ne']; ring
  have h2 : (m - s) * Real.log ((1 - s / m) / (1 - p)) = (m - s) * Real.log (1 - s / m) - (m - s) * Real.log (1 - p) := by
    rcases eq_or_lt_of_le hsm with h | h
    · rw [h]; simp
    · have : 0 < 1 - s / m := by rw [sub_pos, div_lt_one hm]; exact h
      rw [Real.log_div this.ne' (by linarith)]; ring
  rw [h1, h2]; ring

/-- `log` lies below its tangent at 1, strictly away from 1 -/
private lemma kl_term {a b : ℝ} (ha : 0 ≤ a) (hb : 0 < b) : a - b ≤ a * Real.log (a / b) := by
  rcases eq_or_lt_of_le ha with h | h
  · rw [← h]; simp [hb.le]
  · have h1 := Real.log_le_sub_one_of_pos (div_pos hb h)
    have h2 : Real.log (b / a) = -Real.log (a / b) := by rw [← Real.log_inv, inv_div]
    rw [h2] at h1
    have h3 := mul_le_mul_of_nonneg_left h1 h.le
    have h4 : a * (b / a - 1) = b - a := by field_simp
    linarith

private lemma kl_term_lt {a b : ℝ} (ha : 0 ≤ a) (hb : 0 < b) (hab : a ≠ b) : a - b < a * Real.log (a / b) := by
  rcases eq_or_lt_of_le ha with h | h
  · rw [← h]; simp [hb]
  · have hne : b / a ≠ 1 := by
      intro he
      rw [div_eq_one_iff_eq h.ne'] at he
      exact hab he.symm
    have h1 := Real.log_lt_sub_one_of_pos (div_pos hb h) hne
    have h2 : Real.log (b / a) = -Real.log (a / b) := by rw [← Real.log_inv, inv_div]
    rw [h2] at h1
    have h3 := mul_lt_mul_of_pos_left h1 h
    have h4 : a * (b / a - 1) = b - a := by field_simp
    linarith

private lemma dev_scaled {s m p : ℝ} (hm : 0 < m) : halfDeviance s m p =
    m * (s / m * Real.log (s / m / p) + (1 - s / m) * Real.log ((1 - s / m) / (1 - p))) := by
  unfold halfDeviance
  have e1 : m * (s / m) = s := mul_div_cancel₀ s hm.ne'
  have e2 : m * (1 - s / m) = m - s := by rw [mul_sub, e1, mul_one]
  rw [mul_add, ← mul_assoc, ← mul_assoc, e1, e2]

/-- **C73** the yardstick: half the deviance is nonnegative, and zero exactly at the observed proportion. -/
theorem C73_deviance_nonneg {s m p : ℝ} (hm : 0 < m) (hs : 0 ≤ s) (hsm : s ≤ m) (hp : 0 < p) (hp1 : p < 1) :
    0 ≤ halfDeviance s m p ∧ (halfDeviance s m p = 0 ↔ p = s / m) := by
  have a0 : 0 ≤ s / m := div_nonneg hs hm.le
  have a1 : 0 ≤ 1 - s / m := by rw [sub_nonneg, div_le_one hm]; exact hsm
  rw [dev_scaled hm]
  have k1 := kl_term a0 hp
  have k2 := kl_term a1 (by linarith : 0 < 1 - p)
  refine ⟨mul_nonneg hm.le (by linarith), fun h => ?_, fun h => ?_⟩
  · by_contra hne
    have k3 := kl_term_lt a0 hp (Ne.symm hne)
    have : 0 < s / m * Real.log (s / m / p) + (1 - s / m) * Real.log ((1 - s / m) / (1 - p)) := by linarith
    exact absurd h (mul_pos hm this).ne'
  · rw [← h, div_self hp.ne', div_self (by linarith : (1:ℝ) - p ≠ 0)]
    simp

private lemma sig_pos (x : ℝ) : 0 < sigmoid x := div_pos (Real.exp_pos _) (by positivity)

private lemma sig_lt (x : ℝ) : sigmoid x < 1 := by
  unfold sigmoid
  rw [div_lt_one (by positivity)]
  linarith

private lemma sig_c (x : ℝ) : 1 - sigmoid x = 1 / (1 + Real.exp x) := by
  unfold sigmoid
  have : 1 + Real.exp x ≠ 0 := by positivity
  field_simp; ring

private lemma logistic_nll (s m x : ℝ) : m * Real.log (1 + Real.exp x) - s * x =
    -(s * Real.log (sigmoid x) + (m - s) * Real.log (1 - sigmoid x)) := by
  have : (1 + Real.exp x) ≠ 0 := by positivity
  rw [sig_c, sigmoid, Real.log_div (Real.exp_pos x).ne' this, Real.log_exp, one_div, Real.log_inv]
  ring

/-- **C73** logistic_loglike without case weights, positive trials, linear predictors at most 100: the objective is the
coefficient times the sum of the half deviances of the fitted probabilities, plus the caller's quadratic.  Missing: linear
predictors above 100 (the code replaces `log(1 + exp x)` by `x`), and case weights, for which it is false
(`C73_weights_fails`). -/
theorem C73_logistic_partial {s t : Fin n → ℝ} {c : ℝ} {o : Option (Fin n → ℝ)} {q : Quad (Fin n) ℝ}
    (hq : NoScalarCenter q) {L : Loss n} (h : Loss.init (.logistic s t) c o q none = some L) (ht : ∀ i, 0 < t i)
    (x : Fin n → ℝ) (hx : ∀ i, x i - effOffset o i ≤ 100) :
    L.objective x = some (c * ∑ i, halfDeviance (s i) (t i) (sigmoid (x i - effOffset o i)) + q.funcVal x) := by
  obtain ⟨hc, hd, -, rfl⟩ := loss_of_init h
  have hE := (evaluates_loss (⟨.logistic s t, c, o, Loss.devQuad c (.logistic s t) q, none⟩ : Loss n) none x).1
  have hs : ∀ i, 0 ≤ s i ∧ s i ≤ t i := by
    intro i
    simp only [Loss.dataError, not_or, not_exists, not_lt] at hd
    exact ⟨hd.2 i, by linarith [hd.1 i]⟩
  simp only [Loss.objective] at hE ⊢
  rw [hE]
  dsimp only
  rw [devQuad_val c _ q hq (devConst_logistic c s t)]
  have ho : offV o = effOffset o := by funext i; cases o <;> simp [offV, effOffset]
  congr 1
  rw [← add_assoc, add_right_comm, add_left_inj]
  unfold totalLoss
  rw [← mul_add, ← Finset.sum_add_distrib, ho]
  congr 1
  refine Finset.sum_congr rfl fun i _ => ?_
  rw [← nll_add_sat (ht i) (hs i).1 (hs i).2 (sig_pos _) (sig_lt _), ← logistic_nll]
  simp only [phi, Loss.cw, Loss.logExp, if_pos (hx i), one_mul]

/-- **C73** probit_loglike and cloglog_loglike without case weights, positive trials, linear predictors at most `B` in
absolute value (20, 5): the same, with the inverse link of the class.  Missing: the clipped region, the offset (ignored by
the code) and case weights, for which it is false (`C73_weights_fails`). -/
theorem C73_links_partial {l : BinLink} {s : Fin n → ℝ} {trials : Option (Fin n → ℝ)} {c : ℝ}
    {o : Option (Fin n → ℝ)} {q : Quad (Fin n) ℝ} (hq : NoScalarCenter q) {L : BinLoss n}
    (h : BinLoss.init l s trials c o q none = some L) (ht : ∀ i, 0 < L.trials i) (x : Fin n → ℝ)
    (hx : ∀ i, |x i| ≤ clipBound l) :
    L.objective x = c * ∑ i, halfDeviance (s i) (L.trials i) (invLink l (x i)) + q.funcVal x := by
  obtain ⟨t, -, hc, hs, -, rfl⟩ := bin_of_init h
  obtain ⟨F, G, hE, hF, -⟩ := C72_gradient_partial
    (⟨l, s, t, c, o, Loss.devQuad c (.logistic s t) q, none⟩ : BinLoss n) none
  have h1 := (hE x).1
  simp only [BinLoss.smoothObjective] at h1
  injection h1 with h1
  dsimp only [BinLoss.objective] at ht ⊢
  rw [h1, (hF x hx).1, devQuad_val c _ q hq (devConst_logistic c s t), ← add_assoc, add_right_comm, add_left_inj]
  unfold binTotal totalLoss
  dsimp only
  rw [← mul_add, ← Finset.sum_add_distrib]
  congr 1
  refine Finset.sum_congr rfl fun i _ => ?_
  have hp : 0 < invLink l (x i) ∧ invLink l (x i) < 1 := by
    have := (C72_mean l).1 (x i)
    rwa [(C72_mean l).2.2.1 (x i) (hx i)] at this
  rw [← nll_add_sat (ht i) (hs i).1 (hs i).2 hp.1 hp.2]
  simp [binomialNll, effWeight]

/-- **C73** consequence: built without weights and without a quadratic, the objective of each of the three binomial losses
is nonnegative at such points, and zero where every fitted probability equals the observed proportion. -/
theorem C73_nonneg {l : BinLink} {s t : Fin n → ℝ} (ht : ∀ i, 0 < t i) {c : ℝ} :
    (∀ (L : Loss n) (x : Fin n → ℝ), Loss.init (.logistic s t) c none (Quad.init none none none none) none = some L →
      (∀ i, x i ≤ 100) → ∃ v, L.objective x = some v ∧ 0 ≤ v ∧ ((∀ i, sigmoid (x i) = s i / t i) → v = 0)) ∧
    ∀ (L : BinLoss n) (x : Fin n → ℝ), BinLoss.init l s (some t) c none (Quad.init none none none none) none = some L →
      (∀ i, |x i| ≤ clipBound l) → 0 ≤ L.objective x ∧ ((∀ i, invLink l (x i) = s i / t i) → L.objective x = 0) := by
  have hq : NoScalarCenter (Quad.init none none none none : Quad (Fin n) ℝ) := by intro c h; cases h
  have hv : ∀ x : Fin n → ℝ, (Quad.init none none none none : Quad (Fin n) ℝ).funcVal x = 0 := by
    intro x; rw [funcVal_eq]; simp [Quad.init, linearAt]
  constructor
  · intro L x h hx
    obtain ⟨hc, hd, -, -⟩ := loss_of_init h
    have hs : ∀ i, 0 ≤ s i ∧ s i ≤ t i := by
      intro i
      simp only [Loss.dataError, not_or, not_exists, not_lt] at hd
      exact ⟨hd.2 i, by linarith [hd.1 i]⟩
    refine ⟨_, C73_logistic_partial hq h ht x (by simpa [effOffset] using hx), ?_, fun hsat => ?_⟩
    · rw [hv, add_zero]
      exact mul_nonneg hc (Finset.sum_nonneg fun i _ =>
        (C73_deviance_nonneg (ht i) (hs i).1 (hs i).2 (sig_pos _) (sig_lt _)).1)
    · rw [hv, add_zero]
      refine mul_eq_zero_of_right _ (Finset.sum_eq_zero fun i _ => ?_)
      refine (C73_deviance_nonneg (ht i) (hs i).1 (hs i).2 (sig_pos _) (sig_lt _)).2.mpr ?_
      simpa [effOffset] using hsat i
  · intro L x h hx
    obtain ⟨t', ht', hc, hs, -, hL⟩ := bin_of_init h
    injection ht' with ht'
    subst ht'
    have hp : ∀ i, 0 < invLink l (x i) ∧ invLink l (x i) < 1 := fun i => by
      have := (C72_mean l).1 (x i)
      rwa [(C72_mean l).2.2.1 (x i) (hx i)] at this
    have hLt : L.trials = t := by rw [hL]
    rw [C73_links_partial hq h (by rw [hLt]; exact ht) x hx, hv, add_zero, hLt]
    refine ⟨mul_nonneg hc (Finset.sum_nonneg fun i _ =>
        (C73_deviance_nonneg (ht i) (hs i).1 (hs i).2 (hp i).1 (hp i).2).1), fun hsat => ?_⟩
    exact mul_eq_zero_of_right _ (Finset.sum_eq_zero fun i _ =>
      (C73_deviance_nonneg (ht i) (hs i).1 (hs i).2 (hp i).1 (hp i).2).2.mpr (hsat i))

/-- the hypotheses are met: one success in two trials, at 0 the logistic fit is saturated -/
example : ∃ L : Loss 1, Loss.init (.logistic (fun _ => 1) (fun _ => 2)) 1 none (Quad.init none none none none) none = some L ∧
    L.objective (fun _ => 0) = some 0 := by
  refine ⟨_, loss_init _ (by norm_num) (by simp [Loss.dataError]) none _ none (by intro w h; cases h), ?_⟩
  obtain ⟨v, h1, -, h2⟩ := (C73_nonneg (l := .probit) (s := fun _ : Fin 1 => 1) (t := fun _ => 2) (c := 1)
    (fun _ => by norm_num)).1 _ (fun _ => 0)
    (loss_init _ (by norm_num) (by simp [Loss.dataError]) none _ none (by intro w h; cases h)) (fun _ => by norm_num)
  rw [h1, h2 (fun _ => by norm_num [sigmoid])]

/-- **C73** fails with case weights: the constant of the saturated fit ignores them, so with one success in two trials and
case weight 0 the objective is `-2 log 2 < 0` at every point. -/
theorem C73_weights_fails :
    (∃ L : Loss 1, Loss.init (.logistic (fun _ => 1) (fun _ => 2)) 1 none (Quad.init none none none none)
        (some fun _ => 0) = some L ∧ ∀ x, ∃ v, L.objective x = some v ∧ v < 0) ∧
    ∀ l : BinLink, ∃ L : BinLoss 1, BinLoss.init l (fun _ => 1) (some fun _ => 2) 1 none (Quad.init none none none none)
        (some fun _ => 0) = some L ∧ ∀ x, L.objective x < 0 := by
  have hq : NoScalarCenter (Quad.init none none none none : Quad (Fin 1) ℝ) := by intro c h; cases h
  have hv : ∀ x : Fin 1 → ℝ, (Quad.init none none none none : Quad (Fin 1) ℝ).funcVal x = 0 := by
    intro x; rw [funcVal_eq]; simp [Quad.init, linearAt]
  have hl : 0 < Real.log 2 := Real.log_pos (by norm_num)
  have hk : (1:ℝ) * ∑ i : Fin 1, satTerm ((fun _ => 1 : Fin 1 → ℝ) i) ((fun _ => 2 : Fin 1 → ℝ) i) < 0 := by
    rw [one_mul, Fin.sum_univ_one, satTerm_eq (by norm_num : (0:ℝ) < 2), show (1:ℝ) - 1 / 2 = 1 / 2 by norm_num, one_div,
      Real.log_inv]
    linarith
  constructor
  · refine ⟨_, loss_init _ (by norm_num) (by simp [Loss.dataError]) none _ _ (by
      intro w h i; injection h with h; rw [← h]), fun x => ?_⟩
    have hE := (evaluates_loss (⟨.logistic (fun _ => 1) (fun _ => 2), 1, none,
      Loss.devQuad 1 (.logistic (fun _ => 1) (fun _ => 2)) (Quad.init none none none none), some fun _ => 0⟩ : Loss 1) none x).1
    simp only [Loss.objective] at hE ⊢
    rw [hE]
    refine ⟨_, rfl, ?_⟩
    rw [devQuad_val 1 _ _ hq (devConst_logistic 1 _ _), hv, zero_add]
    have : totalLoss 1 (Loss.cw (some fun _ => 0) none) (offV none)
        (phi (LossData.logistic (fun _ : Fin 1 => (1:ℝ)) fun _ => 2)) x = 0 := by
      simp [totalLoss, Loss.cw]
    rw [this, zero_add]
    exact hk
  · intro l
    refine ⟨_, bin_init l (t := fun _ => 2) (by norm_num) rfl (fun _ _ => by norm_num) none _ (by
      intro w h i; injection h with h; rw [← h]), fun x => ?_⟩
    dsimp only [BinLoss.objective]
    rw [devQuad_val 1 _ _ hq (devConst_logistic 1 _ _), hv, zero_add]
    have : BinLoss.value (⟨l, fun _ => 1, fun _ => 2, 1, none, Loss.devQuad 1 (.logistic (fun _ => 1) (fun _ => 2))
        (Quad.init none none none none), some fun _ => 0⟩ : BinLoss 1) (Loss.cw (some fun _ => 0) none) x = 0 := by
      simp [BinLoss.value, Smooth.scaleR, Loss.cw]
    rw [this, zero_add]
    exact hk

/-- **C73** fails for poisson_loglike: its constant is not the saturated log-likelihood.  For a single count 2 the
objective at the saturated fit `x = log 2` is `2 - 3 log 2`, negative. -/
theorem C73_poisson_fails : ∃ L : Loss 1,
    Loss.init (.poisson fun _ => 2) 1 none (Quad.init none none none none) none = some L ∧
    ∃ v, L.objective (fun _ => Real.log 2) = some v ∧ v < 0 := by
  have hq : NoScalarCenter (Quad.init none none none none : Quad (Fin 1) ℝ) := by intro c h; cases h
  have hv : ∀ x : Fin 1 → ℝ, (Quad.init none none none none : Quad (Fin 1) ℝ).funcVal x = 0 := by
    intro x; rw [funcVal_eq]; simp [Quad.init, linearAt]
  refine ⟨_, loss_init _ (by norm_num) (by simp [Loss.dataError]; positivity) none _ _ (by
      intro w h i; cases h), ?_⟩
  have hE := (evaluates_loss (⟨.poisson (fun _ => 2), 1, none,
      Loss.devQuad 1 (.poisson fun _ => 2) (Quad.init none none none none), none⟩ : Loss 1) none fun _ => Real.log 2).1
  have hk : Loss.devConst 1 (.poisson fun _ : Fin 1 => (2:ℝ)) = some (-Real.log 2) := by
    simp [Loss.devConst]; ring
  simp only [Loss.objective] at hE ⊢
  rw [hE]
  refine ⟨_, rfl, ?_⟩
  rw [devQuad_val 1 _ _ hq hk, hv, zero_add]
  have : totalLoss 1 (Loss.cw none none) (offV none)
        (phi (LossData.poisson (fun _ : Fin 1 => (2:ℝ)))) (fun _ => Real.log 2) = 2 - 2 * Real.log 2 := by
    simp [totalLoss, Loss.cw, phi, offV, Real.exp_log]
  rw [this]
  linarith [Real.log_two_gt_d9]

end Verif.Props
