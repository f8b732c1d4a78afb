import Verif.Model.BinaryLinks
import Verif.Lemmas.Normal
import Verif.Lemmas.Losses
import Verif.Lemmas.Quad
import Mathlib.Tactic.FinCases

/-!
# C72: the probit and complementary log-log likelihoods

`probit_loglike` and `cloglog_loglike` evaluate the negative binomial log-likelihood for the inverse links `ncdf`
(normal distribution function) and `cloglogInv`.  Both clip the linear predictor inside the value, at 20 and 5.
-/

set_option linter.unusedSectionVars false
set_option linter.unusedVariables false

namespace Verif.Props
open Verif.Model Verif.Spec Verif.Lemmas

variable {n : ℕ}

/-- the textbook inverse link of each class -/
noncomputable def invLink : BinLink → ℝ → ℝ
  | .probit => ncdf
  | .cloglog => cloglogInv

/-- the linear predictor is clipped outside `[-B, B]` -/
def clipBound : BinLink → ℝ
  | .probit => 20
  | .cloglog => 5

/-- the textbook loss: `coef ∑ wᵢ ℓ(sᵢ, mᵢ; xᵢ)` with the binomial negative log-likelihood `ℓ` -/
noncomputable def binTotal (L : BinLoss n) (arg : Option (Fin n → ℝ)) : (Fin n → ℝ) → ℝ :=
  totalLoss L.coef (effWeight L.caseWeights arg) (fun _ => 0)
    fun i => binomialNll (invLink L.link) (L.successes i) (L.trials i)

private lemma cw_eq (own arg : Option (Fin n → ℝ)) : Loss.cw own arg = effWeight own arg := by
  funext i; cases own <;> cases arg <;> simp [Loss.cw, effWeight]

/-! ### the links -/

private lemma clipBound_pos (l : BinLink) : 0 < clipBound l := by cases l <;> norm_num [clipBound]

private lemma inv_pos (l : BinLink) (x : ℝ) : 0 < invLink l x := by
  cases l
  · exact ncdf_pos x
  · exact cloglogInv_pos x

private lemma inv_lt_one (l : BinLink) (x : ℝ) : invLink l x < 1 := by
  cases l
  · exact ncdf_lt_one x
  · exact cloglogInv_lt_one x

private lemma inv_c_pos (l : BinLink) (x : ℝ) : 0 < 1 - invLink l x := by linarith [inv_lt_one l x]

private lemma inv_deriv (l : BinLink) (x : ℝ) : HasDerivAt (invLink l) (l.pdf x) x := by
  cases l
  · exact hasDerivAt_ncdf x
  · exact hasDerivAt_cloglogInv x

private lemma pdf_pos (l : BinLink) (x : ℝ) : 0 < l.pdf x := by
  cases l
  · exact npdf_pos x
  · exact Real.exp_pos _

private lemma pdf_deriv (l : BinLink) (x : ℝ) : ∃ d, HasDerivAt l.pdf d x := by
  cases l
  · exact ⟨_, hasDerivAt_npdf x⟩
  · exact ⟨_, hasDerivAt_cloglogPdf x⟩

private lemma inv_strictMono (l : BinLink) : StrictMono (invLink l) := by
  cases l
  · exact ncdf_strictMono
  · exact cloglogInv_strictMono

private lemma clip5_eq {x : ℝ} (h : |x| ≤ 5) : BinLink.clip5 x = x := by
  rw [abs_le] at h
  rw [BinLink.clip5, max_eq_left h.1, min_eq_left h.2]

private lemma clip_mem5 (x : ℝ) : -5 ≤ BinLink.clip5 x ∧ BinLink.clip5 x ≤ 5 := by
  unfold BinLink.clip5
  exact ⟨le_min (le_max_right _ _) (by norm_num), min_le_right _ _⟩

private lemma prob_eq (l : BinLink) {x : ℝ} (h : |x| ≤ clipBound l) : l.prob x = invLink l x := by
  cases l
  · rw [clipBound, abs_le] at h
    simp only [BinLink.prob, invLink, if_neg (not_lt.mpr h.1)]
  · simp only [BinLink.prob, invLink, cloglogInv, clip5_eq h]

private lemma probC_eq (l : BinLink) {x : ℝ} (h : |x| ≤ clipBound l) : l.probC x = 1 - invLink l x := by
  cases l
  · rw [clipBound, abs_le] at h
    simp only [BinLink.probC, invLink, gt_iff_lt, if_neg (not_lt.mpr h.2), nsf_eq]
  · simp only [BinLink.probC, invLink, one_sub_cloglogInv, clip5_eq h]

private lemma mean_eq (l : BinLink) {x : ℝ} (h : |x| ≤ clipBound l) : l.mean x = invLink l x := by
  cases l
  · rfl
  · simp only [BinLink.mean, invLink, cloglogInv, clip5_eq h]

/-! ### value and gradient -/

/-- per observation gradient the model computes -/
private noncomputable def psiB (l : BinLink) (s m x : ℝ) : ℝ := -(l.pdf x * (s / l.prob x - (m - s) / l.probC x))

/-- per observation value the model computes -/
private noncomputable def phiB (l : BinLink) (s m x : ℝ) : ℝ :=
  -(s * Real.log (l.prob x) + (m - s) * Real.log (l.probC x))

private lemma evaluates_bin (L : BinLoss n) (arg : Option (Fin n → ℝ)) :
    Evaluates (fun x m => (L.smoothObjective x m arg).1)
      (totalLoss L.coef (effWeight L.caseWeights arg) (fun _ => 0) fun i => phiB L.link (L.successes i) (L.trials i))
      (fun x i => L.coef * (effWeight L.caseWeights arg i * psiB L.link (L.successes i) (L.trials i) (x i))) := by
  intro x
  have e1 : L.value (effWeight L.caseWeights arg) x = totalLoss L.coef (effWeight L.caseWeights arg) (fun _ => 0)
      (fun i => phiB L.link (L.successes i) (L.trials i)) x := by
    simp only [BinLoss.value, scaleR_eq, totalLoss, phiB, sub_zero]
    rw [← mul_neg, ← Finset.sum_neg_distrib]
    congr 1
    exact Finset.sum_congr rfl fun i _ => by ring
  have e2 : L.gradient (effWeight L.caseWeights arg) x =
      fun i => L.coef * (effWeight L.caseWeights arg i * psiB L.link (L.successes i) (L.trials i) (x i)) := by
    funext i
    simp only [BinLoss.gradient, scaleV_eq, psiB]
    ring
  simp only [BinLoss.smoothObjective, cw_eq, e1, e2, and_self]

lemma nll_deriv (l : BinLink) (s m x : ℝ) :
    HasDerivAt (binomialNll (invLink l) s m) (-(l.pdf x * (s / invLink l x - (m - s) / (1 - invLink l x)))) x := by
  have h1 := (inv_deriv l x).log (inv_pos l x).ne'
  have h2 := ((inv_deriv l x).const_sub 1).log (inv_c_pos l x).ne'
  have := ((h1.const_mul s).add (h2.const_mul (m - s))).neg
  refine this.congr_deriv ?_
  ring

private lemma phiB_eq (l : BinLink) (s m : ℝ) {x : ℝ} (h : |x| ≤ clipBound l) :
    phiB l s m x = binomialNll (invLink l) s m x := by
  rw [phiB, binomialNll, prob_eq l h, probC_eq l h]

private lemma psiB_eq (l : BinLink) (s m : ℝ) {x : ℝ} (h : |x| ≤ clipBound l) :
    psiB l s m x = -(l.pdf x * (s / invLink l x - (m - s) / (1 - invLink l x))) := by
  rw [psiB, prob_eq l h, probC_eq l h]

private lemma phiB_deriv (l : BinLink) (s m : ℝ) {x : ℝ} (h : |x| < clipBound l) :
    HasDerivAt (phiB l s m) (psiB l s m x) x := by
  rw [psiB_eq l s m h.le]
  refine (nll_deriv l s m x).congr_of_eventuallyEq ?_
  rw [abs_lt] at h
  filter_upwards [Ioo_mem_nhds h.1 h.2] with t ht
  exact phiB_eq l s m (abs_le.mpr ⟨ht.1.le, ht.2.le⟩)

/-- where the success probability is evaluated -/
noncomputable def successAt : BinLink → ℝ → ℝ
  | .probit, x => max x (-20)
  | .cloglog, x => max (-5) (min x 5)

/-- where the failure probability is evaluated -/
noncomputable def failureAt : BinLink → ℝ → ℝ
  | .probit, x => min x 20
  | .cloglog, x => max (-5) (min x 5)

/-- **C72** the answers at every linear predictor, also outside `[-B, B]`: the value is the binomial negative log-likelihood
with clipped probabilities of success and failure, and the gradient has the density at the unclipped predictor over them. -/
theorem C72_clipped (L : BinLoss n) (arg : Option (Fin n → ℝ)) :
    Evaluates (fun x m => (L.smoothObjective x m arg).1)
      (fun x => L.coef * ∑ i, effWeight L.caseWeights arg i *
        -(L.successes i * Real.log (invLink L.link (successAt L.link (x i))) +
          (L.trials i - L.successes i) * Real.log (1 - invLink L.link (failureAt L.link (x i)))))
      (fun x i => L.coef * (effWeight L.caseWeights arg i * -(deriv (invLink L.link) (x i) *
        (L.successes i / invLink L.link (successAt L.link (x i)) -
          (L.trials i - L.successes i) / (1 - invLink L.link (failureAt L.link (x i))))))) := by
  have hc5 : ∀ x : ℝ, BinLink.clip5 x = max (-5) (min x 5) := by
    intro x
    unfold BinLink.clip5
    rcases le_total x (-5) with h | h
    · rw [max_eq_right h, min_eq_left (by norm_num), min_eq_left (by linarith), max_eq_left h]
    · rw [max_eq_left h, max_eq_right (le_min h (by norm_num))]
  have hp : ∀ l x, BinLink.prob l x = invLink l (successAt l x) := by
    intro l x
    cases l
    · simp only [BinLink.prob, invLink, successAt]
      split_ifs with h
      · rw [max_eq_right h.le]
      · rw [max_eq_left (not_lt.mp h)]
    · simp only [BinLink.prob, invLink, successAt, cloglogInv, hc5]
  have hq : ∀ l x, BinLink.probC l x = 1 - invLink l (failureAt l x) := by
    intro l x
    cases l
    · simp only [BinLink.probC, invLink, failureAt, nsf_eq]
      split_ifs with h
      · rw [min_eq_right h.le]
      · rw [min_eq_left (not_lt.mp h)]
    · simp only [BinLink.probC, invLink, failureAt, one_sub_cloglogInv, hc5]
  have h := evaluates_bin L arg
  have e : totalLoss L.coef (effWeight L.caseWeights arg) (fun _ => 0) (fun i => phiB L.link (L.successes i) (L.trials i)) =
      fun x => L.coef * ∑ i, effWeight L.caseWeights arg i *
        -(L.successes i * Real.log (invLink L.link (successAt L.link (x i))) +
          (L.trials i - L.successes i) * Real.log (1 - invLink L.link (failureAt L.link (x i)))) := by
    funext x
    simp only [totalLoss, phiB, hp, hq, sub_zero]
  rw [e] at h
  simp only [psiB, hp, hq] at h
  have hd : ∀ x, deriv (invLink L.link) x = L.link.pdf x := fun x => (inv_deriv L.link x).deriv
  simp only [hd]
  exact h

/-- **C72** While all linear predictors are at most `B` in absolute value (`B` is 20 for probit, 5 for cloglog), 'func'
is the textbook negative log-likelihood, and the 'grad' answer is its gradient; strictly inside, 'grad' is the gradient of
the function 'func' returns.  Holds for all successes, trials, coefficients and weights.  Missing: outside `[-B, B]` it is
false (`C72_gradient_fails`), and the offset of the loss is ignored (`C72_offset_fails`). -/
theorem C72_gradient_partial (L : BinLoss n) (arg : Option (Fin n → ℝ)) :
    ∃ F G, Evaluates (fun x m => (L.smoothObjective x m arg).1) F G ∧
      (∀ x, (∀ i, |x i| ≤ clipBound L.link) → F x = binTotal L arg x ∧ IsGradientAt (binTotal L arg) (G x) x) ∧
      (∀ x, (∀ i, |x i| < clipBound L.link) → IsGradientAt F (G x) x) := by
  refine ⟨_, _, evaluates_bin L arg, fun x hx => ⟨?_, ?_⟩, fun x hx => ?_⟩
  · unfold binTotal totalLoss
    congr 1
    refine Finset.sum_congr rfl fun i _ => ?_
    simp only [sub_zero]
    rw [phiB_eq _ _ _ (hx i)]
  · refine grad_totalLoss _ _ _ _ _ x fun i => ?_
    rw [sub_zero, psiB_eq _ _ _ (hx i)]
    exact nll_deriv _ _ _ _
  · refine grad_totalLoss _ _ _ _ _ x fun i => ?_
    rw [sub_zero]
    exact phiB_deriv _ _ _ (hx i)

/-- a loss with one observation, one trial -/
noncomputable def oneCase (l : BinLink) (s : ℝ) : BinLoss 1 :=
  ⟨l, fun _ => s, fun _ => 1, 1, none, Loss.devQuad 1 (.logistic (fun _ : Fin 1 => s) (fun _ => 1))
    (Quad.init none none none none), none⟩

/-- what an accepting constructor call returns -/
lemma bin_init (l : BinLink) {s : Fin n → ℝ} {trials : Option (Fin n → ℝ)} {t : Fin n → ℝ} {c : ℝ} (hc : 0 ≤ c)
    (ht : Loss.resolveTrials s trials = some t) (hs : trials ≠ none → ∀ i, 0 ≤ s i ∧ s i ≤ t i)
    (o : Option (Fin n → ℝ)) (q : Quad (Fin n) ℝ)
    {w : Option (Fin n → ℝ)} (hw : ∀ v, w = some v → ∀ i, 0 ≤ v i) :
    BinLoss.init l s trials c o q w = some ⟨l, s, t, c, o, Loss.devQuad c (.logistic s t) q, w⟩ := by
  have h1 : ¬ (trials ≠ none ∧ ((∃ i, t i - s i < 0) ∨ ∃ i, s i < 0)) := by
    rintro ⟨h0, ⟨i, hi⟩ | ⟨i, hi⟩⟩
    · linarith [(hs h0 i).2]
    · linarith [(hs h0 i).1]
  have h2 : ¬ ∃ v, w = some v ∧ ¬ ∀ i, 0 ≤ v i := by
    rintro ⟨v, hv, h⟩; exact h (hw v hv)
  simp only [BinLoss.init, Smooth.atomInit, if_neg (not_lt.mpr hc), ht]
  rw [if_neg h1, if_neg h2]

/-- what an accepted constructor call tells about its arguments -/
lemma bin_of_init {l : BinLink} {s : Fin n → ℝ} {trials : Option (Fin n → ℝ)} {c : ℝ}
    {o : Option (Fin n → ℝ)} {q : Quad (Fin n) ℝ} {w : Option (Fin n → ℝ)} {L : BinLoss n}
    (h : BinLoss.init l s trials c o q w = some L) :
    ∃ t, Loss.resolveTrials s trials = some t ∧ 0 ≤ c ∧ (∀ i, 0 ≤ s i ∧ s i ≤ t i) ∧
      (∀ v, w = some v → ∀ i, 0 ≤ v i) ∧ L = ⟨l, s, t, c, o, Loss.devQuad c (.logistic s t) q, w⟩ := by
  by_cases hc : c < 0
  · simp [BinLoss.init, Smooth.atomInit, hc] at h
  cases ht : Loss.resolveTrials s trials with
  | none => simp [BinLoss.init, Smooth.atomInit, hc, ht] at h
  | some t =>
    simp only [BinLoss.init, Smooth.atomInit, if_neg hc, ht] at h
    by_cases h1 : trials ≠ none ∧ ((∃ i, t i - s i < 0) ∨ ∃ i, s i < 0)
    · rw [if_pos h1] at h; cases h
    rw [if_neg h1] at h
    by_cases h2 : ∃ v, w = some v ∧ ¬ ∀ i, 0 ≤ v i
    · rw [if_pos h2] at h; cases h
    rw [if_neg h2] at h
    injection h with h
    refine ⟨t, rfl, not_lt.mp hc, fun i => ?_, fun v hv => ?_, h.symm⟩
    · cases trials with
      | none =>
        unfold Loss.resolveTrials at ht
        by_cases hb : ∀ i, s i = 0 ∨ s i = 1
        · rw [if_pos hb] at ht
          injection ht with ht
          subst ht
          rcases hb i with h0 | h0 <;> rw [h0] <;> norm_num
        · rw [if_neg hb] at ht; cases ht
      | some t' =>
        by_contra hcon
        refine h1 ⟨by simp, ?_⟩
        by_cases h3 : 0 ≤ s i
        · refine Or.inl ⟨i, ?_⟩
          by_contra h4
          exact hcon ⟨h3, by linarith⟩
        · exact Or.inr ⟨i, not_le.mp h3⟩
    · by_contra hcon
      exact h2 ⟨v, hv, hcon⟩

/-- **C72** The constructors of both classes accept exactly a nonnegative coefficient, nonnegative weights and: given
trials, `0 ≤ sᵢ ≤ mᵢ`; without trials, binary successes, each then one out of one trial. -/
theorem C72_constructor (l : BinLink) (s : Fin n → ℝ) (trials : Option (Fin n → ℝ)) (c : ℝ) (o : Option (Fin n → ℝ))
    (q : Quad (Fin n) ℝ) (w : Option (Fin n → ℝ)) :
    (∃ L, BinLoss.init l s trials c o q w = some L ∧ L.link = l ∧ L.successes = s ∧ L.coef = c ∧ L.caseWeights = w ∧
        L.trials = trials.getD fun _ => 1) ↔
      0 ≤ c ∧ (∀ v, w = some v → ∀ i, 0 ≤ v i) ∧
        (trials = none → ∀ i, s i = 0 ∨ s i = 1) ∧ ∀ m, trials = some m → ∀ i, 0 ≤ s i ∧ s i ≤ m i := by
  constructor
  · rintro ⟨L, h, -⟩
    obtain ⟨t, ht, hc, hs, hw, -⟩ := bin_of_init h
    refine ⟨hc, hw, fun hn => ?_, fun m hm => ?_⟩
    · subst hn
      unfold Loss.resolveTrials at ht
      by_contra hcon
      rw [if_neg hcon] at ht; cases ht
    · subst hm
      injection ht with ht
      subst ht; exact hs
  · rintro ⟨hc, hw, hb, hs⟩
    cases trials with
    | none =>
      have ht : Loss.resolveTrials s none = some fun _ => 1 := by
        unfold Loss.resolveTrials; rw [if_pos (hb rfl)]
      exact ⟨_, bin_init l hc ht (fun h => absurd rfl h) o q hw, rfl, rfl, rfl, rfl, rfl⟩
    | some m => exact ⟨_, bin_init l hc rfl (fun _ => hs m rfl) o q hw, rfl, rfl, rfl, rfl, rfl⟩

private lemma oneCase_init (l : BinLink) {s : ℝ} (hs : s = 0 ∨ s = 1) :
    BinLoss.init l (fun _ : Fin 1 => s) none 1 none (Quad.init none none none none) none = some (oneCase l s) :=
  bin_init l zero_le_one (by unfold Loss.resolveTrials; rw [if_pos fun _ => hs]) (fun h => absurd rfl h) _ _
    (by intro v hv; cases hv)

/-- the hypotheses of the theorems are met: one success in one trial -/
example : ∃ L, BinLoss.init .probit (fun _ : Fin 1 => (1:ℝ)) none 1 none (Quad.init none none none none) none = some L ∧
    ∀ i : Fin 1, |(fun _ => (3:ℝ) : Fin 1 → ℝ) i| < clipBound L.link :=
  ⟨_, oneCase_init .probit (Or.inr rfl), fun i => by rw [abs_of_pos] <;> norm_num [oneCase, clipBound]⟩

private lemma one_eval (l : BinLink) (s : ℝ) : Evaluates (fun x m => ((oneCase l s).smoothObjective x m none).1)
    (fun x => phiB l s 1 (x 0)) (fun x _ => psiB l s 1 (x 0)) := by
  intro x
  obtain ⟨h1, h2, h3⟩ := evaluates_bin (oneCase l s) none x
  have e1 : totalLoss (oneCase l s).coef (effWeight (oneCase l s).caseWeights none) (fun _ => 0)
      (fun i => phiB (oneCase l s).link ((oneCase l s).successes i) ((oneCase l s).trials i)) x = phiB l s 1 (x 0) := by
    simp [totalLoss, oneCase, effWeight]
  have e2 : (fun i => (oneCase l s).coef * (effWeight (oneCase l s).caseWeights none i *
      psiB (oneCase l s).link ((oneCase l s).successes i) ((oneCase l s).trials i) (x i))) = fun _ => psiB l s 1 (x 0) := by
    funext i; fin_cases i; simp [oneCase, effWeight]
  dsimp only at h1 h2 h3 ⊢
  rw [e1] at h1 h3
  rw [e2] at h2 h3
  exact ⟨h1, h2, h3⟩

private lemma eval_unique {ev : (Fin n → ℝ) → Mode → Eval n} {f f' : (Fin n → ℝ) → ℝ} {g g' : (Fin n → ℝ) → Fin n → ℝ}
    (h : Evaluates ev f g) (h' : Evaluates ev f' g') : f = f' ∧ g = g' := by
  constructor
  · funext x; have h1 := (h x).1; rw [(h' x).1] at h1; injection h1 with h1; exact h1.symm
  · funext x; have h1 := (h x).2.1; rw [(h' x).2.1] at h1; injection h1 with h1; exact h1.symm

private lemma prob_below (l : BinLink) {x : ℝ} (h : x ≤ -clipBound l) : l.prob x = invLink l (-clipBound l) := by
  cases l
  · rcases lt_or_eq_of_le h with h | h
    · simp only [clipBound] at h
      simp only [BinLink.prob, invLink, clipBound, if_pos h]
    · subst h
      simp [BinLink.prob, invLink, clipBound]
  · simp only [clipBound] at h
    simp only [BinLink.prob, invLink, cloglogInv, clipBound, BinLink.clip5, max_eq_right h]
    norm_num

/-- **C72** fails below the clipping bound: for one success in one trial, at every linear predictor below `-B` the value
is locally constant but the returned gradient is not zero. -/
theorem C72_gradient_fails (l : BinLink) : ∃ L : BinLoss 1,
    BinLoss.init l (fun _ => 1) none 1 none (Quad.init none none none none) none = some L ∧
    ∃ F G, Evaluates (fun x m => (L.smoothObjective x m none).1) F G ∧
      ∀ x : Fin 1 → ℝ, x 0 < -clipBound l → ¬ IsGradientAt F (G x) x := by
  refine ⟨oneCase l 1, oneCase_init l (Or.inr rfl), _, _, one_eval l 1, fun x hx h => ?_⟩
  have hconst : (fun x : Fin 1 → ℝ => phiB l 1 1 (x 0)) =ᶠ[nhds x]
      fun _ => -Real.log (invLink l (-clipBound l)) := by
    have hc : ContinuousAt (fun y : Fin 1 → ℝ => y 0) x := (continuous_apply 0).continuousAt
    filter_upwards [hc.eventually (Iio_mem_nhds hx)] with y hy
    have hy' : y 0 < -clipBound l := hy
    simp [phiB, prob_below l hy'.le]
  have h0 : HasFDerivAt (fun x : Fin 1 → ℝ => phiB l 1 1 (x 0)) (0 : (Fin 1 → ℝ) →L[ℝ] ℝ) x :=
    (hasFDerivAt_const _ x).congr_of_eventuallyEq hconst
  have := HasFDerivAt.unique h h0
  have h1 := congrArg (fun T : (Fin 1 → ℝ) →L[ℝ] ℝ => T (fun _ => 1)) this
  simp only [Fin.sum_univ_one] at h1
  have h2 : psiB l 1 1 (x 0) = 0 := by simpa using h1
  have h3 : psiB l 1 1 (x 0) < 0 := by
    have hp : 0 < l.prob (x 0) := by rw [prob_below l hx.le]; exact inv_pos _ _
    simp only [psiB, sub_self, zero_div, sub_zero]
    have := mul_pos (pdf_pos l (x 0)) (div_pos one_pos hp)
    linarith
  exact absurd h2 h3.ne

/-! ### convexity -/

lemma nll_tangent (l : BinLink) {s m : ℝ} (hs : 0 ≤ s) (hm : s ≤ m) (x y : ℝ) :
    binomialNll (invLink l) s m x + -(l.pdf x * (s / invLink l x - (m - s) / (1 - invLink l x))) * (y - x) ≤
      binomialNll (invLink l) s m y := by
  have h1 : -Real.log (invLink l x) + -(l.pdf x / invLink l x) * (y - x) ≤ -Real.log (invLink l y) := by
    cases l
    · exact neg_log_ncdf_tangent x y
    · exact neg_log_cloglogInv_tangent x y
  have h2 : -Real.log (1 - invLink l x) + l.pdf x / (1 - invLink l x) * (y - x) ≤ -Real.log (1 - invLink l y) := by
    cases l
    · exact neg_log_one_sub_ncdf_tangent x y
    · exact neg_log_one_sub_cloglogInv_tangent x y
  have a1 := mul_le_mul_of_nonneg_left h1 hs
  have a2 := mul_le_mul_of_nonneg_left h2 (by linarith : 0 ≤ m - s)
  unfold binomialNll
  have e : -(l.pdf x * (s / invLink l x - (m - s) / (1 - invLink l x))) * (y - x) =
      s * (-(l.pdf x / invLink l x) * (y - x)) + (m - s) * (l.pdf x / (1 - invLink l x) * (y - x)) := by ring
  rw [e]
  linarith

private lemma effWeight_nonneg {own arg : Option (Fin n → ℝ)} (h1 : ∀ v, own = some v → ∀ i, 0 ≤ v i)
    (h2 : ∀ v, arg = some v → ∀ i, 0 ≤ v i) (i : Fin n) : 0 ≤ effWeight own arg i := by
  refine mul_nonneg ?_ ?_
  · cases arg with
    | none => exact zero_le_one
    | some a => exact h2 a rfl i
  · cases own with
    | none => exact zero_le_one
    | some a => exact h1 a rfl i

/-- **C72** For every loss the constructors accept and nonnegative weights, the textbook negative log-likelihood is convex,
so the value returned by 'func' is convex along every segment between points with linear predictors at most `B` in absolute
value.  Missing: convexity on all of space is false (`C72_convex_fails`). -/
theorem C72_convex_partial {l : BinLink} {s : Fin n → ℝ} {trials : Option (Fin n → ℝ)} {c : ℝ}
    {o : Option (Fin n → ℝ)} {q : Quad (Fin n) ℝ} {w : Option (Fin n → ℝ)} {L : BinLoss n}
    (h : BinLoss.init l s trials c o q w = some L) (arg : Option (Fin n → ℝ))
    (harg : ∀ v, arg = some v → ∀ i, 0 ≤ v i) :
    IsConvex (binTotal L arg) ∧
    ∃ F G, Evaluates (fun x m => (L.smoothObjective x m arg).1) F G ∧
      ∀ x y : Fin n → ℝ, (∀ i, |x i| ≤ clipBound l) → (∀ i, |y i| ≤ clipBound l) →
        ∀ a b : ℝ, 0 ≤ a → 0 ≤ b → a + b = 1 → F (fun i => a * x i + b * y i) ≤ a * F x + b * F y := by
  obtain ⟨t, ht, hc, hs, hw, rfl⟩ := bin_of_init h
  have hconv : IsConvex (binTotal (⟨l, s, t, c, o, Loss.devQuad c (.logistic s t) q, w⟩ : BinLoss n) arg) := by
    intro x y a b ha hb hab
    refine convex_totalLoss hc (fun i => effWeight_nonneg hw harg i) hab fun i => ?_
    exact convex_of_tangent (nll_tangent l (hs i).1 (hs i).2) _ _ a b ha hb hab
  refine ⟨hconv, ?_⟩
  obtain ⟨F, G, hE, hF, -⟩ := C72_gradient_partial (⟨l, s, t, c, o, Loss.devQuad c (.logistic s t) q, w⟩ : BinLoss n) arg
  refine ⟨F, G, hE, fun x y hx hy a b ha hb hab => ?_⟩
  have hz : ∀ i, |a * x i + b * y i| ≤ clipBound l := fun i => by
    have h1 := abs_le.mp (hx i)
    have h2 := abs_le.mp (hy i)
    rw [abs_le]
    have hb' : b = 1 - a := by linarith
    constructor <;> nlinarith
  rw [(hF _ hz).1, (hF x hx).1, (hF y hy).1]
  exact hconv x y a b ha hb hab

/-- **C72** convexity fails on all of space: for one success in one trial the value is flat below `-B` and strictly
decreasing above. -/
theorem C72_convex_fails (l : BinLink) : ∃ L : BinLoss 1,
    BinLoss.init l (fun _ => 1) none 1 none (Quad.init none none none none) none = some L ∧
    ∃ F G, Evaluates (fun x m => (L.smoothObjective x m none).1) F G ∧ ¬ IsConvex F := by
  refine ⟨oneCase l 1, oneCase_init l (Or.inr rfl), _, _, one_eval l 1, fun h => ?_⟩
  have hB := clipBound_pos l
  have h1 := h (fun _ => -2 * clipBound l) (fun _ => 0) (1 / 2) (1 / 2) (by norm_num) (by norm_num) (by norm_num)
  simp only [phiB, sub_self, zero_mul, add_zero, one_mul] at h1
  rw [show (1:ℝ) / 2 * (-2 * clipBound l) + 1 / 2 * 0 = -clipBound l by ring, prob_below l (le_refl _),
    prob_below l (by linarith : -2 * clipBound l ≤ -clipBound l), prob_eq l (x := 0) (by simpa using hB.le)] at h1
  have h2 := Real.log_lt_log (inv_pos l (-clipBound l)) (inv_strictMono l (by linarith : -clipBound l < 0))
  linarith

/-! ### offset -/

/-- **C72** fails with an offset: the answers of both classes do not depend on the offset at all, so with offset 1, one
success in one trial, the value at 0 is not the negative log-likelihood at `0 - 1`. -/
theorem C72_offset_fails (l : BinLink) :
    (∀ (L : BinLoss n) (o : Option (Fin n → ℝ)) (x : Fin n → ℝ) (m : Mode) (arg : Option (Fin n → ℝ)),
      ({ L with offset := o } : BinLoss n).smoothObjective x m arg = L.smoothObjective x m arg) ∧
    ∃ L : BinLoss 1,
      BinLoss.init l (fun _ => 1) none 1 (some fun _ => 1) (Quad.init none none none none) none = some L ∧
      ∃ F G, Evaluates (fun x m => (L.smoothObjective x m none).1) F G ∧
        F (fun _ => 0) ≠ binomialNll (invLink l) 1 1 (0 - 1) := by
  refine ⟨fun L o x m arg => rfl, ?_⟩
  refine ⟨{ oneCase l 1 with offset := some fun _ => 1 }, ?_, _, _, one_eval l 1, fun h => ?_⟩
  · exact bin_init l (t := fun _ => 1) zero_le_one (by unfold Loss.resolveTrials; rw [if_pos fun _ => Or.inr rfl])
      (fun h => absurd rfl h) _ _ (by intro v hv; cases hv)
  · have hB := clipBound_pos l
    rw [phiB_eq l 1 1 (by simpa using hB.le)] at h
    simp only [binomialNll, sub_self, zero_mul, add_zero, one_mul] at h
    have h2 := Real.log_lt_log (inv_pos l (0 - 1)) (inv_strictMono l (by norm_num : (0:ℝ) - 1 < 0))
    linarith

/-! ### mean function and Hessian -/

/-- **C72** mean_function returns probabilities strictly between 0 and 1, is nondecreasing everywhere, and is the inverse
link on `[-B, B]`, for probit everywhere. -/
theorem C72_mean (l : BinLink) :
    (∀ x, 0 < l.mean x ∧ l.mean x < 1) ∧ Monotone l.mean ∧ (∀ x, |x| ≤ clipBound l → l.mean x = invLink l x) ∧
      ∀ x, BinLink.probit.mean x = ncdf x := by
  refine ⟨fun x => ?_, ?_, fun x hx => mean_eq l hx, fun x => rfl⟩
  · cases l
    · exact ⟨ncdf_pos x, ncdf_lt_one x⟩
    · exact ⟨cloglogInv_pos (BinLink.clip5 x), cloglogInv_lt_one (BinLink.clip5 x)⟩
  · cases l
    · exact ncdf_strictMono.monotone
    · intro x y h
      exact cloglogInv_strictMono.monotone (min_le_min_right 5 (max_le_max_right (-5) h))

private lemma jac_of (c : ℝ) (w : Fin n → ℝ) (ps : Fin n → ℝ → ℝ) (d x : Fin n → ℝ)
    (h : ∀ i, HasDerivAt (ps i) (d i) (x i)) :
    IsJacobianAt (fun x i => c * (w i * ps i (x i))) (diagMat fun i => c * (w i * d i)) x := by
  intro i
  have h1 := grad_totalLoss c (fun j => if i = j then w i else 0) (fun _ => 0) ps d x (by simpa using h)
  refine grad_congr h1 ?_ ?_
  · funext y; simp [totalLoss]
  · funext j
    by_cases hij : i = j
    · subst hij; simp [diagMat]
    · simp [diagMat, hij]

private lemma psiB_jac (l : BinLink) (m : ℝ) {x : ℝ} (h : |x| < clipBound l) :
    HasDerivAt (psiB l (m * invLink l x) m) (l.pdf x ^ 2 * m / (invLink l x * (1 - invLink l x))) x := by
  obtain ⟨d, hd⟩ := pdf_deriv l x
  have h1 := (inv_deriv l x)
  have p1 := inv_pos l x
  have p2 := inv_c_pos l x
  set s := m * invLink l x with hs
  have ha : HasDerivAt (fun t => s / invLink l t) (-(s * l.pdf x) / invLink l x ^ 2) x := by
    refine ((hasDerivAt_const x s).div h1 p1.ne').congr_deriv ?_
    ring
  have hb : HasDerivAt (fun t => (m - s) / (1 - invLink l t)) ((m - s) * l.pdf x / (1 - invLink l x) ^ 2) x := by
    refine ((hasDerivAt_const x (m - s)).div (h1.const_sub 1) p2.ne').congr_deriv ?_
    ring
  have hc := (hd.mul (ha.sub hb)).neg
  have he : psiB l s m =ᶠ[nhds x] fun t => -(l.pdf t * (s / invLink l t - (m - s) / (1 - invLink l t))) := by
    rw [abs_lt] at h
    filter_upwards [Ioo_mem_nhds h.1 h.2] with t ht
    exact psiB_eq l s m (abs_le.mpr ⟨ht.1.le, ht.2.le⟩)
  refine (hc.congr_deriv ?_).congr_of_eventuallyEq he
  have e1 : s / invLink l x = m := by rw [hs, mul_div_assoc, div_self p1.ne', mul_one]
  have e2 : m - s = m * (1 - invLink l x) := by rw [hs]; ring
  have e3 : (m - s) / (1 - invLink l x) = m := by rw [e2, mul_div_assoc, div_self p2.ne', mul_one]
  simp only [Pi.sub_apply]
  rw [e1, e3, e2, hs]
  field_simp
  ring

/-- **C72** The vector returned by `hessian` at `x`, all linear predictors strictly inside `(-B, B)`, is the diagonal of the
*expected* Hessian: the derivative of the gradient when every number of successes is replaced by its mean
`mᵢ π(xᵢ)` at `x`.  It is nonnegative for weights, coefficient and trials that are.  Missing: it is not the Hessian of the
loss itself (`C72_hessian_fails`). -/
theorem C72_hessian_partial (L : BinLoss n) (arg : Option (Fin n → ℝ)) (x : Fin n → ℝ)
    (hx : ∀ i, |x i| < clipBound L.link) :
    (∃ F G, Evaluates (fun y m => (({ L with successes := fun i => L.trials i * invLink L.link (x i) } : BinLoss n).smoothObjective
        y m arg).1) F G ∧ IsJacobianAt G (diagMat (L.hessian x arg).1) x) ∧
    (0 ≤ L.coef → (∀ i, 0 ≤ L.trials i) → (∀ i, 0 ≤ effWeight L.caseWeights arg i) → ∀ i, 0 ≤ (L.hessian x arg).1 i) := by
  have e : (L.hessian x arg).1 = fun i => L.coef * (effWeight L.caseWeights arg i *
      (L.link.pdf (x i) ^ 2 * L.trials i / (invLink L.link (x i) * (1 - invLink L.link (x i))))) := by
    funext i
    simp only [BinLoss.hessian, scaleV_eq, cw_eq, mean_eq L.link (hx i).le]
    ring
  constructor
  · refine ⟨_, _, evaluates_bin _ arg, ?_⟩
    rw [e]
    exact jac_of _ _ _ _ x fun i => psiB_jac L.link (L.trials i) (hx i)
  · intro hc ht hw i
    rw [e]
    have := mul_pos (inv_pos L.link (x i)) (inv_c_pos L.link (x i))
    exact mul_nonneg hc (mul_nonneg (hw i) (div_nonneg (mul_nonneg (sq_nonneg _) (ht i)) this.le))

private lemma jac_unique {g : (Fin n → ℝ) → Fin n → ℝ} {h h' : Fin n → ℝ} {x : Fin n → ℝ}
    (h1 : IsJacobianAt g (diagMat h) x) (h2 : IsJacobianAt g (diagMat h') x) : h = h' := by
  funext i
  have := HasFDerivAt.unique (h1 i) (h2 i)
  have := congrArg (fun L : (Fin n → ℝ) →L[ℝ] ℝ => L (Pi.single i 1)) this
  simpa [diagMat, Pi.single_apply] using this

/-- **C72** `hessian` is not the Hessian of the loss: for cloglog with no success in one trial the loss is `exp x`, whose
second derivative at 0 is 1, but `hessian` returns `1 / (e - 1)`. -/
theorem C72_hessian_fails : ∃ L : BinLoss 1,
    BinLoss.init .cloglog (fun _ => 0) none 1 none (Quad.init none none none none) none = some L ∧
    ∃ F G, Evaluates (fun x m => (L.smoothObjective x m none).1) F G ∧
      ¬ IsJacobianAt G (diagMat (L.hessian (fun _ => 0) none).1) (fun _ => 0) := by
  refine ⟨oneCase .cloglog 0, oneCase_init .cloglog (Or.inl rfl), _, _, one_eval .cloglog 0, fun h => ?_⟩
  have hd : HasDerivAt (psiB .cloglog 0 1) 1 0 := by
    have he : psiB .cloglog 0 1 =ᶠ[nhds 0] Real.exp := by
      filter_upwards [Ioo_mem_nhds (by norm_num : (-5:ℝ) < 0) (by norm_num : (0:ℝ) < 5)] with t ht
      rw [psiB_eq .cloglog 0 1 (abs_le.mpr ⟨ht.1.le, ht.2.le⟩)]
      simp only [BinLink.pdf, invLink, zero_div, zero_sub, sub_zero]
      rw [mul_neg, neg_neg, mul_one_div, cloglog_ratio_c]
    have := (Real.hasDerivAt_exp 0).congr_of_eventuallyEq he
    rwa [Real.exp_zero] at this
  have h2 := jac_of (n := 1) 1 (fun _ => 1) (fun _ => psiB .cloglog 0 1) (fun _ => 1) (fun _ => 0) fun _ => hd
  have e : (fun (x : Fin 1 → ℝ) (i : Fin 1) => (1:ℝ) * (1 * psiB .cloglog 0 1 (x i))) =
      fun x _ => psiB .cloglog 0 1 (x 0) := by
    funext x i; fin_cases i; simp
  rw [e] at h2
  have h3 := congrFun (jac_unique h h2) 0
  simp only [oneCase, BinLoss.hessian, Smooth.scaleV, Loss.cw, BinLink.pdf, BinLink.mean, BinLink.clip5, ne_eq,
    not_true_eq_false, if_false, mul_one] at h3
  rw [show min (max (0:ℝ) (-5)) 5 = 0 by norm_num, Real.exp_zero] at h3
  have hE : 0 < Real.exp (-1) := Real.exp_pos _
  have hE1 : Real.exp (-1) < 1 := Real.exp_lt_one_iff.mpr (by norm_num)
  rw [show (0:ℝ) - 1 = -1 by ring, div_eq_one_iff_eq (by
    refine mul_ne_zero (by linarith) ?_
    rw [sub_sub_cancel]; exact hE.ne')] at h3
  -- e^{-2} = (1 - e^{-1}) e^{-1} forces e = 2
  have h4 : Real.exp (-1) = 1 / 2 := by
    have : Real.exp (-1) * (2 * Real.exp (-1) - 1) = 0 := by nlinarith
    rcases mul_eq_zero.mp this with h | h
    · exact absurd h hE.ne'
    · linarith
  have h5 : Real.exp 1 = 2 := by
    have := Real.exp_neg 1
    rw [h4] at this
    have h6 := Real.exp_pos 1
    field_simp at this
    linarith
  have := Real.add_one_lt_exp (one_ne_zero (α := ℝ))
  linarith

/-! ### copy and subsample -/

/-- **C72** Copying a constructed loss succeeds and the copy answers every evaluation and `hessian` call alike;
`subsample(idx)` gives a loss whose answers are those of the original with the weights of the cases outside `idx` set to
zero. -/
theorem C72_copy_subsample {l : BinLink} {s : Fin n → ℝ} {trials : Option (Fin n → ℝ)} {c : ℝ}
    {o : Option (Fin n → ℝ)} {q : Quad (Fin n) ℝ} {w : Option (Fin n → ℝ)} {L : BinLoss n}
    (h : BinLoss.init l s trials c o q w = some L) (idx : Finset (Fin n)) :
    (∃ C, L.copy = some C ∧ ∀ x m arg, C.smoothObjective x m arg = L.smoothObjective x m arg ∧
      C.hessian x arg = L.hessian x arg) ∧
    ∃ S, L.subsample idx = some S ∧ ∀ x m,
      (S.smoothObjective x m none).1 = (L.smoothObjective x m (some fun i => if i ∈ idx then 1 else 0)).1 ∧
      (S.hessian x none).1 = (L.hessian x (some fun i => if i ∈ idx then 1 else 0)).1 := by
  classical
  obtain ⟨t, ht, hc, hs, hw, rfl⟩ := bin_of_init h
  have hC := bin_init l (trials := some t) (s := s) hc rfl (fun _ => hs) o (Loss.devQuad c (.logistic s t) q) hw
  have hC' : (⟨l, s, t, c, o, Loss.devQuad c (.logistic s t) q, w⟩ : BinLoss n).copy = _ := hC
  refine ⟨⟨_, hC, fun x m arg => ⟨rfl, rfl⟩⟩, ?_⟩
  refine ⟨⟨l, s, t, c, o, Loss.devQuad c (.logistic s t) (Loss.devQuad c (.logistic s t) q),
    some fun i => (w.getD fun _ => 1) i * if i ∈ idx then 1 else 0⟩, ?_, fun x m => ?_⟩
  · simp only [BinLoss.subsample, hC']
    cases w <;> simp
  · have e : Loss.cw (some fun i => (w.getD fun _ => 1) i * if i ∈ idx then (1:ℝ) else 0) none =
        Loss.cw w (some fun i => if i ∈ idx then 1 else 0) := by
      funext i
      cases w <;> simp [Loss.cw]
    constructor
    · cases m <;> simp only [BinLoss.smoothObjective, e] <;> rfl
    · simp only [BinLoss.hessian, e]

/-- **C72** Every evaluation multiplies the caller's weights in place: afterwards the caller's array holds the product of
its old content with the weights of the loss, and is unchanged if the loss has none. -/
theorem C72_caller_weights (L : BinLoss n) (x : Fin n → ℝ) (m : Mode) (a : Fin n → ℝ) :
    (L.smoothObjective x m (some a)).2 = some (effWeight L.caseWeights (some a)) ∧
    (L.hessian x (some a)).2 = some (effWeight L.caseWeights (some a)) ∧
    (L.caseWeights = none → (L.smoothObjective x m (some a)).2 = some a ∧ (L.hessian x (some a)).2 = some a) := by
  refine ⟨?_, ?_, fun h => ?_⟩
  · cases m <;> simp [BinLoss.smoothObjective, Loss.argAfter, cw_eq]
  · simp [BinLoss.hessian, Loss.argAfter, cw_eq]
  · constructor
    · cases m <;> simp [BinLoss.smoothObjective, Loss.argAfter, h, Loss.cw]
    · simp [BinLoss.hessian, Loss.argAfter, h, Loss.cw]

end Verif.Props
