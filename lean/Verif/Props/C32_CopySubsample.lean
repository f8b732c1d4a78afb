import Verif.Lemmas.Losses
import Verif.Lemmas.Quad
import Verif.Model.LossHeap
import Mathlib.Tactic.FinCases

/-!
# C32: copy preserves the objective, subsample restricts it, the original is unchanged
(Cox and multinomial: `C32_cox_...`, `C32_multinomial_...` in their own files.)
-/

set_option linter.unusedSectionVars false
set_option linter.unusedVariables false

namespace Verif.Props
open Verif.Model Verif.Spec Verif.Lemmas

variable {n p : ℕ}

/-- the classes whose copy passes the case weights on -/
def keepsWeights : LossData n → Prop
  | .huber _ _ => False
  | .huberSvm _ _ => False
  | _ => True

/-- A loss some sequence of constructor, copy and subsample calls produces. -/
inductive ReachableLoss {n : ℕ} : Loss n → Prop
  | init {d coef o q w L} : Loss.init d coef o q w = some L → ReachableLoss L
  | copy {L C} : ReachableLoss L → L.copy = some C → ReachableLoss C
  | subsample {L C idx} : ReachableLoss L → L.subsample idx = some C → ReachableLoss C

lemma cw_effWeight (own arg : Option (Fin n → ℝ)) : Loss.cw own arg = effWeight own arg := by
  funext i; cases own <;> cases arg <;> simp [Loss.cw, effWeight]

lemma offV_effOffset (o : Option (Fin n → ℝ)) : offV o = effOffset o := by
  funext i; cases o <;> simp [offV, effOffset]

private lemma eval_congr {ev : Objective n} {f f' : (Fin n → ℝ) → ℝ} {g g' : (Fin n → ℝ) → Fin n → ℝ}
    (h : Evaluates ev f g) (hf : f = f') (hg : g = g') : Evaluates ev f' g' := by subst hf; subst hg; exact h

private lemma sum_indicator (s : Finset (Fin n)) (f g : Fin n → ℝ) (h1 : ∀ i ∈ s, f i = g i) (h2 : ∀ i, i ∉ s → f i = 0) :
    ∑ i, f i = ∑ i ∈ s, g i := by
  rw [← Finset.sum_subset (Finset.subset_univ s) fun i _ hi => h2 i hi]
  exact Finset.sum_congr rfl h1

def ValidLoss (L : Loss n) : Prop :=
  0 ≤ L.coef ∧ ¬ Loss.dataError L.data ∧ ∀ w, L.caseWeights = some w → ∀ i, 0 ≤ w i

/-- the weights a copy carries -/
def copyWeights (L : Loss n) : Option (Fin n → ℝ) :=
  match L.data with
  | .huber _ _ => none
  | .huberSvm _ _ => none
  | _ => L.caseWeights

lemma copyWeights_keep {L : Loss n} (h : keepsWeights L.data ∨ L.caseWeights = none) : copyWeights L = L.caseWeights := by
  unfold copyWeights
  cases hd : L.data <;> simp [hd, keepsWeights] at h ⊢ <;> exact h.symm

lemma loss_copy_eq {L : Loss n} (hv : ValidLoss L) :
    L.copy = some ⟨L.data, L.coef, L.offset, Loss.devQuad L.coef L.data L.quad, copyWeights L⟩ := by
  obtain ⟨hc, hd, hw⟩ := hv
  unfold Loss.copy copyWeights
  cases hD : L.data <;> rw [hD] at hd <;> dsimp only <;> refine loss_init _ hc hd _ _ _ ?_ <;>
    first | exact hw | (intro w' h; cases h)

lemma loss_sub_eq {L : Loss n} (hv : ValidLoss L) (idx : Finset (Fin n)) :
    ∃ w, L.subsample idx = some ⟨L.data, L.coef, L.offset, Loss.devQuad L.coef L.data L.quad, some w⟩ ∧
      ∀ i, w i = ((copyWeights L).elim 1 fun w => w i) * if i ∈ idx then 1 else 0 := by
  unfold Loss.subsample
  rw [loss_copy_eq hv]
  dsimp only
  cases h : copyWeights L with
  | none => exact ⟨_, rfl, fun i => rfl⟩
  | some w => exact ⟨_, rfl, fun i => rfl⟩

lemma validLoss_of {L : Loss n} (h : ReachableLoss L) : ValidLoss L := by
  induction h with
  | init h =>
    obtain ⟨h1, h2, h3, h4⟩ := loss_of_init h
    subst h4; exact ⟨h1, h2, h3⟩
  | @copy L C hL hC ih =>
    rw [loss_copy_eq ih] at hC
    injection hC with hC
    subst hC
    refine ⟨ih.1, ih.2.1, ?_⟩
    intro w hw
    apply ih.2.2 w
    unfold copyWeights at hw
    cases hd : L.data <;> simp [hd] at hw <;> exact hw
  | @subsample L C idx hL hC ih =>
    obtain ⟨w, h1, h2⟩ := loss_sub_eq ih idx
    rw [h1] at hC
    injection hC with hC
    subst hC
    refine ⟨ih.1, ih.2.1, ?_⟩
    intro w' hw
    injection hw with hw
    subst hw
    intro i
    rw [h2]
    have h3 : 0 ≤ ((copyWeights L).elim 1 fun w => w i) := by
      cases hc : copyWeights L with
      | none => simp
      | some v =>
        simp only [Option.elim]
        apply ih.2.2 v
        unfold copyWeights at hc
        cases hd : L.data <;> simp [hd] at hc <;> exact hc
    split_ifs <;> simp [h3]

private lemma smooth_ext {L L' : Loss n} (h1 : L'.data = L.data) (h2 : L'.coef = L.coef) (h3 : L'.offset = L.offset)
    (h4 : L'.caseWeights = L.caseWeights) : L'.smoothObjective = L.smoothObjective ∧ L'.hessian = L.hessian := by
  obtain ⟨d, c, o, q, w⟩ := L
  obtain ⟨d', c', o', q', w'⟩ := L'
  dsimp only at h1 h2 h3 h4
  subst h1; subst h2; subst h3; subst h4
  exact ⟨rfl, rfl⟩

/-- **C32** `copy(loss)` never raises for gaussian, poisson and logistic losses, and evaluates like the loss at every
point, in every mode, with every `case_weights` argument, and so does its Hessian. -/
theorem C32_copy_smooth (L : Loss n) (hL : ReachableLoss L)
    (hd : (∃ y, L.data = .gaussian y) ∨ (∃ c, L.data = .poisson c) ∨ ∃ s t, L.data = .logistic s t) :
    ∃ C, L.copy = some C ∧ (∀ x m arg, C.smoothObjective x m arg = L.smoothObjective x m arg) ∧
      ∀ x arg, C.hessian x arg = L.hessian x arg := by
  refine ⟨_, loss_copy_eq (validLoss_of hL), ?_⟩
  have hk : keepsWeights L.data := by rcases hd with ⟨_, h⟩ | ⟨_, h⟩ | ⟨_, _, h⟩ <;> rw [h] <;> trivial
  obtain ⟨h1, h2⟩ := smooth_ext (L := L) (L' := ⟨L.data, L.coef, L.offset, Loss.devQuad L.coef L.data L.quad, copyWeights L⟩)
    rfl rfl rfl (copyWeights_keep (Or.inl hk))
  rw [h1, h2]
  exact ⟨fun _ _ _ => rfl, fun _ _ => rfl⟩

/-- **C32** the same for all five losses when the loss has no case weights.  Missing: huber_loss and huber_svm with case
weights, which their `__copy__` drops (`C32_huber_copy_fails`). -/
theorem C32_copy_smooth_partial (L : Loss n) (hL : ReachableLoss L) (hw : L.caseWeights = none) :
    ∃ C, L.copy = some C ∧ (∀ x m arg, C.smoothObjective x m arg = L.smoothObjective x m arg) ∧
      ∀ x arg, C.hessian x arg = L.hessian x arg := by
  refine ⟨_, loss_copy_eq (validLoss_of hL), ?_⟩
  obtain ⟨h1, h2⟩ := smooth_ext (L := L) (L' := ⟨L.data, L.coef, L.offset, Loss.devQuad L.coef L.data L.quad, copyWeights L⟩)
    rfl rfl rfl (copyWeights_keep (Or.inr hw))
  rw [h1, h2]
  exact ⟨fun _ _ _ => rfl, fun _ _ => rfl⟩

/-- the hypotheses are met by a weighted poisson loss -/
example : ∃ L : Loss 2, ReachableLoss L ∧ (∃ c, L.data = .poisson c) ∧ L.caseWeights = some ![1, 2] := by
  refine ⟨_, .init (loss_init (.poisson ![2, 0]) (c := 1) (by norm_num) ?_ none (Quad.init none none none none)
    (some ![1, 2]) ?_), ⟨_, rfl⟩, rfl⟩
  · simp only [Loss.dataError, not_or, not_exists, not_not, not_lt]
    constructor <;> intro i <;> fin_cases i <;> simp
    positivity
  · intro w' h; injection h with h; subst h; intro i; fin_cases i <;> simp

/-- **C32** fails for huber_loss and huber_svm: the copy of a loss with case weight 2 has half its value. -/
theorem C32_huber_copy_fails :
    (∃ (L C : Loss 1), ReachableLoss L ∧ (∃ y eps, L.data = .huber y eps) ∧ L.copy = some C ∧
      (C.smoothObjective (fun _ => 1) .func none).1 ≠ (L.smoothObjective (fun _ => 1) .func none).1) ∧
    (∃ (L C : Loss 1), ReachableLoss L ∧ (∃ s eps, L.data = .huberSvm s eps) ∧ L.copy = some C ∧
      (C.smoothObjective (fun _ => -1) .func none).1 ≠ (L.smoothObjective (fun _ => -1) .func none).1) := by
  have hw : ∀ w' : Fin 1 → ℝ, some (fun _ : Fin 1 => (2:ℝ)) = some w' → ∀ i, 0 ≤ w' i := by
    intro w' h; injection h with h; subst h; intro i; norm_num
  constructor
  · have h := loss_init (.huber (fun _ : Fin 1 => (0:ℝ)) 1) (c := 1) (by norm_num) (by simp [Loss.dataError]) none
      (Quad.init none none none none) (some fun _ => 2) hw
    have hR := ReachableLoss.init h
    refine ⟨_, _, hR, ⟨_, _, rfl⟩, loss_copy_eq (validLoss_of hR), ?_⟩
    simp [Loss.smoothObjective, copyWeights, Loss.cw, scaleR_eq, Smooth.applyOffset, Loss.huberPair, Loss.npSign]
    norm_num
  · have h := loss_init (.huberSvm (fun _ : Fin 1 => (1:ℝ)) 1) (c := 1) (by norm_num) (by simp [Loss.dataError]) none
      (Quad.init none none none none) (some fun _ => 2) hw
    have hR := ReachableLoss.init h
    refine ⟨_, _, hR, ⟨_, _, rfl⟩, loss_copy_eq (validLoss_of hR), ?_⟩
    simp [Loss.smoothObjective, copyWeights, Loss.cw, scaleR_eq, Smooth.applyOffset, Loss.huberSvmPair]
    norm_num

/-- **C32** the full `objective` (value plus the quadratic) of a copy is the loss' own for gaussian losses.  Missing:
poisson and logistic, whose constructor adds the deviance constant again (`C32_copy_objective_fails`). -/
theorem C32_copy_objective_partial (L : Loss n) (hL : ReachableLoss L) (hd : ∃ y, L.data = .gaussian y) :
    ∃ C, L.copy = some C ∧ ∀ x, C.objective x = L.objective x := by
  obtain ⟨y, hd⟩ := hd
  refine ⟨_, loss_copy_eq (validLoss_of hL), fun x => ?_⟩
  obtain ⟨h1, h2⟩ := smooth_ext (L := L) (L' := ⟨L.data, L.coef, L.offset, Loss.devQuad L.coef L.data L.quad, copyWeights L⟩)
    rfl rfl rfl (copyWeights_keep (Or.inl (by rw [hd]; trivial)))
  unfold Loss.objective
  rw [h1]
  simp [Loss.devQuad, hd, Loss.devConst]

private lemma quad_center {L : Loss n} (h : ReachableLoss L) {k : ℝ} (hk : Loss.devConst L.coef L.data = some k) :
    L.quad.center = some (.scalar 0) := by
  induction h with
  | init h =>
    obtain ⟨_, _, _, h4⟩ := loss_of_init h
    subst h4
    simp only at hk
    simp only [Loss.devQuad, hk]; rfl
  | @copy L C hL hC ih =>
    rw [loss_copy_eq (validLoss_of hL)] at hC
    injection hC with hC
    subst hC
    simp only at hk
    simp only [Loss.devQuad, hk]; rfl
  | @subsample L C idx hL hC ih =>
    obtain ⟨w, h1, h2⟩ := loss_sub_eq (validLoss_of hL) idx
    rw [h1] at hC
    injection hC with hC
    subst hC
    simp only at hk
    simp only [Loss.devQuad, hk]; rfl

/-- **C32** what a copy of a poisson or logistic loss does to the full `objective`: it is shifted at every point by the
same deviance constant, so it is preserved exactly when that constant is zero, and differences of objective values (hence
minimisers) are always preserved.  Missing: equality itself (`C32_copy_objective_fails`). -/
theorem C32_copy_objective_shift_partial (L : Loss n) (hL : ReachableLoss L)
    (hd : (∃ c, L.data = .poisson c) ∨ ∃ s t, L.data = .logistic s t) :
    ∃ C k, L.copy = some C ∧ Loss.devConst L.coef L.data = some k ∧
      ∀ x, C.objective x = (L.objective x).map (· + k) := by
  obtain ⟨k, hk⟩ : ∃ k, Loss.devConst L.coef L.data = some k := by
    rcases hd with ⟨_, h⟩ | ⟨_, _, h⟩ <;> rw [h] <;> exact ⟨_, rfl⟩
  have hkeep : keepsWeights L.data := by rcases hd with ⟨_, h⟩ | ⟨_, _, h⟩ <;> rw [h] <;> trivial
  refine ⟨_, k, loss_copy_eq (validLoss_of hL), hk, fun x => ?_⟩
  obtain ⟨h1, h2⟩ := smooth_ext (L := L) (L' := ⟨L.data, L.coef, L.offset, Loss.devQuad L.coef L.data L.quad, copyWeights L⟩)
    rfl rfl rfl (copyWeights_keep (Or.inl hkeep))
  have hq : (Loss.devQuad L.coef L.data L.quad).funcVal x = L.quad.funcVal x + k := by
    simp only [Loss.devQuad, hk, add_funcVal, collapsed_funcVal]
    have e1 : centerDefect L.quad = 0 := by
      unfold centerDefect; rw [quad_center hL hk]; simp
    have e2 : (Quad.init (some 0) (some (.scalar 0)) (some (.scalar 0)) (some k) : Quad (Fin n) ℝ).funcVal x = k := by
      rw [funcVal_eq]; simp [Quad.init, linearAt]
    rw [e1, e2]
    simp [Quad.init]
  unfold Loss.objective
  rw [h1]
  cases h : (L.smoothObjective x .func none).1 <;> simp [hq]
  ring

/-- **C32** fails for the full `objective` of poisson and logistic losses: each copy adds the deviance constant once
more (here `- log 2` for the count 2, and `- 2 log 2` for one success out of two). -/
theorem C32_copy_objective_fails :
    (∃ (L C : Loss 1), ReachableLoss L ∧ (∃ c, L.data = .poisson c) ∧ L.copy = some C ∧
      C.objective (fun _ => 0) ≠ L.objective (fun _ => 0)) ∧
    (∃ (L C : Loss 1), ReachableLoss L ∧ (∃ s t, L.data = .logistic s t) ∧ L.copy = some C ∧
      C.objective (fun _ => 0) ≠ L.objective (fun _ => 0)) := by
  have hl : Real.log 2 ≠ 0 := (Real.log_pos (by norm_num)).ne'
  constructor
  · have h := loss_init (.poisson (fun _ : Fin 1 => (2:ℝ))) (c := 1) (by norm_num) (by
        simp [Loss.dataError]; positivity) none
      (Quad.init none none none none) none (by intro w h; cases h)
    have hR := ReachableLoss.init h
    obtain ⟨C, k, hC, hk, hs⟩ := C32_copy_objective_shift_partial _ hR (Or.inl ⟨_, rfl⟩)
    refine ⟨_, C, hR, ⟨_, rfl⟩, hC, ?_⟩
    have hk' : k = -Real.log 2 := by
      simp [Loss.devConst] at hk
      rw [← hk]; ring
    rw [hs, hk']
    simp only [Loss.objective, Loss.smoothObjective, Option.map_some]
    intro h
    injection h with h
    exact hl (by linarith)
  · have h := loss_init (.logistic (fun _ : Fin 1 => (1:ℝ)) (fun _ => 2)) (c := 1) (by norm_num) (by
        simp [Loss.dataError]) none
      (Quad.init none none none none) none (by intro w h; cases h)
    have hR := ReachableLoss.init h
    obtain ⟨C, k, hC, hk, hs⟩ := C32_copy_objective_shift_partial _ hR (Or.inr ⟨_, _, rfl⟩)
    refine ⟨_, C, hR, ⟨_, _, rfl⟩, hC, ?_⟩
    have hk' : k = -(2 * Real.log 2) := by
      have e1 : (1:ℝ) - 2⁻¹ = 2⁻¹ := by norm_num
      have e2 : (2:ℝ) - 1 = 1 := by norm_num
      simp [Loss.devConst, e1, e2] at hk
      rw [← hk]; ring
    rw [hs, hk']
    simp only [Loss.objective, Loss.smoothObjective, Option.map_some]
    intro h
    injection h with h
    exact hl (by linarith)

/-! ## subsample -/

/-- **C32** `loss.subsample(idx)` never raises and is the loss restricted to the selected cases, existing weights
kept: there are per-case losses `ℓᵢ` and derivatives `dᵢ` such that the loss evaluates to `coef ∑ᵢ wᵢ ℓᵢ(xᵢ - oᵢ)` and the
subsampled loss to the same sum over `i ∈ idx`, with gradient entries zero outside.  For gaussian, poisson and logistic
losses always, for the huber losses when there are no case weights.  Missing: the huber losses with case weights
(`C32_huber_copy_fails` shows the copy the method starts from has lost them). -/
theorem C32_subsample_partial (L : Loss n) (hL : ReachableLoss L)
    (hd : (∃ y, L.data = .gaussian y) ∨ (∃ c, L.data = .poisson c) ∨ (∃ s t, L.data = .logistic s t) ∨
      L.caseWeights = none) (idx : Finset (Fin n)) (arg : Option (Fin n → ℝ)) :
    ∃ (C : Loss n) (ell d : Fin n → ℝ → ℝ), L.subsample idx = some C ∧
      Evaluates (fun x m => (L.smoothObjective x m arg).1)
        (fun x => L.coef * ∑ i, effWeight L.caseWeights arg i * ell i (x i - effOffset L.offset i))
        (fun x i => L.coef * (effWeight L.caseWeights arg i * d i (x i - effOffset L.offset i))) ∧
      Evaluates (fun x m => (C.smoothObjective x m arg).1)
        (fun x => L.coef * ∑ i ∈ idx, effWeight L.caseWeights arg i * ell i (x i - effOffset L.offset i))
        (fun x i => if i ∈ idx then L.coef * (effWeight L.caseWeights arg i * d i (x i - effOffset L.offset i)) else 0) := by
  have hk : keepsWeights L.data ∨ L.caseWeights = none := by
    rcases hd with ⟨_, h⟩ | ⟨_, h⟩ | ⟨_, _, h⟩ | h
    · left; rw [h]; trivial
    · left; rw [h]; trivial
    · left; rw [h]; trivial
    · right; exact h
  obtain ⟨w, h1, h2⟩ := loss_sub_eq (validLoss_of hL) idx
  rw [copyWeights_keep hk] at h2
  refine ⟨_, phi L.data, psi L.data, h1, ?_, ?_⟩
  · have := evaluates_loss L arg
    rw [cw_effWeight, offV_effOffset] at this
    exact this
  · have h3 := evaluates_loss ⟨L.data, L.coef, L.offset, Loss.devQuad L.coef L.data L.quad, some w⟩ arg
    rw [cw_effWeight, offV_effOffset] at h3
    have hw : ∀ i, effWeight (some w) arg i = if i ∈ idx then effWeight L.caseWeights arg i else 0 := by
      intro i
      simp only [effWeight, Option.elim, h2]
      split_ifs <;> cases L.caseWeights <;> simp
    refine eval_congr h3 ?_ ?_
    · funext x
      simp only [totalLoss, hw]
      congr 1
      exact sum_indicator idx _ _ (fun i hi => by rw [if_pos hi]) fun i hi => by rw [if_neg hi, zero_mul]
    · funext x i
      simp only [hw]
      split_ifs <;> simp

/-- **C32** successive subsampling intersects the index sets: `loss.subsample(A).subsample(B)` evaluates like
`loss.subsample(A ∩ B)` everywhere. -/
theorem C32_subsample_twice (L : Loss n) (hL : ReachableLoss L)
    (hd : (∃ y, L.data = .gaussian y) ∨ (∃ c, L.data = .poisson c) ∨ ∃ s t, L.data = .logistic s t)
    (A B : Finset (Fin n)) :
    ∃ C1 C2 C3, L.subsample A = some C1 ∧ C1.subsample B = some C2 ∧ L.subsample (A ∩ B) = some C3 ∧
      (∀ x m arg, C2.smoothObjective x m arg = C3.smoothObjective x m arg) ∧ ∀ x arg, C2.hessian x arg = C3.hessian x arg := by
  have hk : keepsWeights L.data := by rcases hd with ⟨_, h⟩ | ⟨_, h⟩ | ⟨_, _, h⟩ <;> rw [h] <;> trivial
  obtain ⟨w, h1, h2⟩ := loss_sub_eq (validLoss_of hL) A
  obtain ⟨w2, h3, h4⟩ := loss_sub_eq (validLoss_of (.subsample hL h1)) B
  obtain ⟨w3, h5, h6⟩ := loss_sub_eq (validLoss_of hL) (A ∩ B)
  refine ⟨_, _, _, h1, h3, h5, ?_⟩
  rw [copyWeights_keep (Or.inl (by exact hk))] at h4
  have hw : w2 = w3 := by
    funext i
    rw [h4, h6]
    simp only [Option.elim, h2, Finset.mem_inter]
    by_cases ha : i ∈ A <;> by_cases hb : i ∈ B <;> simp [ha, hb]
  subst hw
  obtain ⟨e1, e2⟩ := smooth_ext (L' := ⟨L.data, L.coef, L.offset, Loss.devQuad L.coef L.data (Loss.devQuad L.coef L.data L.quad), some w2⟩)
    (L := ⟨L.data, L.coef, L.offset, Loss.devQuad L.coef L.data L.quad, some w2⟩) rfl rfl rfl rfl
  dsimp only
  rw [e1, e2]
  exact ⟨fun _ _ _ => rfl, fun _ _ => rfl⟩

/-! ## the original is unchanged -/

private lemma map_self {α β : Type} {f : α → β} {g : β → α} {a : Option α} (h : ∀ x, a = some x → g (f x) = x) :
    (a.map f).map g = a := by
  cases a with
  | none => rfl
  | some x => simp [h x rfl]

/-- The calls on heap objects compute what `copy` and `subsample` compute on values: a refinement. -/
theorem C32_heap_refines (o : LossObj n) (h : WHeap n) (idx : Finset (Fin n)) :
    ((o.copy h).map fun r => r.1.view r.2) = (o.view h).copy ∧
    ((o.subsample h idx).map fun r => r.1.view r.2) = (o.view h).subsample idx := by
  have hc : ((o.copy h).map fun r => r.1.view r.2) = (o.view h).copy := by
    obtain ⟨d, c, of, q, ref⟩ := o
    unfold LossObj.copy Loss.copy LossObj.view
    cases ref <;> cases d <;> simp only [LossObj.passesWeights, Option.map_none, Option.map_some, LossObj.alloc, if_true]
    all_goals
      refine map_self ?_
      intro L hL
      obtain ⟨_, _, _, h4⟩ := loss_of_init hL
      rw [h4]
      simp [LossObj.build]
  refine ⟨hc, ?_⟩
  unfold LossObj.subsample Loss.subsample
  rw [← hc]
  cases hcp : o.copy h with
  | none => rfl
  | some r =>
    obtain ⟨c, h1⟩ := r
    simp only [Option.map_some, LossObj.view]
    cases hr : c.ref with
    | none => simp [LossObj.alloc]
    | some r => simp

/-- addresses in use are below `next` -/
private def WF (s : LossObj.State n) : Prop := ∀ o ∈ s.objs, ∀ r, o.ref = some r → r < s.heap.next

private lemma copy_frame {o c : LossObj n} {h h' : WHeap n} (e : o.copy h = some (c, h')) :
    (∀ k < h.next, h'.cell k = h.cell k) ∧ h.next ≤ h'.next ∧ (∀ r, c.ref = some r → h.next ≤ r ∧ r < h'.next) := by
  unfold LossObj.copy at e
  cases hr : o.ref with
  | none =>
    rw [hr] at e
    simp only [Option.map_eq_some_iff] at e
    obtain ⟨L, _, e⟩ := e
    injection e with e1 e2
    subst e1; subst e2
    exact ⟨fun _ _ => rfl, le_refl _, by simp [LossObj.build]⟩
  | some r =>
    rw [hr] at e
    cases hp : LossObj.passesWeights o.data <;> rw [hp] at e
    · simp only [Option.map_eq_some_iff] at e
      obtain ⟨L, _, e⟩ := e
      injection e with e1 e2
      subst e1; subst e2
      exact ⟨fun _ _ => rfl, le_refl _, by simp [LossObj.build]⟩
    · simp only [LossObj.alloc, Option.map_eq_some_iff] at e
      obtain ⟨L, _, e⟩ := e
      injection e with e1 e2
      subst e1; subst e2
      refine ⟨fun k hk => if_neg hk.ne, Nat.le_succ _, ?_⟩
      intro r' h'
      simp [LossObj.build] at h'
      subst h'
      exact ⟨le_refl _, Nat.lt_succ_self _⟩

private lemma sub_frame {o c : LossObj n} {h h' : WHeap n} {idx : Finset (Fin n)} (e : o.subsample h idx = some (c, h')) :
    (∀ k < h.next, h'.cell k = h.cell k) ∧ h.next ≤ h'.next ∧ (∀ r, c.ref = some r → r < h'.next) := by
  unfold LossObj.subsample at e
  cases hc : o.copy h with
  | none => rw [hc] at e; cases e
  | some r =>
    obtain ⟨c1, h1⟩ := r
    obtain ⟨f1, f2, f3⟩ := copy_frame hc
    rw [hc] at e
    cases hr : c1.ref with
    | none =>
      simp only [hr, LossObj.alloc] at e
      injection e with e
      injection e with e1 e2
      subst e1; subst e2
      refine ⟨fun k hk => ?_, by simp; omega, ?_⟩
      · have : k ≠ h1.next := by omega
        simp only [if_neg this]
        exact f1 k hk
      · intro r h; simp at h; subst h; simp
    | some r =>
      simp only [hr] at e
      injection e with e
      injection e with e1 e2
      subst e1; subst e2
      obtain ⟨g1, g2⟩ := f3 r hr
      refine ⟨fun k hk => ?_, f2, ?_⟩
      · have : k ≠ r := by omega
        simp only [if_neg this]
        exact f1 k hk
      · intro r' h; simp at h; subst h; exact g2

private lemma view_frame {o : LossObj n} {h h' : WHeap n} (hf : ∀ k < h.next, h'.cell k = h.cell k)
    (hr : ∀ r, o.ref = some r → r < h.next) : o.view h' = o.view h := by
  unfold LossObj.view
  cases ho : o.ref with
  | none => rfl
  | some r => simp only [Option.map_some, hf r (hr r ho)]

private lemma step_ok {s : LossObj.State n} (hs : WF s) (op : LossObj.Op n) :
    WF (LossObj.step s op) ∧ ∀ (k : ℕ) (o : LossObj n), s.objs[k]? = some o →
      (LossObj.step s op).objs[k]? = some o ∧ o.view (LossObj.step s op).heap = o.view s.heap := by
  have same : WF s ∧ ∀ (k : ℕ) (o : LossObj n), s.objs[k]? = some o → s.objs[k]? = some o ∧ o.view s.heap = o.view s.heap :=
    ⟨hs, fun _ _ h => ⟨h, rfl⟩⟩
  have key : ∀ (c : LossObj n) (h : WHeap n), (∀ k < s.heap.next, h.cell k = s.heap.cell k) → s.heap.next ≤ h.next →
      (∀ r, c.ref = some r → r < h.next) → WF ⟨s.objs ++ [c], h⟩ ∧ ∀ (k : ℕ) (o : LossObj n), s.objs[k]? = some o →
      (s.objs ++ [c])[k]? = some o ∧ o.view h = o.view s.heap := by
    intro c h f1 f2 f3
    refine ⟨?_, ?_⟩
    · intro o ho r hr
      rcases List.mem_append.mp ho with ho | ho
      · exact lt_of_lt_of_le (hs o ho r hr) f2
      · rw [List.mem_singleton] at ho; subst ho; exact f3 r hr
    · intro k o ho
      have hlt : k < s.objs.length := (List.getElem?_eq_some_iff.mp ho).1
      refine ⟨by rw [List.getElem?_append_left hlt]; exact ho, view_frame f1 ?_⟩
      exact fun r hr => hs o (List.mem_of_getElem? ho) r hr
  have hst : LossObj.step s op = s ∨ ∃ (c : LossObj n) (h : WHeap n), LossObj.step s op = ⟨s.objs ++ [c], h⟩ ∧
      (∀ k < s.heap.next, h.cell k = s.heap.cell k) ∧ s.heap.next ≤ h.next ∧ (∀ r, c.ref = some r → r < h.next) := by
    cases op with
    | copy k =>
      cases hk : s.objs[k]? with
      | none => left; simp only [LossObj.step, hk]
      | some o =>
        cases hc : o.copy s.heap with
        | none => left; simp only [LossObj.step, hk, hc]
        | some r =>
          obtain ⟨c, h⟩ := r
          obtain ⟨f1, f2, f3⟩ := copy_frame hc
          exact Or.inr ⟨c, h, by simp only [LossObj.step, hk, hc], f1, f2, fun r hr => (f3 r hr).2⟩
    | subsample k idx =>
      cases hk : s.objs[k]? with
      | none => left; simp only [LossObj.step, hk]
      | some o =>
        cases hc : o.subsample s.heap idx with
        | none => left; simp only [LossObj.step, hk, hc]
        | some r =>
          obtain ⟨c, h⟩ := r
          obtain ⟨f1, f2, f3⟩ := sub_frame hc
          exact Or.inr ⟨c, h, by simp only [LossObj.step, hk, hc], f1, f2, f3⟩
  rcases hst with h | ⟨c, h, e, f1, f2, f3⟩
  · rw [h]; exact same
  · rw [e]; exact key c h f1 f2 f3

/-- **C32** the originals are unchanged: after any sequence of copy and subsample calls on any of the objects alive,
every object that existed before still is what it was, weights included, hence evaluates as before. -/
theorem C32_original_unchanged (s : LossObj.State n) (hs : ∀ o ∈ s.objs, ∀ r, o.ref = some r → r < s.heap.next)
    (ops : List (LossObj.Op n)) (k : ℕ) (o : LossObj n) (ho : s.objs[k]? = some o) :
    (LossObj.runOps s ops).objs[k]? = some o ∧ o.view (LossObj.runOps s ops).heap = o.view s.heap := by
  induction ops generalizing s with
  | nil => exact ⟨ho, rfl⟩
  | cons op ops ih =>
    obtain ⟨h1, h2⟩ := step_ok hs op
    obtain ⟨h3, h4⟩ := h2 k o ho
    obtain ⟨h5, h6⟩ := ih _ h1 h3
    exact ⟨h5, h6.trans h4⟩

/-- the hypothesis is met: two losses sharing one weight array -/
example : ∃ s : LossObj.State 1, s.objs.length = 2 ∧ ∀ o ∈ s.objs, ∀ r, o.ref = some r → r < s.heap.next :=
  ⟨⟨[⟨.gaussian fun _ => 0, 1, none, Quad.init none none none none, some 0⟩,
      ⟨.gaussian fun _ => 1, 1, none, Quad.init none none none none, some 0⟩], ⟨fun _ _ => 1, 1⟩⟩, rfl, by
    intro o ho r hr
    simp at ho
    rcases ho with rfl | rfl <;> simp at hr <;> subst hr <;> simp⟩

/-! ## glm -/

/-- A glm some sequence of a classmethod, copies and subsamples produces. -/
inductive ReachableGlm {p n : ℕ} : Glm p n → Prop
  | build {X d coef so o w G} : Glm.build X d coef so o w = some G → ReachableGlm G
  | copy {G C} : ReachableGlm G → G.copy = some C → ReachableGlm C
  | subsample {G C idx} : ReachableGlm G → G.subsample idx = some C → ReachableGlm C

private def GValid (G : Glm p n) : Prop := ValidLoss G.loss ∧ G.loss.caseWeights = none ∧ ∀ i, 0 ≤ G.caseWeights i

private lemma glm_copy_eq {G : Glm p n} (h : GValid G) :
    G.copy = some ⟨G.X, ⟨G.loss.data, G.loss.coef, G.loss.offset, Loss.devQuad G.loss.coef G.loss.data G.loss.quad, none⟩,
      G.offset, G.caseWeights⟩ := by
  obtain ⟨h1, h2, h3⟩ := h
  unfold Glm.copy
  rw [loss_copy_eq h1, copyWeights_keep (Or.inr h2), h2]
  simp only [Glm.init]
  rw [if_neg (not_not.mpr h3)]

private lemma gvalid_of {G : Glm p n} (h : ReachableGlm G) : GValid G := by
  induction h with
  | @build X d coef so o w G h =>
    unfold Glm.build at h
    cases hL : Loss.init d coef so (Quad.init none none none none) none with
    | none => rw [hL] at h; cases h
    | some L =>
      rw [hL] at h
      obtain ⟨h1, h2, h3, h4⟩ := loss_of_init hL
      have hG : (∀ i, 0 ≤ G.caseWeights i) ∧ G.loss = L := by
        cases w with
        | none =>
          simp only [Glm.init] at h
          rw [if_neg (by simp)] at h
          injection h with h
          subst h
          exact ⟨fun i => by simp, rfl⟩
        | some W =>
          by_cases hw : ∀ i, 0 ≤ W i
          · simp only [Glm.init, if_neg (not_not.mpr hw)] at h
            injection h with h
            subst h
            exact ⟨hw, rfl⟩
          · simp only [Glm.init, if_pos hw] at h
            cases h
      refine ⟨?_, ?_, hG.1⟩ <;> rw [hG.2, h4]
      exact ⟨h1, h2, h3⟩
  | @copy G C hG hC ih =>
    rw [glm_copy_eq ih] at hC
    injection hC with hC
    subst hC
    exact ⟨⟨ih.1.1, ih.1.2.1, by intro w h; cases h⟩, rfl, ih.2.2⟩
  | @subsample G C idx hG hC ih =>
    unfold Glm.subsample at hC
    rw [glm_copy_eq ih] at hC
    injection hC with hC
    subst hC
    refine ⟨⟨ih.1.1, ih.1.2.1, by intro w h; cases h⟩, rfl, ?_⟩
    intro i
    simp only
    split_ifs <;> simp [ih.2.2 i]

private lemma glm_ext {G G' : Glm p n} (h1 : G'.X = G.X) (h2 : G'.loss.smoothObjective = G.loss.smoothObjective)
    (h2' : G'.loss.hessian = G.loss.hessian)
    (h3 : G'.offset = G.offset) (h4 : G'.caseWeights = G.caseWeights) (β : Fin p → ℝ) (m : Mode) :
    (G'.smoothObjective β m).1 = (G.smoothObjective β m).1 ∧ (G'.hessian β).1 = (G.hessian β).1 := by
  unfold Glm.smoothObjective Glm.hessian
  simp only [h1, h2, h2', h3, h4]
  constructor
  · cases m <;> cases (G.loss.smoothObjective _ _ _).1 <;> rfl
  · cases (G.loss.hessian _ _).1 <;> rfl

/-- **C32** `copy` of a glm built by one of the classmethods (all five losses, any offsets and weights), or obtained
from such a glm by copies and subsamples, succeeds and evaluates like the glm everywhere. -/
theorem C32_glm_copy (G : Glm p n) (hG : ReachableGlm G) :
    ∃ C, G.copy = some C ∧ ∀ β m, (C.smoothObjective β m).1 = (G.smoothObjective β m).1 ∧ (C.hessian β).1 = (G.hessian β).1 := by
  refine ⟨_, glm_copy_eq (gvalid_of hG), fun β m => ?_⟩
  obtain ⟨e1, e2⟩ := smooth_ext (L := G.loss) (L' := ⟨G.loss.data, G.loss.coef, G.loss.offset,
    Loss.devQuad G.loss.coef G.loss.data G.loss.quad, none⟩) rfl rfl rfl (gvalid_of hG).2.1.symm
  exact glm_ext (G' := ⟨G.X, ⟨G.loss.data, G.loss.coef, G.loss.offset,
    Loss.devQuad G.loss.coef G.loss.data G.loss.quad, none⟩, G.offset, G.caseWeights⟩) (G := G) rfl e1 e2 rfl rfl β m

/-- **C32** `glm.subsample(idx)`: the loss restricted to the selected rows, existing case weights kept; the gradient is
the sum over the selected rows. -/
theorem C32_glm_subsample (G : Glm p n) (hG : ReachableGlm G) (idx : Finset (Fin n)) :
    ∃ (C : Glm p n) (ell d : Fin n → ℝ → ℝ), G.subsample idx = some C ∧
      Evaluates (fun β m => (G.smoothObjective β m).1)
        (fun β => G.loss.coef * ∑ i, G.caseWeights i *
          ell i (∑ j, G.X i j * (β j - effOffset G.offset j) - effOffset G.loss.offset i))
        (fun β j => ∑ i, G.X i j * (G.loss.coef * (G.caseWeights i *
          d i (∑ j, G.X i j * (β j - effOffset G.offset j) - effOffset G.loss.offset i)))) ∧
      Evaluates (fun β m => (C.smoothObjective β m).1)
        (fun β => G.loss.coef * ∑ i ∈ idx, G.caseWeights i *
          ell i (∑ j, G.X i j * (β j - effOffset G.offset j) - effOffset G.loss.offset i))
        (fun β j => ∑ i ∈ idx, G.X i j * (G.loss.coef * (G.caseWeights i *
          d i (∑ j, G.X i j * (β j - effOffset G.offset j) - effOffset G.loss.offset i)))) := by
  have hv := gvalid_of hG
  have hsub : G.subsample idx = some ⟨G.X, ⟨G.loss.data, G.loss.coef, G.loss.offset,
      Loss.devQuad G.loss.coef G.loss.data G.loss.quad, none⟩, G.offset,
      fun i => G.caseWeights i * if i ∈ idx then 1 else 0⟩ := by
    unfold Glm.subsample
    rw [glm_copy_eq hv]
  have gen : ∀ (w : Fin n → ℝ) (q : Quad (Fin n) ℝ),
      Evaluates (fun β m => (Glm.smoothObjective ⟨G.X, ⟨G.loss.data, G.loss.coef, G.loss.offset, q, none⟩, G.offset, w⟩ β m).1)
        (fun β => G.loss.coef * ∑ i, w i *
          phi G.loss.data i (∑ j, G.X i j * (β j - effOffset G.offset j) - effOffset G.loss.offset i))
        (fun β j => ∑ i, G.X i j * (G.loss.coef * (w i *
          psi G.loss.data i (∑ j, G.X i j * (β j - effOffset G.offset j) - effOffset G.loss.offset i)))) := by
    intro w q β
    have hE := evaluates_loss ⟨G.loss.data, G.loss.coef, G.loss.offset, q, none⟩ (some w)
      (Glm.dot G.X (Smooth.applyOffset G.offset β))
    obtain ⟨h1, h2, h3⟩ := hE
    dsimp only at h1 h2 h3
    have ho : Smooth.applyOffset G.offset β = fun j => β j - effOffset G.offset j := by
      funext j; rw [applyOffset_eq, offV_effOffset]
    have hcw : Loss.cw none (some w) = w := rfl
    simp only [Glm.smoothObjective, h1, h2, h3]
    rw [ho, hcw, offV_effOffset]
    exact ⟨rfl, rfl, rfl⟩
  refine ⟨_, phi G.loss.data, psi G.loss.data, hsub, ?_, ?_⟩
  · have h := gen G.caseWeights G.loss.quad
    have e : (⟨G.X, ⟨G.loss.data, G.loss.coef, G.loss.offset, G.loss.quad, none⟩, G.offset, G.caseWeights⟩ : Glm p n) = G := by
      obtain ⟨X, ⟨d, c, o, q, w⟩, o', cw⟩ := G
      have := hv.2.1
      simp only at this
      subst this
      rfl
    rw [e] at h
    exact h
  · refine eval_congr (gen _ _) ?_ ?_
    · funext β
      congr 1
      exact sum_indicator idx _ _ (fun i hi => by rw [if_pos hi, mul_one]) fun i hi => by rw [if_neg hi, mul_zero, zero_mul]
    · funext β j
      exact sum_indicator idx _ _ (fun i hi => by rw [if_pos hi, mul_one]) fun i hi => by
        rw [if_neg hi, mul_zero, zero_mul, mul_zero, mul_zero]

/-- the hypothesis is met -/
example : ∃ G : Glm 1 1, ReachableGlm G ∧ G.caseWeights = fun _ => 1 / 2 := by
  have h : Loss.init (.huber (fun _ : Fin 1 => (1:ℝ)) 1) 3 none (Quad.init none none none none) none = _ :=
    loss_init _ (by norm_num) (by simp [Loss.dataError]) _ _ _ (by rintro w' h; cases h)
  refine ⟨⟨fun _ _ => 2, ⟨.huber (fun _ => 1) 1, 3, none, Quad.init none none none none, none⟩, none, fun _ => 1 / 2⟩, .build (X := fun _ _ => 2) (d := .huber (fun _ : Fin 1 => (1:ℝ)) 1)
    (coef := 3) (so := none) (o := none) (w := some fun _ => 1 / 2) ?_, rfl⟩
  rw [Glm.build, h]
  simp only [Glm.init]
  rw [if_neg (by simp)]
  rfl

end Verif.Props
