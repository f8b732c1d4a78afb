import Verif.Lemmas.Losses
import Mathlib.Tactic.FinCases

/-!
# C31: evaluating an objective has no side effects
-/

set_option linter.unusedSectionVars false
set_option linter.unusedVariables false

namespace Verif.Props
open Verif.Model Verif.Spec Verif.Lemmas

variable {n p : ℕ}

/-- **C31** a loss without case weights of its own leaves the caller's array as it was.  Missing: with own case weights
it does not (`C31_caller_fails`). -/
theorem C31_caller_partial (L : Loss n) (hw : L.caseWeights = none) (x : Fin n → ℝ) (m : Mode) (arg : Option (Fin n → ℝ)) :
    (L.smoothObjective x m arg).2 = arg ∧ (L.hessian x arg).2 = arg := by
  have ha : Loss.argAfter L.caseWeights arg = arg := by
    rw [hw]; cases arg <;> rfl
  constructor
  · unfold Loss.smoothObjective
    cases L.data <;> cases m <;> simpa using ha
  · unfold Loss.hessian
    cases L.data <;> simp [ha]

/-- **C31** fails for the caller's array: a gaussian loss with case weights `1/2` halves the array it is given. -/
theorem C31_caller_fails : ∃ (L : Loss 1) (w : Fin 1 → ℝ), Loss.init (.gaussian fun _ => 0) 1 none (Quad.init none none none none)
      (some fun _ => 1 / 2) = some L ∧ (L.smoothObjective (fun _ => 1) .func (some w)).2 ≠ some w := by
  refine ⟨⟨.gaussian fun _ => 0, 1, none, Quad.init none none none none, some fun _ => 1 / 2⟩, fun _ => 1, ?_, ?_⟩
  · exact loss_init _ (by norm_num) (by simp [Loss.dataError]) _ _ _ (by rintro w' h; injection h with h; subst h; intro i; norm_num)
  · intro h
    simp only [Loss.smoothObjective, Loss.argAfter, Loss.cw] at h
    injection h with h
    have := congrFun h 0
    norm_num at this

private lemma smooth_same (G : Glm p n) (hw : G.loss.caseWeights = none) (β : Fin p → ℝ) (m : Mode) :
    (G.smoothObjective β m).2 = G := by
  have h := (C31_caller_partial G.loss hw (Glm.dot G.X (Smooth.applyOffset G.offset β)) m (some G.caseWeights)).1
  unfold Glm.smoothObjective
  simp only [h, Option.getD_some]
  cases m <;> cases (G.loss.smoothObjective _ _ _).1 <;> rfl

private lemma hess_same (G : Glm p n) (hw : G.loss.caseWeights = none) (β : Fin p → ℝ) : (G.hessian β).2 = G := by
  have h := (C31_caller_partial G.loss hw (Glm.dot G.X β) .func (some G.caseWeights)).2
  unfold Glm.hessian
  simp only [h, Option.getD_some]
  cases (G.loss.hessian _ _).1 <;> rfl

/-- **C31** history is irrelevant for a glm whose saturated loss has no case weights of its own: after any sequence of
evaluations and Hessians, every evaluation gives what it would have given at the start, and the glm's (caller's) case
weights array is unchanged.  Missing: a saturated loss with its own case weights (`C31_glm_fails`). -/
theorem C31_glm_partial (G : Glm p n) (hw : G.loss.caseWeights = none) (hist : List (Glm.Op p)) :
    (∀ β m, ((G.run hist).smoothObjective β m).1 = (G.smoothObjective β m).1) ∧
    (∀ β, ((G.run hist).hessian β).1 = (G.hessian β).1) ∧ (G.run hist).caseWeights = G.caseWeights := by
  have h : ∀ hist : List (Glm.Op p), G.run hist = G := by
    intro hist
    induction hist with
    | nil => rfl
    | cons a rest ih =>
      cases a with
      | smooth β m => rw [Glm.run, smooth_same G hw]; exact ih
      | hess β => rw [Glm.run, hess_same G hw]; exact ih
  rw [h]
  exact ⟨fun _ _ => rfl, fun _ => rfl, rfl⟩

/-- **C31** for the glms built by `glm.gaussian`, `glm.logistic`, `glm.poisson`, `glm.huber` and `glm.huber_svm`, with
any offsets and case weights, history is irrelevant. -/
theorem C31_glm_classmethods (X : Fin n → Fin p → ℝ) (d : LossData n) (coef : ℝ) (so : Option (Fin n → ℝ))
    (o : Option (Fin p → ℝ)) (w : Option (Fin n → ℝ)) (G : Glm p n) (hG : Glm.build X d coef so o w = some G)
    (hist : List (Glm.Op p)) :
    (∀ β m, ((G.run hist).smoothObjective β m).1 = (G.smoothObjective β m).1) ∧
    (∀ β, ((G.run hist).hessian β).1 = (G.hessian β).1) ∧ (G.run hist).caseWeights = G.caseWeights := by
  refine C31_glm_partial G ?_ hist
  unfold Glm.build at hG
  cases hL : Loss.init d coef so (Quad.init none none none none) none with
  | none => rw [hL] at hG; simp at hG
  | some L =>
    rw [hL] at hG
    have h1 : G.loss = L := by
      simp only [Glm.init] at hG
      split_ifs at hG
      all_goals (injection hG with hG; rw [← hG])
    have h2 : L.caseWeights = none := by rw [(loss_of_init hL).2.2.2]
    rw [h1, h2]

/-- the hypothesis is met: a weighted gaussian glm exists -/
example : ∃ G : Glm 1 1, Glm.build (fun _ _ => 2) (.gaussian fun _ => 1) 3 none none (some fun _ => 1 / 2) = some G := by
  refine ⟨⟨fun _ _ => 2, ⟨.gaussian fun _ => 1, 3, none, Quad.init none none none none, none⟩, none, fun _ => 1 / 2⟩, ?_⟩
  have h : Loss.init (.gaussian fun _ : Fin 1 => (1:ℝ)) 3 none (Quad.init none none none none) none = _ :=
    loss_init _ (by norm_num) (by simp [Loss.dataError]) _ _ _ (by rintro w' h; cases h)
  rw [Glm.build, h]
  simp only [Glm.init]
  rw [if_neg (by simp)]
  rfl

/-- **C31** fails when the saturated loss has its own case weights: two evaluations at the same point differ, since
each multiplies the glm's weights by the loss' once more. -/
theorem C31_glm_fails : ∃ (L : Loss 1) (G : Glm 1 1) (β : Fin 1 → ℝ),
    Loss.init (.gaussian fun _ => 0) 1 none (Quad.init none none none none) (some fun _ => 1 / 2) = some L ∧
    Glm.init (fun _ _ => 1) L none none = some G ∧
    ((G.run [.smooth β .func]).smoothObjective β .func).1 ≠ (G.smoothObjective β .func).1 := by
  let L : Loss 1 := ⟨.gaussian fun _ => 0, 1, none, Quad.init none none none none, some fun _ => 1 / 2⟩
  refine ⟨L, ⟨fun _ _ => 1, L, none, fun _ => 1⟩, fun _ => 1, ?_, ?_, ?_⟩
  · exact loss_init _ (by norm_num) (by simp [Loss.dataError]) _ _ _ (by rintro w' h; injection h with h; subst h; intro i; norm_num)
  · simp [Glm.init]
  · simp [Glm.run, Glm.smoothObjective, Loss.smoothObjective, L, Smooth.applyOffset, Loss.argAfter, Loss.cw, Glm.dot, scaleR_eq]

end Verif.Props
