import Verif.Lemmas.Fista

/-!
# Two problems with the same objective and the same proximal gradient steps have the same FISTA runs
-/

set_option linter.unusedSectionVars false
set_option linter.unusedVariables false

namespace Verif.Lemmas
open Verif.Model Verif.Model.Fista

variable {n : ℕ}

/-- same functions, same steps for positive step sizes -/
structure SameSteps (C D : Composite n) : Prop where
  smooth : D.smooth = C.smooth
  grad : D.grad = C.grad
  nonsmooth : D.nonsmooth = C.nonsmooth
  step : ∀ (L : ℝ) (w : Fin n → ℝ), 0 < L → D.proximal (stepQuad L w (C.grad w)) = C.proximal (stepQuad L w (C.grad w))

variable {C D : Composite n}

lemma btStop_congr (h : SameSteps C D) (step : ℝ) (w p : Fin n → ℝ) (ws ps : ObjVal) :
    btStop D step w p ws ps = btStop C step w p ws ps := by
  unfold btStop
  rw [h.grad]

lemma btLoop_congr (h : SameSteps C D) (alpha : ℝ) (w : Fin n → ℝ) :
    ∀ (fuel : ℕ) (step : ℝ) (att : Bool), 0 < step → btLoop D alpha w fuel step att = btLoop C alpha w fuel step att := by
  intro fuel
  induction fuel with
  | zero => intro step att _; rfl
  | succ fuel ih =>
    intro step att hs
    unfold btLoop
    rw [h.grad, h.step _ _ (one_div_pos.2 hs), h.smooth]
    cases C.proximal (stepQuad (1 / step) w (C.grad w)) with
    | none => rfl
    | some q =>
      dsimp only
      rw [btStop_congr h]
      by_cases hst : btStop C step w q (C.smooth w) (C.smooth q)
      · rw [if_pos hst, if_pos hst]
      · rw [if_neg hst, if_neg hst]
        by_cases hz : ¬ 0 < step / alpha
        · rw [if_pos hz, if_pos hz]
        · rw [if_neg hz, if_neg hz]
          exact ih _ _ (not_not.1 hz)

lemma backtrack_congr (h : SameSteps C D) {alpha : ℝ} (ha : 0 < alpha) (fuel k : ℕ) (w : Fin n → ℝ) (step : ℝ) (att : Bool)
    (hs : 0 < step) : backtrack D alpha fuel k w step att = backtrack C alpha fuel k w step att := by
  unfold backtrack
  rw [btLoop_congr h alpha w fuel _ _ (mul_pos hs ha), btLoop_congr h alpha w fuel _ _ hs]

lemma finish_congr (h : SameSteps C D) (a : FitArgs) (s : State n) (p : Fin n → ℝ) (ps : ObjVal) :
    finish D a s p ps = finish C a s p ps := by
  unfold finish
  rw [h.nonsmooth]

lemma prepare_step (a : FitArgs) (s : State n) : (prepare a s).step = s.step := by
  unfold prepare
  cases a.restart with
  | none => rfl
  | some r => dsimp only; split_ifs <;> rfl

lemma finish_step (a : FitArgs) (s s' : State n) (p : Fin n → ℝ) (ps : ObjVal) (h : finish C a s p ps = .next s') :
    s'.step = s.step := by
  unfold finish at h
  dsimp only at h
  split_ifs at h <;> cases h <;> rfl

lemma pass_congr (h : SameSteps C D) (a : FitArgs) (hb : a.performBacktrack = true) (ha : 0 < a.alpha) (fuel : ℕ) (s : State n)
    (hs : 0 < s.step) :
    pass D a fuel s = pass C a fuel s ∧ ∀ s', pass C a fuel s = .next s' → 0 < s'.step := by
  have hp : 0 < (prepare a s).step := by rw [prepare_step]; exact hs
  unfold pass
  dsimp only
  rw [if_pos hb, if_pos hb, backtrack_congr h ha fuel _ _ _ _ hp]
  cases hbt : backtrack C a.alpha fuel (prepare a s).itercount (prepare a s).working (prepare a s).step (prepare a s).attempt with
  | ok p ps step attempt =>
    refine ⟨finish_congr h _ _ _ _, fun s' hs' => ?_⟩
    rw [finish_step _ _ _ _ _ hs']
    dsimp only
    unfold backtrack at hbt
    split_ifs at hbt
    · exact (btLoop_ok hbt (mul_pos hp ha)).1
    · exact (btLoop_ok hbt hp).1
  | proxError => exact ⟨rfl, fun s' hs' => by cases hs'⟩
  | zeroStep => exact ⟨rfl, fun s' hs' => by cases hs'⟩
  | diverged => exact ⟨rfl, fun s' hs' => by cases hs'⟩

lemma loop_congr (h : SameSteps C D) (a : FitArgs) (hb : a.performBacktrack = true) (ha : 0 < a.alpha) (fuel : ℕ) :
    ∀ (k : ℕ) (s : State n), 0 < s.step → loop D a fuel k s = loop C a fuel k s := by
  intro k
  induction k with
  | zero => intro s _; rfl
  | succ k ih =>
    intro s hs
    obtain ⟨h1, h2⟩ := pass_congr h a hb ha fuel s hs
    unfold loop
    rw [h1]
    cases hp : pass C a fuel s with
    | next s' => dsimp only; rw [ih s' (h2 s' hp)]
    | stop s' => rfl
    | proxError s' => rfl
    | zeroStep s' => rfl
    | diverged => rfl

lemma fit_congr (h : SameSteps C D) (a : FitArgs) (hb : a.performBacktrack = true) (ha : 0 < a.alpha) (hst : 0 < a.startStep)
    (att : Bool) (fuel : ℕ) (x : Fin n → ℝ) : fit D a none att fuel x = fit C a none att fuel x := by
  have e : startObj D x = startObj C x := by unfold startObj; rw [h.smooth, h.nonsmooth]
  unfold fit
  rw [e, show startState D a none att x = startState C a none att x by unfold startState; rw [e]]
  rw [loop_congr h a hb ha fuel _ _ hst]

/-- the outcome of `solve` -/
lemma solve_congr (P Q : SimpleProblem n) (q : Option (Quad (Fin n) ℝ)) (a : FitArgs) (hb : a.performBacktrack = true)
    (ha : 0 < a.alpha) (hst : 0 < a.startStep) (lip : ℝ) (fuel : ℕ) (q' : Option (Quad (Fin n) ℝ)) (hc : Q.coefs = P.coefs)
    (h : SameSteps (SimpleProblem.composite { P with quadratic := P.quadratic.add q } lip)
      (SimpleProblem.composite { Q with quadratic := Q.quadratic.add q' } lip)) :
    (Q.solve q' a lip fuel).1 = (P.solve q a lip fuel).1 := by
  unfold SimpleProblem.solve
  dsimp only
  have hf : fit (SimpleProblem.composite { Q with quadratic := Q.quadratic.add q' } lip) a none false fuel Q.coefs =
      fit (SimpleProblem.composite { P with quadratic := P.quadratic.add q } lip) a none false fuel P.coefs := by
    rw [fit_congr h a hb ha hst, hc]
  rw [hf]
  have hv : ∀ c, SimpleProblem.objective { { Q with quadratic := Q.quadratic.add q' } with coefs := c } c =
      SimpleProblem.objective { { P with quadratic := P.quadratic.add q } with coefs := c } c := by
    intro c
    have h1 := congrFun h.smooth c
    have h2 := congrFun (congrFun h.nonsmooth c) false
    show ObjVal.add _ _ = ObjVal.add _ _
    exact congrArg₂ ObjVal.add h1 h2
  cases fit (SimpleProblem.composite { P with quadratic := P.quadratic.add q } lip) a none false fuel P.coefs with
  | ok hist s => exact congrArg (fun v => SimpleProblem.SolveOutcome.ok s.coefs v hist) (hv s.coefs)
  | nanObjective => rfl
  | proxError s => rfl
  | zeroStep s => rfl
  | diverged => rfl

end Verif.Lemmas
