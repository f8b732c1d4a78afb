import Verif.Lemmas.FistaCongr

/-!
# Two problems that agree on the points a FISTA run can visit have the same run

The steps land in a set `D`; the working points are extrapolations of two points of `D` and lie in `E`.
-/

set_option linter.unusedSectionVars false
set_option linter.unusedVariables false

namespace Verif.Lemmas
open Verif.Model Verif.Model.Fista

variable {n : ℕ}

/-- `C` and `C'` have the same functions on `E`, the same proximal map, and steps from `E` land in `D` -/
structure SameStepsOn (D E : Set (Fin n → ℝ)) (C C' : Composite n) : Prop where
  smooth : ∀ x ∈ E, C'.smooth x = C.smooth x
  grad : ∀ x ∈ E, C'.grad x = C.grad x
  nonsmooth : C'.nonsmooth = C.nonsmooth
  proximal : C'.proximal = C.proximal
  lands : ∀ (L : ℝ) (w p : Fin n → ℝ), 0 < L → w ∈ E → C.proximal (stepQuad L w (C.grad w)) = some p → p ∈ D
  sub : D ⊆ E
  extrapolate : ∀ x ∈ D, ∀ y ∈ D, ∀ t : ℝ, 0 ≤ t → t ≤ 1 → x + t • (x - y) ∈ E

variable {D E : Set (Fin n → ℝ)} {C C' : Composite n}

private lemma btLoop_on (h : SameStepsOn D E C C') (alpha : ℝ) {w : Fin n → ℝ} (hw : w ∈ E) :
    ∀ (fuel : ℕ) (step : ℝ) (att : Bool), 0 < step → btLoop C' alpha w fuel step att = btLoop C alpha w fuel step att ∧
      ∀ p ps st at', btLoop C alpha w fuel step att = .ok p ps st at' → p ∈ D := by
  intro fuel
  induction fuel with
  | zero => intro step att _; exact ⟨rfl, fun p ps st at' h => by cases h⟩
  | succ fuel ih =>
    intro step att hs
    unfold btLoop
    rw [h.grad w hw, h.proximal, h.smooth w hw]
    cases hq : C.proximal (stepQuad (1 / step) w (C.grad w)) with
    | none => exact ⟨rfl, fun p ps st at' h => by cases h⟩
    | some q =>
      have hqD : q ∈ D := h.lands _ _ _ (one_div_pos.2 hs) hw hq
      have hqE := h.sub hqD
      dsimp only
      have e : btStop C' step w q (C.smooth w) (C'.smooth q) = btStop C step w q (C.smooth w) (C.smooth q) := by
        unfold btStop
        rw [h.smooth q hqE, h.grad q hqE, h.grad w hw]
      rw [e, h.smooth q hqE]
      by_cases hst : btStop C step w q (C.smooth w) (C.smooth q)
      · rw [if_pos hst, if_pos hst]
        refine ⟨rfl, fun p ps st at' hh => ?_⟩
        cases hh; exact hqD
      · rw [if_neg hst, if_neg hst]
        by_cases hz : ¬ 0 < step / alpha
        · rw [if_pos hz, if_pos hz]
          exact ⟨rfl, fun p ps st at' h => by cases h⟩
        · rw [if_neg hz, if_neg hz]
          exact ih _ _ (not_not.1 hz)

private lemma backtrack_on (h : SameStepsOn D E C C') {alpha : ℝ} (ha : 0 < alpha) (fuel k : ℕ) {w : Fin n → ℝ} (hw : w ∈ E)
    (step : ℝ) (att : Bool) (hs : 0 < step) :
    backtrack C' alpha fuel k w step att = backtrack C alpha fuel k w step att ∧
      ∀ p ps st at', backtrack C alpha fuel k w step att = .ok p ps st at' → p ∈ D ∧ 0 < st := by
  unfold backtrack
  split_ifs
  · obtain ⟨h1, h2⟩ := btLoop_on h alpha hw fuel (step * alpha) true (mul_pos hs ha)
    exact ⟨h1, fun p ps st at' hh => ⟨h2 _ _ _ _ hh, (btLoop_ok hh (mul_pos hs ha)).1⟩⟩
  · obtain ⟨h1, h2⟩ := btLoop_on h alpha hw fuel step att hs
    exact ⟨h1, fun p ps st at' hh => ⟨h2 _ _ _ _ hh, (btLoop_ok hh hs).1⟩⟩

/-- the invariant of the loop -/
private structure Inv (D E : Set (Fin n → ℝ)) (s : State n) : Prop where
  coefs : s.coefs ∈ D
  working : s.working ∈ E
  weight : 1 ≤ s.weight
  step : 0 < s.step

private lemma prepare_inv (h : SameStepsOn D E C C') (a : FitArgs) {s : State n} (hs : Inv D E s) : Inv D E (prepare a s) := by
  unfold prepare
  cases a.restart with
  | none => exact ⟨hs.coefs, hs.working, hs.weight, hs.step⟩
  | some r =>
    dsimp only
    split_ifs
    · exact ⟨hs.coefs, h.sub hs.coefs, hs.weight, hs.step⟩
    · exact ⟨hs.coefs, hs.working, hs.weight, hs.step⟩

private lemma nextWeight_le {w : ℝ} (hw : 1 ≤ w) : 1 ≤ nextWeight w ∧ w - 1 ≤ nextWeight w := by
  unfold nextWeight
  have h1 : 2 * w ≤ Real.sqrt (1 + 4 * w ^ 2) := Real.le_sqrt_of_sq_le (by nlinarith)
  constructor <;> norm_num <;> linarith

private lemma finish_inv (h : SameStepsOn D E C C') (a : FitArgs) {s : State n} (hs : Inv D E s) {p : Fin n → ℝ} (hp : p ∈ D)
    (ps : ObjVal) : (∀ s', finish C a s p ps = .next s' → Inv D E s') ∧ ∀ s', finish C a s p ps = .stop s' → s'.coefs ∈ D := by
  have hw := nextWeight_le hs.weight
  have hx : nextWorking s.weight p s.coefs ∈ E := by
    refine h.extrapolate p hp s.coefs hs.coefs _ ?_ ?_
    · exact div_nonneg (by linarith [hs.weight]) (by linarith)
    · rw [div_le_one (by linarith)]; exact hw.2
  unfold finish
  dsimp only
  constructor
  · intro s' hh
    split_ifs at hh <;> cases hh
    all_goals first
      | exact ⟨hs.coefs, h.sub hs.coefs, le_rfl, hs.step⟩
      | exact ⟨hp, hx, hw.1, hs.step⟩
  · intro s' hh
    split_ifs at hh <;> cases hh <;> exact hs.coefs

private lemma pass_on (h : SameStepsOn D E C C') (a : FitArgs) (hb : a.performBacktrack = true) (ha : 0 < a.alpha) (fuel : ℕ)
    {s : State n} (hs : Inv D E s) :
    pass C' a fuel s = pass C a fuel s ∧ (∀ s', pass C a fuel s = .next s' → Inv D E s') ∧
      ∀ s', pass C a fuel s = .stop s' → s'.coefs ∈ D := by
  have hp := prepare_inv h a hs
  obtain ⟨h1, h2⟩ := backtrack_on h ha fuel (prepare a s).itercount hp.working (prepare a s).step (prepare a s).attempt hp.step
  unfold pass
  dsimp only
  rw [if_pos hb, if_pos hb, h1]
  cases hbt : backtrack C a.alpha fuel (prepare a s).itercount (prepare a s).working (prepare a s).step (prepare a s).attempt with
  | ok p ps step attempt =>
    obtain ⟨hpD, hst⟩ := h2 _ _ _ _ hbt
    have hi : Inv D E { prepare a s with step := step, attempt := attempt } := ⟨hp.coefs, hp.working, hp.weight, hst⟩
    refine ⟨?_, (finish_inv h a hi hpD ps).1, (finish_inv h a hi hpD ps).2⟩
    show finish C' a _ _ _ = finish C a _ _ _
    unfold finish
    rw [h.nonsmooth]
  | proxError => refine ⟨rfl, ?_, ?_⟩ <;> (intro s' hs'; cases hs')
  | zeroStep => refine ⟨rfl, ?_, ?_⟩ <;> (intro s' hs'; cases hs')
  | diverged => refine ⟨rfl, ?_, ?_⟩ <;> (intro s' hs'; cases hs')

private lemma loop_on (h : SameStepsOn D E C C') (a : FitArgs) (hb : a.performBacktrack = true) (ha : 0 < a.alpha) (fuel : ℕ) :
    ∀ (k : ℕ) (s : State n), Inv D E s → loop C' a fuel k s = loop C a fuel k s ∧
      ∀ hist s', loop C a fuel k s = .ok hist s' → s'.coefs ∈ D := by
  intro k
  induction k with
  | zero => intro s _; exact ⟨rfl, fun hist s' h => by cases h⟩
  | succ k ih =>
    intro s hs
    obtain ⟨h1, h2, h3⟩ := pass_on h a hb ha fuel hs
    unfold loop
    rw [h1]
    split_ifs
    · cases hp : pass C a fuel s with
      | next s' => exact ih s' (h2 s' hp)
      | stop s' => exact ⟨rfl, fun hist s'' hh => by cases hh; exact h3 _ hp⟩
      | proxError s' => exact ⟨rfl, fun hist s'' hh => by cases hh⟩
      | zeroStep s' => exact ⟨rfl, fun hist s'' hh => by cases hh⟩
      | diverged => exact ⟨rfl, fun hist s'' hh => by cases hh⟩
    · exact ⟨rfl, fun hist s'' hh => by cases hh; exact hs.coefs⟩

lemma fit_on (h : SameStepsOn D E C C') (a : FitArgs) (hb : a.performBacktrack = true) (ha : 0 < a.alpha) (hst : 0 < a.startStep)
    (att : Bool) (fuel : ℕ) {x : Fin n → ℝ} (hx : x ∈ D) :
    fit C' a none att fuel x = fit C a none att fuel x ∧ ∀ hist s, fit C a none att fuel x = .ok hist s → s.coefs ∈ D := by
  have e : startObj C' x = startObj C x := by unfold startObj; rw [h.smooth x (h.sub hx), h.nonsmooth]
  have e2 : startState C' a none att x = startState C a none att x := by unfold startState; rw [e]
  obtain ⟨h1, h2⟩ := loop_on h a hb ha fuel (a.maxItsV + 1) (startState C a none att x) ⟨hx, h.sub hx, le_rfl, hst⟩
  unfold fit
  rw [e, e2, h1]
  refine ⟨rfl, fun hist s hh => ?_⟩
  cases hso : startObj C x with
  | nan => rw [hso] at hh; cases hh
  | num v => rw [hso] at hh; exact h2 _ _ hh
  | inf => rw [hso] at hh; exact h2 _ _ hh

/-- the outcome of `solve` for two problems that differ in the loss, outside `E` -/
lemma solve_on (P Q : SimpleProblem n) (q : Option (Quad (Fin n) ℝ)) (a : FitArgs) (hb : a.performBacktrack = true)
    (ha : 0 < a.alpha) (hst : 0 < a.startStep) (lip : ℝ) (fuel : ℕ) (hc : Q.coefs = P.coefs) (hx : P.coefs ∈ D)
    (h : SameStepsOn D E (SimpleProblem.composite { P with quadratic := P.quadratic.add q } lip)
      (SimpleProblem.composite { Q with quadratic := Q.quadratic.add q } lip)) :
    (Q.solve q a lip fuel).1 = (P.solve q a lip fuel).1 ∧ ∀ c v hist, (P.solve q a lip fuel).1 = .ok c v hist → c ∈ D := by
  obtain ⟨h1, h2⟩ := fit_on h a hb ha hst false fuel hx
  have h1' : fit (SimpleProblem.composite { Q with quadratic := Q.quadratic.add q } lip) a none false fuel Q.coefs =
      fit (SimpleProblem.composite { P with quadratic := P.quadratic.add q } lip) a none false fuel P.coefs := by rw [hc]; exact h1
  unfold SimpleProblem.solve
  dsimp only
  rw [h1']
  cases hf : fit (SimpleProblem.composite { P with quadratic := P.quadratic.add q } lip) a none false fuel P.coefs with
  | ok hist s =>
    have hD := h2 hist s hf
    refine ⟨?_, fun c v hist hh => by cases hh; exact hD⟩
    show SimpleProblem.SolveOutcome.ok s.coefs _ hist = .ok s.coefs _ hist
    congr 1
    have e1 := h.smooth s.coefs (h.sub hD)
    have e2 := congrFun (congrFun h.nonsmooth s.coefs) false
    show ObjVal.add _ _ = ObjVal.add _ _
    exact congrArg₂ ObjVal.add e1 e2
  | nanObjective => exact ⟨rfl, fun c v hist hh => by cases hh⟩
  | proxError s => exact ⟨rfl, fun c v hist hh => by cases hh⟩
  | zeroStep s => exact ⟨rfl, fun c v hist hh => by cases hh⟩
  | diverged => exact ⟨rfl, fun c v hist hh => by cases hh⟩

end Verif.Lemmas
