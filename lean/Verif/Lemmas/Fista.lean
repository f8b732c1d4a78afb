import Verif.Model.Fista
import Verif.Lemmas.ProxGrad
import Mathlib.Algebra.Order.Archimedean.Basic

set_option linter.unusedSectionVars false
set_option linter.unusedVariables false

/-! # Invariants of the FISTA loop -/

namespace Verif.Lemmas
open Verif.Spec Verif.Model Verif.Model.Fista

variable {n : ℕ}

lemma nsq_sub (p w : Fin n → ℝ) : nsq (p - w) = sqDist p w := rfl

lemma ip_sub (p w g : Fin n → ℝ) : ip (p - w) g = dot g (fun i => p i - w i) := by
  unfold ip dot; exact Finset.sum_congr rfl fun i _ => by rw [Pi.sub_apply]; ring

lemma one_le_nextWeight (w : ℝ) : 1 ≤ nextWeight w := by
  unfold nextWeight
  have : 1 ≤ Real.sqrt (1 + 4 * w ^ 2) := by
    rw [Real.one_le_sqrt]; nlinarith [sq_nonneg w]
  linarith

lemma nextWeight_sq (w : ℝ) : nextWeight w * (nextWeight w - 1) = w ^ 2 := by
  unfold nextWeight
  have := Real.sq_sqrt (show 0 ≤ 1 + 4 * w ^ 2 by positivity)
  nlinarith

lemma nextWeight_growth {w : ℝ} (hw : 0 ≤ w) : w + 1 / 2 ≤ nextWeight w := by
  unfold nextWeight
  have : 2 * w ≤ Real.sqrt (1 + 4 * w ^ 2) := by
    apply Real.le_sqrt_of_sq_le; nlinarith
  linarith

/-- everything known about a successful backtracking loop -/
lemma btLoop_ok {C : Composite n} {alpha : ℝ} {w : Fin n → ℝ} :
    ∀ {fuel : ℕ} {step : ℝ} {att : Bool} {p : Fin n → ℝ} {ps : ObjVal} {step' : ℝ} {att' : Bool},
      btLoop C alpha w fuel step att = .ok p ps step' att' → 0 < step →
      0 < step' ∧ C.proximal (stepQuad (1 / step') w (C.grad w)) = some p ∧ ps = C.smooth p ∧
        btStop C step' w p (C.smooth w) (C.smooth p) ∧ (1 ≤ alpha → step' ≤ step) := by
  intro fuel
  induction fuel with
  | zero => intro step att p ps step' att' h _; cases h
  | succ fuel ih =>
    intro step att p ps step' att' h hs
    unfold btLoop at h
    cases hp : C.proximal (stepQuad (1 / step) w (C.grad w)) with
    | none => rw [hp] at h; cases h
    | some q =>
      rw [hp] at h
      simp only at h
      by_cases hst : btStop C step w q (C.smooth w) (C.smooth q)
      · rw [if_pos hst] at h
        cases h
        exact ⟨hs, hp, rfl, hst, fun _ => le_rfl⟩
      · rw [if_neg hst] at h
        by_cases hz : ¬ 0 < step / alpha
        · rw [if_pos hz] at h; cases h
        · rw [if_neg hz] at h
          obtain ⟨h1, h2, h3, h4, h5⟩ := ih h (not_not.1 hz)
          exact ⟨h1, h2, h3, h4, fun ha => le_trans (h5 ha) (div_le_self hs.le ha)⟩

lemma btStop_of_small {C : Composite n} {f : (Fin n → ℝ) → ℝ} {M step : ℝ} (hs : ∀ x, C.smooth x = .num (f x))
    (hf : SmoothWith f C.grad M) (hM : 0 < M) (hst : 0 < step) (hle : step ≤ 1 / (2 * M)) (w p : Fin n → ℝ) :
    btStop C step w p (C.smooth w) (C.smooth p) := by
  have h2 : M ≤ 0.5 / step := by
    rw [le_div_iff₀ hst]
    rw [le_div_iff₀ (by linarith)] at hle
    norm_num
    linarith
  have hD := sqDist_nonneg p w
  rw [hs, hs]
  unfold btStop
  simp only
  have hgrad : |ip (p - w) (C.grad w - C.grad p)| ≤ 0.5 / step * nsq (p - w) := by
    have := hf.monotone w p
    rw [nsq_sub]
    refine le_trans this (mul_le_mul_of_nonneg_right h2 hD)
  split_ifs with hc
  · have := hf.descent w p
    unfold QuadraticUpperBound at this
    rw [ip_sub, nsq_sub]
    have : M / 2 * sqDist p w ≤ 0.5 / step * sqDist p w := mul_le_mul_of_nonneg_right (by linarith) hD
    linarith
  · exact hgrad

/-- the step accepted by the backtracking loop is not small -/
lemma btLoop_lower {C : Composite n} {f : (Fin n → ℝ) → ℝ} {M alpha : ℝ} {w : Fin n → ℝ}
    (hs : ∀ x, C.smooth x = .num (f x)) (hf : SmoothWith f C.grad M) (hM : 0 < M) (ha : 1 ≤ alpha) :
    ∀ {fuel : ℕ} {step : ℝ} {att : Bool} {p : Fin n → ℝ} {ps : ObjVal} {step' : ℝ} {att' : Bool},
      btLoop C alpha w fuel step att = .ok p ps step' att' → 0 < step → min step (1 / (2 * M * alpha)) ≤ step' := by
  intro fuel
  induction fuel with
  | zero => intro step att p ps step' att' h _; cases h
  | succ fuel ih =>
    intro step att p ps step' att' h hst
    unfold btLoop at h
    cases hp : C.proximal (stepQuad (1 / step) w (C.grad w)) with
    | none => rw [hp] at h; cases h
    | some q =>
      rw [hp] at h
      simp only at h
      by_cases hstop : btStop C step w q (C.smooth w) (C.smooth q)
      · rw [if_pos hstop] at h
        cases h
        exact min_le_left _ _
      · rw [if_neg hstop] at h
        have ha0 : 0 < alpha := by linarith
        have hbig : 1 / (2 * M) < step := by
          by_contra hcon
          exact hstop (btStop_of_small hs hf hM hst (not_lt.1 hcon) w q)
        by_cases hz : ¬ 0 < step / alpha
        · rw [if_pos hz] at h; cases h
        · rw [if_neg hz] at h
          refine le_trans (min_le_right _ _) (le_trans ?_ (ih h (not_not.1 hz)))
          refine le_min ?_ le_rfl
          rw [div_le_div_iff₀ (by positivity) ha0]
          rw [div_lt_iff₀ (by linarith)] at hbig
          nlinarith

lemma backtrack_lower {C : Composite n} {f : (Fin n → ℝ) → ℝ} {M alpha : ℝ} {w : Fin n → ℝ}
    (hs : ∀ x, C.smooth x = .num (f x)) (hf : SmoothWith f C.grad M) (hM : 0 < M) (ha : 1 ≤ alpha)
    {fuel k : ℕ} {step : ℝ} {att : Bool} {p : Fin n → ℝ} {ps : ObjVal} {step' : ℝ} {att' : Bool}
    (h : backtrack C alpha fuel k w step att = .ok p ps step' att') (hst : 0 < step) :
    min step (1 / (2 * M * alpha)) ≤ step' := by
  unfold backtrack at h
  by_cases hc : (k + 1) % 100 = 0 ∨ att = true
  · rw [if_pos hc] at h
    refine le_trans (min_le_min_right _ ?_) (btLoop_lower hs hf hM ha h (mul_pos hst (by linarith)))
    nlinarith
  · rw [if_neg hc] at h
    exact btLoop_lower hs hf hM ha h hst

/-- what is known of one step of the algorithm: a backtracked or a fixed step -/
def StepOf (C : Composite n) (a : FitArgs) (step : ℝ) (w p : Fin n → ℝ) : Prop :=
  if a.performBacktrack then
    0 < step ∧ C.proximal (stepQuad (1 / step) w (C.grad w)) = some p ∧ btStop C step w p (C.smooth w) (C.smooth p)
  else step = 1 / C.lipschitz ∧ C.proximal (stepQuad C.lipschitz w (C.grad w)) = some p

lemma prepare_fields (a : FitArgs) (s : State n) :
    (prepare a s).step = s.step ∧ (prepare a s).attempt = s.attempt ∧ (prepare a s).coefs = s.coefs ∧
    (prepare a s).weight = s.weight ∧ (prepare a s).obj = s.obj ∧ (prepare a s).itercount = s.itercount ∧
    (prepare a s).badstep = s.badstep ∧ (prepare a s).hist = s.hist ++ [s.obj] ∧ (prepare a s).log = s.log ∧
    ((prepare a s).working = s.working ∨ (prepare a s).working = s.coefs) ∧
    (a.restart = none → (prepare a s).working = s.working) := by
  unfold prepare
  cases a.restart with
  | none => simp
  | some r =>
    by_cases h : r = 0 ∨ (s.itercount + 1) % r = 0
    · simp [h]
    · simp [h]

/-- the state after the step is taken, before the proposal is judged -/
structure Mid (C : Composite n) (a : FitArgs) (s s1 : State n) (p : Fin n → ℝ) : Prop where
  coefs : s1.coefs = s.coefs
  weight : s1.weight = s.weight
  obj : s1.obj = s.obj
  itercount : s1.itercount = s.itercount
  badstep : s1.badstep = s.badstep
  hist : s1.hist = s.hist ++ [s.obj]
  log : s1.log = s.log
  working : s1.working = s.working ∨ s1.working = s.coefs
  working' : a.restart = none → s1.working = s.working
  step : (a.performBacktrack = true → 0 < s.step) → 0 < a.alpha → StepOf C a s1.step s1.working p
  le : a.performBacktrack = true → 0 < s.step → 1 ≤ a.alpha → s.attempt = false → (s.itercount + 1) % 100 ≠ 0 →
    s1.step ≤ s.step ∧ s1.attempt = false
  lower : a.performBacktrack = true → 0 < s.step → 1 ≤ a.alpha → ∀ (f : (Fin n → ℝ) → ℝ) (M : ℝ),
    (∀ x, C.smooth x = .num (f x)) → SmoothWith f C.grad M → 0 < M → min s.step (1 / (2 * M * a.alpha)) ≤ s1.step

lemma btLoop_attempt {C : Composite n} {alpha : ℝ} {w : Fin n → ℝ} :
    ∀ {fuel : ℕ} {step : ℝ} {p : Fin n → ℝ} {ps : ObjVal} {step' : ℝ} {att' : Bool},
      btLoop C alpha w fuel step false = .ok p ps step' att' → att' = false := by
  intro fuel
  induction fuel with
  | zero => intro step p ps step' att' h; cases h
  | succ fuel ih =>
    intro step p ps step' att' h
    unfold btLoop at h
    cases hp : C.proximal (stepQuad (1 / step) w (C.grad w)) with
    | none => rw [hp] at h; cases h
    | some q =>
      rw [hp] at h
      simp only at h
      by_cases hst : btStop C step w q (C.smooth w) (C.smooth q)
      · rw [if_pos hst] at h; cases h; rfl
      · rw [if_neg hst] at h
        by_cases hz : ¬ 0 < step / alpha
        · rw [if_pos hz] at h; cases h
        · rw [if_neg hz] at h; exact ih h

lemma backtrack_ok {C : Composite n} {a : FitArgs} {fuel k : ℕ} {w : Fin n → ℝ} {step : ℝ} {att : Bool}
    {p : Fin n → ℝ} {ps : ObjVal} {step' : ℝ} {att' : Bool} (h : backtrack C a.alpha fuel k w step att = .ok p ps step' att')
    (hs : 0 < step) (ha : 0 < a.alpha) :
    0 < step' ∧ C.proximal (stepQuad (1 / step') w (C.grad w)) = some p ∧ ps = C.smooth p ∧
        btStop C step' w p (C.smooth w) (C.smooth p) ∧
        (1 ≤ a.alpha → att = false → (k + 1) % 100 ≠ 0 → step' ≤ step ∧ att' = false) := by
  unfold backtrack at h
  by_cases hc : (k + 1) % 100 = 0 ∨ att = true
  · rw [if_pos hc] at h
    obtain ⟨h1, h2, h3, h4, h5⟩ := btLoop_ok h (mul_pos hs ha)
    refine ⟨h1, h2, h3, h4, fun _ hb hk => ?_⟩
    rcases hc with hc | hc
    · exact absurd hc hk
    · rw [hb] at hc; cases hc
  · rw [if_neg hc] at h
    obtain ⟨h1, h2, h3, h4, h5⟩ := btLoop_ok h hs
    refine ⟨h1, h2, h3, h4, fun h6 hb hk => ⟨h5 h6, ?_⟩⟩
    subst hb
    exact btLoop_attempt h

lemma btLoop_ps {C : Composite n} {alpha : ℝ} {w : Fin n → ℝ} :
    ∀ {fuel : ℕ} {step : ℝ} {att : Bool} {p : Fin n → ℝ} {ps : ObjVal} {step' : ℝ} {att' : Bool},
      btLoop C alpha w fuel step att = .ok p ps step' att' → ps = C.smooth p := by
  intro fuel
  induction fuel with
  | zero => intro step att p ps step' att' h; cases h
  | succ fuel ih =>
    intro step att p ps step' att' h
    unfold btLoop at h
    cases hp : C.proximal (stepQuad (1 / step) w (C.grad w)) with
    | none => rw [hp] at h; cases h
    | some q =>
      rw [hp] at h
      simp only at h
      by_cases hst : btStop C step w q (C.smooth w) (C.smooth q)
      · rw [if_pos hst] at h; cases h; rfl
      · rw [if_neg hst] at h
        by_cases hz : ¬ 0 < step / alpha
        · rw [if_pos hz] at h; cases h
        · rw [if_neg hz] at h; exact ih h

lemma pass_mid {C : Composite n} {a : FitArgs} {fuel : ℕ} {s : State n} {r : Pass n} (h : pass C a fuel s = r)
    (hr : (∃ s', r = .next s') ∨ ∃ s', r = .stop s') :
    ∃ (s1 : State n) (p : Fin n → ℝ), Mid C a s s1 p ∧ finish C a s1 p (C.smooth p) = r := by
  obtain ⟨e1, e2, e3, e4, e5, e6, e7, e8, e9, e10, e11⟩ := prepare_fields a s
  unfold pass at h
  simp only at h
  by_cases hb : a.performBacktrack = true
  · rw [if_pos hb] at h
    cases hbt : backtrack C a.alpha fuel (prepare a s).itercount (prepare a s).working (prepare a s).step
        (prepare a s).attempt with
    | ok p ps step att =>
      rw [hbt] at h
      simp only at h
      have hps : ps = C.smooth p := by
        unfold backtrack at hbt
        split_ifs at hbt <;> exact btLoop_ps hbt
      rw [hps] at h
      refine ⟨_, p, ?_, h⟩
      refine ⟨e3, e4, e5, e6, e7, e8, e9, e10, e11, ?_, ?_, ?_⟩
      · intro hs ha
        obtain ⟨h1, h2, h3, h4, _⟩ := backtrack_ok hbt (by rw [e1]; exact hs hb) ha
        unfold StepOf
        rw [if_pos hb]
        exact ⟨h1, h2, h4⟩
      · intro _ hs ha hat hk
        obtain ⟨_, _, _, _, h5⟩ := backtrack_ok hbt (by rw [e1]; exact hs) (by linarith)
        have := h5 ha (by rw [e2]; exact hat) (by rw [e6]; exact hk)
        rw [e1] at this
        exact this
      · intro _ hs ha f M hsm hfM hM
        have := backtrack_lower hsm hfM hM ha hbt (by rw [e1]; exact hs)
        rw [e1] at this
        exact this
    | proxError => rw [hbt] at h; subst h; rcases hr with ⟨_, h⟩ | ⟨_, h⟩ <;> cases h
    | zeroStep => rw [hbt] at h; subst h; rcases hr with ⟨_, h⟩ | ⟨_, h⟩ <;> cases h
    | diverged => rw [hbt] at h; subst h; rcases hr with ⟨_, h⟩ | ⟨_, h⟩ <;> cases h
  · rw [if_neg hb] at h
    cases hp : C.proximal (stepQuad C.lipschitz (prepare a s).working (C.grad (prepare a s).working)) with
    | none => rw [hp] at h; subst h; rcases hr with ⟨_, h⟩ | ⟨_, h⟩ <;> cases h
    | some p =>
      rw [hp] at h
      simp only at h
      refine ⟨_, p, ?_, h⟩
      refine ⟨e3, e4, e5, e6, e7, e8, e9, e10, e11, ?_, fun hb' => absurd hb' hb, fun hb' => absurd hb' hb⟩
      intro _ _
      unfold StepOf
      rw [if_neg hb]
      exact ⟨rfl, hp⟩

/-- the record written by `finish` -/
def recordOf (C : Composite n) (s1 : State n) (p : Fin n → ℝ) : Record n :=
  ⟨s1.itercount, s1.step, s1.working, p, s1.weight, s1.obj, (C.smooth p).add (C.nonsmooth p false), s1.coefs⟩

/-- the test of line 181 -/
def Rejects (a : FitArgs) (s1 : State n) (pobj : ObjVal) : Prop :=
  1 < s1.itercount ∧ s1.obj.lt pobj ∧ (ObjVal.num 1e-10).lt ((pobj.absSub s1.obj).relTo s1.obj) ∧
    a.monotonicityRestart = true

lemma finish_next {C : Composite n} {a : FitArgs} {s1 s' : State n} {p : Fin n → ℝ}
    (h : finish C a s1 p (C.smooth p) = .next s') :
    s'.log = s1.log ++ [recordOf C s1 p] ∧ s'.hist = s1.hist ∧ s'.itercount = s1.itercount + 1 ∧ s'.step = s1.step ∧
    ((Rejects a s1 ((C.smooth p).add (C.nonsmooth p false)) ∧ s'.coefs = s1.coefs ∧ s'.obj = s1.obj ∧
        s'.working = s1.coefs ∧ s'.weight = 1 ∧ s'.attempt = true) ∨
      (¬ Rejects a s1 ((C.smooth p).add (C.nonsmooth p false)) ∧ s'.coefs = p ∧
        s'.obj = (C.smooth p).add (C.nonsmooth p false) ∧ s'.working = nextWorking s1.weight p s1.coefs ∧
        s'.weight = nextWeight s1.weight ∧ s'.attempt = s1.attempt)) := by
  unfold finish at h
  simp only at h
  by_cases hc : converged a s1.itercount (((C.smooth p).add (C.nonsmooth p false)).absSub s1.obj)
      ((((C.smooth p).add (C.nonsmooth p false)).absSub s1.obj).relTo s1.obj) s1.coefs p
  · rw [if_pos hc] at h; cases h
  rw [if_neg hc] at h
  by_cases hr : Rejects a s1 ((C.smooth p).add (C.nonsmooth p false))
  · have hr' := hr
    unfold Rejects at hr'
    rw [if_pos hr'] at h
    by_cases hbad : s1.weight = 1 ∧ 3 < s1.badstep + 1
    · rw [if_pos hbad] at h; cases h
    · rw [if_neg hbad] at h
      cases h
      exact ⟨rfl, rfl, rfl, rfl, Or.inl ⟨hr, rfl, rfl, rfl, rfl, rfl⟩⟩
  · have hr' := hr
    unfold Rejects at hr'
    rw [if_neg hr'] at h
    cases h
    exact ⟨rfl, rfl, rfl, rfl, Or.inr ⟨hr, rfl, rfl, rfl, rfl, rfl⟩⟩

lemma finish_stop {C : Composite n} {a : FitArgs} {s1 s' : State n} {p : Fin n → ℝ}
    (h : finish C a s1 p (C.smooth p) = .stop s') :
    s'.log = s1.log ++ [recordOf C s1 p] ∧ s'.hist = s1.hist ∧ s'.itercount = s1.itercount ∧ s'.step = s1.step ∧
    s'.coefs = s1.coefs ∧ s'.obj = s1.obj ∧ s'.weight = s1.weight := by
  unfold finish at h
  simp only at h
  by_cases hc : converged a s1.itercount (((C.smooth p).add (C.nonsmooth p false)).absSub s1.obj)
      ((((C.smooth p).add (C.nonsmooth p false)).absSub s1.obj).relTo s1.obj) s1.coefs p
  · rw [if_pos hc] at h; cases h; exact ⟨rfl, rfl, rfl, rfl, rfl, rfl, rfl⟩
  rw [if_neg hc] at h
  by_cases hr : Rejects a s1 ((C.smooth p).add (C.nonsmooth p false))
  · have hr' := hr
    unfold Rejects at hr'
    rw [if_pos hr'] at h
    by_cases hbad : s1.weight = 1 ∧ 3 < s1.badstep + 1
    · rw [if_pos hbad] at h; cases h; exact ⟨rfl, rfl, rfl, rfl, rfl, rfl, rfl⟩
    · rw [if_neg hbad] at h; cases h
  · have hr' := hr
    unfold Rejects at hr'
    rw [if_neg hr'] at h
    cases h

/-- Induction over the `while` loop. -/
lemma loop_ind {C : Composite n} {a : FitArgs} {fuel : ℕ} (Inv Post : State n → Prop)
    (hnext : ∀ s s' s1 p, Inv s → s.itercount < a.maxItsV → Mid C a s s1 p →
      finish C a s1 p (C.smooth p) = .next s' → Inv s')
    (hstop : ∀ s s' s1 p, Inv s → s.itercount < a.maxItsV → Mid C a s s1 p →
      finish C a s1 p (C.smooth p) = .stop s' → Post s')
    (hend : ∀ s, Inv s → ¬ s.itercount < a.maxItsV → Post s) :
    ∀ (k : ℕ) (s : State n) (hist : List ObjVal) (s' : State n), Inv s → loop C a fuel k s = .ok hist s' →
      hist = s'.hist.take s'.itercount ∧ Post s' := by
  intro k
  induction k with
  | zero => intro s hist s' _ h; cases h
  | succ k ih =>
    intro s hist s' hI h
    unfold loop at h
    by_cases hlt : s.itercount < a.maxItsV
    · rw [if_pos hlt] at h
      cases hp : pass C a fuel s with
      | next s2 =>
        rw [hp] at h
        obtain ⟨s1, p, hm, hf⟩ := pass_mid hp (Or.inl ⟨_, rfl⟩)
        exact ih s2 hist s' (hnext s s2 s1 p hI hlt hm hf) h
      | stop s2 =>
        rw [hp] at h
        obtain ⟨s1, p, hm, hf⟩ := pass_mid hp (Or.inr ⟨_, rfl⟩)
        cases h
        exact ⟨rfl, hstop s _ s1 p hI hlt hm hf⟩
      | proxError s2 => rw [hp] at h; cases h
      | zeroStep s2 => rw [hp] at h; cases h
      | diverged => rw [hp] at h; cases h
    · rw [if_neg hlt] at h
      cases h
      exact ⟨rfl, hend s hI hlt⟩

lemma fit_ind {C : Composite n} {a : FitArgs} {fuel : ℕ} {step : Option ℝ} {att : Bool} {x0 : Fin n → ℝ}
    (Inv Post : State n → Prop) (h0 : Inv (startState C a step att x0))
    (hnext : ∀ s s' s1 p, Inv s → s.itercount < a.maxItsV → Mid C a s s1 p →
      finish C a s1 p (C.smooth p) = .next s' → Inv s')
    (hstop : ∀ s s' s1 p, Inv s → s.itercount < a.maxItsV → Mid C a s s1 p →
      finish C a s1 p (C.smooth p) = .stop s' → Post s')
    (hend : ∀ s, Inv s → ¬ s.itercount < a.maxItsV → Post s) {hist : List ObjVal} {s' : State n}
    (h : fit C a step att fuel x0 = .ok hist s') : hist = s'.hist.take s'.itercount ∧ Post s' := by
  unfold fit at h
  cases ho : startObj C x0 with
  | nan => rw [ho] at h; cases h
  | num r => rw [ho] at h; exact loop_ind Inv Post hnext hstop hend _ _ _ _ h0 h
  | inf => rw [ho] at h; exact loop_ind Inv Post hnext hstop hend _ _ _ _ h0 h

/-! ## Termination of backtracking -/

lemma btLoop_terminates {C : Composite n} {f : (Fin n → ℝ) → ℝ} {M alpha : ℝ} (hs : ∀ x, C.smooth x = .num (f x))
    (hf : SmoothWith f C.grad M) (hM : 0 < M) (ha : 1 < alpha)
    (hprox : ∀ (L : ℝ) (x g : Fin n → ℝ), 0 < L → ∃ z, C.proximal (stepQuad L x g) = some z) (w : Fin n → ℝ) :
    ∀ (N : ℕ) (step : ℝ) (att : Bool), 0 < step → step ≤ alpha ^ N * (1 / (2 * M)) →
      ∃ p step' att', 0 < step' ∧ min step (1 / (2 * M * alpha)) ≤ step' ∧
        ∀ fuel, N < fuel → btLoop C alpha w fuel step att = .ok p (C.smooth p) step' att' := by
  intro N
  induction N with
  | zero =>
    intro step att hst hle
    obtain ⟨p, hp⟩ := hprox (1 / step) w (C.grad w) (one_div_pos.2 hst)
    refine ⟨p, step, att, hst, min_le_left _ _, fun fuel hfu => ?_⟩
    obtain ⟨k, rfl⟩ : ∃ k, fuel = k + 1 := ⟨fuel - 1, by omega⟩
    unfold btLoop
    rw [hp]
    simp only
    rw [if_pos (btStop_of_small hs hf hM hst (by simpa using hle) w p)]
  | succ N ih =>
    intro step att hst hle
    obtain ⟨p, hp⟩ := hprox (1 / step) w (C.grad w) (one_div_pos.2 hst)
    by_cases hstop : btStop C step w p (C.smooth w) (C.smooth p)
    · refine ⟨p, step, att, hst, min_le_left _ _, fun fuel hfu => ?_⟩
      obtain ⟨k, rfl⟩ : ∃ k, fuel = k + 1 := ⟨fuel - 1, by omega⟩
      unfold btLoop
      rw [hp]
      simp only
      rw [if_pos hstop]
    · have hbig : 1 / (2 * M) < step := by
        by_contra hcon
        exact hstop (btStop_of_small hs hf hM hst (not_lt.1 hcon) w p)
      have ha0 : 0 < alpha := by linarith
      have hdiv : 0 < step / alpha := div_pos hst ha0
      obtain ⟨q, st, at', h1, h2, h3⟩ := ih (step / alpha) false hdiv (by
        rw [div_le_iff₀ ha0]
        calc step ≤ alpha ^ (N + 1) * (1 / (2 * M)) := hle
          _ = alpha ^ N * (1 / (2 * M)) * alpha := by ring)
      refine ⟨q, st, at', h1, ?_, fun fuel hfu => ?_⟩
      · refine le_trans (min_le_right _ _) (le_trans ?_ h2)
        refine le_min ?_ le_rfl
        rw [div_le_div_iff₀ (by positivity) ha0]
        rw [div_lt_iff₀ (by linarith)] at hbig
        nlinarith
      · obtain ⟨k, rfl⟩ : ∃ k, fuel = k + 1 := ⟨fuel - 1, by omega⟩
        unfold btLoop
        rw [hp]
        simp only
        rw [if_neg hstop, if_neg (not_not.2 hdiv)]
        exact h3 k (by omega)

lemma exists_pow_bound {alpha step c : ℝ} (ha : 1 < alpha) (hc : 0 < c) : ∃ N : ℕ, step ≤ alpha ^ N * c := by
  obtain ⟨N, hN⟩ := pow_unbounded_of_one_lt (step / c) ha
  exact ⟨N, by rw [div_lt_iff₀ hc] at hN; exact hN.le⟩

lemma backtrack_terminates {C : Composite n} {f : (Fin n → ℝ) → ℝ} {M alpha : ℝ} (hs : ∀ x, C.smooth x = .num (f x))
    (hf : SmoothWith f C.grad M) (hM : 0 < M) (ha : 1 < alpha)
    (hprox : ∀ (L : ℝ) (x g : Fin n → ℝ), 0 < L → ∃ z, C.proximal (stepQuad L x g) = some z) (w : Fin n → ℝ)
    (k : ℕ) (step : ℝ) (att : Bool) (hst : 0 < step) :
    ∃ N p step' att', 0 < step' ∧ min step (1 / (2 * M * alpha)) ≤ step' ∧
      ∀ fuel, N < fuel → backtrack C alpha fuel k w step att = .ok p (C.smooth p) step' att' := by
  unfold backtrack
  have hc : 0 < 1 / (2 * M) := by positivity
  by_cases h : (k + 1) % 100 = 0 ∨ att = true
  · simp only [if_pos h]
    obtain ⟨N, hN⟩ := exists_pow_bound (step := step * alpha) ha hc
    obtain ⟨p, st, at', h1, h2, h3⟩ := btLoop_terminates hs hf hM ha hprox w N (step * alpha) true
      (mul_pos hst (by linarith)) hN
    refine ⟨N, p, st, at', h1, le_trans ?_ h2, h3⟩
    exact min_le_min_right _ (by nlinarith)
  · simp only [if_neg h]
    obtain ⟨N, hN⟩ := exists_pow_bound (step := step) ha hc
    obtain ⟨p, st, at', h1, h2, h3⟩ := btLoop_terminates hs hf hM ha hprox w N step att hst hN
    exact ⟨N, p, st, at', h1, h2, h3⟩

lemma finish_next_or_stop (C : Composite n) (a : FitArgs) (s : State n) (p : Fin n → ℝ) (ps : ObjVal) :
    (∃ s', finish C a s p ps = .next s') ∨ ∃ s', finish C a s p ps = .stop s' := by
  unfold finish
  simp only
  split_ifs <;> first | exact Or.inl ⟨_, rfl⟩ | exact Or.inr ⟨_, rfl⟩

lemma loop_terminates {C : Composite n} {f : (Fin n → ℝ) → ℝ} {M : ℝ} {a : FitArgs} (hs : ∀ x, C.smooth x = .num (f x))
    (hf : SmoothWith f C.grad M) (hM : 0 < M) (ha : 1 < a.alpha) (hb : a.performBacktrack = true)
    (hprox : ∀ (L : ℝ) (x g : Fin n → ℝ), 0 < L → ∃ z, C.proximal (stepQuad L x g) = some z) :
    ∀ (k : ℕ) (s : State n), 0 < s.step → s.itercount ≤ a.maxItsV → a.maxItsV < s.itercount + k →
      ∃ N, ∀ fuel, N < fuel → ∃ hist s', loop C a fuel k s = .ok hist s' := by
  intro k
  induction k with
  | zero => intro s hst hle hlt; omega
  | succ k ih =>
    intro s hst hle hlt
    by_cases hit : s.itercount < a.maxItsV
    · obtain ⟨e1, e2, e3, e4, e5, e6, e7, e8, e9, e10, e11⟩ := prepare_fields a s
      obtain ⟨N, p, st, at', h1, h2, h3⟩ := backtrack_terminates hs hf hM ha hprox (prepare a s).working
        (prepare a s).itercount (prepare a s).step (prepare a s).attempt (by rw [e1]; exact hst)
      have hpass : ∀ fuel, N < fuel → pass C a fuel s =
          finish C a { prepare a s with step := st, attempt := at' } p (C.smooth p) := by
        intro fuel hfu
        unfold pass
        simp only
        rw [if_pos hb, h3 fuel hfu]
      rcases finish_next_or_stop C a { prepare a s with step := st, attempt := at' } p (C.smooth p) with ⟨s', hf'⟩ | ⟨s', hf'⟩
      · obtain ⟨_, _, i3, i4, _⟩ := finish_next hf'
        have i3' : s'.itercount = s.itercount + 1 := by rw [i3]; show (prepare a s).itercount + 1 = _; rw [e6]
        obtain ⟨N', hN'⟩ := ih s' (by rw [i4]; exact h1) (by omega) (by omega)
        refine ⟨max N N', fun fuel hfu => ?_⟩
        obtain ⟨hist, s'', hl⟩ := hN' fuel (lt_of_le_of_lt (le_max_right _ _) hfu)
        refine ⟨hist, s'', ?_⟩
        unfold loop
        rw [if_pos hit, hpass fuel (lt_of_le_of_lt (le_max_left _ _) hfu), hf']
        exact hl
      · refine ⟨N, fun fuel hfu => ⟨s'.hist.take s'.itercount, s', ?_⟩⟩
        unfold loop
        rw [if_pos hit, hpass fuel hfu, hf']
    · refine ⟨0, fun fuel _ => ⟨s.hist.take s.itercount, s, ?_⟩⟩
      unfold loop
      rw [if_neg hit]

lemma btLoop_not_zero {C : Composite n} {alpha : ℝ} (ha : 0 < alpha) {w : Fin n → ℝ} :
    ∀ (fuel : ℕ) (step : ℝ) (att : Bool), 0 < step → btLoop C alpha w fuel step att ≠ .zeroStep := by
  intro fuel
  induction fuel with
  | zero => intro step att _ h; cases h
  | succ fuel ih =>
    intro step att hs h
    unfold btLoop at h
    cases hp : C.proximal (stepQuad (1 / step) w (C.grad w)) with
    | none => rw [hp] at h; cases h
    | some q =>
      rw [hp] at h
      simp only at h
      by_cases hst : btStop C step w q (C.smooth w) (C.smooth q)
      · rw [if_pos hst] at h; cases h
      · rw [if_neg hst, if_neg (not_not.2 (div_pos hs ha))] at h
        exact ih _ _ (div_pos hs ha) h

lemma loop_not_zero {C : Composite n} {a : FitArgs} {fuel : ℕ} (ha : 0 < a.alpha)
    (hL : a.performBacktrack = false → 0 < C.lipschitz) :
    ∀ (k : ℕ) (s s' : State n), 0 < s.step → loop C a fuel k s ≠ .zeroStep s' := by
  intro k
  induction k with
  | zero => intro s s' _ h; cases h
  | succ k ih =>
    intro s s' hs h
    unfold loop at h
    by_cases hlt : s.itercount < a.maxItsV
    · rw [if_pos hlt] at h
      cases hp : pass C a fuel s with
      | next s2 =>
        rw [hp] at h
        obtain ⟨s1, p, hm, hf⟩ := pass_mid hp (Or.inl ⟨_, rfl⟩)
        obtain ⟨_, _, _, h4, _⟩ := finish_next hf
        have hst := hm.step (fun _ => hs) ha
        refine ih s2 s' ?_ h
        rw [h4]
        unfold StepOf at hst
        by_cases hb : a.performBacktrack = true
        · rw [if_pos hb] at hst; exact hst.1
        · rw [if_neg hb] at hst; rw [hst.1]; exact one_div_pos.2 (hL (by simpa using hb))
      | stop s2 => rw [hp] at h; cases h
      | proxError s2 => rw [hp] at h; cases h
      | zeroStep s2 =>
        unfold pass at hp
        simp only at hp
        by_cases hb : a.performBacktrack = true
        · rw [if_pos hb] at hp
          cases hbt : backtrack C a.alpha fuel (prepare a s).itercount (prepare a s).working (prepare a s).step
              (prepare a s).attempt with
          | ok p ps step att =>
            rw [hbt] at hp
            rcases finish_next_or_stop C a { prepare a s with step := step, attempt := att } p ps with ⟨x, hx⟩ | ⟨x, hx⟩
            · simp only at hp; rw [hx] at hp; cases hp
            · simp only at hp; rw [hx] at hp; cases hp
          | proxError => rw [hbt] at hp; cases hp
          | diverged => rw [hbt] at hp; cases hp
          | zeroStep =>
            have e1 := (prepare_fields a s).1
            unfold backtrack at hbt
            split_ifs at hbt
            · exact btLoop_not_zero ha _ _ _ (by rw [e1]; exact mul_pos hs ha) hbt
            · exact btLoop_not_zero ha _ _ _ (by rw [e1]; exact hs) hbt
        · rw [if_neg hb] at hp
          cases hq : C.proximal (stepQuad C.lipschitz (prepare a s).working (C.grad (prepare a s).working)) with
          | none => rw [hq] at hp; cases hp
          | some p =>
            rw [hq] at hp
            rcases finish_next_or_stop C a { prepare a s with step := 1 / C.lipschitz } p (C.smooth p) with
              ⟨x, hx⟩ | ⟨x, hx⟩
            · simp only at hp; rw [hx] at hp; cases hp
            · simp only at hp; rw [hx] at hp; cases hp
      | diverged => rw [hp] at h; cases h
    · rw [if_neg hlt] at h; cases h

lemma bound_of_btStop' {C : Composite n} {f : (Fin n → ℝ) → ℝ} (hs : ∀ x, C.smooth x = .num (f x))
    (hf : ConvexWithGradient f C.grad) {step : ℝ} {w p : Fin n → ℝ}
    (h : btStop C step w p (C.smooth w) (C.smooth p)) : QuadraticUpperBound f (C.grad w) (1 / step) w p := by
  rw [hs, hs] at h
  unfold btStop at h
  simp only at h
  unfold QuadraticUpperBound
  have e1 : (0.5 : ℝ) / step * nsq (p - w) = 1 / step / 2 * sqDist p w := by
    rw [nsq_sub]
    rw [show (0.5 : ℝ) / step = 1 / step / 2 by norm_num; ring]
  by_cases hc : |f p - f w| / max 1 (f p) > 1e-10
  · rw [if_pos hc, ip_sub, e1] at h; exact h
  · rw [if_neg hc, e1] at h
    have h2 := tangent hf p w
    have h3 : ip (p - w) (C.grad w - C.grad p) =
        dot (C.grad w) (fun i => p i - w i) + dot (C.grad p) (fun i => w i - p i) := by
      unfold ip dot
      rw [← Finset.sum_add_distrib]
      exact Finset.sum_congr rfl fun i _ => by rw [Pi.sub_apply, Pi.sub_apply]; ring
    rw [h3] at h
    have h4 := (abs_le.1 h).1
    linarith

end Verif.Lemmas
