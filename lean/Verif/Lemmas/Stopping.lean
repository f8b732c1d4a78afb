import Verif.Props.C33_Fista

/-! # What holds at the top of every pass of FISTA on a convex problem -/

set_option linter.unusedSectionVars false
set_option linter.unusedVariables false

namespace Verif.Lemmas.Stopping
open Verif.Spec Verif.Model Verif.Model.Fista Verif.Lemmas Verif.Props

variable {n : ℕ}

lemma next_more {C : Composite n} {a : FitArgs} {s1 s' : State n} {p : Fin n → ℝ}
    (h : finish C a s1 p (C.smooth p) = .next s') :
    ¬ converged a s1.itercount (((C.smooth p).add (C.nonsmooth p false)).absSub s1.obj)
      ((((C.smooth p).add (C.nonsmooth p false)).absSub s1.obj).relTo s1.obj) s1.coefs p ∧
    (¬ Rejects a s1 ((C.smooth p).add (C.nonsmooth p false)) ∨ s1.weight ≠ 1 → s'.badstep = s1.badstep) := by
  unfold finish at h
  simp only at h
  by_cases hc : converged a s1.itercount (((C.smooth p).add (C.nonsmooth p false)).absSub s1.obj)
      ((((C.smooth p).add (C.nonsmooth p false)).absSub s1.obj).relTo s1.obj) s1.coefs p
  · rw [if_pos hc] at h; cases h
  rw [if_neg hc] at h
  refine ⟨hc, ?_⟩
  by_cases hr : Rejects a s1 ((C.smooth p).add (C.nonsmooth p false))
  · have hr' := hr
    unfold Rejects at hr'
    rw [if_pos hr'] at h
    by_cases hbad : s1.weight = 1 ∧ 3 < s1.badstep + 1
    · rw [if_pos hbad] at h; cases h
    · rw [if_neg hbad] at h
      cases h
      rintro (h | h)
      · exact absurd hr h
      · show (if s1.weight = 1 then _ else _) = _
        rw [if_neg h]
  · have hr' := hr
    unfold Rejects at hr'
    rw [if_neg hr'] at h
    cases h
    exact fun _ => rfl

lemma stop_more {C : Composite n} {a : FitArgs} {s1 s' : State n} {p : Fin n → ℝ}
    (h : finish C a s1 p (C.smooth p) = .stop s') :
    (converged a s1.itercount (((C.smooth p).add (C.nonsmooth p false)).absSub s1.obj)
      ((((C.smooth p).add (C.nonsmooth p false)).absSub s1.obj).relTo s1.obj) s1.coefs p ∧ s'.badstep = s1.badstep) ∨
    (Rejects a s1 ((C.smooth p).add (C.nonsmooth p false)) ∧ s1.weight = 1) := by
  unfold finish at h
  simp only at h
  by_cases hc : converged a s1.itercount (((C.smooth p).add (C.nonsmooth p false)).absSub s1.obj)
      ((((C.smooth p).add (C.nonsmooth p false)).absSub s1.obj).relTo s1.obj) s1.coefs p
  · rw [if_pos hc] at h; cases h; exact Or.inl ⟨hc, rfl⟩
  rw [if_neg hc] at h
  by_cases hr : Rejects a s1 ((C.smooth p).add (C.nonsmooth p false))
  · have hr' := hr
    unfold Rejects at hr'
    rw [if_pos hr'] at h
    by_cases hbad : s1.weight = 1 ∧ 3 < s1.badstep + 1
    · exact Or.inr ⟨hr, hbad.1⟩
    · rw [if_neg hbad] at h; cases h
  · have hr' := hr
    unfold Rejects at hr'
    rw [if_neg hr'] at h
    cases h

section convex
variable {C : Composite n} {f h : (Fin n → ℝ) → ℝ} {S : Set (Fin n → ℝ)} {a : FitArgs}

/-- what holds at the top of every pass on a convex problem -/
structure Ok (C : Composite n) (f h : (Fin n → ℝ) → ℝ) (S : Set (Fin n → ℝ)) (s : State n) : Prop where
  step : 0 < s.step
  len : s.hist.length = s.itercount
  obj : 0 < s.itercount → s.obj = .num (f s.coefs + h s.coefs)
  mem : 0 < s.itercount → s.coefs ∈ S
  working : s.weight = 1 → s.working = s.coefs
  early : s.itercount ≤ 1 → s.working = s.coefs
  first : s.itercount = 0 → s.weight = 1
  weight : 1 ≤ s.weight
  bad : s.badstep = 0

lemma ok_start {step : Option ℝ} (hstart : StartsPositive a step) (att : Bool) (x0 : Fin n → ℝ) :
    Ok C f h S (startState C a step att x0) where
  step := hstart
  len := rfl
  obj h := absurd h (lt_irrefl 0)
  mem h := absurd h (lt_irrefl 0)
  working _ := rfl
  early _ := rfl
  first _ := rfl
  weight := le_rfl
  bad := rfl

/-- the step of a pass -/
lemma ok_step (hC : IsProblemCore C f h S) (hf : ConvexWithGradient f C.grad) (hb : a.performBacktrack = true) (ha : 0 < a.alpha)
    {s s1 : State n} {p : Fin n → ℝ} (hI : Ok C f h S s) (hmid : Mid C a s s1 p) :
    0 < s1.step ∧ p ∈ S ∧ (C.smooth p).add (C.nonsmooth p false) = .num (f p + h p) ∧
    IsProxStep (1 / s1.step) h S s1.working (C.grad s1.working) p ∧
      QuadraticUpperBound f (C.grad s1.working) (1 / s1.step) s1.working p := by
  have hst := hmid.step (fun _ => hI.step) ha
  unfold StepOf at hst
  rw [if_pos hb] at hst
  have hps := hC.prox _ _ _ _ (one_div_pos.2 hst.1) hst.2.1
  exact ⟨hst.1, hps.1, by rw [hC.smooth, hC.nonsmooth _ hps.1]; rfl, hps, bound_of_btStop' hC.smooth hf hst.2.2⟩

/-- a step taken from the kept coefficients is never rejected -/
lemma ok_plain (hC : IsProblemCore C f h S) (hf : ConvexWithGradient f C.grad) (hh : IsConvexFnOn h S) (hb : a.performBacktrack = true)
    (ha : 0 < a.alpha) {s s1 : State n} {p : Fin n → ℝ} (hI : Ok C f h S s) (hmid : Mid C a s s1 p) (hS : s.coefs ∈ S)
    (hw : s.working = s.coefs) : f p + h p ≤ f s.coefs + h s.coefs := by
  obtain ⟨h1, h2, h3, h4, h5⟩ := ok_step hC hf hb ha hI hmid
  have hwc : s1.working = s.coefs := by
    rcases hmid.working with e | e
    · rw [e, hw]
    · exact e
  rw [hwc] at h4 h5
  have hd := prox_grad_decrease (one_div_pos.2 h1) hh hS h4 h5
  have h0 : 0 ≤ 1 / s1.step / 2 * sqDist p s.coefs := mul_nonneg (by have := one_div_pos.2 h1; linarith) (sqDist_nonneg _ _)
  linarith

lemma ok_no_reject (hC : IsProblemCore C f h S) (hf : ConvexWithGradient f C.grad) (hh : IsConvexFnOn h S) (hb : a.performBacktrack = true)
    (ha : 0 < a.alpha) {s s1 : State n} {p : Fin n → ℝ} (hI : Ok C f h S s) (hmid : Mid C a s s1 p) (hw : s.working = s.coefs) :
    ¬ Rejects a s1 ((C.smooth p).add (C.nonsmooth p false)) := by
  rintro ⟨r1, r2, -, -⟩
  rw [hmid.itercount] at r1
  have hS := hI.mem (by omega)
  obtain ⟨-, -, h3, -⟩ := ok_step hC hf hb ha hI hmid
  have := ok_plain hC hf hh hb ha hI hmid hS hw
  rw [h3, hmid.obj, hI.obj (by omega)] at r2
  have r2' : f s.coefs + h s.coefs < f p + h p := r2
  linarith

lemma nextWorking_one' (p c : Fin n → ℝ) : nextWorking 1 p c = p := by
  funext i; simp [nextWorking]

lemma ok_next (hC : IsProblemCore C f h S) (hf : ConvexWithGradient f C.grad) (hh : IsConvexFnOn h S) (hb : a.performBacktrack = true)
    (ha : 0 < a.alpha) {s s' s1 : State n} {p : Fin n → ℝ} (hI : Ok C f h S s) (hmid : Mid C a s s1 p)
    (hn : finish C a s1 p (C.smooth p) = .next s') : Ok C f h S s' := by
  obtain ⟨g1, g2, g3, g4, g5⟩ := ok_step hC hf hb ha hI hmid
  obtain ⟨h1, h2, h3, h4, h5⟩ := finish_next hn
  obtain ⟨-, m2⟩ := next_more hn
  have hbad : s'.badstep = 0 := by
    rw [m2 ?_, hmid.badstep, hI.bad]
    by_cases hw : s1.weight = 1
    · left
      rw [hmid.weight] at hw
      exact ok_no_reject hC hf hh hb ha hI hmid (hI.working hw)
    · exact Or.inr hw
  refine ⟨by rw [h4]; exact g1, by rw [h2, hmid.hist, h3, hmid.itercount]; simp [hI.len], ?_, ?_, ?_, ?_, ?_, ?_, hbad⟩
  · rcases h5 with h5 | h5
    · intro _
      rw [h5.2.1, h5.2.2.1, hmid.coefs, hmid.obj]
      refine hI.obj ?_
      have := h5.1.1
      rw [hmid.itercount] at this
      omega
    · rw [h5.2.1, h5.2.2.1]; exact fun _ => g3
  · rcases h5 with h5 | h5
    · intro _
      rw [h5.2.1, hmid.coefs]
      refine hI.mem ?_
      have := h5.1.1
      rw [hmid.itercount] at this
      omega
    · rw [h5.2.1]; exact fun _ => g2
  · rcases h5 with h5 | h5
    · rw [h5.2.1, h5.2.2.2.1]; exact fun _ => rfl
    · intro hw
      have h6 : s1.weight + 1 / 2 ≤ s'.weight := by
        rw [h5.2.2.2.2.1]
        exact nextWeight_growth (by rw [hmid.weight]; linarith [hI.weight])
      have := hI.weight
      rw [hmid.weight] at h6
      linarith
  · intro hle
    rcases h5 with h5 | h5
    · have := h5.1.1; omega
    · rw [h5.2.2.2.1, h5.2.1, hmid.weight, hI.first (by rw [h3, hmid.itercount] at hle; omega)]
      exact nextWorking_one' _ _
  · intro h0; rw [h3] at h0; omega
  · rcases h5 with h5 | h5
    · rw [h5.2.2.2.2.1]
    · rw [h5.2.2.2.2.1]; exact one_le_nextWeight _

/-- an accepted pass that does not meet the stopping rule lowers the objective by more than the tolerance -/
lemma ok_drop (hC : IsProblemCore C f h S) (hf : ConvexWithGradient f C.grad) (hh : IsConvexFnOn h S) (hb : a.performBacktrack = true)
    (ha : 0 < a.alpha) (hm : a.monotonicityRestart = true) (hcs : a.coefStop = false) (htol : 1e-10 < a.tolV)
    {s s1 : State n} {p : Fin n → ℝ} (hI : Ok C f h S s) (hmid : Mid C a s s1 p) (hk : a.minItsV ≤ s.itercount) (h1 : 0 < s.itercount)
    (hnc : ¬ converged a s1.itercount (((C.smooth p).add (C.nonsmooth p false)).absSub s1.obj)
      ((((C.smooth p).add (C.nonsmooth p false)).absSub s1.obj).relTo s1.obj) s1.coefs p)
    (hnr : ¬ Rejects a s1 ((C.smooth p).add (C.nonsmooth p false))) :
    f p + h p ≤ f s.coefs + h s.coefs - a.tolV := by
  have hS := hI.mem h1
  obtain ⟨-, -, h3, -⟩ := ok_step hC hf hb ha hI hmid
  set u := f s.coefs + h s.coefs with hu
  set v := f p + h p with hv
  have hmax : (1:ℝ) ≤ max |u| 1 := le_max_right _ _
  have hrel : a.tolV ≤ |v - u| / max |u| 1 := by
    by_contra hlt
    push Not at hlt
    refine hnc ⟨by rw [hmid.itercount]; exact hk, ?_⟩
    rw [hcs]
    left
    rw [h3, hmid.obj, hI.obj h1]
    exact hlt
  have habs : a.tolV ≤ |v - u| := by
    have := (le_div_iff₀ (by linarith)).1 hrel
    have ht : 0 < a.tolV := lt_trans (by norm_num) htol
    nlinarith
  by_cases hle : v ≤ u
  · rw [abs_of_nonpos (by linarith)] at habs
    linarith
  · push Not at hle
    exfalso
    by_cases h2 : 1 < s.itercount
    · refine hnr ⟨by rw [hmid.itercount]; exact h2, ?_, ?_, hm⟩
      · rw [h3, hmid.obj, hI.obj h1]; exact hle
      · rw [h3, hmid.obj, hI.obj h1]
        show (1e-10 : ℝ) < |v - u| / max |u| 1
        linarith
    · have := ok_plain hC hf hh hb ha hI hmid hS (hI.early (by omega))
      linarith

end convex

lemma minIts_pos (a : FitArgs) : 0 < a.minItsV := by
  unfold FitArgs.minItsV
  split <;> omega

end Verif.Lemmas.Stopping
