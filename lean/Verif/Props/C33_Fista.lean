import Verif.Lemmas.Fista
import Verif.Lemmas.Smooth
import Verif.Props.C14_Quadratic
import Mathlib.Tactic.NormNum
import Mathlib.Data.Fin.VecNotation
import Mathlib.Algebra.BigOperators.Fin
import Mathlib.Algebra.Order.Archimedean.Basic

/-!
# C33: invariants of `FISTA.fit`

`IsProblem C f h S` says that the object handed to the solver is the composite problem `f + h` over `S`:
its smooth part evaluates to `f`, its nonsmooth part to `h` (`inf` outside `S` when feasibility is checked), and
its proximal map solves the proximal problem.  A run is described by its trace: one record per pass through the
loop (what `debug=True` prints, plus the points).
-/

set_option linter.unusedSectionVars false
set_option linter.unusedVariables false

namespace Verif.Props
open Verif.Spec Verif.Model Verif.Model.Fista Verif.Lemmas

variable {n : ℕ}

/-- `C` is the problem: minimise `f + h` over `S`. -/
structure IsProblem (C : Composite n) (f h : (Fin n → ℝ) → ℝ) (S : Set (Fin n → ℝ)) : Prop where
  smooth : ∀ x, C.smooth x = .num (f x)
  nonsmooth : ∀ x ∈ S, C.nonsmooth x false = .num (h x)
  feasible : ∀ x ∈ S, C.nonsmooth x true = .num (h x)
  infeasible : ∀ x, x ∉ S → C.nonsmooth x true = .inf
  prox : ∀ (L : ℝ) (x g z : Fin n → ℝ), 0 < L →
    C.proximal (Quad.init (some L) (some (.arr x)) (some (.arr g)) (some 0)) = some z → IsProxStep L h S x g z

/-- The part of `IsProblem` about what the solver does after it has evaluated the objective at the start: nothing is said
about the feasibility check. -/
structure IsProblemCore (C : Composite n) (f h : (Fin n → ℝ) → ℝ) (S : Set (Fin n → ℝ)) : Prop where
  smooth : ∀ x, C.smooth x = .num (f x)
  nonsmooth : ∀ x ∈ S, C.nonsmooth x false = .num (h x)
  prox : ∀ (L : ℝ) (x g z : Fin n → ℝ), 0 < L →
    C.proximal (Quad.init (some L) (some (.arr x)) (some (.arr g)) (some 0)) = some z → IsProxStep L h S x g z

lemma IsProblem.core {C : Composite n} {f h : (Fin n → ℝ) → ℝ} {S : Set (Fin n → ℝ)} (hC : IsProblem C f h S) :
    IsProblemCore C f h S := ⟨hC.smooth, hC.nonsmooth, hC.prox⟩

lemma IsProblem.start {C : Composite n} {f h : (Fin n → ℝ) → ℝ} {S : Set (Fin n → ℝ)} (hC : IsProblem C f h S)
    (x0 : Fin n → ℝ) : startObj C x0 ≠ .nan := by
  unfold startObj
  rw [hC.smooth]
  by_cases hx : x0 ∈ S
  · rw [hC.feasible _ hx]; exact fun h => by cases h
  · rw [hC.infeasible _ hx]; exact fun h => by cases h

/-- The initial step of the solver is positive: either the one left by a previous `fit` or `start_step`. -/
def StartsPositive (a : FitArgs) (step : Option ℝ) : Prop := 0 < step.getD a.startStep

private lemma stepOf_pos {C : Composite n} {a : FitArgs} {step : ℝ} {w p : Fin n → ℝ} (h : StepOf C a step w p)
    (hL : a.performBacktrack = false → 0 < C.lipschitz) : 0 < step := by
  unfold StepOf at h
  by_cases hb : a.performBacktrack = true
  · rw [if_pos hb] at h; exact h.1
  · rw [if_neg hb] at h
    rw [h.1]; exact one_div_pos.2 (hL (by simpa using hb))

/-- invariant used for the first theorem -/
private structure Inv1 (a : FitArgs) (C : Composite n) (s : State n) : Prop where
  step : 0 < s.step
  weight : 1 ≤ s.weight
  hist : s.hist.length = s.itercount
  its : s.itercount ≤ a.maxItsV
  log : ∀ r ∈ s.log, 0 < r.step ∧ 1 ≤ r.weight

private structure Post1 (a : FitArgs) (s : State n) : Prop where
  step : 0 < s.step
  weight : 1 ≤ s.weight
  hist : s.itercount ≤ s.hist.length
  its : s.itercount ≤ a.maxItsV
  log : ∀ r ∈ s.log, 0 < r.step ∧ 1 ≤ r.weight

/-- **C33** In every run of `fit` that returns, on any problem whatsoever: the returned history has at most `max_its`
entries (`max_its` the argument if it is a positive number, 10000 otherwise), the step size is positive and the
momentum weight at least 1 at every pass and at the end. -/
theorem C33_step_weight_history (C : Composite n) (a : FitArgs) (step : Option ℝ) (att : Bool) (fuel : ℕ)
    (x0 : Fin n → ℝ) (hstart : StartsPositive a step) (ha : 0 < a.alpha)
    (hL : a.performBacktrack = false → 0 < C.lipschitz) (hist : List ObjVal) (s : State n)
    (h : fit C a step att fuel x0 = .ok hist s) :
    (∀ m, a.maxIts = some m → m ≠ 0 → hist.length ≤ m) ∧ (a.maxIts = none → hist.length ≤ 10000) ∧
    hist.length = s.itercount ∧ 0 < s.step ∧ 1 ≤ s.weight ∧ ∀ r ∈ s.log, 0 < r.step ∧ 1 ≤ r.weight := by
  have key := fit_ind (C := C) (a := a) (fuel := fuel) (step := step) (att := att) (x0 := x0)
    (Inv1 a C) (Post1 a)
    ⟨hstart, le_rfl, rfl, Nat.zero_le _, fun r hr => by cases hr⟩
    (fun s s' s1 p hI hlt hm hf => by
      have hst := stepOf_pos (hm.step (fun _ => hI.step) ha) hL
      obtain ⟨h1, h2, h3, h4, h5⟩ := finish_next hf
      refine ⟨by rw [h4]; exact hst, ?_, ?_, ?_, ?_⟩
      · rcases h5 with h5 | h5
        · rw [h5.2.2.2.2.1]
        · rw [h5.2.2.2.2.1]; exact one_le_nextWeight _
      · rw [h2, hm.hist, h3, hm.itercount]; simp [hI.hist]
      · rw [h3, hm.itercount]; exact hlt
      · intro r hr
        rw [h1, hm.log, List.mem_append] at hr
        rcases hr with hr | hr
        · exact hI.log r hr
        · rw [List.mem_singleton] at hr
          subst hr
          exact ⟨hst, by show 1 ≤ s1.weight; rw [hm.weight]; exact hI.weight⟩)
    (fun s s' s1 p hI hlt hm hf => by
      have hst := stepOf_pos (hm.step (fun _ => hI.step) ha) hL
      obtain ⟨h1, h2, h3, h4, h5, h6, h7⟩ := finish_stop hf
      refine ⟨by rw [h4]; exact hst, ?_, ?_, ?_, ?_⟩
      · rw [h7, hm.weight]; exact hI.weight
      · rw [h2, hm.hist, h3, hm.itercount]; simp [hI.hist]
      · rw [h3, hm.itercount]; exact hlt.le
      · intro r hr
        rw [h1, hm.log, List.mem_append] at hr
        rcases hr with hr | hr
        · exact hI.log r hr
        · rw [List.mem_singleton] at hr
          subst hr
          exact ⟨hst, by show 1 ≤ s1.weight; rw [hm.weight]; exact hI.weight⟩)
    (fun s hI _ => ⟨hI.step, hI.weight, hI.hist.ge, hI.its, hI.log⟩) h
  obtain ⟨rfl, hP⟩ := key
  have hlen : (s.hist.take s.itercount).length = s.itercount := by
    rw [List.length_take]; exact min_eq_left hP.hist
  refine ⟨fun m hm hm0 => ?_, fun hm => ?_, hlen, hP.step, hP.weight, hP.log⟩
  · rw [hlen]
    have := hP.its
    unfold FitArgs.maxItsV at this
    rw [hm] at this
    cases m with
    | zero => exact absurd rfl hm0
    | succ k => exact this
  · rw [hlen]
    have := hP.its
    unfold FitArgs.maxItsV at this
    rw [hm] at this
    exact this

/-- general form: every record of a run is a step of the algorithm -/
private lemma log_steps (C : Composite n) (a : FitArgs) (step : Option ℝ) (att : Bool) (fuel : ℕ)
    (x0 : Fin n → ℝ) (hstart : StartsPositive a step) (ha : 0 < a.alpha)
    (hL : a.performBacktrack = false → 0 < C.lipschitz) (hist : List ObjVal) (s : State n)
    (h : fit C a step att fuel x0 = .ok hist s) :
    ∀ r ∈ s.log, StepOf C a r.step r.working r.proposed := by
  refine (fit_ind (C := C) (a := a) (fuel := fuel) (step := step) (att := att) (x0 := x0)
    (fun s => 0 < s.step ∧ ∀ r ∈ s.log, StepOf C a r.step r.working r.proposed)
    (fun s => ∀ r ∈ s.log, StepOf C a r.step r.working r.proposed)
    ⟨hstart, fun r hr => by cases hr⟩ ?_ ?_ (fun s hI _ => hI.2) h).2
  · intro s s' s1 p hI hlt hm hf
    have hst := hm.step (fun _ => hI.1) ha
    obtain ⟨h1, h2, h3, h4, h5⟩ := finish_next hf
    refine ⟨by rw [h4]; exact stepOf_pos hst hL, fun r hr => ?_⟩
    rw [h1, hm.log, List.mem_append] at hr
    rcases hr with hr | hr
    · exact hI.2 r hr
    · rw [List.mem_singleton] at hr
      subst hr
      exact hst
  · intro s s' s1 p hI hlt hm hf r hr
    have hst := hm.step (fun _ => hI.1) ha
    obtain ⟨h1, h2, h3, h4, h5⟩ := finish_stop hf
    rw [h1, hm.log, List.mem_append] at hr
    rcases hr with hr | hr
    · exact hI.2 r hr
    · rw [List.mem_singleton] at hr
      subst hr
      exact hst

/-- **C33** (convex smooth part; see `C33_accept_fails` for what happens otherwise).  Every step taken in a run with
backtracking is the exact proximal gradient step from the working point with step size `step`, and satisfies the
quadratic upper bound with constant `1/step` at the proposed point - in both branches of the acceptance test. -/
theorem C33_accept_partial (C : Composite n) (f h : (Fin n → ℝ) → ℝ) (S : Set (Fin n → ℝ)) (hC : IsProblemCore C f h S)
    (hf : ConvexWithGradient f C.grad) (a : FitArgs) (hb : a.performBacktrack = true) (ha : 0 < a.alpha)
    (step : Option ℝ) (hstart : StartsPositive a step) (att : Bool) (fuel : ℕ)
    (x0 : Fin n → ℝ) (hist : List ObjVal) (s : State n) (hfit : fit C a step att fuel x0 = .ok hist s) :
    ∀ r ∈ s.log, 0 < r.step ∧ IsProxStep (1 / r.step) h S r.working (C.grad r.working) r.proposed ∧
      QuadraticUpperBound f (C.grad r.working) (1 / r.step) r.working r.proposed := by
  intro r hr
  have := log_steps C a step att fuel x0 hstart ha (fun h => by rw [hb] at h; cases h) hist s hfit r hr
  unfold StepOf at this
  rw [if_pos hb] at this
  exact ⟨this.1, hC.prox _ _ _ _ (one_div_pos.2 this.1) this.2.1, bound_of_btStop' hC.smooth hf this.2.2⟩

/-- relation between consecutive entries of the history that holds by construction -/
private def Slack (a b : ObjVal) : Prop :=
  ∀ u, a = .num u → b ≠ .inf ∧ ∀ v, b = .num v → v ≤ u + 1e-10 * max |u| 1

private lemma slack_refl (a : ObjVal) : Slack a a := by
  intro u hu
  refine ⟨by rw [hu]; exact fun h => (by cases h), fun v hv => ?_⟩
  rw [hu] at hv
  injection hv with hv
  subst hv
  have : (0:ℝ) ≤ 1e-10 * max |u| 1 := mul_nonneg (by norm_num) (le_trans zero_le_one (le_max_right _ _))
  linarith

private lemma slack_of_not_rejects {a : FitArgs} {s1 : State n} {pobj : ObjVal} (hm : a.monotonicityRestart = true)
    (hk : 1 < s1.itercount) (h : ¬ Rejects a s1 pobj) : Slack s1.obj pobj := by
  intro u hu
  have key : ∀ b, pobj = b → b ≠ .nan → (s1.obj.lt pobj → ¬ (ObjVal.num 1e-10).lt ((pobj.absSub s1.obj).relTo s1.obj)) := by
    intro b _ _ h1 h2
    exact h ⟨hk, h1, h2, hm⟩
  constructor
  · intro hinf
    refine key .inf hinf (fun h => by cases h) ?_ ?_
    · rw [hu, hinf]; trivial
    · rw [hu, hinf]; trivial
  · intro v hv
    by_contra hlt
    push Not at hlt
    have hpos : (0:ℝ) < max |u| 1 := lt_of_lt_of_le zero_lt_one (le_max_right _ _)
    have h0 : (0:ℝ) ≤ 1e-10 * max |u| 1 := mul_nonneg (by norm_num) hpos.le
    refine key (.num v) hv (fun h => by cases h) ?_ ?_
    · rw [hu, hv]; show u < v; linarith
    · rw [hu, hv]
      show (1e-10 : ℝ) < |v - u| / max |u| 1
      rw [lt_div_iff₀ hpos]
      have := le_abs_self (v - u)
      linarith

private lemma getElem?_append_last {α : Type*} (l : List α) (x : α) (k : ℕ) (y : α) (h : (l ++ [x])[k]? = some y) :
    l[k]? = some y ∨ (k = l.length ∧ x = y) := by
  rcases lt_trichotomy k l.length with hk | hk | hk
  · left; rwa [List.getElem?_append_left hk] at h
  · right; refine ⟨hk, ?_⟩
    rw [hk, List.getElem?_append_right le_rfl] at h
    simpa using h
  · rw [List.getElem?_append_right hk.le] at h
    have : k - l.length ≠ 0 := by omega
    rcases hq : k - l.length with _ | m
    · omega
    · rw [hq] at h; simp at h

/-- all consecutive entries from index `m` on are related -/
private def ChainFrom (R : ObjVal → ObjVal → Prop) (m : ℕ) (l : List ObjVal) : Prop :=
  ∀ k u v, m ≤ k → l[k]? = some u → l[k + 1]? = some v → R u v

private lemma chain_append {R : ObjVal → ObjVal → Prop} {m : ℕ} {l : List ObjVal} {x y : ObjVal} (h : ChainFrom R m (l ++ [x]))
    (hxy : m ≤ l.length → R x y) : ChainFrom R m ((l ++ [x]) ++ [y]) := by
  intro k u v hk hu hv
  rcases getElem?_append_last _ _ _ _ hv with hv' | ⟨hv', hyv⟩
  · rcases getElem?_append_last _ _ _ _ hu with hu' | ⟨hu', _⟩
    · exact h k u v hk hu' hv'
    · have := (List.getElem?_eq_some_iff.1 hv').1
      omega
  · have hkl : k = l.length := by simpa using hv'
    subst hyv
    subst hkl
    rw [List.append_assoc, List.getElem?_append_right le_rfl] at hu
    simp at hu
    subst hu
    exact hxy hk

private lemma chain_take {R : ObjVal → ObjVal → Prop} {m : ℕ} {l : List ObjVal} {x : ObjVal} (h : ChainFrom R m (l ++ [x])) (j : ℕ) :
    ChainFrom R m (l.take j) := by
  intro k u v hk hu hv
  have h1 : ∀ (i : ℕ) (w : ObjVal), (l.take j)[i]? = some w → (l ++ [x])[i]? = some w := by
    intro i w hw
    rw [List.getElem?_take] at hw
    split_ifs at hw with hi
    rw [List.getElem?_append_left (List.getElem?_eq_some_iff.1 hw).1]
    exact hw
  exact h k u v hk (h1 _ _ hu) (h1 _ _ hv)

/-- **C33** (any problem; the first two passes are not protected, see `C33_monotone_convex` and
`C33_monotone_fails`).  With `monotonicity_restart`, from the third entry of the history on, a finite kept
objective is never followed by `inf` or by a value larger than it by more than `1e-10 * max(|obj|, 1)`. -/
theorem C33_monotone_partial (C : Composite n) (a : FitArgs) (hm : a.monotonicityRestart = true) (step : Option ℝ)
    (att : Bool) (fuel : ℕ) (x0 : Fin n → ℝ) (hist : List ObjVal) (s : State n)
    (hfit : fit C a step att fuel x0 = .ok hist s) (k : ℕ) (hk : 2 ≤ k) (u : ℝ) (b : ObjVal)
    (hu : hist[k]? = some (.num u)) (hb : hist[k + 1]? = some b) :
    b ≠ .inf ∧ ∀ v, b = .num v → v ≤ u + 1e-10 * max |u| 1 := by
  have key := fit_ind (C := C) (a := a) (fuel := fuel) (step := step) (att := att) (x0 := x0)
    (fun s => s.hist.length = s.itercount ∧ ChainFrom Slack 2 (s.hist ++ [s.obj]))
    (fun s => ∃ x, ChainFrom Slack 2 (s.hist ++ [x]))
    ⟨rfl, fun k u v hk hu hv => by simp [startState] at hv⟩
    (fun s s' s1 p hI hlt hmid hf => by
      obtain ⟨h1, h2, h3, h4, h5⟩ := finish_next hf
      refine ⟨by rw [h2, hmid.hist, h3, hmid.itercount]; simp [hI.1], ?_⟩
      rw [h2, hmid.hist]
      refine chain_append hI.2 fun hl => ?_
      rcases h5 with h5 | h5
      · rw [h5.2.2.1, hmid.obj]; exact slack_refl _
      · rw [h5.2.2.1, ← hmid.obj]
        refine slack_of_not_rejects hm ?_ h5.1
        rw [hmid.itercount, ← hI.1]; omega)
    (fun s s' s1 p hI hlt hmid hf => by
      obtain ⟨h1, h2, h3, h4, h5, h6, h7⟩ := finish_stop hf
      refine ⟨s.obj, ?_⟩
      rw [h2, hmid.hist]
      exact chain_append hI.2 fun _ => slack_refl _)
    (fun s hI _ => ⟨_, hI.2⟩) hfit
  obtain ⟨rfl, x, hP⟩ := key
  exact chain_take hP _ k _ _ hk hu hb u rfl

private lemma nextWorking_one (p c : Fin n → ℝ) : nextWorking 1 p c = p := by
  funext i; simp [nextWorking]

/-- **C33** For a convex problem with a correct proximal map, with backtracking (default) and `monotonicity_restart`
(default), *every* consecutive pair of the history obeys the slack: the unprotected first two passes are plain
proximal gradient steps and cannot increase the objective. -/
theorem C33_monotone_convex (C : Composite n) (f h : (Fin n → ℝ) → ℝ) (S : Set (Fin n → ℝ)) (hC : IsProblem C f h S)
    (hf : ConvexWithGradient f C.grad) (hh : IsConvexFnOn h S) (a : FitArgs) (hb : a.performBacktrack = true)
    (ha : 0 < a.alpha) (hm : a.monotonicityRestart = true)
    (step : Option ℝ) (hstart : StartsPositive a step) (att : Bool) (fuel : ℕ) (x0 : Fin n → ℝ) (hist : List ObjVal)
    (s : State n) (hfit : fit C a step att fuel x0 = .ok hist s) :
    (∀ (k : ℕ) (u : ℝ), hist[k]? = some (.num u) → ∀ b, hist[k + 1]? = some b →
      ∃ v, b = .num v ∧ v ≤ u + 1e-10 * max |u| 1) ∧
    (hist ≠ [] → s.coefs ∈ S ∧ s.obj = .num (f s.coefs + h s.coefs)) := by
  have hslack0 : ∀ u : ℝ, (0:ℝ) ≤ 1e-10 * max |u| 1 := fun u =>
    mul_nonneg (by norm_num) (le_trans zero_le_one (le_max_right _ _))
  let R : ObjVal → ObjVal → Prop := fun x b => ∀ u, x = .num u → ∃ v, b = .num v ∧ v ≤ u + 1e-10 * max |u| 1
  have hRrefl : ∀ x, R x x := fun x u hu => ⟨u, hu, by linarith [hslack0 u]⟩
  have hproxS : ∀ s1 : State n, ∀ p, StepOf C a s1.step s1.working p →
      0 < s1.step ∧ IsProxStep (1 / s1.step) h S s1.working (C.grad s1.working) p ∧
      QuadraticUpperBound f (C.grad s1.working) (1 / s1.step) s1.working p := by
    intro s1 p hst
    unfold StepOf at hst
    rw [if_pos hb] at hst
    exact ⟨hst.1, hC.prox _ _ _ _ (one_div_pos.2 hst.1) hst.2.1, bound_of_btStop' hC.smooth hf hst.2.2⟩
  have key := fit_ind (C := C) (a := a) (fuel := fuel) (step := step) (att := att) (x0 := x0)
    (fun s => 0 < s.step ∧ s.hist.length = s.itercount ∧ ChainFrom R 0 (s.hist ++ [s.obj]) ∧
      (s.coefs ∈ S → s.obj = .num (f s.coefs + h s.coefs)) ∧ (s.coefs ∉ S → s.obj = .inf) ∧
      (0 < s.itercount → s.coefs ∈ S) ∧ (s.itercount ≤ 1 → s.working = s.coefs) ∧ (s.itercount = 0 → s.weight = 1))
    (fun s => (∃ x, ChainFrom R 0 (s.hist ++ [x])) ∧ (0 < s.itercount → s.coefs ∈ S ∧ s.obj = .num (f s.coefs + h s.coefs)))
    ⟨hstart, rfl, fun k u v hk hu hv => by simp [startState] at hv,
      fun hx => by
        show startObj C x0 = _
        unfold startObj
        rw [hC.smooth, hC.feasible x0 hx]; rfl,
      fun hx => by
        show startObj C x0 = _
        unfold startObj
        rw [hC.smooth, hC.infeasible x0 hx]; rfl,
      fun h => absurd h (lt_irrefl 0), fun _ => rfl, fun _ => rfl⟩
    (fun s s' s1 p hI hlt hmid hf' => by
      obtain ⟨hs, hlen, hch, hobj, hobj', hpos, hw, hwt⟩ := hI
      obtain ⟨hst, hps, hub⟩ := hproxS s1 p (hmid.step (fun _ => hs) ha)
      obtain ⟨h1, h2, h3, h4, h5⟩ := finish_next hf'
      have hpobj : (C.smooth p).add (C.nonsmooth p false) = .num (f p + h p) := by
        rw [hC.smooth, hC.nonsmooth _ hps.1]; rfl
      refine ⟨by rw [h4]; exact hst, by rw [h2, hmid.hist, h3, hmid.itercount]; simp [hlen], ?_, ?_, ?_, ?_, ?_, ?_⟩
      · rw [h2, hmid.hist]
        refine chain_append hch fun _ => ?_
        rcases h5 with h5 | h5
        · rw [h5.2.2.1, hmid.obj]; exact hRrefl _
        · rw [h5.2.2.1, ← hmid.obj]
          intro u hu
          refine ⟨f p + h p, hpobj, ?_⟩
          by_cases hk : 1 < s1.itercount
          · exact (slack_of_not_rejects hm hk h5.1 u hu).2 _ hpobj
          · have hcS : s.coefs ∈ S := by
              by_contra hc
              rw [hmid.obj, hobj' hc] at hu
              cases hu
            have hwc : s1.working = s.coefs := by
              rcases hmid.working with e | e
              · rw [e]; exact hw (by rw [← hmid.itercount]; omega)
              · exact e
            rw [hwc] at hps hub
            have hd := prox_grad_decrease (one_div_pos.2 hst) hh hcS hps hub
            rw [hmid.obj, hobj hcS] at hu
            injection hu with hu
            have h0 : 0 ≤ 1 / s1.step / 2 * sqDist p s.coefs :=
              mul_nonneg (by have := one_div_pos.2 hst; linarith) (sqDist_nonneg _ _)
            have := hslack0 u
            linarith
      · rcases h5 with h5 | h5
        · rw [h5.2.1, h5.2.2.1, hmid.coefs, hmid.obj]; exact hobj
        · rw [h5.2.1, h5.2.2.1]; exact fun _ => hpobj
      · rcases h5 with h5 | h5
        · rw [h5.2.1, h5.2.2.1, hmid.coefs, hmid.obj]; exact hobj'
        · rw [h5.2.1]; exact fun hc => absurd hps.1 hc
      · rcases h5 with h5 | h5
        · intro _
          rw [h5.2.1, hmid.coefs]
          refine hpos ?_
          have := h5.1.1
          rw [hmid.itercount] at this
          omega
        · rw [h5.2.1]; exact fun _ => hps.1
      · intro hle
        rcases h5 with h5 | h5
        · have := h5.1.1; omega
        · rw [h5.2.2.2.1, h5.2.1, hmid.weight, hwt (by rw [h3, hmid.itercount] at hle; omega)]
          exact nextWorking_one _ _
      · intro h0; rw [h3] at h0; omega)
    (fun s s' s1 p hI hlt hmid hf' => by
      obtain ⟨hs, hlen, hch, hobj, hobj', hpos, hw, hwt⟩ := hI
      obtain ⟨h1, h2, h3, h4, h5, h6, h7⟩ := finish_stop hf'
      refine ⟨⟨s.obj, ?_⟩, ?_⟩
      · rw [h2, hmid.hist]
        exact chain_append hch fun _ => hRrefl _
      · rw [h3, h5, h6, hmid.itercount, hmid.coefs, hmid.obj]
        exact fun h0 => ⟨hpos h0, hobj (hpos h0)⟩)
    (fun s hI _ => ⟨⟨_, hI.2.2.1⟩, fun h0 => ⟨hI.2.2.2.2.2.1 h0, hI.2.2.2.1 (hI.2.2.2.2.2.1 h0)⟩⟩) hfit
  obtain ⟨rfl, ⟨x, hP⟩, hfin⟩ := key
  refine ⟨fun k u hu b hb' => chain_take hP _ k _ _ (Nat.zero_le _) hu hb' u rfl, fun hne => hfin ?_⟩
  rcases Nat.eq_zero_or_pos s.itercount with h0 | h0
  · rw [h0] at hne; simp at hne
  · exact h0

/-- **C33** (exact arithmetic) `fit` never raises `stepsize zero reached`, on any problem. -/
theorem C33_no_zero_step (C : Composite n) (a : FitArgs) (step : Option ℝ) (att : Bool) (fuel : ℕ)
    (x0 : Fin n → ℝ) (hstart : StartsPositive a step) (ha : 0 < a.alpha)
    (hL : a.performBacktrack = false → 0 < C.lipschitz) (s : State n) :
    fit C a step att fuel x0 ≠ .zeroStep s := by
  intro h
  unfold fit at h
  cases ho : startObj C x0 with
  | nan => rw [ho] at h; cases h
  | num r => rw [ho] at h; exact loop_not_zero ha hL _ (startState C a step att x0) _ hstart h
  | inf => rw [ho] at h; exact loop_not_zero ha hL _ (startState C a step att x0) _ hstart h

/-- **C33** If the gradient is `M`-Lipschitz and the proximal map never raises then, for every start and every
setting of the other arguments, the backtracking loops end and `fit` returns.  (`fit` raises if the objective at the start is
nan; for an `IsProblem` it never is.) -/
theorem C33_terminates (C : Composite n) (f h : (Fin n → ℝ) → ℝ) (S : Set (Fin n → ℝ)) (hC : IsProblemCore C f h S)
    (M : ℝ) (hM : 0 < M) (hf : SmoothWith f C.grad M)
    (hprox : ∀ (L : ℝ) (x g : Fin n → ℝ), 0 < L →
      ∃ z, C.proximal (Quad.init (some L) (some (.arr x)) (some (.arr g)) (some 0)) = some z)
    (a : FitArgs) (hb : a.performBacktrack = true) (ha : 1 < a.alpha)
    (step : Option ℝ) (hstart : StartsPositive a step) (att : Bool) (x0 : Fin n → ℝ)
    (hx0 : startObj C x0 ≠ .nan) :
    ∃ N, ∀ fuel, N < fuel → ∃ hist s, fit C a step att fuel x0 = .ok hist s := by
  obtain ⟨N, hN⟩ := loop_terminates hC.smooth hf hM ha hb hprox (a.maxItsV + 1) (startState C a step att x0) hstart
    (Nat.zero_le _) (by show a.maxItsV < 0 + (a.maxItsV + 1); omega)
  refine ⟨N, fun fuel hfu => ?_⟩
  obtain ⟨hist, s, hl⟩ := hN fuel hfu
  refine ⟨hist, s, ?_⟩
  unfold fit
  cases ho : startObj C x0 with
  | nan => exact absurd ho hx0
  | num r => exact hl
  | inf => exact hl

/-- **C33** If the gradient is `M`-Lipschitz, backtracking never makes the step small: at every pass of every run that
returns, the step size is at least `min(start, 1/(2 M alpha))`, where `start` is the step the solver starts with. -/
theorem C33_step_bound (C : Composite n) (f h : (Fin n → ℝ) → ℝ) (S : Set (Fin n → ℝ)) (hC : IsProblemCore C f h S)
    (M : ℝ) (hM : 0 < M) (hf : SmoothWith f C.grad M) (a : FitArgs) (hb : a.performBacktrack = true) (ha : 1 ≤ a.alpha)
    (step : Option ℝ) (hstart : StartsPositive a step) (att : Bool) (fuel : ℕ) (x0 : Fin n → ℝ) (hist : List ObjVal)
    (s : State n) (hfit : fit C a step att fuel x0 = .ok hist s) :
    ∀ r ∈ s.log, min (step.getD a.startStep) (1 / (2 * M * a.alpha)) ≤ r.step := by
  have hlow : 0 < min (step.getD a.startStep) (1 / (2 * M * a.alpha)) :=
    lt_min hstart (one_div_pos.2 (by have : 0 < a.alpha := by linarith
                                     positivity))
  have hrec : ∀ (s s1 : State n) (p : Fin n → ℝ), min (step.getD a.startStep) (1 / (2 * M * a.alpha)) ≤ s.step →
      Mid C a s s1 p → min (step.getD a.startStep) (1 / (2 * M * a.alpha)) ≤ s1.step := by
    intro s s1 p hs hmid
    refine le_trans (le_min hs (min_le_right _ _)) (hmid.lower hb (lt_of_lt_of_le hlow hs) ha f M hC.smooth hf hM)
  have key := fit_ind (C := C) (a := a) (fuel := fuel) (step := step) (att := att) (x0 := x0)
    (fun s => min (step.getD a.startStep) (1 / (2 * M * a.alpha)) ≤ s.step ∧
      ∀ r ∈ s.log, min (step.getD a.startStep) (1 / (2 * M * a.alpha)) ≤ r.step)
    (fun s => ∀ r ∈ s.log, min (step.getD a.startStep) (1 / (2 * M * a.alpha)) ≤ r.step)
    ⟨min_le_left _ _, fun r hr => by cases hr⟩
    (fun s s' s1 p hI hlt hmid hf' => by
      have h1 := hrec s s1 p hI.1 hmid
      obtain ⟨i1, _, _, i4, _⟩ := finish_next hf'
      refine ⟨by rw [i4]; exact h1, fun r hr => ?_⟩
      rw [i1, hmid.log, List.mem_append] at hr
      rcases hr with hr | hr
      · exact hI.2 r hr
      · rw [List.mem_singleton] at hr; subst hr; exact h1)
    (fun s s' s1 p hI hlt hmid hf' => by
      have h1 := hrec s s1 p hI.1 hmid
      obtain ⟨i1, _⟩ := finish_stop hf'
      intro r hr
      rw [i1, hmid.log, List.mem_append] at hr
      rcases hr with hr | hr
      · exact hI.2 r hr
      · rw [List.mem_singleton] at hr; subst hr; exact h1)
    (fun s hI _ => hI.2) hfit
  exact key.2

/-- Any smooth atom with its own quadratic (`smooth.solve`) is a problem in the sense above, with
`h` the value of the quadratic. -/
theorem C33_smooth_atom_problem (f : (Fin n → ℝ) → ℝ) (g : (Fin n → ℝ) → Fin n → ℝ) (own : Quad (Fin n) ℝ)
    (hown : 0 ≤ own.coef) (l : ℝ) :
    IsProblem (smoothComposite (fun x => .num (f x)) g own l) f own.funcVal Set.univ ∧
    ∀ (L : ℝ) (x g' : Fin n → ℝ), 0 < L →
      ∃ z, (smoothComposite (fun x => .num (f x)) g own l).proximal
        (Quad.init (some L) (some (.arr x)) (some (.arr g')) (some 0)) = some z := by
  have hcoef : ∀ L x g', ((own.add (some (Quad.init (some L) (some (.arr x)) (some (.arr g')) (some 0)))).coef : ℝ)
      = own.coef + L := fun _ _ _ => rfl
  constructor
  · refine ⟨fun _ => rfl, fun _ _ => rfl, fun _ _ => rfl, fun x hx => absurd (Set.mem_univ x) hx, ?_⟩
    intro L x g' z hL hz
    have hz' : smoothProximal own (Quad.init (some L) (some (.arr x)) (some (.arr g')) (some 0)) = some z := hz
    have hpos : 0 < own.coef + L := by linarith
    unfold smoothProximal at hz'
    simp only at hz'
    rw [hcoef, if_neg hpos.ne'] at hz'
    injection hz' with hz'
    have hzi : ∀ i, (own.coef + L) * z i = own.coef * centerAt own i - linearAt own i + L * x i - g' i := by
      intro i
      rw [← hz']
      simp only [Quad.add, Option.elim, get_map₂]
      rw [collapsedLinear_get, collapsedLinear_get]
      simp only [Quad.init, linearAt, centerAt, Option.elim, get_arr, Option.getD]
      field_simp
      ring
    refine ⟨Set.mem_univ _, fun u _ hne => ?_⟩
    have hd := sqDist_pos hne
    have e : L / 2 * sqDist u x + dot g' u + own.funcVal u =
        L / 2 * sqDist z x + dot g' z + own.funcVal z + (own.coef + L) / 2 * sqDist u z := by
      rw [funcVal_eq, funcVal_eq]
      unfold sqDist dot
      simp only [Finset.mul_sum]
      have : ∀ i, L / 2 * (u i - x i) ^ 2 + g' i * u i + own.coef / 2 * (u i - centerAt own i) ^ 2 + linearAt own i * u i =
          L / 2 * (z i - x i) ^ 2 + g' i * z i + own.coef / 2 * (z i - centerAt own i) ^ 2 + linearAt own i * z i +
            (own.coef + L) / 2 * (u i - z i) ^ 2 := by
        intro i
        have := hzi i
        linear_combination (u i - z i) * this
      have hs := Finset.sum_congr rfl fun i (_ : i ∈ Finset.univ) => this i
      simp only [Finset.sum_add_distrib] at hs
      linarith
    simp only
    rw [e]
    nlinarith
  · intro L x g' hL
    rcases hz : smoothProximal own (Quad.init (some L) (some (.arr x)) (some (.arr g')) (some 0)) with _ | z
    · unfold smoothProximal at hz
      simp only at hz
      rw [hcoef, if_neg (by positivity : own.coef + L ≠ 0)] at hz
      cases hz
    · exact ⟨z, hz⟩

/-! ### What happens without convexity -/

/-- the smooth function `8x³ + 6x² + x` of one variable -/
private def cubic (x : Fin 1 → ℝ) : ℝ := ∑ i, (8 * x i ^ 3 + 6 * x i ^ 2 + x i)
private def cubicGrad (x : Fin 1 → ℝ) : Fin 1 → ℝ := fun i => 24 * x i ^ 2 + 12 * x i + 1
/-- the quadratic part `-x/2` -/
private noncomputable def halfLinear : Quad (Fin 1) ℝ :=
  Quad.init (some 0) (some (.scalar 0)) (some (.arr fun _ => -1 / 2)) (some 0)
private noncomputable def cubicC : Composite 1 := smoothComposite (fun x => .num (cubic x)) cubicGrad halfLinear 0

private lemma half_val (x : Fin 1 → ℝ) : halfLinear.funcVal x = -(x 0) / 2 := by
  rw [funcVal_eq]
  simp [halfLinear, Quad.init, linearAt, centerAt]
  ring

private lemma cubic_val (x : Fin 1 → ℝ) : cubic x = 8 * x 0 ^ 3 + 6 * x 0 ^ 2 + x 0 := by simp [cubic]

private lemma cubic_prox : cubicC.proximal (stepQuad (1 / 1) (fun _ => 0) (cubicGrad fun _ => 0)) =
    some fun _ => -1 / 2 := by
  show smoothProximal halfLinear _ = _
  unfold smoothProximal
  simp only
  have hc : (halfLinear.add (some (stepQuad (1 / 1) (fun _ => 0) (cubicGrad fun _ => 0)))).coef = 1 := by
    show (0:ℝ) + (1 / 1) = 1
    norm_num
  rw [hc, if_neg one_ne_zero]
  congr 1
  funext i
  simp only [Quad.add, Option.elim, get_map₂]
  rw [collapsedLinear_get, collapsedLinear_get]
  simp [halfLinear, stepQuad, Quad.init, linearAt, centerAt, cubicGrad]
  norm_num

private lemma cubic_bt (fuel : ℕ) :
    backtrack cubicC (11 / 10) (fuel + 1) 0 (fun _ => 0) 1 false = .ok (fun _ => -1 / 2) (.num 0) 1 false := by
  have hv0 : cubic (fun _ => 0) = 0 := by rw [cubic_val]; norm_num
  have hv1 : cubic (fun _ => -1 / 2) = 0 := by rw [cubic_val]; norm_num
  unfold backtrack
  rw [if_neg (by decide)]
  unfold btLoop
  have : cubicC.grad (fun _ => 0) = cubicGrad fun _ => 0 := rfl
  rw [this, cubic_prox]
  simp only
  rw [if_pos]
  · show BtResult.ok _ (ObjVal.num (cubic _)) _ _ = _
    rw [hv1]
  · show btStop cubicC 1 _ _ (ObjVal.num (cubic _)) (ObjVal.num (cubic _))
    rw [hv0, hv1]
    unfold btStop
    simp only
    rw [if_neg (by norm_num)]
    have : cubicC.grad = cubicGrad := rfl
    rw [this]
    simp [ip, nsq, cubicGrad]
    norm_num

/-- **C33 fails without convexity** (both the acceptance claim and monotonicity).  The smooth function `8x³+6x²+x` with
its exact gradient and the exact proximal map, started at 0 with all arguments at their defaults except `max_its=1`:
the backtracking test compares gradients because the smooth value did not change, and accepts at once the step to
`-1/2`, where the quadratic upper bound is false and the objective is larger than at the start by 1/4. -/
theorem C33_accept_fails :
    ∃ (C : Composite 1) (f h : (Fin 1 → ℝ) → ℝ), IsProblem C f h Set.univ ∧ (∀ x, IsGradientAt f (C.grad x) x) ∧
      ∀ fuel, ∃ hist s r, fit C { maxIts := some 1 } none false (fuel + 1) (fun _ => 0) = .ok hist s ∧ r ∈ s.log ∧
        ¬ QuadraticUpperBound f (C.grad r.working) (1 / r.step) r.working r.proposed ∧
        f s.coefs + h s.coefs = f (fun _ => 0) + h (fun _ => 0) + 1 / 4 := by
  refine ⟨cubicC, cubic, halfLinear.funcVal, (C33_smooth_atom_problem cubic cubicGrad halfLinear le_rfl 0).1, ?_, ?_⟩
  · intro x
    refine isGradientAt_sum (fun _ t => 8 * t ^ 3 + 6 * t ^ 2 + t) _ x fun i => ?_
    have h1 := ((hasDerivAt_pow 3 (x i)).const_mul 8).add ((hasDerivAt_pow 2 (x i)).const_mul 6)
    have h2 := h1.add (hasDerivAt_id (x i))
    have e : cubicGrad x i = 8 * ((3:ℕ) * x i ^ (3 - 1)) + 6 * ((2:ℕ) * x i ^ (2 - 1)) + 1 := by
      show 24 * x i ^ 2 + 12 * x i + 1 = _
      norm_num
      ring
    show HasDerivAt _ (cubicGrad x i) _
    rw [e]
    exact h2
  · intro fuel
    have hv0 : cubic (fun _ => 0) = 0 := by rw [cubic_val]; norm_num
    have hv1 : cubic (fun _ => -1 / 2) = 0 := by rw [cubic_val]; norm_num
    have hh0 : halfLinear.funcVal (fun _ => 0) = 0 := by rw [half_val]; norm_num
    have hh1 : halfLinear.funcVal (fun _ => -1 / 2) = 1 / 4 := by rw [half_val]; norm_num
    have hso : startObj cubicC (fun _ => 0) = .num 0 := by
      show ObjVal.num (cubic _ + halfLinear.funcVal _) = _
      rw [hv0, hh0]; norm_num
    set a : FitArgs := { maxIts := some 1 } with ha
    have hpobj : (ObjVal.num 0).add (cubicC.nonsmooth (fun _ => -1 / 2) false) = .num (1 / 4) := by
      show ObjVal.num (0 + halfLinear.funcVal _) = _
      rw [hh1]; norm_num
    let s0 := startState cubicC a none false (fun _ => 0)
    have hpass : ∃ s', pass cubicC a (fuel + 1) s0 = .next s' ∧ s'.itercount = 1 ∧ s'.coefs = (fun _ => -1 / 2) ∧
        s'.log = [⟨0, 1, fun _ => 0, fun _ => -1 / 2, 1, startObj cubicC (fun _ => 0), .num (1 / 4), fun _ => 0⟩] := by
      unfold pass
      simp only
      rw [if_pos rfl]
      have hbt : backtrack cubicC a.alpha (fuel + 1) (prepare a s0).itercount (prepare a s0).working (prepare a s0).step
          (prepare a s0).attempt = .ok (fun _ => -1 / 2) (.num 0) 1 false := cubic_bt fuel
      rw [hbt]
      unfold finish
      simp only
      rw [if_neg, if_neg]
      · refine ⟨_, rfl, rfl, rfl, ?_⟩
        rw [hpobj]; rfl
      · rintro ⟨h, _⟩
        exact absurd h (by show ¬ 1 < 0; omega)
      · rintro ⟨h, _⟩
        exact absurd h (by show ¬ 5 ≤ 0; omega)
    obtain ⟨s', hs1, hs2, hs3, hs4⟩ := hpass
    refine ⟨s'.hist.take s'.itercount, s', _, ?_, by rw [hs4]; exact List.mem_singleton.2 rfl, ?_, ?_⟩
    · unfold fit
      rw [hso]
      show loop cubicC a (fuel + 1) 2 s0 = _
      unfold loop
      rw [if_pos (by show 0 < 1; omega), hs1]
      simp only
      unfold loop
      rw [if_neg (by rw [hs2]; show ¬ 1 < 1; omega)]
    · show ¬ QuadraticUpperBound cubic (cubicGrad fun _ => 0) (1 / 1) (fun _ => 0) (fun _ => -1 / 2)
      unfold QuadraticUpperBound
      rw [hv0, hv1]
      simp [dot, sqDist, cubicGrad]
      norm_num
    · rw [hs3, hv0, hv1, hh0, hh1]; norm_num

/-- least squares `½‖x - y‖²` -/
private noncomputable def lsq (y x : Fin n → ℝ) : ℝ := ∑ i, (x i - y i) ^ 2 / 2

private lemma lsq_taylor (y x z : Fin n → ℝ) :
    lsq y z = lsq y x + dot (fun i => x i - y i) (fun i => z i - x i) + 1 / 2 * sqDist z x := by
  unfold lsq dot sqDist
  rw [Finset.mul_sum, ← Finset.sum_add_distrib, ← Finset.sum_add_distrib]
  exact Finset.sum_congr rfl fun i _ => by ring

private lemma lsq_convex (y : Fin n → ℝ) : ConvexWithGradient (lsq y) (fun x i => x i - y i) := by
  constructor
  · intro x z a b ha hb hab
    unfold lsq
    rw [Finset.mul_sum, Finset.mul_sum, ← Finset.sum_add_distrib]
    refine Finset.sum_le_sum fun i _ => ?_
    have hb' : b = 1 - a := by linarith
    subst hb'
    nlinarith [mul_nonneg ha hb, sq_nonneg (x i - z i), mul_nonneg (mul_nonneg ha hb) (sq_nonneg (x i - z i))]
  · intro x
    refine isGradientAt_sum (fun i t => (t - y i) ^ 2 / 2) _ x fun i => ?_
    have := (((hasDerivAt_id (x i)).sub_const (y i)).pow 2).div_const 2
    have e : ((2:ℕ) : ℝ) * (id (x i) - y i) ^ (2 - 1) * 1 / 2 = x i - y i := by simp
    rw [e] at this
    exact this

private lemma lsq_smooth (y : Fin n → ℝ) : SmoothWith (lsq y) (fun x i => x i - y i) 1 := by
  constructor
  · intro x z
    unfold QuadraticUpperBound
    rw [lsq_taylor y x z]
  · intro x z
    have : dot (fun i => z i - x i) (fun i => x i - y i - (z i - y i)) = - sqDist z x := by
      unfold dot sqDist
      rw [← Finset.sum_neg_distrib]
      exact Finset.sum_congr rfl fun i _ => by ring
    rw [this, abs_neg, abs_of_nonneg (sqDist_nonneg _ _), one_mul]

/-- concrete case: least squares in any dimension, with default arguments and any start, meets the hypotheses of
`C33_accept_partial`, `C33_monotone_convex` and `C33_terminates`, so such runs exist. -/
example (y x0 : Fin n → ℝ) :
    let C := smoothComposite (fun x => .num (lsq y x)) (fun x i => x i - y i) (Quad.init (some 1) none none none) 0
    ∃ N, ∀ fuel, N < fuel → ∃ hist s, fit C {} none false fuel x0 = .ok hist s := by
  have hp := C33_smooth_atom_problem (lsq y) (fun x i => x i - y i) (Quad.init (some 1) none none none)
    (by show (0:ℝ) ≤ 1; norm_num) 0
  exact C33_terminates _ _ _ _ hp.1.core 1 one_pos (lsq_smooth y) hp.2 {} rfl (by show (1:ℝ) < 11 / 10; norm_num) none
    (by show (0:ℝ) < 1; norm_num) false x0 (hp.1.start x0)

end Verif.Props
