import Verif.Lemmas.Stopping
import Verif.Lemmas.Lsq

/-!
# C96: when FISTA stops

How many passes `fit` makes with the objective stopping rule, why it stops, and that it never gives up on a convex problem.
-/

set_option linter.unusedSectionVars false
set_option linter.unusedVariables false

namespace Verif.Props
open Verif.Spec Verif.Model Verif.Model.Fista Verif.Lemmas Verif.Lemmas.Stopping

variable {n : ℕ}

/-! ### helpers -/

/-- how far the objective can have grown: nothing but the slack of the restart test -/
private def Grown (f h : (Fin n → ℝ) → ℝ) (S : Set (Fin n → ℝ)) (B : ℝ) (x0 : Fin n → ℝ) (s : State n) : Prop :=
  x0 ∈ S → s.coefs ∈ S ∧ f s.coefs + h s.coefs - B + |B| + 1 ≤ (1 + 1e-10 : ℝ) ^ s.itercount * (f x0 + h x0 - B + |B| + 1)

private lemma grown_next {C : Composite n} {f h : (Fin n → ℝ) → ℝ} {S : Set (Fin n → ℝ)} {a : FitArgs} {B : ℝ} {x0 : Fin n → ℝ}
    (hC : IsProblemCore C f h S) (hf : ConvexWithGradient f C.grad) (hh : IsConvexFnOn h S) (hb : a.performBacktrack = true)
    (ha : 0 < a.alpha) (hm : a.monotonicityRestart = true) (hB : ∀ v ∈ S, B ≤ f v + h v) {s s' s1 : State n} {p : Fin n → ℝ}
    (hI : Ok C f h S s) (hG : Grown f h S B x0 s) (hmid : Mid C a s s1 p) (hn : finish C a s1 p (C.smooth p) = .next s') :
    Grown f h S B x0 s' := by
  intro hx
  obtain ⟨hS, hG⟩ := hG hx
  obtain ⟨g1, g2, g3, g4, g5⟩ := ok_step hC hf hb ha hI hmid
  obtain ⟨h1, h2, h3, h4, h5⟩ := finish_next hn
  set u := f s.coefs + h s.coefs with hu
  have hBu : B ≤ u := hB _ hS
  have hu0 : 0 ≤ u - B + |B| + 1 := by have := abs_nonneg B; linarith
  have hmax : max |u| 1 ≤ u - B + |B| + 1 := by
    refine max_le ?_ (by have := abs_nonneg B; linarith)
    rw [abs_le]
    have h3 := neg_abs_le B
    have h4 := le_abs_self B
    constructor <;> linarith
  have hslack : 0 ≤ 1e-10 * max |u| 1 := mul_nonneg (by norm_num) (le_trans zero_le_one (le_max_right _ _))
  suffices hle : s'.coefs ∈ S ∧ f s'.coefs + h s'.coefs ≤ u + 1e-10 * max |u| 1 by
    refine ⟨hle.1, ?_⟩
    rw [h3, hmid.itercount, pow_succ]
    have k1 : (1e-10 : ℝ) * max |u| 1 ≤ 1e-10 * (u - B + |B| + 1) := mul_le_mul_of_nonneg_left hmax (by norm_num)
    calc f s'.coefs + h s'.coefs - B + |B| + 1 ≤ (1 + 1e-10) * (u - B + |B| + 1) := by linarith [hle.2]
      _ ≤ (1 + 1e-10) * ((1 + 1e-10 : ℝ) ^ s.itercount * (f x0 + h x0 - B + |B| + 1)) := mul_le_mul_of_nonneg_left hG (by norm_num)
      _ = _ := by ring
  rcases h5 with h5 | h5
  · rw [h5.2.1, hmid.coefs]
    exact ⟨hS, by linarith⟩
  · rw [h5.2.1]
    refine ⟨g2, ?_⟩
    by_cases hk : 1 < s.itercount
    · by_contra hlt
      push Not at hlt
      refine h5.1 ⟨by rw [hmid.itercount]; exact hk, ?_, ?_, hm⟩
      · rw [g3, hmid.obj, hI.obj (by omega)]
        show u < f p + h p
        linarith
      · rw [g3, hmid.obj, hI.obj (by omega)]
        show (1e-10 : ℝ) < |f p + h p - u| / max |u| 1
        have hd : 0 < f p + h p - u := by linarith
        rw [lt_div_iff₀ (lt_of_lt_of_le one_pos (le_max_right _ _)), abs_of_pos hd]
        linarith
    · have := ok_plain hC hf hh hb ha hI hmid hS (hI.early (by omega))
      linarith

private lemma pass_bound_aux (C : Composite n) (f h : (Fin n → ℝ) → ℝ) (S : Set (Fin n → ℝ)) (hC : IsProblemCore C f h S)
    (hf : ConvexWithGradient f C.grad) (hh : IsConvexFnOn h S) (a : FitArgs) (hb : a.performBacktrack = true) (ha : 0 < a.alpha)
    (hm : a.monotonicityRestart = true) (hcs : a.coefStop = false) (htol : 1e-10 < a.tolV)
    (step : Option ℝ) (hstart : StartsPositive a step) (att : Bool) (fuel : ℕ) (x0 : Fin n → ℝ) (hist : List ObjVal)
    (s : State n) (hfit : fit C a step att fuel x0 = .ok hist s) (B : ℝ) (hB : ∀ v ∈ S, B ≤ f v + h v) :
    hist.length ≤ a.minItsV ∨ ∃ E, hist[a.minItsV]? = some (.num E) ∧
      (hist.length : ℝ) - a.minItsV ≤ 2 * (E - B) / a.tolV + 1 ∧
      (x0 ∈ S → E - B + |B| + 1 ≤ (1 + 1e-10 : ℝ) ^ a.minItsV * (f x0 + h x0 - B + |B| + 1)) := by
  have ht : 0 < a.tolV := lt_trans (by norm_num) htol
  let Small : ℝ → Prop := fun E => x0 ∈ S → E - B + |B| + 1 ≤ (1 + 1e-10 : ℝ) ^ a.minItsV * (f x0 + h x0 - B + |B| + 1)
  let Inv : State n → Prop := fun s => Ok C f h S s ∧ Grown f h S B x0 s ∧ (a.minItsV ≤ s.itercount → ∃ E, (s.hist ++ [s.obj])[a.minItsV]? = some (.num E) ∧ Small E ∧
      (((s.itercount : ℝ) - a.minItsV) * a.tolV ≤ 2 * (E - (f s.coefs + h s.coefs)) ∨
        ((s.itercount : ℝ) - a.minItsV) * a.tolV ≤ 2 * (E - (f s.coefs + h s.coefs)) + a.tolV ∧ s.working = s.coefs))
  let Post : State n → Prop := fun s => s.itercount ≤ s.hist.length ∧ (a.minItsV < s.itercount → ∃ E, s.hist[a.minItsV]? = some (.num E) ∧ Small E ∧
      ((s.itercount : ℝ) - a.minItsV) * a.tolV ≤ 2 * (E - B) + a.tolV)
  have final : ∀ s : State n, Inv s → a.minItsV < s.itercount → ∃ E, s.hist[a.minItsV]? = some (.num E) ∧ Small E ∧
      ((s.itercount : ℝ) - a.minItsV) * a.tolV ≤ 2 * (E - B) + a.tolV := by
    intro s hI hlt
    obtain ⟨E, e1, eS, e2⟩ := hI.2.2 hlt.le
    refine ⟨E, ?_, eS, ?_⟩
    · rwa [List.getElem?_append_left (by rw [hI.1.len]; exact hlt)] at e1
    · have := hB _ (hI.1.mem (by omega))
      rcases e2 with e2 | ⟨e2, -⟩ <;> linarith
  have key := fit_ind (C := C) (a := a) (fuel := fuel) (step := step) (att := att) (x0 := x0) Inv Post
    ⟨ok_start hstart att x0, fun hx => ⟨hx, by simp [startState]⟩, fun h0 => absurd (lt_of_lt_of_le (minIts_pos a) h0) (lt_irrefl _)⟩
    (fun s s' s1 p hI hlt hmid hn => by
      have hok := ok_next hC hf hh hb ha hI.1 hmid hn
      have hgr := grown_next hC hf hh hb ha hm hB hI.1 hI.2.1 hmid hn
      refine ⟨hok, hgr, fun hk => ?_⟩
      obtain ⟨h1, h2, h3, h4, h5⟩ := finish_next hn
      obtain ⟨m1, -⟩ := next_more hn
      rw [h3, hmid.itercount] at hk
      rcases Nat.lt_or_ge s.itercount a.minItsV with hlt' | hge
      · -- the pass that reaches `min_its`
        have heq : a.minItsV = s.itercount + 1 := by omega
        have hS := hok.mem (by rw [h3]; omega)
        refine ⟨f s'.coefs + h s'.coefs, ?_, ?_, Or.inl ?_⟩
        · rw [List.getElem?_append_right (by rw [hok.len, h3, hmid.itercount]; omega), hok.len, h3, hmid.itercount, heq, hok.obj (by rw [h3]; omega)]
          simp
        · intro hx
          have := (hgr hx).2
          rwa [h3, hmid.itercount, ← heq] at this
        · rw [h3, hmid.itercount, heq]; simp
      · obtain ⟨E, e1, eS, e2⟩ := hI.2.2 hge
        have hpos : 0 < s.itercount := lt_of_lt_of_le (minIts_pos a) hge
        refine ⟨E, ?_, eS, ?_⟩
        · rw [h2, hmid.hist, List.getElem?_append_left (by simp [hI.1.len]; omega)]; exact e1
        · have hc : ((s'.itercount : ℝ) - a.minItsV) * a.tolV = ((s.itercount : ℝ) - a.minItsV) * a.tolV + a.tolV := by
            rw [h3, hmid.itercount]; push_cast; ring
          rw [hc]
          rcases h5 with h5 | h5
          · right
            have hnw : ¬ s.working = s.coefs := fun hw => ok_no_reject hC hf hh hb ha hI.1 hmid hw h5.1
            rw [h5.2.1, h5.2.2.2.1, hmid.coefs]
            refine ⟨?_, rfl⟩
            rcases e2 with e2 | ⟨-, e2⟩
            · linarith
            · exact absurd e2 hnw
          · left
            have := ok_drop hC hf hh hb ha hm hcs htol hI.1 hmid hge hpos m1 h5.1
            rw [h5.2.1]
            rcases e2 with e2 | ⟨e2, -⟩ <;> linarith)
    (fun s s' s1 p hI hlt hmid hn => by
      obtain ⟨i1, i2, i3, i4, i5, i6, i7⟩ := finish_stop hn
      refine ⟨by rw [i2, i3, hmid.hist, hmid.itercount]; simp [hI.1.len], fun hk => ?_⟩
      rw [i3, hmid.itercount] at hk ⊢
      obtain ⟨E, e1, eS, e2⟩ := final s hI hk
      refine ⟨E, ?_, eS, e2⟩
      rw [i2, hmid.hist, List.getElem?_append_left (by rw [hI.1.len]; exact hk)]
      exact e1)
    (fun s hI _ => ⟨hI.1.len.ge, final s hI⟩) hfit
  obtain ⟨rfl, h1, h2⟩ := key
  rw [List.length_take, min_eq_left h1]
  rcases Nat.lt_or_ge a.minItsV s.itercount with h3 | h3
  · right
    obtain ⟨E, e1, eS, e2⟩ := h2 h3
    refine ⟨E, ?_, ?_, eS⟩
    · rw [List.getElem?_take_of_lt h3]; exact e1
    · have : 2 * (E - B) / a.tolV + 1 = (2 * (E - B) + a.tolV) / a.tolV := by field_simp
      rw [this, le_div_iff₀ ht]
      exact e2
  · exact Or.inl h3

/-! ### theorems -/

/-- **C96** the solver never gives up on a convex problem: with backtracking and any stopping rule, no run counts a bad step, so it
does not end with the warning "prox is taking bad steps". -/
theorem C96_no_bad_steps (C : Composite n) (f h : (Fin n → ℝ) → ℝ) (S : Set (Fin n → ℝ)) (hC : IsProblemCore C f h S)
    (hf : ConvexWithGradient f C.grad) (hh : IsConvexFnOn h S) (a : FitArgs) (hb : a.performBacktrack = true) (ha : 0 < a.alpha)
    (step : Option ℝ) (hstart : StartsPositive a step) (att : Bool) (fuel : ℕ) (x0 : Fin n → ℝ) (hist : List ObjVal)
    (s : State n) (hfit : fit C a step att fuel x0 = .ok hist s) : s.badstep = 0 := by
  refine (fit_ind (C := C) (a := a) (fuel := fuel) (step := step) (att := att) (x0 := x0) (Ok C f h S) (fun s => s.badstep = 0)
    (ok_start hstart att x0) (fun s s' s1 p hI hlt hmid hn => ok_next hC hf hh hb ha hI hmid hn)
    (fun s s' s1 p hI hlt hmid hn => ?_) (fun s hI _ => hI.bad) hfit).2
  rcases stop_more hn with ⟨-, h1⟩ | ⟨h1, h2⟩
  · rw [h1, hmid.badstep, hI.bad]
  · rw [hmid.weight] at h2
    exact absurd h1 (ok_no_reject hC hf hh hb ha hI hmid (hI.working h2))

/-- **C96** why a run ends: on a convex problem, with the objective stopping rule, a run whose history is shorter than `max_its` ended
because the last proposal changed the objective by less than `tol * max(|objective|, 1)`; the returned coefficients are the ones it
was compared with. -/
theorem C96_stop_reason (C : Composite n) (f h : (Fin n → ℝ) → ℝ) (S : Set (Fin n → ℝ)) (hC : IsProblemCore C f h S)
    (hf : ConvexWithGradient f C.grad) (hh : IsConvexFnOn h S) (a : FitArgs) (hb : a.performBacktrack = true) (ha : 0 < a.alpha)
    (hcs : a.coefStop = false) (htol : 0 < a.tolV) (step : Option ℝ) (hstart : StartsPositive a step) (att : Bool) (fuel : ℕ)
    (x0 : Fin n → ℝ) (hist : List ObjVal) (s : State n) (hfit : fit C a step att fuel x0 = .ok hist s)
    (hlen : hist.length < a.maxItsV) :
    ∃ (r : Record n) (u v : ℝ), s.log.getLast? = some r ∧ r.kept = s.coefs ∧ a.minItsV ≤ hist.length ∧
      f r.kept + h r.kept = u ∧ f r.proposed + h r.proposed = v ∧ |v - u| < a.tolV * max |u| 1 := by
  have key := fit_ind (C := C) (a := a) (fuel := fuel) (step := step) (att := att) (x0 := x0) (Ok C f h S)
    (fun s => s.itercount ≤ s.hist.length ∧ (s.itercount < a.maxItsV → ∃ (r : Record n) (u v : ℝ), s.log.getLast? = some r ∧
      r.kept = s.coefs ∧ a.minItsV ≤ s.itercount ∧ f r.kept + h r.kept = u ∧ f r.proposed + h r.proposed = v ∧ |v - u| < a.tolV * max |u| 1))
    (ok_start hstart att x0) (fun s s' s1 p hI hlt hmid hn => ok_next hC hf hh hb ha hI hmid hn)
    (fun s s' s1 p hI hlt hmid hn => by
      obtain ⟨i1, i2, i3, i4, i5, i6, i7⟩ := finish_stop hn
      refine ⟨by rw [i2, i3, hmid.hist, hmid.itercount]; simp [hI.len], fun _ => ?_⟩
      rcases stop_more hn with ⟨⟨h1, h2⟩, -⟩ | ⟨h1, h2⟩
      · obtain ⟨-, -, h3, -⟩ := ok_step hC hf hb ha hI hmid
        rw [hmid.itercount] at h1
        have hpos : 0 < s.itercount := lt_of_lt_of_le (minIts_pos a) h1
        refine ⟨recordOf C s1 p, f s1.coefs + h s1.coefs, f p + h p, by rw [i1]; simp, i5.symm, by rw [i3, hmid.itercount]; exact h1, rfl, rfl, ?_⟩
        rw [hcs] at h2
        rw [h3, hmid.obj, hI.obj hpos] at h2
        rw [hmid.coefs]
        have hmax : (1:ℝ) ≤ max |f s.coefs + h s.coefs| 1 := le_max_right _ _
        rcases h2 with h2 | h2
        · exact (div_lt_iff₀ (by linarith)).1 h2
        · have h2' : |f p + h p - (f s.coefs + h s.coefs)| < a.tolV := h2
          nlinarith
      · rw [hmid.weight] at h2
        exact absurd h1 (ok_no_reject hC hf hh hb ha hI hmid (hI.working h2)))
    (fun s hI hge => ⟨hI.len.ge, fun hlt => absurd hlt hge⟩) hfit
  obtain ⟨rfl, h1, h2⟩ := key
  rw [List.length_take, min_eq_left h1] at hlen ⊢
  exact h2 hlen

/-- **C96** number of passes: on a convex problem bounded below by `B`, with backtracking, monotonicity restarts and the objective
stopping rule with a tolerance above `1e-10` (the defaults), once `min_its` passes are made every further pass either lowers the
objective by `tol` or is followed by one that does, so a run makes at most `2 (E - B) / tol + 1` further passes, where `E` is the
objective after `min_its` passes.  This holds whatever the problem's conditioning, the start, the step sizes and `max_its`. -/
theorem C96_pass_bound (C : Composite n) (f h : (Fin n → ℝ) → ℝ) (S : Set (Fin n → ℝ)) (hC : IsProblemCore C f h S)
    (hf : ConvexWithGradient f C.grad) (hh : IsConvexFnOn h S) (a : FitArgs) (hb : a.performBacktrack = true) (ha : 0 < a.alpha)
    (hm : a.monotonicityRestart = true) (hcs : a.coefStop = false) (htol : 1e-10 < a.tolV)
    (step : Option ℝ) (hstart : StartsPositive a step) (att : Bool) (fuel : ℕ) (x0 : Fin n → ℝ) (hist : List ObjVal)
    (s : State n) (hfit : fit C a step att fuel x0 = .ok hist s) (B : ℝ) (hB : ∀ v ∈ S, B ≤ f v + h v) :
    hist.length ≤ a.minItsV ∨ ∃ E, hist[a.minItsV]? = some (.num E) ∧
      (hist.length : ℝ) - a.minItsV ≤ 2 * (E - B) / a.tolV + 1 := by
  rcases pass_bound_aux C f h S hC hf hh a hb ha hm hcs htol step hstart att fuel x0 hist s hfit B hB with h1 | ⟨E, h1, h2, -⟩
  · exact Or.inl h1
  · exact Or.inr ⟨E, h1, h2⟩

/-- **C96** the same bound in terms of the start: from a feasible start `x0` a run makes at most
`min_its + 1 + 2 (1 + 1e-10)^min_its (F(x0) - B + |B| + 1) / tol` passes. -/
theorem C96_pass_bound_start (C : Composite n) (f h : (Fin n → ℝ) → ℝ) (S : Set (Fin n → ℝ)) (hC : IsProblemCore C f h S)
    (hf : ConvexWithGradient f C.grad) (hh : IsConvexFnOn h S) (a : FitArgs) (hb : a.performBacktrack = true) (ha : 0 < a.alpha)
    (hm : a.monotonicityRestart = true) (hcs : a.coefStop = false) (htol : 1e-10 < a.tolV)
    (step : Option ℝ) (hstart : StartsPositive a step) (att : Bool) (fuel : ℕ) (x0 : Fin n → ℝ) (hist : List ObjVal)
    (s : State n) (hfit : fit C a step att fuel x0 = .ok hist s) (B : ℝ) (hB : ∀ v ∈ S, B ≤ f v + h v)
    (hx0 : x0 ∈ S) :
    (hist.length : ℝ) ≤ a.minItsV + 1 + 2 * ((1 + 1e-10) ^ a.minItsV * (f x0 + h x0 - B + |B| + 1)) / a.tolV := by
  have ht : 0 < a.tolV := lt_trans (by norm_num) htol
  have h0 : 0 ≤ f x0 + h x0 - B + |B| + 1 := by
    have := hB x0 hx0
    have := abs_nonneg B
    linarith
  have hP : 0 ≤ 2 * ((1 + 1e-10 : ℝ) ^ a.minItsV * (f x0 + h x0 - B + |B| + 1)) / a.tolV := by positivity
  rcases pass_bound_aux C f h S hC hf hh a hb ha hm hcs htol step hstart att fuel x0 hist s hfit B hB with h1 | ⟨E, h1, h2, h3⟩
  · have : (hist.length : ℝ) ≤ a.minItsV := by exact_mod_cast h1
    linarith
  · have h3 := h3 hx0
    have : 2 * (E - B) / a.tolV ≤ 2 * ((1 + 1e-10 : ℝ) ^ a.minItsV * (f x0 + h x0 - B + |B| + 1)) / a.tolV := by
      refine div_le_div_of_nonneg_right ?_ ht.le
      have := abs_nonneg B
      linarith
    linarith

/-- **C96** `fit` ends by its tolerance: for a convex problem bounded below whose gradient is `M`-Lipschitz and whose proximal map does
not raise, with the default rules, a tolerance above `1e-10`, a feasible start, and `max_its` larger than the bound of
`C96_pass_bound_start`, `fit` returns before `max_its` and its last proposal changed the objective by less than the tolerance. -/
theorem C96_ends_by_tolerance (C : Composite n) (f h : (Fin n → ℝ) → ℝ) (S : Set (Fin n → ℝ)) (hC : IsProblemCore C f h S)
    (hf : ConvexWithGradient f C.grad) (hh : IsConvexFnOn h S) (M : ℝ) (hM : 0 < M) (hfM : SmoothWith f C.grad M)
    (hprox : ∀ (L : ℝ) (x g : Fin n → ℝ), 0 < L →
      ∃ z, C.proximal (Quad.init (some L) (some (.arr x)) (some (.arr g)) (some 0)) = some z)
    (a : FitArgs) (hb : a.performBacktrack = true) (ha : 1 < a.alpha) (hm : a.monotonicityRestart = true) (hcs : a.coefStop = false)
    (htol : 1e-10 < a.tolV) (step : Option ℝ) (hstart : StartsPositive a step) (att : Bool) (x0 : Fin n → ℝ) (hx0 : x0 ∈ S)
    (hnan : startObj C x0 ≠ .nan) (B : ℝ) (hB : ∀ v ∈ S, B ≤ f v + h v)
    (hmax : a.minItsV + 1 + 2 * ((1 + 1e-10) ^ a.minItsV * (f x0 + h x0 - B + |B| + 1)) / a.tolV < (a.maxItsV : ℝ)) :
    ∃ N, ∀ fuel, N < fuel → ∃ hist s, fit C a step att fuel x0 = .ok hist s ∧ hist.length < a.maxItsV ∧
      ∃ (r : Record n) (u v : ℝ), s.log.getLast? = some r ∧ r.kept = s.coefs ∧
        f r.kept + h r.kept = u ∧ f r.proposed + h r.proposed = v ∧ |v - u| < a.tolV * max |u| 1 := by
  obtain ⟨N, hN⟩ := C33_terminates C f h S hC M hM hfM hprox a hb ha step hstart att x0 hnan
  refine ⟨N, fun fuel hfu => ?_⟩
  obtain ⟨hist, s, hfit⟩ := hN fuel hfu
  have ha0 : 0 < a.alpha := by linarith
  have h1 := C96_pass_bound_start C f h S hC hf hh a hb ha0 hm hcs htol step hstart att fuel x0 hist s hfit B hB hx0
  have h2 : hist.length < a.maxItsV := by exact_mod_cast lt_of_le_of_lt h1 hmax
  obtain ⟨r, u, v, k1, k2, -, k3⟩ := C96_stop_reason C f h S hC hf hh a hb ha0 hcs (lt_trans (by norm_num) htol) step hstart att fuel x0
    hist s hfit h2
  exact ⟨hist, s, hfit, h2, r, u, v, k1, k2, k3⟩

/-- ridge regression with identity design, in any dimension, from any start: for some `max_its` every hypothesis of
`C96_ends_by_tolerance` (and so of the other theorems) is met with the other arguments at their defaults. -/
example (y x0 : Fin n → ℝ) :
    ∃ a : FitArgs, a.tol = none ∧ a.minIts = none ∧ a.coefStop = false ∧
    ∃ N, ∀ fuel, N < fuel → ∃ hist s, fit (smoothComposite (fun x => .num (lsqLoss y x)) (fun x i => x i - y i)
      (Quad.init (some 1) none none none) 0) a none false fuel x0 = .ok hist s ∧ hist.length < a.maxItsV := by
  set own : Quad (Fin n) ℝ := Quad.init (some 1) none none none with hown
  obtain ⟨hp, htot⟩ := C33_smooth_atom_problem (lsqLoss y) (fun x i => x i - y i) own (by show (0:ℝ) ≤ 1; norm_num) 0
  obtain ⟨k, hk⟩ := exists_nat_gt (((5:ℕ):ℝ) + 1 + 2 * ((1 + 1e-10) ^ 5 * (lsqLoss y x0 + own.funcVal x0 - 0 + |(0:ℝ)| + 1)) / (1 / 100000))
  have hval : ∀ x : Fin n → ℝ, own.funcVal x = 1 / 2 * ∑ i, x i ^ 2 := by
    intro x
    rw [funcVal_eq]
    simp [hown, Quad.init, linearAt, centerAt]
  have hB : ∀ v ∈ (Set.univ : Set (Fin n → ℝ)), 0 ≤ lsqLoss y v + own.funcVal v := by
    intro v _
    rw [hval]
    have h1 : 0 ≤ lsqLoss y v := Finset.sum_nonneg fun i _ => by positivity
    have h2 : 0 ≤ ∑ i, v i ^ 2 := Finset.sum_nonneg fun i _ => sq_nonneg _
    linarith
  have hh : IsConvexFnOn own.funcVal (Set.univ : Set (Fin n → ℝ)) := by
    refine fun x _ z _ s t hs ht hst => ⟨Set.mem_univ _, ?_⟩
    simp only [hval, Finset.mul_sum, ← Finset.sum_add_distrib]
    refine Finset.sum_le_sum fun i _ => ?_
    have : t = 1 - s := by linarith
    subst this
    nlinarith [mul_nonneg (mul_nonneg hs ht) (sq_nonneg (x i - z i))]
  have hsm : SmoothWith (lsqLoss y) (fun x i => x i - y i) 1 := by
    constructor
    · exact fun x z => lsqLoss_upper y x z le_rfl
    · intro x z
      have : dot (fun i => z i - x i) (fun i => x i - y i - (z i - y i)) = - sqDist z x := by
        unfold dot sqDist
        rw [← Finset.sum_neg_distrib]
        exact Finset.sum_congr rfl fun i _ => by ring
      rw [this, abs_neg, abs_of_nonneg (sqDist_nonneg _ _), one_mul]
  refine ⟨{ maxIts := some (k + 1) }, rfl, rfl, rfl, ?_⟩
  obtain ⟨N, hN⟩ := C96_ends_by_tolerance _ _ _ _ hp.core (lsqLoss_convex y) hh 1 one_pos hsm htot { maxIts := some (k + 1) } rfl
    (by show (1:ℝ) < 11 / 10; norm_num) rfl rfl (by show (1e-10:ℝ) < 1 / 100000; norm_num) none (by show (0:ℝ) < 1; norm_num) false x0
    (Set.mem_univ _) (hp.start x0) 0 hB (by
      show ((5:ℕ):ℝ) + 1 + 2 * ((1 + 1e-10) ^ 5 * (lsqLoss y x0 + own.funcVal x0 - 0 + |(0:ℝ)| + 1)) / (1 / 100000) < ((k + 1 : ℕ) : ℝ)
      push_cast at hk ⊢
      linarith)
  exact ⟨N, fun fuel hfu => by obtain ⟨hist, s, h1, h2, _⟩ := hN fuel hfu; exact ⟨hist, s, h1, h2⟩⟩

end Verif.Props
