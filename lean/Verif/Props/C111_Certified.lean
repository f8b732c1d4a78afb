import Verif.Lemmas.Stopping
import Verif.Props.C100_AnyLoss
import Verif.Props.C100_Losses
import Verif.Props.C90_Atoms

/-!
# C111: solving again as a test of optimality

The tolerance of one call of `solve` says nothing about the distance of its answer from the minimum (`C96_tol_limit_fails`).  Calling
`solve(min_its=1)` again does: a call that stops at its first test certifies its answer, a start that is good enough always passes,
and every call that does not stop there lowers the objective by the tolerance, so repeating the call ends.
-/

set_option linter.unusedSectionVars false
set_option linter.unusedVariables false

namespace Verif.Props
open Verif.Spec Verif.Model Verif.Model.Fista Verif.Lemmas Verif.Lemmas.Stopping AnyLoss

/-! ### specification -/

/-- what a certified answer misses the value of `u` by at most: `gap + sqrt (2 gap / t * dist²)` -/
noncomputable def certified (gap t dist2 : ℝ) : ℝ := gap + Real.sqrt (2 * gap / t * dist2)

/-! ### one call, as the solver sees it -/

section
variable {n : ℕ}

private lemma sqDist_cs (x p u : Fin n → ℝ) :
    sqDist u x - sqDist u p ≤ 2 * Real.sqrt (sqDist x u * sqDist p x) - sqDist p x := by
  have h1 : sqDist u x - sqDist u p = 2 * ∑ i, (u i - x i) * (p i - x i) - sqDist p x := by
    unfold sqDist
    rw [Finset.mul_sum, ← Finset.sum_sub_distrib, ← Finset.sum_sub_distrib]
    exact Finset.sum_congr rfl fun i _ => by ring
  have h2 : (∑ i, (u i - x i) * (p i - x i)) ≤ Real.sqrt (sqDist x u * sqDist p x) := by
    refine Real.le_sqrt_of_sq_le ?_
    rw [sqDist_comm x u]
    exact Finset.sum_mul_sq_le_sq_mul_sq _ _ _
  linarith

private lemma cert_of_stop {f h : (Fin n → ℝ) → ℝ} {g : (Fin n → ℝ) → Fin n → ℝ} {S : Set (Fin n → ℝ)}
    (hf : ConvexWithGradient f g) (hh : IsConvexFnOn h S) {x p : Fin n → ℝ} {t r c : ℝ} (ht : 0 < t) (htr : t ≤ r) (hx : x ∈ S)
    (hz : IsProxStep (1 / r) h S x (g x) p) (hb : QuadraticUpperBound f (g x) (1 / r) x p)
    (hc : f x + h x - (f p + h p) ≤ c) {u : Fin n → ℝ} (hu : u ∈ S) :
    f x + h x - (f u + h u) ≤ certified c t (sqDist x u) := by
  have hr : 0 < r := lt_of_lt_of_le ht htr
  have hL : 0 < 1 / r := one_div_pos.2 hr
  have h1 := prox_grad_decrease hL hh hx hz hb
  have h2 := prox_grad_ineq hL hf hh hz hb u hu
  have h3 := sqDist_cs x p u
  have hD : 0 ≤ sqDist p x := sqDist_nonneg _ _
  have hE : 0 ≤ sqDist x u := sqDist_nonneg _ _
  have hD2 : 1 / r / 2 * sqDist p x ≤ c := by linarith
  have hc0 : 0 ≤ c := le_trans (mul_nonneg (by linarith) hD) hD2
  have h4 : 1 / r * Real.sqrt (sqDist x u * sqDist p x) ≤ Real.sqrt (2 * c / t * sqDist x u) := by
    refine Real.le_sqrt_of_sq_le ?_
    rw [mul_pow, Real.sq_sqrt (mul_nonneg hE hD)]
    have e : (1 / r) ^ 2 * (sqDist x u * sqDist p x) = (2 * (1 / r / 2 * sqDist p x)) / r * sqDist x u := by field_simp
    rw [e]
    refine mul_le_mul_of_nonneg_right ?_ hE
    calc 2 * (1 / r / 2 * sqDist p x) / r ≤ 2 * c / r := div_le_div_of_nonneg_right (by linarith) hr.le
      _ ≤ 2 * c / t := div_le_div_of_nonneg_left (by linarith) ht htr
  unfold certified
  have h5 := mul_le_mul_of_nonneg_left h3 (show (0:ℝ) ≤ 1 / r / 2 by linarith)
  have h6 : 0 ≤ 1 / r / 2 * sqDist p x := mul_nonneg (by linarith) hD
  nlinarith

/-- everything about one call with `min_its = 1` -/
private lemma run_once {C : Composite n} {f h : (Fin n → ℝ) → ℝ} {S : Set (Fin n → ℝ)} (hC : IsProblemCore C f h S)
    (hf : ConvexWithGradient f C.grad) (hh : IsConvexFnOn h S) {M : ℝ} (hM0 : 0 < M) (hM : SmoothWith f C.grad M)
    {a : FitArgs} (hb : a.performBacktrack = true) (ha : 1 ≤ a.alpha) (hcs : a.coefStop = false) (hmin : a.minItsV = 1)
    (hmax : 2 ≤ a.maxItsV) (htol : 0 < a.tolV) {step : Option ℝ} (hst : StartsPositive a step) {att : Bool} {fuel : ℕ}
    {x0 : Fin n → ℝ} {hist : List ObjVal} {s : State n} (hfit : fit C a step att fuel x0 = .ok hist s) :
    s.coefs ∈ S ∧ 1 ≤ hist.length ∧
    (hist.length = 1 → ∀ u ∈ S, f s.coefs + h s.coefs - (f u + h u) ≤
      certified (a.tolV * max |f s.coefs + h s.coefs| 1) (min (step.getD a.startStep) (1 / (2 * M * a.alpha))) (sqDist s.coefs u)) ∧
    (x0 ∈ S → (hist.length = 1 → f s.coefs + h s.coefs ≤ f x0 + h x0) ∧
      (a.monotonicityRestart = true → 1e-10 < a.tolV → hist.length ≠ 1 → f s.coefs + h s.coefs ≤ f x0 + h x0 - a.tolV) ∧
      ((∀ v ∈ S, f x0 + h x0 - (f v + h v) < a.tolV) → hist.length = 1)) := by
  have ha0 : 0 < a.alpha := by linarith
  set t := min (step.getD a.startStep) (1 / (2 * M * a.alpha)) with ht
  have ht0 : 0 < t := lt_min hst (by positivity)
  let F : (Fin n → ℝ) → ℝ := fun x => f x + h x
  let Inv : State n → Prop := fun s => Ok C f h S s ∧ t ≤ s.step ∧ (x0 ∈ S →
    (s.itercount = 0 → s.coefs = x0) ∧ (s.itercount = 1 → F s.coefs ≤ F x0) ∧
    (a.monotonicityRestart = true → 1e-10 < a.tolV → 2 ≤ s.itercount → F s.coefs ≤ F x0 - a.tolV) ∧
    ((∀ v ∈ S, F x0 - F v < a.tolV) → s.itercount ≤ 1))
  let Post : State n → Prop := fun s => s.itercount ≤ s.hist.length ∧ s.coefs ∈ S ∧ 1 ≤ s.itercount ∧
    (s.itercount = 1 → ∀ u ∈ S, F s.coefs - F u ≤ certified (a.tolV * max |F s.coefs| 1) t (sqDist s.coefs u)) ∧
    (x0 ∈ S → (s.itercount = 1 → F s.coefs ≤ F x0) ∧
      (a.monotonicityRestart = true → 1e-10 < a.tolV → s.itercount ≠ 1 → F s.coefs ≤ F x0 - a.tolV) ∧
      ((∀ v ∈ S, F x0 - F v < a.tolV) → s.itercount = 1))
  have key := fit_ind (C := C) (a := a) (fuel := fuel) (step := step) (att := att) (x0 := x0) Inv Post
    ⟨ok_start hst att x0, min_le_left _ _, fun _ => ⟨fun _ => rfl, fun h => by simp [startState] at h,
      fun _ _ h => by simp [startState] at h, fun _ => by simp [startState]⟩⟩
    (fun s s' s1 p hI hlt hmid hn => by
      obtain ⟨hok, hstep, hrest⟩ := hI
      have hok' := ok_next hC hf hh hb ha0 hok hmid hn
      obtain ⟨h1, h2, h3, h4, h5⟩ := finish_next hn
      obtain ⟨m1, -⟩ := next_more hn
      obtain ⟨g1, g2, g3, g4, g5⟩ := ok_step hC hf hb ha0 hok hmid
      refine ⟨hok', ?_, fun hx => ?_⟩
      · rw [h4]
        refine le_trans ?_ (hmid.lower hb hok.step ha f M hC.smooth hM hM0)
        exact le_min hstep (min_le_right _ _)
      · obtain ⟨r0, r1, r2, r3⟩ := hrest hx
        have hit : s'.itercount = s.itercount + 1 := by rw [h3, hmid.itercount]
        have hmem : s.coefs ∈ S := by
          rcases Nat.eq_zero_or_pos s.itercount with e | e
          · rw [r0 e]; exact hx
          · exact hok.mem e
        refine ⟨fun h => by omega, fun h => ?_, fun hm ht' h2' => ?_, fun hv => ?_⟩
        · have e0 : s.itercount = 0 := by omega
          have hpl := ok_plain hC hf hh hb ha0 hok hmid hmem (hok.early (by omega))
          rcases h5 with h5 | h5
          · have := h5.1.1; rw [hmid.itercount] at this; omega
          · rw [h5.2.1]
            rw [r0 e0] at hpl
            exact hpl
        · rcases h5 with h5 | h5
          · have := h5.1.1
            rw [hmid.itercount] at this
            rw [h5.2.1, hmid.coefs]
            exact r2 hm ht' (by omega)
          · rw [h5.2.1]
            have hd := ok_drop hC hf hh hb ha0 hm hcs ht' hok hmid (by omega) (by omega) m1 h5.1
            show f p + h p ≤ f x0 + h x0 - a.tolV
            rcases Nat.lt_or_ge s.itercount 2 with e | e
            · have : f s.coefs + h s.coefs ≤ f x0 + h x0 := r1 (by omega)
              linarith
            · have : f s.coefs + h s.coefs ≤ f x0 + h x0 - a.tolV := r2 hm ht' e
              linarith
        · by_contra hgt
          have e1 : s.itercount = 1 := by have := r3 hv; omega
          have hpl := ok_plain hC hf hh hb ha0 hok hmid hmem (hok.early (by omega))
          have hle : f s.coefs + h s.coefs ≤ f x0 + h x0 := r1 e1
          have hlow : f x0 + h x0 - (f p + h p) < a.tolV := hv p g2
          refine m1 ⟨by rw [hmid.itercount]; omega, ?_⟩
          rw [hcs]
          right
          rw [g3, hmid.obj, hok.obj (by omega)]
          show |f p + h p - (f s.coefs + h s.coefs)| < a.tolV
          rw [abs_lt]
          constructor <;> linarith)
    (fun s s' s1 p hI hlt hmid hn => by
      obtain ⟨hok, hstep, hrest⟩ := hI
      obtain ⟨i1, i2, i3, i4, i5, i6, i7⟩ := finish_stop hn
      obtain ⟨g1, g2, g3, g4, g5⟩ := ok_step hC hf hb ha0 hok hmid
      have hit : s'.itercount = s.itercount := by rw [i3, hmid.itercount]
      have hpos : 1 ≤ s.itercount := by
        rcases stop_more hn with ⟨⟨h1, -⟩, -⟩ | ⟨h1, -⟩
        · rw [hmid.itercount] at h1; omega
        · have := h1.1; rw [hmid.itercount] at this; omega
      have hco : s'.coefs = s.coefs := by rw [i5, hmid.coefs]
      have hmem := hok.mem hpos
      refine ⟨by rw [i2, i3, hmid.hist, hmid.itercount]; simp [hok.len], by rw [hco]; exact hmem, by omega, fun h1 u hu => ?_,
        fun hx => ?_⟩
      · rw [hit] at h1
        rw [hco]
        have hw : s1.working = s.coefs := by
          rcases hmid.working with e | e
          · rw [e]; exact hok.early (by omega)
          · exact e
        have hlow : t ≤ s1.step := le_trans (le_min hstep (min_le_right _ _)) (hmid.lower hb hok.step ha f M hC.smooth hM hM0)
        rw [hw] at g4 g5
        refine cert_of_stop hf hh ht0 hlow hmem g4 g5 ?_ hu
        rcases stop_more hn with ⟨⟨-, h2⟩, -⟩ | ⟨h2, -⟩
        · rw [hcs, g3, hmid.obj, hok.obj hpos] at h2
          have hm1 : (1:ℝ) ≤ max |f s.coefs + h s.coefs| 1 := le_max_right _ _
          show _ ≤ a.tolV * max |f s.coefs + h s.coefs| 1
          have h3 : |f p + h p - (f s.coefs + h s.coefs)| < a.tolV * max |f s.coefs + h s.coefs| 1 := by
            rcases h2 with h2 | h2
            · exact (div_lt_iff₀ (by linarith)).1 h2
            · have h2' : |f p + h p - (f s.coefs + h s.coefs)| < a.tolV := h2
              nlinarith
          rw [abs_lt] at h3
          linarith [h3.1]
        · have := h2.1; rw [hmid.itercount] at this; omega
      · obtain ⟨r0, r1, r2, r3⟩ := hrest hx
        rw [hco, hit]
        refine ⟨r1, fun hm ht' h => r2 hm ht' (by omega), fun hv => ?_⟩
        have := r3 hv
        omega)
    (fun s hI hge => by
      obtain ⟨hok, hstep, hrest⟩ := hI
      have h2 : 2 ≤ s.itercount := by omega
      refine ⟨hok.len.ge, hok.mem (by omega), by omega, fun h => by omega, fun hx => ?_⟩
      obtain ⟨r0, r1, r2, r3⟩ := hrest hx
      refine ⟨r1, fun hm ht' _ => r2 hm ht' h2, fun hv => ?_⟩
      have := r3 hv
      omega) hfit
  obtain ⟨rfl, k1, k2, k3, k4, k5⟩ := key
  rw [List.length_take, min_eq_left k1]
  exact ⟨k2, k3, k4, k5⟩

end

/-! ### theorems -/

variable {m : ℕ} (S : QuadLoss m) (f : (Fin m → ℝ) → ℝ) (g : (Fin m → ℝ) → Fin m → ℝ) (A : NonsmoothAtom m)
  (pen : (Fin m → ℝ) → WithTop ℝ)

/-- **C111** A call that stops at its first test certifies its answer: for any loss with an `M`-Lipschitz gradient and any atom, if
`solve(min_its=1)`, with backtracking, the objective stopping rule and room for two passes, records one objective value, then the
coefficients `c` it returns, of objective `vc`, exceed the objective of every `u` by at most `gap + sqrt (2 gap / t ‖c - u‖²)`, where
`gap = tol max(|vc|, 1)` and `t = min(start_step, 1/(2 M alpha))`.  Restarts and the other settings do not matter. -/
theorem C111_sound (hS : IsLossFor S f g) (hA : IsAtomFor A pen) (M : ℝ) (hM0 : 0 < M) (hM : SmoothWith f g M)
    (x0 : Fin m → ℝ) (a : FitArgs) (hb : a.performBacktrack = true) (ha : 1 ≤ a.alpha) (hst : 0 < a.startStep)
    (hcs : a.coefStop = false) (hmin : a.minIts = some 1) (hmax : 2 ≤ a.maxItsV) (htol : 0 < a.tolV)
    (lip : ℝ) (fuel : ℕ) (c : Fin m → ℝ) (v : ObjVal) (hist : List ObjVal)
    (hsolve : ((SimpleProblem.ofLoss S A x0).solve none a lip fuel).1 = .ok c v hist) (hone : hist.length = 1) :
    ∃ vc : ℝ, v = .num vc ∧ penalised f S.quad pen c = vc ∧ ∀ (u : Fin m → ℝ) (vu : ℝ), penalised f S.quad pen u = vu →
      vc - vu ≤ certified (a.tolV * max |vc| 1) (min a.startStep (1 / (2 * M * a.alpha))) (sqDist c u) := by
  have hP := pieces hS hA x0
  have hg : ((SimpleProblem.ofLoss S A x0).composite lip).grad = g := hP.grad
  obtain ⟨s, hfit, rfl, hv⟩ := ok_solve hsolve
  obtain ⟨r1, -, r2, -⟩ := run_once (hP.core lip) (by rw [hg]; exact hS.convex) hP.nonsmooth_convex hM0 (by rw [hg]; exact hM)
    hb ha hcs (by unfold FitArgs.minItsV; rw [hmin]) hmax htol (step := none) hst hfit
  have hve := obj_eq f S.quad r1
  refine ⟨_, ?_, hve, fun u vu hu => ?_⟩
  · rw [hv, C100_objective S f g A pen hS hA x0 s.coefs _ hve]
  · have hud : u ∈ dom pen := (obj_top f S.quad).1 (by rw [hu]; exact WithTop.coe_ne_top)
    rw [obj_eq f S.quad hud, WithTop.coe_inj] at hu
    rw [← hu]
    exact r2 hone u hud

/-- **C111** A start that is good enough passes: if the objective of the start exceeds that of no coefficients by `tol` or more, the
call records one objective value and its answer is at least as good as the start. -/
theorem C111_complete (hS : IsLossFor S f g) (hA : IsAtomFor A pen) (M : ℝ) (hM0 : 0 < M) (hM : SmoothWith f g M)
    (x0 : Fin m → ℝ) (a : FitArgs) (hb : a.performBacktrack = true) (ha : 1 ≤ a.alpha) (hst : 0 < a.startStep)
    (hcs : a.coefStop = false) (hmin : a.minIts = some 1) (hmax : 2 ≤ a.maxItsV) (htol : 0 < a.tolV)
    (lip : ℝ) (fuel : ℕ) (c : Fin m → ℝ) (v : ObjVal) (hist : List ObjVal)
    (hsolve : ((SimpleProblem.ofLoss S A x0).solve none a lip fuel).1 = .ok c v hist) (v0 : ℝ)
    (hv0 : penalised f S.quad pen x0 = v0)
    (hnear : ∀ (u : Fin m → ℝ) (vu : ℝ), penalised f S.quad pen u = vu → v0 - vu < a.tolV) :
    hist.length = 1 ∧ ∃ vc : ℝ, v = .num vc ∧ penalised f S.quad pen c = vc ∧ vc ≤ v0 := by
  have hP := pieces hS hA x0
  have hg : ((SimpleProblem.ofLoss S A x0).composite lip).grad = g := hP.grad
  obtain ⟨s, hfit, rfl, hv⟩ := ok_solve hsolve
  have hx : x0 ∈ dom pen := (obj_top f S.quad).1 (by rw [hv0]; exact WithTop.coe_ne_top)
  rw [obj_eq f S.quad hx, WithTop.coe_inj] at hv0
  obtain ⟨r1, -, -, r2⟩ := run_once (hP.core lip) (by rw [hg]; exact hS.convex) hP.nonsmooth_convex hM0 (by rw [hg]; exact hM)
    hb ha hcs (by unfold FitArgs.minItsV; rw [hmin]) hmax htol (step := none) hst hfit
  obtain ⟨q1, -, q3⟩ := r2 hx
  have hone := q3 fun u hu => by
    have := hnear u _ (obj_eq f S.quad hu)
    rw [← hv0] at this
    exact this
  have hve := obj_eq f S.quad r1
  refine ⟨hone, _, ?_, hve, ?_⟩
  · rw [hv, C100_objective S f g A pen hS hA x0 s.coefs _ hve]
  · rw [← hv0]; exact q1 hone

/-- **C111** A call that goes on lowers the objective: with monotonicity restarts and a tolerance above `1e-10` (the defaults), a call
from coefficients of finite objective `v0` that records more than one value returns coefficients of objective at most `v0 - tol`. -/
theorem C111_progress (hS : IsLossFor S f g) (hA : IsAtomFor A pen) (M : ℝ) (hM0 : 0 < M) (hM : SmoothWith f g M)
    (x0 : Fin m → ℝ) (a : FitArgs) (hb : a.performBacktrack = true) (ha : 1 ≤ a.alpha) (hst : 0 < a.startStep)
    (hcs : a.coefStop = false) (hmin : a.minIts = some 1) (hmax : 2 ≤ a.maxItsV) (htol : 1e-10 < a.tolV)
    (hm : a.monotonicityRestart = true) (lip : ℝ) (fuel : ℕ) (c : Fin m → ℝ) (v : ObjVal) (hist : List ObjVal)
    (hsolve : ((SimpleProblem.ofLoss S A x0).solve none a lip fuel).1 = .ok c v hist) (v0 : ℝ)
    (hv0 : penalised f S.quad pen x0 = v0) (hone : hist.length ≠ 1) :
    ∃ vc : ℝ, v = .num vc ∧ penalised f S.quad pen c = vc ∧ vc ≤ v0 - a.tolV := by
  have hP := pieces hS hA x0
  have hg : ((SimpleProblem.ofLoss S A x0).composite lip).grad = g := hP.grad
  obtain ⟨s, hfit, rfl, hv⟩ := ok_solve hsolve
  have hx : x0 ∈ dom pen := (obj_top f S.quad).1 (by rw [hv0]; exact WithTop.coe_ne_top)
  rw [obj_eq f S.quad hx, WithTop.coe_inj] at hv0
  obtain ⟨r1, -, -, r2⟩ := run_once (hP.core lip) (by rw [hg]; exact hS.convex) hP.nonsmooth_convex hM0 (by rw [hg]; exact hM)
    hb ha hcs (by unfold FitArgs.minItsV; rw [hmin]) hmax (lt_trans (by norm_num) htol) (step := none) hst hfit
  have hve := obj_eq f S.quad r1
  refine ⟨_, ?_, hve, ?_⟩
  · rw [hv, C100_objective S f g A pen hS hA x0 s.coefs _ hve]
  · rw [← hv0]; exact (r2 hx).2.1 hm htol hone

/-- the object after `solve` is the problem with the answer as its coefficients -/
private lemma solve_snd {S : QuadLoss m} {A : NonsmoothAtom m} {x0 : Fin m → ℝ} {a : FitArgs} {lip : ℝ} {fuel : ℕ} {c : Fin m → ℝ}
    {v : ObjVal} {hist : List ObjVal} (h : ((SimpleProblem.ofLoss S A x0).solve none a lip fuel).1 = .ok c v hist) :
    ((SimpleProblem.ofLoss S A x0).solve none a lip fuel).2 = SimpleProblem.ofLoss S A c := by
  obtain ⟨s, hfit, rfl, -⟩ := ok_solve h
  unfold SimpleProblem.solve
  have e : (SimpleProblem.ofLoss S A x0).quadratic.add none = (SimpleProblem.ofLoss S A x0).quadratic := rfl
  simp only [e]
  rw [hfit]
  rfl

/-- **C111** Solving again and again ends with a certified answer: let one problem object be solved `N` times in a row with
`min_its=1` and otherwise the default rules, each call from where the last one stopped, and let the objective be finite at the start,
with value `v0`, and nowhere below `B`.  If `N > (v0 - B) / tol`, one of the calls recorded a single value, and its answer is
certified as in `C111_sound`. -/
theorem C111_repeat (hS : IsLossFor S f g) (hA : IsAtomFor A pen) (M : ℝ) (hM0 : 0 < M) (hM : SmoothWith f g M)
    (x0 : Fin m → ℝ) (a : FitArgs) (hb : a.performBacktrack = true) (ha : 1 ≤ a.alpha) (hst : 0 < a.startStep)
    (hcs : a.coefStop = false) (hmin : a.minIts = some 1) (hmax : 2 ≤ a.maxItsV) (htol : 1e-10 < a.tolV)
    (hm : a.monotonicityRestart = true) (lip : ℝ) (v0 B : ℝ) (hv0 : penalised f S.quad pen x0 = v0)
    (hB : ∀ u, ((B : ℝ) : WithTop ℝ) ≤ penalised f S.quad pen u)
    (P : ℕ → SimpleProblem m) (fuel : ℕ → ℕ) (c : ℕ → Fin m → ℝ) (v : ℕ → ObjVal) (hist : ℕ → List ObjVal) (N : ℕ)
    (hP0 : P 0 = SimpleProblem.ofLoss S A x0)
    (hcall : ∀ k < N, (P k).solve none a lip (fuel k) = (.ok (c k) (v k) (hist k), P (k + 1)))
    (hN : (v0 - B) / a.tolV < N) :
    ∃ k < N, (hist k).length = 1 ∧ ∃ vc : ℝ, v k = .num vc ∧ penalised f S.quad pen (c k) = vc ∧ vc ≤ v0 ∧
      ∀ (u : Fin m → ℝ) (vu : ℝ), penalised f S.quad pen u = vu →
        vc - vu ≤ certified (a.tolV * max |vc| 1) (min a.startStep (1 / (2 * M * a.alpha))) (sqDist (c k) u) := by
  have ht : 0 < a.tolV := lt_trans (by norm_num) htol
  by_contra hno
  have key : ∀ k ≤ N, ∃ (x : Fin m → ℝ) (w : ℝ), P k = SimpleProblem.ofLoss S A x ∧ penalised f S.quad pen x = w ∧
      w ≤ v0 - k * a.tolV := by
    intro k
    induction k with
    | zero => exact fun _ => ⟨x0, v0, hP0, hv0, by simp⟩
    | succ k ih =>
      intro hk
      obtain ⟨x, w, h1, h2, h3⟩ := ih (by omega)
      have hc := hcall k (by omega)
      rw [h1] at hc
      have hc1 : ((SimpleProblem.ofLoss S A x).solve none a lip (fuel k)).1 = .ok (c k) (v k) (hist k) := by rw [hc]
      have hc2 := solve_snd hc1
      rw [hc] at hc2
      have hk0 : (0:ℝ) ≤ k * a.tolV := by positivity
      have hne : (hist k).length ≠ 1 := by
        intro hone
        apply hno
        have hP := pieces hS hA x
        obtain ⟨vc, s1, s2, s3⟩ := C111_sound S f g A pen hS hA M hM0 hM x a hb ha hst hcs hmin hmax ht lip (fuel k) (c k) (v k)
          (hist k) hc1 hone
        refine ⟨k, by omega, hone, vc, s1, s2, ?_, s3⟩
        have hg : ((SimpleProblem.ofLoss S A x).composite lip).grad = g := hP.grad
        obtain ⟨s, hfit, hsc, -⟩ := ok_solve hc1
        have hx : x ∈ dom pen := (obj_top f S.quad).1 (by rw [h2]; exact WithTop.coe_ne_top)
        obtain ⟨r1, -, -, r2⟩ := run_once (hP.core lip) (by rw [hg]; exact hS.convex) hP.nonsmooth_convex hM0
          (by rw [hg]; exact hM) hb ha hcs (by unfold FitArgs.minItsV; rw [hmin]) hmax ht (step := none) hst hfit
        have q := (r2 hx).1 hone
        rw [hsc] at q r1
        have q' : f (c k) + (val pen (c k) + quadVal (some S.quad) (c k)) ≤ f x + (val pen x + quadVal (some S.quad) x) := q
        rw [obj_eq f S.quad hx, WithTop.coe_inj] at h2
        rw [obj_eq f S.quad r1, WithTop.coe_inj] at s2
        linarith
      obtain ⟨vc, s1, s2, s3⟩ := C111_progress S f g A pen hS hA M hM0 hM x a hb ha hst hcs hmin hmax htol hm lip (fuel k) (c k) (v k)
        (hist k) hc1 w h2 hne
      refine ⟨c k, vc, hc2, s2, ?_⟩
      push_cast
      linarith
  obtain ⟨x, w, -, h2, h3⟩ := key N le_rfl
  have h4 := hB x
  rw [h2, WithTop.coe_le_coe] at h4
  rw [div_lt_iff₀ ht] at hN
  linarith

/-- **C111** such calls can always be made: for a loss with a Lipschitz gradient, from every start and for every number `N` of
calls, every one of the `N` calls of `solve` on the same object returns. -/
theorem C111_repeat_returns (hS : IsLossFor S f g) (hA : IsAtomFor A pen) (M : ℝ) (hM : SmoothWith f g M) (x0 : Fin m → ℝ)
    (a : FitArgs) (hb : a.performBacktrack = true) (ha : 1 < a.alpha) (hst : 0 < a.startStep) (lip : ℝ) (N : ℕ) :
    ∃ (P : ℕ → SimpleProblem m) (fuel : ℕ → ℕ) (c : ℕ → Fin m → ℝ) (v : ℕ → ObjVal) (hist : ℕ → List ObjVal),
      P 0 = SimpleProblem.ofLoss S A x0 ∧
      ∀ k < N, (P k).solve none a lip (fuel k) = (.ok (c k) (v k) (hist k), P (k + 1)) := by
  have h1 : ∀ x : Fin m → ℝ, ∃ (fuel : ℕ) (c : Fin m → ℝ) (v : ObjVal) (hist : List ObjVal),
      (SimpleProblem.ofLoss S A x).solve none a lip fuel = (.ok c v hist, SimpleProblem.ofLoss S A c) := by
    intro x
    obtain ⟨N, hN⟩ := C100_returns S f g A pen hS hA M hM x a hb ha hst lip
    obtain ⟨c, v, hist, h, -⟩ := hN (N + 1) (Nat.lt_succ_self _)
    exact ⟨N + 1, c, .num v, hist, Prod.ext h (solve_snd h)⟩
  choose fu c v hi h using h1
  let X : ℕ → Fin m → ℝ := fun k => Nat.rec x0 (fun _ x => c x) k
  exact ⟨fun k => SimpleProblem.ofLoss S A (X k), fun k => fu (X k), fun k => c (X k), fun k => v (X k), fun k => hi (X k), rfl,
    fun k _ => h (X k)⟩

private lemma smooth_mono {f : (Fin m → ℝ) → ℝ} {g : (Fin m → ℝ) → Fin m → ℝ} {M M' : ℝ} (h : SmoothWith f g M) (hle : M ≤ M') :
    SmoothWith f g M' := by
  refine ⟨fun x z => ?_, fun x z => ?_⟩
  · refine (h.descent x z).trans ?_
    have hd : 0 ≤ sqDist z x := sqDist_nonneg _ _
    have := mul_le_mul_of_nonneg_right hle hd
    linarith
  · refine (h.monotone x z).trans ?_
    exact mul_le_mul_of_nonneg_right hle (sqDist_nonneg _ _)

/-- nonnegative least squares, for every design and response: from any nonnegative start, after finitely many calls with the default
tolerance one of them certifies its answer. -/
example {n p : ℕ} (X : Fin n → Fin (p + 1) → ℝ) (Y : Fin n → ℝ) (x0 : Fin (p + 1) → ℝ) (hx0 : ∀ j, 0 ≤ x0 j) :
    ∃ (G : Glm (p + 1) n) (pen : (Fin (p + 1) → ℝ) → WithTop ℝ) (M : ℝ) (N : ℕ) (P : ℕ → SimpleProblem (p + 1)) (fuel : ℕ → ℕ)
      (c : ℕ → Fin (p + 1) → ℝ) (v : ℕ → ObjVal) (hist : ℕ → List ObjVal),
      Glm.build X (.gaussian Y) 1 none none none = some G ∧
      P 0 = SimpleProblem.ofLoss (G.toLoss none) (Cone.nonnegCls.atom none (Quad.init none none none none)) x0 ∧
      (∀ k < N, (P k).solve none { minIts := some 1 } 0 (fuel k) = (.ok (c k) (v k) (hist k), P (k + 1))) ∧
      ∃ k < N, (hist k).length = 1 ∧ ∃ vc : ℝ, v k = .num vc ∧
        ∀ (u : Fin (p + 1) → ℝ) (vu : ℝ), penalised (regressionLoss X (.gaussian Y) 1 none none none)
            (Quad.init none none none none) pen u = vu →
          vc - vu ≤ certified (1 / 100000 * max |vc| 1) (min 1 (1 / (2 * M * (11 / 10)))) (sqDist (c k) u) := by
  obtain ⟨G, hG⟩ := build_ok X (.gaussian Y) (fun h => h) zero_le_one none none none (fun _ h => by cases h)
  obtain ⟨g, hS, hsm⟩ := C100_glm X (.gaussian Y) trivial 1 none none none none le_rfl G hG
  have hM := smooth_mono (hsm 1 rfl) (le_max_left _ 1)
  have hA := C90_nonnegative (p := p) none (Quad.init none none none none) le_rfl
  have hpen : ∀ u, penalised (regressionLoss X (.gaussian Y) 1 none none none) (G.toLoss none).quad
      (shiftedPen (fun _ => 0) {z | ∀ i, 0 ≤ z i} none (Quad.init none none none none)) u =
      if (∀ j, 0 ≤ u j) then ((regressionLoss X (.gaussian Y) 1 none none none u : ℝ) : WithTop ℝ) else ⊤ := by
    intro u
    unfold penalised shiftedPen
    have e : (fun i => u i - denote (none : Option (PyVec (Fin (p + 1)) ℝ)) i) = u := by funext i; simp [denote]
    have e2 : quadVal (some (G.toLoss none).quad) u = 0 := init_val u
    rw [e, e2, init_val]
    by_cases h : ∀ j, 0 ≤ u j
    · rw [if_pos h, if_pos (show u ∈ {z : Fin (p + 1) → ℝ | ∀ i, 0 ≤ z i} from h), ← WithTop.coe_add]
      congr 1; ring
    · rw [if_neg h, if_neg (show ¬ u ∈ {z : Fin (p + 1) → ℝ | ∀ i, 0 ≤ z i} from h), WithTop.top_add]
  have hB : ∀ u, (((0:ℝ) : ℝ) : WithTop ℝ) ≤ penalised (regressionLoss X (.gaussian Y) 1 none none none) (G.toLoss none).quad
      (shiftedPen (fun _ => 0) {z | ∀ i, 0 ≤ z i} none (Quad.init none none none none)) u := by
    intro u
    rw [hpen]
    split
    · rw [WithTop.coe_le_coe]
      unfold regressionLoss
      refine mul_nonneg zero_le_one (Finset.sum_nonneg fun i _ => mul_nonneg zero_le_one ?_)
      show (0:ℝ) ≤ _ / 2
      positivity
    · exact le_top
  obtain ⟨N, hN⟩ := exists_nat_gt ((regressionLoss X (.gaussian Y) 1 none none none x0 - 0) / (1 / 100000))
  obtain ⟨P, fuel, c, v, hist, h0, hcall⟩ := C111_repeat_returns _ _ _ _ _ hS hA _ hM x0 { minIts := some 1 } rfl
    (by show (1:ℝ) < 11 / 10; norm_num) (by show (0:ℝ) < 1; norm_num) 0 N
  obtain ⟨k, hk, h1, vc, h2, -, -, h3⟩ := C111_repeat _ _ _ _ _ hS hA _ (lt_max_of_lt_right one_pos) hM x0 { minIts := some 1 } rfl
    (by show (1:ℝ) ≤ 11 / 10; norm_num) (by show (0:ℝ) < 1; norm_num) rfl rfl (by show 2 ≤ 10000; norm_num)
    (by show (1e-10:ℝ) < 1 / 100000; norm_num) rfl 0 _ 0 (by rw [hpen, if_pos hx0]) hB P fuel c v hist N h0 hcall hN
  exact ⟨G, _, _, N, P, fuel, c, v, hist, hG, h0, hcall, k, hk, h1, vc, h2, h3⟩

/-- the hypothesis of `C111_complete` is met by every minimiser -/
example (hS : IsLossFor S f g) (x : Fin m → ℝ) (v0 tol : ℝ) (ht : 0 < tol) (hx : IsMinTop (penalised f S.quad pen) x)
    (hv : penalised f S.quad pen x = v0) (u : Fin m → ℝ) (vu : ℝ) (hu : penalised f S.quad pen u = vu) : v0 - vu < tol := by
  have := hx.2 u
  rw [hv, hu, WithTop.coe_le_coe] at this
  linarith

end Verif.Props
