import Verif.Model.ProblemFactories
import Verif.Lemmas.FistaCongr
import Verif.Props.C100_Losses
import Verif.Props.C102_Tuning

/-!
# C107: problems built by the static methods, and `solve` with a quadratic

`simple_problem.nonsmooth`, `simple_problem.smooth`, `separable_problem`, `signal_approximator`; `solve(quadratic=q)` for any loss
and any atom; `composite.proximal_optimum`.
-/

set_option linter.unusedSectionVars false
set_option linter.unusedVariables false

namespace Verif.Props
open Verif.Spec Verif.Model Verif.Model.Fista Verif.Lemmas

variable {m n p : ℕ}

/-! ### specification -/

/-- the center of the quadratic is not a float other than 0, or there is one coefficient (see `C14_collapsed_fails`) -/
def ExactCenter (q : Quad (Fin m) ℝ) : Prop := ∀ c, q.center = some (.scalar c) → c = 0 ∨ m = 1

/-- the documented objective of `solve(quadratic=q)`: penalty, loss, quadratic of the loss, `q` -/
noncomputable def penalisedPlus (f : (Fin m → ℝ) → ℝ) (quad q : Quad (Fin m) ℝ) (pen : (Fin m → ℝ) → WithTop ℝ) (β : Fin m → ℝ) :
    WithTop ℝ := pen β + ((f β + quadVal (some quad) β + quadVal (some q) β : ℝ) : WithTop ℝ)

/-! ### sums of quadratics -/

private lemma cl_add (x y : Quad (Fin m) ℝ) :
    (x.add (some y)).collapsedLinear = PyVec.map₂ (· + ·) x.collapsedLinear y.collapsedLinear := by
  show PyVec.map₂ (· + ·) (PyVec.scalar (0 - (x.coef + y.coef) * 0)) (PyVec.map₂ (· + ·) x.collapsedLinear y.collapsedLinear) = _
  cases PyVec.map₂ (· + ·) x.collapsedLinear y.collapsedLinear with
  | scalar c => show PyVec.scalar _ = _; congr 1; ring
  | arr v => show PyVec.arr _ = _; congr 1; funext i; show (0 - (x.coef + y.coef) * 0) + v i = v i; ring

private lemma cc_add (x y : Quad (Fin m) ℝ) : (x.add (some y)).collapsed.const = x.collapsed.const + y.collapsed.const := by
  show x.collapsed.const + y.collapsed.const + (x.coef + y.coef) * (0:ℝ) ^ 2 / 2 = _
  ring

private lemma init_cl : (Quad.init none none none none : Quad (Fin m) ℝ).collapsedLinear = .scalar 0 := rfl

private lemma init_cc : (Quad.init none none none none : Quad (Fin m) ℝ).collapsed.const = 0 := rfl

private lemma map_assoc (u v w : PyVec (Fin m) ℝ) :
    PyVec.map₂ (· + ·) (PyVec.map₂ (· + ·) u v) w = PyVec.map₂ (· + ·) u (PyVec.map₂ (· + ·) v w) := by
  cases u <;> cases v <;> cases w <;> simp [PyVec.map₂, PyVec.get, add_assoc]

private lemma map_zero_left (u : PyVec (Fin m) ℝ) : PyVec.map₂ (· + ·) (.scalar 0) u = u := by
  cases u <;> simp [PyVec.map₂, PyVec.get]

private lemma map_zero_right (u : PyVec (Fin m) ℝ) : PyVec.map₂ (· + ·) u (.scalar 0) = u := by
  cases u <;> simp [PyVec.map₂, PyVec.get]

private lemma quad_ext {x y : Quad (Fin m) ℝ} (h1 : x.coef = y.coef) (h2 : x.center = y.center) (h3 : x.linear = y.linear)
    (h4 : x.const = y.const) : x = y := by
  cases x; cases y; simp_all

/-- moving a quadratic from the problem to the loss -/
private lemma add_move (x s q : Quad (Fin m) ℝ) :
    (x.add (some s)).add (some ((Quad.init none none none none).add (some q))) =
      (x.add (some (s.add (some q)))).add (some (Quad.init none none none none)) := by
  refine quad_ext ?_ rfl ?_ ?_
  · show (x.coef + s.coef) + (0 + q.coef) = (x.coef + (s.coef + q.coef)) + 0
    ring
  · show some (PyVec.map₂ (· + ·) (x.add (some s)).collapsedLinear ((Quad.init none none none none).add (some q)).collapsedLinear) =
      some (PyVec.map₂ (· + ·) (x.add (some (s.add (some q)))).collapsedLinear (Quad.init none none none none).collapsedLinear)
    rw [cl_add, cl_add, cl_add, cl_add, init_cl, map_zero_left, map_zero_right, map_assoc]
  · show (x.add (some s)).collapsed.const + ((Quad.init none none none none).add (some q)).collapsed.const =
      (x.add (some (s.add (some q)))).collapsed.const + (Quad.init none none none none).collapsed.const
    rw [cc_add, cc_add, cc_add, cc_add, init_cc]
    ring

private lemma exact_collapsed {q : Quad (Fin m) ℝ} (h : ExactCenter q) (x : Fin m → ℝ) : q.collapsed.funcVal x = q.funcVal x := by
  obtain ⟨v, h1, h2⟩ := C14_collapsed_partial q x (by rw [Fintype.card_fin]; exact h)
  injection h1 with h1
  injection h2 with h2
  rw [h1, h2]

private lemma exact_add {s q : Quad (Fin m) ℝ} (hs : ExactCenter s) (hq : ExactCenter q) (x : Fin m → ℝ) :
    quadVal (some (s.add (some q))) x = quadVal (some s) x + quadVal (some q) x := by
  rw [← fv84, ← fv84, ← fv84, add_funcVal, exact_collapsed hs, exact_collapsed hq]

private lemma zero_exact : ExactCenter (zeroQuad m) := by
  intro c h
  left
  cases h; rfl

private lemma zero_val (x : Fin m → ℝ) : quadVal (some (zeroQuad m)) x = 0 := by
  simp [quadVal, quadFn, zeroQuad, denote, dot]

private lemma obj_assoc (v : ObjVal) (a b c d : ℝ) (h : a + b = c + d) :
    (v.add (.num a)).add (.num b) = (v.add (.num c)).add (.num d) := by
  cases v with
  | num r => show ObjVal.num _ = ObjVal.num _; congr 1; linarith
  | inf => rfl
  | nan => rfl

/-! ### `solve` with a quadratic -/

/-- **C107** `solve(quadratic=q)` of a problem with any loss and any atom is the same run of the solver, with the same history,
coefficients and value, as `solve()` of the problem whose loss has `q` added to its quadratic.  (Partial: if the quadratic of the loss
has a float other than 0 as its center, the two objectives differ by a constant, `C14_collapsed_fails`.) -/
theorem C107_solve_quadratic_partial (S : QuadLoss m) (hS : ExactCenter S.quad) (A : NonsmoothAtom m) (x0 : Fin m → ℝ)
    (q : Quad (Fin m) ℝ) (a : FitArgs) (hb : a.performBacktrack = true) (ha : 0 < a.alpha) (hst : 0 < a.startStep) (lip : ℝ)
    (fuel : ℕ) :
    ((SimpleProblem.ofLoss S A x0).solve (some q) a lip fuel).1 =
      ((SimpleProblem.ofLoss ⟨S.obj, S.quad.add (some q)⟩ A x0).solve none a lip fuel).1 := by
  refine solve_congr _ _ none a hb ha hst lip fuel (some q) rfl ⟨rfl, rfl, ?_, fun L w _ => ?_⟩
  · funext x c
    refine obj_assoc _ _ _ _ _ ?_
    show S.quad.funcVal x + ((Quad.init none none none none).add (some q)).funcVal x =
      (S.quad.add (some q)).funcVal x + (Quad.init none none none none : Quad (Fin m) ℝ).funcVal x
    rw [add_funcVal, add_funcVal, exact_collapsed hS, exact_collapsed (q := Quad.init none none none none) (fun c h => by cases h)]
    ring
  · show (match A.proximal (((stepQuad L w _).add (some S.quad)).add (some ((Quad.init none none none none).add (some q)))) with
      | .ok z => some z
      | _ => none) = (match A.proximal (((stepQuad L w _).add (some (S.quad.add (some q)))).add (some (Quad.init none none none none))) with
      | .ok z => some z
      | _ => none)
    rw [add_move]

section
variable (S : QuadLoss m) (f : (Fin m → ℝ) → ℝ) (g : (Fin m → ℝ) → Fin m → ℝ) (A : NonsmoothAtom m)
  (pen : (Fin m → ℝ) → WithTop ℝ)

private lemma loss_plus {S : QuadLoss m} {f : (Fin m → ℝ) → ℝ} {g : (Fin m → ℝ) → Fin m → ℝ} (hS : IsLossFor S f g) (q : Quad (Fin m) ℝ)
    (hq : 0 ≤ q.coef) : IsLossFor ⟨S.obj, S.quad.add (some q)⟩ f g :=
  ⟨hS.evaluates, hS.convex, add_nonneg hS.quad_coef hq⟩

private lemma plus_eq {s q : Quad (Fin m) ℝ} (hs : ExactCenter s) (hq : ExactCenter q) (f : (Fin m → ℝ) → ℝ)
    (pen : (Fin m → ℝ) → WithTop ℝ) : penalised f (s.add (some q)) pen = penalisedPlus f s q pen := by
  funext β
  unfold penalised penalisedPlus
  rw [exact_add hs hq, add_assoc]

/-- **C107** `solve(quadratic=q)` answers for any loss with a Lipschitz gradient and any atom: from every start it returns
coefficients where loss, penalty, quadratic of the loss and `q` sum to a finite number, together with that number.  (Partial: float
centers other than 0 are excluded.) -/
theorem C107_solve_returns_partial (hS : IsLossFor S f g) (hA : IsAtomFor A pen) (M : ℝ) (hM : SmoothWith f g M) (x0 : Fin m → ℝ)
    (hs : ExactCenter S.quad) (q : Quad (Fin m) ℝ) (hq0 : 0 ≤ q.coef) (hq : ExactCenter q)
    (a : FitArgs) (hb : a.performBacktrack = true) (ha : 1 < a.alpha) (hst : 0 < a.startStep) (lip : ℝ) :
    ∃ N, ∀ fuel, N < fuel → ∃ c v hist,
      ((SimpleProblem.ofLoss S A x0).solve (some q) a lip fuel).1 = .ok c (.num v) hist ∧
      penalisedPlus f S.quad q pen c = v := by
  obtain ⟨N, hN⟩ := C100_returns _ f g A pen (loss_plus hS q hq0) hA M hM x0 a hb ha hst lip
  refine ⟨N, fun fuel hf => ?_⟩
  obtain ⟨c, v, hist, h1, h2⟩ := hN fuel hf
  refine ⟨c, v, hist, ?_, ?_⟩
  · rw [C107_solve_quadratic_partial S hs A x0 q a hb (by linarith) hst lip fuel]; exact h1
  · rw [← plus_eq hs hq]; exact h2

/-- **C107** How good the answer of `solve(quadratic=q)` is: after `k` recorded values it misses the smallest value of the documented
objective by at most `2 ‖x0 - u‖² / (t (k+1)²)`, `t = min(start_step, 1/(2 M alpha))`, for every minimiser `u`; and the squared distance
to `u`, times half of the sum of the coefficients of `q` and of the quadratic of the loss, is at most the same.  (Partial: float centers
other than 0 are excluded.) -/
theorem C107_solve_rate_partial (hS : IsLossFor S f g) (hA : IsAtomFor A pen) (M : ℝ) (hM0 : 0 < M) (hM : SmoothWith f g M)
    (x0 : Fin m → ℝ) (hs : ExactCenter S.quad) (q : Quad (Fin m) ℝ) (hq0 : 0 ≤ q.coef) (hq : ExactCenter q)
    (a : FitArgs) (hb : a.performBacktrack = true) (ha : 1 ≤ a.alpha) (hst : 0 < a.startStep)
    (hm : a.monotonicityRestart = false) (hr : a.restart = none) (hmax : ∃ m, a.maxIts = some m ∧ m ≠ 0 ∧ m ≤ 99)
    (lip : ℝ) (fuel : ℕ) (c : Fin m → ℝ) (v : ObjVal) (hist : List ObjVal)
    (hsolve : ((SimpleProblem.ofLoss S A x0).solve (some q) a lip fuel).1 = .ok c v hist)
    (u : Fin m → ℝ) (hu : IsMinTop (penalisedPlus f S.quad q pen) u) :
    ∃ vc vu : ℝ, v = .num vc ∧ penalisedPlus f S.quad q pen c = vc ∧
      penalisedPlus f S.quad q pen u = vu ∧ vu ≤ vc ∧
      vc - vu ≤ 2 * sqDist x0 u / (min a.startStep (1 / (2 * M * a.alpha)) * (hist.length + 1) ^ 2) ∧
      (S.quad.coef + q.coef) / 2 * sqDist c u ≤
        2 * sqDist x0 u / (min a.startStep (1 / (2 * M * a.alpha)) * (hist.length + 1) ^ 2) := by
  rw [C107_solve_quadratic_partial S hs A x0 q a hb (by linarith) hst lip fuel] at hsolve
  rw [← plus_eq hs hq] at hu ⊢
  obtain ⟨vc, vu, h1, h2, h3, h4, h5⟩ := C100_rate _ f g A pen (loss_plus hS q hq0) hA M hM0 hM x0 a hb ha hst hm hr hmax lip fuel c v
    hist hsolve u hu
  refine ⟨vc, vu, h1, h2, h3, h4, h5, ?_⟩
  exact ((C102_ridge _ f g (loss_plus hS q hq0) A pen hA u hu).1 c vc vu h2 h3).trans h5

end

/-! ### `simple_problem.nonsmooth` -/

private lemma zero_loss : IsLossFor (QuadLoss.zero : QuadLoss m) (fun _ => 0) (fun _ _ => 0) := by
  refine ⟨fun x => ⟨rfl, rfl, rfl⟩, ⟨fun x y a b _ _ _ => by simp, fun x => ?_⟩, le_rfl⟩
  unfold IsGradientAt
  simp only [zero_smul, Finset.sum_const_zero]
  exact hasFDerivAt_const _ _

private lemma zero_smoothWith (M : ℝ) (hM : 0 ≤ M) : SmoothWith (fun _ : Fin m → ℝ => (0:ℝ)) (fun _ _ => 0) M := by
  have hd : ∀ x z : Fin m → ℝ, 0 ≤ sqDist z x := fun x z => Finset.sum_nonneg fun i _ => sq_nonneg _
  refine ⟨fun x z => ?_, fun x z => ?_⟩
  · unfold QuadraticUpperBound
    simp only [dot, zero_mul, Finset.sum_const_zero, zero_add]
    exact mul_nonneg (by linarith) (hd x z)
  · simp only [dot, sub_zero, mul_zero, Finset.sum_const_zero, abs_zero]
    exact mul_nonneg hM (hd x z)

private lemma pen_zero (pen : (Fin m → ℝ) → WithTop ℝ) : penalised (fun _ => 0) (zeroQuad m) pen = pen := by
  funext β
  unfold penalised
  rw [zero_val, add_zero, WithTop.coe_zero, add_zero]

/-- **C107** `simple_problem.nonsmooth(atom)` is the problem of minimising the atom alone: its objective is the atom's function where
that is finite; from every start `solve` returns coefficients with a finite value, and after `k` recorded values misses the smallest
value by at most `2 ‖x0 - u‖² / (start_step (k+1)²)` for every minimiser `u` - no constant of the atom enters. -/
theorem C107_nonsmooth (A : NonsmoothAtom m) (pen : (Fin m → ℝ) → WithTop ℝ) (hA : IsAtomFor A pen) (x0 : Fin m → ℝ) :
    (∀ x (v : ℝ), pen x = v → (SimpleProblem.nonsmoothOnly A x0).objective x = .num v) ∧
    (∀ (a : FitArgs), a.performBacktrack = true → 1 < a.alpha → 0 < a.startStep → ∀ lip, ∃ N, ∀ fuel, N < fuel →
      ∃ c v hist, ((SimpleProblem.nonsmoothOnly A x0).solve none a lip fuel).1 = .ok c (.num v) hist ∧ pen c = v) ∧
    (∀ (a : FitArgs), a.performBacktrack = true → 1 ≤ a.alpha → 0 < a.startStep → a.monotonicityRestart = false → a.restart = none →
      (∃ k, a.maxIts = some k ∧ k ≠ 0 ∧ k ≤ 99) → ∀ lip fuel c v hist,
      ((SimpleProblem.nonsmoothOnly A x0).solve none a lip fuel).1 = .ok c v hist → ∀ u, IsMinTop pen u →
      ∃ vc vu : ℝ, v = .num vc ∧ pen c = vc ∧ pen u = vu ∧ vu ≤ vc ∧
        vc - vu ≤ 2 * sqDist x0 u / (a.startStep * (hist.length + 1) ^ 2)) := by
  refine ⟨fun x v hv => ?_, fun a hb ha hst lip => ?_, fun a hb ha hst hm hr hmax lip fuel c v hist hs u hu => ?_⟩
  · refine C100_objective .zero _ _ A pen zero_loss hA x0 x v ?_
    show penalised (fun _ => 0) (zeroQuad m) pen x = v
    rw [pen_zero]; exact hv
  · obtain ⟨N, hN⟩ := C100_returns .zero _ _ A pen zero_loss hA 0 (zero_smoothWith 0 le_rfl) x0 a hb ha hst lip
    refine ⟨N, fun fuel hf => ?_⟩
    obtain ⟨c, v, hist, h1, h2⟩ := hN fuel hf
    refine ⟨c, v, hist, h1, ?_⟩
    have h2' : penalised (fun _ => 0) (zeroQuad m) pen c = v := h2
    rw [pen_zero] at h2'; exact h2'
  · have hM : 0 < 1 / (2 * a.startStep * a.alpha) := by positivity
    obtain ⟨vc, vu, h1, h2, h3, h4, h5⟩ := C100_rate .zero _ _ A pen zero_loss hA _ hM (zero_smoothWith _ hM.le) x0 a hb ha hst hm hr
      hmax lip fuel c v hist hs u (by
        show IsMinTop (penalised (fun _ => 0) (zeroQuad m) pen) u
        rw [pen_zero]; exact hu)
    have e : min a.startStep (1 / (2 * (1 / (2 * a.startStep * a.alpha)) * a.alpha)) = a.startStep := by
      have : 1 / (2 * (1 / (2 * a.startStep * a.alpha)) * a.alpha) = a.startStep := by
        have : a.alpha ≠ 0 := by linarith
        field_simp
      rw [this, min_self]
    rw [e] at h5
    have h2' : penalised (fun _ => 0) (zeroQuad m) pen c = vc := h2
    have h3' : penalised (fun _ => 0) (zeroQuad m) pen u = vu := h3
    rw [pen_zero] at h2' h3'
    exact ⟨vc, vu, h1, h2', h3', h4, h5⟩

/-- **C107** The proximal map and the solver agree: if `atom.proximal(q)` returns `z` then the coefficients `c` that
`simple_problem.nonsmooth(atom).solve(quadratic=q)` returns after `k` recorded values satisfy
`coef(q)/2 ‖c - z‖² ≤ 2 ‖x0 - z‖² / (start_step (k+1)²)`. -/
theorem C107_nonsmooth_prox (A : NonsmoothAtom m) (pen : (Fin m → ℝ) → WithTop ℝ) (hA : IsAtomFor A pen) (x0 : Fin m → ℝ)
    (q : Quad (Fin m) ℝ) (hq : 0 < q.coef) (z : Fin m → ℝ) (hz : A.proximal q = .ok z)
    (a : FitArgs) (hb : a.performBacktrack = true) (ha : 1 ≤ a.alpha) (hst : 0 < a.startStep)
    (hm : a.monotonicityRestart = false) (hr : a.restart = none) (hmax : ∃ k, a.maxIts = some k ∧ k ≠ 0 ∧ k ≤ 99)
    (lip : ℝ) (fuel : ℕ) (c : Fin m → ℝ) (v : ObjVal) (hist : List ObjVal)
    (hsolve : ((SimpleProblem.nonsmoothOnly A x0).solve (some q) a lip fuel).1 = .ok c v hist) :
    q.coef / 2 * sqDist c z ≤ 2 * sqDist x0 z / (a.startStep * (hist.length + 1) ^ 2) := by
  have hs := C107_solve_quadratic_partial (QuadLoss.zero : QuadLoss m) zero_exact A x0 q a hb (by linarith) hst lip fuel
  have hsolve' : ((SimpleProblem.ofLoss (QuadLoss.zero : QuadLoss m) A x0).solve (some q) a lip fuel).1 = .ok c v hist := hsolve
  rw [hs] at hsolve'
  have hM : 0 < 1 / (2 * a.startStep * a.alpha) := by positivity
  have hmin := hA.solves q z hq hz
  obtain ⟨k, hk⟩ := C14_add_up_to_const (zeroQuad m) q
  have hval : ∀ x, quadVal (some ((zeroQuad m).add (some q))) x = quadVal (some q) x + k := by
    intro x
    have := hk x
    rw [fv84, fv84, fv84, zero_val] at this
    linarith
  have hu : IsMinTop (penalised (fun _ => 0) ((zeroQuad m).add (some q)) pen) z := by
    have e : ∀ x, penalised (fun _ => 0) ((zeroQuad m).add (some q)) pen x =
        ((quadVal (some q) x : ℝ) : WithTop ℝ) + pen x + ((k : ℝ) : WithTop ℝ) := by
      intro x
      unfold penalised
      rw [hval, zero_add, WithTop.coe_add]
      rw [add_comm (pen x), add_assoc, add_assoc, add_comm (pen x)]
    refine ⟨?_, fun x => ?_⟩
    · rw [e]
      exact WithTop.add_ne_top.2 ⟨hmin.1, WithTop.coe_ne_top⟩
    · rw [e, e]
      rcases eq_or_ne x z with rfl | h
      · exact le_rfl
      · exact add_le_add_left (hmin.2 x h).le _
  have := C102_ridge_solve _ _ _ (loss_plus (zero_loss (m := m)) q hq.le) A pen hA _ hM (zero_smoothWith _ hM.le) x0 a hb ha hst hm hr hmax
    lip fuel c v hist hsolve' z hu
  have e : min a.startStep (1 / (2 * (1 / (2 * a.startStep * a.alpha)) * a.alpha)) = a.startStep := by
    have : 1 / (2 * (1 / (2 * a.startStep * a.alpha)) * a.alpha) = a.startStep := by
      have : a.alpha ≠ 0 := by linarith
      field_simp
    rw [this, min_self]
  rw [e] at this
  have e2 : ((zeroQuad m).add (some q)).coef = q.coef := zero_add _
  rw [← e2]; exact this

/-! ### `simple_problem.smooth` -/

private lemma zeroCone_prox (Q : Quad (Fin m) ℝ) (v : Fin m → ℝ) (hl : Q.collapsedLinear = .arr v) :
    (match (zeroCone : NonsmoothAtom m).proximal Q with
      | .ok z => some z
      | _ => none) = if Q.coef = 0 then none else some fun i => -(v i) / Q.coef := by
  have h1 : ((zeroQuad m).add (some Q)).collapsedLinear = .arr v := by
    rw [cl_add, hl]
    show PyVec.map₂ (· + ·) (PyVec.map₂ (· + ·) (PyVec.scalar (0 - 0 * 0)) (PyVec.scalar 0)) (PyVec.arr v) = PyVec.arr v
    simp [PyVec.map₂, PyVec.get]
  have h2 : ((zeroQuad m).add (some Q)).coef = Q.coef := zero_add _
  show (match coneProximal some none (zeroQuad m) (some Q) with
      | .ok z => some z
      | _ => none) = _
  have h3 : ((zeroQuad m).add (some Q)).recenter none = some (none, ((zeroQuad m).add (some Q)).collapsed) := rfl
  have h4 : ((zeroQuad m).add (some Q)).collapsed.coef = Q.coef := h2
  have h5 : ((zeroQuad m).add (some Q)).collapsed.linear = some (.arr v) := by
    show some ((zeroQuad m).add (some Q)).collapsedLinear = _
    rw [h1]
  unfold coneProximal
  rw [h3]
  dsimp only
  rw [h4, h5]
  by_cases h : Q.coef = 0
  · rw [if_pos h, if_pos h]
  · rw [if_neg h, if_neg h]

private lemma step_cl (L : ℝ) (w g : Fin m → ℝ) : ∃ v, (stepQuad L w g).collapsedLinear = .arr v := ⟨_, rfl⟩

private lemma arr_add {x y : Quad (Fin m) ℝ} {v : Fin m → ℝ} (h : x.collapsedLinear = .arr v) :
    (x.add (some y)).collapsedLinear = .arr fun i => v i + y.collapsedLinear.get i := by
  rw [cl_add, h]
  cases y.collapsedLinear <;> rfl

/-- what `loss.solve()` hands to FISTA -/
noncomputable def lossComposite (S : QuadLoss m) (lip : ℝ) : Composite m :=
  smoothComposite (fun x => match S.obj x .func with
      | .val f => .num f
      | _ => .nan) (fun x => match S.obj x .grad with
      | .grad g => g
      | _ => fun _ => 0) (S.quad.add (some (zeroQuad m))) lip

/-- **C107** `simple_problem.smooth(loss)` is the problem of minimising the loss: `solve()` returns `c` with history `hist` exactly when
the run of FISTA that `loss.solve()` makes, started from zero, does; and the objective is that of the loss.  (Partial: a quadratic of
the loss whose center is a float other than 0 shifts the recorded values, `C14_collapsed_fails`.) -/
theorem C107_smooth_partial (S : QuadLoss m) (hs : ExactCenter S.quad) (a : FitArgs) (hb : a.performBacktrack = true) (ha : 0 < a.alpha)
    (hst : 0 < a.startStep) (lip : ℝ) (fuel : ℕ) :
    (∀ c v hist, ((SimpleProblem.smoothOnly S).solve none a lip fuel).1 = .ok c v hist ↔
      ∃ s, fit (lossComposite S lip) a none false fuel (fun _ => 0) = .ok hist s ∧ s.coefs = c ∧
        v = (SimpleProblem.smoothOnly S).objective c) ∧
    ∀ x (v : ℝ), S.objective x = some v → (SimpleProblem.smoothOnly S).objective x = .num v := by
  have hi : ∀ x, (Quad.init none none none none : Quad (Fin m) ℝ).funcVal x = 0 := fun x => by rw [fv84]; exact init_val x
  have hz : ∀ x b, (zeroCone : NonsmoothAtom m).nonsmooth x b = .num 0 := by
    intro x b
    have e : (if b then ObjVal.ofTop (Cone.zeroConstraint (atomShift none x)) else .num 0 : ObjVal) = .num 0 := by cases b <;> rfl
    show (if b then ObjVal.ofTop (Cone.zeroConstraint (atomShift none x)) else .num 0 : ObjVal).add (.num ((zeroQuad m).funcVal x)) = .num 0
    rw [e, fv84, zero_val]
    show ObjVal.num _ = _
    rw [add_zero]
  have hn : ∀ x b, (SimpleProblem.smoothOnly S).nonsmooth x b = .num (S.quad.funcVal x) := by
    intro x b
    show (((zeroCone : NonsmoothAtom m).nonsmooth x b).add (.num (S.quad.funcVal x))).add (.num ((Quad.init none none none none).funcVal x)) = _
    rw [hz, hi]
    show ObjVal.num _ = _
    congr 1; ring
  have hsame : SameSteps (lossComposite S lip) ((SimpleProblem.smoothOnly S).composite lip) := by
    refine ⟨rfl, rfl, ?_, fun L w _ => ?_⟩
    · funext x b
      show (SimpleProblem.smoothOnly S).nonsmooth x b = .num ((S.quad.add (some (zeroQuad m))).funcVal x)
      rw [hn, add_funcVal, exact_collapsed hs, exact_collapsed zero_exact, fv84 (zeroQuad m), zero_val, add_zero]
    · set q' := stepQuad L w ((lossComposite S lip).grad w) with hq'
      obtain ⟨v, hv⟩ := step_cl L w ((lossComposite S lip).grad w)
      rw [← hq'] at hv
      show (match (zeroCone : NonsmoothAtom m).proximal ((q'.add (some S.quad)).add (some (Quad.init none none none none))) with
        | .ok z => some z
        | _ => none) = smoothProximal (S.quad.add (some (zeroQuad m))) q'
      rw [zeroCone_prox _ _ (arr_add (arr_add hv))]
      have e1 : ((q'.add (some S.quad)).add (some (Quad.init none none none none))).coef = q'.coef + S.quad.coef := by
        show (q'.coef + S.quad.coef) + 0 = _
        ring
      have e2 : ((S.quad.add (some (zeroQuad m))).add (some q')).coef = q'.coef + S.quad.coef := by
        show (S.quad.coef + 0) + q'.coef = _
        ring
      have e3 : ∀ i, ((S.quad.add (some (zeroQuad m))).add (some q')).linear.elim 0 (fun l => l.get i) =
          v i + S.quad.collapsedLinear.get i := by
        intro i
        show (PyVec.map₂ (· + ·) (S.quad.add (some (zeroQuad m))).collapsedLinear q'.collapsedLinear).get i = _
        rw [cl_add, hv, get_map₂, get_map₂]
        show S.quad.collapsedLinear.get i + (0 - 0 * 0 + 0) + v i = _
        ring
      unfold smoothProximal
      dsimp only
      rw [e1, e2]
      split_ifs
      · rfl
      · congr 1
        funext i
        rw [e3]
        show -(v i + S.quad.collapsedLinear.get i + 0) / _ = _
        rw [add_zero]
  refine ⟨fun c v hist => ?_, fun x v hv => ?_⟩
  · have hf := fit_congr hsame a hb ha hst false fuel (fun _ => 0)
    have hf' : fit (SimpleProblem.composite { SimpleProblem.smoothOnly S with quadratic := (SimpleProblem.smoothOnly S).quadratic.add none } lip)
        a none false fuel (SimpleProblem.smoothOnly S).coefs = fit (lossComposite S lip) a none false fuel (fun _ => 0) := hf
    unfold SimpleProblem.solve
    dsimp only
    rw [hf']
    cases h : fit (lossComposite S lip) a none false fuel (fun _ => 0) with
    | ok hist' s =>
      constructor
      · intro h
        dsimp only at h
        injection h with h1 h2 h3
        exact ⟨s, by rw [h3], h1, by rw [← h2, ← h1]; rfl⟩
      · rintro ⟨s', h1, h2, h3⟩
        injection h1 with h4 h5
        subst h4; subst h5; subst h2; subst h3
        rfl
    | nanObjective => simp
    | proxError s => simp
    | zeroStep s => simp
    | diverged => simp
  · unfold SimpleProblem.objective
    rw [hn]
    unfold QuadLoss.objective at hv
    show (match S.obj x .func with
      | .val f => ObjVal.num f
      | _ => .nan).add _ = _
    cases h : S.obj x .func <;> rw [h] at hv <;> simp at hv
    rw [← hv]; rfl

private lemma zeroCone_atom : IsAtomFor (zeroCone : NonsmoothAtom (p + 1)) (fun _ => 0) := by
  have := C90_zero (p := p) none (zeroQuad (p + 1)) le_rfl
  have e : shiftedPen (fun _ => 0) Set.univ none (zeroQuad (p + 1)) = fun _ => (0 : WithTop ℝ) := by
    funext x
    unfold shiftedPen
    rw [if_pos (Set.mem_univ _), zero_val, add_zero, WithTop.coe_zero]
  rw [e] at this
  exact this

/-- **C107** `simple_problem.smooth(loss).solve()` for a loss with a Lipschitz gradient: from zero it returns coefficients with the value
of loss plus quadratic there, and after `k` recorded values it misses the smallest value by at most
`2 ‖u‖² / (t (k+1)²)`, `t = min(start_step, 1/(2 M alpha))`, for every minimiser `u`. -/
theorem C107_smooth_solves (S : QuadLoss (p + 1)) (f : (Fin (p + 1) → ℝ) → ℝ) (g : (Fin (p + 1) → ℝ) → Fin (p + 1) → ℝ)
    (hS : IsLossFor S f g) (M : ℝ) (hM0 : 0 < M) (hM : SmoothWith f g M) :
    (∀ (a : FitArgs), a.performBacktrack = true → 1 < a.alpha → 0 < a.startStep → ∀ lip, ∃ N, ∀ fuel, N < fuel →
      ∃ c hist, ((SimpleProblem.smoothOnly S).solve none a lip fuel).1 = .ok c (.num (f c + quadVal (some S.quad) c)) hist) ∧
    (∀ (a : FitArgs), a.performBacktrack = true → 1 ≤ a.alpha → 0 < a.startStep → a.monotonicityRestart = false → a.restart = none →
      (∃ k, a.maxIts = some k ∧ k ≠ 0 ∧ k ≤ 99) → ∀ lip fuel c v hist,
      ((SimpleProblem.smoothOnly S).solve none a lip fuel).1 = .ok c v hist →
      ∀ u, (∀ z, f u + quadVal (some S.quad) u ≤ f z + quadVal (some S.quad) z) →
      f c + quadVal (some S.quad) c - (f u + quadVal (some S.quad) u) ≤
        2 * sqDist (fun _ => 0) u / (min a.startStep (1 / (2 * M * a.alpha)) * (hist.length + 1) ^ 2)) := by
  have hp : ∀ x, penalised f S.quad (fun _ => 0) x = ((f x + quadVal (some S.quad) x : ℝ) : WithTop ℝ) := fun x => zero_add _
  refine ⟨fun a hb ha hst lip => ?_, fun a hb ha hst hm hr hmax lip fuel c v hist hs u hu => ?_⟩
  · obtain ⟨N, hN⟩ := C100_returns S f g zeroCone _ hS zeroCone_atom M hM (fun _ => 0) a hb ha hst lip
    refine ⟨N, fun fuel hf => ?_⟩
    obtain ⟨c, v, hist, h1, h2⟩ := hN fuel hf
    rw [hp, WithTop.coe_inj] at h2
    exact ⟨c, hist, by rw [h2]; exact h1⟩
  · obtain ⟨vc, vu, -, h2, h3, -, h5⟩ := C100_rate S f g zeroCone _ hS zeroCone_atom M hM0 hM (fun _ => 0) a hb ha hst hm hr hmax lip fuel
      c v hist hs u ⟨by rw [hp]; exact WithTop.coe_ne_top, fun x => by rw [hp, hp, WithTop.coe_le_coe]; exact hu x⟩
    rw [hp, WithTop.coe_inj] at h2 h3
    rw [h2, h3]; exact h5

/-! ### `separable_problem` -/

/-- **C107** The solver sees an atom only through the function it stands for: with two atoms standing for the same function and
reporting the same values, `solve` makes the same run and returns the same answer. -/
theorem C107_same_penalty (S : QuadLoss m) (hS : 0 ≤ S.quad.coef) (A B : NonsmoothAtom m) (pen : (Fin m → ℝ) → WithTop ℝ)
    (hA : IsAtomFor A pen) (hB : IsAtomFor B pen) (hv : B.nonsmooth = A.nonsmooth) (x0 : Fin m → ℝ) (q : Option (Quad (Fin m) ℝ))
    (hq : 0 ≤ quadCoef q) (a : FitArgs) (hb : a.performBacktrack = true) (ha : 0 < a.alpha) (hst : 0 < a.startStep) (lip : ℝ)
    (fuel : ℕ) :
    ((SimpleProblem.ofLoss S B x0).solve q a lip fuel).1 = ((SimpleProblem.ofLoss S A x0).solve q a lip fuel).1 := by
  refine solve_congr _ _ q a hb ha hst lip fuel q rfl ⟨rfl, rfl, ?_, fun L w hL => ?_⟩
  · funext x b
    show ((B.nonsmooth x b).add _).add _ = ((A.nonsmooth x b).add _).add _
    rw [hv]
    rfl
  · set q' := stepQuad L w ((SimpleProblem.composite { SimpleProblem.ofLoss S A x0 with
      quadratic := (SimpleProblem.ofLoss S A x0).quadratic.add q } lip).grad w) with hq'
    set r : Quad (Fin m) ℝ := (Quad.init none none none none).add q with hr
    have hr0 : 0 ≤ r.coef := by
      cases q with
      | none => exact le_rfl
      | some q => exact add_nonneg le_rfl hq
    set Q := (q'.add (some S.quad)).add (some r) with hQ
    have hQc : 0 < Q.coef := by
      show 0 < (q'.coef + S.quad.coef) + r.coef
      have : q'.coef = L := rfl
      linarith
    obtain ⟨v, hv⟩ : ∃ v, Q.linear = some (.arr v) := by
      obtain ⟨v, hv⟩ := step_cl L w ((SimpleProblem.composite { SimpleProblem.ofLoss S A x0 with
        quadratic := (SimpleProblem.ofLoss S A x0).quadratic.add q } lip).grad w)
      have h2 := arr_add (y := S.quad) hv
      refine ⟨fun i => v i + S.quad.collapsedLinear.get i + r.collapsedLinear.get i, ?_⟩
      show some (PyVec.map₂ (· + ·) (q'.add (some S.quad)).collapsedLinear r.collapsedLinear) = _
      rw [hq', h2]
      cases r.collapsedLinear <;> rfl
    obtain ⟨zA, hzA⟩ := hA.total Q v hQc hv
    obtain ⟨zB, hzB⟩ := hB.total Q v hQc hv
    have hu := hA.solves Q zA hQc hzA
    have hu' := hB.solves Q zB hQc hzB
    have : zB = zA := by
      by_contra h
      exact absurd (hu.2 zB h) (not_lt.2 (hu'.2 zA (Ne.symm h)).le)
    subst this
    show (match B.proximal Q with
      | .ok z => some z
      | _ => none) = match A.proximal Q with
      | .ok z => some z
      | _ => none
    rw [hzA, hzB]

/-- **C107** `separable_problem(loss, shape, atoms, groups, test_for_overlap)` is refused exactly when the test is asked for and finds
overlapping groups, and otherwise is the problem of loss plus the sum of the atoms over their groups, started from zero; for disjoint
groups `solve` answers and its accuracy is bounded as for a single atom. -/
theorem C107_separable_problem (S : QuadLoss (p + 1)) (bs : List (Σ g : Selector (p + 1), NonsmoothAtom g.len)) (test : Bool) :
    (SeparableProblem.init S bs test = none ↔ test = true ∧ hasOverlap (bs.map (·.1)) = true) ∧
    ∀ P, SeparableProblem.init S bs test = some P → P = SimpleProblem.ofLoss S (separableAtom bs) (fun _ => 0) ∧
      ∀ (f : (Fin (p + 1) → ℝ) → ℝ) (g : (Fin (p + 1) → ℝ) → Fin (p + 1) → ℝ)
        (pen : (b : Σ g : Selector (p + 1), NonsmoothAtom g.len) → (Fin b.1.len → ℝ) → WithTop ℝ),
        IsLossFor S f g → (∀ b ∈ bs, Function.Injective b.1.idx) → (bs.Pairwise fun a b => SelectDisjoint a.1.idx b.1.idx) →
        (∀ b ∈ bs, IsAtomFor b.2 (pen b)) →
        let total := penalised f S.quad fun x => (bs.map fun b => pen b fun j => x (b.1.idx j)).sum
        (∀ x (v : ℝ), total x = v → P.objective x = .num v) ∧
        ∀ M, 0 < M → SmoothWith f g M → ∀ (a : FitArgs), a.performBacktrack = true → 1 < a.alpha → 0 < a.startStep →
          (∀ lip, ∃ N, ∀ fuel, N < fuel → ∃ c v hist, (P.solve none a lip fuel).1 = .ok c (.num v) hist ∧ total c = v) ∧
          (a.monotonicityRestart = false → a.restart = none → (∃ k, a.maxIts = some k ∧ k ≠ 0 ∧ k ≤ 99) →
            ∀ lip fuel c v hist, (P.solve none a lip fuel).1 = .ok c v hist → ∀ u, IsMinTop total u →
            ∃ vc vu : ℝ, v = .num vc ∧ total c = vc ∧ total u = vu ∧ vu ≤ vc ∧
              vc - vu ≤ 2 * sqDist (fun _ => 0) u / (min a.startStep (1 / (2 * M * a.alpha)) * (hist.length + 1) ^ 2)) := by
  have hd : SeparableProblem.init S bs test = if test && hasOverlap (bs.map (·.1)) then none
      else some (SimpleProblem.ofLoss S (separableAtom bs) (fun _ => 0)) := by
    unfold SeparableProblem.init SeparableAtom.init
    cases test && hasOverlap (bs.map (·.1)) <;> rfl
  rw [hd]
  refine ⟨?_, fun P hP => ?_⟩
  · rw [← Bool.and_eq_true]
    split_ifs with h <;> simp [h]
  · split_ifs at hP
    have hP := (Option.some_inj.1 hP).symm
    subst hP
    refine ⟨rfl, fun f g pen hS hinj hdisj hat => ?_⟩
    have hA := C90_separable bs pen hinj hdisj hat
    refine ⟨fun x v hv => C100_objective S f g _ _ hS hA _ x v hv, fun M hM0 hM a hb ha hst => ⟨fun lip => ?_, ?_⟩⟩
    · exact C100_returns S f g _ _ hS hA M hM _ a hb ha hst lip
    · intro hm hr hmax lip fuel c v hist hs u hu
      exact C100_rate S f g _ _ hS hA M hM0 hM _ a hb ha.le hst hm hr hmax lip fuel c v hist hs u hu

/-- **C107** `separable_problem.singleton(atom, loss)` is `simple_problem(loss, atom)` started from zero: the same run, history,
coefficients and value. -/
theorem C107_singleton (S : QuadLoss (p + 1)) (hS : 0 ≤ S.quad.coef) (A : NonsmoothAtom (p + 1))
    (pen : (Fin (p + 1) → ℝ) → WithTop ℝ) (hA : IsAtomFor A pen) :
    ∃ P, SeparableProblem.singleton A S = some P ∧ (∀ x, P.objective x = (SimpleProblem.ofLoss S A (fun _ => 0)).objective x) ∧
      ∀ (q : Option (Quad (Fin (p + 1)) ℝ)), 0 ≤ quadCoef q → ∀ (a : FitArgs), a.performBacktrack = true → 0 < a.alpha →
        0 < a.startStep → ∀ lip fuel,
        (P.solve q a lip fuel).1 = ((SimpleProblem.ofLoss S A (fun _ => 0)).solve q a lip fuel).1 := by
  have hB := C90_separable (p := p) [⟨Selector.full (p + 1), A⟩] (fun b x => pen fun i => if h : b.1.len = p + 1 then x (Fin.cast h.symm i) else 0)
    (by simp [Selector.full, Function.injective_id]) (by simp) (by
      intro b hb
      rw [List.mem_singleton] at hb
      subst hb
      have : (fun x : Fin (Selector.full (p + 1)).len → ℝ => pen fun i => if h : (Selector.full (p + 1)).len = p + 1 then x (Fin.cast h.symm i) else 0)
          = pen := by
        funext x
        congr 1
        funext i
        exact dif_pos rfl
      dsimp only
      rw [this]; exact hA)
  have hpen : (fun x => (([⟨Selector.full (p + 1), A⟩] : List (Σ g : Selector (p + 1), NonsmoothAtom g.len)).map fun b =>
      (fun (b : Σ g : Selector (p + 1), NonsmoothAtom g.len) (x : Fin b.1.len → ℝ) => pen fun i => if h : b.1.len = p + 1 then x (Fin.cast h.symm i) else 0)
        b fun j => x (b.1.idx j)).sum) = pen := by
    funext x
    simp [Selector.full]
  rw [hpen] at hB
  have hv : (separableAtom [⟨Selector.full (p + 1), A⟩]).nonsmooth = A.nonsmooth := by
    funext x b
    show (ObjVal.num 0).add (A.nonsmooth x b) = _
    cases A.nonsmooth x b with
    | num r => show ObjVal.num _ = _; rw [zero_add]
    | inf => rfl
    | nan => rfl
  refine ⟨SimpleProblem.ofLoss S (separableAtom [⟨Selector.full (p + 1), A⟩]) (fun _ => 0), rfl, fun x => ?_, fun q hq a hb ha hst lip fuel => ?_⟩
  · show ObjVal.add _ ((((separableAtom [⟨Selector.full (p + 1), A⟩]).nonsmooth x false).add _).add _) = ObjVal.add _ (((A.nonsmooth x false).add _).add _)
    rw [hv]
    rfl
  · exact C107_same_penalty S hS A _ pen hA hB hv _ q hq a hb ha hst lip fuel

/-- **C107** `separable_problem.fromatom(sep, loss)` always builds the problem of the same atoms and groups started from zero.  If `sep`
was made without the argument `initial`, `simple_problem(loss, sep)` is the same problem; with it, `simple_problem(loss, sep)` raises,
because `sep` has no attribute `coefs`. -/
theorem C107_fromatom (bs : List (Σ g : Selector n, NonsmoothAtom g.len)) (test : Bool) (initial : Option (Fin n → ℝ))
    (s : SeparableAtom n) (hs : SeparableAtom.init bs test initial = some s) (S : QuadLoss n) :
    SeparableProblem.fromAtom s S = some (SimpleProblem.ofLoss S (separableAtom bs) fun _ => 0) ∧
    (initial = none → s.problem S = SeparableProblem.fromAtom s S) ∧ (initial ≠ none → s.problem S = none) := by
  unfold SeparableAtom.init at hs
  split_ifs at hs
  rw [Option.some_inj] at hs
  subst hs
  refine ⟨rfl, fun h => by subst h; rfl, fun h => ?_⟩
  cases initial with
  | none => exact absurd rfl h
  | some i => rfl

/-! ### `signal_approximator` -/

/-- **C107** Denoising is a proximal map: if `atom.proximal(sq(c, Y, 0, 0))` with `c > 0` returns `z`, then `z` is the unique minimiser
of `c/2 ‖β - Y‖² + pen(β)`, which is the objective of `simple_problem(signal_approximator(Y, c), atom)`; `solve` on that problem answers
from every start, and after `k` recorded values its coefficients are within `c/2 ‖coefs - z‖² ≤ 2 ‖x0 - z‖² / (t (k+1)²)`,
`t = min(start_step, 1/(2 c alpha))`. -/
theorem C107_signal_approximator (Y : Fin n → ℝ) (c : ℝ) (hc : 0 < c) (A : NonsmoothAtom n) (pen : (Fin n → ℝ) → WithTop ℝ)
    (hA : IsAtomFor A pen) (z : Fin n → ℝ) (hz : A.proximal ⟨c, some (.arr Y), some (.scalar 0), 0⟩ = .ok z) :
    ∃ s, signalApproximator Y c = some s ∧
      IsUniqueMinTop (fun β => pen β + ((c / 2 * sqDist β Y : ℝ) : WithTop ℝ)) z ∧
      (∀ x0 β (v : ℝ), pen β = v → (SimpleProblem.ofLoss s.toLoss A x0).objective β = .num (c / 2 * sqDist β Y + v)) ∧
      (∀ x0 (a : FitArgs), a.performBacktrack = true → 1 < a.alpha → 0 < a.startStep → ∀ lip, ∃ N, ∀ fuel, N < fuel →
        ∃ b v hist, ((SimpleProblem.ofLoss s.toLoss A x0).solve none a lip fuel).1 = .ok b (.num v) hist) ∧
      (∀ x0 (a : FitArgs), a.performBacktrack = true → 1 ≤ a.alpha → 0 < a.startStep → a.monotonicityRestart = false →
        a.restart = none → (∃ k, a.maxIts = some k ∧ k ≠ 0 ∧ k ≤ 99) → ∀ lip fuel b v hist,
        ((SimpleProblem.ofLoss s.toLoss A x0).solve none a lip fuel).1 = .ok b v hist →
        c / 2 * sqDist b z ≤ 2 * sqDist x0 z / (min a.startStep (1 / (2 * c * a.alpha)) * (hist.length + 1) ^ 2)) := by
  set q : Quad (Fin n) ℝ := ⟨c, some (.arr Y), some (.scalar 0), 0⟩ with hq
  have hsym : IsSymForm (.none : Smooth.QForm n) := ⟨fun M h => (nomatch h), fun T h => (nomatch h)⟩
  obtain ⟨s, hs⟩ : ∃ s, QuadObj.init (.none : Smooth.QForm n) c (some Y) none = some s := by
    obtain ⟨s, hs, -⟩ := (C79_constructor_partial (.none : Smooth.QForm n) hsym c (some Y) none).2 hc.le
    exact ⟨s, hs⟩
  have hsq : s.toLoss.quad = zeroQuad n := by
    unfold QuadObj.init at hs
    rw [if_neg (not_lt.2 hc.le)] at hs
    rw [Option.some_inj] at hs
    subst hs; rfl
  have hs' : signalApproximator Y c = some s := hs
  have happ : ∀ z : Fin n → ℝ, (Smooth.QForm.none : Smooth.QForm n).app z = z := fun z => rfl
  obtain ⟨hL, hsm⟩ := C100_quadratic_partial (.none : Smooth.QForm n) hsym
    (fun z => by rw [happ]; exact Finset.sum_nonneg fun i _ => mul_self_nonneg _) c (some Y) none le_rfl s hs
  have hM := hsm 1 (fun z => by rw [happ, one_mul])
  rw [mul_one] at hM
  have hform : ∀ β, lossForm c (some Y) (Smooth.QForm.none : Smooth.QForm n).app β = c / 2 * sqDist β Y := by
    intro β
    unfold lossForm
    rw [happ]
    congr 1
    exact Finset.sum_congr rfl fun i _ => (pow_two _).symm
  have hqv : ∀ β, quadVal (some q) β = c / 2 * sqDist β Y := by
    intro β
    show quadFn c (denote (some (.arr Y))) (denote (some (PyVec.scalar 0))) 0 β = _
    unfold quadFn
    have : denote (some (PyVec.scalar (0:ℝ)) : Option (PyVec (Fin n) ℝ)) = fun _ => 0 := rfl
    rw [this]
    simp only [dot, zero_mul, Finset.sum_const_zero, add_zero]
    rfl
  have hpen : penalised (lossForm c (some Y) (Smooth.QForm.none : Smooth.QForm n).app) s.toLoss.quad pen =
      fun β => pen β + ((c / 2 * sqDist β Y : ℝ) : WithTop ℝ) := by
    funext β
    unfold penalised
    rw [hsq, zero_val, hform, add_zero]
  have hpen2 : penalised (fun _ => 0) q pen = fun β => pen β + ((c / 2 * sqDist β Y : ℝ) : WithTop ℝ) := by
    funext β
    unfold penalised
    rw [hqv, zero_add]
  have hu : IsUniqueMinTop (fun β => pen β + ((c / 2 * sqDist β Y : ℝ) : WithTop ℝ)) z := by
    have := hA.solves q z hc hz
    have e : (fun β => ((quadVal (some q) β : ℝ) : WithTop ℝ) + pen β) = fun β => pen β + ((c / 2 * sqDist β Y : ℝ) : WithTop ℝ) := by
      funext β; rw [hqv, add_comm]
    rwa [e] at this
  have hm : IsMinTop (fun β => pen β + ((c / 2 * sqDist β Y : ℝ) : WithTop ℝ)) z := by
    refine ⟨hu.1, fun x => ?_⟩
    rcases eq_or_ne x z with rfl | h
    · exact le_rfl
    · exact (hu.2 x h).le
  refine ⟨s, hs', hu, fun x0 β v hv => ?_, fun x0 a hb ha hst lip => ?_, fun x0 a hb ha hst hmr hr hmax lip fuel b v hist hsol => ?_⟩
  · refine C100_objective s.toLoss _ _ A pen hL hA x0 β _ ?_
    rw [hpen]
    dsimp only
    rw [hv, ← WithTop.coe_add, add_comm]
  · obtain ⟨N, hN⟩ := C100_returns s.toLoss _ _ A pen hL hA c hM x0 a hb ha hst lip
    refine ⟨N, fun fuel hf => ?_⟩
    obtain ⟨b, v, hist, h1, -⟩ := hN fuel hf
    exact ⟨b, v, hist, h1⟩
  · obtain ⟨vc, vu, -, h2, h3, -, h5⟩ := C100_rate s.toLoss _ _ A pen hL hA c hc hM x0 a hb ha hst hmr hr hmax lip fuel b v hist hsol z
      (by rw [hpen]; exact hm)
    rw [hpen] at h2 h3
    have hz' : IsLossFor (⟨Smooth.zeroObj, q⟩ : QuadLoss n) (fun _ => 0) (fun _ _ => 0) := ⟨zero_loss.evaluates, zero_loss.convex, hc.le⟩
    have := (C102_ridge (⟨Smooth.zeroObj, q⟩ : QuadLoss n) _ _ hz' A pen hA z (by
      show IsMinTop (penalised (fun _ => 0) q pen) z
      rw [hpen2]; exact hm)).1 b vc vu (by
        show penalised (fun _ => 0) q pen b = vc
        rw [hpen2]; exact h2) (by
        show penalised (fun _ => 0) q pen z = vu
        rw [hpen2]; exact h3)
    exact this.trans h5

/-! ### `proximal_optimum` -/

/-- **C107** `composite.proximal_optimum(q)` is documented to return the proximal point and the value there; it never returns, whatever
the atom and the quadratics: `q.objective(argmin)` is a pair, to which a number is added. -/
theorem C107_proximal_optimum_fails (A : NonsmoothAtom n) (own q : Quad (Fin n) ℝ) : A.proximalOptimum own q = none := by
  unfold NonsmoothAtom.proximalOptimum
  cases A.proximal q <;> rfl

/-! ### the hypotheses hold of concrete objects -/

/-- the lasso penalty `2‖x‖₁` on two coefficients -/
private lemma ex_atom : ∃ (A : NonsmoothAtom 2) (pen : (Fin 2 → ℝ) → WithTop ℝ), IsAtomFor A pen :=
  ⟨_, _, C90_seminorms (⟨.l1norm, ⟨some 2, none⟩, none, zeroQuad 2⟩ : AtomObj (Fin 2) ℝ) false 2 ⟨by norm_num, rfl⟩ le_rfl⟩

/-- a loss with a quadratic that has an array as center -/
example : ∃ S : QuadLoss 2, ExactCenter S.quad ∧ ∃ f g M, IsLossFor S f g ∧ 0 < M ∧ SmoothWith f g M := by
  have hsym : IsSymForm (.none : Smooth.QForm 2) := ⟨fun M h => (nomatch h), fun T h => (nomatch h)⟩
  set q : Quad (Fin 2) ℝ := ⟨1, some (.arr ![1, 2]), some (.scalar 3), 4⟩ with hq
  obtain ⟨s, hs, -⟩ := (C79_constructor_partial (.none : Smooth.QForm 2) hsym 2 (some ![1, -1]) (some q)).2 (by norm_num)
  have hsq : s.toLoss.quad = q := by
    unfold QuadObj.init at hs
    rw [if_neg (by norm_num), Option.some_inj] at hs
    subst hs; rfl
  obtain ⟨hL, hsm⟩ := C100_quadratic_partial (.none : Smooth.QForm 2) hsym
    (fun z => Finset.sum_nonneg fun i _ => mul_self_nonneg _) 2 (some ![1, -1]) (some q) zero_le_one s hs
  refine ⟨s.toLoss, ?_, _, _, 2 * 1, hL, by norm_num, hsm 1 fun z => ?_⟩
  · rw [hsq]; intro c h; cases h
  · rw [one_mul]; exact le_rfl

/-- a solver call -/
example : ∃ a : FitArgs, a.performBacktrack = true ∧ 1 < a.alpha ∧ 0 < a.startStep ∧ a.monotonicityRestart = false ∧ a.restart = none ∧
    ∃ k, a.maxIts = some k ∧ k ≠ 0 ∧ k ≤ 99 :=
  ⟨{ maxIts := some 50, monotonicityRestart := false, restart := none }, rfl, by norm_num, by norm_num, rfl, rfl, 50, rfl, by norm_num,
    by norm_num⟩

/-- `C107_nonsmooth_prox` and `C107_signal_approximator`: the proximal map answers -/
example (Y : Fin 2 → ℝ) : ∃ (A : NonsmoothAtom 2) (pen : (Fin 2 → ℝ) → WithTop ℝ) (z : Fin 2 → ℝ), IsAtomFor A pen ∧
    A.proximal ⟨3, some (.scalar 0), some (.arr Y), 0⟩ = .ok z := by
  obtain ⟨A, pen, h⟩ := ex_atom
  obtain ⟨z, hz⟩ := h.total ⟨3, some (.scalar 0), some (.arr Y), 0⟩ Y (by norm_num) rfl
  exact ⟨A, pen, z, h, hz⟩

/-- two atoms on the two coordinates of the plane: disjoint groups -/
example : ∃ bs : List (Σ g : Selector 2, NonsmoothAtom g.len), bs.length = 2 ∧ (∀ b ∈ bs, Function.Injective b.1.idx) ∧
    (bs.Pairwise fun a b => SelectDisjoint a.1.idx b.1.idx) ∧ hasOverlap (bs.map (·.1)) = false := by
  refine ⟨[⟨⟨1, fun _ => 0⟩, zeroCone⟩, ⟨⟨1, fun _ => 1⟩, zeroCone⟩], rfl, ?_, ?_, by decide +kernel⟩
  · intro b hb
    have h1 : b.1.len = 1 := by
      rcases List.mem_cons.1 hb with rfl | hb
      · rfl
      · rw [List.mem_singleton] at hb; subst hb; rfl
    intro i j _
    have : Subsingleton (Fin b.1.len) := by rw [h1]; infer_instance
    exact Subsingleton.elim i j
  · simp [SelectDisjoint]

/-- overlapping groups are found -/
example : hasOverlap ([⟨2, fun i => i⟩, ⟨1, fun _ => 1⟩] : List (Selector 2)) = true := by decide +kernel

end Verif.Props
