import Verif.Model.Estimators
import Verif.Model.Seminorms
import Verif.Props.C10_Proximal
import Verif.Props.C33_Fista
import Verif.Props.C34_ProxGradient
import Verif.Lemmas.ProxGrad

/-!
# C84: what `fit` of the penalised estimators minimises, and its null solution; C33: FISTA keeps a minimiser
-/

set_option linter.unusedSectionVars false
set_option linter.unusedVariables false

namespace Verif.Props
open Verif.Spec Verif.Model Verif.Model.Fista Verif.Model.Sklearn Verif.Lemmas

variable {n p : ℕ}

/-! ### FISTA started at a fixed point -/

private lemma btLoop_fixed {C : Composite n} {x : Fin n → ℝ} {r : ℝ} (hs : C.smooth x = .num r)
    (hp : ∀ L : ℝ, 0 < L → C.proximal (stepQuad L x (C.grad x)) = some x) {alpha step : ℝ} (hstep : 0 < step) (fuel : ℕ) (att : Bool) :
    btLoop C alpha x (fuel + 1) step att = .ok x (.num r) step att := by
  have hstop : btStop C step x x (C.smooth x) (C.smooth x) := by
    rw [hs]
    have h0 : |ip (x - x) (C.grad x - C.grad x)| ≤ 0.5 / step * nsq (x - x) := by simp [ip, nsq]
    simp only [btStop, sub_self, abs_zero, zero_div]
    rw [if_neg (by norm_num)]
    simpa using h0
  unfold btLoop
  rw [hp (1 / step) (one_div_pos.mpr hstep)]
  simp only
  rw [if_pos hstop, hs]

private lemma finish_fixed {C : Composite n} {x : Fin n → ℝ} {r t : ℝ} (hn : C.nonsmooth x false = .num t) (a : FitArgs)
    (s : State n) (hc : s.coefs = x) (ho : s.obj = .num (r + t)) :
    (∃ s', finish C a s x (.num r) = .stop s' ∧ s'.coefs = x) ∨
    ∃ s', finish C a s x (.num r) = .next s' ∧ s'.coefs = x ∧ s'.working = x ∧ s'.obj = .num (r + t) ∧
      s'.itercount = s.itercount + 1 ∧ s'.step = s.step := by
  unfold finish
  simp only
  have hlt : ¬ s.obj.lt ((ObjVal.num r).add (C.nonsmooth x false)) := by
    rw [hn, ho]; exact lt_irrefl (r + t)
  split_ifs with h1 h2
  · exact .inl ⟨_, rfl, hc⟩
  · exact absurd h2.2.1 hlt
  · exact absurd h2.2.1 hlt
  · exact absurd h2.2.1 hlt
  · refine .inr ⟨_, rfl, rfl, ?_, ?_, rfl, rfl⟩
    · show nextWorking s.weight x s.coefs = x
      rw [hc]
      simp [nextWorking]
    · show (ObjVal.num r).add (C.nonsmooth x false) = _
      rw [hn]; rfl

private lemma loop_fixed {C : Composite n} {x : Fin n → ℝ} {r t : ℝ} (hs : C.smooth x = .num r) (hn : C.nonsmooth x false = .num t)
    (hp : ∀ L : ℝ, 0 < L → C.proximal (stepQuad L x (C.grad x)) = some x) {a : FitArgs} (hb : a.performBacktrack = true)
    (ha : 0 < a.alpha) (fuel : ℕ) :
    ∀ (k : ℕ) (s : State n), s.coefs = x → s.working = x → s.obj = .num (r + t) → 0 < s.step →
      s.itercount ≤ a.maxItsV → a.maxItsV < s.itercount + k → ∃ hist s', loop C a (fuel + 1) k s = .ok hist s' ∧ s'.coefs = x := by
  intro k
  induction k with
  | zero =>
    intro s hc hw ho hst hle hk
    omega
  | succ k ih =>
    intro s hc hw ho hst hle hk
    unfold loop
    split_ifs with hlt
    · have hprep : ∃ s1 : State n, prepare a s = s1 ∧ s1.coefs = x ∧ s1.working = x ∧ s1.obj = .num (r + t) ∧
          s1.step = s.step ∧ s1.itercount = s.itercount := by
        refine ⟨_, rfl, ?_⟩
        unfold prepare
        cases a.restart with
        | none => exact ⟨hc, hw, ho, rfl, rfl⟩
        | some q =>
          dsimp only
          split_ifs
          · exact ⟨hc, hc, ho, rfl, rfl⟩
          · exact ⟨hc, hw, ho, rfl, rfl⟩
      obtain ⟨s1, hs1, h1, h2, h3, h4, h5⟩ := hprep
      have hbt : ∃ st at', 0 < st ∧ backtrack C a.alpha (fuel + 1) s1.itercount s1.working s1.step s1.attempt =
          .ok x (.num r) st at' := by
        unfold backtrack
        rw [h2]
        split_ifs
        · exact ⟨_, _, mul_pos (h4 ▸ hst) ha, btLoop_fixed hs hp (mul_pos (h4 ▸ hst) ha) fuel true⟩
        · exact ⟨_, _, h4 ▸ hst, btLoop_fixed hs hp (h4 ▸ hst) fuel _⟩
      obtain ⟨st, at', hst', hbt⟩ := hbt
      have hpass : pass C a (fuel + 1) s = finish C a { s1 with step := st, attempt := at' } x (.num r) := by
        unfold pass
        simp only [hs1, if_pos hb, hbt]
      rcases finish_fixed (r := r) hn a { s1 with step := st, attempt := at' } h1 h3 with ⟨s', e, hc'⟩ | ⟨s', e, g1, g2, g3, g4, g5⟩
      · rw [hpass, e]
        exact ⟨_, _, rfl, hc'⟩
      · rw [hpass, e]
        have : s'.itercount = s.itercount + 1 := by rw [g4, ← h5]
        exact ih s' g1 g2 g3 (g5 ▸ hst') (by omega) (by omega)
    · exact ⟨_, _, rfl, hc⟩

lemma fit_fixed {C : Composite n} {x : Fin n → ℝ} {r t : ℝ} (hs : C.smooth x = .num r)
    (hn : ∀ check, C.nonsmooth x check = .num t)
    (hp : ∀ L : ℝ, 0 < L → C.proximal (stepQuad L x (C.grad x)) = some x) {a : FitArgs} (hb : a.performBacktrack = true)
    (ha : 0 < a.alpha) {step : Option ℝ} (hstart : StartsPositive a step) (att : Bool) {fuel : ℕ} (hfuel : 0 < fuel) :
    ∃ hist s, fit C a step att fuel x = .ok hist s ∧ s.coefs = x := by
  obtain ⟨fuel, rfl⟩ := Nat.exists_eq_succ_of_ne_zero hfuel.ne'
  have ho : startObj C x = .num (r + t) := by unfold startObj; rw [hs, hn]; rfl
  unfold fit
  rw [ho]
  exact loop_fixed hs (hn false) hp hb ha fuel _ (startState C a step att x) rfl rfl ho hstart (Nat.zero_le _)
    (by show a.maxItsV < 0 + (a.maxItsV + 1); omega)

/-- **C33** FISTA keeps a solution: started at a minimiser of a convex problem whose proximal map does not raise, `fit` returns
and leaves the coefficients exactly as they are, for every setting of tolerance, iteration limits, restarts, stopping rule and
(positive) step size. -/
theorem C33_keeps_minimiser (C : Composite n) (f h : (Fin n → ℝ) → ℝ) (S : Set (Fin n → ℝ)) (hC : IsProblem C f h S)
    (x : Fin n → ℝ) (hf : IsGradientAt f (C.grad x) x) (hh : IsConvexFnOn h S)
    (hprox : ∀ (L : ℝ) (x g : Fin n → ℝ), 0 < L →
      ∃ z, C.proximal (Quad.init (some L) (some (.arr x)) (some (.arr g)) (some 0)) = some z)
    (a : FitArgs) (hb : a.performBacktrack = true) (ha : 0 < a.alpha) (step : Option ℝ) (hstart : StartsPositive a step)
    (att : Bool) (fuel : ℕ) (hfuel : 0 < fuel)
    (hx : Minimises (fun u => f u + h u) S x) : ∃ hist s, fit C a step att fuel x = .ok hist s ∧ s.coefs = x := by
  refine fit_fixed (hC.smooth x) (t := h x) (fun check => ?_) (fun L hL => ?_) hb ha hstart att hfuel
  · cases check
    · exact hC.nonsmooth x hx.1
    · exact hC.feasible x hx.1
  · obtain ⟨z, hz⟩ := hprox L x (C.grad x) hL
    have := Lemmas.IsUniqueMinOn.unique (hC.prox L x _ z hL hz) (minimiser_isProxStep hL hf hh hx)
    rw [this] at hz
    exact hz

/-! ### the problem `fit` solves -/

/-- A penalty: `pen` is a seminorm and `lagrange_prox` of its class returns the proximal point of `l * pen` for every finite
`l ≥ 0` (C03, C05, C06, C07 prove this of the atoms). -/
structure IsPenalty (pen : (Fin p → ℝ) → ℝ) (prox : (Fin p → ℝ) → ℝ → WithTop ℝ → Option (Fin p → ℝ)) : Prop where
  nonneg : ∀ x, 0 ≤ pen x
  zero : pen (fun _ => 0) = 0
  convex : IsConvexFnOn pen Set.univ
  prox : ∀ (l : ℝ) (arg : Fin p → ℝ) (L : ℝ), 0 ≤ l → 0 < L →
    ∃ u, prox arg L (some l) = some u ∧ IsProxOn L (fun x => l * pen x) Set.univ arg u

/-- documented objective of an elastic net fit: loss + `(1 - alpha) * lagrange * penalty` + `alpha * lagrange / 2 * ‖β‖²` -/
noncomputable def enetObjective (f pen : (Fin p → ℝ) → ℝ) (lam alpha : ℝ) (β : Fin p → ℝ) : ℝ :=
  f β + ((1 - alpha) * lam * pen β + alpha * lam / 2 * ∑ j, β j ^ 2)

lemma fv84 (q : Quad (Fin p) ℝ) (x : Fin p → ℝ) : q.funcVal x = quadVal (some q) x := by
  have := C14_objective_func (some q.coef) q.center q.linear (some q.const) x
  simp only [Quad.init, Quad.objective, Option.getD, Quad.Value.func.injEq] at this
  exact this

lemma init_val (x : Fin p → ℝ) : quadVal (some (Quad.init none none none none : Quad (Fin p) ℝ)) x = 0 := by
  simp [quadVal, quadFn, Quad.init, denote, dot]

/-- the atom of an estimator inside `simple_problem` -/
private lemma atom_simple {A : LagAtom p} {l : ℝ} (hl : A.lagrange = some l) (hl0 : 0 ≤ l) (hA : IsPenalty A.pen A.lagrangeProx)
    (hq : 0 ≤ A.quad.coef) (f : (Fin p → ℝ) → ℝ) (g : (Fin p → ℝ) → Fin p → ℝ) (c : Fin p → ℝ) :
    IsSimple (Estimator.problem f g A c) f (fun x => l * A.pen x + quadVal (some A.quad) x) Set.univ := by
  refine ⟨fun _ => rfl, fun x _ check => ?_, fun x hx => absurd (Set.mem_univ x) hx, ?_, le_rfl, le_rfl⟩
  · show (LagAtom.lagTimes A.lagrange (A.pen x)).add _ = _
    rw [hl, fv84]; rfl
  · intro Q z hQ hz
    change A.solve Q = some z at hz
    unfold LagAtom.solve at hz
    rw [hl] at hz
    cases hs : seminormProximal (fun arg L _ => A.lagrangeProx arg L (some l)) (fun _ _ => none) (.lagrange 0) none A.quad
        (some Q) with
    | ok u =>
      rw [hs] at hz
      injection hz with hz
      subst hz
      have := C10_proximal_lagrange (fun arg L _ => A.lagrangeProx arg L (some l)) (fun _ _ => none)
        (fun x => l * A.pen x) Set.univ 0 (fun arg L u hL hu => by
          obtain ⟨u', e, h⟩ := hA.prox l arg L hl0 hL
          rw [e] at hu; injection hu with hu; rw [← hu]; exact h) none A.quad (some Q) u (by
          show 0 < A.quad.coef + Q.coef; linarith) hs
      refine ⟨Set.mem_univ _, fun v hv hne => ?_⟩
      have h1 := this.2 v (Set.mem_univ _) hne
      simp only [denote, sub_zero] at h1
      simp only [fv84]
      linarith
    | valueError => rw [hs] at hz; cases hz
    | typeError => rw [hs] at hz; cases hz
    | scalarArgument => rw [hs] at hz; cases hz
    | baseError => rw [hs] at hz; cases hz

private def IsArr (v : PyVec (Fin p) ℝ) : Prop := ∃ w, v = .arr w

private lemma arr_right (f : ℝ → ℝ → ℝ) (u : PyVec (Fin p) ℝ) {v : PyVec (Fin p) ℝ} (h : IsArr v) :
    IsArr (PyVec.map₂ f u v) := by
  obtain ⟨w, rfl⟩ := h
  cases u <;> exact ⟨_, rfl⟩

private lemma arr_left (f : ℝ → ℝ → ℝ) {u : PyVec (Fin p) ℝ} (v : PyVec (Fin p) ℝ) (h : IsArr u) :
    IsArr (PyVec.map₂ f u v) := by
  obtain ⟨w, rfl⟩ := h
  cases v <;> exact ⟨_, rfl⟩

private lemma arr_collapsed {q : Quad (Fin p) ℝ} {l : PyVec (Fin p) ℝ} (hl : q.linear = some l) (h : IsArr l) :
    IsArr q.collapsedLinear := by
  unfold Quad.collapsedLinear
  rw [hl]
  exact arr_right _ _ h

/-- `solve` does not raise when the quadratic has an array as linear term and a positive coefficient -/
private lemma solve_some {A : LagAtom p} {l : ℝ} (hl : A.lagrange = some l) (hl0 : 0 ≤ l) (hA : IsPenalty A.pen A.lagrangeProx)
    (hq : 0 ≤ A.quad.coef) {Q : Quad (Fin p) ℝ} {v : PyVec (Fin p) ℝ} (hv : Q.linear = some v) (harr : IsArr v)
    (hQ : 0 < Q.coef) : ∃ z, A.solve Q = some z := by
  unfold LagAtom.solve
  have hsum : (A.quad.add (some Q)).linear = some (PyVec.map₂ (· + ·) A.quad.collapsedLinear Q.collapsedLinear) := rfl
  obtain ⟨w, hw⟩ := arr_collapsed hsum (arr_right _ _ (arr_collapsed hv harr))
  have hco : (A.quad.add (some Q)).collapsed.coef = A.quad.coef + Q.coef := rfl
  have hli : (A.quad.add (some Q)).collapsed.linear = some (.arr w) := by
    show some (A.quad.add (some Q)).collapsedLinear = _
    rw [hw]
  obtain ⟨u, hu, _⟩ := hA.prox l (fun i => -(w i) / (A.quad.add (some Q)).collapsed.coef) (A.quad.coef + Q.coef) hl0
    (by linarith)
  refine ⟨u, ?_⟩
  simp only [seminormProximal, Quad.recenter]
  rw [if_neg (by rw [hco]; linarith)]
  simp only [hli, hl]
  rw [hco] at hu ⊢
  rw [hu]

/-- the step quadratic of FISTA inside the problem -/
private lemma prox_some {A : LagAtom p} {l : ℝ} (hl : A.lagrange = some l) (hl0 : 0 ≤ l) (hA : IsPenalty A.pen A.lagrangeProx)
    (hq : 0 ≤ A.quad.coef) (f : (Fin p → ℝ) → ℝ) (g : (Fin p → ℝ) → Fin p → ℝ) (c : Fin p → ℝ) (lip : ℝ)
    (L : ℝ) (x u : Fin p → ℝ) (hL : 0 < L) :
    ∃ z, ((Estimator.problem f g A c).composite lip).proximal
      (Quad.init (some L) (some (.arr x)) (some (.arr u)) (some 0)) = some z := by
  refine solve_some hl hl0 hA hq (Q := ((Quad.init (some L) (some (.arr x)) (some (.arr u)) (some 0)).add
    (some (Quad.init none none none none))).add (some (Quad.init none none none none))) (v := _) rfl ?_ ?_
  · exact arr_left _ _ (arr_collapsed (q := (Quad.init (some L) (some (.arr x)) (some (.arr u)) (some 0)).add
      (some (Quad.init none none none none))) rfl (arr_left _ _ (arr_collapsed rfl ⟨_, rfl⟩)))
  · show 0 < L + 0 + 0
    linarith

private lemma enet_atom (E : Estimator p) (score : Fin p → ℝ) {lam : ℝ} (hlam : (E.ctor score).lagrange = some lam)
    (hα : E.enetAlpha ≠ 0) : E.constructAtom score =
      { E.ctor score with lagrange := some (lam * (1 - E.enetAlpha))
                          quad := Quad.init (some (E.enetAlpha * lam)) (some (.scalar 0)) (some (.scalar 0)) (some 0) } := by
  unfold Estimator.constructAtom
  simp only [if_pos hα, hlam]

private lemma plain_atom (E : Estimator p) (score : Fin p → ℝ) (hα : E.enetAlpha = 0) : E.constructAtom score = E.ctor score := by
  unfold Estimator.constructAtom
  simp only [hα, ne_eq, not_true_eq_false, if_false]

private lemma ridge_val (a : ℝ) (x : Fin p → ℝ) :
    quadVal (some (Quad.init (some a) (some (.scalar 0)) (some (.scalar 0)) (some 0) : Quad (Fin p) ℝ)) x =
      a / 2 * ∑ j, x j ^ 2 := by
  simp [quadVal, quadFn, Quad.init, denote, dot, sqDist]

private lemma solve_nan {P : SimpleProblem p} {a : FitArgs} {lip : ℝ} {fuel : ℕ}
    (h : Fista.fit (P.composite lip) a none false fuel P.coefs = .nanObjective) :
    (P.solve none a lip fuel).1 = .raised := by
  unfold SimpleProblem.solve
  have e : P.quadratic.add none = P.quadratic := rfl
  simp only [e]
  rw [h]

/-- outcome of `solve` without extra quadratic -/
lemma solve_ok {P : SimpleProblem p} {a : FitArgs} {lip : ℝ} {fuel : ℕ} {hist : List ObjVal} {s : State p}
    (h : Fista.fit (P.composite lip) a none false fuel P.coefs = .ok hist s) :
    (P.solve none a lip fuel).1 = .ok s.coefs (P.objective s.coefs) hist := by
  unfold SimpleProblem.solve
  have e : P.quadratic.add none = P.quadratic := rfl
  simp only [e]
  rw [h]
  rfl

lemma ok_solve {P : SimpleProblem p} {a : FitArgs} {lip : ℝ} {fuel : ℕ} {c : Fin p → ℝ} {v : ObjVal} {hist : List ObjVal}
    (h : (P.solve none a lip fuel).1 = .ok c v hist) :
    ∃ s, Fista.fit (P.composite lip) a none false fuel P.coefs = .ok hist s ∧ s.coefs = c ∧ v = P.objective c := by
  unfold SimpleProblem.solve at h
  have e : P.quadratic.add none = P.quadratic := rfl
  simp only [e] at h
  cases hf : Fista.fit (P.composite lip) a none false fuel P.coefs with
  | ok hist' s =>
    rw [hf] at h
    injection h with h1 h2 h3
    subst h1 h3
    exact ⟨s, rfl, rfl, h2.symm⟩
  | nanObjective => rw [hf] at h; cases h
  | proxError s => rw [hf] at h; cases h
  | zeroStep s => rw [hf] at h; cases h
  | diverged => rw [hf] at h; cases h

/-- the nonsmooth part FISTA sees: `(1 - alpha) * lagrange * penalty + alpha * lagrange / 2 * ‖β‖²` plus, without elastic net,
the quadratic of the constructed atom -/
noncomputable def fitNonsmooth (E : Estimator p) (score : Fin p → ℝ) (lam : ℝ) (β : Fin p → ℝ) : ℝ :=
  (1 - E.enetAlpha) * lam * (E.ctor score).pen β + E.enetAlpha * lam / 2 * ∑ j, β j ^ 2 +
    open Classical in if E.enetAlpha = 0 then quadVal (some (E.ctor score).quad) β else 0

private lemma fit_problem (E : Estimator p) (score : Fin p → ℝ) {lam : ℝ} (hlam : (E.ctor score).lagrange = some lam)
    (h0 : 0 ≤ lam) (ha0 : 0 ≤ E.enetAlpha) (ha1 : E.enetAlpha ≤ 1) (hA : IsPenalty (E.ctor score).pen (E.ctor score).lagrangeProx)
    (hq : 0 ≤ (E.ctor score).quad.coef)
    (f : (Fin p → ℝ) → ℝ) (g : (Fin p → ℝ) → Fin p → ℝ) (c : Fin p → ℝ) (lip : ℝ) :
    IsProblem ((Estimator.problem f g (E.constructAtom score) c).composite lip) f (fitNonsmooth E score lam) Set.univ ∧
    (∀ (L : ℝ) (x u : Fin p → ℝ), 0 < L → ∃ z, ((Estimator.problem f g (E.constructAtom score) c).composite lip).proximal
      (Quad.init (some L) (some (.arr x)) (some (.arr u)) (some 0)) = some z) ∧
    (∀ x, (Estimator.problem f g (E.constructAtom score) c).objective x = .num (f x + fitNonsmooth E score lam x)) := by
  have key : ∃ l, (E.constructAtom score).lagrange = some l ∧ 0 ≤ l ∧
      IsPenalty (E.constructAtom score).pen (E.constructAtom score).lagrangeProx ∧ 0 ≤ (E.constructAtom score).quad.coef ∧
      ∀ x, l * (E.constructAtom score).pen x + quadVal (some (E.constructAtom score).quad) x = fitNonsmooth E score lam x := by
    by_cases hα : E.enetAlpha = 0
    · rw [plain_atom E score hα]
      refine ⟨lam, hlam, h0, hA, hq, fun x => ?_⟩
      unfold fitNonsmooth
      rw [if_pos hα, hα]; ring
    · rw [enet_atom E score hlam hα]
      refine ⟨_, rfl, mul_nonneg h0 (by linarith), hA, mul_nonneg ha0 h0, fun x => ?_⟩
      unfold fitNonsmooth
      rw [if_neg hα, ridge_val]; ring
  obtain ⟨l, h1, h2, h3, h4, h5⟩ := key
  have hS := atom_simple h1 h2 h3 h4 f g c
  have hI := C36_objective _ f _ _ hS lip
  have e : simpleNonsmooth (Estimator.problem f g (E.constructAtom score) c)
      (fun x => l * (E.constructAtom score).pen x + quadVal (some (E.constructAtom score).quad) x) = fitNonsmooth E score lam := by
    funext x
    unfold simpleNonsmooth
    dsimp only
    rw [h5]
    show _ + quadVal (some (Quad.init none none none none)) x + quadVal (some (Quad.init none none none none)) x = _
    rw [init_val]; ring
  rw [e] at hI
  refine ⟨hI, fun L x u hL => prox_some h1 h2 h3 h4 f g c lip L x u hL, fun x => ?_⟩
  have := hI.nonsmooth x (Set.mem_univ x)
  unfold SimpleProblem.objective
  show (ObjVal.num (f x)).add ((Estimator.problem f g (E.constructAtom score) c).nonsmooth x false) = _
  change (Estimator.problem f g (E.constructAtom score) c).nonsmooth x false = _ at this
  rw [this]; rfl

/-- **C84** What `fit` of an estimator without unpenalised coefficients minimises.  Let `lam` be the `lagrange` of the atom that
`atom_constructor` returns for the score at zero.  `fit` runs the solver, from `initial` (zero if not given) and with the
arguments `solve_args`, on loss + `(1 - enet_alpha) * lam * penalty + enet_alpha * lam / 2 * ‖β‖²` (+, only when
`enet_alpha` is 0, the quadratic of the constructed atom), and the objective of the problem at the fitted coefficients is
that function. -/
theorem C84_fit_objective (E : Estimator p) (f : (Fin p → ℝ) → ℝ) (g : (Fin p → ℝ) → Fin p → ℝ) (lip : ℝ) (fuel : ℕ)
    (hu : E.unpenalized = false) (lam : ℝ) (hlam : (E.ctor (g fun _ => 0)).lagrange = some lam)
    (h0 : 0 ≤ lam) (ha0 : 0 ≤ E.enetAlpha) (ha1 : E.enetAlpha ≤ 1)
    (hA : IsPenalty (E.ctor (g fun _ => 0)).pen (E.ctor (g fun _ => 0)).lagrangeProx)
    (hq : 0 ≤ (E.ctor (g fun _ => 0)).quad.coef) :
    ∃ C : Composite p, IsProblem C f (fitNonsmooth E (g fun _ => 0) lam) Set.univ ∧ C.grad = g ∧
      (∀ hist s, Fista.fit C E.solveArgs none false fuel (E.initial.getD fun _ => 0) = .ok hist s →
        E.fit f g lip fuel = .ok s.coefs (.num (f s.coefs + fitNonsmooth E (g fun _ => 0) lam s.coefs)) hist) ∧
      (∀ c v hist, E.fit f g lip fuel = .ok c v hist →
        ∃ s, Fista.fit C E.solveArgs none false fuel (E.initial.getD fun _ => 0) = .ok hist s ∧ s.coefs = c) ∧
      (E.enetAlpha ≠ 0 → ∀ β, f β + fitNonsmooth E (g fun _ => 0) lam β =
        enetObjective f (E.ctor (g fun _ => 0)).pen lam E.enetAlpha β) := by
  obtain ⟨hI, hP, hO⟩ := fit_problem E (g fun _ => 0) hlam h0 ha0 ha1 hA hq f g (E.initial.getD fun _ => 0) lip
  refine ⟨_, hI, rfl, fun hist s hs => ?_, fun c v hist h => ?_, fun hα β => ?_⟩
  · unfold Estimator.fit
    simp only [hu, Bool.false_eq_true, if_false]
    rw [solve_ok hs, hO]
  · unfold Estimator.fit at h
    simp only [hu, Bool.false_eq_true, if_false] at h
    obtain ⟨s, h1, h2, _⟩ := ok_solve h
    exact ⟨s, h1, h2⟩
  · unfold fitNonsmooth enetObjective
    rw [if_neg hα, add_zero]

/-- **C84** `fit` returns: if the gradient of the loss is Lipschitz then for every start, every (nonnegative) penalty
parameter and every setting of the solver with backtracking, `fit` comes back with coefficients. -/
theorem C84_fit_returns (E : Estimator p) (f : (Fin p → ℝ) → ℝ) (g : (Fin p → ℝ) → Fin p → ℝ) (lip : ℝ)
    (M : ℝ) (hM : 0 < M) (hf : SmoothWith f g M)
    (hu : E.unpenalized = false) (lam : ℝ) (hlam : (E.ctor (g fun _ => 0)).lagrange = some lam)
    (h0 : 0 ≤ lam) (ha0 : 0 ≤ E.enetAlpha) (ha1 : E.enetAlpha ≤ 1)
    (hA : IsPenalty (E.ctor (g fun _ => 0)).pen (E.ctor (g fun _ => 0)).lagrangeProx)
    (hq : 0 ≤ (E.ctor (g fun _ => 0)).quad.coef)
    (hb : E.solveArgs.performBacktrack = true) (ha : 1 < E.solveArgs.alpha) (hs : 0 < E.solveArgs.startStep) :
    ∃ N, ∀ fuel, N < fuel → ∃ c v hist, E.fit f g lip fuel = .ok c v hist := by
  obtain ⟨hI, hP, hO⟩ := fit_problem E (g fun _ => 0) hlam h0 ha0 ha1 hA hq f g (E.initial.getD fun _ => 0) lip
  obtain ⟨N, hN⟩ := C33_terminates _ f _ _ hI.core M hM hf hP E.solveArgs hb ha none hs false (E.initial.getD fun _ => 0)
    (hI.start _)
  refine ⟨N, fun fuel hfu => ?_⟩
  obtain ⟨hist, s, h⟩ := hN fuel hfu
  refine ⟨s.coefs, (Estimator.problem f g (E.constructAtom (g fun _ => 0)) (E.initial.getD fun _ => 0)).objective s.coefs,
    hist, ?_⟩
  unfold Estimator.fit
  simp only [hu, Bool.false_eq_true, if_false]
  exact solve_ok h

/-- **C84** The null solution: if `(1 - enet_alpha) * lam` is at least the dual norm of the score at zero (that is
`-⟨score, β⟩ ≤ (1 - enet_alpha) * lam * penalty β` for all `β`), a `fit` from the default start returns coefficients that are
exactly zero - for every loss, convex or not. -/
theorem C84_null (E : Estimator p) (f : (Fin p → ℝ) → ℝ) (g : (Fin p → ℝ) → Fin p → ℝ) (lip : ℝ) (fuel : ℕ) (hfuel : 0 < fuel)
    (hu : E.unpenalized = false) (hini : E.initial = none)
    (lam : ℝ) (hlam : (E.ctor (g fun _ => 0)).lagrange = some lam)
    (h0 : 0 ≤ lam) (ha0 : 0 ≤ E.enetAlpha) (ha1 : E.enetAlpha ≤ 1)
    (hA : IsPenalty (E.ctor (g fun _ => 0)).pen (E.ctor (g fun _ => 0)).lagrangeProx)
    (hq : (E.ctor (g fun _ => 0)).quad = Quad.init none none none none)
    (hb : E.solveArgs.performBacktrack = true) (ha : 0 < E.solveArgs.alpha) (hs : 0 < E.solveArgs.startStep)
    (hdual : ∀ β, -dot (g fun _ => 0) β ≤ (1 - E.enetAlpha) * lam * (E.ctor (g fun _ => 0)).pen β) :
    ∃ v hist, E.fit f g lip fuel = .ok (fun _ => 0) v hist := by
  obtain ⟨hI, hP, hO⟩ := fit_problem E (g fun _ => 0) hlam h0 ha0 ha1 hA (by rw [hq]; exact le_rfl) f g (fun _ => 0) lip
  have hH : ∀ x, fitNonsmooth E (g fun _ => 0) lam x =
      (1 - E.enetAlpha) * lam * (E.ctor (g fun _ => 0)).pen x + E.enetAlpha * lam / 2 * ∑ j, x j ^ 2 := by
    intro x
    unfold fitNonsmooth
    rw [hq, init_val, ite_self, add_zero]
  obtain ⟨hist, s, h1, h2⟩ := fit_fixed (C := (Estimator.problem f g (E.constructAtom (g fun _ => 0)) fun _ => 0).composite lip)
    (x := fun _ => 0) (hI.smooth _) (t := fitNonsmooth E (g fun _ => 0) lam fun _ => 0) (fun check => by
      cases check
      · exact hI.nonsmooth _ (Set.mem_univ _)
      · exact hI.feasible _ (Set.mem_univ _)) (fun L hL => by
      obtain ⟨z, hz⟩ := hP L (fun _ => 0) (g fun _ => 0) hL
      have h1 := hI.prox L _ _ z hL hz
      have h2 : IsProxStep L (fitNonsmooth E (g fun _ => 0) lam) Set.univ (fun _ => 0) (g fun _ => 0) (fun _ => 0) := by
        refine ⟨Set.mem_univ _, fun u _ hne => ?_⟩
        dsimp only
        rw [hH, hH, hA.zero]
        have hd : dot (g fun _ => 0) (fun _ => (0:ℝ)) = 0 := by simp [dot]
        have hs0 : sqDist (fun _ : Fin p => (0:ℝ)) (fun _ => 0) = 0 := by simp [sqDist]
        have hpos : 0 < sqDist u (fun _ => 0) := by
          unfold sqDist
          obtain ⟨i, hi⟩ := Function.ne_iff.mp hne
          refine Finset.sum_pos' (fun j _ => sq_nonneg _) ⟨i, Finset.mem_univ _, ?_⟩
          have : u i - 0 ≠ 0 := by simpa using hi
          positivity
        have hr : 0 ≤ E.enetAlpha * lam / 2 * ∑ j, u j ^ 2 :=
          mul_nonneg (by positivity) (Finset.sum_nonneg fun j _ => sq_nonneg _)
        have := hdual u
        have hL2 : 0 < L / 2 * sqDist u (fun _ => 0) := by positivity
        simp only [hd, hs0, mul_zero, ne_eq, OfNat.ofNat_ne_zero, not_false_eq_true, zero_pow, Finset.sum_const_zero, add_zero]
        linarith
      have e := Lemmas.IsUniqueMinOn.unique h1 h2
      rw [e] at hz
      exact hz) hb ha (step := none) hs false hfuel
  refine ⟨(Estimator.problem f g (E.constructAtom (g fun _ => 0)) fun _ => 0).objective fun _ => 0, hist, ?_⟩
  unfold Estimator.fit
  simp only [hu, Bool.false_eq_true, if_false, hini, Option.getD_none]
  have := solve_ok (P := Estimator.problem f g (E.constructAtom (g fun _ => 0)) fun _ => 0) h1
  rw [h2] at this
  exact this

/-- **C84 fails for unpenalised coefficients**: with `unpenalized=True`, `fit` raises `ValueError('objective is NaN')` for every
loss, every data set, every `enet_alpha` and every penalty - the atom with `lagrange=np.inf` is evaluated at zero, and
`np.inf * 0` is nan. -/
theorem C84_unpenalized_fails (E : Estimator p) (f : (Fin p → ℝ) → ℝ) (g : (Fin p → ℝ) → Fin p → ℝ) (lip : ℝ) (fuel : ℕ)
    (hu : E.unpenalized = true) (hpen : (E.ctor (g fun _ => 0)).pen (fun _ => 0) = 0) :
    E.fit f g lip fuel = .raised := by
  have hpen' : (E.constructAtom (g fun _ => 0)).pen = (E.ctor (g fun _ => 0)).pen := by
    unfold Estimator.constructAtom
    dsimp only
    split_ifs
    · cases (E.ctor (g fun _ => 0)).lagrange <;> rfl
    · rfl
  have hstart : startObj ((Estimator.problem f g { E.constructAtom (g fun _ => 0) with lagrange := ⊤ } fun _ => 0).composite lip)
      (fun _ => 0) = .nan := by
    unfold startObj
    have : LagAtom.lagTimes ⊤ ((E.constructAtom (g fun _ => 0)).pen fun _ => 0) = .nan := by
      rw [hpen', hpen]
      show (open Classical in if (0:ℝ) = 0 then ObjVal.nan else .inf) = .nan
      rw [if_pos rfl]
    show (ObjVal.num (f _)).add (((((LagAtom.lagTimes ⊤ ((E.constructAtom (g fun _ => 0)).pen fun _ => 0)).add _)).add _).add _) = _
    rw [this]
    rfl
  have hfit : Fista.fit ((Estimator.problem f g { E.constructAtom (g fun _ => 0) with lagrange := ⊤ } fun _ => 0).composite lip)
      {} none false fuel (fun _ => 0) = .nanObjective := by
    unfold Fista.fit
    rw [hstart]
  unfold Estimator.fit
  simp only [hu, if_true]
  have hsolve : ((Estimator.problem f g { E.constructAtom (g fun _ => 0) with lagrange := ⊤ } fun _ => 0).solve none {} lip
      fuel).1 = .raised := solve_nan hfit
  rw [hsolve]

/-- **C84 fails for an atom with a quadratic**: with `enet_alpha ≠ 0` the quadratic of the atom returned by `atom_constructor` is
replaced by the ridge term, so `fit` gives the same result whatever that quadratic is. -/
theorem C84_enet_quadratic_fails (E : Estimator p) (q : Quad (Fin p) ℝ) (f : (Fin p → ℝ) → ℝ) (g : (Fin p → ℝ) → Fin p → ℝ)
    (lip : ℝ) (fuel : ℕ) (hα : E.enetAlpha ≠ 0) (hl : ∀ s, (E.ctor s).lagrange ≠ ⊤) :
    ({ E with ctor := fun s => { E.ctor s with quad := q } } : Estimator p).fit f g lip fuel = E.fit f g lip fuel := by
  have key : ({ E with ctor := fun s => { E.ctor s with quad := q } } : Estimator p).constructAtom = E.constructAtom := by
    funext s
    unfold Estimator.constructAtom
    simp only [if_pos hα]
    cases h : (E.ctor s).lagrange with
    | coe l => rfl
    | top => exact absurd h (hl s)
  unfold Estimator.fit
  rw [key]

/-! ### the lasso and the elastic net -/

/-- `atom_constructor = l1norm`, `lagrange=lam` -/
noncomputable def l1Ctor (p : ℕ) (lam : ℝ) (_score : Fin p → ℝ) : LagAtom p :=
  { pen := fun β => ∑ j, |β j|
    lagrangeProx := fun arg L l => match l with
      | some l => some (L1.lagrangeProx arg L l)
      | none => none
    lagrange := some lam
    quad := Quad.init none none none none }

private lemma l1_penalty (lam : ℝ) (score : Fin (p + 1) → ℝ) : IsPenalty (l1Ctor (p + 1) lam score).pen (l1Ctor (p + 1) lam score).lagrangeProx := by
  refine ⟨fun x => show 0 ≤ ∑ j, |x j| from Finset.sum_nonneg fun j _ => abs_nonneg _, by simp [l1Ctor], ?_, ?_⟩
  · intro x _ z _ a b ha hb hab
    refine ⟨Set.mem_univ _, ?_⟩
    show ∑ i, |a * x i + b * z i| ≤ a * ∑ i, |x i| + b * ∑ i, |z i|
    rw [Finset.mul_sum, Finset.mul_sum, ← Finset.sum_add_distrib]
    refine Finset.sum_le_sum fun i _ => le_trans (abs_add_le _ _) ?_
    rw [abs_mul, abs_mul, abs_of_nonneg ha, abs_of_nonneg hb]
  · intro l arg L hl hL
    exact ⟨_, rfl, C03_l1norm_lagrange_prox arg L l hL hl⟩

/-- **C84** Lasso and elastic net: with the `l1norm` atom, if every coordinate of the score at zero is at most
`(1 - enet_alpha) * lagrange` in absolute value, `fit` returns coefficients that are all exactly zero. -/
theorem C84_lasso_null (lam alpha : ℝ) (h0 : 0 ≤ lam) (ha0 : 0 ≤ alpha) (ha1 : alpha ≤ 1) (args : FitArgs)
    (hb : args.performBacktrack = true) (ha : 0 < args.alpha) (hs : 0 < args.startStep)
    (f : (Fin (p + 1) → ℝ) → ℝ) (g : (Fin (p + 1) → ℝ) → Fin (p + 1) → ℝ) (lip : ℝ) (fuel : ℕ) (hfuel : 0 < fuel)
    (hscore : ∀ j, |g (fun _ => 0) j| ≤ (1 - alpha) * lam) :
    ∃ v hist, ({ ctor := l1Ctor (p + 1) lam, enetAlpha := alpha, unpenalized := false, solveArgs := args, initial := none } :
      Estimator (p + 1)).fit f g lip fuel = .ok (fun _ => 0) v hist := by
  refine C84_null _ f g lip fuel hfuel rfl rfl lam rfl h0 ha0 ha1 (l1_penalty lam (g fun _ => 0)) rfl hb ha hs fun β => ?_
  show -dot (g fun _ => 0) β ≤ (1 - alpha) * lam * ∑ j, |β j|
  unfold dot
  rw [← Finset.sum_neg_distrib, Finset.mul_sum]
  refine Finset.sum_le_sum fun j _ => ?_
  calc -(g (fun _ => 0) j * β j) ≤ |g (fun _ => 0) j * β j| := neg_le_abs _
    _ = |g (fun _ => 0) j| * |β j| := abs_mul _ _
    _ ≤ _ := mul_le_mul_of_nonneg_right (hscore j) (abs_nonneg _)

/-- a loss with its gradient for the witnesses: `(β - 4)² / 2` -/
private noncomputable def sq4 (β : Fin 1 → ℝ) : ℝ := (β 0 - 4) ^ 2 / 2
private noncomputable def sq4Grad (β : Fin 1 → ℝ) : Fin 1 → ℝ := fun i => β i - 4

private lemma sq4_smooth : SmoothWith sq4 sq4Grad 1 := by
  refine ⟨fun x z => ?_, fun x z => ?_⟩
  · simp [QuadraticUpperBound, sq4, sq4Grad, dot, sqDist]
    nlinarith [sq_nonneg (z 0 - x 0)]
  · simp only [dot, sqDist, sq4Grad, Fin.sum_univ_one, one_mul]
    rw [show (z 0 - x 0) * (x 0 - 4 - (z 0 - 4)) = -((z 0 - x 0) ^ 2) by ring, abs_neg, abs_of_nonneg (sq_nonneg _)]

private lemma sq4_gradient (x : Fin 1 → ℝ) : IsGradientAt sq4 (sq4Grad x) x := by
  have : sq4 = fun β : Fin 1 → ℝ => ∑ i, (fun (_ : Fin 1) t => (t - 4) ^ 2 / 2) i (β i) := by
    funext β; simp [sq4]
  rw [this]
  refine isGradientAt_sum (fun _ t => (t - 4) ^ 2 / 2) _ x fun i => ?_
  have h1 := (((hasDerivAt_id (x i)).sub_const 4).pow 2).div_const 2
  have e : sq4Grad x i = ((2:ℕ) * (id (x i) - 4) ^ (2 - 1) * 1) / 2 := by
    show x i - 4 = _
    norm_num
  rw [e]
  exact h1

/-- **C84 fails for the elastic net at the dual norm of the score**: the lasso at `lagrange = max |score|` gives the null model,
the elastic net at the same parameter does not.  Loss `(β - 4)² / 2`, score at zero `-4`, `lagrange = 4`: with
`enet_alpha = 0` the fit is zero, with `enet_alpha = 1/2` zero is not a minimiser of the objective of `fit`. -/
theorem C84_enet_null_fails :
    ∃ (f : (Fin 1 → ℝ) → ℝ) (g : (Fin 1 → ℝ) → Fin 1 → ℝ), (∀ β, IsGradientAt f (g β) β) ∧ (∀ j, |g (fun _ => 0) j| ≤ 4) ∧
      (∀ fuel, 0 < fuel → ∃ v hist, ({ ctor := l1Ctor 1 4, enetAlpha := 0, unpenalized := false, solveArgs := {}, initial := none } :
        Estimator 1).fit f g 1 fuel = .ok (fun _ => 0) v hist) ∧
      ∃ β, enetObjective f (fun β => ∑ j, |β j|) 4 (1 / 2) β < enetObjective f (fun β => ∑ j, |β j|) 4 (1 / 2) fun _ => 0 := by
  have hg : ∀ j : Fin 1, |sq4Grad (fun _ => 0) j| ≤ 4 := by
    intro j; simp [sq4Grad]
  refine ⟨sq4, sq4Grad, fun x => ?_, hg, fun fuel hfu => ?_, fun _ => 2 / 3, ?_⟩
  · exact sq4_gradient x
  · exact C84_lasso_null 4 0 (by norm_num) le_rfl zero_le_one {} rfl (by norm_num) (by norm_num) sq4 sq4Grad 1 fuel hfu
      (fun j => le_trans (hg j) (by norm_num))
  · simp [enetObjective, sq4, abs_of_pos]
    norm_num

/-- `C33_keeps_minimiser` on the lasso: from the minimiser 1 of `(β - 4)² / 2 + 3 |β|`, FISTA returns 1 -/
example : ∃ hist s, Fista.fit ((Estimator.problem sq4 sq4Grad (l1Ctor 1 3 0) fun _ => 1).composite 1) {} none false 10
    (fun _ => 1) = .ok hist s ∧ s.coefs = fun _ => 1 := by
  obtain ⟨hI, hP, _⟩ := fit_problem { ctor := l1Ctor 1 3, enetAlpha := 0, unpenalized := false, solveArgs := {}, initial := none }
    (0 : Fin 1 → ℝ) rfl (by norm_num : (0:ℝ) ≤ 3) le_rfl zero_le_one (l1_penalty 3 (0 : Fin 1 → ℝ)) le_rfl sq4 sq4Grad (fun _ => 1) 1
  rw [plain_atom _ _ rfl] at hI hP
  have hH : ∀ x, fitNonsmooth { ctor := l1Ctor 1 3, enetAlpha := 0, unpenalized := false, solveArgs := {}, initial := none } 0 3 x =
      3 * |x 0| := by
    intro x
    unfold fitNonsmooth
    rw [if_pos rfl]
    show (1 - 0) * 3 * ∑ j, |x j| + 0 * 3 / 2 * ∑ j, x j ^ 2 + quadVal (some (Quad.init none none none none)) x = _
    rw [init_val]; simp
  refine C33_keeps_minimiser _ sq4 _ Set.univ hI (fun _ => 1) (sq4_gradient _) ?_ hP {} rfl (by norm_num) none
    (by norm_num [StartsPositive]) false 10 (by norm_num) ⟨Set.mem_univ _, fun u _ => ?_⟩
  · intro x _ z _ a b ha hb _
    refine ⟨Set.mem_univ _, ?_⟩
    rw [hH, hH, hH]
    have : |a * x 0 + b * z 0| ≤ a * |x 0| + b * |z 0| := by
      refine le_trans (abs_add_le _ _) ?_
      rw [abs_mul, abs_mul, abs_of_nonneg ha, abs_of_nonneg hb]
    linarith
  · dsimp only
    rw [hH, hH]
    simp only [sq4, abs_one]
    nlinarith [sq_nonneg (u 0 - 1), le_abs_self (u 0)]

/-- the hypotheses of `C84_fit_objective` and `C84_fit_returns` hold for an elastic net -/
example : ∃ N, ∀ fuel, N < fuel → ∃ c v hist,
    ({ ctor := l1Ctor 1 3, enetAlpha := 1 / 4, unpenalized := false, solveArgs := {}, initial := some fun _ => 7 } : Estimator 1).fit sq4 sq4Grad 1 fuel = .ok c v hist :=
  C84_fit_returns _ sq4 sq4Grad 1 1 one_pos sq4_smooth rfl 3 rfl (by norm_num) (by norm_num) (by norm_num) (l1_penalty 3 (sq4Grad fun _ => 0)) le_rfl
    rfl (by norm_num) (by norm_num)

/-- `C84_unpenalized_fails` on the lasso -/
example : ({ ctor := l1Ctor 1 3, enetAlpha := 0, unpenalized := true, solveArgs := {}, initial := none } :
    Estimator 1).fit sq4 sq4Grad 1 100 = .raised :=
  C84_unpenalized_fails _ _ _ _ _ rfl (by simp [l1Ctor])

/-- `C84_null` on the lasso with two coefficients and score `(-2, 1)` -/
example : ∃ v hist, ({ ctor := l1Ctor 2 2, enetAlpha := 0, unpenalized := false, solveArgs := {}, initial := none } :
    Estimator 2).fit (fun β => -2 * β 0 + β 1) (fun _ => ![-2, 1]) 1 1 = .ok (fun _ => 0) v hist :=
  C84_lasso_null 2 0 (by norm_num) le_rfl zero_le_one {} rfl (by norm_num) (by norm_num) _ _ _ _ one_pos
    (fun j => by fin_cases j <;> norm_num)

end Verif.Props
