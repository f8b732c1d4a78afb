import Verif.Props.C70_ConjugateClass

/-!
# C71: `smooth_conjugate` objects, their double conjugate, and `smooth.solve` / `smooth.proximal`
-/

set_option linter.unusedSectionVars false
set_option linter.unusedVariables false

namespace Verif.Props
open Verif.Model Verif.Lemmas Verif.Spec

variable {n : ℕ}

lemma smoothConj_lipschitz {f : (Fin n → ℝ) → WithTop ℝ} {V : (Fin n → ℝ) → ℝ} {G : (Fin n → ℝ) → Fin n → ℝ}
    {μ : ℝ} (hμ : 0 < μ) (hf : StronglyConvexTop μ f) (h : IsSmoothConjugate f V G) : IsLipschitzWith (1 / μ) G := by
  intro x y
  obtain ⟨⟨sx, hx1, hx2⟩, -⟩ := h x
  obtain ⟨⟨sy, hy1, hy2⟩, -⟩ := h y
  have h1 := smoothConj_growth hμ hf h x (G y) sy hy1
  have h2 := smoothConj_growth hμ hf h y (G x) sx hx1
  have h3 := dot_young hμ (fun i => x i - y i) (fun i => G x i - G y i)
  have e1 : ∑ i, (x i - y i) ^ 2 = sqDist x y := rfl
  have e2 : ∑ i, (G x i - G y i) ^ 2 = sqDist (G x) (G y) := rfl
  have e3 : dot (fun i => x i - y i) (fun i => G x i - G y i) = dot x (G x) - dot x (G y) - (dot y (G x) - dot y (G y)) := by
    unfold dot
    rw [← Finset.sum_sub_distrib, ← Finset.sum_sub_distrib, ← Finset.sum_sub_distrib]
    exact Finset.sum_congr rfl fun i _ => by ring
  have e4 : sqDist (G y) (G x) = sqDist (G x) (G y) := by
    unfold sqDist; exact Finset.sum_congr rfl fun i _ => by ring
  rw [e1, e2, e3] at h3
  rw [e4] at h1
  have h4 : μ / 2 * sqDist (G x) (G y) ≤ 1 / (2 * μ) * sqDist x y := by linarith
  have h5 : 2 / μ * (μ / 2 * sqDist (G x) (G y)) ≤ 2 / μ * (1 / (2 * μ) * sqDist x y) :=
    mul_le_mul_of_nonneg_left h4 (by positivity)
  have e5 : 2 / μ * (μ / 2 * sqDist (G x) (G y)) = sqDist (G x) (G y) := by field_simp
  have e6 : 2 / μ * (1 / (2 * μ) * sqDist x y) = (1 / μ) ^ 2 * sqDist x y := by field_simp
  rw [e5, e6] at h5
  exact h5

private lemma defect_zero (q : Quad (Fin (n + 1)) ℝ) (hcen : ArrayCenter q) : centerDefect q = 0 := by
  unfold centerDefect
  rcases hqq : q.center with _ | (c | c)
  · rfl
  · simp [hcen c hqq]
  · rfl

lemma quad_add_val (p q : Quad (Fin (n + 1)) ℝ) (hp : ArrayCenter p) (hq : ArrayCenter q) (z : Fin (n + 1) → ℝ) :
    quadVal (some (p.add (some q))) z = quadVal (some p) z + quadVal (some q) z := by
  rw [← funcVal_quad, ← funcVal_quad, ← funcVal_quad, add_funcVal, collapsed_funcVal, collapsed_funcVal, defect_zero p hp,
    defect_zero q hq]
  ring

private lemma query_val (s : SmoothConj n) (hcen : ArrayCenter s.smoothing) (x z : Fin (n + 1) → ℝ) :
    quadVal (some (s.query x)) z = quadVal (some s.smoothing) z - dot x z := by
  have h2 : ArrayCenter (⟨0, some (.scalar 0), some (.arr fun i => -x i), 0⟩ : Quad (Fin (n + 1)) ℝ) := by
    intro c hc; simp at hc; exact hc.symm
  have : s.query x = s.smoothing.add (some ⟨0, some (.scalar 0), some (.arr fun i => -x i), 0⟩) := rfl
  rw [this, quad_add_val _ _ hcen h2]
  have e : quadVal (some (⟨0, some (.scalar 0), some (.arr fun i => -x i), 0⟩ : Quad (Fin (n + 1)) ℝ)) z = -dot x z := by
    simp [quadVal, quadFn, denote, dot]
  rw [e]; ring

/-- **C71** for every seminorm atom `f` (any class, penalty or bound form, any offset and quadratic) and every smoothing
quadratic such that the coefficients add to a positive number: `smooth_conjugate(f, q)` is built, `smooth_objective`
returns in its three modes the conjugate of `f + q` and the point where the supremum is attained, that point is the
gradient, the gradient is Lipschitz with the constant stored in `lipschitz`, and another mode raises ValueError. -/
theorem C71_smooth_conjugate (a : AtomObj (Fin (n + 1)) ℝ) (b : Bool) (r : ℝ) (hm : InMode a b r)
    (q : Quad (Fin (n + 1)) ℝ) (hcen : ArrayCenter q) (hpos : 0 < a.quad.coef + q.coef) :
    ∃ s, SmoothConj.init a q = some s ∧ s.atom = a ∧ s.smoothing = q ∧ s.lipschitz = 1 / (a.quad.coef + q.coef) ∧
      (∀ x, s.smoothObjective x .other = .valueError) ∧
      ∃ V G, Evaluates s.smoothObjective V G ∧ IsSmoothConjugate (fun z => atomFull a b r z + quadTop q z) V G ∧
        (∀ x, IsGradientAt V (G x) x) ∧ IsLipschitzWith s.lipschitz G := by
  set s : SmoothConj n := ⟨a, q⟩ with hs
  have hlip : s.lipschitz = 1 / (a.quad.coef + q.coef) := rfl
  refine ⟨s, ?_, rfl, rfl, hlip, fun x => rfl, ?_⟩
  · unfold SmoothConj.init
    rw [if_neg]
    show a.quad.coef + q.coef ≠ 0
    exact hpos.ne'
  have hbase : ∀ z : Fin (n + 1) → ℝ, penaltyOrBound a.klass b r z = atomBase a.klass b r z := fun z => rfl
  have hlin : ∀ x, ∃ w, (s.query x).linear = some (.arr w) := by
    intro x
    show ∃ w, some (PyVec.map₂ (· + ·) q.collapsedLinear
      (⟨0, some (.scalar 0), some (.arr fun i => -x i), 0⟩ : Quad (Fin (n + 1)) ℝ).collapsedLinear) = some (.arr w)
    have : ∃ l, (⟨0, some (.scalar 0), some (.arr fun i => -x i), 0⟩ : Quad (Fin (n + 1)) ℝ).collapsedLinear = .arr l :=
      ⟨_, rfl⟩
    obtain ⟨l, hl⟩ := this
    rw [hl]
    cases q.collapsedLinear <;> exact ⟨_, rfl⟩
  choose w hw using hlin
  have hqc : ∀ x, (s.query x).coef = q.coef := fun x => by
    show q.coef + 0 = q.coef
    ring
  choose G hG1 hG2 using fun x => obj_prox a b r hm (s.query x) (w x) (hw x) (by rw [hqc]; exact hpos)
  have hdom : ∀ x, ∃ v : ℝ, ((v : ℝ) : WithTop ℝ) = atomBase a.klass b r (fun i => G x i - offAt a.offset i) :=
    fun x => WithTop.ne_top_iff_exists.1 (show atomBase a.klass b r (fun i => G x i - offAt a.offset i) ≠ ⊤ from (hG2 x).1)
  choose v hv using hdom
  have hsol : ∀ x, a.solve (s.query x) = some (-(dot x (G x) - (v x + quadVal (some a.quad) (G x) + quadVal (some q) (G x))), G x) := by
    intro x
    rw [obj_solve a b r hm (s.query x) (G x) (hG1 x) (hG2 x).1, ← hv, WithTop.untopD_coe, funcVal_quad, funcVal_quad,
      query_val s hcen]
    congr 2
    ring
  have hconj : IsSmoothConjugate (fun z => atomFull a b r z + quadTop q z)
      (fun x => dot x (G x) - (v x + quadVal (some a.quad) (G x) + quadVal (some q) (G x))) G := by
    intro x
    refine ⟨⟨_, ?_, rfl⟩, fun z t ht hne => ?_⟩
    · unfold atomFull quadTop
      simp only [hbase]
      rw [← hv, ← WithTop.coe_add, ← WithTop.coe_add]
    · unfold atomFull quadTop at ht
      simp only [hbase] at ht
      cases hF : atomBase a.klass b r (fun i => z i - offAt a.offset i) with
      | top => rw [hF, WithTop.top_add, WithTop.top_add] at ht; exact absurd ht (by simp)
      | coe u =>
        have h4 := (hG2 x).2 z (show atomBase a.klass b r (fun i => z i - offAt a.offset i) ≠ ⊤ by rw [hF]; exact WithTop.coe_ne_top) hne
        simp only [hF, ← hv, WithTop.untopD_coe, query_val s hcen] at h4
        rw [hF, ← WithTop.coe_add, ← WithTop.coe_add] at ht
        have ht' := WithTop.coe_inj.1 ht
        have hq' : s.smoothing = q := rfl
        rw [hq'] at h4
        simp only
        linarith
  have hsc : StronglyConvexTop (a.quad.coef + q.coef) (fun z => atomFull a b r z + quadTop q z) :=
    strong_add_quads (seminorm_base_convex a b hm.1) a.quad q
  refine ⟨_, G, fun x => ⟨?_, ?_, ?_⟩, hconj, fun x => smoothConj_gradient hpos hsc hconj x, ?_⟩
  · simp only [SmoothConj.smoothObjective]
    rw [show s.atom = a from rfl, hsol]; simp
  · simp only [SmoothConj.smoothObjective]
    rw [show s.atom.proximal (s.query x) = .ok (G x) from hG1 x]
  · simp only [SmoothConj.smoothObjective]
    rw [show s.atom = a from rfl, hsol]; simp
  · rw [hlip]; exact smoothConj_lipschitz hpos hsc hconj

/-- the hypotheses are met: the bound form of the l1 norm with an offset and the quadratic `1/2 ‖z‖²`, smoothed by
`identity_quadratic(2, [1, 0], [0, 1], 3)` -/
example : ∃ (a : AtomObj (Fin 2) ℝ) (q : Quad (Fin 2) ℝ), InMode (n := 1) a true 2 ∧ ArrayCenter (n := 1) q ∧
    0 < a.quad.coef + q.coef := by
  refine ⟨⟨.l1norm, ⟨none, some 2⟩, some (.arr ![1, 3]), ⟨1, some (.scalar 0), some (.scalar 0), 0⟩⟩,
    ⟨2, some (.arr ![1, 0]), some (.arr ![0, 1]), 3⟩, ⟨by norm_num, rfl⟩, ?_, by norm_num⟩
  intro c h; simp at h

/-- **C71** a `smooth_conjugate` of an atom whose coefficients add to zero is refused. -/
theorem C71_constructor (a : AtomObj (Fin (n + 1)) ℝ) (q : Quad (Fin (n + 1)) ℝ) :
    SmoothConj.init a q = none ↔ a.quad.coef + q.coef = 0 := by
  unfold SmoothConj.init
  have : (a.quad.add (some q)).coef = a.quad.coef + q.coef := rfl
  rw [this]
  by_cases h : a.quad.coef + q.coef = 0
  · simp [h]
  · simp [h]

/-- **C71** the conjugate of a `smooth_conjugate` object (whose own quadratic is left at zero) is an atom denoting the
function conjugated: `f + q`.  The atom the object was built from is not changed (a copy receives the sum). -/
theorem C71_double_conjugate (a : AtomObj (Fin (n + 1)) ℝ) (b : Bool) (r : ℝ) (hm : InMode a b r)
    (q own : Quad (Fin (n + 1)) ℝ) (hca : ArrayCenter a.quad) (hcq : ArrayCenter q) (hown : own.iszero)
    (s : SmoothConj n) (hs : SmoothConj.init a q = some s) :
    ∃ c, s.getConjugate own = .atom c ∧ InMode c b r ∧ c.klass = a.klass ∧ c.quad.coef = a.quad.coef + q.coef ∧
      ∀ z, atomFull c b r z = atomFull a b r z + quadTop q z := by
  have hs' : s = ⟨a, q⟩ := by
    unfold SmoothConj.init at hs
    split_ifs at hs
    exact (Option.some_inj.1 hs).symm
  subst hs'
  unfold SmoothConj.getConjugate
  rw [if_pos hown]
  by_cases hz : q.iszero
  · rw [if_pos hz]
    refine ⟨a, rfl, hm, rfl, by rw [hz.1, add_zero], fun z => ?_⟩
    have h0 : quadVal (some q) z = 0 := by
      have := C14_iszero q hz z
      rw [← funcVal_quad]
      injection this
    unfold quadTop
    rw [h0]; simp
  · rw [if_neg hz]
    have hcopy : a.copy = some ⟨a.klass, a.st, ctorOffset a.offset, a.quad⟩ := by
      unfold AtomObj.copy
      have hr := hm.1
      rw [hm.2]
      cases b <;> simp [AtomState.init, not_lt.2 hr]
    simp only [hcopy]
    refine ⟨_, rfl, hm, rfl, rfl, fun z => ?_⟩
    unfold atomFull quadTop
    simp only [offAt_ctor]
    rw [quad_add_val _ _ hca hcq, WithTop.coe_add, add_assoc]

/-- **C71** hence conjugating twice changes nothing: the smooth conjugate of the atom so obtained is the function the first
object evaluates. -/
theorem C71_involution (a : AtomObj (Fin (n + 1)) ℝ) (b : Bool) (r : ℝ) (hm : InMode a b r)
    (q own : Quad (Fin (n + 1)) ℝ) (hca : ArrayCenter a.quad) (hcq : ArrayCenter q) (hown : own.iszero)
    (hpos : 0 < a.quad.coef + q.coef) :
    ∃ s c t, SmoothConj.init a q = some s ∧ s.getConjugate own = .atom c ∧ SmoothConj.init c = some t ∧
      ∀ x mode, t.smoothObjective x mode = s.smoothObjective x mode := by
  obtain ⟨s, hs, -, -, -, hso, V, G, hE, hV, -⟩ := C71_smooth_conjugate a b r hm q hcq hpos
  obtain ⟨c, hc, hcm, -, hcoef, hfun⟩ := C71_double_conjugate a b r hm q own hca hcq hown s hs
  have hc0 : ArrayCenter (⟨0, some (.scalar 0), some (.scalar 0), 0⟩ : Quad (Fin (n + 1)) ℝ) := by
    intro c hc; simp at hc; exact hc.symm
  obtain ⟨t, ht, -, -, -, hto, V', G', hE', hV', -⟩ := C71_smooth_conjugate c b r hcm ⟨0, some (.scalar 0), some (.scalar 0), 0⟩ hc0
    (by rw [hcoef]; simpa using hpos)
  have h0 : ∀ z : Fin (n + 1) → ℝ, quadTop (⟨0, some (.scalar 0), some (.scalar 0), 0⟩ : Quad (Fin (n + 1)) ℝ) z = 0 := by
    intro z
    show ((quadFn _ _ _ _ z : ℝ) : WithTop ℝ) = 0
    simp [quadFn, sqDist, dot, denote]
  simp only [h0, hfun, add_zero] at hV'
  have hG : G' = G := by
    funext x
    by_contra hne
    obtain ⟨⟨s1, h1, h2⟩, h3⟩ := hV x
    obtain ⟨⟨s2, h4, h5⟩, h6⟩ := hV' x
    have h7 := h3 (G' x) s2 h4 hne
    have h8 := h6 (G x) s1 h1 (Ne.symm hne)
    linarith
  subst hG
  have hVV : V' = V := by
    funext x
    obtain ⟨⟨s1, h1, h2⟩, -⟩ := hV x
    obtain ⟨⟨s2, h4, h5⟩, -⟩ := hV' x
    rw [h1] at h4
    rw [h2, h5, WithTop.coe_inj.1 h4]
  subst hVV
  refine ⟨s, c, t, hs, hc, ht, fun x mode => ?_⟩
  cases mode with
  | func => rw [(hE' x).1, (hE x).1]
  | grad => rw [(hE' x).2.1, (hE x).2.1]
  | both => rw [(hE' x).2.2, (hE x).2.2]
  | other => rw [hto, hso]

/-- **C71** fails when the `smooth_conjugate` object itself has been given a quadratic: then `conjugate` always raises, although
the derivation in the source covers both cases. -/
theorem C71_own_quadratic_fails (s : SmoothConj n) (own : Quad (Fin (n + 1)) ℝ) (h : ¬ own.iszero) :
    (own.coef = 0 → s.getConjugate own = .unboundLocalError) ∧ (own.coef ≠ 0 → s.getConjugate own = .typeError) := by
  have hc : own.collapsed.coef = own.coef := rfl
  unfold SmoothConj.getConjugate
  rw [if_neg h, hc]
  exact ⟨fun h0 => if_pos h0, fun h0 => if_neg h0⟩

/-! ### losses -/

/-- **C71** `proximal` of a loss is the proximal map of its quadratic: whenever the coefficients add to a positive number it
returns the minimiser of `quadratic + proxq`, a float when it is constant. -/
theorem C71_loss_proximal (f : QuadLoss n) (q : Quad (Fin n) ℝ) (hpos : 0 < f.quad.coef + q.coef) :
    ∃ p : PyVec (Fin n) ℝ, f.proximal q = some p ∧
      IsUniqueMinOn (fun z => quadVal (some f.quad) z + quadVal (some q) z) Set.univ (fun i => p.get i) := by
  obtain ⟨c, hc⟩ := C14_add_up_to_const f.quad q
  have hcoef : (f.quad.add (some q)).coef = f.quad.coef + q.coef := rfl
  set tq := f.quad.add (some q) with htq
  obtain ⟨l, hl⟩ : ∃ l, tq.linear = some l := ⟨_, rfl⟩
  have hcen : ∀ i, centerAt tq i = 0 := fun i => rfl
  have hlin : ∀ i, linearAt tq i = l.get i := by intro i; unfold linearAt; rw [hl]; rfl
  have hp : ∃ p : PyVec (Fin n) ℝ, f.proximal q = some p ∧ ∀ i, p.get i = -l.get i / tq.coef := by
    unfold QuadLoss.proximal
    simp only
    rw [← htq, if_neg (by rw [hcoef]; exact hpos.ne'), hl]
    cases l with
    | scalar c => exact ⟨_, rfl, fun i => rfl⟩
    | arr l => exact ⟨_, rfl, fun i => rfl⟩
  obtain ⟨p, hp1, hp2⟩ := hp
  refine ⟨p, hp1, Set.mem_univ _, fun z _ hne => ?_⟩
  have hμ : 0 < tq.coef := by rw [hcoef]; exact hpos
  have key : ∀ z, quadVal (some f.quad) z + quadVal (some q) z =
      tq.coef / 2 * sqDist z (fun i => p.get i) - (∑ i, l.get i ^ 2) / (2 * tq.coef) + (tq.const - c) := by
    intro z
    rw [← funcVal_quad, ← funcVal_quad]
    have h1 := hc z
    rw [funcVal_eq] at h1
    simp only [hcen, hlin, sub_zero] at h1
    rw [complete_square tq.coef hμ.ne'] at h1
    have e : (fun i => p.get i) = fun i => -l.get i / tq.coef := funext hp2
    rw [e]
    linarith
  simp only
  rw [key, key]
  have h0 : sqDist (fun i => p.get i) (fun i => p.get i) = 0 := by simp [sqDist]
  have h1 : 0 < sqDist z (fun i => p.get i) := by
    rcases (Finset.sum_nonneg fun i _ => sq_nonneg (z i - p.get i) : 0 ≤ ∑ i, (z i - p.get i) ^ 2).lt_or_eq with h | h
    · exact h
    · exfalso
      apply hne
      funext i
      have := (Finset.sum_eq_zero_iff_of_nonneg fun i _ => sq_nonneg (z i - p.get i)).1 h.symm i (Finset.mem_univ i)
      have := pow_eq_zero_iff (two_ne_zero) |>.1 this
      linarith
  rw [h0]
  have : 0 < tq.coef / 2 * sqDist z (fun i => p.get i) := by positivity
  linarith

/-- **C71** `solve(quadratic)` of a loss with an exact solver returns the minimiser of loss, own quadratic and argument
together, and afterwards the object is as before. -/
theorem C71_loss_solve (f : QuadLoss n) (F : (Fin n → ℝ) → ℝ) (fit : QuadLoss n → Fin n → ℝ)
    (hfit : ∀ t : Quad (Fin n) ℝ, 0 ≤ t.coef → ∀ z,
      F (fit ⟨f.obj, t⟩) + quadVal (some t) (fit ⟨f.obj, t⟩) ≤ F z + quadVal (some t) z)
    (q : Option (Quad (Fin n) ℝ)) (hq : 0 ≤ f.quad.coef + (q.elim 0 fun q => q.coef)) :
    (f.solve fit q).2.2 = f ∧ ∀ z,
      F (f.solve fit q).1 + quadVal (some f.quad) (f.solve fit q).1 + quadVal q (f.solve fit q).1 ≤
        F z + quadVal (some f.quad) z + quadVal q z := by
  refine ⟨rfl, fun z => ?_⟩
  set q' := q.getD ⟨0, some (.scalar 0), some (.scalar 0), 0⟩ with hq'
  have hv : ∀ z, quadVal q z = quadVal (some q') z := by
    intro z
    cases q with
    | some q => rfl
    | none =>
      show (0:ℝ) = quadFn _ _ _ _ z
      simp [quadFn, sqDist, dot, denote, hq']
  obtain ⟨c, hc⟩ := C14_add_up_to_const f.quad q'
  have hcoef : (f.quad.add (some q')).coef = f.quad.coef + (q.elim 0 fun q => q.coef) := by
    rw [hq']; cases q <;> rfl
  have h := hfit (f.quad.add (some q')) (by rw [hcoef]; exact hq) z
  rw [← funcVal_quad, ← funcVal_quad, hc, hc] at h
  have hp : (f.solve fit q).1 = fit ⟨f.obj, f.quad.add (some q')⟩ := rfl
  rw [hp, hv, hv, ← funcVal_quad, ← funcVal_quad, ← funcVal_quad, ← funcVal_quad]
  linarith

/-- **C71** fails for the value: with `return_optimum=True`, `solve(quadratic)` of a loss returns the objective without the
quadratic argument (`solve` of an atom includes it), so the value is off by exactly `quadratic(coefs)`; and the value
reported by `smooth_conjugate(loss)`, whose query is such an argument, is wrong: for the loss 0 with quadratic `z²/2` and an exact
solver it is `-x²/2` instead of `x²/2`. -/
theorem C71_loss_value_fails :
    (∀ (f : QuadLoss n) (F : (Fin n → ℝ) → ℝ) (fit : QuadLoss n → Fin n → ℝ) (q : Quad (Fin n) ℝ),
      (∀ z, f.obj z .func = .val (F z)) →
      (f.solve fit (some q)).2.1 = some (F (f.solve fit (some q)).1 + quadVal (some f.quad) (f.solve fit (some q)).1 +
        quadVal (some q) (f.solve fit (some q)).1 - quadVal (some q) (f.solve fit (some q)).1)) ∧
    ∃ (f : QuadLoss 1) (fit : QuadLoss 1 → Fin 1 → ℝ),
      (∀ z, f.obj z .func = .val 0) ∧
      (∀ q : Quad (Fin 1) ℝ, 0 < q.coef → ∀ z, quadVal (some q) (fit ⟨f.obj, q⟩) ≤ quadVal (some q) z) ∧
      (∀ z, quadVal (some f.quad) z = z 0 ^ 2 / 2) ∧
      ∀ x, f.conjugateValue fit x = some (-(x 0 ^ 2 / 2)) ∧ IsLUB {t | ∃ z : Fin 1 → ℝ, t = x 0 * z 0 - z 0 ^ 2 / 2} (x 0 ^ 2 / 2) := by
  refine ⟨fun f F fit q hF => ?_, ⟨fun _ _ => .val 0, ⟨1, some (.scalar 0), some (.scalar 0), 0⟩⟩,
    fun f i => centerAt f.quad i - linearAt f.quad i / f.quad.coef, fun z => rfl, fun q hq z => ?_, fun z => ?_, fun x => ⟨?_, ?_⟩⟩
  · have : (f.solve fit (some q)).2.1 = some (F (f.solve fit (some q)).1 + f.quad.funcVal (f.solve fit (some q)).1) := by
      show QuadLoss.objective _ _ = _
      unfold QuadLoss.objective
      simp only
      rw [hF]
      rfl
    rw [this, funcVal_quad]
    congr 1
    ring
  · rw [← funcVal_quad, ← funcVal_quad, funcVal_eq, funcVal_eq]
    simp only [Fin.sum_univ_one]
    have e : q.coef / 2 * (z 0 - centerAt q 0) ^ 2 + linearAt q 0 * z 0 + q.const -
        (q.coef / 2 * (centerAt q 0 - linearAt q 0 / q.coef - centerAt q 0) ^ 2 +
          linearAt q 0 * (centerAt q 0 - linearAt q 0 / q.coef) + q.const) =
        q.coef / 2 * (z 0 - centerAt q 0 + linearAt q 0 / q.coef) ^ 2 := by
      field_simp
      ring
    have : 0 ≤ q.coef / 2 * (z 0 - centerAt q 0 + linearAt q 0 / q.coef) ^ 2 := by positivity
    linarith
  · show quadFn _ _ _ _ z = _
    simp [quadFn, sqDist, dot, denote]
    ring
  · unfold QuadLoss.conjugateValue QuadLoss.solve QuadLoss.objective
    simp only [Option.getD_some, Option.map_some]
    rw [funcVal_eq]
    simp [Fin.sum_univ_one, centerAt, linearAt, Quad.add, Quad.collapsed, Quad.collapsedLinear, PyVec.map₂, PyVec.map, PyVec.get]
    ring
  · refine ⟨?_, fun u hu => hu ⟨x, by ring⟩⟩
    rintro t ⟨z, rfl⟩
    nlinarith [sq_nonneg (x 0 - z 0)]

/-- the hypothesis of `C71_loss_solve` is met: loss `z²/2`, a solver minimising exactly -/
example : ∃ (f : QuadLoss 1) (F : (Fin 1 → ℝ) → ℝ) (fit : QuadLoss 1 → Fin 1 → ℝ), (∀ z, f.obj z .func = .val (F z)) ∧
    ∀ q : Quad (Fin 1) ℝ, 0 ≤ q.coef → ∀ z, F (fit ⟨f.obj, q⟩) + quadVal (some q) (fit ⟨f.obj, q⟩) ≤ F z + quadVal (some q) z := by
  refine ⟨⟨fun z _ => .val (z 0 ^ 2 / 2), ⟨1, some (.scalar 0), some (.scalar 0), 0⟩⟩, fun z => z 0 ^ 2 / 2,
    fun f i => (f.quad.coef * centerAt f.quad i - linearAt f.quad i) / (1 + f.quad.coef), fun z => rfl, fun q hq z => ?_⟩
  rw [← funcVal_quad, ← funcVal_quad, funcVal_eq, funcVal_eq]
  simp only [Fin.sum_univ_one]
  have h1 : 0 < 1 + q.coef := by linarith
  set y := (q.coef * centerAt q 0 - linearAt q 0) / (1 + q.coef) with hy
  have hy' : y * (1 + q.coef) = q.coef * centerAt q 0 - linearAt q 0 := by rw [hy]; field_simp
  have : 0 ≤ (1 + q.coef) / 2 * (z 0 - y) ^ 2 := by positivity
  have e : z 0 ^ 2 / 2 + (q.coef / 2 * (z 0 - centerAt q 0) ^ 2 + linearAt q 0 * z 0 + q.const) -
      (y ^ 2 / 2 + (q.coef / 2 * (y - centerAt q 0) ^ 2 + linearAt q 0 * y + q.const)) = (1 + q.coef) / 2 * (z 0 - y) ^ 2 := by
    have hl : linearAt q 0 = q.coef * centerAt q 0 - y * (1 + q.coef) := by linarith
    rw [hl]; ring
  linarith

end Verif.Props
