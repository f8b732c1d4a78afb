import Verif.Props.C34_ProxGradient

/-!
# C35: what the stopping rule of FISTA does not say

`f x = c/2 x²` in one dimension, with exact gradient and proximal map, and `c` small.
-/

set_option linter.unusedSectionVars false
set_option linter.unusedVariables false

namespace Verif.Props
open Verif.Model Verif.Model.Fista Verif.Lemmas Verif.Spec

private noncomputable def flat (c : ℝ) (x : Fin 1 → ℝ) : ℝ := ∑ i, c / 2 * x i ^ 2
private noncomputable def flatGrad (c : ℝ) (x : Fin 1 → ℝ) : Fin 1 → ℝ := fun i => c * x i
private noncomputable def noQuad : Quad (Fin 1) ℝ := Quad.init none none none none
private noncomputable def flatC (c : ℝ) : Composite 1 :=
  smoothComposite (fun x => .num (flat c x)) (flatGrad c) noQuad 0

private lemma flat_val (c t : ℝ) : flat c (fun _ => t) = c / 2 * t ^ 2 := by simp [flat]

private lemma noQuad_val (x : Fin 1 → ℝ) : noQuad.funcVal x = 0 := by
  rw [funcVal_eq]; simp [noQuad, Quad.init, linearAt, centerAt]

private lemma flat_convex {c : ℝ} (hc : 0 ≤ c) : ConvexWithGradient (flat c) (flatGrad c) := by
  constructor
  · intro x z a b ha hb hab
    unfold flat
    rw [Finset.mul_sum, Finset.mul_sum, ← Finset.sum_add_distrib]
    refine Finset.sum_le_sum fun i _ => ?_
    have hb' : b = 1 - a := by linarith
    subst hb'
    have h1 : 0 ≤ c * (a * (1 - a) * (x i - z i) ^ 2) :=
      mul_nonneg hc (mul_nonneg (mul_nonneg ha hb) (sq_nonneg _))
    nlinarith
  · intro x
    refine isGradientAt_sum (fun i t => c / 2 * t ^ 2) _ x fun i => ?_
    have := (hasDerivAt_pow 2 (x i)).const_mul (c / 2)
    have e : flatGrad c x i = c / 2 * ((2:ℕ) * x i ^ (2 - 1)) := by
      show c * x i = _
      norm_num
      ring
    show HasDerivAt _ (flatGrad c x i) _
    rw [e]
    exact this

private lemma flat_smooth {c : ℝ} (hc : 0 ≤ c) : SmoothWith (flat c) (flatGrad c) c := by
  constructor
  · intro x z
    unfold QuadraticUpperBound flat flatGrad dot sqDist
    rw [Finset.mul_sum, ← Finset.sum_add_distrib, ← Finset.sum_add_distrib]
    exact le_of_eq (Finset.sum_congr rfl fun i _ => by ring)
  · intro x z
    have : dot (fun i => z i - x i) (fun i => flatGrad c x i - flatGrad c z i) = - (c * sqDist z x) := by
      unfold dot sqDist flatGrad
      rw [Finset.mul_sum, ← Finset.sum_neg_distrib]
      exact Finset.sum_congr rfl fun i _ => by ring
    rw [this, abs_neg, abs_of_nonneg (mul_nonneg hc (sqDist_nonneg _ _))]

private lemma flat_prox (c t : ℝ) : (flatC c).proximal (stepQuad (1 / 1) (fun _ => t) (flatGrad c fun _ => t)) =
    some fun _ => (1 - c) * t := by
  show smoothProximal noQuad _ = _
  unfold smoothProximal
  simp only
  have hc : (noQuad.add (some (stepQuad (1 / 1) (fun _ => t) (flatGrad c fun _ => t)))).coef = 1 := by
    show (0:ℝ) + (1 / 1) = 1
    norm_num
  rw [hc, if_neg one_ne_zero]
  congr 1
  funext i
  simp only [Quad.add, Option.elim, get_map₂]
  rw [collapsedLinear_get, collapsedLinear_get]
  simp [noQuad, stepQuad, Quad.init, linearAt, centerAt, flatGrad]
  ring

private lemma flat_bt {c : ℝ} (hc : 0 < c) (hc2 : c ≤ 1 / 2) (fuel k : ℕ) (hk : (k + 1) % 100 ≠ 0) (t : ℝ) :
    backtrack (flatC c) (11 / 10) (fuel + 1) k (fun _ => t) 1 false =
      .ok (fun _ => (1 - c) * t) (.num (flat c fun _ => (1 - c) * t)) 1 false := by
  unfold backtrack
  rw [if_neg (by simpa using hk)]
  unfold btLoop
  have : (flatC c).grad (fun _ => t) = flatGrad c fun _ => t := rfl
  rw [this, flat_prox]
  simp only
  rw [if_pos]
  · rfl
  · refine btStop_of_small (f := flat c) (M := c) (fun _ => rfl) (flat_smooth hc.le) hc one_pos ?_ _ _
    rw [le_div_iff₀ (by linarith)]; linarith

/-- **C35** fails: the default stopping rule is not a certificate.  For every tolerance and every gap there is a convex
problem (`f = c/2 x²` in one dimension, gradient `1/2`-Lipschitz, exact proximal map) and a start from which `fit`, with
all other arguments at their defaults except `min_its = 1`, stops after one recorded pass because the objective changed
by a relative amount below the tolerance, while the returned point is worse than the minimum by more than the gap. -/
theorem C35_stopping_fails (tol gap : ℝ) (htol : 0 < tol) (hgap : 0 < gap) :
    ∃ (C : Composite 1) (f : (Fin 1 → ℝ) → ℝ) (x0 u : Fin 1 → ℝ), IsProblem C f (fun _ => 0) Set.univ ∧
      ConvexWithGradient f C.grad ∧ SmoothWith f C.grad (1 / 2) ∧ Minimises (fun v => f v + 0) Set.univ u ∧
      ∀ fuel, ∃ hist s, fit C { tol := some tol, minIts := some 1 } none false (fuel + 1) x0 = .ok hist s ∧
        hist.length = 1 ∧ gap < f s.coefs - f u := by
  obtain ⟨e, he0, he1, he2⟩ : ∃ e : ℝ, 0 < e ∧ e ≤ 1 / 2 ∧ e ≤ tol / 4 :=
    ⟨min (1 / 2) (tol / 4), lt_min (by norm_num) (by linarith), min_le_left _ _, min_le_right _ _⟩
  set c : ℝ := e ^ 2 with hc
  have hc0 : 0 < c := by positivity
  have hc1 : c ≤ 1 / 4 := by nlinarith
  have hc2 : c ≤ tol / 8 := by nlinarith
  set t0 : ℝ := 2 * (gap + 1) / e with ht0
  have hft : ∀ a : ℝ, flat c (fun _ => a * t0) = 2 * (gap + 1) ^ 2 * a ^ 2 := by
    intro a
    rw [flat_val, hc, ht0]; field_simp
  set a : FitArgs := { tol := some tol, minIts := some 1 } with ha
  set t1 : ℝ := (1 - c) * t0 with ht1
  set t2 : ℝ := (1 - c) * t1 with ht2
  have hobj : ∀ t b, (ObjVal.num (flat c fun _ => t)).add ((flatC c).nonsmooth (fun _ => t) b) =
      .num (flat c fun _ => t) := by
    intro t b
    show ObjVal.num (flat c _ + noQuad.funcVal _) = _
    rw [noQuad_val, add_zero]
  have hf1 : flat c (fun _ => t1) = 2 * (gap + 1) ^ 2 * (1 - c) ^ 2 := hft _
  have hf2 : flat c (fun _ => t2) = 2 * (gap + 1) ^ 2 * (1 - c) ^ 4 := by
    have : t2 = ((1 - c) * (1 - c)) * t0 := by rw [ht2, ht1]; ring
    rw [this, hft]; ring
  have hprob := (C33_smooth_atom_problem (flat c) (flatGrad c) noQuad le_rfl 0).1
  have hq0 : noQuad.funcVal = fun _ => (0:ℝ) := funext noQuad_val
  rw [hq0] at hprob
  refine ⟨flatC c, flat c, fun _ => t0, fun _ => 0, hprob, flat_convex hc0.le, ?_, ⟨Set.mem_univ _, ?_⟩, ?_⟩
  · have := flat_smooth hc0.le
    constructor
    · intro x z
      have h1 := this.descent x z
      unfold QuadraticUpperBound at h1 ⊢
      have h2 : c / 2 * sqDist z x ≤ 1 / 2 / 2 * sqDist z x :=
        mul_le_mul_of_nonneg_right (by linarith) (sqDist_nonneg _ _)
      exact le_trans h1 (by show _ ≤ _ + dot (flatGrad c x) _ + _; linarith)
    · intro x z
      refine le_trans (this.monotone x z) (mul_le_mul_of_nonneg_right (by linarith) (sqDist_nonneg _ _))
  · intro v _
    simp only [add_zero]
    rw [flat_val]
    unfold flat
    simp only [ne_eq, OfNat.ofNat_ne_zero, not_false_eq_true, zero_pow, mul_zero]
    exact Finset.sum_nonneg fun i _ => mul_nonneg (by linarith) (sq_nonneg _)
  · intro fuel
    let s0 := startState (flatC c) a none false (fun _ => t0)
    have hpass0 : ∃ s', pass (flatC c) a (fuel + 1) s0 = .next s' ∧ s'.itercount = 1 ∧ s'.coefs = (fun _ => t1) ∧
        s'.working = (fun _ => t1) ∧ s'.weight = nextWeight 1 ∧ s'.obj = .num (flat c fun _ => t1) ∧ s'.step = 1 ∧
        s'.attempt = false ∧ s'.hist.length = 1 := by
      unfold pass
      simp only
      rw [if_pos rfl]
      have hbt : backtrack (flatC c) a.alpha (fuel + 1) (prepare a s0).itercount (prepare a s0).working
          (prepare a s0).step (prepare a s0).attempt = .ok (fun _ => t1) (.num (flat c fun _ => t1)) 1 false :=
        flat_bt hc0 (by linarith) fuel 0 (by decide) t0
      rw [hbt]
      unfold finish
      simp only
      rw [if_neg, if_neg]
      · refine ⟨_, rfl, rfl, rfl, ?_, rfl, hobj _ false, rfl, rfl, rfl⟩
        show nextWorking 1 _ _ = _
        funext i; simp [nextWorking]
      · rintro ⟨h, _⟩
        exact absurd h (by show ¬ 1 < 0; omega)
      · rintro ⟨h, _⟩
        exact absurd h (by show ¬ 1 ≤ 0; omega)
    obtain ⟨s', g1, g2, g3, g4, g5, g6, g7, g8, g9⟩ := hpass0
    have hpass1 : ∃ s'', pass (flatC c) a (fuel + 1) s' = .stop s'' ∧ s''.itercount = 1 ∧ s''.coefs = (fun _ => t1) ∧
        s''.hist.length = 2 := by
      obtain ⟨e1, e2, e3, e4, e5, e6, e7, e8, e9, e10, e11⟩ := prepare_fields a s'
      unfold pass
      simp only
      rw [if_pos rfl]
      have hbt : backtrack (flatC c) a.alpha (fuel + 1) (prepare a s').itercount (prepare a s').working
          (prepare a s').step (prepare a s').attempt = .ok (fun _ => t2) (.num (flat c fun _ => t2)) 1 false := by
        rw [e6, e11 rfl, e1, e2, g2, g4, g7, g8]
        exact flat_bt hc0 (by linarith) fuel 1 (by decide) t1
      rw [hbt]
      unfold finish
      simp only
      rw [if_pos]
      · refine ⟨_, rfl, ?_, ?_, ?_⟩
        · show (prepare a s').itercount = 1
          rw [e6, g2]
        · show (prepare a s').coefs = _
          rw [e3, g3]
        · show (prepare a s').hist.length = 2
          rw [e8, List.length_append, g9]; rfl
      · refine ⟨by show 1 ≤ (prepare a s').itercount; rw [e6, g2], ?_⟩
        rw [if_neg (by show ¬ (false = true); simp)]
        left
        show ObjVal.lt (ObjVal.relTo (ObjVal.absSub _ (prepare a s').obj) (prepare a s').obj) _
        rw [e5, g6, hobj]
        have htv : a.tolV = tol := by
          show (if tol = 0 then (1 / 100000 : ℝ) else tol) = tol
          rw [if_neg htol.ne']
        rw [htv]
        show |flat c (fun _ => t2) - flat c (fun _ => t1)| / max |flat c (fun _ => t1)| 1 < tol
        rw [hf1, hf2]
        set B : ℝ := 2 * (gap + 1) ^ 2 * (1 - c) ^ 2 with hB
        have hB0 : 0 ≤ B := by positivity
        have hd : 2 * (gap + 1) ^ 2 * (1 - c) ^ 4 - B = -(B * (c * (2 - c))) := by rw [hB]; ring
        rw [hd, abs_neg, abs_of_nonneg (mul_nonneg hB0 (mul_nonneg hc0.le (by linarith))), abs_of_nonneg hB0]
        rw [div_lt_iff₀ (lt_of_lt_of_le one_pos (le_max_right _ _))]
        have h1 : B ≤ max B 1 := le_max_left _ _
        have h2 : 0 < max B 1 := lt_of_lt_of_le one_pos (le_max_right _ _)
        have h3 : c * (2 - c) < tol := by nlinarith
        calc B * (c * (2 - c)) ≤ max B 1 * (c * (2 - c)) :=
              mul_le_mul_of_nonneg_right h1 (mul_nonneg hc0.le (by linarith))
          _ < max B 1 * tol := mul_lt_mul_of_pos_left h3 h2
          _ = tol * max B 1 := mul_comm _ _
    obtain ⟨s'', k1, k2, k3, k4⟩ := hpass1
    refine ⟨s''.hist.take s''.itercount, s'', ?_, ?_, ?_⟩
    · unfold fit
      have : startObj (flatC c) (fun _ => t0) = .num (flat c fun _ => t0) := hobj _ _
      rw [this]
      show loop (flatC c) a (fuel + 1) 10001 s0 = _
      unfold loop
      rw [if_pos (by show 0 < 10000; omega), g1]
      simp only
      unfold loop
      rw [if_pos (by rw [g2]; show 1 < 10000; omega), k1]
    · rw [k2, List.length_take, k4]; rfl
    · rw [k3, hf1, flat_val]
      have h1 : (3 / 4 : ℝ) ^ 2 ≤ (1 - c) ^ 2 := pow_le_pow_left₀ (by norm_num) (by linarith) 2
      have h2 : 2 * (gap + 1) ^ 2 * (3 / 4) ^ 2 ≤ 2 * (gap + 1) ^ 2 * (1 - c) ^ 2 :=
        mul_le_mul_of_nonneg_left h1 (by positivity)
      nlinarith

/-- the hypotheses of `C35_fista_rate_fixed` (in `C34_ProxGradient.lean`) meet a run: `f = c/2 x²` with the declared
Lipschitz constant 1, from any start, one pass -/
example (c : ℝ) (hc : 0 < c) (hc1 : c ≤ 1 / 2) (t0 : ℝ) :
    ∃ (C : Composite 1) (f : (Fin 1 → ℝ) → ℝ) (a : FitArgs), IsProblem C f (fun _ => 0) Set.univ ∧
      ConvexWithGradient f C.grad ∧ C.lipschitz = 1 ∧ SmoothWith f C.grad C.lipschitz ∧ a.performBacktrack = false ∧
      a.monotonicityRestart = false ∧ a.restart = none ∧ 0 < a.alpha ∧
      Minimises (fun v => f v + 0) Set.univ (fun _ => 0) ∧
      ∃ hist s r, fit C a none false 0 (fun _ => t0) = .ok hist s ∧ s.log[0]? = some r ∧
        r.proposed = fun _ => (1 - c) * t0 := by
  have hprob := (C33_smooth_atom_problem (flat c) (flatGrad c) noQuad le_rfl 1).1
  have hq0 : noQuad.funcVal = fun _ => (0:ℝ) := funext noQuad_val
  rw [hq0] at hprob
  set C : Composite 1 := smoothComposite (fun x => .num (flat c x)) (flatGrad c) noQuad 1 with hC
  set a : FitArgs := { performBacktrack := false, monotonicityRestart := false, maxIts := some 1 } with ha
  refine ⟨C, flat c, a, hprob, flat_convex hc.le, rfl, ?_, rfl, rfl, rfl, by show (0:ℝ) < 11 / 10; norm_num,
    ⟨Set.mem_univ _, ?_⟩, ?_⟩
  · have := flat_smooth hc.le
    constructor
    · intro x z
      have h1 := this.descent x z
      unfold QuadraticUpperBound at h1 ⊢
      have h2 : c / 2 * sqDist z x ≤ 1 / 2 * sqDist z x :=
        mul_le_mul_of_nonneg_right (by linarith) (sqDist_nonneg _ _)
      exact le_trans h1 (by show _ ≤ _ + dot (flatGrad c x) _ + _; show _ ≤ _ + _ + 1 / 2 * _; linarith)
    · intro x z
      exact le_trans (this.monotone x z) (mul_le_mul_of_nonneg_right (by show c ≤ 1; linarith) (sqDist_nonneg _ _))
  · intro v _
    simp only [add_zero]
    rw [flat_val]
    unfold flat
    simp only [ne_eq, OfNat.ofNat_ne_zero, not_false_eq_true, zero_pow, mul_zero]
    exact Finset.sum_nonneg fun i _ => mul_nonneg (by linarith) (sq_nonneg _)
  · have hp : C.proximal (stepQuad 1 (fun _ => t0) (flatGrad c fun _ => t0)) = some fun _ => (1 - c) * t0 := by
      have := flat_prox c t0
      rw [one_div_one] at this
      exact this
    have hpass : ∃ s', pass C a 0 (startState C a none false (fun _ => t0)) = .next s' ∧ s'.itercount = 1 ∧
        ∃ r, s'.log[0]? = some r ∧ r.proposed = fun _ => (1 - c) * t0 := by
      unfold pass
      simp only
      rw [if_neg (by show ¬ (false = true); simp)]
      have hp' : C.proximal (stepQuad C.lipschitz (prepare a (startState C a none false (fun _ => t0))).working
          (C.grad (prepare a (startState C a none false (fun _ => t0))).working)) = some fun _ => (1 - c) * t0 := hp
      rw [hp']
      unfold finish
      simp only
      rw [if_neg, if_neg]
      · exact ⟨_, rfl, rfl, _, rfl, rfl⟩
      · rintro ⟨h, _⟩
        exact absurd h (by show ¬ 1 < 0; omega)
      · rintro ⟨h, _⟩
        exact absurd h (by show ¬ 5 ≤ 0; omega)
    obtain ⟨s', h1, h2, r, h3, h4⟩ := hpass
    refine ⟨s'.hist.take s'.itercount, s', r, ?_, h3, h4⟩
    unfold fit
    have : startObj C (fun _ => t0) = .num (flat c (fun _ => t0) + noQuad.funcVal (fun _ => t0)) := rfl
    rw [this]
    show loop C a 0 2 _ = _
    unfold loop
    rw [if_pos (by show 0 < 1; omega), h1]
    simp only
    unfold loop
    rw [if_neg (by rw [h2]; show ¬ 1 < 1; omega)]

end Verif.Props
