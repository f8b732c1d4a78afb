import Verif.Props.C96_Stopping

/-!
# C96: no tolerance makes the stopping rule safe

`f x = x₊²/4 - K x` in one dimension.  From a suitable start the sixth proposal overshoots the minimiser and lands where the objective is
the same as at the kept point, so `fit` stops, whatever the tolerance.
-/

set_option linter.unusedSectionVars false
set_option linter.unusedVariables false

namespace Verif.Props
open Verif.Model Verif.Model.Fista Verif.Lemmas Verif.Spec

private noncomputable def rampF (K t : ℝ) : ℝ := max t 0 ^ 2 / 4 - K * t
private noncomputable def rampG (K t : ℝ) : ℝ := max t 0 / 2 - K
private noncomputable def ramp (K : ℝ) (x : Fin 1 → ℝ) : ℝ := ∑ i, rampF K (x i)
private noncomputable def rampGrad (K : ℝ) (x : Fin 1 → ℝ) : Fin 1 → ℝ := fun i => rampG K (x i)
private noncomputable def noQ : Quad (Fin 1) ℝ := Quad.init none none none none
private noncomputable def rampC (K : ℝ) : Composite 1 :=
  smoothComposite (fun x => .num (ramp K x)) (rampGrad K) noQ 0

private lemma ramp_val (K t : ℝ) : ramp K (fun _ => t) = rampF K t := by simp [ramp]

private lemma noQ_val (x : Fin 1 → ℝ) : noQ.funcVal x = 0 := by
  rw [funcVal_eq]; simp [noQ, Quad.init, linearAt, centerAt]

private lemma rampF_upper (K x z : ℝ) : rampF K z ≤ rampF K x + rampG K x * (z - x) + 1 / 2 / 2 * (z - x) ^ 2 := by
  unfold rampF rampG
  rcases max_cases x 0 with ⟨hx, h1⟩ | ⟨hx, h1⟩ <;> rcases max_cases z 0 with ⟨hz, h2⟩ | ⟨hz, h2⟩ <;> rw [hx, hz] <;> nlinarith [sq_nonneg z, sq_nonneg x]

private lemma rampF_lower (K x z : ℝ) : rampF K x + rampG K x * (z - x) ≤ rampF K z := by
  unfold rampF rampG
  rcases max_cases x 0 with ⟨hx, h1⟩ | ⟨hx, h1⟩ <;> rcases max_cases z 0 with ⟨hz, h2⟩ | ⟨hz, h2⟩ <;> rw [hx, hz] <;>
    nlinarith [sq_nonneg z, sq_nonneg x, sq_nonneg (x - z)]

private lemma rampG_mono (K x z : ℝ) : |(z - x) * (rampG K x - rampG K z)| ≤ 1 / 2 * (z - x) ^ 2 := by
  unfold rampG
  rw [abs_le]
  rcases max_cases x 0 with ⟨hx, h1⟩ | ⟨hx, h1⟩ <;> rcases max_cases z 0 with ⟨hz, h2⟩ | ⟨hz, h2⟩ <;> rw [hx, hz] <;>
    constructor <;> nlinarith [sq_nonneg z, sq_nonneg x, sq_nonneg (x - z)]

private lemma rampF_deriv (K x : ℝ) : HasDerivAt (rampF K) (rampG K x) x := by
  rw [hasDerivAt_iff_isLittleO]
  refine Asymptotics.IsBigO.trans_isLittleO (g := fun z => (z - x) ^ 2) (Asymptotics.IsBigO.of_bound (1 / 4) ?_) ?_
  · refine Filter.Eventually.of_forall fun z => ?_
    have h1 := rampF_upper K x z
    have h2 := rampF_lower K x z
    rw [Real.norm_eq_abs, Real.norm_eq_abs, abs_of_nonneg (sq_nonneg (z - x)), abs_le, smul_eq_mul]
    constructor <;> nlinarith [sq_nonneg (z - x)]
  · have h : Filter.Tendsto (fun z : ℝ => z - x) (nhds x) (nhds 0) := by
      have h0 : Continuous fun z : ℝ => z - x := by fun_prop
      have := h0.tendsto x
      simpa using this
    have h2 : (fun z : ℝ => (z - x) * (z - x)) =o[nhds x] fun z => 1 * (z - x) :=
      Asymptotics.IsLittleO.mul_isBigO ((Asymptotics.isLittleO_one_iff ℝ).2 h) (Asymptotics.isBigO_refl _ _)
    simpa [pow_two] using h2

private lemma ramp_convex (K : ℝ) : ConvexWithGradient (ramp K) (rampGrad K) := by
  constructor
  · intro x z a b ha hb hab
    unfold ramp
    rw [Finset.mul_sum, Finset.mul_sum, ← Finset.sum_add_distrib]
    refine Finset.sum_le_sum fun i _ => ?_
    have h1 := rampF_lower K (a * x i + b * z i) (x i)
    have h2 := rampF_lower K (a * x i + b * z i) (z i)
    set m := a * x i + b * z i with hm
    have h3 := mul_le_mul_of_nonneg_left h1 ha
    have h4 := mul_le_mul_of_nonneg_left h2 hb
    have h5 : a * (rampF K m + rampG K m * (x i - m)) + b * (rampF K m + rampG K m * (z i - m)) =
        (a + b) * rampF K m + rampG K m * ((a * x i + b * z i) - (a + b) * m) := by ring
    rw [hab, ← hm] at h5
    show rampF K m ≤ _
    linarith
  · intro x
    exact isGradientAt_sum (fun i t => rampF K t) _ x fun i => rampF_deriv K (x i)

private lemma ramp_smooth (K : ℝ) : SmoothWith (ramp K) (rampGrad K) (1 / 2) := by
  constructor
  · intro x z
    unfold QuadraticUpperBound ramp rampGrad dot sqDist
    rw [Finset.mul_sum, ← Finset.sum_add_distrib, ← Finset.sum_add_distrib]
    exact Finset.sum_le_sum fun i _ => rampF_upper K _ _
  · intro x z
    unfold dot sqDist rampGrad
    simp only [Fin.sum_univ_one, Fin.isValue]
    exact rampG_mono K _ _

private lemma ramp_prox (K t : ℝ) : (rampC K).proximal (stepQuad (1 / 1) (fun _ => t) (rampGrad K fun _ => t)) =
    some fun _ => t - rampG K t := by
  show smoothProximal noQ _ = _
  unfold smoothProximal
  simp only
  have hc : (noQ.add (some (stepQuad (1 / 1) (fun _ => t) (rampGrad K fun _ => t)))).coef = 1 := by
    show (0:ℝ) + (1 / 1) = 1
    norm_num
  rw [hc, if_neg one_ne_zero]
  congr 1
  funext i
  simp only [Quad.add, Option.elim, get_map₂]
  rw [collapsedLinear_get, collapsedLinear_get]
  simp [noQ, stepQuad, Quad.init, linearAt, centerAt, rampGrad]

private lemma ramp_bt (K : ℝ) (fuel k : ℕ) (hk : (k + 1) % 100 ≠ 0) (t : ℝ) :
    backtrack (rampC K) (11 / 10) (fuel + 1) k (fun _ => t) 1 false =
      .ok (fun _ => t - rampG K t) (.num (ramp K fun _ => t - rampG K t)) 1 false := by
  unfold backtrack
  rw [if_neg (by simpa using hk)]
  unfold btLoop
  have : (rampC K).grad (fun _ => t) = rampGrad K fun _ => t := rfl
  rw [this, ramp_prox]
  simp only
  rw [if_pos]
  · rfl
  · exact btStop_of_small (f := ramp K) (M := 1 / 2) (fun _ => rfl) (ramp_smooth K) (by norm_num) one_pos (by norm_num) _ _

private lemma ramp_obj (K t : ℝ) (b : Bool) : (ObjVal.num (ramp K fun _ => t)).add ((rampC K).nonsmooth (fun _ => t) b) =
    .num (rampF K t) := by
  show ObjVal.num (ramp K _ + noQ.funcVal _) = _
  rw [noQ_val, add_zero, ramp_val]

private lemma pass_of_bt {n : ℕ} {C : Composite n} (a : FitArgs) (hb : a.performBacktrack = true) (hr : a.restart = none) {fuel : ℕ}
    (s : State n) {p : Fin n → ℝ} {ps : ObjVal} {st : ℝ} {att : Bool}
    (h : backtrack C a.alpha fuel s.itercount s.working s.step s.attempt = .ok p ps st att) :
    pass C a fuel s = finish C a { s with hist := s.hist ++ [s.obj], step := st, attempt := att } p ps := by
  have hp : prepare a s = { s with hist := s.hist ++ [s.obj] } := by
    unfold prepare; rw [hr]
  unfold pass
  rw [hp]
  simp only [hb, if_true]
  rw [h]

/-- a pass before `min_its` -/
private lemma ramp_pass (K tol : ℝ) (fuel k : ℕ) (hk : k < 5) (x y w p : ℝ) (hist : List ObjVal) (l : List (Record 1))
    (hp : p = y - rampG K y) (hle : k ≤ 1 ∨ rampF K p ≤ rampF K x) :
    ∃ l', pass (rampC K) { tol := some tol } (fuel + 1)
        ⟨1, false, fun _ => x, fun _ => y, w, .num (rampF K x), k, 0, hist, l⟩ =
      .next ⟨1, false, fun _ => p, fun _ => p + (w - 1) / nextWeight w * (p - x), nextWeight w, .num (rampF K p), k + 1, 0,
        hist ++ [.num (rampF K x)], l'⟩ := by
  have hb := ramp_bt K fuel k (by omega) y
  rw [← hp] at hb
  rw [pass_of_bt _ rfl rfl _ hb]
  unfold finish
  simp only
  rw [if_neg, if_neg]
  · rw [ramp_obj]
    exact ⟨_, rfl⟩
  · rintro ⟨h1, h2, -⟩
    rw [ramp_obj] at h2
    have h1' : 1 < k := h1
    have h2' : rampF K x < rampF K p := h2
    rcases hle with h | h
    · omega
    · linarith
  · rintro ⟨h1, -⟩
    have h1' : 5 ≤ k := h1
    omega

/-- a pass whose proposal has the objective of the kept point -/
private lemma ramp_stop (K tol : ℝ) (htol : 0 < tol) (fuel : ℕ) (x y w p : ℝ) (hist : List ObjVal) (l : List (Record 1))
    (hp : p = y - rampG K y) (heq : rampF K p = rampF K x) :
    ∃ l', pass (rampC K) { tol := some tol } (fuel + 1)
        ⟨1, false, fun _ => x, fun _ => y, w, .num (rampF K x), 5, 0, hist, l⟩ =
      .stop ⟨1, false, fun _ => x, fun _ => p, w, .num (rampF K x), 5, 0, hist ++ [.num (rampF K x)], l'⟩ := by
  have hb := ramp_bt K fuel 5 (by omega) y
  rw [← hp] at hb
  rw [pass_of_bt _ rfl rfl _ hb]
  unfold finish
  simp only
  rw [if_pos]
  · exact ⟨_, rfl⟩
  · refine ⟨le_rfl, ?_⟩
    rw [if_neg (by show ¬ (false = true); simp)]
    right
    rw [ramp_obj]
    have htv : FitArgs.tolV { tol := some tol } = tol := by
      show (if tol = 0 then (1 / 100000 : ℝ) else tol) = tol
      rw [if_neg htol.ne']
    rw [htv]
    show |rampF K p - rampF K x| < tol
    rw [heq, sub_self, abs_zero]
    exact htol

private lemma loop_next {n : ℕ} {C : Composite n} {a : FitArgs} {fuel m : ℕ} {s s' : State n} (h : s.itercount < a.maxItsV)
    (hp : pass C a fuel s = .next s') : loop C a fuel (m + 1) s = loop C a fuel m s' := by
  rw [loop, if_pos h, hp]

private lemma loop_stop {n : ℕ} {C : Composite n} {a : FitArgs} {fuel m : ℕ} {s s' : State n} (h : s.itercount < a.maxItsV)
    (hp : pass C a fuel s = .stop s') : loop C a fuel (m + 1) s = .ok (s'.hist.take s'.itercount) s' := by
  rw [loop, if_pos h, hp]

/-- bounds on the weights -/
private lemma weight_between {w lo hi lo' hi' : ℝ} (h1 : lo ≤ w) (h2 : w ≤ hi) (h0 : 0 ≤ lo) (g1 : (2 * lo' - 1) ^ 2 ≤ 1 + 4 * lo ^ 2)
    (g2 : 1 + 4 * hi ^ 2 ≤ (2 * hi' - 1) ^ 2) (g3 : 1 ≤ hi') : lo' ≤ nextWeight w ∧ nextWeight w ≤ hi' := by
  unfold nextWeight
  have h3 : 2 * lo' - 1 ≤ Real.sqrt (1 + 4 * w ^ 2) := Real.le_sqrt_of_sq_le (by nlinarith)
  have h4 : Real.sqrt (1 + 4 * w ^ 2) ≤ 2 * hi' - 1 := Real.sqrt_le_iff.2 ⟨by linarith, by nlinarith⟩
  constructor <;> norm_num <;> linarith

private lemma rampF_antitone (K : ℝ) (hK : 0 ≤ K) {s t : ℝ} (h1 : s ≤ t) (h2 : t ≤ 2 * K) : rampF K t ≤ rampF K s := by
  have := rampF_lower K t s
  have h3 : rampG K t ≤ 0 := by
    unfold rampG
    have : max t 0 ≤ 2 * K := max_le h2 (by linarith)
    linarith
  nlinarith

set_option maxHeartbeats 1600000 in
/-- **C96** fails: no tolerance makes the stopping rule safe.  For every gap there is one convex problem (`f x = max(x, 0)²/4 - K x` in
one dimension, gradient `1/2`-Lipschitz, exact proximal map), one start and one point `x5`, such that `fit` called with any `tol > 0` and
every other argument at its default stops after five recorded passes and returns `x5`, which is worse than the minimum by more than the
gap.  The sixth proposal overshoots the minimiser and has exactly the objective of `x5`; the rule reads this as convergence, so asking for
a smaller tolerance does not change the answer. -/
theorem C96_tol_limit_fails (gap : ℝ) (hgap : 0 < gap) :
    ∃ (C : Composite 1) (f : (Fin 1 → ℝ) → ℝ) (x0 x5 u : Fin 1 → ℝ), IsProblem C f (fun _ => 0) Set.univ ∧
      ConvexWithGradient f C.grad ∧ SmoothWith f C.grad (1 / 2) ∧ Minimises (fun v => f v + 0) Set.univ u ∧ gap < f x5 - f u ∧
      ∀ tol : ℝ, 0 < tol → ∀ fuel, ∃ hist s, fit C { tol := some tol } none false (fuel + 1) x0 = .ok hist s ∧
        hist.length = 5 ∧ s.coefs = x5 := by
  -- the weights
  set w1 := nextWeight 1 with hw1
  set w2 := nextWeight w1 with hw2
  set w3 := nextWeight w2 with hw3
  set w4 := nextWeight w3 with hw4
  set w5 := nextWeight w4 with hw5
  obtain ⟨a1, b1⟩ := weight_between (w := 1) (lo := 1) (hi := 1) (lo' := 1.61) (hi' := 1.62) le_rfl le_rfl (by norm_num) (by norm_num)
    (by norm_num) (by norm_num)
  rw [← hw1] at a1 b1
  obtain ⟨a2, b2⟩ := weight_between (lo' := 2.18) (hi' := 2.2) a1 b1 (by norm_num) (by norm_num) (by norm_num) (by norm_num)
  rw [← hw2] at a2 b2
  obtain ⟨a3, b3⟩ := weight_between (lo' := 2.73) (hi' := 2.76) a2 b2 (by norm_num) (by norm_num) (by norm_num) (by norm_num)
  rw [← hw3] at a3 b3
  obtain ⟨a4, b4⟩ := weight_between (lo' := 3.27) (hi' := 3.31) a3 b3 (by norm_num) (by norm_num) (by norm_num) (by norm_num)
  rw [← hw4] at a4 b4
  obtain ⟨a5, b5⟩ := weight_between (lo' := 3.8) (hi' := 3.86) a4 b4 (by norm_num) (by norm_num) (by norm_num) (by norm_num)
  rw [← hw5] at a5 b5
  -- the momentum factors
  set e1 := (w1 - 1) / w2 with he1
  set e2 := (w2 - 1) / w3 with he2
  set e3 := (w3 - 1) / w4 with he3
  set e4 := (w4 - 1) / w5 with he4
  have c1 : 0.27 ≤ e1 ∧ e1 ≤ 0.3 := ⟨(le_div_iff₀ (by linarith)).2 (by linarith), (div_le_iff₀ (by linarith)).2 (by linarith)⟩
  have c2 : 0.42 ≤ e2 ∧ e2 ≤ 0.45 := ⟨(le_div_iff₀ (by linarith)).2 (by linarith), (div_le_iff₀ (by linarith)).2 (by linarith)⟩
  have c3 : 0.52 ≤ e3 ∧ e3 ≤ 0.55 := ⟨(le_div_iff₀ (by linarith)).2 (by linarith), (div_le_iff₀ (by linarith)).2 (by linarith)⟩
  have c4 : 0.58 ≤ e4 ∧ e4 ≤ 0.61 := ⟨(le_div_iff₀ (by linarith)).2 (by linarith), (div_le_iff₀ (by linarith)).2 (by linarith)⟩
  clear_value e1 e2 e3 e4
  set b := e3 * (1 + e2 * (1 + e1)) with hb
  have hb1 : 0.79 ≤ b := by
    have : 1.53 ≤ 1 + e2 * (1 + e1) := by nlinarith
    nlinarith
  have hb2 : b ≤ 0.9 := by
    have : 1 + e2 * (1 + e1) ≤ 1.6 := by nlinarith
    nlinarith
  set σ := e4 * b / (3 - e4) with hσ
  have hσ0 : σ * (3 - e4) = e4 * b := div_mul_cancel₀ _ (by linarith)
  have hσ1 : 0.18 ≤ σ := (le_div_iff₀ (by linarith)).2 (by nlinarith)
  have hσ2 : σ ≤ 0.3 := (div_le_iff₀ (by linarith)).2 (by nlinarith)
  clear_value σ
  -- the scale
  obtain ⟨K, hK⟩ : ∃ t : ℝ, t = 13 * (gap + 1) := ⟨_, rfl⟩
  have hK0 : 0 < K := by linarith
  have hK1 : 13 ≤ K := by linarith
  -- the trajectory
  obtain ⟨y3, hy3⟩ : ∃ t : ℝ, t = K * (1 - 2 * σ - b) := ⟨_, rfl⟩
  obtain ⟨x0, hx0⟩ : ∃ t : ℝ, t = y3 - K * (3 + e1 + e2 * (1 + e1)) := ⟨_, rfl⟩
  obtain ⟨x1, hx1⟩ : ∃ t : ℝ, t = x0 + K := ⟨_, rfl⟩
  obtain ⟨x2, hx2⟩ : ∃ t : ℝ, t = x0 + 2 * K := ⟨_, rfl⟩
  obtain ⟨y2, hy2⟩ : ∃ t : ℝ, t = x2 + e1 * K := ⟨_, rfl⟩
  obtain ⟨x3, hx3⟩ : ∃ t : ℝ, t = y2 + K := ⟨_, rfl⟩
  obtain ⟨x4, hx4⟩ : ∃ t : ℝ, t = y3 + K := ⟨_, rfl⟩
  obtain ⟨y4, hy4⟩ : ∃ t : ℝ, t = x4 + K * b := ⟨_, rfl⟩
  obtain ⟨x5, hx5⟩ : ∃ t : ℝ, t = y4 + K * σ := ⟨_, rfl⟩
  obtain ⟨y5, hy5⟩ : ∃ t : ℝ, t = x5 + e4 * (K * (b + σ)) := ⟨_, rfl⟩
  obtain ⟨p5, hp5⟩ : ∃ t : ℝ, t = y5 / 2 + K := ⟨_, rfl⟩
  have hneg : ∀ t, t ≤ 0 → t - rampG K t = t + K := by
    intro t ht
    unfold rampG
    rw [max_eq_right ht]; ring
  have hpos : ∀ t, 0 ≤ t → t - rampG K t = t / 2 + K := by
    intro t ht
    unfold rampG
    rw [max_eq_left ht]; ring
  have hy3n : y3 ≤ 0 := by
    rw [hy3]
    have : 1 - 2 * σ - b ≤ 0 := by linarith
    exact mul_nonpos_of_nonneg_of_nonpos hK0.le this
  have hE : 0 ≤ e2 * (1 + e1) := mul_nonneg (by linarith) (by linarith)
  have k3 : x3 = y3 - K * (e2 * (1 + e1)) := by rw [hx3, hy2, hx2, hx0]; ring
  have hx3n : x3 ≤ y3 := by rw [k3]; linarith [mul_nonneg hK0.le hE]
  have hy2n : y2 ≤ y3 := by linarith
  have hx2n : x2 ≤ y2 := by rw [hy2]; linarith [mul_nonneg (show 0 ≤ e1 by linarith) hK0.le]
  have hx1n : x1 ≤ x2 := by rw [hx1, hx2]; linarith
  have hx0n : x0 ≤ x1 := by rw [hx1]; linarith
  have hy4v : y4 = K * (2 - 2 * σ) := by rw [hy4, hx4, hy3]; ring
  have hx5v : x5 = K * (2 - σ) := by rw [hx5, hy4v]; ring
  have hy4p : 0 ≤ y4 := by rw [hy4v]; exact mul_nonneg hK0.le (by linarith)
  have hx5p : 0 ≤ x5 := by rw [hx5v]; exact mul_nonneg hK0.le (by linarith)
  have hy5p : 0 ≤ y5 := by
    rw [hy5]
    have : 0 ≤ e4 * (K * (b + σ)) := mul_nonneg (by linarith) (mul_nonneg hK0.le (by linarith))
    linarith
  have hKσ : 0 ≤ K * σ := mul_nonneg hK0.le (by linarith)
  have hKb : 0 ≤ K * b := mul_nonneg hK0.le (by linarith)
  have hbound : x5 ≤ 2 * K := by rw [hx5v]; linarith
  have hp5v : p5 + x5 = 4 * K := by
    have : p5 + x5 = K * ((3 * (2 - σ) + e4 * b + e4 * σ) / 2 + 1) := by rw [hp5, hy5, hx5v]; ring
    rw [this]
    have : e4 * b + e4 * σ = 3 * σ := by linarith
    have h2 : 3 * (2 - σ) + e4 * b + e4 * σ = 6 := by linarith
    rw [h2]; ring
  have hp5p : 0 ≤ p5 := by rw [hp5]; linarith
  have heq : rampF K p5 = rampF K x5 := by
    unfold rampF
    rw [max_eq_left hp5p, max_eq_left hx5p]
    have h1 : p5 = 4 * K - x5 := by linarith
    rw [h1]; ring
  have hq0 : noQ.funcVal = fun _ => (0:ℝ) := funext noQ_val
  have hprob := (C33_smooth_atom_problem (ramp K) (rampGrad K) noQ le_rfl 0).1
  rw [hq0] at hprob
  refine ⟨rampC K, ramp K, fun _ => x0, fun _ => x5, fun _ => 2 * K, hprob, ramp_convex K, ramp_smooth K, ⟨Set.mem_univ _, ?_⟩, ?_, ?_⟩
  · intro v _
    simp only [add_zero]
    unfold ramp
    refine Finset.sum_le_sum fun i _ => ?_
    have := rampF_lower K (2 * K) (v i)
    have h0 : rampG K (2 * K) = 0 := by
      unfold rampG; rw [max_eq_left (by linarith)]; ring
    rw [h0] at this
    linarith
  · rw [ramp_val, ramp_val]
    unfold rampF
    rw [max_eq_left hx5p, max_eq_left (by linarith : (0:ℝ) ≤ 2 * K), hx5v]
    have : (K * (2 - σ)) ^ 2 / 4 - K * (K * (2 - σ)) - ((2 * K) ^ 2 / 4 - K * (2 * K)) = (K * σ / 2) ^ 2 := by ring
    rw [this]
    have h1 : gap + 1 ≤ K * σ / 2 := by linarith [mul_le_mul_of_nonneg_left hσ1 hK0.le]
    have h2 : (1:ℝ) ≤ K * σ / 2 := by linarith
    have h3 : K * σ / 2 ≤ (K * σ / 2) ^ 2 := by rw [pow_two]; exact le_mul_of_one_le_left (by linarith) h2
    linarith
  · intro tol htol fuel
    have m : ∀ k, k < 10000 → k < FitArgs.maxItsV { tol := some tol } := fun k hk => hk
    obtain ⟨l1, g1⟩ := ramp_pass K tol fuel 0 (by omega) x0 x0 1 x1 [] [] (by rw [hneg _ (by linarith)]; exact hx1) (Or.inl (by omega))
    have i1 : x1 + (1 - 1) / nextWeight 1 * (x1 - x0) = x1 := by ring
    rw [i1, ← hw1] at g1
    obtain ⟨l2, g2⟩ := ramp_pass K tol fuel 1 (by omega) x1 x1 w1 x2 ([] ++ [.num (rampF K x0)]) l1
      (by rw [hneg _ (by linarith), hx2, hx1]; ring) (Or.inl (by omega))
    have i2 : x2 + (w1 - 1) / nextWeight w1 * (x2 - x1) = y2 := by
      rw [← hw2, ← he1, hy2, hx2, hx1]; ring
    rw [i2, ← hw2] at g2
    obtain ⟨l3, g3⟩ := ramp_pass K tol fuel 2 (by omega) x2 y2 w2 x3 ([] ++ [.num (rampF K x0)] ++ [.num (rampF K x1)]) l2
      (by rw [hneg _ (by linarith)]; exact hx3) (Or.inr (rampF_antitone K hK0.le (by linarith) (by linarith)))
    have i3 : x3 + (w2 - 1) / nextWeight w2 * (x3 - x2) = y3 := by
      rw [← hw3, ← he2, k3]
      have : y3 - K * (e2 * (1 + e1)) - x2 = K * (1 + e1) := by rw [hx2, hx0]; ring
      rw [this]; ring
    rw [i3, ← hw3] at g3
    obtain ⟨l4, g4⟩ := ramp_pass K tol fuel 3 (by omega) x3 y3 w3 x4
      ([] ++ [.num (rampF K x0)] ++ [.num (rampF K x1)] ++ [.num (rampF K x2)]) l3
      (by rw [hneg _ hy3n]; exact hx4) (Or.inr (rampF_antitone K hK0.le (by linarith) (by linarith)))
    have i4 : x4 + (w3 - 1) / nextWeight w3 * (x4 - x3) = y4 := by
      rw [← hw4, ← he3, hy4, k3, hx4, hb]; ring
    rw [i4, ← hw4] at g4
    obtain ⟨l5, g5⟩ := ramp_pass K tol fuel 4 (by omega) x4 y4 w4 x5
      ([] ++ [.num (rampF K x0)] ++ [.num (rampF K x1)] ++ [.num (rampF K x2)] ++ [.num (rampF K x3)]) l4
      (by rw [hpos _ hy4p, hx5v, hy4v]; ring) (Or.inr (rampF_antitone K hK0.le (by linarith) hbound))
    have i5 : x5 + (w4 - 1) / nextWeight w4 * (x5 - x4) = y5 := by
      rw [← hw5, ← he4, hy5, hx5, hy4]; ring
    rw [i5, ← hw5] at g5
    obtain ⟨l6, g6⟩ := ramp_stop K tol htol fuel x5 y5 w5 p5
      ([] ++ [.num (rampF K x0)] ++ [.num (rampF K x1)] ++ [.num (rampF K x2)] ++ [.num (rampF K x3)] ++ [.num (rampF K x4)]) l5
      (by rw [hpos _ hy5p]; exact hp5) heq
    have hs : startObj (rampC K) (fun _ => x0) = .num (rampF K x0) := ramp_obj K x0 true
    have hst : startState (rampC K) { tol := some tol } none false (fun _ => x0) =
        ⟨1, false, fun _ => x0, fun _ => x0, 1, .num (rampF K x0), 0, 0, [], []⟩ := by
      unfold startState
      rw [hs]; rfl
    have hfit : fit (rampC K) { tol := some tol } none false (fuel + 1) (fun _ => x0) =
        loop (rampC K) { tol := some tol } (fuel + 1) (10000 + 1)
          ⟨1, false, fun _ => x0, fun _ => x0, 1, .num (rampF K x0), 0, 0, [], []⟩ := by
      unfold fit
      rw [hs, hst]; rfl
    have hrun := hfit.trans ((loop_next (m := 10000) (m 0 (by omega)) g1).trans
      ((loop_next (m := 9999) (m 1 (by omega)) g2).trans ((loop_next (m := 9998) (m 2 (by omega)) g3).trans
        ((loop_next (m := 9997) (m 3 (by omega)) g4).trans ((loop_next (m := 9996) (m 4 (by omega)) g5).trans
          (loop_stop (m := 9995) (m 5 (by omega)) g6))))))
    exact ⟨_, _, hrun, rfl, rfl⟩

end Verif.Props
