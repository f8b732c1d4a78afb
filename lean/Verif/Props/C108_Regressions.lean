import Verif.Props.C108_BoundedRegression

/-!
# C108: probit, complementary log-log, logistic and Poisson regression on a bounded region
-/

set_option linter.unusedSectionVars false
set_option linter.unusedVariables false

namespace Verif.Props
open Verif.Spec Verif.Model Verif.Model.Fista Verif.Lemmas

variable {n p : ℕ}

/-! ### specification -/

/-- case losses of a binary regression: binomial negative log-likelihoods, one trial each unless trials are given -/
noncomputable def binaryCases (l : BinLink) (s : Fin n → ℝ) (trials : Option (Fin n → ℝ)) (i : Fin n) : ℝ → ℝ :=
  binomialNll (invLink l) (s i) (trials.elim 1 fun m => m i)

/-- `solve` answers from every allowed start, with allowed coefficients and their objective, as close to the smallest value as the
rate for gradients with Lipschitz constant `M` says -/
def SolvesWithRate (S : QuadLoss p) (f : (Fin p → ℝ) → ℝ) (M : ℝ) (A : NonsmoothAtom p) (pen : (Fin p → ℝ) → WithTop ℝ) : Prop :=
  ∀ x0, pen x0 ≠ ⊤ → ∀ a : FitArgs, a.performBacktrack = true → 1 < a.alpha → 0 < a.startStep → a.monotonicityRestart = false →
    a.restart = none → (∃ m, a.maxIts = some m ∧ m ≠ 0 ∧ m ≤ 99) → ∀ lip, ∃ N, ∀ fuel, N < fuel → ∃ β v hist,
      ((SimpleProblem.ofLoss S A x0).solve none a lip fuel).1 = .ok β (.num v) hist ∧ penalised f S.quad pen β = v ∧
      ∀ u, IsMinTop (penalised f S.quad pen) u → ∃ vu : ℝ, penalised f S.quad pen u = vu ∧ vu ≤ v ∧
        v - vu ≤ 2 * sqDist x0 u / (min a.startStep (1 / (2 * M * a.alpha)) * (hist.length + 1) ^ 2)

/-! ### helpers -/

private lemma solves_of {S : QuadLoss p} {X : Fin n → Fin p → ℝ} {o : Fin p → ℝ} {so w : Fin n → ℝ} {c : ℝ} {ell : Fin n → ℝ → ℝ}
    {B κ : ℝ} {A : NonsmoothAtom p} {pen : (Fin p → ℝ) → WithTop ℝ}
    (h : IsRegressionOn S X o so w c ell B) (hB : 0 ≤ B) (hκ0 : 0 ≤ κ) (hκ : CurvatureOn ell B κ)
    {M : ℝ} (hM0 : 0 < M) (hM : c * κ * ∑ i, w i * ∑ j, X i j ^ 2 ≤ M)
    (hA : IsAtomFor A pen) (hbox : ∀ β, pen β ≠ ⊤ → ∀ i, |linPred X o so β i| ≤ B / 3) :
    SolvesWithRate S (regressionVal X o so w c ell) M A pen := by
  intro x0 hx a hb ha hst hm hr hmax lip
  obtain ⟨N, hN⟩ := C108_returns h hB hκ hA hbox x0 hx a hb ha hst lip
  refine ⟨N, fun fuel hf => ?_⟩
  obtain ⟨β, v, hist, h1, h2⟩ := hN fuel hf
  refine ⟨β, v, hist, h1, h2, fun u hu => ?_⟩
  obtain ⟨vc, vu, e1, e2, e3, e4, e5⟩ := C108_rate h hB hκ0 hκ hA hbox x0 hx M hM0 hM a hb ha.le hst hm hr hmax lip fuel β _ hist h1 u hu
  injection e1 with e1
  subst e1
  exact ⟨vu, e3, e4, e5⟩

private lemma quad_coef {quad : Option (Quad (Fin p) ℝ)} (hq : 0 ≤ quadCoef quad) :
    0 ≤ (quad.getD (Quad.init none none none none)).coef := by
  cases quad with
  | none => exact le_rfl
  | some q => exact hq

private lemma cases_of {ell ψ : Fin n → ℝ → ℝ} (hd : ∀ i t, HasDerivAt (ell i) (ψ i t) t)
    (ht : ∀ i x y, ell i x + ψ i x * (y - x) ≤ ell i y) : ConvexCases ell := fun i =>
  ⟨fun t => (hd i t).differentiableAt, by
    have : deriv (ell i) = ψ i := funext fun t => (hd i t).deriv
    rw [this]; exact mono_of_tangent (ht i)⟩

private lemma curv_of {ell ψ : Fin n → ℝ → ℝ} (hd : ∀ i t, HasDerivAt (ell i) (ψ i t) t) {B κ : ℝ}
    (h : ∀ i x y, |x| ≤ B → |y| ≤ B → |ψ i x - ψ i y| ≤ κ * |x - y|) : CurvatureOn ell B κ := by
  intro i x y hx hy
  rw [(hd i x).deriv, (hd i y).deriv]
  exact h i x y hx hy

private lemma lip_of_bound {ψ d : ℝ → ℝ} (hd : ∀ t, HasDerivAt ψ (d t) t) {B κ : ℝ} (hb : ∀ t, |t| ≤ B → |d t| ≤ κ) (x y : ℝ)
    (hx : |x| ≤ B) (hy : |y| ≤ B) : |ψ x - ψ y| ≤ κ * |x - y| := by
  have := Convex.norm_image_sub_le_of_norm_hasDerivWithin_le (f := ψ) (f' := d) (s := Set.Icc (-B) B) (C := κ)
    (fun t _ => (hd t).hasDerivWithinAt) (fun t ht => hb t (abs_le.2 ht)) (convex_Icc _ _) (abs_le.1 hy) (abs_le.1 hx)
  rwa [Real.norm_eq_abs, Real.norm_eq_abs] at this

/-! ### probit and complementary log-log regression -/

/-- **C108** `glm.probit` and `glm.cloglog` accept exactly a nonnegative coefficient, nonnegative case weights and: given trials,
`0 ≤ sᵢ ≤ mᵢ`; without trials, binary successes.  The design, offset and saturated offset are not checked. -/
theorem C108_constructor (l : BinLink) (X : Fin n → Fin p → ℝ) (s : Fin n → ℝ) (trials : Option (Fin n → ℝ)) (c : ℝ)
    (so : Option (Fin n → ℝ)) (o : Option (Fin p → ℝ)) (w : Option (Fin n → ℝ)) :
    (∃ G, BinGlm.build l X s trials c so o w = some G) ↔
      0 ≤ c ∧ (∀ v, w = some v → ∀ i, 0 ≤ v i) ∧ (trials = none → ∀ i, s i = 0 ∨ s i = 1) ∧
        ∀ m, trials = some m → ∀ i, 0 ≤ s i ∧ s i ≤ m i := by
  have hC := C72_constructor l s trials c so (Quad.init none none none none) none
  constructor
  · rintro ⟨G, hG⟩
    unfold BinGlm.build at hG
    cases hL : BinLoss.init l s trials c so (Quad.init none none none none) none with
    | none => rw [hL] at hG; cases hG
    | some L =>
      rw [hL] at hG
      obtain ⟨t, ht, hc, hst, -, rfl⟩ := bin_of_init hL
      have h4 : ∀ m, trials = some m → ∀ i, 0 ≤ s i ∧ s i ≤ m i := by
        rintro m rfl i
        unfold Loss.resolveTrials at ht
        injection ht with ht
        subst ht
        exact hst i
      have h3 : trials = none → ∀ i, s i = 0 ∨ s i = 1 := by
        rintro rfl
        unfold Loss.resolveTrials at ht
        by_contra hcon
        rw [if_neg hcon] at ht
        cases ht
      refine ⟨hc, ?_, h3, h4⟩
      rintro v rfl
      dsimp only [BinLoss.setData] at hG
      split_ifs at hG with h1 h2
      exact h2
  · rintro ⟨h1, h2, h3, h4⟩
    obtain ⟨L, hL, -⟩ := hC.2 ⟨h1, fun v hv => (by cases hv), h3, h4⟩
    obtain ⟨t, ht, hc, hst, -, rfl⟩ := bin_of_init hL
    refine Option.isSome_iff_exists.1 ?_
    unfold BinGlm.build
    rw [hL]
    dsimp only [BinLoss.setData]
    rw [if_neg (by
      rintro (⟨i, hi⟩ | ⟨i, hi⟩)
      · linarith [(hst i).2]
      · linarith [(hst i).1]), ]
    dsimp only
    split_ifs with hw
    · rfl
    · refine absurd ?_ hw
      cases w with
      | none => exact fun i => zero_le_one
      | some v => exact h2 v rfl

section
variable {l : BinLink} {X : Fin n → Fin p → ℝ} {s : Fin n → ℝ} {trials : Option (Fin n → ℝ)} {c : ℝ}
    {so : Option (Fin n → ℝ)} {o : Option (Fin p → ℝ)} {w : Option (Fin n → ℝ)} {G : BinGlm p n}

private lemma bin_built (h : BinGlm.build l X s trials c so o w = some G) :
    0 ≤ c ∧ (∀ i, 0 ≤ (w.elim 1 fun w => w i : ℝ)) ∧ (∀ i, 0 ≤ s i ∧ s i ≤ trials.elim 1 fun m => m i) ∧
      ∃ q, G = ⟨X, o, fun i => w.elim 1 fun w => w i, ⟨l, s, fun i => trials.elim 1 fun m => m i, c, so, q, none⟩⟩ := by
  unfold BinGlm.build at h
  cases hL : BinLoss.init l s trials c so (Quad.init none none none none) none with
  | none => rw [hL] at h; cases h
  | some L =>
    rw [hL] at h
    obtain ⟨t, ht, hc, hst, -, rfl⟩ := bin_of_init hL
    have et : t = fun i => trials.elim 1 fun m => m i := by
      cases trials with
      | none =>
        unfold Loss.resolveTrials at ht
        split_ifs at ht
        injection ht with ht
        exact ht.symm
      | some m =>
        unfold Loss.resolveTrials at ht
        injection ht with ht
        exact ht.symm
    subst et
    dsimp only [BinLoss.setData] at h
    split_ifs at h with h1 h2
    injection h with h
    refine ⟨hc, ?_, hst, Loss.devQuad c (.logistic s fun i => trials.elim 1 fun m => m i) (Quad.init none none none none),
      h.symm.trans ?_⟩
    · cases w with
      | none => exact fun i => zero_le_one
      | some v => exact h2
    · cases w <;> rfl

/-- **C108** The answers of a probit or complementary log-log regression do not depend on the calls made before: the object is the
same after any sequence of calls. -/
theorem C108_history (h : BinGlm.build l X s trials c so o w = some G) (calls : List ((Fin p → ℝ) × Mode)) : G.run calls = G := by
  obtain ⟨-, -, -, q, rfl⟩ := bin_built h
  induction calls with
  | nil => rfl
  | cons k rest ih =>
    have e : ∀ (β : Fin p → ℝ) (m : Mode), ((⟨X, o, fun i => w.elim 1 fun w => w i,
        ⟨l, s, fun i => trials.elim 1 fun m => m i, c, so, q, none⟩⟩ : BinGlm p n).smoothObjective β m).2 =
        ⟨X, o, fun i => w.elim 1 fun w => w i, ⟨l, s, fun i => trials.elim 1 fun m => m i, c, so, q, none⟩⟩ := by
      intro β m
      cases m <;> rfl
    show BinGlm.run (BinGlm.smoothObjective _ k.1 k.2).2 rest = _
    rw [e]
    exact ih

private lemma bin_obj (G : BinGlm p n) (β : Fin p → ℝ) (m : Mode) : (G.smoothObjective β m).1 =
    match (G.loss.smoothObjective (fun i => ∑ j, G.X i j * Smooth.applyOffset G.offset β j) m (some G.caseWeights)).1 with
      | .val f => .val f
      | .grad g => .grad fun j => ∑ i, G.X i j * g i
      | .both f g => .both f fun j => ∑ i, G.X i j * g i
      | e => .valueError := by
  unfold BinGlm.smoothObjective
  dsimp only
  split <;> simp_all

private lemma inv_bounds (l : BinLink) (x : ℝ) : 0 < invLink l x ∧ invLink l x < 1 := by
  cases l
  · exact ⟨ncdf_pos x, ncdf_lt_one x⟩
  · exact ⟨cloglogInv_pos x, cloglogInv_lt_one x⟩

private lemma inv_hasDeriv (l : BinLink) (x : ℝ) : HasDerivAt (invLink l) (l.pdf x) x := by
  cases l
  · exact hasDerivAt_ncdf x
  · exact hasDerivAt_cloglogInv x

private lemma pdf_contDiff (l : BinLink) : ContDiff ℝ 1 l.pdf := by
  cases l
  · show ContDiff ℝ 1 fun t => Real.exp (-(1 / 2) * t ^ 2) / Real.sqrt (2 * Real.pi)
    fun_prop
  · show ContDiff ℝ 1 fun t => Real.exp (t - Real.exp t)
    fun_prop

private lemma inv_contDiff (l : BinLink) : ContDiff ℝ 1 (invLink l) := by
  rw [contDiff_one_iff_deriv]
  refine ⟨fun x => (inv_hasDeriv l x).differentiableAt, ?_⟩
  rw [show deriv (invLink l) = l.pdf from funext fun x => (inv_hasDeriv l x).deriv]
  exact (pdf_contDiff l).continuous

/-- derivative of a case -/
private noncomputable def binD (l : BinLink) (s : Fin n → ℝ) (trials : Option (Fin n → ℝ)) (i : Fin n) (x : ℝ) : ℝ :=
  -(l.pdf x * (s i / invLink l x - ((trials.elim 1 fun m => m i) - s i) / (1 - invLink l x)))

private lemma binD_deriv (l : BinLink) (s : Fin n → ℝ) (trials : Option (Fin n → ℝ)) (i : Fin n) (t : ℝ) :
    HasDerivAt (binaryCases l s trials i) (binD l s trials i t) t := nll_deriv l _ _ t

/-- **C108** The curvature of the cases of a probit or complementary log-log regression is bounded on every bounded interval of
linear predictors. -/
theorem C108_curvature (l : BinLink) (s : Fin n → ℝ) (trials : Option (Fin n → ℝ)) (B : ℝ) :
    ∃ κ, 0 ≤ κ ∧ CurvatureOn (binaryCases l s trials) B κ := by
  have hC : ∀ i, ContDiff ℝ 1 (binD l s trials i) := by
    intro i
    refine ((pdf_contDiff l).mul (ContDiff.sub ?_ ?_)).neg
    · exact contDiff_const.div (inv_contDiff l) fun x => (inv_bounds l x).1.ne'
    · exact contDiff_const.div (contDiff_const.sub (inv_contDiff l)) fun x => by linarith [(inv_bounds l x).2] |> ne_of_gt
  choose κ h0 hκ using fun i => lip_of_contDiff (hC i) B
  refine ⟨∑ i, κ i, Finset.sum_nonneg fun i _ => h0 i, curv_of (binD_deriv l s trials) fun i x y hx hy => ?_⟩
  refine (hκ i x y hx hy).trans (mul_le_mul_of_nonneg_right ?_ (abs_nonneg _))
  exact Finset.single_le_sum (f := κ) (fun i _ => h0 i) (Finset.mem_univ i)

private lemma inside (l : BinLink) {x : ℝ} (h : |x| ≤ clipBound l) : successAt l x = x ∧ failureAt l x = x := by
  rw [abs_le] at h
  cases l
  · exact ⟨max_eq_left h.1, min_eq_left h.2⟩
  · have h' : -5 ≤ x ∧ x ≤ 5 := h
    have : max (-5) (min x 5) = x := by rw [min_eq_left h'.2, max_eq_right h'.1]
    exact ⟨this, this⟩

/-- **C108** Probit and complementary log-log regression are the textbook regressions where the linear predictors are at most 20
(probit) or 5 (complementary log-log) in absolute value: for every design, successes, trials, coefficient, offset, case weights and
convex quadratic the constructor accepts, `smooth_objective` returns the weighted binomial negative log-likelihood at `X(β - offset)`
and its gradient.  Missing: larger predictors (`C72_gradient_fails`), and `saturated_offset`, which is ignored
(`C108_saturated_offset_fails`). -/
theorem C108_binary_partial (h : BinGlm.build l X s trials c so o w = some G) (quad : Option (Quad (Fin p) ℝ))
    (hq : 0 ≤ quadCoef quad) :
    IsRegressionOn (G.toLoss quad) X (effOffset o) (fun _ => 0) (fun i => w.elim 1 fun w => w i) c (binaryCases l s trials)
      (clipBound l) := by
  obtain ⟨hc, hw, hs, q, rfl⟩ := bin_built h
  refine ⟨hc, hw, cases_of (binD_deriv l s trials) fun i x y => nll_tangent l (hs i).1 (hs i).2 x y, quad_coef hq, fun β hβ => ?_⟩
  set W : Fin n → ℝ := fun i => w.elim 1 fun w => w i with hW
  set m : Fin n → ℝ := fun i => trials.elim 1 fun m => m i with hm
  set L : BinLoss n := ⟨l, s, m, c, so, q, none⟩ with hL
  set η : Fin n → ℝ := fun i => ∑ j, X i j * Smooth.applyOffset o β j with hη
  have eη : ∀ i, η i = linPred X (effOffset o) (fun _ => 0) β i := by
    intro i
    simp only [hη, linPred, sub_zero]
    refine Finset.sum_congr rfl fun j _ => ?_
    cases o <;> simp [Smooth.applyOffset, effOffset]
  have ew : effWeight (none : Option (Fin n → ℝ)) (some W) = W := by funext i; simp [effWeight]
  obtain ⟨h1, h2, h3⟩ := C72_clipped L (some W) η
  dsimp only at h1 h2 h3
  have ef : L.coef * ∑ i, effWeight L.caseWeights (some W) i *
        -(L.successes i * Real.log (invLink L.link (successAt L.link (η i))) +
          (L.trials i - L.successes i) * Real.log (1 - invLink L.link (failureAt L.link (η i)))) =
      regressionVal X (effOffset o) (fun _ => 0) W c (binaryCases l s trials) β := by
    show c * ∑ i, effWeight none (some W) i * -(s i * Real.log (invLink l (successAt l (η i))) +
      (m i - s i) * Real.log (1 - invLink l (failureAt l (η i)))) = c * ∑ i, W i * _
    rw [ew]
    congr 1
    refine Finset.sum_congr rfl fun i _ => ?_
    rw [eη i, (inside l (hβ i)).1, (inside l (hβ i)).2]
    rfl
  have eg : ∀ i, L.coef * (effWeight L.caseWeights (some W) i * -(deriv (invLink L.link) (η i) *
        (L.successes i / invLink L.link (successAt L.link (η i)) -
          (L.trials i - L.successes i) / (1 - invLink L.link (failureAt L.link (η i)))))) =
      c * (W i * binD l s trials i (predictor X (effOffset o) (fun _ => 0) β i)) := by
    intro i
    show c * (effWeight none (some W) i * -(deriv (invLink l) (η i) * (s i / invLink l (successAt l (η i)) -
      (m i - s i) / (1 - invLink l (failureAt l (η i)))))) = _
    rw [ew, (inv_hasDeriv l (η i)).deriv, eη i, (inside l (hβ i)).1, (inside l (hβ i)).2]
    rfl
  have hgr := glm_gradient (X := X) (o := effOffset o) (so := fun _ => 0) (w := W) (c := c) (binD_deriv l s trials) β
  refine ⟨?_, _, ?_, ?_, hgr⟩
  · refine (bin_obj ⟨X, o, W, L⟩ β .func).trans ?_
    show (match (L.smoothObjective η .func (some W)).1 with
      | .val f => (.val f : Eval p)
      | .grad g => .grad fun j => ∑ i, X i j * g i
      | .both f g => .both f fun j => ∑ i, X i j * g i
      | e => .valueError) = _
    rw [h1, ef]
  · refine (bin_obj ⟨X, o, W, L⟩ β .grad).trans ?_
    show (match (L.smoothObjective η .grad (some W)).1 with
      | .val f => (.val f : Eval p)
      | .grad g => .grad fun j => ∑ i, X i j * g i
      | .both f g => .both f fun j => ∑ i, X i j * g i
      | e => .valueError) = _
    rw [h2]
    simp only [eg]
    rfl
  · refine (bin_obj ⟨X, o, W, L⟩ β .both).trans ?_
    show (match (L.smoothObjective η .both (some W)).1 with
      | .val f => (.val f : Eval p)
      | .grad g => .grad fun j => ∑ i, X i j * g i
      | .both f g => .both f fun j => ∑ i, X i j * g i
      | e => .valueError) = _
    rw [h3, ef]
    simp only [eg]
    rfl

/-- **C108** `linear_predictor(β)` is `X β`: the linear predictor the loss is evaluated at plus `X offset`, so the two agree for all
`β` exactly when `X offset = 0`. -/
theorem C108_linear_predictor (h : BinGlm.build l X s trials c so o w = some G) :
    (∀ β i, G.linearPredictor β i = linPred X (effOffset o) (fun _ => 0) β i + ∑ j, X i j * effOffset o j) ∧
    ((∀ β i, G.linearPredictor β i = linPred X (effOffset o) (fun _ => 0) β i) ↔ ∀ i, ∑ j, X i j * effOffset o j = 0) := by
  obtain ⟨-, -, -, q, rfl⟩ := bin_built h
  have h1 : ∀ (β : Fin p → ℝ) i, ∑ j, X i j * β j = linPred X (effOffset o) (fun _ => 0) β i + ∑ j, X i j * effOffset o j := by
    intro β i
    unfold linPred
    rw [sub_zero, ← Finset.sum_add_distrib]
    exact Finset.sum_congr rfl fun j _ => by ring
  refine ⟨h1, fun h2 i => ?_, fun h2 β i => ?_⟩
  · have e1 : ∑ j, X i j * (0:ℝ) = linPred X (effOffset o) (fun _ => 0) (fun _ => 0) i := h2 (fun _ => 0) i
    have e2 := h1 (fun _ => 0) i
    linarith
  · show ∑ j, X i j * β j = _
    rw [h1 β i, h2 i, add_zero]

/-- **C108** Penalised or constrained probit and complementary log-log regression: there is a constant `M`, depending only on the
data, such that with every atom that keeps the linear predictors within a third of the clipping bound, `solve` answers from every
allowed start and misses the smallest value of the textbook objective by at most the rate for `M`. (Partial: as
`C108_binary_partial`.) -/
theorem C108_binary_solves_partial (h : BinGlm.build l X s trials c so o w = some G) (quad : Option (Quad (Fin p) ℝ))
    (hq : 0 ≤ quadCoef quad) :
    ∃ M, 0 < M ∧ ∀ (A : NonsmoothAtom p) (pen : (Fin p → ℝ) → WithTop ℝ), IsAtomFor A pen →
      (∀ β, pen β ≠ ⊤ → ∀ i, |∑ j, X i j * (β j - effOffset o j)| ≤ clipBound l / 3) →
      SolvesWithRate (G.toLoss quad)
        (fun β => c * ∑ i, (w.elim 1 fun w => w i) * binaryCases l s trials i (∑ j, X i j * (β j - effOffset o j))) M A pen := by
  obtain ⟨κ, hκ0, hκ⟩ := C108_curvature l s trials (clipBound l)
  have hR := C108_binary_partial h quad hq
  refine ⟨max (c * κ * ∑ i, (w.elim 1 fun w => w i) * ∑ j, X i j ^ 2) 1, lt_max_of_lt_right one_pos, fun A pen hA hbox => ?_⟩
  have := solves_of hR (by cases l <;> norm_num [clipBound]) hκ0 hκ (lt_max_of_lt_right one_pos) (le_max_left _ 1) hA
    (fun β hβ i => by simpa [linPred] using hbox β hβ i)
  have e : regressionVal X (effOffset o) (fun _ => 0) (fun i => w.elim 1 fun w => w i) c (binaryCases l s trials) =
      fun β => c * ∑ i, (w.elim 1 fun w => w i) * binaryCases l s trials i (∑ j, X i j * (β j - effOffset o j)) := by
    funext β
    simp only [regressionVal, linPred, sub_zero]
  rw [e] at this
  exact this

end

/-- **C108** `saturated_offset` is accepted and ignored: two regressions that differ only in it answer every call alike, so with one
success at linear predictor 0 and saturated offset 1 the value is not the one at linear predictor `0 - 1`. -/
theorem C108_saturated_offset_fails (l : BinLink) :
    (∀ (X : Fin n → Fin p → ℝ) (s : Fin n → ℝ) (trials : Option (Fin n → ℝ)) (c : ℝ) (so so' : Option (Fin n → ℝ))
      (o : Option (Fin p → ℝ)) (w : Option (Fin n → ℝ)) (G G' : BinGlm p n),
      BinGlm.build l X s trials c so o w = some G → BinGlm.build l X s trials c so' o w = some G' →
      ∀ β m, (G.smoothObjective β m).1 = (G'.smoothObjective β m).1) ∧
    ∃ (G : BinGlm 1 1) (v : ℝ), BinGlm.build l (fun _ _ => 1) (fun _ => 1) none 1 (some fun _ => 1) none none = some G ∧
      (G.smoothObjective (fun _ => 0) .func).1 = .val v ∧
      v ≠ regressionVal (n := 1) (p := 1) (fun _ _ => 1) (fun _ => 0) (fun _ => 1) (fun _ => 1) 1 (binaryCases l (fun _ => 1) none) (fun _ => 0) := by
  refine ⟨fun X s trials c so so' o w G G' h h' β m => ?_, ?_⟩
  · obtain ⟨-, -, -, q, rfl⟩ := bin_built h
    obtain ⟨-, -, -, q', rfl⟩ := bin_built h'
    cases m <;> rfl
  · obtain ⟨G, hG⟩ := (C108_constructor l (fun (_ : Fin 1) (_ : Fin 1) => (1:ℝ)) (fun _ => 1) none 1 (some fun _ => 1) none none).2
      ⟨zero_le_one, fun v hv => (by cases hv), fun _ _ => Or.inr rfl, fun m hm => (by cases hm)⟩
    have h1 := ((C108_binary_partial hG none le_rfl).eval (fun _ => 0) (by
      intro i
      have : (0:ℝ) ≤ clipBound l := by cases l <;> norm_num [clipBound]
      simpa [linPred, effOffset] using this)).1
    refine ⟨G, _, hG, h1, ?_⟩
    simp only [regressionVal, linPred, binaryCases, binomialNll, effOffset]
    have hlt : invLink l (-1) < invLink l 0 := by
      cases l
      · exact ncdf_strictMono (by norm_num)
      · exact cloglogInv_strictMono (by norm_num)
    have := Real.log_lt_log (inv_bounds l (-1)).1 hlt
    simp
    intro hcon
    linarith

/-! ### logistic regression -/

private lemma logistic_deriv (s t : Fin n → ℝ) (i : Fin n) (u : ℝ) :
    HasDerivAt (caseLoss (.logistic s t) i) (t i * (Real.exp u / (1 + Real.exp u)) - s i) u := by
  show HasDerivAt (fun u => t i * Real.log (1 + Real.exp u) - s i * u) (t i * (Real.exp u / (1 + Real.exp u)) - s i) u
  have h1 := (hasDerivAt_log1exp u).const_mul (t i)
  have h2 := (hasDerivAt_id u).const_mul (s i)
  exact (h1.sub h2).congr_deriv (by simp)

private lemma built_trials {X : Fin n → Fin (p + 1) → ℝ} {s t : Fin n → ℝ} {coef : ℝ} {so : Option (Fin n → ℝ)}
    {o : Option (Fin (p + 1) → ℝ)} {w : Option (Fin n → ℝ)} {G : Glm (p + 1) n}
    (h : Glm.build X (.logistic s t) coef so o w = some G) (i : Fin n) : 0 ≤ t i := by
  unfold Glm.build at h
  cases hL : Loss.init (.logistic s t) coef so (Quad.init none none none none) none with
  | none => rw [hL] at h; simp at h
  | some l =>
    obtain ⟨-, hd, -⟩ := loss_of_init hL
    by_contra hi
    apply hd
    rcases le_or_gt 0 (t i - s i) with h1 | h1
    · exact Or.inr ⟨i, by linarith⟩
    · exact Or.inl ⟨i, h1⟩

section
variable {X : Fin n → Fin (p + 1) → ℝ} {coef : ℝ} {so : Option (Fin n → ℝ)} {o : Option (Fin (p + 1) → ℝ)}
  {w : Option (Fin n → ℝ)} {G : Glm (p + 1) n}

/-- **C108** Logistic regression is the textbook regression where the linear predictors are at most 100 in absolute value.  Missing:
larger predictors (`C29_logistic_fails`). -/
theorem C108_logistic_partial (s t : Fin n → ℝ) (h : Glm.build X (.logistic s t) coef so o w = some G)
    (quad : Option (Quad (Fin (p + 1)) ℝ)) (hq : 0 ≤ quadCoef quad) :
    IsRegressionOn (G.toLoss quad) X (effOffset o) (effOffset so) (fun i => w.elim 1 fun w => w i) coef
      (fun i => logisticNll (s i) (t i)) 100 := by
  obtain ⟨hc, hw, -⟩ := built_eq h
  have ht := built_trials h
  refine ⟨hc, hw, cases_of (logistic_deriv s t) fun i x y => ?_, quad_coef hq, fun β hβ => ?_⟩
  · show t i * Real.log (1 + Real.exp x) - s i * x + (t i * (Real.exp x / (1 + Real.exp x)) - s i) * (y - x) ≤
      t i * Real.log (1 + Real.exp y) - s i * y
    have := mul_le_mul_of_nonneg_left (log1exp_tangent x y) (ht i)
    nlinarith
  · obtain ⟨h1, h2, h3⟩ := glm_both h quad β
    have hle : ∀ i, predictor X (effOffset o) (effOffset so) β i ≤ 100 := fun i => (abs_le.1 (hβ i)).2
    have ef : glmVal X (effOffset o) (effOffset so) (fun i => w.elim 1 fun w => w i) coef (phi (.logistic s t)) β =
        regressionVal X (effOffset o) (effOffset so) (fun i => w.elim 1 fun w => w i) coef (fun i => logisticNll (s i) (t i)) β := by
      unfold glmVal regressionVal
      congr 1
      refine Finset.sum_congr rfl fun i _ => ?_
      simp only [phi, Loss.logExp, if_pos (hle i)]
      rfl
    have eg : glmGrad X (effOffset o) (effOffset so) (fun i => w.elim 1 fun w => w i) coef (psi (.logistic s t)) β =
        glmGrad X (effOffset o) (effOffset so) (fun i => w.elim 1 fun w => w i) coef
          (fun i u => t i * (Real.exp u / (1 + Real.exp u)) - s i) β := by
      funext j
      unfold glmGrad
      refine Finset.sum_congr rfl fun i _ => ?_
      simp only [psi, Loss.ratio1, if_pos (hle i)]
    rw [ef] at h1 h3
    rw [eg] at h2 h3
    exact ⟨h1, _, h2, h3, glm_gradient (logistic_deriv s t) β⟩

/-- **C108** The curvature of logistic regression with at most `m` trials per case is at most `m / 4`. -/
theorem C108_logistic_curvature (s t : Fin n → ℝ) (m : ℝ) (ht : ∀ i, |t i| ≤ m) (B : ℝ) :
    CurvatureOn (fun i => logisticNll (s i) (t i)) B (m / 4) := by
  refine curv_of (logistic_deriv s t) fun i x y hx hy => ?_
  refine lip_of_bound (ψ := fun u => t i * (Real.exp u / (1 + Real.exp u)) - s i) (d := fun u => t i * (Real.exp u / (1 + Real.exp u) ^ 2)) (fun u => ?_) (fun u _ => ?_) x y hx hy
  · have h0 : 1 + Real.exp u ≠ 0 := by positivity
    have h1 := (Real.hasDerivAt_exp u).div ((Real.hasDerivAt_exp u).const_add 1) h0
    refine ((h1.const_mul (t i)).sub_const (s i)).congr_deriv ?_
    congr 2
    ring
  · have h0 : 0 < Real.exp u := Real.exp_pos u
    have h1 : Real.exp u / (1 + Real.exp u) ^ 2 ≤ 1 / 4 := by
      rw [div_le_div_iff₀ (by positivity) (by norm_num)]
      nlinarith [sq_nonneg (1 - Real.exp u)]
    have h2 : 0 ≤ Real.exp u / (1 + Real.exp u) ^ 2 := by positivity
    rw [abs_mul, abs_of_nonneg h2]
    calc |t i| * (Real.exp u / (1 + Real.exp u) ^ 2) ≤ m * (1 / 4) :=
          mul_le_mul (ht i) h1 h2 ((abs_nonneg _).trans (ht i))
      _ = m / 4 := by ring

/-- **C108** Logistic regression with an atom that keeps the linear predictors within `100 / 3`: `solve` answers from every allowed
start and misses the smallest value of the textbook objective by at most the rate for `M = coef m/4 ∑ᵢ wᵢ ‖xᵢ‖²`, `m` the largest
number of trials.  (Partial: as `C108_logistic_partial`.) -/
theorem C108_logistic_solves_partial (s t : Fin n → ℝ) (h : Glm.build X (.logistic s t) coef so o w = some G)
    (quad : Option (Quad (Fin (p + 1)) ℝ)) (hq : 0 ≤ quadCoef quad) (m : ℝ) (hm : 0 ≤ m) (ht : ∀ i, t i ≤ m) (M : ℝ) (hM0 : 0 < M)
    (hM : coef * (m / 4) * ∑ i, (w.elim 1 fun w => w i) * ∑ j, X i j ^ 2 ≤ M) (A : NonsmoothAtom (p + 1))
    (pen : (Fin (p + 1) → ℝ) → WithTop ℝ) (hA : IsAtomFor A pen)
    (hbox : ∀ β, pen β ≠ ⊤ → ∀ i, |∑ j, X i j * (β j - effOffset o j) - effOffset so i| ≤ 100 / 3) :
    SolvesWithRate (G.toLoss quad) (regressionLoss X (.logistic s t) coef so o w) M A pen :=
  solves_of (C108_logistic_partial s t h quad hq) (by norm_num) (by linarith)
    (C108_logistic_curvature s t m (fun i => by rw [abs_of_nonneg (built_trials h i)]; exact ht i) 100) hM0 hM hA hbox

/-! ### Poisson regression -/

/-- **C108** Poisson regression is the textbook regression for every bound, with curvature `exp B` on `[-B, B]`. -/
theorem C108_poisson (y : Fin n → ℝ) (h : Glm.build X (.poisson y) coef so o w = some G) (quad : Option (Quad (Fin (p + 1)) ℝ))
    (hq : 0 ≤ quadCoef quad) (B : ℝ) :
    IsRegressionOn (G.toLoss quad) X (effOffset o) (effOffset so) (fun i => w.elim 1 fun w => w i) coef
      (fun i => poissonNll (y i)) B ∧ CurvatureOn (fun i => poissonNll (y i)) B (Real.exp B) := by
  obtain ⟨hc, hw, -⟩ := built_eq h
  have hd : ∀ i t, HasDerivAt (poissonNll (y i)) (Real.exp t - y i) t := fun i t => hasDerivAt_poisson (y i) t
  refine ⟨⟨hc, hw, cases_of hd fun i x z => tangent_of (d := .poisson y) trivial i x z, quad_coef hq, fun β hβ => ?_⟩,
    curv_of hd fun i x z hx hz => ?_⟩
  · obtain ⟨h1, h2, h3⟩ := glm_both h quad β
    exact ⟨h1, _, h2, h3, glm_gradient (deriv_of (d := .poisson y) trivial) β⟩
  · refine lip_of_bound (ψ := fun u => Real.exp u - y i) (d := Real.exp) (fun u => (Real.hasDerivAt_exp u).sub_const _) (fun u hu => ?_) x z hx hz
    rw [abs_of_pos (Real.exp_pos u)]
    exact Real.exp_le_exp.2 (abs_le.1 hu).2

/-- **C108** Poisson regression with an atom that keeps the linear predictors within `B / 3`, for any `B`: `solve` answers from every
allowed start and misses the smallest value of the textbook objective by at most the rate for `M = coef exp(B) ∑ᵢ wᵢ ‖xᵢ‖²`. -/
theorem C108_poisson_solves (y : Fin n → ℝ) (h : Glm.build X (.poisson y) coef so o w = some G)
    (quad : Option (Quad (Fin (p + 1)) ℝ)) (hq : 0 ≤ quadCoef quad) (B : ℝ) (hB : 0 ≤ B) (M : ℝ) (hM0 : 0 < M)
    (hM : coef * Real.exp B * ∑ i, (w.elim 1 fun w => w i) * ∑ j, X i j ^ 2 ≤ M) (A : NonsmoothAtom (p + 1))
    (pen : (Fin (p + 1) → ℝ) → WithTop ℝ) (hA : IsAtomFor A pen)
    (hbox : ∀ β, pen β ≠ ⊤ → ∀ i, |∑ j, X i j * (β j - effOffset o j) - effOffset so i| ≤ B / 3) :
    SolvesWithRate (G.toLoss quad) (regressionLoss X (.poisson y) coef so o w) M A pen :=
  solves_of (C108_poisson y h quad hq B).1 hB (Real.exp_pos B).le (C108_poisson y h quad hq B).2 hM0 hM hA hbox

end

/-! ### the hypotheses are met -/

/-- `l1norm(1, bound=1)` -/
noncomputable def unitInterval : AtomObj (Fin 1) ℝ := ⟨.l1norm, ⟨none, some 1⟩, none, Quad.init none none none none⟩

private lemma unit_pen {β : Fin 1 → ℝ} (h : atomBase unitInterval.klass true 1 (fun i => β i - offAt unitInterval.offset i) +
    ((quadVal (some unitInterval.quad) β : ℝ) : WithTop ℝ) ≠ ⊤) : |β 0| ≤ 1 := by
  have h1 := (WithTop.add_ne_top.1 h).1
  by_contra hc
  apply h1
  unfold atomBase
  rw [if_pos rfl]
  refine if_neg fun hm => hc ?_
  have : ∑ i : Fin 1, |β i - offAt unitInterval.offset i| ≤ 1 := hm
  simpa [unitInterval, offAt] using this

/-- one success of a probit regression, coefficients in `[-1, 1]`: the solver has the rate -/
example : ∃ (G : BinGlm 1 1) (M : ℝ), BinGlm.build .probit (fun _ _ => 1) (fun _ => 1) none 1 none none none = some G ∧ 0 < M ∧
    SolvesWithRate (G.toLoss none) (fun β => 1 * ∑ i : Fin 1, 1 * binaryCases .probit (fun _ => 1) none i (∑ j : Fin 1, 1 * (β j - 0)))
      M unitInterval.toAtom fun x => atomBase unitInterval.klass true 1 (fun i => x i - offAt unitInterval.offset i) +
        ((quadVal (some unitInterval.quad) x : ℝ) : WithTop ℝ) := by
  obtain ⟨G, hG⟩ := (C108_constructor .probit (fun (_ : Fin 1) (_ : Fin 1) => (1:ℝ)) (fun _ => 1) none 1 none none none).2
    ⟨zero_le_one, fun v hv => (by cases hv), fun _ _ => Or.inr rfl, fun m hm => (by cases hm)⟩
  obtain ⟨M, hM, h⟩ := C108_binary_solves_partial hG none le_rfl
  refine ⟨G, M, hG, hM, h _ _ (C90_seminorms unitInterval true 1 ⟨zero_le_one, rfl⟩ le_rfl) fun β hβ i => ?_⟩
  have := unit_pen hβ
  have e : ∑ j : Fin 1, (1:ℝ) * (β j - effOffset (none : Option (Fin 1 → ℝ)) j) = β 0 := by simp [effOffset]
  rw [e]
  exact this.trans (by norm_num [clipBound])

end Verif.Props
