import Verif.Model.BinaryRegression
import Verif.Lemmas.FistaRegion
import Verif.Lemmas.ScalarExtension
import Verif.Props.C72_BinaryLinks
import Verif.Props.C100_Losses

/-!
# C108: regressions whose loss is what it should be only for bounded linear predictors

Probit and complementary log-log regression clip their probabilities outside `[-20, 20]` and `[-5, 5]`, logistic regression clips
above 100, and the gradient of Poisson regression is not Lipschitz.  If the atom keeps the linear predictors within a third of the
bound, a run of the solver never leaves the region where the loss is the textbook one.
-/

set_option linter.unusedSectionVars false
set_option linter.unusedVariables false

namespace Verif.Props
open Verif.Spec Verif.Model Verif.Model.Fista Verif.Lemmas

variable {n p : ℕ}

/-! ### specification -/

/-- the linear predictors `xᵢ·(β - offset) - saturated_offsetᵢ` -/
def linPred (X : Fin n → Fin p → ℝ) (o : Fin p → ℝ) (so : Fin n → ℝ) (β : Fin p → ℝ) (i : Fin n) : ℝ :=
  ∑ j, X i j * (β j - o j) - so i

/-- the textbook loss `c ∑ᵢ wᵢ ℓᵢ(predictorᵢ)` -/
noncomputable def regressionVal (X : Fin n → Fin p → ℝ) (o : Fin p → ℝ) (so w : Fin n → ℝ) (c : ℝ) (ell : Fin n → ℝ → ℝ)
    (β : Fin p → ℝ) : ℝ := c * ∑ i, w i * ell i (linPred X o so β i)

/-- the losses of the cases are differentiable and convex -/
def ConvexCases (ell : Fin n → ℝ → ℝ) : Prop :=
  ∀ i, Differentiable ℝ (ell i) ∧ Monotone (deriv (ell i))

/-- on `[-B, B]` the derivative of every case is `κ`-Lipschitz -/
def CurvatureOn (ell : Fin n → ℝ → ℝ) (B κ : ℝ) : Prop :=
  ∀ i x y, |x| ≤ B → |y| ≤ B → |deriv (ell i) x - deriv (ell i) y| ≤ κ * |x - y|

/-- where all linear predictors are at most `B` in absolute value, the loss returns the textbook value and its gradient -/
structure IsRegressionOn (S : QuadLoss p) (X : Fin n → Fin p → ℝ) (o : Fin p → ℝ) (so w : Fin n → ℝ) (c : ℝ)
    (ell : Fin n → ℝ → ℝ) (B : ℝ) : Prop where
  coef : 0 ≤ c
  weights : ∀ i, 0 ≤ w i
  convex : ConvexCases ell
  quad_coef : 0 ≤ S.quad.coef
  eval : ∀ β, (∀ i, |linPred X o so β i| ≤ B) → S.obj β .func = .val (regressionVal X o so w c ell β) ∧
    ∃ g, S.obj β .grad = .grad g ∧ S.obj β .both = .both (regressionVal X o so w c ell β) g ∧
      IsGradientAt (regressionVal X o so w c ell) g β

/-! ### helpers -/

private lemma grad_uniq {f : (Fin p → ℝ) → ℝ} {g g' x : Fin p → ℝ} (h : IsGradientAt f g x) (h' : IsGradientAt f g' x) : g = g' := by
  have := HasFDerivAt.unique h h'
  funext j
  have e := congrArg (fun L : (Fin p → ℝ) →L[ℝ] ℝ => L (Pi.single j 1)) this
  simpa [Pi.single_apply] using e

/-- the loss that returns `f` and `g` everywhere -/
private noncomputable def exact (f : (Fin p → ℝ) → ℝ) (g : (Fin p → ℝ) → Fin p → ℝ) (q : Quad (Fin p) ℝ) : QuadLoss p :=
  ⟨fun x mode => match mode with
    | .func => .val (f x)
    | .grad => .grad (g x)
    | .both => .both (f x) (g x)
    | .other => .valueError, q⟩

section
variable {S : QuadLoss p} {X : Fin n → Fin p → ℝ} {o : Fin p → ℝ} {so w : Fin n → ℝ} {c : ℝ} {ell : Fin n → ℝ → ℝ} {B κ : ℝ}
  {A : NonsmoothAtom p} {pen : (Fin p → ℝ) → WithTop ℝ}

private lemma exact_loss {φ ψ : Fin n → ℝ → ℝ} (hc : 0 ≤ c) (hw : ∀ i, 0 ≤ w i) (hd : ∀ i t, HasDerivAt (φ i) (ψ i t) t)
    (hm : ∀ i, Monotone (ψ i)) {q : Quad (Fin p) ℝ} (hq : 0 ≤ q.coef) :
    IsLossFor (exact (glmVal X o so w c φ) (glmGrad X o so w c ψ) q) (glmVal X o so w c φ) (glmGrad X o so w c ψ) :=
  ⟨fun x => ⟨rfl, rfl, rfl⟩, ⟨convex_of_tangents fun x z => glm_tangent (κ := 0) hc hw (fun i x y => tangent_of_mono (hd i) (hm i) x y) x z,
    fun x => glm_gradient hd x⟩, hq⟩

private lemma deriv_cases (h : ConvexCases ell) (i : Fin n) (t : ℝ) : HasDerivAt (ell i) (deriv (ell i) t) t :=
  ((h i).1 t).hasDerivAt

private lemma reg_grad (h : IsRegressionOn S X o so w c ell B) {β : Fin p → ℝ} (hβ : ∀ i, |linPred X o so β i| ≤ B) :
    S.obj β .grad = .grad (glmGrad X o so w c (fun i => deriv (ell i)) β) := by
  obtain ⟨-, g, h1, -, h3⟩ := h.eval β hβ
  rw [h1]
  congr 1
  exact grad_uniq h3 (glm_gradient (deriv_cases h.convex) β)

/-- **C108** Optimality certificate inside the region: if all linear predictors of `β` are at most `B` in absolute value, then for
every atom and every `L > 0` the proximal gradient step of `simple_problem(loss, atom)` exists, and `β` minimises the textbook
penalised objective over all coefficients exactly when the step leaves it where it is. -/
theorem C108_certificate (h : IsRegressionOn S X o so w c ell B) (hA : IsAtomFor A pen) (x0 β : Fin p → ℝ)
    (hβ : ∀ i, |linPred X o so β i| ≤ B) (L : ℝ) (hL : 0 < L) :
    ∃ z, (SimpleProblem.ofLoss S A x0).proximal (Quad.init (some L) (some (.arr β))
        (some (.arr ((SimpleProblem.ofLoss S A x0).grad β))) (some 0)) = some z ∧
      (IsMinTop (penalised (regressionVal X o so w c ell) S.quad pen) β ↔ z = β) := by
  have hE := exact_loss (X := X) (o := o) (so := so) h.coef h.weights (deriv_cases h.convex) (fun i => (h.convex i).2) h.quad_coef
  obtain ⟨z, hz, hiff⟩ := C100_certificate _ _ _ A pen hE hA x0 β L hL
  refine ⟨z, ?_, hiff⟩
  have hg : (SimpleProblem.ofLoss S A x0).grad β = (SimpleProblem.ofLoss (exact (glmVal X o so w c ell)
      (glmGrad X o so w c fun i => deriv (ell i)) S.quad) A x0).grad β := by
    unfold SimpleProblem.ofLoss
    dsimp only
    rw [reg_grad h hβ]
    rfl
  rw [hg]
  exact hz

/-- the ideal problem whose run is the run of the problem -/
private lemma ideal (h : IsRegressionOn S X o so w c ell B) (hB : 0 ≤ B) (hκ : CurvatureOn ell B κ) (hA : IsAtomFor A pen)
    (hbox : ∀ β, pen β ≠ ⊤ → ∀ i, |linPred X o so β i| ≤ B / 3) (x0 : Fin p → ℝ) (hx : pen x0 ≠ ⊤) :
    ∃ f g, IsLossFor (exact f g S.quad) f g ∧ SmoothWith f g (c * max κ 0 * ∑ i, w i * ∑ j, X i j ^ 2) ∧
      (∀ β, penalised f S.quad pen β = penalised (regressionVal X o so w c ell) S.quad pen β) ∧
      ∀ (a : FitArgs), a.performBacktrack = true → 0 < a.alpha → 0 < a.startStep → ∀ lip fuel,
        ((SimpleProblem.ofLoss S A x0).solve none a lip fuel).1 =
          ((SimpleProblem.ofLoss (exact f g S.quad) A x0).solve none a lip fuel).1 := by
  have hext := fun i => scalar_extension hB (deriv_cases h.convex i) (h.convex i).2 (hκ i)
  choose φ ψ hd hm hup heq using hext
  have hL := exact_loss (X := X) (o := o) (so := so) h.coef h.weights hd hm h.quad_coef
  set f := glmVal X o so w c φ with hf
  set g := glmGrad X o so w c ψ with hg
  have hfe : ∀ β, (∀ i, |linPred X o so β i| ≤ B) → f β = regressionVal X o so w c ell β := by
    intro β hβ
    show c * ∑ i, w i * φ i (linPred X o so β i) = c * ∑ i, w i * ell i (linPred X o so β i)
    rw [Finset.sum_congr rfl fun i _ => by rw [(heq i _ (hβ i)).1]]
  have hge : ∀ β, (∀ i, |linPred X o so β i| ≤ B) → g β = glmGrad X o so w c (fun i => deriv (ell i)) β := by
    intro β hβ
    funext j
    show ∑ i, X i j * (c * (w i * ψ i (linPred X o so β i))) = ∑ i, X i j * (c * (w i * deriv (ell i) (linPred X o so β i)))
    exact Finset.sum_congr rfl fun i _ => by rw [(heq i _ (hβ i)).2]
  have hin : ∀ β, pen β ≠ ⊤ → ∀ i, |linPred X o so β i| ≤ B := fun β hβ i => (hbox β hβ i).trans (by linarith)
  refine ⟨f, g, hL, ?_, fun β => ?_, fun a hb ha hst lip fuel => ?_⟩
  · refine smooth_of_bounds (fun x z => tangent hL.convex x z) fun x z => ?_
    exact glm_upper h.coef h.weights (le_max_right κ 0) hup le_rfl x z
  · unfold penalised
    by_cases hp : pen β = ⊤
    · rw [hp, WithTop.top_add, WithTop.top_add]
    · rw [hfe β (hin β hp)]
  · symm
    refine (solve_on (D := {β | pen β ≠ ⊤}) (E := {β | ∀ i, |linPred X o so β i| ≤ B})
      (SimpleProblem.ofLoss S A x0) (SimpleProblem.ofLoss (exact f g S.quad) A x0) none a hb ha hst lip fuel rfl hx
      ⟨fun x hx => ?_, fun x hx => ?_, rfl, rfl, fun L v z hL' hv hz => ?_, hin, fun x hx y hy t ht0 ht1 i => ?_⟩).1
    · have h1 := (h.eval x hx).1
      show ObjVal.num (f x) = (match S.obj x .func with
        | .val f => ObjVal.num f
        | _ => .nan)
      rw [h1, hfe x hx]
    · have h1 := reg_grad h hx
      show g x = (match S.obj x .grad with
        | .grad g => g
        | _ => fun _ => 0)
      rw [h1]; exact hge x hx
    · have hz' : (match A.proximal (((stepQuad L v ((SimpleProblem.ofLoss S A x0).grad v)).add (some S.quad)).add
          (some ((Quad.init none none none none : Quad (Fin p) ℝ).add none))) with
        | .ok z => some z
        | _ => none) = some z := hz
      have hz2 : A.proximal (((stepQuad L v ((SimpleProblem.ofLoss S A x0).grad v)).add (some S.quad)).add
          (some ((Quad.init none none none none : Quad (Fin p) ℝ).add none))) = .ok z := by
        revert hz'
        cases A.proximal _ with
        | ok u => intro h; injection h with h; rw [h]
        | valueError => exact fun h => nomatch h
        | typeError => exact fun h => nomatch h
        | scalarArgument => exact fun h => nomatch h
        | baseError => exact fun h => nomatch h
      have := hA.solves _ _ (by
        have := h.quad_coef
        show 0 < L + S.quad.coef + 0
        linarith) hz2
      exact (WithTop.add_ne_top.1 this.1).2
    · have e : linPred X o so (x + t • (x - y)) i = linPred X o so x i + t * (linPred X o so x i - linPred X o so y i) := by
        unfold linPred
        have : ∀ j, X i j * ((x + t • (x - y)) j - o j) = X i j * (x j - o j) + t * (X i j * (x j - o j) - X i j * (y j - o j)) := by
          intro j
          simp only [Pi.add_apply, Pi.smul_apply, Pi.sub_apply, smul_eq_mul]
          ring
        rw [Finset.sum_congr rfl fun j _ => this j, Finset.sum_add_distrib, ← Finset.mul_sum, Finset.sum_sub_distrib]
        ring
      have h1 := abs_le.1 (hbox x hx i)
      have h2 := abs_le.1 (hbox y hy i)
      rw [e, abs_le]
      constructor <;> nlinarith

/-- **C108** `solve` answers on a bounded region: if the loss is the textbook one where all linear predictors are at most `B` in
absolute value, and every coefficient vector the atom allows has predictors of at most `B / 3`, then from every allowed start and
for every setting of the solver with backtracking on, a positive first step and `alpha > 1`, `solve` returns allowed coefficients
together with their textbook objective. -/
theorem C108_returns (h : IsRegressionOn S X o so w c ell B) (hB : 0 ≤ B) (hκ : CurvatureOn ell B κ) (hA : IsAtomFor A pen)
    (hbox : ∀ β, pen β ≠ ⊤ → ∀ i, |linPred X o so β i| ≤ B / 3) (x0 : Fin p → ℝ) (hx : pen x0 ≠ ⊤)
    (a : FitArgs) (hb : a.performBacktrack = true) (ha : 1 < a.alpha) (hst : 0 < a.startStep) (lip : ℝ) :
    ∃ N, ∀ fuel, N < fuel → ∃ β v hist, ((SimpleProblem.ofLoss S A x0).solve none a lip fuel).1 = .ok β (.num v) hist ∧
      penalised (regressionVal X o so w c ell) S.quad pen β = v := by
  obtain ⟨f, g, h1, h2, h3, h4⟩ := ideal h hB hκ hA hbox x0 hx
  obtain ⟨N, hN⟩ := C100_returns _ f g A pen h1 hA _ h2 x0 a hb ha hst lip
  refine ⟨N, fun fuel hf => ?_⟩
  obtain ⟨β, v, hist, e1, e2⟩ := hN fuel hf
  refine ⟨β, v, hist, ?_, ?_⟩
  · rw [h4 a hb (by linarith) hst lip fuel, e1]
  · rw [← h3 β]; exact e2

/-- **C108** How good the answer is on a bounded region: as in `C108_returns`, with curvature at most `κ` on `[-B, B]`, no restarts
and at most 99 iterations, the coefficients `solve` returns after `k` recorded objective values miss the smallest value of the
textbook objective by at most `2 ‖x0 - u‖² / (t (k+1)²)` for every minimiser `u`, where `t = min(start_step, 1/(2 M alpha))` and
`M = c κ ∑ᵢ wᵢ ‖xᵢ‖²`, for any larger `M` too. -/
theorem C108_rate (h : IsRegressionOn S X o so w c ell B) (hB : 0 ≤ B) (hκ0 : 0 ≤ κ) (hκ : CurvatureOn ell B κ)
    (hA : IsAtomFor A pen) (hbox : ∀ β, pen β ≠ ⊤ → ∀ i, |linPred X o so β i| ≤ B / 3) (x0 : Fin p → ℝ) (hx : pen x0 ≠ ⊤)
    (M : ℝ) (hM0 : 0 < M) (hM : c * κ * ∑ i, w i * ∑ j, X i j ^ 2 ≤ M)
    (a : FitArgs) (hb : a.performBacktrack = true) (ha : 1 ≤ a.alpha) (hst : 0 < a.startStep)
    (hm : a.monotonicityRestart = false) (hr : a.restart = none) (hmax : ∃ m, a.maxIts = some m ∧ m ≠ 0 ∧ m ≤ 99)
    (lip : ℝ) (fuel : ℕ) (β : Fin p → ℝ) (v : ObjVal) (hist : List ObjVal)
    (hsolve : ((SimpleProblem.ofLoss S A x0).solve none a lip fuel).1 = .ok β v hist)
    (u : Fin p → ℝ) (hu : IsMinTop (penalised (regressionVal X o so w c ell) S.quad pen) u) :
    ∃ vc vu : ℝ, v = .num vc ∧ penalised (regressionVal X o so w c ell) S.quad pen β = vc ∧
      penalised (regressionVal X o so w c ell) S.quad pen u = vu ∧ vu ≤ vc ∧
      vc - vu ≤ 2 * sqDist x0 u / (min a.startStep (1 / (2 * M * a.alpha)) * (hist.length + 1) ^ 2) := by
  obtain ⟨f, g, h1, h2, h3, h4⟩ := ideal h hB hκ hA hbox x0 hx
  rw [max_eq_left hκ0] at h2
  have h2' : SmoothWith f g M := by
    have hn : ∀ x z : Fin p → ℝ, 0 ≤ sqDist z x := fun x z => Finset.sum_nonneg fun i _ => sq_nonneg _
    refine ⟨fun x z => (h2.descent x z).trans ?_, fun x z => (h2.monotone x z).trans ?_⟩
    · have := mul_le_mul_of_nonneg_right hM (hn x z)
      linarith
    · exact mul_le_mul_of_nonneg_right hM (hn x z)
  have e : penalised f S.quad pen = penalised (regressionVal X o so w c ell) S.quad pen := funext h3
  rw [h4 a hb (by linarith) hst lip fuel] at hsolve
  have := C100_rate _ f g A pen h1 hA M hM0 h2' x0 a hb ha hst hm hr hmax lip fuel β v hist hsolve u (by
    show IsMinTop (penalised f S.quad pen) u
    rw [e]; exact hu)
  have q : (exact f g S.quad).quad = S.quad := rfl
  rw [q, e] at this
  exact this

end

end Verif.Props
