import Verif.Props.C100_AnyLoss
import Verif.Props.C26_Smooth
import Verif.Props.C28_Gradients
import Verif.Props.C48_Smoothed
import Verif.Props.C51_Cox
import Verif.Props.C79_QuadraticLoss
import Verif.Props.C90_Atoms
import Verif.Model.QuadraticLoss
import Verif.Lemmas.Hoeffding
import Mathlib.Analysis.Calculus.Deriv.MeanValue

/-!
# C100: the losses of the library meet the contract `IsLossFor`

Sums and affine compositions of losses, `quadratic_loss`, `squared_error`, `signal_approximator`, the glms, the Cox regression and
`atom.smoothed`; logistic regression for the optimality certificate.
-/

set_option linter.unusedSectionVars false
set_option linter.unusedVariables false

namespace Verif.Props
open Verif.Spec Verif.Model Verif.Model.Fista Verif.Lemmas

variable {m n p k : ℕ}

/-! ### helpers -/

private lemma ev_unique {ev : Objective n} {f f' : (Fin n → ℝ) → ℝ} {g g' : (Fin n → ℝ) → Fin n → ℝ}
    (h : Evaluates ev f g) (h' : Evaluates ev f' g') : f = f' ∧ g = g' := by
  constructor
  · funext x; have h1 := (h x).1; rw [(h' x).1] at h1; injection h1 with h1; exact h1.symm
  · funext x; have h1 := (h x).2.1; rw [(h' x).2.1] at h1; injection h1 with h1; exact h1.symm

private lemma default_coef : (0 : ℝ) ≤ (Quad.init none none none none : Quad (Fin n) ℝ).coef := le_rfl

private lemma sqDist_nonneg (x y : Fin n → ℝ) : 0 ≤ sqDist x y := Finset.sum_nonneg fun i _ => sq_nonneg _

private lemma upper_mono {f : (Fin n → ℝ) → ℝ} {g x z : Fin n → ℝ} {M M' : ℝ} (h : QuadraticUpperBound f g M x z) (hM : M ≤ M') :
    QuadraticUpperBound f g M' x z := by
  unfold QuadraticUpperBound at *
  have := mul_le_mul_of_nonneg_right hM (sqDist_nonneg z x)
  linarith

/-- the descent lemma for a function with Lipschitz gradient -/
private lemma descent {f : (Fin n → ℝ) → ℝ} {g : (Fin n → ℝ) → Fin n → ℝ} {M : ℝ} (hM : 0 ≤ M)
    (hg : ∀ x, IsGradientAt f (g x) x) (hL : IsLipschitzWith M g) (x z : Fin n → ℝ) : QuadraticUpperBound f (g x) M x z := by
  set d : Fin n → ℝ := fun i => z i - x i with hd
  have hdn : ∑ i, d i ^ 2 = sqDist z x := rfl
  let φ : ℝ → ℝ := fun t => f (fun i => x i + t * d i) - t * dot (g x) d - M / 2 * t ^ 2 * sqDist z x
  have hder : ∀ t, HasDerivAt φ (dot (g fun i => x i + t * d i) d - dot (g x) d - M * t * sqDist z x) t := by
    intro t
    have hline : HasDerivAt (fun t : ℝ => (fun i => x i + t * d i : Fin n → ℝ)) d t := by
      rw [hasDerivAt_pi]
      intro i
      simpa using ((hasDerivAt_id t).mul_const (d i)).const_add (x i)
    have h0 : HasFDerivAt f (∑ i, g (fun i => x i + t * d i) i • (ContinuousLinearMap.proj i : (Fin n → ℝ) →L[ℝ] ℝ))
        ((fun t : ℝ => (fun i => x i + t * d i : Fin n → ℝ)) t) := hg _
    have h1 := h0.comp_hasDerivAt t hline
    have h2 : HasDerivAt (fun t : ℝ => t * dot (g x) d) (dot (g x) d) t := by
      simpa using (hasDerivAt_id t).mul_const (dot (g x) d)
    have h3 : HasDerivAt (fun t : ℝ => M / 2 * t ^ 2 * sqDist z x) (M * t * sqDist z x) t := by
      refine (((hasDerivAt_pow 2 t).const_mul (M / 2)).mul_const (sqDist z x)).congr_deriv ?_
      push_cast; ring
    refine ((h1.sub h2).sub h3).congr_deriv ?_
    congr 2
    simp [dot]
  have hmono : AntitoneOn φ (Set.Icc 0 1) := by
    refine antitoneOn_of_deriv_nonpos (convex_Icc 0 1) (fun t _ => (hder t).continuousAt.continuousWithinAt)
      (fun t _ => (hder t).differentiableAt.differentiableWithinAt) fun t ht => ?_
    rw [interior_Icc] at ht
    rw [(hder t).deriv]
    set y : Fin n → ℝ := fun i => x i + t * d i with hy
    have e : dot (g y) d - dot (g x) d = ∑ i, (g y i - g x i) * d i := by
      unfold dot; rw [← Finset.sum_sub_distrib]; exact Finset.sum_congr rfl fun i _ => by ring
    have hcs : (∑ i, (g y i - g x i) * d i) ^ 2 ≤ sqDist (g y) (g x) * sqDist z x :=
      Finset.sum_mul_sq_le_sq_mul_sq _ _ _
    have hyx : sqDist y x = t ^ 2 * sqDist z x := by
      rw [← hdn, Finset.mul_sum]
      exact Finset.sum_congr rfl fun i _ => by simp only [hy]; ring
    have hb : (∑ i, (g y i - g x i) * d i) ^ 2 ≤ (M * t * sqDist z x) ^ 2 := by
      refine hcs.trans ?_
      have := mul_le_mul_of_nonneg_right (hL y x) (sqDist_nonneg z x)
      rw [hyx] at this
      nlinarith
    have h0 : 0 ≤ M * t * sqDist z x := mul_nonneg (mul_nonneg hM ht.1.le) (sqDist_nonneg z x)
    have := abs_le_of_sq_le_sq hb h0
    rw [e]
    linarith [le_of_abs_le this]
  have h01 := hmono (Set.left_mem_Icc.2 zero_le_one) (Set.right_mem_Icc.2 zero_le_one) zero_le_one
  have e1 : (fun i => x i + 1 * d i) = z := by funext i; simp [hd]
  have e0 : (fun i => x i + 0 * d i) = x := by funext i; simp
  simp only [φ] at h01
  rw [e1, e0] at h01
  unfold QuadraticUpperBound
  linarith

/-! ### sums and affine compositions -/

/-- **C100** A sum of losses is a loss: if every summand stands for a convex function `f a` and the weights are nonnegative, then
`smooth.sum(losses, weights)` stands for `∑ wₐ f a`, and if the gradients of the summands are `M a`-Lipschitz its gradient is
`∑ wₐ M a`-Lipschitz.  The quadratics of the summands are not part of the sum (`C100_sum_quadratic_fails`). -/
theorem C100_sum (w : Fin k → ℝ) (hw : ∀ a, 0 ≤ w a) (S : Fin k → QuadLoss m) (f : Fin k → (Fin m → ℝ) → ℝ)
    (g : Fin k → (Fin m → ℝ) → Fin m → ℝ) (h : ∀ a, IsLossFor (S a) (f a) (g a)) :
    IsLossFor (QuadLoss.sum (List.ofFn w) (List.ofFn S)) (fun x => ∑ a, w a * f a x) (fun x i => ∑ a, w a * g a x i) ∧
    ∀ M : Fin k → ℝ, (∀ a, SmoothWith (f a) (g a) (M a)) →
      SmoothWith (fun x => ∑ a, w a * f a x) (fun x i => ∑ a, w a * g a x i) (∑ a, w a * M a) := by
  have e : (List.ofFn S).map QuadLoss.obj = List.ofFn fun a => (S a).obj := by
    rw [List.map_ofFn]; rfl
  have hev : Evaluates (QuadLoss.sum (List.ofFn w) (List.ofFn S)).obj (fun x => ∑ a, w a * f a x)
      (fun x i => ∑ a, w a * g a x i) := by
    show Evaluates (Smooth.sumObj (List.ofFn w) ((List.ofFn S).map QuadLoss.obj)) _ _
    rw [e]
    exact C27_sum _ w f g fun a => (h a).evaluates
  have hdot : ∀ x d : Fin m → ℝ, dot (fun i => ∑ a, w a * g a x i) d = ∑ a, w a * dot (g a x) d := by
    intro x d
    unfold dot
    simp only [Finset.sum_mul, Finset.mul_sum]
    rw [Finset.sum_comm]
    exact Finset.sum_congr rfl fun a _ => Finset.sum_congr rfl fun i _ => by ring
  have htan : ∀ x z : Fin m → ℝ, ∑ a, w a * f a x + dot (fun i => ∑ a, w a * g a x i) (fun j => z j - x j) ≤ ∑ a, w a * f a z := by
    intro x z
    rw [hdot, ← Finset.sum_add_distrib]
    refine Finset.sum_le_sum fun a _ => ?_
    rw [← mul_add]
    exact mul_le_mul_of_nonneg_left (tangent (h a).convex x z) (hw a)
  refine ⟨⟨hev, ⟨convex_of_tangents htan, fun x => ?_⟩, default_coef⟩, fun M hM => smooth_of_bounds htan fun x z => ?_⟩
  · obtain ⟨F, G, hE, hG⟩ := C27_gradient (fun a => (S a).obj) w f g (fun a => (h a).evaluates) x fun a => (h a).convex.gradient x
    have hu := ev_unique (C27_sum (fun a => (S a).obj) w f g fun a => (h a).evaluates) hE
    have e1 := hu.1
    have e2 := hu.2
    rw [e1, show (fun i => ∑ a, w a * g a x i) = G x from congrFun e2 x]
    exact hG
  · unfold QuadraticUpperBound
    rw [hdot, Finset.sum_div, Finset.sum_mul, ← Finset.sum_add_distrib, ← Finset.sum_add_distrib]
    refine Finset.sum_le_sum fun a _ => ?_
    have := mul_le_mul_of_nonneg_left ((hM a).descent x z) (hw a)
    calc w a * f a z ≤ w a * (f a x + dot (g a x) (fun i => z i - x i) + M a / 2 * sqDist z x) := this
      _ = _ := by ring

/-- **C100** An affine composition of a loss is a loss: if `loss` stands for the convex `f`, then `affine_smooth(loss, T)` stands for
`f ∘ T` with gradient `T'(grad f (T x))`; if `grad f` is `M`-Lipschitz and `‖T x - T y‖² ≤ K ‖x - y‖²`, its gradient is
`M K`-Lipschitz.  Missing: selectors with repeated positions (`C26_repeated_selector_fails`); the quadratic of the inner loss is
not part of the composition (`C100_affine_quadratic_fails`). -/
theorem C100_affine_partial (S : QuadLoss n) (f : (Fin n → ℝ) → ℝ) (g : (Fin n → ℝ) → Fin n → ℝ) (h : IsLossFor S f g)
    (T : Aff ℝ m n) (hT : distinctSelectors T) :
    IsLossFor (QuadLoss.affine S T) (fun x => f (T.aff x)) (fun x => T.adj (g (T.aff x))) ∧
    ∀ M K : ℝ, 0 ≤ M → SmoothWith f g M → (∀ x y, sqDist (T.aff x) (T.aff y) ≤ K * sqDist x y) →
      SmoothWith (fun x => f (T.aff x)) (fun x => T.adj (g (T.aff x))) (M * K) := by
  have hadj := C24_adjoint_partial T hT
  have hlin := C24_linear T hT
  have hdiff : ∀ x z i, T.aff z i - T.aff x i = T.lin (fun j => z j - x j) i := by
    intro x z i
    rw [C25_affine T hT z i, C25_affine T hT x i]
    have := hlin 1 (-1) z x i
    have e : (fun j => 1 * z j + -1 * x j) = fun j => z j - x j := by funext j; ring
    rw [e] at this
    rw [this]; ring
  have hdot : ∀ x z : Fin m → ℝ, dot (T.adj (g (T.aff x))) (fun j => z j - x j) =
      dot (g (T.aff x)) (fun i => T.aff z i - T.aff x i) := by
    intro x z
    simp only [hdiff]
    have := hadj (fun j => z j - x j) (g (T.aff x))
    unfold dot
    rw [Finset.sum_congr rfl fun i _ => mul_comm (T.adj (g (T.aff x)) i) _, ← this]
    exact Finset.sum_congr rfl fun i _ => mul_comm _ _
  have htan : ∀ x z : Fin m → ℝ, f (T.aff x) + dot (T.adj (g (T.aff x))) (fun j => z j - x j) ≤ f (T.aff z) := by
    intro x z
    rw [hdot]
    exact tangent h.convex _ _
  refine ⟨⟨C26_value T _ f g h.evaluates, ⟨convex_of_tangents htan, fun x => ?_⟩, default_coef⟩,
    fun M K hM0 hM hK => smooth_of_bounds htan fun x z => ?_⟩
  · obtain ⟨F, G, hE, hF, hG⟩ := C26_chain_rule_partial T hT _ f g h.evaluates x (h.convex.gradient _)
    obtain ⟨e1, e2⟩ := ev_unique (C26_value T _ f g h.evaluates) hE
    have e1' : (fun x => f (T.aff x)) = F := e1
    have e2' : T.adj (g (T.aff x)) = G x := congrFun e2 x
    rw [e1', e2']
    exact hG
  · have h1 := hM.descent (T.aff x) (T.aff z)
    unfold QuadraticUpperBound at h1 ⊢
    rw [hdot]
    have := mul_le_mul_of_nonneg_left (hK z x) (show 0 ≤ M / 2 by linarith)
    calc f (T.aff z) ≤ f (T.aff x) + dot (g (T.aff x)) (fun i => T.aff z i - T.aff x i) + M / 2 * sqDist (T.aff z) (T.aff x) := h1
      _ ≤ f (T.aff x) + dot (g (T.aff x)) (fun i => T.aff z i - T.aff x i) + M / 2 * (K * sqDist z x) := by linarith
      _ = _ := by ring

/-! ### quadratic losses -/

private lemma sym_dot {Q : Smooth.QForm n} (hQ : IsSymForm Q) : (∀ x y, dot (Q.app x) y = dot x (Q.app y)) ∧ IsLin Q.app := by
  cases Q with
  | none => exact ⟨fun x y => rfl, fun a b x y i => rfl⟩
  | diag d =>
    refine ⟨fun x y => Finset.sum_congr rfl fun i _ => ?_, fun a b x y i => ?_⟩
    · simp only [Smooth.QForm.app]; ring
    · simp only [Smooth.QForm.app]; ring
  | full M =>
    have hM := hQ.1 M rfl
    refine ⟨fun x y => ?_, fun a b x y i => ?_⟩
    · simp only [dot, Smooth.QForm.app, Finset.sum_mul, Finset.mul_sum]
      rw [Finset.sum_comm]
      refine Finset.sum_congr rfl fun i _ => Finset.sum_congr rfl fun j _ => ?_
      rw [hM j i]; ring
    · simp only [Smooth.QForm.app, Finset.mul_sum]
      rw [← Finset.sum_add_distrib]
      exact Finset.sum_congr rfl fun j _ => by ring
  | transform T =>
    obtain ⟨h1, h2⟩ := hQ.2 T rfl
    exact ⟨h2, C24_linear T h1⟩

private lemma quadEval (coef : ℝ) (offset : Option (Fin n → ℝ)) (Q : Smooth.QForm n) :
    Evaluates (Smooth.quadraticLoss coef offset Q)
      (fun x => coef * ((∑ i, Smooth.applyOffset offset x i * Q.app (Smooth.applyOffset offset x) i) / 2))
      (fun x i => coef * Q.app (Smooth.applyOffset offset x) i) := by
  have hs : ∀ v : Fin n → ℝ, Real.sqrt (∑ i, v i ^ 2) ^ 2 = ∑ i, v i * v i := by
    intro v
    rw [Real.sq_sqrt (Finset.sum_nonneg fun i _ => sq_nonneg _)]
    exact Finset.sum_congr rfl fun i _ => by ring
  intro x
  cases Q <;> simp [Smooth.quadraticLoss, scaleR_eq, scaleV_eq, Smooth.QForm.app, hs, mul_div_assoc]

private lemma off_eff (o : Option (Fin n → ℝ)) (x : Fin n → ℝ) : Smooth.applyOffset o x = fun i => x i - effOffset o i := by
  funext i; cases o <;> simp [Smooth.applyOffset, effOffset]

/-- **C100** `quadratic_loss(shape, Q, coef, offset, quadratic)` with symmetric positive semidefinite `Q` is a loss for
`coef/2 (x - α)'Q(x - α)` with gradient `coef Q(x - α)`; if `x'Qx ≤ K ‖x‖²` its gradient is `coef K`-Lipschitz.  (Partial: an
asymmetric `Q` is excluded, `C28_quadratic_fails`.) -/
theorem C100_quadratic_partial (Q : Smooth.QForm n) (hQ : IsSymForm Q) (hpsd : ∀ z, 0 ≤ dot z (Q.app z)) (coef : ℝ)
    (offset : Option (Fin n → ℝ)) (quadratic : Option (Quad (Fin n) ℝ)) (hq : 0 ≤ quadCoef quadratic) (a : QuadObj n)
    (ha : QuadObj.init Q coef offset quadratic = some a) :
    IsLossFor a.toLoss (lossForm coef offset Q.app) (fun x i => coef * Q.app (fun j => x j - effOffset offset j) i) ∧
    ∀ K : ℝ, (∀ z, dot z (Q.app z) ≤ K * dot z z) →
      SmoothWith (lossForm coef offset Q.app) (fun x i => coef * Q.app (fun j => x j - effOffset offset j) i) (coef * K) := by
  have hc : 0 ≤ coef := by
    by_contra h
    rw [(C79_constructor_partial Q hQ coef offset quadratic).1 (not_le.1 h)] at ha
    cases ha
  obtain ⟨a', ha', hL⟩ := (C79_constructor_partial Q hQ coef offset quadratic).2 hc
  rw [ha] at ha'
  injection ha' with ha'
  subst ha'
  obtain ⟨⟨G, hE, hG⟩, hobj⟩ := hL
  obtain ⟨hsym, hlin⟩ := sym_dot hQ
  -- the object
  have hgrad : (G = fun x i => coef * Q.app (fun j => x j - effOffset offset j) i) ∧ a.quad = quadratic.getD (zeroQuad n) := by
    unfold QuadObj.init at ha
    simp only [if_neg (not_lt.2 hc)] at ha
    injection ha with ha
    subst ha
    refine ⟨?_, ?_⟩
    · have := (ev_unique hE (quadEval coef _ Q)).2
      rw [this]
      funext x i
      rw [off_eff]
      congr 2
      funext j
      cases offset with
      | none => simp [effOffset]
      | some o =>
        simp only
        split_ifs with h0
        · simp [effOffset]
        · push Not at h0
          simp [effOffset, h0]
    · rfl
  obtain ⟨hg, hquad⟩ := hgrad
  set g : (Fin n → ℝ) → Fin n → ℝ := fun x i => coef * Q.app (fun j => x j - effOffset offset j) i with hgd
  have hexp : ∀ x z : Fin n → ℝ, lossForm coef offset Q.app z = lossForm coef offset Q.app x + dot (g x) (fun i => z i - x i) +
      coef / 2 * dot (fun i => z i - x i) (Q.app fun i => z i - x i) := by
    intro x z
    set u : Fin n → ℝ := fun j => x j - effOffset offset j with hu
    set d : Fin n → ℝ := fun i => z i - x i with hd
    have ez : (fun j => z j - effOffset offset j) = fun j => 1 * u j + 1 * d j := by funext j; simp only [hu, hd]; ring
    have eQ : Q.app (fun j => 1 * u j + 1 * d j) = fun i => Q.app u i + Q.app d i := by
      funext i; rw [hlin]; ring
    have e1 : dot (fun j => 1 * u j + 1 * d j) (fun i => Q.app u i + Q.app d i) =
        dot u (Q.app u) + dot u (Q.app d) + dot d (Q.app u) + dot d (Q.app d) := by
      unfold dot
      rw [← Finset.sum_add_distrib, ← Finset.sum_add_distrib, ← Finset.sum_add_distrib]
      exact Finset.sum_congr rfl fun i _ => by ring
    have e2 : dot d (Q.app u) = dot (Q.app u) d := Finset.sum_congr rfl fun i _ => mul_comm _ _
    have e3 : dot (g x) d = coef * dot (Q.app u) d := by
      unfold dot; rw [Finset.mul_sum]; exact Finset.sum_congr rfl fun i _ => by simp only [hgd]; ring
    unfold lossForm
    rw [ez, eQ, e1, e2, ← hsym u d, e3]
    ring
  have htan : ∀ x z : Fin n → ℝ, lossForm coef offset Q.app x + dot (g x) (fun j => z j - x j) ≤ lossForm coef offset Q.app z := by
    intro x z
    rw [hexp x z]
    have := mul_nonneg (show 0 ≤ coef / 2 by linarith) (hpsd fun i => z i - x i)
    linarith
  refine ⟨⟨hg ▸ hE, ⟨convex_of_tangents htan, hg ▸ hG⟩, ?_⟩, fun K hK => smooth_of_bounds htan fun x z => ?_⟩
  · show 0 ≤ a.quad.coef
    rw [hquad]
    cases quadratic with
    | none => exact le_rfl
    | some q => exact hq
  · unfold QuadraticUpperBound
    rw [hexp x z]
    have h1 := mul_le_mul_of_nonneg_left (hK fun i => z i - x i) (show 0 ≤ coef / 2 by linarith)
    have e : dot (fun i => z i - x i) (fun i => z i - x i) = sqDist z x := Finset.sum_congr rfl fun i _ => (sq _).symm
    rw [e] at h1
    calc _ ≤ lossForm coef offset Q.app x + dot (g x) (fun i => z i - x i) + coef / 2 * (K * sqDist z x) := by linarith
      _ = _ := by ring

/-- **C100** `squared_error(X, Y, coef)` is a loss for `coef/2 ‖X β - Y‖²` with gradient `coef X'(X β - Y)`, for every design matrix,
response and `coef ≥ 0`; if `‖X d‖² ≤ K ‖d‖²` for all `d` its gradient is `coef K`-Lipschitz. -/
theorem C100_squared_error (X : Fin n → Fin m → ℝ) (Y : Fin n → ℝ) (coef : ℝ) (c : QuadObj.Composed m n)
    (hc : QuadObj.affine (.matrix X) (fun i => -Y i) coef none [] .none = some c) :
    IsLossFor c.toLoss (fun β => coef / 2 * ∑ i, (∑ j, X i j * β j - Y i) ^ 2)
      (fun β j => ∑ i, X i j * (coef * (∑ l, X i l * β l - Y i))) ∧
    ∀ K : ℝ, (∀ d : Fin m → ℝ, ∑ i, (∑ j, X i j * d j) ^ 2 ≤ K * ∑ j, d j ^ 2) →
      SmoothWith (fun β => coef / 2 * ∑ i, (∑ j, X i j * β j - Y i) ^ 2)
        (fun β j => ∑ i, X i j * (coef * (∑ l, X i l * β l - Y i))) (coef * K) := by
  unfold QuadObj.affine at hc
  simp only at hc
  split_ifs at hc with hk
  cases ha : QuadObj.init (.none : Smooth.QForm n) coef (some fun i => - -Y i) none with
  | none => rw [ha] at hc; cases hc
  | some a =>
    rw [ha] at hc
    injection hc with hc
    subst hc
    have hcoef : 0 ≤ coef := by
      by_contra h
      unfold QuadObj.init at ha
      simp only [if_pos (not_le.1 h)] at ha
      cases ha
    have hsq : ∀ z : Fin n → ℝ, dot z z = ∑ i, z i ^ 2 := fun z => Finset.sum_congr rfl fun i _ => (sq _).symm
    obtain ⟨h1, h2⟩ := C100_quadratic_partial (.none : Smooth.QForm n) ⟨fun M h => (by cases h), fun T h => (by cases h)⟩
      (fun z => by show 0 ≤ dot z z; rw [hsq]; exact Finset.sum_nonneg fun i _ => sq_nonneg _) coef _ none le_rfl a ha
    obtain ⟨h3, h4⟩ := C100_affine_partial a.toLoss _ _ h1 (.matrix X none : Aff ℝ m n) trivial
    have ef : (fun β : Fin m → ℝ => lossForm coef (some fun i => - -Y i) (Smooth.QForm.none : Smooth.QForm n).app
        ((Aff.matrix X none : Aff ℝ m n).aff β)) = fun β => coef / 2 * ∑ i, (∑ j, X i j * β j - Y i) ^ 2 := by
      funext β
      show coef / 2 * dot (fun i => ∑ j, X i j * β j - - -Y i) (fun i => ∑ j, X i j * β j - - -Y i) = _
      simp only [neg_neg]
      rw [hsq]
    have eg : (fun β : Fin m → ℝ => (Aff.matrix X none : Aff ℝ m n).adj fun i => coef * (Smooth.QForm.none : Smooth.QForm n).app
        (fun j => (Aff.matrix X none : Aff ℝ m n).aff β j - effOffset (some fun i => - -Y i) j) i) =
        fun β j => ∑ i, X i j * (coef * (∑ l, X i l * β l - Y i)) := by
      funext β j
      show ∑ i, X i j * (coef * (∑ l, X i l * β l - - -Y i)) = _
      simp only [neg_neg]
    rw [ef, eg] at h3
    simp only [ef, eg] at h4
    refine ⟨⟨h3.evaluates, h3.convex, h3.quad_coef⟩, fun K hK => ?_⟩
    have := h4 (coef * 1) K (by linarith) (h2 1 fun z => by rw [one_mul]; exact le_rfl) fun x y => by
      have e : sqDist ((Aff.matrix X none : Aff ℝ m n).aff x) ((Aff.matrix X none : Aff ℝ m n).aff y) =
          ∑ i, (∑ j, X i j * (x j - y j)) ^ 2 := by
        refine Finset.sum_congr rfl fun i _ => ?_
        show (∑ j, X i j * x j - ∑ j, X i j * y j) ^ 2 = _
        rw [← Finset.sum_sub_distrib]
        congr 1
        exact Finset.sum_congr rfl fun j _ => by ring
      rw [e]
      exact hK fun j => x j - y j
    rw [mul_one] at this
    exact this

/-! ### generalised linear models -/

lemma glm_both {X : Fin n → Fin (p + 1) → ℝ} {d : LossData n} {coef : ℝ} {so : Option (Fin n → ℝ)}
    {o : Option (Fin (p + 1) → ℝ)} {w : Option (Fin n → ℝ)} {G : Glm (p + 1) n} (h : Glm.build X d coef so o w = some G)
    (quad : Option (Quad (Fin (p + 1)) ℝ)) :
    Evaluates (G.toLoss quad).obj
      (glmVal X (effOffset o) (effOffset so) (fun i => w.elim 1 fun w => w i) coef (phi d))
      (glmGrad X (effOffset o) (effOffset so) (fun i => w.elim 1 fun w => w i) coef (psi d)) := by
  intro β
  obtain ⟨h1, h2⟩ := glm_eval h β
  refine ⟨h1, h2, ?_⟩
  have hev := evaluates_loss G.loss (some G.caseWeights) (Glm.dot G.X (Smooth.applyOffset G.offset β))
  show (G.smoothObjective β .both).1 = _
  have e1 : (G.smoothObjective β .func).1 = .val (totalLoss G.loss.coef (Loss.cw G.loss.caseWeights (some G.caseWeights))
      (offV G.loss.offset) (phi G.loss.data) (Glm.dot G.X (Smooth.applyOffset G.offset β))) := by
    unfold Glm.smoothObjective
    simp only [hev.1]
  rw [h1] at e1
  injection e1 with e1
  unfold Glm.smoothObjective at h2 ⊢
  simp only [hev.2.1] at h2
  simp only [hev.2.2]
  injection h2 with h2
  rw [h2, e1]

/-- **C100** A glm is a loss: for least squares, Poisson, Huber and Huber SVM (the losses that are what they are documented to be,
`ConvexLoss`), with any design, coefficient, offsets, case weights and convex quadratic the constructor accepts, the glm stands for
`coef ∑ᵢ wᵢ ℓᵢ(xᵢ·(β - offset) - saturated_offsetᵢ)`; if the curvature of `ℓ` is at most `κ`, its gradient is
`coef κ ∑ᵢ wᵢ ‖xᵢ‖²`-Lipschitz. -/
theorem C100_glm (X : Fin n → Fin (p + 1) → ℝ) (d : LossData n) (hd : ConvexLoss d) (coef : ℝ) (so : Option (Fin n → ℝ))
    (o : Option (Fin (p + 1) → ℝ)) (w : Option (Fin n → ℝ)) (quad : Option (Quad (Fin (p + 1)) ℝ)) (hq : 0 ≤ quadCoef quad)
    (G : Glm (p + 1) n) (h : Glm.build X d coef so o w = some G) :
    ∃ g, IsLossFor (G.toLoss quad) (regressionLoss X d coef so o w) g ∧
      ∀ κ, HasCurvature d κ →
        SmoothWith (regressionLoss X d coef so o w) g (coef * κ * ∑ i, (w.elim 1 fun w => w i) * ∑ j, X i j ^ 2) := by
  obtain ⟨hc, hw, -⟩ := built_eq h
  have e : regressionLoss X d coef so o w =
      glmVal X (effOffset o) (effOffset so) (fun i => w.elim 1 fun w => w i) coef (phi d) := by
    funext β; rw [phi_case hd]; rfl
  rw [e]
  have htan := fun x z => glm_tangent (X := X) (o := effOffset o) (so := effOffset so) (κ := 0) hc hw (tangent_of hd) x z
  refine ⟨_, ⟨glm_both h quad, ⟨convex_of_tangents htan, fun x => glm_gradient (deriv_of hd) x⟩, ?_⟩, fun κ hκ => ?_⟩
  · cases quad with
    | none => exact le_rfl
    | some q => exact hq
  · obtain ⟨h1, h2⟩ := upper_of hκ
    exact smooth_of_bounds htan fun x z => glm_upper hc hw h1 h2 le_rfl x z

/-! ### Cox regression -/

/-- `coef` times the negative log partial likelihood at the linear predictors `xᵢ·(β - offset) - saturated_offsetᵢ` -/
noncomputable def coxRegression (X : Fin n → Fin p → ℝ) (T : Fin n → ℝ) (cens : Fin n → ℕ) (coef : ℝ) (so : Option (Fin n → ℝ))
    (o : Option (Fin p → ℝ)) (w : Option (Fin n → ℝ)) (β : Fin p → ℝ) : ℝ :=
  coef * coxNll T cens (fun i => w.elim 1 fun w => w i) fun i => ∑ j, X i j * (β j - effOffset o j) - effOffset so i

/-- what a Cox glm keeps through its calls -/
private structure CoxInv (X : Fin n → Fin p → ℝ) (T : Fin n → ℝ) (cens : Fin n → ℕ) (coef : ℝ) (so : Option (Fin n → ℝ))
    (o : Option (Fin p → ℝ)) (w : Option (Fin n → ℝ)) (G : CoxGlm p n) : Prop where
  X : G.X = X
  offset : G.offset = o
  weights : G.caseWeights = fun i => w.elim 1 fun w => w i
  nonneg : ∀ i, 0 ≤ (w.elim 1 fun w => w i : ℝ)
  reach : ReachableCox G.loss
  T : G.loss.T = T
  cens : G.loss.cens = cens
  coef : G.loss.coef = coef
  so : G.loss.offset = so
  own : G.loss.caseWeights = fun _ => 1

section
variable {X : Fin n → Fin p → ℝ} {T : Fin n → ℝ} {cens : Fin n → ℕ} {coef : ℝ} {so : Option (Fin n → ℝ)} {o : Option (Fin p → ℝ)}
  {w : Option (Fin n → ℝ)}

private lemma cox_built {σ : Equiv.Perm (Fin n)} (hσ : IsArgsort T σ) {G : CoxGlm p n}
    (h : CoxGlm.build X T cens coef so o w σ = some G) : CoxInv X T cens coef so o w G := by
  unfold CoxGlm.build at h
  cases hL : CoxLoss.init T cens coef so none σ with
  | none => rw [hL] at h; cases h
  | some L =>
    rw [hL] at h
    simp only at h
    split_ifs at h with hw
    injection h with h
    subst h
    have hL' := hL
    unfold CoxLoss.init Smooth.atomInit at hL
    split_ifs at hL with hc
    simp only at hL
    split_ifs at hL with hc2
    injection hL with hL
    have e : L.setData T cens = L := by subst hL; rfl
    refine ⟨rfl, rfl, ?_, ?_, by rw [e]; exact .init hσ hL', by subst hL; rfl, by subst hL; rfl, by subst hL; rfl, by subst hL; rfl,
      by subst hL; rfl⟩
    · cases w <;> rfl
    · cases w with
      | none => exact fun _ => zero_le_one
      | some w => exact hw

private lemma cox_step {G : CoxGlm p n} (h : CoxInv X T cens coef so o w G) (β : Fin p → ℝ) (mode : Mode) :
    CoxInv X T cens coef so o w (G.smoothObjective β mode).2 := by
  set η : Fin n → ℝ := fun i => ∑ j, G.X i j * Smooth.applyOffset G.offset β j with hη
  have e : (G.smoothObjective β mode).2 = { G with
      loss := (G.loss.smoothObjective η mode (some G.caseWeights)).2, caseWeights := G.loss.cw (some G.caseWeights) } := by
    unfold CoxGlm.smoothObjective
    simp only
    cases (G.loss.smoothObjective _ mode (some G.caseWeights)).1 <;> rfl
  have hl : ReachableCox (G.loss.run [.smooth η mode (some G.caseWeights)]) := .call h.reach
  have hr : G.loss.run [.smooth η mode (some G.caseWeights)] = (G.loss.smoothObjective η mode (some G.caseWeights)).2 := rfl
  have hsame : ∃ b, (G.loss.smoothObjective η mode (some G.caseWeights)).2 = { G.loss with buf := b } := by
    cases mode <;> exact ⟨_, rfl⟩
  obtain ⟨b, hb⟩ := hsame
  rw [hr] at hl
  rw [e]
  refine ⟨h.X, h.offset, ?_, h.nonneg, hl, ?_, ?_, ?_, ?_, ?_⟩
  · show G.loss.cw (some G.caseWeights) = _
    funext i
    simp [CoxLoss.cw, h.own, h.weights]
  all_goals (dsimp only; rw [hb])
  · exact h.T
  · exact h.cens
  · exact h.coef
  · exact h.so
  · exact h.own

private lemma cox_run {G : CoxGlm p n} (h : CoxInv X T cens coef so o w G) (calls : List ((Fin p → ℝ) × Mode)) :
    CoxInv X T cens coef so o w (G.run calls) := by
  induction calls generalizing G with
  | nil => exact h
  | cons c rest ih => exact ih (cox_step h c.1 c.2)

open scoped Classical in
/-- gradient of the negative log partial likelihood -/
noncomputable def coxG' (T : Fin n → ℝ) (cens : Fin n → ℕ) (W η : Fin n → ℝ) (i : Fin n) : ℝ :=
  (∑ j with T j ≤ T i, cens j * W j / riskTotal T W η j) * (Real.exp (η i) * W i) - cens i * W i

private lemma adjoint_some (X : Fin n → Fin p → ℝ) (g : Fin n → ℝ) :
    CoxGlm.adjoint X (fun i => some (g i)) = fun j => some (∑ i, X i j * g i) := by
  funext j
  exact if_pos fun i => rfl

private lemma numbers_some (g : Fin p → ℝ) : CoxGlm.numbers (fun i => some (g i)) = some g := by
  exact if_pos fun i => rfl

private lemma coxDot (T : Fin n → ℝ) (cens : Fin n → ℕ) (W η d : Fin n → ℝ) :
    dot (coxG' T cens W η) d = ∑ i, cens i * W i *
      (∑ j with T i ≤ T j, W j * Real.exp (η j) / riskTotal T W η i * d j - d i) := by
  classical
  unfold dot coxG'
  simp only [sub_mul, mul_sub, Finset.sum_sub_distrib]
  congr 1
  simp only [Finset.sum_filter, Finset.sum_mul, Finset.mul_sum, ite_mul, zero_mul, mul_ite, mul_zero]
  rw [Finset.sum_comm]
  refine Finset.sum_congr rfl fun i _ => Finset.sum_congr rfl fun j _ => ?_
  split_ifs <;> ring

private lemma riskPos {T W : Fin n → ℝ} (hw : ∀ i, 0 ≤ W i) (hr : RiskPositive T W) (η : Fin n → ℝ) (i : Fin n) :
    0 < riskTotal T W η i := by
  obtain ⟨j, hj, hjw⟩ := hr i
  unfold riskTotal
  refine Finset.sum_pos' (fun k _ => mul_nonneg (hw k) (Real.exp_pos _).le) ⟨j, by simp [hj], mul_pos hjw (Real.exp_pos _)⟩

private lemma cox_tangent {T W : Fin n → ℝ} (cens : Fin n → ℕ) (hw : ∀ i, 0 ≤ W i) (hr : RiskPositive T W) (η ζ : Fin n → ℝ) :
    coxNll T cens W η + dot (coxG' T cens W η) (fun i => ζ i - η i) ≤ coxNll T cens W ζ := by
  rw [coxDot]
  unfold coxNll
  rw [← Finset.sum_add_distrib]
  refine Finset.sum_le_sum fun i _ => ?_
  rw [← mul_add]
  refine mul_le_mul_of_nonneg_left ?_ (mul_nonneg (Nat.cast_nonneg _) (hw i))
  have := logsumexp_tangent (Finset.univ.filter fun j => T i ≤ T j) W η ζ (fun j _ => hw j) (riskPos hw hr η i)
  unfold riskTotal at *
  linarith

private lemma cox_upper {T W : Fin n → ℝ} (cens : Fin n → ℕ) (hw : ∀ i, 0 ≤ W i) (hr : RiskPositive T W) (η ζ : Fin n → ℝ) {B : ℝ}
    (hB0 : 0 ≤ B) (hB : ∀ j, |ζ j - η j| ≤ B) :
    coxNll T cens W ζ ≤ coxNll T cens W η + dot (coxG' T cens W η) (fun i => ζ i - η i) + (∑ i, cens i * W i) * (B ^ 2 / 2) := by
  rw [coxDot]
  unfold coxNll
  rw [Finset.sum_mul, ← Finset.sum_add_distrib, ← Finset.sum_add_distrib]
  refine Finset.sum_le_sum fun i _ => ?_
  rw [← mul_add, ← mul_add]
  refine mul_le_mul_of_nonneg_left ?_ (mul_nonneg (Nat.cast_nonneg _) (hw i))
  have := logsumexp_upper (Finset.univ.filter fun j => T i ≤ T j) W η ζ hw (riskPos hw hr η i) hB0 fun j _ => hB j
  unfold riskTotal at *
  linarith

end

/-- `C100_cox_partial` with the gradient written out -/
lemma cox_loss (X : Fin n → Fin p → ℝ) (T : Fin n → ℝ) (cens : Fin n → ℕ) (coef : ℝ) (so : Option (Fin n → ℝ))
    (o : Option (Fin p → ℝ)) (w : Option (Fin n → ℝ)) (quad : Option (Quad (Fin p) ℝ)) (hq : 0 ≤ quadCoef quad)
    (σ : Equiv.Perm (Fin n)) (hσ : IsArgsort T σ) (G : CoxGlm p n) (h : CoxGlm.build X T cens coef so o w σ = some G)
    (hr : RiskPositive T fun i => w.elim 1 fun w => w i) (calls : List ((Fin p → ℝ) × Mode)) (g : (Fin p → ℝ) → Fin p → ℝ)
    (hgd : g = fun β j => ∑ i, X i j * (coef * coxG' T cens (fun i => w.elim 1 fun w => w i)
      (fun i => ∑ j, X i j * (β j - effOffset o j) - effOffset so i) i)) :
    IsLossFor ((G.run calls).toLoss quad) (coxRegression X T cens coef so o w) g ∧
      ∀ R : ℝ, (∀ i, ∑ j, X i j ^ 2 ≤ R) →
        SmoothWith (coxRegression X T cens coef so o w) g (coef * (∑ i, cens i * (w.elim 1 fun w => w i)) * R) := by
  have hI := cox_run (cox_built hσ h) calls
  set G' := G.run calls with hG'
  set W : Fin n → ℝ := fun i => w.elim 1 fun w => w i with hWd
  have hw : ∀ i, 0 ≤ W i := hI.nonneg
  have hW : effWeight (some G'.loss.caseWeights) (some G'.caseWeights) = W := by
    funext i; simp [effWeight, hI.own, hI.weights, hWd]
  have harg : ∀ a, some G'.caseWeights = some a → ∀ i, 0 ≤ a i := by
    intro a ha i
    injection ha with ha
    rw [← ha, hI.weights]; exact hw i
  have hr' : RiskPositive G'.loss.T (effWeight (some G'.loss.caseWeights) (some G'.caseWeights)) := by
    rw [hW, hI.T]; exact hr
  obtain ⟨hc, -, hev⟩ := cox_evaluates G'.loss hI.reach (some G'.caseWeights) harg hr'
  obtain ⟨F, Gr, hE, hGr⟩ := C28_cox_partial G'.loss hI.reach (some G'.caseWeights) harg hr'
  rw [hW, hI.T, hI.cens, hI.coef, hI.so] at hev
  rw [hI.coef] at hc
  have hFu : F = fun x => coef * coxNll T cens W fun i => x i - effOffset so i := by
    funext x
    have h1 := (hE x).1
    rw [(hev x).1] at h1
    injection h1 with h1; injection h1 with h1; exact h1.symm
  have hGu : Gr = fun x i => coef * coxG' T cens W (fun i => x i - effOffset so i) i := by
    funext x i
    obtain ⟨b, h1⟩ := (hE x).2.1
    obtain ⟨b', h2⟩ := (hev x).2.1
    rw [h2] at h1
    injection h1 with h1 _
    have := congrFun h1 i
    injection this with this
    exact this.symm
  set η : (Fin p → ℝ) → Fin n → ℝ := fun β i => ∑ j, X i j * (β j - effOffset o j) with hη
  have hg : g = fun β j => ∑ i, X i j * (coef * coxG' T cens W (fun i => η β i - effOffset so i) i) := hgd
  have heta : ∀ β, (fun i => ∑ j, G'.X i j * Smooth.applyOffset G'.offset β j) = η β := by
    intro β; funext i; rw [hI.X, hI.offset, off_eff]
  have hf : ∀ β, coxRegression X T cens coef so o w β = coef * coxNll T cens W fun i => η β i - effOffset so i := fun β => rfl
  have hdiff : ∀ x z i, (η z i - effOffset so i) - (η x i - effOffset so i) = ∑ j, X i j * (z j - x j) := by
    intro x z i
    simp only [hη]
    rw [sub_sub_sub_cancel_right, ← Finset.sum_sub_distrib]
    exact Finset.sum_congr rfl fun j _ => by ring
  have hdot : ∀ x z : Fin p → ℝ, dot (g x) (fun j => z j - x j) = coef * dot (coxG' T cens W fun i => η x i - effOffset so i)
      (fun i => (η z i - effOffset so i) - (η x i - effOffset so i)) := by
    intro x z
    simp only [hdiff]
    unfold dot
    simp only [hg, Finset.sum_mul, Finset.mul_sum]
    rw [Finset.sum_comm]
    exact Finset.sum_congr rfl fun i _ => Finset.sum_congr rfl fun j _ => by ring
  have htan : ∀ x z : Fin p → ℝ, coxRegression X T cens coef so o w x + dot (g x) (fun j => z j - x j) ≤
      coxRegression X T cens coef so o w z := by
    intro x z
    rw [hf, hf, hdot, ← mul_add]
    exact mul_le_mul_of_nonneg_left (cox_tangent cens hw hr _ _) hc
  refine ⟨⟨fun β => ?_, ⟨convex_of_tangents htan, fun β => ?_⟩, ?_⟩, fun R hR => smooth_of_bounds htan fun x z => ?_⟩
  · rw [hg]
    obtain ⟨h1, ⟨b, h2⟩, ⟨b', h3⟩⟩ := hev (η β)
    refine ⟨?_, ?_, ?_⟩
    · simp only [CoxGlm.toLoss, CoxGlm.smoothObjective]
      rw [heta, h1]
      rfl
    · simp only [CoxGlm.toLoss, CoxGlm.smoothObjective]
      rw [heta, h2]
      simp only [adjoint_some, numbers_some, hI.X]
      rfl
    · simp only [CoxGlm.toLoss, CoxGlm.smoothObjective]
      rw [heta, h3]
      simp only [adjoint_some, numbers_some, hI.X]
      rfl
  · have e : ∀ y : Fin p → ℝ, (fun i => ∑ j, X i j * y j + -∑ j, X i j * effOffset o j) = η y := by
      intro y; funext i
      simp only [hη]
      rw [← sub_eq_add_neg, ← Finset.sum_sub_distrib]
      exact Finset.sum_congr rfl fun j _ => by ring
    have h1 : IsGradientAt F (Gr (η β)) (fun i => ∑ j, X i j * β j + -∑ j, X i j * effOffset o j) := by
      rw [e]; exact hGr _
    refine grad_congr (grad_comp_affine X (fun i => -∑ j, X i j * effOffset o j) β h1) ?_ ?_
    · funext y
      rw [e y, hFu]
      rfl
    · rw [hGu, hg]
  · cases quad with
    | none => exact le_rfl
    | some q => exact hq
  · have hd := sqDist_nonneg z x
    have hB : ∀ i, |(η z i - effOffset so i) - (η x i - effOffset so i)| ≤ Real.sqrt (R * sqDist z x) := by
      intro i
      refine Real.abs_le_sqrt ?_
      rw [hdiff]
      exact (Finset.sum_mul_sq_le_sq_mul_sq _ _ _).trans (mul_le_mul_of_nonneg_right (hR i) hd)
    have hup := cox_upper cens hw hr (fun i => η x i - effOffset so i) (fun i => η z i - effOffset so i) (Real.sqrt_nonneg _) hB
    unfold QuadraticUpperBound
    rw [hf, hf, hdot]
    by_cases hn : Nonempty (Fin n)
    · obtain ⟨i0⟩ := hn
      have hR0 : 0 ≤ R := (Finset.sum_nonneg fun j _ => sq_nonneg _).trans (hR i0)
      rw [Real.sq_sqrt (mul_nonneg hR0 hd)] at hup
      have := mul_le_mul_of_nonneg_left hup hc
      calc _ ≤ _ := this
        _ = _ := by ring
    · have e0 : ∀ f : Fin n → ℝ, ∑ i, f i = 0 := fun f => Finset.sum_eq_zero fun i _ => (hn ⟨i⟩).elim
      have := mul_le_mul_of_nonneg_left hup hc
      rw [e0 fun i => (cens i : ℝ) * W i] at this ⊢
      simp only [zero_mul, mul_zero, add_zero, zero_div] at this ⊢
      linarith

/-- **C100** A Cox regression is a loss: `glm.cox(X, times, censoring, ...)`, however the times are tied and sorted, fresh or after
any calls of `smooth_objective`, stands for `coef` times the negative log partial likelihood of the linear predictors, which is
convex; and if every row of `X` has `‖xᵢ‖² ≤ R`, its gradient is `coef (∑ᵢ cᵢ wᵢ) R`-Lipschitz, with no bound on the coefficients.
Missing: weights that leave a risk set without weight, for which the loss is nan (`C51_zero_risk_fails`). -/
theorem C100_cox_partial (X : Fin n → Fin p → ℝ) (T : Fin n → ℝ) (cens : Fin n → ℕ) (coef : ℝ) (so : Option (Fin n → ℝ))
    (o : Option (Fin p → ℝ)) (w : Option (Fin n → ℝ)) (quad : Option (Quad (Fin p) ℝ)) (hq : 0 ≤ quadCoef quad)
    (σ : Equiv.Perm (Fin n)) (hσ : IsArgsort T σ) (G : CoxGlm p n) (h : CoxGlm.build X T cens coef so o w σ = some G)
    (hr : RiskPositive T fun i => w.elim 1 fun w => w i) (calls : List ((Fin p → ℝ) × Mode)) :
    ∃ g, IsLossFor ((G.run calls).toLoss quad) (coxRegression X T cens coef so o w) g ∧
      ∀ R : ℝ, (∀ i, ∑ j, X i j ^ 2 ≤ R) →
        SmoothWith (coxRegression X T cens coef so o w) g (coef * (∑ i, cens i * (w.elim 1 fun w => w i)) * R) :=
  ⟨_, cox_loss X T cens coef so o w quad hq σ hσ G h hr calls _ rfl⟩

/-! ### smoothed atoms -/

/-- **C100** A smoothed penalty is a loss: `atom.smoothed(q)`, for every seminorm atom in either mode and every smoothing quadratic
`q` with positive coefficient, stands for a convex function `V` with gradient `G` such that `V x = sup_u ⟨x,u⟩ - f*(u) - q(u)` for
every conjugate `f*` of the atom, and `G` is `1/q.coef`-Lipschitz. -/
theorem C100_smoothed (a : AtomObj (Fin (n + 1)) ℝ) (b : Bool) (r : ℝ) (hm : InMode a b r) (ha : a.quad.coef = 0)
    (ho : ArrayOffset a) (q : Quad (Fin (n + 1)) ℝ) (hq : 0 < q.coef) (hcen : ArrayCenter q)
    (quad : Quad (Fin (n + 1)) ℝ) (hquad : 0 ≤ quad.coef) :
    ∃ s V G, a.smoothed q = .ok s ∧ IsLossFor ⟨s.smoothObjective, quad⟩ V G ∧
      (∀ fstar, IsConjugate (denoteAtom a b r) fstar → IsSmoothedBy fstar (smoothingFn q) V G) ∧
      SmoothWith V G (1 / q.coef) := by
  obtain ⟨s, h1, -, V, G, h2, h3, h4, h5⟩ := C48_smoothed a b r hm ha ho q hq hcen
  obtain ⟨a', -, -, -, hconj⟩ := C13_conjugate a b r hm ha ho
  have hs := h3 _ hconj
  have htan : ∀ x z : Fin (n + 1) → ℝ, V x + dot (G x) (fun j => z j - x j) ≤ V z := by
    intro x z
    obtain ⟨⟨sx, hsx, hVx⟩, -⟩ := hs x
    have e : V x + dot (G x) (fun j => z j - x j) = dot z (G x) - sx - smoothingFn q (G x) := by
      rw [hVx]
      have : dot (G x) (fun j => z j - x j) = dot z (G x) - dot x (G x) := by
        unfold dot; rw [← Finset.sum_sub_distrib]; exact Finset.sum_congr rfl fun i _ => by ring
      rw [this]; ring
    rw [e]
    by_cases hxz : G x = G z
    · obtain ⟨⟨sz, hsz, hVz⟩, -⟩ := hs z
      rw [hxz] at hsx ⊢
      rw [hsz, WithTop.coe_inj] at hsx
      rw [hVz, hsx]
    · exact ((hs z).2 (G x) sx hsx hxz).le
  exact ⟨s, V, G, h1, ⟨h2, ⟨convex_of_tangents htan, h4⟩, hquad⟩, h3,
    smooth_of_bounds htan fun x z => descent (by positivity) h4 h5 x z⟩

/-! ### logistic regression -/

/-- **C100** Optimality certificate for logistic regression with any atom: at every `β` whose linear predictors are all at most 100,
for every `L > 0`, the proximal gradient step of the problem exists, and `β` minimises the exact logistic objective over all
coefficients exactly when the step leaves it where it is.  (The code clips larger predictors, so its own loss is not convex,
`C29_logistic_fails`.)  Missing: coefficients with a predictor above 100. -/
theorem C100_logistic_certificate_partial (X : Fin n → Fin (p + 1) → ℝ) (s t : Fin n → ℝ) (coef : ℝ) (so : Option (Fin n → ℝ))
    (o : Option (Fin (p + 1) → ℝ)) (w : Option (Fin n → ℝ)) (quad : Option (Quad (Fin (p + 1)) ℝ)) (hq : 0 ≤ quadCoef quad)
    (G : Glm (p + 1) n) (h : Glm.build X (.logistic s t) coef so o w = some G) (A : NonsmoothAtom (p + 1))
    (pen : (Fin (p + 1) → ℝ) → WithTop ℝ) (hA : IsAtomFor A pen) (x0 β : Fin (p + 1) → ℝ)
    (hβ : ∀ i, ∑ j, X i j * (β j - effOffset o j) - effOffset so i ≤ 100) (L : ℝ) (hL : 0 < L) :
    ∃ z, (SimpleProblem.ofLoss (G.toLoss quad) A x0).proximal (Quad.init (some L) (some (.arr β))
        (some (.arr ((SimpleProblem.ofLoss (G.toLoss quad) A x0).grad β))) (some 0)) = some z ∧
      (IsMinTop (penalised (regressionLoss X (.logistic s t) coef so o w) (quad.getD (Quad.init none none none none)) pen) β ↔
        z = β) := by
  obtain ⟨hc, hw, -⟩ := built_eq h
  have ht : ∀ i, 0 ≤ t i := by
    unfold Glm.build at h
    cases hL : Loss.init (.logistic s t) coef so (Quad.init none none none none) none with
    | none => rw [hL] at h; simp at h
    | some l =>
      obtain ⟨-, hd, -⟩ := loss_of_init hL
      intro i
      by_contra hi
      apply hd
      rcases le_or_gt 0 (t i - s i) with h1 | h1
      · exact Or.inr ⟨i, by linarith⟩
      · exact Or.inl ⟨i, h1⟩
  let ψ : Fin n → ℝ → ℝ := fun i u => t i * (Real.exp u / (1 + Real.exp u)) - s i
  have htanφ : ∀ i x y, caseLoss (.logistic s t) i x + ψ i x * (y - x) ≤ caseLoss (.logistic s t) i y := by
    intro i x y
    show t i * Real.log (1 + Real.exp x) - s i * x + (t i * (Real.exp x / (1 + Real.exp x)) - s i) * (y - x) ≤
      t i * Real.log (1 + Real.exp y) - s i * y
    have := mul_le_mul_of_nonneg_left (log1exp_tangent x y) (ht i)
    nlinarith
  have hder : ∀ i u, HasDerivAt (caseLoss (.logistic s t) i) (ψ i u) u := by
    intro i u
    show HasDerivAt (fun u => t i * Real.log (1 + Real.exp u) - s i * u) (t i * (Real.exp u / (1 + Real.exp u)) - s i) u
    have h1 := (hasDerivAt_log1exp u).const_mul (t i)
    have h2 := (hasDerivAt_id u).const_mul (s i)
    exact (h1.sub h2).congr_deriv (by simp)
  set W : Fin n → ℝ := fun i => w.elim 1 fun w => w i with hW
  set f := regressionLoss X (.logistic s t) coef so o w with hf
  set g := glmGrad X (effOffset o) (effOffset so) W coef ψ with hg
  have hfe : f = glmVal X (effOffset o) (effOffset so) W coef (caseLoss (.logistic s t)) := rfl
  have htan : ∀ x z, f x + dot (g x) (fun j => z j - x j) ≤ f z := fun x z => glm_tangent (κ := 0) hc hw htanφ x z
  -- the same problem with the exact loss
  let S' : QuadLoss (p + 1) := ⟨fun x mode => match mode with
    | .func => .val (f x)
    | .grad => .grad (g x)
    | .both => .both (f x) (g x)
    | .other => .valueError, (G.toLoss quad).quad⟩
  have hS' : IsLossFor S' f g := by
    refine ⟨fun x => ⟨rfl, rfl, rfl⟩, ⟨convex_of_tangents htan, fun x => ?_⟩, ?_⟩
    · rw [hfe]; exact glm_gradient hder x
    · show 0 ≤ (G.toLoss quad).quad.coef
      cases quad with
      | none => exact le_rfl
      | some q => exact hq
  obtain ⟨z, hz, hiff⟩ := C100_certificate S' f g A pen hS' hA x0 β L hL
  have hgrad : (SimpleProblem.ofLoss (G.toLoss quad) A x0).grad β = (SimpleProblem.ofLoss S' A x0).grad β := by
    have h1 : (G.toLoss quad).obj β .grad = .grad (glmGrad X (effOffset o) (effOffset so) W coef (psi (.logistic s t)) β) :=
      ((glm_both h quad) β).2.1
    unfold SimpleProblem.ofLoss
    dsimp only
    rw [h1]
    funext j
    show ∑ i, X i j * (coef * (W i * psi (.logistic s t) i (predictor X (effOffset o) (effOffset so) β i))) = _
    refine Finset.sum_congr rfl fun i _ => ?_
    have hle : predictor X (effOffset o) (effOffset so) β i ≤ 100 := hβ i
    simp only [psi, Loss.ratio1, if_pos hle, ψ]
  refine ⟨z, ?_, hiff⟩
  rw [hgrad]
  exact hz

/-! ### what is lost -/

/-- **C100** `smooth.sum` drops the quadratics of its summands: the objective of the sum of one loss with weight one is not the
objective of that loss. -/
theorem C100_sum_quadratic_fails : ∃ (S : QuadLoss 1) (x : Fin 1 → ℝ),
    S.objective x = some 1 ∧ (QuadLoss.sum [1] [S]).objective x = some (1 / 2) := by
  refine ⟨⟨Smooth.quadraticLoss 1 none .none, Quad.init (some 1) none none none⟩, fun _ => 1, ?_, ?_⟩
  · unfold QuadLoss.objective
    simp only
    rw [(quadEval 1 none .none _).1]
    simp [Smooth.applyOffset, Smooth.QForm.app, Quad.funcVal, Quad.resid, Quad.init]
    norm_num
  · have h := C27_sum (k := 1) (fun _ => Smooth.quadraticLoss (n := 1) 1 none .none) (fun _ => 1) _ _
      (fun _ => quadEval 1 none .none) (fun _ => 1)
    unfold QuadLoss.objective QuadLoss.sum
    simp only
    have e := h.1
    simp only [List.ofFn_succ, List.ofFn_zero] at e
    simp only [List.map_cons, List.map_nil]
    rw [e]
    simp [Smooth.applyOffset, Smooth.QForm.app, Quad.funcVal, Quad.resid, Quad.init]

/-- **C100** `affine_smooth` drops the quadratic of the loss it composes: the objective of the composition with the identity is not
the objective of the loss. -/
theorem C100_affine_quadratic_fails : ∃ (S : QuadLoss 1) (x : Fin 1 → ℝ),
    S.objective x = some 1 ∧ (QuadLoss.affine S (.identity : Aff ℝ 1 1)).objective x = some (1 / 2) := by
  refine ⟨⟨Smooth.quadraticLoss 1 none .none, Quad.init (some 1) none none none⟩, fun _ => 1, ?_, ?_⟩
  · unfold QuadLoss.objective
    simp only
    rw [(quadEval 1 none .none _).1]
    simp [Smooth.applyOffset, Smooth.QForm.app, Quad.funcVal, Quad.resid, Quad.init]
    norm_num
  · unfold QuadLoss.objective QuadLoss.affine
    simp only
    rw [(C26_value (.identity : Aff ℝ 1 1) _ _ _ (quadEval 1 none .none) _).1]
    simp [Smooth.applyOffset, Smooth.QForm.app, Quad.funcVal, Quad.resid, Quad.init, Aff.aff, Aff.meth]

/-! ### the hypotheses are met -/

/-- A Cox regression with two tied times, plus twice least squares, plus a smoothed l1 norm, penalised by an l1 norm: every
hypothesis of `C100_returns` holds, and `solve` returns. -/
example (X : Fin 3 → Fin 2 → ℝ) (Y : Fin 3 → ℝ) (x0 : Fin 2 → ℝ) (σ : Equiv.Perm (Fin 3)) (hσ : IsArgsort (![1, 1, 2] : Fin 3 → ℝ) σ) :
    ∃ (S : Fin 3 → QuadLoss 2) (f : (Fin 2 → ℝ) → ℝ) (g : (Fin 2 → ℝ) → Fin 2 → ℝ) (A : NonsmoothAtom 2)
      (pen : (Fin 2 → ℝ) → WithTop ℝ) (M : ℝ),
      (∃ G, CoxGlm.build X ![1, 1, 2] ![1, 0, 1] 1 none none none σ = some G ∧ S 0 = G.toLoss none) ∧
      (∃ c, QuadObj.affine (.matrix X) (fun i => -Y i) 1 none [] .none = some c ∧ S 1 = c.toLoss) ∧
      IsLossFor (QuadLoss.sum (List.ofFn ![1, 2, 1]) (List.ofFn S)) f g ∧ SmoothWith f g M ∧ IsAtomFor A pen ∧
      ∃ N, ∀ fuel, N < fuel → ∃ c v hist,
        ((SimpleProblem.ofLoss (QuadLoss.sum (List.ofFn ![1, 2, 1]) (List.ofFn S)) A x0).solve none {} 0 fuel).1 = .ok c v hist := by
  -- the parts
  obtain ⟨G, hG⟩ : ∃ G, CoxGlm.build X ![1, 1, 2] ![1, 0, 1] 1 none none none σ = some G := by
    unfold CoxGlm.build CoxLoss.init Smooth.atomInit
    simp [show ¬ ((1 : ℝ) < 0) by norm_num]
  obtain ⟨g0, h0, hs0⟩ := C100_cox_partial X ![1, 1, 2] ![1, 0, 1] 1 none none none none le_rfl σ hσ G hG
    (fun i => ⟨i, le_rfl, zero_lt_one⟩) []
  obtain ⟨c, hc⟩ : ∃ c, QuadObj.affine (.matrix X) (fun i => -Y i) 1 none [] .none = some c := by
    unfold QuadObj.affine QuadObj.init
    simp [acceptableInitArgs, show ¬ ((1 : ℝ) < 0) by norm_num]
  obtain ⟨h1, hs1⟩ := C100_squared_error X Y 1 c hc
  obtain ⟨s, V, GV, -, h2, -, hs2⟩ := C100_smoothed (n := 1) ⟨.l1norm, ⟨some 1, none⟩, none, Quad.init none none none none⟩ false 1
    ⟨zero_le_one, rfl⟩ rfl (fun c h => by cases h) (Quad.init (some (1 / 2)) none none none) (by show (0:ℝ) < 1 / 2; norm_num)
    (fun c h => by cases h) (Quad.init none none none none) le_rfl
  have hK : ∀ d : Fin 2 → ℝ, ∑ i, (∑ j, X i j * d j) ^ 2 ≤ (∑ i, ∑ j, X i j ^ 2) * ∑ j, d j ^ 2 := by
    intro d
    rw [Finset.sum_mul]
    exact Finset.sum_le_sum fun i _ => Finset.sum_mul_sq_le_sq_mul_sq _ _ _
  let S : Fin 3 → QuadLoss 2 := ![G.toLoss none, c.toLoss, ⟨s.smoothObjective, Quad.init none none none none⟩]
  let F : Fin 3 → (Fin 2 → ℝ) → ℝ := ![coxRegression X ![1, 1, 2] ![1, 0, 1] 1 none none none,
    fun β => 1 / 2 * ∑ i, (∑ j, X i j * β j - Y i) ^ 2, V]
  let Gr : Fin 3 → (Fin 2 → ℝ) → Fin 2 → ℝ := ![g0, fun β j => ∑ i, X i j * (1 * (∑ l, X i l * β l - Y i)), GV]
  obtain ⟨hsum, hsm⟩ := C100_sum ![1, 2, 1] (fun a => by fin_cases a <;> simp) S F Gr
    (fun a => by fin_cases a; exacts [h0, h1, h2])
  have hM := hsm ![1 * (∑ i, ((![1, 0, 1] : Fin 3 → ℕ) i : ℝ) * 1) * ∑ i, ∑ j, X i j ^ 2, 1 * ∑ i, ∑ j, X i j ^ 2, 1 / (1 / 2)] (fun a => by
    fin_cases a
    · exact hs0 _ fun i => Finset.single_le_sum (f := fun i => ∑ j, X i j ^ 2)
        (fun i _ => Finset.sum_nonneg fun j _ => sq_nonneg _) (Finset.mem_univ i)
    · exact hs1 _ hK
    · exact hs2)
  have hA := C90_seminorms (p := 1) ⟨.l1norm, ⟨some 3, none⟩, none, Quad.init none none none none⟩ false 3 ⟨by norm_num, rfl⟩ le_rfl
  obtain ⟨N, hN⟩ := C100_returns _ _ _ _ _ hsum hA _ hM x0 {} rfl (by show (1:ℝ) < 11 / 10; norm_num) (by show (0:ℝ) < 1; norm_num) 0
  exact ⟨S, _, _, _, _, _, ⟨G, hG, rfl⟩, ⟨c, hc, rfl⟩, hsum, hM, hA, N, fun fuel hfu => by
    obtain ⟨c, v, hist, h, _⟩ := hN fuel hfu; exact ⟨c, _, hist, h⟩⟩

/-- logistic regression at the start `β = 0` -/
example (X : Fin n → Fin (p + 1) → ℝ) :
    ∃ G, Glm.build X (.logistic (fun _ => 1) fun _ => 2) 1 none none none = some G ∧
      ∀ i, ∑ j, X i j * ((0 : ℝ) - effOffset (none : Option (Fin (p + 1) → ℝ)) j) - effOffset (none : Option (Fin n → ℝ)) i ≤ 100 := by
  obtain ⟨G, hG⟩ := build_ok X (.logistic (fun _ => 1) fun _ => 2) (by
    rintro (⟨i, h⟩ | ⟨i, h⟩) <;> norm_num at h) zero_le_one none none none (fun _ h => by cases h)
  exact ⟨G, hG, fun i => by simp [effOffset]⟩

/-- a quadratic loss with a full matrix, an affine map and a quadratic -/
example : IsSymForm (.full ![![2, 1], ![1, 3]] : Smooth.QForm 2) ∧ (∀ z, 0 ≤ dot z ((.full ![![2, 1], ![1, 3]] : Smooth.QForm 2).app z)) ∧
    distinctSelectors (.matrix (fun (i : Fin 2) (j : Fin 3) => (i : ℝ) + j) (some fun _ => 1) : Aff ℝ 3 2) := by
  refine ⟨⟨?_, fun T h => by cases h⟩, fun z => ?_, trivial⟩
  · intro M h i j
    cases h
    fin_cases i <;> fin_cases j <;> rfl
  · simp [dot, Smooth.QForm.app, Fin.sum_univ_two]
    nlinarith [sq_nonneg (z 0), sq_nonneg (z 1), sq_nonneg (z 0 + z 1)]

end Verif.Props
