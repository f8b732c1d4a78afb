import Verif.Model.NewtonRun
import Verif.Props.C38_QuasiNewton
import Verif.Props.C69_Container
import Verif.Lemmas.Lsq

/-!
# C80: runs of the quasi-Newton solver
-/

set_option linter.unusedSectionVars false
set_option linter.unusedVariables false

namespace Verif.Props
open Verif.Model Verif.Lemmas Verif.Spec Verif.Model.QN

variable {n : ℕ}

/-! ### specification -/

/-- The object stands for: minimise `f(x) + P(x) + loss.quadratic(x) + quadratic(x)` over `S`.  The atoms report the value `f` with
gradient `g`, and the penalty `P`, which is `+∞` outside `S` when feasibility is checked. -/
structure Represents (p : QN.Problem n) (f P : (Fin n → ℝ) → ℝ) (g : (Fin n → ℝ) → Fin n → ℝ) (S : Set (Fin n → ℝ)) : Prop where
  smooth : ∀ x, p.smooth x = some (f x)
  grad : ∀ x, p.grad x = some (g x)
  pen : ∀ x ∈ S, p.pen x true = ((P x : ℝ) : WithTop ℝ)
  infeasible : ∀ x, x ∉ S → p.pen x true = ⊤

/-- the total objective -/
noncomputable def newtonTotal (p : QN.Problem n) (f P : (Fin n → ℝ) → ℝ) (x : Fin n → ℝ) : ℝ :=
  f x + (P x + quadVal (some p.lossQuad) x + quadVal (some p.quad) x)

/-- The inner solver returns a minimiser of `½ u'Bu + q(u) + P(u)` over `S` for every positive definite `B` and every quadratic `q` of
nonnegative coefficient. -/
def ExactInner (o : QN.Solvers n) (P : (Fin n → ℝ) → ℝ) (S : Set (Fin n → ℝ)) : Prop :=
  ∀ B q warm, IsPosDef B → 0 ≤ q.coef → Minimises (fun u => quadForm B u / 2 + quadVal (some q) u + P u) S (o.inner B q warm)

/-! ### values -/

private lemma nonsmooth_eq {p : QN.Problem n} {f P g S} (h : Represents p f P g S) {x : Fin n → ℝ} (hx : x ∈ S) :
    p.nonsmooth x true = ((P x + quadVal (some p.lossQuad) x + quadVal (some p.quad) x : ℝ) : WithTop ℝ) := by
  unfold QN.Problem.nonsmooth
  rw [h.pen x hx, funcVal_quad, funcVal_quad, ← WithTop.coe_add, ← WithTop.coe_add]

/-- **C80** `objective(x)` is `f + P + loss.quadratic + quadratic` at a feasible point and `+∞` at any other. -/
theorem C80_objective {p : QN.Problem n} {f P g S} (h : Represents p f P g S) (x : Fin n → ℝ) :
    (x ∈ S → p.objective x = some ((newtonTotal p f P x : ℝ) : WithTop ℝ)) ∧ (x ∉ S → p.objective x = some ⊤) := by
  unfold QN.Problem.objective
  rw [h.smooth]
  refine ⟨fun hx => ?_, fun hx => ?_⟩
  · rw [nonsmooth_eq h hx]
    show some _ = some _
    rw [← WithTop.coe_add]; rfl
  · unfold QN.Problem.nonsmooth
    rw [h.infeasible x hx]
    simp

private lemma restriction_eq {p : QN.Problem n} {f P g S} (h : Represents p f P g S) (d x : Fin n → ℝ) (t : ℝ) :
    some (p.restriction d x t) = p.objective fun i => x i + t * d i := by
  unfold QN.Problem.restriction QN.Problem.objective
  simp only [h.smooth, h.grad]

/-! ### inner problem -/

private lemma limit_zero {a b : ℝ} (h : ∀ t : ℝ, 0 < t → t ≤ 1 → 0 ≤ t * a + t ^ 2 * b) : 0 ≤ a := by
  by_contra hneg
  push Not at hneg
  have hb : 0 < 2 * (|b| + 1) := by positivity
  have ht0 : 0 < min 1 (-a / (2 * (|b| + 1))) := lt_min one_pos (div_pos (by linarith) hb)
  set t := min 1 (-a / (2 * (|b| + 1))) with ht
  have h1 : t ≤ -a / (2 * (|b| + 1)) := min_le_right _ _
  have h2 : t * (2 * (|b| + 1)) ≤ -a := by rwa [le_div_iff₀ hb] at h1
  have h3 := h t ht0 (min_le_left _ _)
  have h4 : t * b ≤ t * |b| := mul_le_mul_of_nonneg_left (le_abs_self b) ht0.le
  have h5 : t * a + t ^ 2 * b = t * (a + t * b) := by ring
  rw [h5] at h3
  have h6 : a + t * b < 0 := by nlinarith
  have := mul_neg_of_pos_of_neg ht0 h6
  linarith

private lemma innerQuad_val (p : QN.Problem n) (B : Fin n → Fin n → ℝ) (G x : Fin n → ℝ) :
    ∃ c : ℝ, ∀ u, quadVal (some (p.innerQuad B G x)) u = dot (fun i => G i - matVec B x i) u + quadVal (some p.quad) u + c := by
  obtain ⟨c, hc⟩ := C14_add_up_to_const
    (⟨0, some (.scalar 0), some (.arr fun i => G i - QN.mulVec B x i), 0⟩ : Quad (Fin n) ℝ) p.quad
  refine ⟨c, fun u => ?_⟩
  rw [← funcVal_quad, ← funcVal_quad]
  unfold QN.Problem.innerQuad
  rw [hc]
  congr 2
  rw [funcVal_quad]
  simp [quadVal, quadFn, denote, dot, QN.mulVec, matVec]

private lemma innerQuad_coef (p : QN.Problem n) (B : Fin n → Fin n → ℝ) (G x : Fin n → ℝ) : (p.innerQuad B G x).coef = p.quad.coef := by
  show (0:ℝ) + p.quad.coef = _
  rw [zero_add]

/-- **C80** (partial) the problem handed to the inner solver at the point `x` is, up to a constant, the documented second order model
`G·(u-x) + ½ (u-x)'B(u-x) + P(u) + quadratic(u)`.  Missing: the quadratic of the loss (`C80_loss_quadratic_fails`). -/
theorem C80_inner_partial (p : QN.Problem n) (P : (Fin n → ℝ) → ℝ) (B : Fin n → Fin n → ℝ) (hB : IsSymm B) (G x : Fin n → ℝ) :
    ∃ c : ℝ, ∀ u, quadForm B u / 2 + quadVal (some (p.innerQuad B G x)) u + P u =
      taylorModel (fun u => P u + quadVal (some p.quad) u) B G x u + c := by
  obtain ⟨c, hc⟩ := innerQuad_val p B G x
  refine ⟨c + dot G x - quadForm B x / 2, fun u => ?_⟩
  rw [hc]
  unfold taylorModel
  have e := quadForm_lin B hB u x 1
  simp only [one_mul] at e
  have e2 : dot (fun i => G i - matVec B x i) u = dot G u - dot (matVec B x) u := by
    unfold dot
    rw [← Finset.sum_sub_distrib]
    exact Finset.sum_congr rfl fun i _ => by ring
  rw [e, e2, dot_sub_right]
  ring

private lemma variational {P : (Fin n → ℝ) → ℝ} {S : Set (Fin n → ℝ)} {B : Fin n → Fin n → ℝ} (hB : IsPosDef B)
    {R : (Fin n → ℝ) → ℝ} (hR : IsConvexFnOn R S) {G x u : Fin n → ℝ} (hu : Minimises (taylorModel R B G x) S u) (z : Fin n → ℝ)
    (hz : z ∈ S) :
    0 ≤ R z - R u + dot (fun i => G i + matVec B (fun j => u j - x j) i) (fun i => z i - u i) := by
  refine limit_zero (b := quadForm B (fun i => z i - u i) / 2) fun t ht ht1 => ?_
  obtain ⟨hw, hRw⟩ := hR u hu.1 z hz (1 - t) t (by linarith) ht.le (by ring)
  have hm := hu.2 _ hw
  unfold taylorModel at hm
  have e1 : (fun i => (1 - t) * u i + t * z i - x i) = fun i => (u i - x i) - (-t) * (z i - u i) := by funext i; ring
  have e2 := quadForm_lin B hB.1 (fun i => u i - x i) (fun i => z i - u i) (-t)
  have e3 : dot G (fun i => (u i - x i) - (-t) * (z i - u i)) = dot G (fun i => u i - x i) + t * dot G (fun i => z i - u i) := by
    unfold dot
    rw [Finset.mul_sum, ← Finset.sum_add_distrib]
    exact Finset.sum_congr rfl fun i _ => by ring
  have e4 : dot (fun i => G i + matVec B (fun j => u j - x j) i) (fun i => z i - u i) =
      dot G (fun i => z i - u i) + dot (matVec B fun j => u j - x j) (fun i => z i - u i) := by
    unfold dot
    rw [← Finset.sum_add_distrib]
    exact Finset.sum_congr rfl fun i _ => by ring
  have e5 : dot (matVec B fun j => z j - u j) (fun i => u i - x i) = dot (matVec B fun j => u j - x j) (fun i => z i - u i) := by
    rw [matVec_symm B hB.1, dot_comm']
  rw [e1, e2, e3, e5] at hm
  rw [e4]
  nlinarith

/-- what the inner solver returns, in terms of the second order model -/
private lemma inner_min {p : QN.Problem n} {o : QN.Solvers n} {P : (Fin n → ℝ) → ℝ} {S : Set (Fin n → ℝ)} (ho : ExactInner o P S)
    (hq : 0 ≤ p.quad.coef) {s : QN.State n} (hs : IsPosDef s.hessian) (G : Fin n → ℝ) :
    Minimises (taylorModel (fun u => P u + quadVal (some p.quad) u) s.hessian G s.coefs) S (p.innerSoln o s G) := by
  have h := ho s.hessian (p.innerQuad s.hessian G s.coefs) s.coefs hs (by rw [innerQuad_coef]; exact hq)
  obtain ⟨c, hc⟩ := C80_inner_partial p P s.hessian hs.1 G s.coefs
  refine ⟨h.1, fun u hu => ?_⟩
  have := h.2 u hu
  simp only [hc] at this
  exact le_of_add_le_add_right this

private lemma quad_convex (q : Quad (Fin n) ℝ) (hq : 0 ≤ q.coef) {P : (Fin n → ℝ) → ℝ} {S : Set (Fin n → ℝ)} (hP : IsConvexFnOn P S) :
    IsConvexFnOn (fun u => P u + quadVal (some q) u) S := by
  intro x hx y hy a b ha hb hab
  obtain ⟨h1, h2⟩ := hP x hx y hy a b ha hb hab
  refine ⟨h1, ?_⟩
  obtain rfl : a = 1 - b := by linarith
  have hd := dot_mix (denote q.linear) x y b
  have hsq := sqDist_mix x y (denote q.center) b
  have hnn := mul_nonneg hq (mul_nonneg (mul_nonneg hb ha) (sqDist_nonneg y x))
  simp only [quadVal, quadFn]
  rw [hd, hsq]
  nlinarith

/-! ### search direction -/

/-- **C80** (partial) with an exact inner solver, a convex penalty and no quadratic in the loss, the search direction is a descent
direction: for all small steps the total objective decreases by at least half the step times `d'Bd`, which is positive unless the
inner solution is the current point.  Missing: a loss with its own quadratic (`C80_loss_quadratic_fails`). -/
theorem C80_descent_partial {p : QN.Problem n} {o : QN.Solvers n} {f P g S} (h : Represents p f P g S) (hP : IsConvexFnOn P S)
    (hq : 0 ≤ p.quad.coef) (hl : ∀ x, quadVal (some p.lossQuad) x = 0) (ho : ExactInner o P S) (s : QN.State n)
    (hs : IsPosDef s.hessian) (hx : s.coefs ∈ S) (hg : IsGradientAt f (g s.coefs) s.coefs) :
    let d := fun i => p.innerSoln o s (g s.coefs) i - s.coefs i
    (p.innerSoln o s (g s.coefs) ≠ s.coefs → 0 < quadForm s.hessian d) ∧
    (p.innerSoln o s (g s.coefs) ≠ s.coefs → ∃ t0 > 0, ∀ t, 0 < t → t ≤ t0 → (fun i => s.coefs i + t * d i) ∈ S ∧
      newtonTotal p f P (fun i => s.coefs i + t * d i) ≤ newtonTotal p f P s.coefs - t / 2 * quadForm s.hessian d) := by
  intro d
  have hpos : p.innerSoln o s (g s.coefs) ≠ s.coefs → 0 < quadForm s.hessian d := by
    intro hne
    refine hs.2 d fun hd => hne ?_
    funext i
    have := congrFun hd i
    simp only [Pi.zero_apply] at this
    exact sub_eq_zero.1 this
  refine ⟨hpos, fun hne => ?_⟩
  set u := p.innerSoln o s (g s.coefs) with hu
  set R := fun u => P u + quadVal (some p.quad) u with hR
  have hRc : IsConvexFnOn R S := quad_convex p.quad hq hP
  have hmin := inner_min ho hq hs (g s.coefs) (p := p)
  have hv := variational (P := P) hs hRc hmin s.coefs hx
  have hD := hpos hne
  have e : dot (fun i => g s.coefs i + matVec s.hessian (fun j => p.innerSoln o s (g s.coefs) j - s.coefs j) i)
      (fun i => s.coefs i - p.innerSoln o s (g s.coefs) i) = -(dot (g s.coefs) d) - quadForm s.hessian d := by
    rw [← hu]
    unfold quadForm dot
    rw [← Finset.sum_neg_distrib, ← Finset.sum_sub_distrib]
    refine Finset.sum_congr rfl fun i _ => ?_
    show (_ + matVec s.hessian d i) * _ = -(_ * (u i - s.coefs i)) - (u i - s.coefs i) * matVec s.hessian d i
    ring
  rw [e] at hv
  have hlim := dir_deriv hg d
  have hev : ∀ᶠ t in nhdsWithin (0:ℝ) (Set.Ioi 0),
      (f (fun i => s.coefs i + t * d i) - f s.coefs) / t < dot (g s.coefs) d + quadForm s.hessian d / 2 :=
    hlim.eventually_lt_const (by linarith)
  obtain ⟨t1, ht1, hsub⟩ := mem_nhdsGT_iff_exists_Ioc_subset.1 hev
  have ht1' : (0:ℝ) < t1 := ht1
  refine ⟨min t1 1, lt_min ht1' one_pos, fun t ht htle => ?_⟩
  have hft : (f (fun i => s.coefs i + t * d i) - f s.coefs) / t < dot (g s.coefs) d + quadForm s.hessian d / 2 :=
    hsub ⟨ht, htle.trans (min_le_left _ _)⟩
  have htt1 : t ≤ 1 := htle.trans (min_le_right _ _)
  rw [div_lt_iff₀ ht] at hft
  obtain ⟨hw, hRw⟩ := hRc s.coefs hx u hmin.1 (1 - t) t (by linarith) ht.le (by ring)
  have ez : (fun i => (1 - t) * s.coefs i + t * u i) = fun i => s.coefs i + t * d i := by
    funext i
    show _ = s.coefs i + t * (u i - s.coefs i)
    ring
  rw [ez] at hw hRw
  refine ⟨hw, ?_⟩
  unfold newtonTotal
  rw [hl, hl]
  have hRx : ∀ y, R y = P y + quadVal (some p.quad) y := fun y => rfl
  have h1 := hRx (fun i => s.coefs i + t * d i)
  have h2 := hRx s.coefs
  nlinarith

/-- **C80** (partial) the inner solution is the current point exactly when the current point minimises the total objective (convex loss
and penalty).  Missing: a loss with its own quadratic. -/
theorem C80_stationary_partial {p : QN.Problem n} {o : QN.Solvers n} {f P g S} (h : Represents p f P g S) (hf : ConvexWithGradient f g)
    (hP : IsConvexFnOn P S) (hq : 0 ≤ p.quad.coef) (hl : ∀ x, quadVal (some p.lossQuad) x = 0) (ho : ExactInner o P S)
    (s : QN.State n) (hs : IsPosDef s.hessian) :
    p.innerSoln o s (g s.coefs) = s.coefs ↔ Minimises (newtonTotal p f P) S s.coefs := by
  set R := fun u => P u + quadVal (some p.quad) u with hR
  have hRc : IsConvexFnOn R S := quad_convex p.quad hq hP
  have hmin := inner_min ho hq hs (g s.coefs) (p := p)
  have hT : newtonTotal p f P = fun u => f u + R u := by
    funext u
    unfold newtonTotal
    rw [hl, add_zero]
  rw [hT, ← C38_fixed_point f R g S hf hRc s.hessian hs s.coefs]
  constructor
  · intro e
    rw [e] at hmin
    exact hmin
  · intro hx
    by_contra hne
    -- two minimisers of a strictly convex model
    have hv := variational (P := P) hs hRc hmin s.coefs hx.1
    have hv2 := hx.2 _ hmin.1
    set u := p.innerSoln o s (g s.coefs) with hu
    have hd : (fun i => u i - s.coefs i) ≠ 0 := fun hd => hne (by
      funext i
      have := congrFun hd i
      simp only [Pi.zero_apply] at this
      exact sub_eq_zero.1 this)
    have hD := hs.2 _ hd
    have hx0 : taylorModel R s.hessian (g s.coefs) s.coefs s.coefs = R s.coefs := by
      unfold taylorModel
      have : (fun i => s.coefs i - s.coefs i) = (0 : Fin n → ℝ) := by funext i; simp
      rw [this]; simp [quadForm, dot]
    have e : dot (fun i => g s.coefs i + matVec s.hessian (fun j => u j - s.coefs j) i)
        (fun i => s.coefs i - u i) = -(dot (g s.coefs) fun i => u i - s.coefs i) - quadForm s.hessian (fun i => u i - s.coefs i) := by
      unfold quadForm dot
      rw [← Finset.sum_neg_distrib, ← Finset.sum_sub_distrib]
      exact Finset.sum_congr rfl fun i _ => by ring
    rw [e] at hv
    have hge := hx.2 u hmin.1
    rw [hx0] at hge
    unfold taylorModel at hge
    simp only [hR] at hge hv
    linarith

/-- **C80** (partial) certificate: the value at the inner solution `u` found at the point `x` exceeds the value at any feasible `z` by at most
`(L + M) ‖u - x‖ ‖z - u‖`, when the gradient is `L`-Lipschitz between `x` and `u` and `‖B w‖ ≤ M ‖w‖`; so a small last step certifies the
returned point.  Missing: a loss with its own quadratic. -/
theorem C80_certificate_partial {p : QN.Problem n} {o : QN.Solvers n} {f P g S} (h : Represents p f P g S) (hf : ConvexWithGradient f g)
    (hP : IsConvexFnOn P S) (hq : 0 ≤ p.quad.coef) (hl : ∀ x, quadVal (some p.lossQuad) x = 0) (ho : ExactInner o P S)
    (s : QN.State n) (hs : IsPosDef s.hessian) (L M : ℝ) :
    let u := p.innerSoln o s (g s.coefs)
    Real.sqrt (sqDist (g u) (g s.coefs)) ≤ L * Real.sqrt (sqDist u s.coefs) →
    (∀ w, Real.sqrt (dot (matVec s.hessian w) (matVec s.hessian w)) ≤ M * Real.sqrt (dot w w)) →
    ∀ z ∈ S, newtonTotal p f P u ≤ newtonTotal p f P z + (L + M) * Real.sqrt (sqDist u s.coefs) * Real.sqrt (sqDist z u) := by
  intro u hL hM z hz
  set R := fun u => P u + quadVal (some p.quad) u with hR
  have hRc : IsConvexFnOn R S := quad_convex p.quad hq hP
  have hmin := inner_min ho hq hs (g s.coefs) (p := p)
  have hv := variational (P := P) hs hRc hmin z hz
  have ht := tangent hf u z
  have hcs : ∀ a b : Fin n → ℝ, |dot a b| ≤ Real.sqrt (dot a a) * Real.sqrt (dot b b) := by
    intro a b
    have h1 := Finset.sum_mul_sq_le_sq_mul_sq Finset.univ a b
    have ea : dot a a = ∑ i, a i ^ 2 := Finset.sum_congr rfl fun i _ => by ring
    have eb : dot b b = ∑ i, b i ^ 2 := Finset.sum_congr rfl fun i _ => by ring
    rw [← Real.sqrt_mul (by rw [ea]; exact Finset.sum_nonneg fun i _ => sq_nonneg _), ea, eb]
    exact Real.abs_le_sqrt h1
  have esq : ∀ a b : Fin n → ℝ, dot (fun i => a i - b i) (fun i => a i - b i) = sqDist a b := fun a b =>
    Finset.sum_congr rfl fun i _ => by ring
  set w := fun i => z i - u i with hw
  set d := fun i => u i - s.coefs i with hd
  have e1 : dot (fun i => g s.coefs i + matVec s.hessian d i) w = dot (g s.coefs) w + dot (matVec s.hessian d) w := by
    unfold dot
    rw [← Finset.sum_add_distrib]
    exact Finset.sum_congr rfl fun i _ => by ring
  have e2 : dot (fun i => g u i - g s.coefs i) w = dot (g u) w - dot (g s.coefs) w := by
    unfold dot
    rw [← Finset.sum_sub_distrib]
    exact Finset.sum_congr rfl fun i _ => by ring
  have hv' : 0 ≤ R z - R u + dot (fun i => g s.coefs i + matVec s.hessian d i) w := hv
  have b1 := (abs_le.1 (hcs (fun i => g u i - g s.coefs i) w)).1
  have b2 := (abs_le.1 (hcs (matVec s.hessian d) w)).2
  rw [esq, esq] at b1
  rw [esq z u] at b2
  have c1 := mul_le_mul_of_nonneg_right hL (Real.sqrt_nonneg (sqDist z u))
  have c2 := mul_le_mul_of_nonneg_right (hM d) (Real.sqrt_nonneg (sqDist z u))
  rw [esq u s.coefs] at c2
  unfold newtonTotal
  rw [hl, hl]
  have hRx : ∀ y, R y = P y + quadVal (some p.quad) y := fun y => rfl
  have r1 := hRx u
  have r2 := hRx z
  have ht' : f u + dot (g u) w ≤ f z := ht
  nlinarith

/-! ### whole runs -/

private lemma runLoop_results [NeZero n] {p : QN.Problem n} {o : QN.Solvers n} {f P g S} (h : Represents p f P g S) (k : ℕ) :
    ∀ (q : Option (Fin n → ℝ)) (s : QN.State n) (res : List (WithTop ℝ)) (v0 : WithTop ℝ),
      p.objective s.coefs = some ((v0 :: res).getLast (List.cons_ne_nil _ _)) →
      ∀ s' q' res', QN.runLoop p o k q s res = .done s' q' res' →
        p.objective s'.coefs = some ((v0 :: res').getLast (List.cons_ne_nil _ _)) ∧ res'.length ≤ res.length + k := by
  induction k with
  | zero =>
    intro q s res v0 hv s' q' res' hr
    cases q with
    | none => simp [QN.runLoop] at hr
    | some q =>
      simp only [QN.runLoop, RunOutcome.done.injEq] at hr
      obtain ⟨rfl, -, rfl⟩ := hr
      exact ⟨hv, le_rfl⟩
  | succ k ih =>
    intro q s res v0 hv s' q' res' hr
    simp only [QN.runLoop, h.grad] at hr
    split_ifs at hr with hc
    · simp only [RunOutcome.done.injEq] at hr
      obtain ⟨rfl, -, rfl⟩ := hr
      exact ⟨hv, by omega⟩
    · split at hr
      · rename_i B hB
        have := ih _ _ _ v0 (by
          have e := restriction_eq h (fun i => p.innerSoln o s (g s.coefs) i - s.coefs i) s.coefs
            (p.step o s (p.innerSoln o s (g s.coefs)))
          simp only [← List.cons_append, List.getLast_append_singleton]
          rw [e]; rfl) _ _ _ hr
        refine ⟨this.1, this.2.trans ?_⟩
        simp only [List.length_append, List.length_singleton]
        omega
      · simp at hr
      · simp at hr

/-- **C80** the values recorded in `solver_results` are objective values: after a run the last recorded value is the total objective at the
last point of the line search (the objective at the start when nothing was recorded), and at most `niter` values are recorded. -/
theorem C80_results [NeZero n] {p : QN.Problem n} {o : QN.Solvers n} {f P g S} (h : Represents p f P g S) (H0 : Fin n → Fin n → ℝ)
    (x0 : Fin n → ℝ) (niter : ℕ) (v0 : WithTop ℝ) (hv : p.objective x0 = some v0) (s : QN.State n) (q : Fin n → ℝ)
    (res : List (WithTop ℝ)) (hr : p.run o H0 x0 niter = .done s q res) :
    p.objective s.coefs = some ((v0 :: res).getLast (List.cons_ne_nil _ _)) ∧ res.length ≤ niter := by
  have := runLoop_results h niter none ⟨QN.initHessian H0, x0⟩ [] v0 (by simpa using hv) s q res hr
  simpa using this

private lemma runLoop_mono [NeZero n] {p : QN.Problem n} {o : QN.Solvers n} {f P g S} (h : Represents p f P g S)
    (hsearch : ∀ φ : ℝ → WithTop ℝ, φ (o.search φ) ≤ φ 0) (k : ℕ) :
    ∀ (q : Option (Fin n → ℝ)) (s : QN.State n) (res : List (WithTop ℝ)) (v0 : WithTop ℝ),
      p.objective s.coefs = some ((v0 :: res).getLast (List.cons_ne_nil _ _)) → (v0 :: res).IsChain (fun a b => b ≤ a) →
      ∀ s' q' res', QN.runLoop p o k q s res = .done s' q' res' → (v0 :: res').IsChain (fun a b => b ≤ a) := by
  induction k with
  | zero =>
    intro q s res v0 hv hch s' q' res' hr
    cases q with
    | none => simp [QN.runLoop] at hr
    | some q =>
      simp only [QN.runLoop, RunOutcome.done.injEq] at hr
      obtain ⟨rfl, -, rfl⟩ := hr
      exact hch
  | succ k ih =>
    intro q s res v0 hv hch s' q' res' hr
    simp only [QN.runLoop, h.grad] at hr
    split_ifs at hr with hc
    · simp only [RunOutcome.done.injEq] at hr
      obtain ⟨rfl, -, rfl⟩ := hr
      exact hch
    · split at hr
      · rename_i B hB
        have e := restriction_eq h (fun i => p.innerSoln o s (g s.coefs) i - s.coefs i) s.coefs
            (p.step o s (p.innerSoln o s (g s.coefs)))
        have e0 := restriction_eq h (fun i => p.innerSoln o s (g s.coefs) i - s.coefs i) s.coefs 0
        have hz : (fun i => s.coefs i + 0 * (p.innerSoln o s (g s.coefs) i - s.coefs i)) = s.coefs := by funext i; ring
        rw [hz, hv] at e0
        have hle := hsearch (p.restriction (fun i => p.innerSoln o s (g s.coefs) i - s.coefs i) s.coefs)
        refine ih _ _ _ v0 ?_ ?_ _ _ _ hr
        · simp only [← List.cons_append, List.getLast_append_singleton]
          rw [e]; rfl
        · rw [← List.cons_append, List.isChain_append]
          refine ⟨hch, List.isChain_singleton _, fun a ha b hb => ?_⟩
          rw [List.getLast?_eq_some_getLast (List.cons_ne_nil _ _)] at ha
          simp only [Option.mem_def, Option.some.injEq] at ha
          simp only [List.head?_cons, Option.mem_def, Option.some.injEq] at hb
          rw [← hb, ← ha, ← Option.some.inj e0]
          exact hle
      · simp at hr
      · simp at hr

/-- **C80** if the line search never returns a step worse than the step 0, the recorded values never increase and none exceeds the
objective at the start. -/
theorem C80_monotone [NeZero n] {p : QN.Problem n} {o : QN.Solvers n} {f P g S} (h : Represents p f P g S)
    (hsearch : ∀ φ : ℝ → WithTop ℝ, φ (o.search φ) ≤ φ 0) (H0 : Fin n → Fin n → ℝ) (x0 : Fin n → ℝ) (niter : ℕ) (v0 : WithTop ℝ)
    (hv : p.objective x0 = some v0) (s : QN.State n) (q : Fin n → ℝ) (res : List (WithTop ℝ))
    (hr : p.run o H0 x0 niter = .done s q res) :
    res.Pairwise (fun a b => b ≤ a) ∧ ∀ v ∈ res, v ≤ v0 := by
  have hch := runLoop_mono h hsearch niter none ⟨QN.initHessian H0, x0⟩ [] v0 (by simpa using hv) (List.isChain_singleton _) s q res hr
  haveI : IsTrans (WithTop ℝ) (fun a b => b ≤ a) := ⟨fun a b c h1 h2 => h2.trans h1⟩
  rw [List.isChain_iff_pairwise, List.pairwise_cons] at hch
  exact ⟨hch.2, hch.1⟩

private lemma runLoop_source [NeZero n] {p : QN.Problem n} {o : QN.Solvers n} {f P g S} (h : Represents p f P g S) (k : ℕ) :
    ∀ (q : Option (Fin n → ℝ)) (s : QN.State n) (res : List (WithTop ℝ)) s' q' res',
      0 < k → QN.runLoop p o k q s res = .done s' q' res' →
      ∃ j < k, ∃ t : QN.State n, (j = 0 ∧ t = s ∨ ∃ q'' r'', QN.runLoop p o j q s res = .done t q'' r'') ∧
        q' = p.innerSoln o t (g t.coefs) ∧ (res'.length = res.length + k → s'.coefs = p.next o t q') := by
  induction k with
  | zero => intro q s res s' q' res' h0; omega
  | succ k ih =>
    intro q s res s' q' res' _ hr
    have hr0 := hr
    simp only [QN.runLoop, h.grad] at hr
    split_ifs at hr with hc
    · simp only [RunOutcome.done.injEq] at hr
      obtain ⟨rfl, rfl, rfl⟩ := hr
      exact ⟨0, by omega, s, Or.inl ⟨rfl, rfl⟩, rfl, fun hlen => by omega⟩
    · split at hr
      · rename_i B hB
        have hstep : ∀ j, QN.runLoop p o (j + 1) q s res = QN.runLoop p o j (some (p.innerSoln o s (g s.coefs)))
            ⟨B, p.next o s (p.innerSoln o s (g s.coefs))⟩
            (res ++ [p.restriction (fun i => p.innerSoln o s (g s.coefs) i - s.coefs i) s.coefs
              (p.step o s (p.innerSoln o s (g s.coefs)))]) := by
          intro j
          simp only [QN.runLoop, h.grad]
          rw [if_neg hc, hB]
        rcases Nat.eq_zero_or_pos k with rfl | hk
        · simp only [QN.runLoop, RunOutcome.done.injEq] at hr
          obtain ⟨rfl, rfl, rfl⟩ := hr
          exact ⟨0, by omega, s, Or.inl ⟨rfl, rfl⟩, rfl, fun _ => rfl⟩
        · obtain ⟨j, hj, t, ht, hq, hlast⟩ := ih _ _ _ _ _ _ hk hr
          refine ⟨j + 1, by omega, t, Or.inr ?_, hq, fun hlen => hlast ?_⟩
          · rcases ht with ⟨rfl, rfl⟩ | ⟨q'', r'', hj'⟩
            · exact ⟨_, _, by rw [hstep, QN.runLoop]⟩
            · exact ⟨q'', r'', by rw [hstep]; exact hj'⟩
          · simp only [List.length_append, List.length_singleton]
            omega
      · simp at hr
      · simp at hr

/-- `t` is the state of the object at the start or at the end of the loop of a run of `k` iterations. -/
def StateAfter [NeZero n] (p : QN.Problem n) (o : QN.Solvers n) (H0 : Fin n → Fin n → ℝ) (x0 : Fin n → ℝ) (k : ℕ) (t : QN.State n) : Prop :=
  k = 0 ∧ t = ⟨QN.initHessian H0, x0⟩ ∨ ∃ q res, p.run o H0 x0 k = .done t q res

private lemma runLoop_posDef [NeZero n] {p : QN.Problem n} {o : QN.Solvers n} {f P g S} (h : Represents p f P g S)
    (hg : StrictlyMonotone g) (k : ℕ) :
    ∀ (q : Option (Fin n → ℝ)) (s : QN.State n) (res : List (WithTop ℝ)), IsPosDef s.hessian →
      ∀ s' q' res', QN.runLoop p o k q s res = .done s' q' res' → IsPosDef s'.hessian := by
  induction k with
  | zero =>
    intro q s res hs s' q' res' hr
    cases q with
    | none => simp [QN.runLoop] at hr
    | some q =>
      simp only [QN.runLoop, RunOutcome.done.injEq] at hr
      obtain ⟨rfl, -, -⟩ := hr
      exact hs
  | succ k ih =>
    intro q s res hs s' q' res' hr
    simp only [QN.runLoop, h.grad] at hr
    split_ifs at hr with hc
    · simp only [RunOutcome.done.injEq] at hr
      obtain ⟨rfl, -, -⟩ := hr
      exact hs
    · split at hr
      · rename_i B hB
        refine ih _ _ _ ?_ _ _ _ hr
        refine C38_posDef_step _ _ ⟨s.coefs, p.next o s (p.innerSoln o s (g s.coefs)), g s.coefs,
          g (p.next o s (p.innerSoln o s (g s.coefs)))⟩ hs ?_ hB
        refine hg _ _ fun e => ?_
        rw [← e] at hB
        unfold QN.updateHessian at hB
        simp only [sub_self] at hB
        have hz : QN.vdot (fun _ : Fin n => (0:ℝ)) (fun _ => 0) = 0 := by simp [QN.vdot]
        rw [hz, if_neg (by norm_num), if_pos (Or.inl rfl)] at hB
        simp at hB
      · simp at hr
      · simp at hr

/-- **C80** the returned point is feasible and is the exact minimiser of the second order model
`G·(u-x) + ½ (u-x)'B(u-x) + P(u) + quadratic(u)` around the state `(B, x)` after fewer iterations, with `B` positive definite, whatever
the line search does (strictly monotone gradient, exact inner solver). -/
theorem C80_returned [NeZero n] {p : QN.Problem n} {o : QN.Solvers n} {f P g S} (h : Represents p f P g S) (hg : StrictlyMonotone g)
    (hq : 0 ≤ p.quad.coef) (ho : ExactInner o P S) (H0 : Fin n → Fin n → ℝ) (h0 : IsPosSemidef H0) (hd : ∃ k, H0 k k ≠ 0)
    (x0 : Fin n → ℝ) (niter : ℕ) (s : QN.State n) (q : Fin n → ℝ) (res : List (WithTop ℝ))
    (hr : p.run o H0 x0 niter = .done s q res) :
    q ∈ S ∧ ∃ k < niter, ∃ t : QN.State n, StateAfter p o H0 x0 k t ∧ IsPosDef t.hessian ∧
      Minimises (taylorModel (fun u => P u + quadVal (some p.quad) u) t.hessian (g t.coefs) t.coefs) S q := by
  have hpos : 0 < niter := by
    rcases Nat.eq_zero_or_pos niter with rfl | hk
    · simp [QN.Problem.run, QN.runLoop] at hr
    · exact hk
  obtain ⟨j, hj, t, ht, hqt, -⟩ := runLoop_source h niter _ _ _ _ _ _ hpos hr
  have htp : IsPosDef t.hessian := by
    rcases ht with ⟨-, rfl⟩ | ⟨q'', r'', hj'⟩
    · exact C38_init H0 h0 hd
    · exact runLoop_posDef h hg j _ _ _ (C38_init H0 h0 hd) _ _ _ hj'
  have hmin := inner_min ho hq htp (g t.coefs) (p := p)
  rw [← hqt] at hmin
  exact ⟨hmin.1, j, hj, t, ht, htp, hmin⟩

/-- **C80** when no iteration met the convergence test, and the line search is never worse than its starting step 1, the value recorded
last is at most the objective at the returned point: the loop ends at a point at least as good as the one returned. -/
theorem C80_returned_not_better [NeZero n] {p : QN.Problem n} {o : QN.Solvers n} {f P g S} (h : Represents p f P g S)
    (hsearch : ∀ φ : ℝ → WithTop ℝ, φ (o.search φ) ≤ φ 1) (H0 : Fin n → Fin n → ℝ)
    (x0 : Fin n → ℝ) (niter : ℕ) (hn : 0 < niter) (s : QN.State n) (q : Fin n → ℝ) (res : List (WithTop ℝ))
    (hr : p.run o H0 x0 niter = .done s q res) (hlen : res.length = niter) (a b : WithTop ℝ) (ha : p.objective s.coefs = some a)
    (hb : p.objective q = some b) : a ≤ b ∧ res.getLast? = some a := by
  obtain ⟨j, hj, t, ht, hqt, hnext⟩ := runLoop_source h niter _ _ _ _ _ _ hn hr
  have hs := hnext (by simpa using hlen)
  have e := restriction_eq h (fun i => q i - t.coefs i) t.coefs (p.step o t q)
  have e1 := restriction_eq h (fun i => q i - t.coefs i) t.coefs 1
  have hz : (fun i => t.coefs i + 1 * (q i - t.coefs i)) = q := by funext i; ring
  rw [hz, hb] at e1
  have e' : some (p.restriction (fun i => q i - t.coefs i) t.coefs (p.step o t q)) = p.objective s.coefs := by rw [hs]; exact e
  rw [ha] at e'
  constructor
  · rw [← Option.some.inj e', ← Option.some.inj e1]
    exact hsearch _
  · have hobj : ∃ v0, p.objective x0 = some v0 := by
      unfold QN.Problem.objective
      rw [h.smooth]
      exact ⟨_, rfl⟩
    obtain ⟨v0, hv0⟩ := hobj
    have := (C80_results h H0 x0 niter v0 hv0 s q res hr).1
    rw [ha] at this
    have hne : res ≠ [] := by
      intro hnil
      rw [hnil] at hlen
      simp at hlen
      omega
    rw [List.getLast?_eq_some_getLast hne, Option.some.inj this, List.getLast_cons hne]

/-! ### concrete objects -/

/-- least squares `½(x - y)²` in dimension one with the quadratic `lq`, no penalty -/
private noncomputable def oneProblem (y : Fin 1 → ℝ) (lq : Quad (Fin 1) ℝ) : QN.Problem 1 :=
  ⟨fun x => some (lsqLoss y x), fun x => some fun i => x i - y i, fun _ _ => 0, lq, ⟨0, some (.scalar 0), some (.scalar 0), 0⟩⟩

/-- exact inner solver in dimension one without penalty -/
private noncomputable def oneSolvers (search : (ℝ → WithTop ℝ) → ℝ) : QN.Solvers 1 :=
  ⟨fun B q _ _ => (q.coef * denote q.center 0 - denote q.linear 0) / (B 0 0 + q.coef), search⟩

private lemma oneProblem_represents (y lq) : Represents (oneProblem y lq) (lsqLoss y) (fun _ => 0) (fun x i => x i - y i) Set.univ :=
  ⟨fun _ => rfl, fun _ => rfl, fun _ _ => rfl, fun x hx => absurd (Set.mem_univ x) hx⟩

private lemma one_posDef (B : Fin 1 → Fin 1 → ℝ) : IsPosDef B ↔ 0 < B 0 0 := by
  constructor
  · intro h
    have := h.2 (fun _ => 1) (fun e => by simpa using congrFun e 0)
    simpa [quadForm, dot, matVec] using this
  · intro h
    refine ⟨fun i j => by rw [Subsingleton.elim i j], fun x hx => ?_⟩
    have hx0 : x 0 ≠ 0 := fun e => hx (by funext i; rw [Subsingleton.elim i 0, e]; rfl)
    simp only [quadForm, dot, matVec, Finset.univ_unique, Fin.default_eq_zero, Finset.sum_singleton]
    have := mul_pos h (mul_self_pos.2 hx0)
    nlinarith

private lemma oneSolvers_exact (search) : ExactInner (oneSolvers search) (fun _ => 0) Set.univ := by
  intro B q warm hB hq
  rw [one_posDef] at hB
  refine ⟨Set.mem_univ _, fun u _ => ?_⟩
  have hpos : 0 < B 0 0 + q.coef := by linarith
  simp only [oneSolvers, quadForm, dot, matVec, quadVal, quadFn, sqDist, Finset.univ_unique, Fin.default_eq_zero, Finset.sum_singleton]
  set c := q.coef
  set v := denote q.center 0
  set l := denote q.linear 0
  set b := B 0 0
  set w := (c * v - l) / (b + c) with hw
  have e : (b + c) * w = c * v - l := by rw [hw]; field_simp
  have hsq := mul_nonneg hpos.le (sq_nonneg (u 0 - w))
  have e1 : (b + c) * w * w = (c * v - l) * w := by rw [e]
  have e2 : (b + c) * w * u 0 = (c * v - l) * u 0 := by rw [e]
  nlinarith

private lemma one_strict (y : Fin 1 → ℝ) : StrictlyMonotone (n := 1) (fun x i => x i - y i) := by
  intro x z h
  have : dot (fun i => z i - y i - (x i - y i)) (fun i => z i - x i) = sqDist z x := by
    unfold dot sqDist; exact Finset.sum_congr rfl fun i _ => by ring
  rw [this]; exact sqDist_pos h.symm

private lemma one_innerSoln (y lq search) (s : QN.State 1) (hs : 0 < s.hessian 0 0) :
    (oneProblem y lq).innerSoln (oneSolvers search) s (fun i => s.coefs i - y i) =
      fun _ => s.coefs 0 - (s.coefs 0 - y 0) / s.hessian 0 0 := by
  funext i
  simp only [QN.Problem.innerSoln, oneSolvers, innerQuad_coef]
  obtain ⟨c, hc⟩ := innerQuad_val (oneProblem y lq) s.hessian (fun i => s.coefs i - y i) s.coefs
  have h0 := hc (fun _ => 0)
  have h1 := hc (fun _ => 1)
  simp only [quadVal, quadFn, innerQuad_coef] at h0 h1
  simp only [oneProblem, dot, matVec, Finset.univ_unique, Fin.default_eq_zero, Finset.sum_singleton, zero_div, zero_mul, zero_add,
    mul_zero, mul_one] at h0 h1
  have hl : denote ((oneProblem y lq).innerQuad s.hessian (fun i => s.coefs i - y i) s.coefs).linear 0 =
      s.coefs 0 - y 0 - s.hessian 0 0 * s.coefs 0 := by
    simp only [oneProblem] at *
    simp [denote] at h0 h1 ⊢
    linarith
  rw [hl]
  simp only [oneProblem]
  field_simp
  ring

private lemma zeroQ_val (x : Fin n → ℝ) : quadVal (some (⟨0, some (.scalar 0), some (.scalar 0), 0⟩ : Quad (Fin n) ℝ)) x = 0 := by
  simp [quadVal, quadFn, denote, dot]

/-- **C80** (failure) the quadratic of the loss counts in the objective but not in the inner problem: for `½(x-1)²` with the loss
quadratic `½x²` the point 1 is a fixed point of the exact iteration and does not minimise the total objective. -/
theorem C80_loss_quadratic_fails : ∃ (p : QN.Problem 1) (f P : (Fin 1 → ℝ) → ℝ) (g : (Fin 1 → ℝ) → Fin 1 → ℝ) (o : QN.Solvers 1)
    (s : QN.State 1), Represents p f P g Set.univ ∧ ConvexWithGradient f g ∧ ExactInner o P Set.univ ∧ IsPosDef s.hessian ∧
    p.innerSoln o s (g s.coefs) = s.coefs ∧ ¬ Minimises (newtonTotal p f P) Set.univ s.coefs := by
  refine ⟨oneProblem (fun _ => 1) ⟨1, some (.scalar 0), some (.scalar 0), 0⟩, lsqLoss (fun _ => 1), fun _ => 0, fun x i => x i - 1,
    oneSolvers fun _ => 1, ⟨fun _ _ => 1, fun _ => 1⟩, oneProblem_represents _ _, lsqLoss_convex _, oneSolvers_exact _,
    (one_posDef _).2 one_pos, ?_, fun h => ?_⟩
  · have := one_innerSoln (fun _ => 1) ⟨1, some (.scalar 0), some (.scalar 0), 0⟩ (fun _ => 1) ⟨fun _ _ => 1, fun _ => 1⟩ one_pos
    simp only [sub_self, zero_div, sub_zero] at this ⊢
    exact this
  · have := h.2 (fun _ => 1 / 2) (Set.mem_univ _)
    unfold newtonTotal at this
    simp only [oneProblem, zeroQ_val] at this
    simp [lsqLoss, quadVal, quadFn, denote, dot, sqDist] at this
    norm_num at this

/-- **C80** (failure) the returned point is the last inner solution, not the point of the line search: minimising `½x²` from 1 with
initial Hessian `1/20` and an exact line search, one iteration reaches the minimiser 0 and records the value 0, and `-9` is returned, whose
objective `81/2` exceeds the value `1/2` at the start. -/
theorem C80_return_fails : ∃ (p : QN.Problem 1) (f P : (Fin 1 → ℝ) → ℝ) (g : (Fin 1 → ℝ) → Fin 1 → ℝ)
    (inner : (Fin 1 → Fin 1 → ℝ) → Quad (Fin 1) ℝ → (Fin 1 → ℝ) → Fin 1 → ℝ) (H0 : Fin 1 → Fin 1 → ℝ) (x0 : Fin 1 → ℝ),
    Represents p f P g Set.univ ∧ ConvexWithGradient f g ∧ StrictlyMonotone g ∧ IsPosDef H0 ∧
    ∀ search : (ℝ → WithTop ℝ) → ℝ, (∀ φ : ℝ → WithTop ℝ, (∃ t0, ∀ t, φ t0 ≤ φ t) → ∀ t, φ (search φ) ≤ φ t) → ExactInner ⟨inner, search⟩ P Set.univ ∧
      ∃ s, p.run ⟨inner, search⟩ H0 x0 1 = .done s (fun _ => -9) [0] ∧ s.coefs = 0 ∧
        p.objective x0 = some (((1 / 2 : ℝ)) : WithTop ℝ) ∧ p.objective (fun _ => -9) = some (((81 / 2 : ℝ)) : WithTop ℝ) := by
  have hz : (fun _ : Fin 1 => (0:ℝ)) = 0 := rfl
  refine ⟨oneProblem (fun _ => 0) ⟨0, some (.scalar 0), some (.scalar 0), 0⟩, lsqLoss fun _ => 0, fun _ => 0, fun x i => x i - 0,
    (oneSolvers fun _ => 1).inner, fun _ _ => 1 / 20, fun _ => 1, oneProblem_represents _ _, lsqLoss_convex _, one_strict _,
    (one_posDef _).2 (by norm_num), fun search hsearch => ⟨oneSolvers_exact search, ?_⟩⟩
  set p := oneProblem (fun _ => 0) ⟨0, some (.scalar 0), some (.scalar 0), 0⟩ with hp
  have hrep : Represents p (lsqLoss fun _ => 0) (fun _ => 0) (fun x i => x i - 0) Set.univ := oneProblem_represents _ _
  have hobj : ∀ x : Fin 1 → ℝ, p.objective x = some ((x 0 ^ 2 / 2 : ℝ) : WithTop ℝ) := by
    intro x
    rw [(C80_objective hrep x).1 (Set.mem_univ _)]
    unfold newtonTotal
    simp only [hp, oneProblem, zeroQ_val]
    simp [lsqLoss]
  set s0 : QN.State 1 := ⟨QN.initHessian fun _ _ => 1 / 20, fun _ => 1⟩ with hs0
  have hh : s0.hessian 0 0 = 1 / 10 := by
    simp [hs0, QN.initHessian]
    norm_num
  have hq : p.innerSoln (oneSolvers search) s0 (fun i => s0.coefs i - 0) = fun _ => -9 := by
    rw [hp, one_innerSoln _ _ _ _ (by rw [hh]; norm_num)]
    funext i
    rw [hh]
    simp only [hs0]
    norm_num
  have hrest : ∀ t, some (p.restriction (fun i => (-9 : ℝ) - s0.coefs i) s0.coefs t) = some (((1 - 10 * t) ^ 2 / 2 : ℝ) : WithTop ℝ) := by
    intro t
    rw [restriction_eq hrep, hobj]
    simp only [hs0]
    norm_num
    ring_nf
  have hstep : p.step (oneSolvers search) s0 (fun _ => -9) = 1 / 10 := by
    show search (p.restriction (fun i => (-9 : ℝ) - s0.coefs i) s0.coefs) = _
    have h1 := hsearch (p.restriction (fun i => (-9 : ℝ) - s0.coefs i) s0.coefs) ⟨1 / 10, fun t => by
      rw [Option.some.inj (hrest _), Option.some.inj (hrest _), WithTop.coe_le_coe]
      have h4 : (1 - 10 * (1 / 10) : ℝ) ^ 2 / 2 = 0 := by norm_num
      rw [h4]
      positivity⟩ (1 / 10)
    rw [Option.some.inj (hrest _), Option.some.inj (hrest _), WithTop.coe_le_coe] at h1
    generalize search (p.restriction (fun i => (-9 : ℝ) - s0.coefs i) s0.coefs) = w at h1 ⊢
    have h3 : (1 - 10 * w) ^ 2 = 0 := by
      have h4 : (1 - 10 * (1 / 10) : ℝ) ^ 2 / 2 = 0 := by norm_num
      rw [h4] at h1
      nlinarith [sq_nonneg (1 - 10 * w)]
    have := pow_eq_zero_iff (two_ne_zero) |>.1 h3
    linarith
  have hnext : p.next (oneSolvers search) s0 (fun _ => -9) = fun _ => 0 := by
    unfold QN.Problem.next
    rw [hstep]
    funext i
    simp only [hs0]
    norm_num
  have hgrad : ∀ x, p.grad x = some fun i => x i - 0 := fun x => rfl
  have hupd : ∃ B, QN.updateHessian s0.hessian s0.coefs (fun _ => 0) (fun i => s0.coefs i - 0) (fun _ => (0:ℝ) - 0) = .ok B := by
    unfold QN.updateHessian
    simp only
    rw [if_neg (by simp [QN.vdot, hs0]; norm_num), if_neg (by
      have : QN.mulVec s0.hessian (fun i => 0 - s0.coefs i) = fun _ => -(1 / 10) := by
        funext i
        rw [Subsingleton.elim i 0]
        simp only [QN.mulVec, Finset.univ_unique, Fin.default_eq_zero, Finset.sum_singleton, hh]
        simp [hs0]
      rw [this]
      simp [QN.vdot, hs0])]
    exact ⟨_, rfl⟩
  obtain ⟨B, hB⟩ := hupd
  refine ⟨⟨B, fun _ => 0⟩, ?_, rfl, ?_, ?_⟩
  · show QN.runLoop p (oneSolvers search) 1 none s0 [] = _
    simp only [QN.runLoop, hgrad, hq, hnext]
    rw [if_neg, hB]
    · have := hrest (p.step (oneSolvers search) s0 fun _ => -9)
      rw [hstep] at this
      simp only [hstep, Option.some.inj this]
      norm_num
    · rw [hq, hnext]
      unfold QN.converged
      simp [hs0]
  · rw [hobj]; norm_num
  · rw [hobj]; norm_num

/-- concrete case: the one-dimensional least squares object, its exact inner solver and an exact line search meet the hypotheses of
`C80_returned`, `C80_descent_partial` and `C80_stationary_partial` -/
example : Represents (oneProblem (fun _ => 3) ⟨0, some (.scalar 0), some (.scalar 0), 0⟩) (lsqLoss fun _ => 3) (fun _ => 0)
      (fun x i => x i - 3) Set.univ ∧ ConvexWithGradient (lsqLoss fun _ : Fin 1 => 3) (fun x i => x i - 3) ∧
    StrictlyMonotone (n := 1) (fun x i => x i - 3) ∧ IsConvexFnOn (fun _ : Fin 1 → ℝ => 0) Set.univ ∧
    ExactInner (oneSolvers fun _ => 1) (fun _ => 0) Set.univ ∧
    (∀ x, quadVal (some (oneProblem (fun _ => 3) ⟨0, some (.scalar 0), some (.scalar 0), 0⟩).lossQuad) x = 0) :=
  ⟨oneProblem_represents _ _, lsqLoss_convex _, one_strict _, fun _ _ _ _ _ _ _ _ _ => ⟨Set.mem_univ _, by simp⟩,
    oneSolvers_exact _, fun x => zeroQ_val x⟩

/-- concrete case of the Lipschitz hypotheses of `C80_certificate_partial`: least squares has `L = 1`, the matrix `(2)` has `M = 2` -/
example (x u : Fin 1 → ℝ) : Real.sqrt (sqDist (fun i => u i - 3) (fun i => x i - 3)) ≤ 1 * Real.sqrt (sqDist u x) ∧
    ∀ w : Fin 1 → ℝ, Real.sqrt (dot (matVec (fun _ _ => 2) w) (matVec (fun _ _ => 2) w)) ≤ 2 * Real.sqrt (dot w w) := by
  refine ⟨?_, fun w => ?_⟩
  · rw [one_mul]
    refine Real.sqrt_le_sqrt ?_
    unfold sqDist
    simp
  · have : dot (matVec (fun _ _ : Fin 1 => (2:ℝ)) w) (matVec (fun _ _ => 2) w) = 2 ^ 2 * dot w w := by
      simp [dot, matVec]; ring
    rw [this, Real.sqrt_mul (by norm_num), Real.sqrt_sq (by norm_num)]

open Classical in
/-- line searches as required by `C80_monotone`, `C80_returned_not_better` and `C80_return_fails` exist -/
example : ∃ search : (ℝ → WithTop ℝ) → ℝ, (∀ φ : ℝ → WithTop ℝ, φ (search φ) ≤ φ 0) ∧ (∀ φ : ℝ → WithTop ℝ, φ (search φ) ≤ φ 1) ∧
    ∀ φ : ℝ → WithTop ℝ, (∃ t0, ∀ t, φ t0 ≤ φ t) → ∀ t, φ (search φ) ≤ φ t := by
  refine ⟨fun φ => if h : ∃ t0, ∀ t, φ t0 ≤ φ t then h.choose else if φ 1 ≤ φ 0 then 1 else 0, fun φ => ?_, fun φ => ?_,
    fun φ h t => ?_⟩
  · dsimp only
    split_ifs with h h1
    · exact h.choose_spec 0
    · exact h1
    · exact le_rfl
  · dsimp only
    split_ifs with h h1
    · exact h.choose_spec 1
    · exact le_rfl
    · exact (not_le.1 h1).le
  · simp only [dif_pos h]
    exact h.choose_spec t

end Verif.Props
