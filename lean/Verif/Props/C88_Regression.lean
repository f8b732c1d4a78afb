import Verif.Lemmas.Regression
import Verif.Props.C28_Gradients
import Verif.Props.C68_DualProblem
import Verif.Props.C84_Fit
import Verif.Spec.Dualised
import Mathlib.Analysis.Normed.Group.Constructions
import Mathlib.Topology.MetricSpace.ProperSpace
import Mathlib.Topology.Order.Compact

/-!
# C88: a penalised regression from the constructor to the answer

`simple_problem(glm.gaussian(X, y, ...), l1norm(p, lagrange=...)).solve(...)` and its variants: the theorems about the losses
(C28, C29), the proximal maps (C10), the problem object (C36) and the solver (C33-C35) meet here in statements whose
hypotheses are only about the arguments of the calls.
-/

set_option linter.unusedSectionVars false
set_option linter.unusedVariables false

namespace Verif.Props
open Verif.Spec Verif.Model Verif.Model.Fista Verif.Lemmas

variable {n p : ℕ}

/-! ### specification -/

/-- documented loss of case `i` as a function of its linear predictor -/
noncomputable def caseLoss : LossData n → Fin n → ℝ → ℝ
  | .gaussian y, i => gaussianNll (y i)
  | .poisson c, i => poissonNll (c i)
  | .huber y eps, i => fun t => huberFn eps (t - y i)
  | .logistic s m, i => logisticNll (s i) (m i)
  | .huberSvm s eps, i => fun t => smoothHinge eps ((2 * s i - 1) * t)

/-- the losses that are what they are documented to be, and convex (C28, C29): least squares, Poisson, Huber with positive
smoothing, Huber SVM with smoothing 1 -/
def ConvexLoss : LossData n → Prop
  | .gaussian _ => True
  | .poisson _ => True
  | .huber _ eps => 0 < eps
  | .logistic _ _ => False
  | .huberSvm _ eps => eps = 1

/-- bound of the second derivative of the loss of one case -/
def HasCurvature : LossData n → ℝ → Prop
  | .gaussian _, κ => κ = 1
  | .huber _ eps, κ => 0 < eps ∧ κ = 1 / eps
  | .huberSvm s eps, κ => eps = 1 ∧ (∀ i, s i = 0 ∨ s i = 1) ∧ κ = 1
  | _, _ => False

/-- `coef ∑ᵢ wᵢ ℓᵢ(xᵢ·(β - offset) - saturated_offsetᵢ)` -/
noncomputable def regressionLoss (X : Fin n → Fin (p + 1) → ℝ) (d : LossData n) (coef : ℝ) (so : Option (Fin n → ℝ))
    (o : Option (Fin (p + 1) → ℝ)) (w : Option (Fin n → ℝ)) (β : Fin (p + 1) → ℝ) : ℝ :=
  coef * ∑ i, (w.elim 1 fun w => w i) * caseLoss d i (∑ j, X i j * (β j - effOffset o j) - effOffset so i)

/-- the documented objective: loss, quadratic given to the glm, penalty or constraint, quadratic of the atom -/
noncomputable def regressionObjective (X : Fin n → Fin (p + 1) → ℝ) (d : LossData n) (coef : ℝ) (so : Option (Fin n → ℝ))
    (o : Option (Fin (p + 1) → ℝ)) (w : Option (Fin n → ℝ)) (quad : Option (Quad (Fin (p + 1)) ℝ))
    (A : AtomObj (Fin (p + 1)) ℝ) (b : Bool) (r : ℝ) (β : Fin (p + 1) → ℝ) : WithTop ℝ :=
  atomBase A.klass b r (fun j => β j - offAt A.offset j) +
    ((regressionLoss X d coef so o w β + quadVal quad β + quadVal (some A.quad) β : ℝ) : WithTop ℝ)

/-! ### the parts -/

lemma phi_case {d : LossData n} (h : ConvexLoss d) : phi d = caseLoss d := by
  funext i t
  cases d with
  | gaussian y => rfl
  | poisson c => rfl
  | huber y eps => exact huberFn_eq h _
  | logistic s m => exact h.elim
  | huberSvm s eps => rw [show eps = 1 from h]; exact hinge_eq _

lemma convex_of_curvature {d : LossData n} {κ : ℝ} (h : HasCurvature d κ) : ConvexLoss d := by
  cases d with
  | gaussian y => exact trivial
  | poisson c => exact trivial
  | huber y eps => exact h.1
  | logistic s m => exact h.elim
  | huberSvm s eps => exact h.1

lemma tangent_of {d : LossData n} (h : ConvexLoss d) (i : Fin n) (x y : ℝ) :
    phi d i x + psi d i x * (y - x) ≤ phi d i y := by
  cases d with
  | gaussian v => exact (curved_gaussian v i).tangent x y
  | poisson c =>
    simp only [phi, psi]
    have h1 : Real.exp y = Real.exp x * Real.exp (y - x) := by rw [← Real.exp_add]; congr 1; ring
    have h2 := Real.add_one_le_exp (y - x)
    have h3 := mul_le_mul_of_nonneg_left h2 (Real.exp_pos x).le
    rw [h1]; nlinarith
  | huber v eps => exact (curved_huber v h i).tangent x y
  | logistic s m => exact h.elim
  | huberSvm s eps =>
    rw [show eps = 1 from h]
    simp only [phi, psi, huberSvmPair_one]
    have := clip_tangent (lo := 0) (by norm_num) one_pos (1 - (2 * s i - 1) * x) (1 - (2 * s i - 1) * y)
    dsimp only at this
    nlinarith [this]

lemma deriv_of {d : LossData n} (h : ConvexLoss d) (i : Fin n) (x : ℝ) : HasDerivAt (phi d i) (psi d i x) x := by
  cases d with
  | gaussian v => exact hasDerivAt_gaussian (v i) x
  | poisson c => exact hasDerivAt_poisson (c i) x
  | huber v eps => exact hasDerivAt_huber h (v i) x
  | logistic s m => exact h.elim
  | huberSvm s eps => rw [show eps = 1 from h]; exact hasDerivAt_svm (2 * s i - 1) x

lemma upper_of {d : LossData n} {κ : ℝ} (h : HasCurvature d κ) : 0 ≤ κ ∧ ∀ (i : Fin n) (x y : ℝ),
    phi d i y ≤ phi d i x + psi d i x * (y - x) + κ / 2 * (y - x) ^ 2 := by
  cases d with
  | gaussian v =>
    rw [show κ = 1 from h]
    exact ⟨zero_le_one, fun i => (curved_gaussian v i).upper⟩
  | poisson c => exact h.elim
  | huber v eps =>
    obtain ⟨h1, h2⟩ := h
    rw [h2]
    exact ⟨by positivity, fun i => (curved_huber v h1 i).upper⟩
  | logistic s m => exact h.elim
  | huberSvm s eps =>
    obtain ⟨h1, h2, h3⟩ := h
    rw [h1, h3]
    exact ⟨zero_le_one, fun i => (curved_svm s h2 i).upper⟩

/-- the arguments of a penalised regression -/
structure Setup (X : Fin n → Fin (p + 1) → ℝ) (d : LossData n) (coef : ℝ) (so : Option (Fin n → ℝ))
    (o : Option (Fin (p + 1) → ℝ)) (w : Option (Fin n → ℝ)) (quad : Option (Quad (Fin (p + 1)) ℝ))
    (A : AtomObj (Fin (p + 1)) ℝ) (b : Bool) (r : ℝ) (G : Glm (p + 1) n) : Prop where
  /-- the glm constructor accepts the data, coefficient, offsets and weights -/
  built : Glm.build X d coef so o w = some G
  /-- the atom has a nonnegative `lagrange` (`b = false`) or `bound` (`b = true`) equal to `r` -/
  mode : InMode A b r
  quad_coef : 0 ≤ quadCoef quad
  atom_coef : 0 ≤ A.quad.coef

section
variable {X : Fin n → Fin (p + 1) → ℝ} {d : LossData n} {coef : ℝ} {so : Option (Fin n → ℝ)} {o : Option (Fin (p + 1) → ℝ)}
  {w : Option (Fin n → ℝ)} {quad : Option (Quad (Fin (p + 1)) ℝ)} {A : AtomObj (Fin (p + 1)) ℝ} {b : Bool} {r : ℝ}
  {G : Glm (p + 1) n}

lemma built_eq (h : Glm.build X d coef so o w = some G) :
    0 ≤ coef ∧ (∀ i, 0 ≤ (w.elim 1 fun w => w i : ℝ)) ∧ G.X = X ∧ G.loss.data = d ∧ G.loss.coef = coef ∧ G.loss.offset = so ∧
      G.loss.caseWeights = none ∧ G.offset = o ∧ G.caseWeights = fun i => (w.elim 1 fun w => w i) := by
  unfold Glm.build at h
  cases hL : Loss.init d coef so (Quad.init none none none none) none with
  | none => rw [hL] at h; simp at h
  | some L =>
    rw [hL] at h
    obtain ⟨h1, _, _, h4⟩ := loss_of_init hL
    simp only [Glm.init] at h
    cases w with
    | none =>
      split_ifs at h with hc
      injection h with h
      subst h h4
      exact ⟨h1, fun i => zero_le_one, rfl, rfl, rfl, rfl, rfl, rfl, rfl⟩
    | some w =>
      split_ifs at h with hc
      injection h with h
      subst h h4
      exact ⟨h1, hc, rfl, rfl, rfl, rfl, rfl, rfl, rfl⟩

private lemma offV_eff {m : ℕ} (o : Option (Fin m → ℝ)) : offV o = effOffset o := by
  funext i; cases o <;> rfl

lemma glm_eval (h : Glm.build X d coef so o w = some G) (β : Fin (p + 1) → ℝ) :
    (G.smoothObjective β .func).1 =
      .val (glmVal X (effOffset o) (effOffset so) (fun i => w.elim 1 fun w => w i) coef (phi d) β) ∧
    (G.smoothObjective β .grad).1 =
      .grad (glmGrad X (effOffset o) (effOffset so) (fun i => w.elim 1 fun w => w i) coef (psi d) β) := by
  obtain ⟨-, -, h1, h2, h3, h4, h5, h6, h7⟩ := built_eq h
  have hev := evaluates_loss G.loss (some G.caseWeights) (Glm.dot G.X (Smooth.applyOffset G.offset β))
  have hcw : Loss.cw none (some G.caseWeights) = fun i => (w.elim 1 fun w => w i : ℝ) := by rw [h7]; rfl
  rw [h5, hcw, h2, h3, h4] at hev
  have e : ∀ i, Glm.dot G.X (Smooth.applyOffset G.offset β) i - offV so i =
      predictor X (effOffset o) (effOffset so) β i := by
    intro i
    unfold predictor Glm.dot
    rw [h1, h6, applyOffset_eq, offV_eff, offV_eff]
  constructor
  · unfold Glm.smoothObjective
    simp only [hev.1]
    unfold totalLoss glmVal
    simp only [e]
  · unfold Glm.smoothObjective
    simp only [hev.2.1]
    unfold Glm.dotT glmGrad
    simp only [e]
    simp only [h1]

/-- value of the nonsmooth atom where it is finite -/
private noncomputable def atomVal (A : AtomObj (Fin (p + 1)) ℝ) (b : Bool) (r : ℝ) (β : Fin (p + 1) → ℝ) : ℝ :=
  (atomBase A.klass b r (fun j => β j - offAt A.offset j)).untopD 0 + quadVal (some A.quad) β

/-- effective domain -/
private def atomDom (A : AtomObj (Fin (p + 1)) ℝ) (b : Bool) (r : ℝ) : Set (Fin (p + 1) → ℝ) :=
  {β | atomBase A.klass b r (fun j => β j - offAt A.offset j) ≠ ⊤}

private lemma atom_convex (hm : InMode A b r) (hq : 0 ≤ A.quad.coef) : IsConvexFnOn (atomVal A b r) (atomDom A b r) := by
  intro x hx y hy s t hs ht hst
  let A0 : AtomObj (Fin (p + 1)) ℝ := ⟨A.klass, A.st, A.offset, Quad.init none none none none⟩
  have hc := denoteAtom_convex A0 b hm.1
  have hden : ∀ u, denoteAtom A0 b r u = atomBase A.klass b r (fun j => u j - offAt A.offset j) + ((0 : ℝ) : WithTop ℝ) := by
    intro u
    show atomBase A.klass b r (fun j => u j - offAt A.offset j) +
      ((dot (linearAt (Quad.init none none none none)) u + 0 : ℝ) : WithTop ℝ) = _
    congr 2
    simp [dot, linearAt, Quad.init]
  obtain ⟨vx, hvx⟩ := WithTop.ne_top_iff_exists.1 hx
  obtain ⟨vy, hvy⟩ := WithTop.ne_top_iff_exists.1 hy
  have e1 : denoteAtom A0 b r x = ((vx : ℝ) : WithTop ℝ) := by rw [hden, ← hvx, ← WithTop.coe_add, add_zero]
  have e2 : denoteAtom A0 b r y = ((vy : ℝ) : WithTop ℝ) := by rw [hden, ← hvy, ← WithTop.coe_add, add_zero]
  obtain ⟨c, h1, h2⟩ := hc x y vx vy e1 e2 t ht (by linarith)
  have hs' : 1 - t = s := by linarith
  rw [hs'] at h1 h2
  rw [hden, WithTop.coe_zero, add_zero] at h1
  refine ⟨?_, ?_⟩
  · show atomBase A.klass b r _ ≠ ⊤
    rw [h1]; exact WithTop.coe_ne_top
  · unfold atomVal
    have h3 := quadVal_convex A.quad hq x y s t hs ht hst
    rw [h1, ← hvx, ← hvy]
    simp only [WithTop.untopD_coe]
    linarith

private lemma obj_eq (X : Fin n → Fin (p + 1) → ℝ) (d : LossData n) (coef : ℝ) (so : Option (Fin n → ℝ))
    (o : Option (Fin (p + 1) → ℝ)) (w : Option (Fin n → ℝ)) (quad : Option (Quad (Fin (p + 1)) ℝ))
    {β : Fin (p + 1) → ℝ} (hβ : β ∈ atomDom A b r) :
    regressionObjective X d coef so o w quad A b r β =
      ((regressionLoss X d coef so o w β + (atomVal A b r β + quadVal quad β) : ℝ) : WithTop ℝ) := by
  obtain ⟨v, hv⟩ := WithTop.ne_top_iff_exists.1 hβ
  unfold regressionObjective atomVal
  rw [← hv, ← WithTop.coe_add, WithTop.untopD_coe]
  congr 1; ring

private lemma obj_top (X : Fin n → Fin (p + 1) → ℝ) (d : LossData n) (coef : ℝ) (so : Option (Fin n → ℝ))
    (o : Option (Fin (p + 1) → ℝ)) (w : Option (Fin n → ℝ)) (quad : Option (Quad (Fin (p + 1)) ℝ))
    {β : Fin (p + 1) → ℝ} : regressionObjective X d coef so o w quad A b r β ≠ ⊤ ↔ β ∈ atomDom A b r := by
  constructor
  · intro h hc
    apply h
    unfold regressionObjective
    have hc' : atomBase A.klass b r (fun j => β j - offAt A.offset j) = ⊤ := hc
    rw [hc', WithTop.top_add]
  · intro h
    rw [obj_eq X d coef so o w quad h]; exact WithTop.coe_ne_top

lemma quad_getD (quad : Option (Quad (Fin (p + 1)) ℝ)) (x : Fin (p + 1) → ℝ) :
    quadVal (some (quad.getD (Quad.init none none none none))) x = quadVal quad x := by
  cases quad with
  | none => simp only [Option.getD_none]; rw [init_val]; rfl
  | some q => rfl

/-- what the pieces of the problem are -/
private structure Pieces (P : SimpleProblem (p + 1)) (f h : (Fin (p + 1) → ℝ) → ℝ) (g : (Fin (p + 1) → ℝ) → Fin (p + 1) → ℝ)
    (S : Set (Fin (p + 1) → ℝ)) (H : (Fin (p + 1) → ℝ) → ℝ) : Prop where
  core : ∀ lip, IsProblemCore (P.composite lip) f H S
  grad : P.grad = g
  convex : ConvexWithGradient f g
  nonsmooth_convex : IsConvexFnOn H S
  total : ∀ (L : ℝ) (x u : Fin (p + 1) → ℝ), 0 < L →
    ∃ z, P.proximal (Quad.init (some L) (some (.arr x)) (some (.arr u)) (some 0)) = some z
  start : ∀ lip x, startObj (P.composite lip) x ≠ .nan
  fixed : ∀ (L : ℝ) (x z : Fin (p + 1) → ℝ), 0 < L →
    P.proximal (Quad.init (some L) (some (.arr x)) (some (.arr (g x))) (some 0)) = some z →
    (Minimises (fun u => f u + H u) S x ↔ z = x)

lemma lin_arr (q : Quad (Fin (p + 1)) ℝ) {v : Fin (p + 1) → ℝ} (h : q.linear = some (.arr v)) (q2 : Quad (Fin (p + 1)) ℝ) :
    ∃ v', (q.add (some q2)).linear = some (.arr v') := by
  have h1 : ∃ v1, q.collapsedLinear = .arr v1 := by
    unfold Quad.collapsedLinear
    rw [h]
    rcases q.center with _ | (c | c) <;> exact ⟨_, rfl⟩
  obtain ⟨v1, h1⟩ := h1
  show ∃ v', some (PyVec.map₂ (· + ·) q.collapsedLinear q2.collapsedLinear) = some (.arr v')
  rw [h1]
  cases q2.collapsedLinear <;> exact ⟨_, rfl⟩

private lemma pieces (hs : Setup X d coef so o w quad A b r G) (hd : ConvexLoss d) (x0 : Fin (p + 1) → ℝ) :
    Pieces (SimpleProblem.regression G quad A x0) (regressionLoss X d coef so o w)
      (atomVal A b r) (glmGrad X (effOffset o) (effOffset so) (fun i => w.elim 1 fun w => w i) coef (psi d))
      (atomDom A b r) (fun β => atomVal A b r β + quadVal quad β) := by
  set P := SimpleProblem.regression G quad A x0 with hP
  set f := regressionLoss X d coef so o w with hf
  set g := glmGrad X (effOffset o) (effOffset so) (fun i => w.elim 1 fun w => w i) coef (psi d) with hg
  obtain ⟨hc0, hw0, -⟩ := built_eq hs.built
  have hfv : glmVal X (effOffset o) (effOffset so) (fun i => w.elim 1 fun w => w i) coef (phi d) = f := by
    rw [phi_case hd]; rfl
  have hgrad : P.grad = g := by
    funext x
    show (match (G.smoothObjective x .grad).1 with
      | .grad g => g
      | _ => fun _ => 0) = _
    rw [(glm_eval hs.built x).2]
  have hsm : ∀ x, P.smooth x = .num (f x) := by
    intro x
    show (match (G.smoothObjective x .func).1 with
      | .val f => ObjVal.num f
      | _ => .nan) = _
    rw [(glm_eval hs.built x).1, hfv]
  have hconv : ConvexWithGradient f g := by
    rw [← hfv]
    exact ⟨convex_of_tangents (glm_tangent (κ := 0) hc0 hw0 (tangent_of hd)), glm_gradient (deriv_of hd)⟩
  have hcoef : 0 ≤ (quad.getD (Quad.init none none none none)).coef := by
    cases quad with
    | none => exact le_rfl
    | some q => exact hs.quad_coef
  have hat : ∀ x ∈ atomDom A b r, P.atomNonsmooth x false = .num (atomVal A b r x) := by
    intro x hx
    show (match A.nonsmoothObjective x false with
      | some v => ObjVal.ofTop v
      | none => .nan) = _
    rw [obj_value A b r hs.mode x hx]
    obtain ⟨v, hv⟩ := WithTop.ne_top_iff_exists.1 hx
    unfold atomVal
    dsimp only
    rw [← hv, fv84, ← WithTop.coe_add]
    rfl
  -- the same problem with an exact feasibility check
  classical
  let P' : SimpleProblem (p + 1) :=
    { P with atomNonsmooth := fun x _ => if x ∈ atomDom A b r then .num (atomVal A b r x) else .inf }
  have hsolve : AtomSolves P.atomSolve (atomVal A b r) (atomDom A b r) := by
    intro Q z hQ hz
    have hz' : A.proximal Q = .ok z := by
      have : (match A.proximal Q with
        | .ok z => some z
        | _ => none) = some z := hz
      cases hA : A.proximal Q with
      | ok u => rw [hA] at this; injection this with this; rw [this]
      | valueError => rw [hA] at this; cases this
      | typeError => rw [hA] at this; cases this
      | scalarArgument => rw [hA] at this; cases this
      | baseError => rw [hA] at this; cases this
    have h := obj_prox_min A b r hs.mode Q (by linarith [hs.atom_coef]) z hz'
    refine ⟨h.1, fun u hu hne => ?_⟩
    have := h.2 u hu hne
    dsimp only at this ⊢
    unfold atomVal
    rw [fv84, fv84]
    linarith
  have hP' : IsSimple P' f (atomVal A b r) (atomDom A b r) :=
    ⟨hsm, fun x hx c => if_pos hx, fun x hx => if_neg hx, hsolve, hcoef, le_rfl⟩
  have hH : simpleNonsmooth P' (atomVal A b r) = fun β => atomVal A b r β + quadVal quad β := by
    funext β
    show _ + quadVal (some (quad.getD (Quad.init none none none none))) β + quadVal (some (Quad.init none none none none)) β = _
    rw [init_val, quad_getD, add_zero]
  have hI := fun lip => C36_objective P' f _ _ hP' lip
  rw [hH] at hI
  have hHc : IsConvexFnOn (fun β => atomVal A b r β + quadVal quad β) (atomDom A b r) := by
    intro x hx y hy s t hs' ht hst
    obtain ⟨h1, h2⟩ := atom_convex hs.mode hs.atom_coef x hx y hy s t hs' ht hst
    refine ⟨h1, ?_⟩
    have h3 := quadVal_convex (quad.getD (Quad.init none none none none)) hcoef x y s t hs' ht hst
    rw [quad_getD, quad_getD, quad_getD] at h3
    linarith
  refine ⟨fun lip => ⟨hsm, fun x hx => ?_, (hI lip).prox⟩, hgrad, hconv, hHc, fun L x u hL => ?_, fun lip x => ?_,
    fun L x z hL hz => ?_⟩
  · have h1 := (hI lip).nonsmooth x hx
    have e : P.atomNonsmooth x false = P'.atomNonsmooth x false := by
      rw [hat x hx]; exact (if_pos hx).symm
    have e2 : (P.composite lip).nonsmooth x false = (P'.composite lip).nonsmooth x false := by
      show P.nonsmooth x false = P'.nonsmooth x false
      unfold SimpleProblem.nonsmooth
      rw [e]
    rw [e2]; exact h1
  · show ∃ z, (match A.proximal (((Quad.init (some L) (some (.arr x)) (some (.arr u)) (some 0)).add
        (some (quad.getD (Quad.init none none none none)))).add (some (Quad.init none none none none))) with
      | .ok z => some z
      | _ => none) = some z
    obtain ⟨v1, hv1⟩ := lin_arr (Quad.init (some L) (some (.arr x)) (some (.arr u)) (some 0)) rfl
      (quad.getD (Quad.init none none none none))
    obtain ⟨v2, hv2⟩ := lin_arr _ hv1 (Quad.init none none none none)
    obtain ⟨z, hz, _⟩ := obj_prox A b r hs.mode _ v2 hv2 (by
      show 0 < A.quad.coef + (L + (quad.getD (Quad.init none none none none)).coef + 0)
      linarith [hs.atom_coef])
    exact ⟨z, by rw [hz]⟩
  · unfold startObj
    show (P.smooth x).add (P.nonsmooth x true) ≠ .nan
    rw [hsm]
    have hne : P.atomNonsmooth x true ≠ .nan := by
      show (match A.nonsmoothObjective x true with
        | some v => ObjVal.ofTop v
        | none => .nan) ≠ .nan
      have : ∃ v, A.nonsmoothObjective x true = some v := by
        unfold AtomObj.nonsmoothObjective
        obtain ⟨_, hst⟩ := hs.mode
        cases b with
        | false =>
          have hst' : A.st = ⟨some r, none⟩ := hst
          rw [hst']; exact ⟨_, rfl⟩
        | true =>
          have hst' : A.st = ⟨none, some r⟩ := hst
          rw [hst']; exact ⟨_, rfl⟩
      obtain ⟨v, hv⟩ := this
      rw [hv]
      cases v with
      | top => exact fun h => by cases h
      | coe v => exact fun h => by cases h
    unfold SimpleProblem.nonsmooth
    cases hx : P.atomNonsmooth x true with
    | nan => exact absurd hx hne
    | num v => exact fun h => by cases h
    | inf => exact fun h => by cases h
  · have := C34_fixed_point P' f _ _ hP' (by show ConvexWithGradient f P.grad; rw [hgrad]; exact hconv)
      (atom_convex hs.mode hs.atom_coef) L hL x z (by
        show P.proximal _ = some z
        have : P'.grad = g := hgrad
        rw [this]; exact hz)
    rw [hH] at this
    exact this

private lemma min_iff (X : Fin n → Fin (p + 1) → ℝ) (d : LossData n) (coef : ℝ) (so : Option (Fin n → ℝ))
    (o : Option (Fin (p + 1) → ℝ)) (w : Option (Fin n → ℝ)) (quad : Option (Quad (Fin (p + 1)) ℝ)) (u : Fin (p + 1) → ℝ) :
    IsMinTop (regressionObjective X d coef so o w quad A b r) u ↔
      Minimises (fun β => regressionLoss X d coef so o w β + (atomVal A b r β + quadVal quad β)) (atomDom A b r) u := by
  constructor
  · rintro ⟨h1, h2⟩
    have hu := (obj_top X d coef so o w quad).1 h1
    refine ⟨hu, fun v hv => ?_⟩
    have := h2 v
    rw [obj_eq X d coef so o w quad hu, obj_eq X d coef so o w quad hv, WithTop.coe_le_coe] at this
    exact this
  · rintro ⟨h1, h2⟩
    refine ⟨(obj_top X d coef so o w quad).2 h1, fun v => ?_⟩
    by_cases hv : v ∈ atomDom A b r
    · rw [obj_eq X d coef so o w quad h1, obj_eq X d coef so o w quad hv, WithTop.coe_le_coe]
      exact h2 v hv
    · have : regressionObjective X d coef so o w quad A b r v = ⊤ := by
        by_contra h
        exact hv ((obj_top X d coef so o w quad).1 h)
      rw [this]; exact le_top

end

/-! ### the run -/

private lemma finish_stop_pos {C : Composite n} {a : FitArgs} {s1 s' : State n} {z : Fin n → ℝ}
    (h : finish C a s1 z (C.smooth z) = .stop s') : 1 ≤ s1.itercount := by
  unfold finish at h
  simp only at h
  by_cases hc : converged a s1.itercount (((C.smooth z).add (C.nonsmooth z false)).absSub s1.obj)
      ((((C.smooth z).add (C.nonsmooth z false)).absSub s1.obj).relTo s1.obj) s1.coefs z
  · have h1 : a.minItsV ≤ s1.itercount := hc.1
    have h2 : 1 ≤ a.minItsV := by
      unfold FitArgs.minItsV
      split <;> omega
    omega
  rw [if_neg hc] at h
  by_cases hr : Rejects a s1 ((C.smooth z).add (C.nonsmooth z false))
  · exact hr.1.le
  · unfold Rejects at hr
    rw [if_neg hr] at h
    cases h

/-- the coefficients a run returns are a proposal it accepted -/
lemma run_coefs {C : Composite n} {f h : (Fin n → ℝ) → ℝ} {S : Set (Fin n → ℝ)} (hC : IsProblemCore C f h S)
    {a : FitArgs} (hb : a.performBacktrack = true) (ha : 0 < a.alpha) {step : Option ℝ} (hstart : StartsPositive a step)
    {att : Bool} {fuel : ℕ} {x0 : Fin n → ℝ} {hist : List ObjVal} {s : State n}
    (hfit : fit C a step att fuel x0 = .ok hist s) :
    1 ≤ hist.length ∧ s.coefs ∈ S ∧
      (a.monotonicityRestart = false → ∃ r, s.log[hist.length - 1]? = some r ∧ r.proposed = s.coefs) := by
  have hmax : 1 ≤ a.maxItsV := by
    unfold FitArgs.maxItsV
    split <;> omega
  have key := fit_ind (C := C) (a := a) (fuel := fuel) (step := step) (att := att) (x0 := x0)
    (fun s => 0 < s.step ∧ s.hist.length = s.itercount ∧ s.log.length = s.itercount ∧ (0 < s.itercount → s.coefs ∈ S ∧
      (a.monotonicityRestart = false → ∃ r, s.log[s.itercount - 1]? = some r ∧ r.proposed = s.coefs)))
    (fun s => 1 ≤ s.itercount ∧ s.itercount ≤ s.hist.length ∧ s.coefs ∈ S ∧
      (a.monotonicityRestart = false → ∃ r, s.log[s.itercount - 1]? = some r ∧ r.proposed = s.coefs))
    ⟨hstart, rfl, rfl, fun h => absurd h (lt_irrefl 0)⟩
    (fun s s' s1 z hI hlt hm hfin => by
      obtain ⟨h1, h2, h3, h4⟩ := hI
      obtain ⟨e1, e2, e3, e4, e5⟩ := finish_next hfin
      have hst := hm.step (fun _ => h1) ha
      unfold StepOf at hst
      rw [if_pos hb] at hst
      have hz := (hC.prox _ _ _ _ (one_div_pos.2 hst.1) hst.2.1).1
      refine ⟨by rw [e4]; exact hst.1, ?_, ?_, fun _ => ?_⟩
      · rw [e2, hm.hist, List.length_append, h2, e3, hm.itercount]; rfl
      · rw [e1, hm.log, List.length_append, h3, e3, hm.itercount]; rfl
      · rcases e5 with ⟨hr, hc, _⟩ | ⟨hr, hc, _⟩
        · have hpos : 0 < s.itercount := by
            have := hr.1
            rw [hm.itercount] at this
            omega
          refine ⟨by rw [hc, hm.coefs]; exact (h4 hpos).1, fun hmon => ?_⟩
          have := hr.2.2.2
          rw [hmon] at this
          cases this
        · refine ⟨by rw [hc]; exact hz, fun _ => ⟨recordOf C s1 z, ?_, ?_⟩⟩
          · rw [e1, hm.log, e3, hm.itercount, Nat.add_sub_cancel, List.getElem?_append_right (by omega), h3]
            simp
          · rw [hc]; rfl)
    (fun s s' s1 z hI hlt hm hfin => by
      obtain ⟨h1, h2, h3, h4⟩ := hI
      obtain ⟨e1, e2, e3, e4, e5, e6, e7⟩ := finish_stop hfin
      have hpos := finish_stop_pos hfin
      rw [hm.itercount] at hpos
      obtain ⟨g1, g2⟩ := h4 hpos
      refine ⟨by rw [e3, hm.itercount]; exact hpos, ?_, by rw [e5, hm.coefs]; exact g1, fun hmon => ?_⟩
      · rw [e2, hm.hist, List.length_append, h2, e3, hm.itercount]; simp
      · obtain ⟨r, hr1, hr2⟩ := g2 hmon
        refine ⟨r, ?_, by rw [hr2, e5, hm.coefs]⟩
        rw [e3, hm.itercount, e1, hm.log, List.getElem?_append_left (by omega)]
        exact hr1)
    (fun s hI hlt => by
      obtain ⟨h1, h2, h3, h4⟩ := hI
      have hpos : 0 < s.itercount := by omega
      exact ⟨hpos, h2.ge, (h4 hpos).1, (h4 hpos).2⟩)
    hfit
  obtain ⟨k1, k2, k3, k4, k5⟩ := key
  have hlen : hist.length = s.itercount := by rw [k1, List.length_take]; omega
  rw [hlen]
  exact ⟨k2, k4, k5⟩

section
variable (X : Fin n → Fin (p + 1) → ℝ) (d : LossData n) (coef : ℝ) (so : Option (Fin n → ℝ)) (o : Option (Fin (p + 1) → ℝ))
  (w : Option (Fin n → ℝ)) (quad : Option (Quad (Fin (p + 1)) ℝ)) (A : AtomObj (Fin (p + 1)) ℝ) (b : Bool) (r : ℝ)
  (G : Glm (p + 1) n)

/-- **C88** The objective of `simple_problem(loss, atom)`: at every point where the documented objective is finite - the
weighted loss of the linear predictors, plus the quadratic of the glm, plus the penalty or constraint, plus the quadratic of
the atom - the number `objective` returns is that objective.  (Where it is infinite `objective` may return a number, because
it does not check feasibility: C13, C36.) -/
theorem C88_objective (hs : Setup X d coef so o w quad A b r G) (hd : ConvexLoss d) (x0 β : Fin (p + 1) → ℝ) (v : ℝ)
    (hv : regressionObjective X d coef so o w quad A b r β = v) :
    (SimpleProblem.regression G quad A x0).objective β = .num v := by
  have hβ : β ∈ atomDom A b r := (obj_top X d coef so o w quad).1 (by rw [hv]; exact WithTop.coe_ne_top)
  have hC := (pieces hs hd x0).core 0
  rw [obj_eq X d coef so o w quad hβ, WithTop.coe_inj] at hv
  unfold SimpleProblem.objective
  have h1 : (SimpleProblem.regression G quad A x0).smooth β = _ := hC.smooth β
  have h2 : (SimpleProblem.regression G quad A x0).nonsmooth β false = _ := hC.nonsmooth β hβ
  rw [h1, h2, ← hv]
  rfl

/-- **C88** Optimality certificate.  For every `L > 0` and every `β` the proximal gradient step of the problem exists, and `β`
minimises the documented objective over all coefficients exactly when the step leaves it where it is. -/
theorem C88_certificate (hs : Setup X d coef so o w quad A b r G) (hd : ConvexLoss d) (x0 β : Fin (p + 1) → ℝ) (L : ℝ)
    (hL : 0 < L) :
    ∃ z, (SimpleProblem.regression G quad A x0).proximal (Quad.init (some L) (some (.arr β))
        (some (.arr ((SimpleProblem.regression G quad A x0).grad β))) (some 0)) = some z ∧
      (IsMinTop (regressionObjective X d coef so o w quad A b r) β ↔ z = β) := by
  have hP := pieces hs hd x0
  rw [hP.grad]
  obtain ⟨z, hz⟩ := hP.total L β (glmGrad X (effOffset o) (effOffset so) (fun i => w.elim 1 fun w => w i) coef (psi d) β) hL
  exact ⟨z, hz, by rw [min_iff]; exact hP.fixed L β z hL hz⟩

/-- the problem the solver sees, for use with the theorems about `fit` -/
lemma regression_problem (hs : Setup X d coef so o w quad A b r G) (hd : ConvexLoss d) (x0 : Fin (p + 1) → ℝ) (lip : ℝ) :
    ∃ (h : (Fin (p + 1) → ℝ) → ℝ) (S : Set (Fin (p + 1) → ℝ)),
      IsProblemCore ((SimpleProblem.regression G quad A x0).composite lip) (regressionLoss X d coef so o w) h S ∧
      ConvexWithGradient (regressionLoss X d coef so o w) ((SimpleProblem.regression G quad A x0).composite lip).grad ∧
      IsConvexFnOn h S ∧
      (∀ β ∈ S, regressionObjective X d coef so o w quad A b r β = ((regressionLoss X d coef so o w β + h β : ℝ) : WithTop ℝ)) ∧
      ∀ β, β ∉ S → regressionObjective X d coef so o w quad A b r β = ⊤ := by
  have hP := pieces hs hd x0
  have hg : ((SimpleProblem.regression G quad A x0).composite lip).grad = _ := hP.grad
  refine ⟨_, _, hP.core lip, by rw [hg]; exact hP.convex, hP.nonsmooth_convex, fun β hβ => obj_eq X d coef so o w quad hβ, fun β hβ => ?_⟩
  by_contra hne
  exact hβ ((obj_top X d coef so o w quad).1 hne)

/-- the curvature constant of the theorems below suffices for the loss -/
private lemma loss_smooth (hs : Setup X d coef so o w quad A b r G) {κ M : ℝ} (hκ : HasCurvature d κ)
    (hM : coef * κ * ∑ i, (w.elim 1 fun w => w i) * ∑ j, X i j ^ 2 ≤ M) :
    SmoothWith (regressionLoss X d coef so o w)
      (glmGrad X (effOffset o) (effOffset so) (fun i => w.elim 1 fun w => w i) coef (psi d)) M := by
  obtain ⟨hc0, hw0, -⟩ := built_eq hs.built
  have hd := convex_of_curvature hκ
  have hfv : glmVal X (effOffset o) (effOffset so) (fun i => w.elim 1 fun w => w i) coef (phi d) =
      regressionLoss X d coef so o w := by
    rw [phi_case hd]; rfl
  rw [← hfv]
  obtain ⟨h1, h2⟩ := upper_of hκ
  exact smooth_of_bounds (glm_tangent (κ := 0) hc0 hw0 (tangent_of hd)) (glm_upper hc0 hw0 h1 h2 hM)

/-- **C88** `solve` answers: with a loss of bounded curvature, from every start - feasible or not - and for every setting of
tolerance, iteration limits, restarts and stopping rule with backtracking on, a positive first step and `alpha > 1`, `solve`
returns; the returned coefficients have a finite documented objective - in particular they obey the constraint when the atom
is one - and the returned value is that objective. -/
theorem C88_returns (hs : Setup X d coef so o w quad A b r G) (κ : ℝ) (hκ : HasCurvature d κ) (x0 : Fin (p + 1) → ℝ)
    (a : FitArgs) (hb : a.performBacktrack = true) (ha : 1 < a.alpha) (hst : 0 < a.startStep) (lip : ℝ) :
    ∃ N, ∀ fuel, N < fuel → ∃ c v hist,
      ((SimpleProblem.regression G quad A x0).solve none a lip fuel).1 = .ok c (.num v) hist ∧
      regressionObjective X d coef so o w quad A b r c = v := by
  have hd := convex_of_curvature hκ
  have hP := pieces hs hd x0
  have hM := loss_smooth X d coef so o w quad A b r G hs hκ (le_max_left _ 1)
  have hg : ((SimpleProblem.regression G quad A x0).composite lip).grad = _ := hP.grad
  obtain ⟨N, hN⟩ := C33_terminates _ _ _ _ (hP.core lip) _ (lt_max_of_lt_right one_pos) (by rw [hg]; exact hM) hP.total a hb ha
    none hst false x0 (hP.start lip x0)
  refine ⟨N, fun fuel hfu => ?_⟩
  obtain ⟨hist, s, h⟩ := hN fuel hfu
  obtain ⟨_, hS, _⟩ := run_coefs (hP.core lip) hb (by linarith) (step := none) hst h
  have hv := obj_eq X d coef so o w quad hS
  refine ⟨s.coefs, _, hist, ?_, hv⟩
  rw [solve_ok (P := SimpleProblem.regression G quad A x0) h, C88_objective X d coef so o w quad A b r G hs hd x0 s.coefs _ hv]

/-- **C88** How good the answer is.  With a loss of bounded curvature, no restarts, and at most 99 iterations, the coefficients
`solve` returns after `k` recorded objective values miss the smallest value of the documented objective by at most
`2 ‖x0 - u‖² / (t (k+1)²)` for every minimiser `u`, where `t = min(start_step, 1/(2 M alpha))` and `M` is any positive bound of
`coef * κ * ∑ᵢ wᵢ ‖xᵢ‖²`. -/
theorem C88_rate (hs : Setup X d coef so o w quad A b r G) (κ : ℝ) (hκ : HasCurvature d κ) (M : ℝ) (hM0 : 0 < M)
    (hM : coef * κ * ∑ i, (w.elim 1 fun w => w i) * ∑ j, X i j ^ 2 ≤ M) (x0 : Fin (p + 1) → ℝ)
    (a : FitArgs) (hb : a.performBacktrack = true) (ha : 1 ≤ a.alpha) (hst : 0 < a.startStep)
    (hm : a.monotonicityRestart = false) (hr : a.restart = none) (hmax : ∃ m, a.maxIts = some m ∧ m ≠ 0 ∧ m ≤ 99)
    (lip : ℝ) (fuel : ℕ) (c : Fin (p + 1) → ℝ) (v : ObjVal) (hist : List ObjVal)
    (hsolve : ((SimpleProblem.regression G quad A x0).solve none a lip fuel).1 = .ok c v hist)
    (u : Fin (p + 1) → ℝ) (hu : IsMinTop (regressionObjective X d coef so o w quad A b r) u) :
    ∃ vc vu : ℝ, v = .num vc ∧ regressionObjective X d coef so o w quad A b r c = vc ∧
      regressionObjective X d coef so o w quad A b r u = vu ∧ vu ≤ vc ∧
      vc - vu ≤ 2 * sqDist x0 u / (min a.startStep (1 / (2 * M * a.alpha)) * (hist.length + 1) ^ 2) := by
  have hd := convex_of_curvature hκ
  have hP := pieces hs hd x0
  have hMs := loss_smooth X d coef so o w quad A b r G hs hκ hM
  have hg : ((SimpleProblem.regression G quad A x0).composite lip).grad = _ := hP.grad
  obtain ⟨s, hfit, hc, hv⟩ := ok_solve hsolve
  obtain ⟨hlen, hS, hlog⟩ := run_coefs (hP.core lip) hb (by linarith) (step := none) hst hfit
  obtain ⟨rec, hrec, hprop⟩ := hlog hm
  have hmin := (min_iff X d coef so o w quad u).1 hu
  have hrate := C35_fista_rate_lipschitz _ _ _ _ (hP.core lip) (by rw [hg]; exact hP.convex) hP.nonsmooth_convex M hM0
    (by rw [hg]; exact hMs) a hb ha hm hr hmax hst fuel x0 u hmin hist s hfit (hist.length - 1) rec hrec
  rw [hprop, hc] at hrate
  rw [hc] at hS
  have e : ((hist.length - 1 : ℕ) : ℝ) + 2 = hist.length + 1 := by
    rw [Nat.cast_sub hlen, Nat.cast_one]; ring
  rw [e] at hrate
  refine ⟨_, _, ?_, obj_eq X d coef so o w quad hS, obj_eq X d coef so o w quad hmin.1, hmin.2 c hS, hrate⟩
  rw [hv, C88_objective X d coef so o w quad A b r G hs hd x0 c _ (obj_eq X d coef so o w quad hS)]

/-- **C88** A solution is kept: if the start minimises the documented objective and the feasibility check of the atom accepts
it, `solve` returns exactly the start, for every setting of the solver with backtracking. -/
theorem C88_keeps_solution (hs : Setup X d coef so o w quad A b r G) (hd : ConvexLoss d) (x0 : Fin (p + 1) → ℝ)
    (hx : IsMinTop (regressionObjective X d coef so o w quad A b r) x0)
    (hfeas : A.nonsmoothObjective x0 true = A.nonsmoothObjective x0 false)
    (a : FitArgs) (hb : a.performBacktrack = true) (ha : 0 < a.alpha) (hst : 0 < a.startStep) (lip : ℝ) (fuel : ℕ)
    (hfuel : 0 < fuel) :
    ∃ v hist, ((SimpleProblem.regression G quad A x0).solve none a lip fuel).1 = .ok x0 (.num v) hist ∧
      regressionObjective X d coef so o w quad A b r x0 = v := by
  have hP := pieces hs hd x0
  have hmin := (min_iff X d coef so o w quad x0).1 hx
  have hC := hP.core lip
  obtain ⟨hist, s, h1, h2⟩ := fit_fixed (C := (SimpleProblem.regression G quad A x0).composite lip) (x := x0) (hC.smooth x0)
    (t := atomVal A b r x0 + quadVal quad x0) (fun check => by
      cases check
      · exact hC.nonsmooth x0 hmin.1
      · rw [← hC.nonsmooth x0 hmin.1]
        show SimpleProblem.nonsmooth _ x0 true = SimpleProblem.nonsmooth _ x0 false
        unfold SimpleProblem.nonsmooth SimpleProblem.regression
        dsimp only
        rw [hfeas]) (fun L hL => by
      obtain ⟨z, hz, hiff⟩ := C88_certificate X d coef so o w quad A b r G hs hd x0 x0 L hL
      rw [hiff.1 hx] at hz
      exact hz) hb ha (step := none) hst false hfuel
  have hv := obj_eq X d coef so o w quad hmin.1
  refine ⟨_, hist, ?_, hv⟩
  rw [solve_ok (P := SimpleProblem.regression G quad A x0) h1, h2,
    C88_objective X d coef so o w quad A b r G hs hd x0 x0 _ hv]

end

/-! ### a minimiser exists -/

private lemma maxCoord_abs (z : Fin (p + 1) → ℝ) : maxCoord (fun i => |z i|) = ‖z‖ := by
  apply le_antisymm
  · exact maxCoord_le fun i => by rw [← Real.norm_eq_abs]; exact norm_le_pi_norm z i
  · rw [pi_norm_le_iff_of_nonneg ((abs_nonneg (z 0)).trans (le_maxCoord (fun i => |z i|) 0))]
    intro i
    rw [Real.norm_eq_abs]
    exact le_maxCoord (fun i => |z i|) i

private lemma norm_le_l1 (z : Fin (p + 1) → ℝ) : ‖z‖ ≤ ∑ i, |z i| := by
  rw [pi_norm_le_iff_of_nonneg (Finset.sum_nonneg fun i _ => abs_nonneg _)]
  intro i
  rw [Real.norm_eq_abs]
  exact Finset.single_le_sum (f := fun i => |z i|) (fun j _ => abs_nonneg _) (Finset.mem_univ i)

private lemma norm_le_l2 (z : Fin (p + 1) → ℝ) : ‖z‖ ≤ Real.sqrt (∑ i, z i ^ 2) := by
  rw [pi_norm_le_iff_of_nonneg (Real.sqrt_nonneg _)]
  intro i
  rw [Real.norm_eq_abs]
  apply Real.abs_le_sqrt
  exact Finset.single_le_sum (f := fun i => z i ^ 2) (fun j _ => sq_nonneg _) (Finset.mem_univ i)

/-- the three norms -/
def IsNormClass (k : Klass) : Prop := k = .l1norm ∨ k = .supnorm ∨ k = .l2norm

private lemma norm_penalty {k : Klass} (hk : IsNormClass k) (r : ℝ) (hr : 0 ≤ r) :
    ∃ N : (Fin (p + 1) → ℝ) → ℝ, Continuous N ∧ (∀ z, ‖z‖ ≤ N z) ∧ (∀ z, penalty k r z = ((r * N z : ℝ) : WithTop ℝ)) ∧
      (∀ z, z ∈ ballOf k r ↔ N z ≤ r) ∧ N (fun _ => 0) = 0 := by
  rcases hk with rfl | rfl | rfl
  · exact ⟨fun z => ∑ i, |z i|, by fun_prop, norm_le_l1, fun z => rfl, fun z => Iff.rfl, by simp⟩
  · refine ⟨fun z => ‖z‖, continuous_norm, fun z => le_rfl, fun z => ?_, fun z => ?_, ?_⟩
    · show _ = ((r * ‖z‖ : ℝ) : WithTop ℝ)
      rw [← maxCoord_abs]; rfl
    · show (∀ i, |z i| ≤ r) ↔ _
      rw [pi_norm_le_iff_of_nonneg hr]
      exact Iff.rfl
    · exact norm_zero
  · exact ⟨fun z => Real.sqrt (∑ i, z i ^ 2), by fun_prop, norm_le_l2, fun z => rfl, fun z => Iff.rfl, by simp⟩

lemma quadVal_continuous (q : Option (Quad (Fin (p + 1)) ℝ)) : Continuous (quadVal q) := by
  cases q with
  | none => exact continuous_const
  | some q =>
    have : quadVal (some q) = fun x => q.funcVal x := by funext x; rw [fv84]
    rw [this]
    have e : (fun x : Fin (p + 1) → ℝ => q.funcVal x) = fun x => q.coef / 2 * ∑ i, (x i - centerAt q i) ^ 2 + ∑ i, linearAt q i * x i + q.const := by
      funext x; rw [funcVal_eq]
    rw [e]
    fun_prop

lemma loss_nonneg {X : Fin n → Fin (p + 1) → ℝ} {d : LossData n} {coef : ℝ} {so : Option (Fin n → ℝ)}
    {o : Option (Fin (p + 1) → ℝ)} {w : Option (Fin n → ℝ)} (hc : 0 ≤ coef) (hw : ∀ i, 0 ≤ (w.elim 1 fun w => w i : ℝ))
    {κ : ℝ} (hκ : HasCurvature d κ) (β : Fin (p + 1) → ℝ) : 0 ≤ regressionLoss X d coef so o w β := by
  unfold regressionLoss
  refine mul_nonneg hc (Finset.sum_nonneg fun i _ => mul_nonneg (hw i) ?_)
  cases d with
  | gaussian y => simp only [caseLoss, gaussianNll]; positivity
  | poisson c => exact hκ.elim
  | huber y eps =>
    simp only [caseLoss, huberFn]
    have := hκ.1
    split_ifs with h
    · positivity
    · push Not at h; linarith
  | logistic s m => exact hκ.elim
  | huberSvm s eps =>
    simp only [caseLoss, smoothHinge]
    rw [hκ.1]
    split_ifs with h1 h2
    · exact le_rfl
    · positivity
    · push Not at h1 h2; linarith

section
variable (X : Fin n → Fin (p + 1) → ℝ) (d : LossData n) (coef : ℝ) (so : Option (Fin n → ℝ)) (o : Option (Fin (p + 1) → ℝ))
  (w : Option (Fin n → ℝ)) (quad : Option (Quad (Fin (p + 1)) ℝ)) (A : AtomObj (Fin (p + 1)) ℝ) (b : Bool) (r : ℝ)
  (G : Glm (p + 1) n)

/-- **C88** There is an answer to find: with one of the three norms (`l1norm`, `supnorm`, `l2norm`) as a constraint, or as a
penalty with a positive multiplier and no quadratic terms, the documented objective of a least squares, Huber or Huber SVM
regression has a minimiser, for every design - also when there are more coefficients than cases. -/
theorem C88_minimiser_exists (hs : Setup X d coef so o w quad A b r G) (κ : ℝ) (hκ : HasCurvature d κ)
    (hk : IsNormClass A.klass)
    (hcase : b = true ∨ 0 < r ∧ quad = none ∧ A.quad = Quad.init none none none none) :
    ∃ u, IsMinTop (regressionObjective X d coef so o w quad A b r) u := by
  have hd := convex_of_curvature hκ
  have hP := pieces hs hd (fun _ => 0)
  obtain ⟨hc0, hw0, -⟩ := built_eq hs.built
  obtain ⟨hr, _⟩ := hs.mode
  obtain ⟨N, hNc, hNn, hNp, hNb, hN0⟩ := norm_penalty hk r hr
  set off : Fin (p + 1) → ℝ := fun j => offAt A.offset j with hoff
  have hshift : Continuous fun β : Fin (p + 1) → ℝ => fun j => β j - off j := by fun_prop
  have hf : Continuous (regressionLoss X d coef so o w) :=
    continuous_iff_continuousAt.2 fun x => (hP.convex.gradient x).continuousAt
  have hx0 : off ∈ atomDom A b r := by
    show atomBase A.klass b r (fun j => off j - off j) ≠ ⊤
    have e : (fun j => off j - off j) = fun _ => 0 := by funext j; ring
    rw [e]
    unfold atomBase
    rcases Bool.eq_false_or_eq_true b with hb | hb
    · simp only [hb, if_true]
      rw [if_pos ((hNb _).2 (by rw [hN0]; exact hr))]
      exact WithTop.zero_ne_top
    · simp only [hb, Bool.false_eq_true, if_false]
      rw [hNp]; exact WithTop.coe_ne_top
  suffices h : ∃ u ∈ atomDom A b r, ∀ v ∈ atomDom A b r,
      regressionLoss X d coef so o w u + (atomVal A b r u + quadVal quad u) ≤
        regressionLoss X d coef so o w v + (atomVal A b r v + quadVal quad v) by
    obtain ⟨u, h1, h2⟩ := h
    exact ⟨u, (min_iff X d coef so o w quad u).2 ⟨h1, h2⟩⟩
  clear hP
  rcases Bool.eq_false_or_eq_true b with rfl | rfl
  · have hdom : atomDom A true r = {β | N (fun j => β j - off j) ≤ r} := by
      ext β
      show atomBase A.klass true r (fun j => β j - off j) ≠ ⊤ ↔ N (fun j => β j - off j) ≤ r
      unfold atomBase
      simp only [if_true]
      rw [← hNb]
      by_cases h : (fun j => β j - off j) ∈ ballOf A.klass r
      · rw [if_pos h]; exact ⟨fun _ => h, fun _ => WithTop.zero_ne_top⟩
      · rw [if_neg h]; exact ⟨fun h' => absurd rfl h', fun h' => absurd h' h⟩
    have hval : ∀ β ∈ atomDom A true r, atomVal A true r β = quadVal (some A.quad) β := by
      intro β hβ
      rw [hdom] at hβ
      unfold atomVal atomBase
      simp only [if_true]
      rw [if_pos ((hNb _).2 hβ)]
      show (0:ℝ) + _ = _
      rw [zero_add]
    have hclosed : IsClosed (atomDom A true r) := by
      rw [hdom]
      exact isClosed_le (hNc.comp hshift) continuous_const
    have hcomp : IsCompact (atomDom A true r) := by
      apply Metric.isCompact_of_isClosed_isBounded hclosed
      refine (Metric.isBounded_closedBall (x := off) (r := r)).subset fun β hβ => ?_
      rw [hdom] at hβ
      rw [Metric.mem_closedBall, dist_eq_norm]
      exact (hNn _).trans hβ
    have hcont : Continuous fun β => regressionLoss X d coef so o w β + (quadVal (some A.quad) β + quadVal quad β) :=
      hf.add ((quadVal_continuous _).add (quadVal_continuous _))
    obtain ⟨u, hu, hmin⟩ := hcomp.exists_isMinOn ⟨off, hx0⟩ hcont.continuousOn
    refine ⟨u, hu, fun v hv => ?_⟩
    rw [hval u hu, hval v hv]
    exact hmin hv
  · rcases hcase with h | ⟨hr0, hq1, hq2⟩
    · cases h
    have hval : ∀ β, atomVal A false r β = r * N (fun j => β j - off j) := by
      intro β
      unfold atomVal atomBase
      simp only [Bool.false_eq_true, if_false]
      rw [hNp, hq2, init_val, WithTop.untopD_coe, add_zero]
    have hq : ∀ β, quadVal quad β = 0 := by intro β; rw [hq1]; rfl
    have hcont : Continuous fun β => regressionLoss X d coef so o w β + r * N (fun j => β j - off j) :=
      hf.add (continuous_const.mul (hNc.comp hshift))
    obtain ⟨u, hmin⟩ := hcont.exists_forall_le' off (by
      have hK : IsCompact (Metric.closedBall off (regressionLoss X d coef so o w off / r)) := isCompact_closedBall _ _
      filter_upwards [hK.compl_mem_cocompact] with β hβ
      have e : (fun j => off j - off j) = fun _ => 0 := by funext j; ring
      rw [e, hN0, mul_zero, add_zero]
      have h1 : regressionLoss X d coef so o w off / r < dist β off := by
        by_contra hcon
        exact hβ (Metric.mem_closedBall.2 (not_lt.1 hcon))
      rw [div_lt_iff₀ hr0, dist_eq_norm] at h1
      have h2 := loss_nonneg (X := X) (so := so) (o := o) hc0 hw0 hκ β
      have h3 := mul_le_mul_of_nonneg_left (hNn (fun j => β j - off j)) hr0.le
      have h4 : ‖β - off‖ = ‖fun j => β j - off j‖ := rfl
      rw [h4] at h1
      linarith)
    have hd' : ∀ β, β ∈ atomDom A false r := by
      intro β
      show atomBase A.klass false r _ ≠ ⊤
      unfold atomBase
      simp only [Bool.false_eq_true, if_false]
      rw [hNp]; exact WithTop.coe_ne_top
    refine ⟨u, hd' u, fun v _ => ?_⟩
    rw [hval, hval, hq, hq, add_zero, add_zero]
    exact hmin v

end

/-! ### the hypotheses are met by the lasso and by Huber regression in a ball -/

lemma build_ok (X : Fin n → Fin (p + 1) → ℝ) (d : LossData n) (hd : ¬ Loss.dataError d) {coef : ℝ} (hc : 0 ≤ coef)
    (so : Option (Fin n → ℝ)) (o : Option (Fin (p + 1) → ℝ)) (w : Option (Fin n → ℝ)) (hw : ∀ w', w = some w' → ∀ i, 0 ≤ w' i) :
    ∃ G, Glm.build X d coef so o w = some G := by
  unfold Glm.build
  rw [loss_init d hc hd so (Quad.init none none none none) none (fun _ h => by cases h)]
  simp only [Glm.init]
  cases w with
  | none => rw [if_neg (fun h => h fun _ => zero_le_one)]; exact ⟨_, rfl⟩
  | some w => rw [if_neg (fun h => h (hw w rfl))]; exact ⟨_, rfl⟩

/-- The lasso, for every design, response, nonnegative weights and positive penalty: the problem can be built, has a solution,
and `solve` with default settings answers. -/
example (X : Fin n → Fin (p + 1) → ℝ) (y w : Fin n → ℝ) (hw : ∀ i, 0 ≤ w i) (lam : ℝ) (hl : 0 < lam) (x0 : Fin (p + 1) → ℝ) :
    let A : AtomObj (Fin (p + 1)) ℝ := ⟨.l1norm, ⟨some lam, none⟩, none, Quad.init none none none none⟩
    ∃ G, Setup X (.gaussian y) 1 none none (some w) none A false lam G ∧
      (∃ u, IsMinTop (regressionObjective X (.gaussian y) 1 none none (some w) none A false lam) u) ∧
      ∃ N, ∀ fuel, N < fuel → ∃ c v hist, ((SimpleProblem.regression G none A x0).solve none {} 0 fuel).1 = .ok c v hist := by
  intro A
  obtain ⟨G, hG⟩ := build_ok X (.gaussian y) (fun h => h) zero_le_one none none (some w) (fun _ h => by injection h with h; rw [← h]; exact hw)
  have hs : Setup X (.gaussian y) 1 none none (some w) none A false lam G := ⟨hG, ⟨hl.le, rfl⟩, le_rfl, le_rfl⟩
  refine ⟨G, hs, C88_minimiser_exists _ _ _ _ _ _ _ _ _ _ _ hs 1 rfl (Or.inl rfl) (Or.inr ⟨hl, rfl, rfl⟩), ?_⟩
  obtain ⟨N, hN⟩ := C88_returns _ _ _ _ _ _ _ _ _ _ _ hs 1 rfl x0 {} rfl (by show (1:ℝ) < 11 / 10; norm_num)
    (by show (0:ℝ) < 1; norm_num) 0
  exact ⟨N, fun fuel hfu => by obtain ⟨c, v, hist, h, _⟩ := hN fuel hfu; exact ⟨c, _, hist, h⟩⟩

/-- Huber regression in a Euclidean ball with offsets and quadratics, run without restarts for at most 50 passes: the
hypotheses of `C88_rate` hold together. -/
example (X : Fin n → Fin (p + 1) → ℝ) (y so : Fin n → ℝ) (o x0 : Fin (p + 1) → ℝ) :
    let A : AtomObj (Fin (p + 1)) ℝ := ⟨.l2norm, ⟨none, some 2⟩, none, Quad.init (some 1) none (some (.arr x0)) none⟩
    let q : Quad (Fin (p + 1)) ℝ := Quad.init (some 3) (some (.arr o)) none none
    let a : FitArgs := { maxIts := some 50, monotonicityRestart := false }
    ∃ G M, Setup X (.huber y (1 / 4)) (1 / 2) (some so) (some o) none (some q) A true 2 G ∧
      HasCurvature (.huber y (1 / 4) : LossData n) (1 / (1 / 4)) ∧ 0 < M ∧
      (1 / 2 : ℝ) * (1 / (1 / 4)) * ∑ i, ((none : Option (Fin n → ℝ)).elim 1 fun w => w i) * ∑ j, X i j ^ 2 ≤ M ∧
      a.performBacktrack = true ∧ 1 ≤ a.alpha ∧ 0 < a.startStep ∧ a.monotonicityRestart = false ∧ a.restart = none ∧
      (∃ m, a.maxIts = some m ∧ m ≠ 0 ∧ m ≤ 99) ∧
      (∃ u, IsMinTop (regressionObjective X (.huber y (1 / 4)) (1 / 2) (some so) (some o) none (some q) A true 2) u) ∧
      ∃ N, ∀ fuel, N < fuel → ∃ c v hist, ((SimpleProblem.regression G (some q) A x0).solve none a 0 fuel).1 = .ok c v hist := by
  intro A q a
  obtain ⟨G, hG⟩ := build_ok X (.huber y (1 / 4)) (fun h => h) (by norm_num : (0:ℝ) ≤ 1 / 2) (some so) (some o) none
    (fun _ h => by cases h)
  have hs : Setup X (.huber y (1 / 4)) (1 / 2) (some so) (some o) none (some q) A true 2 G :=
    ⟨hG, ⟨by norm_num, rfl⟩, by show (0:ℝ) ≤ 3; norm_num, by show (0:ℝ) ≤ 1; norm_num⟩
  have hκ : HasCurvature (.huber y (1 / 4) : LossData n) (1 / (1 / 4)) := ⟨by norm_num, rfl⟩
  refine ⟨G, _, hs, hκ, lt_max_of_lt_right one_pos, le_max_left _ 1, rfl, by show (1:ℝ) ≤ 11 / 10; norm_num,
    by show (0:ℝ) < 1; norm_num, rfl, rfl, ⟨50, rfl, by norm_num, by norm_num⟩,
    C88_minimiser_exists _ _ _ _ _ _ _ _ _ _ _ hs _ hκ (Or.inr (Or.inr rfl)) (Or.inl rfl), ?_⟩
  obtain ⟨N, hN⟩ := C88_returns _ _ _ _ _ _ _ _ _ _ _ hs _ hκ x0 a rfl (by show (1:ℝ) < 11 / 10; norm_num)
    (by show (0:ℝ) < 1; norm_num) 0
  exact ⟨N, fun fuel hfu => by obtain ⟨c, v, hist, h, _⟩ := hN fuel hfu; exact ⟨c, _, hist, h⟩⟩

end Verif.Props
