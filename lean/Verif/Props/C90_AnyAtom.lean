import Verif.Model.AtomRegression
import Verif.Props.C88_Regression
import Verif.Props.C37_Separable

/-!
# C90: a penalised regression with any nonsmooth atom

`simple_problem(glm, atom)` for every atom that meets the contract `IsAtomFor`: `proximal` solves for the documented function,
`nonsmooth_objective` returns it, and the function is convex.  `C90_Atoms` shows that the atoms of the library meet it.
-/

set_option linter.unusedSectionVars false
set_option linter.unusedVariables false

namespace Verif.Props
open Verif.Spec Verif.Model Verif.Model.Fista Verif.Lemmas

variable {n p m : ℕ}

/-! ### specification -/

/-- what a user of an atom standing for the function `pen` (quadratic included, `⊤` where it is infinite) relies on -/
structure IsAtomFor (A : NonsmoothAtom m) (pen : (Fin m → ℝ) → WithTop ℝ) : Prop where
  /-- whatever `proximal` returns is the unique minimiser of `q + pen` -/
  solves : ∀ (Q : Quad (Fin m) ℝ) z, 0 < Q.coef → A.proximal Q = .ok z →
    IsUniqueMinTop (fun x => ((quadVal (some Q) x : ℝ) : WithTop ℝ) + pen x) z
  /-- `proximal` answers a quadratic with positive coefficient and an array as linear term -/
  total : ∀ (Q : Quad (Fin m) ℝ) v, 0 < Q.coef → Q.linear = some (.arr v) → ∃ z, A.proximal Q = .ok z
  /-- `nonsmooth_objective` is `pen` where `pen` is finite -/
  value : ∀ x (v : ℝ), pen x = v → A.nonsmooth x false = .num v
  /-- with the feasibility check `nonsmooth_objective` returns a number or `inf` -/
  defined : ∀ x, A.nonsmooth x true ≠ .nan
  convex : ConvexTop pen

/-- the documented objective: penalty, loss, quadratic given to the glm -/
noncomputable def penalisedLoss (X : Fin n → Fin (p + 1) → ℝ) (d : LossData n) (coef : ℝ) (so : Option (Fin n → ℝ))
    (o : Option (Fin (p + 1) → ℝ)) (w : Option (Fin n → ℝ)) (quad : Option (Quad (Fin (p + 1)) ℝ))
    (pen : (Fin (p + 1) → ℝ) → WithTop ℝ) (β : Fin (p + 1) → ℝ) : WithTop ℝ :=
  pen β + ((regressionLoss X d coef so o w β + quadVal quad β : ℝ) : WithTop ℝ)

/-- the arguments of the calls -/
structure AtomSetup (X : Fin n → Fin (p + 1) → ℝ) (d : LossData n) (coef : ℝ) (so : Option (Fin n → ℝ))
    (o : Option (Fin (p + 1) → ℝ)) (w : Option (Fin n → ℝ)) (quad : Option (Quad (Fin (p + 1)) ℝ))
    (A : NonsmoothAtom (p + 1)) (pen : (Fin (p + 1) → ℝ) → WithTop ℝ) (G : Glm (p + 1) n) : Prop where
  /-- the glm constructor accepts the data, coefficient, offsets and weights -/
  built : Glm.build X d coef so o w = some G
  atom : IsAtomFor A pen
  quad_coef : 0 ≤ quadCoef quad

/-! ### the parts -/

section
variable {X : Fin n → Fin (p + 1) → ℝ} {d : LossData n} {coef : ℝ} {so : Option (Fin n → ℝ)} {o : Option (Fin (p + 1) → ℝ)}
  {w : Option (Fin n → ℝ)} {quad : Option (Quad (Fin (p + 1)) ℝ)} {A : NonsmoothAtom (p + 1)}
  {pen : (Fin (p + 1) → ℝ) → WithTop ℝ} {G : Glm (p + 1) n}

private def dom (pen : (Fin m → ℝ) → WithTop ℝ) : Set (Fin m → ℝ) := {x | pen x ≠ ⊤}

private noncomputable def val (pen : (Fin m → ℝ) → WithTop ℝ) (x : Fin m → ℝ) : ℝ := (pen x).untopD 0

private lemma val_eq {pen : (Fin m → ℝ) → WithTop ℝ} {x : Fin m → ℝ} (hx : x ∈ dom pen) :
    pen x = ((val pen x : ℝ) : WithTop ℝ) := by
  obtain ⟨v, hv⟩ := WithTop.ne_top_iff_exists.1 (show pen x ≠ ⊤ from hx)
  unfold val
  rw [← hv]; rfl

private lemma pen_convex {pen : (Fin m → ℝ) → WithTop ℝ} (h : ConvexTop pen) : IsConvexFnOn (val pen) (dom pen) := by
  intro x hx y hy s t hs ht hst
  obtain ⟨c, h1, h2⟩ := h x y _ _ (val_eq hx) (val_eq hy) t ht (by linarith)
  have e : 1 - t = s := by linarith
  rw [e] at h1 h2
  refine ⟨?_, ?_⟩
  · show pen _ ≠ ⊤
    rw [h1]; exact WithTop.coe_ne_top
  · unfold val at h2 ⊢
    rw [h1, WithTop.untopD_coe]; exact h2

private lemma obj_eq (X : Fin n → Fin (p + 1) → ℝ) (d : LossData n) (coef : ℝ) (so : Option (Fin n → ℝ))
    (o : Option (Fin (p + 1) → ℝ)) (w : Option (Fin n → ℝ)) (quad : Option (Quad (Fin (p + 1)) ℝ))
    {β : Fin (p + 1) → ℝ} (hβ : β ∈ dom pen) :
    penalisedLoss X d coef so o w quad pen β =
      ((regressionLoss X d coef so o w β + (val pen β + quadVal quad β) : ℝ) : WithTop ℝ) := by
  unfold penalisedLoss
  rw [val_eq hβ, ← WithTop.coe_add]
  congr 1; ring

private lemma obj_top (X : Fin n → Fin (p + 1) → ℝ) (d : LossData n) (coef : ℝ) (so : Option (Fin n → ℝ))
    (o : Option (Fin (p + 1) → ℝ)) (w : Option (Fin n → ℝ)) (quad : Option (Quad (Fin (p + 1)) ℝ))
    {β : Fin (p + 1) → ℝ} : penalisedLoss X d coef so o w quad pen β ≠ ⊤ ↔ β ∈ dom pen := by
  constructor
  · intro h hc
    apply h
    unfold penalisedLoss
    rw [show pen β = ⊤ from hc, WithTop.top_add]
  · intro h
    rw [obj_eq X d coef so o w quad h]; exact WithTop.coe_ne_top

/-- what the pieces of the problem are -/
private structure Pieces (P : SimpleProblem (p + 1)) (f : (Fin (p + 1) → ℝ) → ℝ) (g : (Fin (p + 1) → ℝ) → Fin (p + 1) → ℝ)
    (S : Set (Fin (p + 1) → ℝ)) (H : (Fin (p + 1) → ℝ) → ℝ) : Prop where
  core : ∀ lip, IsProblemCore (P.composite lip) f H S
  grad : P.grad = g
  convex : ConvexWithGradient f g
  nonsmooth_convex : IsConvexFnOn H S
  total : ∀ (L : ℝ) (x u : Fin (p + 1) → ℝ), 0 < L →
    ∃ z, P.proximal (Quad.init (some L) (some (.arr x)) (some (.arr u)) (some 0)) = some z
  start : ∀ lip x, startObj (P.composite lip) x ≠ .nan
  fixed : ∀ (L : ℝ) (x z : Fin (p + 1) → ℝ), 0 < L →
    P.proximal (Quad.init (some L) (some (.arr x)) (some (.arr (g x))) (some 0)) = some z →
    (Minimises (fun u => f u + H u) S x ↔ z = x)

private lemma pieces (hs : AtomSetup X d coef so o w quad A pen G) (hd : ConvexLoss d) (x0 : Fin (p + 1) → ℝ) :
    Pieces (SimpleProblem.withAtom G quad A x0) (regressionLoss X d coef so o w)
      (glmGrad X (effOffset o) (effOffset so) (fun i => w.elim 1 fun w => w i) coef (psi d))
      (dom pen) (fun β => val pen β + quadVal quad β) := by
  set P := SimpleProblem.withAtom G quad A x0 with hP
  set f := regressionLoss X d coef so o w with hf
  set g := glmGrad X (effOffset o) (effOffset so) (fun i => w.elim 1 fun w => w i) coef (psi d) with hg
  obtain ⟨hc0, hw0, -⟩ := built_eq hs.built
  have hfv : glmVal X (effOffset o) (effOffset so) (fun i => w.elim 1 fun w => w i) coef (phi d) = f := by
    rw [phi_case hd]; rfl
  have hgrad : P.grad = g := by
    funext x
    show (match (G.smoothObjective x .grad).1 with
      | .grad g => g
      | _ => fun _ => 0) = _
    rw [(glm_eval hs.built x).2]
  have hsm : ∀ x, P.smooth x = .num (f x) := by
    intro x
    show (match (G.smoothObjective x .func).1 with
      | .val f => ObjVal.num f
      | _ => .nan) = _
    rw [(glm_eval hs.built x).1, hfv]
  have hconv : ConvexWithGradient f g := by
    rw [← hfv]
    exact ⟨convex_of_tangents (glm_tangent (κ := 0) hc0 hw0 (tangent_of hd)), glm_gradient (deriv_of hd)⟩
  have hcoef : 0 ≤ (quad.getD (Quad.init none none none none)).coef := by
    cases quad with
    | none => exact le_rfl
    | some q => exact hs.quad_coef
  have hat : ∀ x ∈ dom pen, P.atomNonsmooth x false = .num (val pen x) :=
    fun x hx => hs.atom.value x _ (val_eq hx)
  have hpc := pen_convex hs.atom.convex
  -- the same problem with an exact feasibility check
  classical
  let P' : SimpleProblem (p + 1) :=
    { P with atomNonsmooth := fun x _ => if x ∈ dom pen then .num (val pen x) else .inf }
  have hsolve : AtomSolves P.atomSolve (val pen) (dom pen) := by
    intro Q z hQ hz
    have hz' : A.proximal Q = .ok z := by
      have : (match A.proximal Q with
        | .ok z => some z
        | _ => none) = some z := hz
      cases hA : A.proximal Q with
      | ok u => rw [hA] at this; injection this with this; rw [this]
      | valueError => rw [hA] at this; cases this
      | typeError => rw [hA] at this; cases this
      | scalarArgument => rw [hA] at this; cases this
      | baseError => rw [hA] at this; cases this
    have h := hs.atom.solves Q z hQ hz'
    have hzd : z ∈ dom pen := (WithTop.add_ne_top.1 h.1).2
    refine ⟨hzd, fun u hu hne => ?_⟩
    have := h.2 u hne
    dsimp only at this ⊢
    rw [val_eq hzd, val_eq hu, ← WithTop.coe_add, ← WithTop.coe_add, WithTop.coe_lt_coe] at this
    rw [fv84, fv84]
    linarith
  have hP' : IsSimple P' f (val pen) (dom pen) :=
    ⟨hsm, fun x hx c => if_pos hx, fun x hx => if_neg hx, hsolve, hcoef, le_rfl⟩
  have hH : simpleNonsmooth P' (val pen) = fun β => val pen β + quadVal quad β := by
    funext β
    show _ + quadVal (some (quad.getD (Quad.init none none none none))) β + quadVal (some (Quad.init none none none none)) β = _
    rw [init_val, quad_getD, add_zero]
  have hI := fun lip => C36_objective P' f _ _ hP' lip
  rw [hH] at hI
  have hHc : IsConvexFnOn (fun β => val pen β + quadVal quad β) (dom pen) := by
    intro x hx y hy s t hs' ht hst
    obtain ⟨h1, h2⟩ := hpc x hx y hy s t hs' ht hst
    refine ⟨h1, ?_⟩
    have h3 := quadVal_convex (quad.getD (Quad.init none none none none)) hcoef x y s t hs' ht hst
    rw [quad_getD, quad_getD, quad_getD] at h3
    linarith
  refine ⟨fun lip => ⟨hsm, fun x hx => ?_, (hI lip).prox⟩, hgrad, hconv, hHc, fun L x u hL => ?_, fun lip x => ?_,
    fun L x z hL hz => ?_⟩
  · have h1 := (hI lip).nonsmooth x hx
    have e : P.atomNonsmooth x false = P'.atomNonsmooth x false := by
      rw [hat x hx]; exact (if_pos hx).symm
    have e2 : (P.composite lip).nonsmooth x false = (P'.composite lip).nonsmooth x false := by
      show P.nonsmooth x false = P'.nonsmooth x false
      unfold SimpleProblem.nonsmooth
      rw [e]
    rw [e2]; exact h1
  · show ∃ z, (match A.proximal (((Quad.init (some L) (some (.arr x)) (some (.arr u)) (some 0)).add
        (some (quad.getD (Quad.init none none none none)))).add (some (Quad.init none none none none))) with
      | .ok z => some z
      | _ => none) = some z
    obtain ⟨v1, hv1⟩ := lin_arr (Quad.init (some L) (some (.arr x)) (some (.arr u)) (some 0)) rfl
      (quad.getD (Quad.init none none none none))
    obtain ⟨v2, hv2⟩ := lin_arr _ hv1 (Quad.init none none none none)
    obtain ⟨z, hz⟩ := hs.atom.total _ v2 (by
      show 0 < L + (quad.getD (Quad.init none none none none)).coef + 0
      linarith) hv2
    exact ⟨z, by rw [hz]⟩
  · unfold startObj
    show (P.smooth x).add (P.nonsmooth x true) ≠ .nan
    rw [hsm]
    have hne : P.atomNonsmooth x true ≠ .nan := hs.atom.defined x
    unfold SimpleProblem.nonsmooth
    cases hx : P.atomNonsmooth x true with
    | nan => exact absurd hx hne
    | num v => exact fun h => by cases h
    | inf => exact fun h => by cases h
  · have := C34_fixed_point P' f _ _ hP' (by show ConvexWithGradient f P.grad; rw [hgrad]; exact hconv)
      hpc L hL x z (by
        show P.proximal _ = some z
        have : P'.grad = g := hgrad
        rw [this]; exact hz)
    rw [hH] at this
    exact this

private lemma min_iff (X : Fin n → Fin (p + 1) → ℝ) (d : LossData n) (coef : ℝ) (so : Option (Fin n → ℝ))
    (o : Option (Fin (p + 1) → ℝ)) (w : Option (Fin n → ℝ)) (quad : Option (Quad (Fin (p + 1)) ℝ)) (u : Fin (p + 1) → ℝ) :
    IsMinTop (penalisedLoss X d coef so o w quad pen) u ↔
      Minimises (fun β => regressionLoss X d coef so o w β + (val pen β + quadVal quad β)) (dom pen) u := by
  constructor
  · rintro ⟨h1, h2⟩
    have hu := (obj_top X d coef so o w quad).1 h1
    refine ⟨hu, fun v hv => ?_⟩
    have := h2 v
    rw [obj_eq X d coef so o w quad hu, obj_eq X d coef so o w quad hv, WithTop.coe_le_coe] at this
    exact this
  · rintro ⟨h1, h2⟩
    refine ⟨(obj_top X d coef so o w quad).2 h1, fun v => ?_⟩
    by_cases hv : v ∈ dom pen
    · rw [obj_eq X d coef so o w quad h1, obj_eq X d coef so o w quad hv, WithTop.coe_le_coe]
      exact h2 v hv
    · have : penalisedLoss X d coef so o w quad pen v = ⊤ := by
        by_contra h
        exact hv ((obj_top X d coef so o w quad).1 h)
      rw [this]; exact le_top

end

section
variable (X : Fin n → Fin (p + 1) → ℝ) (d : LossData n) (coef : ℝ) (so : Option (Fin n → ℝ)) (o : Option (Fin (p + 1) → ℝ))
  (w : Option (Fin n → ℝ)) (quad : Option (Quad (Fin (p + 1)) ℝ)) (A : NonsmoothAtom (p + 1))
  (pen : (Fin (p + 1) → ℝ) → WithTop ℝ) (G : Glm (p + 1) n)

/-- **C90** The objective of `simple_problem(loss, atom)` for any atom that stands for `pen`: wherever loss plus quadratic plus
`pen` is finite, it is the number `objective` returns. -/
theorem C90_objective (hs : AtomSetup X d coef so o w quad A pen G) (hd : ConvexLoss d) (x0 β : Fin (p + 1) → ℝ) (v : ℝ)
    (hv : penalisedLoss X d coef so o w quad pen β = v) :
    (SimpleProblem.withAtom G quad A x0).objective β = .num v := by
  have hβ : β ∈ dom pen := (obj_top X d coef so o w quad).1 (by rw [hv]; exact WithTop.coe_ne_top)
  have hC := (pieces hs hd x0).core 0
  rw [obj_eq X d coef so o w quad hβ, WithTop.coe_inj] at hv
  unfold SimpleProblem.objective
  have h1 : (SimpleProblem.withAtom G quad A x0).smooth β = _ := hC.smooth β
  have h2 : (SimpleProblem.withAtom G quad A x0).nonsmooth β false = _ := hC.nonsmooth β hβ
  rw [h1, h2, ← hv]
  rfl

/-- **C90** Optimality certificate for any atom: for every `L > 0` and every `β` the proximal gradient step of the problem
exists, and `β` minimises the documented objective over all coefficients exactly when the step leaves it where it is. -/
theorem C90_certificate (hs : AtomSetup X d coef so o w quad A pen G) (hd : ConvexLoss d) (x0 β : Fin (p + 1) → ℝ) (L : ℝ)
    (hL : 0 < L) :
    ∃ z, (SimpleProblem.withAtom G quad A x0).proximal (Quad.init (some L) (some (.arr β))
        (some (.arr ((SimpleProblem.withAtom G quad A x0).grad β))) (some 0)) = some z ∧
      (IsMinTop (penalisedLoss X d coef so o w quad pen) β ↔ z = β) := by
  have hP := pieces hs hd x0
  rw [hP.grad]
  obtain ⟨z, hz⟩ := hP.total L β (glmGrad X (effOffset o) (effOffset so) (fun i => w.elim 1 fun w => w i) coef (psi d) β) hL
  exact ⟨z, hz, by rw [min_iff]; exact hP.fixed L β z hL hz⟩

private lemma loss_smooth (hb : Glm.build X d coef so o w = some G) {κ M : ℝ} (hκ : HasCurvature d κ)
    (hM : coef * κ * ∑ i, (w.elim 1 fun w => w i) * ∑ j, X i j ^ 2 ≤ M) :
    SmoothWith (regressionLoss X d coef so o w)
      (glmGrad X (effOffset o) (effOffset so) (fun i => w.elim 1 fun w => w i) coef (psi d)) M := by
  obtain ⟨hc0, hw0, -⟩ := built_eq hb
  have hd := convex_of_curvature hκ
  have hfv : glmVal X (effOffset o) (effOffset so) (fun i => w.elim 1 fun w => w i) coef (phi d) =
      regressionLoss X d coef so o w := by
    rw [phi_case hd]; rfl
  rw [← hfv]
  obtain ⟨h1, h2⟩ := upper_of hκ
  exact smooth_of_bounds (glm_tangent (κ := 0) hc0 hw0 (tangent_of hd)) (glm_upper hc0 hw0 h1 h2 hM)

/-- **C90** `solve` answers for any atom: with a loss of bounded curvature, from every start, and for every setting of the
solver with backtracking on, a positive first step and `alpha > 1`, `solve` returns coefficients of finite documented
objective together with that objective. -/
theorem C90_returns (hs : AtomSetup X d coef so o w quad A pen G) (κ : ℝ) (hκ : HasCurvature d κ) (x0 : Fin (p + 1) → ℝ)
    (a : FitArgs) (hb : a.performBacktrack = true) (ha : 1 < a.alpha) (hst : 0 < a.startStep) (lip : ℝ) :
    ∃ N, ∀ fuel, N < fuel → ∃ c v hist,
      ((SimpleProblem.withAtom G quad A x0).solve none a lip fuel).1 = .ok c (.num v) hist ∧
      penalisedLoss X d coef so o w quad pen c = v := by
  have hd := convex_of_curvature hκ
  have hP := pieces hs hd x0
  have hM := loss_smooth X d coef so o w G hs.built hκ (le_max_left _ 1)
  have hg : ((SimpleProblem.withAtom G quad A x0).composite lip).grad = _ := hP.grad
  obtain ⟨N, hN⟩ := C33_terminates _ _ _ _ (hP.core lip) _ (lt_max_of_lt_right one_pos) (by rw [hg]; exact hM) hP.total a hb ha
    none hst false x0 (hP.start lip x0)
  refine ⟨N, fun fuel hfu => ?_⟩
  obtain ⟨hist, s, h⟩ := hN fuel hfu
  obtain ⟨_, hS, _⟩ := run_coefs (hP.core lip) hb (by linarith) (step := none) hst h
  have hv := obj_eq X d coef so o w quad hS
  refine ⟨s.coefs, _, hist, ?_, hv⟩
  rw [solve_ok (P := SimpleProblem.withAtom G quad A x0) h, C90_objective X d coef so o w quad A pen G hs hd x0 s.coefs _ hv]

/-- **C90** How good the answer is, for any atom: with a loss of bounded curvature, no restarts and at most 99 iterations, the
coefficients `solve` returns after `k` recorded objective values miss the smallest value of the documented objective by at most
`2 ‖x0 - u‖² / (t (k+1)²)` for every minimiser `u`, where `t = min(start_step, 1/(2 M alpha))`. -/
theorem C90_rate (hs : AtomSetup X d coef so o w quad A pen G) (κ : ℝ) (hκ : HasCurvature d κ) (M : ℝ) (hM0 : 0 < M)
    (hM : coef * κ * ∑ i, (w.elim 1 fun w => w i) * ∑ j, X i j ^ 2 ≤ M) (x0 : Fin (p + 1) → ℝ)
    (a : FitArgs) (hb : a.performBacktrack = true) (ha : 1 ≤ a.alpha) (hst : 0 < a.startStep)
    (hm : a.monotonicityRestart = false) (hr : a.restart = none) (hmax : ∃ m, a.maxIts = some m ∧ m ≠ 0 ∧ m ≤ 99)
    (lip : ℝ) (fuel : ℕ) (c : Fin (p + 1) → ℝ) (v : ObjVal) (hist : List ObjVal)
    (hsolve : ((SimpleProblem.withAtom G quad A x0).solve none a lip fuel).1 = .ok c v hist)
    (u : Fin (p + 1) → ℝ) (hu : IsMinTop (penalisedLoss X d coef so o w quad pen) u) :
    ∃ vc vu : ℝ, v = .num vc ∧ penalisedLoss X d coef so o w quad pen c = vc ∧
      penalisedLoss X d coef so o w quad pen u = vu ∧ vu ≤ vc ∧
      vc - vu ≤ 2 * sqDist x0 u / (min a.startStep (1 / (2 * M * a.alpha)) * (hist.length + 1) ^ 2) := by
  have hd := convex_of_curvature hκ
  have hP := pieces hs hd x0
  have hMs := loss_smooth X d coef so o w G hs.built hκ hM
  have hg : ((SimpleProblem.withAtom G quad A x0).composite lip).grad = _ := hP.grad
  obtain ⟨s, hfit, hc, hv⟩ := ok_solve hsolve
  obtain ⟨hlen, hS, hlog⟩ := run_coefs (hP.core lip) hb (by linarith) (step := none) hst hfit
  obtain ⟨rec, hrec, hprop⟩ := hlog hm
  have hmin := (min_iff X d coef so o w quad u).1 hu
  have hrate := C35_fista_rate_lipschitz _ _ _ _ (hP.core lip) (by rw [hg]; exact hP.convex) hP.nonsmooth_convex M hM0
    (by rw [hg]; exact hMs) a hb ha hm hr hmax hst fuel x0 u hmin hist s hfit (hist.length - 1) rec hrec
  rw [hprop, hc] at hrate
  rw [hc] at hS
  have e : ((hist.length - 1 : ℕ) : ℝ) + 2 = hist.length + 1 := by
    rw [Nat.cast_sub hlen, Nat.cast_one]; ring
  rw [e] at hrate
  refine ⟨_, _, ?_, obj_eq X d coef so o w quad hS, obj_eq X d coef so o w quad hmin.1, hmin.2 c hS, hrate⟩
  rw [hv, C90_objective X d coef so o w quad A pen G hs hd x0 c _ (obj_eq X d coef so o w quad hS)]

/-- **C90** A solution is kept, for any atom: if the start minimises the documented objective and the feasibility check of the
atom accepts it, `solve` returns exactly the start, for every setting of the solver with backtracking. -/
theorem C90_keeps_solution (hs : AtomSetup X d coef so o w quad A pen G) (hd : ConvexLoss d) (x0 : Fin (p + 1) → ℝ)
    (hx : IsMinTop (penalisedLoss X d coef so o w quad pen) x0)
    (hfeas : A.nonsmooth x0 true = A.nonsmooth x0 false)
    (a : FitArgs) (hb : a.performBacktrack = true) (ha : 0 < a.alpha) (hst : 0 < a.startStep) (lip : ℝ) (fuel : ℕ)
    (hfuel : 0 < fuel) :
    ∃ v hist, ((SimpleProblem.withAtom G quad A x0).solve none a lip fuel).1 = .ok x0 (.num v) hist ∧
      penalisedLoss X d coef so o w quad pen x0 = v := by
  have hP := pieces hs hd x0
  have hmin := (min_iff X d coef so o w quad x0).1 hx
  have hC := hP.core lip
  obtain ⟨hist, s, h1, h2⟩ := fit_fixed (C := (SimpleProblem.withAtom G quad A x0).composite lip) (x := x0) (hC.smooth x0)
    (t := val pen x0 + quadVal quad x0) (fun check => by
      cases check
      · exact hC.nonsmooth x0 hmin.1
      · rw [← hC.nonsmooth x0 hmin.1]
        show SimpleProblem.nonsmooth _ x0 true = SimpleProblem.nonsmooth _ x0 false
        unfold SimpleProblem.nonsmooth SimpleProblem.withAtom
        dsimp only
        rw [hfeas]) (fun L hL => by
      obtain ⟨z, hz, hiff⟩ := C90_certificate X d coef so o w quad A pen G hs hd x0 x0 L hL
      rw [hiff.1 hx] at hz
      exact hz) hb ha (step := none) hst false hfuel
  have hv := obj_eq X d coef so o w quad hmin.1
  refine ⟨_, hist, ?_, hv⟩
  rw [solve_ok (P := SimpleProblem.withAtom G quad A x0) h1, h2,
    C90_objective X d coef so o w quad A pen G hs hd x0 x0 _ hv]

end

end Verif.Props
