import Verif.Model.AnyLoss
import Verif.Props.C90_AnyAtom

/-!
# C100: a penalised problem with any smooth loss and any nonsmooth atom

`simple_problem(loss, atom)` for every loss that meets the contract `IsLossFor` and every atom that meets `IsAtomFor` (C90).
`C100_Losses` shows that the losses of the library meet it, and that sums and affine compositions of such losses do.
-/

set_option linter.unusedSectionVars false
set_option linter.unusedVariables false

namespace Verif.Props
open Verif.Spec Verif.Model Verif.Model.Fista Verif.Lemmas

variable {m : ℕ}

/-! ### specification -/

/-- what a user of a loss standing for the function `f` relies on: it returns `f` and `g` in the three documented modes, `f` is
convex with gradient `g`, and the quadratic attached to it is convex -/
structure IsLossFor (S : QuadLoss m) (f : (Fin m → ℝ) → ℝ) (g : (Fin m → ℝ) → Fin m → ℝ) : Prop where
  evaluates : Evaluates S.obj f g
  convex : ConvexWithGradient f g
  quad_coef : 0 ≤ S.quad.coef

/-- the documented objective: penalty, loss, quadratic of the loss -/
noncomputable def penalised (f : (Fin m → ℝ) → ℝ) (quad : Quad (Fin m) ℝ) (pen : (Fin m → ℝ) → WithTop ℝ) (β : Fin m → ℝ) :
    WithTop ℝ := pen β + ((f β + quadVal (some quad) β : ℝ) : WithTop ℝ)

namespace AnyLoss

/-! ### the parts -/

def dom (pen : (Fin m → ℝ) → WithTop ℝ) : Set (Fin m → ℝ) := {x | pen x ≠ ⊤}

noncomputable def val (pen : (Fin m → ℝ) → WithTop ℝ) (x : Fin m → ℝ) : ℝ := (pen x).untopD 0

lemma val_eq {pen : (Fin m → ℝ) → WithTop ℝ} {x : Fin m → ℝ} (hx : x ∈ dom pen) :
    pen x = ((val pen x : ℝ) : WithTop ℝ) := by
  obtain ⟨v, hv⟩ := WithTop.ne_top_iff_exists.1 (show pen x ≠ ⊤ from hx)
  unfold val
  rw [← hv]; rfl

lemma pen_convex {pen : (Fin m → ℝ) → WithTop ℝ} (h : ConvexTop pen) : IsConvexFnOn (val pen) (dom pen) := by
  intro x hx y hy s t hs ht hst
  obtain ⟨c, h1, h2⟩ := h x y _ _ (val_eq hx) (val_eq hy) t ht (by linarith)
  have e : 1 - t = s := by linarith
  rw [e] at h1 h2
  refine ⟨?_, ?_⟩
  · show pen _ ≠ ⊤
    rw [h1]; exact WithTop.coe_ne_top
  · unfold val at h2 ⊢
    rw [h1, WithTop.untopD_coe]; exact h2

lemma obj_eq (f : (Fin m → ℝ) → ℝ) (quad : Quad (Fin m) ℝ) {pen : (Fin m → ℝ) → WithTop ℝ} {β : Fin m → ℝ}
    (hβ : β ∈ dom pen) :
    penalised f quad pen β = ((f β + (val pen β + quadVal (some quad) β) : ℝ) : WithTop ℝ) := by
  unfold penalised
  rw [val_eq hβ, ← WithTop.coe_add]
  congr 1; ring

lemma obj_top (f : (Fin m → ℝ) → ℝ) (quad : Quad (Fin m) ℝ) {pen : (Fin m → ℝ) → WithTop ℝ} {β : Fin m → ℝ} :
    penalised f quad pen β ≠ ⊤ ↔ β ∈ dom pen := by
  constructor
  · intro h hc
    apply h
    unfold penalised
    rw [show pen β = ⊤ from hc, WithTop.top_add]
  · intro h
    rw [obj_eq f quad h]; exact WithTop.coe_ne_top

lemma lin_arr' (q : Quad (Fin m) ℝ) {v : Fin m → ℝ} (h : q.linear = some (.arr v)) (q2 : Quad (Fin m) ℝ) :
    ∃ v', (q.add (some q2)).linear = some (.arr v') := by
  have h1 : ∃ v1, q.collapsedLinear = .arr v1 := by
    unfold Quad.collapsedLinear
    rw [h]
    rcases q.center with _ | (c | c) <;> exact ⟨_, rfl⟩
  obtain ⟨v1, h1⟩ := h1
  show ∃ v', some (PyVec.map₂ (· + ·) q.collapsedLinear q2.collapsedLinear) = some (.arr v')
  rw [h1]
  cases q2.collapsedLinear <;> exact ⟨_, rfl⟩

/-- what the pieces of the problem are -/
structure Pieces (P : SimpleProblem m) (f : (Fin m → ℝ) → ℝ) (g : (Fin m → ℝ) → Fin m → ℝ)
    (S : Set (Fin m → ℝ)) (H : (Fin m → ℝ) → ℝ) : Prop where
  core : ∀ lip, IsProblemCore (P.composite lip) f H S
  grad : P.grad = g
  nonsmooth_convex : IsConvexFnOn H S
  total : ∀ (L : ℝ) (x u : Fin m → ℝ), 0 < L →
    ∃ z, P.proximal (Quad.init (some L) (some (.arr x)) (some (.arr u)) (some 0)) = some z
  start : ∀ lip x, startObj (P.composite lip) x ≠ .nan
  fixed : ∀ (L : ℝ) (x z : Fin m → ℝ), 0 < L →
    P.proximal (Quad.init (some L) (some (.arr x)) (some (.arr (g x))) (some 0)) = some z →
    (Minimises (fun u => f u + H u) S x ↔ z = x)

section
variable {S : QuadLoss m} {f : (Fin m → ℝ) → ℝ} {g : (Fin m → ℝ) → Fin m → ℝ} {A : NonsmoothAtom m}
  {pen : (Fin m → ℝ) → WithTop ℝ}

lemma pieces (hS : IsLossFor S f g) (hA : IsAtomFor A pen) (x0 : Fin m → ℝ) :
    Pieces (SimpleProblem.ofLoss S A x0) f g (dom pen) (fun β => val pen β + quadVal (some S.quad) β) := by
  set P := SimpleProblem.ofLoss S A x0 with hP
  have hgrad : P.grad = g := by
    funext x
    show (match S.obj x .grad with
      | .grad g => g
      | _ => fun _ => 0) = _
    rw [(hS.evaluates x).2.1]
  have hsm : ∀ x, P.smooth x = .num (f x) := by
    intro x
    show (match S.obj x .func with
      | .val f => ObjVal.num f
      | _ => .nan) = _
    rw [(hS.evaluates x).1]
  have hat : ∀ x ∈ dom pen, P.atomNonsmooth x false = .num (val pen x) :=
    fun x hx => hA.value x _ (val_eq hx)
  have hpc := pen_convex hA.convex
  -- the same problem with an exact feasibility check
  classical
  let P' : SimpleProblem m :=
    { P with atomNonsmooth := fun x _ => if x ∈ dom pen then .num (val pen x) else .inf }
  have hsolve : AtomSolves P.atomSolve (val pen) (dom pen) := by
    intro Q z hQ hz
    have hz' : A.proximal Q = .ok z := by
      have : (match A.proximal Q with
        | .ok z => some z
        | _ => none) = some z := hz
      cases hA : A.proximal Q with
      | ok u => rw [hA] at this; injection this with this; rw [this]
      | valueError => rw [hA] at this; cases this
      | typeError => rw [hA] at this; cases this
      | scalarArgument => rw [hA] at this; cases this
      | baseError => rw [hA] at this; cases this
    have h := hA.solves Q z hQ hz'
    have hzd : z ∈ dom pen := (WithTop.add_ne_top.1 h.1).2
    refine ⟨hzd, fun u hu hne => ?_⟩
    have := h.2 u hne
    dsimp only at this ⊢
    rw [val_eq hzd, val_eq hu, ← WithTop.coe_add, ← WithTop.coe_add, WithTop.coe_lt_coe] at this
    rw [fv84, fv84]
    linarith
  have hP' : IsSimple P' f (val pen) (dom pen) :=
    ⟨hsm, fun x hx c => if_pos hx, fun x hx => if_neg hx, hsolve, hS.quad_coef, le_rfl⟩
  have hH : simpleNonsmooth P' (val pen) = fun β => val pen β + quadVal (some S.quad) β := by
    funext β
    show _ + quadVal (some S.quad) β + quadVal (some (Quad.init none none none none)) β = _
    rw [init_val, add_zero]
  have hI := fun lip => C36_objective P' f _ _ hP' lip
  rw [hH] at hI
  have hHc : IsConvexFnOn (fun β => val pen β + quadVal (some S.quad) β) (dom pen) := by
    intro x hx y hy s t hs' ht hst
    obtain ⟨h1, h2⟩ := hpc x hx y hy s t hs' ht hst
    refine ⟨h1, ?_⟩
    have h3 := quadVal_convex S.quad hS.quad_coef x y s t hs' ht hst
    linarith
  refine ⟨fun lip => ⟨hsm, fun x hx => ?_, (hI lip).prox⟩, hgrad, hHc, fun L x u hL => ?_, fun lip x => ?_,
    fun L x z hL hz => ?_⟩
  · have h1 := (hI lip).nonsmooth x hx
    have e : P.atomNonsmooth x false = P'.atomNonsmooth x false := by
      rw [hat x hx]; exact (if_pos hx).symm
    have e2 : (P.composite lip).nonsmooth x false = (P'.composite lip).nonsmooth x false := by
      show P.nonsmooth x false = P'.nonsmooth x false
      unfold SimpleProblem.nonsmooth
      rw [e]
    rw [e2]; exact h1
  · show ∃ z, (match A.proximal (((Quad.init (some L) (some (.arr x)) (some (.arr u)) (some 0)).add
        (some S.quad)).add (some (Quad.init none none none none))) with
      | .ok z => some z
      | _ => none) = some z
    obtain ⟨v1, hv1⟩ := lin_arr' (Quad.init (some L) (some (.arr x)) (some (.arr u)) (some 0)) rfl S.quad
    obtain ⟨v2, hv2⟩ := lin_arr' _ hv1 (Quad.init none none none none)
    obtain ⟨z, hz⟩ := hA.total _ v2 (by
      have := hS.quad_coef
      show 0 < L + S.quad.coef + 0
      linarith) hv2
    exact ⟨z, by rw [hz]⟩
  · unfold startObj
    show (P.smooth x).add (P.nonsmooth x true) ≠ .nan
    rw [hsm]
    have hne : P.atomNonsmooth x true ≠ .nan := hA.defined x
    unfold SimpleProblem.nonsmooth
    cases hx : P.atomNonsmooth x true with
    | nan => exact absurd hx hne
    | num v => exact fun h => by cases h
    | inf => exact fun h => by cases h
  · have := C34_fixed_point P' f _ _ hP' (by show ConvexWithGradient f P.grad; rw [hgrad]; exact hS.convex)
      hpc L hL x z (by
        show P.proximal _ = some z
        have : P'.grad = g := hgrad
        rw [this]; exact hz)
    rw [hH] at this
    exact this

lemma min_iff (f : (Fin m → ℝ) → ℝ) (quad : Quad (Fin m) ℝ) (u : Fin m → ℝ) :
    IsMinTop (penalised f quad pen) u ↔
      Minimises (fun β => f β + (val pen β + quadVal (some quad) β)) (dom pen) u := by
  constructor
  · rintro ⟨h1, h2⟩
    have hu := (obj_top f quad).1 h1
    refine ⟨hu, fun v hv => ?_⟩
    have := h2 v
    rw [obj_eq f quad hu, obj_eq f quad hv, WithTop.coe_le_coe] at this
    exact this
  · rintro ⟨h1, h2⟩
    refine ⟨(obj_top f quad).2 h1, fun v => ?_⟩
    by_cases hv : v ∈ dom pen
    · rw [obj_eq f quad h1, obj_eq f quad hv, WithTop.coe_le_coe]
      exact h2 v hv
    · have : penalised f quad pen v = ⊤ := by
        by_contra h
        exact hv ((obj_top f quad).1 h)
      rw [this]; exact le_top

end

end AnyLoss

open AnyLoss

section
variable (S : QuadLoss m) (f : (Fin m → ℝ) → ℝ) (g : (Fin m → ℝ) → Fin m → ℝ) (A : NonsmoothAtom m)
  (pen : (Fin m → ℝ) → WithTop ℝ)

/-- **C100** The objective of `simple_problem(loss, atom)` for any loss that stands for `f` and any atom that stands for `pen`:
wherever `f` plus the quadratic of the loss plus `pen` is finite, it is the number `objective` returns. -/
theorem C100_objective (hS : IsLossFor S f g) (hA : IsAtomFor A pen) (x0 β : Fin m → ℝ) (v : ℝ)
    (hv : penalised f S.quad pen β = v) : (SimpleProblem.ofLoss S A x0).objective β = .num v := by
  have hβ : β ∈ dom pen := (obj_top f S.quad).1 (by rw [hv]; exact WithTop.coe_ne_top)
  have hC := (pieces hS hA x0).core 0
  rw [obj_eq f S.quad hβ, WithTop.coe_inj] at hv
  unfold SimpleProblem.objective
  have h1 : (SimpleProblem.ofLoss S A x0).smooth β = _ := hC.smooth β
  have h2 : (SimpleProblem.ofLoss S A x0).nonsmooth β false = _ := hC.nonsmooth β hβ
  rw [h1, h2, ← hv]
  rfl

/-- **C100** Optimality certificate for any loss and any atom: for every `L > 0` and every `β` the proximal gradient step of the
problem exists, and `β` minimises the documented objective over all coefficients exactly when the step leaves it where it is. -/
theorem C100_certificate (hS : IsLossFor S f g) (hA : IsAtomFor A pen) (x0 β : Fin m → ℝ) (L : ℝ) (hL : 0 < L) :
    ∃ z, (SimpleProblem.ofLoss S A x0).proximal (Quad.init (some L) (some (.arr β))
        (some (.arr ((SimpleProblem.ofLoss S A x0).grad β))) (some 0)) = some z ∧
      (IsMinTop (penalised f S.quad pen) β ↔ z = β) := by
  have hP := pieces hS hA x0
  rw [hP.grad]
  obtain ⟨z, hz⟩ := hP.total L β (g β) hL
  exact ⟨z, hz, by rw [min_iff]; exact hP.fixed L β z hL hz⟩

/-- **C100** `solve` answers for any loss and any atom: if the loss has a Lipschitz gradient (with any constant, which the solver is
not told), then from every start, and for every setting of the solver with backtracking on, a positive first step and `alpha > 1`,
`solve` returns coefficients of finite documented objective together with that objective. -/
theorem C100_returns (hS : IsLossFor S f g) (hA : IsAtomFor A pen) (M : ℝ) (hM : SmoothWith f g M) (x0 : Fin m → ℝ)
    (a : FitArgs) (hb : a.performBacktrack = true) (ha : 1 < a.alpha) (hst : 0 < a.startStep) (lip : ℝ) :
    ∃ N, ∀ fuel, N < fuel → ∃ c v hist,
      ((SimpleProblem.ofLoss S A x0).solve none a lip fuel).1 = .ok c (.num v) hist ∧
      penalised f S.quad pen c = v := by
  have hP := pieces hS hA x0
  have hM' : SmoothWith f g (max M 1) := by
    refine ⟨fun x z => ?_, fun x z => ?_⟩
    · refine (hM.descent x z).trans ?_
      have hd : 0 ≤ sqDist z x := Finset.sum_nonneg fun i _ => sq_nonneg _
      have := mul_le_mul_of_nonneg_right (le_max_left M 1) hd
      linarith
    · refine (hM.monotone x z).trans ?_
      have hd : 0 ≤ sqDist z x := Finset.sum_nonneg fun i _ => sq_nonneg _
      exact mul_le_mul_of_nonneg_right (le_max_left M 1) hd
  have hg : ((SimpleProblem.ofLoss S A x0).composite lip).grad = g := hP.grad
  obtain ⟨N, hN⟩ := C33_terminates _ _ _ _ (hP.core lip) _ (lt_max_of_lt_right one_pos) (by rw [hg]; exact hM') hP.total a hb ha
    none hst false x0 (hP.start lip x0)
  refine ⟨N, fun fuel hfu => ?_⟩
  obtain ⟨hist, s, h⟩ := hN fuel hfu
  obtain ⟨_, hs, _⟩ := run_coefs (hP.core lip) hb (by linarith) (step := none) hst h
  have hv := obj_eq f S.quad hs
  refine ⟨s.coefs, _, hist, ?_, hv⟩
  rw [solve_ok (P := SimpleProblem.ofLoss S A x0) h, C100_objective S f g A pen hS hA x0 s.coefs _ hv]

/-- **C100** How good the answer is, for any loss and any atom: with a loss whose gradient is `M`-Lipschitz, no restarts and at most
99 iterations, the coefficients `solve` returns after `k` recorded objective values miss the smallest value of the documented
objective by at most `2 ‖x0 - u‖² / (t (k+1)²)` for every minimiser `u`, where `t = min(start_step, 1/(2 M alpha))`. -/
theorem C100_rate (hS : IsLossFor S f g) (hA : IsAtomFor A pen) (M : ℝ) (hM0 : 0 < M) (hM : SmoothWith f g M)
    (x0 : Fin m → ℝ) (a : FitArgs) (hb : a.performBacktrack = true) (ha : 1 ≤ a.alpha) (hst : 0 < a.startStep)
    (hm : a.monotonicityRestart = false) (hr : a.restart = none) (hmax : ∃ m, a.maxIts = some m ∧ m ≠ 0 ∧ m ≤ 99)
    (lip : ℝ) (fuel : ℕ) (c : Fin m → ℝ) (v : ObjVal) (hist : List ObjVal)
    (hsolve : ((SimpleProblem.ofLoss S A x0).solve none a lip fuel).1 = .ok c v hist)
    (u : Fin m → ℝ) (hu : IsMinTop (penalised f S.quad pen) u) :
    ∃ vc vu : ℝ, v = .num vc ∧ penalised f S.quad pen c = vc ∧
      penalised f S.quad pen u = vu ∧ vu ≤ vc ∧
      vc - vu ≤ 2 * sqDist x0 u / (min a.startStep (1 / (2 * M * a.alpha)) * (hist.length + 1) ^ 2) := by
  have hP := pieces hS hA x0
  have hg : ((SimpleProblem.ofLoss S A x0).composite lip).grad = g := hP.grad
  obtain ⟨s, hfit, hc, hv⟩ := ok_solve hsolve
  obtain ⟨hlen, hs, hlog⟩ := run_coefs (hP.core lip) hb (by linarith) (step := none) hst hfit
  obtain ⟨rec, hrec, hprop⟩ := hlog hm
  have hmin := (min_iff f S.quad u).1 hu
  have hrate := C35_fista_rate_lipschitz _ _ _ _ (hP.core lip) (by rw [hg]; exact hS.convex) hP.nonsmooth_convex M hM0
    (by rw [hg]; exact hM) a hb ha hm hr hmax hst fuel x0 u hmin hist s hfit (hist.length - 1) rec hrec
  rw [hprop, hc] at hrate
  rw [hc] at hs
  have e : ((hist.length - 1 : ℕ) : ℝ) + 2 = hist.length + 1 := by
    rw [Nat.cast_sub hlen, Nat.cast_one]; ring
  rw [e] at hrate
  refine ⟨_, _, ?_, obj_eq f S.quad hs, obj_eq f S.quad hmin.1, hmin.2 c hs, hrate⟩
  rw [hv, C100_objective S f g A pen hS hA x0 c _ (obj_eq f S.quad hs)]

/-- **C100** A solution is kept, for any loss and any atom: if the start minimises the documented objective and the feasibility
check of the atom accepts it, `solve` returns exactly the start, for every setting of the solver with backtracking. -/
theorem C100_keeps_solution (hS : IsLossFor S f g) (hA : IsAtomFor A pen) (x0 : Fin m → ℝ)
    (hx : IsMinTop (penalised f S.quad pen) x0) (hfeas : A.nonsmooth x0 true = A.nonsmooth x0 false)
    (a : FitArgs) (hb : a.performBacktrack = true) (ha : 0 < a.alpha) (hst : 0 < a.startStep) (lip : ℝ) (fuel : ℕ)
    (hfuel : 0 < fuel) :
    ∃ v hist, ((SimpleProblem.ofLoss S A x0).solve none a lip fuel).1 = .ok x0 (.num v) hist ∧
      penalised f S.quad pen x0 = v := by
  have hP := pieces hS hA x0
  have hmin := (min_iff f S.quad x0).1 hx
  have hC := hP.core lip
  obtain ⟨hist, s, h1, h2⟩ := fit_fixed (C := (SimpleProblem.ofLoss S A x0).composite lip) (x := x0) (hC.smooth x0)
    (t := val pen x0 + quadVal (some S.quad) x0) (fun check => by
      cases check
      · exact hC.nonsmooth x0 hmin.1
      · rw [← hC.nonsmooth x0 hmin.1]
        show SimpleProblem.nonsmooth _ x0 true = SimpleProblem.nonsmooth _ x0 false
        unfold SimpleProblem.nonsmooth SimpleProblem.ofLoss
        dsimp only
        rw [hfeas]) (fun L hL => by
      obtain ⟨z, hz, hiff⟩ := C100_certificate S f g A pen hS hA x0 x0 L hL
      rw [hiff.1 hx] at hz
      exact hz) hb ha (step := none) hst false hfuel
  have hv := obj_eq f S.quad hmin.1
  refine ⟨_, hist, ?_, hv⟩
  rw [solve_ok (P := SimpleProblem.ofLoss S A x0) h1, h2, C100_objective S f g A pen hS hA x0 x0 _ hv]

end

end Verif.Props
