import Verif.Model.ContainerFista
import Verif.Props.C69_Container
import Verif.Props.C71_SmoothConjugate
import Verif.Props.C34_ProxGradient

/-!
# C117: how accurate is the proximal map of a container

`container.proximal` solves a dual problem with the solver of the library, at a fixed step.  C69 bounds the error of the
result by that of the dual objective; here the latter is bounded by the number of passes the solver has made.
-/

set_option linter.unusedSectionVars false
set_option linter.unusedVariables false

namespace Verif.Props
open Verif.Model Verif.Model.Fista Verif.Lemmas Verif.Spec

variable {n k : ℕ}

/-! ### the smooth part of the dual problem -/

private lemma adj_bound {L : (Fin n → ℝ) → Fin k → ℝ} {Lt : (Fin k → ℝ) → Fin n → ℝ} (hL : IsAdjoint L Lt) {ρ : ℝ} (hρ : 0 < ρ)
    (hb : ∀ x, ∑ i, L x i ^ 2 ≤ ρ * ∑ j, x j ^ 2) (w : Fin k → ℝ) : ∑ j, Lt w j ^ 2 ≤ ρ * ∑ i, w i ^ 2 := by
  have h1 := hL (Lt w) w
  have h2 := dot_young hρ (L (Lt w)) w
  have h3 := hb (Lt w)
  have e1 : dot (L (Lt w)) w = ∑ j, Lt w j ^ 2 := by
    unfold dot
    rw [h1]
    exact Finset.sum_congr rfl fun j _ => by ring
  rw [e1] at h2
  have h4 : 1 / (2 * ρ) * ∑ i, L (Lt w) i ^ 2 ≤ 1 / (2 * ρ) * (ρ * ∑ j, Lt w j ^ 2) :=
    mul_le_mul_of_nonneg_left h3 (by positivity)
  have e2 : 1 / (2 * ρ) * (ρ * ∑ j, Lt w j ^ 2) = 1 / 2 * ∑ j, Lt w j ^ 2 := by field_simp
  rw [e2] at h4
  linarith

private lemma adj_sqDist {L : (Fin n → ℝ) → Fin k → ℝ} {Lt : (Fin k → ℝ) → Fin n → ℝ} (hL : IsAdjoint L Lt) (hlin : IsLin Lt)
    {ρ : ℝ} (hρ : 0 < ρ) (hb : ∀ x, ∑ i, L x i ^ 2 ≤ ρ * ∑ j, x j ^ 2) (u v : Fin k → ℝ) :
    sqDist (negAdj Lt u) (negAdj Lt v) ≤ ρ * sqDist u v := by
  have h := adj_bound hL hρ hb (fun i => 1 * u i + (-1) * v i)
  have e1 : ∑ j, Lt (fun i => 1 * u i + (-1) * v i) j ^ 2 = sqDist (negAdj Lt u) (negAdj Lt v) := by
    unfold sqDist negAdj
    exact Finset.sum_congr rfl fun j _ => by rw [hlin]; ring
  have e2 : ∑ i, (1 * u i + (-1) * v i) ^ 2 = sqDist u v := by
    unfold sqDist; exact Finset.sum_congr rfl fun j _ => by ring
  rw [e1, e2] at h
  exact h

section
variable {f : (Fin n → ℝ) → WithTop ℝ} {V : (Fin n → ℝ) → ℝ} {G : (Fin n → ℝ) → Fin n → ℝ} {μ : ℝ}

private lemma dsl (l x u : Fin n → ℝ) : dot (fun i => l i - x i) u = dot l u - dot x u := by
  unfold dot; rw [← Finset.sum_sub_distrib]; exact Finset.sum_congr rfl fun i _ => by ring

private lemma conj_descent (hμ : 0 < μ) (hf : StronglyConvexTop μ f) (h : IsSmoothConjugate f V G) (x y : Fin n → ℝ) :
    V y ≤ V x + (dot y (G x) - dot x (G x)) + 1 / (2 * μ) * sqDist y x := by
  obtain ⟨⟨sy, hy1, hy2⟩, -⟩ := h y
  have h1 := smoothConj_growth hμ hf h x (G y) sy hy1
  have h3 := dot_young hμ (fun i => y i - x i) (fun i => G y i - G x i)
  have e1 : ∑ i, (y i - x i) ^ 2 = sqDist y x := rfl
  have e2 : ∑ i, (G y i - G x i) ^ 2 = sqDist (G y) (G x) := rfl
  rw [e1, e2, dot_sub_right, dsl, dsl] at h3
  linarith

private lemma conj_monotone (hμ : 0 < μ) (hf : StronglyConvexTop μ f) (h : IsSmoothConjugate f V G) (x y : Fin n → ℝ) :
    |dot (fun i => y i - x i) (fun i => G x i - G y i)| ≤ 1 / μ * sqDist y x := by
  have h1 := smoothConj_lipschitz hμ hf h x y
  have h2 : μ / 2 * sqDist (G x) (G y) ≤ 1 / (2 * μ) * sqDist y x := by
    have := mul_le_mul_of_nonneg_left h1 (by positivity : 0 ≤ μ / 2)
    rw [sqDist_comm x y] at this
    have e : μ / 2 * ((1 / μ) ^ 2 * sqDist y x) = 1 / (2 * μ) * sqDist y x := by field_simp
    linarith
  have e : 1 / μ * sqDist y x = 1 / (2 * μ) * sqDist y x + 1 / (2 * μ) * sqDist y x := by field_simp; ring
  have e2 : ∑ i, (G x i - G y i) ^ 2 = sqDist (G x) (G y) := rfl
  rw [abs_le]
  constructor
  · have h3 := dot_young hμ (fun i => x i - y i) (fun i => G x i - G y i)
    have e1 : ∑ i, (x i - y i) ^ 2 = sqDist y x := by rw [sqDist_comm]; rfl
    have e3 : dot (fun i => x i - y i) (fun i => G x i - G y i) = -dot (fun i => y i - x i) (fun i => G x i - G y i) := by
      unfold dot; rw [← Finset.sum_neg_distrib]; exact Finset.sum_congr rfl fun i _ => by ring
    rw [e1, e2, e3] at h3
    linarith
  · have h3 := dot_young hμ (fun i => y i - x i) (fun i => G x i - G y i)
    have e1 : ∑ i, (y i - x i) ^ 2 = sqDist y x := rfl
    rw [e1, e2] at h3
    linarith

private lemma conj_convex' (h : IsSmoothConjugate f V G) : IsConvex V := by
  intro x y a b ha hb hab
  obtain ⟨⟨s, h1, h2⟩, -⟩ := h (fun i => a * x i + b * y i)
  have hx := smoothConj_le h x _ s h1
  have hy := smoothConj_le h y _ s h1
  have e : ∀ w : Fin n → ℝ, dot (fun i => a * x i + b * y i) w = a * dot x w + b * dot y w := by
    intro w
    unfold dot
    rw [Finset.mul_sum, Finset.mul_sum, ← Finset.sum_add_distrib]
    exact Finset.sum_congr rfl fun i _ => by ring
  rw [h2, e]
  have m1 := mul_le_mul_of_nonneg_left hx ha
  have m2 := mul_le_mul_of_nonneg_left hy hb
  have e2 : s = a * s + b * s := by rw [← add_mul, hab, one_mul]
  nlinarith

private lemma dual_smooth {L : (Fin n → ℝ) → Fin k → ℝ} {Lt : (Fin k → ℝ) → Fin n → ℝ} (hL : IsAdjoint L Lt) (hlin : IsLin Lt)
    {ρ : ℝ} (hρ : 0 < ρ) (hb : ∀ x, ∑ i, L x i ^ 2 ≤ ρ * ∑ j, x j ^ 2)
    (hμ : 0 < μ) (hf : StronglyConvexTop μ f) (h : IsSmoothConjugate f V G) :
    SmoothWith (fun u => V (negAdj Lt u)) (fun u i => -L (G (negAdj Lt u)) i) (ρ / μ) := by
  have key : ∀ (u v : Fin k → ℝ), ρ / μ * sqDist v u ≥ 1 / μ * sqDist (negAdj Lt v) (negAdj Lt u) := by
    intro u v
    have := mul_le_mul_of_nonneg_left (adj_sqDist hL hlin hρ hb v u) (by positivity : 0 ≤ 1 / μ)
    have e : 1 / μ * (ρ * sqDist v u) = ρ / μ * sqDist v u := by ring
    linarith
  have neg : ∀ (u : Fin k → ℝ) (x : Fin n → ℝ), dot (fun i => -L x i) u = dot (negAdj Lt u) x := by
    intro u x
    rw [negAdj_dot hL, dot_comm' u]
    unfold dot; rw [← Finset.sum_neg_distrib]; exact Finset.sum_congr rfl fun i _ => by ring
  constructor
  · intro u v
    have h1 := conj_descent hμ hf h (negAdj Lt u) (negAdj Lt v)
    have h2 := key u v
    show V (negAdj Lt v) ≤ _
    rw [dot_sub_right, neg, neg]
    have e : 1 / (2 * μ) * sqDist (negAdj Lt v) (negAdj Lt u) = 1 / 2 * (1 / μ * sqDist (negAdj Lt v) (negAdj Lt u)) := by
      field_simp
    have e2 : ρ / μ / 2 * sqDist v u = 1 / 2 * (ρ / μ * sqDist v u) := by ring
    rw [e2]
    linarith
  · intro u v
    have h1 := conj_monotone hμ hf h (negAdj Lt u) (negAdj Lt v)
    have e : dot (fun i => v i - u i) (fun i => -L (G (negAdj Lt u)) i - -L (G (negAdj Lt v)) i) =
        dot (fun i => negAdj Lt v i - negAdj Lt u i) (fun i => G (negAdj Lt u) i - G (negAdj Lt v) i) := by
      rw [dot_sub_right, dot_sub_right, dsl, dsl, dsl, dsl, ← neg, ← neg, ← neg, ← neg, dot_comm' v, dot_comm' u,
        dot_comm' v, dot_comm' u]
    rw [e]
    exact le_trans h1 (key u v)

end

/-! ### the problem the solver sees -/

private lemma dual_core (D : DualProblem n k) (hT : distinctSelectors D.T) {f : (Fin n → ℝ) → WithTop ℝ}
    {V : (Fin n → ℝ) → ℝ} {G : (Fin n → ℝ) → Fin n → ℝ} (hE : Evaluates D.fc V G) (hf : IsSmoothConjugate f V G)
    {μ : ℝ} (hμ : 0 < μ) (hsc : StronglyConvexTop μ f) {P : (Fin k → ℝ) → WithTop ℝ} (hP : AtomCorrect D.atom.proximal P)
    (hval : ∀ u, P u ≠ ⊤ → D.atom.value u false = P u) (lip : ℝ) :
    IsProblemCore (D.composite lip) (fun u => V (negAdj D.T.adj u)) (fun u => (P u).untopD 0) {u | P u ≠ ⊤} ∧
      (D.composite lip).grad = fun u i => -D.T.lin (G (negAdj D.T.adj u)) i := by
  obtain ⟨h1, -⟩ := C68_dual_gradient D hT f V G hE hf μ hμ hsc none
  refine ⟨⟨fun u => ?_, fun u hu => ?_, fun L x g z hL hz => ?_⟩, ?_⟩
  · show (match (D.smoothObjective none u .func).1 with
      | .val v => ObjVal.num v
      | _ => .nan) = _
    have e : (D.smoothObjective none u .func).1 = .val _ := (h1 u).1
    rw [e]
    rfl
  · obtain ⟨v, hv⟩ := WithTop.ne_top_iff_exists.1 hu
    show ObjVal.ofValue (D.atom.value u false + 0) = _
    rw [add_zero, hval u hu, ← hv]
    rfl
  · have hz' : D.atom.proximal (Quad.init (some L) (some (.arr x)) (some (.arr g)) (some 0)) = .ok z := by
      have : (match D.atom.proximal (Quad.init (some L) (some (.arr x)) (some (.arr g)) (some 0)) with
        | .ok p => some p
        | _ => none) = some z := hz
      split at this
      · rename_i p hp
        injection this with this
        rw [hp, this]
      · cases this
    obtain ⟨a1, a2⟩ := hP _ z hL hz'
    have qv : ∀ u, quadVal (some (Quad.init (some L) (some (.arr x)) (some (.arr g)) (some 0) : Quad (Fin k) ℝ)) u =
        L / 2 * sqDist u x + dot g u := by
      intro u
      show L / 2 * sqDist u x + dot g u + 0 = _
      rw [add_zero]
    have hzS : P z ≠ ⊤ := fun e => a1 (by dsimp only; rw [e, WithTop.add_top])
    refine ⟨hzS, fun w hw hne => ?_⟩
    have h2 := a2 w hne
    dsimp only at h2
    rw [qv, qv] at h2
    obtain ⟨pz, hpz⟩ := WithTop.ne_top_iff_exists.1 hzS
    obtain ⟨pw, hpw⟩ := WithTop.ne_top_iff_exists.1 (show P w ≠ ⊤ from hw)
    rw [← hpz, ← hpw, ← WithTop.coe_add, ← WithTop.coe_add, WithTop.coe_lt_coe] at h2
    dsimp only
    rw [← hpz, ← hpw]
    exact h2
  · funext u
    show (match (D.smoothObjective none u .grad).1 with
      | .grad g => g
      | _ => fun _ => 0) = _
    have e : (D.smoothObjective none u .grad).1 = .grad _ := (h1 u).2.1
    rw [e]
    rfl

/-- with a fixed step and no monotonicity restart the coefficients at the end are the last accepted proposal -/
private lemma run_coefs_fixed {C : Composite k} {a : FitArgs} (hm0 : a.monotonicityRestart = false)
    (hb : a.performBacktrack = false) (ha : 0 < a.alpha) {S : Set (Fin k → ℝ)}
    (hS : ∀ w z, C.proximal (stepQuad C.lipschitz w (C.grad w)) = some z → z ∈ S) {step : Option ℝ}
    {att : Bool} {fuel : ℕ} {x0 : Fin k → ℝ} {hist : List ObjVal} {s : State k}
    (hfit : fit C a step att fuel x0 = .ok hist s) :
    1 ≤ hist.length ∧ hist.length ≤ a.maxItsV ∧ s.coefs ∈ S ∧
      ∃ r, s.log[hist.length - 1]? = some r ∧ r.proposed = s.coefs := by
  have hmax : 1 ≤ a.maxItsV := by
    unfold FitArgs.maxItsV
    split <;> omega
  have hmin : 1 ≤ a.minItsV := by
    unfold FitArgs.minItsV
    split <;> omega
  have key := fit_ind (C := C) (a := a) (fuel := fuel) (step := step) (att := att) (x0 := x0)
    (fun s => s.hist.length = s.itercount ∧ s.log.length = s.itercount ∧ s.itercount ≤ a.maxItsV ∧
      (0 < s.itercount → s.coefs ∈ S ∧ ∃ r, s.log[s.itercount - 1]? = some r ∧ r.proposed = s.coefs))
    (fun s => 1 ≤ s.itercount ∧ s.itercount ≤ s.hist.length ∧ s.itercount ≤ a.maxItsV ∧
      s.coefs ∈ S ∧ ∃ r, s.log[s.itercount - 1]? = some r ∧ r.proposed = s.coefs)
    ⟨rfl, rfl, Nat.zero_le _, fun h => absurd h (lt_irrefl 0)⟩
    (fun s s' s1 z hI hlt hm hfin => by
      obtain ⟨h2, h3, h5, h4⟩ := hI
      obtain ⟨e1, e2, e3, e4, e5⟩ := finish_next hfin
      refine ⟨?_, ?_, ?_, fun _ => ?_⟩
      · rw [e2, hm.hist, List.length_append, h2, e3, hm.itercount]; rfl
      · rw [e1, hm.log, List.length_append, h3, e3, hm.itercount]; rfl
      · rw [e3, hm.itercount]; omega
      · rcases e5 with ⟨hr, _⟩ | ⟨hr, hc, _⟩
        · have := hr.2.2.2
          rw [hm0] at this
          cases this
        · have hst := hm.step (fun h => by rw [hb] at h; cases h) ha
          unfold StepOf at hst
          rw [if_neg (by rw [hb]; simp)] at hst
          refine ⟨by rw [hc]; exact hS _ _ hst.2, recordOf C s1 z, ?_, ?_⟩
          · rw [e1, hm.log, e3, hm.itercount, Nat.add_sub_cancel, List.getElem?_append_right (by omega), h3]
            simp
          · rw [hc]; rfl)
    (fun s s' s1 z hI hlt hm hfin => by
      obtain ⟨h2, h3, h5, h4⟩ := hI
      have hpos : 1 ≤ s.itercount := by
        have hf' := hfin
        unfold finish at hf'
        simp only at hf'
        by_cases hc : converged a s1.itercount (((C.smooth z).add (C.nonsmooth z false)).absSub s1.obj)
            ((((C.smooth z).add (C.nonsmooth z false)).absSub s1.obj).relTo s1.obj) s1.coefs z
        · have h1 : a.minItsV ≤ s1.itercount := hc.1
          rw [hm.itercount] at h1
          omega
        · rw [if_neg hc, if_neg (by rw [hm0]; simp)] at hf'
          cases hf'
      obtain ⟨e1, e2, e3, e4, e5, e6, e7⟩ := finish_stop hfin
      obtain ⟨hcS, r, hr1, hr2⟩ := h4 hpos
      refine ⟨by rw [e3, hm.itercount]; exact hpos, ?_, by rw [e3, hm.itercount]; omega, by rw [e5, hm.coefs]; exact hcS, r, ?_, by rw [hr2, e5, hm.coefs]⟩
      · rw [e2, hm.hist, List.length_append, h2, e3, hm.itercount]; simp
      · rw [e3, hm.itercount, e1, hm.log, List.getElem?_append_left (by omega)]
        exact hr1)
    (fun s hI hlt => by
      obtain ⟨h2, h3, h5, h4⟩ := hI
      have hpos : 0 < s.itercount := by omega
      exact ⟨hpos, h2.ge, h5, h4 hpos⟩)
    hfit
  obtain ⟨k1, k2, k3, k4, k5⟩ := key
  have hlen : hist.length = s.itercount := by rw [k1, List.length_take]; omega
  rw [hlen]
  exact ⟨k2, k4, k5⟩

/-! ### the theorems -/

lemma container_accuracy_core (C : Container n) (P : (Fin C.stack.1 → ℝ) → WithTop ℝ) (Φ : (Fin n → ℝ) → WithTop ℝ)
    (hTs : distinctSelectors C.stack.2.1) (hP1 : AtomCorrect C.stack.2.2.proximal P) (hPr : Represents C.stack.2.1.lin P Φ)
    (hP2 : ConvexTop P) (hvalP : ∀ u, P u ≠ ⊤ → C.stack.2.2.value u false = P u)
    (hquad : NoQuadratic C.quadratic ∧ ∀ a ∈ C.smooth, NoQuadratic a.quad)
    (proxq : Quad (Fin n) ℝ) (hq : 0 < proxq.coef) (c l : PyVec (Fin n) ℝ) (hcen : proxq.center = some c)
    (hlin : proxq.linear = some l)
    (ρ : ℝ) (hρ : 0 < ρ) (hbound : ∀ x, ∑ i, C.stack.2.1.lin x i ^ 2 ≤ ρ * ∑ j, x j ^ 2)
    (control : FitArgs) (hm : control.monotonicityRestart = false) (hr : control.restart = none) (ha : 0 < control.alpha)
    (start : Fin C.stack.1 → ℝ) (p : Fin n → ℝ) (hist : List ObjVal)
    (hrun : C.proximalHist control ρ proxq start = some (p, hist)) :
    1 ≤ hist.length ∧ hist.length ≤ control.maxItsV ∧
      ∀ ustar, IsMinTop (dualFn (qConj (C.totalq proxq)) C.stack.2.1.adj P) ustar →
        ∃ pstar, IsUniqueMinTop (fun z => quadTop proxq z + Φ z) pstar ∧
          proxq.coef ^ 2 * (hist.length + 1) ^ 2 * sqDist pstar p ≤ 4 * ρ * sqDist start ustar := by
  obtain ⟨hcoef, hE, hP4⟩ := container_point_core C P Φ hTs hPr hP2 hquad proxq hq c l hcen hlin
  have htpos : 0 < (C.totalq proxq).coef := by rw [hcoef]; exact hq
  have hL := C24_adjoint_partial C.stack.2.1 hTs
  have hLt : IsLin C.stack.2.1.adj := C24_linear (.adjoint C.stack.2.1) hTs
  obtain ⟨hcore, hgrad⟩ := dual_core (C.dualProblem proxq) hTs hE (conj_smooth _ htpos) htpos (quad_strong _) hP1 hvalP
    (ρ / proxq.coef)
  have hsm := dual_smooth hL hLt hρ hbound htpos (quad_strong (C.totalq proxq)) (conj_smooth (C.totalq proxq) htpos)
  rw [hcoef] at hsm
  unfold Container.proximalHist at hrun
  cases hd : C.dualRun control ρ proxq start with
  | ok h s =>
    rw [hd] at hrun
    simp only at hrun
    cases hpt : Container.primalPoint C.stack.2.1 proxq s.coefs with
    | ok p' =>
      rw [hpt] at hrun
      simp only [Option.some.injEq, Prod.mk.injEq] at hrun
      obtain ⟨rfl, rfl⟩ := hrun
      unfold Container.dualRun at hd
      obtain ⟨hl1, hl2, hS, r, hr1, hr2⟩ := run_coefs_fixed (a := { control with performBacktrack := false })
        (S := {u | P u ≠ ⊤}) hm rfl ha
        (fun w z hz => (hcore.prox _ _ _ _ (div_pos hρ hq) hz).1) hd
      refine ⟨hl1, hl2, fun ustar hmin => ?_⟩
      have hPstar : P ustar ≠ ⊤ := fun e => hmin.1 (by unfold dualFn; rw [e, WithTop.add_top])
      have hdual : ∀ u, P u ≠ ⊤ → dualFn (qConj (C.totalq proxq)) C.stack.2.1.adj P u =
          ((qConj (C.totalq proxq) (negAdj C.stack.2.1.adj u) + (P u).untopD 0 : ℝ) : WithTop ℝ) := by
        intro u hu
        obtain ⟨v, hv⟩ := WithTop.ne_top_iff_exists.1 hu
        unfold dualFn
        rw [← hv, WithTop.untopD_coe, WithTop.coe_add]
        rfl
      have hMin : Minimises (fun v => qConj (C.totalq proxq) (negAdj C.stack.2.1.adj v) + (P v).untopD 0) {u | P u ≠ ⊤}
          ustar := by
        refine ⟨hPstar, fun v hv => ?_⟩
        have h := hmin.2 v
        rw [hdual _ hPstar, hdual _ hv, WithTop.coe_le_coe] at h
        exact h
      have hconvS : IsConvexFnOn (fun u => (P u).untopD 0) {u | P u ≠ ⊤} := by
        intro x hx y hy a b ha' hb' hab
        obtain ⟨px, hpx⟩ := WithTop.ne_top_iff_exists.1 (show P x ≠ ⊤ from hx)
        obtain ⟨py, hpy⟩ := WithTop.ne_top_iff_exists.1 (show P y ≠ ⊤ from hy)
        have e : a = 1 - b := by linarith
        subst e
        obtain ⟨c', hc1, hc2⟩ := hP2 x y px py hpx.symm hpy.symm b hb' (by linarith)
        refine ⟨by show P _ ≠ ⊤; rw [hc1]; exact WithTop.coe_ne_top, ?_⟩
        dsimp only
        rw [hc1, ← hpx, ← hpy]
        exact hc2
      have hcg : ConvexWithGradient (fun u => qConj (C.totalq proxq) (negAdj C.stack.2.1.adj u))
          ((C.dualProblem proxq).composite (ρ / proxq.coef)).grad := by
        refine ⟨fun x y a b ha' hb' hab => ?_, fun u => ?_⟩
        · have h := conj_convex' (conj_smooth (C.totalq proxq) htpos) (negAdj C.stack.2.1.adj x)
            (negAdj C.stack.2.1.adj y) a b ha' hb' hab
          have e : negAdj C.stack.2.1.adj (fun i => a * x i + b * y i) =
              fun j => a * negAdj C.stack.2.1.adj x j + b * negAdj C.stack.2.1.adj y j := by
            funext j; unfold negAdj; rw [hLt]; ring
          rw [e]
          exact h
        · rw [hgrad]
          exact (C68_dual_gradient (C.dualProblem proxq) hTs _ _ _ hE (conj_smooth _ htpos) _ htpos (quad_strong _) none).2 u
      have hrate := C35_fista_rate_fixed ((C.dualProblem proxq).composite (ρ / proxq.coef)) _ _ _ hcore hcg hconvS
        (div_pos hρ hq) (by rw [hgrad]; exact hsm) { control with performBacktrack := false } rfl hm hr ha none 0 start ustar
        hMin _ s hd _ r hr1
      rw [hr2] at hrate
      have hk : ((h.length - 1 : ℕ) : ℝ) + 2 = h.length + 1 := by
        have : ((h.length - 1 + 1 : ℕ) : ℝ) = h.length := by rw [Nat.sub_add_cancel hl1]
        push_cast at this
        linarith
      rw [hk] at hrate
      have hrate' : qConj (C.totalq proxq) (negAdj C.stack.2.1.adj s.coefs) + (P s.coefs).untopD 0 ≤
          (qConj (C.totalq proxq) (negAdj C.stack.2.1.adj ustar) + (P ustar).untopD 0) +
            2 * (ρ / proxq.coef) * sqDist start ustar / ((h.length : ℝ) + 1) ^ 2 := by
        have h9 : (qConj (C.totalq proxq) (negAdj C.stack.2.1.adj s.coefs) + (P s.coefs).untopD 0) -
          (qConj (C.totalq proxq) (negAdj C.stack.2.1.adj ustar) + (P ustar).untopD 0) ≤
            2 * (ρ / proxq.coef) * sqDist start ustar / ((h.length : ℝ) + 1) ^ 2 := hrate
        linarith
      obtain ⟨p2, pstar, e1, e2, e3, -⟩ := hP4 s.coefs ustar _ _ hmin (hdual _ hPstar)
        (by
          show dualFn _ C.stack.2.1.adj P s.coefs ≤ _
          rw [hdual _ hS, WithTop.coe_le_coe]
          exact hrate')
      rw [hpt] at e1
      injection e1 with e1
      subst e1
      refine ⟨pstar, e2, ?_⟩
      have hpos : 0 < ((h.length : ℝ) + 1) ^ 2 := by positivity
      have h5 := mul_le_mul_of_nonneg_left e3 (by positivity : 0 ≤ 2 * proxq.coef * ((h.length : ℝ) + 1) ^ 2)
      have e5 : 2 * proxq.coef * ((h.length : ℝ) + 1) ^ 2 * (2 * (ρ / proxq.coef) * sqDist start ustar / ((h.length : ℝ) + 1) ^ 2) =
          4 * ρ * sqDist start ustar := by field_simp; ring
      rw [e5] at h5
      nlinarith [h5]
    | valueError => rw [hpt] at hrun; cases hrun
    | typeError => rw [hpt] at hrun; cases hrun
    | scalarArgument => rw [hpt] at hrun; cases hrun
    | baseError => rw [hpt] at hrun; cases hrun
  | nanObjective => rw [hd] at hrun; cases hrun
  | proxError _ => rw [hd] at hrun; cases hrun
  | zeroStep _ => rw [hd] at hrun; cases hrun
  | diverged => rw [hd] at hrun; cases hrun

/-- **C117** (partial: containers and members without quadratic terms, as in C69; the monotonicity restarts of the solver
switched off by `prox_control`; `dual_reference_lipschitz` a valid bound, which the default, `1.05` times the estimate of
`power_L`, is not always: C27)  Let `D` be the stacked operator of the penalties, with `‖D x‖² ≤ ρ ‖x‖²`.  If
`proximal(proxq, prox_control)` returns the vector `p` and the history of the inner solver has `m` entries, then for every
solution `u*` of the dual problem the distance of `p` to the exact proximal point satisfies
`coef (m + 1) ‖p - p*‖ ≤ 2 √ρ ‖u₀ - u*‖`, where `u₀` is the point the inner solver starts from. -/
theorem C117_accuracy_partial (C : Container n)
    (pen : (i : Fin C.nonsmooth.length) → (Fin (C.nonsmooth.get i).k → ℝ) → WithTop ℝ)
    (H : Fin C.nonsmooth.length → (Fin n → ℝ) → WithTop ℝ) (hne : 0 < C.nonsmooth.length)
    (hT : ∀ i, distinctSelectors (C.nonsmooth.get i).T)
    (hprox : ∀ i, AtomCorrect (C.nonsmooth.get i).dual.proximal (pen i)) (hconv : ∀ i, ConvexTop (pen i))
    (hval : ∀ i u, pen i u ≠ ⊤ → (C.nonsmooth.get i).dual.value u false = pen i u)
    (hrep : ∀ i, Represents (C.nonsmooth.get i).T.lin (pen i) (H i))
    (hquad : NoQuadratic C.quadratic ∧ ∀ a ∈ C.smooth, NoQuadratic a.quad)
    (proxq : Quad (Fin n) ℝ) (hq : 0 < proxq.coef) (c l : PyVec (Fin n) ℝ) (hcen : proxq.center = some c)
    (hlin : proxq.linear = some l)
    (ρ : ℝ) (hρ : 0 < ρ) (hbound : ∀ x, ∑ i, C.stack.2.1.lin x i ^ 2 ≤ ρ * ∑ j, x j ^ 2)
    (control : FitArgs) (hm : control.monotonicityRestart = false) (hr : control.restart = none) (ha : 0 < control.alpha)
    (start : Fin C.stack.1 → ℝ) (p : Fin n → ℝ) (hist : List ObjVal)
    (hrun : C.proximalHist control ρ proxq start = some (p, hist)) :
    1 ≤ hist.length ∧ hist.length ≤ control.maxItsV ∧
    ∃ V G P, Evaluates (C.dualProblem proxq).fc V G ∧ AtomCorrect (C.dualProblem proxq).atom.proximal P ∧ ConvexTop P ∧
      ∀ ustar, IsMinTop (dualFn V C.stack.2.1.adj P) ustar →
        ∃ pstar, IsUniqueMinTop (fun z => quadTop proxq z + ∑ i, H i z) pstar ∧
          proxq.coef ^ 2 * (hist.length + 1) ^ 2 * sqDist pstar p ≤ 4 * ρ * sqDist start ustar := by
  obtain ⟨hTs, P, hP1, hP2, hP3, -, hP4⟩ := C68_stacked_dual n (fun i : Fin C.nonsmooth.length => (C.nonsmooth.get i).k)
    (fun i => (C.nonsmooth.get i).T) (fun i => (C.nonsmooth.get i).dual) pen H hT hprox hrep
  obtain ⟨-, hE, -⟩ := container_point_core C P (fun x => ∑ i, H i x) hTs hP2 (hP3 hconv) hquad proxq hq c l hcen hlin
  obtain ⟨h1, h2, h3⟩ := container_accuracy_core C P (fun x => ∑ i, H i x) hTs hP1 hP2 (hP3 hconv) (hP4 hne false hval) hquad proxq hq c l
    hcen hlin ρ hρ hbound control hm hr ha start p hist hrun
  exact ⟨h1, h2, _, _, P, hE, hP1, hP3 hconv, h3⟩

/-! ### the call returns -/

private lemma composite_proximal (D : DualProblem n k) (lip : ℝ) {q : Quad (Fin k) ℝ} {z : Fin k → ℝ}
    (h : D.atom.proximal q = .ok z) : (D.composite lip).proximal q = some z := by
  unfold DualProblem.composite
  simp only [h]

private lemma composite_start (D : DualProblem n k) (lip : ℝ) {V : (Fin n → ℝ) → ℝ} {G : (Fin n → ℝ) → Fin n → ℝ}
    (hE : Evaluates D.fc V G) (u : Fin k → ℝ) : startObj (D.composite lip) u ≠ .nan := by
  have hv : D.affineFc u .func = .val _ := (C26_value (.scalarMultiply (.adjoint D.T) (-1)) D.fc V G hE u).1
  unfold startObj DualProblem.composite DualProblem.smoothObjective
  simp only [hv]
  cases D.nonsmoothObjective u true with
  | top => exact fun h => by cases h
  | coe v => exact fun h => by cases h

private lemma loop_fixed {C : Composite k} {a : FitArgs} (hb : a.performBacktrack = false)
    (hprox : ∀ w, ∃ z, C.proximal (stepQuad C.lipschitz w (C.grad w)) = some z) (fuel : ℕ) :
    ∀ (m : ℕ) (s : State k), a.maxItsV < s.itercount + m → s.itercount ≤ a.maxItsV → ∃ hist s', loop C a fuel m s = .ok hist s' := by
  intro m
  induction m with
  | zero => intro s h1 h2; omega
  | succ m ih =>
    intro s h1 h2
    by_cases hit : s.itercount < a.maxItsV
    · obtain ⟨z, hz⟩ := hprox (prepare a s).working
      have hpass : pass C a fuel s = finish C a { prepare a s with step := 1 / C.lipschitz } z (C.smooth z) := by
        unfold pass
        simp only
        rw [if_neg (by rw [hb]; simp), hz]
      rcases finish_next_or_stop C a { prepare a s with step := 1 / C.lipschitz } z (C.smooth z) with ⟨s', hf'⟩ | ⟨s', hf'⟩
      · obtain ⟨_, _, i3, _⟩ := finish_next hf'
        have i3' : s'.itercount = s.itercount + 1 := by
          rw [i3]; show (prepare a s).itercount + 1 = _; rw [(prepare_fields a s).2.2.2.2.2.1]
        obtain ⟨hist, s'', hl⟩ := ih s' (by omega) (by omega)
        refine ⟨hist, s'', ?_⟩
        unfold loop
        rw [if_pos hit, hpass, hf']
        exact hl
      · refine ⟨s'.hist.take s'.itercount, s', ?_⟩
        unfold loop
        rw [if_pos hit, hpass, hf']
    · refine ⟨s.hist.take s.itercount, s, ?_⟩
      unfold loop
      rw [if_neg hit]

private lemma fit_fixed {C : Composite k} {a : FitArgs} (hb : a.performBacktrack = false)
    (hprox : ∀ w, ∃ z, C.proximal (stepQuad C.lipschitz w (C.grad w)) = some z) (fuel : ℕ) (step : Option ℝ) (att : Bool)
    (x0 : Fin k → ℝ) (h0 : startObj C x0 ≠ .nan) : ∃ hist s, fit C a step att fuel x0 = .ok hist s := by
  obtain ⟨hist, s, h⟩ := loop_fixed hb hprox fuel (a.maxItsV + 1) (startState C a step att x0)
    (by show _ < 0 + _; omega) (Nat.zero_le _)
  refine ⟨hist, s, ?_⟩
  unfold fit
  split
  · rename_i e; exact absurd e h0
  · exact h

/-- **C117** the call returns: whatever the starting point and the settings, if the proximal map of the stacked dual atom
never fails then `proximal` returns a vector, with or without monotonicity restarts. -/
theorem C117_returns (C : Container n)
    (proxq : Quad (Fin n) ℝ) (c l : PyVec (Fin n) ℝ) (hcen : proxq.center = some c) (hlin : proxq.linear = some l)
    (hq : 0 < proxq.coef) (htq : 0 < (C.totalq proxq).coef) (ρ : ℝ) (hρ : 0 < ρ)
    (htotal : ∀ (q : Quad (Fin C.stack.1) ℝ) v w, q.center = some (.arr v) → q.linear = some (.arr w) → 0 < q.coef →
      ∃ z, C.stack.2.2.proximal q = .ok z)
    (control : FitArgs) (start : Fin C.stack.1 → ℝ) : ∃ p hist, C.proximalHist control ρ proxq start = some (p, hist) := by
  have hE : Evaluates (C.dualProblem proxq).fc (qConj (C.totalq proxq)) (qArg (C.totalq proxq)) := conj_eval _ htq
  obtain ⟨hist, s, h⟩ := fit_fixed (C := (C.dualProblem proxq).composite (ρ / proxq.coef))
    (a := { control with performBacktrack := false }) rfl (fun w => by
      obtain ⟨z, hz⟩ := htotal (stepQuad (ρ / proxq.coef) w (((C.dualProblem proxq).composite (ρ / proxq.coef)).grad w)) _ _
        rfl rfl (div_pos hρ hq)
      refine ⟨z, ?_⟩
      exact composite_proximal (C.dualProblem proxq) _ hz) 0 none false start (composite_start _ _ hE start)
  have hd : C.dualRun control ρ proxq start = .ok hist s := h
  unfold Container.proximalHist Container.primalPoint
  rw [hd, hcen, hlin]
  exact ⟨_, _, rfl⟩

/-! ### one penalty -/

private lemma member_full (c : Klass) (b : Bool) (r : ℝ) (hr : 0 ≤ r) (T l : Aff ℝ n (k + 1)) (hl : T.asOperator = some l)
    (hT : distinctSelectors T) (hoff : l.off = .none) (α : Option (PyVec (Fin (k + 1)) ℝ)) (hα : ∀ s, α ≠ some (.scalar s))
    (q : Option (Quad (Fin (k + 1)) ℝ)) (hq : ∀ q', q = some q' → q'.coef = 0) :
    ∃ A D dual prox value, AtomObj.affine c T α (modeArgs b r).1 (modeArgs b r).2 q = some A ∧
      A.toCont = some ⟨k + 1, D, dual, prox, value⟩ ∧ distinctSelectors D ∧ D.lin = T.lin ∧
      (∀ (q : Quad (Fin (k + 1)) ℝ) w, q.linear = some (.arr w) → 0 < q.coef → ∃ z, dual.proximal q = .ok z) ∧
      ∃ pen, AtomCorrect dual.proximal pen ∧ ConvexTop pen ∧ (∀ u, pen u ≠ ⊤ → dual.value u false = pen u) ∧
        Represents D.lin pen (composedFn c b r T.lin (denote α) (quadArg q)) ∧
        ∃ g, A.dual = some (D, .atom g) ∧ pen = denoteAtom g (!b) r := by
  obtain ⟨A, D, dual, prox, value, h1, h2, h3, -, -, -⟩ := C69_seminorm_member c b r hr T l hl hT hoff α hα q hq
  obtain ⟨A', D', g, h1', h2', h3', -, hm, hg0, hrep⟩ := C67_dual c b r hr T l hl hoff α hα q hq
  have hA : A' = A := by rw [h1] at h1'; exact (Option.some_inj.1 h1').symm
  subst hA
  have hD : D = D' ∧ dual = g.asDual := by
    unfold AffAtom.toCont at h2
    rw [h2'] at h2
    simp only at h2
    split at h2
    · injection h2 with h2
      injection h2 with _ e1 e2
      exact ⟨e1.symm, e2.symm⟩
    · cases h2
  obtain ⟨rfl, rfl⟩ := hD
  refine ⟨A', D, g.asDual, prox, value, h1, h2, h3, h3', fun q w hw hpos => ?_, denoteAtom g (!b) r, atom_correct g (!b) r hm hg0,
    denoteAtom_convex g (!b) hr, fun u hu => ?_, ?_, g, h2', rfl⟩
  · obtain ⟨p, hp, -⟩ := obj_prox g (!b) r hm q w hw (by rw [hg0, zero_add]; exact hpos)
    exact ⟨p, hp⟩
  · have hb : atomBase g.klass (!b) r (fun i => u i - offAt g.offset i) ≠ ⊤ := by
      intro e
      apply hu
      show atomBase g.klass (!b) r (fun i => u i - offAt g.offset i) + _ = ⊤
      rw [e, WithTop.top_add]
    show (g.nonsmoothObjective u false).getD ⊤ = _
    rw [obj_value g (!b) r hm u hb]
    show _ + _ = atomBase g.klass (!b) r (fun i => u i - offAt g.offset i) + _
    congr 2
    rw [funcVal_quad]
    have e : denote g.quad.linear = linearAt g.quad := by
      funext i; unfold denote linearAt; rcases g.quad.linear with _ | (c | c) <;> rfl
    unfold quadVal quadFn
    simp only [hg0, e]
    unfold dot
    ring
  · intro x
    rw [h3']
    exact hrep x

/-- **C117** (partial: no quadratic terms in the container and its loss, monotonicity restarts switched off, a valid
`dual_reference_lipschitz`) a loss and one penalty `cls.affine(D, α, ...)` of a seminorm class, in penalty or bound form:
`proximal` returns, and its distance to the exact proximal point is bounded as in `C117_accuracy_partial`, with no
hypothesis about the solver. -/
theorem C117_one_penalty_partial (c : Klass) (b : Bool) (r : ℝ) (hr : 0 ≤ r) (T l : Aff ℝ n (k + 1)) (hl : T.asOperator = some l)
    (hT : distinctSelectors T) (hoff : l.off = .none) (α : Option (PyVec (Fin (k + 1)) ℝ)) (hα : ∀ s, α ≠ some (.scalar s))
    (q : Option (Quad (Fin (k + 1)) ℝ)) (hq0 : ∀ q', q = some q' → q'.coef = 0)
    (loss : ContSmooth n) (hloss : NoQuadratic loss.quad)
    (proxq : Quad (Fin n) ℝ) (hq : 0 < proxq.coef) (cen lin : PyVec (Fin n) ℝ) (hcen : proxq.center = some cen)
    (hlin : proxq.linear = some lin)
    (ρ : ℝ) (hρ : 0 < ρ) (hbound : ∀ x, ∑ i, T.lin x i ^ 2 ≤ ρ * ∑ j, x j ^ 2)
    (control : FitArgs) (hm : control.monotonicityRestart = false) (hrs : control.restart = none) (ha : 0 < control.alpha) :
    ∃ A D dual prox value C, AtomObj.affine c T α (modeArgs b r).1 (modeArgs b r).2 q = some A ∧
      A.toCont = some ⟨k + 1, D, dual, prox, value⟩ ∧
      Container.init [.smooth loss, .nonsmooth ⟨k + 1, D, dual, prox, value⟩] = .ok C ∧
      ∀ start, ∃ p hist, C.proximalHist control ρ proxq start = some (p, hist) ∧
        1 ≤ hist.length ∧ hist.length ≤ control.maxItsV ∧
        ∃ V G P, Evaluates (C.dualProblem proxq).fc V G ∧ AtomCorrect (C.dualProblem proxq).atom.proximal P ∧ ConvexTop P ∧
          ∀ ustar, IsMinTop (dualFn V C.stack.2.1.adj P) ustar →
            ∃ pstar, IsUniqueMinTop (fun z => quadTop proxq z + composedFn c b r T.lin (denote α) (quadArg q) z) pstar ∧
              proxq.coef ^ 2 * (hist.length + 1) ^ 2 * sqDist pstar p ≤ 4 * ρ * sqDist start ustar := by
  obtain ⟨A, D, dual, prox, value, h1, h2, h3, h4, htot, pen, h5, h6, h7, h8, -⟩ := member_full c b r hr T l hl hT hoff α hα q hq0
  have hno : NoQuadratic (Quad.init none none none none : Quad (Fin n) ℝ) := ⟨rfl, fun i => rfl⟩
  let C : Container n := ⟨[⟨k + 1, D, dual, prox, value⟩], [loss], Quad.init none none none none⟩
  have hquad : NoQuadratic C.quadratic ∧ ∀ a ∈ C.smooth, NoQuadratic a.quad := by
    refine ⟨hno, fun a ha => ?_⟩
    have : a ∈ [loss] := ha
    rw [List.mem_singleton] at this
    rw [this]; exact hloss
  refine ⟨A, D, dual, prox, value, C, h1, h2, rfl, fun start => ?_⟩
  obtain ⟨hcoef, -⟩ := container_dual_core C (fun i => match i with | ⟨0, _⟩ => pen)
    (fun i => match i with | ⟨0, _⟩ => composedFn c b r T.lin (denote α) (quadArg q))
    (fun i => match i with | ⟨0, _⟩ => h3) (fun i => match i with | ⟨0, _⟩ => h5) (fun i => match i with | ⟨0, _⟩ => h6)
    (fun i => match i with | ⟨0, _⟩ => h8) hquad proxq hq cen lin hcen hlin
  obtain ⟨p, hist, hp⟩ := C117_returns C proxq cen lin hcen hlin hq (by rw [hcoef]; exact hq) ρ hρ (fun q _ w _ => htot q w) control start
  obtain ⟨g1, g2, V, G, P, g3, g4, g5, g6⟩ := C117_accuracy_partial C (fun i => match i with | ⟨0, _⟩ => pen)
    (fun i => match i with | ⟨0, _⟩ => composedFn c b r T.lin (denote α) (quadArg q)) Nat.one_pos
    (fun i => match i with | ⟨0, _⟩ => h3) (fun i => match i with | ⟨0, _⟩ => h5) (fun i => match i with | ⟨0, _⟩ => h6)
    (fun i => match i with | ⟨0, _⟩ => h7)
    (fun i => match i with | ⟨0, _⟩ => h8) hquad proxq hq cen lin hcen hlin ρ hρ
    (fun x => by rw [show C.stack.2.1.lin x = T.lin x from congrFun h4 x]; exact hbound x)
    control hm hrs ha start p hist hp
  refine ⟨p, hist, hp, g1, g2, V, G, P, g3, g4, g5, fun ustar hu => ?_⟩
  obtain ⟨ps, a1, a2⟩ := g6 ustar hu
  refine ⟨ps, ?_, a2⟩
  refine ⟨?_, fun z hz => ?_⟩
  · have := a1.1
    dsimp only at this ⊢
    rw [show (∑ i : Fin C.nonsmooth.length, _) = _ from Fin.sum_univ_one _] at this
    exact this
  · have := a1.2 z hz
    dsimp only at this ⊢
    rw [show (∑ i : Fin C.nonsmooth.length, _) = _ from Fin.sum_univ_one _,
      show (∑ i : Fin C.nonsmooth.length, _) = _ from Fin.sum_univ_one _] at this
    exact this

/-- the fused lasso penalty `2‖Dβ‖₁` of three coefficients, `D` the first differences (`‖Dx‖² ≤ 8‖x‖²`), with the settings
of the library apart from the monotonicity restarts -/
example (loss : ContSmooth 3) (hloss : NoQuadratic loss.quad) (w v : Fin 3 → ℝ) :=
  C117_one_penalty_partial (n := 3) (k := 1) .l1norm false 2 (by norm_num)
    (.matrix (fun i j => if j.val = i.val + 1 then 1 else if j.val = i.val then -1 else 0) none) _ rfl (by simp [distinctSelectors])
    rfl none (by simp) none (by simp) loss hloss ⟨1, some (.arr w), some (.arr v), 0⟩ (by norm_num) _ _ rfl rfl 8 (by norm_num)
    (fun x => by
      have e : ∀ i, Aff.lin (.matrix (fun i j => if j.val = i.val + 1 then 1 else if j.val = i.val then -1 else 0) none :
          Aff ℝ 3 2) x i = ∑ j, (if j.val = i.val + 1 then 1 else if j.val = i.val then -1 else 0) * x j := fun i => rfl
      simp only [e, Fin.sum_univ_three, show (1 : ℕ) + 1 = 2 from rfl]
      rw [Fin.sum_univ_two]
      simp
      nlinarith [sq_nonneg (x 0 + x 1), sq_nonneg (x 1 + x 2), sq_nonneg (x 0), sq_nonneg (x 1), sq_nonneg (x 2)])
    { Container.proxDefaults with monotonicityRestart := false } rfl rfl (by norm_num [Container.proxDefaults])

/-! ### the generalised lasso -/

private lemma ball_fn (g : AtomObj (Fin (k + 1)) ℝ) (r : ℝ) (ho : ∀ i, offAt g.offset i = 0)
    (hl : ∀ i, linearAt g.quad i = 0) (hc : g.quad.const = 0) (u : Fin (k + 1) → ℝ) :
    (u ∈ ballOf g.klass r → denoteAtom g true r u = 0) ∧ (u ∉ ballOf g.klass r → denoteAtom g true r u = ⊤) := by
  have e : ((dot (linearAt g.quad) u + g.quad.const : ℝ) : WithTop ℝ) = 0 := by
    unfold dot; simp [hl, hc]
  have eb : (fun i => u i - offAt g.offset i) = u := by funext i; rw [ho, sub_zero]
  unfold denoteAtom atomFn
  rw [e, eb]
  refine ⟨fun h => ?_, fun h => ?_⟩
  · rw [if_pos rfl, if_pos h, add_zero]
  · rw [if_pos rfl, if_neg h]; rfl

private lemma qConj_cont (q : Quad (Fin n) ℝ) : Continuous (qConj q) := by
  unfold qConj qArg quadVal quadFn dot sqDist
  fun_prop

private lemma lin_cont {Lt : (Fin k → ℝ) → Fin n → ℝ} (h : IsLin Lt) : Continuous Lt := by
  let f : (Fin k → ℝ) →ₗ[ℝ] (Fin n → ℝ) :=
    { toFun := Lt
      map_add' := fun x y => by
        funext i
        have := h 1 1 x y i
        simp only [one_mul] at this
        exact this
      map_smul' := fun a x => by
        funext i
        have := h a 0 x x i
        simp only [zero_mul, add_zero] at this
        exact this }
  exact f.continuous_of_finiteDimensional

private lemma ball_min {Lt : (Fin k → ℝ) → Fin n → ℝ} (h : IsLin Lt) (q : Quad (Fin n) ℝ) {B : Set (Fin k → ℝ)} (hB : IsCompact B)
    (h0 : B.Nonempty) (P : (Fin k → ℝ) → WithTop ℝ) (hP : ∀ u, (u ∈ B → P u = 0) ∧ (u ∉ B → P u = ⊤)) :
    ∃ u, IsMinTop (dualFn (qConj q) Lt P) u ∧ u ∈ B := by
  have hcont : Continuous fun u : Fin k → ℝ => qConj q (fun j => -Lt u j) :=
    (qConj_cont q).comp (lin_cont h).neg
  obtain ⟨u, hu, hmin⟩ := hB.exists_isMinOn h0 hcont.continuousOn
  refine ⟨u, ⟨?_, fun v => ?_⟩, hu⟩
  · unfold dualFn
    rw [(hP u).1 hu, add_zero]
    exact WithTop.coe_ne_top
  · unfold dualFn
    rw [(hP u).1 hu, add_zero]
    by_cases hv : v ∈ B
    · rw [(hP v).1 hv, add_zero]
      exact WithTop.coe_le_coe.2 (hmin hv)
    · rw [(hP v).2 hv, WithTop.add_top]
      exact le_top

private lemma penalty_core (c : Klass) (lam R : ℝ) (hlam : 0 ≤ lam) (hcl : IsClosed (ballOf (n := k) c.conj lam))
    (hz : (fun _ => 0) ∈ ballOf (n := k) c.conj lam) (hR : ∀ u ∈ ballOf (n := k) c.conj lam, ∑ i, u i ^ 2 ≤ R)
    (T l : Aff ℝ n (k + 1)) (hl : T.asOperator = some l)
    (hT : distinctSelectors T) (hoff : l.off = .none) (loss : ContSmooth n) (hloss : NoQuadratic loss.quad)
    (proxq : Quad (Fin n) ℝ) (hq : 0 < proxq.coef) (cen lin : PyVec (Fin n) ℝ) (hcen : proxq.center = some cen)
    (hlin : proxq.linear = some lin)
    (ρ : ℝ) (hρ : 0 < ρ) (hbound : ∀ x, ∑ i, T.lin x i ^ 2 ≤ ρ * ∑ j, x j ^ 2)
    (control : FitArgs) (hm : control.monotonicityRestart = false) (hrs : control.restart = none) (ha : 0 < control.alpha) :
    ∃ A D dual prox value C, AtomObj.affine c T none (some lam) none none = some A ∧
      A.toCont = some ⟨k + 1, D, dual, prox, value⟩ ∧
      Container.init [.smooth loss, .nonsmooth ⟨k + 1, D, dual, prox, value⟩] = .ok C ∧
      ∃ p hist pstar, C.proximalHist control ρ proxq (fun _ => 0) = some (p, hist) ∧
        1 ≤ hist.length ∧ hist.length ≤ control.maxItsV ∧
        IsUniqueMinTop (fun z => quadTop proxq z + penalty c lam (T.lin z)) pstar ∧
        proxq.coef ^ 2 * (hist.length + 1) ^ 2 * sqDist pstar p ≤ 4 * ρ * R := by
  obtain ⟨A, D, dual, prox, value, h1, h2, h3, h4, htot, pen, h5, h6, h7, h8, g, hg, hpen⟩ :=
    member_full c false lam hlam T l hl hT hoff none (by simp) none (by simp)
  obtain ⟨A', g', k1, k2, k3, -, -, k4, k5, k6⟩ := dual_plain c false lam hlam T l hl hoff
  have hA : A' = A := by rw [h1] at k1; exact (Option.some_inj.1 k1).symm
  subst hA
  have hgg : g' = g := by
    rw [hg] at k2
    injection k2 with k2
    injection k2 with _ e
    injection e with e
    exact e.symm
  subst hgg
  have hball := ball_fn g' lam k4 k5 k6
  rw [k3] at hball
  have hno : NoQuadratic (Quad.init none none none none : Quad (Fin n) ℝ) := ⟨rfl, fun i => rfl⟩
  let C : Container n := ⟨[⟨k + 1, D, dual, prox, value⟩], [loss], Quad.init none none none none⟩
  have hquad : NoQuadratic C.quadratic ∧ ∀ a ∈ C.smooth, NoQuadratic a.quad := by
    refine ⟨hno, fun a ha => ?_⟩
    have : a ∈ [loss] := ha
    rw [List.mem_singleton] at this
    rw [this]; exact hloss
  obtain ⟨hcoef, -, -⟩ := container_point_core C pen _ h3 h8 h6 hquad proxq hq cen lin hcen hlin
  obtain ⟨p, hist, hp⟩ := C117_returns C proxq cen lin hcen hlin hq (by rw [hcoef]; exact hq) ρ hρ (fun q _ w _ => htot q w)
    control (fun _ => 0)
  obtain ⟨g1, g2, g3⟩ := container_accuracy_core C pen _ h3 h5 h8 h6 h7 hquad proxq hq cen lin hcen hlin ρ hρ
    (fun x => by rw [show C.stack.2.1.lin x = T.lin x from congrFun h4 x]; exact hbound x)
    control hm hrs ha (fun _ => 0) p hist hp
  have hcomp : IsCompact (ballOf (n := k) c.conj lam) := by
    refine (isCompact_univ_pi fun _ : Fin (k + 1) => isCompact_Icc (a := -Real.sqrt R) (b := Real.sqrt R)).of_isClosed_subset hcl ?_
    intro u hu i _
    have h9 := hR u hu
    have h10 : u i ^ 2 ≤ R := (Finset.single_le_sum (f := fun i => u i ^ 2) (fun j _ => sq_nonneg _) (Finset.mem_univ i)).trans h9
    exact abs_le.1 (Real.abs_le_sqrt h10)
  obtain ⟨u, hu1, hu2⟩ := ball_min (C24_linear (.adjoint D) h3) (C.totalq proxq) hcomp ⟨_, hz⟩ pen (by rw [hpen]; exact hball)
  obtain ⟨ps, a1, a2⟩ := g3 u hu1
  refine ⟨A', D, dual, prox, value, C, h1, h2, rfl, p, hist, ps, hp, g1, g2, ?_, a2.trans ?_⟩
  · have e : (fun z => quadTop proxq z + composedFn c false lam T.lin (denote (none : Option (PyVec (Fin (k + 1)) ℝ)))
        (quadArg none) z) = fun z => quadTop proxq z + penalty c lam (T.lin z) := by
      funext z
      unfold composedFn penaltyOrBound
      simp [denote, quadArg]
    rw [← e]
    exact a1
  · refine mul_le_mul_of_nonneg_left ?_ (by positivity)
    have e : sqDist (fun _ : Fin (k + 1) => (0 : ℝ)) u = ∑ i, u i ^ 2 := Finset.sum_congr rfl fun i _ => by ring
    exact (le_of_eq e).trans (hR u hu2)

/-- **C117** (partial: no quadratic terms in the container and its loss, monotonicity restarts switched off, a valid
`dual_reference_lipschitz`)  The generalised lasso: `container(loss, l1norm.linear(D, lagrange=λ)).proximal(proxq,
prox_control)` returns, and its distance to the minimiser `p*` of `q(β) + λ‖Dβ‖₁` satisfies
`coef (m + 1) ‖p - p*‖ ≤ 2 λ √(ρ K)`, where `m` is the length of the history, `K` the number of rows of `D` and `ρ` the value
of `dual_reference_lipschitz`; the bound is known before the call, up to `m`. -/
theorem C117_generalised_lasso_partial (lam : ℝ) (hlam : 0 ≤ lam) (T l : Aff ℝ n (k + 1)) (hl : T.asOperator = some l)
    (hT : distinctSelectors T) (hoff : l.off = .none) (loss : ContSmooth n) (hloss : NoQuadratic loss.quad)
    (proxq : Quad (Fin n) ℝ) (hq : 0 < proxq.coef) (cen lin : PyVec (Fin n) ℝ) (hcen : proxq.center = some cen)
    (hlin : proxq.linear = some lin)
    (ρ : ℝ) (hρ : 0 < ρ) (hbound : ∀ x, ∑ i, T.lin x i ^ 2 ≤ ρ * ∑ j, x j ^ 2)
    (control : FitArgs) (hm : control.monotonicityRestart = false) (hrs : control.restart = none) (ha : 0 < control.alpha) :
    ∃ A D dual prox value C, AtomObj.affine .l1norm T none (some lam) none none = some A ∧
      A.toCont = some ⟨k + 1, D, dual, prox, value⟩ ∧
      Container.init [.smooth loss, .nonsmooth ⟨k + 1, D, dual, prox, value⟩] = .ok C ∧
      ∃ p hist pstar, C.proximalHist control ρ proxq (fun _ => 0) = some (p, hist) ∧
        1 ≤ hist.length ∧ hist.length ≤ control.maxItsV ∧
        IsUniqueMinTop (fun z => ((quadVal (some proxq) z + lam * ∑ i, |T.lin z i| : ℝ) : WithTop ℝ)) pstar ∧
        proxq.coef ^ 2 * (hist.length + 1) ^ 2 * sqDist pstar p ≤ 4 * ρ * ((k + 1) * lam ^ 2) := by
  have hsq : ∀ u ∈ ballOf (n := k) Klass.l1norm.conj lam, ∑ i, u i ^ 2 ≤ (k + 1) * lam ^ 2 := by
    intro u hu
    have h0 : ∀ i : Fin (k + 1), u i ^ 2 ≤ lam ^ 2 := fun i => by
      rw [← sq_abs]
      exact pow_le_pow_left₀ (abs_nonneg _) (hu i) 2
    have h9 : ∑ i, u i ^ 2 ≤ ∑ _i : Fin (k + 1), lam ^ 2 := Finset.sum_le_sum fun i _ => h0 i
    rw [Finset.sum_const, Finset.card_univ, Fintype.card_fin, nsmul_eq_mul] at h9
    push_cast at h9
    exact h9
  have hcl : IsClosed (ballOf (n := k) Klass.l1norm.conj lam) := by
    have : ballOf (n := k) Klass.l1norm.conj lam = ⋂ i, {x | |x i| ≤ lam} := by
      ext x; simp [ballOf, Klass.conj]
    rw [this]
    exact isClosed_iInter fun i => isClosed_le (by fun_prop) continuous_const
  have h := penalty_core .l1norm lam _ hlam hcl (fun i => by simpa using hlam) hsq T l hl hT hoff loss hloss proxq hq cen lin hcen hlin
    ρ hρ hbound control hm hrs ha
  simpa only [quadTop, penalty, ← WithTop.coe_add] using h

/-- **C117** (partial: as `C117_generalised_lasso_partial`)  The euclidean norm of a transform,
`container(loss, l2norm.linear(D, lagrange=λ))`: `coef (m + 1) ‖p - p*‖ ≤ 2 λ √ρ`, with `p*` the minimiser of
`q(β) + λ‖Dβ‖₂`. -/
theorem C117_l2_partial (lam : ℝ) (hlam : 0 ≤ lam) (T l : Aff ℝ n (k + 1)) (hl : T.asOperator = some l)
    (hT : distinctSelectors T) (hoff : l.off = .none) (loss : ContSmooth n) (hloss : NoQuadratic loss.quad)
    (proxq : Quad (Fin n) ℝ) (hq : 0 < proxq.coef) (cen lin : PyVec (Fin n) ℝ) (hcen : proxq.center = some cen)
    (hlin : proxq.linear = some lin)
    (ρ : ℝ) (hρ : 0 < ρ) (hbound : ∀ x, ∑ i, T.lin x i ^ 2 ≤ ρ * ∑ j, x j ^ 2)
    (control : FitArgs) (hm : control.monotonicityRestart = false) (hrs : control.restart = none) (ha : 0 < control.alpha) :
    ∃ A D dual prox value C, AtomObj.affine .l2norm T none (some lam) none none = some A ∧
      A.toCont = some ⟨k + 1, D, dual, prox, value⟩ ∧
      Container.init [.smooth loss, .nonsmooth ⟨k + 1, D, dual, prox, value⟩] = .ok C ∧
      ∃ p hist pstar, C.proximalHist control ρ proxq (fun _ => 0) = some (p, hist) ∧
        1 ≤ hist.length ∧ hist.length ≤ control.maxItsV ∧
        IsUniqueMinTop (fun z => ((quadVal (some proxq) z + lam * Real.sqrt (∑ i, T.lin z i ^ 2) : ℝ) : WithTop ℝ)) pstar ∧
        proxq.coef ^ 2 * (hist.length + 1) ^ 2 * sqDist pstar p ≤ 4 * ρ * lam ^ 2 := by
  have hsq : ∀ u ∈ ballOf (n := k) Klass.l2norm.conj lam, ∑ i, u i ^ 2 ≤ lam ^ 2 := by
    intro u hu
    have h1 : Real.sqrt (∑ i, u i ^ 2) ≤ lam := hu
    exact (Real.sqrt_le_left hlam).1 h1
  have hcl : IsClosed (ballOf (n := k) Klass.l2norm.conj lam) := by
    have : ballOf (n := k) Klass.l2norm.conj lam = {x | Real.sqrt (∑ i, x i ^ 2) ≤ lam} := rfl
    rw [this]
    exact isClosed_le (by fun_prop) continuous_const
  have h := penalty_core .l2norm lam _ hlam hcl (by show Real.sqrt _ ≤ _; simpa using hlam) hsq T l hl hT hoff loss hloss proxq hq cen lin
    hcen hlin ρ hρ hbound control hm hrs ha
  simpa only [quadTop, penalty, ← WithTop.coe_add] using h

/-- **C117** (partial: as `C117_generalised_lasso_partial`)  The largest entry of a transform,
`container(loss, supnorm.linear(D, lagrange=λ))`: `coef (m + 1) ‖p - p*‖ ≤ 2 λ √ρ`, with `p*` the minimiser of
`q(β) + λ max |Dβ|`. -/
theorem C117_sup_partial (lam : ℝ) (hlam : 0 ≤ lam) (T l : Aff ℝ n (k + 1)) (hl : T.asOperator = some l)
    (hT : distinctSelectors T) (hoff : l.off = .none) (loss : ContSmooth n) (hloss : NoQuadratic loss.quad)
    (proxq : Quad (Fin n) ℝ) (hq : 0 < proxq.coef) (cen lin : PyVec (Fin n) ℝ) (hcen : proxq.center = some cen)
    (hlin : proxq.linear = some lin)
    (ρ : ℝ) (hρ : 0 < ρ) (hbound : ∀ x, ∑ i, T.lin x i ^ 2 ≤ ρ * ∑ j, x j ^ 2)
    (control : FitArgs) (hm : control.monotonicityRestart = false) (hrs : control.restart = none) (ha : 0 < control.alpha) :
    ∃ A D dual prox value C, AtomObj.affine .supnorm T none (some lam) none none = some A ∧
      A.toCont = some ⟨k + 1, D, dual, prox, value⟩ ∧
      Container.init [.smooth loss, .nonsmooth ⟨k + 1, D, dual, prox, value⟩] = .ok C ∧
      ∃ p hist pstar, C.proximalHist control ρ proxq (fun _ => 0) = some (p, hist) ∧
        1 ≤ hist.length ∧ hist.length ≤ control.maxItsV ∧
        IsUniqueMinTop (fun z => ((quadVal (some proxq) z + lam * maxCoord (fun i => |T.lin z i|) : ℝ) : WithTop ℝ)) pstar ∧
        proxq.coef ^ 2 * (hist.length + 1) ^ 2 * sqDist pstar p ≤ 4 * ρ * lam ^ 2 := by
  have hsq : ∀ u ∈ ballOf (n := k) Klass.supnorm.conj lam, ∑ i, u i ^ 2 ≤ lam ^ 2 := by
    intro u hu
    have h1 : ∑ i, |u i| ≤ lam := hu
    have h2 : ∑ i, u i ^ 2 ≤ (∑ i, |u i|) ^ 2 := by
      rw [sq (∑ i, |u i|), Finset.sum_mul]
      refine Finset.sum_le_sum fun i _ => ?_
      rw [← sq_abs, sq]
      exact mul_le_mul_of_nonneg_left
        (Finset.single_le_sum (f := fun i => |u i|) (fun j _ => abs_nonneg _) (Finset.mem_univ i)) (abs_nonneg _)
    exact h2.trans (pow_le_pow_left₀ (Finset.sum_nonneg fun i _ => abs_nonneg _) h1 2)
  have hcl : IsClosed (ballOf (n := k) Klass.supnorm.conj lam) := by
    have : ballOf (n := k) Klass.supnorm.conj lam = {x | ∑ i, |x i| ≤ lam} := rfl
    rw [this]
    exact isClosed_le (by fun_prop) continuous_const
  have h := penalty_core .supnorm lam _ hlam hcl (by show ∑ i, |(0 : ℝ)| ≤ _; simpa using hlam) hsq T l hl hT hoff loss hloss proxq hq cen lin
    hcen hlin ρ hρ hbound control hm hrs ha
  simpa only [quadTop, penalty, ← WithTop.coe_add] using h

/-- trend filtering of order two on four points: `‖Dx‖² ≤ 16‖x‖²` -/
example (loss : ContSmooth 4) (hloss : NoQuadratic loss.quad) (w v : Fin 4 → ℝ) :=
  C117_generalised_lasso_partial (n := 4) (k := 1) 3 (by norm_num)
    (.matrix (fun i j => if j.val = i.val then 1 else if j.val = i.val + 1 then -2 else if j.val = i.val + 2 then 1 else 0) none) _
    rfl (by simp [distinctSelectors]) rfl loss hloss ⟨2, some (.arr w), some (.arr v), 0⟩ (by norm_num) _ _ rfl rfl 16
    (by norm_num)
    (fun x => by
      have e : ∀ i, Aff.lin (.matrix (fun i j => if j.val = i.val then 1 else if j.val = i.val + 1 then -2
          else if j.val = i.val + 2 then 1 else 0) none : Aff ℝ 4 2) x i = ∑ j, (if j.val = i.val then 1
          else if j.val = i.val + 1 then -2 else if j.val = i.val + 2 then 1 else 0) * x j := fun i => rfl
      simp only [e, Fin.sum_univ_four, show (1 : ℕ) + 1 = 2 from rfl]
      rw [Fin.sum_univ_two]
      simp
      nlinarith [sq_nonneg (x 0 + x 1), sq_nonneg (x 1 + x 2), sq_nonneg (x 2 + x 3), sq_nonneg (x 0 - x 2),
        sq_nonneg (x 1 - x 3), sq_nonneg (x 0), sq_nonneg (x 1), sq_nonneg (x 2), sq_nonneg (x 3)])
    { Container.proxDefaults with monotonicityRestart := false } rfl rfl (by norm_num [Container.proxDefaults])

private lemma diff_bound (x : Fin 3 → ℝ) : ∑ i, Aff.lin (.matrix (fun i j => if j.val = i.val + 1 then 1 else if j.val = i.val then -1
    else 0) none : Aff ℝ 3 2) x i ^ 2 ≤ 4 * ∑ j, x j ^ 2 := by
  have e : ∀ i, Aff.lin (.matrix (fun i j => if j.val = i.val + 1 then 1 else if j.val = i.val then -1 else 0) none :
      Aff ℝ 3 2) x i = ∑ j, (if j.val = i.val + 1 then 1 else if j.val = i.val then -1 else 0) * x j := fun i => rfl
  simp only [e, Fin.sum_univ_three]
  rw [Fin.sum_univ_two]
  simp
  nlinarith [sq_nonneg (x 0 + x 1), sq_nonneg (x 1 + x 2), sq_nonneg (x 0), sq_nonneg (x 1), sq_nonneg (x 2)]

/-- the euclidean norm and the largest entry of first differences -/
example (loss : ContSmooth 3) (hloss : NoQuadratic loss.quad) (w v : Fin 3 → ℝ) :=
  C117_l2_partial (n := 3) (k := 1) 3 (by norm_num) _ _ rfl (by simp [distinctSelectors]) rfl loss hloss
    ⟨2, some (.arr w), some (.arr v), 0⟩ (by norm_num) _ _ rfl rfl 4 (by norm_num) diff_bound
    { Container.proxDefaults with monotonicityRestart := false } rfl rfl (by norm_num [Container.proxDefaults])

example (loss : ContSmooth 3) (hloss : NoQuadratic loss.quad) (w v : Fin 3 → ℝ) :=
  C117_sup_partial (n := 3) (k := 1) 3 (by norm_num) _ _ rfl (by simp [distinctSelectors]) rfl loss hloss
    ⟨2, some (.arr w), some (.arr v), 0⟩ (by norm_num) _ _ rfl rfl 4 (by norm_num) diff_bound
    { Container.proxDefaults with monotonicityRestart := false } rfl rfl (by norm_num [Container.proxDefaults])

/-! ### several penalties -/

private lemma stack_sq {N : ℕ} (ks : Fin (N + 2) → ℕ) (T : (i : Fin (N + 2)) → Aff ℝ n (ks i)) (x : Fin n → ℝ) :
    ∑ o, (Aff.vstack ks T).lin x o ^ 2 = ∑ i, ∑ j, (T i).lin x j ^ 2 := by
  rw [← Equiv.sum_comp finSigmaFinEquiv fun o => (Aff.vstack ks T).lin x o ^ 2, Fintype.sum_sigma]
  refine Finset.sum_congr rfl fun i _ => Finset.sum_congr rfl fun j _ => congrArg (· ^ 2) ?_
  show Aff.fill ks (fun i => (T i).meth.lin x) (finSigmaFinEquiv ⟨i, j⟩) = _
  unfold Aff.fill
  rw [Equiv.symm_apply_apply]
  rfl

/-- **C117** (partial: as `C117_accuracy_partial`)  Any number of penalties whose dual atoms are indicators of bounded closed sets,
the squared norms of whose points are at most `R_i` (every norm penalty): `proximal` returns, and
`coef (m + 1) ‖p - p*‖ ≤ 2 √(ρ Σ R_i)`. -/
theorem C117_penalties_partial (C : Container n)
    (pen : (i : Fin C.nonsmooth.length) → (Fin (C.nonsmooth.get i).k → ℝ) → WithTop ℝ)
    (H : Fin C.nonsmooth.length → (Fin n → ℝ) → WithTop ℝ) (hne : 0 < C.nonsmooth.length)
    (hT : ∀ i, distinctSelectors (C.nonsmooth.get i).T)
    (hprox : ∀ i, AtomCorrect (C.nonsmooth.get i).dual.proximal (pen i)) (hconv : ∀ i, ConvexTop (pen i))
    (htotal : ∀ i (q : Quad (Fin (C.nonsmooth.get i).k) ℝ) v w, q.center = some (.arr v) → q.linear = some (.arr w) → 0 < q.coef →
      ∃ z, (C.nonsmooth.get i).dual.proximal q = .ok z)
    (hval : ∀ i u, pen i u ≠ ⊤ → (C.nonsmooth.get i).dual.value u false = pen i u)
    (hrep : ∀ i, Represents (C.nonsmooth.get i).T.lin (pen i) (H i))
    (B : (i : Fin C.nonsmooth.length) → Set (Fin (C.nonsmooth.get i).k → ℝ)) (R : Fin C.nonsmooth.length → ℝ)
    (hB : ∀ i u, (u ∈ B i → pen i u = 0) ∧ (u ∉ B i → pen i u = ⊤))
    (hBR : ∀ i, IsClosed (B i) ∧ (B i).Nonempty ∧ ∀ u ∈ B i, ∑ j, u j ^ 2 ≤ R i)
    (hquad : NoQuadratic C.quadratic ∧ ∀ a ∈ C.smooth, NoQuadratic a.quad)
    (proxq : Quad (Fin n) ℝ) (hq : 0 < proxq.coef) (c l : PyVec (Fin n) ℝ) (hcen : proxq.center = some c)
    (hlin : proxq.linear = some l)
    (ρ : ℝ) (hρ : 0 < ρ) (hbound : ∀ x, ∑ i, C.stack.2.1.lin x i ^ 2 ≤ ρ * ∑ j, x j ^ 2)
    (control : FitArgs) (hm : control.monotonicityRestart = false) (hr : control.restart = none) (ha : 0 < control.alpha) :
    ∃ p hist pstar, C.proximalHist control ρ proxq (fun _ => 0) = some (p, hist) ∧
      1 ≤ hist.length ∧ hist.length ≤ control.maxItsV ∧
      IsUniqueMinTop (fun z => quadTop proxq z + ∑ i, H i z) pstar ∧
      proxq.coef ^ 2 * (hist.length + 1) ^ 2 * sqDist pstar p ≤ 4 * ρ * ∑ i, R i := by
  obtain ⟨hTs, P, hP1, hP2, hP3, -, hP4, hP5⟩ := stacked_core n (fun i : Fin C.nonsmooth.length => (C.nonsmooth.get i).k)
    (fun i => (C.nonsmooth.get i).T) (fun i => (C.nonsmooth.get i).dual) pen H hT hprox hrep
  obtain ⟨S, s1, s2, s3, s4⟩ := hP5 hne B R hB hBR
  obtain ⟨hcoef, -, -⟩ := container_point_core C P (fun x => ∑ i, H i x) hTs hP2 (hP3 hconv) hquad proxq hq c l hcen hlin
  obtain ⟨p, hist, hp⟩ := C117_returns C proxq c l hcen hlin hq (by rw [hcoef]; exact hq) ρ hρ
    (fun q v w => stacked_total hne (fun i : Fin C.nonsmooth.length => (C.nonsmooth.get i).k)
      (fun i => (C.nonsmooth.get i).T) (fun i => (C.nonsmooth.get i).dual) htotal q v w) control (fun _ => 0)
  obtain ⟨g1, g2, g3⟩ := container_accuracy_core C P (fun x => ∑ i, H i x) hTs hP1 hP2 (hP3 hconv) (hP4 hne false hval) hquad proxq hq
    c l hcen hlin ρ hρ hbound control hm hr ha (fun _ => 0) p hist hp
  have hcomp : IsCompact S := by
    refine (isCompact_univ_pi fun _ => isCompact_Icc (a := -Real.sqrt (∑ i, R i)) (b := Real.sqrt (∑ i, R i))).of_isClosed_subset s1 ?_
    intro u hu i _
    have h10 : u i ^ 2 ≤ ∑ i, R i :=
      (Finset.single_le_sum (f := fun i => u i ^ 2) (fun j _ => sq_nonneg _) (Finset.mem_univ i)).trans (s4 u hu)
    exact abs_le.1 (Real.abs_le_sqrt h10)
  obtain ⟨u, hu1, hu2⟩ := ball_min (C24_linear (.adjoint C.stack.2.1) hTs) (C.totalq proxq) hcomp s2 P s3
  obtain ⟨ps, a1, a2⟩ := g3 u hu1
  refine ⟨p, hist, ps, hp, g1, g2, a1, a2.trans (mul_le_mul_of_nonneg_left ?_ (by positivity))⟩
  have e : sqDist (fun _ : Fin C.stack.1 => (0 : ℝ)) u = ∑ i, u i ^ 2 := Finset.sum_congr rfl fun i _ => by ring
  exact (le_of_eq e).trans (s4 u hu2)

private lemma l1_part (lam : ℝ) (hlam : 0 ≤ lam) (T l : Aff ℝ n (k + 1)) (hl : T.asOperator = some l)
    (hT : distinctSelectors T) (hoff : l.off = .none) :
    ∃ A D dual prox value, AtomObj.affine .l1norm T none (some lam) none none = some A ∧
      A.toCont = some ⟨k + 1, D, dual, prox, value⟩ ∧ distinctSelectors D ∧ D.lin = T.lin ∧
      (∀ (q : Quad (Fin (k + 1)) ℝ) w, q.linear = some (.arr w) → 0 < q.coef → ∃ z, dual.proximal q = .ok z) ∧
      ∃ pen B, AtomCorrect dual.proximal pen ∧ ConvexTop pen ∧ (∀ u, pen u ≠ ⊤ → dual.value u false = pen u) ∧
        Represents D.lin pen (fun z => ((lam * ∑ i, |T.lin z i| : ℝ) : WithTop ℝ)) ∧
        (∀ u, (u ∈ B → pen u = 0) ∧ (u ∉ B → pen u = ⊤)) ∧
        IsClosed B ∧ B.Nonempty ∧ ∀ u ∈ B, ∑ i, u i ^ 2 ≤ (k + 1) * lam ^ 2 := by
  obtain ⟨A, D, dual, prox, value, h1, h2, h3, h4, htot, pen, h5, h6, h7, h8, g, hg, hpen⟩ :=
    member_full .l1norm false lam hlam T l hl hT hoff none (by simp) none (by simp)
  obtain ⟨A', g', k1, k2, k3, -, -, k4, k5, k6⟩ := dual_plain .l1norm false lam hlam T l hl hoff
  have hA : A' = A := by rw [h1] at k1; exact (Option.some_inj.1 k1).symm
  subst hA
  have hgg : g' = g := by
    rw [hg] at k2
    injection k2 with k2
    injection k2 with _ e
    injection e with e
    exact e.symm
  subst hgg
  have hball := ball_fn g' lam k4 k5 k6
  rw [k3] at hball
  refine ⟨A', D, dual, prox, value, h1, h2, h3, h4, htot, pen, ballOf (n := k) Klass.l1norm.conj lam, h5, h6, h7, ?_,
    by rw [hpen]; exact hball, ?_, ⟨fun _ => 0, fun i => by simpa using hlam⟩, fun u hu => ?_⟩
  · have e : composedFn .l1norm false lam T.lin (denote (none : Option (PyVec (Fin (k + 1)) ℝ))) (quadArg none) =
        fun z => ((lam * ∑ i, |T.lin z i| : ℝ) : WithTop ℝ) := by
      funext z
      unfold composedFn penaltyOrBound
      simp [denote, quadArg, penalty]
    rw [← e]
    exact h8
  · have : ballOf (n := k) Klass.l1norm.conj lam = ⋂ i, {x | |x i| ≤ lam} := by
      ext x; simp [ballOf, Klass.conj]
    rw [this]
    exact isClosed_iInter fun i => isClosed_le (by fun_prop) continuous_const
  · have h0 : ∀ i : Fin (k + 1), u i ^ 2 ≤ lam ^ 2 := fun i => by
      rw [← sq_abs]
      exact pow_le_pow_left₀ (abs_nonneg _) (hu i) 2
    have h9 : ∑ i, u i ^ 2 ≤ ∑ _i : Fin (k + 1), lam ^ 2 := Finset.sum_le_sum fun i _ => h0 i
    rw [Finset.sum_const, Finset.card_univ, Fintype.card_fin, nsmul_eq_mul] at h9
    push_cast at h9
    exact h9

/-- **C117** (partial: as `C117_generalised_lasso_partial`)  The sparse fused lasso and its relatives,
`container(loss, l1norm.linear(D₁, lagrange=λ₁), l1norm.linear(D₂, lagrange=λ₂))`: `proximal` returns, and its distance to the
minimiser `p*` of `q(β) + λ₁‖D₁β‖₁ + λ₂‖D₂β‖₁` satisfies `coef (m + 1) ‖p - p*‖ ≤ 2 √(ρ (k₁ λ₁² + k₂ λ₂²))`, with `k_i` the
number of rows of `D_i` and `ρ` a bound of the squared norm of the stacked transform. -/
theorem C117_sparse_fused_partial {k' : ℕ} (lam mu : ℝ) (hlam : 0 ≤ lam) (hmu : 0 ≤ mu)
    (T l : Aff ℝ n (k + 1)) (hl : T.asOperator = some l) (hT : distinctSelectors T) (hoff : l.off = .none)
    (T' l' : Aff ℝ n (k' + 1)) (hl' : T'.asOperator = some l') (hT' : distinctSelectors T') (hoff' : l'.off = .none)
    (loss : ContSmooth n) (hloss : NoQuadratic loss.quad)
    (proxq : Quad (Fin n) ℝ) (hq : 0 < proxq.coef) (cen lin : PyVec (Fin n) ℝ) (hcen : proxq.center = some cen)
    (hlin : proxq.linear = some lin)
    (ρ : ℝ) (hρ : 0 < ρ) (hbound : ∀ x, ∑ i, T.lin x i ^ 2 + ∑ i, T'.lin x i ^ 2 ≤ ρ * ∑ j, x j ^ 2)
    (control : FitArgs) (hm : control.monotonicityRestart = false) (hrs : control.restart = none) (ha : 0 < control.alpha) :
    ∃ A A' a a' C, AtomObj.affine .l1norm T none (some lam) none none = some A ∧ A.toCont = some a ∧
      AtomObj.affine .l1norm T' none (some mu) none none = some A' ∧ A'.toCont = some a' ∧
      Container.init [.smooth loss, .nonsmooth a, .nonsmooth a'] = .ok C ∧
      ∃ p hist pstar, C.proximalHist control ρ proxq (fun _ => 0) = some (p, hist) ∧
        1 ≤ hist.length ∧ hist.length ≤ control.maxItsV ∧
        IsUniqueMinTop (fun z => ((quadVal (some proxq) z + (lam * ∑ i, |T.lin z i| + mu * ∑ i, |T'.lin z i|) : ℝ) :
          WithTop ℝ)) pstar ∧
        proxq.coef ^ 2 * (hist.length + 1) ^ 2 * sqDist pstar p ≤ 4 * ρ * ((k + 1) * lam ^ 2 + (k' + 1) * mu ^ 2) := by
  obtain ⟨A, D, dual, prox, value, h1, h2, h3, h4, h5, pen, B, h6, h7, h8, h9, h10, h11⟩ := l1_part lam hlam T l hl hT hoff
  obtain ⟨A', D', dual', prox', value', j1, j2, j3, j4, j5, pen', B', j6, j7, j8, j9, j10, j11⟩ :=
    l1_part mu hmu T' l' hl' hT' hoff'
  have hno : NoQuadratic (Quad.init none none none none : Quad (Fin n) ℝ) := ⟨rfl, fun i => rfl⟩
  let C : Container n := ⟨[⟨k + 1, D, dual, prox, value⟩, ⟨k' + 1, D', dual', prox', value'⟩], [loss], Quad.init none none none none⟩
  let H : Fin C.nonsmooth.length → (Fin n → ℝ) → WithTop ℝ := fun i => match i with
    | ⟨0, _⟩ => fun z => ((lam * ∑ i, |T.lin z i| : ℝ) : WithTop ℝ)
    | ⟨_ + 1, _⟩ => fun z => ((mu * ∑ i, |T'.lin z i| : ℝ) : WithTop ℝ)
  let R : Fin C.nonsmooth.length → ℝ := fun i => match i with
    | ⟨0, _⟩ => (k + 1) * lam ^ 2
    | ⟨_ + 1, _⟩ => (k' + 1) * mu ^ 2
  have hall : ∀ i : Fin C.nonsmooth.length, ∃ pen B, distinctSelectors (C.nonsmooth.get i).T ∧
      AtomCorrect (C.nonsmooth.get i).dual.proximal pen ∧ ConvexTop pen ∧
      (∀ (q : Quad (Fin (C.nonsmooth.get i).k) ℝ) v w, q.center = some (.arr v) → q.linear = some (.arr w) → 0 < q.coef →
        ∃ z, (C.nonsmooth.get i).dual.proximal q = .ok z) ∧
      (∀ u, pen u ≠ ⊤ → (C.nonsmooth.get i).dual.value u false = pen u) ∧
      Represents (C.nonsmooth.get i).T.lin pen (H i) ∧
      (∀ u, (u ∈ B → pen u = 0) ∧ (u ∉ B → pen u = ⊤)) ∧
      IsClosed B ∧ B.Nonempty ∧ ∀ u ∈ B, ∑ j, u j ^ 2 ≤ R i := by
    intro i
    match i with
    | ⟨0, _⟩ => exact ⟨pen, B, h3, h6, h7, fun q _ w _ => h5 q w, h8, h9, h10, h11⟩
    | ⟨1, _⟩ => exact ⟨pen', B', j3, j6, j7, fun q _ w _ => j5 q w, j8, j9, j10, j11⟩
  choose P S a1 a2 a3 a4 a5 a6 a7 a8 using hall
  have hquad : NoQuadratic C.quadratic ∧ ∀ a ∈ C.smooth, NoQuadratic a.quad := by
    refine ⟨hno, fun a ha => ?_⟩
    have : a ∈ [loss] := ha
    rw [List.mem_singleton] at this
    rw [this]; exact hloss
  obtain ⟨p, hist, ps, b1, b2, b3, b4, b5⟩ := C117_penalties_partial C P H (by show 0 < 2; norm_num) a1 a2 a3 a4 a5 a6 S R a7 a8 hquad
    proxq hq cen lin hcen hlin ρ hρ (fun x => by
      refine le_trans (le_of_eq ?_) (hbound x)
      have e : ∑ i, C.stack.2.1.lin x i ^ 2 = ∑ i : Fin 2, ∑ j, (C.nonsmooth.get i).T.lin x j ^ 2 :=
        stack_sq (fun i : Fin 2 => (C.nonsmooth.get i).k) (fun i => (C.nonsmooth.get i).T) x
      rw [e, Fin.sum_univ_two, ← h4, ← j4]
      rfl) control hm hrs ha
  refine ⟨A, A', _, _, C, h1, h2, j1, j2, rfl, p, hist, ps, b1, b2, b3, ?_, ?_⟩
  · have e : (fun z => quadTop proxq z + ∑ i, H i z) = fun z => ((quadVal (some proxq) z +
        (lam * ∑ i, |T.lin z i| + mu * ∑ i, |T'.lin z i|) : ℝ) : WithTop ℝ) := by
      funext z
      rw [show ∑ i, H i z = ∑ i : Fin 2, H i z from rfl, Fin.sum_univ_two, WithTop.coe_add, WithTop.coe_add]
      rfl
    rw [← e]
    exact b4
  · have e : ∑ i, R i = (k + 1) * lam ^ 2 + (k' + 1) * mu ^ 2 := by
      rw [show ∑ i, R i = ∑ i : Fin 2, R i from rfl, Fin.sum_univ_two]
    rw [← e]
    exact b5

/-- `3‖x‖₁ + 2‖Dx‖₁`, `D` the first differences of three coefficients -/
example (loss : ContSmooth 3) (hloss : NoQuadratic loss.quad) (w v : Fin 3 → ℝ) :=
  C117_sparse_fused_partial (n := 3) (k := 2) (k' := 1) 3 2 (by norm_num) (by norm_num)
    (.matrix (fun i j => if i = j then 1 else 0) none) _ rfl (by simp [distinctSelectors]) rfl
    (.matrix (fun i j => if j.val = i.val + 1 then 1 else if j.val = i.val then -1 else 0) none) _ rfl (by simp [distinctSelectors]) rfl
    loss hloss ⟨2, some (.arr w), some (.arr v), 0⟩ (by norm_num) _ _ rfl rfl 5 (by norm_num)
    (fun x => by
      have e : ∀ i, Aff.lin (.matrix (fun i j => if i = j then 1 else 0) none : Aff ℝ 3 3) x i = x i := fun i => by
        show ∑ j, (if i = j then 1 else 0) * x j = x i
        simp
      have h := diff_bound x
      simp only [e]
      linarith)
    { Container.proxDefaults with monotonicityRestart := false } rfl rfl (by norm_num [Container.proxDefaults])

end Verif.Props
