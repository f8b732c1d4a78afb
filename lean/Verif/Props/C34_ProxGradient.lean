import Verif.Props.C33_Fista
import Verif.Props.C10_Proximal

/-!
# C34, C35, C36: proximal gradient steps and `simple_problem`

`simple_problem(loss, atom)` with problem quadratic `q2`, where the loss evaluates to `f` and has quadratic `q1`, is
the problem: minimise `f + (h + q1 + q2)` over the domain `S` of the atom's penalty `h`.
-/

set_option linter.unusedSectionVars false
set_option linter.unusedVariables false

namespace Verif.Props
open Verif.Spec Verif.Model Verif.Model.Fista Verif.Lemmas

variable {n : ℕ}

/-- `solve` is a correct proximal map of the penalty `h` with domain `S` (what C10 proves of the atoms). -/
def AtomSolves (solve : Quad (Fin n) ℝ → Option (Fin n → ℝ)) (h : (Fin n → ℝ) → ℝ) (S : Set (Fin n → ℝ)) : Prop :=
  ∀ Q z, 0 < Q.coef → solve Q = some z → IsUniqueMinOn (fun u => Q.funcVal u + h u) S z

/-- The parts of a simple problem: the loss evaluates to `f`, the atom's nonsmooth objective is `h` on `S` and `inf`
off `S` when feasibility is checked, its `solve` is correct, and the quadratics have non-negative coefficients. -/
structure IsSimple (P : SimpleProblem n) (f h : (Fin n → ℝ) → ℝ) (S : Set (Fin n → ℝ)) : Prop where
  smooth : ∀ x, P.smooth x = .num (f x)
  atom : ∀ x ∈ S, ∀ check, P.atomNonsmooth x check = .num (h x)
  infeasible : ∀ x, x ∉ S → P.atomNonsmooth x true = .inf
  solves : AtomSolves P.atomSolve h S
  coef1 : 0 ≤ P.smoothQuad.coef
  coef2 : 0 ≤ P.quadratic.coef

/-- documented objective of the nonsmooth part: atom + quadratic of the loss + quadratic of the problem -/
noncomputable def simpleNonsmooth (P : SimpleProblem n) (h : (Fin n → ℝ) → ℝ) (x : Fin n → ℝ) : ℝ :=
  h x + quadVal (some P.smoothQuad) x + quadVal (some P.quadratic) x

private lemma fv (q : Quad (Fin n) ℝ) (x : Fin n → ℝ) : q.funcVal x = quadVal (some q) x := by
  have := C14_objective_func (some q.coef) q.center q.linear (some q.const) x
  simp only [Quad.init, Quad.objective, Option.getD, Quad.Value.func.injEq] at this
  exact this

private lemma uniqueMin_shift {α : Type*} {f g : α → ℝ} {S : Set α} {p : α} (c : ℝ)
    (h : ∀ x, f x = g x + c) (hm : IsUniqueMinOn f S p) : IsUniqueMinOn g S p := by
  refine ⟨hm.1, fun z hz hne => ?_⟩
  have := hm.2 z hz hne
  rw [h, h] at this
  linarith

/-- **C36** the object FISTA works on inside `simple_problem.solve` is the problem
`f + h + q1 + q2`: this is the objective it records and the problem whose proximal steps it takes. -/
theorem C36_objective (P : SimpleProblem n) (f h : (Fin n → ℝ) → ℝ) (S : Set (Fin n → ℝ)) (hP : IsSimple P f h S)
    (l : ℝ) : IsProblem (P.composite l) f (simpleNonsmooth P h) S := by
  refine ⟨hP.smooth, fun x hx => ?_, fun x hx => ?_, fun x hx => ?_, ?_⟩
  · show P.nonsmooth x false = _
    unfold SimpleProblem.nonsmooth simpleNonsmooth
    rw [hP.atom x hx, fv, fv]; rfl
  · show P.nonsmooth x true = _
    unfold SimpleProblem.nonsmooth simpleNonsmooth
    rw [hP.atom x hx, fv, fv]; rfl
  · show P.nonsmooth x true = _
    unfold SimpleProblem.nonsmooth
    rw [hP.infeasible x hx]; rfl
  · intro L x g z hL hz
    have hz' : P.atomSolve (((stepQuad L x g).add (some P.smoothQuad)).add (some P.quadratic)) = some z := hz
    have hcoef : (((stepQuad L x g).add (some P.smoothQuad)).add (some P.quadratic)).coef =
        L + P.smoothQuad.coef + P.quadratic.coef := rfl
    have hu := hP.solves _ z (by rw [hcoef]; linarith [hP.coef1, hP.coef2]) hz'
    obtain ⟨c1, hc1⟩ := C14_add_up_to_const (stepQuad L x g) P.smoothQuad
    obtain ⟨c2, hc2⟩ := C14_add_up_to_const ((stepQuad L x g).add (some P.smoothQuad)) P.quadratic
    refine uniqueMin_shift (c1 + c2) (fun u => ?_) hu
    rw [hc2, hc1]
    have e : (stepQuad L x g).funcVal u = L / 2 * sqDist u x + dot g u := by
      rw [fv]
      show quadFn L (denote (some (.arr x))) (denote (some (.arr g))) 0 u = _
      unfold quadFn
      rw [add_zero]; rfl
    unfold simpleNonsmooth
    rw [e, fv, fv]
    ring

/-! ## C36: the quadratic of the problem is restored -/

/-- the calls of `solve` in a session: the optional quadratic and the fit arguments of each -/
abbrev SolveCall (n : ℕ) := Option (Quad (Fin n) ℝ) × FitArgs × ℝ × ℕ

/-- run a list of calls, keeping the outcome of each -/
noncomputable def runSolves (P : SimpleProblem n) : List (SolveCall n) → List (SimpleProblem.SolveOutcome n) × SimpleProblem n
  | [] => ([], P)
  | (q, a, l, fuel) :: rest =>
    let r := P.solve q a l fuel
    let r' := runSolves r.2 rest
    (r.1 :: r'.1, r'.2)

/-- **C36** (calls that return; see `C36_raise_fails`).  After any sequence of `solve` calls that all return, whatever
quadratics were passed, the quadratic of the problem is the original one, and so are the loss and the atom. -/
theorem C36_restores_partial (P : SimpleProblem n) (calls : List (SolveCall n))
    (hok : ∀ o ∈ (runSolves P calls).1, ∃ c v hist, o = .ok c v hist) :
    ∃ coefs, (runSolves P calls).2 = { P with coefs := coefs } := by
  induction calls generalizing P with
  | nil => exact ⟨P.coefs, rfl⟩
  | cons c rest ih =>
    obtain ⟨q, a, l, fuel⟩ := c
    have h1 := hok (P.solve q a l fuel).1 (by simp [runSolves])
    have h2 : ∃ coefs, (P.solve q a l fuel).2 = { P with coefs := coefs } := by
      obtain ⟨c, v, hist, h1⟩ := h1
      unfold SimpleProblem.solve at h1 ⊢
      simp only at h1 ⊢
      cases hf : Fista.fit (SimpleProblem.composite { P with quadratic := P.quadratic.add q } l) a none false fuel P.coefs with
      | ok hist s => exact ⟨s.coefs, rfl⟩
      | nanObjective => rw [hf] at h1; cases h1
      | proxError s => rw [hf] at h1; cases h1
      | zeroStep s => rw [hf] at h1; cases h1
      | diverged => rw [hf] at h1; cases h1
    obtain ⟨cf, h2⟩ := h2
    obtain ⟨cf', h3⟩ := ih (P.solve q a l fuel).2 (fun o ho => hok o (by simp [runSolves]; exact Or.inr ho))
    refine ⟨cf', ?_⟩
    show (runSolves (P.solve q a l fuel).2 rest).2 = _
    rw [h3, h2]

/-- **C36** What a call `solve(q)` minimises: it runs FISTA on the problem whose nonsmooth part is the atom plus the
quadratic of the loss plus the quadratic of the problem plus `q` (up to a constant, which is zero unless a
quadratic has a nonzero float center, C14); the first entry of the history is that objective at the coefficients
the problem had, and the value returned with `return_optimum` is that objective at the coefficients returned. -/
theorem C36_solve_objective (P : SimpleProblem n) (f h : (Fin n → ℝ) → ℝ) (S : Set (Fin n → ℝ)) (hP : IsSimple P f h S)
    (q : Option (Quad (Fin n) ℝ)) (hq : 0 ≤ quadCoef q) (a : FitArgs) (l : ℝ) (fuel : ℕ) :
    ∃ (const : ℝ) (H : (Fin n → ℝ) → ℝ) (C : Composite n),
      (∀ x, H x = simpleNonsmooth P h x + quadVal q x + const) ∧ IsProblem C f H S ∧ C.grad = P.grad ∧
      ∀ c v hist P', P.solve q a l fuel = (.ok c v hist, P') →
        ∃ s, Fista.fit C a none false fuel P.coefs = .ok hist s ∧ s.coefs = c ∧ (c ∈ S → v = .num (f c + H c)) := by
  let P1 : SimpleProblem n := { P with quadratic := P.quadratic.add q }
  have hP1 : IsSimple P1 f h S := by
    refine ⟨hP.smooth, hP.atom, hP.infeasible, hP.solves, hP.coef1, ?_⟩
    cases q with
    | none => exact hP.coef2
    | some q => exact add_nonneg hP.coef2 hq
  have hconst : ∃ const, ∀ x, simpleNonsmooth P1 h x = simpleNonsmooth P h x + quadVal q x + const := by
    cases q with
    | none => exact ⟨0, fun x => by simp [simpleNonsmooth, quadVal, P1, Quad.add]⟩
    | some q =>
      obtain ⟨c, hc⟩ := C14_add_up_to_const P.quadratic q
      refine ⟨c, fun x => ?_⟩
      have := hc x
      rw [fv, fv, fv] at this
      unfold simpleNonsmooth
      show h x + quadVal (some P.smoothQuad) x + quadVal (some (P.quadratic.add (some q))) x = _
      rw [this]; ring
  obtain ⟨const, hconst⟩ := hconst
  refine ⟨const, simpleNonsmooth P1 h, P1.composite l, hconst, C36_objective P1 f h S hP1 l, rfl, ?_⟩
  intro c v hist P' hs
  unfold SimpleProblem.solve at hs
  simp only at hs
  cases hf : Fista.fit (P1.composite l) a none false fuel P.coefs with
  | ok hist' s =>
    rw [hf] at hs
    simp only [Prod.mk.injEq, SimpleProblem.SolveOutcome.ok.injEq] at hs
    obtain ⟨⟨h1, h2, h3⟩, _⟩ := hs
    refine ⟨s, by rw [h3], h1, fun hc => ?_⟩
    rw [← h2]
    have hc' : s.coefs ∈ S := by rw [h1]; exact hc
    show (P.smooth s.coefs).add (P1.nonsmooth s.coefs false) = _
    rw [hP.smooth]
    have := (C36_objective P1 f h S hP1 l).nonsmooth s.coefs hc'
    have e : (P1.composite l).nonsmooth s.coefs false = P1.nonsmooth s.coefs false := rfl
    rw [e] at this
    rw [this, h1]; rfl
  | nanObjective => rw [hf] at hs; cases hs
  | proxError s => rw [hf] at hs; cases hs
  | zeroStep s => rw [hf] at hs; cases hs
  | diverged => rw [hf] at hs; cases hs

/-! ## C34 and C35 -/

lemma quadVal_convex (q : Quad (Fin n) ℝ) (hq : 0 ≤ q.coef) (x y : Fin n → ℝ) (a b : ℝ) (ha : 0 ≤ a) (hb : 0 ≤ b)
    (hab : a + b = 1) :
    quadVal (some q) (fun i => a * x i + b * y i) ≤ a * quadVal (some q) x + b * quadVal (some q) y := by
  rw [← fv, ← fv, ← fv, funcVal_eq, funcVal_eq, funcVal_eq]
  have hb' : b = 1 - a := by linarith
  subst hb'
  have h1 : ∑ i, linearAt q i * (a * x i + (1 - a) * y i) =
      a * ∑ i, linearAt q i * x i + (1 - a) * ∑ i, linearAt q i * y i := by
    rw [Finset.mul_sum, Finset.mul_sum, ← Finset.sum_add_distrib]
    exact Finset.sum_congr rfl fun i _ => by ring
  have h2 : ∑ i, (a * x i + (1 - a) * y i - centerAt q i) ^ 2 ≤
      a * ∑ i, (x i - centerAt q i) ^ 2 + (1 - a) * ∑ i, (y i - centerAt q i) ^ 2 := by
    rw [Finset.mul_sum, Finset.mul_sum, ← Finset.sum_add_distrib]
    refine Finset.sum_le_sum fun i _ => ?_
    nlinarith [mul_nonneg (mul_nonneg ha hb) (sq_nonneg (x i - y i))]
  have h3 := mul_le_mul_of_nonneg_left h2 (half_pos (zero_lt_two' ℝ)).le
  have h4 : q.coef / 2 * ∑ i, (a * x i + (1 - a) * y i - centerAt q i) ^ 2 ≤
      q.coef / 2 * (a * ∑ i, (x i - centerAt q i) ^ 2 + (1 - a) * ∑ i, (y i - centerAt q i) ^ 2) :=
    mul_le_mul_of_nonneg_left h2 (by linarith)
  rw [h1]
  linarith

private lemma simple_convex {P : SimpleProblem n} {f h : (Fin n → ℝ) → ℝ} {S : Set (Fin n → ℝ)} (hP : IsSimple P f h S)
    (hh : IsConvexFnOn h S) : IsConvexFnOn (simpleNonsmooth P h) S := by
  intro x hx y hy a b ha hb hab
  obtain ⟨h1, h2⟩ := hh x hx y hy a b ha hb hab
  refine ⟨h1, ?_⟩
  have h3 := quadVal_convex P.smoothQuad hP.coef1 x y a b ha hb hab
  have h4 := quadVal_convex P.quadratic hP.coef2 x y a b ha hb hab
  unfold simpleNonsmooth
  linarith

/-- **C34** For a convex loss with correct gradient and a convex penalty with a correct proximal map, for every step
`L > 0` at which the proximal step from `x` returns `z`: `x` minimises the objective of the problem
(`f + h + q1 + q2` over `S`) iff `z = x`. -/
theorem C34_fixed_point (P : SimpleProblem n) (f h : (Fin n → ℝ) → ℝ) (S : Set (Fin n → ℝ)) (hP : IsSimple P f h S)
    (hf : ConvexWithGradient f P.grad) (hh : IsConvexFnOn h S) (L : ℝ) (hL : 0 < L) (x z : Fin n → ℝ)
    (hz : P.proximal (Quad.init (some L) (some (.arr x)) (some (.arr (P.grad x))) (some 0)) = some z) :
    Minimises (fun u => f u + simpleNonsmooth P h u) S x ↔ z = x := by
  have hstep := (C36_objective P f h S hP 0).prox L x (P.grad x) z hL hz
  constructor
  · intro hx
    exact Lemmas.IsUniqueMinOn.unique hstep (minimiser_isProxStep hL (hf.gradient x) (simple_convex hP hh) hx)
  · intro e
    rw [e] at hstep
    exact isProxStep_minimiser hL hf (simple_convex hP hh) hstep

/-- **C35** sufficient decrease: if the quadratic upper bound holds at the proximal point `z` of a feasible `x` then
`F(z) ≤ F(x) - L/2‖z - x‖²`.  The loss need not be convex. -/
theorem C35_sufficient_decrease (P : SimpleProblem n) (f h : (Fin n → ℝ) → ℝ) (S : Set (Fin n → ℝ)) (hP : IsSimple P f h S)
    (hh : IsConvexFnOn h S) (L : ℝ) (hL : 0 < L) (x z : Fin n → ℝ) (hx : x ∈ S)
    (hz : P.proximal (Quad.init (some L) (some (.arr x)) (some (.arr (P.grad x))) (some 0)) = some z)
    (hb : QuadraticUpperBound f (P.grad x) L x z) :
    f z + simpleNonsmooth P h z ≤ f x + simpleNonsmooth P h x - L / 2 * sqDist z x :=
  prox_grad_decrease hL (simple_convex hP hh) hx ((C36_objective P f h S hP 0).prox L x (P.grad x) z hL hz) hb

/-- **C35** one accepted step, compared with any feasible `u`. -/
theorem C35_one_step (P : SimpleProblem n) (f h : (Fin n → ℝ) → ℝ) (S : Set (Fin n → ℝ)) (hP : IsSimple P f h S)
    (hf : ConvexWithGradient f P.grad) (hh : IsConvexFnOn h S) (L : ℝ) (hL : 0 < L) (x z : Fin n → ℝ)
    (hz : P.proximal (Quad.init (some L) (some (.arr x)) (some (.arr (P.grad x))) (some 0)) = some z)
    (hb : QuadraticUpperBound f (P.grad x) L x z) (u : Fin n → ℝ) (hu : u ∈ S) :
    (f z + simpleNonsmooth P h z) - (f u + simpleNonsmooth P h u) ≤ L / 2 * (sqDist x u - sqDist z u) := by
  have := prox_grad_ineq hL hf (simple_convex hP hh) ((C36_objective P f h S hP 0).prox L x (P.grad x) z hL hz) hb u hu
  rw [sqDist_comm u z, sqDist_comm u x] at this
  linarith

/-- **C35** `k` accepted plain steps with constants `≤ L`, from any start: `F(x_k) - F(u) ≤ L‖x_0 - u‖²/(2k)` for every
feasible `u`. -/
theorem C35_rate (P : SimpleProblem n) (f h : (Fin n → ℝ) → ℝ) (S : Set (Fin n → ℝ)) (hP : IsSimple P f h S)
    (hf : ConvexWithGradient f P.grad) (hh : IsConvexFnOn h S) (L : ℝ) (x : ℕ → Fin n → ℝ) (Ls : ℕ → ℝ) (k : ℕ) (hk : 0 < k)
    (hLs : ∀ j < k, 0 < Ls j ∧ Ls j ≤ L)
    (hstep : ∀ j < k, P.proximal (Quad.init (some (Ls j)) (some (.arr (x j))) (some (.arr (P.grad (x j)))) (some 0))
      = some (x (j + 1)))
    (hb : ∀ j < k, QuadraticUpperBound f (P.grad (x j)) (Ls j) (x j) (x (j + 1))) (u : Fin n → ℝ) (hu : u ∈ S) :
    (f (x k) + simpleNonsmooth P h (x k)) - (f u + simpleNonsmooth P h u) ≤ L * sqDist (x 0) u / (2 * k) := by
  set F : (Fin n → ℝ) → ℝ := fun v => f v + simpleNonsmooth P h v with hF
  have hone : ∀ j < k, F (x (j + 1)) - F u ≤ Ls j / 2 * (sqDist (x j) u - sqDist (x (j + 1)) u) := fun j hj =>
    C35_one_step P f h S hP hf hh (Ls j) (hLs j hj).1 _ _ (hstep j hj) (hb j hj) u hu
  have hmem : ∀ j < k, x (j + 1) ∈ S := fun j hj =>
    ((C36_objective P f h S hP 0).prox (Ls j) (x j) (P.grad (x j)) _ (hLs j hj).1 (hstep j hj)).1
  have hmono : ∀ j, 1 ≤ j → j ≤ k → F (x k) ≤ F (x j) := by
    intro j hj1 hjk
    obtain ⟨d, rfl⟩ : ∃ d, k = j + d := ⟨k - j, by omega⟩
    clear hk hone
    induction d with
    | zero => exact le_rfl
    | succ d ih =>
      have h1 := ih (fun i hi => hLs i (by omega)) (fun i hi => hstep i (by omega)) (fun i hi => hb i (by omega))
        (fun i hi => hmem i (by omega)) (by omega)
      obtain ⟨j', hj'⟩ : ∃ j', j + d = j' + 1 := ⟨j + d - 1, by omega⟩
      have h2 := C35_sufficient_decrease P f h S hP hh (Ls (j + d)) (hLs (j + d) (by omega)).1 _ _
        (by rw [hj']; exact hmem j' (by omega)) (hstep (j + d) (by omega)) (hb (j + d) (by omega))
      have h3 : 0 ≤ Ls (j + d) / 2 * sqDist (x (j + d + 1)) (x (j + d)) :=
        mul_nonneg (by have := (hLs (j + d) (by omega)).1; linarith) (sqDist_nonneg _ _)
      have : F (x (j + d + 1)) ≤ F (x (j + d)) := by simp only [hF]; linarith
      exact le_trans this h1
  have hk' : (0:ℝ) < k := by exact_mod_cast hk
  have hLpos : 0 < L := lt_of_lt_of_le (hLs 0 hk).1 (hLs 0 hk).2
  by_cases hneg : F (x k) - F u ≤ 0
  · refine le_trans hneg (div_nonneg (mul_nonneg hLpos.le (sqDist_nonneg _ _)) (by positivity))
  · push Not at hneg
    have hj : ∀ j < k, (F (x k) - F u) * 2 / L ≤ sqDist (x j) u - sqDist (x (j + 1)) u := by
      intro j hj
      have h1 := hone j hj
      have h2 := hmono (j + 1) (by omega) (by omega)
      obtain ⟨h3, h4⟩ := hLs j hj
      have h5 : 0 ≤ sqDist (x j) u - sqDist (x (j + 1)) u := by
        by_contra hc
        push Not at hc
        have : Ls j / 2 * (sqDist (x j) u - sqDist (x (j + 1)) u) < 0 := mul_neg_of_pos_of_neg (by linarith) hc
        linarith
      rw [div_le_iff₀ hLpos]
      nlinarith
    have hsum : ∀ m ≤ k, m * ((F (x k) - F u) * 2 / L) ≤ sqDist (x 0) u - sqDist (x m) u := by
      intro m
      induction m with
      | zero => intro _; simp
      | succ m ih =>
        intro hm
        have h1 := ih (by omega)
        have h2 := hj m (by omega)
        push_cast
        linarith
    have h6 := hsum k le_rfl
    have h7 := sqDist_nonneg (x k) u
    rw [le_div_iff₀ (by positivity)]
    have h8 : k * ((F (x k) - F u) * 2 / L) ≤ sqDist (x 0) u := by linarith
    have h9 : k * ((F (x k) - F u) * 2 / L) = (F (x k) - F u) * (2 * k) / L := by ring
    rw [h9, div_le_iff₀ hLpos] at h8
    linarith

/-! ## C35: the accelerated rate of the code's own iteration -/

private lemma next_mix {t t' : ℝ} (ht : 0 < t') (p c : Fin n → ℝ) (i : Fin n) :
    t' * (p i + ((t - 1) / t') * (p i - c i)) - (t' - 1) * p i = t * p i - (t - 1) * c i := by
  field_simp
  ring

/-- the potential argument: if every pass is a proximal gradient step with the quadratic upper bound, and the step never
grows after the first pass, the accelerated rate holds -/
private lemma rate_core (C : Composite n) (f h : (Fin n → ℝ) → ℝ) (S : Set (Fin n → ℝ)) (hC : IsProblemCore C f h S)
    (hf : ConvexWithGradient f C.grad) (hh : IsConvexFnOn h S) (a : FitArgs)
    (hm : a.monotonicityRestart = false) (hr : a.restart = none) (fuel : ℕ) (x0 : Fin n → ℝ)
    (u : Fin n → ℝ) (hu : Minimises (fun v => f v + h v) S u) (hist : List ObjVal) (s : State n) (step0 : Option ℝ)
    (hfit : fit C a step0 false fuel x0 = .ok hist s) (Q : ℕ → ℝ → Bool → Prop) (hQ0 : Q 0 (step0.getD a.startStep) false)
    (hQ : ∀ (s s1 : State n) (p : Fin n → ℝ), Q s.itercount s.step s.attempt → (s.itercount = 0 → s.weight = 1) →
      s.itercount < a.maxItsV → Mid C a s s1 p →
      0 < s1.step ∧ Q (s.itercount + 1) s1.step s1.attempt ∧ (s1.step ≤ s.step ∨ s.weight = 1) ∧
      IsProxStep (1 / s1.step) h S s1.working (C.grad s1.working) p ∧
      QuadraticUpperBound f (C.grad s1.working) (1 / s1.step) s1.working p)
    (k : ℕ) (r : Record n) (hrec : s.log[k]? = some r) :
    (f r.proposed + h r.proposed) - (f u + h u) ≤ 2 * sqDist x0 u / (r.step * (k + 2) ^ 2) := by
  let F : (Fin n → ℝ) → ℝ := fun v => f v + h v
  let Good : State n → Prop := fun s => ∀ (k : ℕ) (r : Record n), s.log[k]? = some r →
    F r.proposed - F u ≤ 2 * sqDist x0 u / (r.step * (k + 2) ^ 2)
  let Inv : State n → Prop := fun s => Q s.itercount s.step s.attempt ∧ (s.itercount = 0 → s.weight = 1) ∧
    s.log.length = s.itercount ∧ Good s ∧
    ((s.itercount : ℝ) + 2) / 2 ≤ s.weight ∧ (s.coefs ∈ S ∨ s.weight = 1) ∧
    s.weight * (s.weight - 1) * (F s.coefs - F u) * s.step +
      1 / 2 * sqDist (fun i => s.weight * s.working i - (s.weight - 1) * s.coefs i) u ≤ 1 / 2 * sqDist x0 u
  have hstepInv : ∀ (s s1 : State n) (p : Fin n → ℝ), Inv s → s.itercount < a.maxItsV → Mid C a s s1 p →
      0 < s1.step ∧ Q (s.itercount + 1) s1.step s1.attempt ∧ p ∈ S ∧
      s.weight ^ 2 * (F p - F u) * s1.step + 1 / 2 * sqDist (fun i => s.weight * p i - (s.weight - 1) * s.coefs i) u
        ≤ 1 / 2 * sqDist x0 u ∧
      F p - F u ≤ 2 * sqDist x0 u / (s1.step * (s.itercount + 2) ^ 2) := by
    intro s s1 p hI hlt hmid
    obtain ⟨h1, h2, h3, h4, h5, h6, h7⟩ := hI
    obtain ⟨hs1, hat, hle, hps, hbd⟩ := hQ s s1 p h1 h2 hlt hmid
    have hwork : s1.working = s.working := hmid.working' hr
    rw [hwork] at hps hbd
    have hw1 : 1 ≤ s.weight := by
      have : (0:ℝ) ≤ s.itercount := Nat.cast_nonneg _
      linarith
    have key := accel_ineq (one_div_pos.2 hs1) hw1 hf hh hps hbd hu.1 h6
    have hvp : 0 ≤ F p - F u := sub_nonneg.2 (hu.2 p hps.1)
    have hvc : 0 ≤ s.weight * (s.weight - 1) * (F s.coefs - F u) := by
      rcases h6 with h6 | h6
      · exact mul_nonneg (mul_nonneg (by linarith) (by linarith)) (sub_nonneg.2 (hu.2 _ h6))
      · rw [h6]; simp
    have key2 := mul_le_mul_of_nonneg_left key hs1.le
    have e1 : s1.step * (1 / s1.step / 2) = 1 / 2 := by field_simp
    have hE : s.weight ^ 2 * (F p - F u) * s1.step +
        1 / 2 * sqDist (fun i => s.weight * p i - (s.weight - 1) * s.coefs i) u ≤ 1 / 2 * sqDist x0 u := by
      have h8 : s1.step * (s.weight * (s.weight - 1) * (F s.coefs - F u)) ≤
          s.step * (s.weight * (s.weight - 1) * (F s.coefs - F u)) := by
        rcases hle with hle | hle
        · exact mul_le_mul_of_nonneg_right hle hvc
        · rw [hle]; simp
      rw [mul_add, mul_add, ← mul_assoc s1.step (1 / s1.step / 2), ← mul_assoc s1.step (1 / s1.step / 2), e1] at key2
      simp only [F] at h8 ⊢ h7
      linarith
    refine ⟨hs1, hat, hps.1, hE, ?_⟩
    have hw2 : (((s.itercount : ℝ) + 2) / 2) ^ 2 ≤ s.weight ^ 2 := by
      have : (0:ℝ) ≤ s.itercount := Nat.cast_nonneg _
      exact pow_le_pow_left₀ (by linarith) h5 2
    have hD := sqDist_nonneg (fun i => s.weight * p i - (s.weight - 1) * s.coefs i) u
    rw [le_div_iff₀ (by positivity)]
    have h9 : (((s.itercount : ℝ) + 2) / 2) ^ 2 * ((F p - F u) * s1.step) ≤ s.weight ^ 2 * ((F p - F u) * s1.step) :=
      mul_le_mul_of_nonneg_right hw2 (mul_nonneg hvp hs1.le)
    nlinarith
  have hlog : ∀ (s s1 : State n) (p : Fin n → ℝ) (l : List (Record n)), Inv s → s.itercount < a.maxItsV → Mid C a s s1 p →
      l = s1.log ++ [recordOf C s1 p] → ∀ (k : ℕ) (r : Record n), l[k]? = some r →
      F r.proposed - F u ≤ 2 * sqDist x0 u / (r.step * (k + 2) ^ 2) := by
    intro s s1 p l hI hlt hmid hl k r hkr
    rw [hl, hmid.log] at hkr
    rcases lt_trichotomy k s.log.length with hk | hk | hk
    · rw [List.getElem?_append_left hk] at hkr
      exact hI.2.2.2.1 k r hkr
    · rw [hk, List.getElem?_append_right le_rfl] at hkr
      simp at hkr
      obtain ⟨_, _, _, _, h5⟩ := hstepInv s s1 p hI hlt hmid
      rw [hk, hI.2.2.1, ← hkr]
      exact h5
    · have := (List.getElem?_eq_some_iff.1 hkr).1
      simp at this
      omega
  have key := fit_ind (C := C) (a := a) (fuel := fuel) (step := step0) (att := false) (x0 := x0) Inv Good
    ⟨hQ0, fun _ => rfl, rfl, fun k r h => by simp [startState] at h, by simp [startState], Or.inr rfl, by simp [startState]⟩
    (fun s s' s1 p hI hlt hmid hf' => by
      obtain ⟨g1, g2, g3, g4, g5⟩ := hstepInv s s1 p hI hlt hmid
      obtain ⟨i1, i2, i3, i4, i5⟩ := finish_next hf'
      rcases i5 with i5 | i5
      · have := i5.1.2.2.2
        rw [hm] at this
        cases this
      · obtain ⟨_, j1, j2, j3, j4, j5⟩ := i5
        have hw0 : 0 ≤ s.weight := by
          have h5 := hI.2.2.2.2.1
          have : (0:ℝ) ≤ s.itercount := Nat.cast_nonneg _
          linarith
        refine ⟨by rw [i4, j5, i3, hmid.itercount]; exact g2, fun h0 => by rw [i3] at h0; omega, ?_,
          hlog s s1 p _ hI hlt hmid i1, ?_, Or.inl (by rw [j1]; exact g3), ?_⟩
        · rw [i1, hmid.log, i3, hmid.itercount, ← hI.2.2.1]; simp
        · rw [i3, j4, hmid.weight, hmid.itercount]
          have h5 := hI.2.2.2.2.1
          have := nextWeight_growth hw0
          push_cast
          linarith
        · rw [j4, j1, j3, i4, hmid.weight, hmid.coefs, nextWeight_sq]
          have e : (fun i => nextWeight s.weight * nextWorking s.weight p s.coefs i - (nextWeight s.weight - 1) * p i) =
              fun i => s.weight * p i - (s.weight - 1) * s.coefs i := by
            funext i
            have := next_mix (t := s.weight) (lt_of_lt_of_le zero_lt_one (one_le_nextWeight s.weight)) p s.coefs i
            rw [← this]
            simp [nextWorking]
          rw [e]
          exact g4)
    (fun s s' s1 p hI hlt hmid hf' => by
      obtain ⟨i1, _⟩ := finish_stop hf'
      exact hlog s s1 p _ hI hlt hmid i1)
    (fun s hI _ => hI.2.2.2.1) hfit
  exact key.2 k r hrec

/-- **C35** (acceleration).  A run of `fit` with backtracking, no restarts and at most 99 passes (at pass 100 the code
tries a longer step) on a convex problem: the point proposed at pass `k` (from 0) with step size `step` satisfies
`F - F(u) ≤ 2‖x_0 - u‖² / (step (k+2)²)` for every minimiser `u`. -/
theorem C35_fista_rate (C : Composite n) (f h : (Fin n → ℝ) → ℝ) (S : Set (Fin n → ℝ)) (hC : IsProblemCore C f h S)
    (hf : ConvexWithGradient f C.grad) (hh : IsConvexFnOn h S) (a : FitArgs) (hb : a.performBacktrack = true)
    (ha : 1 ≤ a.alpha) (hm : a.monotonicityRestart = false) (hr : a.restart = none)
    (hmax : ∃ m, a.maxIts = some m ∧ m ≠ 0 ∧ m ≤ 99) (hstart : 0 < a.startStep) (fuel : ℕ) (x0 : Fin n → ℝ)
    (u : Fin n → ℝ) (hu : Minimises (fun v => f v + h v) S u) (hist : List ObjVal) (s : State n)
    (hfit : fit C a none false fuel x0 = .ok hist s) (k : ℕ) (r : Record n) (hrec : s.log[k]? = some r) :
    (f r.proposed + h r.proposed) - (f u + h u) ≤ 2 * sqDist x0 u / (r.step * (k + 2) ^ 2) := by
  have hmaxV : a.maxItsV ≤ 99 := by
    obtain ⟨m, h1, h2, h3⟩ := hmax
    unfold FitArgs.maxItsV
    rw [h1]
    cases m with
    | zero => exact absurd rfl h2
    | succ k => exact h3
  refine rate_core C f h S hC hf hh a hm hr fuel x0 u hu hist s none hfit (fun _ st at' => 0 < st ∧ at' = false)
    ⟨hstart, rfl⟩ ?_ k r hrec
  rintro s s1 p ⟨h1, h2⟩ _ hlt hmid
  have hst := hmid.step (fun _ => h1) (by linarith)
  obtain ⟨hle, hat⟩ := hmid.le hb h1 ha h2 (by omega)
  unfold StepOf at hst
  rw [if_pos hb] at hst
  obtain ⟨hs1, hp1, hp2⟩ := hst
  exact ⟨hs1, ⟨hs1, hat⟩, Or.inl hle, hC.prox _ _ _ _ (one_div_pos.2 hs1) hp1, bound_of_btStop' hC.smooth hf hp2⟩

/-- **C35** (acceleration, rate in terms of the problem).  If moreover the gradient is `M`-Lipschitz, the step size in
the bound can be replaced by `min(start_step, 1/(2 M alpha))`: the rate does not depend on the run. -/
theorem C35_fista_rate_lipschitz (C : Composite n) (f h : (Fin n → ℝ) → ℝ) (S : Set (Fin n → ℝ)) (hC : IsProblemCore C f h S)
    (hf : ConvexWithGradient f C.grad) (hh : IsConvexFnOn h S) (M : ℝ) (hM : 0 < M) (hfM : SmoothWith f C.grad M)
    (a : FitArgs) (hb : a.performBacktrack = true)
    (ha : 1 ≤ a.alpha) (hm : a.monotonicityRestart = false) (hr : a.restart = none)
    (hmax : ∃ m, a.maxIts = some m ∧ m ≠ 0 ∧ m ≤ 99) (hstart : 0 < a.startStep) (fuel : ℕ) (x0 : Fin n → ℝ)
    (u : Fin n → ℝ) (hu : Minimises (fun v => f v + h v) S u) (hist : List ObjVal) (s : State n)
    (hfit : fit C a none false fuel x0 = .ok hist s) (k : ℕ) (r : Record n) (hrec : s.log[k]? = some r) :
    (f r.proposed + h r.proposed) - (f u + h u) ≤
      2 * sqDist x0 u / (min a.startStep (1 / (2 * M * a.alpha)) * (k + 2) ^ 2) := by
  refine le_trans (C35_fista_rate C f h S hC hf hh a hb ha hm hr hmax hstart fuel x0 u hu hist s hfit k r hrec) ?_
  have hl := C33_step_bound C f h S hC M hM hfM a hb ha none hstart false fuel x0 hist s hfit r
    (List.mem_of_getElem? hrec)
  have h0 : 0 < min a.startStep (1 / (2 * M * a.alpha)) :=
    lt_min hstart (one_div_pos.2 (by have : 0 < a.alpha := by linarith
                                     positivity))
  apply div_le_div_of_nonneg_left (mul_nonneg (by norm_num) (sqDist_nonneg _ _))
  · positivity
  · exact mul_le_mul_of_nonneg_right hl (by positivity)

/-- **C35** (acceleration without backtracking, any number of passes).  With `perform_backtrack = False` and a value
`lipschitz` of the problem that really bounds the gradient's Lipschitz constant, the point proposed at pass `k` satisfies
`F - F(u) ≤ 2 L ‖x_0 - u‖² / (k+2)²` for every minimiser `u`, however long the run. -/
theorem C35_fista_rate_fixed (C : Composite n) (f h : (Fin n → ℝ) → ℝ) (S : Set (Fin n → ℝ)) (hC : IsProblemCore C f h S)
    (hf : ConvexWithGradient f C.grad) (hh : IsConvexFnOn h S) (hL : 0 < C.lipschitz)
    (hfM : SmoothWith f C.grad C.lipschitz) (a : FitArgs) (hb : a.performBacktrack = false)
    (hm : a.monotonicityRestart = false) (hr : a.restart = none) (ha : 0 < a.alpha) (step0 : Option ℝ) (fuel : ℕ)
    (x0 : Fin n → ℝ)
    (u : Fin n → ℝ) (hu : Minimises (fun v => f v + h v) S u) (hist : List ObjVal) (s : State n)
    (hfit : fit C a step0 false fuel x0 = .ok hist s) (k : ℕ) (r : Record n) (hrec : s.log[k]? = some r) :
    (f r.proposed + h r.proposed) - (f u + h u) ≤ 2 * C.lipschitz * sqDist x0 u / (k + 2) ^ 2 := by
  have hstep : ∀ (s s1 : State n) (p : Fin n → ℝ), Mid C a s s1 p → s1.step = 1 / C.lipschitz ∧
      C.proximal (stepQuad C.lipschitz s1.working (C.grad s1.working)) = some p := by
    intro s s1 p hmid
    have hst := hmid.step (fun h => by rw [hb] at h; cases h) ha
    unfold StepOf at hst
    rw [if_neg (by rw [hb]; simp)] at hst
    exact hst
  have h1 := rate_core C f h S hC hf hh a hm hr fuel x0 u hu hist s step0 hfit
    (fun k st _ => 0 < k → st = 1 / C.lipschitz) (fun h => absurd h (lt_irrefl 0)) (fun s s1 p hq hw hlt hmid => by
      obtain ⟨e1, e2⟩ := hstep s s1 p hmid
      have e3 : 1 / s1.step = C.lipschitz := by rw [e1]; field_simp
      refine ⟨by rw [e1]; positivity, fun _ => e1, ?_, ?_, ?_⟩
      · rcases Nat.eq_zero_or_pos s.itercount with h0 | h0
        · exact Or.inr (hw h0)
        · left; rw [e1, hq h0]
      · rw [e3]; exact hC.prox _ _ _ _ hL e2
      · rw [e3]; exact hfM.descent _ _) k r hrec
  have h2 : ∀ r ∈ s.log, r.step = 1 / C.lipschitz := by
    have key := fit_ind (C := C) (a := a) (fuel := fuel) (step := step0) (att := false) (x0 := x0)
      (fun s => ∀ r ∈ s.log, r.step = 1 / C.lipschitz) (fun s => ∀ r ∈ s.log, r.step = 1 / C.lipschitz)
      (fun r hr => by cases hr)
      (fun s s' s1 p hI hlt hmid hf' => by
        obtain ⟨i1, _⟩ := finish_next hf'
        intro r hr
        rw [i1, hmid.log, List.mem_append] at hr
        rcases hr with hr | hr
        · exact hI r hr
        · rw [List.mem_singleton] at hr; subst hr; exact (hstep s s1 p hmid).1)
      (fun s s' s1 p hI hlt hmid hf' => by
        obtain ⟨i1, _⟩ := finish_stop hf'
        intro r hr
        rw [i1, hmid.log, List.mem_append] at hr
        rcases hr with hr | hr
        · exact hI r hr
        · rw [List.mem_singleton] at hr; subst hr; exact (hstep s s1 p hmid).1)
      (fun s hI _ => hI) hfit
    exact key.2
  rw [h2 r (List.mem_of_getElem? hrec)] at h1
  refine le_trans h1 (le_of_eq ?_)
  field_simp

/-! ## Concrete problems -/

/-- `l1norm(lagrange=lam).solve(Q)` -/
private noncomputable def l1Solve (lam : ℝ) (Q : Quad (Fin (n + 1)) ℝ) : Option (Fin (n + 1) → ℝ) :=
  match seminormProximal (fun a L l => some (L1.lagrangeProx a L l)) L1.boundProx (.lagrange lam) none
      (Quad.init (some 0) (some (.scalar 0)) (some (.scalar 0)) (some 0)) (some Q) with
  | .ok p => some p
  | _ => none

/-- `simple_problem(least squares, l1norm)` -/
private noncomputable def lasso (y : Fin (n + 1) → ℝ) (lam : ℝ) (x0 : Fin (n + 1) → ℝ) : SimpleProblem (n + 1) :=
  { smooth := fun x => .num (∑ i, (x i - y i) ^ 2 / 2), grad := fun x i => x i - y i
    smoothQuad := Quad.init none none none none, atomSolve := l1Solve lam
    atomNonsmooth := fun x _ => .num (lam * ∑ i, |x i|), quadratic := Quad.init none none none none, coefs := x0 }

private lemma l1_solves (lam : ℝ) (hl : 0 ≤ lam) :
    AtomSolves (n := n + 1) (l1Solve lam) (fun x => lam * ∑ i, |x i|) Set.univ := by
  intro Q z hQ hz
  unfold l1Solve at hz
  cases hs : seminormProximal (fun a L l => some (L1.lagrangeProx a L l)) L1.boundProx (.lagrange lam) none
      (Quad.init (some 0) (some (.scalar 0)) (some (.scalar 0)) (some 0)) (some Q) with
  | ok p =>
    rw [hs] at hz
    injection hz with hz
    subst hz
    have := C10_l1norm lam hl none _ (some Q) p (by simpa [Quad.init, quadCoef] using hQ) hs
    refine ⟨this.1, fun u hu hne => ?_⟩
    have h1 := this.2 u hu hne
    have hzero : ∀ v : Fin (n + 1) → ℝ, quadVal (some (Quad.init (some 0) (some (.scalar 0)) (some (.scalar 0)) (some 0) : Quad (Fin (n + 1)) ℝ)) v = 0 := by
      intro v
      simp [quadVal, quadFn, Quad.init, denote, dot]
    simp only [hzero, denote, sub_zero, add_zero] at h1
    simp only [fv]
    exact h1
  | valueError => rw [hs] at hz; cases hz
  | typeError => rw [hs] at hz; cases hz
  | scalarArgument => rw [hs] at hz; cases hz
  | baseError => rw [hs] at hz; cases hz

/-- concrete case: the lasso in any dimension meets the hypotheses of C34, C35 and C36 (the proximal step exists at
every point and every step). -/
example (y x0 : Fin (n + 1) → ℝ) (lam : ℝ) (hl : 0 ≤ lam) :
    IsSimple (lasso y lam x0) (fun x => ∑ i, (x i - y i) ^ 2 / 2) (fun x => lam * ∑ i, |x i|) Set.univ ∧
    IsConvexFnOn (fun x : Fin (n + 1) → ℝ => lam * ∑ i, |x i|) Set.univ :=
  ⟨⟨fun _ => rfl, fun _ _ _ => rfl, fun x hx => absurd (Set.mem_univ x) hx, l1_solves lam hl, le_rfl, le_rfl⟩,
   fun x _ z _ a b ha hb hab => ⟨Set.mem_univ _, by
    have : ∑ i, |a * x i + b * z i| ≤ a * ∑ i, |x i| + b * ∑ i, |z i| := by
      rw [Finset.mul_sum, Finset.mul_sum, ← Finset.sum_add_distrib]
      refine Finset.sum_le_sum fun i _ => le_trans (abs_add_le _ _) ?_
      rw [abs_mul, abs_mul, abs_of_nonneg ha, abs_of_nonneg hb]
    calc lam * ∑ i, |a * x i + b * z i| ≤ lam * (a * ∑ i, |x i| + b * ∑ i, |z i|) := mul_le_mul_of_nonneg_left this hl
      _ = _ := by ring⟩⟩

/-- **C36 fails for a call that raises**: on the lasso, `solve(identity_quadratic(-1, ...))` makes the first proximal
step raise ValueError (total coefficient 0), and the quadratic of the problem keeps the added part. -/
theorem C36_raise_fails :
    ∃ (P : SimpleProblem 1) (f h : (Fin 1 → ℝ) → ℝ) (q : Quad (Fin 1) ℝ), IsSimple P f h Set.univ ∧
      ∀ fuel, (P.solve (some q) {} 0 (fuel + 1)).1 = .raised ∧
        P.quadratic.coef = 0 ∧ (P.solve (some q) {} 0 (fuel + 1)).2.quadratic.coef = -1 := by
  refine ⟨lasso (fun _ => 1) 1 (fun _ => 0), _, _, Quad.init (some (-1)) none none none,
    ⟨fun _ => rfl, fun _ _ _ => rfl, fun x hx => absurd (Set.mem_univ x) hx, l1_solves 1 zero_le_one, le_rfl, le_rfl⟩, ?_⟩
  intro fuel
  set P1 : SimpleProblem 1 := { lasso (fun _ => 1) 1 (fun _ => 0) with
    quadratic := (lasso (n := 0) (fun _ => 1) 1 (fun _ => 0)).quadratic.add (some (Quad.init (some (-1)) none none none)) } with hP1
  have hprox : ∀ w g : Fin 1 → ℝ, (P1.composite 0).proximal (stepQuad (1 / 1) w g) = none := by
    intro w g
    show l1Solve 1 _ = none
    unfold l1Solve seminormProximal
    simp only [Quad.recenter]
    rw [if_pos]
    show (0:ℝ) + (((1 / 1 : ℝ) + 0) + (0 + -1)) = 0
    norm_num
  have hfit : ∃ s, Fista.fit (P1.composite 0) {} none false (fuel + 1) (fun _ => 0) = .proxError s := by
    have hbt : backtrack (P1.composite 0) (11 / 10) (fuel + 1) 0 (fun _ => 0) 1 false = .proxError := by
      unfold backtrack
      rw [if_neg (by decide)]
      unfold btLoop
      rw [hprox]
    have hso : ∃ r, startObj (P1.composite 0) (fun _ => 0) = .num r := ⟨_, rfl⟩
    obtain ⟨r, hso⟩ := hso
    unfold Fista.fit
    rw [hso]
    simp only
    unfold Fista.loop
    rw [if_pos (by show 0 < 10000; omega)]
    unfold Fista.pass
    simp only
    rw [if_pos trivial]
    have hbt' : backtrack (P1.composite 0) (11 / 10) (fuel + 1)
        (prepare {} (startState (P1.composite 0) {} none false (fun _ => 0))).itercount
        (prepare {} (startState (P1.composite 0) {} none false (fun _ => 0))).working
        (prepare {} (startState (P1.composite 0) {} none false (fun _ => 0))).step
        (prepare {} (startState (P1.composite 0) {} none false (fun _ => 0))).attempt = .proxError := hbt
    rw [hbt']
    exact ⟨_, rfl⟩
  obtain ⟨s, hfit⟩ := hfit
  have hsolve : (lasso (n := 0) (fun _ => 1) 1 (fun _ => 0)).solve (some (Quad.init (some (-1)) none none none)) {} 0 (fuel + 1)
      = (.raised, { P1 with coefs := s.coefs }) := by
    unfold SimpleProblem.solve
    simp only
    have : Fista.fit (SimpleProblem.composite P1 0) {} none false (fuel + 1)
        (lasso (n := 0) (fun _ => 1) 1 (fun _ => 0)).coefs = .proxError s := hfit
    rw [← hP1, this]
  rw [hsolve]
  refine ⟨rfl, rfl, ?_⟩
  show (0:ℝ) + -1 = -1
  norm_num

end Verif.Props
