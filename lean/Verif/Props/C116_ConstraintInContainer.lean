import Verif.Model.ConeContainer
import Verif.Props.C101_Cones
import Verif.Props.C114_NearlyIsotonic
import Verif.Props.C20_Slope

/-!
# C116: constraints beside penalties in a container; isotonic regression as a program
-/

set_option linter.unusedSectionVars false
set_option linter.unusedVariables false

namespace Verif.Props
open Verif.Model Verif.Spec

variable {n k k₁ k₂ : ℕ}

private lemma conj_coef (a : ConeObj k) (hq : a.quad.coef = 0) : ∃ a', a.getConjugate = .cone a' ∧ a'.klass = a.klass.conj ∧ a'.quad.coef = 0 := by
  refine ⟨ConeObj.new a.klass.conj (workOutConjugate a.offset a.quad).1 (some (workOutConjugate a.offset a.quad).2), ?_, rfl, rfl⟩
  unfold ConeObj.getConjugate; rw [if_pos hq]

/-- **C116** `cls.affine(D, α, quadratic=q)` and `cls.linear(D)` of the cone classes (without the l2 epigraph and its polar, see C101) are
members of containers to which the theorems about `proximal` apply: the dual pair represents the constraint `D x + α ∈ cone` plus
`q(D x)`, its atom is convex with a correct proximal map, and the atom used when no dual problem is solved has the proximal map of
`z + α ∈ cone` plus `q(z)`. -/
theorem C116_cone_member_partial (c : ConeKlass) (h2 : NotL2 c) (hk : HasVector c k) (T l : Aff ℝ n (k + 1)) (hl : T.asOperator = some l)
    (hT : distinctSelectors l) (hoff : l.off = .none) (α : Option (PyVec (Fin (k + 1)) ℝ)) (hα : ∀ s, α ≠ some (.scalar s))
    (q : Option (Quad (Fin (k + 1)) ℝ)) (hq : ∀ q', q = some q' → q'.coef = 0) :
    ∃ A dual prox value, ConeObj.affine c T α q = some A ∧ A.toCont = some ⟨k + 1, l, dual, prox, value⟩ ∧
      (∀ x cf, value x cf = (A.nonsmoothObjective x cf).getD ⊤) ∧
      AtomCorrect prox (constrainedFn c (fun z => z) (denote α) (quadArg q)) ∧
      ∃ pen, AtomCorrect dual.proximal pen ∧ ConvexTop pen ∧ Represents l.lin pen (constrainedFn c T.lin (denote α) (quadArg q)) := by
  obtain ⟨A, D, g, e1, e2, e0, -, -, e3, e4, e5, e6⟩ := C101_dual c T l hl hoff α hα q hq
  obtain ⟨A', k1, k2, k3, k4, k5⟩ := affine_cone_denotes c T l hl hoff α q hq
  rw [e1, Option.some_inj] at k1
  subst k1
  obtain ⟨g', g'', f1, f2, f3, f4⟩ := C101_involution A.cone.copy k3
  have f1' : A.cone.copy.getConjugate = .cone g := congrArg Prod.snd e2
  rw [f1] at f1'
  injection f1' with f1'
  subst f1'
  have hn : NotL2 g'.klass := by
    rw [e3]; cases c <;> simp_all [NotL2, ConeKlass.conj]
  have hv : HasVector g'.klass k := by
    rw [e3]; cases c <;> simp_all [HasVector, ConeKlass.conj]
  have f5 : g''.quad.coef = 0 := by
    obtain ⟨g2, h1, -, h3⟩ := conj_coef g' e4
    rw [f2] at h1
    injection h1 with h1
    rw [h1]; exact h3
  subst e0
  refine ⟨A, g'.asDual, g''.proximal, fun x cf => (A.nonsmoothObjective x cf).getD ⊤, e1, ?_, fun _ _ => rfl, ?_, denoteCone g',
    (C101_proximal_partial g' hn hv e4).1, e5, e6⟩
  · unfold AffCone.toCont
    rw [e2]
    dsimp only
    rw [f2]
  · rw [← k5, ← f4]
    exact (C101_proximal_partial g'' (by rw [f3, k4]; exact h2) (by rw [f3, k4]; exact hk) f5).1

/-- **C116** A penalty and a constraint together: `container(loss, cls1.affine(D1, α1, lagrange or bound), cls2.affine(D2, α2))` with a
seminorm class and a cone class is built, and `proximal`, with an inner solver `fit` that reaches the dual optimum up to `δ`, returns a point
within squared distance `2 δ / coef` of the one minimiser of the quadratic plus the penalty over the feasible set (`constrainedFn` is `⊤`
elsewhere); an exact inner solver gives that minimiser.  Missing: a bound on `δ` for the inner FISTA run; quadratic terms of the loss
(C69). -/
theorem C116_penalty_and_constraint_partial (c1 : Klass) (b : Bool) (r : ℝ) (hr : 0 ≤ r) (T₁ l₁ : Aff ℝ n (k₁ + 1))
    (hl₁ : T₁.asOperator = some l₁) (hT₁ : distinctSelectors T₁) (hoff₁ : l₁.off = .none) (α₁ : Option (PyVec (Fin (k₁ + 1)) ℝ))
    (hα₁ : ∀ s, α₁ ≠ some (.scalar s)) (c2 : ConeKlass) (h2 : NotL2 c2) (hk : HasVector c2 k₂) (T₂ l₂ : Aff ℝ n (k₂ + 1))
    (hl₂ : T₂.asOperator = some l₂) (hT₂ : distinctSelectors l₂) (hoff₂ : l₂.off = .none) (α₂ : Option (PyVec (Fin (k₂ + 1)) ℝ))
    (hα₂ : ∀ s, α₂ ≠ some (.scalar s)) (loss : ContSmooth n) (hloss : NoQuadratic loss.quad) :
    ∃ A₁ A₂ a₁ a₂ C, AtomObj.affine c1 T₁ α₁ (modeArgs b r).1 (modeArgs b r).2 none = some A₁ ∧ A₁.toCont = some a₁ ∧
      ConeObj.affine c2 T₂ α₂ none = some A₂ ∧ A₂.toCont = some a₂ ∧
      Container.init [.smooth loss, .nonsmooth a₁, .nonsmooth a₂] = .ok C ∧
      ∀ (q : Quad (Fin n) ℝ) (u v : PyVec (Fin n) ℝ), 0 < q.coef → q.center = some u → q.linear = some v →
        ∃ V G P, Evaluates (C.dualProblem q).fc V G ∧ AtomCorrect (C.dualProblem q).atom.proximal P ∧ ConvexTop P ∧
          ∀ (fit : (l : ℕ) → DualProblem n l → Fin l → ℝ) (ustar : Fin C.stack.1 → ℝ) (dstar δ : ℝ),
            IsMinTop (dualFn V (C.dualProblem q).T.adj P) ustar →
            dualFn V (C.dualProblem q).T.adj P ustar = ((dstar : ℝ) : WithTop ℝ) →
            dualFn V (C.dualProblem q).T.adj P (fit _ (C.dualProblem q)) ≤ ((dstar + δ : ℝ) : WithTop ℝ) →
            ∃ p x, C.proximal fit q = .ok p ∧
              IsUniqueMinTop (fun z => quadTop q z + (composedFn c1 b r T₁.lin (denote α₁) (fun _ => 0) z +
                constrainedFn c2 T₂.lin (denote α₂) (fun _ => 0) z)) x ∧
              q.coef / 2 * sqDist x p ≤ δ ∧ (δ ≤ 0 → p = x) := by
  obtain ⟨A₁, D, dual, prox, value, e1, e2, e3, -, -, pen₁, e4, e5, e6⟩ := C69_seminorm_member c1 b r hr T₁ l₁ hl₁ hT₁ hoff₁ α₁ hα₁ none (by simp)
  obtain ⟨A₂, dual₂, prox₂, value₂, f1, f2, -, -, pen₂, f4, f5, f6⟩ := C116_cone_member_partial c2 h2 hk T₂ l₂ hl₂ hT₂ hoff₂ α₂ hα₂ none (by simp)
  refine ⟨A₁, A₂, _, _, ⟨[⟨k₁ + 1, D, dual, prox, value⟩, ⟨k₂ + 1, l₂, dual₂, prox₂, value₂⟩], [loss], Quad.init none none none none⟩, e1, e2, f1,
    f2, rfl, fun q u v hq hu hv => ?_⟩
  have z1 : (quadArg none : (Fin (k₁ + 1) → ℝ) → ℝ) = fun _ => 0 := rfl
  have z2 : (quadArg none : (Fin (k₂ + 1) → ℝ) → ℝ) = fun _ => 0 := rfl
  rw [z1] at e6
  rw [z2] at f6
  obtain ⟨V, G, P, a1, a2, a3, a4⟩ := C69_proximal_partial
    (⟨[⟨k₁ + 1, D, dual, prox, value⟩, ⟨k₂ + 1, l₂, dual₂, prox₂, value₂⟩], [loss], Quad.init none none none none⟩ : Container n)
    (fun i => match i with | ⟨0, _⟩ => pen₁ | ⟨1, _⟩ => pen₂)
    (fun i => match i with | ⟨0, _⟩ => composedFn c1 b r T₁.lin (denote α₁) (fun _ => 0) | ⟨1, _⟩ => constrainedFn c2 T₂.lin (denote α₂) (fun _ => 0))
    (fun i => match i with | ⟨0, _⟩ => e3 | ⟨1, _⟩ => hT₂) (fun i => match i with | ⟨0, _⟩ => e4 | ⟨1, _⟩ => f4)
    (fun i => match i with | ⟨0, _⟩ => e5 | ⟨1, _⟩ => f5) (fun i => match i with | ⟨0, _⟩ => e6 | ⟨1, _⟩ => f6)
    ⟨⟨rfl, fun i => rfl⟩, fun a ha => by rw [List.mem_singleton] at ha; subst ha; exact hloss⟩ q hq u v hu hv rfl
  refine ⟨V, G, P, a1, a2, a3, fun fit ustar dstar δ b1 b2 b3 => ?_⟩
  obtain ⟨p, x, g1, g2, g3⟩ := a4 fit ustar dstar δ b1 b2 b3
  refine ⟨p, x, g1, ?_, g3⟩
  have e : (fun z => quadTop q z + (composedFn c1 b r T₁.lin (denote α₁) (fun _ => 0) z + constrainedFn c2 T₂.lin (denote α₂) (fun _ => 0) z)) =
      fun z => quadTop q z + ∑ i : Fin 2, (match i with
        | ⟨0, _⟩ => composedFn c1 b r T₁.lin (denote α₁) (fun _ => 0)
        | ⟨1, _⟩ => constrainedFn c2 T₂.lin (denote α₂) (fun _ => 0) : (Fin n → ℝ) → WithTop ℝ) z := by
    funext z
    rw [Fin.sum_univ_two]
  rw [e]; exact g2

/-- **C116** A cone object itself, with any array offset and any linear and constant term, is a member of containers to which the theorems about
`proximal` apply, with the identity as transform. -/
theorem C116_cone_pair_partial (a : ConeObj k) (h2 : NotL2 a.klass) (hk : HasVector a.klass k) (hq : a.quad.coef = 0) (ho : ConeArrayOffset a) :
    ∃ dual prox value, a.toCont = some ⟨k + 1, .identity, dual, prox, value⟩ ∧ (∀ x cf, value x cf = (a.nonsmoothObjective x cf).getD ⊤) ∧
      AtomCorrect prox (denoteCone a) ∧ ∃ pen, AtomCorrect dual.proximal pen ∧ ConvexTop pen ∧ Represents (fun z => z) pen (denoteCone a) := by
  obtain ⟨D, g, d1, d2, -, d3, d4, d5, d6⟩ := C101_cone_dual a hq ho
  obtain ⟨g1, g', e1, e2, e3, e4⟩ := C101_involution a hq
  have f1 : a.getConjugate = .cone g := congrArg Prod.snd d1
  rw [e1] at f1
  injection f1 with f1
  subst f1
  have hD : D = .identity := (congrArg Prod.fst d1).symm
  subst hD
  obtain ⟨g2, h0, -, h3⟩ := conj_coef g1 d4
  rw [e2] at h0
  injection h0 with h0
  subst h0
  have hn : NotL2 g1.klass := by
    obtain ⟨c, o, q⟩ := a
    rw [d3]; cases c <;> simp_all [NotL2, ConeKlass.conj]
  have hv : HasVector g1.klass k := by
    obtain ⟨c, o, q⟩ := a
    rw [d3]; cases c <;> simp_all [HasVector, ConeKlass.conj]
  refine ⟨g1.asDual, g'.proximal, fun x cf => (a.nonsmoothObjective x cf).getD ⊤, ?_, fun _ _ => rfl, ?_, denoteCone g1,
    (C101_proximal_partial g1 hn hv d4).1, d5, d6⟩
  · unfold ConeObj.toCont
    rw [d1]
    dsimp only
    rw [e2]
  · rw [← e4]
    exact (C101_proximal_partial g' (by rw [e3]; exact h2) (by rw [e3]; exact hk) h3).1

/-- **C116** A cone object itself (`nonnegative(shape)`, ...), with any array offset and any linear and constant term, beside a loss: no dual problem
is solved, and what `proximal` returns is the one minimiser of all quadratics (that of the argument, of the container and of the loss) plus the
function of the cone. -/
theorem C116_cone_itself_partial (a : ConeObj k) (h2 : NotL2 a.klass) (hk : HasVector a.klass k) (hq : a.quad.coef = 0) (loss : ContSmooth (k + 1)) :
    ∃ m C, a.toCont = some m ∧ Container.init [.smooth loss, .nonsmooth m] = .ok C ∧
      ∀ (fit : (l : ℕ) → DualProblem (k + 1) l → Fin l → ℝ) (q : Quad (Fin (k + 1)) ℝ) (p : Fin (k + 1) → ℝ),
        0 < q.coef + loss.quad.coef → C.proximal fit q = .ok p →
        IsUniqueMinTop (fun z => ((quadVal (some q) z + quadVal (some loss.quad) z : ℝ) : WithTop ℝ) + denoteCone a z) p := by
  obtain ⟨g, g', e1, e2, e3, e4⟩ := C101_involution a hq
  obtain ⟨g0, h0, -, h1⟩ := conj_coef a hq
  rw [e1] at h0
  injection h0 with h0
  subst h0
  obtain ⟨g1, h0, -, h3⟩ := conj_coef g h1
  rw [e2] at h0
  injection h0 with h0
  subst h0
  have ec : a.toCont = some ⟨k + 1, .identity, g.asDual, g'.proximal, fun x cf => (a.nonsmoothObjective x cf).getD ⊤⟩ := by
    unfold ConeObj.toCont ConeObj.dual
    rw [e1]
    dsimp only
    rw [e2]
  refine ⟨_, ⟨[_], [loss], Quad.init none none none none⟩, ec, rfl, fun fit q p hpos hp => ?_⟩
  have h := C69_proximal_identity _ g.asDual g'.proximal (fun x cf => (a.nonsmoothObjective x cf).getD ⊤) rfl (denoteCone g')
    (C101_proximal_partial g' (by rw [e3]; exact h2) (by rw [e3]; exact hk) h3).1 fit q
    (by
      show 0 < q.coef + (Quad.init none none none none : Quad (Fin (k + 1)) ℝ).coef + sumOf [loss] fun a => a.quad.coef
      simpa [sumOf, Quad.init] using hpos) p hp
  rw [e4] at h
  have e : ∀ z, allQuadratics (⟨[⟨k + 1, .identity, g.asDual, g'.proximal, fun x cf => (a.nonsmoothObjective x cf).getD ⊤⟩], [loss],
      Quad.init none none none none⟩ : Container (k + 1)) q z = quadVal (some q) z + quadVal (some loss.quad) z := by
    intro z
    unfold allQuadratics
    simp [sumOf, quadVal, quadFn, Quad.init, denote, dot]
  have ef : (fun z => ((quadVal (some q) z + quadVal (some loss.quad) z : ℝ) : WithTop ℝ) + denoteCone a z) = fun z =>
      ((allQuadratics (⟨[⟨k + 1, .identity, g.asDual, g'.proximal, fun x cf => (a.nonsmoothObjective x cf).getD ⊤⟩], [loss],
        Quad.init none none none none⟩ : Container (k + 1)) q z : ℝ) : WithTop ℝ) + denoteCone a z := funext fun z => by rw [e]
  rw [ef]; exact h

/-- a nonnegative lasso-type member: `nonnegative` with a linear term -/
example : NotL2 (ConeObj.new (k := 1) .nonnegative none (some ⟨0, none, some (.arr ![1, 2]), 0⟩)).klass ∧
    HasVector (ConeObj.new (k := 1) .nonnegative none (some ⟨0, none, some (.arr ![1, 2]), 0⟩)).klass 1 ∧
    (ConeObj.new (k := 1) .nonnegative none (some ⟨0, none, some (.arr ![1, 2]), 0⟩)).quad.coef = 0 :=
  ⟨by simp [NotL2, ConeObj.new], Or.inl rfl, rfl⟩

/-! ### isotonic regression -/

lemma rise_lin (x : Fin (k + 2) → ℝ) (i : Fin (k + 1)) : (Aff.matrix (riseMatrix k) none).lin x i = x i.succ - x i.castSucc := by
  show ∑ j, riseMatrix k i j * x j = _
  unfold riseMatrix
  simp [sub_mul, Finset.sum_sub_distrib]

lemma rise_mem (x : Fin (k + 2) → ℝ) :
    (fun i => (Aff.matrix (riseMatrix k) none).lin x i + denote (none : Option (PyVec (Fin (k + 1)) ℝ)) i) ∈ coneOf (k := k) .nonnegative ↔ Monotone x := by
  rw [Fin.monotone_iff_le_succ]
  have : ∀ i, (Aff.matrix (riseMatrix k) none).lin x i + denote (none : Option (PyVec (Fin (k + 1)) ℝ)) i = x i.succ - x i.castSucc := by
    intro i; rw [rise_lin]; exact add_zero _
  constructor
  · intro h i
    have h1 : 0 ≤ (Aff.matrix (riseMatrix k) none).lin x i + denote (none : Option (PyVec (Fin (k + 1)) ℝ)) i := h i
    rw [this] at h1; linarith
  · intro h i
    show 0 ≤ (Aff.matrix (riseMatrix k) none).lin x i + denote (none : Option (PyVec (Fin (k + 1)) ℝ)) i
    rw [this]; have := h i; linarith

/-- the program of `doc/examples/isotonic.py`: loss, constraint, container -/
def IsIsotonicProgram (c : ℝ) (Y : Fin (k + 2) → ℝ) (C : Container (k + 2)) : Prop :=
  ∃ (s : QuadObj (k + 2)) (A : AffCone (k + 2) k) (a : ContAtom (k + 2)), signalApproximator Y c = some s ∧
    ConeObj.affine .nonnegative (.matrix (riseMatrix k) none) none none = some A ∧ A.toCont = some a ∧
    Container.init [.smooth ⟨s.toLoss.obj, s.toLoss.quad⟩, .nonsmooth a] = .ok C

/-- **C116** Isotonic regression as a program: `container(signal_approximator(Y, c), nonnegative.linear(D))` with `D` the first differences
exists, and `proximal(identity_quadratic(c, Y, 0, 0))`, with an inner solver that reaches the dual optimum up to `δ`, returns a point within
squared distance `2 δ / c` of the fit computed by the routine of pool adjacent violators of the same library; an exact inner solver gives
exactly that fit.  Missing: a bound on `δ` for the inner FISTA run (given in C117 without monotonicity restarts). -/
theorem C116_isotonic_partial {c : ℝ} (hc : 0 < c) (Y : Fin (k + 2) → ℝ) (fuel : ℕ) (hf : k + 2 < fuel) :
    (∃ C, IsIsotonicProgram c Y C) ∧ ∃ s, Slope.isoPy fuel Y = some s ∧ Monotone s ∧
      ∀ (C : Container (k + 2)), IsIsotonicProgram c Y C → ∀ (q : Quad (Fin (k + 2)) ℝ), q = ⟨c, some (.arr Y), some (.scalar 0), 0⟩ →
        ∃ V G P, Evaluates (C.dualProblem q).fc V G ∧ AtomCorrect (C.dualProblem q).atom.proximal P ∧ ConvexTop P ∧
          ∀ (fit : (l : ℕ) → DualProblem (k + 2) l → Fin l → ℝ) (ustar : Fin C.stack.1 → ℝ) (dstar δ : ℝ),
            IsMinTop (dualFn V (C.dualProblem q).T.adj P) ustar →
            dualFn V (C.dualProblem q).T.adj P ustar = ((dstar : ℝ) : WithTop ℝ) →
            dualFn V (C.dualProblem q).T.adj P (fit _ (C.dualProblem q)) ≤ ((dstar + δ : ℝ) : WithTop ℝ) →
            ∃ p, C.proximal fit q = .ok p ∧ c / 2 * sqDist s p ≤ δ ∧ (δ ≤ 0 → p = s) := by
  classical
  obtain ⟨A, dual, prox, value, e1, e2, -, -, pen, e3, e4, e5⟩ := C116_cone_member_partial (n := k + 2) (k := k) .nonnegative
    (by simp [NotL2]) (Or.inl rfl) (.matrix (riseMatrix k) none) _ rfl (by simp [distinctSelectors]) rfl none (by simp) none (by simp)
  obtain ⟨s, hs⟩ : ∃ s, signalApproximator Y c = some s ∧ NoQuadratic s.toLoss.quad := by
    obtain ⟨s, G, h, h0, -⟩ := signalLoss_built hc Y
    exact ⟨s, h, by rw [h0]; exact ⟨rfl, fun i => rfl⟩⟩
  obtain ⟨t, ht, hmono, hbest⟩ := Verif.Props.C20_isoPy (K := ℝ) fuel hf Y
  refine ⟨⟨_, s, A, _, hs.1, e1, e2, rfl⟩, t, ht, hmono, ?_⟩
  rintro C ⟨s', B, a, hs', hB, ha, hC⟩ q hq
  rw [hs.1, Option.some_inj] at hs'
  subst hs'
  rw [e1, Option.some_inj] at hB
  subst hB
  rw [e2, Option.some_inj] at ha
  subst ha
  have hC' : C = ⟨[⟨k + 1, .matrix (riseMatrix k) none, dual, prox, value⟩], [⟨s.toLoss.obj, s.toLoss.quad⟩], Quad.init none none none none⟩ := by
    injection hC with hC; exact hC.symm
  subst hC'
  obtain ⟨V, G, P, a1, a2, a3, a4⟩ := C69_proximal_partial
    (⟨[⟨k + 1, .matrix (riseMatrix k) none, dual, prox, value⟩], [⟨s.toLoss.obj, s.toLoss.quad⟩], Quad.init none none none none⟩ : Container (k + 2))
    (fun i => match i with | ⟨0, _⟩ => pen)
    (fun _ => constrainedFn .nonnegative (Aff.matrix (riseMatrix k) none).lin (denote none) (quadArg none))
    (fun i => match i with | ⟨0, _⟩ => (by simp [distinctSelectors])) (fun i => match i with | ⟨0, _⟩ => e3)
    (fun i => match i with | ⟨0, _⟩ => e4) (fun i => match i with | ⟨0, _⟩ => e5)
    ⟨⟨rfl, fun i => rfl⟩, fun a ha => by rw [List.mem_singleton] at ha; subst ha; exact hs.2⟩ q (by rw [hq]; exact hc)
    (.arr Y) (.scalar 0) (by rw [hq]) (by rw [hq]) rfl
  refine ⟨V, G, P, a1, a2, a3, fun fit ustar dstar δ b1 b2 b3 => ?_⟩
  obtain ⟨p, x, g1, g2, g3, g4⟩ := a4 fit ustar dstar δ b1 b2 b3
  have hquad : ∀ z, quadTop q z = ((c / 2 * ∑ j, (z j - Y j) ^ 2 : ℝ) : WithTop ℝ) := by
    intro z
    rw [hq]
    unfold quadTop
    congr 1
    show quadFn c (denote (some (.arr Y))) (denote (some (PyVec.scalar 0))) 0 z = _
    unfold quadFn
    have : denote (some (PyVec.scalar (0:ℝ)) : Option (PyVec (Fin (k + 2)) ℝ)) = fun _ => 0 := rfl
    rw [this]
    simp only [dot, zero_mul, Finset.sum_const_zero, add_zero]
    rfl
  have hval : ∀ z, quadTop q z + ∑ i : Fin 1, constrainedFn .nonnegative (Aff.matrix (riseMatrix k) none).lin (denote none) (quadArg none) z =
      if Monotone z then ((c / 2 * ∑ j, (z j - Y j) ^ 2 : ℝ) : WithTop ℝ) else ⊤ := by
    intro z
    rw [Fin.sum_univ_one, hquad]
    unfold constrainedFn
    by_cases hz : Monotone z
    · rw [if_pos ((rise_mem z).2 hz), if_pos hz]; simp [quadArg]
    · rw [if_neg (fun h => hz ((rise_mem z).1 h)), if_neg hz]; simp
  have hx : x = t := by
    by_contra hne
    have hxm : Monotone x := by
      by_contra hn
      have := g2.1
      have e := hval x
      rw [if_neg hn] at e
      exact this e
    have h1 := g2.2 t (fun e => hne e.symm)
    have h2 : ((c / 2 * ∑ j, (x j - Y j) ^ 2 : ℝ) : WithTop ℝ) < ((c / 2 * ∑ j, (t j - Y j) ^ 2 : ℝ) : WithTop ℝ) := by
      have e1 := hval x
      have e2 := hval t
      rw [if_pos hxm] at e1
      rw [if_pos hmono] at e2
      rw [← e1, ← e2]; exact h1
    have h3 := WithTop.coe_lt_coe.1 h2
    have h4 := hbest x hxm hne
    have e3 : ∀ w : Fin (k + 2) → ℝ, ∑ j, (w j - Y j) ^ 2 = ∑ j, (Y j - w j) ^ 2 := fun w => Finset.sum_congr rfl fun j _ => by ring
    rw [e3, e3] at h3
    nlinarith
  subst hx
  exact ⟨p, g1, by rw [hq] at g3; exact g3, g4⟩

/-- **C116** The `objective` of that container: without the feasibility check it is `c/2 ‖x - Y‖²`; with the check it is the same at every
nondecreasing `x`, and a point with a finite checked value has that value and rises that are at least `-10⁻⁵` times the largest of 1 and the
rises in absolute value. -/
theorem C116_objective {c : ℝ} (hc : 0 < c) (Y : Fin (k + 2) → ℝ) (C : Container (k + 2)) (hC : IsIsotonicProgram c Y C) (x : Fin (k + 2) → ℝ) :
    C.objective x false = some ((c / 2 * ∑ j, (x j - Y j) ^ 2 : ℝ) : WithTop ℝ) ∧
    (Monotone x → C.objective x true = some ((c / 2 * ∑ j, (x j - Y j) ^ 2 : ℝ) : WithTop ℝ)) ∧
    ∀ v : ℝ, C.objective x true = some (v : WithTop ℝ) → v = c / 2 * ∑ j, (x j - Y j) ^ 2 ∧
      ∀ i : Fin (k + 1), -(1 / 10 ^ 5 * entryScale fun i : Fin (k + 1) => x i.succ - x i.castSucc) ≤ x i.succ - x i.castSucc := by
  obtain ⟨A', hA, hval⟩ := C101_values (m := k + 2) (k := k) .nonnegative (.matrix (riseMatrix k) none) _ rfl rfl (by simp) none none
  obtain ⟨A, dual, prox, value, e1, e2, e3, -, -⟩ := C116_cone_member_partial (n := k + 2) (k := k) .nonnegative
    (by simp [NotL2]) (Or.inl rfl) (.matrix (riseMatrix k) none) _ rfl (by simp [distinctSelectors]) rfl none (by simp) none (by simp)
  obtain ⟨s, G, hs, h0, hG⟩ := signalLoss_built hc Y
  obtain ⟨s', B, a, hs', hB, ha, hC⟩ := hC
  rw [hs, Option.some_inj] at hs'
  subst hs'
  rw [e1, Option.some_inj] at hA hB
  subst hA hB
  rw [e2, Option.some_inj] at ha
  subst ha
  have hC' : C = ⟨[⟨k + 1, .matrix (riseMatrix k) none, dual, prox, value⟩], [⟨s.toLoss.obj, s.toLoss.quad⟩], Quad.init none none none none⟩ := by
    injection hC with hC; exact hC.symm
  subst hC'
  have hobj : ∀ cf, (⟨[⟨k + 1, .matrix (riseMatrix k) none, dual, prox, value⟩], [⟨s.toLoss.obj, s.toLoss.quad⟩], Quad.init none none none none⟩ :
      Container (k + 2)).objective x cf = some (((c / 2 * ∑ j, (x j - Y j) ^ 2 : ℝ) : WithTop ℝ) + (A.nonsmoothObjective x cf).getD ⊤) := by
    intro cf
    rw [C69_objective _ (fun _ x => c / 2 * ∑ j, (x j - Y j) ^ 2) (fun _ => G) (fun b hb => by
      rw [List.mem_singleton] at hb
      subst hb; exact hG)]
    simp only [List.map_cons, List.map_nil, List.sum_cons, List.sum_nil, add_zero, sumOf, e3, h0]
    simp [quadVal, quadFn, zeroQuad, Quad.init, denote, dot]
  have hq : quadArg none ((Aff.matrix (riseMatrix k) none).lin x) = 0 := rfl
  obtain ⟨v1, v2, v3⟩ := hval x
  refine ⟨?_, fun hx => ?_, fun v hv => ?_⟩
  · rw [hobj, v3, hq]; simp
  · rw [hobj, v1 ((rise_mem x).2 hx), hq]; simp
  · rw [hobj, Option.some_inj] at hv
    cases hA : A.nonsmoothObjective x true with
    | none => rw [hA] at hv; simp at hv
    | some w =>
      rw [hA] at hv
      cases w with
      | top => simp at hv
      | coe w =>
        obtain ⟨w1, y, hy, hd⟩ := v2 w hA
        rw [hq] at w1
        subst w1
        refine ⟨?_, fun i => ?_⟩
        · have : ((c / 2 * ∑ j, (x j - Y j) ^ 2 + 0 : ℝ) : WithTop ℝ) = (v : WithTop ℝ) := by rw [WithTop.coe_add]; exact hv
          rw [← WithTop.coe_injective this, add_zero]
        · have e : (fun i => (Aff.matrix (riseMatrix k) none).lin x i + denote (none : Option (PyVec (Fin (k + 1)) ℝ)) i) =
              fun i : Fin (k + 1) => x i.succ - x i.castSucc := by
            funext i; rw [rise_lin]; exact add_zero _
          have h1 := hd i
          rw [e] at h1
          have h2 : (Aff.matrix (riseMatrix k) none).lin x i + denote (none : Option (PyVec (Fin (k + 1)) ℝ)) i = x i.succ - x i.castSucc := congrFun e i
          rw [h2] at h1
          have h3 : 0 ≤ y i := hy i
          have := (abs_le.1 h1).1
          linarith

/-- the lasso with nondecreasing coefficients: an l1 penalty and the first differences meet the hypotheses -/
example (loss : ContSmooth 3) (hloss : NoQuadratic loss.quad) :=
  C116_penalty_and_constraint_partial (n := 3) (k₁ := 2) (k₂ := 1) .l1norm false 2 (by norm_num) (.matrix (fun i j => if i = j then 1 else 0) none) _ rfl
    (by simp [distinctSelectors]) rfl none (by simp) .nonnegative (by simp [NotL2]) (Or.inl rfl) (.matrix (riseMatrix 1) none) _ rfl
    (by simp [distinctSelectors]) rfl none (by simp) loss hloss

end Verif.Props
