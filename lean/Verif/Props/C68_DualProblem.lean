import Verif.Model.DualProblem
import Verif.Lemmas.DualProblem
import Verif.Props.C26_Smooth
import Verif.Props.C37_Separable
import Verif.Props.C67_AffineAtom
import Verif.Props.C16_Cones

/-!
# C68: solving through the dual

`dual_problem(f_conjugate, transform, atom)` stands for `minimise f(x) + H(x)` with `H(x) = sup_u ⟨u, D x⟩ - g(u)`.
`f` and `H` appear in no argument of the constructor; the hypotheses relate them to the objects passed.
-/

set_option linter.unusedSectionVars false
set_option linter.unusedVariables false

namespace Verif.Props
open Verif.Model Verif.Lemmas Verif.Spec

variable {n k : ℕ}

/-- the dual objective `f*(-Dᵀ u) + g(u)` -/
noncomputable def dualFn (V : (Fin n → ℝ) → ℝ) (Dt : (Fin k → ℝ) → Fin n → ℝ) (g : (Fin k → ℝ) → WithTop ℝ)
    (u : Fin k → ℝ) : WithTop ℝ := ((V (fun j => -Dt u j) : ℝ) : WithTop ℝ) + g u

/-- In the sequence of evaluations, the last one which computes a gradient is at `u`. -/
def LastGradientAt (calls : List ((Fin k → ℝ) × Mode)) (u : Fin k → ℝ) : Prop :=
  ∃ before mode after, calls = before ++ (u, mode) :: after ∧ (mode = .grad ∨ mode = .both) ∧
    ∀ c ∈ after, c.2 = .func

private lemma eta_eq (T : Aff ℝ n k) (u : Fin k → ℝ) :
    (Aff.scalarMultiply (.adjoint T) (-1)).aff u = negAdj T.adj u := by
  funext j
  have h : (-1 : ℝ) ≠ 1 := by norm_num
  simp only [Aff.aff, Aff.adj, Aff.meth, negAdj, if_pos h]
  ring

private lemma after_func (P : DualProblem n k) (p : Option (Fin n → ℝ)) (l : List ((Fin k → ℝ) × Mode))
    (h : ∀ c ∈ l, c.2 = .func) : P.primalAfter p l = p := by
  induction l generalizing p with
  | nil => rfl
  | cons c l ih =>
    unfold DualProblem.primalAfter at *
    rw [List.foldl_cons]
    have hc : (P.smoothObjective p c.1 c.2).2 = p := by
      rw [h c (by simp)]; rfl
    rw [hc]
    exact ih p fun d hd => h d (by simp [hd])

lemma dual_solve_eq (P : DualProblem n k) {V : (Fin n → ℝ) → ℝ} {G : (Fin n → ℝ) → Fin n → ℝ} (hE : Evaluates P.fc V G)
    (calls : List ((Fin k → ℝ) × Mode)) (u : Fin k → ℝ) (hc : LastGradientAt calls u) :
    P.solve calls = some (G (negAdj P.T.adj u)) := by
  obtain ⟨before, mode, after, rfl, hm, ha⟩ := hc
  have h1 : ∀ p, (P.smoothObjective p u mode).2 = some (G (negAdj P.T.adj u)) := by
    intro p
    obtain ⟨e1, e2, e3⟩ := hE (negAdj P.T.adj u)
    rcases hm with rfl | rfl
    · simp [DualProblem.smoothObjective, DualProblem.storedGrad, eta_eq, e2]
    · simp [DualProblem.smoothObjective, DualProblem.storedGrad, eta_eq, e3]
  unfold DualProblem.solve DualProblem.primalAfter
  rw [List.foldl_append, List.foldl_cons, h1]
  exact after_func P _ after ha

private lemma adj_isLin (T : Aff ℝ n k) (hT : distinctSelectors T) : IsLin T.adj := C24_linear (.adjoint T) hT

private lemma coe_add_le {a b : WithTop ℝ} {w : ℝ} (h : ∀ x y : ℝ, a = x → b = y → w ≤ x + y) : ((w : ℝ) : WithTop ℝ) ≤ a + b := by
  cases a with
  | top => simp
  | coe x =>
    cases b with
    | top => simp
    | coe y => rw [← WithTop.coe_add, WithTop.coe_le_coe]; exact h x y rfl rfl

/-- **C68** the smooth part of the dual problem evaluates `f*(-Dᵀ u)` and `-D ∇f*(-Dᵀ u)` in every documented mode, and
for strongly convex `f` the latter is the gradient of the former. -/
theorem C68_dual_gradient (P : DualProblem n k) (hT : distinctSelectors P.T) (f : (Fin n → ℝ) → WithTop ℝ)
    (V : (Fin n → ℝ) → ℝ) (G : (Fin n → ℝ) → Fin n → ℝ) (hE : Evaluates P.fc V G) (hf : IsSmoothConjugate f V G)
    (μ : ℝ) (hμ : 0 < μ) (hsc : StronglyConvexTop μ f) (p : Option (Fin n → ℝ)) :
    Evaluates (fun u m => (P.smoothObjective p u m).1) (fun u => V (fun j => -P.T.adj u j))
        (fun u i => -P.T.lin (G fun j => -P.T.adj u j) i) ∧
      ∀ u, IsGradientAt (fun u => V (fun j => -P.T.adj u j)) (fun i => -P.T.lin (G fun j => -P.T.adj u j) i) u := by
  have hv := C26_value (.scalarMultiply (.adjoint P.T) (-1)) P.fc V G hE
  have e : ∀ z i, (Aff.scalarMultiply (.adjoint P.T) (-1)).adj z i = -P.T.lin z i := by
    intro z i
    have h : (-1 : ℝ) ≠ 1 := by norm_num
    simp only [Aff.lin, Aff.adj, Aff.meth, if_pos h]
    ring
  have h1 : Evaluates (fun u m => (P.smoothObjective p u m).1) (fun u => V (fun j => -P.T.adj u j))
      (fun u i => -P.T.lin (G fun j => -P.T.adj u j) i) := by
    have e1 : (fun u => V ((Aff.scalarMultiply (.adjoint P.T) (-1)).aff u)) = fun u => V (fun j => -P.T.adj u j) := by
      funext u; rw [eta_eq]; rfl
    have e2 : (fun u => (Aff.scalarMultiply (.adjoint P.T) (-1)).adj (G ((Aff.scalarMultiply (.adjoint P.T) (-1)).aff u))) =
        fun u i => -P.T.lin (G fun j => -P.T.adj u j) i := by
      funext u i; rw [e, eta_eq]; rfl
    rw [e1, e2] at hv
    exact hv
  refine ⟨h1, fun u => ?_⟩
  obtain ⟨F, G', hE', hF, hg⟩ := C26_chain_rule_partial (.scalarMultiply (.adjoint P.T) (-1))
    (by simpa [distinctSelectors] using hT) P.fc V G hE u
    (smoothConj_gradient hμ hsc hf _)
  have a1 : F = fun u => V (fun j => -P.T.adj u j) := by
    funext w; rw [hF, eta_eq]; rfl
  have a2 : G' u = fun i => -P.T.lin (G fun j => -P.T.adj u j) i := by
    have b1 := (hE' u).2.1
    have b2 := (h1 u).2.1
    have b3 := b1.symm.trans b2
    injection b3
  rw [a1, a2] at hg
  exact hg

/-- **C68** whatever evaluations the solver makes, `solve()` returns the unique minimiser over `x` of
`f(x) + ⟨u, D x⟩`, where `u` is the point of its last gradient evaluation. -/
theorem C68_primal (P : DualProblem n k) (hT : distinctSelectors P.T) (f : (Fin n → ℝ) → WithTop ℝ)
    (V : (Fin n → ℝ) → ℝ) (G : (Fin n → ℝ) → Fin n → ℝ) (hE : Evaluates P.fc V G) (hf : IsSmoothConjugate f V G)
    (calls : List ((Fin k → ℝ) × Mode)) (u : Fin k → ℝ) (hc : LastGradientAt calls u) :
    ∃ x, P.solve calls = some x ∧
      IsUniqueMinTop (fun x => f x + ((dot u (P.T.lin x) : ℝ) : WithTop ℝ)) x := by
  have hL := C24_adjoint_partial P.T hT
  refine ⟨_, dual_solve_eq P hE calls u hc, ?_, fun x hx => ?_⟩
  · obtain ⟨⟨s, hs, -⟩, -⟩ := hf (negAdj P.T.adj u)
    dsimp only
    rw [hs, ← WithTop.coe_add]; exact WithTop.coe_ne_top
  · obtain ⟨⟨s, hs, hV⟩, hlt⟩ := hf (negAdj P.T.adj u)
    dsimp only
    rw [hs, ← WithTop.coe_add]
    cases hfx : f x with
    | top => rw [WithTop.top_add]; exact WithTop.coe_lt_top _
    | coe a =>
      rw [← WithTop.coe_add, WithTop.coe_lt_coe]
      have := hlt x a hfx hx
      rw [hV, negAdj_dot hL, negAdj_dot hL] at this
      linarith

/-- **C68** weak duality: minus the dual objective at any `u` is a lower bound of the primal objective at any `x`. -/
theorem C68_weak_duality (P : DualProblem n k) (hT : distinctSelectors P.T) (f : (Fin n → ℝ) → WithTop ℝ)
    (V : (Fin n → ℝ) → ℝ) (G : (Fin n → ℝ) → Fin n → ℝ) (hf : IsSmoothConjugate f V G)
    (g : (Fin k → ℝ) → WithTop ℝ) (H : (Fin n → ℝ) → WithTop ℝ) (hg : Represents P.T.lin g H)
    (u : Fin k → ℝ) (d : ℝ) (hd : dualFn V P.T.adj g u = ((d : ℝ) : WithTop ℝ)) (x : Fin n → ℝ) :
    ((-d : ℝ) : WithTop ℝ) ≤ f x + H x := by
  refine coe_add_le fun a b ha hb => ?_
  cases hs : g u with
  | top => simp [dualFn, hs] at hd
  | coe s =>
    have := weak_duality (C24_adjoint_partial P.T hT) hf hg x u a b s ha hb hs
    unfold dualFn at hd
    rw [hs, ← WithTop.coe_add, WithTop.coe_inj] at hd
    unfold negAdj at this
    linarith

private lemma opt_data (P : DualProblem n k) (hT : distinctSelectors P.T) {f : (Fin n → ℝ) → WithTop ℝ}
    {V : (Fin n → ℝ) → ℝ} {G : (Fin n → ℝ) → Fin n → ℝ} (hf : IsSmoothConjugate f V G)
    {μ : ℝ} (hμ : 0 < μ) (hsc : StronglyConvexTop μ f)
    {g : (Fin k → ℝ) → WithTop ℝ} {H : (Fin n → ℝ) → WithTop ℝ} (hg : Represents P.T.lin g H) (hgc : ConvexTop g)
    {u : Fin k → ℝ} (hu : IsMinTop (dualFn V P.T.adj g) u) :
    ∃ a b s : ℝ, f (G (negAdj P.T.adj u)) = ((a : ℝ) : WithTop ℝ) ∧ H (G (negAdj P.T.adj u)) = ((b : ℝ) : WithTop ℝ) ∧
      g u = ((s : ℝ) : WithTop ℝ) ∧ a + b = -(V (negAdj P.T.adj u) + s) := by
  cases hs : g u with
  | top => exact absurd (by simp [dualFn, hs]) hu.1
  | coe s =>
    obtain ⟨a, b, h1, h2, h3⟩ := strong_duality hμ hsc (C24_adjoint_partial P.T hT) (adj_isLin P.T hT) hf hg hgc u s hs hu.2
    exact ⟨a, b, s, h1, h2, rfl, h3⟩

/-- **C68** if the solver's last gradient evaluation is at a minimiser `u` of the dual objective, then `solve()` returns
the unique minimiser of `f + H`, and the optimal value of the primal problem is minus that of the dual problem. -/
theorem C68_optimal (P : DualProblem n k) (hT : distinctSelectors P.T) (f : (Fin n → ℝ) → WithTop ℝ)
    (V : (Fin n → ℝ) → ℝ) (G : (Fin n → ℝ) → Fin n → ℝ) (hE : Evaluates P.fc V G) (hf : IsSmoothConjugate f V G)
    (μ : ℝ) (hμ : 0 < μ) (hsc : StronglyConvexTop μ f)
    (g : (Fin k → ℝ) → WithTop ℝ) (H : (Fin n → ℝ) → WithTop ℝ) (hg : Represents P.T.lin g H) (hgc : ConvexTop g)
    (calls : List ((Fin k → ℝ) × Mode)) (u : Fin k → ℝ) (hc : LastGradientAt calls u)
    (hu : IsMinTop (dualFn V P.T.adj g) u) :
    ∃ x v, P.solve calls = some x ∧ IsUniqueMinTop (fun x => f x + H x) x ∧
      f x + H x = ((v : ℝ) : WithTop ℝ) ∧ dualFn V P.T.adj g u = ((-v : ℝ) : WithTop ℝ) := by
  obtain ⟨a, b, s, ha, hb, hs, hab⟩ := opt_data P hT hf hμ hsc hg hgc hu
  have hL := C24_adjoint_partial P.T hT
  refine ⟨_, a + b, dual_solve_eq P hE calls u hc, ⟨?_, fun x hx => ?_⟩, ?_, ?_⟩
  · dsimp only; rw [ha, hb, ← WithTop.coe_add]; exact WithTop.coe_ne_top
  · dsimp only
    rw [ha, hb, ← WithTop.coe_add]
    cases hfx : f x with
    | top => rw [WithTop.top_add]; exact WithTop.coe_lt_top _
    | coe a' =>
      cases hHx : H x with
      | top => rw [WithTop.add_top]; exact WithTop.coe_lt_top _
      | coe b' =>
        rw [← WithTop.coe_add, WithTop.coe_lt_coe, hab]
        have h1 := (hf (negAdj P.T.adj u)).2 x a' hfx hx
        rw [negAdj_dot hL] at h1
        have h2 := ((hg x).1 b' hHx).1 ⟨u, s, hs, rfl⟩
        linarith
  · rw [ha, hb, ← WithTop.coe_add]
  · unfold dualFn
    rw [hs, ← WithTop.coe_add, hab, neg_neg]
    rfl

/-- **C68** accuracy of an unfinished run: if the dual objective at the last gradient evaluation exceeds its minimum by
`δ`, the vector returned by `solve()` is within `√(2δ/μ)` of the solution of the primal problem. -/
theorem C68_error_bound (P : DualProblem n k) (hT : distinctSelectors P.T) (f : (Fin n → ℝ) → WithTop ℝ)
    (V : (Fin n → ℝ) → ℝ) (G : (Fin n → ℝ) → Fin n → ℝ) (hE : Evaluates P.fc V G) (hf : IsSmoothConjugate f V G)
    (μ : ℝ) (hμ : 0 < μ) (hsc : StronglyConvexTop μ f)
    (g : (Fin k → ℝ) → WithTop ℝ) (H : (Fin n → ℝ) → WithTop ℝ) (hg : Represents P.T.lin g H) (hgc : ConvexTop g)
    (calls : List ((Fin k → ℝ) × Mode)) (u : Fin k → ℝ) (hc : LastGradientAt calls u)
    (ustar : Fin k → ℝ) (hu : IsMinTop (dualFn V P.T.adj g) ustar) (dstar δ : ℝ)
    (hds : dualFn V P.T.adj g ustar = ((dstar : ℝ) : WithTop ℝ))
    (hd : dualFn V P.T.adj g u ≤ ((dstar + δ : ℝ) : WithTop ℝ)) :
    ∃ x xstar, P.solve calls = some x ∧ IsUniqueMinTop (fun x => f x + H x) xstar ∧ μ / 2 * sqDist xstar x ≤ δ := by
  obtain ⟨a, b, s, ha, hb, hs, hab⟩ := opt_data P hT hf hμ hsc hg hgc hu
  obtain ⟨x', v, hx', hmin, -⟩ := C68_optimal P hT f V G hE hf μ hμ hsc g H hg hgc [(ustar, .both)] ustar
    ⟨[], .both, [], rfl, Or.inr rfl, by simp⟩ hu
  rw [dual_solve_eq P hE [(ustar, .both)] ustar ⟨[], .both, [], rfl, Or.inr rfl, by simp⟩, Option.some_inj] at hx'
  refine ⟨_, x', dual_solve_eq P hE calls u hc, hmin, ?_⟩
  rw [← hx']
  have hL := C24_adjoint_partial P.T hT
  cases hgu : g u with
  | top => simp [dualFn, hgu] at hd
  | coe t =>
    unfold dualFn at hd hds
    rw [hgu, ← WithTop.coe_add, WithTop.coe_le_coe] at hd
    rw [hs, ← WithTop.coe_add, WithTop.coe_inj] at hds
    have h1 := smoothConj_growth hμ hsc hf (negAdj P.T.adj u) _ a ha
    rw [negAdj_dot hL] at h1
    have h2 := ((hg _).1 b hb).1 ⟨u, t, hgu, rfl⟩
    have e1 : V (negAdj P.T.adj u) = V (fun j => -P.T.adj u j) := rfl
    have e2 : V (negAdj P.T.adj ustar) = V (fun j => -P.T.adj ustar j) := rfl
    linarith

/-- **C68** `objective(u, check_feasibility)` is the dual objective, with the values the atom reports under that flag. -/
theorem C68_objective (P : DualProblem n k) (V : (Fin n → ℝ) → ℝ) (G : (Fin n → ℝ) → Fin n → ℝ)
    (hE : Evaluates P.fc V G) (u : Fin k → ℝ) (cf : Bool) :
    P.objective u cf = some (dualFn V P.T.adj (fun u => P.atom.value u cf) u) := by
  have hv := (C26_value (.scalarMultiply (.adjoint P.T) (-1)) P.fc V G hE u).1
  unfold DualProblem.objective DualProblem.affineFc
  rw [hv]
  simp only [DualProblem.nonsmoothObjective, dualFn, add_zero, eta_eq]
  rfl

/-! ### several penalties -/

private lemma conj_nonempty {D : (Fin n → ℝ) → Fin k → ℝ} {g : (Fin k → ℝ) → WithTop ℝ} {H : (Fin n → ℝ) → WithTop ℝ}
    (h : Represents D g H) (x : Fin n → ℝ) : (conjSet g (D x)).Nonempty := by
  rw [Set.nonempty_iff_ne_empty]
  intro he
  cases hx : H x with
  | top => exact (h x).2 hx (by rw [he]; exact bddAbove_empty)
  | coe v =>
    have h1 := (h x).1 v hx
    rw [he] at h1
    have := h1.2 (show v - 1 ∈ upperBounds ∅ by simp)
    linarith

/-- all sums of one number from each set -/
private def sumSet {N : ℕ} (S : Fin N → Set ℝ) : Set ℝ := {t | ∃ w : Fin N → ℝ, (∀ i, w i ∈ S i) ∧ t = ∑ i, w i}

private lemma sumSet_lub {N : ℕ} (S : Fin N → Set ℝ) (v : Fin N → ℝ) (h : ∀ i, IsLUB (S i) (v i)) :
    IsLUB (sumSet S) (∑ i, v i) := by
  constructor
  · rintro _ ⟨w, hw, rfl⟩
    exact Finset.sum_le_sum fun i _ => (h i).1 (hw i)
  · intro b hb
    by_contra hlt
    push Not at hlt
    have hpos : 0 < (∑ i, v i - b) / ((N : ℝ) + 1) := div_pos (by linarith) (by positivity)
    have hex : ∀ i, ∃ w ∈ S i, v i - (∑ i, v i - b) / ((N : ℝ) + 1) < w := by
      intro i
      by_contra hno
      push Not at hno
      have := (h i).2 hno
      linarith
    choose w hw hlt' using hex
    have h1 := hb ⟨w, hw, rfl⟩
    have h2 : ∑ i, (v i - (∑ i, v i - b) / ((N : ℝ) + 1)) ≤ ∑ i, w i := Finset.sum_le_sum fun i _ => (hlt' i).le
    rw [Finset.sum_sub_distrib, Finset.sum_const, Finset.card_univ, Fintype.card_fin, nsmul_eq_mul] at h2
    have h3 : (N : ℝ) * ((∑ i, v i - b) / ((N : ℝ) + 1)) < ∑ i, v i - b := by
      have : (N : ℝ) * ((∑ i, v i - b) / ((N : ℝ) + 1)) + (∑ i, v i - b) / ((N : ℝ) + 1) = ∑ i, v i - b := by
        field_simp
      linarith
    linarith

private lemma sumSet_unbounded {N : ℕ} (S : Fin N → Set ℝ) (hne : ∀ i, (S i).Nonempty) (j : Fin N) (hj : ¬ BddAbove (S j)) :
    ¬ BddAbove (sumSet S) := by
  rintro ⟨b, hb⟩
  choose w hw using hne
  refine hj ⟨b - ∑ i ∈ Finset.univ.erase j, w i, fun t ht => ?_⟩
  have h1 := hb ⟨Function.update w j t, fun i => by
    by_cases e : i = j
    · subst e; simpa using ht
    · rw [Function.update_of_ne e]; exact hw i, rfl⟩
  rw [← Finset.add_sum_erase _ _ (Finset.mem_univ j), Function.update_self] at h1
  have h2 : ∑ i ∈ Finset.univ.erase j, Function.update w j t i = ∑ i ∈ Finset.univ.erase j, w i :=
    Finset.sum_congr rfl fun i hi => by rw [Function.update_of_ne (Finset.ne_of_mem_erase hi)]
  linarith

/-- the penalty on the stacked dual variable -/
private noncomputable def stackedPen {N : ℕ} (ks : Fin N → ℕ) (pen : (i : Fin N) → (Fin (ks i) → ℝ) → WithTop ℝ)
    (u : Fin (∑ i, ks i) → ℝ) : WithTop ℝ := ∑ i, pen i (Aff.block ks u i)

private lemma finite_sum {N : ℕ} {h : Fin N → WithTop ℝ} {s : ℝ} (hs : ∑ i, h i = ((s : ℝ) : WithTop ℝ)) :
    ∃ w : Fin N → ℝ, (∀ i, h i = ((w i : ℝ) : WithTop ℝ)) ∧ s = ∑ i, w i := by
  have h1 : ∀ i, h i ≠ ⊤ := by
    intro i hi
    have : ∑ i, h i = ⊤ := WithTop.sum_eq_top.2 ⟨i, Finset.mem_univ i, hi⟩
    rw [this] at hs
    exact WithTop.top_ne_coe hs
  choose w hw using fun i => WithTop.ne_top_iff_exists.1 (h1 i)
  refine ⟨w, fun i => (hw i).symm, ?_⟩
  simp only [← hw] at hs
  rw [← WithTop.coe_sum, WithTop.coe_inj] at hs
  exact hs.symm

private lemma sum_blocks' {N : ℕ} (ks : Fin N → ℕ) (f : Fin (∑ i, ks i) → ℝ) :
    ∑ o, f o = ∑ i, ∑ j, f (finSigmaFinEquiv ⟨i, j⟩) := by
  rw [← Equiv.sum_comp finSigmaFinEquiv f, Fintype.sum_sigma]

private lemma dot_stack {N : ℕ} (ks : Fin N → ℕ) (T : (i : Fin N) → Aff ℝ n (ks i)) (u : Fin (∑ i, ks i) → ℝ) (x : Fin n → ℝ) :
    dot u ((Aff.vstack ks T).lin x) = ∑ i, dot (Aff.block ks u i) ((T i).lin x) := by
  unfold dot
  rw [sum_blocks']
  refine Finset.sum_congr rfl fun i _ => Finset.sum_congr rfl fun j _ => ?_
  show u _ * Aff.fill ks (fun i => (T i).meth.lin x) (finSigmaFinEquiv ⟨i, j⟩) = _
  unfold Aff.fill
  rw [Equiv.symm_apply_apply]
  rfl

private lemma block_fill {N : ℕ} (ks : Fin N → ℕ) (v : (i : Fin N) → Fin (ks i) → ℝ) (i : Fin N) :
    Aff.block ks (Aff.fill ks v) i = v i := by
  funext j
  unfold Aff.block Aff.fill
  rw [Equiv.symm_apply_apply]

private lemma conj_stack {N : ℕ} (ks : Fin N → ℕ) (T : (i : Fin N) → Aff ℝ n (ks i))
    (pen : (i : Fin N) → (Fin (ks i) → ℝ) → WithTop ℝ) (x : Fin n → ℝ) :
    conjSet (stackedPen ks pen) ((Aff.vstack ks T).lin x) = sumSet fun i => conjSet (pen i) ((T i).lin x) := by
  ext t
  constructor
  · rintro ⟨u, s, hs, rfl⟩
    obtain ⟨w, hw, rfl⟩ := finite_sum hs
    refine ⟨fun i => dot (Aff.block ks u i) ((T i).lin x) - w i, fun i => ⟨_, _, hw i, rfl⟩, ?_⟩
    rw [dot_stack, Finset.sum_sub_distrib]
  · rintro ⟨t, ht, rfl⟩
    choose u s hs hts using ht
    refine ⟨Aff.fill ks u, ∑ i, s i, ?_, ?_⟩
    · unfold stackedPen
      rw [WithTop.coe_sum]
      exact Finset.sum_congr rfl fun i _ => by rw [block_fill, hs]
    · rw [dot_stack, ← Finset.sum_sub_distrib]
      exact Finset.sum_congr rfl fun i _ => by rw [block_fill, hts]

private lemma represents_stack {N : ℕ} (ks : Fin N → ℕ) (T : (i : Fin N) → Aff ℝ n (ks i))
    (pen : (i : Fin N) → (Fin (ks i) → ℝ) → WithTop ℝ) (H : Fin N → (Fin n → ℝ) → WithTop ℝ)
    (h : ∀ i, Represents (T i).lin (pen i) (H i)) :
    Represents (Aff.vstack ks T).lin (stackedPen ks pen) fun x => ∑ i, H i x := by
  intro x
  rw [conj_stack]
  constructor
  · intro v hv
    obtain ⟨w, hw, rfl⟩ := finite_sum hv
    exact sumSet_lub _ _ fun i => (h i x).1 _ (hw i)
  · intro hx
    obtain ⟨j, -, hj⟩ := WithTop.sum_eq_top.1 hx
    exact sumSet_unbounded _ (fun i => conj_nonempty (h i) x) j ((h j x).2 hj)

private lemma convex_stack {N : ℕ} (ks : Fin N → ℕ) (pen : (i : Fin N) → (Fin (ks i) → ℝ) → WithTop ℝ)
    (h : ∀ i, ConvexTop (pen i)) : ConvexTop (stackedPen ks pen) := by
  intro u v a b ha hb t ht ht1
  obtain ⟨wa, hwa, rfl⟩ := finite_sum ha
  obtain ⟨wb, hwb, rfl⟩ := finite_sum hb
  choose c hc hcle using fun i => h i _ _ (wa i) (wb i) (hwa i) (hwb i) t ht ht1
  refine ⟨∑ i, c i, ?_, ?_⟩
  · unfold stackedPen
    rw [WithTop.coe_sum]
    exact Finset.sum_congr rfl fun i _ => (by rw [← hc]; rfl)
  · calc ∑ i, c i ≤ ∑ i, ((1 - t) * wa i + t * wb i) := Finset.sum_le_sum fun i _ => hcle i
      _ = _ := by rw [Finset.sum_add_distrib, Finset.mul_sum, Finset.mul_sum]

private lemma loop_congr {m N : ℕ} (l : List (Fin N)) (sel : Fin N → Selector m)
    (v1 v2 : (i : Fin N) → (Fin (sel i).len → ℝ) → WithTop ℝ)
    (prox : (i : Fin N) → Quad (Fin (sel i).len) ℝ → ProxResult (Fin (sel i).len) ℝ) (q : Quad (Fin m) ℝ) (v : Fin m → ℝ) :
    Separable.proxLoop q (l.map fun i => ⟨sel i, v1 i, prox i⟩) v = Separable.proxLoop q (l.map fun i => ⟨sel i, v2 i, prox i⟩) v := by
  induction l generalizing v with
  | nil => rfl
  | cons a l ih =>
    simp only [List.map_cons, Separable.proxLoop]
    cases prox a (q.restrict (sel a)) with
    | ok w => exact ih _
    | _ => rfl

private lemma stacked_correct {N : ℕ} (ks : Fin N → ℕ) (g : (i : Fin N) → DualAtom (ks i))
    (pen : (i : Fin N) → (Fin (ks i) → ℝ) → WithTop ℝ) (h : ∀ i, AtomCorrect (g i).proximal (pen i)) (cf : Bool) :
    AtomCorrect (stackedAtom ks g cf).proximal (stackedPen ks pen) := by
  intro q p hq hp
  let s : Separable (∑ i, ks i) ℝ := ⟨List.ofFn fun i => ⟨sliceOf ks i, pen i, (g i).proximal⟩⟩
  have hs : s.proximal q = .ok p := by
    rw [← hp]
    unfold Separable.proximal
    cases coneProximal some none (⟨0, some (.scalar 0), some (.scalar 0), 0⟩ : Quad (Fin (∑ i, ks i)) ℝ) (some q) with
    | ok v =>
      simp only [s, stackedAtom, List.ofFn_eq_map]
      exact loop_congr _ (sliceOf ks) _ _ (fun i => (g i).proximal) q v
    | _ => rfl
  have hd : GroupsDisjoint s.blocks := by
    constructor
    · intro b hb
      simp only [s, List.mem_ofFn] at hb
      obtain ⟨i, rfl⟩ := hb
      intro x y hxy
      have := finSigmaFinEquiv.injective hxy
      injection this with _ h2
    · simp only [s]
      rw [List.pairwise_ofFn]
      intro i j hij a b hab
      have := finSigmaFinEquiv.injective hab
      injection this with h1
      exact hij.ne h1
  have h1 := C37_proximal s hd (fun b => b.nonsmooth) (by
    intro b hb
    simp only [s, List.mem_ofFn] at hb
    obtain ⟨i, rfl⟩ := hb
    exact h i) q hq p hs
  have e : (fun x : Fin (∑ i, ks i) → ℝ => ((quadVal (some q) x : ℝ) : WithTop ℝ) +
      (s.blocks.map fun b => b.nonsmooth fun j => x (b.group.idx j)).sum) =
      fun z => ((quadVal (some q) z : ℝ) : WithTop ℝ) + stackedPen ks pen z := by
    funext z
    congr 1
    simp only [s, List.map_ofFn, List.sum_ofFn]
    rfl
  rw [e] at h1
  exact h1

private lemma stacked_value {N : ℕ} (ks : Fin N → ℕ) (g : (i : Fin N) → DualAtom (ks i))
    (pen : (i : Fin N) → (Fin (ks i) → ℝ) → WithTop ℝ) (cf : Bool) (h : ∀ i u, (g i).value u cf = pen i u)
    (u : Fin (∑ i, ks i) → ℝ) : (stackedAtom ks g cf).nonsmooth u = stackedPen ks pen u := by
  rw [C37_objective]
  simp only [stackedAtom, List.map_ofFn, List.sum_ofFn]
  exact Finset.sum_congr rfl fun i _ => h i _

private lemma stacked_value_on {N : ℕ} (ks : Fin N → ℕ) (g : (i : Fin N) → DualAtom (ks i))
    (pen : (i : Fin N) → (Fin (ks i) → ℝ) → WithTop ℝ) (cf : Bool) (h : ∀ i u, pen i u ≠ ⊤ → (g i).value u cf = pen i u)
    (u : Fin (∑ i, ks i) → ℝ) (hu : stackedPen ks pen u ≠ ⊤) : (stackedAtom ks g cf).nonsmooth u = stackedPen ks pen u := by
  rw [C37_objective]
  simp only [stackedAtom, List.map_ofFn, List.sum_ofFn]
  refine Finset.sum_congr rfl fun i _ => h i _ fun htop => hu ?_
  unfold stackedPen
  exact WithTop.sum_eq_top.2 ⟨i, Finset.mem_univ _, htop⟩

/-- indicator of the origin -/
private noncomputable def zeroInd {n : ℕ} (u : Fin n → ℝ) : WithTop ℝ := by
  classical exact if ∀ i, u i = 0 then 0 else ⊤

private lemma zeroInd_eq {n : ℕ} (u : Fin n → ℝ) (s : ℝ) :
    zeroInd u = ((s : ℝ) : WithTop ℝ) ↔ (∀ i, u i = 0) ∧ s = 0 := by
  unfold zeroInd
  by_cases h : ∀ i, u i = 0
  · rw [if_pos h]
    constructor
    · intro hs
      have : ((0 : ℝ) : WithTop ℝ) = ((s : ℝ) : WithTop ℝ) := hs
      exact ⟨h, (WithTop.coe_inj.1 this).symm⟩
    · rintro ⟨-, rfl⟩; rfl
  · rw [if_neg h]
    constructor
    · intro hs; exact absurd hs WithTop.top_ne_coe
    · rintro ⟨h', -⟩; exact absurd h' h

private lemma zero_correct (n : ℕ) : AtomCorrect (zeroDualAtom n).proximal zeroInd := by
  intro q p hq hp
  have h := C10_cone_proximal (fun x : Fin n → ℝ => some (Cone.zeroConstraintProx x)) {z | ∀ i, z i = 0} (by
    intro arg p hp
    rw [Option.some_inj] at hp
    rw [← hp]
    exact C16_zero_constraint arg) none ⟨0, some (.scalar 0), some (.scalar 0), 0⟩ (some q) p
    (by simpa [quadCoef] using hq) hp
  have h0 : ∀ i, p i = 0 := by simpa [denote] using h.1
  have hp0 : zeroInd p = ((0 : ℝ) : WithTop ℝ) := (zeroInd_eq p 0).2 ⟨h0, rfl⟩
  refine ⟨?_, fun z hz => ?_⟩
  · dsimp only
    rw [hp0, ← WithTop.coe_add]
    exact WithTop.coe_ne_top
  · have hz0 : zeroInd z = ⊤ := by
      unfold zeroInd
      rw [if_neg]
      intro hz0
      exact hz (funext fun i => by rw [hz0, h0])
    dsimp only
    rw [hp0, hz0, ← WithTop.coe_add, WithTop.add_top]
    exact WithTop.coe_lt_top _

private lemma zero_represents (n : ℕ) (H : Fin 0 → (Fin n → ℝ) → WithTop ℝ) :
    Represents (Aff.identity : Aff ℝ n n).lin zeroInd fun x => ∑ i, H i x := by
  intro x
  have hset : conjSet zeroInd ((Aff.identity : Aff ℝ n n).lin x) = {0} := by
    ext t
    constructor
    · rintro ⟨u, s, hs, rfl⟩
      obtain ⟨h, rfl⟩ := (zeroInd_eq u s).1 hs
      simp [dot, h]
    · rintro rfl
      exact ⟨fun _ => 0, 0, (zeroInd_eq _ 0).2 ⟨fun _ => rfl, rfl⟩, by simp [dot]⟩
  rw [hset]
  constructor
  · intro v hv
    have h2 : (((0 : ℝ) : ℝ) : WithTop ℝ) = ((v : ℝ) : WithTop ℝ) := by rw [← hv]; simp
    rw [← WithTop.coe_inj.1 h2]
    exact isLUB_singleton
  · intro h; simp at h

private lemma zero_convex (n : ℕ) : ConvexTop (zeroInd (n := n)) := by
  intro u v a b ha hb t ht ht1
  obtain ⟨hu, rfl⟩ := (zeroInd_eq u a).1 ha
  obtain ⟨hv, rfl⟩ := (zeroInd_eq v b).1 hb
  refine ⟨0, (zeroInd_eq _ 0).2 ⟨fun i => by rw [hu, hv]; ring, rfl⟩, by simp⟩

private lemma stacked_domain {N : ℕ} (ks : Fin N → ℕ) (pen : (i : Fin N) → (Fin (ks i) → ℝ) → WithTop ℝ)
    (B : (i : Fin N) → Set (Fin (ks i) → ℝ)) (R : Fin N → ℝ) (hB : ∀ i u, (u ∈ B i → pen i u = 0) ∧ (u ∉ B i → pen i u = ⊤))
    (hc : ∀ i, IsClosed (B i) ∧ (B i).Nonempty ∧ ∀ u ∈ B i, ∑ j, u j ^ 2 ≤ R i) :
    ∃ S : Set (Fin (∑ i, ks i) → ℝ), IsClosed S ∧ S.Nonempty ∧
      (∀ u, (u ∈ S → stackedPen ks pen u = 0) ∧ (u ∉ S → stackedPen ks pen u = ⊤)) ∧ ∀ u ∈ S, ∑ j, u j ^ 2 ≤ ∑ i, R i := by
  refine ⟨{u | ∀ i, Aff.block ks u i ∈ B i}, ?_, ?_, fun u => ⟨fun h => ?_, fun h => ?_⟩, fun u hu => ?_⟩
  · rw [show {u : Fin (∑ i, ks i) → ℝ | ∀ i, Aff.block ks u i ∈ B i} = ⋂ i, (fun u => Aff.block ks u i) ⁻¹' B i by
      ext u; simp]
    refine isClosed_iInter fun i => (hc i).1.preimage ?_
    exact continuous_pi fun j => continuous_apply _
  · choose v hv using fun i => (hc i).2.1
    exact ⟨Aff.fill ks v, fun i => by rw [block_fill]; exact hv i⟩
  · exact Finset.sum_eq_zero fun i _ => (hB i _).1 (h i)
  · have h' : ∃ i, Aff.block ks u i ∉ B i := by
      by_contra hn
      push Not at hn
      exact h hn
    obtain ⟨i, hi⟩ := h'
    exact WithTop.sum_eq_top.2 ⟨i, Finset.mem_univ _, (hB i _).2 hi⟩
  · rw [sum_blocks' ks fun o => u o ^ 2]
    exact Finset.sum_le_sum fun i _ => (hc i).2.2 _ (hu i)

/-- the statement of `C68_stacked_dual`, with the domain of the represented function when the parts are indicators -/
lemma stacked_core (n : ℕ) {N : ℕ} (ks : Fin N → ℕ) (T : (i : Fin N) → Aff ℝ n (ks i)) (g : (i : Fin N) → DualAtom (ks i))
    (pen : (i : Fin N) → (Fin (ks i) → ℝ) → WithTop ℝ) (H : Fin N → (Fin n → ℝ) → WithTop ℝ)
    (hT : ∀ i, distinctSelectors (T i)) (hprox : ∀ i, AtomCorrect (g i).proximal (pen i))
    (hrep : ∀ i, Represents (T i).lin (pen i) (H i)) :
    distinctSelectors (stackedDual n ks T g).2.1 ∧
    ∃ P : (Fin (stackedDual n ks T g).1 → ℝ) → WithTop ℝ,
      AtomCorrect (stackedDual n ks T g).2.2.proximal P ∧
      Represents (stackedDual n ks T g).2.1.lin P (fun x => ∑ i, H i x) ∧
      ((∀ i, ConvexTop (pen i)) → ConvexTop P) ∧
      (0 < N → ∀ cf, (∀ i u, (g i).value u cf = pen i u) → ∀ u, (stackedDual n ks T g).2.2.value u cf = P u) ∧
      (0 < N → ∀ cf, (∀ i u, pen i u ≠ ⊤ → (g i).value u cf = pen i u) → ∀ u, P u ≠ ⊤ →
        (stackedDual n ks T g).2.2.value u cf = P u) ∧
      (0 < N → ∀ (B : (i : Fin N) → Set (Fin (ks i) → ℝ)) (R : Fin N → ℝ),
        (∀ i u, (u ∈ B i → pen i u = 0) ∧ (u ∉ B i → pen i u = ⊤)) →
        (∀ i, IsClosed (B i) ∧ (B i).Nonempty ∧ ∀ u ∈ B i, ∑ j, u j ^ 2 ≤ R i) →
        ∃ S, IsClosed S ∧ S.Nonempty ∧ (∀ u, (u ∈ S → P u = 0) ∧ (u ∉ S → P u = ⊤)) ∧ ∀ u ∈ S, ∑ j, u j ^ 2 ≤ ∑ i, R i) := by
  match N with
  | 0 =>
    exact ⟨by simp [stackedDual, distinctSelectors], zeroInd, zero_correct n, zero_represents n H,
      fun _ => zero_convex n, by simp, by simp, by simp⟩
  | 1 =>
    refine ⟨hT 0, pen 0, hprox 0, ?_, fun h => h 0, fun _ cf h u => h 0 u, fun _ cf h u hu => h 0 u hu,
      fun _ B R hB hc => ⟨B 0, (hc 0).1, (hc 0).2.1, hB 0, fun u hu => by rw [Fin.sum_univ_one]; exact (hc 0).2.2 u hu⟩⟩
    have : (fun x => ∑ i : Fin 1, H i x) = H 0 := by funext x; simp
    rw [this]
    exact hrep 0
  | N + 2 =>
    refine ⟨by simpa [stackedDual, distinctSelectors] using hT, stackedPen ks pen, stacked_correct ks g pen hprox true,
      represents_stack ks T pen H hrep, convex_stack ks pen, fun _ cf h u => ?_, fun _ cf h u hu => ?_,
      fun _ B R hB hc => ?_⟩
    · exact stacked_value ks g pen cf h u
    · exact stacked_value_on ks g pen cf h u hu
    · exact stacked_domain ks pen B R hB hc

/-- **C68** `stacked_dual(shape, atom_1, ..., atom_N)` for any number of penalties: if each pair `(D_i, g_i) = atom_i.dual`
represents `H_i` and the proximal map of `g_i` is correct, then the transform and the atom returned represent
`H_1 + ... + H_N` and the proximal map of the atom is correct; convexity is inherited, and for `N ≥ 1` the values
reported are those of the represented function if the values of the parts are, and it is enough that this holds where
the functions are finite to have it where their sum is. -/
theorem C68_stacked_dual (n : ℕ) {N : ℕ} (ks : Fin N → ℕ) (T : (i : Fin N) → Aff ℝ n (ks i)) (g : (i : Fin N) → DualAtom (ks i))
    (pen : (i : Fin N) → (Fin (ks i) → ℝ) → WithTop ℝ) (H : Fin N → (Fin n → ℝ) → WithTop ℝ)
    (hT : ∀ i, distinctSelectors (T i)) (hprox : ∀ i, AtomCorrect (g i).proximal (pen i))
    (hrep : ∀ i, Represents (T i).lin (pen i) (H i)) :
    distinctSelectors (stackedDual n ks T g).2.1 ∧
    ∃ P : (Fin (stackedDual n ks T g).1 → ℝ) → WithTop ℝ,
      AtomCorrect (stackedDual n ks T g).2.2.proximal P ∧
      Represents (stackedDual n ks T g).2.1.lin P (fun x => ∑ i, H i x) ∧
      ((∀ i, ConvexTop (pen i)) → ConvexTop P) ∧
      (0 < N → ∀ cf, (∀ i u, (g i).value u cf = pen i u) → ∀ u, (stackedDual n ks T g).2.2.value u cf = P u) ∧
      (0 < N → ∀ cf, (∀ i u, pen i u ≠ ⊤ → (g i).value u cf = pen i u) → ∀ u, P u ≠ ⊤ →
        (stackedDual n ks T g).2.2.value u cf = P u) := by
  obtain ⟨h1, P, h2, h3, h4, h5, h6, -⟩ := stacked_core n ks T g pen H hT hprox hrep
  exact ⟨h1, P, h2, h3, h4, h5, h6⟩

/-! ### the penalties of the library -/

/-- the function denoted by a seminorm atom is convex -/
lemma denoteAtom_convex (a : AtomObj (Fin (k + 1)) ℝ) (b : Bool) {r : ℝ} (hr : 0 ≤ r) : ConvexTop (denoteAtom a b r) := by
  have hkk : a.klass.conj.conj = a.klass := by cases a.klass <;> rfl
  have h := C13_atomFn_conjugate a.klass.conj (!b) hr (linearAt a.quad) (offAt a.offset)
    (-a.quad.const - dot (linearAt a.quad) (offAt a.offset))
  rw [hkk, Bool.not_not] at h
  have e : -(-a.quad.const - dot (linearAt a.quad) (offAt a.offset)) - dot (linearAt a.quad) (offAt a.offset) = a.quad.const := by
    ring
  rw [e] at h
  have hc := conj_convex h
  intro u v x y hu hv t ht ht1
  obtain ⟨h1, h2⟩ := hc u (by show denoteAtom a b r u ≠ ⊤; rw [hu]; exact WithTop.coe_ne_top) v
    (by show denoteAtom a b r v ≠ ⊤; rw [hv]; exact WithTop.coe_ne_top) (1 - t) t (by linarith) ht (by ring)
  obtain ⟨c, hcc⟩ := WithTop.ne_top_iff_exists.1 h1
  refine ⟨c, hcc.symm, ?_⟩
  have e1 : (atomFn a.klass b r (offAt a.offset) (linearAt a.quad) a.quad.const u).untopD 0 = x := by
    show (denoteAtom a b r u).untopD 0 = x; rw [hu]; rfl
  have e2 : (atomFn a.klass b r (offAt a.offset) (linearAt a.quad) a.quad.const v).untopD 0 = y := by
    show (denoteAtom a b r v).untopD 0 = y; rw [hv]; rfl
  dsimp only at h2
  rw [e1, e2, ← hcc] at h2
  exact h2

private lemma denoteAtom_base (a : AtomObj (Fin (k + 1)) ℝ) (b : Bool) (r : ℝ) (u : Fin (k + 1) → ℝ) :
    denoteAtom a b r u = atomBase a.klass b r (fun i => u i - offAt a.offset i) +
      ((dot (linearAt a.quad) u + a.quad.const : ℝ) : WithTop ℝ) := rfl

private lemma quadVal_lin (q : Quad (Fin (k + 1)) ℝ) (hq : q.coef = 0) (u : Fin (k + 1) → ℝ) :
    quadVal (some q) u = dot (linearAt q) u + q.const := by
  have e : denote q.linear = linearAt q := by
    funext i; unfold denote linearAt; rcases q.linear with _ | (c | c) <;> rfl
  unfold quadVal quadFn
  simp only [hq, e]
  unfold dot
  ring

/-- the proximal map of a seminorm atom without quadratic coefficient is that of the function it denotes -/
lemma atom_correct (a : AtomObj (Fin (k + 1)) ℝ) (b : Bool) (r : ℝ) (hm : InMode a b r) (hq : a.quad.coef = 0) :
    AtomCorrect a.proximal (denoteAtom a b r) := by
  intro q p hpos hp
  have h := obj_prox_min a b r hm q (by rw [hq, zero_add]; exact hpos) p hp
  have key : ∀ u, atomBase a.klass b r (fun i => u i - offAt a.offset i) ≠ ⊤ →
      ((quadVal (some q) u : ℝ) : WithTop ℝ) + denoteAtom a b r u =
        ((quadVal (some q) u + quadVal (some a.quad) u + (atomBase a.klass b r fun i => u i - offAt a.offset i).untopD 0 : ℝ) :
          WithTop ℝ) := by
    intro u hu
    obtain ⟨w, hw⟩ := WithTop.ne_top_iff_exists.1 hu
    rw [denoteAtom_base, quadVal_lin a.quad hq, ← hw, ← WithTop.coe_add, ← WithTop.coe_add, WithTop.untopD_coe]
    congr 1
    ring
  refine ⟨?_, fun z hz => ?_⟩
  · dsimp only; rw [key p h.1]; exact WithTop.coe_ne_top
  · dsimp only
    rw [key p h.1]
    by_cases hzt : atomBase a.klass b r (fun i => z i - offAt a.offset i) = ⊤
    · rw [denoteAtom_base, hzt, WithTop.top_add, WithTop.add_top]; exact WithTop.coe_lt_top _
    · rw [key z hzt, WithTop.coe_lt_coe]
      exact h.2 z hzt hz

/-- **C68** the penalties `cls.linear(D, ...)`, `cls.affine(D, α, ...)` of the seven seminorm classes, in penalty or bound
form, with any linear and constant term, satisfy the hypotheses of the other theorems: `dual` returns a pair which
represents them, whose atom is convex and has a correct proximal map. -/
theorem C68_seminorm_dual (c : Klass) (b : Bool) (r : ℝ) (hr : 0 ≤ r) (T l : Aff ℝ n (k + 1)) (hl : T.asOperator = some l)
    (hoff : l.off = .none) (α : Option (PyVec (Fin (k + 1)) ℝ)) (hα : ∀ s, α ≠ some (.scalar s))
    (q : Option (Quad (Fin (k + 1)) ℝ)) (hq : ∀ q', q = some q' → q'.coef = 0) :
    ∃ A D g, AtomObj.affine c T α (modeArgs b r).1 (modeArgs b r).2 q = some A ∧ A.dual = some (D, .atom g) ∧
      ∃ pen, AtomCorrect g.asDual.proximal pen ∧ ConvexTop pen ∧
        Represents D.lin pen (composedFn c b r T.lin (denote α) (quadArg q)) := by
  obtain ⟨A, D, g, h1, h2, h3, -, hm, hg0, hrep⟩ := C67_dual c b r hr T l hl hoff α hα q hq
  refine ⟨A, D, g, h1, h2, denoteAtom g (!b) r, atom_correct g (!b) r hm hg0, denoteAtom_convex g (!b) hr, ?_⟩
  intro x
  rw [h3]
  exact hrep x

/-! ### a concrete problem -/

/-- `½‖x‖² - ⟨y, x⟩` -/
noncomputable def quadF (y x : Fin n → ℝ) : WithTop ℝ := (((∑ i, (x i ^ 2 / 2 - y i * x i)) : ℝ) : WithTop ℝ)

lemma quadF_conj (y : Fin n → ℝ) : IsSmoothConjugate (quadF y) (fun z => 1 / 2 * ∑ i, (z i + y i) ^ 2) fun z i => z i + y i := by
  intro z
  refine ⟨⟨_, rfl, ?_⟩, fun x s hs hx => ?_⟩
  · unfold dot
    dsimp only
    rw [← Finset.sum_sub_distrib, Finset.mul_sum]
    exact Finset.sum_congr rfl fun i _ => by ring
  · have hs' : ∑ i, (x i ^ 2 / 2 - y i * x i) = s := WithTop.coe_inj.1 hs
    have h1 : 0 < sqDist x fun i => z i + y i := sqDist_pos hx
    have h2 : 1 / 2 * ∑ i, (z i + y i) ^ 2 - (dot z x - s) = 1 / 2 * sqDist x fun i => z i + y i := by
      rw [← hs']
      unfold dot sqDist
      rw [Finset.mul_sum, Finset.mul_sum, ← Finset.sum_sub_distrib, ← Finset.sum_sub_distrib]
      exact Finset.sum_congr rfl fun i _ => by ring
    linarith

lemma quadF_strong (y : Fin n → ℝ) : StronglyConvexTop 1 (quadF y) := by
  intro u v a b ha hb t ht ht1
  have ha' : ∑ i, (u i ^ 2 / 2 - y i * u i) = a := WithTop.coe_inj.1 ha
  have hb' : ∑ i, (v i ^ 2 / 2 - y i * v i) = b := WithTop.coe_inj.1 hb
  refine ⟨_, rfl, le_of_eq ?_⟩
  rw [← ha', ← hb']
  unfold sqDist
  simp only [Finset.mul_sum]
  rw [← Finset.sum_add_distrib, ← Finset.sum_sub_distrib]
  exact Finset.sum_congr rfl fun i _ => by ring

lemma quadF_eval (y : Fin n → ℝ) : Evaluates (Smooth.signalApproximator (fun i => -y i) 1)
    (fun z => 1 / 2 * ∑ i, (z i + y i) ^ 2) fun z i => z i + y i := by
  have h := C26_signal_approximator (fun i => -y i) 1
  simpa using h

/-- the hypotheses of the theorems hold for the one dimensional fused lasso `½‖x‖² - ⟨y,x⟩ + r Σ |x_{i+1} - x_i|` of any
size, the dual atom being the one the library computes -/
example (y : Fin (k + 2) → ℝ) (r : ℝ) (hr : 0 ≤ r) : ∃ (A : AffAtom (k + 2) k) (D : Aff ℝ (k + 2) (k + 1)) (g : AtomObj (Fin (k + 1)) ℝ) (V : (Fin (k + 2) → ℝ) → ℝ)
    (G : (Fin (k + 2) → ℝ) → Fin (k + 2) → ℝ) (pen : (Fin (k + 1) → ℝ) → WithTop ℝ),
    AtomObj.affine .l1norm (.matrix (fun i j => (if j = i.succ then 1 else 0) - if j = i.castSucc then 1 else 0) none) none
      (some r) none none = some A ∧ A.dual = some (D, .atom g) ∧
    Evaluates (DualProblem.mk (Smooth.signalApproximator (fun i => -y i) 1) D g.asDual).fc V G ∧
    IsSmoothConjugate (quadF y) V G ∧ StronglyConvexTop 1 (quadF y) ∧ ConvexTop pen ∧ AtomCorrect g.asDual.proximal pen ∧
    Represents D.lin pen (composedFn .l1norm false r
      (fun x i => ∑ j, ((if j = i.succ then 1 else 0) - if j = i.castSucc then 1 else 0) * x j) (denote none) (quadArg none)) := by
  obtain ⟨A, D, g, h1, h2, pen, h3, h4, h5⟩ := C68_seminorm_dual (n := k + 2) (k := k) .l1norm false r hr
    (.matrix (fun i j => (if j = i.succ then 1 else 0) - if j = i.castSucc then 1 else 0) none) _ rfl rfl none (by simp) none
    (by simp)
  exact ⟨A, D, g, _, _, pen, h1, h2, quadF_eval y, quadF_conj y, quadF_strong y, h4, h3, h5⟩

/-- **C68** fails for `solve(return_optimum=True)`: the value returned with the solution is the dual objective evaluated
at the primal point.  For `½x² - 3x + |x|`, solved exactly (`u = 1` minimises the dual objective), the solution `2` is
returned with the value `1/2`, while the minimum is `-2` (and that of the dual problem `2`). -/
theorem C68_return_optimum_fails :
    ∃ (P : DualProblem 1 1) (f H : (Fin 1 → ℝ) → WithTop ℝ) (x : Fin 1 → ℝ),
      P.solveOptimum [(fun _ => 1, .both)] = some (some ((1 / 2 : ℝ) : WithTop ℝ), x) ∧
      (∀ z : Fin 1 → ℝ, f z + H z = ((z 0 ^ 2 / 2 - 3 * z 0 + |z 0| : ℝ) : WithTop ℝ)) ∧
      IsUniqueMinTop (fun z => f z + H z) x ∧ f x + H x = ((-2 : ℝ) : WithTop ℝ) := by
  let g : AtomObj (Fin 1) ℝ := ⟨.supnorm, ⟨none, some 1⟩, none, ⟨0, some (.scalar 0), some (.scalar 0), 0⟩⟩
  let P : DualProblem 1 1 := ⟨Smooth.signalApproximator (fun i => -(fun _ => (3 : ℝ)) i) 1, .identity, AtomObj.asDual (k := 0) g⟩
  have hE : Evaluates P.fc _ _ := quadF_eval fun _ => 3
  have hs := dual_solve_eq P hE [(fun _ => 1, .both)] (fun _ => 1) ⟨[], .both, [], rfl, Or.inr rfl, by simp⟩
  have hx : (fun i : Fin 1 => negAdj P.T.adj (fun _ => 1) i + 3) = fun _ => (2 : ℝ) := by
    funext i
    show -(1 : ℝ) + 3 = 2
    norm_num
  refine ⟨P, quadF fun _ => 3, fun z => ((|z 0| : ℝ) : WithTop ℝ), fun _ => 2, ?_, ?_, ⟨?_, ?_⟩, ?_⟩
  · unfold DualProblem.solveOptimum
    rw [hs, hx, Option.map_some, C68_objective P _ _ hE]
    have hv : P.atom.value (fun _ => 2) false = ((0 : ℝ) : WithTop ℝ) := by
      show (AtomObj.nonsmoothObjective (n := 0) g (fun _ => 2) false).getD ⊤ = _
      simp [AtomObj.nonsmoothObjective, g, funcVal_eq, linearAt, PyVec.get]
    simp only [dualFn, hv]
    rw [← WithTop.coe_add]
    have e : P.T.adj (fun _ => 2) = fun _ => (2 : ℝ) := rfl
    rw [e]
    norm_num
  · intro z
    unfold quadF
    rw [← WithTop.coe_add]
    simp
  · dsimp only [quadF]; rw [← WithTop.coe_add]; exact WithTop.coe_ne_top
  · intro z hz
    dsimp only [quadF]
    rw [← WithTop.coe_add, ← WithTop.coe_add, WithTop.coe_lt_coe]
    simp only [Finset.univ_unique, Fin.default_eq_zero, Finset.sum_singleton]
    have hz0 : z 0 - 2 ≠ 0 := fun h => hz (funext fun i => by rw [Subsingleton.elim i 0]; linarith)
    have h1 : 0 < (z 0 - 2) ^ 2 := by positivity
    have h2 := le_abs_self (z 0)
    have h3 : |(2 : ℝ)| = 2 := by norm_num
    rw [h3]
    nlinarith
  · dsimp only [quadF]
    rw [← WithTop.coe_add]
    norm_num

end Verif.Props
