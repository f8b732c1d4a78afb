import Verif.Model.QuasiNewton
import Verif.Spec.Matrix
import Verif.Lemmas.ProxGrad
import Mathlib.Data.Fin.VecNotation
import Mathlib.Algebra.BigOperators.Field
import Mathlib.Tactic.NormNum

/-!
# C38: the quasi-Newton matrix
-/

set_option linter.unusedSectionVars false
set_option linter.unusedVariables false

namespace Verif.Props
open Verif.Model Verif.Lemmas Verif.Spec

variable {n : ℕ}

/-- One accepted pair of a history: old and new point, old and new gradient. -/
structure BfgsStep (n : ℕ) where
  oldSoln : Fin n → ℝ
  newSoln : Fin n → ℝ
  oldGrad : Fin n → ℝ
  newGrad : Fin n → ℝ

/-- gradient difference -/
def BfgsStep.y (p : BfgsStep n) : Fin n → ℝ := fun i => p.newGrad i - p.oldGrad i
/-- position difference -/
def BfgsStep.s (p : BfgsStep n) : Fin n → ℝ := fun i => p.newSoln i - p.oldSoln i

/-- The matrices reachable from `B0` by calls of `update_hessian` that did not fail, with the list of calls. -/
inductive Reaches (B0 : Fin n → Fin n → ℝ) : List (BfgsStep n) → (Fin n → Fin n → ℝ) → Prop
  | nil : Reaches B0 [] B0
  | snoc {h : List (BfgsStep n)} {B B' : Fin n → Fin n → ℝ} (p : BfgsStep n) :
      Reaches B0 h B → QN.updateHessian B p.oldSoln p.newSoln p.oldGrad p.newGrad = .ok B' →
      Reaches B0 (h ++ [p]) B'

private lemma update_ok {B B' : Fin n → Fin n → ℝ} {p : BfgsStep n}
    (h : QN.updateHessian B p.oldSoln p.newSoln p.oldGrad p.newGrad = .ok B') :
    dot p.y p.s ≠ 0 ∧ quadForm B p.s ≠ 0 ∧ -(1 / 100000) ≤ dot p.y p.s ∧
    B' = fun i j => B i j + (p.y i * p.y j / dot p.y p.s - matVec B p.s i * matVec B p.s j / quadForm B p.s) := by
  unfold QN.updateHessian at h
  simp only at h
  by_cases h1 : QN.vdot (fun i => p.newGrad i - p.oldGrad i) (fun i => p.newSoln i - p.oldSoln i) < -(1 / 100000)
  · rw [if_pos h1] at h; cases h
  · rw [if_neg h1] at h
    by_cases h2 : QN.vdot (fun i => p.newGrad i - p.oldGrad i) (fun i => p.newSoln i - p.oldSoln i) = 0 ∨
      QN.vdot (fun i => p.newSoln i - p.oldSoln i) (QN.mulVec B fun i => p.newSoln i - p.oldSoln i) = 0
    · rw [if_pos h2] at h; cases h
    · rw [if_neg h2] at h
      push Not at h2 h1
      refine ⟨h2.1, h2.2, h1, ?_⟩
      simp only [QN.Update.ok.injEq] at h
      exact h.symm

private lemma matVec_update (B : Fin n → Fin n → ℝ) (y w x : Fin n → ℝ) (a b : ℝ) (i : Fin n) :
    matVec (fun i j => B i j + (y i * y j / a - w i * w j / b)) x i =
      matVec B x i + (y i * (dot y x / a) - w i * (dot w x / b)) := by
  unfold matVec dot
  rw [Finset.sum_div, Finset.sum_div, Finset.mul_sum, Finset.mul_sum, ← Finset.sum_sub_distrib,
    ← Finset.sum_add_distrib]
  exact Finset.sum_congr rfl fun j _ => by ring

private lemma quadForm_update (B : Fin n → Fin n → ℝ) (y w x : Fin n → ℝ) (a b : ℝ) :
    quadForm (fun i j => B i j + (y i * y j / a - w i * w j / b)) x =
      quadForm B x + ((dot y x) ^ 2 / a - (dot w x) ^ 2 / b) := by
  unfold quadForm
  have : dot x (matVec (fun i j => B i j + (y i * y j / a - w i * w j / b)) x) =
      dot x (matVec B x) + (dot x y * (dot y x / a) - dot x w * (dot w x / b)) := by
    conv_lhs => unfold dot
    simp only [matVec_update]
    unfold dot
    rw [Finset.sum_mul, Finset.sum_mul, ← Finset.sum_sub_distrib, ← Finset.sum_add_distrib]
    exact Finset.sum_congr rfl fun j _ => by ring
  rw [this, dot_comm' x y, dot_comm' x w]
  ring

lemma matVec_symm (B : Fin n → Fin n → ℝ) (h : IsSymm B) (x z : Fin n → ℝ) :
    dot (matVec B x) z = dot x (matVec B z) := by
  unfold dot matVec
  simp only [Finset.sum_mul, Finset.mul_sum]
  rw [Finset.sum_comm]
  refine Finset.sum_congr rfl fun i _ => Finset.sum_congr rfl fun j _ => ?_
  rw [h j i]; ring

lemma quadForm_lin (B : Fin n → Fin n → ℝ) (h : IsSymm B) (x s : Fin n → ℝ) (t : ℝ) :
    quadForm B (fun i => x i - t * s i) = quadForm B x - 2 * t * dot (matVec B s) x + t ^ 2 * quadForm B s := by
  have e : matVec B (fun i => x i - t * s i) = fun i => matVec B x i - t * matVec B s i := by
    funext i; unfold matVec; rw [Finset.mul_sum, ← Finset.sum_sub_distrib]
    exact Finset.sum_congr rfl fun j _ => by ring
  have h1 := matVec_symm B h s x
  unfold quadForm
  rw [e, h1]
  have h2 : dot s (matVec B x) = dot (matVec B s) x := h1.symm
  have h3 : dot x (matVec B s) = dot (matVec B s) x := dot_comm' _ _
  have : dot (fun i => x i - t * s i) (fun i => matVec B x i - t * matVec B s i) =
      dot x (matVec B x) - t * dot x (matVec B s) - t * dot s (matVec B x) + t ^ 2 * dot s (matVec B s) := by
    unfold dot
    rw [Finset.mul_sum, Finset.mul_sum, Finset.mul_sum, ← Finset.sum_sub_distrib, ← Finset.sum_sub_distrib,
      ← Finset.sum_add_distrib]
    exact Finset.sum_congr rfl fun j _ => by ring
  rw [this, h3, ← h2]; ring

private lemma cauchy (B : Fin n → Fin n → ℝ) (h : IsPosDef B) (x s : Fin n → ℝ) (hs : s ≠ 0) :
    (dot (matVec B s) x) ^ 2 ≤ quadForm B s * quadForm B x ∧
    ((dot (matVec B s) x) ^ 2 = quadForm B s * quadForm B x →
      x = fun i => dot (matVec B s) x / quadForm B s * s i) := by
  have hps := h.2 s hs
  set t := dot (matVec B s) x / quadForm B s with ht
  have e := quadForm_lin B h.1 x s t
  have e2 : quadForm B s * quadForm B (fun i => x i - t * s i) =
      quadForm B s * quadForm B x - (dot (matVec B s) x) ^ 2 := by
    rw [e, ht]; field_simp; ring
  constructor
  · by_cases hz : (fun i => x i - t * s i) = 0
    · rw [hz] at e2
      have : quadForm B 0 = 0 := by simp [quadForm, dot]
      rw [this] at e2; linarith
    · have := mul_pos hps (h.2 _ hz); linarith
  · intro heq
    by_contra hne
    have hz : (fun i => x i - t * s i) ≠ 0 := fun hz => hne (by
      funext i; have := congrFun hz i; simp only [Pi.zero_apply] at this; linarith)
    have := mul_pos hps (h.2 _ hz)
    linarith

/-- C38: after every accepted update the secant equation `B' s = y` holds (no assumption on the matrix, the points
or the sign of the curvature). -/
theorem C38_secant (B B' : Fin n → Fin n → ℝ) (p : BfgsStep n)
    (h : QN.updateHessian B p.oldSoln p.newSoln p.oldGrad p.newGrad = .ok B') :
    matVec B' (fun i => p.newSoln i - p.oldSoln i) = fun i => p.newGrad i - p.oldGrad i := by
  obtain ⟨h1, h2, -, rfl⟩ := update_ok h
  funext i
  have e := matVec_update B p.y (matVec B p.s) p.s (dot p.y p.s) (quadForm B p.s) i
  have e3 : dot (matVec B p.s) p.s = quadForm B p.s := dot_comm' _ _
  rw [e3, div_self h1, div_self h2] at e
  exact e.trans (by simp [BfgsStep.y])

/-- C38: an accepted update with positive curvature `y·s > 0` keeps a symmetric positive definite matrix symmetric
positive definite. -/
theorem C38_posDef_step (B B' : Fin n → Fin n → ℝ) (p : BfgsStep n) (hB : IsPosDef B)
    (hc : 0 < dot p.y p.s)
    (h : QN.updateHessian B p.oldSoln p.newSoln p.oldGrad p.newGrad = .ok B') : IsPosDef B' := by
  obtain ⟨h1, h2, -, rfl⟩ := update_ok h
  have hs : p.s ≠ 0 := by intro e; rw [e] at hc; simp [dot] at hc
  refine ⟨fun i j => ?_, fun x hx => ?_⟩
  · simp only
    rw [hB.1 i j]; ring
  · rw [quadForm_update]
    obtain ⟨hc1, hc2⟩ := cauchy B hB x p.s hs
    have hps := hB.2 p.s hs
    have hd : (dot (matVec B p.s) x) ^ 2 / quadForm B p.s ≤ quadForm B x := by
      rw [div_le_iff₀ hps]; linarith
    have hy : 0 ≤ (dot p.y x) ^ 2 / dot p.y p.s := div_nonneg (sq_nonneg _) hc.le
    rcases lt_or_eq_of_le hd with hlt | heq
    · linarith
    · have hx' := hc2 (by rw [div_eq_iff h2] at heq; linarith)
      set t := dot (matVec B p.s) x / quadForm B p.s with ht
      have htne : t ≠ 0 := by
        intro e; apply hx; rw [hx', e]; funext i; simp
      have hyx : dot p.y x = t * dot p.y p.s := by
        rw [hx']; unfold dot; rw [Finset.mul_sum]; exact Finset.sum_congr rfl fun i _ => by ring
      have : 0 < (dot p.y x) ^ 2 / dot p.y p.s := by
        apply div_pos _ hc
        rw [hyx]
        have := mul_ne_zero htne h1
        positivity
      linarith

/-- C38 (partial): from a symmetric positive definite start, positive definiteness is preserved over the whole
history of accepted updates, provided every accepted pair has positive curvature.  Missing: the code also accepts
pairs with `-1e-5 ≤ y·s < 0` (`C38_negative_curvature_fails`). -/
theorem C38_history_partial (B0 B : Fin n → Fin n → ℝ) (hist : List (BfgsStep n)) (h0 : IsPosDef B0)
    (hc : ∀ p ∈ hist, 0 < dot p.y p.s) (h : Reaches B0 hist B) : IsPosDef B := by
  induction h with
  | nil => exact h0
  | snoc p hr hu ih =>
    exact C38_posDef_step _ _ p (ih fun q hq => hc q (List.mem_append_left _ hq)) (hc p (by simp)) hu

/-- C38: the initial matrix of the constructor is symmetric positive definite for every symmetric positive
semidefinite guess other than 0. -/
theorem C38_init (H0 : Fin n → Fin n → ℝ) (h : IsPosSemidef H0) (hd : ∃ k, H0 k k ≠ 0) :
    IsPosDef (QN.initHessian H0) := by
  have hdiag : ∀ k, 0 ≤ H0 k k := by
    intro k
    have := h.2 (Pi.single k 1)
    simpa [quadForm, dot, matVec, Pi.single_apply] using this
  obtain ⟨k, hk⟩ := hd
  have hn : 0 < (n : ℝ) := by exact_mod_cast (Fin.pos k)
  have hm : 0 < (∑ k, H0 k k) / n := by
    apply div_pos _ hn
    exact Finset.sum_pos' (fun i _ => hdiag i) ⟨k, Finset.mem_univ k, lt_of_le_of_ne (hdiag k) hk.symm⟩
  refine ⟨fun i j => ?_, fun x hx => ?_⟩
  · simp only [QN.initHessian, h.1 i j, eq_comm]
  · have e : quadForm (QN.initHessian H0) x = quadForm H0 x + (∑ k, H0 k k) / n * ∑ i, x i ^ 2 := by
      unfold quadForm dot matVec QN.initHessian
      rw [Finset.mul_sum, ← Finset.sum_add_distrib]
      refine Finset.sum_congr rfl fun i _ => ?_
      simp only [add_mul, Finset.sum_add_distrib, mul_add, one_mul]
      congr 1
      rw [Finset.sum_eq_single i]
      · simp; ring
      · intro j _ hj; rw [if_neg hj.symm]; ring
      · simp
    rw [e]
    have h1 := h.2 x
    have h2 : 0 < ∑ i, x i ^ 2 := by
      obtain ⟨i, hi⟩ := Function.ne_iff.1 hx
      have hi' : x i ≠ 0 := by simpa using hi
      exact Finset.sum_pos' (fun i _ => sq_nonneg _) ⟨i, Finset.mem_univ i, by positivity⟩
    have := mul_pos hm h2
    linarith

/-- C38: gradients of a convex loss never make the update raise: the curvature of any two points is nonnegative. -/
theorem C38_convex_never_raises (f : (Fin n → ℝ) → ℝ) (g : (Fin n → ℝ) → Fin n → ℝ) (hf : ConvexWithGradient f g)
    (B : Fin n → Fin n → ℝ) (x z : Fin n → ℝ) :
    0 ≤ dot (fun i => g z i - g x i) (fun i => z i - x i) ∧
    QN.updateHessian B x z (g x) (g z) ≠ .valueError := by
  have h1 := tangent hf x z
  have h2 := tangent hf z x
  have hpos : 0 ≤ dot (fun i => g z i - g x i) (fun i => z i - x i) := by
    have e : dot (fun i => g z i - g x i) (fun i => z i - x i) =
        -(dot (g z) (fun i => x i - z i)) - dot (g x) (fun i => z i - x i) := by
      unfold dot
      rw [← Finset.sum_neg_distrib, ← Finset.sum_sub_distrib]
      exact Finset.sum_congr rfl fun i _ => by ring
    rw [e]; linarith
  refine ⟨hpos, ?_⟩
  unfold QN.updateHessian
  simp only
  rw [if_neg (by
    have : QN.vdot (fun i => g z i - g x i) (fun i => z i - x i) =
      dot (fun i => g z i - g x i) (fun i => z i - x i) := rfl
    rw [this]; linarith)]
  split_ifs <;> simp

/-- `g` is strictly monotone: two distinct points have positive curvature. -/
def StrictlyMonotone (g : (Fin n → ℝ) → Fin n → ℝ) : Prop :=
  ∀ x z, x ≠ z → 0 < dot (fun i => g z i - g x i) (fun i => z i - x i)

private lemma loop_posDef [NeZero n] (o : QN.Oracles n) (hg : StrictlyMonotone o.grad) (k : ℕ) :
    ∀ (q : Option (Fin n → ℝ)) (s : QN.State n), IsPosDef s.hessian →
      QN.loop o k q s ≠ .valueError ∧
      (∀ s' x, QN.loop o k q s = .done s' x → IsPosDef s'.hessian) ∧
      (QN.loop o k q s = .nonfinite → ∃ s' : QN.State n, IsPosDef s'.hessian ∧ QN.nextCoefs o s' = s'.coefs ∧
        s'.coefs = 0) := by
  induction k with
  | zero =>
    intro q s hs
    rcases q with _ | q
    · simp [QN.loop]
    · refine ⟨by simp [QN.loop], ?_, by simp [QN.loop]⟩
      intro s' x h
      simp only [QN.loop, QN.Outcome.done.injEq] at h
      rw [← h.1]; exact hs
  | succ k ih =>
    intro q s hs
    unfold QN.loop
    simp only
    by_cases hcv : QN.converged s.coefs (QN.nextCoefs o s)
    · rw [if_pos hcv]
      refine ⟨by simp, ?_, by simp⟩
      intro s' x h
      simp only [QN.Outcome.done.injEq] at h
      rw [← h.1]; exact hs
    · rw [if_neg hcv]
      by_cases hne : s.coefs = QN.nextCoefs o s
      · -- no move: the test `0 < 1e-6 * norm` failed, so the new point is 0
        have hzero : s.coefs = 0 := by
          by_contra hz
          apply hcv
          rw [← hne]
          unfold QN.converged
          simp only [sub_self, abs_zero, Finset.sup'_const]
          apply mul_pos (by norm_num)
          apply Real.sqrt_pos.2
          obtain ⟨i, hi⟩ := Function.ne_iff.1 hz
          have hi' : s.coefs i ≠ 0 := by simpa using hi
          exact Finset.sum_pos' (fun i _ => sq_nonneg _) ⟨i, Finset.mem_univ i, by positivity⟩
        have hu : QN.updateHessian s.hessian s.coefs (QN.nextCoefs o s) (o.grad s.coefs)
            (o.grad (QN.nextCoefs o s)) = .nonfinite := by
          rw [← hne]
          unfold QN.updateHessian
          simp [QN.vdot]
        rw [hu]
        exact ⟨by simp, by simp, fun _ => ⟨s, hs, hne.symm, hzero⟩⟩
      · have hcurv := hg _ _ hne
        cases hu : QN.updateHessian s.hessian s.coefs (QN.nextCoefs o s) (o.grad s.coefs)
            (o.grad (QN.nextCoefs o s)) with
        | ok B =>
          simp only
          exact ih _ _ (C38_posDef_step s.hessian B ⟨s.coefs, QN.nextCoefs o s, o.grad s.coefs,
            o.grad (QN.nextCoefs o s)⟩ hs hcurv hu)
        | valueError =>
          exfalso
          unfold QN.updateHessian at hu
          simp only at hu
          rw [if_neg (by
            have e : QN.vdot (fun i => o.grad (QN.nextCoefs o s) i - o.grad s.coefs i)
              (fun i => QN.nextCoefs o s i - s.coefs i) = dot _ _ := rfl
            rw [e]; linarith)] at hu
          split_ifs at hu
        | nonfinite =>
          exfalso
          unfold QN.updateHessian at hu
          simp only at hu
          have e : QN.vdot (fun i => o.grad (QN.nextCoefs o s) i - o.grad s.coefs i)
              (fun i => QN.nextCoefs o s i - s.coefs i) = dot _ _ := rfl
          have e' : QN.vdot (fun i => QN.nextCoefs o s i - s.coefs i)
              (QN.mulVec s.hessian fun i => QN.nextCoefs o s i - s.coefs i) = quadForm s.hessian _ := rfl
          rw [if_neg (by rw [e]; linarith), if_neg] at hu
          · cases hu
          · push Not
            refine ⟨by rw [e]; exact hcurv.ne', ?_⟩
            rw [e']
            refine (hs.2 _ fun hz => hne ?_).ne'
            funext i
            have := congrFun hz i
            simp only [Pi.zero_apply] at this
            linarith

/-- C38: in a run of `quasi_newton.solve` on a loss with strictly monotone gradient, whatever the inner solver and
the line search return, the update never raises, the matrix is symmetric positive definite at the end, and the
matrix can only become non-finite when the run sits at the point 0 and the computed step is 0. -/
theorem C38_solve [NeZero n] (o : QN.Oracles n) (hg : StrictlyMonotone o.grad) (H0 : Fin n → Fin n → ℝ)
    (h0 : IsPosSemidef H0) (hd : ∃ k, H0 k k ≠ 0) (x0 : Fin n → ℝ) (niter : ℕ) :
    QN.solve o H0 x0 niter ≠ .valueError ∧
    (∀ s x, QN.solve o H0 x0 niter = .done s x → IsPosDef s.hessian) ∧
    (QN.solve o H0 x0 niter = .nonfinite → ∃ s : QN.State n, IsPosDef s.hessian ∧ QN.nextCoefs o s = s.coefs ∧
        s.coefs = 0) :=
  loop_posDef o hg niter none _ (C38_init H0 h0 hd)

/-- the second order model minimised by the inner loop, `newton.py:234-236` of the docstring:
`G·(u - x) + ½ (u - x)ᵀ B (u - x) + P(u)` -/
noncomputable def taylorModel (P : (Fin n → ℝ) → ℝ) (B : Fin n → Fin n → ℝ) (G x : Fin n → ℝ) (u : Fin n → ℝ) : ℝ :=
  dot G (fun i => u i - x i) + quadForm B (fun i => u i - x i) / 2 + P u

/-- C38: the problem handed to the inner solver, `½ uᵀBu + (G - Bx)·u + P(u)`, has the documented second order model
as objective up to a constant. -/
theorem C38_inner_problem (o : QN.Oracles n) (P : (Fin n → ℝ) → ℝ) (s : QN.State n) (hs : IsSymm s.hessian) :
    ∃ c : ℝ, ∀ u, quadForm s.hessian u / 2 + dot (QN.linearTerm o s) u + P u =
      taylorModel P s.hessian (o.grad s.coefs) s.coefs u + c := by
  refine ⟨dot (o.grad s.coefs) s.coefs - quadForm s.hessian s.coefs / 2, fun u => ?_⟩
  unfold taylorModel
  have e := quadForm_lin s.hessian hs u s.coefs 1
  have e1 : (fun i => u i - 1 * s.coefs i) = fun i => u i - s.coefs i := by funext i; ring
  rw [e1] at e
  have e2 : dot (QN.linearTerm o s) u = dot (o.grad s.coefs) u - dot (matVec s.hessian s.coefs) u := by
    unfold dot QN.linearTerm
    rw [← Finset.sum_sub_distrib]
    exact Finset.sum_congr rfl fun i _ => by rw [sub_mul]; rfl
  rw [e, e2, dot_sub_right]
  ring

/-- C38: a point is a fixed point of the exact inner problem exactly when it minimises the composite objective
(convex loss, convex penalty, positive definite matrix). -/
theorem C38_fixed_point (f P : (Fin n → ℝ) → ℝ) (g : (Fin n → ℝ) → Fin n → ℝ) (S : Set (Fin n → ℝ))
    (hf : ConvexWithGradient f g) (hP : IsConvexFnOn P S) (B : Fin n → Fin n → ℝ) (hB : IsPosDef B)
    (x : Fin n → ℝ) :
    Minimises (taylorModel P B (g x) x) S x ↔ Minimises (fun u => f u + P u) S x := by
  have hpsd : ∀ u, 0 ≤ quadForm B u := by
    intro u
    by_cases h : u = 0
    · rw [h]; simp [quadForm, dot]
    · exact (hB.2 u h).le
  have hx0 : taylorModel P B (g x) x x = P x := by
    unfold taylorModel
    have : (fun i => x i - x i) = (0 : Fin n → ℝ) := by funext i; simp
    rw [this]; simp [quadForm, dot]
  constructor
  · rintro ⟨hxS, hm⟩
    refine ⟨hxS, fun u hu => ?_⟩
    -- the directional derivative of the model at x towards u is nonnegative
    have key : 0 ≤ dot (g x) (fun i => u i - x i) + (P u - P x) := by
      by_contra hneg
      push Not at hneg
      set c := dot (g x) (fun i => u i - x i) + (P u - P x) with hc
      set Q := quadForm B (fun i => u i - x i) with hQ
      have hQ0 : 0 ≤ Q := hpsd _
      -- small step
      obtain ⟨t, ht0, ht1, htq⟩ : ∃ t : ℝ, 0 < t ∧ t ≤ 1 ∧ t * Q < -c := by
        refine ⟨min 1 (-c / (2 * (Q + 1))), lt_min one_pos (div_pos (by linarith) (by linarith)), min_le_left _ _, ?_⟩
        have h1 : min 1 (-c / (2 * (Q + 1))) ≤ -c / (2 * (Q + 1)) := min_le_right _ _
        have h2 : -c / (2 * (Q + 1)) * (Q + 1) = -c / 2 := by field_simp
        have h3 : 0 < -c / (2 * (Q + 1)) := div_pos (by linarith) (by linarith)
        nlinarith [mul_le_mul_of_nonneg_right h1 hQ0]
      obtain ⟨hw, hPw⟩ := hP x hxS u hu (1 - t) t (by linarith) ht0.le (by ring)
      have hmw := hm _ hw
      rw [hx0] at hmw
      unfold taylorModel at hmw
      have ed : (fun i => (1 - t) * x i + t * u i - x i) = fun i => t * (u i - x i) := by funext i; ring
      have e1 : dot (g x) (fun i => t * (u i - x i)) = t * dot (g x) (fun i => u i - x i) := by
        unfold dot; rw [Finset.mul_sum]; exact Finset.sum_congr rfl fun i _ => by ring
      have e2 : quadForm B (fun i => t * (u i - x i)) = t ^ 2 * Q := by
        rw [hQ]; unfold quadForm dot matVec; rw [Finset.mul_sum]
        refine Finset.sum_congr rfl fun i _ => ?_
        rw [Finset.mul_sum, Finset.mul_sum, Finset.mul_sum]
        exact Finset.sum_congr rfl fun j _ => by ring
      rw [ed, e1, e2] at hmw
      have : 0 ≤ t * (c + t * Q / 2) := by rw [hc]; nlinarith
      have h4 : c + t * Q / 2 < 0 := by nlinarith [mul_nonneg ht0.le hQ0]
      nlinarith
    have := tangent hf x u
    simp only
    linarith
  · rintro ⟨hxS, hm⟩
    refine ⟨hxS, fun u hu => ?_⟩
    rw [hx0]
    have h1 : -(P u - P x) ≤ dot (g x) (fun i => u i - x i) := by
      refine dir_ge (hf.gradient x) _ _ fun t ht ht1 => ?_
      obtain ⟨hw, hPw⟩ := hP x hxS u hu (1 - t) t (by linarith) ht.le (by ring)
      have := hm _ hw
      simp only at this
      have e : (fun i => x i + t * (u i - x i)) = fun i => (1 - t) * x i + t * u i := by funext i; ring
      rw [e]; nlinarith
    unfold taylorModel
    have := hpsd (fun i => u i - x i)
    linarith

/-- concrete case: one accepted update with positive curvature in dimension 2 -/
example : ∃ B', QN.updateHessian (n := 2) (fun i j => if i = j then 1 else 0) ![0, 0] ![1, 0] ![0, 0] ![2, 1] = .ok B' ∧
    0 < dot (BfgsStep.y (⟨![0, 0], ![1, 0], ![0, 0], ![2, 1]⟩ : BfgsStep 2))
      (BfgsStep.s ⟨![0, 0], ![1, 0], ![0, 0], ![2, 1]⟩) := by
  have h : ∃ B', QN.updateHessian (n := 2) (fun i j => if i = j then 1 else 0) ![0, 0] ![1, 0] ![0, 0] ![2, 1] =
      .ok B' := by
    unfold QN.updateHessian
    simp only
    rw [if_neg (by simp [QN.vdot]; norm_num), if_neg (by simp [QN.vdot, QN.mulVec])]
    exact ⟨_, rfl⟩
  obtain ⟨B', hB⟩ := h
  exact ⟨B', hB, by simp [dot, BfgsStep.y, BfgsStep.s]⟩

/-- the gradient of `½‖x‖²` is strictly monotone -/
example : StrictlyMonotone (n := n) (fun x => x) := by
  intro x z h
  have : dot (fun i => z i - x i) (fun i => z i - x i) = sqDist z x := by
    unfold dot sqDist; exact Finset.sum_congr rfl fun i _ => by ring
  rw [this]; exact sqDist_pos h.symm

/-- C38 fails as stated: an update with slightly negative curvature is accepted and destroys positive
definiteness. -/
theorem C38_negative_curvature_fails : ∃ (B B' : Fin 1 → Fin 1 → ℝ) (x z gx gz : Fin 1 → ℝ),
    IsPosDef B ∧ QN.updateHessian B x z gx gz = .ok B' ∧ ¬ IsPosDef B' := by
  have hok : QN.updateHessian (fun _ _ : Fin 1 => 1) (fun _ => 0) (fun _ => 1 / 1000) (fun _ => 0) (fun _ => -(1 / 1000))
      = .ok (fun _ _ => -1) := by
    unfold QN.updateHessian
    simp only
    rw [if_neg (by simp [QN.vdot]; norm_num), if_neg (by simp [QN.vdot, QN.mulVec])]
    congr
    funext i j
    simp [QN.vdot, QN.mulVec]
  refine ⟨_, _, _, _, _, _, ⟨fun _ _ => rfl, fun x hx => ?_⟩, hok, fun h => ?_⟩
  · have : x 0 ≠ 0 := fun e => hx (by funext i; rw [Subsingleton.elim i 0]; exact e)
    simp [quadForm, dot, matVec]
    positivity
  · have := h.2 (fun _ => 1) (fun e => by simpa using congrFun e 0)
    simp [quadForm, dot, matVec] at this
    linarith

/-- C38 fails as stated: when the solution is 0 and the run starts there, as in a lasso with large lagrange, the
convergence test compares `0 < 0`, the update divides by zero and the matrix becomes non-finite. -/
theorem C38_null_solution_fails : ∃ (o : QN.Oracles 1) (H0 : Fin 1 → Fin 1 → ℝ), StrictlyMonotone o.grad ∧
    IsPosDef H0 ∧ (∀ B lin x, Minimises (fun u => quadForm B u / 2 + dot lin u + 10 * |u 0|) Set.univ (o.inner B lin x) ∨
      ¬ (IsPosDef B ∧ |lin 0| ≤ 10)) ∧
    QN.solve o H0 0 30 = .nonfinite := by
  refine ⟨⟨fun x i => x i - 1, fun _ _ _ => 0, fun _ _ => 1⟩, fun _ _ => 1, ?_, ⟨fun _ _ => rfl, fun x hx => ?_⟩, ?_, ?_⟩
  · intro x z h
    have : dot (fun i => z i - 1 - (x i - 1)) (fun i => z i - x i) = sqDist z x := by
      unfold dot sqDist; exact Finset.sum_congr rfl fun i _ => by ring
    rw [this]; exact sqDist_pos h.symm
  · have : x 0 ≠ 0 := fun e => hx (by funext i; rw [Subsingleton.elim i 0]; exact e)
    simp [quadForm, dot, matVec]
    positivity
  · intro B lin x
    by_cases hh : IsPosDef B ∧ |lin 0| ≤ 10
    · left
      refine ⟨trivial, fun u _ => ?_⟩
      have h1 : 0 ≤ quadForm B u := by
        by_cases h : u = 0
        · rw [h]; simp [quadForm, dot]
        · exact (hh.1.2 u h).le
      have h2 : -(10 * |u 0|) ≤ dot lin u := by
        have : dot lin u = lin 0 * u 0 := by simp [dot]
        rw [this]
        have := neg_abs_le (lin 0 * u 0)
        rw [abs_mul] at this
        nlinarith [mul_le_mul_of_nonneg_right hh.2 (abs_nonneg (u 0))]
      have h3 : quadForm B 0 / 2 + dot lin 0 + 10 * |(0 : Fin 1 → ℝ) 0| = 0 := by simp [quadForm, dot]
      simp only
      rw [h3]; linarith
    · right; exact hh
  · unfold QN.solve
    rw [QN.loop]
    have hnext : ∀ H, QN.nextCoefs (n := 1) ⟨fun x i => x i - 1, fun _ _ _ => 0, fun _ _ => 1⟩ ⟨H, 0⟩ = 0 := by
      intro H; funext i; simp [QN.nextCoefs, QN.innerSoln]
    dsimp only
    rw [hnext, if_neg (by simp [QN.converged])]
    have : ∀ H, QN.updateHessian (n := 1) H 0 0 (fun i => (0 : Fin 1 → ℝ) i - 1) (fun i => (0 : Fin 1 → ℝ) i - 1)
        = .nonfinite := by
      intro H; unfold QN.updateHessian; simp [QN.vdot]
    rw [this]

end Verif.Props
