import Verif.Props.C117_ContainerAccuracy
import Verif.Props.C116_ConstraintInContainer

/-!
# C117: the isotonic program of C116 with the solver of the library
-/

set_option linter.unusedSectionVars false
set_option linter.unusedVariables false

namespace Verif.Props
open Verif.Model Verif.Model.Fista Verif.Lemmas Verif.Spec

variable {k : ℕ}

private lemma telescope (N : ℕ) : ∀ (x : Fin (N + 1) → ℝ) (j : Fin (N + 1)),
    ∑ i : Fin N, (if j ≤ i.castSucc then x i.succ - x i.castSucc else 0) = x (Fin.last N) - x j := by
  induction N with
  | zero => intro x j; have : j = Fin.last 0 := Fin.ext (by have := j.isLt; simp)
            rw [this]; simp
  | succ N ih =>
    intro x j
    rw [Fin.sum_univ_castSucc]
    induction j using Fin.lastCases with
    | last =>
      have h0 : ∀ i : Fin (N + 1), ¬ Fin.last (N + 1) ≤ i.castSucc := fun i h => by
        have := i.isLt
        have h' : N + 1 ≤ i.val := h
        omega
      simp [h0]
    | cast j =>
      have h1 := ih (fun i => x i.castSucc) j
      have h2 : ∑ i : Fin N, (if j.castSucc ≤ i.castSucc.castSucc then x i.castSucc.succ - x i.castSucc.castSucc else 0) =
          x (Fin.last N).castSucc - x j.castSucc := by
        rw [← h1]
        refine Finset.sum_congr rfl fun i _ => ?_
        simp only [Fin.castSucc_le_castSucc_iff, Fin.succ_castSucc]
      rw [h2, if_pos (by rw [Fin.castSucc_le_castSucc_iff]; exact Fin.le_last j)]
      rw [Fin.succ_last]
      ring

private lemma abel (w x : Fin (k + 2) → ℝ) :
    ∑ i : Fin (k + 1), (∑ j, if j ≤ i.castSucc then w j else 0) * (x i.succ - x i.castSucc) =
      x (Fin.last (k + 1)) * ∑ j, w j - ∑ j, w j * x j := by
  have h1 : ∀ i : Fin (k + 1), (∑ j, if j ≤ i.castSucc then w j else 0) * (x i.succ - x i.castSucc) =
      ∑ j, w j * (if j ≤ i.castSucc then x i.succ - x i.castSucc else 0) := by
    intro i
    rw [Finset.sum_mul]
    exact Finset.sum_congr rfl fun j _ => by split <;> ring
  simp_rw [h1]
  rw [Finset.sum_comm]
  simp_rw [← Finset.mul_sum, telescope (k + 1) x]
  rw [Finset.mul_sum, ← Finset.sum_sub_distrib]
  exact Finset.sum_congr rfl fun j _ => by ring

private lemma variational {Y t : Fin (k + 2) → ℝ} (ht : Monotone t)
    (hbest : ∀ x, Monotone x → x ≠ t → ∑ i, (Y i - t i) ^ 2 < ∑ i, (Y i - x i) ^ 2) (x : Fin (k + 2) → ℝ) (hx : Monotone x) :
    ∑ i, (Y i - t i) * (x i - t i) ≤ 0 := by
  by_contra hA
  push Not at hA
  set A := ∑ i, (Y i - t i) * (x i - t i) with hAd
  set B := ∑ i, (x i - t i) ^ 2 with hBd
  have hB : 0 ≤ B := Finset.sum_nonneg fun i _ => sq_nonneg _
  set h := min 1 (A / (B + 1)) with hh
  have h0 : 0 < h := lt_min one_pos (by positivity)
  have h1 : h ≤ 1 := min_le_left _ _
  have h2 : h * (B + 1) ≤ A := by
    have := min_le_right 1 (A / (B + 1))
    rw [← hh] at this
    exact (le_div_iff₀ (by positivity)).1 this
  have hm : Monotone fun i => (1 - h) * t i + h * x i := fun a b hab => by
    have e1 := mul_le_mul_of_nonneg_left (ht hab) (by linarith : 0 ≤ 1 - h)
    have e2 := mul_le_mul_of_nonneg_left (hx hab) h0.le
    dsimp only
    linarith
  have hle : ∑ i, (Y i - t i) ^ 2 ≤ ∑ i, (Y i - ((1 - h) * t i + h * x i)) ^ 2 := by
    by_cases e : (fun i => (1 - h) * t i + h * x i) = t
    · have : ∀ i, (1 - h) * t i + h * x i = t i := fun i => congrFun e i
      simp only [this]; exact le_refl _
    · exact (hbest _ hm e).le
  have e : ∑ i, (Y i - ((1 - h) * t i + h * x i)) ^ 2 = ∑ i, (Y i - t i) ^ 2 - 2 * h * A + h ^ 2 * B := by
    rw [hAd, hBd, Finset.mul_sum, Finset.mul_sum, ← Finset.sum_sub_distrib, ← Finset.sum_add_distrib]
    exact Finset.sum_congr rfl fun i _ => by ring
  rw [e] at hle
  have h3 : h * (2 * A) ≤ h * (h * B) := by nlinarith
  have h4 := le_of_mul_le_mul_left h3 h0
  nlinarith

private lemma rise_bound (x : Fin (k + 2) → ℝ) : ∑ i : Fin (k + 1), (x i.succ - x i.castSucc) ^ 2 ≤ 4 * ∑ j, x j ^ 2 := by
  have h1 : ∑ i : Fin (k + 1), (x i.succ - x i.castSucc) ^ 2 ≤ ∑ i : Fin (k + 1), (2 * x i.succ ^ 2 + 2 * x i.castSucc ^ 2) :=
    Finset.sum_le_sum fun i _ => by nlinarith [sq_nonneg (x i.succ + x i.castSucc)]
  rw [Finset.sum_add_distrib, ← Finset.mul_sum, ← Finset.mul_sum] at h1
  have h2 : ∑ j, x j ^ 2 = x 0 ^ 2 + ∑ i : Fin (k + 1), x i.succ ^ 2 := Fin.sum_univ_succ _
  have h3 : ∑ j, x j ^ 2 = ∑ i : Fin (k + 1), x i.castSucc ^ 2 + x (Fin.last (k + 1)) ^ 2 := Fin.sum_univ_castSucc _
  nlinarith [sq_nonneg (x 0), sq_nonneg (x (Fin.last (k + 1)))]

/-- **C117** (partial: monotonicity restarts switched off)  Isotonic regression as a program, with the solver of the library:
`container(signal_approximator(Y, c), nonnegative.linear(D)).proximal(identity_quadratic(c, Y, 0, 0), prox_control)`, `D` the
first differences and `dual_reference_lipschitz = ρ ≥ 4`, returns a vector `p`, and if `s` is the fit of the pool adjacent
violators routine of the library and `m` the length of the history,
`(m + 1)² ‖p - s‖² ≤ 4 ρ Σᵢ Sᵢ²`, where `Sᵢ` is the sum of the first residuals `Yⱼ - sⱼ`, `j ≤ i`.  So the two routines agree
in the limit, and the bound does not depend on `c`. -/
theorem C117_isotonic_partial {c : ℝ} (hc : 0 < c) (Y : Fin (k + 2) → ℝ) (fuel : ℕ) (hf : k + 2 < fuel) (ρ : ℝ) (hρ : 4 ≤ ρ)
    (control : FitArgs) (hm : control.monotonicityRestart = false) (hrs : control.restart = none) (ha : 0 < control.alpha) :
    (∃ C, IsIsotonicProgram c Y C) ∧ ∃ s, Slope.isoPy fuel Y = some s ∧
      ∀ (C : Container (k + 2)), IsIsotonicProgram c Y C →
        ∃ p hist, C.proximalHist control ρ ⟨c, some (.arr Y), some (.scalar 0), 0⟩ (fun _ => 0) = some (p, hist) ∧
          1 ≤ hist.length ∧ hist.length ≤ control.maxItsV ∧
          ((hist.length : ℝ) + 1) ^ 2 * sqDist s p ≤
            4 * ρ * ∑ i : Fin (k + 1), (∑ j, if j ≤ i.castSucc then Y j - s j else 0) ^ 2 := by
  classical
  obtain ⟨t, ht, hmono, hbest⟩ := Verif.Props.C20_isoPy (K := ℝ) fuel hf Y
  refine ⟨(C116_isotonic_partial hc Y fuel hf).1, t, ht, ?_⟩
  set q : Quad (Fin (k + 2)) ℝ := ⟨c, some (.arr Y), some (.scalar 0), 0⟩ with hq
  rintro C ⟨s, A, a, hs, hA, hato, hC⟩
  -- the members
  obtain ⟨A', g, d1, d2, d3, d4, d5, d6, d7⟩ := cone_dual_plain (m := k + 2) (k := k) .nonnegative (.matrix (riseMatrix k) none) _ rfl rfl
  obtain ⟨A2, D, g2, e1, e2, e0, -, -, e3, e4, e5, e6⟩ := C101_dual (m := k + 2) (k := k) .nonnegative (.matrix (riseMatrix k) none) _ rfl
    rfl none (by simp) none (by simp)
  rw [hA, Option.some_inj] at d1 e1
  subst d1
  subst e1
  have hg : g2 = g := by
    rw [d2] at e2
    have := congrArg Prod.snd e2
    injection this with this
    exact this.symm
  subst hg
  subst e0
  obtain ⟨prox, value, hat⟩ : ∃ prox value, a = ⟨k + 1, .matrix (riseMatrix k) none, g2.asDual, prox, value⟩ := by
    unfold AffCone.toCont at hato
    rw [d2] at hato
    dsimp only at hato
    split at hato
    · exact ⟨_, _, (Option.some_inj.1 hato).symm⟩
    · cases hato
  subst hat
  have hno : NoQuadratic s.toLoss.quad := by
    obtain ⟨s', G, h, h0, -⟩ := signalLoss_built hc Y
    rw [hs, Option.some_inj] at h
    subst h
    rw [h0]; exact ⟨rfl, fun i => rfl⟩
  have hC' : C = ⟨[⟨k + 1, .matrix (riseMatrix k) none, g2.asDual, prox, value⟩], [⟨s.toLoss.obj, s.toLoss.quad⟩], Quad.init none none none none⟩ := by
    injection hC with hC; exact hC.symm
  have hquad : NoQuadratic C.quadratic ∧ ∀ a ∈ C.smooth, NoQuadratic a.quad := by
    rw [hC']
    exact ⟨⟨rfl, fun i => rfl⟩, fun a ha => by rw [List.mem_singleton] at ha; subst ha; exact hno⟩
  subst hC'
  set C : Container (k + 2) := ⟨[⟨k + 1, .matrix (riseMatrix k) none, g2.asDual, prox, value⟩], [⟨s.toLoss.obj, s.toLoss.quad⟩],
    Quad.init none none none none⟩ with hCd
  have hn : NotL2 g2.klass := by rw [d3]; simp [NotL2, ConeKlass.conj]
  have hv : HasVector g2.klass k := by rw [d3]; simp [HasVector, ConeKlass.conj]
  obtain ⟨hP1, htot⟩ := C101_proximal_partial g2 hn hv d4
  have hTs : distinctSelectors (.matrix (riseMatrix k) none : Aff ℝ (k + 2) (k + 1)) := by simp [distinctSelectors]
  obtain ⟨hcoef, -, -⟩ := container_point_core C (denoteCone g2) _ hTs e6 e5 hquad q hc (.arr Y) (.scalar 0) rfl rfl
  have htpos : 0 < (C.totalq q).coef := by rw [hcoef]; exact hc
  obtain ⟨p, hist, hp⟩ := C117_returns C q (.arr Y) (.scalar 0) rfl rfl hc htpos ρ (by linarith)
    (fun q v w hv _ hpos => htot q v hpos hv) control (fun _ => 0)
  obtain ⟨g1, g2', g3⟩ := container_accuracy_core C (denoteCone g2) _ hTs hP1 e6 e5 (fun u hu => cone_unchecked g2 d4 u hu) hquad q hc
    (.arr Y) (.scalar 0) rfl rfl ρ (by linarith)
    (fun x => by
      have h1 := rise_bound x
      have h2 : ∑ i, C.stack.2.1.lin x i ^ 2 = ∑ i : Fin (k + 1), (x i.succ - x i.castSucc) ^ 2 :=
        Finset.sum_congr rfl fun i _ => by rw [show C.stack.2.1.lin x i = _ from rise_lin x i]
      rw [h2]
      have h3 : 0 ≤ ∑ j, x j ^ 2 := Finset.sum_nonneg fun i _ => sq_nonneg _
      nlinarith)
    control hm hrs ha (fun _ => 0) p hist hp
  -- the solution of the dual problem
  have hvi := variational hmono (fun x hx hne => hbest x hx hne)
  set S : Fin (k + 1) → ℝ := fun i => ∑ j, if j ≤ i.castSucc then Y j - t j else 0 with hS
  have hS0 : ∀ i, 0 ≤ S i := by
    intro i
    have h := hvi (fun j => t j - if j ≤ i.castSucc then 1 else 0) (fun a b hab => by
      have h1 := hmono hab
      dsimp only
      by_cases hb : b ≤ i.castSucc
      · rw [if_pos hb, if_pos (hab.trans hb)]; linarith
      · rw [if_neg hb]; split <;> linarith)
    have e : ∑ j, (Y j - t j) * ((t j - if j ≤ i.castSucc then 1 else 0) - t j) = -S i := by
      rw [hS]
      dsimp only
      rw [← Finset.sum_neg_distrib]
      exact Finset.sum_congr rfl fun j _ => by split <;> ring
    rw [e] at h
    linarith
  have htotal : ∑ j, (Y j - t j) = 0 := by
    have h1 := hvi (fun j => t j + 1) (fun a b hab => by have := hmono hab; dsimp only; linarith)
    have h2 := hvi (fun j => t j - 1) (fun a b hab => by have := hmono hab; dsimp only; linarith)
    have e1 : ∑ j, (Y j - t j) * (t j + 1 - t j) = ∑ j, (Y j - t j) := Finset.sum_congr rfl fun j _ => by ring
    have e2 : ∑ j, (Y j - t j) * (t j - 1 - t j) = -∑ j, (Y j - t j) := by
      rw [← Finset.sum_neg_distrib]; exact Finset.sum_congr rfl fun j _ => by ring
    rw [e1] at h1
    rw [e2] at h2
    linarith
  have horth : ∑ j, (Y j - t j) * t j = 0 := by
    have h1 := hvi (fun _ => 0) (fun a b _ => le_refl _)
    have h2 := hvi (fun j => 2 * t j) (fun a b hab => by have := hmono hab; dsimp only; linarith)
    have e1 : ∑ j, (Y j - t j) * (0 - t j) = -∑ j, (Y j - t j) * t j := by
      rw [← Finset.sum_neg_distrib]; exact Finset.sum_congr rfl fun j _ => by ring
    have e2 : ∑ j, (Y j - t j) * (2 * t j - t j) = ∑ j, (Y j - t j) * t j := Finset.sum_congr rfl fun j _ => by ring
    rw [e1] at h1
    rw [e2] at h2
    linarith
  set u : Fin (k + 1) → ℝ := fun i => -(c * S i) with hu
  have hL := C24_adjoint_partial (.matrix (riseMatrix k) none : Aff ℝ (k + 2) (k + 1)) hTs
  have hadj : ∀ x : Fin (k + 2) → ℝ, ∑ j, x j * (Aff.matrix (riseMatrix k) none : Aff ℝ (k + 2) (k + 1)).adj u j =
      c * ∑ j, (Y j - t j) * x j := by
    intro x
    have h1 := hL x u
    rw [← h1]
    have h2 := abel (fun j => Y j - t j) x
    rw [htotal, mul_zero, zero_sub] at h2
    have h3 : ∑ i, (Aff.matrix (riseMatrix k) none : Aff ℝ (k + 2) (k + 1)).lin x i * u i =
        -(c * ∑ i : Fin (k + 1), S i * (x i.succ - x i.castSucc)) := by
      rw [Finset.mul_sum, ← Finset.sum_neg_distrib]
      exact Finset.sum_congr rfl fun i _ => by rw [rise_lin, hu]; ring
    rw [h3, h2]; ring
  have hpen : ∀ w : Fin (k + 1) → ℝ, ((∀ i, w i ≤ 0) → denoteCone g2 w = 0) ∧ (¬ (∀ i, w i ≤ 0) → denoteCone g2 w = ⊤) := by
    intro w
    have e : ((dot (linearAt g2.quad) w + g2.quad.const : ℝ) : WithTop ℝ) = 0 := by unfold dot; simp [d6, d7]
    have eb : (fun i => w i - offAt g2.offset i) ∈ coneOf g2.klass ↔ ∀ i, w i ≤ 0 := by
      rw [d3]; simp only [ConeKlass.conj, coneOf, d5, sub_zero, Set.mem_ofPred_eq]
    unfold denoteCone coneFn
    rw [e]
    refine ⟨fun h => ?_, fun h => ?_⟩
    · rw [if_pos (eb.2 h), add_zero]
    · rw [if_neg (fun h' => h (eb.1 h'))]; rfl
  obtain ⟨d, hd⟩ := totalq_plain C hquad q
  have hqv : ∀ z, quadVal (some (C.totalq q)) z = c / 2 * ∑ j, (z j - Y j) ^ 2 + d := by
    intro z
    rw [hd]
    congr 1
    show quadFn c (denote (some (.arr Y))) (denote (some (PyVec.scalar 0))) 0 z = _
    unfold quadFn
    have : denote (some (PyVec.scalar (0:ℝ)) : Option (PyVec (Fin (k + 2)) ℝ)) = fun _ => 0 := rfl
    rw [this]
    simp only [dot, zero_mul, Finset.sum_const_zero, add_zero]
    rfl
  have hsm := conj_smooth (C.totalq q) htpos
  have hlow : ∀ z x, dot z x - quadVal (some (C.totalq q)) x ≤ qConj (C.totalq q) z := by
    intro z x
    by_cases hx : x = qArg (C.totalq q) z
    · rw [hx]; exact le_refl _
    · exact ((hsm z).2 x _ rfl hx).le
  have hmin : IsMinTop (dualFn (qConj (C.totalq q)) C.stack.2.1.adj (denoteCone g2)) u := by
    have hu0 : ∀ i, u i ≤ 0 := fun i => by
      have := mul_nonneg hc.le (hS0 i); rw [hu]; dsimp only; linarith
    have hVu : qConj (C.totalq q) (fun j => -(Aff.matrix (riseMatrix k) none : Aff ℝ (k + 2) (k + 1)).adj u j) ≤
        -(c / 2 * ∑ j, (t j - Y j) ^ 2 + d) := by
      set x := qArg (C.totalq q) (fun j => -(Aff.matrix (riseMatrix k) none : Aff ℝ (k + 2) (k + 1)).adj u j) with hx
      have e1 : qConj (C.totalq q) (fun j => -(Aff.matrix (riseMatrix k) none : Aff ℝ (k + 2) (k + 1)).adj u j) =
          -(∑ j, x j * (Aff.matrix (riseMatrix k) none : Aff ℝ (k + 2) (k + 1)).adj u j) - quadVal (some (C.totalq q)) x := by
        unfold qConj
        rw [← hx]
        congr 1
        unfold dot
        rw [← Finset.sum_neg_distrib]
        exact Finset.sum_congr rfl fun j _ => by ring
      rw [e1, hadj x, hqv x]
      have e2 : c / 2 * ∑ j, (x j - Y j) ^ 2 + c * ∑ j, (Y j - t j) * x j =
          c / 2 * ∑ j, (t j - Y j) ^ 2 + c / 2 * ∑ j, (x j - t j) ^ 2 + c * ∑ j, (Y j - t j) * t j := by
        simp only [Finset.mul_sum]
        rw [← Finset.sum_add_distrib, ← Finset.sum_add_distrib, ← Finset.sum_add_distrib]
        exact Finset.sum_congr rfl fun j _ => by ring
      rw [horth, mul_zero, add_zero] at e2
      have e3 : 0 ≤ c / 2 * ∑ j, (x j - t j) ^ 2 := mul_nonneg (by linarith) (Finset.sum_nonneg fun j _ => sq_nonneg _)
      linarith
    refine ⟨?_, fun v => ?_⟩
    · show ((qConj (C.totalq q) (fun j => -(Aff.matrix (riseMatrix k) none : Aff ℝ (k + 2) (k + 1)).adj u j) : ℝ) : WithTop ℝ) +
        denoteCone g2 u ≠ ⊤
      rw [(hpen u).1 hu0, add_zero]
      exact WithTop.coe_ne_top
    · show ((qConj (C.totalq q) (fun j => -(Aff.matrix (riseMatrix k) none : Aff ℝ (k + 2) (k + 1)).adj u j) : ℝ) : WithTop ℝ) +
        denoteCone g2 u ≤ ((qConj (C.totalq q) (fun j => -(Aff.matrix (riseMatrix k) none : Aff ℝ (k + 2) (k + 1)).adj v j) : ℝ) :
          WithTop ℝ) + denoteCone g2 v
      by_cases hv0 : ∀ i, v i ≤ 0
      · rw [(hpen u).1 hu0, (hpen v).1 hv0, add_zero, add_zero]
        refine WithTop.coe_le_coe.2 (hVu.trans ?_)
        refine le_trans ?_ (hlow _ t)
        rw [hqv t]
        have e1 : dot (fun j => -(Aff.matrix (riseMatrix k) none : Aff ℝ (k + 2) (k + 1)).adj v j) t =
            -∑ i, (Aff.matrix (riseMatrix k) none : Aff ℝ (k + 2) (k + 1)).lin t i * v i := by
          rw [hL t v, ← Finset.sum_neg_distrib]
          exact Finset.sum_congr rfl fun j _ => by ring
        have e2 : ∑ i, (Aff.matrix (riseMatrix k) none : Aff ℝ (k + 2) (k + 1)).lin t i * v i ≤ 0 :=
          Finset.sum_nonpos fun i _ => by
            rw [rise_lin]
            exact mul_nonpos_of_nonneg_of_nonpos (sub_nonneg.2 (hmono (Fin.castSucc_lt_succ).le)) (hv0 i)
        rw [e1]
        linarith
      · rw [(hpen v).2 hv0, WithTop.add_top]
        exact le_top
  obtain ⟨ps, b1, b2⟩ := g3 u hmin
  have hps : ps = t := by
    have hval : ∀ z, quadTop q z + constrainedFn .nonnegative (Aff.matrix (riseMatrix k) none).lin (denote none) (quadArg none) z =
        if Monotone z then ((c / 2 * ∑ j, (z j - Y j) ^ 2 : ℝ) : WithTop ℝ) else ⊤ := by
      intro z
      have hz' : quadTop q z = ((c / 2 * ∑ j, (z j - Y j) ^ 2 : ℝ) : WithTop ℝ) := by
        unfold quadTop
        have h1 := hqv z
        rw [hd] at h1
        rw [add_right_cancel h1]
      rw [hz']
      unfold constrainedFn
      by_cases hz : Monotone z
      · rw [if_pos ((rise_mem z).2 hz), if_pos hz]; simp [quadArg]
      · rw [if_neg (fun h => hz ((rise_mem z).1 h)), if_neg hz]; simp
    by_contra hne
    have hxm : Monotone ps := by
      by_contra hn
      have e := hval ps
      rw [if_neg hn] at e
      exact b1.1 e
    have h1 := b1.2 t (fun e => hne e.symm)
    have h2 : ((c / 2 * ∑ j, (ps j - Y j) ^ 2 : ℝ) : WithTop ℝ) < ((c / 2 * ∑ j, (t j - Y j) ^ 2 : ℝ) : WithTop ℝ) := by
      have e1 := hval ps
      have e2 := hval t
      rw [if_pos hxm] at e1
      rw [if_pos hmono] at e2
      rw [← e1, ← e2]; exact h1
    have h3 := WithTop.coe_lt_coe.1 h2
    have h4 := hbest ps hxm hne
    have e3 : ∀ w : Fin (k + 2) → ℝ, ∑ j, (w j - Y j) ^ 2 = ∑ j, (Y j - w j) ^ 2 := fun w => Finset.sum_congr rfl fun j _ => by ring
    rw [e3, e3] at h3
    nlinarith
  subst hps
  refine ⟨p, hist, hp, g1, g2', ?_⟩
  have e1 : sqDist (fun _ : Fin (k + 1) => (0 : ℝ)) u = c ^ 2 * ∑ i, S i ^ 2 := by
    unfold sqDist
    rw [Finset.mul_sum]
    exact Finset.sum_congr rfl fun i _ => by rw [hu]; ring
  have b3 : c ^ 2 * ((hist.length : ℝ) + 1) ^ 2 * sqDist ps p ≤ 4 * ρ * (c ^ 2 * ∑ i, S i ^ 2) := by
    rw [← e1]; exact b2
  have hc2 : 0 < c ^ 2 := by positivity
  refine le_of_mul_le_mul_left ?_ hc2
  calc c ^ 2 * (((hist.length : ℝ) + 1) ^ 2 * sqDist ps p) = c ^ 2 * ((hist.length : ℝ) + 1) ^ 2 * sqDist ps p := by ring
    _ ≤ _ := b3
    _ = _ := by ring

/-- three observations, with the settings of the library apart from the monotonicity restarts -/
example := C117_isotonic_partial (k := 1) (c := 2) (by norm_num) ![3, 1, 2] 10 (by norm_num) 4 (le_refl _)
  { Container.proxDefaults with monotonicityRestart := false } rfl rfl (by norm_num [Container.proxDefaults])

end Verif.Props
