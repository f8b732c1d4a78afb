import Verif.Lemmas.Losses
import Mathlib.Tactic.FinCases

/-!
# C29: the separable losses are convex in the linear predictor
(Cox: `C29_cox` in `C51_Cox.lean`; multinomial: `C28_Multinomial.lean`.)
-/

set_option linter.unusedSectionVars false
set_option linter.unusedVariables false

namespace Verif.Props
open Verif.Model Verif.Spec Verif.Lemmas

variable {n : ℕ}

private lemma init_some {d : LossData n} {c : ℝ} {o : Option (Fin n → ℝ)} {q : Quad (Fin n) ℝ}
    {w : Option (Fin n → ℝ)} {L : Loss n} (h : Loss.init d c o q w = some L) :
    0 ≤ L.coef ∧ (∀ v, L.caseWeights = some v → ∀ i, 0 ≤ v i) ∧ L.data = d ∧ L.offset = o := by
  unfold Loss.init Smooth.atomInit at h
  by_cases hc : c < 0
  · rw [if_pos hc] at h; cases h
  rw [if_neg hc] at h
  dsimp only at h
  by_cases hd : Loss.dataError d
  · rw [if_pos hd] at h; cases h
  rw [if_neg hd] at h
  by_cases hw : ∃ v, w = some v ∧ ¬ ∀ i, 0 ≤ v i
  · rw [if_pos hw] at h; cases h
  rw [if_neg hw] at h
  injection h with h
  subst h
  refine ⟨not_lt.mp hc, fun v hv => ?_, rfl, rfl⟩
  by_contra hcon
  exact hw ⟨v, hv, hcon⟩

private lemma cw_nonneg {own arg : Option (Fin n → ℝ)} (h1 : ∀ v, own = some v → ∀ i, 0 ≤ v i)
    (h2 : ∀ v, arg = some v → ∀ i, 0 ≤ v i) (i : Fin n) : 0 ≤ Loss.cw own arg i := by
  cases own with
  | none => cases arg with
    | none => exact zero_le_one
    | some a => exact h2 a rfl i
  | some w => cases arg with
    | none => simpa [Loss.cw] using h1 w rfl i
    | some a => exact mul_nonneg (h2 a rfl i) (h1 w rfl i)

private lemma convex_of {d : LossData n} {c : ℝ} {o : Option (Fin n → ℝ)} {q : Quad (Fin n) ℝ}
    {w : Option (Fin n → ℝ)} {L : Loss n} (h : Loss.init d c o q w = some L) (arg : Option (Fin n → ℝ))
    (harg : ∀ v, arg = some v → ∀ i, 0 ≤ v i) (hd : ∀ i x y, phi d i x + psi d i x * (y - x) ≤ phi d i y) :
    ∃ F G, Evaluates (fun x m => (L.smoothObjective x m arg).1) F G ∧ IsConvex F := by
  obtain ⟨hc, hw, hD, _⟩ := init_some h
  refine ⟨_, _, evaluates_loss L arg, ?_⟩
  intro x y a b ha hb hab
  refine convex_totalLoss hc (fun i => cw_nonneg hw harg i) hab fun i => ?_
  rw [hD]
  exact convex_of_tangent (hd i) _ _ a b ha hb hab

/-- **C29** gaussian_loglike is convex, for every response, offset, coefficient and weights the constructor accepts
and every non-negative weights passed by the caller. -/
theorem C29_gaussian {y : Fin n → ℝ} {c : ℝ} {o : Option (Fin n → ℝ)} {q : Quad (Fin n) ℝ} {w : Option (Fin n → ℝ)}
    {L : Loss n} (h : Loss.init (.gaussian y) c o q w = some L) (arg : Option (Fin n → ℝ))
    (harg : ∀ v, arg = some v → ∀ i, 0 ≤ v i) :
    ∃ F G, Evaluates (fun x m => (L.smoothObjective x m arg).1) F G ∧ IsConvex F := by
  refine convex_of h arg harg fun i x z => ?_
  simp only [phi, psi]
  nlinarith [sq_nonneg (z - x)]

/-- **C29** poisson_loglike is convex. -/
theorem C29_poisson {y : Fin n → ℝ} {c : ℝ} {o : Option (Fin n → ℝ)} {q : Quad (Fin n) ℝ} {w : Option (Fin n → ℝ)}
    {L : Loss n} (h : Loss.init (.poisson y) c o q w = some L) (arg : Option (Fin n → ℝ))
    (harg : ∀ v, arg = some v → ∀ i, 0 ≤ v i) :
    ∃ F G, Evaluates (fun x m => (L.smoothObjective x m arg).1) F G ∧ IsConvex F := by
  refine convex_of h arg harg fun i x z => ?_
  simp only [phi, psi]
  have h1 : Real.exp z = Real.exp x * Real.exp (z - x) := by rw [← Real.exp_add]; congr 1; ring
  have h2 := Real.add_one_le_exp (z - x)
  have h3 := mul_le_mul_of_nonneg_left h2 (Real.exp_pos x).le
  rw [h1]; nlinarith

/-- **C29** huber_loss with a positive smoothing parameter is convex. -/
theorem C29_huber {y : Fin n → ℝ} {eps : ℝ} (he : 0 < eps) {c : ℝ} {o : Option (Fin n → ℝ)} {q : Quad (Fin n) ℝ}
    {w : Option (Fin n → ℝ)} {L : Loss n} (h : Loss.init (.huber y eps) c o q w = some L) (arg : Option (Fin n → ℝ))
    (harg : ∀ v, arg = some v → ∀ i, 0 ≤ v i) :
    ∃ F G, Evaluates (fun x m => (L.smoothObjective x m arg).1) F G ∧ IsConvex F := by
  refine convex_of h arg harg fun i x z => ?_
  simp only [phi, psi, huberPair_eq he]
  have := clip_tangent (lo := -1) (by norm_num) he (x - y i) (z - y i)
  dsimp only at this
  rw [show z - y i - (x - y i) = z - x by ring] at this
  exact this

/-- **C29** huber_svm with smoothing parameter 1 is convex.  Missing: other smoothing parameters; below 1 it is false
(`C29_huber_svm_fails`). -/
theorem C29_huber_svm_partial {s : Fin n → ℝ} {c : ℝ} {o : Option (Fin n → ℝ)} {q : Quad (Fin n) ℝ}
    {w : Option (Fin n → ℝ)} {L : Loss n} (h : Loss.init (.huberSvm s 1) c o q w = some L) (arg : Option (Fin n → ℝ))
    (harg : ∀ v, arg = some v → ∀ i, 0 ≤ v i) :
    ∃ F G, Evaluates (fun x m => (L.smoothObjective x m arg).1) F G ∧ IsConvex F := by
  refine convex_of h arg harg fun i x z => ?_
  simp only [phi, psi, huberSvmPair_one]
  have := clip_tangent (lo := 0) (by norm_num) one_pos (1 - (2 * s i - 1) * x) (1 - (2 * s i - 1) * z)
  dsimp only at this
  nlinarith [this]

/-- the hypotheses are met -/
example : ∃ L : Loss 2, Loss.init (.huber ![1, 2] 1) 2 (some ![1, 1]) (Quad.init none none none none) (some ![1, 0]) = some L := by
  have h10 : ¬ ((2:ℝ) < 0) := by norm_num
  have h2 : ¬ ∃ w, (some ![(1:ℝ), 0]) = some w ∧ ¬ ∀ i : Fin 2, 0 ≤ w i := by
    rintro ⟨w, hw, hcon⟩
    injection hw with hw; subst hw
    exact hcon fun i => by fin_cases i <;> simp
  unfold Loss.init Smooth.atomInit
  simp only [if_neg h10, Loss.dataError, if_false, if_neg h2]
  exact ⟨_, rfl⟩

/-- **C29** logistic_loglike is convex on the region where every `xᵢ - oᵢ` is at most 100.  Missing: beyond 100, where it
is false (`C29_logistic_fails`) although the value is within `coef ∑ wᵢ mᵢ e⁻¹⁰⁰` of a convex function
(`C28_logistic_partial`). -/
theorem C29_logistic_partial {s m : Fin n → ℝ} (hm : ∀ i, 0 ≤ m i) {c : ℝ} {o : Option (Fin n → ℝ)}
    {q : Quad (Fin n) ℝ} {w : Option (Fin n → ℝ)} {L : Loss n} (h : Loss.init (.logistic s m) c o q w = some L)
    (arg : Option (Fin n → ℝ)) (harg : ∀ v, arg = some v → ∀ i, 0 ≤ v i) :
    ∃ F G, Evaluates (fun x m => (L.smoothObjective x m arg).1) F G ∧
      ∀ x y : Fin n → ℝ, (∀ i, x i - o.elim 0 (fun o => o i) ≤ 100) → (∀ i, y i - o.elim 0 (fun o => o i) ≤ 100) →
        ∀ a b : ℝ, 0 ≤ a → 0 ≤ b → a + b = 1 → F (fun i => a * x i + b * y i) ≤ a * F x + b * F y := by
  obtain ⟨hc, hw, hD, ho⟩ := init_some h
  refine ⟨_, _, evaluates_loss L arg, ?_⟩
  intro x y hx hy a b ha hb hab
  refine convex_totalLoss hc (fun i => cw_nonneg hw harg i) hab fun i => ?_
  have hx' : x i - offV L.offset i ≤ 100 := by
    have := hx i; rw [ho]; cases o <;> simpa [offV] using this
  have hy' : y i - offV L.offset i ≤ 100 := by
    have := hy i; rw [ho]; cases o <;> simpa [offV] using this
  have hz' : a * (x i - offV L.offset i) + b * (y i - offV L.offset i) ≤ 100 := by nlinarith
  rw [hD]
  simp only [phi, Loss.logExp, if_pos hx', if_pos hy', if_pos hz']
  have h1 := convex_of_tangent log1exp_tangent (x i - offV L.offset i) (y i - offV L.offset i) a b ha hb hab
  nlinarith [mul_le_mul_of_nonneg_left h1 (hm i)]

private lemma eval_unique {ev : Objective n} {f f' : (Fin n → ℝ) → ℝ} {g g' : (Fin n → ℝ) → Fin n → ℝ}
    (h : Evaluates ev f g) (h' : Evaluates ev f' g') : f = f' := by
  funext x; have h1 := (h x).1; rw [(h' x).1] at h1; injection h1 with h1; exact h1.symm

/-- **C29** fails for logistic_loglike across 100: the returned value is not a convex function. -/
theorem C29_logistic_fails : ∃ (L : Loss 1),
    (∃ q, Loss.init (.logistic (fun _ => 0) (fun _ => 1)) 1 none q none = some L) ∧
    ¬ ∃ F G, Evaluates (fun x m => (L.smoothObjective x m none).1) F G ∧ IsConvex F := by
  let q : Quad (Fin 1) ℝ := Quad.init none none none none
  let L : Loss 1 := ⟨.logistic (fun _ => 0) (fun _ => 1), 1, none, Loss.devQuad 1 (.logistic (fun _ => 0) (fun _ => 1)) q, none⟩
  refine ⟨L, ⟨q, ?_⟩, ?_⟩
  · have hd : ¬ Loss.dataError (.logistic (fun _ : Fin 1 => (0:ℝ)) (fun _ => 1)) := by
      simp [Loss.dataError]
    have h1 : Smooth.atomInit (n := 1) 1 none = some (1, none) := by
      unfold Smooth.atomInit; rw [if_neg (by norm_num)]
    have h2 : ¬ ∃ w : Fin 1 → ℝ, (none : Option (Fin 1 → ℝ)) = some w ∧ ¬ ∀ i, 0 ≤ w i := by simp
    unfold Loss.init
    rw [h1]
    simp only [if_neg hd, if_neg h2]
    rfl
  rintro ⟨F, G, hE, hconv⟩
  have hF : F = fun x => Loss.logExp (x 0) := by
    rw [eval_unique hE (evaluates_loss L none)]; funext x; simp [totalLoss, L, offV, Loss.cw, phi]
  -- `φ(100) = 100 + δ`, `φ(100 + δ/2) = 100 + δ/2`, `φ(100 - δ/2) ≤ 100 + δ/2`
  set δ := Real.log (1 + Real.exp 100) - 100 with hδ
  have hδ0 : 0 < δ := by
    have : Real.log (Real.exp 100) < Real.log (1 + Real.exp 100) :=
      Real.log_lt_log (Real.exp_pos _) (by linarith)
    rw [Real.log_exp] at this; rw [hδ]; linarith
  have hkey : ∀ t : ℝ, 0 < t → Loss.logExp 100 ≤ 1 / 2 * Loss.logExp (100 - t) + 1 / 2 * Loss.logExp (100 + t) := by
    intro t ht
    have := hconv (fun _ => 100 - t) (fun _ => 100 + t) (1 / 2) (1 / 2) (by norm_num) (by norm_num) (by norm_num)
    rw [hF] at this
    have e : (1:ℝ) / 2 * (100 - t) + 1 / 2 * (100 + t) = 100 := by ring
    simpa only [e] using this
  have h100 : Loss.logExp 100 = 100 + δ := by
    simp only [Loss.logExp, le_refl, if_true, hδ]; ring
  have hlow : ∀ t : ℝ, 0 < t → Loss.logExp (100 - t) ≤ 100 + δ := by
    intro t ht
    simp only [Loss.logExp, if_pos (show (100:ℝ) - t ≤ 100 by linarith)]
    have : Real.log (1 + Real.exp (100 - t)) ≤ Real.log (1 + Real.exp 100) :=
      Real.log_le_log (by positivity) (by linarith [Real.exp_le_exp.mpr (show (100:ℝ) - t ≤ 100 by linarith)])
    rw [hδ]; linarith
  have h2 := hkey (δ / 2) (by linarith)
  have h3 := hlow (δ / 2) (by linarith)
  have h4 : Loss.logExp (100 + δ / 2) = 100 + δ / 2 := by
    simp only [Loss.logExp, if_neg (show ¬ (100:ℝ) + δ / 2 ≤ 100 by linarith)]
  rw [h100, h4] at h2
  linarith

/-- **C29** fails for huber_svm with any smoothing parameter below 1: the returned value is not a convex function. -/
theorem C29_huber_svm_fails (eps : ℝ) (he : 0 < eps) (h1 : eps < 1) : ∃ (L : Loss 1),
    (∃ q, Loss.init (.huberSvm (fun _ => 1) eps) 1 none q none = some L) ∧
    ¬ ∃ F G, Evaluates (fun x m => (L.smoothObjective x m none).1) F G ∧ IsConvex F := by
  let q : Quad (Fin 1) ℝ := Quad.init none none none none
  let L : Loss 1 := ⟨.huberSvm (fun _ => 1) eps, 1, none, q, none⟩
  refine ⟨L, ⟨q, ?_⟩, ?_⟩
  · have h10 : ¬ ((1:ℝ) < 0) := by norm_num
    simp [Loss.init, Smooth.atomInit, L, Loss.dataError, Loss.devQuad, Loss.devConst, h10]
  rintro ⟨F, G, hE, hconv⟩
  have hF : F = fun x => (Loss.huberSvmPair eps (x 0)).1 := by
    rw [eval_unique hE (evaluates_loss L none)]; funext x
    have e : (2 - (1:ℝ)) * x 0 = x 0 := by ring
    simp [totalLoss, L, offV, Loss.cw, phi, e]
  -- values as a function of `t = (1 - z)/eps`
  have hlow : ∀ t, 0 < t → t < 1 → (Loss.huberSvmPair eps (1 - eps * t)).1 = (1 - eps / 2) * t ^ 2 := by
    intro t h0 ht
    have e : (1 - (1 - eps * t)) / eps = t := by field_simp; ring
    simp only [Loss.huberSvmPair, e, if_pos h0, if_pos ht, if_neg (not_le.mpr ht)]; ring
  have hhigh : ∀ t, 1 ≤ t → (Loss.huberSvmPair eps (1 - eps * t)).1 = t - eps / 2 := by
    intro t ht
    have e : (1 - (1 - eps * t)) / eps = t := by field_simp; ring
    simp only [Loss.huberSvmPair, e, if_pos ht, if_neg (not_lt.mpr ht)]; ring
  set δ := (1 - eps) with hδ
  have hd : 0 < δ := by rw [hδ]; linarith
  have hd1 : δ < 1 := by rw [hδ]; linarith
  have h := hconv (fun _ => 1 - eps * (1 - δ)) (fun _ => 1 - eps * (1 + δ)) (1 / 2) (1 / 2) (by norm_num) (by norm_num)
    (by norm_num)
  rw [hF] at h
  have e : (1:ℝ) / 2 * (1 - eps * (1 - δ)) + 1 / 2 * (1 - eps * (1 + δ)) = 1 - eps * 1 := by ring
  simp only [e] at h
  rw [hhigh 1 le_rfl, hlow (1 - δ) (by linarith) (by linarith), hhigh (1 + δ) (by linarith)] at h
  have : (1 - eps / 2) = 1 / 2 + δ / 2 := by rw [hδ]; ring
  have he2 : eps / 2 = 1 / 2 - δ / 2 := by rw [hδ]; ring
  rw [this, he2] at h
  nlinarith [mul_pos hd hd, mul_pos hd (mul_pos hd hd)]

end Verif.Props
