import Verif.Model.Losses
import Verif.Lemmas.Smooth
import Verif.Spec.Losses
import Mathlib.Analysis.SpecialFunctions.Log.Deriv
import Mathlib.Analysis.SpecialFunctions.ExpDeriv
import Mathlib.Analysis.Convex.SpecificFunctions.Basic
import Mathlib.Analysis.Convex.Jensen
import Mathlib.Algebra.BigOperators.Field
import Mathlib.Tactic.FieldSimp
import Mathlib.Tactic.NormNum
import Mathlib.Tactic.Linarith

/-! # Helper lemmas for the separable losses -/

set_option linter.unusedSectionVars false
set_option linter.unusedVariables false

namespace Verif.Lemmas
open Verif.Model Verif.Spec

noncomputable section

variable {n : ℕ}

/-- offset as a vector, zero if there is none -/
def offV (o : Option (Fin n → ℝ)) : Fin n → ℝ := match o with | some o => o | none => fun _ => 0

lemma applyOffset_eq (o : Option (Fin n → ℝ)) (x : Fin n → ℝ) :
    Smooth.applyOffset o x = fun i => x i - offV o i := by
  cases o <;> simp [Smooth.applyOffset, offV]

/-- per-observation loss the model computes -/
def phi : LossData n → Fin n → ℝ → ℝ
  | .gaussian y, i, t => (t - y i) ^ 2 / 2
  | .poisson c, i, t => Real.exp t - c i * t
  | .huber y e, i, t => (Loss.huberPair e (t - y i)).1
  | .logistic s m, i, t => m i * Loss.logExp t - s i * t
  | .huberSvm s e, i, t => (Loss.huberSvmPair e ((2 * s i - 1) * t)).1

/-- per-observation gradient the model computes -/
def psi : LossData n → Fin n → ℝ → ℝ
  | .gaussian y, i, t => t - y i
  | .poisson c, i, t => Real.exp t - c i
  | .huber y e, i, t => (Loss.huberPair e (t - y i)).2
  | .logistic s m, i, t => m i * Loss.ratio1 t - s i
  | .huberSvm s e, i, t => (Loss.huberSvmPair e ((2 * s i - 1) * t)).2 * (2 * s i - 1)

lemma evaluates_loss (L : Loss n) (arg : Option (Fin n → ℝ)) :
    Evaluates (fun x m => (L.smoothObjective x m arg).1)
      (totalLoss L.coef (Loss.cw L.caseWeights arg) (offV L.offset) (phi L.data))
      (fun x i => L.coef * (Loss.cw L.caseWeights arg i * psi L.data i (x i - offV L.offset i))) := by
  obtain ⟨d, c, o, q, w⟩ := L
  intro x
  dsimp only
  generalize hW : Loss.cw w arg = W
  cases d with
  | gaussian y =>
    have e1 : c * (∑ i, W i * (x i - offV o i - y i) ^ 2) / 2 = totalLoss c W (offV o) (phi (.gaussian y)) x := by
      unfold totalLoss phi; rw [mul_div_assoc, Finset.sum_div]
      congr 1; exact Finset.sum_congr rfl fun i _ => by ring
    simp only [Loss.smoothObjective, applyOffset_eq, hW, scaleR_eq, scaleV_eq, e1, psi, and_self]
  | poisson y =>
    have e1 : -(c * (-(∑ i, W i * Real.exp (x i - offV o i)) + ∑ i, W i * y i * (x i - offV o i))) =
        totalLoss c W (offV o) (phi (.poisson y)) x := by
      unfold totalLoss phi
      simp only [Finset.mul_sum, mul_add, neg_add, ← Finset.sum_neg_distrib, ← Finset.sum_add_distrib]
      exact Finset.sum_congr rfl fun i _ => by ring
    have e2 : (fun i => -(c * (W i * (y i - Real.exp (x i - offV o i))))) =
        fun i => c * (W i * psi (.poisson y) i (x i - offV o i)) := by
      funext i; simp only [psi]; ring
    simp only [Loss.smoothObjective, applyOffset_eq, hW, scaleR_eq, scaleV_eq, e1, e2, and_self]
  | huber y e =>
    have e1 : c * (∑ i, (Loss.huberPair e (x i - offV o i - y i)).1 * W i) =
        totalLoss c W (offV o) (phi (.huber y e)) x := by
      unfold totalLoss phi; congr 1; exact Finset.sum_congr rfl fun i _ => by ring
    have e2 : (fun i => c * ((Loss.huberPair e (x i - offV o i - y i)).2 * W i)) =
        fun i => c * (W i * psi (.huber y e) i (x i - offV o i)) := by
      funext i; simp only [psi]; ring
    simp only [Loss.smoothObjective, applyOffset_eq, hW, scaleR_eq, scaleV_eq, e1, e2, and_self]
  | logistic s m =>
    have e1 : -(c * (∑ i, W i * s i * (x i - offV o i) - ∑ i, W i * m i * Loss.logExp (x i - offV o i))) =
        totalLoss c W (offV o) (phi (.logistic s m)) x := by
      unfold totalLoss phi
      rw [← Finset.sum_sub_distrib, ← mul_neg, ← Finset.sum_neg_distrib]
      congr 1
      exact Finset.sum_congr rfl fun i _ => by ring
    have e2 : (fun i => -(c * (W i * (s i - m i * Loss.ratio1 (x i - offV o i))))) =
        fun i => c * (W i * psi (.logistic s m) i (x i - offV o i)) := by
      funext i; simp only [psi]; ring
    simp only [Loss.smoothObjective, applyOffset_eq, hW, scaleR_eq, scaleV_eq, e1, e2, and_self]
  | huberSvm s e =>
    have e1 : c * (∑ i, (Loss.huberSvmPair e ((2 * s i - 1) * (x i - offV o i))).1 * W i) =
        totalLoss c W (offV o) (phi (.huberSvm s e)) x := by
      unfold totalLoss phi; congr 1; exact Finset.sum_congr rfl fun i _ => by ring
    have e2 : (fun i => c * ((Loss.huberSvmPair e ((2 * s i - 1) * (x i - offV o i))).2 * (2 * s i - 1) * W i)) =
        fun i => c * (W i * psi (.huberSvm s e) i (x i - offV o i)) := by
      funext i; simp only [psi]; ring
    simp only [Loss.smoothObjective, applyOffset_eq, hW, scaleR_eq, scaleV_eq, e1, e2, and_self]

/-- gradient of a weighted separable loss -/
lemma grad_totalLoss (c : ℝ) (w o : Fin n → ℝ) (ell : Fin n → ℝ → ℝ) (d x : Fin n → ℝ)
    (h : ∀ i, HasDerivAt (ell i) (d i) (x i - o i)) :
    IsGradientAt (totalLoss c w o ell) (fun i => c * (w i * d i)) x := by
  have h1 := isGradientAt_sum (fun i t => w i * ell i (t - o i)) (fun i => w i * d i) x (fun i => by
    have h2 : HasDerivAt (fun t => t - o i) 1 (x i) := (hasDerivAt_id (x i)).sub_const (o i)
    have h3 : HasDerivAt (fun t => ell i (t - o i)) (d i * 1) (x i) := (h i).comp (x i) h2
    rw [mul_one] at h3
    exact h3.const_mul (w i))
  exact grad_smul h1 c

/-- a function above all its tangents is convex -/
lemma convex_of_tangent {f d : ℝ → ℝ} (h : ∀ x y, f x + d x * (y - x) ≤ f y) (x y a b : ℝ) (ha : 0 ≤ a) (hb : 0 ≤ b)
    (hab : a + b = 1) : f (a * x + b * y) ≤ a * f x + b * f y := by
  set z := a * x + b * y with hz
  have h1 := mul_le_mul_of_nonneg_left (h z x) ha
  have h2 := mul_le_mul_of_nonneg_left (h z y) hb
  have e : a * (d z * (x - z)) + b * (d z * (y - z)) = 0 := by
    have : a * (x - z) + b * (y - z) = 0 := by
      have : a * (x - z) + b * (y - z) = z - (a + b) * z := by rw [hz]; ring
      rw [this, hab]; ring
    calc a * (d z * (x - z)) + b * (d z * (y - z)) = d z * (a * (x - z) + b * (y - z)) := by ring
      _ = 0 := by rw [this, mul_zero]
  have e2 : a * f z + b * f z = f z := by rw [← add_mul, hab, one_mul]
  nlinarith [h1, h2, e, e2]

lemma convex_totalLoss {c : ℝ} (hc : 0 ≤ c) {w o : Fin n → ℝ} (hw : ∀ i, 0 ≤ w i) {ell : Fin n → ℝ → ℝ}
    {x y : Fin n → ℝ} {a b : ℝ} (hab : a + b = 1)
    (h : ∀ i, ell i (a * (x i - o i) + b * (y i - o i)) ≤ a * ell i (x i - o i) + b * ell i (y i - o i)) :
    totalLoss c w o ell (fun i => a * x i + b * y i) ≤ a * totalLoss c w o ell x + b * totalLoss c w o ell y := by
  unfold totalLoss
  have e : a * (c * ∑ i, w i * ell i (x i - o i)) + b * (c * ∑ i, w i * ell i (y i - o i)) =
      c * ∑ i, w i * (a * ell i (x i - o i) + b * ell i (y i - o i)) := by
    simp only [mul_add, Finset.sum_add_distrib, Finset.mul_sum]
    congr 1 <;> exact Finset.sum_congr rfl fun i _ => by ring
  rw [e]
  refine mul_le_mul_of_nonneg_left (Finset.sum_le_sum fun i _ => mul_le_mul_of_nonneg_left ?_ (hw i)) hc
  have : a * x i + b * y i - o i = a * (x i - o i) + b * (y i - o i) := by
    calc a * x i + b * y i - o i = a * x i + b * y i - (a + b) * o i := by rw [hab, one_mul]
      _ = _ := by ring
  rw [this]; exact h i

/-! ### log-sum-exp -/

/-- the tangent inequality of log-sum-exp with weights -/
lemma logsumexp_tangent {ι : Type*} (s : Finset ι) (a x y : ι → ℝ) (ha : ∀ j ∈ s, 0 ≤ a j)
    (hS : 0 < ∑ j ∈ s, a j * Real.exp (x j)) :
    Real.log (∑ j ∈ s, a j * Real.exp (x j)) +
      ∑ j ∈ s, a j * Real.exp (x j) / (∑ j ∈ s, a j * Real.exp (x j)) * (y j - x j) ≤
    Real.log (∑ j ∈ s, a j * Real.exp (y j)) := by
  set S := ∑ j ∈ s, a j * Real.exp (x j) with hSd
  set p : ι → ℝ := fun j => a j * Real.exp (x j) / S with hp
  have hp0 : ∀ j ∈ s, 0 ≤ p j := fun j hj => div_nonneg (mul_nonneg (ha j hj) (Real.exp_pos _).le) hS.le
  have hp1 : ∑ j ∈ s, p j = 1 := by
    simp only [hp]; rw [← Finset.sum_div, ← hSd, div_self hS.ne']
  have hJ := convexOn_exp.map_sum_le (t := s) (w := p) (p := fun j => y j - x j) hp0 hp1 (fun _ _ => Set.mem_univ _)
  simp only [smul_eq_mul] at hJ
  have e : ∑ j ∈ s, p j * Real.exp (y j - x j) = (∑ j ∈ s, a j * Real.exp (y j)) / S := by
    rw [Finset.sum_div]
    refine Finset.sum_congr rfl fun j _ => ?_
    simp only [hp]
    rw [Real.exp_sub]
    have := (Real.exp_pos (x j)).ne'
    field_simp
  rw [e] at hJ
  have hpos : 0 < (∑ j ∈ s, a j * Real.exp (y j)) / S := lt_of_lt_of_le (Real.exp_pos _) hJ
  have hY : 0 < ∑ j ∈ s, a j * Real.exp (y j) := by
    have := mul_pos hpos hS
    rwa [div_mul_cancel₀ _ hS.ne'] at this
  have := Real.log_le_log (Real.exp_pos _) hJ
  rw [Real.log_exp, Real.log_div hY.ne' hS.ne'] at this
  linarith

/-! ### logistic -/

lemma log1exp_tangent (x y : ℝ) :
    Real.log (1 + Real.exp x) + Real.exp x / (1 + Real.exp x) * (y - x) ≤ Real.log (1 + Real.exp y) := by
  have h := logsumexp_tangent (Finset.univ : Finset (Fin 2)) (fun _ => 1) (![0, x]) (![0, y]) (fun _ _ => zero_le_one)
    (by simp; positivity)
  simpa using h

lemma hasDerivAt_log1exp (x : ℝ) :
    HasDerivAt (fun t => Real.log (1 + Real.exp t)) (Real.exp x / (1 + Real.exp x)) x := by
  have h1 : HasDerivAt (fun t => 1 + Real.exp t) (Real.exp x) x := (Real.hasDerivAt_exp x).const_add 1
  exact h1.log (by positivity)

lemma hasDerivAt_logExp {x : ℝ} (hx : x ≠ 100) : HasDerivAt Loss.logExp (Loss.ratio1 x) x := by
  rcases lt_or_gt_of_ne hx with h | h
  · have he : Loss.logExp =ᶠ[nhds x] fun t => Real.log (1 + Real.exp t) := by
      filter_upwards [Iio_mem_nhds h] with t ht
      simp only [Loss.logExp, if_pos (le_of_lt (Set.mem_Iio.mp ht))]
    rw [Loss.ratio1, if_pos h.le]
    exact (hasDerivAt_log1exp x).congr_of_eventuallyEq he
  · have he : Loss.logExp =ᶠ[nhds x] fun t => t := by
      filter_upwards [Ioi_mem_nhds h] with t ht
      simp only [Loss.logExp, if_neg (not_le.mpr (Set.mem_Ioi.mp ht))]
    rw [Loss.ratio1, if_neg (not_le.mpr h)]
    exact (hasDerivAt_id x).congr_of_eventuallyEq he

lemma logExp_close (x : ℝ) : 0 ≤ Real.log (1 + Real.exp x) - Loss.logExp x ∧
    Real.log (1 + Real.exp x) - Loss.logExp x ≤ Real.exp (-100) := by
  unfold Loss.logExp
  split_ifs with h
  · simp [(Real.exp_pos _).le]
  · push Not at h
    have e : Real.log (1 + Real.exp x) - x = Real.log (1 + Real.exp (-x)) := by
      have : 1 + Real.exp x = Real.exp x * (1 + Real.exp (-x)) := by
        rw [mul_add, ← Real.exp_add]; simp [add_comm]
      rw [this, Real.log_mul (Real.exp_pos _).ne' (by positivity), Real.log_exp]; ring
    rw [e]
    constructor
    · exact Real.log_nonneg (by linarith [Real.exp_pos (-x)])
    · have h1 := Real.log_le_sub_one_of_pos (show 0 < 1 + Real.exp (-x) by positivity)
      have h2 : Real.exp (-x) ≤ Real.exp (-100) := Real.exp_le_exp.mpr (by linarith)
      linarith

lemma ratio1_close (x : ℝ) : 0 ≤ Loss.ratio1 x - Real.exp x / (1 + Real.exp x) ∧
    Loss.ratio1 x - Real.exp x / (1 + Real.exp x) ≤ Real.exp (-100) := by
  unfold Loss.ratio1
  split_ifs with h
  · simp [(Real.exp_pos _).le]
  · push Not at h
    have hp := Real.exp_pos x
    have e : 1 - Real.exp x / (1 + Real.exp x) = 1 / (1 + Real.exp x) := by field_simp; ring
    rw [e]
    refine ⟨by positivity, ?_⟩
    rw [Real.exp_neg, ← one_div]
    refine one_div_le_one_div_of_le (Real.exp_pos _) ?_
    have := Real.exp_le_exp.mpr h.le
    linarith

/-! ### Huber -/

lemma huber_proj {eps : ℝ} (he : 0 < eps) (a : ℝ) :
    Loss.npSign a * min (|a| / eps) 1 = max (-1) (min (a / eps) 1) := by
  unfold Loss.npSign
  rcases lt_trichotomy a 0 with h | h | h
  · rw [if_neg (not_lt.mpr h.le), if_pos h, abs_of_neg h]
    have h0 : a / eps ≤ 0 := div_nonpos_of_nonpos_of_nonneg h.le he.le
    rw [min_eq_left (by linarith : a / eps ≤ 1), neg_div, neg_one_mul, ← max_neg_neg, neg_neg, max_comm]
  · subst h; simp
  · rw [if_pos h, abs_of_pos h, one_mul]
    rw [max_eq_right]
    have : 0 ≤ a / eps := div_nonneg h.le he.le
    exact le_min (by linarith) (by norm_num)

/-- the projection maximizes `a u - eps u²/2` over `lo ≤ u ≤ 1` -/
lemma clip_max {lo : ℝ} (hlo : lo ≤ 1) {eps : ℝ} (he : 0 < eps) (a u : ℝ) (h1 : lo ≤ u) (h2 : u ≤ 1) :
    a * u - eps * u ^ 2 / 2 ≤ a * max lo (min (a / eps) 1) - eps * max lo (min (a / eps) 1) ^ 2 / 2 := by
  set p := max lo (min (a / eps) 1) with hp
  have key : (a - eps * p) * (u - p) ≤ 0 := by
    rcases le_total (a / eps) lo with h | h
    · have : p = lo := by rw [hp, min_eq_left (h.trans hlo), max_eq_left h]
      rw [this]
      have : a ≤ eps * lo := by rw [div_le_iff₀ he] at h; linarith
      nlinarith
    · rcases le_total (a / eps) 1 with h' | h'
      · have : p = a / eps := by rw [hp, min_eq_left h', max_eq_right h]
        rw [this, mul_div_cancel₀ _ he.ne']; simp
      · have : p = 1 := by rw [hp, min_eq_right h', max_eq_right hlo]
        rw [this]
        have : eps ≤ a := by rw [le_div_iff₀ he] at h'; linarith
        nlinarith
  nlinarith [mul_nonneg he.le (sq_nonneg (u - p)), key]

lemma clip_mem {lo : ℝ} (hlo : lo ≤ 1) (a : ℝ) : lo ≤ max lo (min a 1) ∧ max lo (min a 1) ≤ 1 :=
  ⟨le_max_left _ _, max_le hlo (min_le_right _ _)⟩

lemma clip_lip {lo a b : ℝ} : |max lo (min a 1) - max lo (min b 1)| ≤ |a - b| := by
  have h1 := abs_max_sub_max_le_max lo (min a 1) lo (min b 1)
  have h2 := abs_min_sub_min_le_max a 1 b 1
  simp only [sub_self, abs_zero] at h1 h2
  rw [max_eq_right (abs_nonneg (min a 1 - min b 1))] at h1
  rw [max_eq_left (abs_nonneg (a - b))] at h2
  exact h1.trans h2

/-- A value function `h(a) = a p(a) - eps p(a)²/2` with `p` the clipped ratio: tangents and derivative. -/
lemma clip_tangent {lo : ℝ} (hlo : lo ≤ 1) {eps : ℝ} (he : 0 < eps) (a b : ℝ) :
    let p := fun a : ℝ => max lo (min (a / eps) 1)
    let h := fun a : ℝ => a * p a - eps * p a ^ 2 / 2
    h a + p a * (b - a) ≤ h b := by
  intro p h
  have := clip_max hlo he b (p a) (clip_mem hlo _).1 (clip_mem hlo _).2
  simp only [h]
  change b * p a - eps * p a ^ 2 / 2 ≤ b * p b - eps * p b ^ 2 / 2 at this
  nlinarith

lemma clip_deriv {lo : ℝ} (hlo : lo ≤ 1) {eps : ℝ} (he : 0 < eps) (a : ℝ) :
    HasDerivAt (fun a : ℝ => a * max lo (min (a / eps) 1) - eps * max lo (min (a / eps) 1) ^ 2 / 2)
      (max lo (min (a / eps) 1)) a := by
  refine hasDerivAt_of_quad (C := 1 / eps) fun b => ?_
  have t1 := clip_tangent hlo he a b
  have t2 := clip_tangent hlo he b a
  dsimp only at t1 t2
  have hl : |max lo (min (b / eps) 1) - max lo (min (a / eps) 1)| ≤ |b / eps - a / eps| := clip_lip
  set pa := max lo (min (a / eps) 1)
  set pb := max lo (min (b / eps) 1)
  rw [abs_of_nonneg (by linarith)]
  have h1 : (b * pb - eps * pb ^ 2 / 2) - (a * pa - eps * pa ^ 2 / 2) - pa * (b - a) ≤ (pb - pa) * (b - a) := by
    nlinarith
  have h2 : (pb - pa) * (b - a) ≤ |b / eps - a / eps| * |b - a| := by
    refine (le_abs_self _).trans ?_
    rw [abs_mul]
    exact mul_le_mul_of_nonneg_right hl (abs_nonneg _)
  have h3 : |b / eps - a / eps| * |b - a| = 1 / eps * (b - a) ^ 2 := by
    rw [← sub_div, abs_div, abs_of_pos he, div_mul_eq_mul_div, ← abs_mul, ← sq, abs_of_nonneg (sq_nonneg _)]
    ring
  linarith

lemma huberPair_eq {eps : ℝ} (he : 0 < eps) (a : ℝ) : Loss.huberPair eps a =
    (a * max (-1) (min (a / eps) 1) - eps * max (-1) (min (a / eps) 1) ^ 2 / 2, max (-1) (min (a / eps) 1)) := by
  simp only [Loss.huberPair, huber_proj he]

lemma huberSvmPair_one (z : ℝ) : Loss.huberSvmPair 1 z =
    ((1 - z) * max 0 (min ((1 - z) / 1) 1) - 1 * max 0 (min ((1 - z) / 1) 1) ^ 2 / 2, -max 0 (min ((1 - z) / 1) 1)) := by
  have : (if 0 < (1 - z) / 1 then (1:ℝ) else 0) * (if (1 - z) / 1 < 1 then 1 else 0) * ((1 - z) / 1) +
      (if 1 ≤ (1 - z) / 1 then 1 else 0) = max 0 (min ((1 - z) / 1) 1) := by
    rcases le_or_gt ((1 - z) / 1) 0 with h | h
    · rw [if_neg (not_lt.mpr h), if_neg (by linarith : ¬ 1 ≤ (1 - z) / 1), min_eq_left (by linarith), max_eq_left h]; ring
    · rcases lt_or_ge ((1 - z) / 1) 1 with h' | h'
      · rw [if_pos h, if_pos h', if_neg (not_le.mpr h'), min_eq_left h'.le, max_eq_right h.le]; ring
      · rw [if_neg (not_lt.mpr h'), if_pos h', min_eq_right h', max_eq_right zero_le_one]; ring
  simp only [Loss.huberSvmPair, this]
  simp

lemma hasDerivAt_poisson (c x : ℝ) : HasDerivAt (fun t => Real.exp t - c * t) (Real.exp x - c) x := by
  have h1 : HasDerivAt (fun t : ℝ => c * t) (c * 1) x := (hasDerivAt_id x).const_mul c
  rw [mul_one] at h1
  exact (Real.hasDerivAt_exp x).sub h1

lemma hasDerivAt_gaussian (y x : ℝ) : HasDerivAt (fun t => (t - y) ^ 2 / 2) (x - y) x := by
  refine hasDerivAt_of_quad (C := 1) fun b => ?_
  rw [show (b - y) ^ 2 / 2 - (x - y) ^ 2 / 2 - (x - y) * (b - x) = (b - x) ^ 2 / 2 by ring,
    abs_of_nonneg (by positivity)]
  nlinarith [sq_nonneg (b - x)]

lemma hasDerivAt_huber {eps : ℝ} (he : 0 < eps) (y x : ℝ) :
    HasDerivAt (fun t => (Loss.huberPair eps (t - y)).1) (Loss.huberPair eps (x - y)).2 x := by
  have h2 : HasDerivAt (fun t => t - y) 1 x := (hasDerivAt_id x).sub_const y
  have h := (clip_deriv (lo := -1) (by norm_num) he (x - y)).comp x h2
  rw [mul_one] at h
  simp only [huberPair_eq he]
  exact h

lemma hasDerivAt_svm (s x : ℝ) :
    HasDerivAt (fun t => (Loss.huberSvmPair 1 (s * t)).1) ((Loss.huberSvmPair 1 (s * x)).2 * s) x := by
  have h2 : HasDerivAt (fun t => 1 - s * t) (-(s * 1)) x := ((hasDerivAt_id x).const_mul s).const_sub 1
  have h := (clip_deriv (lo := 0) (by norm_num) one_pos (1 - s * x)).comp x h2
  simp only [huberSvmPair_one]
  refine h.congr_deriv ?_
  ring

end
/-- the constructors succeed exactly on a nonnegative coefficient, admissible data and nonnegative weights -/
lemma loss_init {n : ℕ} (d : LossData n) {c : ℝ} (hc : 0 ≤ c) (hd : ¬ Loss.dataError d) (o : Option (Fin n → ℝ))
    (q : Quad (Fin n) ℝ) (w : Option (Fin n → ℝ)) (hw : ∀ w', w = some w' → ∀ i, 0 ≤ w' i) :
    Loss.init d c o q w = some ⟨d, c, o, Loss.devQuad c d q, w⟩ := by
  have h1 : ¬ ∃ w', w = some w' ∧ ¬ ∀ i, 0 ≤ w' i := by
    rintro ⟨w', h, h'⟩; exact h' (hw w' h)
  simp only [Loss.init, Smooth.atomInit, if_neg (not_lt.mpr hc), if_neg hd, if_neg h1]

lemma loss_of_init {n : ℕ} {d : LossData n} {c : ℝ} {o : Option (Fin n → ℝ)} {q : Quad (Fin n) ℝ} {w : Option (Fin n → ℝ)}
    {L : Loss n} (h : Loss.init d c o q w = some L) :
    0 ≤ c ∧ ¬ Loss.dataError d ∧ (∀ w', w = some w' → ∀ i, 0 ≤ w' i) ∧ L = ⟨d, c, o, Loss.devQuad c d q, w⟩ := by
  by_cases hc : c < 0
  · simp [Loss.init, Smooth.atomInit, hc] at h
  by_cases hd : Loss.dataError d
  · simp [Loss.init, Smooth.atomInit, hc, hd] at h
  by_cases hw : ∃ w', w = some w' ∧ ¬ ∀ i, 0 ≤ w' i
  · simp only [Loss.init, Smooth.atomInit, if_neg hc, if_neg hd, if_pos hw] at h
    cases h
  have hw' : ∀ w', w = some w' → ∀ i, 0 ≤ w' i := by
    intro w' e
    by_contra hn
    exact hw ⟨w', e, hn⟩
  refine ⟨not_lt.mp hc, hd, hw', ?_⟩
  rw [loss_init d (not_lt.mp hc) hd o q w hw'] at h
  injection h with h; exact h.symm

end Verif.Lemmas
