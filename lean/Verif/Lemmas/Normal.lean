import Verif.Spec.Links
import Mathlib.MeasureTheory.Integral.IntegralEqImproper
import Mathlib.MeasureTheory.Integral.IntervalIntegral.FundThmCalculus
import Mathlib.Analysis.SpecialFunctions.Log.Deriv
import Mathlib.Analysis.SpecialFunctions.ExpDeriv
import Mathlib.Analysis.Calculus.Deriv.MeanValue

/-! # Helper lemmas about the normal distribution function -/

set_option linter.unusedVariables false

namespace Verif.Lemmas
open Verif.Spec MeasureTheory Filter Topology

lemma sqrt2pi_pos : 0 < Real.sqrt (2 * Real.pi) := Real.sqrt_pos.mpr (by positivity)

lemma npdf_pos (t : ℝ) : 0 < npdf t := div_pos (Real.exp_pos _) sqrt2pi_pos

lemma npdf_integrable : Integrable npdf :=
  (integrable_exp_neg_mul_sq (b := 1 / 2) (by norm_num)).div_const _

lemma npdf_continuous : Continuous npdf := by
  unfold npdf; fun_prop

lemma npdf_neg (t : ℝ) : npdf (-t) = npdf t := by simp [npdf]

lemma npdf_total : ∫ t, npdf t = 1 := by
  unfold npdf
  rw [integral_div, integral_gaussian, show Real.pi / (1 / 2) = 2 * Real.pi by ring]
  exact div_self sqrt2pi_pos.ne'

lemma ncdf_add_nsf (x : ℝ) : ncdf x + nsf x = 1 := by
  unfold ncdf nsf
  rw [intervalIntegral.integral_Iic_add_Ioi npdf_integrable.integrableOn npdf_integrable.integrableOn, npdf_total]

lemma nsf_eq (x : ℝ) : nsf x = 1 - ncdf x := by linarith [ncdf_add_nsf x]

lemma nsf_eq_ncdf_neg (x : ℝ) : nsf x = ncdf (-x) := by
  unfold ncdf nsf
  rw [← integral_comp_neg_Ioi]
  simp only [npdf_neg]

lemma ncdf_pos (x : ℝ) : 0 < ncdf x := by
  unfold ncdf
  rw [setIntegral_pos_iff_support_of_nonneg_ae (ae_of_all _ fun t => (npdf_pos t).le) npdf_integrable.integrableOn]
  have : Function.support npdf = Set.univ := by
    ext t; simp [(npdf_pos t).ne']
  rw [this, Set.univ_inter]
  simp

lemma nsf_pos (x : ℝ) : 0 < nsf x := by rw [nsf_eq_ncdf_neg]; exact ncdf_pos _

lemma ncdf_lt_one (x : ℝ) : ncdf x < 1 := by linarith [ncdf_add_nsf x, nsf_pos x]

lemma hasDerivAt_ncdf (x : ℝ) : HasDerivAt ncdf (npdf x) x := by
  have h : HasDerivAt (fun y => ∫ t in (0:ℝ)..y, npdf t) (npdf x) x :=
    intervalIntegral.integral_hasDerivAt_right npdf_integrable.intervalIntegrable
      npdf_continuous.stronglyMeasurable.stronglyMeasurableAtFilter npdf_continuous.continuousAt
  have e : ncdf = fun y => (∫ t in (0:ℝ)..y, npdf t) + ncdf 0 := by
    funext y
    have := intervalIntegral.integral_Iic_sub_Iic (a := 0) (b := y) (f := npdf) (μ := volume)
      npdf_integrable.integrableOn npdf_integrable.integrableOn
    unfold ncdf
    linarith
  rw [e]
  exact h.add_const _

lemma hasDerivAt_npdf (x : ℝ) : HasDerivAt npdf (-x * npdf x) x := by
  unfold npdf
  have h1 : HasDerivAt (fun t : ℝ => -(1 / 2) * t ^ 2) (-(1 / 2) * (2 * x)) x := by
    simpa using ((hasDerivAt_id x).pow 2).const_mul (-(1 / 2 : ℝ))
  refine (h1.exp.div_const _).congr_deriv ?_
  ring

lemma ncdf_strictMono : StrictMono ncdf := by
  refine strictMono_of_deriv_pos fun x => ?_
  rw [(hasDerivAt_ncdf x).deriv]; exact npdf_pos x

lemma npdf_tendsto : Tendsto npdf atBot (𝓝 0) := by
  have h : Tendsto (fun t : ℝ => Real.exp (-(1 / 2) * t ^ 2)) atBot (𝓝 0) := by
    refine Real.tendsto_exp_atBot.comp ?_
    have h2 : Tendsto (fun t : ℝ => t ^ 2) atBot atTop := by
      have := (tendsto_pow_atTop (α := ℝ) two_ne_zero).comp tendsto_neg_atBot_atTop
      refine this.congr fun t => ?_
      simp
    exact h2.const_mul_atTop_of_neg (by norm_num)
  have h3 := h.div_const (Real.sqrt (2 * Real.pi))
  rw [zero_div] at h3
  exact h3

lemma ncdf_mills (x : ℝ) : 0 ≤ x * ncdf x + npdf x := by
  have hint : Integrable fun t => -t * npdf t := by
    have := ((integrable_mul_exp_neg_mul_sq (b := 1 / 2) (by norm_num)).div_const (Real.sqrt (2 * Real.pi))).neg
    refine this.congr (ae_of_all _ fun t => ?_)
    simp only [npdf, Pi.neg_apply]; ring
  have h := integral_Iic_of_hasDerivAt_of_tendsto' (a := x) (fun t _ => hasDerivAt_npdf t) hint.integrableOn npdf_tendsto
  have h2 : ∫ t in Set.Iic x, -x * npdf t ≤ ∫ t in Set.Iic x, -t * npdf t := by
    refine setIntegral_mono_on (npdf_integrable.integrableOn.const_mul _) hint.integrableOn measurableSet_Iic fun t ht => ?_
    have : t ≤ x := ht
    exact mul_le_mul_of_nonneg_right (by linarith) (npdf_pos t).le
  rw [h, integral_const_mul] at h2
  unfold ncdf
  linarith

/-- a function whose derivative is monotone lies above its tangents -/
lemma tangent_of_monotone {f d : ℝ → ℝ} (hf : ∀ x, HasDerivAt f (d x) x) (hd : Monotone d) (x y : ℝ) :
    f x + d x * (y - x) ≤ f y := by
  rcases lt_trichotomy x y with h | h | h
  · obtain ⟨c, hc, he⟩ := exists_hasDerivAt_eq_slope f d h (fun z _ => (hf z).continuousAt.continuousWithinAt)
      (fun z _ => hf z)
    rw [eq_div_iff (by linarith)] at he
    have := mul_le_mul_of_nonneg_right (hd hc.1.le) (by linarith : 0 ≤ y - x)
    linarith
  · subst h; simp
  · obtain ⟨c, hc, he⟩ := exists_hasDerivAt_eq_slope f d h (fun z _ => (hf z).continuousAt.continuousWithinAt)
      (fun z _ => hf z)
    rw [eq_div_iff (by linarith)] at he
    have := mul_le_mul_of_nonneg_right (hd hc.2.le) (by linarith : 0 ≤ x - y)
    linarith

lemma hasDerivAt_log_ncdf (x : ℝ) : HasDerivAt (fun t => Real.log (ncdf t)) (npdf x / ncdf x) x :=
  (hasDerivAt_ncdf x).log (ncdf_pos x).ne'

lemma hasDerivAt_one_sub_ncdf (x : ℝ) : HasDerivAt (fun t => 1 - ncdf t) (-npdf x) x :=
  (hasDerivAt_ncdf x).const_sub 1

lemma one_sub_ncdf_pos (x : ℝ) : 0 < 1 - ncdf x := by linarith [ncdf_lt_one x]

lemma hasDerivAt_log_one_sub_ncdf (x : ℝ) :
    HasDerivAt (fun t => Real.log (1 - ncdf t)) (-npdf x / (1 - ncdf x)) x :=
  (hasDerivAt_one_sub_ncdf x).log (one_sub_ncdf_pos x).ne'

lemma mills_antitone : Antitone fun x => npdf x / ncdf x := by
  have hd : ∀ x, HasDerivAt (fun x => npdf x / ncdf x)
      ((-x * npdf x * ncdf x - npdf x * npdf x) / ncdf x ^ 2) x := fun x =>
    (hasDerivAt_npdf x).div (hasDerivAt_ncdf x) (ncdf_pos x).ne'
  refine antitone_of_deriv_nonpos (fun x => (hd x).differentiableAt) fun x => ?_
  rw [(hd x).deriv]
  refine div_nonpos_of_nonpos_of_nonneg ?_ (sq_nonneg _)
  have := mul_nonneg (npdf_pos x).le (ncdf_mills x)
  nlinarith

lemma mills_sf (x : ℝ) : npdf x / (1 - ncdf x) = npdf (-x) / ncdf (-x) := by
  rw [npdf_neg, ← nsf_eq_ncdf_neg, nsf_eq]

/-- minus the logarithm of the normal distribution function lies above its tangents -/
lemma neg_log_ncdf_tangent (x y : ℝ) :
    -Real.log (ncdf x) + -(npdf x / ncdf x) * (y - x) ≤ -Real.log (ncdf y) :=
  tangent_of_monotone (f := fun t => -Real.log (ncdf t)) (d := fun t => -(npdf t / ncdf t))
    (fun x => (hasDerivAt_log_ncdf x).neg) (fun a b h => neg_le_neg (mills_antitone h)) x y

lemma neg_log_one_sub_ncdf_tangent (x y : ℝ) :
    -Real.log (1 - ncdf x) + (npdf x / (1 - ncdf x)) * (y - x) ≤ -Real.log (1 - ncdf y) := by
  have h := neg_log_ncdf_tangent (-x) (-y)
  rw [← mills_sf] at h
  simp only [← nsf_eq_ncdf_neg, nsf_eq] at h
  linarith

/-! ### complementary log-log -/

lemma cloglogInv_pos (x : ℝ) : 0 < cloglogInv x := by
  unfold cloglogInv
  have := Real.exp_lt_one_iff.mpr (by linarith [Real.exp_pos x] : -Real.exp x < 0)
  linarith

lemma one_sub_cloglogInv (x : ℝ) : 1 - cloglogInv x = Real.exp (-Real.exp x) := by unfold cloglogInv; ring

lemma cloglogInv_lt_one (x : ℝ) : cloglogInv x < 1 := by
  linarith [one_sub_cloglogInv x, Real.exp_pos (-Real.exp x)]

lemma hasDerivAt_expexp (x : ℝ) : HasDerivAt (fun t => Real.exp (-Real.exp t)) (-Real.exp (x - Real.exp x)) x := by
  have h := (Real.hasDerivAt_exp x).neg.exp
  refine h.congr_deriv ?_
  rw [sub_eq_add_neg, Real.exp_add]; simp; ring

lemma hasDerivAt_cloglogInv (x : ℝ) : HasDerivAt cloglogInv (Real.exp (x - Real.exp x)) x := by
  have := (hasDerivAt_expexp x).const_sub 1
  rw [neg_neg] at this
  exact this

lemma cloglogInv_strictMono : StrictMono cloglogInv := by
  refine strictMono_of_deriv_pos fun x => ?_
  rw [(hasDerivAt_cloglogInv x).deriv]; exact Real.exp_pos _

lemma hasDerivAt_cloglogPdf (x : ℝ) : HasDerivAt (fun t => Real.exp (t - Real.exp t))
    (Real.exp (x - Real.exp x) * (1 - Real.exp x)) x :=
  ((hasDerivAt_id x).sub (Real.hasDerivAt_exp x)).exp

/-- `u / (e^u - 1)` at `u = e^x` -/
lemma cloglog_ratio_antitone : Antitone fun x => Real.exp (x - Real.exp x) / cloglogInv x := by
  have hd : ∀ x, HasDerivAt (fun x => Real.exp (x - Real.exp x) / cloglogInv x)
      ((Real.exp (x - Real.exp x) * (1 - Real.exp x) * cloglogInv x -
        Real.exp (x - Real.exp x) * Real.exp (x - Real.exp x)) / cloglogInv x ^ 2) x := fun x =>
    (hasDerivAt_cloglogPdf x).div (hasDerivAt_cloglogInv x) (cloglogInv_pos x).ne'
  refine antitone_of_deriv_nonpos (fun x => (hd x).differentiableAt) fun x => ?_
  rw [(hd x).deriv]
  refine div_nonpos_of_nonpos_of_nonneg ?_ (sq_nonneg _)
  have h1 := Real.exp_pos (x - Real.exp x)
  -- (1 - u)(1 - e^{-u}) ≤ u e^{-u}, that is 1 - u ≤ e^{-u}
  have h2 : (1 - Real.exp x) * cloglogInv x ≤ Real.exp (x - Real.exp x) := by
    have e : Real.exp (x - Real.exp x) = Real.exp x * Real.exp (-Real.exp x) := by
      rw [sub_eq_add_neg, Real.exp_add]
    rw [e]; unfold cloglogInv
    have := Real.add_one_le_exp (-Real.exp x)
    linarith
  have := mul_le_mul_of_nonneg_left h2 h1.le
  nlinarith

lemma hasDerivAt_log_cloglogInv (x : ℝ) :
    HasDerivAt (fun t => Real.log (cloglogInv t)) (Real.exp (x - Real.exp x) / cloglogInv x) x :=
  (hasDerivAt_cloglogInv x).log (cloglogInv_pos x).ne'

lemma log_one_sub_cloglogInv (x : ℝ) : Real.log (1 - cloglogInv x) = -Real.exp x := by
  rw [one_sub_cloglogInv, Real.log_exp]

lemma neg_log_cloglogInv_tangent (x y : ℝ) :
    -Real.log (cloglogInv x) + -(Real.exp (x - Real.exp x) / cloglogInv x) * (y - x) ≤ -Real.log (cloglogInv y) :=
  tangent_of_monotone (f := fun t => -Real.log (cloglogInv t)) (d := fun t => -(Real.exp (t - Real.exp t) / cloglogInv t))
    (fun x => (hasDerivAt_log_cloglogInv x).neg) (fun a b h => neg_le_neg (cloglog_ratio_antitone h)) x y

lemma cloglog_ratio_c (x : ℝ) : Real.exp (x - Real.exp x) / (1 - cloglogInv x) = Real.exp x := by
  rw [one_sub_cloglogInv, ← Real.exp_sub]; congr 1; ring

lemma neg_log_one_sub_cloglogInv_tangent (x y : ℝ) :
    -Real.log (1 - cloglogInv x) + Real.exp (x - Real.exp x) / (1 - cloglogInv x) * (y - x) ≤
      -Real.log (1 - cloglogInv y) := by
  rw [log_one_sub_cloglogInv, log_one_sub_cloglogInv, cloglog_ratio_c]
  have h := Real.add_one_le_exp (y - x)
  have h2 := mul_le_mul_of_nonneg_left h (Real.exp_pos x).le
  rw [← Real.exp_add, show x + (y - x) = y by ring] at h2
  linarith

lemma hasDerivAt_log_one_sub_cloglogInv (x : ℝ) :
    HasDerivAt (fun t => Real.log (1 - cloglogInv t)) (-(Real.exp (x - Real.exp x)) / (1 - cloglogInv x)) x := by
  have h := ((hasDerivAt_cloglogInv x).const_sub 1).log (sub_pos.mpr (cloglogInv_lt_one x)).ne'
  exact h

end Verif.Lemmas
