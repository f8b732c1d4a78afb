import Verif.Model.SparseGroupPath
import Verif.Lemmas.Gauge
import Verif.Lemmas.GroupPath

/-!
# Lemmas on the checks of the sparse group paths
-/

set_option linter.unusedSectionVars false
set_option linter.unusedVariables false

namespace Verif.Lemmas
open Verif.Model Verif.Model.SparseGroupPath Verif.Spec

section gauge
variable {ι : Type*} [Fintype ι]

/-- the membership test, in terms of inner products -/
lemma thr_iff (x a : ι → ℝ) {t c : ℝ} (htc : 0 ≤ t * c) :
    npNorm (fun i => max (|x i| - t * a i) 0) ≤ t * c ↔ ∀ z : ι → ℝ, ∑ i, x i * z i ≤ t * (∑ i, a i * |z i| + c * npNorm z) := by
  set s : ι → ℝ := fun i => max (|x i| - t * a i) 0 with hs
  have hs0 : ∀ i, 0 ≤ s i := fun i => le_max_right _ _
  constructor
  · intro hin z
    have e0 : npNorm (fun i => |z i|) = npNorm z := by
      unfold npNorm; congr 1; exact Finset.sum_congr rfl fun i _ => sq_abs _
    have h2 := cauchy s fun i => |z i|
    rw [e0] at h2
    have h1 : ∑ i, x i * z i ≤ t * ∑ i, a i * |z i| + npNorm s * npNorm z := by
      refine le_trans ?_ (add_le_add le_rfl h2)
      rw [Finset.mul_sum, ← Finset.sum_add_distrib]
      refine Finset.sum_le_sum fun i _ => ?_
      have h3 : |x i| ≤ t * a i + s i := by linarith [le_max_left (|x i| - t * a i) 0]
      calc x i * z i ≤ |x i| * |z i| := by rw [← abs_mul]; exact le_abs_self _
        _ ≤ (t * a i + s i) * |z i| := mul_le_mul_of_nonneg_right h3 (abs_nonneg _)
        _ = _ := by ring
    have h3 := mul_le_mul_of_nonneg_right hin (npNorm_nonneg z)
    linarith
  · intro h
    have h1 := h fun i => if 0 ≤ x i then s i else - s i
    have e1 : ∑ i, x i * (if 0 ≤ x i then s i else - s i) = ∑ i, |x i| * s i := by
      refine Finset.sum_congr rfl fun i _ => ?_
      split_ifs with hx
      · rw [abs_of_nonneg hx]
      · rw [abs_of_neg (not_le.1 hx)]; ring
    have e2 : npNorm (fun i => if 0 ≤ x i then s i else - s i) = npNorm s := by
      unfold npNorm
      congr 1
      exact Finset.sum_congr rfl fun i _ => by dsimp only; split_ifs <;> ring
    have e3 : ∀ i, |if 0 ≤ x i then s i else - s i| = s i := fun i => by
      split_ifs
      · exact abs_of_nonneg (hs0 i)
      · rw [abs_neg]; exact abs_of_nonneg (hs0 i)
    simp only [e1, e2, e3] at h1
    have e4 : ∑ i, |x i| * s i = t * ∑ i, a i * s i + npNorm s ^ 2 := by
      rw [sq_npNorm, Finset.mul_sum, ← Finset.sum_add_distrib]
      refine Finset.sum_congr rfl fun i _ => ?_
      rcases le_total (|x i| - t * a i) 0 with hc | hc
      · have : s i = 0 := max_eq_right hc
        rw [this]; simp
      · have : s i = |x i| - t * a i := max_eq_left hc
        have hx : |x i| = s i + t * a i := by linarith
        rw [hx]; ring
    rw [e4] at h1
    rcases (npNorm_nonneg s).eq_or_lt with h0 | h0
    · rw [← h0]; exact htc
    · have h2 : npNorm s * npNorm s ≤ t * c * npNorm s := by nlinarith
      exact le_of_mul_le_mul_right h2 h0

lemma bisect_mono (ins : ℝ → Bool) (tol : ℝ) : ∀ (fuel k : ℕ) (l u : ℝ) (mid : Option ℝ) (r : Option ℝ),
    Gauge.bisect ins tol fuel l u mid = some r → Gauge.bisect ins tol (fuel + k) l u mid = some r := by
  intro fuel
  induction fuel with
  | zero => intro k l u mid r h; exact absurd h (by simp [Gauge.bisect])
  | succ f ih =>
    intro k l u mid r h
    rw [show f + 1 + k = (f + k) + 1 by omega]
    rw [Gauge.bisect] at h ⊢
    by_cases hc : tol * (1 / 2) * (u + l) < u - l
    · rw [if_pos hc] at h ⊢
      dsimp only at h ⊢
      by_cases hi : ins (1 / 2 * (u + l)) = true
      · rw [if_pos hi] at h ⊢; exact ih _ _ _ _ _ h
      · rw [if_neg hi] at h ⊢; exact ih _ _ _ _ _ h
    · rw [if_neg hc] at h ⊢; exact h

lemma gaugeDual_mono (ins : ℝ → Bool) (tol : ℝ) (m fuel k : ℕ) (r : Gauge.Result ℝ)
    (h : Gauge.gaugeDual ins tol m fuel = some r) : Gauge.gaugeDual ins tol m (fuel + k) = some r := by
  have hfin : ∀ l u, Gauge.finish ins tol fuel l u = some r → Gauge.finish ins tol (fuel + k) l u = some r := by
    intro l u h
    unfold Gauge.finish at h ⊢
    split_ifs at h ⊢ with hc
    · exact h
    · cases hb : Gauge.bisect ins tol fuel l u none with
      | none => rw [hb] at h; exact absurd h (by simp)
      | some v => rw [hb] at h; rw [bisect_mono ins tol fuel k _ _ _ _ hb]; exact h
  unfold Gauge.gaugeDual at h ⊢
  by_cases h1 : ins 1 = true
  · rw [if_pos h1] at h ⊢
    cases hl : Gauge.findLower ins m 1 1 with
    | none => rw [hl] at h; exact h
    | some v => rw [hl] at h; exact hfin _ _ h
  · rw [if_neg h1] at h ⊢
    cases hl : Gauge.findUpper ins m 1 1 with
    | none => rw [hl] at h; exact h
    | some v => rw [hl] at h; exact hfin _ _ h

/-- any answer of the search, with whatever fuel -/
lemma gaugeDual_sound (ins : ℝ → Bool) {tol : ℝ} (ht : 0 < tol) (ht' : tol ≤ 1 / 2) (m fuel : ℕ) {r : Gauge.Result ℝ}
    (h : Gauge.gaugeDual ins tol m fuel = some r) :
    (r = .zero ∧ ins (1 / 2 ^ m) = true) ∨ (r = .inf ∧ ins (2 ^ m) = false) ∨ ∃ v, r = .value v ∧ Stopped ins tol v := by
  obtain ⟨N, hN⟩ := gaugeDual_spec ins ht ht' m
  obtain ⟨r', hr', hs⟩ := hN (fuel + N) (by omega)
  rw [gaugeDual_mono ins tol m fuel N r h] at hr'
  injection hr' with hr'
  rwa [hr']

lemma stopped_le {ins : ℝ → Bool} {tol v : ℝ} (ht : 0 < tol) (ht' : tol ≤ 1 / 2) (h : Stopped ins tol v) :
    ∃ l u, 0 < l ∧ ins l = false ∧ ins u = true ∧ 0 < u ∧ u ≤ (1 + tol / (1 - tol / 2)) * v ∧
      v ≤ (1 + tol / (1 - tol / 2)) * l := by
  obtain ⟨l, u, hl, hlu, hil, hiu, hs, hv⟩ := h
  have hd : 0 < 1 - tol / 2 := by linarith
  have hu : u ≤ (1 + tol / (1 - tol / 2)) * l := by
    have e : 1 + tol / (1 - tol / 2) = (1 + tol / 2) / (1 - tol / 2) := by
      rw [eq_div_iff hd.ne', add_mul, div_mul_cancel₀ _ hd.ne']; ring
    rw [e, div_mul_eq_mul_div, le_div_iff₀ hd]
    nlinarith
  have hτ : 0 ≤ tol / (1 - tol / 2) := by positivity
  have hvl : l ≤ v ∧ v ≤ u := by rcases hv with rfl | rfl <;> constructor <;> linarith
  exact ⟨l, u, hl, hil, hiu, by linarith, le_trans hu (mul_le_mul_of_nonneg_left hvl.1 (by linarith)), by linarith⟩

/-! ### active groups -/

lemma npNorm_le_of_abs {x y : ι → ℝ} (h : ∀ i, |x i| ≤ |y i|) : npNorm x ≤ npNorm y := by
  unfold npNorm
  exact Real.sqrt_le_sqrt (Finset.sum_le_sum fun i _ => sq_le_sq.2 (h i))

lemma npNorm_sub_comm (x y : ι → ℝ) : npNorm (fun i => x i - y i) = npNorm fun i => y i - x i := by
  unfold npNorm
  congr 1
  exact Finset.sum_congr rfl fun i _ => by ring

lemma npNorm_sub_le (x y : ι → ℝ) : npNorm x - npNorm y ≤ npNorm fun i => x i - y i := by
  have := npNorm_add_le (fun i => x i - y i) y
  have e : (fun i => x i - y i + y i) = x := by funext i; ring
  rw [e] at this
  linarith

/-- directions of close vectors are close -/
lemma direction_close {x y : ι → ℝ} (hx : npNorm x ≠ 0) (hy : npNorm y ≠ 0) :
    npNorm (fun i => x i / npNorm x - y i / npNorm y) ≤ 2 * npNorm (fun i => x i - y i) / npNorm y := by
  have hx0 : 0 < npNorm x := lt_of_le_of_ne (npNorm_nonneg x) (Ne.symm hx)
  have hy0 : 0 < npNorm y := lt_of_le_of_ne (npNorm_nonneg y) (Ne.symm hy)
  have e : (fun i => x i / npNorm x - y i / npNorm y) =
      fun i => 1 / npNorm y * (x i - y i) + (1 / npNorm x - 1 / npNorm y) * x i := by
    funext i; field_simp; ring
  rw [e]
  refine le_trans (npNorm_add_le _ _) ?_
  rw [npNorm_smul, npNorm_smul, abs_of_pos (by positivity)]
  have h1 : |1 / npNorm x - 1 / npNorm y| * npNorm x ≤ npNorm (fun i => x i - y i) / npNorm y := by
    have e1 : |1 / npNorm x - 1 / npNorm y| * npNorm x = |npNorm y - npNorm x| / npNorm y := by
      have : 1 / npNorm x - 1 / npNorm y = (npNorm y - npNorm x) / (npNorm x * npNorm y) := by field_simp
      rw [this, abs_div, abs_of_pos (mul_pos hx0 hy0)]; field_simp
    rw [e1]
    refine div_le_div_of_nonneg_right ?_ hy0.le
    rw [abs_le]
    have h2 := npNorm_sub_le x y
    have h3 := npNorm_sub_le y x
    rw [npNorm_sub_comm y x] at h3
    constructor <;> linarith
  have e2 : 2 * npNorm (fun i => x i - y i) / npNorm y = 1 / npNorm y * npNorm (fun i => x i - y i) + npNorm (fun i => x i - y i) / npNorm y := by
    ring
  rw [e2]
  linarith

/-- what an accepted active group means -/
lemma active_sound {grad b lasso : ι → ℝ} {w lam : ℝ} {T : Tols} (ha : ∀ i, 0 ≤ lasso i) (hw : 0 < w)
    (hi : 0 ≤ T.insideTol) (ht : 0 < T.gTol) (ht' : T.gTol ≤ 1 / 2) (h : activeCode grad b lasso w lam T = some 0) :
    (∃ z : ι → ℝ, lam * (1 - T.tol) * (∑ i, lasso i * |z i| + (w + T.insideTol) * npNorm z) <
        (1 + T.gTol / (1 - T.gTol / 2)) * ∑ i, -grad i * z i) ∧
    ∃ s, 0 ≤ s ∧ npNorm (fun i => if b i = 0 then 0 else grad i + lam * lasso i * npSign (b i) + s * (b i / npNorm b)) ≤
      T.tol * (max 1 (npNorm b) + s) := by
  classical
  unfold activeCode at h
  cases hd : dualStrong (fun i => -grad i) lasso w T.insideTol T.gTol T.maxIter T.fuel with
  | none => rw [hd] at h; exact absurd h (by simp)
  | some r =>
    rw [hd] at h
    cases r with
    | zero => exact absurd h (by simp)
    | inf => exact absurd h (by simp)
    | value val l1 l2 =>
      dsimp only at h
      unfold dualStrong at hd
      cases hs : Gauge.strong (fun i => -grad i) lasso w T.insideTol T.gTol T.maxIter T.fuel with
      | none => rw [hs] at hd; exact absurd hd (by simp)
      | some res =>
        rw [hs] at hd
        have hsound := gaugeDual_sound _ ht ht' T.maxIter T.fuel hs
        rcases hsound with ⟨rfl, _⟩ | ⟨rfl, _⟩ | ⟨v, rfl, hst⟩
        · exact absurd hd (by simp)
        · exact absurd hd (by simp)
        dsimp only at hd
        simp only [Option.some.injEq, StrongResult.value.injEq] at hd
        obtain ⟨rfl, hl1, hl2⟩ := hd
        obtain ⟨l, u, hl0, hil, hiu, hu0, huv, hvl⟩ := stopped_le ht ht' hst
        have hτ : 0 ≤ T.gTol / (1 - T.gTol / 2) := div_nonneg ht.le (by linarith)
        set soft := fun i => max (|(-grad i)| - v * lasso i) 0 * npSign (-grad i) with hsoft
        have hv0 : 0 < v := by
          by_contra hc
          have : (1 + T.gTol / (1 - T.gTol / 2)) * v ≤ 0 := mul_nonpos_of_nonneg_of_nonpos (by linarith) (not_lt.1 hc)
          linarith
        -- the three tests
        have t1 : ¬ v < lam * (1 - T.tol) := by
          intro hc
          rw [if_pos hc] at h
          cases l2 with
          | none => dsimp only at h; split_ifs at h <;> simp at h
          | some l2 => dsimp only at h; split_ifs at h <;> simp at h
        have t2 : ¬ npNorm (fun i => if b i = 0 then 0 else l1 i - lasso i * npSign (b i) * lam) > T.tol * max 1 (npNorm b) := by
          intro hc
          rw [if_pos hc] at h
          cases l2 with
          | none => dsimp only at h; simp at h
          | some l2 => dsimp only at h; split_ifs at h <;> simp at h
        constructor
        · have hnot : ¬ Gauge.insideStrong (fun i => -grad i) l lasso w T.insideTol := of_decide_eq_false hil
          have hc : 0 ≤ l * (w + T.insideTol) := mul_nonneg hl0.le (by linarith)
          have := mt (thr_iff (fun i => -grad i) lasso hc).2 hnot
          push Not at this
          obtain ⟨z, hz⟩ := this
          refine ⟨z, ?_⟩
          have hP : 0 ≤ ∑ i, lasso i * |z i| + (w + T.insideTol) * npNorm z :=
            add_nonneg (Finset.sum_nonneg fun i _ => mul_nonneg (ha i) (abs_nonneg _)) (mul_nonneg (by linarith) (npNorm_nonneg z))
          calc lam * (1 - T.tol) * (∑ i, lasso i * |z i| + (w + T.insideTol) * npNorm z)
              ≤ (1 + T.gTol / (1 - T.gTol / 2)) * l * (∑ i, lasso i * |z i| + (w + T.insideTol) * npNorm z) :=
                mul_le_mul_of_nonneg_right (by linarith [not_lt.1 t1]) hP
            _ = (1 + T.gTol / (1 - T.gTol / 2)) * (l * (∑ i, lasso i * |z i| + (w + T.insideTol) * npNorm z)) := by ring
            _ < _ := mul_lt_mul_of_pos_left hz (by linarith)
        · have t2' := not_lt.1 t2
          have hn0 := npNorm_nonneg soft
          by_cases hz : npNorm soft = 0
          · refine ⟨0, le_rfl, ?_⟩
            rw [add_zero]
            refine le_trans (le_of_eq ?_) t2'
            unfold npNorm
            congr 1
            refine Finset.sum_congr rfl fun i _ => ?_
            dsimp only; split_ifs
            · rfl
            · have : soft i = 0 := npNorm_eq_zero hz i
              rw [← hl1]
              dsimp only
              rw [hsoft] at this
              dsimp only at this
              rw [this]; ring
          · rw [if_neg hz] at hl2
            subst hl2
            have hnp : 0 < npNorm soft := lt_of_le_of_ne hn0 (Ne.symm hz)
            have hl2n : npNorm (fun i => soft i / npNorm soft * w * v) = w * v := by
              have e : (fun i => soft i / npNorm soft * w * v) = fun i => (w * v / npNorm soft) * soft i := by
                funext i; field_simp
              rw [e, npNorm_smul, abs_of_pos (by positivity)]
              field_simp
            have t3 : npNorm (fun i => soft i / npNorm soft - b i / npNorm b) ≤ T.tol := by
              by_contra hc
              dsimp only at h
              rw [if_neg (by rw [hl2n]; positivity), if_pos] at h
              · simp at h
              · have e : (fun i => soft i / npNorm soft * w * v / npNorm (fun i => soft i / npNorm soft * w * v) - b i / npNorm b)
                    = fun i => soft i / npNorm soft - b i / npNorm b := by
                  funext i; rw [hl2n]
                  have : soft i / npNorm soft * w * v / (w * v) = soft i / npNorm soft := by field_simp
                  rw [this]
                rw [e]; exact not_le.1 hc
            refine ⟨npNorm soft, hn0, ?_⟩
            have e : (fun i => if b i = 0 then 0 else grad i + lam * lasso i * npSign (b i) + npNorm soft * (b i / npNorm b)) =
                fun i => (if b i = 0 then 0 else -(l1 i - lasso i * npSign (b i) * lam)) +
                  (if b i = 0 then 0 else npNorm soft * (b i / npNorm b) - soft i) := by
              funext i
              split_ifs
              · ring
              · rw [← hl1]
                simp only [hsoft]
                ring
            rw [e]
            refine le_trans (npNorm_add_le _ _) ?_
            have h1 : npNorm (fun i => if b i = 0 then 0 else -(l1 i - lasso i * npSign (b i) * lam)) ≤ T.tol * max 1 (npNorm b) := by
              refine le_trans (npNorm_le_of_abs fun i => ?_) t2'
              split_ifs
              · exact le_rfl
              · rw [abs_neg]
            have h2 : npNorm (fun i => if b i = 0 then 0 else npNorm soft * (b i / npNorm b) - soft i) ≤ T.tol * npNorm soft := by
              have h3 : npNorm (fun i => npNorm soft * (soft i / npNorm soft - b i / npNorm b)) ≤ T.tol * npNorm soft := by
                rw [npNorm_smul, abs_of_pos hnp, mul_comm]
                exact mul_le_mul_of_nonneg_right t3 hn0
              refine le_trans (npNorm_le_of_abs fun i => ?_) h3
              have e3 : npNorm soft * (soft i / npNorm soft - b i / npNorm b) = -(npNorm soft * (b i / npNorm b) - soft i) := by
                field_simp; ring
              rw [e3, abs_neg]
              split_ifs
              · rw [abs_zero]; exact abs_nonneg _
              · exact le_rfl
            linarith

/-- the penalty of one group -/
noncomputable def blockPen (a : ι → ℝ) (w : ℝ) (z : ι → ℝ) : ℝ := ∑ i, a i * |z i| + w * npNorm z

lemma blockPen_add_le {a : ι → ℝ} {w : ℝ} (ha : ∀ i, 0 ≤ a i) (hw : 0 ≤ w) (y z : ι → ℝ) :
    blockPen a w (fun i => y i + z i) ≤ blockPen a w y + blockPen a w z := by
  unfold blockPen
  have h1 : ∑ i, a i * |y i + z i| ≤ ∑ i, a i * |y i| + ∑ i, a i * |z i| := by
    rw [← Finset.sum_add_distrib]
    exact Finset.sum_le_sum fun i _ => by rw [← mul_add]; exact mul_le_mul_of_nonneg_left (abs_add_le _ _) (ha i)
  have h2 := mul_le_mul_of_nonneg_left (npNorm_add_le y z) hw
  linarith

lemma blockPen_smul {a : ι → ℝ} {w c : ℝ} (hc : 0 ≤ c) (z : ι → ℝ) :
    blockPen a w (fun i => c * z i) = c * blockPen a w z := by
  unfold blockPen
  rw [npNorm_smul, abs_of_nonneg hc, mul_add, Finset.mul_sum]
  congr 1
  · exact Finset.sum_congr rfl fun i _ => by rw [abs_mul, abs_of_nonneg hc]; ring
  · ring

/-- a subgradient of the penalty of a group lies in the dual ball -/
lemma vi_ball {grad b a : ι → ℝ} {w lam : ℝ} (hl : 0 ≤ lam) (ha : ∀ i, 0 ≤ a i) (hw : 0 ≤ w)
    (h : ∀ z : ι → ℝ, ∑ i, -grad i * (z i - b i) ≤ lam * (blockPen a w z - blockPen a w b)) (z : ι → ℝ) :
    ∑ i, -grad i * z i ≤ lam * blockPen a w z := by
  have h1 := h fun i => b i + z i
  have h2 := blockPen_add_le ha hw b z
  simp only [add_sub_cancel_left] at h1
  exact le_trans h1 (mul_le_mul_of_nonneg_left (by linarith) hl)

private lemma quad_zero {K C r : ℝ} (hC : 0 ≤ C) (hr : 0 < r) (h : ∀ t, |t| ≤ r → K * t ≤ C * t ^ 2) : K = 0 := by
  by_contra hK
  have hK' : 0 < |K| := abs_pos.2 hK
  -- t = sign K * min r (|K| / (2 (C+1)))
  set m := min r (|K| / (2 * (C + 1))) with hm
  have hm0 : 0 < m := lt_min hr (by positivity)
  have hm2 : 2 * (C + 1) * m ≤ |K| := by
    have : m ≤ |K| / (2 * (C + 1)) := min_le_right _ _
    rw [le_div_iff₀ (by positivity)] at this
    linarith
  have key : |K| * m ≤ C * m ^ 2 := by
    rcases le_total 0 K with h0 | h0
    · have := h m (by rw [abs_of_pos hm0]; exact min_le_left _ _)
      rwa [abs_of_nonneg h0]
    · have := h (-m) (by rw [abs_neg, abs_of_pos hm0]; exact min_le_left _ _)
      rw [abs_of_nonpos h0]
      nlinarith
  have : |K| ≤ C * m := by
    have : |K| * m ≤ C * m * m := by nlinarith
    exact le_of_mul_le_mul_right this hm0
  nlinarith

private lemma quad_le {K C A : ℝ} (hC : 0 ≤ C) (h : ∀ t, 0 < t → K * t ≤ A * t + C * t ^ 2) : K ≤ A := by
  by_contra hc
  have hc := not_le.1 hc
  set t := (K - A) / (2 * (C + 1)) with ht
  have ht0 : 0 < t := div_pos (by linarith) (by positivity)
  have h1 := h t ht0
  have h2 : 2 * (C + 1) * t = K - A := by rw [ht]; field_simp
  have h3 : (K - A) * t ≤ C * t * t := by nlinarith
  have h4 : K - A ≤ C * t := le_of_mul_le_mul_right h3 ht0
  nlinarith

/-- ... and at a nonzero block it has the familiar form -/
lemma vi_coord {grad b a : ι → ℝ} {w lam : ℝ} (hl : 0 < lam) (ha : ∀ i, 0 ≤ a i) (hw : 0 ≤ w) (hb : npNorm b ≠ 0)
    (h : ∀ z : ι → ℝ, ∑ i, -grad i * (z i - b i) ≤ lam * (blockPen a w z - blockPen a w b)) (i : ι) :
    (b i ≠ 0 → -grad i = lam * (a i * npSign (b i) + w * (b i / npNorm b))) ∧ (b i = 0 → |grad i| ≤ lam * a i) := by
  classical
  have hn : 0 < npNorm b := lt_of_le_of_ne (npNorm_nonneg b) (Ne.symm hb)
  set C := lam * w / (2 * npNorm b) with hC
  have hC0 : 0 ≤ C := by positivity
  -- one coordinate
  have key : ∀ t, -grad i * t ≤ lam * (a i * (|b i + t| - |b i|)) + lam * w * (b i / npNorm b) * t + C * t ^ 2 := by
    intro t
    have h1 := h (Function.update b i (b i + t))
    have e1 : ∑ j, -grad j * (Function.update b i (b i + t) j - b j) = -grad i * t := by
      rw [Finset.sum_eq_single i]
      · simp
      · intro j _ hj; simp [hj]
      · simp
    have e2 : ∑ j, a j * |Function.update b i (b i + t) j| - ∑ j, a j * |b j| = a i * (|b i + t| - |b i|) := by
      rw [← Finset.sum_sub_distrib, Finset.sum_eq_single i]
      · simp; ring
      · intro j _ hj; simp [hj]
      · simp
    have e3 : npNorm (Function.update b i (b i + t)) ^ 2 = npNorm b ^ 2 + (2 * b i * t + t ^ 2) := by
      rw [sq_npNorm, sq_npNorm]
      have : ∑ j, Function.update b i (b i + t) j ^ 2 - ∑ j, b j ^ 2 = 2 * b i * t + t ^ 2 := by
        rw [← Finset.sum_sub_distrib, Finset.sum_eq_single i]
        · simp; ring
        · intro j _ hj; simp [hj]
        · simp
      linarith
    have e4 : npNorm (Function.update b i (b i + t)) - npNorm b ≤ (2 * b i * t + t ^ 2) / (2 * npNorm b) := by
      rw [le_div_iff₀ (by positivity)]
      nlinarith [sq_nonneg (npNorm (Function.update b i (b i + t)) - npNorm b)]
    rw [e1] at h1
    unfold blockPen at h1
    have e5 := mul_le_mul_of_nonneg_left e4 (mul_nonneg hl.le hw)
    have e6 : lam * w * ((2 * b i * t + t ^ 2) / (2 * npNorm b)) = lam * w * (b i / npNorm b) * t + C * t ^ 2 := by
      rw [hC]; field_simp
    nlinarith
  constructor
  · intro hi
    have : -grad i - lam * (a i * npSign (b i) + w * (b i / npNorm b)) = 0 := by
      refine quad_zero hC0 (abs_pos.2 hi) fun t ht => ?_
      have h1 := key t
      have h2 : |b i + t| - |b i| = npSign (b i) * t := by
        unfold npSign
        rcases lt_or_gt_of_ne hi with h0 | h0
        · rw [if_neg (not_lt.2 h0.le), if_pos h0, abs_of_neg h0]
          rw [abs_of_neg h0, abs_le] at ht
          rw [abs_of_nonpos (by linarith)]; ring
        · rw [if_pos h0, abs_of_pos h0]
          rw [abs_of_pos h0, abs_le] at ht
          rw [abs_of_nonneg (by linarith)]; ring
      rw [h2] at h1
      nlinarith
    linarith
  · intro hi
    rw [abs_le]
    constructor
    · have : -grad i ≤ lam * a i := by
        refine quad_le hC0 fun t ht => ?_
        have h1 := key t
        rw [hi, zero_add, abs_zero, abs_of_pos ht, zero_div] at h1
        nlinarith
      linarith
    · refine quad_le hC0 fun t ht => ?_
      have h1 := key (-t)
      rw [hi, zero_add, abs_zero, abs_neg, abs_of_pos ht, zero_div] at h1
      nlinarith

/-- an exact solution passes the check of an active group -/
lemma active_complete {grad b a : ι → ℝ} {w lam insideTol gTol tol η : ℝ} {m : ℕ} (hl : 0 < lam) (ha : ∀ i, 0 ≤ a i) (hw : 0 < w)
    (hi : 0 ≤ insideTol) (ht : 0 < gTol) (ht' : gTol ≤ 1 / 2) (hb : npNorm b ≠ 0)
    (hex : ∀ i, (b i ≠ 0 → -grad i = lam * (a i * npSign (b i) + w * (b i / npNorm b))) ∧ (b i = 0 → |grad i| ≤ lam * a i))
    (hη1 : gTol / (1 - gTol / 2) ≤ η) (hη2 : 1 - η ≤ w / ((w + insideTol) * (1 + gTol / (1 - gTol / 2)))) (hη3 : η ≤ tol)
    (hη4 : η * lam * npNorm a ≤ tol) (hη5 : 2 * η * npNorm a ≤ tol * w) (hηs : η * npNorm a < w)
    (hm1 : lam ≤ 2 ^ m) (hm2 : 1 / 2 ^ m < lam * (1 - η)) :
    ∃ N, ∀ fuel, N ≤ fuel → activeCode grad b a w lam ⟨insideTol, gTol, m, tol, fuel⟩ = some 0 := by
  classical
  have hn : 0 < npNorm b := lt_of_le_of_ne (npNorm_nonneg b) (Ne.symm hb)
  set τ := gTol / (1 - gTol / 2) with hτ
  have hτ0 : 0 ≤ τ := div_nonneg ht.le (by linarith)
  have hsg : ∀ i, b i ≠ 0 → npSign (-grad i) = npSign (b i) ∧ |(-grad i)| = lam * (a i + w * (|b i| / npNorm b)) := by
    intro i hi
    have e := (hex i).1 hi
    have ha' := ha i
    rcases lt_or_gt_of_ne hi with h0 | h0
    · have h1 : npSign (b i) = -1 := by unfold npSign; rw [if_neg (not_lt.2 h0.le), if_pos h0]
      have h2 : w * (b i / npNorm b) < 0 := mul_neg_of_pos_of_neg hw (div_neg_of_neg_of_pos h0 hn)
      have h3 : -grad i < 0 := by rw [e, h1]; exact mul_neg_of_pos_of_neg hl (by linarith)
      refine ⟨?_, ?_⟩
      · rw [h1]; unfold npSign; rw [if_neg (not_lt.2 h3.le), if_pos h3]
      · rw [abs_of_neg h3, e, h1, abs_of_neg h0]; ring
    · have h1 : npSign (b i) = 1 := by unfold npSign; rw [if_pos h0]
      have h2 : 0 < w * (b i / npNorm b) := mul_pos hw (div_pos h0 hn)
      have h3 : 0 < -grad i := by rw [e, h1]; exact mul_pos hl (by linarith)
      refine ⟨?_, ?_⟩
      · rw [h1]; unfold npSign; rw [if_pos h3]
      · rw [abs_of_pos h3, e, h1, abs_of_pos h0]; ring
  set S : ℝ → ι → ℝ := fun t i => max (|(-grad i)| - t * a i) 0 with hS
  have hSlam : ∀ i, S lam i = lam * w / npNorm b * |b i| := by
    intro i
    simp only [hS]
    by_cases hi : b i = 0
    · have := (hex i).2 hi
      rw [abs_neg, max_eq_right (by linarith), hi]; simp
    · rw [(hsg i hi).2, max_eq_left]
      · field_simp; ring
      · have : 0 ≤ lam * (w * (|b i| / npNorm b)) := by positivity
        linarith
  have hSn : npNorm (S lam) = lam * w := by
    have : S lam = fun i => lam * w / npNorm b * |b i| := funext hSlam
    rw [this, npNorm_smul, abs_of_pos (by positivity)]
    have e0 : npNorm (fun i => |b i|) = npNorm b := by
      unfold npNorm; congr 1; exact Finset.sum_congr rfl fun i _ => sq_abs _
    rw [e0]; field_simp
  have hS0 : ∀ t i, 0 ≤ S t i := fun t i => le_max_right _ _
  have hSmono : ∀ s t, s ≤ t → npNorm (S t) ≤ npNorm (S s) := by
    intro s t hst
    refine npNorm_le_of_abs fun i => ?_
    rw [abs_of_nonneg (hS0 t i), abs_of_nonneg (hS0 s i)]
    exact max_le_max (by nlinarith [ha i]) le_rfl
  have hins : ∀ t, Gauge.insideStrong (fun i => -grad i) t a w insideTol ↔ npNorm (S t) ≤ t * (w + insideTol) := fun t => Iff.rfl
  have hlow : ∀ u, 0 < u → Gauge.insideStrong (fun i => -grad i) u a w insideTol → lam * w ≤ u * (w + insideTol) := by
    intro u hu hin
    rcases le_total u lam with h | h
    · have := hSmono u lam h
      rw [hSn] at this
      exact le_trans this ((hins u).1 hin)
    · nlinarith
  have hup : ∀ l, 0 < l → ¬ Gauge.insideStrong (fun i => -grad i) l a w insideTol → l < lam := by
    intro l hl0 hnot
    by_contra hc
    apply hnot
    rw [hins]
    have := hSmono lam l (not_lt.1 hc)
    rw [hSn] at this
    nlinarith [not_lt.1 hc]
  have hwi : 0 < w + insideTol := by linarith
  obtain ⟨N, hN⟩ := gaugeDual_spec (fun t => decide (Gauge.insideStrong (fun i => -grad i) t a w insideTol)) ht ht' m
  refine ⟨N, fun fuel hf => ?_⟩
  obtain ⟨r, hr, hs⟩ := hN fuel hf
  have hr' : Gauge.strong (fun i => -grad i) a w insideTol gTol m fuel = some r := hr
  have hu1 : ∀ u, 0 < u → Gauge.insideStrong (fun i => -grad i) u a w insideTol → (1 + τ) * (lam * (1 - η)) ≤ u := by
    intro u hu hin
    have h1 := hlow u hu hin
    have h2 : (1 - η) * ((w + insideTol) * (1 + τ)) ≤ w := by
      rwa [le_div_iff₀ (mul_pos hwi (by linarith))] at hη2
    have h3 : lam * ((1 - η) * ((w + insideTol) * (1 + τ))) ≤ lam * w := mul_le_mul_of_nonneg_left h2 hl.le
    have h4 : (1 + τ) * (lam * (1 - η)) * (w + insideTol) ≤ u * (w + insideTol) := by
      calc _ = lam * ((1 - η) * ((w + insideTol) * (1 + τ))) := by ring
        _ ≤ _ := by linarith
    exact le_of_mul_le_mul_right h4 hwi
  have hval : ∃ v, r = .value v ∧ lam * (1 - η) ≤ v ∧ v ≤ lam * (1 + η) := by
    rcases hs with ⟨rfl, hin⟩ | ⟨rfl, hin⟩ | ⟨v, rfl, hst⟩
    · exfalso
      have := hu1 _ (by positivity) (of_decide_eq_true hin)
      have h0 : 0 < 1 / (2:ℝ) ^ m := by positivity
      nlinarith
    · exfalso
      have := hup _ (by positivity) (of_decide_eq_false hin)
      linarith
    · obtain ⟨l, u, hl0, hil, hiu, hu0, huv, hvl⟩ := stopped_le ht ht' hst
      refine ⟨v, rfl, ?_, ?_⟩
      · have := hu1 u hu0 (of_decide_eq_true hiu)
        exact le_of_mul_le_mul_left (le_trans this huv) (by linarith)
      · have := hup l hl0 (of_decide_eq_false hil)
        nlinarith
  obtain ⟨v, rfl, hv1, hv2⟩ := hval
  have hv0 : 0 < v := lt_of_lt_of_le (lt_trans (by positivity) hm2) hv1
  have hvd : |v - lam| ≤ η * lam := by rw [abs_le]; constructor <;> linarith
  have hη0 : 0 ≤ η := le_trans hτ0 hη1
  -- the soft thresholded vector
  set soft : ι → ℝ := fun i => S v i * npSign (-grad i) with hsoft
  set y : ι → ℝ := fun i => lam * w / npNorm b * b i with hy
  have hyn : npNorm y = lam * w := by
    rw [hy, npNorm_smul, abs_of_pos (by positivity)]; field_simp
  have hyd : ∀ i, y i / npNorm y = b i / npNorm b := by
    intro i; rw [hyn]; simp only [hy]; field_simp
  have habs : ∀ x : ℝ, |npSign x| ≤ 1 := by
    intro x; unfold npSign; split_ifs <;> norm_num
  have hdiff : ∀ i, |soft i - y i| ≤ |η * lam * a i| := by
    intro i
    have e : y i = S lam i * npSign (-grad i) := by
      rw [hSlam]
      simp only [hy]
      by_cases hi : b i = 0
      · simp [hi]
      · rw [(hsg i hi).1, mul_assoc]
        congr 1
        rcases lt_or_gt_of_ne hi with h0 | h0
        · unfold npSign; rw [if_neg (not_lt.2 h0.le), if_pos h0, abs_of_neg h0]; ring
        · unfold npSign; rw [if_pos h0, abs_of_pos h0]; ring
    rw [e, hsoft]
    dsimp only
    rw [← sub_mul, abs_mul]
    have h1 : |S v i - S lam i| ≤ |v - lam| * a i := by
      simp only [hS]
      refine le_trans (abs_max_sub_max_le_abs _ _ _) ?_
      have : |(-grad i)| - v * a i - (|(-grad i)| - lam * a i) = -((v - lam) * a i) := by ring
      rw [this, abs_neg, abs_mul, abs_of_nonneg (ha i)]
    have h2 : |v - lam| * a i ≤ η * lam * a i := mul_le_mul_of_nonneg_right hvd (ha i)
    rw [abs_of_nonneg (mul_nonneg (mul_nonneg hη0 hl.le) (ha i))]
    calc _ ≤ |S v i - S lam i| * 1 := mul_le_mul_of_nonneg_left (habs _) (abs_nonneg _)
      _ ≤ _ := by linarith
  have hdn : npNorm (fun i => soft i - y i) ≤ η * lam * npNorm a := by
    refine le_trans (npNorm_le_of_abs hdiff) ?_
    rw [npNorm_smul, abs_of_nonneg (mul_nonneg hη0 hl.le)]
  have hsn : 0 < npNorm soft := by
    have h1 := npNorm_sub_le y soft
    rw [npNorm_sub_comm, hyn] at h1
    nlinarith
  unfold activeCode dualStrong
  dsimp only
  rw [hr']
  dsimp only
  have hsoft' : (fun i => max (|(-grad i)| - v * a i) 0 * npSign (-grad i)) = soft := rfl
  rw [hsoft', if_neg hsn.ne']
  dsimp only
  have hl2n : npNorm (fun i => soft i / npNorm soft * w * v) = w * v := by
    have e : (fun i => soft i / npNorm soft * w * v) = fun i => (w * v / npNorm soft) * soft i := by
      funext i; field_simp
    rw [e, npNorm_smul, abs_of_pos (by positivity)]
    field_simp
  have c3 : ¬ npNorm (fun i => soft i / npNorm soft * w * v / npNorm (fun i => soft i / npNorm soft * w * v) - b i / npNorm b) > tol := by
    have e : (fun i => soft i / npNorm soft * w * v / npNorm (fun i => soft i / npNorm soft * w * v) - b i / npNorm b)
        = fun i => soft i / npNorm soft - y i / npNorm y := by
      funext i; rw [hl2n, hyd]
      have : soft i / npNorm soft * w * v / (w * v) = soft i / npNorm soft := by field_simp
      rw [this]
    rw [e, gt_iff_lt, not_lt]
    refine le_trans (direction_close hsn.ne' (by rw [hyn]; positivity)) ?_
    rw [hyn, div_le_iff₀ (by positivity)]
    nlinarith
  have c2 : ¬ npNorm (fun i => if b i = 0 then 0 else -grad i - soft i - a i * npSign (b i) * lam) > tol * max 1 (npNorm b) := by
    rw [gt_iff_lt, not_lt]
    have h1 : npNorm (fun i => if b i = 0 then 0 else -grad i - soft i - a i * npSign (b i) * lam) ≤ npNorm (fun i => soft i - y i) := by
      refine npNorm_le_of_abs fun i => ?_
      split_ifs with hi
      · rw [abs_zero]; exact abs_nonneg _
      · have : -grad i - soft i - a i * npSign (b i) * lam = -(soft i - y i) := by
          rw [(hex i).1 hi]; simp only [hy]; field_simp; ring
        rw [this, abs_neg]
    have h2 : tol * 1 ≤ tol * max 1 (npNorm b) := mul_le_mul_of_nonneg_left (le_max_left _ _) (by linarith)
    linarith
  have c1 : ¬ v < lam * (1 - tol) := by
    rw [not_lt]
    refine le_trans (mul_le_mul_of_nonneg_left (by linarith) hl.le) hv1
  rw [if_neg c1, if_neg c2, if_neg (by rw [hl2n]; positivity), if_neg c3]

end gauge

end Verif.Lemmas
