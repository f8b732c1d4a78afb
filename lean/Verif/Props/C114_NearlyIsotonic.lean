import Verif.Props.C69_Container
import Verif.Props.C107_ProblemFactories
import Mathlib.Algebra.Order.Chebyshev

/-!
# C114: nearly isotonic regression, `container(signal_approximator(Y, c), positive_part.linear(-D, lagrange=lam))`

The example `doc/examples/nearlyisotonic.py`: its solutions are characterised by partial sums of the residuals, and a large
multiplier gives isotonic regression.
-/

set_option linter.unusedSectionVars false
set_option linter.unusedVariables false

namespace Verif.Props
open Verif.Model Verif.Lemmas Verif.Spec

variable {k : ℕ}

/-! ### specification -/

/-- the operator `-D` of the example: entry `i` of its value is `x_i - x_{i+1}` -/
def dropMatrix (k : ℕ) : Fin (k + 1) → Fin (k + 2) → ℝ :=
  fun i j => (if j = i.castSucc then 1 else 0) - if j = i.succ then 1 else 0

/-- half the squared distance to `Y`, plus `lam` times the sum of all drops from one coefficient to the next -/
noncomputable def nearlyIsotonic (c lam : ℝ) (Y x : Fin (k + 2) → ℝ) : ℝ :=
  c / 2 * ∑ j, (x j - Y j) ^ 2 + lam * ∑ i : Fin (k + 1), max (x i.castSucc - x i.succ) 0

/-- what a user can check in one pass over the residuals: they add up to zero, and the partial sums up to position `i`, times `c`, are
between zero and `lam`, equal to `lam` at a drop and to zero at a rise -/
def ResidualCheck (c lam : ℝ) (Y x : Fin (k + 2) → ℝ) : Prop :=
  ∑ j, (Y j - x j) = 0 ∧ ∀ i : Fin (k + 1),
    0 ≤ c * ∑ j ∈ Finset.Iic i.castSucc, (Y j - x j) ∧ c * ∑ j ∈ Finset.Iic i.castSucc, (Y j - x j) ≤ lam ∧
    (x i.succ < x i.castSucc → c * ∑ j ∈ Finset.Iic i.castSucc, (Y j - x j) = lam) ∧
    (x i.castSucc < x i.succ → c * ∑ j ∈ Finset.Iic i.castSucc, (Y j - x j) = 0)

/-! ### helpers -/

private lemma abel : ∀ (n : ℕ) (r w : Fin (n + 1) → ℝ), ∑ j, r j * w j =
    (∑ i : Fin n, (∑ j ∈ Finset.Iic i.castSucc, r j) * (w i.castSucc - w i.succ)) + (∑ j, r j) * w (Fin.last n) := by
  intro n
  induction n with
  | zero => intro r w; simp
  | succ n ih =>
    intro r w
    have hI : ∀ i : Fin (n + 1), ∑ j ∈ Finset.Iic i.castSucc, r j = ∑ j ∈ Finset.Iic i, r j.castSucc := by
      intro i
      rw [← Fin.map_castSuccEmb_Iic, Finset.sum_map]; rfl
    have hl : ∑ j ∈ Finset.Iic (Fin.last n), r j.castSucc = ∑ j : Fin (n + 1), r j.castSucc := by
      congr 1; ext j; simp [Fin.le_last]
    rw [Fin.sum_univ_castSucc, ih (fun j => r j.castSucc) fun j => w j.castSucc,
      Fin.sum_univ_castSucc (f := fun i : Fin (n + 1) => _ * _), Fin.sum_univ_castSucc (f := r)]
    simp only [hI, hl, Fin.succ_castSucc, Fin.succ_last]
    have : ∀ i : Fin n, ∑ j ∈ Finset.Iic i.castSucc, r j.castSucc = ∑ j ∈ Finset.Iic i.castSucc, (fun j => r j.castSucc) j :=
      fun i => rfl
    ring

/-- the quadratic part, expanded -/
private lemma quad_expand (Y x z : Fin (k + 2) → ℝ) (c : ℝ) : c / 2 * ∑ j, (z j - Y j) ^ 2 =
    c / 2 * ∑ j, (x j - Y j) ^ 2 - c * ∑ j, (Y j - x j) * (z j - x j) + c / 2 * ∑ j, (z j - x j) ^ 2 := by
  simp only [Finset.mul_sum]
  rw [← Finset.sum_sub_distrib, ← Finset.sum_add_distrib]
  exact Finset.sum_congr rfl fun j _ => by ring

/-- under the check the objective grows at least like the quadratic -/
private lemma growth {c lam : ℝ} (hl : 0 ≤ lam) {Y x : Fin (k + 2) → ℝ} (h : ResidualCheck c lam Y x) (z : Fin (k + 2) → ℝ) :
    nearlyIsotonic c lam Y x + c / 2 * ∑ j, (z j - x j) ^ 2 ≤ nearlyIsotonic c lam Y z := by
  obtain ⟨h0, h⟩ := h
  have hs := abel (k + 1) (fun j => Y j - x j) fun j => z j - x j
  rw [h0, zero_mul, add_zero] at hs
  have hd : ∑ i : Fin (k + 1), c * (∑ j ∈ Finset.Iic i.castSucc, (Y j - x j)) *
      ((z i.castSucc - x i.castSucc) - (z i.succ - x i.succ)) ≤
      ∑ i : Fin (k + 1), (lam * max (z i.castSucc - z i.succ) 0 - lam * max (x i.castSucc - x i.succ) 0) := by
    refine Finset.sum_le_sum fun i _ => ?_
    obtain ⟨a1, a2, a3, a4⟩ := h i
    set s := c * ∑ j ∈ Finset.Iic i.castSucc, (Y j - x j)
    have hz : s * (z i.castSucc - z i.succ) ≤ lam * max (z i.castSucc - z i.succ) 0 := by
      rcases le_total (z i.castSucc - z i.succ) 0 with h1 | h1
      · rw [max_eq_right h1]; nlinarith
      · rw [max_eq_left h1]; nlinarith
    have hx : s * (x i.castSucc - x i.succ) = lam * max (x i.castSucc - x i.succ) 0 := by
      rcases lt_trichotomy (x i.castSucc) (x i.succ) with h1 | h1 | h1
      · rw [a4 h1, max_eq_right (by linarith)]; ring
      · rw [h1]; simp
      · rw [a3 h1, max_eq_left (by linarith)]
    linarith
  have e : c * ∑ j, (Y j - x j) * (z j - x j) = ∑ i : Fin (k + 1), c * (∑ j ∈ Finset.Iic i.castSucc, (Y j - x j)) *
      ((z i.castSucc - x i.castSucc) - (z i.succ - x i.succ)) := by
    rw [hs, Finset.mul_sum]
    exact Finset.sum_congr rfl fun i _ => by ring
  rw [Finset.sum_sub_distrib, ← Finset.mul_sum, ← Finset.mul_sum, ← e] at hd
  unfold nearlyIsotonic
  rw [quad_expand Y x z c]
  linarith

private lemma small {a b ε : ℝ} (hε : 0 < ε) (hb : 0 ≤ b) (h : ∀ t, 0 < t → t ≤ ε → a ≤ b * t) : a ≤ 0 := by
  by_contra ha
  push Not at ha
  have h1 := h (min ε (a / (2 * (b + 1)))) (lt_min hε (by positivity)) (min_le_left _ _)
  have h2 : b * min ε (a / (2 * (b + 1))) ≤ b * (a / (2 * (b + 1))) := mul_le_mul_of_nonneg_left (min_le_right _ _) hb
  have h3 : b * (a / (2 * (b + 1))) ≤ a / 2 := by
    rw [← mul_div_assoc, div_le_div_iff₀ (by positivity) (by norm_num)]
    nlinarith
  linarith

/-- the objective along a shift of the first coefficients -/
private lemma shift_val (c lam : ℝ) (Y x : Fin (k + 2) → ℝ) (i : Fin (k + 1)) (t : ℝ) :
    nearlyIsotonic c lam Y (fun j => x j + if j ≤ i.castSucc then t else 0) = nearlyIsotonic c lam Y x
      - t * (c * ∑ j ∈ Finset.Iic i.castSucc, (Y j - x j)) + c / 2 * ((Finset.Iic i.castSucc).card * t ^ 2)
      + lam * (max (x i.castSucc - x i.succ + t) 0 - max (x i.castSucc - x i.succ) 0) := by
  unfold nearlyIsotonic
  rw [quad_expand Y x (fun j => x j + if j ≤ i.castSucc then t else 0) c]
  have e1 : ∑ j, (Y j - x j) * (x j + (if j ≤ i.castSucc then t else 0) - x j) = t * ∑ j ∈ Finset.Iic i.castSucc, (Y j - x j) := by
    rw [Finset.mul_sum, ← Finset.sum_filter_add_sum_filter_not Finset.univ (fun j => j ≤ i.castSucc)]
    have : (Finset.univ.filter fun j => j ≤ i.castSucc) = Finset.Iic i.castSucc := by ext; simp
    rw [this, Finset.sum_congr rfl (g := fun j => t * (Y j - x j)) (fun j hj => by rw [if_pos (Finset.mem_Iic.1 hj)]; ring),
      Finset.sum_eq_zero (s := Finset.univ.filter _) fun j hj => by rw [if_neg (Finset.mem_filter.1 hj).2]; ring, add_zero]
  have e2 : ∑ j, (x j + (if j ≤ i.castSucc then t else 0) - x j) ^ 2 = (Finset.Iic i.castSucc).card * t ^ 2 := by
    rw [← Finset.sum_filter_add_sum_filter_not Finset.univ (fun j => j ≤ i.castSucc)]
    have : (Finset.univ.filter fun j => j ≤ i.castSucc) = Finset.Iic i.castSucc := by ext; simp
    rw [this, Finset.sum_congr rfl (g := fun _ => t ^ 2) (fun j hj => by rw [if_pos (Finset.mem_Iic.1 hj)]; ring),
      Finset.sum_eq_zero (s := Finset.univ.filter _) fun j hj => by rw [if_neg (Finset.mem_filter.1 hj).2]; ring, add_zero]
    simp
  have e3 : ∑ l : Fin (k + 1), max ((x l.castSucc + if l.castSucc ≤ i.castSucc then t else 0) -
      (x l.succ + if l.succ ≤ i.castSucc then t else 0)) 0 =
      ∑ l : Fin (k + 1), max (x l.castSucc - x l.succ) 0 + (max (x i.castSucc - x i.succ + t) 0 - max (x i.castSucc - x i.succ) 0) := by
    rw [← sub_eq_iff_eq_add', ← Finset.sum_sub_distrib, Finset.sum_eq_single i]
    · rw [if_pos le_rfl, if_neg (by rw [Fin.le_def]; simp)]
      congr 2; ring
    · intro l _ hl
      rcases lt_or_gt_of_ne hl with h | h
      · rw [if_pos (by rw [Fin.le_def]; simpa using h.le), if_pos (by rw [Fin.le_def]; simpa using h)]
        rw [sub_eq_zero]; congr 1; ring
      · rw [if_neg (by rw [Fin.le_def]; simpa using h), if_neg (by rw [Fin.le_def]; simp; omega)]
        rw [sub_eq_zero]; congr 1; ring
    · intro h; exact absurd (Finset.mem_univ i) h
  rw [e1, e2, e3]
  ring

/-- the objective along a shift of all coefficients -/
private lemma shift_all (c lam : ℝ) (Y x : Fin (k + 2) → ℝ) (t : ℝ) :
    nearlyIsotonic c lam Y (fun j => x j + t) = nearlyIsotonic c lam Y x - t * (c * ∑ j, (Y j - x j)) + c / 2 * ((k + 2) * t ^ 2) := by
  unfold nearlyIsotonic
  rw [quad_expand Y x (fun j => x j + t) c]
  simp only [add_sub_add_right_eq_sub, add_sub_cancel_left, ← Finset.sum_mul, Finset.sum_const, Finset.card_univ, Fintype.card_fin,
    nsmul_eq_mul]
  push_cast
  ring

private lemma necessary {c lam : ℝ} (hc : 0 < c) (hl : 0 ≤ lam) {Y x : Fin (k + 2) → ℝ}
    (h : ∀ z, nearlyIsotonic c lam Y x ≤ nearlyIsotonic c lam Y z) : ResidualCheck c lam Y x := by
  refine ⟨?_, fun i => ?_⟩
  · have h1 : ∀ t : ℝ, t * (c * ∑ j, (Y j - x j)) ≤ c / 2 * ((k + 2) * t ^ 2) := by
      intro t
      have := h fun j => x j + t
      rw [shift_all] at this; linarith
    have hb : 0 ≤ c / 2 * ((k : ℝ) + 2) := by positivity
    have a := small (a := c * ∑ j, (Y j - x j)) one_pos hb fun t ht _ => by
      have := h1 t
      refine le_of_mul_le_mul_left (?_ : t * _ ≤ t * _) ht
      nlinarith
    have b := small (a := -(c * ∑ j, (Y j - x j))) one_pos hb fun t ht _ => by
      have := h1 (-t)
      refine le_of_mul_le_mul_left (?_ : t * _ ≤ t * _) ht
      nlinarith
    have : c * ∑ j, (Y j - x j) = 0 := by linarith
    exact (mul_eq_zero.1 this).resolve_left hc.ne'
  · set s := c * ∑ j ∈ Finset.Iic i.castSucc, (Y j - x j) with hs
    set d := x i.castSucc - x i.succ with hd
    set m : ℝ := ((Finset.Iic i.castSucc).card : ℝ) with hm
    have hm0 : 0 ≤ m := Nat.cast_nonneg _
    have hb : 0 ≤ c / 2 * m := by positivity
    have h1 : ∀ t : ℝ, t * s ≤ c / 2 * (m * t ^ 2) + lam * (max (d + t) 0 - max d 0) := by
      intro t
      have := h fun j => x j + if j ≤ i.castSucc then t else 0
      rw [shift_val] at this; linarith
    have up : s ≤ lam := by
      have := small (a := s - lam) one_pos hb fun t ht _ => by
        have h2 := h1 t
        have h3 : max (d + t) 0 - max d 0 ≤ t := by
          have : max (d + t) 0 ≤ max d 0 + t := max_le (by linarith [le_max_left d 0]) (by linarith [le_max_right d 0])
          linarith
        have h4 := mul_le_mul_of_nonneg_left h3 hl
        refine le_of_mul_le_mul_left (?_ : t * _ ≤ t * _) ht
        nlinarith
      linarith
    have lo : 0 ≤ s := by
      have := small (a := -s) one_pos hb fun t ht _ => by
        have h2 := h1 (-t)
        have h3 : max (d + -t) 0 - max d 0 ≤ 0 := by
          have : max (d + -t) 0 ≤ max d 0 := max_le_max (by linarith) le_rfl
          linarith
        have h4 := mul_le_mul_of_nonneg_left h3 hl
        refine le_of_mul_le_mul_left (?_ : t * _ ≤ t * _) ht
        nlinarith
      linarith
    refine ⟨lo, up, fun hlt => le_antisymm up ?_, fun hlt => le_antisymm ?_ lo⟩
    · have hd0 : 0 < d := by rw [hd]; linarith
      have := small (a := lam - s) hd0 hb fun t ht htd => by
        have h2 := h1 (-t)
        rw [max_eq_left (by linarith : (0:ℝ) ≤ d + -t), max_eq_left hd0.le] at h2
        refine le_of_mul_le_mul_left (?_ : t * _ ≤ t * _) ht
        nlinarith
      linarith
    · have hd0 : 0 < -d := by rw [hd]; linarith
      exact small hd0 hb fun t ht htd => by
        have h2 := h1 t
        rw [max_eq_right (by linarith : d + t ≤ 0), max_eq_right (by linarith : d ≤ 0)] at h2
        refine le_of_mul_le_mul_left (?_ : t * _ ≤ t * _) ht
        nlinarith

/-! ### theorems -/

/-- **C114** `x` minimises the nearly isotonic objective exactly when its residuals pass the check: they add up to zero and their partial
sums stay in `[0, lam / c]`, at the upper end where `x` drops and at zero where it rises. -/
theorem C114_residuals {c lam : ℝ} (hc : 0 < c) (hl : 0 ≤ lam) (Y x : Fin (k + 2) → ℝ) :
    (∀ z, nearlyIsotonic c lam Y x ≤ nearlyIsotonic c lam Y z) ↔ ResidualCheck c lam Y x := by
  refine ⟨necessary hc hl, fun h z => ?_⟩
  have h1 := growth hl h z
  have : 0 ≤ c / 2 * ∑ j, (z j - x j) ^ 2 := by positivity
  linarith

/-- **C114** For every signal there is exactly one solution, and the objective of any other `z` is larger by at least half of `c` times the
squared distance. -/
theorem C114_unique {c lam : ℝ} (hc : 0 < c) (hl : 0 ≤ lam) (Y : Fin (k + 2) → ℝ) :
    ∃ x, (∀ z, nearlyIsotonic c lam Y x + c / 2 * ∑ j, (z j - x j) ^ 2 ≤ nearlyIsotonic c lam Y z) ∧
      ∀ w, (∀ z, nearlyIsotonic c lam Y w ≤ nearlyIsotonic c lam Y z) → w = x := by
  have hpen : ∀ z : Fin (k + 2) → ℝ, c / 2 * ∑ j, (z j - Y j) ^ 2 ≤ nearlyIsotonic c lam Y z := fun z => by
    unfold nearlyIsotonic
    have : 0 ≤ lam * ∑ i : Fin (k + 1), max (z i.castSucc - z i.succ) 0 :=
      mul_nonneg hl (Finset.sum_nonneg fun i _ => le_max_right _ _)
    linarith
  have hcont : Continuous fun z => nearlyIsotonic c lam Y z := by unfold nearlyIsotonic; fun_prop
  obtain ⟨x, hx⟩ : ∃ x, ∀ z, nearlyIsotonic c lam Y x ≤ nearlyIsotonic c lam Y z := by
    refine hcont.exists_forall_le' Y ?_
    have hK : IsCompact (Metric.closedBall Y (Real.sqrt (2 * nearlyIsotonic c lam Y Y / c))) := isCompact_closedBall _ _
    filter_upwards [hK.compl_mem_cocompact] with z hz
    have h1 : Real.sqrt (2 * nearlyIsotonic c lam Y Y / c) < dist z Y := by
      by_contra hcon
      exact hz (Metric.mem_closedBall.2 (not_lt.1 hcon))
    obtain ⟨j, hj⟩ : ∃ j, dist (z j) (Y j) = dist z Y := by
      obtain ⟨j, -, hj⟩ := Finset.exists_max_image Finset.univ (fun j => dist (z j) (Y j)) ⟨0, Finset.mem_univ 0⟩
      refine ⟨j, le_antisymm (dist_le_pi_dist z Y j) ((dist_pi_le_iff dist_nonneg).2 fun i => hj i (Finset.mem_univ i))⟩
    rw [Real.sqrt_lt' (lt_of_le_of_lt (Real.sqrt_nonneg _) h1), ← hj, Real.dist_eq, sq_abs, div_lt_iff₀ hc] at h1
    have h2 : (z j - Y j) ^ 2 ≤ ∑ j, (z j - Y j) ^ 2 :=
      Finset.single_le_sum (f := fun j => (z j - Y j) ^ 2) (fun i _ => sq_nonneg _) (Finset.mem_univ j)
    have h3 := hpen z
    nlinarith
  refine ⟨x, growth hl ((C114_residuals hc hl Y x).1 hx), fun w hw => ?_⟩
  have h1 := growth hl ((C114_residuals hc hl Y x).1 hx) w
  have h2 := hw x
  have h3 : ∑ j, (w j - x j) ^ 2 = 0 :=
    le_antisymm (by nlinarith) (Finset.sum_nonneg fun j _ => sq_nonneg _)
  funext j
  have := (Finset.sum_eq_zero_iff_of_nonneg fun j _ => sq_nonneg (w j - x j)).1 h3 j (Finset.mem_univ j)
  exact sub_eq_zero.1 (pow_eq_zero_iff (two_ne_zero) |>.1 this)

/-- **C114** A solution keeps the mean of the signal and stays within its range; a signal that already is nondecreasing is its own
solution, whatever the multiplier; without a penalty the solution is the signal. -/
theorem C114_signal {c lam : ℝ} (hc : 0 < c) (hl : 0 ≤ lam) (Y x : Fin (k + 2) → ℝ)
    (hx : ∀ z, nearlyIsotonic c lam Y x ≤ nearlyIsotonic c lam Y z) :
    ∑ j, x j = ∑ j, Y j ∧ (∀ a b, (∀ j, a ≤ Y j ∧ Y j ≤ b) → ∀ j, a ≤ x j ∧ x j ≤ b) ∧ (Monotone Y ∨ lam = 0 → x = Y) := by
  have hg := growth hl ((C114_residuals hc hl Y x).1 hx)
  have huniq : ∀ w, nearlyIsotonic c lam Y w ≤ nearlyIsotonic c lam Y x → w = x := by
    intro w hw
    have h1 := hg w
    have h3 : ∑ j, (w j - x j) ^ 2 = 0 :=
      le_antisymm (by nlinarith) (Finset.sum_nonneg fun j _ => sq_nonneg _)
    funext j
    have := (Finset.sum_eq_zero_iff_of_nonneg fun j _ => sq_nonneg (w j - x j)).1 h3 j (Finset.mem_univ j)
    exact sub_eq_zero.1 (pow_eq_zero_iff (two_ne_zero) |>.1 this)
  refine ⟨?_, fun a b hab => ?_, fun h => ?_⟩
  · have := ((C114_residuals hc hl Y x).1 hx).1
    rw [Finset.sum_sub_distrib] at this
    linarith
  · have hle : a ≤ b := (hab 0).1.trans (hab 0).2
    have h1 : (fun j => max a (min (x j) b)) = x := by
      refine huniq _ ?_
      unfold nearlyIsotonic
      refine add_le_add (mul_le_mul_of_nonneg_left (Finset.sum_le_sum fun j _ => ?_) (by positivity))
        (mul_le_mul_of_nonneg_left (Finset.sum_le_sum fun i _ => ?_) hl)
      · obtain ⟨h1, h2⟩ := hab j
        show (max a (min (x j) b) - Y j) ^ 2 ≤ (x j - Y j) ^ 2
        rcases le_total (x j) b with h3 | h3
        · rw [min_eq_left h3]
          rcases le_total a (x j) with h4 | h4
          · rw [max_eq_right h4]
          · rw [max_eq_left h4]; nlinarith
        · rw [min_eq_right h3, max_eq_right hle]; nlinarith
      · refine max_le ?_ (le_max_right _ _)
        rcases le_total (x i.castSucc) (x i.succ) with h | h
        · have : max a (min (x i.castSucc) b) ≤ max a (min (x i.succ) b) := max_le_max le_rfl (min_le_min h le_rfl)
          exact le_trans (by linarith) (le_max_right _ _)
        · refine le_trans ?_ (le_max_left _ _)
          have : max a (min (x i.castSucc) b) ≤ max a (min (x i.succ) b) + (x i.castSucc - x i.succ) := by
            refine max_le (by linarith [le_max_left a (min (x i.succ) b)]) ?_
            have h5 : min (x i.castSucc) b ≤ min (x i.succ) b + (x i.castSucc - x i.succ) := by
              rcases le_total (x i.succ) b with h6 | h6
              · rw [min_eq_left h6]; linarith [min_le_left (x i.castSucc) b]
              · rw [min_eq_right h6]; linarith [min_le_right (x i.castSucc) b]
            linarith [le_max_right a (min (x i.succ) b)]
          linarith
    intro j
    have h2 := congrFun h1 j
    rw [← h2]
    exact ⟨le_max_left _ _, max_le hle (min_le_right _ _)⟩
  · refine (huniq Y ?_).symm
    have h0 : lam * ∑ i : Fin (k + 1), max (Y i.castSucc - Y i.succ) 0 = 0 := by
      rcases h with h | h
      · rw [Finset.sum_eq_zero fun i _ => max_eq_right (sub_nonpos.2 (h i.castSucc_lt_succ.le)), mul_zero]
      · rw [h, zero_mul]
    have h1 : 0 ≤ lam * ∑ i : Fin (k + 1), max (x i.castSucc - x i.succ) 0 :=
      mul_nonneg hl (Finset.sum_nonneg fun i _ => le_max_right _ _)
    have h2 : 0 ≤ c / 2 * ∑ j, (x j - Y j) ^ 2 := by positivity
    unfold nearlyIsotonic
    rw [h0]
    simp only [sub_self]
    simp
    linarith

private lemma monotone_val {c lam : ℝ} {Y v : Fin (k + 2) → ℝ} (h : Monotone v) :
    nearlyIsotonic c lam Y v = c / 2 * ∑ j, (v j - Y j) ^ 2 := by
  unfold nearlyIsotonic
  rw [Finset.sum_eq_zero fun i _ => max_eq_right (sub_nonpos.2 (h i.castSucc_lt_succ.le)), mul_zero, add_zero]

/-- **C114** A large multiplier gives isotonic regression, not an approximation of it: once `lam` exceeds `c √n ‖Y - u‖` for some
nondecreasing `u` (the mean of the signal, say), a solution is nondecreasing and no nondecreasing vector is closer to the signal. -/
theorem C114_isotonic {c lam : ℝ} (hc : 0 < c) (hl : 0 ≤ lam) (Y u x : Fin (k + 2) → ℝ) (hu : Monotone u)
    (hlam : c ^ 2 * (k + 2) * ∑ j, (u j - Y j) ^ 2 < lam ^ 2) (hx : ∀ z, nearlyIsotonic c lam Y x ≤ nearlyIsotonic c lam Y z) :
    Monotone x ∧ ∀ v, Monotone v → ∑ j, (x j - Y j) ^ 2 ≤ ∑ j, (v j - Y j) ^ 2 := by
  have hchk := (C114_residuals hc hl Y x).1 hx
  have hle : ∀ v, Monotone v → ∑ j, (x j - Y j) ^ 2 ≤ ∑ j, (v j - Y j) ^ 2 := by
    intro v hv
    have h1 := hx v
    rw [monotone_val hv] at h1
    have h2 : 0 ≤ lam * ∑ i : Fin (k + 1), max (x i.castSucc - x i.succ) 0 :=
      mul_nonneg hl (Finset.sum_nonneg fun i _ => le_max_right _ _)
    unfold nearlyIsotonic at h1
    have h3 : c / 2 * ∑ j, (x j - Y j) ^ 2 ≤ c / 2 * ∑ j, (v j - Y j) ^ 2 := by linarith
    exact le_of_mul_le_mul_left h3 (by positivity)
  refine ⟨Fin.monotone_iff_le_succ.2 fun i => ?_, hle⟩
  by_contra hcon
  push Not at hcon
  have h1 := (hchk.2 i).2.2.1 hcon
  have h2 : (∑ j ∈ Finset.Iic i.castSucc, (Y j - x j)) ^ 2 ≤ (k + 2) * ∑ j, (x j - Y j) ^ 2 := by
    refine (sq_sum_le_card_mul_sum_sq).trans ?_
    have a1 : ((Finset.Iic i.castSucc).card : ℝ) ≤ k + 2 := by
      have := Finset.card_le_univ (Finset.Iic i.castSucc)
      rw [Fintype.card_fin] at this
      exact_mod_cast this
    have a2 : ∑ j ∈ Finset.Iic i.castSucc, (Y j - x j) ^ 2 ≤ ∑ j, (x j - Y j) ^ 2 := by
      refine (Finset.sum_le_sum_of_subset_of_nonneg (Finset.subset_univ _) fun j _ _ => sq_nonneg _).trans (le_of_eq ?_)
      exact Finset.sum_congr rfl fun j _ => by ring
    exact mul_le_mul a1 a2 (Finset.sum_nonneg fun j _ => sq_nonneg _) (by positivity)
  have h3 := hle u hu
  have h4 : lam ^ 2 ≤ c ^ 2 * ((k + 2) * ∑ j, (x j - Y j) ^ 2) := by
    rw [← h1, mul_pow]; exact mul_le_mul_of_nonneg_left h2 (sq_nonneg c)
  have h5 : c ^ 2 * ((k + 2) * ∑ j, (x j - Y j) ^ 2) ≤ c ^ 2 * ((k + 2) * ∑ j, (u j - Y j) ^ 2) := by gcongr
  nlinarith

/-- **C114** The smallest such multiplier: the isotonic regression `x` of the signal solves the nearly isotonic problem exactly when `lam` is
at least `c` times every partial sum of its residuals. -/
theorem C114_threshold {c lam : ℝ} (hc : 0 < c) (hl : 0 ≤ lam) (Y x : Fin (k + 2) → ℝ) (hx : Monotone x)
    (hmin : ∀ v, Monotone v → ∑ j, (x j - Y j) ^ 2 ≤ ∑ j, (v j - Y j) ^ 2) :
    (∀ z, nearlyIsotonic c lam Y x ≤ nearlyIsotonic c lam Y z) ↔ ∀ i : Fin (k + 1), c * ∑ j ∈ Finset.Iic i.castSucc, (Y j - x j) ≤ lam := by
  constructor
  · intro h i
    exact (((C114_residuals hc hl Y x).1 h).2 i).2.1
  · intro h
    obtain ⟨L, hL0, hL⟩ : ∃ L : ℝ, 0 ≤ L ∧ c ^ 2 * (k + 2) * ∑ j, (x j - Y j) ^ 2 < L ^ 2 := by
      have h0 : 0 ≤ c ^ 2 * (k + 2) * ∑ j, (x j - Y j) ^ 2 := by positivity
      exact ⟨c ^ 2 * (k + 2) * ∑ j, (x j - Y j) ^ 2 + 1, by linarith, by nlinarith⟩
    obtain ⟨w, hw, -⟩ := C114_unique hc hL0 Y
    have hwm : ∀ z, nearlyIsotonic c L Y w ≤ nearlyIsotonic c L Y z := fun z => by
      have := hw z
      have h2 : 0 ≤ c / 2 * ∑ j, (z j - w j) ^ 2 := by positivity
      linarith
    obtain ⟨hwmono, hwle⟩ := C114_isotonic hc hL0 Y x w hx hL hwm
    have e : x = w := by
      have h1 := hw x
      rw [monotone_val hx, monotone_val hwmono] at h1
      have h2 := mul_le_mul_of_nonneg_left (hmin w hwmono) (by positivity : 0 ≤ c / 2)
      have h3 : ∑ j, (x j - w j) ^ 2 = 0 :=
        le_antisymm (by nlinarith) (Finset.sum_nonneg fun j _ => sq_nonneg _)
      funext j
      have := (Finset.sum_eq_zero_iff_of_nonneg fun j _ => sq_nonneg (x j - w j)).1 h3 j (Finset.mem_univ j)
      exact sub_eq_zero.1 (pow_eq_zero_iff (two_ne_zero) |>.1 this)
    subst e
    have hc1 := (C114_residuals hc hL0 Y x).1 hwm
    refine (C114_residuals hc hl Y x).2 ⟨hc1.1, fun i => ?_⟩
    obtain ⟨a1, -, -, a4⟩ := hc1.2 i
    exact ⟨a1, h i, fun hlt => absurd (hx i.castSucc_lt_succ.le) (not_le.2 hlt), a4⟩

/-! ### the program -/

private lemma toCont_value {m k : ℕ} {A : AffAtom m k} {a : ContAtom m} (h : A.toCont = some a) (x : Fin m → ℝ) (cf : Bool) :
    a.value x cf = (A.nonsmoothObjective x cf).getD ⊤ := by
  unfold AffAtom.toCont at h
  split at h
  · split at h
    · rw [Option.some_inj] at h; subst h; rfl
    · exact absurd h (by simp)
  · exact absurd h (by simp)

private lemma drop_lin (x : Fin (k + 2) → ℝ) : (Aff.matrix (dropMatrix k) none).lin x = fun i => x i.castSucc - x i.succ := by
  funext i
  show ∑ j, dropMatrix k i j * x j = _
  simp [dropMatrix, sub_mul, Finset.sum_sub_distrib]

private lemma drop_pen (lam : ℝ) (x : Fin (k + 2) → ℝ) :
    composedFn .positivePart false lam (Aff.matrix (dropMatrix k) none).lin (denote none) (quadArg none) x =
      ((lam * ∑ i : Fin (k + 1), max (x i.castSucc - x i.succ) 0 : ℝ) : WithTop ℝ) := by
  unfold composedFn penaltyOrBound
  rw [drop_lin]
  simp [penalty, quadArg, denote]

/-- the loss of the program -/
lemma signalLoss_built {n : ℕ} {c : ℝ} (hc : 0 < c) (Y : Fin n → ℝ) : ∃ s G, signalApproximator Y c = some s ∧ s.toLoss.quad = zeroQuad n ∧
    Evaluates s.toLoss.obj (fun x => c / 2 * ∑ j, (x j - Y j) ^ 2) G := by
  have hsym : IsSymForm (.none : Smooth.QForm n) := ⟨fun M h => (nomatch h), fun T h => (nomatch h)⟩
  obtain ⟨s, hs, ⟨G, hG, -⟩, -⟩ := (C79_constructor_partial (.none : Smooth.QForm n) hsym c (some Y) none).2 hc.le
  refine ⟨s, G, hs, ?_, ?_⟩
  · unfold QuadObj.init at hs
    rw [if_neg (not_lt.2 hc.le), Option.some_inj] at hs
    subst hs; rfl
  · have e : lossForm c (some Y) (Smooth.QForm.none : Smooth.QForm n).app = fun x => c / 2 * ∑ j, (x j - Y j) ^ 2 := by
      funext x
      unfold lossForm
      congr 1
      exact Finset.sum_congr rfl fun i _ => (pow_two _).symm
    rw [← e]; exact hG

/-- the program: loss, penalty, container -/
def IsProgram (c lam : ℝ) (Y : Fin (k + 2) → ℝ) (C : Container (k + 2)) : Prop :=
  ∃ (s : QuadObj (k + 2)) (A : AffAtom (k + 2) k) (a : ContAtom (k + 2)), signalApproximator Y c = some s ∧
    AtomObj.affine .positivePart (.matrix (dropMatrix k) none) none (some lam) none none = some A ∧ A.toCont = some a ∧
    Container.init [.smooth ⟨s.toLoss.obj, s.toLoss.quad⟩, .nonsmooth a] = .ok C

/-- **C114** The program of `doc/examples/nearlyisotonic.py`, with the loss `signal_approximator(Y, c)`: the penalty
`positive_part.linear(-D, lagrange=lam)` and the container are built, and the `objective` of the container is
`c/2 ‖x - Y‖² + lam Σ max(x_i - x_{i+1}, 0)`. -/
theorem C114_container {c lam : ℝ} (hc : 0 < c) (hl : 0 ≤ lam) (Y : Fin (k + 2) → ℝ) :
    (∃ C, IsProgram c lam Y C) ∧
      ∀ C, IsProgram c lam Y C → ∀ x cf, C.objective x cf = some ((nearlyIsotonic c lam Y x : ℝ) : WithTop ℝ) := by
  obtain ⟨s, G, hs, hq, hG⟩ := signalLoss_built hc Y
  obtain ⟨A, D, dual, prox, value, h1, h2, -⟩ := C69_seminorm_member (n := k + 2) (k := k) .positivePart false lam hl
    (.matrix (dropMatrix k) none) _ rfl (by simp [distinctSelectors]) rfl none (by simp) none (by simp)
  obtain ⟨A', h1', hv⟩ := C67_affine_lagrange (m := k + 2) (k := k) .positivePart (by simp) lam hl (.matrix (dropMatrix k) none) _ rfl rfl
    none none
  refine ⟨⟨_, s, A, _, hs, h1, h2, rfl⟩, ?_⟩
  rintro C ⟨s', B, a, hs', hB, ha, hC⟩ x cf
  rw [hs, Option.some_inj] at hs'
  subst hs'
  rw [h1', Option.some_inj] at hB
  subst hB
  have hC' : C = ⟨[a], [⟨s.toLoss.obj, s.toLoss.quad⟩], Quad.init none none none none⟩ := by
    injection hC with hC; exact hC.symm
  subst hC'
  rw [C69_objective _ (fun _ x => c / 2 * ∑ j, (x j - Y j) ^ 2) (fun _ => G) (fun b hb => by
    rw [List.mem_singleton] at hb
    subst hb; exact hG)]
  simp only [List.map_cons, List.map_nil, List.sum_cons, List.sum_nil, add_zero, sumOf, toCont_value ha, hv, drop_pen, Option.getD_some, hq]
  rw [← WithTop.coe_add]
  unfold nearlyIsotonic
  simp [quadVal, quadFn, zeroQuad, Quad.init, denote, dot]

/-- **C114** Denoising through the dual problem: `proximal(identity_quadratic(c, Y, 0, 0))` of the container, with an inner solver `fit` that
reaches the dual optimum up to `δ`, returns a point whose squared distance to the solution of the nearly isotonic problem is at most
`2 δ / c`; an exact inner solver gives the solution.  Missing: a bound on `δ` for the inner FISTA run. -/
theorem C114_proximal_partial {c lam : ℝ} (hc : 0 < c) (hl : 0 ≤ lam) (Y : Fin (k + 2) → ℝ) (C : Container (k + 2))
    (hC : IsProgram c lam Y C) (q : Quad (Fin (k + 2)) ℝ) (hq : q = ⟨c, some (.arr Y), some (.scalar 0), 0⟩) :
    ∃ V G P, Evaluates (C.dualProblem q).fc V G ∧ AtomCorrect (C.dualProblem q).atom.proximal P ∧ ConvexTop P ∧
      ∀ (fit : (l : ℕ) → DualProblem (k + 2) l → Fin l → ℝ) (ustar : Fin C.stack.1 → ℝ) (dstar δ : ℝ),
        IsMinTop (dualFn V (C.dualProblem q).T.adj P) ustar →
        dualFn V (C.dualProblem q).T.adj P ustar = ((dstar : ℝ) : WithTop ℝ) →
        dualFn V (C.dualProblem q).T.adj P (fit _ (C.dualProblem q)) ≤ ((dstar + δ : ℝ) : WithTop ℝ) →
        ∃ p x, C.proximal fit q = .ok p ∧ (∀ z, nearlyIsotonic c lam Y x ≤ nearlyIsotonic c lam Y z) ∧
          c / 2 * sqDist x p ≤ δ ∧ (δ ≤ 0 → p = x) := by
  obtain ⟨A, D, dual, prox, value, h1, h2, hD, hDT, -, pen, h4, h5, h6⟩ := C69_seminorm_member (n := k + 2) (k := k) .positivePart false lam hl
    (.matrix (dropMatrix k) none) _ rfl (by simp [distinctSelectors]) rfl none (by simp) none (by simp)
  obtain ⟨s', B, a, hs', hB, ha, hC⟩ := hC
  obtain ⟨s, G, hs, hsq, hG⟩ := signalLoss_built hc Y
  rw [hs, Option.some_inj] at hs'
  subst hs'
  have h1' : AtomObj.affine .positivePart (.matrix (dropMatrix k) none) none (some lam) none none = some A := h1
  rw [h1', Option.some_inj] at hB
  subst hB
  rw [h2, Option.some_inj] at ha
  subst ha
  have hC' : C = ⟨[⟨k + 1, D, dual, prox, value⟩], [⟨s.toLoss.obj, s.toLoss.quad⟩], Quad.init none none none none⟩ := by
    injection hC with hC; exact hC.symm
  subst hC'
  rw [show composedFn .positivePart false lam (Aff.matrix (dropMatrix k) none).lin (denote none) (quadArg none) =
    fun x => ((lam * ∑ i : Fin (k + 1), max (x i.castSucc - x i.succ) 0 : ℝ) : WithTop ℝ) from funext (drop_pen lam)] at h6
  obtain ⟨V, G', P, a1, a2, a3, a4⟩ := C69_proximal_partial
    (⟨[⟨k + 1, D, dual, prox, value⟩], [⟨s.toLoss.obj, s.toLoss.quad⟩], Quad.init none none none none⟩ : Container (k + 2))
    (fun i => match i with | ⟨0, _⟩ => pen) (fun _ x => ((lam * ∑ i : Fin (k + 1), max (x i.castSucc - x i.succ) 0 : ℝ) : WithTop ℝ))
    (fun i => match i with | ⟨0, _⟩ => hD) (fun i => match i with | ⟨0, _⟩ => h4) (fun i => match i with | ⟨0, _⟩ => h5)
    (fun i => match i with | ⟨0, _⟩ => h6)
    ⟨⟨rfl, fun i => rfl⟩, fun b hb => by
      rw [List.mem_singleton] at hb
      subst hb
      show NoQuadratic s.toLoss.quad
      rw [hsq]; exact ⟨rfl, fun i => rfl⟩⟩
    q (by rw [hq]; exact hc) (.arr Y) (.scalar 0) (by rw [hq]) (by rw [hq]) (by rcases hDT with e | e <;> subst e <;> rfl)
  refine ⟨V, G', P, a1, a2, a3, fun fit ustar dstar δ b1 b2 b3 => ?_⟩
  obtain ⟨p, x, c1, c2, c3, c4⟩ := a4 fit ustar dstar δ b1 b2 b3
  refine ⟨p, x, c1, fun z => ?_, by rw [hq] at c3; exact c3, c4⟩
  have e : ∀ z, quadTop q z + ∑ i : Fin 1, ((lam * ∑ i : Fin (k + 1), max (z i.castSucc - z i.succ) 0 : ℝ) : WithTop ℝ) =
      ((nearlyIsotonic c lam Y z : ℝ) : WithTop ℝ) := by
    intro z
    rw [Fin.sum_univ_one, hq]
    unfold quadTop nearlyIsotonic
    rw [← WithTop.coe_add]
    have e1 : quadVal (some (⟨c, some (.arr Y), some (.scalar 0), 0⟩ : Quad (Fin (k + 2)) ℝ)) z = c / 2 * ∑ j, (z j - Y j) ^ 2 := by
      show quadFn c (denote (some (.arr Y))) (denote (some (PyVec.scalar 0))) 0 z = _
      unfold quadFn
      have : denote (some (PyVec.scalar (0:ℝ)) : Option (PyVec (Fin (k + 2)) ℝ)) = fun _ => 0 := rfl
      rw [this]
      simp only [dot, zero_mul, Finset.sum_const_zero, add_zero]
      rfl
    rw [e1]
  by_cases hz : z = x
  · rw [hz]
  · have h := c2.2 z hz
    have h' : ((nearlyIsotonic c lam Y x : ℝ) : WithTop ℝ) < ((nearlyIsotonic c lam Y z : ℝ) : WithTop ℝ) := by
      rw [← e, ← e]; exact h
    exact (WithTop.coe_lt_coe.1 h').le

/-! ### a concrete signal -/

/-- the signal `3, 1, 2` with `c = 1`: its isotonic regression is the constant `2`, with partial sums `1, 0`; it solves the nearly isotonic
problem from `lam = 1` on, while for `lam = 1/2` the solution is `5/2, 3/2, 2` -/
example : ResidualCheck (k := 1) 1 1 ![3, 1, 2] ![2, 2, 2] ∧ ResidualCheck (k := 1) 1 (1 / 2) ![3, 1, 2] ![5 / 2, 3 / 2, 2] ∧
    ¬ ResidualCheck (k := 1) 1 (1 / 2) ![3, 1, 2] ![2, 2, 2] := by
  have i0 : Finset.Iic (0 : Fin 3) = {0} := by decide
  have i1 : Finset.Iic (1 : Fin 3) = {0, 1} := by decide
  refine ⟨⟨?_, ?_⟩, ⟨?_, ?_⟩, fun h => ?_⟩
  · simp [Fin.sum_univ_succ]; norm_num
  · intro i
    fin_cases i
    · simp [i0]; norm_num
    · simp [i1]; norm_num
  · simp [Fin.sum_univ_succ]; norm_num
  · intro i
    fin_cases i
    · simp [i0]; norm_num
    · simp [i1]; norm_num
  · have := (h.2 0).2.1
    simp [i0] at this
    norm_num at this

/-- a multiplier as in `C114_isotonic`, with the mean of the signal for `u` -/
example : Monotone (![2, 2, 2] : Fin 3 → ℝ) ∧ (1 : ℝ) ^ 2 * (((1 : ℕ) : ℝ) + 2) * ∑ j, ((![2, 2, 2] : Fin 3 → ℝ) j - (![3, 1, 2] : Fin 3 → ℝ) j) ^ 2 < 3 ^ 2 := by
  refine ⟨fun i j _ => by fin_cases i <;> fin_cases j <;> simp, ?_⟩
  simp [Fin.sum_univ_succ]; norm_num

end Verif.Props
