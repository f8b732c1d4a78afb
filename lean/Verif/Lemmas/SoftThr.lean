import Verif.Model.Seminorms
import Verif.Lemmas.PiecewiseLinear
import Verif.Lemmas.Prox
import Mathlib.Tactic.SplitIfs
import Mathlib.Algebra.BigOperators.Fin

/-! Facts about soft thresholding and the cut produced by the root finder. -/

set_option linter.unusedSectionVars false
set_option linter.unusedVariables false

namespace Verif.Lemmas
open Verif.Model Verif.Spec

variable {K : Type*} [Field K] [LinearOrder K] [IsStrictOrderedRing K]

lemma softThr_abs (x : K) {c : K} (hc : 0 ≤ c) : |softThr x c| = max (|x| - c) 0 := by
  unfold softThr
  split_ifs with h1 h2 h3
  · rw [abs_of_pos h1, abs_zero, max_eq_right (by linarith)]
  · rw [abs_of_pos h1, abs_of_nonneg (by linarith), max_eq_left (by linarith)]
  · rw [abs_of_nonpos (by linarith : x ≤ 0), abs_zero, max_eq_right (by linarith)]
  · rw [abs_of_nonpos (by linarith : x ≤ 0), abs_of_nonpos (by linarith), max_eq_left (by linarith)]; ring

lemma softThr_resid (x : K) {c : K} (hc : 0 ≤ c) : |x - softThr x c| ≤ c := by
  unfold softThr
  split_ifs with h1 h2 h3 <;> rw [abs_le] <;> constructor <;> linarith

lemma softThr_mul (x : K) {c : K} (_hc : 0 ≤ c) : (x - softThr x c) * softThr x c = c * |softThr x c| := by
  unfold softThr
  split_ifs with h1 h2 h3
  · simp
  · rw [abs_of_nonneg (by linarith)]; ring
  · simp
  · rw [abs_of_nonpos (by linarith)]; ring

lemma softThr_nonneg {x c : K} (hx : 0 < x) : 0 ≤ softThr x c := by
  unfold softThr
  split_ifs <;> linarith

lemma softThr_zero (x : K) : softThr x 0 = x := by
  unfold softThr
  split_ifs <;> linarith

lemma softThr_eq_sign_max (x : K) {c : K} (hc : 0 ≤ c) : npSign x * max (|x| - c) 0 = softThr x c := by
  unfold softThr npSign
  split_ifs with h1 h2 h3 h4 h5
  · rw [abs_of_pos h1, max_eq_right (by linarith)]; ring
  · rw [abs_of_pos h1, max_eq_left (by linarith)]; ring
  · rw [abs_of_neg h3, max_eq_right (by linarith)]; ring
  · rw [abs_of_neg h3, max_eq_left (by linarith)]; ring
  · simp
  · have : x = 0 := by linarith
    subst this; linarith

lemma softThr_eq_sign_cut (x : K) {c : K} (hc : 0 ≤ c) :
    npSign x * (|x| - c) * b2k (|x| > c) = softThr x c := by
  rw [← softThr_eq_sign_max x hc]
  unfold b2k
  split_ifs with h
  · rw [max_eq_left (by linarith)]; ring
  · rw [max_eq_right (by linarith)]; ring

/-- the root finder on a nonempty nonnegative list with slope 0 -/
lemma findC_cut (l : List K) (hne : l ≠ []) (hnn : ∀ a ∈ l, 0 ≤ a) {b : K} (hb : 0 ≤ b) :
    ∃ cut, findC b 0 l = some cut ∧ 0 ≤ cut ∧ ((cut = 0 ∧ l.sum < b) ∨ hinge l cut = b) := by
  unfold findC
  split_ifs with h
  · exact ⟨0, rfl, le_refl _, Or.inl ⟨rfl, h⟩⟩
  · push Not at h
    have hp := descSort_perm l
    have hs := descSort_pairwise l
    cases hd : descSort l with
    | nil => rw [hd] at hp; exact absurd hp.symm.eq_nil hne
    | cons curX rest =>
      rw [hd] at hp hs
      obtain ⟨t, h1, _, h3, h4⟩ := plLoop_correct b 0 curX rest (le_refl _) hs (by linarith [neg_zero (G := K)])
      refine ⟨t, h1, ?_, Or.inr ?_⟩
      · apply h4
        · intro a ha; exact hnn a (hp.mem_iff.1 ha)
        · rw [hp.sum_eq]; exact h
      · rw [← hinge_perm hp, h3]; ring

lemma hinge_ofFn {n : ℕ} (x : Fin n → K) (c : K) :
    hinge (List.ofFn x) c = ∑ i, max (x i - c) 0 := by
  unfold hinge
  rw [List.map_ofFn, List.sum_ofFn]; rfl

/-- the cut for the absolute values of a vector -/
lemma findC_abs {n : ℕ} (x : Fin (n + 1) → K) {b : K} (hb : 0 ≤ b) :
    ∃ cut, findC b 0 (List.ofFn fun i => |x i|) = some cut ∧ 0 ≤ cut ∧
      ((cut = 0 ∧ ∑ i, |softThr (x i) cut| < b) ∨ ∑ i, |softThr (x i) cut| = b) := by
  obtain ⟨cut, h1, h2, h3⟩ := findC_cut (List.ofFn fun i => |x i|) (by simp)
    (by intro a ha; obtain ⟨i, rfl⟩ := (List.mem_ofFn' _ _).1 ha; exact abs_nonneg _) hb
  refine ⟨cut, h1, h2, ?_⟩
  rcases h3 with ⟨rfl, h3⟩ | h3
  · left; refine ⟨rfl, ?_⟩
    rw [List.sum_ofFn] at h3
    simpa [softThr_zero] using h3
  · right
    rw [hinge_ofFn] at h3
    rw [← h3]
    exact Finset.sum_congr rfl fun i _ => softThr_abs _ h2

lemma sum_map_filter_pos (l : List K) (f : K → K) :
    ((l.filter (fun a => decide (a > 0))).map f).sum = (l.map fun a => if a > 0 then f a else 0).sum := by
  induction l with
  | nil => rfl
  | cons a l ih =>
    by_cases h : a > 0
    · simp [h, ih]
    · simp [h, ih]

/-- the compressed array `v[pos]` used by `projPos` -/
lemma findC_pos {n : ℕ} (v : Fin n → K) (hex : ∃ i, v i > 0) {b : K} (hb : 0 ≤ b) :
    ∃ cut, findC b 0 (((List.ofFn v).filter (fun a => decide (a > 0))).map fun a => |a|) = some cut ∧
      0 ≤ cut ∧
      ((cut = 0 ∧ ∑ i, (if v i > 0 then softThr (v i) cut else 0) < b) ∨
        ∑ i, (if v i > 0 then softThr (v i) cut else 0) = b) := by
  obtain ⟨cut, h1, h2, h3⟩ := findC_cut (((List.ofFn v).filter (fun a => decide (a > 0))).map fun a => |a|)
    (by
      obtain ⟨i, hi⟩ := hex
      intro h
      have : v i ∈ (List.ofFn v).filter (fun a => decide (a > 0)) := by simp [hi]
      rw [List.map_eq_nil_iff] at h
      rw [h] at this; simp at this)
    (by intro a ha; obtain ⟨_, _, rfl⟩ := List.mem_map.1 ha; exact abs_nonneg _) hb
  refine ⟨cut, h1, h2, ?_⟩
  have conv : ∀ c : K, 0 ≤ c → hinge (((List.ofFn v).filter (fun a => decide (a > 0))).map fun a => |a|) c =
      ∑ i, (if v i > 0 then softThr (v i) c else 0) := by
    intro c hc
    unfold hinge
    rw [List.map_map, sum_map_filter_pos, List.map_ofFn, List.sum_ofFn]
    apply Finset.sum_congr rfl
    intro i _
    simp only [Function.comp]
    split_ifs with h
    · rw [← softThr_abs _ hc, abs_of_nonneg (softThr_nonneg h)]
    · rfl
  rcases h3 with ⟨rfl, h3⟩ | h3
  · left; refine ⟨rfl, ?_⟩
    rw [← conv 0 (le_refl _)]
    convert h3 using 1
    unfold hinge
    congr 1
    conv_rhs => rw [← List.map_id (((List.ofFn v).filter (fun a => decide (a > 0))).map fun a => |a|)]
    apply List.map_congr_left
    intro a ha
    obtain ⟨_, _, rfl⟩ := List.mem_map.1 ha
    simp
  · right; rw [← conv cut h2]; exact h3

end Verif.Lemmas
