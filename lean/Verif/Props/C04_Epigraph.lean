import Verif.Lemmas.SoftThr
import Mathlib.Data.Fin.VecNotation
import Mathlib.Tactic.FieldSimp
import Mathlib.Tactic.NormNum

/-! # C04: `projl1_epigraph` is the projection on the epigraph of the l1 norm -/

set_option linter.unusedSectionVars false
set_option linter.unusedVariables false

namespace Verif.Props
open Verif.Model Verif.Lemmas Verif.Spec

variable {K : Type*} [Field K] [LinearOrder K] [IsStrictOrderedRing K]

private lemma plLoop_below (b curX : K) (rest : List K) (hs : (curX :: rest).Pairwise (fun a b => b ≤ a))
    (hb : b < -1 * curX) : plLoop b (-1) (-1 * curX) curX rest = some ((curX - b) / 2) := by
  have hval : ∀ y : K, (b - (-1 * curX - curX * (-1 - 1))) / (-1 - 1) = (curX - b) / 2 := by
    intro _; rw [div_eq_div_iff (by norm_num) (by norm_num)]; ring
  cases rest with
  | nil =>
    simp only [plLoop, cdiv]
    rw [if_neg (by norm_num), hval 0]
  | cons nx rest =>
    simp only [plLoop, cdiv]
    have : nx ≤ curX := List.rel_of_pairwise_cons hs (by simp)
    rw [if_pos (by linarith), if_neg (by norm_num), hval 0]

/-- C04: for every center `(x, norm)` the function returns the closest point of the epigraph. -/
theorem C04_projl1_epigraph {n : ℕ} (x : Fin (n + 1) → K) (norm : K) :
    ∃ p, projl1Epigraph x norm = some p ∧ IsProjPair {z | ∑ i, |z.1 i| ≤ z.2} (x, norm) p := by
  unfold projl1Epigraph findC
  have hsum : (List.ofFn fun i => |x i|).sum = ∑ i, |x i| := List.sum_ofFn
  have hnn : ∀ a ∈ (List.ofFn fun i => |x i|), 0 ≤ a := by
    intro a ha; obtain ⟨i, rfl⟩ := (List.mem_ofFn' _ _).1 ha; exact abs_nonneg _
  have hxs : 0 ≤ ∑ i, |x i| := Finset.sum_nonneg fun i _ => abs_nonneg _
  split_ifs with h
  · rw [hsum] at h
    refine ⟨(x, norm), ?_, isProjPair_of_vi h.le ?_⟩
    · simp [softThr_zero, le_trans hxs h.le]
    · intro z hz; simp
  · rw [hsum] at h
    push Not at h
    have hp := descSort_perm (List.ofFn fun i => |x i|)
    have hs := descSort_pairwise (List.ofFn fun i => |x i|)
    cases hd : descSort (List.ofFn fun i => |x i|) with
    | nil => rw [hd] at hp; exact absurd hp.symm.eq_nil (by simp)
    | cons curX rest =>
      rw [hd] at hp hs
      have hmax : ∀ i, |x i| ≤ curX := by
        intro i
        have : |x i| ∈ curX :: rest := hp.mem_iff.2 ((List.mem_ofFn' _ _).2 ⟨i, rfl⟩)
        rcases List.mem_cons.1 this with e | e
        · exact e.le
        · exact List.rel_of_pairwise_cons hs e
      rcases lt_or_ge norm (-1 * curX) with hb | hb
      · -- the center is in the polar cone: the answer is the apex
        dsimp only
        rw [plLoop_below norm curX rest hs hb]
        refine ⟨(fun _ => 0, 0), ?_, isProjPair_of_vi (by simp) ?_⟩
        · rw [Option.map_some, if_neg]
          rw [not_le, ← sub_pos]
          have : 0 - (norm + (curX - norm) / 2) = -(norm + curX) / 2 := by ring
          rw [this]; apply div_pos <;> linarith
        · rintro ⟨z, r⟩ hz
          simp only [Set.mem_ofPred_eq] at hz
          simp only [sub_zero]
          have : ∑ i, x i * z i ≤ curX * ∑ i, |z i| := by
            rw [Finset.mul_sum]; apply Finset.sum_le_sum; intro i _
            calc x i * z i ≤ |x i * z i| := le_abs_self _
              _ = |x i| * |z i| := abs_mul _ _
              _ ≤ curX * |z i| := mul_le_mul_of_nonneg_right (hmax i) (abs_nonneg _)
          have hc : 0 ≤ curX := le_trans (abs_nonneg (x 0)) (hmax 0)
          have hr : 0 ≤ r := le_trans (Finset.sum_nonneg fun i _ => abs_nonneg _) hz
          nlinarith
      · obtain ⟨t, h1, _, h3, h4⟩ := plLoop_correct norm 1 curX rest zero_le_one hs hb
        have ht : 0 ≤ t := by
          apply h4
          · intro a ha; exact hnn a (hp.mem_iff.1 ha)
          · rw [hp.sum_eq, hsum]; exact h
        rw [hinge_perm hp, hinge_ofFn] at h3
        have h5 : ∑ i, |softThr (x i) t| = norm + t := by
          rw [show norm + t = 1 * t + norm by ring, ← h3]
          exact Finset.sum_congr rfl fun i _ => softThr_abs _ ht
        have h6 : 0 ≤ norm + t := h5 ▸ Finset.sum_nonneg fun i _ => abs_nonneg _
        dsimp only
        rw [h1]
        refine ⟨(fun i => softThr (x i) t, norm + t), ?_, isProjPair_of_vi h5.le ?_⟩
        · rw [Option.map_some, if_pos h6]
        · rintro ⟨z, r⟩ hz
          simp only [Set.mem_ofPred_eq] at hz
          have h7 : ∑ i, (x i - softThr (x i) t) * (z i - softThr (x i) t) ≤
              t * ∑ i, |z i| - t * ∑ i, |softThr (x i) t| := by
            rw [Finset.mul_sum, Finset.mul_sum, ← Finset.sum_sub_distrib]
            apply Finset.sum_le_sum; intro i _
            rw [mul_sub, softThr_mul _ ht]
            have : (x i - softThr (x i) t) * z i ≤ t * |z i| := by
              calc (x i - softThr (x i) t) * z i ≤ |(x i - softThr (x i) t) * z i| := le_abs_self _
                _ = |x i - softThr (x i) t| * |z i| := abs_mul _ _
                _ ≤ t * |z i| := mul_le_mul_of_nonneg_right (softThr_resid _ ht) (abs_nonneg _)
            linarith
          rw [h5] at h7
          simp only
          nlinarith

/-- the three regimes are inhabited: inside, outside, polar cone -/
example : ∃ p, projl1Epigraph (![3, -1] : Fin 2 → ℚ) 1 = some p ∧
    IsProjPair {z | ∑ i, |z.1 i| ≤ z.2} (![3, -1], 1) p := C04_projl1_epigraph _ _
/-- zero array has no entries: the code raises -/
theorem C04_empty (norm : K) (h : norm ≤ 0) : projl1Epigraph (Fin.elim0 : Fin 0 → K) norm = none := by
  simp [projl1Epigraph, findC, descSort, not_lt.2 h]

end Verif.Props
