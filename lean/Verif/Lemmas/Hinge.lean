import Verif.Lemmas.PiecewiseLinear

set_option linter.unusedSectionVars false
set_option linter.unusedVariables false

namespace Verif.Lemmas
open Verif.Model

variable {K : Type*} [Field K] [LinearOrder K] [IsStrictOrderedRing K]

@[simp] lemma hinge_nil (t : K) : hinge ([] : List K) t = 0 := rfl
@[simp] lemma hinge_cons (a : K) (l : List K) (t : K) : hinge (a :: l) t = max (a - t) 0 + hinge l t := by
  simp [hinge]

lemma hinge_anti (l : List K) {t u : K} (h : t ≤ u) : hinge l u ≤ hinge l t := by
  induction l with
  | nil => simp
  | cons a l ih =>
    simp only [hinge_cons]
    have : max (a - u) 0 ≤ max (a - t) 0 := max_le_max (by linarith) (le_refl _)
    linarith

lemma hinge_strict (l : List K) {t u a : K} (h : t < u) (ha : a ∈ l) (hu : u ≤ a) : hinge l u < hinge l t := by
  induction l with
  | nil => simp at ha
  | cons c l ih =>
    simp only [hinge_cons]
    rcases List.mem_cons.1 ha with rfl | ha
    · have h1 := hinge_anti l h.le
      rw [max_eq_left (by linarith), max_eq_left (by linarith)]
      linarith
    · have := ih ha
      have : max (c - u) 0 ≤ max (c - t) 0 := max_le_max (by linarith) (le_refl _)
      linarith

lemma hinge_zero {l : List K} (hnn : ∀ a ∈ l, 0 ≤ a) : hinge l 0 = l.sum := by
  induction l with
  | nil => simp
  | cons a l ih =>
    simp only [hinge_cons, List.sum_cons, sub_zero]
    rw [ih (fun b hb => hnn b (by simp [hb])), max_eq_left (hnn a (by simp))]

lemma hinge_nonneg (l : List K) (t : K) : 0 ≤ hinge l t := by
  induction l with
  | nil => simp
  | cons a l ih => simp only [hinge_cons]; have := le_max_right (a - t) 0; linarith

lemma hinge_of_ge {l : List K} {t : K} (h : ∀ a ∈ l, a ≤ t) : hinge l t = 0 := by
  induction l with
  | nil => simp
  | cons a l ih =>
    simp only [hinge_cons]
    rw [ih (fun b hb => h b (by simp [hb])), max_eq_right (by linarith [h a (by simp)])]; ring

end Verif.Lemmas
