import Verif.Model.PiecewiseLinear
import Mathlib.Tactic.Linarith
import Mathlib.Tactic.Ring
import Mathlib.Tactic.FieldSimp
import Mathlib.Tactic.LinearCombination
import Mathlib.Algebra.Order.BigOperators.Group.List

set_option linter.unusedSectionVars false

namespace Verif.Lemmas
open Verif.Model

variable {K : Type*} [Field K] [LinearOrder K] [IsStrictOrderedRing K]

/-- weighted hinge sum over `(knot, weight)` pairs -/
def wHinge (l : List (K × K)) (t : K) : K := (l.map fun p => p.2 ^ 2 * max (p.1 - t) 0).sum

@[simp] lemma wHinge_nil (t : K) : wHinge ([] : List (K × K)) t = 0 := rfl
@[simp] lemma wHinge_cons (p : K × K) (l : List (K × K)) (t : K) :
    wHinge (p :: l) t = p.2 ^ 2 * max (p.1 - t) 0 + wHinge l t := by simp [wHinge]

lemma wHinge_eq_zero {l : List (K × K)} {t : K} (h : ∀ p ∈ l, p.1 ≤ t) : wHinge l t = 0 := by
  induction l with
  | nil => rfl
  | cons p l ih =>
    simp only [wHinge_cons]
    rw [ih (fun q hq => h q (by simp [hq])), max_eq_right (by linarith [h p (by simp)])]
    ring

lemma wplLoop_correct (b : K) (rest : List (K × K)) : ∀ (slope curV curX curW t : K),
    ((curX, curW) :: rest).Pairwise (fun p q => q.1 ≤ p.1) → curV ≤ b →
    wplLoop b slope curV curX curW rest = some t → slope ≤ 0 →
    t ≤ curX ∧ curV + slope * (t - curX) + wHinge ((curX, curW) :: rest) t = b ∧
      ((∀ p ∈ (curX, curW) :: rest, 0 ≤ p.1) →
        b ≤ curV + slope * (0 - curX) + wHinge ((curX, curW) :: rest) 0 → 0 ≤ t) := by
  induction rest with
  | nil =>
    intro slope curV curX curW t _ hb hr hs
    simp only [wplLoop, cdiv] at hr
    have hle : slope - curW ^ 2 ≤ 0 := by nlinarith [sq_nonneg curW]
    split at hr
    · cases hr
    · rename_i hne
      have hlt : slope - curW ^ 2 < 0 := lt_of_le_of_ne hle hne
      have ht : t = curX + (b - curV) / (slope - curW ^ 2) := by
        have := Option.some.inj hr
        rw [← this]; field_simp; ring
      have h1 : (b - curV) / (slope - curW ^ 2) ≤ 0 :=
        div_nonpos_of_nonneg_of_nonpos (by linarith) hle
      have htX : t ≤ curX := by linarith
      have key : (slope - curW ^ 2) * (t - curX) = b - curV := by
        rw [ht]; field_simp; ring
      refine ⟨htX, ?_, ?_⟩
      · simp only [wHinge_cons, wHinge_nil]
        rw [max_eq_left (by linarith)]
        linear_combination key
      · intro hnn h0
        have hX : 0 ≤ curX := hnn (curX, curW) (by simp)
        simp only [wHinge_cons, wHinge_nil] at h0
        rw [max_eq_left (by linarith)] at h0
        by_contra hneg
        push Not at hneg
        have : (slope - curW ^ 2) * (0 - curX) ≥ (slope - curW ^ 2) * (t - curX) := by
          rw [key]; linarith
        have := (mul_le_mul_left_of_neg hlt).1 this
        linarith
  | cons q rest ih =>
    intro slope curV curX curW t hsort hb hr hs
    obtain ⟨nextX, nextW⟩ := q
    have hle : slope - curW ^ 2 ≤ 0 := by nlinarith [sq_nonneg curW]
    have hnx : nextX ≤ curX := by
      have := List.rel_of_pairwise_cons hsort (a' := (nextX, nextW)) (by simp)
      simpa using this
    have hsort' := List.Pairwise.of_cons hsort
    simp only [wplLoop] at hr
    split at hr
    · rename_i hstop
      have hne : slope - curW ^ 2 ≠ 0 := by
        intro h0
        rw [h0] at hstop
        linarith
      have hlt : slope - curW ^ 2 < 0 := lt_of_le_of_ne hle hne
      simp only [cdiv, if_neg hne] at hr
      have ht : t = curX + (b - curV) / (slope - curW ^ 2) := by
        have := Option.some.inj hr
        rw [← this]; field_simp; ring
      have h1 : (b - curV) / (slope - curW ^ 2) ≤ 0 :=
        div_nonpos_of_nonneg_of_nonpos (by linarith) hle
      have htX : t ≤ curX := by linarith
      have key : (slope - curW ^ 2) * (t - curX) = b - curV := by
        rw [ht]; field_simp; ring
      have htn : nextX ≤ t := by
        have : (slope - curW ^ 2) * (nextX - curX) ≥ (slope - curW ^ 2) * (t - curX) := by
          rw [key]; linarith
        have := (mul_le_mul_left_of_neg hlt).1 this
        linarith
      have hz : wHinge ((nextX, nextW) :: rest) t = 0 := by
        apply wHinge_eq_zero
        intro p hp
        rcases List.mem_cons.1 hp with rfl | hp
        · exact htn
        · exact le_trans (List.rel_of_pairwise_cons hsort' hp) htn
      refine ⟨htX, ?_, ?_⟩
      · rw [wHinge_cons, hz, max_eq_left (by simpa using htX)]
        linear_combination key
      · intro hnn _
        exact le_trans (hnn (nextX, nextW) (by simp)) htn
    · rename_i hstop
      push Not at hstop
      obtain ⟨h1, h2, h3⟩ := ih _ _ _ _ _ hsort' hstop hr hle
      have conv : ∀ u, u ≤ curX →
          curV + slope * (u - curX) + wHinge ((curX, curW) :: (nextX, nextW) :: rest) u =
          curV + (slope - curW ^ 2) * (nextX - curX) + (slope - curW ^ 2) * (u - nextX) +
            wHinge ((nextX, nextW) :: rest) u := by
        intro u hu
        rw [wHinge_cons (curX, curW), max_eq_left (by simpa using hu)]
        simp only
        ring
      refine ⟨le_trans h1 hnx, ?_, ?_⟩
      · rw [conv t (le_trans h1 hnx)]; exact h2
      · intro hnn h0
        rw [conv 0 (hnn (curX, curW) (by simp))] at h0
        exact h3 (fun p hp => hnn p (List.mem_cons_of_mem _ hp)) h0

/-- the loop succeeds when the final slope is nonzero -/
lemma wplLoop_isSome (b : K) (rest : List (K × K)) : ∀ (slope curV curX curW : K),
    ((curX, curW) :: rest).Pairwise (fun p q => q.1 ≤ p.1) → curV ≤ b → slope ≤ 0 →
    slope - (((curX, curW) :: rest).map fun p => p.2 ^ 2).sum ≠ 0 →
    ∃ t, wplLoop b slope curV curX curW rest = some t := by
  induction rest with
  | nil =>
    intro slope curV curX curW _ _ _ hne
    simp only [List.map_cons, List.map_nil, List.sum_cons, List.sum_nil, add_zero] at hne
    simp [wplLoop, cdiv, hne]
  | cons q rest ih =>
    intro slope curV curX curW hsort hb hs hne
    obtain ⟨nextX, nextW⟩ := q
    have hle : slope - curW ^ 2 ≤ 0 := by nlinarith [sq_nonneg curW]
    have hsort' := List.Pairwise.of_cons hsort
    simp only [wplLoop]
    split
    · rename_i hstop
      have hne : slope - curW ^ 2 ≠ 0 := by
        intro h0
        rw [h0] at hstop
        linarith
      simp [cdiv, hne]
    · rename_i hstop
      push Not at hstop
      apply ih _ _ _ _ hsort' hstop hle
      intro h; apply hne
      rw [← h]; simp only [List.map_cons, List.sum_cons]; ring

/-- the unweighted loop is the weighted one with unit weights -/
lemma plLoop_eq (b : K) (rest : List K) : ∀ (slope curV curX : K),
    plLoop b slope curV curX rest = wplLoop b slope curV curX 1 (rest.map fun a => (a, 1)) := by
  induction rest with
  | nil => intro slope curV curX; simp [plLoop, wplLoop]
  | cons a rest ih => intro slope curV curX; simp [plLoop, wplLoop, ih]

/-- unweighted hinge sum -/
def hinge (l : List K) (t : K) : K := (l.map fun a => max (a - t) 0).sum

lemma wHinge_one (l : List K) (t : K) : wHinge (l.map fun a => (a, 1)) t = hinge l t := by
  simp [wHinge, hinge, Function.comp_def]

lemma hinge_perm {l l' : List K} (h : l.Perm l') (t : K) : hinge l t = hinge l' t :=
  (h.map _).sum_eq

lemma descSort_perm (l : List K) : (descSort l).Perm l := List.perm_insertionSort _ _

lemma descSort_pairwise (l : List K) : (descSort l).Pairwise (fun a b => b ≤ a) := by
  have : Std.Total (fun a b : K => b ≤ a) := ⟨fun a b => le_total b a⟩
  have : IsTrans K (fun a b : K => b ≤ a) := ⟨fun a b c h1 h2 => le_trans h2 h1⟩
  exact List.pairwise_insertionSort _ _

lemma pairwise_map_one {l : List K} (h : l.Pairwise (fun a b => b ≤ a)) :
    (l.map fun a => (a, (1 : K))).Pairwise (fun p q => q.1 ≤ p.1) := by
  rw [List.pairwise_map]; exact h

/-- correctness of `plLoop` started as in the code. -/
lemma plLoop_correct (b s curX : K) (rest : List K)
    (hs : 0 ≤ s) (hsort : (curX :: rest).Pairwise (fun a b => b ≤ a)) (hb : -s * curX ≤ b) :
    ∃ t, plLoop b (-s) (-s * curX) curX rest = some t ∧ t ≤ curX ∧
      hinge (curX :: rest) t = s * t + b ∧
      ((∀ a ∈ curX :: rest, 0 ≤ a) → b ≤ (curX :: rest).sum → 0 ≤ t) := by
  have hsort1 := pairwise_map_one hsort
  simp only [List.map_cons] at hsort1
  obtain ⟨t, ht⟩ := wplLoop_isSome b (rest.map fun a => (a, (1:K))) (-s) (-s * curX) curX 1 hsort1 hb
    (by linarith) (by
      have : 0 ≤ ((rest.map fun a => (a, (1:K))).map fun p => p.2 ^ 2).sum := by
        apply List.sum_nonneg
        intro x hx
        simp only [List.map_map, List.mem_map, Function.comp] at hx
        obtain ⟨_, _, rfl⟩ := hx
        positivity
      simp only [List.map_cons, List.sum_cons]
      apply ne_of_lt
      linarith)
  obtain ⟨h1, h2, h3⟩ := wplLoop_correct b _ _ _ _ _ t hsort1 hb ht (by linarith)
  have e : ∀ u, wHinge ((curX, 1) :: rest.map fun a => (a, (1:K))) u = hinge (curX :: rest) u := by
    intro u; rw [← wHinge_one]; simp
  rw [e] at h2 h3
  refine ⟨t, by rw [plLoop_eq]; exact ht, h1, by linear_combination h2, ?_⟩
  intro hnn hsum
  apply h3
  · intro p hp
    rcases List.mem_cons.1 hp with rfl | hp
    · exact hnn curX (by simp)
    · obtain ⟨a, ha, rfl⟩ := List.mem_map.1 hp
      exact hnn a (by simp [ha])
  · have : hinge (curX :: rest) 0 = (curX :: rest).sum := by
      unfold hinge
      congr 1
      conv_rhs => rw [← List.map_id (curX :: rest)]
      apply List.map_congr_left
      intro a ha
      simp [hnn a ha]
    rw [this]
    linarith

end Verif.Lemmas
