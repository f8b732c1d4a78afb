import Verif.Lemmas.Hinge

/-!
# C01: the piecewise-linear root finders

The functions of the docstrings of `piecewise_linear.pyx` are written out in each statement.
-/

set_option linter.unusedSectionVars false
set_option linter.unusedVariables false

namespace Verif.Props
open Verif.Model Verif.Lemmas

variable {K : Type*} [Field K] [LinearOrder K] [IsStrictOrderedRing K]

/-- C01 (a): below the early-return threshold the answer is 0. -/
theorem C01_findC_small (b s : K) (norms : List K) (h : norms.sum < b) : findC b s norms = some 0 := by
  simp [findC, h]

/-- C01 (b): existence.  If `b` lies between `f(max) - slope*max` and `f(0)` a root in `[0, max]` exists and
is returned. -/
theorem C01_findC_exists (b s : K) (norms : List K) (hne : norms ≠ []) (hnn : ∀ a ∈ norms, 0 ≤ a)
    (hs : 0 ≤ s) (hlow : ∃ m ∈ norms, -s * m ≤ b) (hup : b ≤ norms.sum) :
    ∃ t, findC b s norms = some t ∧ 0 ≤ t ∧ (∃ m ∈ norms, t ≤ m) ∧
      (norms.map fun a => max (a - t) 0).sum = s * t + b := by
  have hp := descSort_perm norms
  have hsrt := descSort_pairwise norms
  unfold findC
  rw [if_neg (by push Not; exact hup)]
  cases hd : descSort norms with
  | nil => rw [hd] at hp; exact absurd hp.symm.eq_nil hne
  | cons curX rest =>
    rw [hd] at hp hsrt
    have hmax : ∀ a ∈ norms, a ≤ curX := by
      intro a ha
      rcases List.mem_cons.1 (hp.mem_iff.2 ha) with rfl | h
      · exact le_refl _
      · exact List.rel_of_pairwise_cons hsrt h
    have hb : -s * curX ≤ b := by
      obtain ⟨m, hm, h⟩ := hlow
      nlinarith [hmax m hm]
    obtain ⟨t, h1, h2, h3, h4⟩ := plLoop_correct b s curX rest hs hsrt hb
    refine ⟨t, h1, ?_, ⟨curX, hp.mem_iff.1 (by simp), h2⟩, ?_⟩
    · apply h4
      · intro a ha; exact hnn a (hp.mem_iff.1 ha)
      · rw [hp.sum_eq]; exact hup
    · have := hinge_perm hp t
      unfold hinge at this h3
      rw [← this, h3]

/-- C01 (c): any root in `[0, max(norms)]` is what the code returns. -/
theorem C01_findC_root (b s : K) (norms : List K) (hnn : ∀ a ∈ norms, 0 ≤ a) (hs : 0 ≤ s)
    (r m : K) (hr0 : 0 ≤ r) (hm : m ∈ norms) (hrm : r ≤ m)
    (hr : (norms.map fun a => max (a - r) 0).sum = s * r + b) :
    findC b s norms = some r := by
  have hne : norms ≠ [] := by rintro rfl; simp at hm
  change hinge norms r = s * r + b at hr
  have hup : b ≤ norms.sum := by
    have h1 := hinge_anti norms hr0
    rw [hinge_zero hnn] at h1
    nlinarith [mul_nonneg hs hr0]
  have hlow : ∃ m ∈ norms, -s * m ≤ b := by
    refine ⟨m, hm, ?_⟩
    have := hinge_nonneg norms r
    nlinarith
  obtain ⟨t, h1, h2, ⟨m', hm', h3⟩, h4⟩ := C01_findC_exists b s norms hne hnn hs hlow hup
  change hinge norms t = s * t + b at h4
  rw [h1]
  congr 1
  rcases lt_trichotomy t r with h | h | h
  · have := hinge_strict norms h hm hrm
    nlinarith
  · exact h
  · have := hinge_strict norms h hm' h3
    nlinarith

/-- the hypotheses of the three theorems are met: norms (3,1,2), b = 2, slope 1/2 -/
example : findC (2 : ℚ) (1 / 2) [3, 1, 2] = some (6 / 5) := by
  apply C01_findC_root (m := 3) <;> norm_num [max_def]
example : ([3, 1, 2] : List ℚ).sum < 7 := by norm_num

/-- C01 (d): the docstring promise "return the t>=0 such that f(t)=slope*t+b, if one exists" fails beyond the
largest knot: for `norms = [1]`, `slope = 1`, `b = -3` the root is 3 but the code returns 2. -/
theorem C01_findC_docstring_fails :
    ∃ (b s r : ℚ) (norms : List ℚ), 0 ≤ s ∧ (∀ a ∈ norms, 0 ≤ a) ∧ 0 ≤ r ∧
      (norms.map fun a => max (a - r) 0).sum = s * r + b ∧
      (∀ r' : ℚ, 0 ≤ r' → (norms.map fun a => max (a - r') 0).sum = s * r' + b → r' = r) ∧
      ∃ t, findC b s norms = some t ∧ t ≠ r := by
  refine ⟨-3, 1, 3, [1], by norm_num, by simp, by norm_num, by norm_num [max_def], ?_, 2, ?_, by norm_num⟩
  · intro r' h0 h
    simp only [List.map_cons, List.map_nil, List.sum_cons, List.sum_nil, add_zero] at h
    rcases max_cases (1 - r') 0 with ⟨h1, h2⟩ | ⟨h1, h2⟩ <;> rw [h1] at h <;> linarith
  · norm_num [findC, descSort, plLoop, cdiv]

/-- C01 (e): `find_solution_piecewise_linear_uncon` returns a root of `f(t) = b` for every `b ≥ 0`. -/
theorem C01_findUncon (b : K) (values : List K) (hne : values ≠ []) (hb : 0 ≤ b) :
    ∃ t, findUncon b values = some t ∧ (values.map fun a => max (a - t) 0).sum = b ∧
      (∃ m ∈ values, t ≤ m) := by
  have hp := descSort_perm values
  have hsrt := descSort_pairwise values
  unfold findUncon
  cases hd : descSort values with
  | nil => rw [hd] at hp; exact absurd hp.symm.eq_nil hne
  | cons curX rest =>
    rw [hd] at hp hsrt
    obtain ⟨t, h1, h2, h3, h4⟩ := plLoop_correct b 0 curX rest (le_refl _) hsrt (by simpa using hb)
    refine ⟨t, by simpa using h1, ?_, ⟨curX, hp.mem_iff.1 (by simp), h2⟩⟩
    have := hinge_perm hp t
    unfold hinge at this h3
    rw [← this, h3]; ring

example : findUncon (1 : ℚ) [-1, -3] = some (-2) := by
  norm_num [findUncon, descSort, plLoop, cdiv, List.insertionSort]

/-- C01 (e'): an empty array raises in both functions (unless the early return of `_c` applies). -/
theorem C01_empty (b s : K) : findUncon b ([] : List K) = none ∧ (¬ (0 < b) → findC b s ([] : List K) = none) := by
  constructor
  · simp [findUncon, descSort]
  · intro h; simp [findC, descSort, h]

/-- C01 (f): the weighted solver.  `nw` lists `(norms[i], weights[i])`; weights are 0 or at least `1e-20`
(the guard in the code replaces smaller ones); ties may be sorted in any way.  The function is the one of the
docstring, `f(t) = Σ w (w t < norm) (norm - w t)`. -/
theorem C01_findW (b s : K) (nw sorted : List (K × K)) (hs : 0 ≤ s)
    (hn : ∀ p ∈ nw, 0 ≤ p.1) (hw : ∀ p ∈ nw, p.2 = 0 ∨ 1 / 10 ^ 20 ≤ p.2)
    (hperm : sorted.Perm (wKnots nw)) (hsort : sorted.Pairwise (fun p q => q.1 ≤ p.1))
    (hpos : 0 < s ∨ ∃ p ∈ nw, p.2 ≠ 0)
    (hlow : ∃ p ∈ nw, -s * (p.1 / max p.2 (1 / 10 ^ 20)) ≤ b) (hup : b ≤ (nw.map fun p => p.2 * p.1).sum) :
    ∃ t, findW b s nw sorted = some t ∧ 0 ≤ t ∧
      (nw.map fun p => p.2 * (if p.2 * t < p.1 then p.1 - p.2 * t else 0)).sum = s * t + b := by
  unfold findW
  rw [if_neg (by push Not; exact hup)]
  have hε : (0:K) < 1 / 10 ^ 20 := by positivity
  have hconv : ∀ t, 0 ≤ t → wHinge (wKnots nw) t =
      (nw.map fun p => p.2 * (if p.2 * t < p.1 then p.1 - p.2 * t else 0)).sum := by
    intro t ht
    unfold wHinge wKnots
    rw [List.map_map]
    congr 1
    apply List.map_congr_left
    intro p hp
    simp only [Function.comp]
    rcases hw p hp with h0 | h0
    · rw [h0]; ring
    · rw [max_eq_left h0]
      have hpos : 0 < p.2 := lt_of_lt_of_le hε h0
      split_ifs with h
      · rw [max_eq_left (by rw [sub_nonneg, le_div_iff₀ hpos]; nlinarith)]
        field_simp
      · push Not at h
        rw [max_eq_right (by rw [sub_nonpos, div_le_iff₀ hpos]; nlinarith)]
        ring
  have hperm' : ∀ t, wHinge sorted t = wHinge (wKnots nw) t := fun t => (hperm.map _).sum_eq
  have hknn : ∀ p ∈ sorted, 0 ≤ p.1 := by
    intro p hp
    have := hperm.mem_iff.1 hp
    unfold wKnots at this
    obtain ⟨q, hq, rfl⟩ := List.mem_map.1 this
    exact div_nonneg (hn q hq) (le_trans hε.le (le_max_right _ _))
  match hsrt : sorted with
  | [] =>
    exfalso
    have := hperm.symm.eq_nil
    simp only [wKnots, List.map_eq_nil_iff] at this
    obtain ⟨p, hp, _⟩ := hlow
    rw [this] at hp; simp at hp
  | (curX, curW) :: rest =>
    have hmax : ∀ p ∈ wKnots nw, p.1 ≤ curX := by
      intro a ha
      rcases List.mem_cons.1 (hperm.mem_iff.2 ha) with rfl | h
      · exact le_refl _
      · exact List.rel_of_pairwise_cons hsort h
    have hb : -s * curX ≤ b := by
      obtain ⟨p, hp, h⟩ := hlow
      have h1 := hmax (p.1 / max p.2 (1 / 10 ^ 20), p.2) (List.mem_map.2 ⟨p, hp, rfl⟩)
      simp only at h1
      nlinarith
    have hsq : ((((curX, curW) :: rest).map fun p => p.2 ^ 2)).sum = (nw.map fun p => p.2 ^ 2).sum := by
      rw [(hperm.map _).sum_eq]
      simp [wKnots, Function.comp_def]
    have hsqnn : ∀ x ∈ (nw.map fun p => p.2 ^ 2), (0:K) ≤ x := by
      intro x hx; obtain ⟨p, _, rfl⟩ := List.mem_map.1 hx; positivity
    obtain ⟨t, ht⟩ := wplLoop_isSome b rest (-s) (-s * curX) curX curW hsort hb (by linarith) (by
      rw [hsq]
      apply ne_of_lt
      rcases hpos with h | ⟨p, hp, h⟩
      · have := List.sum_nonneg hsqnn; linarith
      · have h1 := List.single_le_sum hsqnn (p.2 ^ 2) (List.mem_map.2 ⟨p, hp, rfl⟩)
        have : 0 < p.2 ^ 2 := by positivity
        linarith)
    obtain ⟨h1, h2, h3⟩ := wplLoop_correct b _ _ _ _ _ t hsort hb ht (by linarith)
    have ht0 : 0 ≤ t := by
      apply h3 hknn
      rw [hperm' 0, hconv 0 (le_refl _)]
      have : (nw.map fun p => p.2 * (if p.2 * 0 < p.1 then p.1 - p.2 * 0 else 0)).sum =
          (nw.map fun p => p.2 * p.1).sum := by
        congr 1
        apply List.map_congr_left
        intro p hp
        have := hn p hp
        split_ifs with h
        · ring
        · have : p.1 = 0 := by simp at h; linarith
          rw [this]
      rw [this]; linarith
    refine ⟨t, ht, ht0, ?_⟩
    rw [← hconv t ht0, ← hperm' t]
    linear_combination h2

/-- a concrete instance of the hypotheses, with a zero weight and a tie -/
example : ∃ t, findW (1 : ℚ) 0 [(2, 1), (4, 2), (0, 0)] [(2, 2), (2, 1), (0, 0)] = some t ∧ 0 ≤ t ∧
    (([(2, 1), (4, 2), (0, 0)] : List (ℚ × ℚ)).map
      fun p => p.2 * (if p.2 * t < p.1 then p.1 - p.2 * t else 0)).sum = 0 * t + 1 := by
  apply C01_findW
  · norm_num
  · simp
  · norm_num
  · have : wKnots ([(2, 1), (4, 2), (0, 0)] : List (ℚ × ℚ)) = [(2, 1), (2, 2), (0, 0)] := by
      norm_num [wKnots]
    rw [this]; exact List.Perm.swap _ _ _
  · norm_num
  · right; exact ⟨(2, 1), by simp, by norm_num⟩
  · exact ⟨(2, 1), by simp, by norm_num⟩
  · norm_num

end Verif.Props
