import Verif.Model.Smuce
import Verif.Props.C45_Multiscale
import Mathlib.Algebra.Order.BigOperators.Ring.Finset
import Mathlib.Tactic.Positivity

/-!
# C89: the multiscale change point statistic and its tuning parameter
-/

set_option linter.unusedSectionVars false
set_option linter.unusedVariables false

namespace Verif.Props
open Verif.Model Verif.Model.Multiscale

/-! ### specification -/

/-- mean of a signal of length `p` -/
noncomputable def meanOf (p : ℕ) (Z : ℕ → ℝ) : ℝ := (∑ t ∈ Finset.range p, Z t) / p

/-- standard deviation of a signal of length `p` -/
noncomputable def sdOf (p : ℕ) (Z : ℕ → ℝ) : ℝ := Real.sqrt ((∑ t ∈ Finset.range p, (Z t - meanOf p Z) ^ 2) / p)

/-- The statistic of Chan and Walther on the interval `[i, j)`: the standardised sum of the centred signal minus the penalty
for the length of the interval. -/
noncomputable def intervalStat (p : ℕ) (Z : ℕ → ℝ) (i j : ℕ) : ℝ :=
  |∑ l ∈ Finset.Ico i j, (Z l - meanOf p Z)| / (Real.sqrt ((j - i : ℕ) : ℝ) * sdOf p Z) -
    Real.sqrt (2 * Real.log ((p : ℝ) / ((j - i : ℕ) : ℝ)))

/-- `v` is the largest statistic over the listed intervals and `s` the first interval that attains it -/
def IsFirstMax (p : ℕ) (Z : ℕ → ℝ) (slices : List (ℕ × ℕ)) (v : ℝ) (s : ℕ × ℕ) : Prop :=
  v = intervalStat p Z s.1 s.2 ∧ ∃ k, slices[k]? = some s ∧
    (∀ t ∈ slices, intervalStat p Z t.1 t.2 ≤ v) ∧
    ∀ (m : ℕ) (t : ℕ × ℕ), m < k → slices[m]? = some t → intervalStat p Z t.1 t.2 < v

/-! ### proofs -/

private lemma std_eq (p : ℕ) (Z : ℕ → ℝ) : std p Z = sdOf p Z := rfl

private lemma sd_zero_iff {p : ℕ} (hp : 0 < p) (Z : ℕ → ℝ) : sdOf p Z = 0 ↔ ∀ t < p, Z t = meanOf p Z := by
  have hp' : (0:ℝ) < p := by exact_mod_cast hp
  unfold sdOf
  rw [Real.sqrt_eq_zero (div_nonneg (Finset.sum_nonneg fun _ _ => sq_nonneg _) hp'.le), div_eq_zero_iff]
  constructor
  · rintro (h | h)
    · rw [Finset.sum_eq_zero_iff_of_nonneg fun _ _ => sq_nonneg _] at h
      intro t ht
      have := h t (Finset.mem_range.2 ht)
      have := pow_eq_zero_iff (two_ne_zero) |>.1 this
      linarith
    · exact absurd h hp'.ne'
  · intro h
    left
    exact Finset.sum_eq_zero fun t ht => by rw [h t (Finset.mem_range.1 ht)]; ring

private lemma argmax_spec (f : ℕ → ℝ) (n : ℕ) (hn : 0 < n) :
    argmax f n < n ∧ (∀ k < n, f k ≤ f (argmax f n)) ∧ ∀ k < argmax f n, f k < f (argmax f n) := by
  classical
  induction n with
  | zero => omega
  | succ n ih =>
    have e : argmax f (n + 1) = if f (argmax f n) < f n then n else argmax f n := by
      unfold argmax
      rw [List.range_succ, List.foldl_append]
      rfl
    rcases Nat.eq_zero_or_pos n with rfl | hpos
    · have : argmax f 0 = 0 := rfl
      rw [e, this, if_neg (lt_irrefl _)]
      refine ⟨by omega, fun k hk => ?_, fun k hk => by omega⟩
      have : k = 0 := by omega
      rw [this]
    · obtain ⟨h1, h2, h3⟩ := ih hpos
      rw [e]
      by_cases h : f (argmax f n) < f n
      · rw [if_pos h]
        refine ⟨by omega, fun k hk => ?_, fun k hk => (h2 k hk).trans_lt h⟩
        rcases Nat.lt_succ_iff_lt_or_eq.1 hk with h' | h'
        · exact (h2 k h').trans h.le
        · rw [h']
      · rw [if_neg h]
        refine ⟨by omega, fun k hk => ?_, h3⟩
        rcases Nat.lt_succ_iff_lt_or_eq.1 hk with h' | h'
        · exact h2 k h'
        · rw [h']; exact not_lt.1 h

private lemma built_scaling {M : Obj ℝ} (h : Built M) (s : Option (ℕ → ℝ)) : Built { M with scaling := s } := by
  cases h with
  | all p minsize h sc => exact Built.all p minsize h s
  | slices p minsize sl h sc => exact Built.slices p minsize sl h s

private lemma valid_of_built {M : Obj ℝ} (h : Built M) : validSlices M.p M.slices := by
  cases h with
  | all p minsize hm s =>
    rintro ⟨i, j⟩ hs
    have := ((C45_all_slices_partial p minsize s).2 i j).1 hs
    simp only [mkAll]; omega
  | slices p minsize sl hv s => exact hv

private lemma mean_center {p : ℕ} (hp : 0 < p) (Z : ℕ → ℝ) : ∑ t ∈ Finset.range p, center p Z t = 0 := by
  have hp' : (p:ℝ) ≠ 0 := by exact_mod_cast hp.ne'
  unfold center
  rw [Finset.sum_sub_distrib, Finset.sum_const, Finset.card_range, nsmul_eq_mul, mul_div_cancel₀ _ hp', sub_self]

private lemma scaled_value {M : Obj ℝ} (hM : Built M) (Z : ℕ → ℝ) {k i j : ℕ} (hk : M.slices[k]? = some (i, j)) :
    lin { M with scaling := some fun k => Real.sqrt (size M k) } Z k =
      (∑ l ∈ Finset.Ico i j, (Z l - meanOf M.p Z)) / Real.sqrt ((j - i : ℕ) : ℝ) := by
  obtain ⟨h1, h2⟩ := valid_of_built hM _ (List.mem_of_getElem? hk)
  simp only at h1 h2
  have := C45_interval_means { M with scaling := some fun k => Real.sqrt (size M k) } (built_scaling hM _) Z k i j hk
  rw [this]
  have hs : size M k = ((j - i : ℕ) : ℝ) := by
    unfold size
    rw [List.getD_eq_getElem?_getD, hk, Nat.cast_sub h1.le]
    rfl
  show Real.sqrt (size M k) * _ = _
  rw [hs]
  have hpos : (0:ℝ) < ((j - i : ℕ) : ℝ) := by exact_mod_cast Nat.sub_pos_of_lt h1
  have hsq := Real.mul_self_sqrt hpos.le
  have hr := Real.sqrt_pos.2 hpos
  show Real.sqrt _ * ((∑ l ∈ Finset.Ico i j, (Z l - meanOf M.p Z)) / _) = _
  generalize (∑ l ∈ Finset.Ico i j, (Z l - meanOf M.p Z)) = S
  rw [mul_div_assoc', div_eq_div_iff hpos.ne' hr.ne']
  rw [mul_right_comm, hsq, mul_comm]

private lemma stat_eq {M : Obj ℝ} (hM : Built M) (Z : ℕ → ℝ) {k i j : ℕ} (hk : M.slices[k]? = some (i, j)) :
    |lin { M with scaling := some fun k => Real.sqrt (size M k) } (center M.p Z) k / std M.p Z| -
      Real.sqrt (2 * Real.log (M.p / size M k)) = intervalStat M.p Z i j := by
  obtain ⟨h1, h2⟩ := valid_of_built hM _ (List.mem_of_getElem? hk)
  simp only at h1 h2
  have hs : size M k = ((j - i : ℕ) : ℝ) := by
    unfold size
    rw [List.getD_eq_getElem?_getD, hk, Nat.cast_sub h1.le]
    rfl
  have hm : meanOf M.p (center M.p Z) = 0 := by
    unfold meanOf
    rw [mean_center (by omega), zero_div]
  rw [scaled_value hM _ hk, hs, hm, std_eq]
  unfold intervalStat
  have e : ∑ l ∈ Finset.Ico i j, (center M.p Z l - 0) = ∑ l ∈ Finset.Ico i j, (Z l - meanOf M.p Z) :=
    Finset.sum_congr rfl fun l _ => by rw [sub_zero]; rfl
  have hnn : 0 ≤ Real.sqrt ((j - i : ℕ) : ℝ) * sdOf M.p Z := mul_nonneg (Real.sqrt_nonneg _) (Real.sqrt_nonneg _)
  rw [e, div_div, abs_div, abs_of_nonneg hnn]

/-- **C89** The value: for every transform built by the constructor, every signal that is not constant and the default
noise level, `SMUCE_stat` returns the largest interval statistic over the intervals of the transform together with the first
interval that attains it - whatever the scaling of the transform, as documented. -/
theorem C89_value (M : Obj ℝ) (hM : Built M) (hne : M.slices ≠ []) (Z : ℕ → ℝ)
    (hZ : ∃ s t, s < M.p ∧ t < M.p ∧ Z s ≠ Z t) :
    ∃ v s, (smuce M Z none).1 = .ok v s ∧ IsFirstMax M.p Z M.slices v s := by
  have hlen : 0 < M.slices.length := List.length_pos_iff.2 hne
  obtain ⟨s, t, hs, ht, hst⟩ := hZ
  have hsd : std M.p Z ≠ 0 := by
    intro h
    rw [std_eq, sd_zero_iff (by omega)] at h
    exact hst ((h s hs).trans (h t ht).symm)
  set T : ℕ → ℝ := fun k => |lin { M with scaling := some fun k => Real.sqrt (size M k) } (center M.p Z) k / std M.p Z| -
      Real.sqrt (2 * Real.log (M.p / size M k)) with hT
  have hout : (smuce M Z none).1 = .ok (T (argmax T M.slices.length)) (M.slices.getD (argmax T M.slices.length) (0, 0)) := by
    unfold smuce
    simp only
    rw [if_neg hlen.ne', if_neg hsd]
  obtain ⟨h1, h2, h3⟩ := argmax_spec T _ hlen
  have hget : ∀ k (hk : k < M.slices.length), M.slices[k]? = some (M.slices[k].1, M.slices[k].2) :=
    fun k hk => List.getElem?_eq_getElem hk
  have hTk : ∀ k (hk : k < M.slices.length), T k = intervalStat M.p Z M.slices[k].1 M.slices[k].2 :=
    fun k hk => stat_eq hM Z (hget k hk)
  have hgd : M.slices.getD (argmax T M.slices.length) (0, 0) = M.slices[argmax T M.slices.length] := by
    rw [List.getD_eq_getElem?_getD, List.getElem?_eq_getElem h1]; rfl
  refine ⟨_, _, hout, ?_, argmax T M.slices.length, ?_, fun t' ht' => ?_, fun m t' hm ht' => ?_⟩
  · rw [hgd]; exact hTk _ h1
  · rw [hgd]; exact List.getElem?_eq_getElem h1
  · obtain ⟨m, hm, rfl⟩ := List.getElem_of_mem ht'
    rw [← hTk m hm]
    exact h2 m hm
  · have hml : m < M.slices.length := by omega
    have : t' = M.slices[m] := by
      rw [List.getElem?_eq_getElem hml] at ht'
      injection ht' with ht'
      exact ht'.symm
    rw [this, ← hTk m hml]
    exact h3 m hm

private lemma firstMax_unique {p : ℕ} {Z : ℕ → ℝ} {sl : List (ℕ × ℕ)} {v v' : ℝ} {s s' : ℕ × ℕ}
    (h : IsFirstMax p Z sl v s) (h' : IsFirstMax p Z sl v' s') : v = v' ∧ s = s' := by
  obtain ⟨e, k, hk, hmax, hfirst⟩ := h
  obtain ⟨e', k', hk', hmax', hfirst'⟩ := h'
  have hv : v = v' := by
    apply le_antisymm
    · rw [e]; exact hmax' s (List.mem_of_getElem? hk)
    · rw [e']; exact hmax s' (List.mem_of_getElem? hk')
  refine ⟨hv, ?_⟩
  rcases lt_trichotomy k k' with hlt | heq | hlt
  · have := hfirst' k s hlt hk
    rw [← e, hv] at this
    exact absurd this (lt_irrefl _)
  · rw [heq, hk'] at hk
    injection hk with hk
    exact hk.symm
  · have := hfirst k' s' hlt hk'
    rw [← e', hv] at this
    exact absurd this (lt_irrefl _)

private lemma stat_affine {p : ℕ} (hp : 0 < p) (Z : ℕ → ℝ) (a c : ℝ) (hc : c ≠ 0) (i j : ℕ) :
    intervalStat p (fun t => a + c * Z t) i j = intervalStat p Z i j := by
  have hp' : (p:ℝ) ≠ 0 := by exact_mod_cast hp.ne'
  have hmean : meanOf p (fun t => a + c * Z t) = a + c * meanOf p Z := by
    unfold meanOf
    rw [Finset.sum_add_distrib, Finset.sum_const, Finset.card_range, nsmul_eq_mul, ← Finset.mul_sum]
    field_simp
  have hdiff : ∀ t, a + c * Z t - (a + c * meanOf p Z) = c * (Z t - meanOf p Z) := fun t => by ring
  have hsd : sdOf p (fun t => a + c * Z t) = |c| * sdOf p Z := by
    unfold sdOf
    rw [hmean]
    simp only [hdiff, mul_pow]
    rw [← Finset.mul_sum, mul_div_assoc, Real.sqrt_mul (sq_nonneg c), Real.sqrt_sq_eq_abs]
  unfold intervalStat
  rw [hsd, hmean]
  simp only [hdiff]
  rw [← Finset.mul_sum, abs_mul]
  have hc' : |c| ≠ 0 := abs_ne_zero.2 hc
  congr 1
  rw [show Real.sqrt ((j - i : ℕ) : ℝ) * (|c| * sdOf p Z) = |c| * (Real.sqrt ((j - i : ℕ) : ℝ) * sdOf p Z) by ring]
  exact mul_div_mul_left _ _ hc'

/-- **C89** Location and scale of the data do not matter: `SMUCE_stat` of `a + c Z` (`c ≠ 0`) is that of `Z`. -/
theorem C89_invariant (M : Obj ℝ) (hM : Built M) (hne : M.slices ≠ []) (Z : ℕ → ℝ)
    (hZ : ∃ s t, s < M.p ∧ t < M.p ∧ Z s ≠ Z t) (a c : ℝ) (hc : c ≠ 0) :
    (smuce M (fun t => a + c * Z t) none).1 = (smuce M Z none).1 := by
  have hp : 0 < M.p := by obtain ⟨s, _, hs, _⟩ := hZ; omega
  obtain ⟨v, s, h1, h2⟩ := C89_value M hM hne Z hZ
  obtain ⟨v', s', h1', h2'⟩ := C89_value M hM hne (fun t => a + c * Z t) (by
    obtain ⟨s, t, hs, ht, hst⟩ := hZ
    exact ⟨s, t, hs, ht, fun h => hst (mul_left_cancel₀ hc (add_left_cancel h))⟩)
  have h3 : IsFirstMax M.p Z M.slices v' s' := by
    obtain ⟨e, k, hk, hmax, hfirst⟩ := h2'
    refine ⟨by rw [e, stat_affine hp Z a c hc], k, hk, fun t ht => ?_, fun m t hm ht => ?_⟩
    · have := hmax t ht
      rwa [stat_affine hp Z a c hc] at this
    · have := hfirst m t hm ht
      rwa [stat_affine hp Z a c hc] at this
  obtain ⟨e1, e2⟩ := firstMax_unique h3 h2
  rw [h1, h1', e1, e2]

/-- **C89** "M's scaling is ignored, even if not None". -/
theorem C89_scaling_ignored (M : Obj ℝ) (s : Option (ℕ → ℝ)) (Z : ℕ → ℝ) (sigma : Option ℝ) :
    (smuce { M with scaling := s } Z sigma).1 = (smuce M Z sigma).1 := rfl

/-- **C89** The noise level cannot be given: for every transform, signal and `sigma` the call ends in an exception. -/
theorem C89_sigma_fails (M : Obj ℝ) (Z : ℕ → ℝ) (sigma : ℝ) : (smuce M Z (some sigma)).1 = .unbound := rfl

/-- **C89** A constant signal gives nan, not a statistic. -/
theorem C89_constant_fails (M : Obj ℝ) (hM : Built M) (hne : M.slices ≠ []) (c : ℝ) :
    ∃ s, (smuce M (fun _ => c) none).1 = .nan s := by
  have hlen : 0 < M.slices.length := List.length_pos_iff.2 hne
  have hp : 0 < M.p := by
    obtain ⟨h1, h2⟩ := valid_of_built hM _ (List.getElem_mem hlen)
    omega
  have hsd : std M.p (fun _ => c) = 0 := by
    rw [std_eq, sd_zero_iff hp]
    intro t ht
    unfold meanOf
    rw [Finset.sum_const, Finset.card_range, nsmul_eq_mul]
    have : (M.p : ℝ) ≠ 0 := by exact_mod_cast hp.ne'
    field_simp
  refine ⟨M.slices.getD 0 (0, 0), ?_⟩
  unfold smuce
  simp only
  rw [if_neg hlen.ne', if_pos hsd]

/-- **C89** Reading the statistic changes the transform: whatever the arguments, afterwards the transform has the scaling
`sqrt(sizes)`, so its `linear_map` multiplies the mean over interval `[i, j)` by `sqrt(j - i)`, no matter which scaling it had
before. -/
theorem C89_transform_changed_fails (M : Obj ℝ) (hM : Built M) (Z : ℕ → ℝ) (sigma : Option ℝ) (x : ℕ → ℝ) (k i j : ℕ)
    (hk : M.slices[k]? = some (i, j)) :
    lin (smuce M Z sigma).2 x k =
      (∑ l ∈ Finset.Ico i j, (x l - meanOf M.p x)) / Real.sqrt ((j - i : ℕ) : ℝ) := by
  have h : (smuce M Z sigma).2 = { M with scaling := some fun k => Real.sqrt (size M k) } := by
    unfold smuce
    cases sigma with
    | some s => rfl
    | none =>
      simp only
      split_ifs <;> rfl
  rw [h]
  exact scaled_value hM x hk

/-- A transform of length 8 with the one interval `[0, 4)`, built without scaling: its `linear_map` is not the one after the
call. -/
example : let M : Obj ℝ := mkSlices 8 1 [(0, 4)] none
    let x : ℕ → ℝ := fun l => if l < 4 then 1 else -1
    lin M x 0 = 1 ∧ lin (smuce M x none).2 x 0 = 2 := by
  intro M x
  have hB : Built M := Built.slices 8 1 [(0, 4)] (by intro s hs; simp at hs; subst hs; norm_num) none
  have hm : meanOf 8 x = 0 := by norm_num [meanOf, x, Finset.sum_range_succ]
  constructor
  · rw [C45_interval_means M hB x 0 0 4 rfl]
    show factor none 0 * ((∑ l ∈ Finset.Ico 0 4, (x l - meanOf 8 x)) / ((4 - 0 : ℕ) : ℝ)) = 1
    rw [hm]
    norm_num [factor, x, Finset.sum_Ico_eq_sum_range, Finset.sum_range_succ]
  · rw [C89_transform_changed_fails M hB x none x 0 0 4 rfl]
    show (∑ l ∈ Finset.Ico 0 4, (x l - meanOf 8 x)) / Real.sqrt ((4 - 0 : ℕ) : ℝ) = 2
    rw [hm]
    have : Real.sqrt ((4 - 0 : ℕ) : ℝ) = 2 := by
      rw [show (((4 - 0 : ℕ) : ℝ)) = 2 ^ 2 by norm_num]
      exact Real.sqrt_sq (by norm_num)
    rw [this]
    norm_num [x, Finset.sum_Ico_eq_sum_range, Finset.sum_range_succ]

/-- **C89** `form_matrix` is the matrix of the transform with scaling `sqrt(sizes)`: the product of its column for interval
`[i, j)` with a signal is `sqrt(j-i)` times the mean of the centred signal over the interval, columns are centred and have
squared length `1 - (j-i)/p`; `length` is the interval length. -/
theorem C89_form_matrix (p : ℕ) (slices : List (ℕ × ℕ)) (hv : validSlices p slices) (k i j : ℕ) (hk : slices[k]? = some (i, j)) :
    (formMatrix p slices).2 k = ((j - i : ℕ) : ℝ) ∧
    (∀ x : ℕ → ℝ, ∑ l ∈ Finset.range p, (formMatrix p slices).1 l k * x l =
      (∑ l ∈ Finset.Ico i j, (x l - meanOf p x)) / Real.sqrt ((j - i : ℕ) : ℝ)) ∧
    ∑ l ∈ Finset.range p, (formMatrix p slices).1 l k = 0 ∧
    ∑ l ∈ Finset.range p, (formMatrix p slices).1 l k ^ 2 = 1 - ((j - i : ℕ) : ℝ) / p := by
  obtain ⟨h1, h2⟩ := hv _ (List.mem_of_getElem? hk)
  simp only at h1 h2
  have hp' : (p:ℝ) ≠ 0 := by have : 0 < p := by omega
                             exact_mod_cast this.ne'
  have hg : slices.getD k (0, 0) = (i, j) := by rw [List.getD_eq_getElem?_getD, hk]; rfl
  have hlen : (formMatrix p slices).2 k = ((j - i : ℕ) : ℝ) := by
    show ((slices.getD k (0, 0)).2 : ℝ) - (slices.getD k (0, 0)).1 = _
    rw [hg, Nat.cast_sub h1.le]
  have hpos : (0:ℝ) < ((j - i : ℕ) : ℝ) := by exact_mod_cast Nat.sub_pos_of_lt h1
  have hind : ∀ x : ℕ → ℝ, ∑ l ∈ Finset.range p, (if i ≤ l ∧ l < j then (1:ℝ) else 0) * x l = ∑ l ∈ Finset.Ico i j, x l := by
    intro x
    have : Finset.Ico i j = (Finset.range p).filter fun l => i ≤ l ∧ l < j := by
      ext l; simp only [Finset.mem_Ico, Finset.mem_filter, Finset.mem_range]; omega
    rw [this, Finset.sum_filter]
    exact Finset.sum_congr rfl fun l _ => by split_ifs <;> ring
  have hcount : ∑ l ∈ Finset.range p, (if i ≤ l ∧ l < j then (1:ℝ) else 0) = ((j - i : ℕ) : ℝ) := by
    have := hind fun _ => 1
    simp only [mul_one] at this
    rw [this, Finset.sum_const, Nat.card_Ico, nsmul_eq_mul, mul_one]
  have hentry : ∀ l, (formMatrix p slices).1 l k =
      ((if i ≤ l ∧ l < j then (1:ℝ) else 0) - ((j - i : ℕ) : ℝ) / p) / Real.sqrt ((j - i : ℕ) : ℝ) := by
    intro l
    show ((if (slices.getD k (0, 0)).1 ≤ l ∧ l < (slices.getD k (0, 0)).2 then (1:ℝ) else 0) -
      (∑ t ∈ Finset.range p, if (slices.getD k (0, 0)).1 ≤ t ∧ t < (slices.getD k (0, 0)).2 then (1:ℝ) else 0) / p) /
        Real.sqrt ((formMatrix p slices).2 k) = _
    rw [hlen, hg, hcount]
  have hx : ∀ x : ℕ → ℝ, ∑ l ∈ Finset.range p, (formMatrix p slices).1 l k * x l =
      (∑ l ∈ Finset.Ico i j, (x l - meanOf p x)) / Real.sqrt ((j - i : ℕ) : ℝ) := by
    intro x
    have : ∀ l, (formMatrix p slices).1 l k * x l =
        ((if i ≤ l ∧ l < j then (1:ℝ) else 0) * x l - ((j - i : ℕ) : ℝ) / p * x l) / Real.sqrt ((j - i : ℕ) : ℝ) := by
      intro l; rw [hentry]; ring
    simp only [this]
    rw [← Finset.sum_div, Finset.sum_sub_distrib, hind, ← Finset.mul_sum, Finset.sum_sub_distrib, Finset.sum_const,
      Nat.card_Ico, nsmul_eq_mul]
    congr 2
    unfold meanOf
    ring
  refine ⟨hlen, hx, ?_, ?_⟩
  · have := hx fun _ => 1
    simp only [mul_one] at this
    rw [this]
    have hm : meanOf p (fun _ => 1) = 1 := by
      unfold meanOf; rw [Finset.sum_const, Finset.card_range, nsmul_eq_mul, mul_one, div_self hp']
    simp [hm]
  · have hsq : ∀ l, (formMatrix p slices).1 l k ^ 2 =
        ((if i ≤ l ∧ l < j then (1:ℝ) else 0) - 2 * (((j - i : ℕ) : ℝ) / p) * (if i ≤ l ∧ l < j then (1:ℝ) else 0) +
          (((j - i : ℕ) : ℝ) / p) ^ 2) / ((j - i : ℕ) : ℝ) := by
      intro l
      rw [hentry, div_pow, Real.sq_sqrt hpos.le]
      congr 1
      split_ifs <;> ring
    simp only [hsq]
    rw [← Finset.sum_div, Finset.sum_add_distrib, Finset.sum_sub_distrib, ← Finset.mul_sum, hcount, Finset.sum_const,
      Finset.card_range, nsmul_eq_mul]
    field_simp
    ring

/-! ### the tuning parameter -/

private lemma sorted_lower {L : List ℝ} (hs : L.Pairwise (· ≤ ·)) {i : ℕ} (hi : i < L.length) {t : ℝ} (ht : L[i] ≤ t) :
    i + 1 ≤ L.countP (fun v => decide (v ≤ t)) := by
  classical
  have h1 : (L.take (i + 1)).countP (fun v => decide (v ≤ t)) = (L.take (i + 1)).length := by
    rw [List.countP_eq_length]
    intro a ha
    obtain ⟨m, hm, rfl⟩ := List.getElem_of_mem ha
    rw [List.length_take] at hm
    have hm' : m < L.length := by omega
    rw [List.getElem_take]
    refine decide_eq_true (le_trans ?_ ht)
    rcases Nat.lt_or_ge m i with h | h
    · exact List.pairwise_iff_getElem.1 hs m i hm' hi h
    · have : m = i := by omega
      subst this; exact le_rfl
  have h2 := (List.take_sublist (i + 1) L).countP_le (p := fun v => decide (v ≤ t))
  rw [h1, List.length_take] at h2
  omega

private lemma sorted_upper {L : List ℝ} (hs : L.Pairwise (· ≤ ·)) {i : ℕ} (hi : i < L.length) {t : ℝ} (ht : t ≤ L[i]) :
    L.length - i ≤ L.countP (fun v => decide (t ≤ v)) := by
  classical
  have h1 : (L.drop i).countP (fun v => decide (t ≤ v)) = (L.drop i).length := by
    rw [List.countP_eq_length]
    intro a ha
    obtain ⟨m, hm, rfl⟩ := List.getElem_of_mem ha
    rw [List.length_drop] at hm
    have hm' : i + m < L.length := by omega
    rw [List.getElem_drop]
    refine decide_eq_true (le_trans ht ?_)
    rcases Nat.eq_zero_or_pos m with h | h
    · subst h; exact le_rfl
    · exact List.pairwise_iff_getElem.1 hs i (i + m) hi hm' (by omega)
  have h2 := (List.drop_sublist i L).countP_le (p := fun v => decide (t ≤ v))
  rw [h1, List.length_drop] at h2
  exact h2

/-- `t` is a `quantile` of the numbers in `V` (`n` of them): at least `⌊quantile (n-1)⌋ + 1` are at most `t` and at least
`n - ⌈quantile (n-1)⌉` are at least `t` -/
def IsQuantile (V : List ℝ) (quantile t : ℝ) : Prop :=
  open Classical in
  ⌊((V.length : ℝ) - 1) * quantile⌋₊ + 1 ≤ V.countP (fun v => decide (v ≤ t)) ∧
    V.length - ⌈((V.length : ℝ) - 1) * quantile⌉₊ ≤ V.countP (fun v => decide (t ≤ v))

private lemma percentile_spec (V : List ℝ) (hV : V ≠ []) (q : ℝ) (h0 : 0 ≤ q) (h1 : q ≤ 1) :
    ∃ t, percentile V q = some t ∧ IsQuantile V q t := by
  classical
  have hn : 0 < V.length := List.length_pos_iff.2 hV
  have hn' : (1:ℝ) ≤ V.length := by exact_mod_cast hn
  set L := V.insertionSort (· ≤ ·) with hL
  have hs : L.Pairwise (· ≤ ·) := List.pairwise_insertionSort (· ≤ ·) V
  have hperm : L.Perm V := List.perm_insertionSort (· ≤ ·) V
  have hlen : L.length = V.length := hperm.length_eq
  set h := ((V.length : ℝ) - 1) * q with hh
  have hh0 : 0 ≤ h := mul_nonneg (by linarith) h0
  have hh1 : h ≤ ((V.length - 1 : ℕ) : ℝ) := by
    rw [Nat.cast_sub hn, Nat.cast_one, hh]; nlinarith
  set i := ⌊h⌋₊ with hi
  have hile : i ≤ V.length - 1 := by
    have := Nat.floor_le_floor hh1
    rwa [Nat.floor_natCast] at this
  have hiL : i < L.length := by omega
  set i' := min (i + 1) (V.length - 1) with hi'
  have hiL' : i' < L.length := by omega
  have hfl : (i:ℝ) ≤ h := Nat.floor_le hh0
  have hfl2 : h < i + 1 := Nat.lt_floor_add_one h
  have hmono : L[i] ≤ L[i'] := by
    rcases Nat.lt_or_ge i i' with h | h
    · exact List.pairwise_iff_getElem.1 hs i i' hiL hiL' h
    · have : i = i' := by omega
      simp only [← this]; exact le_rfl
  have e1 : L.getD i 0 = L[i] := by rw [List.getD_eq_getElem?_getD, List.getElem?_eq_getElem hiL]; rfl
  have e2 : L.getD i' 0 = L[i'] := by rw [List.getD_eq_getElem?_getD, List.getElem?_eq_getElem hiL']; rfl
  refine ⟨L[i] + (h - i) * (L[i'] - L[i]), ?_, ?_, ?_⟩
  · unfold percentile
    rw [if_neg (by rintro (h | h | h) <;> [exact hV h; linarith; linarith])]
    simp only
    rw [← hL, ← hh, ← hi, ← hi', e1, e2]
  · rw [← hperm.countP_eq]
    exact sorted_lower hs hiL (by nlinarith)
  · rw [← hperm.countP_eq, ← hlen]
    by_cases hint : h = i
    · have hc : ⌈h⌉₊ = i := by rw [hint, Nat.ceil_natCast]
      rw [hlen, ← hh, hc, ← hlen]
      exact sorted_upper hs hiL (by rw [hint]; simp)
    · have hlt : (i:ℝ) < h := lt_of_le_of_ne hfl (Ne.symm hint)
      have hc : ⌈h⌉₊ = i + 1 := by
        rw [Nat.ceil_eq_iff (by omega)]
        refine ⟨by simpa using hlt, by push_cast; linarith⟩
      have hi2 : i + 1 ≤ V.length - 1 := by
        have : (i:ℝ) < ((V.length - 1 : ℕ) : ℝ) := lt_of_lt_of_le hlt hh1
        exact_mod_cast this
      have hi3 : i' = i + 1 := by omega
      rw [hlen, ← hh, hc, ← hlen, ← hi3]
      exact sorted_upper hs hiL' (by nlinarith)

private lemma draws_spec (M : Obj ℝ) (hM : Built M) (hne : M.slices ≠ []) (draws : List (ℕ → ℝ))
    (hd : ∀ Z ∈ draws, ∃ s t, s < M.p ∧ t < M.p ∧ Z s ≠ Z t) :
    ∃ V M', smuceDraws M draws = (some V, M') ∧
      List.Forall₂ (fun Z v => ∃ s, IsFirstMax M.p Z M.slices v s) draws V := by
  induction draws generalizing M with
  | nil => exact ⟨[], M, rfl, List.Forall₂.nil⟩
  | cons Z draws ih =>
    obtain ⟨v, s, h1, h2⟩ := C89_value M hM hne Z (hd Z List.mem_cons_self)
    have hM' : (smuce M Z none).2 = { M with scaling := some fun k => Real.sqrt (size M k) } := by
      unfold smuce
      simp only
      split_ifs <;> rfl
    obtain ⟨V, M', h3, h4⟩ := ih { M with scaling := some fun k => Real.sqrt (size M k) } (built_scaling hM _) hne
      (fun Z hZ => hd Z (List.mem_cons_of_mem _ hZ))
    refine ⟨v :: V, M', ?_, List.Forall₂.cons ⟨s, h2⟩ h4⟩
    have hsm : smuce M Z none = (.ok v s, { M with scaling := some fun k => Real.sqrt (size M k) }) :=
      Prod.ext h1 hM'
    unfold smuceDraws
    rw [hsm]
    simp only
    rw [h3]

/-- **C89** `choose_tuning_parameter` returns the requested quantile of the statistics of the simulated signals, for every
sequence of nonconstant draws, at least one, and every quantile in `[0, 1]`; in particular it does not depend on the scaling
the transform has, although every draw changes it. -/
theorem C89_tuning (M : Obj ℝ) (hM : Built M) (hne : M.slices ≠ []) (draws : List (ℕ → ℝ)) (hdn : draws ≠ [])
    (hd : ∀ Z ∈ draws, ∃ s t, s < M.p ∧ t < M.p ∧ Z s ≠ Z t) (q : ℝ) (h0 : 0 ≤ q) (h1 : q ≤ 1) (sigma : Option ℝ) :
    ∃ V t, (chooseTuning M draws q sigma).1 = some t ∧
      List.Forall₂ (fun Z v => ∃ s, IsFirstMax M.p Z M.slices v s) draws V ∧ IsQuantile V q t := by
  obtain ⟨V, M', h, hV⟩ := draws_spec M hM hne draws hd
  have hVn : V ≠ [] := by
    rintro rfl
    cases hV
    exact hdn rfl
  obtain ⟨t, ht, hq⟩ := percentile_spec V hVn q h0 h1
  refine ⟨V, t, ?_, hV, hq⟩
  unfold chooseTuning
  rw [h]
  exact ht

/-- **C89** The argument `sigma` of `choose_tuning_parameter`, documented as passed on to the statistic, has no effect. -/
theorem C89_tuning_sigma_fails (M : Obj ℝ) (draws : List (ℕ → ℝ)) (q : ℝ) (sigma sigma' : Option ℝ) :
    chooseTuning M draws q sigma = chooseTuning M draws q sigma' := rfl

/-- A concrete transform and signal meet the hypotheses. -/
example : Built (mkAll 5 2 none : Obj ℝ) ∧ (mkAll 5 2 none : Obj ℝ).slices ≠ [] ∧
    (∃ s t, s < 5 ∧ t < 5 ∧ (fun l : ℕ => (l : ℝ) ^ 2) s ≠ (fun l : ℕ => (l : ℝ) ^ 2) t) ∧
    validSlices 5 (mkAll 5 2 none : Obj ℝ).slices := by
  refine ⟨Built.all 5 2 (by norm_num) none, ?_, ⟨1, 2, by norm_num, by norm_num, by norm_num⟩,
    valid_of_built (Built.all 5 2 (by norm_num) none)⟩
  show List.filter _ _ ≠ []
  decide +kernel

end Verif.Props
