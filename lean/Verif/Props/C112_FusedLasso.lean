import Verif.Props.C44_TrendFilter
import Mathlib.LinearAlgebra.Lagrange

/-!
# C112: what a trend filter penalises, and the fused lasso through `trend_filter_inverse`
-/

set_option linter.unusedSectionVars false
set_option linter.unusedVariables false

namespace Verif.Props
open Verif.Model Verif.Model.TrendFilter Verif.Lemmas.Trend Polynomial

variable {K : Type*} [Field K] [LinearOrder K] [IsStrictOrderedRing K]

/-! ### specification -/

/-- the values `x` at positions `lo, …, hi` lie on one polynomial in the knots of degree below `d` -/
def OnPolynomial {n : ℕ} (knots : Fin n → K) (x : ℕ → K) (d lo hi : ℕ) : Prop :=
  ∃ P : K[X], P.degree < d ∧ ∀ l : Fin n, lo ≤ l.val → l.val ≤ hi → x l = P.eval (knots l)

/-- the fused lasso objective of `β`: loss plus `lam` times the l1 norm of the first order trend filter -/
def fusedObjective {n : ℕ} (knots : Fin n → K) (loss : (Fin n → K) → K) (lam : K) (β : Fin n → K) : K :=
  loss β + lam * ∑ i ∈ Finset.range (n - 1), |trendFilterLin knots 1 (arr β) i|

/-- the coefficients that a constant and jumps stand for -/
def fromJumps {n : ℕ} (knots : Fin n → K) (c : K) (jumps : ℕ → K) : Fin n → K :=
  fun i => c + inverseLin knots jumps i

/-- the lasso objective in the constant and the jumps -/
def jumpObjective {n : ℕ} (knots : Fin n → K) (loss : (Fin n → K) → K) (lam : K) (c : K) (jumps : ℕ → K) : K :=
  loss (fromJumps knots c jumps) + lam * ∑ i ∈ Finset.range (n - 1), |jumps i|

/-! ### helpers -/

private lemma tf_dd {n : ℕ} (knots : Fin n → K) (x : ℕ → K) {order i : ℕ} (hi : i + order < n) :
    trendFilterLin knots order x i = dd (arr knots) x order i := by
  unfold trendFilterLin differenceTransform
  simp only [if_true]
  exact mat_dd _ _ _ order i hi

/-- a divided difference looks at `order + 1` values only -/
private lemma dd_local (X f g : ℕ → K) : ∀ j i, (∀ l, i ≤ l → l ≤ i + j → f l = g l) → dd X f j i = dd X g j i := by
  intro j
  induction j with
  | zero => intro i h; exact h i le_rfl le_rfl
  | succ j ih =>
    intro i h
    simp only [dd]
    rw [ih (i + 1) fun l h1 h2 => h l (by omega) (by omega), ih i fun l h1 h2 => h l h1 (by omega)]

private lemma arr_lt {n : ℕ} (x : Fin n → K) {l : ℕ} (h : l < n) : arr x l = x ⟨l, h⟩ := by simp [arr, h]

/-- the trend filter of values on a polynomial of degree at most `order` is its coefficient -/
private lemma tf_poly {n : ℕ} (knots : Fin n → K) (hk : Function.Injective knots) (x : ℕ → K) {order i : ℕ} (hi : i + order < n)
    (P : K[X]) (hP : P.degree < (order + 1 : ℕ)) (hx : ∀ l : Fin n, i ≤ l.val → l.val ≤ i + order → x l = P.eval (knots l)) :
    trendFilterLin knots order x i = P.coeff order := by
  rw [← (C44_trend_filter knots order).1 hk P.coeff i hi, tf_dd _ _ hi, tf_dd _ _ hi]
  refine dd_local _ _ _ _ _ fun l h1 h2 => ?_
  have hl : l < n := by omega
  rw [hx ⟨l, hl⟩ h1 h2, arr_lt _ hl]
  by_cases h0 : P = 0
  · simp [h0]
  · refine Polynomial.eval_eq_sum_range' ?_ _
    exact (Polynomial.natDegree_lt_iff_degree_lt h0).2 hP

/-- the window of knots -/
private def window {n : ℕ} (lo k : ℕ) : Finset (Fin n) := Finset.univ.filter fun l => lo ≤ l.val ∧ l.val < lo + k

private lemma window_card {n lo k : ℕ} (h : lo + k ≤ n) : (window (n := n) lo k).card = k := by
  have e : (window (n := n) lo k).map Fin.valEmbedding = Finset.Ico lo (lo + k) := by
    ext l
    simp only [window, Finset.mem_map, Finset.mem_filter, Finset.mem_univ, true_and, Fin.valEmbedding_apply, Finset.mem_Ico]
    constructor
    · rintro ⟨l, h1, rfl⟩; exact h1
    · intro hl; exact ⟨⟨l, by omega⟩, hl, rfl⟩
  rw [← Finset.card_map, e, Nat.card_Ico]
  omega

private lemma interp {n : ℕ} (knots : Fin n → K) (hk : Function.Injective knots) (x : ℕ → K) {lo k : ℕ} (h : lo + k ≤ n) :
    ∃ P : K[X], P.degree < (k : ℕ) ∧ ∀ l : Fin n, lo ≤ l.val → l.val < lo + k → x l = P.eval (knots l) := by
  refine ⟨Lagrange.interpolate (window lo k) knots (fun l => x l), ?_, fun l h1 h2 => ?_⟩
  · have := Lagrange.degree_interpolate_lt (s := window (n := n) lo k) (fun l : Fin n => x l) (hk.injOn)
    rwa [window_card h] at this
  · rw [Lagrange.eval_interpolate_at_node (fun l : Fin n => x l) hk.injOn (by simp [window, h1, h2])]

private lemma same_poly {n : ℕ} (knots : Fin n → K) (hk : Function.Injective knots) {lo k : ℕ} (h : lo + k ≤ n) {P Q : K[X]}
    (hP : P.degree < (k : ℕ)) (hQ : Q.degree < (k : ℕ))
    (he : ∀ l : Fin n, lo ≤ l.val → l.val < lo + k → P.eval (knots l) = Q.eval (knots l)) : P = Q := by
  refine Polynomial.eq_of_degrees_lt_of_eval_index_eq (window (n := n) lo k) (hk.injOn) ?_ ?_ fun l hl => ?_
  · rwa [window_card h]
  · rwa [window_card h]
  · simp only [window, Finset.mem_filter, Finset.mem_univ, true_and] at hl
    exact he l hl.1 hl.2

/-! ### theorems -/

/-- **C112** Entry `i` of the trend filter of order `k` is zero exactly when the `k + 1` values at positions `i, …, i + k` lie on one
polynomial of degree below `k` in the knots, for any distinct knots. -/
theorem C112_zero_entry {n : ℕ} (knots : Fin n → K) (hk : Function.Injective knots) (order : ℕ) (x : ℕ → K) (i : ℕ)
    (hi : i + order < n) : trendFilterLin knots order x i = 0 ↔ OnPolynomial knots x order i (i + order) := by
  constructor
  · intro h
    obtain ⟨P, hP, hx⟩ := interp knots hk x (lo := i) (k := order + 1) (by omega)
    have hx' : ∀ l : Fin n, i ≤ l.val → l.val ≤ i + order → x l = P.eval (knots l) := fun l h1 h2 => hx l h1 (by omega)
    rw [tf_poly knots hk x hi P hP hx'] at h
    refine ⟨P, ?_, hx'⟩
    rw [Polynomial.degree_lt_iff_coeff_zero]
    intro m hm
    rcases Nat.eq_or_lt_of_le hm with e | e
    · rw [← e]; exact h
    · exact (Polynomial.degree_lt_iff_coeff_zero P (order + 1)).1 hP m e
  · rintro ⟨P, hP, hx⟩
    rw [tf_poly knots hk x hi P (lt_trans hP (by exact_mod_cast Nat.lt_succ_self order)) hx]
    exact (Polynomial.degree_lt_iff_coeff_zero P order).1 hP order le_rfl

/-- **C112** Where the trend filter of order `k` is zero in a row, the coefficients follow a single polynomial of degree below `k`: the
entries at `p, …, q` are all zero exactly when the values at `p, …, q + k` lie on one polynomial.  So a solution with few nonzero
entries is a polynomial spline with few pieces. -/
theorem C112_zero_run {n : ℕ} (knots : Fin n → K) (hk : Function.Injective knots) (order : ℕ) (x : ℕ → K) (p : ℕ) :
    ∀ q, p ≤ q → q + order < n →
      ((∀ i, p ≤ i → i ≤ q → trendFilterLin knots order x i = 0) ↔ OnPolynomial knots x order p (q + order)) := by
  intro q hpq
  induction q, hpq using Nat.le_induction with
  | base =>
    intro hn
    rw [← C112_zero_entry knots hk order x p hn]
    constructor
    · intro h; exact h p le_rfl le_rfl
    · intro h i h1 h2
      rw [show i = p by omega]; exact h
  | succ q hq ih =>
    intro hn
    constructor
    · intro h
      obtain ⟨P, hP, hx⟩ := (ih (by omega)).1 fun i h1 h2 => h i h1 (by omega)
      obtain ⟨Q, hQ, hy⟩ := (C112_zero_entry knots hk order x (q + 1) hn).1 (h (q + 1) (by omega) le_rfl)
      have e : P = Q := by
        refine same_poly knots hk (lo := q + 1) (k := order) (by omega) hP hQ fun l h1 h2 => ?_
        rw [← hx l (by omega) (by omega), ← hy l h1 (by omega)]
      refine ⟨P, hP, fun l h1 h2 => ?_⟩
      rcases Nat.lt_or_ge (q + order) l.val with h3 | h3
      · rw [e]; exact hy l (by omega) h2
      · exact hx l h1 h3
    · rintro ⟨P, hP, hx⟩ i h1 h2
      refine (C112_zero_entry knots hk order x i (by omega)).2 ⟨P, hP, fun l h3 h4 => hx l (by omega) (by omega)⟩

/-- **C112** The trend filter of order `k` is zero everywhere exactly when all the values lie on one polynomial of degree below `k`:
these are the coefficients an l1 penalty on the trend filter leaves unpenalised. -/
theorem C112_null_space {n : ℕ} (knots : Fin n → K) (hk : Function.Injective knots) (order : ℕ) (x : ℕ → K) :
    (∀ i, i + order < n → trendFilterLin knots order x i = 0) ↔ OnPolynomial knots x order 0 n := by
  rcases Nat.lt_or_ge order n with h | h
  · have key := C112_zero_run knots hk order x 0 (n - 1 - order) (Nat.zero_le _) (by omega)
    constructor
    · intro hz
      obtain ⟨P, hP, hx⟩ := key.1 fun i _ h2 => hz i (by omega)
      exact ⟨P, hP, fun l _ _ => hx l (Nat.zero_le _) (by have := l.2; omega)⟩
    · rintro ⟨P, hP, hx⟩ i hi
      exact key.2 ⟨P, hP, fun l h1 h2 => hx l h1 l.2.le⟩ i (Nat.zero_le _) (by omega)
  · constructor
    · intro _
      obtain ⟨P, hP, hx⟩ := interp knots hk x (lo := 0) (k := n) (by omega)
      exact ⟨P, lt_of_lt_of_le hP (by exact_mod_cast h), fun l h1 _ => hx l h1 (by have := l.2; omega)⟩
    · intro _ i hi; omega

/-- **C112** `trend_filter_inverse` undoes the first order trend filter up to the mean: for strictly increasing knots
`inverse(trend_filter(x)) = x - mean(x)`. -/
theorem C112_left_inverse {n : ℕ} (knots : Fin n → K) (hk : StrictMono knots) (x : ℕ → K) (i : ℕ) (hi : i < n) :
    inverseLin knots (trendFilterLin knots 1 x) i = x i - (∑ l ∈ Finset.range n, x l) / n := by
  have hs : Slope.npSort knots = knots := by
    have := Lemmas.npSort_eq (σ := 1) (f := knots) (by simpa using hk.monotone)
    simpa using this
  have hc : ∀ i < n, cumSteps knots (trendFilterLin knots 1 x) i = x i - x 0 := by
    intro i hi
    induction i with
    | zero => simp [cumSteps]
    | succ i ih =>
      have h1 := cumSteps_succ knots (trendFilterLin knots 1 x) i
      rw [tf_one knots x i hi] at h1
      have hne : arr knots (i + 1) - arr knots i ≠ 0 := by
        rw [arr_lt knots hi, arr_lt knots (by omega : i < n)]
        exact sub_ne_zero.2 (hk (by simp [Fin.lt_def])).ne'
      have h2 : steps knots i = arr knots (i + 1) - arr knots i := by unfold steps; rw [hs]
      rw [h2, invStep, if_pos hne] at h1
      have h3 : 1 / (arr knots (i + 1) - arr knots i) * (x (i + 1) - x i) * (arr knots (i + 1) - arr knots i) = x (i + 1) - x i := by
        field_simp
      rw [h3] at h1
      have := ih (by omega)
      linear_combination h1 + this
  have hn0 : (n:K) ≠ 0 := by exact_mod_cast (by omega : n ≠ 0)
  unfold inverseLin
  rw [hc i hi, Finset.sum_congr rfl fun l hl => hc l (Finset.mem_range.1 hl), Finset.sum_sub_distrib, Finset.sum_const,
    Finset.card_range, nsmul_eq_mul]
  field_simp
  ring

private lemma tf_shift {n : ℕ} (knots : Fin n → K) (hk : StrictMono knots) (c : K) (θ : ℕ → K) (i : ℕ) (hi : i + 1 < n) :
    trendFilterLin knots 1 (arr (fromJumps knots c θ)) i = θ i := by
  rw [← (C44_right_inverse_partial knots θ).1 hk.monotone i hi (by
    rw [arr_lt knots hi, arr_lt knots (by omega : i < n)]
    exact (hk (by simp [Fin.lt_def])).ne'), tf_one _ _ _ hi, tf_one _ _ _ hi, arr_lt (fromJumps knots c θ) hi,
    arr_lt (fromJumps knots c θ) (by omega : i < n)]
  show invStep _ * (c + inverseLin knots θ (i + 1) - (c + inverseLin knots θ i)) = _
  rw [add_sub_add_left_eq_sub]

/-- **C112** The fused lasso is a lasso in the jumps: for strictly increasing knots, any loss and any `lam`, the objective of
coefficients built by `trend_filter_inverse` from a constant `c` and jumps is the l1 penalised objective of the jumps; every `β` is
built in this way from its mean and its trend filter; so `(c, jumps)` minimises the lasso objective exactly when the coefficients
it stands for minimise the fused lasso objective. -/
theorem C112_fused_lasso {n : ℕ} (knots : Fin n → K) (hk : StrictMono knots) (loss : (Fin n → K) → K) (lam : K) :
    (∀ c θ, fusedObjective knots loss lam (fromJumps knots c θ) = jumpObjective knots loss lam c θ) ∧
    (∀ β, fromJumps knots ((∑ l, β l) / n) (trendFilterLin knots 1 (arr β)) = β) ∧
    (∀ c θ, (∀ c' θ', jumpObjective knots loss lam c θ ≤ jumpObjective knots loss lam c' θ') ↔
      ∀ β, fusedObjective knots loss lam (fromJumps knots c θ) ≤ fusedObjective knots loss lam β) := by
  have h1 : ∀ c θ, fusedObjective knots loss lam (fromJumps knots c θ) = jumpObjective knots loss lam c θ := by
    intro c θ
    unfold fusedObjective jumpObjective
    congr 2
    exact Finset.sum_congr rfl fun i hi => by
      rw [tf_shift knots hk c θ i (by have := Finset.mem_range.1 hi; omega)]
  have h2 : ∀ β : Fin n → K, fromJumps knots ((∑ l, β l) / n) (trendFilterLin knots 1 (arr β)) = β := by
    intro β
    funext i
    unfold fromJumps
    rw [C112_left_inverse knots hk (arr β) i i.2, Finset.sum_range]
    have e : ∀ l : Fin n, arr β l = β l := fun l => arr_lt β l.2
    simp only [e]
    ring
  refine ⟨h1, h2, fun c θ => ⟨fun h β => ?_, fun h c' θ' => ?_⟩⟩
  · rw [h1, ← h2 β, h1]; exact h _ _
  · rw [← h1, ← h1]; exact h _

/-- **C112** Repeated knots are different: with two equal knots the penalty does not see the jump between them and
`trend_filter_inverse` cannot produce it, so the two problems are not the same. -/
theorem C112_repeated_knots : ∃ (knots : Fin 2 → ℚ) (β : Fin 2 → ℚ), Monotone knots ∧
    trendFilterLin knots 1 (arr β) 0 = 0 ∧ ∀ c θ, fromJumps knots c θ ≠ β := by
  refine ⟨![0, 0], ![0, 1], fun a b _ => by fin_cases a <;> fin_cases b <;> simp, ?_, fun c θ h => ?_⟩
  · rw [tf_one _ _ 0 (by norm_num)]
    simp [arr, invStep]
  · have hs : Slope.npSort (![0, 0] : Fin 2 → ℚ) = ![0, 0] := by
      have := Lemmas.npSort_eq (σ := 1) (f := (![0, 0] : Fin 2 → ℚ)) (by
        intro a b _; fin_cases a <;> fin_cases b <;> simp)
      simpa using this
    have h0 := congrFun h 0
    have h1 := congrFun h 1
    have e : cumSteps (![0, 0] : Fin 2 → ℚ) θ 1 = 0 := by
      simp [cumSteps, steps, hs, arr]
    have e0 : cumSteps (![0, 0] : Fin 2 → ℚ) θ 0 = 0 := by simp [cumSteps]
    simp only [fromJumps, inverseLin, Finset.sum_range_succ, Finset.sum_range_zero, e, e0] at h0 h1
    norm_num [e, e0] at h0 h1
    linarith

/-- four distinct knots, and a quadratic sequence: the second order entries are not zero, the third order entry is -/
example : ∃ (knots : Fin 4 → ℚ) (x : ℕ → ℚ), StrictMono knots ∧ OnPolynomial knots x 3 0 3 ∧ ¬ OnPolynomial knots x 2 0 2 := by
  have hk : StrictMono (![0, 1, 2, 4] : Fin 4 → ℚ) := by
    rw [Fin.strictMono_iff_lt_succ]
    intro i
    fin_cases i
    · show (0:ℚ) < 1; norm_num
    · show (1:ℚ) < 2; norm_num
    · show (2:ℚ) < 4; norm_num
  refine ⟨![0, 1, 2, 4], fun l => arr (![0, 1, 2, 4] : Fin 4 → ℚ) l ^ 2, hk,
    ⟨X ^ 2, by rw [Polynomial.degree_X_pow]; exact_mod_cast (by norm_num : 2 < 3), fun l _ _ => by simp [arr]⟩, fun h => ?_⟩
  rw [← C112_zero_entry (![0, 1, 2, 4] : Fin 4 → ℚ) hk.injective 2 _ 0 (by norm_num)] at h
  rw [tf_poly (![0, 1, 2, 4] : Fin 4 → ℚ) hk.injective _ (by norm_num) (X ^ 2) (by
    rw [Polynomial.degree_X_pow]; exact_mod_cast (by norm_num : 2 < 3)) (fun l _ _ => by simp [arr])] at h
  simp at h

end Verif.Props
