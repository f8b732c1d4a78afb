import Verif.Lemmas.Multi
import Mathlib.Tactic.FinCases
import Mathlib.Analysis.Calculus.Deriv.Prod

/-!
# The losses of regreg/smooth/mglm.py: C28 (gradient), C29 (convexity), C31 (side effects), C32 (copy, subsample)
-/

set_option linter.unusedSectionVars false
set_option linter.unusedVariables false

namespace Verif.Props
open Verif.Model Verif.Spec Verif.Lemmas

variable {n q p : ℕ}

/-- the negative log likelihood of row `i` of the counts -/
noncomputable def countsNll {n q : ℕ} (d : MultiData n q) (i : Fin n) : (Fin q → ℝ) → ℝ :=
  match d with
  | .full c => multinomialNll (c i)
  | .baseline c => baselineNll (c i)

lemma rowNll_eq (d : MultiData n q) : rowNll d = countsNll d := by
  funext i; cases d <;> rfl

/-- entries of an optional matrix, zero if there is none -/
def matOr {m q : ℕ} (o : Option (Fin m → Fin q → ℝ)) (i : Fin m) (j : Fin q) : ℝ := o.elim 0 fun o => o i j

lemma mat_off_eq {m : ℕ} (o : Option (Fin m → Fin q → ℝ)) (x : Fin m → Fin q → ℝ) :
    MultiLoss.applyOffset o x = fun i j => x i j - matOr o i j := by
  funext i j; cases o <;> simp [MultiLoss.applyOffset, matOr]

/-- optional weights, one if there are none -/
def wtOr {n : ℕ} (w : Option (Fin n → ℝ)) (i : Fin n) : ℝ := w.elim 1 fun w => w i

private noncomputable def mF (L : MultiLoss n q) (arg : Option (Fin n → ℝ)) (x : Fin n → Fin q → ℝ) : ℝ :=
  L.value (fun i j => MultiLoss.clip (MultiLoss.applyOffset L.offset x i j)) (wtOr arg)

private noncomputable def mG (L : MultiLoss n q) (arg : Option (Fin n → ℝ)) (x : Fin n → Fin q → ℝ) : Fin n → Fin q → ℝ :=
  L.gradient (fun i j => MultiLoss.clip (MultiLoss.applyOffset L.offset x i j)) (wtOr arg)

private lemma m_eval (L : MultiLoss n q) (arg : Option (Fin n → ℝ)) (x : Fin n → Fin q → ℝ) :
    EvaluatesAt2 (L.smoothObjective arg) x (mF L arg x) (mG L arg x) := by
  have e : (arg.getD fun _ => 1 : Fin n → ℝ) = wtOr arg := by
    cases arg <;> rfl
  refine ⟨?_, ⟨false, ?_⟩, ⟨false, ?_⟩⟩ <;> simp only [MultiLoss.smoothObjective, mF, mG] <;> rw [e]

private lemma mF_box (hq : 0 < q) (L : MultiLoss n q) (arg : Option (Fin n → ℝ)) {x : Fin n → Fin q → ℝ}
    (hx : ∀ i j, |x i j - matOr L.offset i j| ≤ 50) :
    mF L arg x = L.coef * ∑ i, wtOr arg i * countsNll L.data i fun j => x i j - matOr L.offset i j := by
  unfold mF
  have : (fun i j => MultiLoss.clip (MultiLoss.applyOffset L.offset x i j)) = fun i j => x i j - matOr L.offset i j := by
    funext i j; rw [mat_off_eq, clip_id (hx i j)]
  rw [this, value_eq hq, rowNll_eq]

private lemma box_open (o : Fin n → Fin q → ℝ) {x : Fin n → Fin q → ℝ} (hx : ∀ i j, |x i j - o i j| < 50) :
    ∀ᶠ y in nhds x, ∀ i j, |y i j - o i j| ≤ 50 := by
  rw [Filter.eventually_all]
  intro i
  rw [Filter.eventually_all]
  intro j
  have hc : Continuous fun y : Fin n → Fin q → ℝ => |y i j - o i j| := by fun_prop
  filter_upwards [hc.continuousAt.eventually_lt continuousAt_const (hx i j)] with y hy using hy.le

private lemma m_grad (hq : 0 < q) (L : MultiLoss n q) (arg : Option (Fin n → ℝ)) {x : Fin n → Fin q → ℝ}
    (hx : ∀ i j, |x i j - matOr L.offset i j| < 50) : IsGradientAt2 (mF L arg) (mG L arg x) x := by
  have h := grad2_rows L.coef (wtOr arg) (matOr L.offset) (rowNll L.data)
    (fun i => rowGrad L.data i fun j => x i j - matOr L.offset i j) x fun i => grad_row hq L.data i _
  have hG : mG L arg x = fun i j => L.coef * (wtOr arg i * rowGrad L.data i (fun j => x i j - matOr L.offset i j) j) := by
    unfold mG
    have : (fun i j => MultiLoss.clip (MultiLoss.applyOffset L.offset x i j)) = fun i j => x i j - matOr L.offset i j := by
      funext i j; rw [mat_off_eq, clip_id (hx i j).le]
    rw [this, gradient_eq]
  rw [hG]
  refine grad2_congr h ?_
  filter_upwards [box_open (matOr L.offset) hx] with y hy
  rw [mF_box hq L arg hy, rowNll_eq]

/-- **C28** multinomial and baseline multinomial losses: where no linear predictor exceeds 50 in absolute value the value
returned is `coef` times the weighted negative log likelihood of the counts at `x - offset`, and the gradient returned
is the gradient of the value.  Missing: beyond 50 the code clips the predictors (`C28_multinomial_fails`). -/
theorem C28_multinomial_partial (hq : 0 < q) (L : MultiLoss n q) (arg : Option (Fin n → ℝ)) :
    ∃ (F : (Fin n → Fin q → ℝ) → ℝ) (G : (Fin n → Fin q → ℝ) → Fin n → Fin q → ℝ), (∀ x, EvaluatesAt2 (L.smoothObjective arg) x (F x) (G x)) ∧
      (∀ x, (∀ i j, |x i j - matOr L.offset i j| ≤ 50) →
        F x = L.coef * ∑ i, wtOr arg i * countsNll L.data i fun j => x i j - matOr L.offset i j) ∧
      ∀ x, (∀ i j, |x i j - matOr L.offset i j| < 50) → IsGradientAt2 F (G x) x :=
  ⟨_, _, m_eval L arg, fun x hx => mF_box hq L arg hx, fun x hx => m_grad hq L arg hx⟩

/-- the hypotheses are met by an ordinary loss and point -/
example : ∃ L : MultiLoss 2 3, MultiLoss.init ⟨fun _ _ => 1, 0⟩ (.full fun i j => if j = 0 then 1 else 2) 1 none none = some L ∧
    ∀ i j, |(fun (i : Fin 2) (j : Fin 3) => (i + j : ℝ)) i j - matOr L.offset i j| < 50 := by
  have h : ¬ MultiLoss.dataError (MultiData.full fun (i : Fin 2) (j : Fin 3) => if j = 0 then (1:ℝ) else 2) := by
    rintro ⟨i, j, h⟩; dsimp only at h; split_ifs at h <;> norm_num at h
  refine ⟨⟨_, 1, none, none⟩, by
    unfold MultiLoss.init; rw [if_neg (by norm_num), if_neg h, if_neg (by simp)], ?_⟩
  intro i j
  fin_cases i <;> fin_cases j <;> norm_num [matOr]

private noncomputable def wit : MultiLoss 1 2 := ⟨.full fun _ j => if j = 0 then 1 else 0, 1, none, none⟩

private lemma wit_init : MultiLoss.init ⟨fun _ _ => 1, 0⟩ (.full fun _ j => if j = 0 then 1 else 0) 1 none none = some wit := by
  have h : ¬ MultiLoss.dataError (MultiData.full fun (_ : Fin 1) (j : Fin 2) => if j = 0 then (1:ℝ) else 0) := by
    rintro ⟨i, j, h⟩; dsimp only at h; split_ifs at h <;> norm_num at h
  unfold MultiLoss.init
  rw [if_neg (by norm_num), if_neg h, if_neg (by simp)]; rfl

private lemma wit_F (x : Fin 1 → Fin 2 → ℝ) : mF wit none x =
    Real.log (Real.exp (MultiLoss.clip (x 0 0)) + Real.exp (MultiLoss.clip (x 0 1))) - MultiLoss.clip (x 0 0) := by
  unfold mF
  rw [value_eq (by norm_num)]
  simp [wit, wtOr, rowNll, nll_eq, MultiLoss.applyOffset]

private lemma ev_unique {ev : (Fin n → Fin q → ℝ) → Mode → Eval2 n q} {x f f' g g'} (h : EvaluatesAt2 ev x f g)
    (h' : EvaluatesAt2 ev x f' g') : f' = f ∧ g' = g := by
  obtain ⟨h1, ⟨b, h2⟩, _⟩ := h
  obtain ⟨h1', ⟨b', h2'⟩, _⟩ := h'
  rw [h1] at h1'; rw [h2] at h2'
  injection h1' with h1'
  injection h2' with h2'
  exact ⟨h1'.symm, h2'.symm⟩

/-- **C28** fails for the multinomial loss where a predictor exceeds 50: the value is constant in it, the gradient
returned is not zero. -/
theorem C28_multinomial_fails : ∃ (L : MultiLoss 1 2) (x : Fin 1 → Fin 2 → ℝ),
    MultiLoss.init ⟨fun _ _ => 1, 0⟩ (.full fun _ j => if j = 0 then 1 else 0) 1 none none = some L ∧
    ¬ ∃ (F : (Fin 1 → Fin 2 → ℝ) → ℝ) (G : (Fin 1 → Fin 2 → ℝ) → Fin 1 → Fin 2 → ℝ), (∀ x, EvaluatesAt2 (L.smoothObjective none) x (F x) (G x)) ∧ IsGradientAt2 F (G x) x := by
  refine ⟨wit, fun _ j => if j = 0 then 60 else 0, wit_init, ?_⟩
  rintro ⟨F, G, hE, hg⟩
  have hF : F = mF wit none := funext fun x => (ev_unique (m_eval wit none x) (hE x)).1
  have hG := (ev_unique (m_eval wit none fun _ j => if j = 0 then 60 else 0) (hE _)).2
  rw [hF, hG] at hg
  -- along the first coordinate the value is constant near 60
  have hline : HasDerivAt (fun t : ℝ => mF wit none fun (_ : Fin 1) (j : Fin 2) => if j = 0 then t else 0)
      (mG wit none (fun _ j => if j = 0 then 60 else 0) 0 0) 60 := by
    have hl : HasDerivAt (fun t : ℝ => fun (_ : Fin 1) (j : Fin 2) => if j = 0 then t else (0:ℝ))
        (fun _ j => if j = 0 then 1 else 0) 60 := by
      rw [hasDerivAt_pi]; intro i
      rw [hasDerivAt_pi]; intro j
      by_cases hj : j = 0
      · simp only [if_pos hj]; exact hasDerivAt_id _
      · simp only [if_neg hj]; exact hasDerivAt_const _ _
    have hg' : HasFDerivAt (mF wit none) _ ((fun t : ℝ => fun (_ : Fin 1) (j : Fin 2) => if j = 0 then t else (0:ℝ)) 60) := hg
    have := HasFDerivAt.comp_hasDerivAt (60:ℝ) hg' hl
    refine this.congr_deriv ?_
    simp [Fin.sum_univ_two]
  have hconst : HasDerivAt (fun t : ℝ => mF wit none fun (_ : Fin 1) (j : Fin 2) => if j = 0 then t else 0) 0 60 := by
    refine (hasDerivAt_const (60:ℝ) (Real.log (Real.exp 50 + Real.exp 0) - 50)).congr_of_eventuallyEq ?_
    filter_upwards [lt_mem_nhds (show (50:ℝ) < 60 by norm_num)] with t ht
    rw [wit_F]
    have h1 : MultiLoss.clip t = 50 := by
      unfold MultiLoss.clip; rw [max_eq_left (by linarith), min_eq_right ht.le]
    have h2 : MultiLoss.clip 0 = 0 := clip_id (by norm_num)
    simp [h1, h2]
  have h0 := hline.unique hconst
  unfold mG at h0
  rw [gradient_eq] at h0
  have h1 : MultiLoss.clip 60 = 50 := by
    unfold MultiLoss.clip; norm_num
  have h2 : MultiLoss.clip 0 = 0 := clip_id (by norm_num)
  simp [wit, wtOr, rowGrad, MultiLoss.applyOffset, MultiLoss.trials, MultiLoss.denom, MultiLoss.first, h1, h2] at h0
  have hp := Real.exp_pos 50
  field_simp at h0
  linarith

/-- **C29** the multinomial losses are convex on the set of predictors that are not clipped, for nonnegative `coef` and
weights.  Missing: beyond it (`C29_multinomial_fails`). -/
theorem C29_multinomial_partial (hq : 0 < q) (h : WHeap n) (d : MultiData n q) (coef : ℝ) (o : Option (Fin n → Fin q → ℝ))
    (r : Option ℕ) (L : MultiLoss n q) (hL : MultiLoss.init h d coef o r = some L) (arg : Option (Fin n → ℝ))
    (ha : ∀ i, 0 ≤ wtOr arg i) :
    ∃ (F : (Fin n → Fin q → ℝ) → ℝ) (G : (Fin n → Fin q → ℝ) → Fin n → Fin q → ℝ), (∀ x, EvaluatesAt2 (L.smoothObjective arg) x (F x) (G x)) ∧
      ∀ x y : Fin n → Fin q → ℝ, (∀ i j, |x i j - matOr L.offset i j| ≤ 50) → (∀ i j, |y i j - matOr L.offset i j| ≤ 50) →
        ∀ a b : ℝ, 0 ≤ a → 0 ≤ b → a + b = 1 → F (fun i j => a * x i j + b * y i j) ≤ a * F x + b * F y := by
  have hco : 0 ≤ L.coef ∧ ¬ MultiLoss.dataError L.data := by
    unfold MultiLoss.init at hL
    by_cases h1 : coef < 0
    · rw [if_pos h1] at hL; cases hL
    rw [if_neg h1] at hL
    by_cases h2 : MultiLoss.dataError d
    · rw [if_pos h2] at hL; cases hL
    rw [if_neg h2] at hL
    split_ifs at hL
    injection hL with hL
    subst hL
    exact ⟨not_lt.mp h1, h2⟩
  have hconv : ∀ i, IsConvex (countsNll L.data i) := by
    intro i
    have hd := hco.2
    cases hdd : L.data with
    | full c =>
      rw [hdd] at hd
      exact convex_multinomial hq fun j => not_lt.mp fun hj => hd ⟨i, j, hj⟩
    | baseline c =>
      rw [hdd] at hd
      exact convex_baseline fun j => not_lt.mp fun hj => hd (Or.inr ⟨i, j, hj⟩)
  refine ⟨_, _, m_eval L arg, fun x y hx hy a b ha' hb' hab => ?_⟩
  have hz : (fun (i : Fin n) (j : Fin q) => a * x i j + b * y i j - matOr L.offset i j) =
      fun i j => a * (x i j - matOr L.offset i j) + b * (y i j - matOr L.offset i j) := by
    funext i j
    have : b = 1 - a := by linarith
    subst this; ring
  have hzb : ∀ i j, |(fun i j => a * x i j + b * y i j) i j - matOr L.offset i j| ≤ 50 := by
    intro i j
    show |a * x i j + b * y i j - matOr L.offset i j| ≤ 50
    rw [show a * x i j + b * y i j - matOr L.offset i j = _ from congrFun (congrFun hz i) j]
    calc |a * (x i j - matOr L.offset i j) + b * (y i j - matOr L.offset i j)|
        ≤ |a * (x i j - matOr L.offset i j)| + |b * (y i j - matOr L.offset i j)| := abs_add_le _ _
      _ = a * |x i j - matOr L.offset i j| + b * |y i j - matOr L.offset i j| := by
          rw [abs_mul, abs_mul, abs_of_nonneg ha', abs_of_nonneg hb']
      _ ≤ a * 50 + b * 50 := add_le_add (mul_le_mul_of_nonneg_left (hx i j) ha') (mul_le_mul_of_nonneg_left (hy i j) hb')
      _ = 50 := by rw [← add_mul, hab, one_mul]
  rw [mF_box hq L arg hzb, mF_box hq L arg hx, mF_box hq L arg hy, mul_left_comm a, mul_left_comm b, ← mul_add]
  refine mul_le_mul_of_nonneg_left ?_ hco.1
  rw [Finset.mul_sum, Finset.mul_sum, ← Finset.sum_add_distrib]
  refine Finset.sum_le_sum fun i _ => ?_
  rw [mul_left_comm a, mul_left_comm b, ← mul_add]
  refine mul_le_mul_of_nonneg_left ?_ (ha i)
  have := hconv i (fun j => x i j - matOr L.offset i j) (fun j => y i j - matOr L.offset i j) a b ha' hb' hab
  rw [show (fun j => a * x i j + b * y i j - matOr L.offset i j) = _ from congrFun hz i]
  exact this

/-- **C29** fails for the multinomial loss over all arguments: clipping at -50 makes it concave there. -/
theorem C29_multinomial_fails : ∃ (L : MultiLoss 1 2),
    MultiLoss.init ⟨fun _ _ => 1, 0⟩ (.full fun _ j => if j = 0 then 1 else 0) 1 none none = some L ∧
    ¬ ∃ (F : (Fin 1 → Fin 2 → ℝ) → ℝ) (G : (Fin 1 → Fin 2 → ℝ) → Fin 1 → Fin 2 → ℝ), (∀ x, EvaluatesAt2 (L.smoothObjective none) x (F x) (G x)) ∧
      ∀ x y : Fin 1 → Fin 2 → ℝ, ∀ a b : ℝ, 0 ≤ a → 0 ≤ b → a + b = 1 →
        F (fun i j => a * x i j + b * y i j) ≤ a * F x + b * F y := by
  refine ⟨wit, wit_init, ?_⟩
  rintro ⟨F, G, hE, hc⟩
  have hF : F = mF wit none := funext fun x => (ev_unique (m_eval wit none x) (hE x)).1
  have h := hc (fun _ j => if j = 0 then -150 else 0) (fun _ j => if j = 0 then 50 else 0) (1/2) (1/2) (by norm_num) (by norm_num)
    (by norm_num)
  rw [hF, wit_F, wit_F, wit_F] at h
  have h1 : MultiLoss.clip (-50) = -50 := clip_id (by norm_num)
  have h2 : MultiLoss.clip 0 = 0 := clip_id (by norm_num)
  have h3 : MultiLoss.clip 50 = 50 := clip_id (by norm_num)
  have h4 : MultiLoss.clip (-150) = -50 := by unfold MultiLoss.clip; norm_num
  have h5 : (2:ℝ)⁻¹ * -150 + 2⁻¹ * 50 = -50 := by norm_num
  norm_num at h
  rw [h1, h2, h3, h4, Real.exp_zero] at h
  have hA : 0 < Real.log (Real.exp (-50) + 1) := Real.log_pos (by have := Real.exp_pos (-50); linarith)
  have hB : Real.log (Real.exp 50 + 1) ≤ 51 := by
    rw [← Real.log_exp 51]
    refine Real.log_le_log (by positivity) ?_
    have h6 : Real.exp 51 = Real.exp 50 * Real.exp 1 := by rw [← Real.exp_add]; norm_num
    rw [h6]
    have h7 : (2:ℝ) ≤ Real.exp 1 := by have := Real.add_one_le_exp (1:ℝ); linarith
    have h8 : (1:ℝ) ≤ Real.exp 50 := Real.one_le_exp (by norm_num)
    nlinarith
  linarith

/-! ## mglm -/

private noncomputable def gF (G : Mglm p n q) (B : Fin p → Fin q → ℝ) : ℝ :=
  mF G.loss (some G.caseWeights) (Mglm.dot G.X (MultiLoss.applyOffset G.offset B))

private lemma g_eval (G : Mglm p n q) (B : Fin p → Fin q → ℝ) : EvaluatesAt2 G.smoothObjective B (gF G B)
    (Mglm.dotT G.X (mG G.loss (some G.caseWeights) (Mglm.dot G.X (MultiLoss.applyOffset G.offset B)))) := by
  obtain ⟨h1, ⟨b, h2⟩, ⟨b', h3⟩⟩ := m_eval G.loss (some G.caseWeights) (Mglm.dot G.X (MultiLoss.applyOffset G.offset B))
  refine ⟨?_, ⟨false, ?_⟩, ⟨false, ?_⟩⟩
  · simp only [Mglm.smoothObjective, h1]; rfl
  · simp only [Mglm.smoothObjective, h2]
  · simp only [Mglm.smoothObjective, h3]; rfl

/-- the linear predictors of the model: row `i` of `X (B - offset)` minus the saturated offset -/
noncomputable def predictor {p n q : ℕ} (G : Mglm p n q) (B : Fin p → Fin q → ℝ) (i : Fin n) (j : Fin q) : ℝ :=
  ∑ k, G.X i k * (B k j - matOr G.offset k j) - matOr G.loss.offset i j

private lemma dot_eq (G : Mglm p n q) (B : Fin p → Fin q → ℝ) (i : Fin n) (j : Fin q) :
    Mglm.dot G.X (MultiLoss.applyOffset G.offset B) i j - matOr G.loss.offset i j = predictor G B i j := by
  rw [mat_off_eq]; rfl

/-- **C28** for `mglm` with a multinomial loss: where no predictor is clipped the value is the weighted negative log
likelihood of the predictors and the gradient returned is the gradient of the value in the coefficient matrix. -/
theorem C28_mglm_partial (hq : 0 < q) (G : Mglm p n q) :
    ∃ (F : (Fin p → Fin q → ℝ) → ℝ) (D : (Fin p → Fin q → ℝ) → Fin p → Fin q → ℝ), (∀ B, EvaluatesAt2 G.smoothObjective B (F B) (D B)) ∧
      (∀ B, (∀ i j, |predictor G B i j| ≤ 50) →
        F B = G.loss.coef * ∑ i, G.caseWeights i * countsNll G.loss.data i (predictor G B i)) ∧
      ∀ B, (∀ i j, |predictor G B i j| < 50) → IsGradientAt2 F (D B) B := by
  refine ⟨_, _, g_eval G, fun B hB => ?_, fun B hB => ?_⟩
  · unfold gF
    rw [mF_box hq G.loss _ (fun i j => by rw [dot_eq]; exact hB i j)]
    simp only [dot_eq]
    rfl
  · exact grad2_comp_dot G.X G.offset B (m_grad hq G.loss _ fun i j => by rw [dot_eq]; exact hB i j)

/-- **C32** for `mglm`: a copy evaluates alike everywhere. -/
theorem C32_mglm_copy (G : Mglm p n q) (B : Fin p → Fin q → ℝ) (m : Mode) :
    G.copy.smoothObjective B m = G.smoothObjective B m := rfl

/-- **C32** for `mglm`: `subsample(idx)` is the likelihood of the cases in `idx` with the same coefficients and data
(where no predictor is clipped). -/
theorem C32_mglm_subsample_partial (hq : 0 < q) (G : Mglm p n q) (idx : Finset (Fin n)) :
    ∃ (F : (Fin p → Fin q → ℝ) → ℝ) (D : (Fin p → Fin q → ℝ) → Fin p → Fin q → ℝ), (∀ B, EvaluatesAt2 (G.subsample idx).smoothObjective B (F B) (D B)) ∧
      ∀ B, (∀ i j, |predictor G B i j| ≤ 50) →
        F B = G.loss.coef * ∑ i ∈ idx, G.caseWeights i * countsNll G.loss.data i (predictor G B i) := by
  obtain ⟨F, D, h1, h2, _⟩ := C28_mglm_partial hq (G.subsample idx)
  refine ⟨F, D, h1, fun B hB => ?_⟩
  rw [h2 B hB]
  congr 1
  rw [← Finset.sum_subset (Finset.subset_univ idx) fun i _ hi => by
    simp [Mglm.subsample, hi]]
  refine Finset.sum_congr rfl fun i hi => ?_
  simp only [Mglm.subsample, Mglm.copy, Mglm.init, if_pos hi, mul_one]
  rfl

/-- **C32** fails for the multinomial losses themselves: `subsample(idx)` evaluates exactly like the original whatever
`idx` is (the weights it sets are never consulted). -/
theorem C32_multinomial_subsample_fails (L : MultiLoss n q) (h : WHeap n) (idx : Finset (Fin n))
    (arg : Option (Fin n → ℝ)) (x : Fin n → Fin q → ℝ) (m : Mode) :
    (L.subsample h idx).1.smoothObjective arg x m = L.smoothObjective arg x m := by
  unfold MultiLoss.subsample
  cases hr : L.ref <;> rfl

/-- **C32** fails for the multinomial losses: with weights given, `subsample` writes into the original's own weight array
(`copy` is shallow), here setting the weight of case 0 of the *original* to zero. -/
theorem C32_multinomial_shared_fails : ∃ (h : WHeap 2) (L : MultiLoss 2 1),
    MultiLoss.init h (.full fun _ _ => 1) 1 none (some 0) = some L ∧ L.ref = some 0 ∧ h.cell 0 0 = 1 ∧
    (L.subsample h {1}).2.cell 0 0 = 0 := by
  have hd : ¬ MultiLoss.dataError (MultiData.full fun (_ : Fin 2) (_ : Fin 1) => (1:ℝ)) := by
    rintro ⟨i, j, h⟩; norm_num at h
  refine ⟨⟨fun _ _ => 1, 1⟩, ⟨.full fun _ _ => 1, 1, none, some 0⟩, ?_, rfl, rfl, ?_⟩
  · unfold MultiLoss.init
    rw [if_neg (by norm_num), if_neg hd, if_neg (by simp)]
  · simp [MultiLoss.subsample, MultiLoss.copy]

/-- **C32** the weight array the result of `subsample(idx)` refers to holds the previous weights (ones when there were none) on the
cases of `idx` and zeros elsewhere. -/
theorem C32_multinomial_subsample_weights (L : MultiLoss n q) (h : WHeap n) (idx : Finset (Fin n)) :
    ∃ r, (L.subsample h idx).1.ref = some r ∧
      ∀ i, (L.subsample h idx).2.cell r i = if i ∈ idx then (match L.ref with | some k => h.cell k i | none => 1) else 0 := by
  obtain ⟨d, c, o, ref⟩ := L
  cases ref with
  | none =>
    refine ⟨h.next, rfl, fun i => ?_⟩
    by_cases hi : i ∈ idx <;> simp [MultiLoss.subsample, MultiLoss.copy, LossObj.alloc, hi]
  | some r =>
    refine ⟨r, rfl, fun i => ?_⟩
    by_cases hi : i ∈ idx <;> simp [MultiLoss.subsample, MultiLoss.copy, hi]

/-! ## stacked losses -/

private lemma fold_func (S : Stacked n q) (x : Fin n → Fin q → ℝ) (W : Fin n → ℝ) (F : Fin q → (Fin n → ℝ) → ℝ)
    (hr : ∀ j, (S.losses j).smoothObjective (fun k => x k j) .func (some W) = (.val (F j fun k => x k j), some W))
    (l : List (Fin q)) (s : Stacked.Loop n q) (hs : s.cw = W) :
    l.foldl (S.column x .func) s = { s with value := s.value + (l.map fun j => F j fun k => x k j).sum } := by
  induction l generalizing s with
  | nil => simp
  | cons j l ih =>
    rw [List.foldl_cons]
    have hc : S.column x .func s j = { s with value := s.value + F j fun k => x k j } := by
      unfold Stacked.column
      rw [hs, hr j]
      simp [← hs]
    rw [hc]
    rw [ih]
    swap
    · exact hs
    simp [add_assoc]

private lemma fold_grad (S : Stacked n q) (x : Fin n → Fin q → ℝ) (W : Fin n → ℝ) (G : Fin q → (Fin n → ℝ) → Fin n → ℝ)
    (hr : ∀ j, (S.losses j).smoothObjective (fun k => x k j) .grad (some W) = (.grad (G j fun k => x k j), some W))
    (l : List (Fin q)) (s : Stacked.Loop n q) (hs : s.cw = W) :
    l.foldl (S.column x .grad) s = { s with buf := fun k j => if j ∈ l then G j (fun k => x k j) k else s.buf k j } := by
  induction l generalizing s with
  | nil => simp
  | cons i l ih =>
    rw [List.foldl_cons]
    have hc : S.column x .grad s i = { s with buf := fun k j => if j = i then G i (fun k => x k i) k else s.buf k j } := by
      unfold Stacked.column
      rw [hs, hr i]
      simp [← hs]
    rw [hc]
    rw [ih]
    swap
    · exact hs
    simp only [Stacked.Loop.mk.injEq, true_and]
    funext k j
    by_cases h1 : j ∈ l
    · simp [h1]
    · by_cases h2 : j = i
      · subst h2; simp
      · simp [h1, h2]

private lemma fold_both (S : Stacked n q) (x : Fin n → Fin q → ℝ) (W : Fin n → ℝ) (F : Fin q → (Fin n → ℝ) → ℝ)
    (G : Fin q → (Fin n → ℝ) → Fin n → ℝ)
    (hr : ∀ j, (S.losses j).smoothObjective (fun k => x k j) .both (some W) = (.both (F j fun k => x k j) (G j fun k => x k j), some W))
    (l : List (Fin q)) (s : Stacked.Loop n q) (hs : s.cw = W) :
    l.foldl (S.column x .both) s = { s with value := s.value + (l.map fun j => F j fun k => x k j).sum,
                                            buf := fun k j => if j ∈ l then G j (fun k => x k j) k else s.buf k j } := by
  induction l generalizing s with
  | nil => simp
  | cons i l ih =>
    rw [List.foldl_cons]
    have hc : S.column x .both s i = ⟨s.ok, s.cw, s.value + F i (fun k => x k i),
        fun k j => if j = i then G i (fun k => x k i) k else s.buf k j⟩ := by
      unfold Stacked.column
      rw [hs, hr i]
      simp [← hs]
    rw [hc]
    rw [ih]
    swap
    · exact hs
    simp only [Stacked.Loop.mk.injEq, true_and]
    constructor
    · simp [add_assoc]
    · funext k j
      by_cases h1 : j ∈ l
      · simp [h1]
      · by_cases h2 : j = i
        · subst h2; simp
        · simp [h1, h2]

private lemma after_none (L : Loss n) (h : L.caseWeights = none) (x : Fin n → ℝ) (m : Mode) (W : Fin n → ℝ) :
    (L.smoothObjective x m (some W)).2 = some W := by
  obtain ⟨d, c, o, qd, w⟩ := L
  simp only at h
  subst h
  cases d <;> cases m <;> rfl

lemma stacked_eq (S : Stacked n q) (hw : ∀ j, (S.losses j).caseWeights = none) (arg : Option (Fin n → ℝ))
    (F : Fin q → (Fin n → ℝ) → ℝ) (G : Fin q → (Fin n → ℝ) → Fin n → ℝ)
    (hE : ∀ j, Evaluates (fun x m => ((S.losses j).smoothObjective x m (some (effWeight S.caseWeights arg))).1) (F j) (G j))
    (x : Fin n → Fin q → ℝ) :
    S.smoothObjective arg x .func = (.val (S.coef * ∑ j, F j fun i => x i j - matOr S.offset i j), S,
      arg.map fun _ => effWeight S.caseWeights arg) ∧
    S.smoothObjective arg x .grad = (.grad (fun i j => S.coef * G j (fun i => x i j - matOr S.offset i j) i) (decide (S.coef = 1)),
      { S with buf := fun i j => G j (fun i => x i j - matOr S.offset i j) i }, arg.map fun _ => effWeight S.caseWeights arg) ∧
    S.smoothObjective arg x .both = (.both (S.coef * ∑ j, F j fun i => x i j - matOr S.offset i j)
        (fun i j => S.coef * G j (fun i => x i j - matOr S.offset i j) i) (decide (S.coef = 1)),
      { S with buf := fun i j => G j (fun i => x i j - matOr S.offset i j) i }, arg.map fun _ => effWeight S.caseWeights arg) := by
  have hcw : (S.caseWeights.elim (arg.getD fun _ => 1) fun w i => (arg.getD fun _ => 1) i * w i : Fin n → ℝ) =
      effWeight S.caseWeights arg := by
    funext i
    cases S.caseWeights <;> cases arg <;> simp [effWeight]
  set W := effWeight S.caseWeights arg with hWd
  set y : Fin n → Fin q → ℝ := fun i j => x i j - matOr S.offset i j with hy
  have r1 : ∀ j, (S.losses j).smoothObjective (fun k => y k j) .func (some W) = (.val (F j fun k => y k j), some W) := fun j =>
    Prod.ext (hE j _).1 (after_none _ (hw j) _ _ _)
  have r2 : ∀ j, (S.losses j).smoothObjective (fun k => y k j) .grad (some W) = (.grad (G j fun k => y k j), some W) := fun j =>
    Prod.ext (hE j _).2.1 (after_none _ (hw j) _ _ _)
  have r3 : ∀ j, (S.losses j).smoothObjective (fun k => y k j) .both (some W) = (.both (F j fun k => y k j) (G j fun k => y k j), some W) :=
    fun j => Prod.ext (hE j _).2.2 (after_none _ (hw j) _ _ _)
  refine ⟨?_, ?_, ?_⟩
  · simp only [Stacked.smoothObjective, mat_off_eq, ← hy]
    rw [hcw, fold_func S y W F r1 _ _ rfl]
    simp only [scaleR_eq, zero_add, if_true, ← Fin.sum_univ_def, List.mem_finRange]
    rfl
  · simp only [Stacked.smoothObjective, mat_off_eq, ← hy]
    rw [hcw, fold_grad S y W G r2 _ _ rfl]
    simp only [scaleR_eq, if_true, List.mem_finRange]
    rfl
  · simp only [Stacked.smoothObjective, mat_off_eq, ← hy]
    rw [hcw, fold_both S y W F G r3 _ _ rfl]
    simp only [scaleR_eq, zero_add, if_true, ← Fin.sum_univ_def, List.mem_finRange]
    rfl

/-- **C28** stacked losses whose columns have no weights of their own (what the classmethods build): the value is `coef`
times the sum over columns of the column losses, with the weights of the stack times those of the caller, and the
gradient returned is its gradient wherever the column losses' are.  Missing: columns with weights of their own
(`C28_stacked_fails`). -/
theorem C28_stacked_partial (S : Stacked n q) (hw : ∀ j, (S.losses j).caseWeights = none) (arg : Option (Fin n → ℝ))
    (F : Fin q → (Fin n → ℝ) → ℝ) (G : Fin q → (Fin n → ℝ) → Fin n → ℝ)
    (hE : ∀ j, Evaluates (fun x m => ((S.losses j).smoothObjective x m (some (effWeight S.caseWeights arg))).1) (F j) (G j)) :
    ∃ D : (Fin n → Fin q → ℝ) → Fin n → Fin q → ℝ, (∀ x, EvaluatesAt2 (fun x m => (S.smoothObjective arg x m).1) x
        (S.coef * ∑ j, F j fun i => x i j - matOr S.offset i j) (D x)) ∧
      ∀ x : Fin n → Fin q → ℝ, (∀ j, IsGradientAt (F j) (G j fun i => x i j - matOr S.offset i j) (fun i => x i j - matOr S.offset i j)) →
        IsGradientAt2 (fun x => S.coef * ∑ j, F j fun i => x i j - matOr S.offset i j) (D x) x := by
  refine ⟨fun x i j => S.coef * G j (fun i => x i j - matOr S.offset i j) i, fun x => ?_, fun x hg => ?_⟩
  · obtain ⟨h1, h2, h3⟩ := stacked_eq S hw arg F G hE x
    exact ⟨congrArg Prod.fst h1, ⟨_, congrArg Prod.fst h2⟩, ⟨_, congrArg Prod.fst h3⟩⟩
  · exact grad2_cols S.coef (matOr S.offset) F _ x hg

/-- two gaussian columns, an offset and case weights meet the hypotheses -/
example : ∃ (S : Stacked 2 2) (F : Fin 2 → (Fin 2 → ℝ) → ℝ) (G : Fin 2 → (Fin 2 → ℝ) → Fin 2 → ℝ),
    Stacked.init S.losses 3 (some fun _ _ => 1) (some ![1, 2]) = some S ∧
    (∀ j, (S.losses j).caseWeights = none) ∧
    (∀ j, Evaluates (fun x m => ((S.losses j).smoothObjective x m (some (effWeight S.caseWeights none))).1) (F j) (G j)) ∧
    ∀ j x, IsGradientAt (F j) (G j x) x := by
  have hF : ∀ j : Fin 2, ∃ (F : (Fin 2 → ℝ) → ℝ) (G : (Fin 2 → ℝ) → Fin 2 → ℝ),
      Evaluates (fun x m => ((⟨.gaussian fun i => (i + j : ℝ), 1, none, Quad.init none none none none, none⟩ :
        Loss 2).smoothObjective x m (some (effWeight (some ![1, 2]) none))).1) F G ∧ ∀ x, IsGradientAt F (G x) x := by
    intro j
    refine ⟨_, _, evaluates_loss _ _, fun x => grad_totalLoss _ _ _ _ _ x fun i => ?_⟩
    exact hasDerivAt_gaussian _ _
  choose F G h using hF
  refine ⟨⟨fun j => ⟨.gaussian fun i => (i + j : ℝ), 1, none, Quad.init none none none none, none⟩, 3, some fun _ _ => 1,
    some ![1, 2], fun _ _ => 0⟩, F, G, ?_, fun j => rfl, fun j => (h j).1, fun j => (h j).2⟩
  unfold Stacked.init
  rw [if_neg (by norm_num), if_neg]
  rintro ⟨w, h1, h2⟩
  injection h1 with h1
  subst h1
  apply h2
  intro i; fin_cases i <;> simp

private noncomputable def col : Loss 1 := ⟨.gaussian fun _ => 0, 1, none, Quad.init none none none none, some fun _ => 2⟩

/-- **C28** fails for columns with weights of their own: the columns share one weight array and multiply it in place, so
the second column is weighted by both columns' weights.  Two equal columns with weight 2 at `x = 1` give
`2·1/2 + 4·1/2`, not `2·1/2 + 2·1/2`. -/
theorem C28_stacked_fails : ∃ (S : Stacked 1 2) (L : Loss 1), S.losses = (fun _ => L) ∧ S.coef = 1 ∧ S.offset = none ∧
    S.caseWeights = none ∧ (L.smoothObjective (fun _ => 1) .func none).1 = .val 1 ∧
    (S.smoothObjective none (fun _ _ => 1) .func).1 = .val 3 := by
  refine ⟨⟨fun _ => col, 1, none, none, fun _ _ => 0⟩, col, rfl, rfl, rfl, rfl, ?_, ?_⟩
  · simp [col, Loss.smoothObjective, Loss.cw, Smooth.scaleR, Smooth.applyOffset]
  · simp [Stacked.smoothObjective, List.finRange_succ, Stacked.column, col, Loss.smoothObjective, Loss.cw, Loss.argAfter,
      Smooth.scaleR, Smooth.applyOffset, MultiLoss.applyOffset]
    norm_num

/-- **C31** a stacked loss leaves the caller's weights alone if neither it nor its columns carry weights, and its later
results do not depend on the evaluation. -/
theorem C31_stacked_partial (S : Stacked n q) (hS : S.caseWeights = none) (hw : ∀ j, (S.losses j).caseWeights = none)
    (arg arg' : Option (Fin n → ℝ)) (x y : Fin n → Fin q → ℝ) (m m' : Mode) :
    (S.smoothObjective arg x m).2.2 = arg ∧
    ((S.smoothObjective arg x m).2.1.smoothObjective arg' y m').1 = (S.smoothObjective arg' y m').1 := by
  have hF : ∀ (S : Stacked n q), (∀ j, (S.losses j).caseWeights = none) → ∀ arg, ∃ (F : Fin q → (Fin n → ℝ) → ℝ)
      (G : Fin q → (Fin n → ℝ) → Fin n → ℝ), ∀ j, Evaluates (fun x m => ((S.losses j).smoothObjective x m
        (some (effWeight S.caseWeights arg))).1) (F j) (G j) := fun S _ arg => ⟨_, _, fun j => evaluates_loss (S.losses j) _⟩
  have hout : effWeight (none : Option (Fin n → ℝ)) arg = arg.getD fun _ => 1 := by
    funext i; cases arg <;> simp [effWeight]
  have hbuf : ∃ b, (S.smoothObjective arg x m).2.1 = { S with buf := b } ∧ (S.smoothObjective arg x m).2.2 = arg := by
    obtain ⟨F, G, h⟩ := hF S hw arg
    obtain ⟨h1, h2, h3⟩ := stacked_eq S hw arg F G h x
    have e : (arg.map fun _ => arg.getD fun _ => 1) = arg := by cases arg <;> simp
    have e' : (arg.map fun _ => effWeight S.caseWeights arg) = arg := by rw [hS, hout, e]
    rw [e'] at h1 h2 h3
    cases m with
    | func => rw [h1]; exact ⟨S.buf, rfl, rfl⟩
    | grad => rw [h2]; exact ⟨_, rfl, rfl⟩
    | both => rw [h3]; exact ⟨_, rfl, rfl⟩
    | other =>
      refine ⟨S.buf, rfl, ?_⟩
      simp only [Stacked.smoothObjective, hS]
      exact e
  obtain ⟨b, hb, hc⟩ := hbuf
  refine ⟨hc, ?_⟩
  rw [hb]
  obtain ⟨F, G, h⟩ := hF S hw arg'
  obtain ⟨h1, h2, h3⟩ := stacked_eq S hw arg' F G h y
  obtain ⟨h1', h2', h3'⟩ := stacked_eq { S with buf := b } hw arg' F G h y
  cases m' with
  | func => rw [h1, h1']
  | grad => rw [h2, h2']
  | both => rw [h3, h3']
  | other => rfl

/-- **C31** fails for a stacked loss with weights: evaluating it multiplies the caller's array in place. -/
theorem C31_stacked_fails : ∃ (S : Stacked 1 1) (w : Fin 1 → ℝ) (x : Fin 1 → Fin 1 → ℝ),
    Stacked.init S.losses 1 none (some fun _ => 2) = some S ∧ (S.smoothObjective (some w) x .func).2.2 ≠ some w := by
  refine ⟨⟨fun _ => ⟨.gaussian fun _ => 0, 1, none, Quad.init none none none none, none⟩, 1, none, some fun _ => 2, fun _ _ => 0⟩,
    fun _ => 1, fun _ _ => 0, ?_, ?_⟩
  · unfold Stacked.init
    rw [if_neg (by norm_num), if_neg (by simp)]
  · intro h
    have := (stacked_eq (n := 1) (q := 1) ⟨fun _ => ⟨.gaussian fun _ => 0, 1, none, Quad.init none none none none, none⟩, 1, none,
      some fun _ => 2, fun _ _ => 0⟩ (fun _ => rfl) (some fun _ => 1) (fun _ => _) (fun _ => _)
      (fun j => evaluates_loss (⟨.gaussian fun _ => 0, 1, none, Quad.init none none none none, none⟩ : Loss 1) _) fun _ _ => 0).1
    rw [this] at h
    injection h with h
    have := congrFun h 0
    simp [effWeight] at this

/-- **C32** `copy` and `subsample` of a stacked loss (columns without weights of their own): the copy evaluates alike, the
subsample is the sum of the column losses evaluated with the weights of the cases outside `idx` set to zero. -/
theorem C32_stacked_partial (S : Stacked n q) (hc : 0 ≤ S.coef) (hS : ∀ w, S.caseWeights = some w → ∀ i, 0 ≤ w i)
    (hw : ∀ j, (S.losses j).caseWeights = none) (idx : Finset (Fin n))
    (F : Fin q → (Fin n → ℝ) → ℝ) (G : Fin q → (Fin n → ℝ) → Fin n → ℝ)
    (hE : ∀ j, Evaluates (fun x m => ((S.losses j).smoothObjective x m
      (some fun i => if i ∈ idx then wtOr S.caseWeights i else 0)).1) (F j) (G j)) (x : Fin n → Fin q → ℝ) :
    (∃ C, S.copy = some C ∧ ∀ m, (C.smoothObjective none x m).1 = (S.smoothObjective none x m).1) ∧
    ∃ C, S.subsample idx = some C ∧
      EvaluatesAt2 (fun x m => (C.smoothObjective none x m).1) x (S.coef * ∑ j, F j fun i => x i j - matOr S.offset i j)
        (fun i j => S.coef * G j (fun i => x i j - matOr S.offset i j) i) := by
  have hcp : S.copy = some { S with buf := fun _ _ => 0 } := by
    unfold Stacked.copy Stacked.init
    rw [if_neg (not_lt.mpr hc), if_neg]
    rintro ⟨w, h1, h2⟩
    exact h2 (hS w h1)
  constructor
  · refine ⟨_, hcp, fun m => ?_⟩
    obtain ⟨h1, h2, h3⟩ := stacked_eq S hw none _ _ (fun j => evaluates_loss (S.losses j) _) x
    obtain ⟨h1', h2', h3'⟩ := stacked_eq { S with buf := fun _ _ => 0 } hw none _ _ (fun j => evaluates_loss (S.losses j) _) x
    cases m with
    | func => rw [h1, h1']
    | grad => rw [h2, h2']
    | both => rw [h3, h3']
    | other => rfl
  · refine ⟨_, by unfold Stacked.subsample; rw [hcp], ?_⟩
    have hW : effWeight (some fun i => (S.caseWeights.getD fun _ => 1) i * (if i ∈ idx then 1 else 0)) none =
        fun i => if i ∈ idx then wtOr S.caseWeights i else 0 := by
      funext i
      cases S.caseWeights <;> simp [effWeight, wtOr]
    obtain ⟨h1, h2, h3⟩ := stacked_eq ⟨S.losses, S.coef, S.offset, some fun i =>
      (S.caseWeights.getD fun _ => 1) i * (if i ∈ idx then 1 else 0), fun _ _ => 0⟩ hw none F G (fun j => by rw [hW]; exact hE j) x
    exact ⟨congrArg Prod.fst h1, ⟨_, congrArg Prod.fst h2⟩, ⟨_, congrArg Prod.fst h3⟩⟩

end Verif.Props
