import Verif.Model.LassoObj
import Verif.Lemmas.Losses
import Verif.Props.C32_CopySubsample
import Verif.Spec.LassoPath
import Verif.Lemmas.EnetPath
import Verif.Props.C88_Regression

/-! # Helper lemmas about `lasso_path` objects and `cross_validate` -/

set_option linter.unusedSectionVars false
set_option linter.unusedVariables false

namespace Verif.Lemmas.LassoObj
open Verif.Model Verif.Model.LassoObj Verif.Spec Verif.Lemmas Verif.Props

variable {p n : ℕ}

lemma funcAt_eq (L : Loss n) (x : Fin n → ℝ) : funcAt L x =
    L.coef * ∑ i, effWeight L.caseWeights none i * phi L.data i (x i - effOffset L.offset i) := by
  have h := (evaluates_loss L none x).1
  dsimp only at h
  rw [cw_effWeight, offV_effOffset] at h
  unfold funcAt
  rw [h]
  rfl

lemma gradAt_eq (L : Loss n) (x : Fin n → ℝ) : gradAt L x = fun i =>
    L.coef * (effWeight L.caseWeights none i * psi L.data i (x i - effOffset L.offset i)) := by
  have h := (evaluates_loss L none x).2.1
  dsimp only at h
  rw [cw_effWeight, offV_effOffset] at h
  unfold gradAt
  rw [h]

/-- the loss with another coefficient -/
def withCoef (L : Loss n) (c : ℝ) : Loss n := { L with coef := c }

lemma effWeight_none (own : Option (Fin n → ℝ)) (i : Fin n) : effWeight own none i = own.elim 1 fun w => w i := by
  simp [effWeight]

/-! ### the subproblem -/

/-- extension by zero -/
def extend (S : Fin p → Bool) (b : {v // S v = true} → ℝ) (j : Fin p) : ℝ := if h : S j = true then b ⟨j, h⟩ else 0

lemma extend_of (S : Fin p → Bool) (b : {v // S v = true} → ℝ) (c : {v // S v = true}) : extend S b c = b c := by
  unfold extend; simp [c.2]

lemma extend_off (S : Fin p → Bool) (b : {v // S v = true} → ℝ) {j : Fin p} (h : S j = false) : extend S b j = 0 := by
  unfold extend; simp [h]

lemma sum_sub (S : Fin p → Bool) (F : Fin p → ℝ) (hF : ∀ j, S j = false → F j = 0) :
    ∑ c : {v // S v = true}, F c = ∑ j, F j := by
  rw [← Finset.sum_subtype (Finset.univ.filter fun i => S i = true) (by simp) F, Finset.sum_filter]
  refine Finset.sum_congr rfl fun j _ => ?_
  by_cases h : S j = true
  · rw [if_pos h]
  · rw [if_neg h, hF j (by simpa using h)]

lemma subLinpred_eq (D : Design p n) (S : Fin p → Bool) (b : {v // S v = true} → ℝ) :
    subLinpred D S b = D.dot (extend S b) := by
  funext i
  unfold subLinpred Design.dot
  rw [← sum_sub S (fun j => D.X i j * extend S b j) fun j hj => by rw [extend_off S b hj, mul_zero]]
  refine Finset.sum_congr rfl fun c _ => ?_
  rw [extend_of]
  congr 1
  unfold GroupPath.subsampleColumns
  simp

lemma sub_total (L : Loss n) (D : Design p n) {w enet : Fin p → ℝ} {alpha lam : ℝ} (ha0 : 0 ≤ alpha) (ha : alpha ≤ 1) (hl : 0 ≤ lam)
    (hw : ∀ j, 0 ≤ w j) (S : Fin p → Bool) (b : {v // S v = true} → ℝ) :
    subSmooth L D w enet alpha S lam b + subPenalty w alpha S lam b =
      Spec.enetObjective D.X (funcAt L) w enet alpha lam (extend S b) := by
  have h1 : (∑ c : {v // S v = true}, b c * (LassoPath.enetParams alpha enet w lam c * b c)) / 2 =
      ∑ j, (1 - alpha) * (if w j = 0 then 1 else lam) * enet j / 2 * extend S b j ^ 2 := by
    rw [← sum_sub S (fun j => (1 - alpha) * (if w j = 0 then 1 else lam) * enet j / 2 * extend S b j ^ 2)
      fun j hj => by rw [extend_off S b hj]; ring, Finset.sum_div]
    refine Finset.sum_congr rfl fun c _ => ?_
    rw [extend_of]
    unfold LassoPath.enetParams
    by_cases h : w c = 0
    · simp only [h, ne_eq, not_true_eq_false, if_false, if_true]; ring
    · simp only [h, ne_eq, not_false_eq_true, if_false, if_true]; ring
  have h2 : subPenalty w alpha S lam b = alpha * lam * weightedL1 w (extend S b) := by
    unfold subPenalty weightedL1
    rw [one_mul, Finset.mul_sum, ← sum_sub S (fun j => alpha * lam * (w j * |extend S b j|))
      fun j hj => by rw [extend_off S b hj]; simp]
    refine Finset.sum_congr rfl fun c _ => ?_
    rw [extend_of, abs_mul, abs_of_nonneg (mul_nonneg (mul_nonneg hl (hw c)) ha0)]
    ring
  unfold Spec.enetObjective enetSmooth
  rw [h2]
  congr 1
  unfold subSmooth
  rw [subLinpred_eq]
  dsimp only
  by_cases h : alpha < 1
  · rw [if_pos h, h1]; rfl
  · rw [if_neg h]
    have : alpha = 1 := le_antisymm ha (not_lt.1 h)
    simp only [this, sub_self, zero_mul, zero_div, Finset.sum_const_zero, add_zero]
    rfl

/-! ### losses that evaluate alike -/

/-- the constructor uses the loss through its evaluations only -/
lemma init_some (solve : SubSolver p) (L : Loss n) (D : Design p n) (w : Fin p → ℝ) (enet : Option (Fin p → ℝ)) (alpha : ℝ)
    (hw : ∀ j, 0 ≤ w j) : ∃ P, init solve L D w enet alpha = some P ∧ P.loss = L ∧ P.design = D ∧ P.w = w ∧
      P.enet = enet.getD (fun _ => 1) ∧ P.alpha = alpha := by
  unfold init
  rw [if_neg (by simpa using hw)]
  refine ⟨_, rfl, ?_⟩
  cases enet <;> exact ⟨rfl, rfl, rfl, rfl, rfl⟩

lemma init_none (solve : SubSolver p) (L : Loss n) (D : Design p n) (w : Fin p → ℝ) (enet : Option (Fin p → ℝ)) (alpha : ℝ)
    (hw : ¬ ∀ j, 0 ≤ w j) : init solve L D w enet alpha = none := by
  unfold init; rw [if_pos hw]

lemma toPath_congr {P Q : Obj p n} (tol : ℝ) (h1 : funcAt P.loss = funcAt Q.loss) (h2 : gradAt P.loss = gradAt Q.loss)
    (h3 : P.design = Q.design) (h4 : P.w = Q.w) (h5 : P.enet = Q.enet) (h6 : P.alpha = Q.alpha) : toPath tol P = toPath tol Q := by
  unfold toPath; rw [h1, h2, h3, h4, h5, h6]

lemma subSmooth_congr {L L' : Loss n} (h1 : funcAt L = funcAt L') (D : Design p n) (w enet : Fin p → ℝ) (alpha : ℝ) :
    subSmooth L D w enet alpha = subSmooth L' D w enet alpha := by
  unfold subSmooth; rw [h1]

lemma toSolver_congr {P Q : Obj p n} (solve : SubSolver p) (h1 : funcAt P.loss = funcAt Q.loss)
    (h3 : P.design = Q.design) (h4 : P.w = Q.w) (h5 : P.enet = Q.enet) (h6 : P.alpha = Q.alpha) :
    toSolver solve P = toSolver solve Q := by
  funext calls warm S lam v
  unfold toSolver solveSubproblem
  rw [h3, h4, h5, h6, subSmooth_congr h1]

lemma strongFit_congr {P Q : Obj p n} (solve : SubSolver p) (seq : List ℝ) (initial : (Fin p → ℝ) × (Fin p → ℝ))
    (h1 : funcAt P.loss = funcAt Q.loss) (h2 : gradAt P.loss = gradAt Q.loss)
    (h3 : P.design = Q.design) (h4 : P.w = Q.w) (h5 : P.enet = Q.enet) (h6 : P.alpha = Q.alpha) :
    strongFit solve P seq initial = strongFit solve Q seq initial := by
  unfold strongFit
  rw [toPath_congr _ h1 h2 h3 h4 h5 h6, toSolver_congr solve h1 h3 h4 h5 h6]

lemma warmFit_congr {P Q : Obj p n} (solve : WarmStart.Solver (Fin p → ℝ)) (step : ℝ) (seq : List ℝ)
    (initial : (Fin p → ℝ) × (Fin p → ℝ)) (h1 : funcAt P.loss = funcAt Q.loss)
    (h3 : P.design = Q.design) (h4 : P.w = Q.w) (h5 : P.enet = Q.enet) (h6 : P.alpha = Q.alpha) :
    warmFit solve step P seq initial = warmFit solve step Q seq initial := by
  unfold warmFit toWarm
  rw [h1, h3, h4, h5, h6]

/-! ### convexity and existence of minimisers -/

lemma funcAt_convex {L : Loss n} (hd : ConvexLoss L.data) (hc : 0 ≤ L.coef) (hw : ∀ i, 0 ≤ effWeight L.caseWeights none i) :
    ConvexWithGradient (funcAt L) (gradAt L) := by
  have e : funcAt L = totalLoss L.coef (effWeight L.caseWeights none) (effOffset L.offset) (phi L.data) := by
    funext x; rw [funcAt_eq]; rfl
  refine ⟨?_, fun x => ?_⟩
  · rw [e]
    intro x y a b ha hb hab
    exact convex_totalLoss hc hw hab fun i => convex_of_tangent (tangent_of hd i) _ _ a b ha hb hab
  · rw [e, gradAt_eq]
    exact grad_totalLoss _ _ _ _ _ x fun i => deriv_of hd i _

lemma phi_bounded {d : LossData n} (hd : ConvexLoss d) (he : ¬ Loss.dataError d) (i : Fin n) : ∃ B, ∀ t, B ≤ phi d i t := by
  cases d with
  | gaussian y => exact ⟨0, fun t => by simp only [phi]; positivity⟩
  | poisson c =>
    have hc : 0 ≤ c i := by
      by_contra h
      exact he (Or.inr ⟨i, not_le.1 h⟩)
    rcases hc.eq_or_lt with h | h
    · exact ⟨0, fun t => by simp only [phi, ← h]; have := Real.exp_pos t; linarith⟩
    · refine ⟨phi (.poisson c) i (Real.log (c i)), fun t => ?_⟩
      have := tangent_of hd i (Real.log (c i)) t
      simp only [psi, Real.exp_log h, sub_self, zero_mul, add_zero] at this
      exact this
  | huber y eps => exact ⟨phi (.huber y eps) i (y i), fun t => by
      have := tangent_of hd i (y i) t
      have h0 : psi (.huber y eps) i (y i) = 0 := by
        simp only [psi, sub_self]
        rw [huberPair_eq hd]
        simp
      rw [h0, zero_mul, add_zero] at this
      exact this⟩
  | logistic s m => exact hd.elim
  | huberSvm s eps =>
    rw [phi_case hd]
    rw [show eps = 1 from hd]
    refine ⟨0, fun t => ?_⟩
    simp only [caseLoss, smoothHinge]
    split_ifs with h1 h2
    · exact le_rfl
    · positivity
    · linarith

lemma funcAt_bounded {L : Loss n} (hd : ConvexLoss L.data) (he : ¬ Loss.dataError L.data) (hc : 0 ≤ L.coef)
    (hw : ∀ i, 0 ≤ effWeight L.caseWeights none i) : ∃ B, ∀ x, B ≤ funcAt L x := by
  choose B hB using phi_bounded hd he
  refine ⟨L.coef * ∑ i, effWeight L.caseWeights none i * B i, fun x => ?_⟩
  rw [funcAt_eq]
  exact mul_le_mul_of_nonneg_left (Finset.sum_le_sum fun i _ => mul_le_mul_of_nonneg_left (hB i _) (hw i)) hc

lemma exists_min {ι : Type} [Fintype ι] {f : (ι → ℝ) → ℝ} (hf : Continuous f) {B : ℝ} (hB : ∀ x, B ≤ f x) {c : ι → ℝ}
    (hc : ∀ i, 0 < c i) : ∃ m, ∀ u, f m + ∑ i, c i * |m i| ≤ f u + ∑ i, c i * |u i| := by
  rcases isEmpty_or_nonempty ι with h | h
  · exact ⟨fun _ => 0, fun u => by rw [Subsingleton.elim u fun _ => 0]⟩
  obtain ⟨i0, hi0⟩ := Finite.exists_min c
  have hcont : Continuous fun x : ι → ℝ => f x + ∑ i, c i * |x i| := by fun_prop
  obtain ⟨u, hu⟩ := hcont.exists_forall_le' (fun _ => 0) (by
    have hK : IsCompact (Metric.closedBall (0 : ι → ℝ) ((f (fun _ => 0) - B) / c i0)) := isCompact_closedBall _ _
    filter_upwards [hK.compl_mem_cocompact] with x hx
    have h1 : (f (fun _ => 0) - B) / c i0 < ‖x‖ := by
      by_contra hcon
      exact hx (by rw [Metric.mem_closedBall, dist_zero_right]; exact not_lt.1 hcon)
    rw [div_lt_iff₀ (hc i0)] at h1
    have h2 : ‖x‖ * c i0 ≤ ∑ i, c i * |x i| := by
      have : ∃ j, ‖x‖ = |x j| := by
        obtain ⟨j, hj⟩ := Finite.exists_max fun j => |x j|
        refine ⟨j, le_antisymm ?_ (norm_le_pi_norm x j)⟩
        rw [pi_norm_le_iff_of_nonneg (abs_nonneg _)]
        exact hj
      obtain ⟨j, hj⟩ := this
      rw [hj]
      calc |x j| * c i0 ≤ c j * |x j| := by
            rw [mul_comm]; exact mul_le_mul_of_nonneg_right (hi0 j) (abs_nonneg _)
        _ ≤ _ := Finset.single_le_sum (f := fun i => c i * |x i|) (fun i _ => mul_nonneg (hc i).le (abs_nonneg _)) (Finset.mem_univ j)
    have h3 := hB x
    simp only [abs_zero, mul_zero, Finset.sum_const_zero, add_zero]
    linarith)
  exact ⟨u, hu⟩

lemma sub_exists {L : Loss n} (D : Design p n) {w enet : Fin p → ℝ} {alpha lam : ℝ} (hf : Continuous (funcAt L)) {B : ℝ}
    (hB : ∀ x, B ≤ funcAt L x) (ha0 : 0 < alpha) (hl : 0 < lam) (hw : ∀ j, 0 < w j) (he : ∀ j, 0 ≤ enet j)
    (S : Fin p → Bool) : ∃ m, ∀ u, subSmooth L D w enet alpha S lam m + subPenalty w alpha S lam m ≤
      subSmooth L D w enet alpha S lam u + subPenalty w alpha S lam u := by
  have hp : ∀ b, subPenalty w alpha S lam b = ∑ c : {v // S v = true}, (lam * w c * alpha) * |b c| := by
    intro b
    unfold subPenalty
    rw [one_mul]
    refine Finset.sum_congr rfl fun c _ => ?_
    rw [abs_mul, abs_of_nonneg (mul_nonneg (mul_nonneg hl.le (hw c).le) ha0.le), mul_comm]
  simp only [hp]
  refine exists_min (B := B) ?_ ?_ fun c => mul_pos (mul_pos hl (hw c)) ha0
  · unfold subSmooth subLinpred
    dsimp only
    have h1 : Continuous fun b : {v // S v = true} → ℝ => funcAt L fun i => ∑ c, GroupPath.subsampleColumns D.X S i c * b c :=
      hf.comp (by fun_prop)
    split_ifs
    · exact h1.add (by fun_prop)
    · exact h1
  · intro b
    unfold subSmooth
    dsimp only
    split_ifs with h
    · have : 0 ≤ ∑ c : {v // S v = true}, b c * (LassoPath.enetParams alpha enet w lam c * b c) := by
        refine Finset.sum_nonneg fun c _ => ?_
        have h1 : 0 ≤ LassoPath.enetParams alpha enet w lam c := by
          unfold LassoPath.enetParams
          dsimp only
          have := mul_nonneg (he c) (sub_nonneg.2 h.le)
          split_ifs
          · exact mul_nonneg this hl.le
          · exact this
        nlinarith [mul_nonneg h1 (sq_nonneg (b c))]
      have := hB (subLinpred D S b)
      linarith
    · exact hB _

/-! ### collecting the folds -/

lemma collect_some {α : Type} {l : List (Option α)} {as : List α} (h : collect l = some as) :
    l = as.map some := by
  induction l generalizing as with
  | nil => simp only [collect, Option.some_inj] at h; subst h; rfl
  | cons a l ih =>
    cases a with
    | none => simp [collect] at h
    | some a =>
      simp only [collect] at h
      cases hc : collect l with
      | none => simp [hc] at h
      | some bs =>
        rw [hc] at h
        simp only [Option.some_inj] at h
        subst h
        rw [ih hc]; rfl

lemma collect_map_some {α : Type} (as : List α) : collect (as.map some) = some as := by
  induction as with
  | nil => rfl
  | cons a l ih => simp [collect, ih]

end Verif.Lemmas.LassoObj
