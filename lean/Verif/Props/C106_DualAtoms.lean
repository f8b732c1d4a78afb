import Verif.Model.DualAtoms
import Verif.Lemmas.GroupPath
import Verif.Props.C50_Gauge
import Verif.Props.C90_Atoms

/-!
# C106: the dual classes of the structured penalties, and `terms`

`group_lasso_dual`, `sparse_group_lasso_dual`, the weighted `supnorm` and `slope_conjugate` as penalties, and the methods `terms`
whose entries are to be summed or maximised "in computing the seminorm".
-/

set_option linter.unusedSectionVars false
set_option linter.unusedVariables false

namespace Verif.Props
open Verif.Spec Verif.Model Verif.Model.Fista Verif.Lemmas

variable {p m q : ℕ}

/-! ### helpers -/

private lemma ofTop_ne' (v : WithTop ℝ) : ObjVal.ofTop v ≠ .nan := by
  cases v with
  | top => exact fun h => by cases h
  | coe a => exact fun h => by cases h

private lemma indicator_cv {S : Set (Fin m → ℝ)}
    (h : ∀ x ∈ S, ∀ y ∈ S, ∀ s t : ℝ, 0 ≤ s → 0 ≤ t → s + t = 1 → (fun i => s * x i + t * y i) ∈ S) :
    IsConvexFnOn (fun _ => 0) S :=
  fun x hx y hy s t hs ht hst => ⟨h x hx y hy s t hs ht hst, by simp⟩

private lemma norm_cv {ι : Type*} [Fintype ι] (x y : ι → ℝ) {s t : ℝ} (hs : 0 ≤ s) (ht : 0 ≤ t) :
    npNorm (fun i => s * x i + t * y i) ≤ s * npNorm x + t * npNorm y := by
  have h := Verif.Lemmas.npNorm_add_le (fun i => s * x i) fun i => t * y i
  rw [npNorm_smul, npNorm_smul, abs_of_nonneg hs, abs_of_nonneg ht] at h
  exact h

private lemma block_cv (grp : Fin m → Fin q) (j : Fin q) (x y : Fin m → ℝ) {s t : ℝ} (hs : 0 ≤ s) (ht : 0 ≤ t) :
    blockNorm grp (fun i => s * x i + t * y i) j ≤ s * blockNorm grp x j + t * blockNorm grp y j := by
  rw [blockNorm_sel, blockNorm_sel, blockNorm_sel]
  exact norm_cv (GroupPath.sel grp x j) (GroupPath.sel grp y j) hs ht

private lemma block_nonneg (grp : Fin m → Fin q) (j : Fin q) (x : Fin m → ℝ) : 0 ≤ blockNorm grp x j := Real.sqrt_nonneg _

private lemma norms_block (grp : Fin m → Fin q) (x : Fin m → ℝ) (j : Fin q) :
    normsCython (GroupLasso.kind grp) x j = blockNorm grp x j := by
  rw [normsCython_eq, blockNorm_eq]

private lemma fold_le (l : List (Fin q)) (w : Fin q → ℝ) (f : Fin q → ℝ) (v c : WithBot ℝ) :
    (l.foldl (fun v j => if w j > 0 then max v ((f j : ℝ) : WithBot ℝ) else v) v ≤ c) ↔
      v ≤ c ∧ ∀ j ∈ l, 0 < w j → (f j : WithBot ℝ) ≤ c := by
  induction l generalizing v with
  | nil => simp
  | cons a l ih =>
    rw [List.foldl_cons, ih]
    by_cases ha : w a > 0
    · rw [if_pos ha, max_le_iff]
      simp only [List.mem_cons, forall_eq_or_imp]
      constructor
      · rintro ⟨⟨h1, h2⟩, h3⟩; exact ⟨h1, fun _ => h2, h3⟩
      · rintro ⟨h1, h2, h3⟩; exact ⟨⟨h1, h2 ha⟩, h3⟩
    · rw [if_neg ha]
      simp only [List.mem_cons, forall_eq_or_imp]
      constructor
      · rintro ⟨h1, h3⟩; exact ⟨h1, fun h => absurd h ha, h3⟩
      · rintro ⟨h1, -, h3⟩; exact ⟨h1, h3⟩

private lemma dual_le (grp : Fin m → Fin q) (w : Fin q → ℝ) (x : Fin m → ℝ) (c : WithBot ℝ) :
    GroupLasso.dualSeminorm grp w x ≤ c ↔ ∀ j, 0 < w j → ((blockNorm grp x j / w j : ℝ) : WithBot ℝ) ≤ c := by
  unfold GroupLasso.dualSeminorm
  rw [fold_le]
  simp [norms_block]

private lemma dual_val [NeZero q] (grp : Fin m → Fin q) (w : Fin q → ℝ) (hw : ∀ j, 0 ≤ w j) (hpos : ∃ j, w j ≠ 0)
    (x : Fin m → ℝ) : GroupLasso.dualSeminorm grp w x = ((groupDualNorm grp w x : ℝ) : WithBot ℝ) := by
  apply le_antisymm
  · rw [dual_le]
    intro j hj
    have := le_maxCoord (fun j => if w j = 0 then 0 else blockNorm grp x j / w j) j
    rw [if_neg hj.ne'] at this
    exact WithBot.coe_le_coe.2 this
  · have hall := (dual_le grp w x (GroupLasso.dualSeminorm grp w x)).1 le_rfl
    obtain ⟨j0, hj0⟩ := hpos
    have hp0 : 0 < w j0 := lt_of_le_of_ne (hw j0) (Ne.symm hj0)
    obtain ⟨j, hj⟩ := exists_maxCoord fun j => if w j = 0 then 0 else blockNorm grp x j / w j
    have hj' : groupDualNorm grp w x = if w j = 0 then 0 else blockNorm grp x j / w j := hj
    rw [hj']
    by_cases h0 : w j = 0
    · rw [if_pos h0]
      refine le_trans ?_ (hall j0 hp0)
      exact WithBot.coe_le_coe.2 (div_nonneg (block_nonneg _ _ _) hp0.le)
    · rw [if_neg h0]
      exact hall j (lt_of_le_of_ne (hw j) (Ne.symm h0))

private lemma dualNorm_cv [NeZero q] (grp : Fin m → Fin q) (w : Fin q → ℝ) (hw : ∀ j, 0 ≤ w j) {lam : ℝ} (hl : 0 ≤ lam) :
    IsConvexFnOn (fun z => lam * groupDualNorm grp w z) {z | ∀ j, w j = 0 → blockNorm grp z j = 0} := by
  intro x hx y hy s t hs ht hst
  refine ⟨fun j hj => ?_, ?_⟩
  · have := block_cv grp j x y hs ht
    rw [hx j hj, hy j hj] at this
    exact le_antisymm (by linarith) (block_nonneg _ _ _)
  · have h : groupDualNorm grp w (fun i => s * x i + t * y i) ≤ s * groupDualNorm grp w x + t * groupDualNorm grp w y := by
      refine maxCoord_le fun j => ?_
      have h1 := mul_le_mul_of_nonneg_left (le_maxCoord (fun j => if w j = 0 then 0 else blockNorm grp x j / w j) j) hs
      have h2 := mul_le_mul_of_nonneg_left (le_maxCoord (fun j => if w j = 0 then 0 else blockNorm grp y j / w j) j) ht
      refine le_trans ?_ (add_le_add h1 h2)
      by_cases h0 : w j = 0
      · simp [h0]
      · rw [if_neg h0, if_neg h0, if_neg h0]
        have hp0 : 0 < w j := lt_of_le_of_ne (hw j) (Ne.symm h0)
        have := div_le_div_of_nonneg_right (block_cv grp j x y hs ht) hp0.le
        refine this.trans (le_of_eq ?_)
        ring
    have := mul_le_mul_of_nonneg_left h hl
    dsimp only
    linarith

/-! ### the dual classes as penalties -/

/-- **C106** `group_lasso_dual` with a Lagrange multiplier stands for `lam * max_g ‖z[g]‖₂ / w_g` of `z = x - offset`, with
`z[g] = 0` wherever `w_g = 0`, plus its quadratic.  Weights are 0 or at least `1e-20`, not all 0; any order of ties. -/
theorem C106_group_lasso_dual [NeZero q] (grp : Fin (p + 1) → Fin q) (w : Fin q → ℝ) (hw : ∀ j, w j = 0 ∨ 1 / 10 ^ 20 ≤ w j)
    (hpos : ∃ j, w j ≠ 0) (sort : (Fin (p + 1) → ℝ) → List (ℝ × ℝ))
    (hsort : ∀ x, IsDescArgsort (GroupLasso.knotInput grp w x) (sort x)) (lam : ℝ) (hl : 0 ≤ lam)
    (offset : Option (PyVec (Fin (p + 1)) ℝ)) (sq : Quad (Fin (p + 1)) ℝ) (hsq : 0 ≤ sq.coef) :
    IsAtomFor ((GroupLasso.dualCls grp w sort).atom (.lagrange lam) offset sq)
      (shiftedPen (fun z => lam * groupDualNorm grp w z) {z | ∀ j, w j = 0 → blockNorm grp z j = 0} offset sq) := by
  have hw0 : ∀ j, 0 ≤ w j := fun j => by
    rcases hw j with h | h
    · rw [h]
    · exact le_trans (by positivity) h
  have hv : ∀ x c, (GroupLasso.dualCls grp w sort).seminorm x lam c = .num (lam * groupDualNorm grp w x) := fun x c => by
    show ObjVal.ofBotMul lam (GroupLasso.dualSeminorm grp w x) = _
    rw [dual_val grp w hw0 hpos]; rfl
  exact C90_seminorm_lagrange _ lam _ _
    (fun x L hL => C21_dual_lagrange_prox grp w hw x hL hl (Or.inr hpos) (sort x) (hsort x))
    (fun x _ => hv x false) (fun x h => by rw [hv x true] at h; cases h) (dualNorm_cv grp w hw0 hl) offset sq hsq

/-- **C106** `group_lasso_dual` with a bound stands for the constraint `‖z[g]‖₂ ≤ bound * w_g` for every group, on `z = x - offset`,
plus its quadratic, for any nonnegative weights. -/
theorem C106_group_lasso_dual_bound (grp : Fin (p + 1) → Fin q) (w : Fin q → ℝ) (hw : ∀ j, 0 ≤ w j)
    (sort : (Fin (p + 1) → ℝ) → List (ℝ × ℝ)) (b : ℝ) (hb : 0 ≤ b)
    (offset : Option (PyVec (Fin (p + 1)) ℝ)) (sq : Quad (Fin (p + 1)) ℝ) (hsq : 0 ≤ sq.coef) :
    IsAtomFor ((GroupLasso.dualCls grp w sort).atom (.bound b) offset sq)
      (shiftedPen (fun _ => 0) {z | ∀ j, blockNorm grp z j ≤ b * w j} offset sq) := by
  refine C90_seminorm_bound _ b _ (fun x => ⟨_, rfl, C21_dual_bound_prox grp w hw x hb⟩) (fun x => ofTop_ne' _)
    (indicator_cv fun x hx y hy s t hs ht hst j => ?_) offset sq hsq
  have h := block_cv grp j x y hs ht
  have h1 := mul_le_mul_of_nonneg_left (hx j) hs
  have h2 := mul_le_mul_of_nonneg_left (hy j) ht
  have e : s * (b * w j) + t * (b * w j) = b * w j := by rw [← add_mul, hst, one_mul]
  linarith

/-- the points `u + v` with `|u_i| ≤ b a_i` and `‖v[g]‖₂ ≤ b w_g`: the ball of radius `b` of the dual norm of
`Σ a_i|z_i| + Σ_g w_g‖z[g]‖₂` -/
def sparseDualBall (grp : Fin m → Fin q) (a : Fin m → ℝ) (w : Fin q → ℝ) (b : ℝ) : Set (Fin m → ℝ) :=
  {s | ∃ u v : Fin m → ℝ, (∀ i, s i = u i + v i) ∧ (∀ i, |u i| ≤ b * a i) ∧ ∀ j, blockNorm grp v j ≤ b * w j}

private lemma sparseDualBall_cv (grp : Fin m → Fin q) (a : Fin m → ℝ) (w : Fin q → ℝ) (b : ℝ) :
    IsConvexFnOn (fun _ => 0) (sparseDualBall grp a w b) := by
  refine indicator_cv ?_
  rintro x ⟨u, v, h1, h2, h3⟩ y ⟨u', v', h1', h2', h3'⟩ s t hs ht hst
  have e : ∀ c : ℝ, s * c + t * c = c := fun c => by rw [← add_mul, hst, one_mul]
  refine ⟨fun i => s * u i + t * u' i, fun i => s * v i + t * v' i, fun i => ?_, fun i => ?_, fun j => ?_⟩
  · dsimp only
    rw [h1, h1']; ring
  · have h := abs_add_le (s * u i) (t * u' i)
    rw [abs_mul, abs_mul, abs_of_nonneg hs, abs_of_nonneg ht] at h
    have := mul_le_mul_of_nonneg_left (h2 i) hs
    have := mul_le_mul_of_nonneg_left (h2' i) ht
    have := e (b * a i)
    linarith
  · have h := block_cv grp j v v' hs ht
    have := mul_le_mul_of_nonneg_left (h3 j) hs
    have := mul_le_mul_of_nonneg_left (h3' j) ht
    have := e (b * w j)
    linarith

/-- **C106** (partial) `sparse_group_lasso_dual` with a bound meets the contract of the solvers for the constraint that
`z = x - offset` is in the dual ball of radius `bound`: its proximal map and its objective without feasibility check are right.  Missing:
with the check the objective is wrong, `C106_sparse_dual_feasibility_fails`, and there is no Lagrange form,
`C106_sparse_dual_lagrange_fails`. -/
theorem C106_sparse_group_dual_bound_partial (grp : Fin (p + 1) → Fin q) (a : Fin (p + 1) → ℝ) (ha : ∀ i, 0 ≤ a i) (w : Fin q → ℝ)
    (hw : ∀ j, 0 ≤ w j) (b : ℝ) (hb : 0 ≤ b) (offset : Option (PyVec (Fin (p + 1)) ℝ)) (sq : Quad (Fin (p + 1)) ℝ)
    (hsq : 0 ≤ sq.coef) (fuel : ℕ) :
    IsAtomFor (SparseGroup.dualAtom grp a w (.bound b) offset sq fuel)
      (shiftedPen (fun _ => 0) (sparseDualBall grp a w b) offset sq) := by
  refine C90_seminorm_bound (SparseGroup.dualCls grp a w (some b) fuel) b _
    (fun x => ⟨_, rfl, C22_dual_bound_prox grp a ha w hw x hb⟩) (fun x => ?_) (sparseDualBall_cv grp a w b) offset sq hsq
  unfold SparseGroup.dualCls SparseGroup.baseConjugate
  dsimp only
  split_ifs <;> exact fun h => by cases h

private lemma quad0 (x : Fin m → ℝ) : (Quad.init none none none none : Quad (Fin m) ℝ).funcVal x = 0 := by
  simp [Quad.funcVal, Quad.init]

private lemma dual_constraint_value (grp : Fin m → Fin q) (a : Fin m → ℝ) (w : Fin q → ℝ) (b : ℝ) (x : Fin m → ℝ) (fuel : ℕ) (c : ℝ)
    (h : (SparseGroup.dualCls grp a w (some b) fuel).constraint x b = .num c) :
    (SparseGroup.dualAtom grp a w (.bound b) none (Quad.init none none none none) fuel).nonsmooth x true = .num c := by
  show ((SparseGroup.dualCls grp a w (some b) fuel).constraint x b).add (.num ((Quad.init none none none none).funcVal x)) = _
  rw [h, quad0]
  show ObjVal.num (c + 0) = _
  rw [add_zero]

/-- **C106** fails for `nonsmooth_objective(x, check_feasibility=True)` of a `sparse_group_lasso_dual` in bound form.  `constraint`
returns a truth value: the objective is 1 too large at 0, a point of every ball, for all weights and bounds; and with one feature of
lasso weight 1 and `bound = 1` it is 0 at the point 5, outside of the ball, where it should be infinite. -/
theorem C106_sparse_dual_feasibility_fails :
    (∀ (grp : Fin m → Fin q) (a : Fin m → ℝ) (w : Fin q → ℝ), (∀ i, 0 ≤ a i) → (∀ j, 0 ≤ w j) → ∀ (b : ℝ), 0 ≤ b →
      ∀ fuel, (SparseGroup.dualAtom grp a w (.bound b) none (Quad.init none none none none) fuel).nonsmooth (fun _ => 0) true =
        .num 1 ∧ (fun _ => 0) ∈ sparseDualBall grp a w b) ∧
    (∀ fuel, (SparseGroup.dualAtom (fun _ : Fin 1 => (0 : Fin 1)) (fun _ => 1) (fun _ => 0) (.bound 1) none
      (Quad.init none none none none) fuel).nonsmooth (fun _ => 5) true = .num 0) ∧
    (fun _ => 5) ∉ sparseDualBall (fun _ : Fin 1 => (0 : Fin 1)) (fun _ => 1) (fun _ => 0) 1 := by
  refine ⟨fun grp a w ha hw b hb fuel => ⟨dual_constraint_value _ _ _ _ _ _ _ ?_, ?_⟩, fun fuel =>
    dual_constraint_value _ _ _ _ _ _ _ ?_, ?_⟩
  · unfold SparseGroup.dualCls SparseGroup.baseConjugate
    dsimp only
    rw [if_pos]
    unfold SparseGroup.insideSet SparseGroup.lagrangeProx GroupLasso.lagrangeProx SparseGroup.softThr npNorm
    simp [npSign]
  · refine ⟨fun _ => 0, fun _ => 0, by simp, fun i => ?_, fun j => ?_⟩
    · rw [abs_zero]; exact mul_nonneg hb (ha i)
    · have : blockNorm grp (fun _ => 0) j = 0 := by unfold blockNorm; simp
      rw [this]; exact mul_nonneg hb (hw j)
  · unfold SparseGroup.dualCls SparseGroup.baseConjugate
    dsimp only
    rw [if_neg]
    have hs : SparseGroup.softThr (fun _ : Fin 1 => (1:ℝ)) (fun _ => 5) 1 1 = fun _ => 4 := by
      funext i
      unfold SparseGroup.softThr npSign
      norm_num
    have hl : SparseGroup.lagrangeProx (fun _ : Fin 1 => (0 : Fin 1)) (fun _ => 1) (fun _ => 0) (fun _ => 5) 1 1 = fun _ => 4 := by
      unfold SparseGroup.lagrangeProx
      rw [hs]
      funext i
      unfold GroupLasso.lagrangeProx
      have : normsCython (GroupLasso.kind fun _ : Fin 1 => (0 : Fin 1)) (fun _ => (4:ℝ)) 0 > 0 := by
        rw [norms_block]
        unfold blockNorm
        simp
      simp [factor, this]
    unfold SparseGroup.insideSet
    rw [hl, not_not]
    unfold npNorm
    have h1 : Real.sqrt (∑ _i : Fin 1, ((5:ℝ) - 4 - 5) ^ 2) = 4 := by
      rw [show ∑ _i : Fin 1, ((5:ℝ) - 4 - 5) ^ 2 = 4 ^ 2 by norm_num]
      exact Real.sqrt_sq (by norm_num)
    have h2 : Real.sqrt (∑ _i : Fin 1, (5:ℝ) ^ 2) = 5 := by
      rw [show ∑ _i : Fin 1, (5:ℝ) ^ 2 = 5 ^ 2 by simp]
      exact Real.sqrt_sq (by norm_num)
    rw [h1, h2]
    norm_num
  · rintro ⟨u, v, h1, h2, h3⟩
    have hv := h3 0
    rw [mul_zero] at hv
    have hv0 : v 0 = 0 := by
      have : blockNorm (fun _ : Fin 1 => (0 : Fin 1)) v 0 = |v 0| := by
        unfold blockNorm
        simp [Real.sqrt_sq_eq_abs]
      rw [this] at hv
      exact abs_eq_zero.1 (le_antisymm hv (abs_nonneg _))
    have := h1 0
    have h2' := h2 0
    rw [hv0, add_zero] at this
    rw [← this] at h2'
    norm_num at h2'

/-- **C106** fails: a `sparse_group_lasso_dual` in Lagrange form is of no use.  Its objective raises (here `nan`) and its proximal map
raises, for all weights, parameters, quadratics and points.  (For an object in bound form `seminorm(x, lagrange=1)` approximates the
dual norm, C50.) -/
theorem C106_sparse_dual_lagrange_fails (grp : Fin m → Fin q) (a : Fin m → ℝ) (w : Fin q → ℝ) (lam : ℝ)
    (offset : Option (PyVec (Fin m) ℝ)) (sq : Quad (Fin m) ℝ) (fuel : ℕ) :
    (∀ x c, (SparseGroup.dualAtom grp a w (.lagrange lam) offset sq fuel).nonsmooth x c = .nan) ∧
    ∀ Q z, (SparseGroup.dualAtom grp a w (.lagrange lam) offset sq fuel).proximal Q ≠ .ok z := by
  refine ⟨fun x c => rfl, fun Q z h => ?_⟩
  have h' : seminormProximal (fun _ _ _ => none) (SparseGroup.dualCls grp a w none fuel).boundProx (.lagrange lam) offset sq
    (some Q) = .ok z := h
  unfold seminormProximal at h'
  dsimp only at h'
  split at h'
  · cases h'
  · split_ifs at h'
    split at h' <;> cases h'

/-! ### the weighted `supnorm` -/

private lemma foldl_max_iff (l : List ℝ) (v c : ℝ) : l.foldl max v ≤ c ↔ v ≤ c ∧ ∀ a ∈ l, a ≤ c := by
  induction l generalizing v with
  | nil => simp
  | cons a l ih => rw [List.foldl_cons, ih, max_le_iff]; simp [and_assoc]

private lemma listMax_some {l : List ℝ} (hl : l ≠ []) :
    ∃ v, Weighted.listMax l = some v ∧ ∀ c, v ≤ c ↔ ∀ a ∈ l, a ≤ c := by
  cases l with
  | nil => exact absurd rfl hl
  | cons a l => exact ⟨_, rfl, fun c => by rw [foldl_max_iff]; simp⟩

private lemma mem_supList (w : Fin m → WithTop ℝ) (x : Fin m → ℝ) (r : ℝ) :
    r ∈ Weighted.supList w x ↔ ∃ (i : Fin m) (a : ℝ), w i = (a : WithTop ℝ) ∧ r = |x i * a| := by
  unfold Weighted.supList
  rw [List.mem_filterMap]
  constructor
  · rintro ⟨i, -, h⟩
    cases hw : w i with
    | top => rw [hw, Weighted.wcase_top] at h; cases h
    | coe a =>
      rw [hw, Weighted.wcase_coe] at h
      injection h with h
      exact ⟨i, a, hw, h.symm⟩
  · rintro ⟨i, a, h1, h2⟩
    exact ⟨i, List.mem_finRange i, by rw [h1, Weighted.wcase_coe, h2]⟩

private lemma wt_top' {w : Fin m → WithTop ℝ} {i : Fin m} (h : w i = ⊤) : wt w i = 0 := by unfold wt; rw [h]; rfl
private lemma wt_coe' {w : Fin m → WithTop ℝ} {i : Fin m} {a : ℝ} (h : w i = (a : WithTop ℝ)) : wt w i = a := by
  unfold wt; rw [h]; rfl

private lemma wt_nn {w : Fin m → WithTop ℝ} (hw : ∀ i (a : ℝ), w i = (a : WithTop ℝ) → 0 ≤ a) (i : Fin m) : 0 ≤ wt w i := by
  cases h : w i with
  | top => rw [wt_top' h]
  | coe a => rw [wt_coe' h]; exact hw i a h

private lemma sup_max (w : Fin (p + 1) → WithTop ℝ) (hw : ∀ i (a : ℝ), w i = (a : WithTop ℝ) → 0 ≤ a) (hfin : ∃ i, w i ≠ ⊤)
    (x : Fin (p + 1) → ℝ) : Weighted.listMax (Weighted.supList w x) = some (maxCoord fun i => wt w i * |x i|) := by
  obtain ⟨i0, h0⟩ := hfin
  obtain ⟨a0, ha0⟩ := WithTop.ne_top_iff_exists.1 h0
  have hm : |x i0 * a0| ∈ Weighted.supList w x := (mem_supList w x _).2 ⟨i0, a0, ha0.symm, rfl⟩
  obtain ⟨v, hv, hc⟩ := listMax_some (l := Weighted.supList w x) (fun h => by rw [h] at hm; cases hm)
  rw [hv]
  congr 1
  apply le_antisymm
  · rw [hc]
    intro r hr
    obtain ⟨i, a, h1, h2⟩ := (mem_supList w x r).1 hr
    have := le_maxCoord (fun i => wt w i * |x i|) i
    rw [wt_coe' h1] at this
    rw [h2, abs_mul, abs_of_nonneg (hw i a h1), mul_comm]
    exact this
  · have hle := (hc v).1 le_rfl
    refine maxCoord_le fun i => ?_
    cases h : w i with
    | top => rw [wt_top' h, zero_mul]; exact le_trans (abs_nonneg _) (hle _ hm)
    | coe a =>
      have := hle _ ((mem_supList w x _).2 ⟨i, a, h, rfl⟩)
      rw [abs_mul, abs_of_nonneg (hw i a h), mul_comm] at this
      rw [wt_coe' h]; exact this

private lemma noNan_eq {R : Fin m → Option ℝ} {P : Fin m → ℝ} (h : ∀ i, R i = some (P i)) : Weighted.noNan R = some P := by
  unfold Weighted.noNan
  rw [if_pos fun i => by rw [h i]; rfl]
  congr 1
  funext i
  rw [h i]; rfl

private lemma wsup_cv (w : Fin (p + 1) → WithTop ℝ) (hw : ∀ i (a : ℝ), w i = (a : WithTop ℝ) → 0 ≤ a) {lam : ℝ} (hl : 0 ≤ lam) :
    IsConvexFnOn (fun z => lam * maxCoord fun i => wt w i * |z i|) (topZero w) := by
  intro x hx y hy s t hs ht hst
  refine ⟨fun i hi => ?_, ?_⟩
  · dsimp only
    rw [hx i hi, hy i hi]; ring
  · have h : (maxCoord fun i => wt w i * |s * x i + t * y i|) ≤
        s * (maxCoord fun i => wt w i * |x i|) + t * maxCoord fun i => wt w i * |y i| := by
      refine maxCoord_le fun i => ?_
      have h1 := mul_le_mul_of_nonneg_left (le_maxCoord (fun i => wt w i * |x i|) i) hs
      have h2 := mul_le_mul_of_nonneg_left (le_maxCoord (fun i => wt w i * |y i|) i) ht
      have h3 := abs_add_le (s * x i) (t * y i)
      rw [abs_mul, abs_mul, abs_of_nonneg hs, abs_of_nonneg ht] at h3
      have := mul_le_mul_of_nonneg_left h3 (wt_nn hw i)
      linarith
    have := mul_le_mul_of_nonneg_left h hl
    dsimp only
    linarith

/-- **C106** (partial) The weighted `supnorm` with a Lagrange multiplier stands for `lam * max_i w_i |z_i|` of `z = x - offset`, with
`z_i = 0` wherever the weight is infinite, plus its quadratic.  Finite weights are positive and at most `1e20`, and there is one.
Missing: zero weights, for which `lagrange_prox` can return nan (`C23_sup_lagrange_prox_fails`), and the case of no finite weight,
`C106_weighted_sup_infinite_fails`. -/
theorem C106_weighted_sup_lagrange_partial (w : Fin (p + 1) → WithTop ℝ)
    (hw : ∀ i (a : ℝ), w i = (a : WithTop ℝ) → 0 < a ∧ a ≤ 10 ^ 20) (hfin : ∃ i, w i ≠ ⊤)
    (sort : (Fin (p + 1) → ℝ) → List (ℝ × ℝ)) (hsort : ∀ x, IsDescArgsort (Weighted.keep (Weighted.invweights w) x) (sort x))
    (lam : ℝ) (hl : 0 ≤ lam) (offset : Option (PyVec (Fin (p + 1)) ℝ)) (sq : Quad (Fin (p + 1)) ℝ) (hsq : 0 ≤ sq.coef) :
    IsAtomFor ((Weighted.supcls w sort).atom (.lagrange lam) offset sq)
      (shiftedPen (fun z => lam * maxCoord fun i => wt w i * |z i|) (topZero w) offset sq) := by
  have hw0 : ∀ i (a : ℝ), w i = (a : WithTop ℝ) → 0 ≤ a := fun i a h => (hw i a h).1.le
  have hne : ∀ i, w i ≠ ((0:ℝ) : WithTop ℝ) := fun i h => lt_irrefl _ (hw i 0 h).1
  refine C90_seminorm_lagrange _ lam _ _ (fun x L hL => ?_) (fun x hx => ?_) (fun x => ?_) (wsup_cv w hw0 hl) offset sq hsq
  · obtain ⟨R, P, h1, h2, h3⟩ := C23_sup_lagrange_prox_partial w (fun i a h => Or.inr (hw i a h)) x hL hl
      (Or.inr (by
        obtain ⟨i, hi⟩ := hfin
        obtain ⟨a, ha⟩ := WithTop.ne_top_iff_exists.1 hi
        exact ⟨i, by rw [wt_coe' ha.symm]; exact (hw i a ha.symm).1.ne'⟩)) (Or.inl hne) (sort x) (hsort x)
    refine ⟨P, ?_, h3⟩
    show (Weighted.supLagrangeProx w (sort x) x L lam).bind Weighted.noNan = _
    rw [h1]
    exact noNan_eq h2
  · show Weighted.objOf (Weighted.supSeminorm w x lam false) = _
    unfold Weighted.supSeminorm
    rw [if_neg (fun h => by cases h.1), sup_max w hw0 hfin]
    rfl
  · show Weighted.objOf (Weighted.supSeminorm w x lam true) ≠ _
    unfold Weighted.supSeminorm
    rw [sup_max w hw0 hfin]
    split_ifs <;> exact ofTop_ne' _

/-- **C106** (partial) The weighted `supnorm` with a bound stands for the constraints `w_i |z_i| ≤ bound`, `z_i = 0` wherever the weight
is infinite, on `z = x - offset`, plus its quadratic.  Missing: `bound = 0` together with a zero weight, where `bound_prox` returns nan
(`C23_sup_bound_zero_fails`), and the case of no finite weight. -/
theorem C106_weighted_sup_bound_partial (w : Fin (p + 1) → WithTop ℝ) (hw : ∀ i (a : ℝ), w i = (a : WithTop ℝ) → 0 ≤ a)
    (hfin : ∃ i, w i ≠ ⊤) (sort : (Fin (p + 1) → ℝ) → List (ℝ × ℝ)) (b : ℝ) (hb : 0 ≤ b)
    (hnan : 0 < b ∨ ∀ i, w i ≠ ((0:ℝ) : WithTop ℝ)) (offset : Option (PyVec (Fin (p + 1)) ℝ)) (sq : Quad (Fin (p + 1)) ℝ)
    (hsq : 0 ≤ sq.coef) :
    IsAtomFor ((Weighted.supcls w sort).atom (.bound b) offset sq)
      (shiftedPen (fun _ => 0) {z | z ∈ topZero w ∧ ∀ i, wt w i * |z i| ≤ b} offset sq) := by
  refine C90_seminorm_bound _ b _ (fun x => ?_) (fun x => ?_) (indicator_cv ?_) offset sq hsq
  · obtain ⟨P, h1, h2⟩ := C23_sup_bound_prox_partial w hw x hb hnan
    exact ⟨P, noNan_eq h1, h2⟩
  · show Weighted.objOf ((Weighted.supSeminorm w x 1 true).map _) ≠ _
    unfold Weighted.supSeminorm
    rw [sup_max w hw hfin]
    split_ifs <;> exact ofTop_ne' _
  · rintro x ⟨hx, hx'⟩ y ⟨hy, hy'⟩ s t hs ht hst
    refine ⟨(wsup_cv w hw (lam := 0) le_rfl x hx y hy s t hs ht hst).1, fun i => ?_⟩
    have h3 := abs_add_le (s * x i) (t * y i)
    rw [abs_mul, abs_mul, abs_of_nonneg hs, abs_of_nonneg ht] at h3
    have h4 := mul_le_mul_of_nonneg_left h3 (wt_nn hw i)
    have h1 := mul_le_mul_of_nonneg_left (hx' i) hs
    have h2 := mul_le_mul_of_nonneg_left (hy' i) ht
    have e : s * b + t * b = b := by rw [← add_mul, hst, one_mul]
    dsimp only
    linarith

open Classical in
/-- **C106** The values of the weighted `supnorm`: `lam * max_i w_i|x_i|` over the finite weights; `constraint` accepts `x` exactly when
`w_i|x_i| ≤ bound (1 + 1e-5)` for the finite weights and `x_i = 0` for the infinite ones. -/
theorem C106_weighted_sup_values (w : Fin (p + 1) → WithTop ℝ) (hw : ∀ i (a : ℝ), w i = (a : WithTop ℝ) → 0 ≤ a)
    (hfin : ∃ i, w i ≠ ⊤) (sort : (Fin (p + 1) → ℝ) → List (ℝ × ℝ)) (x : Fin (p + 1) → ℝ) (lam b : ℝ) :
    (Weighted.supcls w sort).seminorm x lam false = .num (lam * maxCoord fun i => wt w i * |x i|) ∧
    ((Weighted.supcls w sort).seminorm x lam true =
      if x ∈ topZero w then .num (lam * maxCoord fun i => wt w i * |x i|) else .inf) ∧
    (Weighted.supcls w sort).constraint x b =
      if x ∈ topZero w ∧ ∀ i, wt w i * |x i| ≤ b * (1 + atomTol) then .num 0 else .inf := by
  have hz : x ∈ topZero w ↔ ¬ ∃ i, w i = ⊤ ∧ x i ≠ 0 := by
    constructor
    · rintro h ⟨i, h1, h2⟩; exact h2 (h i h1)
    · intro h i hi
      by_contra hc
      exact h ⟨i, hi, hc⟩
  have h1 : ∀ l, Weighted.supSeminorm w x l false = some ((l * maxCoord fun i => wt w i * |x i| : ℝ) : WithTop ℝ) := fun l => by
    unfold Weighted.supSeminorm
    rw [if_neg (fun h => by cases h.1), sup_max w hw hfin]
    rfl
  have h2 : ∀ l, Weighted.supSeminorm w x l true =
      if x ∈ topZero w then some ((l * maxCoord fun i => wt w i * |x i| : ℝ) : WithTop ℝ) else some ⊤ := fun l => by
    unfold Weighted.supSeminorm
    by_cases hx : x ∈ topZero w
    · rw [if_neg (fun h => (hz.1 hx) h.2), if_pos hx, sup_max w hw hfin]
      rfl
    · rw [if_pos ⟨rfl, by_contra fun h => hx (hz.2 h)⟩, if_neg hx]
  refine ⟨?_, ?_, ?_⟩
  · show Weighted.objOf (Weighted.supSeminorm w x lam false) = _
    rw [h1]; rfl
  · show Weighted.objOf (Weighted.supSeminorm w x lam true) = _
    rw [h2]
    split_ifs <;> rfl
  · show Weighted.objOf (Weighted.supConstraint w x b) = _
    unfold Weighted.supConstraint
    rw [h2]
    by_cases hx : x ∈ topZero w
    · rw [if_pos hx]
      by_cases hc : ∀ i, wt w i * |x i| ≤ b * (1 + atomTol)
      · rw [if_pos ⟨hx, hc⟩]
        show ObjVal.ofTop (if _ then _ else _) = _
        rw [if_pos (WithTop.coe_le_coe.2 (by rw [one_mul]; exact maxCoord_le hc))]
        rfl
      · rw [if_neg fun h => hc h.2]
        show ObjVal.ofTop (if _ then _ else _) = _
        rw [if_neg fun h => hc fun i => by
          have h := WithTop.coe_le_coe.1 h
          rw [one_mul] at h
          exact (le_maxCoord (fun i => wt w i * |x i|) i).trans h]
        rfl
    · rw [if_neg hx, if_neg fun h => hx h.1]
      show ObjVal.ofTop (if _ then _ else _) = _
      rw [if_neg fun h => WithTop.coe_ne_top (top_le_iff.1 h)]
      rfl

/-- **C106** fails without a finite weight: the objective at the only feasible point 0 raises (`max` of an empty array), in Lagrange and
in bound form with the feasibility check. -/
theorem C106_weighted_sup_infinite_fails (sort : (Fin m → ℝ) → List (ℝ × ℝ)) (lam b : ℝ) (sq : Quad (Fin m) ℝ) :
    (∀ c, ((Weighted.supcls (fun _ : Fin m => ⊤) sort).atom (.lagrange lam) none sq).nonsmooth (fun _ => 0) c = .nan) ∧
    ((Weighted.supcls (fun _ : Fin m => ⊤) sort).atom (.bound b) none sq).nonsmooth (fun _ => 0) true = .nan := by
  have hl : Weighted.supList (fun _ : Fin m => (⊤ : WithTop ℝ)) (fun _ => 0) = [] := by
    apply List.eq_nil_iff_forall_not_mem.2
    intro r hr
    obtain ⟨i, a, h, -⟩ := (mem_supList _ _ _).1 hr
    exact WithTop.coe_ne_top h.symm
  have h : ∀ l c, Weighted.supSeminorm (fun _ : Fin m => (⊤ : WithTop ℝ)) (fun _ => 0) l c = none := fun l c => by
    unfold Weighted.supSeminorm
    rw [if_neg (by rintro ⟨-, i, -, h⟩; exact h rfl), hl]
    rfl
  refine ⟨fun c => ?_, ?_⟩
  · show (Weighted.objOf (Weighted.supSeminorm (fun _ : Fin m => (⊤ : WithTop ℝ)) (fun _ => 0) lam c)).add _ = _
    rw [h]; rfl
  · show (Weighted.objOf (Weighted.supConstraint (fun _ : Fin m => (⊤ : WithTop ℝ)) (fun _ => 0) b)).add _ = _
    unfold Weighted.supConstraint
    rw [h]; rfl

/-! ### the conjugate of slope -/

/-- **C106** `slope_conjugate` with a bound stands for the constraint that `z = x - offset` is in the dual ball of the slope norm,
`⟨z,u⟩ ≤ bound` whenever `Σ_i w_i |u_π(i)| ≤ 1` for every order `π`, plus its quadratic; for decreasing positive weights, any correct
isotonic regression routine and any order of ties. -/
theorem C106_slope_conjugate_bound (iso : (Fin (p + 1) → ℝ) → Option (Fin (p + 1) → ℝ)) (hiso : IsIsoRoutine iso)
    (arg : (Fin (p + 1) → ℝ) → Equiv.Perm (Fin (p + 1))) (harg : ∀ x : Fin (p + 1) → ℝ, Monotone fun i => |x (arg x i)|)
    (w : Fin (p + 1) → ℝ) (hw : Antitone w) (hw0 : ∀ i, 0 < w i) (b : ℝ) (hb : 0 ≤ b)
    (offset : Option (PyVec (Fin (p + 1)) ℝ)) (sq : Quad (Fin (p + 1)) ℝ) (hsq : 0 ≤ sq.coef) :
    IsAtomFor ((Slope.conjCls iso arg w).atom (.bound b) offset sq)
      (shiftedPen (fun _ => 0)
        {z | ∀ u : Fin (p + 1) → ℝ, (∀ π : Equiv.Perm (Fin (p + 1)), ∑ i, w i * |u (π i)| ≤ 1) → dot z u ≤ b} offset sq) := by
  have hS : {y : Fin (p + 1) → ℝ | Slope.conjSeminorm w y 1 ≤ b} =
      {z | ∀ u : Fin (p + 1) → ℝ, (∀ π : Equiv.Perm (Fin (p + 1)), ∑ i, w i * |u (π i)| ≤ 1) → dot z u ≤ b} := by
    have hball : ∀ u : Fin (p + 1) → ℝ, Slope.seminorm w u 1 ≤ 1 ↔ ∀ π : Equiv.Perm (Fin (p + 1)), ∑ i, w i * |u (π i)| ≤ 1 := by
      intro u
      have hg := C20_seminorm_spec hw hw0 u (lagrange := 1) zero_le_one
      constructor
      · intro h π
        have := hg.2 ⟨π, rfl⟩
        rw [one_mul] at this
        exact this.trans h
      · intro h
        obtain ⟨π, hπ⟩ := hg.1
        rw [hπ, one_mul]; exact h π
    ext z
    have hg := (C20_conjugate_support_function hw hw0 z).1 _ rfl
    constructor
    · intro h u hu
      exact (hg.2 ⟨u, (hball u).2 hu, rfl⟩).trans h
    · intro h
      obtain ⟨u, hu, he⟩ := hg.1
      show Slope.conjSeminorm w z 1 ≤ b
      rw [← he]
      exact h u ((hball u).1 hu)
  refine C90_seminorm_bound _ b _ (fun x => ?_) (fun x => ofTop_ne' _) (indicator_cv ?_) offset sq hsq
  · rw [← hS]
    exact C20_conjugate_bound_prox hiso hw hw0 x (arg x) (harg x) hb
  · intro x hx y hy s t hs ht hst u hu
    have h1 := mul_le_mul_of_nonneg_left (hx u hu) hs
    have h2 := mul_le_mul_of_nonneg_left (hy u hu) ht
    have e : s * b + t * b = b := by rw [← add_mul, hst, one_mul]
    have hd : dot (fun i => s * x i + t * y i) u = s * dot x u + t * dot y u := by
      unfold dot
      rw [Finset.mul_sum, Finset.mul_sum, ← Finset.sum_add_distrib]
      exact Finset.sum_congr rfl fun i _ => by ring
    rw [hd]
    linarith

/-- **C106** fails for `slope_conjugate` in Lagrange form: its proximal map never answers (`lagrange_prox` raises
`NotImplementedError`). -/
theorem C106_slope_conjugate_lagrange_fails (iso : (Fin (p + 1) → ℝ) → Option (Fin (p + 1) → ℝ))
    (arg : (Fin (p + 1) → ℝ) → Equiv.Perm (Fin (p + 1))) (w : Fin (p + 1) → ℝ) (lam : ℝ)
    (offset : Option (PyVec (Fin (p + 1)) ℝ)) (sq Q : Quad (Fin (p + 1)) ℝ) (z : Fin (p + 1) → ℝ) :
    ((Slope.conjCls iso arg w).atom (.lagrange lam) offset sq).proximal Q ≠ .ok z := by
  intro h
  have h' : seminormProximal (fun _ _ _ => none) (Slope.conjCls iso arg w).boundProx (.lagrange lam) offset sq
    (some Q) = .ok z := h
  unfold seminormProximal at h'
  dsimp only at h'
  split at h'
  · cases h'
  · split_ifs at h'
    split at h' <;> cases h'

/-! ### `terms` -/

/-- **C106** `group_lasso.terms(x)` are the `w_g ‖x[g]‖₂`, and `seminorm(x, lagrange)` is `lagrange` times their sum. -/
theorem C106_group_terms (grp : Fin m → Fin q) (w : Fin q → ℝ) (x : Fin m → ℝ) :
    (∀ g, GroupLasso.terms grp w x g = w g * blockNorm grp x g) ∧
    ∀ l, GroupLasso.seminorm grp w x l = l * ∑ g, GroupLasso.terms grp w x g := by
  have h : ∀ g, GroupLasso.terms grp w x g = w g * blockNorm grp x g := fun g => by
    unfold GroupLasso.terms
    rw [blockNorm_sel, mul_comm]
  refine ⟨h, fun l => ?_⟩
  rw [C21_seminorm]
  simp only [h]
  rfl

/-- **C106** `sparse_group_lasso.terms(x)` are the `w_g ‖x[g]‖₂ + Σ_{i ∈ g} a_i |x_i|`, and `seminorm(x, lagrange)` is `lagrange` times
their sum. -/
theorem C106_sparse_group_terms (grp : Fin m → Fin q) (a : Fin m → ℝ) (ha : ∀ i, 0 ≤ a i) (w : Fin q → ℝ) (x : Fin m → ℝ) :
    (∀ g, SparseGroup.terms grp a w x g = w g * blockNorm grp x g + ∑ i, if grp i = g then a i * |x i| else 0) ∧
    ∀ l, SparseGroup.seminorm grp a w x l = l * ∑ g, SparseGroup.terms grp a w x g := by
  have h : ∀ g, SparseGroup.terms grp a w x g = w g * blockNorm grp x g + ∑ i, if grp i = g then a i * |x i| else 0 := fun g => by
    unfold SparseGroup.terms SparseGroupPath.Penalty.term
    rw [blockNorm_sel, mul_comm]
    congr 1
    rw [← Finset.sum_filter, Finset.sum_subtype (p := fun i => grp i = g) (Finset.univ.filter fun i => grp i = g) (fun i => by simp)]
    refine Finset.sum_congr rfl fun i _ => ?_
    rw [abs_mul, abs_of_nonneg (ha i), mul_comm]
  refine ⟨h, fun l => ?_⟩
  rw [C22_seminorm grp a ha]
  simp only [h]
  rw [Finset.sum_add_distrib, Finset.sum_comm]
  simp only [Finset.sum_ite_eq, Finset.mem_univ, if_true]
  rw [add_comm]
  rfl

/-- **C106** `group_lasso_dual.terms(x, check_feasibility=False)`: the largest entry is the seminorm at `lagrange = 1`, and
`seminorm(x, lagrange)` is `lagrange` times it; with `check_feasibility=True` all entries are at most `b ≥ 0` exactly when
`‖x[g]‖₂ ≤ b w_g` for every group. -/
theorem C106_group_dual_terms [NeZero q] (grp : Fin m → Fin q) (w : Fin q → ℝ) (hw : ∀ j, 0 ≤ w j) (hpos : ∃ j, w j ≠ 0)
    (x : Fin m → ℝ) :
    (∃ M : ℝ, IsGreatest (Set.range (GroupLasso.dualTerms grp w x false)) (M : WithTop ℝ) ∧
      ∀ sort l c, (GroupLasso.dualCls grp w sort).seminorm x l c = .num (l * M)) ∧
    ∀ b : ℝ, 0 ≤ b → ((∀ g, GroupLasso.dualTerms grp w x true g ≤ (b : WithTop ℝ)) ↔ ∀ g, blockNorm grp x g ≤ b * w g) := by
  have hp : ∀ j, w j ≠ 0 → 0 < w j := fun j h => lt_of_le_of_ne (hw j) (Ne.symm h)
  have ht : ∀ g, GroupLasso.dualTerms grp w x false g =
      (((fun j => if w j = 0 then 0 else blockNorm grp x j / w j) g : ℝ) : WithTop ℝ) := fun g => by
    unfold GroupLasso.dualTerms
    by_cases h : w g = 0
    · rw [if_neg (by rw [h]; exact lt_irrefl _), if_neg fun h => by cases h.1]
      dsimp only
      rw [if_pos h]; rfl
    · rw [if_pos (hp g h), ← blockNorm_sel]
      dsimp only
      rw [if_neg h]
  refine ⟨⟨groupDualNorm grp w x, ⟨?_, ?_⟩, fun sort l c => ?_⟩, fun b hb => forall_congr' fun g => ?_⟩
  · obtain ⟨j, hj⟩ := exists_maxCoord fun j => if w j = 0 then 0 else blockNorm grp x j / w j
    exact ⟨j, by rw [ht]; exact congrArg _ hj.symm⟩
  · rintro _ ⟨j, rfl⟩
    rw [ht]
    exact WithTop.coe_le_coe.2 (le_maxCoord (fun j => if w j = 0 then 0 else blockNorm grp x j / w j) j)
  · show ObjVal.ofBotMul l (GroupLasso.dualSeminorm grp w x) = _
    rw [dual_val grp w hw hpos]; rfl
  · unfold GroupLasso.dualTerms
    rw [← blockNorm_sel]
    by_cases h : w g = 0
    · rw [if_neg (by rw [h]; exact lt_irrefl _), h, mul_zero]
      by_cases h0 : blockNorm grp x g > 0
      · rw [if_pos ⟨rfl, h0⟩]
        exact ⟨fun h => absurd (top_le_iff.1 h) WithTop.coe_ne_top, fun h => absurd h (not_le.2 h0)⟩
      · rw [if_neg fun h => h0 h.2]
        exact ⟨fun _ => not_lt.1 h0, fun _ => WithTop.coe_le_coe.2 hb⟩
    · rw [if_pos (hp g h), WithTop.coe_le_coe, div_le_iff₀ (hp g h)]

/-- **C106** (partial) The weighted `l1norm.terms(x)` for finite weights: they are the `w_i|x_i|`, and `seminorm(x, lagrange)` is
`lagrange` times their sum.  Missing: infinite weights, `C106_weighted_l1_terms_fails`. -/
theorem C106_weighted_l1_terms_partial (w : Fin m → ℝ) (hw : ∀ i, 0 ≤ w i) (x : Fin m → ℝ) :
    ∃ t : Fin m → ℝ, (∀ i, Weighted.l1Terms (fun i => (w i : WithTop ℝ)) x i = some ((t i : ℝ) : WithTop ℝ)) ∧ (∀ i, t i = w i * |x i|) ∧
      ∀ l c, Weighted.l1Seminorm (fun i => (w i : WithTop ℝ)) x l c = ((l * ∑ i, t i : ℝ) : WithTop ℝ) := by
  refine ⟨fun i => w i * |x i|, fun i => ?_, fun i => rfl, fun l c => ?_⟩
  · unfold Weighted.l1Terms
    rw [Weighted.wcase_coe, mul_comm]
  · unfold Weighted.l1Seminorm
    rw [if_neg (by rintro ⟨-, i, h, -⟩; exact WithTop.coe_ne_top h)]
    simp only [Weighted.wcase_coe]
    congr 2
    exact Finset.sum_congr rfl fun i _ => by rw [abs_mul, abs_of_nonneg (hw i), mul_comm]

/-- **C106** fails for the weighted `l1norm.terms` with infinite weights: a coefficient that is 0, as it must be, gives the term nan,
although the seminorm there is 0. -/
theorem C106_weighted_l1_terms_fails (w : Fin m → WithTop ℝ) (i : Fin m) (hi : w i = ⊤) (x : Fin m → ℝ) (hx : x i = 0) :
    Weighted.l1Terms w x i = none ∧ Weighted.l1Seminorm w (fun _ => 0) 1 true = 0 := by
  constructor
  · unfold Weighted.l1Terms
    rw [hi, Weighted.wcase_top, hx, abs_zero, if_pos rfl]
  · unfold Weighted.l1Seminorm
    rw [if_neg (by rintro ⟨-, i, -, h⟩; exact h rfl)]
    have : ∑ i, Weighted.wcase (w i) 0 (fun a => |(0:ℝ) * a|) = 0 := Finset.sum_eq_zero fun i _ => by
      cases h : w i with
      | top => rfl
      | coe a => rw [Weighted.wcase_coe, zero_mul, abs_zero]
    rw [this, mul_zero]; rfl

/-- **C106** fails for the weighted `supnorm.terms`, "the args that are maximized in computing the seminorm": for finite positive
weights the entries are `|x_i| / w_i`, so that their maximum is the seminorm for the inverse weights. -/
theorem C106_weighted_sup_terms_inverse (w : Fin (p + 1) → ℝ) (hw : ∀ i, 0 < w i) (x : Fin (p + 1) → ℝ) :
    (∀ i, Weighted.supTerms (fun i => (w i : WithTop ℝ)) x i = ((|x i| / w i : ℝ) : WithTop ℝ)) ∧
    ∃ M : ℝ, IsGreatest (Set.range (Weighted.supTerms (fun i => (w i : WithTop ℝ)) x)) (M : WithTop ℝ) ∧
      Weighted.supSeminorm (Weighted.invweights fun i => (w i : WithTop ℝ)) x 1 false = some ((M : ℝ) : WithTop ℝ) := by
  have ht : ∀ i, Weighted.supTerms (fun i => (w i : WithTop ℝ)) x i = ((|x i| / w i : ℝ) : WithTop ℝ) := fun i => by
    unfold Weighted.supTerms
    rw [Weighted.wcase_coe, if_neg (hw i).ne']
  have hinv : ∀ i, Weighted.invweights (fun i => (w i : WithTop ℝ)) i = ((1 / w i : ℝ) : WithTop ℝ) := fun i => by
    unfold Weighted.invweights
    rw [Weighted.wcase_coe, if_neg (hw i).ne']
  have e : (maxCoord fun i => wt (Weighted.invweights fun i => (w i : WithTop ℝ)) i * |x i|) = maxCoord fun i => |x i| / w i := by
    congr 1
    funext i
    rw [wt_coe' (hinv i)]; ring
  refine ⟨ht, maxCoord fun i => |x i| / w i, ⟨?_, ?_⟩, ?_⟩
  · obtain ⟨j, hj⟩ := exists_maxCoord fun i => |x i| / w i
    exact ⟨j, by rw [ht, hj]⟩
  · rintro _ ⟨j, rfl⟩
    rw [ht]
    exact WithTop.coe_le_coe.2 (le_maxCoord (fun i => |x i| / w i) j)
  · unfold Weighted.supSeminorm
    rw [if_neg (fun h => by cases h.1), sup_max _ (fun i a h => by
      rw [hinv] at h
      rw [← WithTop.coe_injective h]; exact (one_div_pos.2 (hw i)).le) ⟨0, by rw [hinv]; exact WithTop.coe_ne_top⟩, e]
    simp

/-- **C106** fails for the weighted `supnorm.terms`: with one feature of weight 2, at the point 1 the seminorm is 2 and the only term is
`1/2`. -/
theorem C106_weighted_sup_terms_fails :
    Weighted.supSeminorm (fun _ : Fin 1 => ((2:ℝ) : WithTop ℝ)) (fun _ => 1) 1 false = some ((2:ℝ) : WithTop ℝ) ∧
    ∀ i, Weighted.supTerms (fun _ : Fin 1 => ((2:ℝ) : WithTop ℝ)) (fun _ => 1) i = ((1 / 2 : ℝ) : WithTop ℝ) := by
  constructor
  · unfold Weighted.supSeminorm
    rw [if_neg (fun h => by cases h.1), sup_max _ (fun i a h => by
      rw [← WithTop.coe_injective h]; norm_num) ⟨0, WithTop.coe_ne_top⟩]
    obtain ⟨i, hi⟩ := exists_maxCoord fun i => wt (fun _ : Fin (0 + 1) => ((2:ℝ) : WithTop ℝ)) i * |(1:ℝ)|
    rw [hi, wt_coe' rfl]
    simp
  · intro i
    unfold Weighted.supTerms
    rw [Weighted.wcase_coe, if_neg (by norm_num), abs_one]

/-! ### `sparse_group_lasso_dual.terms` -/

/-- the part of the sparse group penalty on one group, a function of the coefficients of the group -/
noncomputable def groupPart (grp : Fin m → Fin q) (a : Fin m → ℝ) (w : Fin q → ℝ) (g : Fin q) (z : {v // grp v = g} → ℝ) : ℝ :=
  ∑ v : {v // grp v = g}, a v * |z v| + w g * Real.sqrt (∑ v, z v ^ 2)

private lemma sum_groups (grp : Fin m → Fin q) (f : Fin m → ℝ) : ∑ i, f i = ∑ g, ∑ v : {v // grp v = g}, f v := by
  rw [← Finset.sum_fiberwise Finset.univ grp f]
  exact Finset.sum_congr rfl fun g _ => Finset.sum_subtype (p := fun i => grp i = g) (Finset.univ.filter fun i => grp i = g)
    (fun i => by simp) _

private lemma pen_parts (grp : Fin m → Fin q) (a : Fin m → ℝ) (w : Fin q → ℝ) (z : Fin m → ℝ) :
    ∑ i, a i * |z i| + groupNorm grp w z = ∑ g, groupPart grp a w g (GroupPath.sel grp z g) := by
  unfold groupPart groupNorm
  rw [Finset.sum_add_distrib, sum_groups grp]
  congr 1
  exact Finset.sum_congr rfl fun g _ => by rw [blockNorm_sel]; rfl

private lemma dot_parts (grp : Fin m → Fin q) (x z : Fin m → ℝ) :
    dot x z = ∑ g, dot (GroupPath.sel grp x g) (GroupPath.sel grp z g) := sum_groups grp _

private lemma part_hom (grp : Fin m → Fin q) (a : Fin m → ℝ) (w : Fin q → ℝ) (g : Fin q) (c : ℝ) (z : {v // grp v = g} → ℝ)
    (hc : 0 ≤ c) : groupPart grp a w g (fun v => c * z v) = c * groupPart grp a w g z := by
  have h := npNorm_smul c z
  unfold npNorm at h
  unfold groupPart
  rw [h, abs_of_nonneg hc, mul_add, Finset.mul_sum]
  congr 1
  · exact Finset.sum_congr rfl fun v _ => by rw [abs_mul, abs_of_nonneg hc]; ring
  · ring

private lemma part_nonneg {grp : Fin m → Fin q} {a : Fin m → ℝ} (ha : ∀ i, 0 ≤ a i) {w : Fin q → ℝ} (hw : ∀ j, 0 ≤ w j) (g : Fin q)
    (z : {v // grp v = g} → ℝ) : 0 ≤ groupPart grp a w g z :=
  add_nonneg (Finset.sum_nonneg fun v _ => mul_nonneg (ha v) (abs_nonneg _)) (mul_nonneg (hw g) (Real.sqrt_nonneg _))

private lemma part_zero {grp : Fin m → Fin q} {a : Fin m → ℝ} (ha : ∀ i, 0 ≤ a i) {w : Fin q → ℝ} (hw : ∀ j, 0 ≤ w j)
    (hpos : ∀ i, 0 < a i + w (grp i)) (g : Fin q) (z : {v // grp v = g} → ℝ) (h : groupPart grp a w g z = 0) (v) : z v = 0 := by
  have h1 : 0 ≤ ∑ v : {v // grp v = g}, a v * |z v| := Finset.sum_nonneg fun v _ => mul_nonneg (ha v) (abs_nonneg _)
  have h2 : 0 ≤ w g * Real.sqrt (∑ v, z v ^ 2) := mul_nonneg (hw g) (Real.sqrt_nonneg _)
  unfold groupPart at h
  have h1' : ∑ v : {v // grp v = g}, a v * |z v| = 0 := by linarith
  have h2' : w g * Real.sqrt (∑ v, z v ^ 2) = 0 := by linarith
  have h3 := (Finset.sum_eq_zero_iff_of_nonneg fun (v : {v // grp v = g}) _ => mul_nonneg (ha v) (abs_nonneg (z v))).1 h1' v
    (Finset.mem_univ v)
  by_cases hav : a v = 0
  · have hwg : 0 < w g := by
      have := hpos v
      rw [hav, v.2, zero_add] at this
      exact this
    have h4 : Real.sqrt (∑ v, z v ^ 2) = 0 := (mul_eq_zero.1 h2').resolve_left hwg.ne'
    have h5 : ∑ v, z v ^ 2 = 0 := le_antisymm (Real.sqrt_eq_zero'.1 h4) (Finset.sum_nonneg fun v _ => sq_nonneg _)
    have h6 := (Finset.sum_eq_zero_iff_of_nonneg fun v _ => sq_nonneg (z v)).1 h5 v (Finset.mem_univ v)
    exact pow_eq_zero_iff (two_ne_zero) |>.1 h6
  · exact abs_eq_zero.1 ((mul_eq_zero.1 h3).resolve_left hav)

/-- **C106** The dual norm of the sparse group penalty is the largest of the dual norms of its groups, when every feature is
penalised: the entries of `sparse_group_lasso_dual.terms` are, exactly computed, "the args that are maximized". -/
theorem C106_sparse_dual_norm_groups [NeZero q] (grp : Fin m → Fin q) (a : Fin m → ℝ) (ha : ∀ i, 0 ≤ a i) (w : Fin q → ℝ)
    (hw : ∀ j, 0 ≤ w j) (hpos : ∀ i, 0 < a i + w (grp i)) (x : Fin m → ℝ) (gs : Fin q → ℝ)
    (hgs : ∀ g, IsDualNorm (groupPart grp a w g) (GroupPath.sel grp x g) (gs g)) (G : ℝ)
    (hG : IsDualNorm (fun z => ∑ i, a i * |z i| + groupNorm grp w z) x G) : G = maxCoord gs := by
  apply le_antisymm
  · refine hG.2 ?_
    rintro _ ⟨z, hz, rfl⟩
    dsimp only at hz
    rw [pen_parts] at hz
    have hM : 0 ≤ maxCoord gs := (dualNorm_nonneg (part_hom grp a w 0) (hgs 0)).trans (le_maxCoord gs 0)
    have h1 : ∀ g, dot (GroupPath.sel grp x g) (GroupPath.sel grp z g) ≤ maxCoord gs * groupPart grp a w g (GroupPath.sel grp z g) := by
      intro g
      rcases (part_nonneg ha hw g (GroupPath.sel grp z g)).eq_or_lt with h | h
      · rw [← h, mul_zero]
        refine le_of_eq (Finset.sum_eq_zero fun v _ => ?_)
        rw [part_zero ha hw hpos g _ h.symm v, mul_zero]
      · set c := groupPart grp a w g (GroupPath.sel grp z g) with hc
        have := (hgs g).1 ⟨fun v => 1 / c * GroupPath.sel grp z g v, by
          rw [part_hom grp a w g _ _ (one_div_pos.2 h).le, ← hc, one_div, inv_mul_cancel₀ h.ne'], rfl⟩
        have e : dot (GroupPath.sel grp x g) (fun v => 1 / c * GroupPath.sel grp z g v) =
            dot (GroupPath.sel grp x g) (GroupPath.sel grp z g) / c := by
          unfold dot
          rw [Finset.sum_div]
          exact Finset.sum_congr rfl fun v _ => by ring
        rw [e, div_le_iff₀ h] at this
        exact this.trans (mul_le_mul_of_nonneg_right (le_maxCoord gs g) h.le)
    rw [dot_parts grp]
    refine (Finset.sum_le_sum fun g _ => h1 g).trans ?_
    rw [← Finset.mul_sum]
    exact (mul_le_mul_of_nonneg_left hz hM).trans (by rw [mul_one])
  · refine maxCoord_le fun g => (hgs g).2 ?_
    rintro _ ⟨y, hy, rfl⟩
    have hsel : ∀ k, GroupPath.sel grp (fun i => if h : grp i = g then y ⟨i, h⟩ else 0) k =
        if h : k = g then fun v : {v // grp v = k} => y ⟨v.1, v.2.trans h⟩ else fun _ => 0 := by
      intro k
      funext v
      unfold GroupPath.sel
      by_cases hk : k = g
      · subst hk
        simp only [dif_pos v.2]
        rfl
      · rw [dif_neg hk]
        exact dif_neg fun h => hk (v.2.symm.trans h)
    have hsg : GroupPath.sel grp (fun i => if h : grp i = g then y ⟨i, h⟩ else 0) g = y := by rw [hsel, dif_pos rfl]
    have h0 : ∀ k, k ≠ g → groupPart grp a w k (fun _ => 0) = 0 := fun k hk => by unfold groupPart; simp
    refine hG.1 ⟨fun i => if h : grp i = g then y ⟨i, h⟩ else 0, ?_, ?_⟩
    · dsimp only
      rw [pen_parts, Finset.sum_eq_single g, hsg]
      · exact hy
      · intro k _ hk
        rw [hsel, dif_neg hk]; exact h0 k hk
      · intro h; exact absurd (Finset.mem_univ g) h
    · rw [dot_parts grp, Finset.sum_eq_single g, hsg]
      · intro k _ hk
        rw [hsel, dif_neg hk]
        unfold dot
        simp
      · intro h; exact absurd (Finset.mem_univ g) h

/-- **C106** (partial) `sparse_group_lasso_dual.terms(x)`: for every point every search ends, and the entry of a group approximates the
dual norm of the penalty on this group; the largest of these dual norms is the dual norm of the whole penalty.  Missing: the entries are
off by the factor `1 + 1e-5/ρ` of the tolerance of the membership test; `ρ` is a lower bound of the total weight of a feature. -/
theorem C106_sparse_dual_terms_partial [NeZero q] (grp : Fin m → Fin q) (a : Fin m → ℝ) (ha : ∀ i, 0 ≤ a i) (w : Fin q → ℝ)
    (hw : ∀ j, 0 ≤ w j) {ρ : ℝ} (hρ : 0 < ρ) (hpos : ∀ i, ρ ≤ a i + w (grp i)) (x : Fin m → ℝ) (gs : Fin q → ℝ)
    (hgs : ∀ g, IsDualNorm (groupPart grp a w g) (GroupPath.sel grp x g) (gs g)) :
    IsDualNorm (fun z => ∑ i, a i * |z i| + groupNorm grp w z) x (maxCoord gs) ∧
    ∃ N, ∀ fuel, N ≤ fuel → ∀ g, ∃ r, SparseGroup.dualTerms grp a w x fuel g = some r ∧
      GaugeAnswer (gs g) (1 / 10 ^ 6 / (1 - 1 / 10 ^ 6 / 2)) (1 / 10 ^ 5 / ρ) 0 50 r := by
  have hp : ∀ i, 0 < a i + w (grp i) := fun i => lt_of_lt_of_le hρ (hpos i)
  constructor
  · obtain ⟨G, hG⟩ := C50_dual_norm_exists grp a ha w hw hp x
    rw [← C106_sparse_dual_norm_groups grp a ha w hw hp x gs hgs G hG]
    exact hG
  · have h : ∀ g, ∃ N, ∀ fuel, N ≤ fuel → ∃ r, SparseGroup.dualTerms grp a w x fuel g = some r ∧
        GaugeAnswer (gs g) (1 / 10 ^ 6 / (1 - 1 / 10 ^ 6 / 2)) (1 / 10 ^ 5 / ρ) 0 50 r := fun g =>
      C50_strong_terms_partial (GroupPath.sel grp a g) (fun v => ha v) (hw g) hρ
        (fun v => by have := hpos v; rw [v.2] at this; exact this) (GroupPath.sel grp x g) (hgs g) (by norm_num) (by norm_num)
        (by norm_num) 50
    choose N hN using h
    exact ⟨Finset.univ.sup N, fun fuel hf g => hN g fuel ((Finset.le_sup (Finset.mem_univ g)).trans hf)⟩

/-! ### values with the feasibility check -/

/-- **C106** (partial) `sparse_group_lasso_dual.seminorm(x, lagrange)` of an object in bound form, for every point: the search ends, and
the value is `r * lagrange` for a number `r` that approximates the dual norm `g` of `x`; it is 0 only if `g ≤ (1 + η) / 2^50`, and `inf`
(nan for `lagrange = 0`) only if `g > 2^50`.  Missing: the factor `1 + η` of the tolerance `1e-7` of the membership test, and the two
exceptional answers; in Lagrange form the seminorm raises (`C106_sparse_dual_lagrange_fails`). -/
theorem C106_sparse_dual_seminorm_partial (grp : Fin m → Fin q) (a : Fin m → ℝ) (ha : ∀ i, 0 ≤ a i) (w : Fin q → ℝ)
    (hw : ∀ j, 0 ≤ w j) {ρ : ℝ} (hρ : 0 < ρ) (hpos : ∀ i, ρ ≤ a i + w (grp i)) (x : Fin m → ℝ) {g : ℝ}
    (hg : IsDualNorm (fun z => ∑ i, a i * |z i| + groupNorm grp w z) x g) (b : ℝ) :
    ∃ N, ∀ fuel, N ≤ fuel → ∀ l c,
      let η := max 1 (∑ i, a i + ∑ j, w j) / ((10 ^ 7 - 1) * ρ)
      let τ : ℝ := 1 / 10 ^ 10 / (1 - 1 / 10 ^ 10 / 2)
      ((SparseGroup.dualCls grp a w (some b) fuel).seminorm x l c = .num 0 ∧ g ≤ (1 + η) / 2 ^ 50) ∨
      ((SparseGroup.dualCls grp a w (some b) fuel).seminorm x l c = (if l = 0 then .nan else .inf) ∧ 2 ^ 50 < g) ∨
      ∃ r, (SparseGroup.dualCls grp a w (some b) fuel).seminorm x l c = .num (r * l) ∧ 0 < r ∧ r ≤ (1 + τ) * g ∧
        g ≤ (1 + η) * ((1 + τ) * r) := by
  obtain ⟨N, hN⟩ := C50_sparse_group_partial grp a ha w hw hρ hpos x hg (tol := 1 / 10 ^ 10) (by norm_num) (by norm_num) 50
  refine ⟨N, fun fuel hf l c => ?_⟩
  obtain ⟨r, hr, h⟩ := hN fuel hf
  have e : (SparseGroup.dualCls grp a w (some b) fuel).seminorm x l c = Gauge.Result.times l (some r) := by
    show Gauge.Result.times l (Gauge.sparseGroup grp a w x (1 / 10 ^ 10) 50 fuel) = _
    rw [hr]
  dsimp only
  rw [e]
  cases r with
  | zero => exact Or.inl ⟨rfl, by simpa only [GaugeAnswer, add_zero] using h⟩
  | inf => exact Or.inr (Or.inl ⟨rfl, h⟩)
  | value r => exact Or.inr (Or.inr ⟨r, rfl, by simpa only [GaugeAnswer, add_zero] using h⟩)
  | unbound => exact h.elim
  | assertion => exact h.elim

/-- **C106** (partial) With the feasibility check `group_lasso_dual` in bound form returns its quadratic where `‖z[g]‖₂ ≤ bound * w_g` for
all groups of positive weight and `inf` elsewhere, `z = x - offset`.  Missing: the constraint `z[g] = 0` for the groups of weight 0,
`C106_group_dual_feasibility_fails`. -/
theorem C106_group_dual_feasibility_partial (grp : Fin m → Fin q) (w : Fin q → ℝ) (sort : (Fin m → ℝ) → List (ℝ × ℝ))
    (b : ℝ) (offset : Option (PyVec (Fin m) ℝ)) (sq : Quad (Fin m) ℝ) (x : Fin m → ℝ) :
    ((∀ j, 0 < w j → blockNorm grp (atomShift offset x) j ≤ b * w j) →
      ((GroupLasso.dualCls grp w sort).atom (.bound b) offset sq).nonsmooth x true = .num (sq.funcVal x)) ∧
    ((∃ j, 0 < w j ∧ b * w j < blockNorm grp (atomShift offset x) j) →
      ((GroupLasso.dualCls grp w sort).atom (.bound b) offset sq).nonsmooth x true = .inf) := by
  have e : ((GroupLasso.dualCls grp w sort).atom (.bound b) offset sq).nonsmooth x true =
      (ObjVal.ofTop (GroupLasso.dualConstraint grp w (atomShift offset x) b)).add (.num (sq.funcVal x)) := rfl
  have hd := dual_le grp w (atomShift offset x) (b : WithBot ℝ)
  constructor
  · intro h
    rw [e]
    unfold GroupLasso.dualConstraint
    rw [if_pos (hd.2 fun j hj => WithBot.coe_le_coe.2 ((div_le_iff₀ hj).2 (h j hj)))]
    show ObjVal.num (0 + sq.funcVal x) = _
    rw [zero_add]
  · rintro ⟨j, hj, hlt⟩
    rw [e]
    unfold GroupLasso.dualConstraint
    rw [if_neg fun h => absurd ((div_le_iff₀ hj).1 (WithBot.coe_le_coe.1 (hd.1 h j hj))) (not_le.2 hlt)]
    rfl

/-- **C106** fails for a group of weight 0 of `group_lasso_dual`: with groups `{0}` of weight 1 and `{1}` of weight 0, the point `(0,5)` is
declared feasible for every bound `b ≥ 0`, and in Lagrange form its value is 0; both times the penalty the proximal map works with is
infinite there. -/
theorem C106_group_dual_feasibility_fails (sort : (Fin 2 → ℝ) → List (ℝ × ℝ)) (b lam : ℝ) (hb : 0 ≤ b) :
    ((GroupLasso.dualCls (![0, 1] : Fin 2 → Fin 2) ![1, 0] sort).atom (.bound b) none (Quad.init none none none none)).nonsmooth
      ![0, 5] true = .num 0 ∧
    ((GroupLasso.dualCls (![0, 1] : Fin 2 → Fin 2) ![1, 0] sort).atom (.lagrange lam) none (Quad.init none none none none)).nonsmooth
      ![0, 5] true = .num 0 ∧
    ¬ (∀ j, blockNorm (![0, 1] : Fin 2 → Fin 2) ![0, 5] j ≤ b * (![1, 0] : Fin 2 → ℝ) j) ∧
    ¬ (∀ j, (![1, 0] : Fin 2 → ℝ) j = 0 → blockNorm (![0, 1] : Fin 2 → Fin 2) ![0, 5] j = 0) := by
  have h0 : blockNorm (![0, 1] : Fin 2 → Fin 2) ![0, 5] 0 = 0 := by unfold blockNorm; simp [Fin.sum_univ_two]
  have h1 : blockNorm (![0, 1] : Fin 2 → Fin 2) ![0, 5] 1 ≠ 0 := by unfold blockNorm; simp [Fin.sum_univ_two]
  have hw : ∀ j, 0 ≤ (![1, 0] : Fin 2 → ℝ) j := fun j => by fin_cases j <;> simp
  refine ⟨?_, ?_, fun h => ?_, fun h => h1 (h 1 (by simp))⟩
  · rw [(C106_group_dual_feasibility_partial _ _ sort b none _ _).1 fun j hj => ?_, quad0]
    show blockNorm (![0, 1] : Fin 2 → Fin 2) ![0, 5] j ≤ _
    fin_cases j
    · show blockNorm (![0, 1] : Fin 2 → Fin 2) ![0, 5] 0 ≤ b * 1
      rw [h0, mul_one]; exact hb
    · exact absurd hj (by simp)
  · show (ObjVal.ofBotMul lam (GroupLasso.dualSeminorm (![0, 1] : Fin 2 → Fin 2) ![1, 0] ![0, 5])).add
      (.num ((Quad.init none none none none).funcVal _)) = _
    rw [dual_val _ _ hw ⟨0, by simp⟩, quad0]
    have : groupDualNorm (![0, 1] : Fin 2 → Fin 2) ![1, 0] ![0, 5] = 0 := by
      obtain ⟨j, hj⟩ := exists_maxCoord fun j => if (![1, 0] : Fin 2 → ℝ) j = 0 then 0 else
        blockNorm (![0, 1] : Fin 2 → Fin 2) ![0, 5] j / (![1, 0] : Fin 2 → ℝ) j
      refine Eq.trans hj ?_
      fin_cases j
      · simp [h0]
      · simp
    rw [this]
    show ObjVal.num (lam * 0 + 0) = _
    simp
  · have := h 1
    simp only [Matrix.cons_val_one, Matrix.cons_val_fin_one, mul_zero] at this
    exact h1 (le_antisymm this (block_nonneg _ _ _))

/-- **C106** The values of `slope_conjugate`: `seminorm(x, lagrange)` is `lagrange` times the dual norm
`max {⟨x,u⟩ : Σ_i w_i |u_π(i)| ≤ 1 for every order π}`, and `constraint` accepts `x` exactly when this is at most `bound * (1 + 1e-5)`. -/
theorem C106_slope_conjugate_values (iso : (Fin (p + 1) → ℝ) → Option (Fin (p + 1) → ℝ))
    (arg : (Fin (p + 1) → ℝ) → Equiv.Perm (Fin (p + 1))) (w : Fin (p + 1) → ℝ) (hw : Antitone w) (hw0 : ∀ i, 0 < w i)
    (x : Fin (p + 1) → ℝ) :
    ∃ v, IsGreatest ((fun u => dot x u) '' {u | ∀ π : Equiv.Perm (Fin (p + 1)), ∑ i, w i * |u (π i)| ≤ 1}) v ∧
      (∀ l c, (Slope.conjCls iso arg w).seminorm x l c = .num (l * v)) ∧
      ∀ b, (v ≤ b * (1 + atomTol) → (Slope.conjCls iso arg w).constraint x b = .num 0) ∧
        (b * (1 + atomTol) < v → (Slope.conjCls iso arg w).constraint x b = .inf) := by
  have hball : {u : Fin (p + 1) → ℝ | Slope.seminorm w u 1 ≤ 1} =
      {u | ∀ π : Equiv.Perm (Fin (p + 1)), ∑ i, w i * |u (π i)| ≤ 1} := by
    ext u
    have hg := C20_seminorm_spec hw hw0 u (lagrange := 1) zero_le_one
    constructor
    · intro h π
      have := hg.2 ⟨π, rfl⟩
      rw [one_mul] at this
      exact this.trans h
    · intro h
      obtain ⟨π, hπ⟩ := hg.1
      show Slope.seminorm w u 1 ≤ 1
      rw [hπ, one_mul]; exact h π
  have hg := (C20_conjugate_support_function hw hw0 x).1 _ rfl
  rw [hball] at hg
  refine ⟨_, hg, fun l c => ?_, fun b => ⟨fun h => ?_, fun h => ?_⟩⟩
  · show ObjVal.num (Slope.conjSeminorm w x l) = _
    unfold Slope.conjSeminorm
    rw [one_mul]
  · show ObjVal.ofTop (Slope.conjConstraint w x b) = _
    unfold Slope.conjConstraint
    rw [if_pos h]; rfl
  · show ObjVal.ofTop (Slope.conjConstraint w x b) = _
    unfold Slope.conjConstraint
    rw [if_neg (not_le.2 h)]; rfl

/-- **C106** With the feasibility check, the objective in bound form of the primal classes `group_lasso`, `sparse_group_lasso`, the weighted
`l1norm` and `slope` is their quadratic where the norm of `z = x - offset` is at most `bound` times a tolerance factor (1 for
`group_lasso`, `1 + 1e-5` for the others), and `inf` elsewhere, in particular where a coefficient of infinite weight is not 0. -/
theorem C106_primal_feasibility (grp : Fin (p + 1) → Fin q) (a : Fin (p + 1) → ℝ) (ha : ∀ i, 0 ≤ a i) (w : Fin q → ℝ)
    (u : Fin (p + 1) → WithTop ℝ) (hu : ∀ i (c : ℝ), u i = (c : WithTop ℝ) → 0 ≤ c) (v : Fin (p + 1) → ℝ) (hv : Antitone v)
    (hv0 : ∀ i, 0 < v i) (sort : (Fin (p + 1) → ℝ) → List (ℝ × ℝ)) (iso : (Fin (p + 1) → ℝ) → Option (Fin (p + 1) → ℝ))
    (arg : (Fin (p + 1) → ℝ) → Equiv.Perm (Fin (p + 1))) (b : ℝ) (offset : Option (PyVec (Fin (p + 1)) ℝ))
    (sq : Quad (Fin (p + 1)) ℝ) (x : Fin (p + 1) → ℝ) :
    (∀ (k : SeminormClass (p + 1)) (S : Set (Fin (p + 1) → ℝ)),
      (k, S) ∈ ({(GroupLasso.cls grp w sort, {z | groupNorm grp w z ≤ b}),
        (SparseGroup.cls grp a w, {z | ∑ i, a i * |z i| + groupNorm grp w z ≤ b * (1 + 1 / 10 ^ 5)}),
        (Weighted.l1cls u sort, {z | z ∈ topZero u ∧ ∑ i, wt u i * |z i| ≤ b * (1 + 1 / 10 ^ 5)}),
        (Slope.cls iso arg v, {z | ∀ π : Equiv.Perm (Fin (p + 1)), ∑ i, v i * |z (π i)| ≤ b * (1 + 1 / 10 ^ 5)})} :
        Set (SeminormClass (p + 1) × Set (Fin (p + 1) → ℝ))) →
      (atomShift offset x ∈ S → (k.atom (.bound b) offset sq).nonsmooth x true = .num (sq.funcVal x)) ∧
      (atomShift offset x ∉ S → (k.atom (.bound b) offset sq).nonsmooth x true = .inf)) := by
  have key : ∀ (k : SeminormClass (p + 1)) (S : Set (Fin (p + 1) → ℝ)),
      (∀ z, (z ∈ S → k.constraint z b = .num 0) ∧ (z ∉ S → k.constraint z b = .inf)) →
      (atomShift offset x ∈ S → (k.atom (.bound b) offset sq).nonsmooth x true = .num (sq.funcVal x)) ∧
      (atomShift offset x ∉ S → (k.atom (.bound b) offset sq).nonsmooth x true = .inf) := by
    intro k S h
    have e : (k.atom (.bound b) offset sq).nonsmooth x true = (k.constraint (atomShift offset x) b).add (.num (sq.funcVal x)) := rfl
    rw [e]
    refine ⟨fun hx => ?_, fun hx => ?_⟩
    · rw [(h _).1 hx]
      show ObjVal.num (0 + _) = _
      rw [zero_add]
    · rw [(h _).2 hx]; rfl
  rintro k S (h | h | h | h)
  · cases h
    refine key _ _ fun z => ?_
    show (_ → ObjVal.ofTop (GroupLasso.constraint grp w z b) = _) ∧ (_ → ObjVal.ofTop (GroupLasso.constraint grp w z b) = _)
    unfold GroupLasso.constraint
    rw [C21_seminorm, one_mul]
    exact ⟨fun h => by rw [if_pos (show groupNorm grp w z ≤ b from h)]; rfl, fun h => by rw [if_neg (show ¬ groupNorm grp w z ≤ b from h)]; rfl⟩
  · cases h
    refine key _ _ fun z => ?_
    show (_ → (if SparseGroup.seminorm grp a w z 1 ≤ b * (1 + atomTol) then ObjVal.num 0 else .inf) = _) ∧
      (_ → (if SparseGroup.seminorm grp a w z 1 ≤ b * (1 + atomTol) then ObjVal.num 0 else .inf) = _)
    rw [C22_seminorm grp a ha, one_mul]
    exact ⟨fun h => if_pos h, fun h => if_neg h⟩
  · cases h
    refine key _ _ fun z => ?_
    show (_ → (if Weighted.l1Seminorm u z 1 true ≤ ((b * (1 + atomTol) : ℝ) : WithTop ℝ) then ObjVal.num 0 else .inf) = _) ∧
      (_ → (if Weighted.l1Seminorm u z 1 true ≤ ((b * (1 + atomTol) : ℝ) : WithTop ℝ) then ObjVal.num 0 else .inf) = _)
    have hs : ∑ i, Weighted.wcase (u i) 0 (fun c => |z i * c|) = ∑ i, wt u i * |z i| := Finset.sum_congr rfl fun i _ => by
      cases h : u i with
      | top => rw [wt_top' h, zero_mul]; rfl
      | coe c => rw [wt_coe' h, Weighted.wcase_coe, abs_mul, abs_of_nonneg (hu i c h), mul_comm]
    have hiff : Weighted.l1Seminorm u z 1 true ≤ ((b * (1 + atomTol) : ℝ) : WithTop ℝ) ↔
        z ∈ {z | z ∈ topZero u ∧ ∑ i, wt u i * |z i| ≤ b * (1 + 1 / 10 ^ 5)} := by
      unfold Weighted.l1Seminorm
      rw [hs, one_mul]
      by_cases hz : ∃ i, u i = ⊤ ∧ z i ≠ 0
      · rw [if_pos ⟨rfl, hz⟩]
        obtain ⟨i, h1, h2⟩ := hz
        exact ⟨fun h => absurd (top_le_iff.1 h) WithTop.coe_ne_top, fun h => absurd (h.1 i h1) h2⟩
      · rw [if_neg fun h => hz h.2, WithTop.coe_le_coe]
        refine ⟨fun h => ⟨fun i hi => by_contra fun hc => hz ⟨i, hi, hc⟩, h⟩, fun h => h.2⟩
    exact ⟨fun h => if_pos (hiff.2 h), fun h => if_neg fun hc => h (hiff.1 hc)⟩
  · cases h
    refine key _ _ fun z => ?_
    show (_ → ObjVal.ofTop (Slope.constraint v z b) = _) ∧ (_ → ObjVal.ofTop (Slope.constraint v z b) = _)
    have hg := C20_seminorm_spec hv hv0 z (lagrange := 1) zero_le_one
    have hiff : Slope.seminorm v z 1 ≤ b * (1 + atomTol) ↔
        z ∈ {z | ∀ π : Equiv.Perm (Fin (p + 1)), ∑ i, v i * |z (π i)| ≤ b * (1 + 1 / 10 ^ 5)} := by
      constructor
      · intro h π
        have := hg.2 ⟨π, rfl⟩
        rw [one_mul] at this
        exact this.trans h
      · intro h
        obtain ⟨π, hπ⟩ := hg.1
        rw [hπ, one_mul]; exact h π
    unfold Slope.constraint
    exact ⟨fun h => by rw [if_pos (hiff.2 h)]; rfl, fun h => by rw [if_neg fun hc => h (hiff.1 hc)]; rfl⟩

/-! ### the hypotheses are satisfiable -/

-- weights with a zero and a sort exist for `group_lasso_dual`
example : ∃ sort : (Fin 3 → ℝ) → List (ℝ × ℝ),
    IsAtomFor ((GroupLasso.dualCls (![0, 0, 1] : Fin 3 → Fin 2) ![2, 0] sort).atom (.lagrange 3) none (Quad.init none none none none))
      (shiftedPen (fun z => 3 * groupDualNorm (![0, 0, 1] : Fin 3 → Fin 2) ![2, 0] z)
        {z | ∀ j, (![2, 0] : Fin 2 → ℝ) j = 0 → blockNorm (![0, 0, 1] : Fin 3 → Fin 2) z j = 0} none (Quad.init none none none none)) := by
  choose sort hs using fun x : Fin 3 → ℝ => exists_argsort (GroupLasso.knotInput (![0, 0, 1] : Fin 3 → Fin 2) ![2, 0] x)
  refine ⟨sort, C106_group_lasso_dual _ _ (fun j => ?_) ⟨0, by simp⟩ sort hs 3 (by norm_num) none _ le_rfl⟩
  fin_cases j
  · right; norm_num
  · left; rfl

-- an infinite weight, and a sort, for the weighted `supnorm`
example : ∃ sort : (Fin 2 → ℝ) → List (ℝ × ℝ),
    IsAtomFor ((Weighted.supcls (![((2:ℝ) : WithTop ℝ), ⊤]) sort).atom (.lagrange 3) (some (.arr ![1, 0])) (Quad.init none none none none))
      (shiftedPen (fun z => 3 * maxCoord fun i => wt (![((2:ℝ) : WithTop ℝ), ⊤]) i * |z i|) (topZero (![((2:ℝ) : WithTop ℝ), ⊤]))
        (some (.arr ![1, 0])) (Quad.init none none none none)) := by
  choose sort hs using fun x : Fin 2 → ℝ => exists_argsort (Weighted.keep (Weighted.invweights (![((2:ℝ) : WithTop ℝ), ⊤])) x)
  refine ⟨sort, C106_weighted_sup_lagrange_partial _ (fun i a h => ?_) ⟨0, WithTop.coe_ne_top⟩ sort hs 3 (by norm_num) _ _ le_rfl⟩
  fin_cases i
  · have := WithTop.coe_injective h
    rw [← this]; norm_num
  · exact absurd h.symm WithTop.coe_ne_top

-- decreasing weights, the routine of the library and an order of ties for `slope_conjugate`
example : ∃ arg : (Fin 2 → ℝ) → Equiv.Perm (Fin 2), (∀ x : Fin 2 → ℝ, Monotone fun i => |x (arg x i)|) ∧
    IsIsoRoutine (Slope.isoPy 3 : (Fin 2 → ℝ) → Option (Fin 2 → ℝ)) ∧ Antitone (![2, 1] : Fin 2 → ℝ) ∧ ∀ i, 0 < (![2, 1] : Fin 2 → ℝ) i := by
  refine ⟨fun x => Tuple.sort fun i => |x i|, fun x => Tuple.monotone_sort fun i => |x i|, C20_isoPy 3 (by norm_num), ?_, ?_⟩
  · intro i j hij
    fin_cases i <;> fin_cases j <;> simp_all
  · intro i
    fin_cases i <;> simp

-- the dual norms of the groups exist: one group of two features, lasso weights 1, group weight 1
example : ∃ gs : Fin 1 → ℝ, ∀ g, IsDualNorm (groupPart (fun _ : Fin 2 => (0 : Fin 1)) (fun _ => 1) (fun _ => 1) g)
    (GroupPath.sel (fun _ : Fin 2 => (0 : Fin 1)) ![1, 3] g) (gs g) := by
  have h : ∀ g : Fin 1, ∃ v, IsDualNorm (groupPart (fun _ : Fin 2 => (0 : Fin 1)) (fun _ => 1) (fun _ => 1) g)
      (GroupPath.sel (fun _ : Fin 2 => (0 : Fin 1)) ![1, 3] g) v := fun g =>
    dualNorm_exists (part_hom _ _ _ g) one_pos (fun z => by
      rw [one_mul]
      unfold groupPart npNorm
      have : 0 ≤ ∑ v : {v : Fin 2 // (0 : Fin 1) = g}, 1 * |z v| := Finset.sum_nonneg fun v _ => by positivity
      linarith) _
  choose gs hgs using h
  exact ⟨gs, hgs⟩

end Verif.Props
