import Verif.Props.C93_MixedObj
import Verif.Lemmas.Smoothed

/-!
# C93: values, conjugates and smoothing of mixed LASSO objects
-/

set_option linter.unusedSectionVars false
set_option linter.unusedVariables false

namespace Verif.Props
open Verif.Model Verif.Lemmas Verif.Spec

variable {n : ℕ}

/-! ### values -/

private lemma applyOffset_eq (a : MixedObj (n + 1)) (x : Fin (n + 1) → ℝ) :
    a.applyOffset x = fun i => x i - offAt a.offset i := by
  unfold MixedObj.applyOffset offAt
  cases a.offset <;> simp

private lemma domain_of_ne_top {a : MixedObj (n + 1)} (hd : a.dual = false) {z : Fin (n + 1) → ℝ}
    (h : labelFn a.lab a.weights a.dual a.par z ≠ ⊤) : z ∈ labelDomain a.lab := by
  by_contra hz
  apply h
  unfold labelFn
  simp [hd, hz]

/-- **C93** what `nonsmooth_objective` of a mixed LASSO object reports: the penalty is evaluated after the offset has been
subtracted twice. -/
theorem C93_value_doubled (a : MixedObj (n + 1)) (hE : MixedObj.Enumerates a.order a.lab) (hd : a.dual = false)
    (x : Fin (n + 1) → ℝ) (hx : (fun i => x i - 2 * offAt a.offset i) ∈ labelDomain a.lab) :
    a.nonsmoothObjective x false =
      some (labelFn a.lab a.weights false a.par (fun i => x i - 2 * offAt a.offset i) + quadTop a.quad x) := by
  unfold MixedObj.nonsmoothObjective MixedObj.seminorm
  rw [if_neg (by rw [hd]; simp)]
  have e : a.applyOffset (a.applyOffset x) = fun i => x i - 2 * offAt a.offset i := by
    rw [applyOffset_eq, applyOffset_eq]; funext i; ring
  rw [e, C56_seminorm _ _ _ (by rw [domain_label a hE]; exact hx), penalty_label a hE, labelFn_false hx]
  show some ((((labelPenalty a.lab a.weights (fun i => x i - 2 * offAt a.offset i) * a.par : ℝ)) : WithTop ℝ) + _) = _
  rw [mul_comm, funcVal_quad]; rfl

/-- **C93** `nonsmooth_objective(x, check_feasibility=False)` is the documented function at every point where that is
finite, for the dual class and for mixed LASSO objects without offset.  Missing: offsets (`C93_offset_value_fails`). -/
theorem C93_value_partial (a : MixedObj (n + 1)) (hE : MixedObj.Enumerates a.order a.lab)
    (ho : a.dual = true ∨ a.offset = none) (x : Fin (n + 1) → ℝ)
    (hx : labelFn a.lab a.weights a.dual a.par (fun i => x i - offAt a.offset i) ≠ ⊤) :
    a.nonsmoothObjective x false = some (mixedFull a x) := by
  rcases Bool.eq_false_or_eq_true a.dual with hd | hd
  · unfold MixedObj.nonsmoothObjective mixedFull
    rw [if_pos hd]
    have : labelFn a.lab a.weights a.dual a.par (fun i => x i - offAt a.offset i) = 0 := by
      rw [hd] at hx ⊢
      unfold labelFn at hx ⊢
      by_cases h : (fun i => x i - offAt a.offset i) ∈ labelDualBall a.lab a.weights a.par
      · simp [h]
      · simp [h] at hx
    rw [this]
    simp [funcVal_quad, quadTop]
  · have ho' : a.offset = none := by
      rcases ho with h | h
      · rw [hd] at h; cases h
      · exact h
    have h0 : ∀ i, offAt a.offset i = 0 := by intro i; rw [ho']; rfl
    have hm := domain_of_ne_top hd hx
    rw [C93_value_doubled a hE hd x (by simpa [h0] using hm)]
    unfold mixedFull
    rw [hd]
    simp [h0]

/-- the hypotheses are met: one l1 coordinate and one nonnegative coordinate, at `(-3, 2)` -/
example : ∃ a : MixedObj 2, MixedObj.Enumerates a.order a.lab ∧ a.offset = none ∧
    labelFn a.lab a.weights a.dual a.par (fun i => (![-3, 2] : Fin 2 → ℝ) i - offAt (n := 1) a.offset i) ≠ ⊤ := by
  refine ⟨MixedObj.init false ![-2, -4] 3 (fun _ => none) [] none none, ⟨by simp [MixedObj.init], fun g => ?_⟩, rfl, ?_⟩
  · show g ∈ [] ↔ (∃ i : Fin 2, (![-2, -4] : Fin 2 → ℤ) i = g) ∧ _
    constructor
    · intro h; cases h
    · rintro ⟨⟨i, rfl⟩, h⟩
      revert h
      fin_cases i <;> decide
  · have : (fun i => (![-3, 2] : Fin 2 → ℝ) i - offAt (n := 1) none i) ∈ labelDomain (![-2, -4] : Fin 2 → ℤ) := by
      intro i hi
      fin_cases i
      · simp at hi
      · simp [offAt]
    show labelFn ![-2, -4] _ false 3 (fun i => (![-3, 2] : Fin 2 → ℝ) i - offAt (n := 1) none i) ≠ ⊤
    rw [labelFn_false this]
    exact WithTop.coe_ne_top

/-- one coordinate with a reserved label, no quadratic -/
private noncomputable def one (dual : Bool) (l : ℤ) (par : ℝ) (o : Option ℝ) : MixedObj 1 :=
  MixedObj.init dual (fun _ => l) par (fun _ => none) [] (o.map fun c => .arr fun _ => c) none

private lemma one_enum (dual : Bool) (l : ℤ) (hl : l ∈ [-1, -2, -3, -4]) (par : ℝ) (o : Option ℝ) :
    MixedObj.Enumerates (one dual l par o).order (one dual l par o).lab := by
  refine ⟨by simp [one, MixedObj.init], fun g => ⟨fun h => by simp [one, MixedObj.init] at h, ?_⟩⟩
  rintro ⟨⟨i, rfl⟩, h⟩
  exact absurd hl h

private lemma one_groups (l : ℤ) (hl : l ∈ [-1, -2, -3, -4]) : groupLabels (fun _ : Fin 1 => l) = ∅ := by
  ext g
  unfold groupLabels
  simp only [Finset.mem_filter, Finset.mem_image, Finset.mem_univ, true_and, Finset.notMem_empty, iff_false]
  rintro ⟨⟨i, rfl⟩, h⟩
  simp at hl
  omega

private lemma one_quad (dual : Bool) (l : ℤ) (par : ℝ) (o : Option ℝ) (x : Fin 1 → ℝ) :
    quadTop (one dual l par o).quad x = 0 := by
  unfold quadTop one MixedObj.init quadVal quadFn denote
  simp [dot]

private lemma one_off (dual : Bool) (l : ℤ) (par c : ℝ) (i : Fin 1) :
    offAt (n := 0) (one dual l par (some c)).offset i = c := by
  have := congrFun (offAt_ctor (n := 0) (some (.arr fun _ => c))) i
  exact this

private lemma one_off_none (dual : Bool) (l : ℤ) (par : ℝ) (i : Fin 1) :
    offAt (n := 0) (one dual l par none).offset i = 0 := rfl

/-- **C93** with an offset the reported value is not the documented one: for `mixed_lasso([-2], lagrange=1, offset=[1])`
the documented value at `[1]` is `|1 - 1| = 0`, the reported one is `|1 - 2| = 1`. -/
theorem C93_offset_value_fails : ∃ (a : MixedObj 1) (x : Fin 1 → ℝ), MixedObj.Enumerates a.order a.lab ∧ 0 < a.par ∧
    mixedFull (n := 0) a x = 0 ∧ a.nonsmoothObjective x false = some 1 := by
  have hE := one_enum false (-2) (by decide) 1 (some 1)
  have hdom : ∀ z, z ∈ labelDomain (one false (-2) 1 (some 1)).lab := by
    intro z i hi
    exact absurd hi (by show ¬ ((-2:ℤ) = -3 ∨ (-2:ℤ) = -4); decide)
  have hpen : ∀ z : Fin 1 → ℝ, labelPenalty (one false (-2) 1 (some 1)).lab (one false (-2) 1 (some 1)).weights z = |z 0| := by
    intro z
    show labelPenalty (fun _ => -2) _ z = |z 0|
    unfold labelPenalty
    rw [one_groups (-2) (by decide)]
    simp
  refine ⟨one false (-2) 1 (some 1), fun _ => 1, hE, one_pos, ?_, ?_⟩
  · unfold mixedFull
    rw [one_quad, show (one false (-2) 1 (some 1)).dual = false from rfl, labelFn_false (hdom _), hpen, one_off,
      show (one false (-2) 1 (some 1)).par = 1 from rfl]
    simp
  · rw [C93_value_doubled (n := 0) _ hE rfl _ (hdom _), one_quad, labelFn_false (hdom _), hpen, one_off,
      show (one false (-2) 1 (some 1)).par = 1 from rfl]
    norm_num

/-- **C93** with `check_feasibility=True` a feasible point can be reported infinite: for
`mixed_lasso([-4], lagrange=1)` at `[0]` the documented value is 0. -/
theorem C93_feasibility_fails : ∃ (a : MixedObj 1) (x : Fin 1 → ℝ), MixedObj.Enumerates a.order a.lab ∧ 0 < a.par ∧
    mixedFull (n := 0) a x = 0 ∧ a.nonsmoothObjective x true = some ⊤ := by
  have hE := one_enum false (-4) (by decide) 1 none
  refine ⟨one false (-4) 1 none, fun _ => 0, hE, one_pos, ?_, ?_⟩
  · have hdom : (fun i : Fin 1 => (0:ℝ) - offAt (n := 0) (one false (-4) 1 none).offset i) ∈ labelDomain (one false (-4) 1 none).lab := by
      intro i hi; dsimp only; rw [one_off_none]; simp
    unfold mixedFull
    rw [one_quad, show (one false (-4) 1 none).dual = false from rfl, labelFn_false hdom]
    show ((1 * labelPenalty (fun _ => -4) _ _ : ℝ) : WithTop ℝ) + 0 = 0
    unfold labelPenalty
    rw [one_groups (-4) (by decide)]
    simp
  · unfold MixedObj.nonsmoothObjective MixedObj.seminorm
    rw [if_neg (by show ¬ (false = true); simp)]
    have : mixedSeminorm (one false (-4) 1 none).kind (one false (-4) 1 none).weightArray
        ((one false (-4) 1 none).applyOffset ((one false (-4) 1 none).applyOffset fun _ => 0)) true (1 / 10 ^ 5) = ⊤ := by
      unfold mixedSeminorm
      rw [if_pos]
      refine ⟨rfl, Or.inr ⟨0, (kind_nn _ hE 0).2 rfl, ?_⟩⟩
      show (0:ℝ) < 1 / 10 ^ 5
      norm_num
    rw [this, WithTop.recTopCoe_top, if_pos (show 0 < (one false (-4) 1 none).par from one_pos)]
    rfl

/-! ### the constraint of the dual class -/

private lemma foldl_max_le {α : Type*} (l : List α) (P : α → Prop) [DecidablePred P] (F : α → WithBot ℝ) (v c : WithBot ℝ) :
    l.foldl (fun v i => if P i then max v (F i) else v) v ≤ c ↔ v ≤ c ∧ ∀ i ∈ l, P i → F i ≤ c := by
  induction l generalizing v with
  | nil => simp
  | cons a l ih =>
    rw [List.foldl_cons, ih]
    by_cases h : P a
    · simp [h, and_assoc]
    · simp [h]

private lemma dual_le (a : MixedObj (n + 1)) (hE : MixedObj.Enumerates a.order a.lab) (x : Fin (n + 1) → ℝ) (b : ℝ) :
    MixedKKT.dualSeminorm a.kind a.weightArray x ≤ (b : WithBot ℝ) ↔
      (∀ i, a.lab i = -2 → |x i| ≤ b) ∧ (∀ i, a.lab i = -3 → max (x i) 0 ≤ b) ∧
      ∀ g ∈ groupLabels a.lab, 0 < labelWeight a.lab a.weights g → labelNorm a.lab x g ≤ b * labelWeight a.lab a.weights g := by
  unfold MixedKKT.dualSeminorm
  simp only [foldl_max_le, bot_le, true_and, List.mem_finRange, forall_const, WithBot.coe_le_coe, normsCython_eq,
    ← kindNorm_eq, kindNorm_label a hE, weight_label, and_assoc, gt_iff_lt, kind_l1 a hE, kind_pp a hE]
  refine and_congr Iff.rfl (and_congr Iff.rfl ?_)
  rw [← forall_order a hE]
  refine forall_congr' fun j => ?_
  constructor
  · intro h hj; have := h hj; rwa [div_le_iff₀ hj] at this
  · intro h hj; rw [div_le_iff₀ hj]; exact h hj

/-- **C93** `constraint` of the dual class, without offset, when every coordinate has an l1 or positive part penalty or
belongs to a group of positive weight: it returns True exactly on the dual ball.  Missing: unpenalised and nonnegative
coordinates and groups of weight 0 (`C93_dual_constraint_fails`) and offsets (subtracted twice). -/
theorem C93_dual_constraint_partial (a : MixedObj (n + 1)) (hE : MixedObj.Enumerates a.order a.lab) (hd : a.dual = true)
    (ho : a.offset = none) (hl : ∀ i, a.lab i ≠ -1 ∧ a.lab i ≠ -4)
    (hw : ∀ g ∈ groupLabels a.lab, 0 < labelWeight a.lab a.weights g) (x : Fin (n + 1) → ℝ) (b : ℝ) (hb : 0 ≤ b) :
    a.constraint x (some b) = some true ↔ x ∈ labelDualBall a.lab a.weights b := by
  have e : ∀ z, a.applyOffset z = z := by intro z; unfold MixedObj.applyOffset; rw [ho]
  unfold MixedObj.constraint MixedObj.seminormDual
  rw [Option.map_some, if_pos hd, e, e, Option.some_inj, decide_eq_true_eq, dual_le a hE]
  constructor
  · rintro ⟨h1, h2, h3⟩
    exact ⟨fun i h => absurd h (hl i).1, h1, fun i h => le_trans (le_max_left _ _) (h2 i h),
      fun i h => absurd h (hl i).2, fun g hg => h3 g hg (hw g hg)⟩
  · rintro ⟨-, h1, h2, -, h3⟩
    exact ⟨h1, fun i h => max_le (h2 i h) hb, fun g hg _ => h3 g hg⟩

/-- the hypotheses are met: an l1 coordinate and a group of two with the default weight -/
example : ∃ a : MixedObj 3, MixedObj.Enumerates a.order a.lab ∧ a.dual = true ∧ a.offset = none ∧
    (∀ i, a.lab i ≠ -1 ∧ a.lab i ≠ -4) ∧ ∀ g ∈ groupLabels a.lab, 0 < labelWeight a.lab a.weights g := by
  refine ⟨MixedObj.init true ![-2, 0, 0] 1 (fun _ => none) [0] none none, ⟨by simp [MixedObj.init], fun g => ?_⟩, rfl, rfl, ?_, ?_⟩
  · show g ∈ [0] ↔ (∃ i : Fin 3, (![-2, 0, 0] : Fin 3 → ℤ) i = g) ∧ _
    constructor
    · intro h
      have : g = 0 := by simpa using h
      subst this
      exact ⟨⟨1, rfl⟩, by decide⟩
    · rintro ⟨⟨i, rfl⟩, h⟩
      revert h
      fin_cases i <;> decide
  · intro i
    show (![-2, 0, 0] : Fin 3 → ℤ) i ≠ -1 ∧ (![-2, 0, 0] : Fin 3 → ℤ) i ≠ -4
    fin_cases i <;> decide
  · intro g hg
    obtain ⟨i, -, rfl⟩ := Finset.mem_image.1 (Finset.mem_filter.1 hg).1
    unfold labelWeight
    show 0 < (none : Option ℝ).getD _
    rw [Option.getD_none]
    apply Real.sqrt_pos.2
    exact_mod_cast Finset.card_pos.2 ⟨i, by simp⟩

/-- **C93** `constraint` of the dual class ignores unpenalised coordinates: for `mixed_lasso_dual([-1], bound=1)` it
returns True at `[5]`, which is not in the dual ball (`proximal` projects on `{0}`). -/
theorem C93_dual_constraint_fails : ∃ (a : MixedObj 1) (x : Fin 1 → ℝ), MixedObj.Enumerates a.order a.lab ∧ a.dual = true ∧
    0 < a.par ∧ a.constraint x (some a.par) = some true ∧ mixedFull (n := 0) a x = ⊤ := by
  have hE := one_enum true (-1) (by decide) 1 none
  refine ⟨one true (-1) 1 none, fun _ => 5, hE, rfl, one_pos, ?_, ?_⟩
  · unfold MixedObj.constraint MixedObj.seminormDual
    rw [Option.map_some, if_pos (show (one true (-1) 1 none).dual = true from rfl), Option.some_inj, decide_eq_true_eq,
      dual_le (n := 0) _ hE]
    refine ⟨fun i h => absurd h (by show ¬ (-1:ℤ) = -2; decide), fun i h => absurd h (by show ¬ (-1:ℤ) = -3; decide),
      fun g hg => ?_⟩
    rw [show (one true (-1) 1 none).lab = fun _ => -1 from rfl, one_groups (-1) (by decide)] at hg
    cases hg
  · unfold mixedFull
    have : labelFn (one true (-1) 1 none).lab (one true (-1) 1 none).weights (one true (-1) 1 none).dual
        (one true (-1) 1 none).par (fun i => 5 - offAt (n := 0) (one true (-1) 1 none).offset i) = ⊤ := by
      show labelFn _ _ true _ _ = ⊤
      unfold labelFn
      rw [if_pos rfl, if_neg]
      intro h
      have := h.1 0 rfl
      dsimp only at this
      rw [one_off_none] at this
      norm_num at this
    rw [this, WithTop.top_add]

/-- **C93** `nonsmooth_objective(x, check_feasibility=True)` of the dual class adds the bool returned by `constraint`: for
`mixed_lasso_dual([-2], bound=1)` it is 1 at the feasible point `[0]` (documented 0) and 0 at the infeasible point
`[5]` (documented infinity). -/
theorem C93_dual_value_fails : ∃ (a : MixedObj 1) (x y : Fin 1 → ℝ), MixedObj.Enumerates a.order a.lab ∧ a.dual = true ∧
    0 < a.par ∧ mixedFull (n := 0) a x = 0 ∧ a.nonsmoothObjective x true = some 1 ∧ mixedFull (n := 0) a y = ⊤ ∧
      a.nonsmoothObjective y true = some 0 := by
  have hE := one_enum true (-2) (by decide) 1 none
  have hc : ∀ z, (one true (-2) 1 none).constraint ((one true (-2) 1 none).applyOffset z) (some 1) = some true ↔ |z 0| ≤ 1 := by
    intro z
    unfold MixedObj.constraint MixedObj.seminormDual
    rw [Option.map_some, if_pos (show (one true (-2) 1 none).dual = true from rfl), Option.some_inj, decide_eq_true_eq,
      dual_le (n := 0) _ hE]
    constructor
    · intro h; exact h.1 0 rfl
    · intro h
      refine ⟨fun i _ => ?_, fun i h => absurd h (by show ¬ (-2:ℤ) = -3; decide), fun g hg => ?_⟩
      · rw [show i = 0 from Fin.fin_one_eq_zero i]; exact h
      · rw [show (one true (-2) 1 none).lab = fun _ => -2 from rfl, one_groups (-2) (by decide)] at hg
        cases hg
  have hv : ∀ z, (one true (-2) 1 none).nonsmoothObjective z true =
      some (((if |z 0| ≤ 1 then 1 else 0 : ℝ)) : WithTop ℝ) := by
    intro z
    unfold MixedObj.nonsmoothObjective
    rw [if_pos (show (one true (-2) 1 none).dual = true from rfl)]
    have hq : (one true (-2) 1 none).quad.funcVal z = 0 := by
      have := one_quad true (-2) 1 none z
      unfold quadTop at this
      rw [funcVal_quad]
      exact_mod_cast this
    rw [hq, add_zero]
    have hp : (one true (-2) 1 none).par = 1 := rfl
    rw [hp]
    by_cases h : |z 0| ≤ 1
    · rw [(hc z).2 h]; simp [h]
    · have h' : ¬ (one true (-2) 1 none).constraint ((one true (-2) 1 none).applyOffset z) (some 1) = some true := fun e => h ((hc z).1 e)
      rw [if_neg h, if_neg]
      simp [h']
  have hf : ∀ z, mixedFull (n := 0) (one true (-2) 1 none) z = if |z 0| ≤ 1 then 0 else ⊤ := by
    intro z
    unfold mixedFull
    rw [one_quad, add_zero]
    show labelFn (fun _ => -2) _ true 1 _ = _
    unfold labelFn
    rw [if_pos rfl]
    have : (fun i => z i - offAt (n := 0) (one true (-2) 1 none).offset i) ∈
        labelDualBall (fun _ : Fin 1 => -2) (one true (-2) 1 none).weights 1 ↔ |z 0| ≤ 1 := by
      unfold labelDualBall
      rw [one_groups (-2) (by decide)]
      simp [one_off_none]
    by_cases h : |z 0| ≤ 1
    · rw [if_pos (this.2 h), if_pos h]
    · rw [if_neg (fun e => h (this.1 e)), if_neg h]
  refine ⟨one true (-2) 1 none, fun _ => 0, fun _ => 5, hE, rfl, one_pos, ?_, ?_, ?_, ?_⟩
  · rw [hf]; simp
  · rw [hv]; simp
  · rw [hf]; norm_num
  · rw [hv]; norm_num

/-- **C93** `constraint` of the primal class compares `lagrange` times the penalty with the bound: for
`mixed_lasso([-2], lagrange=2)` the point `[1]` with penalty 1 violates the bound 1. -/
theorem C93_constraint_fails : ∃ (a : MixedObj 1) (x : Fin 1 → ℝ), MixedObj.Enumerates a.order a.lab ∧ a.dual = false ∧
    0 < a.par ∧ a.offset = none ∧ labelPenalty a.lab a.weights x ≤ 1 ∧ a.constraint x (some 1) = some false ∧
    a.constraint x none = none := by
  have hE := one_enum false (-2) (by decide) 2 none
  have hpen : labelPenalty (one false (-2) 2 none).lab (one false (-2) 2 none).weights (fun _ => 1) = 1 := by
    show labelPenalty (fun _ => -2) _ _ = 1
    unfold labelPenalty
    rw [one_groups (-2) (by decide)]
    simp
  refine ⟨one false (-2) 2 none, fun _ => 1, hE, rfl, two_pos, rfl, hpen.le, ?_, rfl⟩
  unfold MixedObj.constraint
  rw [Option.map_some, if_neg (show ¬ (one false (-2) 2 none).dual = true by show ¬ false = true; simp)]
  have : (one false (-2) 2 none).seminorm ((one false (-2) 2 none).applyOffset fun _ => 1) false = some ((2 : ℝ) : WithTop ℝ) := by
    unfold MixedObj.seminorm
    rw [show (one false (-2) 2 none).applyOffset ((one false (-2) 2 none).applyOffset fun _ => 1) = fun _ => 1 from rfl, C56_seminorm _ _ _ (by
      rw [domain_label _ hE]; intro i _; exact zero_le_one), penalty_label _ hE, hpen]
    show some ((1 * 2 : ℝ) : WithTop ℝ) = _
    norm_num
  rw [this]
  simp

/-! ### conjugates -/

private lemma label_conj {lab : Fin (n + 1) → ℤ} {W : ℤ → Option ℝ} {r : ℝ} (hr : 0 ≤ r) (hw : GoodWeights lab W) (d : Bool)
    (α l : Fin (n + 1) → ℝ) (c : ℝ) :
    IsConjugate (fun x => labelFn lab W d r (fun i => x i - α i) + ((dot l x + c : ℝ) : WithTop ℝ))
      (fun y => labelFn lab W (!d) r (fun i => y i - l i) + ((dot α y + (-c - dot α l) : ℝ) : WithTop ℝ)) := by
  cases d with
  | false =>
    exact conj_support (label_support hr hw) (label_nonempty hr hw) (fun t ht x v h => label_hom t ht x v h)
      (fun y hy => label_sep hr hw y hy) α l c
  | true => exact conj_ind (label_support hr hw) α l c

private lemma quadTop_affine {q : Quad (Fin (n + 1)) ℝ} (h : q.coef = 0) (z : Fin (n + 1) → ℝ) :
    quadTop q z = ((dot (linearAt q) z + q.const : ℝ) : WithTop ℝ) := by
  unfold quadTop
  rw [← funcVal_quad, funcVal_eq, h]
  unfold dot
  congr 1; ring

/-- the object `conjugate` builds when the quadratic has coefficient 0 -/
private lemma conjugate_atom (a : MixedObj (n + 1)) (order' : List ℤ) (h0 : a.quad.coef = 0) :
    a.conjugate order' = .atom (MixedObj.init (!a.dual) a.lab a.par a.weights order'
      (workOutConjugate a.offset a.quad).1 (some (workOutConjugate a.offset a.quad).2)) := by
  unfold MixedObj.conjugate
  rw [if_pos h0]

/-- **C93** `conjugate` of a mixed LASSO object or of its dual, with any labels, nonnegative weights, nonnegative parameter,
array offset and linear term and without quadratic coefficient, is an object of the other class with the same labels,
weights and parameter, and denotes the Fenchel conjugate of the documented function. -/
theorem C93_conjugate (a : MixedObj (n + 1)) (hw : GoodWeights a.lab a.weights) (hpar : 0 ≤ a.par)
    (h0 : a.quad.coef = 0) (ho : ∀ c, a.offset ≠ some (.scalar c)) (order' : List ℤ) :
    ∃ c, a.conjugate order' = .atom c ∧ c.dual = (!a.dual) ∧ c.lab = a.lab ∧ c.weights = a.weights ∧ c.par = a.par ∧
      c.order = order' ∧ c.quad.coef = 0 ∧ IsConjugate (mixedFull a) (mixedFull c) := by
  refine ⟨_, conjugate_atom a order' h0, rfl, rfl, rfl, rfl, rfl, rfl, ?_⟩
  have key := label_conj hpar hw a.dual (offAt a.offset) (linearAt a.quad) a.quad.const
  set A : AtomObj (Fin (n + 1)) ℝ := ⟨.l1norm, ⟨some 1, none⟩, a.offset, a.quad⟩ with hA
  have e1 : mixedFull a = fun x => labelFn a.lab a.weights a.dual a.par (fun i => x i - offAt a.offset i) +
      ((dot (linearAt a.quad) x + a.quad.const : ℝ) : WithTop ℝ) := by
    funext x; unfold mixedFull; rw [quadTop_affine h0]
  have e2 : mixedFull (MixedObj.init (!a.dual) a.lab a.par a.weights order'
      (workOutConjugate a.offset a.quad).1 (some (workOutConjugate a.offset a.quad).2)) =
      fun y => labelFn a.lab a.weights (!a.dual) a.par (fun i => y i - linearAt a.quad i) +
        ((dot (offAt a.offset) y + (-a.quad.const - dot (offAt a.offset) (linearAt a.quad)) : ℝ) : WithTop ℝ) := by
    funext y
    unfold mixedFull
    show labelFn a.lab a.weights (!a.dual) a.par (fun i => y i - offAt (ctorOffset a.quad.linear) i) +
      quadTop (workOutConjugate a.offset a.quad).2 y = _
    rw [quadTop_affine rfl, offAt_ctor, linearAt_work A, const_work A ho]
    rfl
  rw [e1, e2]
  exact key

/-- **C93** `conjugate` of an object whose quadratic has a coefficient is a `smooth_conjugate` of it. -/
theorem C93_conjugate_smooth (a : MixedObj (n + 1)) (h0 : a.quad.coef ≠ 0) (order' : List ℤ) :
    a.conjugate order' = .smoothConjugate a := by
  unfold MixedObj.conjugate; rw [if_neg h0]

/-- **C93** conjugating twice gives back the documented function. -/
theorem C93_involution (a : MixedObj (n + 1)) (h0 : a.quad.coef = 0) (ho : ∀ c, a.offset ≠ some (.scalar c))
    (hlin : ∀ c, a.quad.linear ≠ some (.scalar c)) (order' order'' : List ℤ) :
    ∃ c d, a.conjugate order' = .atom c ∧ c.conjugate order'' = .atom d ∧ d.dual = a.dual ∧ mixedFull d = mixedFull a := by
  refine ⟨_, _, conjugate_atom a order' h0, conjugate_atom _ order'' rfl, by simp [MixedObj.init], ?_⟩
  set c : MixedObj (n + 1) := MixedObj.init (!a.dual) a.lab a.par a.weights order'
    (workOutConjugate a.offset a.quad).1 (some (workOutConjugate a.offset a.quad).2) with hc
  set A : AtomObj (Fin (n + 1)) ℝ := ⟨.l1norm, ⟨some 1, none⟩, a.offset, a.quad⟩ with hA
  set C : AtomObj (Fin (n + 1)) ℝ := ⟨.l1norm, ⟨some 1, none⟩, c.offset, c.quad⟩ with hC
  have hco : c.offset = ctorOffset a.quad.linear := rfl
  have hcq : c.quad = (workOutConjugate a.offset a.quad).2 := rfl
  have hoC : ArrayOffset C := by
    intro x hx
    have h1 : ctorOffset a.quad.linear = some (.scalar x) := hx
    rcases h : a.quad.linear with _ | v
    · rw [h] at h1; cases h1
    · rw [h] at h1
      unfold ctorOffset at h1
      simp only at h1
      split_ifs at h1
      rw [Option.some_inj] at h1
      exact hlin x (by rw [h, h1])
  have l1 : offAt c.offset = linearAt a.quad := by
    rw [hco, offAt_ctor]; rfl
  have l2 : linearAt c.quad = offAt a.offset := by rw [hcq]; exact linearAt_work A
  have l3 : c.quad.const = -a.quad.const - dot (offAt a.offset) (linearAt a.quad) := by rw [hcq]; exact const_work A ho
  funext z
  unfold mixedFull
  show labelFn a.lab a.weights (!(!a.dual)) a.par (fun i => z i - offAt (ctorOffset c.quad.linear) i) +
    quadTop (workOutConjugate c.offset c.quad).2 z = _
  rw [quadTop_affine rfl, quadTop_affine h0, offAt_ctor, linearAt_work C, const_work C hoC]
  have e : offAt c.quad.linear = offAt a.offset := l2
  rw [show C.offset = c.offset from rfl, show C.quad = c.quad from rfl, e, l1, l2, l3, Bool.not_not]
  congr 2
  have : dot (linearAt a.quad) (offAt a.offset) = dot (offAt a.offset) (linearAt a.quad) := by
    unfold dot; exact Finset.sum_congr rfl fun i _ => by ring
  rw [this]; ring

/-- the hypotheses of the conjugacy theorems are met: a group of two, an l1 coordinate, offset and linear term -/
example : ∃ a : MixedObj 3, GoodWeights a.lab a.weights ∧ 0 ≤ a.par ∧ a.quad.coef = 0 ∧
    (∀ c, a.offset ≠ some (.scalar c)) ∧ ∀ c, a.quad.linear ≠ some (.scalar c) := by
  refine ⟨⟨false, ![0, 0, -2], fun _ => some 1, [0], 2, some (.arr ![1, 2, 3]), ⟨0, none, some (.arr ![1, 0, 1]), 4⟩⟩,
    ?_, by norm_num, rfl, by simp, by simp⟩
  intro g _
  unfold labelWeight
  simp

/-! ### smooth conjugates -/

private lemma convexTop_of_conj {f g : (Fin n → ℝ) → WithTop ℝ} (h : IsConjugate f g) : ConvexTop g := by
  intro u v a b hu hv t ht ht1
  have hc := conj_convex h
  have := hc u (show g u ≠ ⊤ by rw [hu]; exact WithTop.coe_ne_top) v (show g v ≠ ⊤ by rw [hv]; exact WithTop.coe_ne_top)
    (1 - t) t (by linarith) ht (by ring)
  obtain ⟨h1, h2⟩ := this
  obtain ⟨c, hc'⟩ := WithTop.ne_top_iff_exists.1 h1
  refine ⟨c, hc'.symm, ?_⟩
  simp only [hu, hv, ← hc', WithTop.untopD_coe] at h2
  exact h2

private lemma label_convex {lab : Fin (n + 1) → ℤ} {W : ℤ → Option ℝ} {r : ℝ} (hr : 0 ≤ r) (hw : GoodWeights lab W) (d : Bool)
    (α : Fin (n + 1) → ℝ) : ConvexTop fun z => labelFn lab W d r (fun i => z i - α i) := by
  have h := convexTop_of_conj (label_conj hr hw (!d) 0 α 0)
  have e : (fun y => labelFn lab W (!!d) r (fun i => y i - α i) +
      ((dot (0 : Fin (n + 1) → ℝ) y + (-0 - dot 0 α) : ℝ) : WithTop ℝ)) =
      fun z => labelFn lab W d r (fun i => z i - α i) := by
    funext y
    rw [Bool.not_not]
    simp [dot]
  rw [e] at h
  exact h

private lemma mquery_val (s : MixedSmooth (n + 1)) (hcen : ArrayCenter s.smoothing) (x z : Fin (n + 1) → ℝ) :
    quadVal (some (s.query x)) z = quadVal (some s.smoothing) z - dot x z := by
  have h2 : ArrayCenter (⟨0, some (.scalar 0), some (.arr fun i => -x i), 0⟩ : Quad (Fin (n + 1)) ℝ) := by
    intro c hc; simp at hc; exact hc.symm
  have : s.query x = s.smoothing.add (some ⟨0, some (.scalar 0), some (.arr fun i => -x i), 0⟩) := rfl
  rw [this, quad_add_val _ _ hcen h2]
  have e : quadVal (some (⟨0, some (.scalar 0), some (.arr fun i => -x i), 0⟩ : Quad (Fin (n + 1)) ℝ)) z = -dot x z := by
    simp [quadVal, quadFn, denote, dot]
  rw [e]; ring

/-- **C93** `smooth_conjugate(f, q)` of a mixed LASSO object without offset, or of a dual object with any offset, with
positive parameter and coefficients adding to a positive number: `smooth_objective` returns in its three modes the
conjugate of `f + q` and the point where the supremum is attained, that point is the gradient, and the gradient is
Lipschitz with the constant in `lipschitz`.  Missing: mixed LASSO objects with an offset (`C93_smooth_value_fails`). -/
theorem C93_smooth_conjugate_partial (a : MixedObj (n + 1)) (hE : MixedObj.Enumerates a.order a.lab)
    (hw : GoodWeights a.lab a.weights) (hpar : 0 < a.par) (ho : a.dual = true ∨ a.offset = none)
    (q : Quad (Fin (n + 1)) ℝ) (hcen : ArrayCenter q) (hpos : 0 < a.quad.coef + q.coef) :
    ∃ s, MixedSmooth.init a q = some s ∧ s.atom = a ∧ s.smoothing = q ∧ s.lipschitz = 1 / (a.quad.coef + q.coef) ∧
      (∀ x, s.smoothObjective x .other = .valueError) ∧
      ∃ V G, Evaluates s.smoothObjective V G ∧ IsSmoothConjugate (fun z => mixedFull a z + quadTop q z) V G ∧
        (∀ x, IsGradientAt V (G x) x) ∧ IsLipschitzWith s.lipschitz G := by
  set s : MixedSmooth (n + 1) := ⟨a, q⟩ with hs
  have hlip : s.lipschitz = 1 / (a.quad.coef + q.coef) := rfl
  refine ⟨s, ?_, rfl, rfl, hlip, fun x => rfl, ?_⟩
  · unfold MixedSmooth.init
    rw [if_neg]
    show a.quad.coef + q.coef ≠ 0
    exact hpos.ne'
  have hlin : ∀ x, HasArray (s.query x) := by
    intro x
    refine Or.inr ?_
    show ∃ w, some (PyVec.map₂ (· + ·) q.collapsedLinear
      (⟨0, some (.scalar 0), some (.arr fun i => -x i), 0⟩ : Quad (Fin (n + 1)) ℝ).collapsedLinear) = some (.arr w)
    have : ∃ l, (⟨0, some (.scalar 0), some (.arr fun i => -x i), 0⟩ : Quad (Fin (n + 1)) ℝ).collapsedLinear = .arr l :=
      ⟨_, rfl⟩
    obtain ⟨l, hl⟩ := this
    rw [hl]
    cases q.collapsedLinear <;> exact ⟨_, rfl⟩
  have hqc : ∀ x, (s.query x).coef = q.coef := fun x => by
    show q.coef + 0 = q.coef
    ring
  choose G hG1 hG2 using fun x => C93_proximal_partial a hE hw hpar (s.query x) (hlin x) (by rw [hqc]; exact hpos)
  set F : (Fin (n + 1) → ℝ) → WithTop ℝ := fun z => labelFn a.lab a.weights a.dual a.par (fun i => z i - offAt a.offset i) with hF
  have hdom : ∀ x, ∃ v : ℝ, ((v : ℝ) : WithTop ℝ) = F (G x) := fun x => WithTop.ne_top_iff_exists.1 (hG2 x).1
  choose v hv using hdom
  have hfull : ∀ x, mixedFull a (G x) = ((v x + quadVal (some a.quad) (G x) : ℝ) : WithTop ℝ) := by
    intro x
    show F (G x) + quadTop a.quad (G x) = _
    rw [← hv]; rfl
  have hsol : ∀ x, a.solve (s.query x) = some (-(dot x (G x) - (v x + quadVal (some a.quad) (G x) + quadVal (some q) (G x))), G x) := by
    intro x
    unfold MixedObj.solve
    rw [hG1 x]
    dsimp only
    rw [C93_value_partial a hE ho (G x) (hG2 x).1, hfull]
    show some (0 + (v x + quadVal (some a.quad) (G x)) + (s.query x).funcVal (G x), G x) = _
    rw [funcVal_quad, mquery_val s hcen]
    congr 2
    show _ = _
    simp only [hs]
    ring
  have hconj : IsSmoothConjugate (fun z => mixedFull a z + quadTop q z)
      (fun x => dot x (G x) - (v x + quadVal (some a.quad) (G x) + quadVal (some q) (G x))) G := by
    intro x
    refine ⟨⟨v x + quadVal (some a.quad) (G x) + quadVal (some q) (G x), ?_, rfl⟩, fun z t ht hne => ?_⟩
    · dsimp only
      rw [hfull]; rfl
    · cases hFz : F z with
      | top =>
        exfalso
        have : mixedFull a z = ⊤ := by
          show F z + _ = ⊤
          rw [hFz, WithTop.top_add]
        dsimp only at ht
        rw [this, WithTop.top_add] at ht
        exact absurd ht (by simp)
      | coe u =>
        have h4 := (hG2 x).2 z (show F z ≠ ⊤ by rw [hFz]; exact WithTop.coe_ne_top) hne
        have e1 : labelFn a.lab a.weights a.dual a.par (fun i => z i - offAt a.offset i) = ((u : ℝ) : WithTop ℝ) := hFz
        have e2 : labelFn a.lab a.weights a.dual a.par (fun i => G x i - offAt a.offset i) = ((v x : ℝ) : WithTop ℝ) := (hv x).symm
        simp only [e1, e2, WithTop.untopD_coe, mquery_val s hcen] at h4
        have ht' : (((u + quadVal (some a.quad) z + quadVal (some q) z : ℝ)) : WithTop ℝ) = ((t : ℝ) : WithTop ℝ) := by
          rw [← ht]
          show _ = F z + quadTop a.quad z + quadTop q z
          rw [hFz]; rfl
        have ht'' := WithTop.coe_inj.1 ht'
        have hq' : s.smoothing = q := rfl
        rw [hq'] at h4
        simp only
        linarith
  have hsc : StronglyConvexTop (a.quad.coef + q.coef) (fun z => mixedFull a z + quadTop q z) :=
    strong_add_quads (label_convex hpar.le hw a.dual (offAt a.offset)) a.quad q
  refine ⟨_, G, fun x => ⟨?_, ?_, ?_⟩, hconj, fun x => smoothConj_gradient hpos hsc hconj x, ?_⟩
  · simp only [MixedSmooth.smoothObjective]
    rw [show s.atom = a from rfl, hsol]; simp
  · simp only [MixedSmooth.smoothObjective]
    rw [show s.atom.proximal (s.query x) = .ok (G x) from hG1 x]
  · simp only [MixedSmooth.smoothObjective]
    rw [show s.atom = a from rfl, hsol]; simp
  · rw [hlip]; exact smoothConj_lipschitz hpos hsc hconj

/-- the hypotheses are met: a dual object with an offset, smoothed by `1/2 ‖z‖²` -/
example : ∃ (a : MixedObj 2) (q : Quad (Fin 2) ℝ), MixedObj.Enumerates a.order a.lab ∧ GoodWeights a.lab a.weights ∧
    0 < a.par ∧ a.dual = true ∧ ArrayCenter (n := 1) q ∧ 0 < a.quad.coef + q.coef := by
  refine ⟨⟨true, ![3, 3], fun _ => some 1, [3], 2, some (.arr ![1, 2]), ⟨0, none, none, 0⟩⟩, ⟨1, none, none, 0⟩,
    ⟨by simp, fun g => ?_⟩, ?_, by norm_num, rfl, ?_, by norm_num⟩
  · show g ∈ [3] ↔ (∃ i : Fin 2, (![3, 3] : Fin 2 → ℤ) i = g) ∧ _
    constructor
    · intro h
      have : g = 3 := by simpa using h
      subst this
      exact ⟨⟨1, rfl⟩, by decide⟩
    · rintro ⟨⟨i, rfl⟩, h⟩
      revert h
      fin_cases i <;> decide
  · intro g _
    unfold labelWeight
    simp
  · intro c hc; simp at hc

/-- **C93** with an offset the value of a smooth conjugate is wrong: for `f = mixed_lasso([-2], lagrange=1, offset=[1])` with
the quadratic `1/2 z²`, `smooth_objective([1], 'func')` is smaller than `⟨x,z⟩ - f(z)` at `z = [1]`. -/
theorem C93_smooth_value_fails : ∃ (a : MixedObj 1) (s : MixedSmooth 1) (x z : Fin 1 → ℝ) (v c : ℝ),
    MixedObj.Enumerates a.order a.lab ∧ 0 < a.par ∧ MixedSmooth.init a = some s ∧ s.smoothObjective x .func = .val v ∧
      mixedFull (n := 0) a z = ((c : ℝ) : WithTop ℝ) ∧ v < dot x z - c := by
  set a : MixedObj 1 := ⟨false, fun _ => -2, fun _ => none, [], 1, some (.arr fun _ => 1), ⟨1, none, none, 0⟩⟩ with ha
  have hE : MixedObj.Enumerates a.order a.lab := one_enum false (-2) (by decide) 1 (some 1)
  have hdom : ∀ z, z ∈ labelDomain a.lab := by
    intro z i hi
    exact absurd hi (by show ¬ ((-2:ℤ) = -3 ∨ (-2:ℤ) = -4); decide)
  have hpen : ∀ z : Fin 1 → ℝ, labelFn a.lab a.weights a.dual a.par z = ((|z 0| : ℝ) : WithTop ℝ) := by
    intro z
    show labelFn (fun _ => -2) (fun _ => none) false 1 z = _
    rw [labelFn_false (lab := fun _ => -2) (hdom z)]
    unfold labelPenalty
    rw [one_groups (-2) (by decide)]
    simp
  have hoff : ∀ i, offAt (n := 0) a.offset i = 1 := fun i => rfl
  have hq : ∀ z : Fin 1 → ℝ, quadVal (some a.quad) z = 1 / 2 * z 0 ^ 2 := by
    intro z
    simp [ha, quadVal, quadFn, denote, dot, sqDist]
  set s : MixedSmooth 1 := ⟨a, ⟨0, some (.scalar 0), some (.scalar 0), 0⟩⟩ with hs
  have hqv : ∀ z : Fin 1 → ℝ, quadVal (some (s.query fun _ => 1)) z = - z 0 := by
    intro z
    have hz : ArrayCenter (n := 0) s.smoothing := by intro c hc; simp [hs] at hc; exact hc.symm
    rw [mquery_val (n := 0) s hz]
    simp [hs, quadVal, quadFn, denote, dot]
  have hw : GoodWeights a.lab a.weights := by
    intro g hg
    rw [show a.lab = fun _ => -2 from rfl, one_groups (-2) (by decide)] at hg
    cases hg
  obtain ⟨g, hg1, -, hg2⟩ := C93_proximal_partial (n := 0) a hE hw one_pos (s.query fun _ => 1) (Or.inr ⟨_, rfl⟩)
    (by show (0:ℝ) < 1 + (0 + 0); norm_num)
  have hgone : g = fun _ => 1 := by
    by_contra hne
    have h := hg2 (fun _ => 1) (by
      show labelFn _ _ _ _ _ ≠ ⊤
      rw [hpen]; exact WithTop.coe_ne_top) (fun h => hne h.symm)
    simp only [hpen, hq, hqv, hoff, WithTop.untopD_coe] at h
    rcases abs_cases (g 0 - 1) with ⟨h1, h2⟩ | ⟨h1, h2⟩ <;> rw [h1] at h <;> norm_num at h <;> nlinarith [sq_nonneg (g 0 - 1)]
  subst hgone
  have hval : a.nonsmoothObjective (fun _ => 1) false = some (((1 + 1 / 2 : ℝ)) : WithTop ℝ) := by
    rw [C93_value_doubled (n := 0) a hE rfl _ (hdom _)]
    have : labelFn a.lab a.weights false a.par (fun i => (1:ℝ) - 2 * offAt (n := 0) a.offset i) = ((1 : ℝ) : WithTop ℝ) := by
      have := hpen (fun i => (1:ℝ) - 2 * offAt (n := 0) a.offset i)
      rw [show a.dual = false from rfl] at this
      rw [this, hoff]; norm_num
    rw [this]
    unfold quadTop
    rw [hq, ← WithTop.coe_add]; norm_num
  have hsolve : a.solve (s.query fun _ => 1) = some (0 + (1 + 1 / 2) + -1, fun _ => 1) := by
    unfold MixedObj.solve
    rw [hg1]
    dsimp only
    rw [hval]
    show some (0 + (1 + 1 / 2) + (s.query fun _ => 1).funcVal fun _ => 1, fun _ => 1) = _
    rw [funcVal_quad, hqv]
  refine ⟨a, s, fun _ => 1, fun _ => 1, -(0 + (1 + 1 / 2) + -1), 1 / 2, hE, one_pos, ?_, ?_, ?_, ?_⟩
  · unfold MixedSmooth.init
    rw [if_neg]
    show ¬ ((1:ℝ) + 0 = 0)
    norm_num
  · simp only [MixedSmooth.smoothObjective]
    rw [show s.atom = a from rfl, hsolve]
  · unfold mixedFull
    rw [hpen, hoff]
    unfold quadTop
    rw [hq, ← WithTop.coe_add]; norm_num
  · norm_num [dot]

/-- **C93** `f.smoothed(q)` of a mixed LASSO object with any array offset and linear term, or of a dual object whose
linear term is absent or zero: it is built, evaluates `sup_u ⟨x,u⟩ - f*(u) - q(u)` for the conjugate `f*` of the documented
function, returns its gradient, and the gradient is Lipschitz with constant `1/q.coef`.  Missing: dual objects with a
linear term, for which the conjugate has an offset. -/
theorem C93_smoothed_partial (a : MixedObj (n + 1)) (hw : GoodWeights a.lab a.weights) (hpar : 0 < a.par)
    (h0 : a.quad.coef = 0) (ho : ∀ c, a.offset ≠ some (.scalar c))
    (hd : a.dual = false ∨ ∀ v, a.quad.linear = some v → v.allZero) (q : Quad (Fin (n + 1)) ℝ) (hq : 0 < q.coef)
    (hcen : ArrayCenter q) (order' order'' : List ℤ) (hE : MixedObj.Enumerates order'' a.lab) :
    ∃ s, a.smoothed q order' order'' = some s ∧ s.lipschitz = 1 / q.coef ∧
      ∃ V G, Evaluates s.smoothObjective V G ∧
        (∀ fstar, IsConjugate (mixedFull a) fstar → IsSmoothConjugate (fun z => fstar z + quadTop q z) V G) ∧
        (∀ x, IsGradientAt V (G x) x) ∧ IsLipschitzWith (1 / q.coef) G := by
  obtain ⟨c, hc, hcd, hcl, hcw, hcp, -, hcq, hconj⟩ := C93_conjugate a hw hpar.le h0 ho order'
  set d : MixedObj (n + 1) := { c.copy order'' with quad := q.add (some (c.copy order'').quad) } with hdef
  have hcopyq : (c.copy order'').quad = c.quad := rfl
  have hdq : d.quad = q.add (some c.quad) := rfl
  have hdcoef : d.quad.coef = q.coef := by
    show q.coef + c.quad.coef = q.coef
    rw [hcq, add_zero]
  have hdo : d.offset = ctorOffset c.offset := rfl
  have hco : c.offset = ctorOffset a.quad.linear := by
    have := conjugate_atom a order' h0
    rw [hc] at this
    injection this with this
    rw [this]; rfl
  have hdual : d.dual = true ∨ d.offset = none := by
    rcases hd with h | h
    · left
      show c.dual = true
      rw [hcd, h]; rfl
    · right
      have : ctorOffset a.quad.linear = none := by
        rcases hl : a.quad.linear with _ | v
        · rfl
        · unfold ctorOffset
          simp only
          rw [if_pos (h v hl)]
      rw [hdo, hco, this]; rfl
  have hz : ArrayCenter (⟨0, some (.scalar 0), some (.scalar 0), 0⟩ : Quad (Fin (n + 1)) ℝ) := by
    intro c hc; simp at hc; exact hc.symm
  obtain ⟨s, h1, h2, h3, h4, -, V, G, h5, h6, h7, h8⟩ := C93_smooth_conjugate_partial d
    (show MixedObj.Enumerates order'' c.lab by rw [hcl]; exact hE)
    (show GoodWeights c.lab c.weights by rw [hcl, hcw]; exact hw) (show 0 < c.par by rw [hcp]; exact hpar) hdual
    ⟨0, some (.scalar 0), some (.scalar 0), 0⟩ hz (by rw [hdcoef, add_zero]; exact hq)
  have hl : s.lipschitz = 1 / q.coef := by rw [h4, hdcoef, add_zero]
  have hok : a.smoothed q order' order'' = some s := by
    unfold MixedObj.smoothed
    rw [hc]
    dsimp only
    rw [if_neg hq.ne', ← hdef, C93_conjugate_smooth d (by rw [hdcoef]; exact hq.ne')]
    exact h1
  refine ⟨s, hok, hl, V, G, h5, fun fstar hf => ?_, h7, by rw [← hl]; exact h8⟩
  have e : (fun z => mixedFull d z + quadTop (⟨0, some (.scalar 0), some (.scalar 0), 0⟩ : Quad (Fin (n + 1)) ℝ) z) =
      fun z => fstar z + quadTop q z := by
    rw [conj_unique hf hconj]
    funext z
    have hccen : ArrayCenter c.quad := by
      have := conjugate_atom a order' h0
      rw [hc] at this
      injection this with this
      rw [this]
      intro x hx
      have hx' : (some (PyVec.scalar (0:ℝ)) : Option (PyVec (Fin (n + 1)) ℝ)) = some (.scalar x) := hx
      simp at hx'
      exact hx'.symm
    have e0 : quadTop (⟨0, some (.scalar 0), some (.scalar 0), 0⟩ : Quad (Fin (n + 1)) ℝ) z = 0 := by
      simp [quadTop, quadVal, quadFn, denote, dot]
    rw [e0, add_zero]
    unfold mixedFull quadTop
    rw [hdq, quad_add_val _ _ hcen hccen, hdo, offAt_ctor, WithTop.coe_add,
      add_comm ((quadVal (some q) z : ℝ) : WithTop ℝ), ← add_assoc]
    rfl
  rw [← e]; exact h6

/-- the hypotheses are met by a mixed LASSO with an offset and a linear term -/
example : ∃ (a : MixedObj 2) (q : Quad (Fin 2) ℝ), GoodWeights a.lab a.weights ∧ 0 < a.par ∧ a.quad.coef = 0 ∧
    (∀ c, a.offset ≠ some (.scalar c)) ∧ a.dual = false ∧ 0 < q.coef ∧ ArrayCenter (n := 1) q ∧
    MixedObj.Enumerates [3] a.lab := by
  refine ⟨⟨false, ![3, 3], fun _ => some 1, [3], 2, some (.arr ![1, 2]), ⟨0, none, some (.arr ![1, 1]), 0⟩⟩, ⟨1, none, none, 0⟩,
    ?_, by norm_num, rfl, by simp, rfl, by norm_num, ?_, ⟨by simp, fun g => ?_⟩⟩
  · intro g _
    unfold labelWeight
    simp
  · intro c hc; simp at hc
  · show g ∈ [3] ↔ (∃ i : Fin 2, (![3, 3] : Fin 2 → ℤ) i = g) ∧ _
    constructor
    · intro h
      have : g = 3 := by simpa using h
      subst this
      exact ⟨⟨1, rfl⟩, by decide⟩
    · rintro ⟨⟨i, rfl⟩, h⟩
      revert h
      fin_cases i <;> decide

/-! ### `==` and copies -/

/-- **C93** two objects that compare equal have the same class, labels, weights and parameter, hence the same documented
function when offset and quadratic agree.  Missing: `==` does not compare those (`C93_eq_fails`). -/
theorem C93_eq_partial (a b : MixedObj (n + 1)) (h : a.Eq b) (ho : a.offset = b.offset) (hq : a.quad = b.quad) :
    mixedFull a = mixedFull b := by
  obtain ⟨h1, h2, h3, h4⟩ := h
  unfold mixedFull
  rw [h1, h2, h3, h4, ho, hq]

/-- **C93** objects that compare equal can denote different functions. -/
theorem C93_eq_fails : ∃ (a b : MixedObj 1) (x : Fin 1 → ℝ), MixedObj.Enumerates a.order a.lab ∧
    MixedObj.Enumerates b.order b.lab ∧ a.Eq b ∧ mixedFull (n := 0) a x ≠ mixedFull (n := 0) b x := by
  have hpen : ∀ z : Fin 1 → ℝ, labelFn (fun _ => -2) (fun _ => none) false 1 z = ((|z 0| : ℝ) : WithTop ℝ) := by
    intro z
    rw [labelFn_false (fun i hi => absurd hi (by decide))]
    unfold labelPenalty
    rw [one_groups (-2) (by decide)]
    simp
  refine ⟨one false (-2) 1 none, one false (-2) 1 (some 1), fun _ => 0, one_enum false (-2) (by decide) 1 none,
    one_enum false (-2) (by decide) 1 (some 1), ⟨rfl, rfl, rfl, rfl⟩, ?_⟩
  unfold mixedFull
  rw [one_quad, one_quad, add_zero, add_zero]
  show labelFn (fun _ => -2) (fun _ => none) false 1 (fun i => 0 - offAt (n := 0) (one false (-2) 1 none).offset i) ≠
    labelFn (fun _ => -2) (fun _ => none) false 1 (fun i => 0 - offAt (n := 0) (one false (-2) 1 (some 1)).offset i)
  rw [hpen, hpen, one_off, one_off_none]
  intro h
  have := WithTop.coe_inj.1 h
  norm_num at this

/-- **C93** a copy compares equal to the object, denotes the same function and has the same `proximal`. -/
theorem C93_copy (a : MixedObj (n + 1)) (hE : MixedObj.Enumerates a.order a.lab) (order' : List ℤ)
    (hE' : MixedObj.Enumerates order' a.lab) (hctor : ctorOffset a.offset = a.offset) :
    a.Eq (a.copy order') ∧ mixedFull (a.copy order') = mixedFull a ∧ ∀ q, (a.copy order').proximal q = a.proximal q := by
  refine ⟨⟨rfl, rfl, rfl, rfl⟩, ?_, fun q => ?_⟩
  · funext z
    unfold mixedFull
    show labelFn a.lab a.weights a.dual a.par (fun i => z i - offAt (ctorOffset a.offset) i) + quadTop a.quad z = _
    rw [offAt_ctor]
  · refine (C93_enumeration a (a.copy order') hE hE' ?_).1 q
    show MixedObj.mk a.dual a.lab a.weights order' a.par (ctorOffset a.offset) a.quad = _
    rw [hctor]; rfl

/-- what the constructor stores satisfies the hypothesis on the offset of `C93_copy` -/
example (o : Option (PyVec (Fin (n + 1)) ℝ)) : ctorOffset (ctorOffset o) = ctorOffset o := by
  rcases o with _ | v
  · rfl
  · by_cases h : v.allZero
    · have : ctorOffset (some v) = none := by unfold ctorOffset; simp only; rw [if_pos h]
      rw [this]; rfl
    · have : ctorOffset (some v) = some v := by unfold ctorOffset; simp only; rw [if_neg h]
      rw [this, this]

end Verif.Props
