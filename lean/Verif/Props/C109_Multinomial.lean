import Verif.Props.C104_Multi
import Verif.Props.C108_Regressions
import Verif.Lemmas.Hoeffding

/-!
# C109: penalised multinomial regression

The multinomial losses clip linear predictors at 50.  The negative log likelihood itself is convex with Lipschitz gradient everywhere,
so a solver that stays where nothing is clipped has the rate of the exact problem.  The two parametrisations of the model, with and
without baseline category, and logistic regression are the same model.
-/

set_option linter.unusedSectionVars false
set_option linter.unusedVariables false

namespace Verif.Props
open Verif.Spec Verif.Model Verif.Model.Fista Verif.Lemmas Verif.Model.Block

variable {n p q m : ℕ}

/-! ### a loss that is exact on a region -/

/-- the loss that returns `f` and `g` everywhere -/
private noncomputable def exact (f : (Fin m → ℝ) → ℝ) (g : (Fin m → ℝ) → Fin m → ℝ) (q : Quad (Fin m) ℝ) : QuadLoss m :=
  ⟨fun x mode => match mode with
    | .func => .val (f x)
    | .grad => .grad (g x)
    | .both => .both (f x) (g x)
    | .other => .valueError, q⟩

private lemma region_solves {S : QuadLoss m} {f : (Fin m → ℝ) → ℝ} {g : (Fin m → ℝ) → Fin m → ℝ} {A : NonsmoothAtom m}
    {pen : (Fin m → ℝ) → WithTop ℝ} {M : ℝ} (hM0 : 0 < M) (hf : IsConvex f) (hg : ∀ x, IsGradientAt f (g x) x)
    (hq : 0 ≤ S.quad.coef) (hM : SmoothWith f g M) (hA : IsAtomFor A pen) {E : Set (Fin m → ℝ)}
    (hv : ∀ x ∈ E, S.obj x .func = .val (f x)) (hgr : ∀ x ∈ E, S.obj x .grad = .grad (g x))
    (hin : ∀ x, pen x ≠ ⊤ → x ∈ E)
    (hext : ∀ x y, pen x ≠ ⊤ → pen y ≠ ⊤ → ∀ t : ℝ, 0 ≤ t → t ≤ 1 → x + t • (x - y) ∈ E) :
    SolvesWithRate S f M A pen := by
  have hL : IsLossFor (exact f g S.quad) f g := ⟨fun x => ⟨rfl, rfl, rfl⟩, ⟨hf, hg⟩, hq⟩
  intro x0 hx a hb ha hst hm hr hmax lip
  have hrun : ∀ fuel, ((SimpleProblem.ofLoss S A x0).solve none a lip fuel).1 =
      ((SimpleProblem.ofLoss (exact f g S.quad) A x0).solve none a lip fuel).1 := by
    intro fuel
    symm
    refine (solve_on (D := {β | pen β ≠ ⊤}) (E := E)
      (SimpleProblem.ofLoss S A x0) (SimpleProblem.ofLoss (exact f g S.quad) A x0) none a hb (by linarith) hst lip fuel rfl hx
      ⟨fun x hx => ?_, fun x hx => ?_, rfl, rfl, fun L v z hL' hv hz => ?_, hin, fun x hx y hy t ht0 ht1 => hext x y hx hy t ht0 ht1⟩).1
    · show ObjVal.num (f x) = (match S.obj x .func with
        | .val f => ObjVal.num f
        | _ => .nan)
      rw [hv x hx]
    · show g x = (match S.obj x .grad with
        | .grad g => g
        | _ => fun _ => 0)
      rw [hgr x hx]
    · have hz' : (match A.proximal (((stepQuad L v ((SimpleProblem.ofLoss S A x0).grad v)).add (some S.quad)).add
          (some ((Quad.init none none none none : Quad (Fin m) ℝ).add none))) with
        | .ok z => some z
        | _ => none) = some z := hz
      have hz2 : A.proximal (((stepQuad L v ((SimpleProblem.ofLoss S A x0).grad v)).add (some S.quad)).add
          (some ((Quad.init none none none none : Quad (Fin m) ℝ).add none))) = .ok z := by
        revert hz'
        cases A.proximal _ with
        | ok u => intro h; injection h with h; rw [h]
        | valueError => exact fun h => nomatch h
        | typeError => exact fun h => nomatch h
        | scalarArgument => exact fun h => nomatch h
        | baseError => exact fun h => nomatch h
      have := hA.solves _ _ (by
        show 0 < L + S.quad.coef + 0
        linarith) hz2
      exact (WithTop.add_ne_top.1 this.1).2
  obtain ⟨N, hN⟩ := C100_returns _ f g A pen hL hA _ hM x0 a hb ha hst lip
  refine ⟨N, fun fuel hfu => ?_⟩
  obtain ⟨β, v, hist, e1, e2⟩ := hN fuel hfu
  refine ⟨β, v, hist, (hrun fuel).trans e1, e2, fun u hu => ?_⟩
  obtain ⟨vc, vu, a1, a2, a3, a4, a5⟩ :=
    C100_rate _ f g A pen hL hA M hM0 hM x0 a hb ha.le hst hm hr hmax lip fuel β _ hist e1 u hu
  injection a1 with a1
  subst a1
  exact ⟨vu, a3, a4, a5⟩

/-! ### curvature -/

private lemma full_upper (hq : 0 < q) {c : Fin q → ℝ} (hc : ∀ j, 0 ≤ c j) (η ζ : Fin q → ℝ) {B : ℝ} (hB0 : 0 ≤ B)
    (hB : ∀ j, |ζ j - η j| ≤ B) :
    multinomialNll c ζ ≤ multinomialNll c η +
      ∑ j, ((∑ k, c k) / (∑ k, Real.exp (η k)) * Real.exp (η j) - c j) * (ζ j - η j) + (∑ k, c k) * (B ^ 2 / 2) := by
  have hpos : 0 < ∑ k, Real.exp (η k) := Finset.sum_pos (fun k _ => Real.exp_pos _) ⟨⟨0, hq⟩, Finset.mem_univ _⟩
  have h := logsumexp_upper Finset.univ (fun _ => 1) η ζ (fun _ => zero_le_one) (by simpa using hpos) hB0 fun j _ => hB j
  simp only [one_mul] at h
  have hC : 0 ≤ ∑ k, c k := Finset.sum_nonneg fun k _ => hc k
  have h1 := mul_le_mul_of_nonneg_left h hC
  rw [nll_eq hq, nll_eq hq]
  have e : ∑ j, ((∑ k, c k) / (∑ k, Real.exp (η k)) * Real.exp (η j) - c j) * (ζ j - η j) =
      (∑ k, c k) * (∑ j, Real.exp (η j) / (∑ k, Real.exp (η k)) * (ζ j - η j)) - (∑ j, c j * ζ j - ∑ j, c j * η j) := by
    rw [Finset.mul_sum, ← Finset.sum_sub_distrib, ← Finset.sum_sub_distrib]
    refine Finset.sum_congr rfl fun j _ => ?_
    ring
  rw [e]
  linarith

private lemma row_upper (hq : 0 < q) {d : MultiData n q} (hd : ¬ MultiLoss.dataError d) (i : Fin n) (η ζ : Fin q → ℝ) {B : ℝ}
    (hB0 : 0 ≤ B) (hB : ∀ j, |ζ j - η j| ≤ B) :
    countsNll d i ζ ≤ countsNll d i η + ∑ j, rowGrad d i η j * (ζ j - η j) + MultiLoss.trials d i * (B ^ 2 / 2) := by
  cases d with
  | full c => exact full_upper hq (fun j => not_lt.mp fun hj => hd ⟨i, j, hj⟩) η ζ hB0 hB
  | baseline c =>
    have hc : ∀ j, 0 ≤ c i j := fun j => not_lt.mp fun hj => hd (Or.inr ⟨i, j, hj⟩)
    have h := full_upper (Nat.succ_pos q) hc (Fin.snoc (α := fun _ => ℝ) η 0) (Fin.snoc (α := fun _ => ℝ) ζ 0) hB0 (fun j => by
      refine Fin.lastCases ?_ (fun j => ?_) j
      · rw [Fin.snoc_last, Fin.snoc_last, sub_zero, abs_zero]; exact hB0
      · rw [Fin.snoc_castSucc, Fin.snoc_castSucc]; exact hB j)
    rw [sum_exp_snoc, Fin.sum_univ_castSucc] at h
    simp only [Fin.snoc_last, Fin.snoc_castSucc, sub_zero, mul_zero, add_zero] at h
    exact h

private lemma cauchy (u v : Fin p → ℝ) : (∑ k, u k * v k) ^ 2 ≤ (∑ k, u k ^ 2) * ∑ k, v k ^ 2 :=
  Finset.sum_mul_sq_le_sq_mul_sq _ _ _

section
variable (X : Fin n → Fin p → ℝ) (so : Option (Fin n → Fin q → ℝ)) (o : Option (Fin p → Fin q → ℝ))

private lemma mpred_sub (x z : Fin (p * q) → ℝ) (i : Fin n) (j : Fin q) :
    mpred X so o (rows z) i j - mpred X so o (rows x) i j = ∑ k, X i k * (col z j k - col x j k) := by
  unfold mpred
  rw [sub_sub_sub_cancel_right, ← Finset.sum_sub_distrib]
  refine Finset.sum_congr rfl fun k _ => ?_
  show X i k * (rows z k j - matOr o k j) - X i k * (rows x k j - matOr o k j) = X i k * (rows z k j - rows x k j)
  ring

private lemma mpred_bound (x z : Fin (p * q) → ℝ) (i : Fin n) (j : Fin q) :
    |mpred X so o (rows z) i j - mpred X so o (rows x) i j| ≤ Real.sqrt ((∑ k, X i k ^ 2) * sqDist z x) := by
  rw [mpred_sub]
  refine Real.abs_le_sqrt ((cauchy _ _).trans (mul_le_mul_of_nonneg_left ?_ (Finset.sum_nonneg fun k _ => sq_nonneg _)))
  rw [sqDist_cols]
  exact Finset.single_le_sum (f := fun j => sqDist (col z j) (col x j)) (fun j _ => Finset.sum_nonneg fun k _ => sq_nonneg _)
    (Finset.mem_univ j)

private lemma dot_grad (d : MultiData n q) (coef : ℝ) (w : Option (Fin n → ℝ)) (x z : Fin (p * q) → ℝ) :
    dot (multinomialGrad X d coef so o w x) (fun a => z a - x a) = coef * ∑ i, (w.elim 1 fun w => w i) *
      ∑ j, rowGrad d i (mpred X so o (rows x) i) j * (mpred X so o (rows z) i j - mpred X so o (rows x) i j) := by
  unfold multinomialGrad
  rw [dot_cols]
  simp only [mpred_sub]
  unfold dot Mglm.dotT
  simp only [Finset.mul_sum, Finset.sum_mul]
  rw [Finset.sum_comm' (t' := Finset.univ) (s' := fun _ => Finset.univ) (by simp)]
  calc _ = ∑ k : Fin p, ∑ i : Fin n, ∑ j : Fin q, X i k * (coef * ((w.elim 1 fun w => w i) *
        rowGrad d i (mpred X so o (rows x) i) j)) * col (fun a => z a - x a) j k := by
        refine Finset.sum_congr rfl fun k _ => ?_
        exact Finset.sum_comm
    _ = ∑ i : Fin n, ∑ k : Fin p, ∑ j : Fin q, X i k * (coef * ((w.elim 1 fun w => w i) *
        rowGrad d i (mpred X so o (rows x) i) j)) * col (fun a => z a - x a) j k := Finset.sum_comm
    _ = _ := by
        refine Finset.sum_congr rfl fun i _ => ?_
        rw [Finset.sum_comm]
        refine Finset.sum_congr rfl fun j _ => Finset.sum_congr rfl fun k _ => ?_
        show X i k * _ * (col z j k - col x j k) = _
        ring
end

private lemma accepted {h : WHeap n} {X : Fin n → Fin p → ℝ} {d : MultiData n q} {w : Option (Fin n → ℝ)} {coef : ℝ}
    {so : Option (Fin n → Fin q → ℝ)} {o : Option (Fin p → Fin q → ℝ)} {G : Mglm p n q}
    (hG : Mglm.multinomial h X d w coef so o = some G) :
    0 ≤ coef ∧ ¬ MultiLoss.dataError d ∧ G = ⟨X, ⟨d, coef, so, none⟩, o, w.getD fun _ => 1⟩ := by
  unfold Mglm.multinomial MultiLoss.init at hG
  by_cases h1 : coef < 0
  · rw [if_pos h1] at hG; cases hG
  by_cases h2 : MultiLoss.dataError d
  · rw [if_neg h1, if_pos h2] at hG; cases hG
  rw [if_neg h1, if_neg h2, if_neg (by simp)] at hG
  injection hG with hG
  exact ⟨not_lt.1 h1, h2, hG.symm⟩

/-- the number of trials of a case: the sum of its counts -/
def caseTotal : MultiData n q → Fin n → ℝ
  | .full c => fun i => ∑ j, c i j
  | .baseline c => fun i => ∑ j, c i j

private lemma elim_nonneg {w : Option (Fin n → ℝ)} (hw : ∀ w', w = some w' → ∀ i, 0 ≤ w' i) (i : Fin n) :
    0 ≤ (w.elim 1 fun w => w i : ℝ) := by
  cases w with
  | none => exact zero_le_one
  | some w => exact hw w rfl i

/-- **C109** The negative log likelihood of multinomial regression, in both parametrisations, is a convex function of the coefficient
matrix with a gradient everywhere, and the gradient is Lipschitz with constant `coef ∑ᵢ wᵢ Nᵢ ‖xᵢ‖²`, `Nᵢ` being the number of trials
of case `i`, for all counts and coefficients the constructor accepts and nonnegative weights. -/
theorem C109_curvature (hq0 : 0 < q) (h : WHeap n) (X : Fin n → Fin p → ℝ) (d : MultiData n q)
    (w : Option (Fin n → ℝ)) (hw : ∀ w', w = some w' → ∀ i, 0 ≤ w' i) (coef : ℝ) (so : Option (Fin n → Fin q → ℝ))
    (o : Option (Fin p → Fin q → ℝ)) (G : Mglm p n q) (hG : Mglm.multinomial h X d w coef so o = some G) :
    IsConvex (fun x => multinomialRegression X d coef so o w (rows x)) ∧ ∃ g,
      (∀ x, IsGradientAt (fun x => multinomialRegression X d coef so o w (rows x)) (g x) x) ∧
      SmoothWith (fun x => multinomialRegression X d coef so o w (rows x)) g
        (coef * ∑ i, (w.elim 1 fun w => w i) * caseTotal d i * ∑ k, X i k ^ 2) := by
  obtain ⟨hc, hd, -⟩ := accepted hG
  have hw' := elim_nonneg hw
  obtain ⟨hcv, hgr⟩ := multinomial_convexDiff hq0 X d hd w hw' coef hc so o
  refine ⟨hcv, _, hgr, smooth_of_bounds (fun x z => tangent ⟨hcv, hgr⟩ x z) fun x z => ?_⟩
  unfold QuadraticUpperBound
  rw [dot_grad]
  have hS : 0 ≤ sqDist z x := Finset.sum_nonneg fun _ _ => sq_nonneg _
  have key : ∀ i, countsNll d i (mpred X so o (rows z) i) ≤ countsNll d i (mpred X so o (rows x) i) +
      ∑ j, rowGrad d i (mpred X so o (rows x) i) j * (mpred X so o (rows z) i j - mpred X so o (rows x) i j) +
      caseTotal d i * ((∑ k, X i k ^ 2) * sqDist z x / 2) := by
    intro i
    have := row_upper hq0 hd i (mpred X so o (rows x) i) (mpred X so o (rows z) i) (Real.sqrt_nonneg _)
      fun j => mpred_bound X so o x z i j
    rw [Real.sq_sqrt (mul_nonneg (Finset.sum_nonneg fun k _ => sq_nonneg _) hS)] at this
    have e : MultiLoss.trials d i = caseTotal d i := by cases d <;> rfl
    rw [e] at this
    exact this
  have h1 : ∑ i, (w.elim 1 fun w => w i) * countsNll d i (mpred X so o (rows z) i) ≤
      ∑ i, (w.elim 1 fun w => w i) * (countsNll d i (mpred X so o (rows x) i) +
      ∑ j, rowGrad d i (mpred X so o (rows x) i) j * (mpred X so o (rows z) i j - mpred X so o (rows x) i j) +
      caseTotal d i * ((∑ k, X i k ^ 2) * sqDist z x / 2)) :=
    Finset.sum_le_sum fun i _ => mul_le_mul_of_nonneg_left (key i) (hw' i)
  have h2 := mul_le_mul_of_nonneg_left h1 hc
  refine (show coef * ∑ i, (w.elim 1 fun w => w i) * countsNll d i (mpred X so o (rows z) i) ≤ _ from h2).trans (le_of_eq ?_)
  show _ = coef * ∑ i, (w.elim 1 fun w => w i) * countsNll d i (mpred X so o (rows x) i) + _ + _
  rw [mul_div_assoc, mul_assoc, ← mul_add, ← mul_add, Finset.sum_div, Finset.sum_mul,
    ← Finset.sum_add_distrib, ← Finset.sum_add_distrib]
  congr 1
  refine Finset.sum_congr rfl fun i _ => ?_
  ring

private lemma grad_uniq {f : (Fin m → ℝ) → ℝ} {g g' x : Fin m → ℝ} (h : IsGradientAt f g x) (h' : IsGradientAt f g' x) : g = g' := by
  have := HasFDerivAt.unique h h'
  funext j
  have e := congrArg (fun L : (Fin m → ℝ) →L[ℝ] ℝ => L (Pi.single j 1)) this
  simpa [Pi.single_apply] using e

/-- **C109** Penalised or constrained multinomial regression, with or without baseline category: with every matrix atom that keeps the
linear predictors within 50/3, `solve` answers from every allowed start and misses the smallest value of the exact penalised negative
log likelihood by at most the rate for the Lipschitz constant of `C109_curvature`, or any larger positive `M`.  Missing: atoms that
allow larger predictors, where the loss is clipped and not convex (`C29_multinomial_fails`). -/
theorem C109_solves_partial (hq0 : 0 < q) (h : WHeap n) (X : Fin n → Fin p → ℝ) (d : MultiData n q)
    (w : Option (Fin n → ℝ)) (hw : ∀ w', w = some w' → ∀ i, 0 ≤ w' i) (coef : ℝ) (so : Option (Fin n → Fin q → ℝ))
    (o : Option (Fin p → Fin q → ℝ)) (G : Mglm p n q) (hG : Mglm.multinomial h X d w coef so o = some G)
    (quad : Option (Quad (Fin (p * q)) ℝ)) (hq : 0 ≤ quadCoef quad) (A : NonsmoothAtom (p * q))
    (pen : (Fin (p * q) → ℝ) → WithTop ℝ) (hA : IsAtomFor A pen)
    (hbox : ∀ β, pen β ≠ ⊤ → ∀ i j, |∑ k, X i k * (rows β k j - matOr o k j) - matOr so i j| ≤ 50 / 3)
    (M : ℝ) (hM0 : 0 < M) (hM : coef * ∑ i, (w.elim 1 fun w => w i) * caseTotal d i * ∑ k, X i k ^ 2 ≤ M) :
    SolvesWithRate (G.toLoss quad) (fun x => multinomialRegression X d coef so o w (rows x)) M A pen := by
  obtain ⟨hcv, g, hgr, hsm⟩ := C109_curvature hq0 h X d w hw coef so o G hG
  have hsm' : SmoothWith (fun x => multinomialRegression X d coef so o w (rows x)) g M := by
    have hn : ∀ x z : Fin (p * q) → ℝ, 0 ≤ sqDist z x := fun x z => Finset.sum_nonneg fun i _ => sq_nonneg _
    refine ⟨fun x z => (hsm.descent x z).trans ?_, fun x z => (hsm.monotone x z).trans ?_⟩
    · have := mul_le_mul_of_nonneg_right hM (hn x z)
      linarith
    · exact mul_le_mul_of_nonneg_right hM (hn x z)
  have hev := fun β => C104_multinomial_partial hq0 h X d w coef so o G hG quad β
  refine region_solves hM0 hcv hgr ?_ hsm' hA (E := {β | ∀ i j, |∑ k, X i k * (rows β k j - matOr o k j) - matOr so i j| ≤ 50})
    (fun β hβ => ?_) (fun β hβ => ?_) (fun β hβ i j => (hbox β hβ i j).trans (by norm_num)) (fun x y hx hy t ht0 ht1 i j => ?_)
  · show 0 ≤ (quad.getD (Quad.init none none none none)).coef
    cases quad with
    | none => exact le_rfl
    | some q => exact hq
  · obtain ⟨g', h1, -⟩ := hev β hβ
    exact h1
  · obtain ⟨g', -, h2, -, h4⟩ := hev β hβ
    rw [h2, grad_uniq h4 (hgr β)]
  · have e : ∑ k, X i k * (rows (x + t • (x - y)) k j - matOr o k j) - matOr so i j =
        mpred X so o (rows x) i j + t * (mpred X so o (rows x) i j - mpred X so o (rows y) i j) := by
      rw [mpred_sub]
      show _ = ∑ k, X i k * (rows x k j - matOr o k j) - matOr so i j + _
      have : ∀ k, X i k * (rows (x + t • (x - y)) k j - matOr o k j) =
          X i k * (rows x k j - matOr o k j) + t * (X i k * (col x j k - col y j k)) := by
        intro k
        show X i k * (rows x k j + t * (rows x k j - rows y k j) - matOr o k j) =
          X i k * (rows x k j - matOr o k j) + t * (X i k * (rows x k j - rows y k j))
        ring
      rw [Finset.sum_congr rfl fun k _ => this k, Finset.sum_add_distrib, Finset.mul_sum]
      ring
    have h1 := abs_le.1 (hbox x hx i j)
    have h2 := abs_le.1 (hbox y hy i j)
    have h1' : -(50 / 3) ≤ mpred X so o (rows x) i j ∧ mpred X so o (rows x) i j ≤ 50 / 3 := h1
    have h2' : -(50 / 3) ≤ mpred X so o (rows y) i j ∧ mpred X so o (rows y) i j ≤ 50 / 3 := h2
    rw [e, abs_le]
    constructor <;> nlinarith

/-! ### the parametrisations -/

/-- a matrix with one more column, of zeros -/
def withZero {a : ℕ} (B : Fin a → Fin q → ℝ) : Fin a → Fin (q + 1) → ℝ := fun k => Fin.snoc (α := fun _ => ℝ) (B k) 0

/-- a matrix without its last column -/
def dropLast {a : ℕ} (B : Fin a → Fin (q + 1) → ℝ) : Fin a → Fin q → ℝ := fun k j => B k j.castSucc

/-- **C109** The model with baseline category is the model without it whose last column of coefficients is zero: for every input
accepted with `baseline=True`, the same counts with `baseline=False` and offsets extended by a zero column are accepted too, and at
every coefficient matrix, clipped or not, the values agree, and the gradient of the one is the first columns of the gradient of the
other. -/
theorem C109_baseline (h : WHeap n) (X : Fin n → Fin p → ℝ) (c : Fin n → Fin (q + 1) → ℝ) (w : Option (Fin n → ℝ)) (coef : ℝ)
    (so : Option (Fin n → Fin q → ℝ)) (o : Option (Fin p → Fin q → ℝ)) (G : Mglm p n q)
    (hG : Mglm.multinomial h X (.baseline c) w coef so o = some G) :
    ∃ G', Mglm.multinomial h X (.full c) w coef (so.map withZero) (o.map withZero) = some G' ∧ ∀ B, ∃ v g g',
      G.smoothObjective B .func = .val v ∧ G'.smoothObjective (withZero B) .func = .val v ∧
      G.smoothObjective B .grad = .grad g false ∧ G'.smoothObjective (withZero B) .grad = .grad g' false ∧ g = dropLast g' := by
  obtain ⟨hc, hd, rfl⟩ := accepted hG
  refine ⟨⟨X, ⟨.full c, coef, so.map withZero, none⟩, o.map withZero, w.getD fun _ => 1⟩, ?_, fun B => ?_⟩
  · unfold Mglm.multinomial MultiLoss.init
    rw [if_neg (not_lt.2 hc), if_neg (fun ⟨i, j, hj⟩ => hd (Or.inr ⟨i, j, hj⟩)), if_neg (by simp)]
    rfl
  have off : ∀ {a : ℕ} (o : Option (Fin a → Fin q → ℝ)) (B : Fin a → Fin q → ℝ),
      MultiLoss.applyOffset (o.map withZero) (withZero B) = withZero (MultiLoss.applyOffset o B) := by
    intro a o B
    cases o with
    | none => rfl
    | some o =>
      funext k j
      show withZero B k j - withZero o k j = withZero (fun i j => B i j - o i j) k j
      refine Fin.lastCases ?_ (fun j => ?_) j <;> simp [withZero]
  have hdot : ∀ B : Fin p → Fin q → ℝ, Mglm.dot X (withZero B) = withZero (Mglm.dot X B) := by
    intro B
    funext i j
    unfold Mglm.dot
    refine Fin.lastCases ?_ (fun j => ?_) j <;> simp [withZero]
  set η : Fin n → Fin q → ℝ := fun i j => MultiLoss.clip (MultiLoss.applyOffset so (Mglm.dot X (MultiLoss.applyOffset o B)) i j) with hη
  have hη' : (fun i j => MultiLoss.clip (MultiLoss.applyOffset (so.map withZero) (Mglm.dot X (MultiLoss.applyOffset (o.map withZero)
      (withZero B))) i j)) = withZero η := by
    rw [off, hdot, off]
    funext i j
    refine Fin.lastCases ?_ (fun j => ?_) j
    · simp [withZero, MultiLoss.clip]
    · simp [withZero, hη]
  have hden : ∀ i, MultiLoss.denom (.full c) (fun i j => Real.exp (withZero η i j)) i =
      MultiLoss.denom (.baseline c) (fun i j => Real.exp (η i j)) i := fun i => sum_exp_snoc (η i)
  refine ⟨_, _, _, rfl, ?_, rfl, rfl, ?_⟩
  · show Eval2.val (MultiLoss.value _ (fun i j => MultiLoss.clip _) _) = Eval2.val (MultiLoss.value _ η _)
    rw [hη']
    congr 1
    unfold MultiLoss.value
    dsimp only
    simp only [hden]
    congr 3
    refine Finset.sum_congr rfl fun i _ => ?_
    rw [Fin.sum_univ_castSucc]
    simp [withZero, MultiLoss.first]
  · funext k j
    show Mglm.dotT X (MultiLoss.gradient _ η _) k j = Mglm.dotT X (MultiLoss.gradient _ (fun i j => MultiLoss.clip _) _) k j.castSucc
    rw [hη']
    unfold Mglm.dotT
    refine Finset.sum_congr rfl fun i _ => ?_
    congr 1
    unfold MultiLoss.gradient
    dsimp only
    rw [hden]
    simp [withZero, MultiLoss.first, MultiLoss.trials]

/-- **C109** Without baseline category the model does not identify the coefficients: adding one vector to all columns does not change
the loss, as long as the linear predictors stay within 50 before and after. -/
theorem C109_shift (hq0 : 0 < q) (h : WHeap n) (X : Fin n → Fin p → ℝ) (c : Fin n → Fin q → ℝ) (w : Option (Fin n → ℝ)) (coef : ℝ)
    (so : Option (Fin n → Fin q → ℝ)) (o : Option (Fin p → Fin q → ℝ)) (G : Mglm p n q)
    (hG : Mglm.multinomial h X (.full c) w coef so o = some G) (B : Fin p → Fin q → ℝ) (v : Fin p → ℝ)
    (h1 : ∀ i j, |∑ k, X i k * (B k j - matOr o k j) - matOr so i j| ≤ 50)
    (h2 : ∀ i j, |∑ k, X i k * (B k j + v k - matOr o k j) - matOr so i j| ≤ 50) :
    ∃ r, G.smoothObjective B .func = .val r ∧ G.smoothObjective (fun k j => B k j + v k) .func = .val r := by
  obtain ⟨F, D, hev, hF, -⟩ := C28_mglm_partial hq0 G
  obtain ⟨-, -, rfl⟩ := accepted hG
  refine ⟨_, (hev B).1, ?_⟩
  rw [(hev _).1, hF B h1, hF _ h2]
  congr 2
  refine Finset.sum_congr rfl fun i _ => ?_
  congr 1
  have e : ∀ j, ∑ k, X i k * (B k j + v k - matOr o k j) - matOr so i j =
      (∑ k, X i k * (B k j - matOr o k j) - matOr so i j) + ∑ k, X i k * v k := by
    intro j
    have : ∀ k, X i k * (B k j + v k - matOr o k j) = X i k * (B k j - matOr o k j) + X i k * v k := fun k => by ring
    rw [Finset.sum_congr rfl fun k _ => this k, Finset.sum_add_distrib]
    ring
  show multinomialNll (c i) (fun j => ∑ k, X i k * (B k j + v k - matOr o k j) - matOr so i j) =
    multinomialNll (c i) (fun j => ∑ k, X i k * (B k j - matOr o k j) - matOr so i j)
  simp only [e]
  unfold multinomialNll
  congr 1
  refine Finset.sum_congr rfl fun j _ => ?_
  simp only [Real.exp_add]
  rw [← Finset.sum_mul, mul_div_mul_right _ _ (Real.exp_ne_zero _)]

/-- **C109** With two categories and a baseline the model is logistic regression: for counts `(sᵢ, tᵢ - sᵢ)` accepted by both
constructors with the same design, coefficient, weights and offsets, the values agree at every coefficient vector whose linear
predictors are within 50. -/
theorem C109_two_categories (h : WHeap n) (X : Fin n → Fin (p + 1) → ℝ) (s t : Fin n → ℝ) (w : Option (Fin n → ℝ)) (coef : ℝ)
    (so : Option (Fin n → ℝ)) (o : Option (Fin (p + 1) → ℝ)) (G : Mglm (p + 1) n 1)
    (hG : Mglm.multinomial h X (.baseline fun i => ![s i, t i - s i]) w coef (so.map fun so i _ => so i)
      (o.map fun o k _ => o k) = some G)
    (L : Glm (p + 1) n) (hL : Glm.build X (.logistic s t) coef so o w = some L) (β : Fin (p + 1) → ℝ)
    (hβ : ∀ i, |∑ k, X i k * (β k - effOffset o k) - effOffset so i| ≤ 50) :
    ∃ r, G.smoothObjective (fun k _ => β k) .func = .val r ∧ (L.toLoss none).obj β .func = .val r := by
  obtain ⟨F, D, hev, hF, -⟩ := C28_mglm_partial one_pos G
  obtain ⟨-, -, rfl⟩ := accepted hG
  have eo : ∀ {a : ℕ} (o : Option (Fin a → ℝ)) (k : Fin a) (j : Fin 1), matOr (o.map fun o k _ => o k) k j = effOffset o k := by
    intro a o k j
    cases o <;> rfl
  have hp : ∀ i j, |∑ k, X i k * (β k - matOr (o.map fun o k (_ : Fin 1) => o k) k j) - matOr (so.map fun so i (_ : Fin 1) => so i) i j| ≤ 50 := by
    intro i j
    simp only [eo]
    exact hβ i
  have h2 := ((C108_logistic_partial s t hL none le_rfl).eval β fun i => (hβ i).trans (by norm_num)).1
  refine ⟨_, (hev _).1, ?_⟩
  rw [h2, hF _ hp]
  congr 1
  show coef * _ = coef * _
  congr 1
  refine Finset.sum_congr rfl fun i _ => ?_
  have ew : (w.getD fun _ => 1) i = w.elim 1 fun w => w i := by cases w <;> rfl
  show _ = (w.getD fun _ => 1) i * baselineNll ![s i, t i - s i] (fun j => ∑ k, X i k * (β k -
    matOr (o.map fun o k (_ : Fin 1) => o k) k j) - matOr (so.map fun so i (_ : Fin 1) => so i) i j)
  rw [ew]
  congr 1
  rw [baseline_eq]
  show logisticNll (s i) (t i) (linPred X (effOffset o) (effOffset so) β i) = _
  have et : ∑ j : Fin (1 + 1), (![s i, t i - s i] : Fin 2 → ℝ) j = t i := by
    rw [Fin.sum_univ_two]
    show s i + (t i - s i) = t i
    ring
  rw [et, Fin.sum_univ_one, Fin.sum_univ_one]
  simp only [eo]
  rfl

/-! ### the hypotheses are met -/

/-- two cases with counts in three categories, one coefficient per category, all between -1 and 1 (`linf_linf` in bound form) -/
example (h : WHeap 2) : ∃ (G : Mglm (0 + 1) 2 (2 + 1)) (M : ℝ),
    Mglm.multinomial h (fun _ _ => 1) (.full fun i j => (i + j : ℝ)) none 1 none none = some G ∧ 0 < M ∧
    SolvesWithRate (G.toLoss none)
      (fun x => multinomialRegression (n := 2) (fun _ _ => 1) (.full fun i j => (i + j : ℝ)) 1 none none none (rows x)) M
      ((Block.linflinfCls (n := 0) (p := 2)).atom (.bound 1) none (Quad.init none none none none))
      (shiftedPen (fun _ => 0) {x | matOf (n := 0 + 1) (p := 2 + 1) x ∈ {Z | ∀ ij, |Z ij| ≤ 1}} none (Quad.init none none none none)) := by
  have hG : Mglm.multinomial h (fun (_ : Fin 2) (_ : Fin (0 + 1)) => 1) (.full fun i (j : Fin (2 + 1)) => (i + j : ℝ)) none 1 none none =
      some ⟨fun _ _ => 1, ⟨.full fun i j => (i + j : ℝ), 1, none, none⟩, none, fun _ => 1⟩ := by
    unfold Mglm.multinomial MultiLoss.init
    rw [if_neg (by norm_num), if_neg, if_neg (by simp)]
    · rfl
    · rintro ⟨i, j, hij⟩
      have : (0:ℝ) ≤ (i : ℝ) + (j : ℝ) := by positivity
      linarith
  refine ⟨_, max (1 * ∑ i : Fin 2, ((none : Option (Fin 2 → ℝ)).elim 1 fun w => w i) *
    caseTotal (.full fun i (j : Fin (2 + 1)) => (i + j : ℝ)) i * ∑ k : Fin (0 + 1), (fun (_ : Fin 2) (_ : Fin (0 + 1)) => (1:ℝ)) i k ^ 2) 1, hG,
    lt_max_of_lt_right one_pos, ?_⟩
  refine C109_solves_partial (by norm_num) h _ _ none (fun w hw => by cases hw) 1 none none _ hG none le_rfl _ _
    (C104_entries_bound (n := 0) (p := 2) none (Quad.init none none none none) le_rfl 1 zero_le_one).2 (fun β hβ i j => ?_) _
    (lt_max_of_lt_right one_pos) (le_max_left _ _)
  by_cases hm : (fun i => β i - denote none i) ∈ {x | matOf (n := 0 + 1) (p := 2 + 1) x ∈ {Z | ∀ ij, |Z ij| ≤ 1}}
  · have h1 : |β (finProdFinEquiv ((0 : Fin (0 + 1)), j)) - 0| ≤ 1 := hm (0, j)
    rw [sub_zero] at h1
    have e : ∑ k : Fin (0 + 1), (1:ℝ) * (rows (p := 0 + 1) (q := 2 + 1) β k j - matOr none k j) -
        matOr (none : Option (Fin 2 → Fin (2 + 1) → ℝ)) i j = β (finProdFinEquiv ((0 : Fin (0 + 1)), j)) := by
      rw [Fin.sum_univ_one]
      show 1 * (β (finProdFinEquiv ((0 : Fin (0 + 1)), j)) - 0) - 0 = _
      ring
    rw [e]
    exact h1.trans (by norm_num)
  · exact absurd (if_neg hm) hβ

/-- one success in two trials is accepted by both constructors of `C109_two_categories` -/
example (h : WHeap 1) : (∃ G, Mglm.multinomial (p := 1) h (fun _ _ => 1) (.baseline fun (_ : Fin 1) => ![(1:ℝ), 2 - 1]) none 1 none none = some G) ∧
    ∃ L, Glm.build (p := 1) (fun (_ : Fin 1) _ => (1:ℝ)) (.logistic (fun _ => 1) fun _ => 2) 1 none none none = some L := by
  constructor
  · refine ⟨⟨fun _ _ => 1, ⟨.baseline fun (_ : Fin 1) => ![(1:ℝ), 2 - 1], 1, none, none⟩, none, fun _ => 1⟩, ?_⟩
    unfold Mglm.multinomial MultiLoss.init
    rw [if_neg (by norm_num), if_neg, if_neg (by simp)]
    · rfl
    · rintro (⟨i, j, hij⟩ | ⟨i, j, hij⟩)
      · apply hij
        fin_cases j <;> norm_num
      · fin_cases j <;> norm_num at hij
  · exact build_ok _ (.logistic (fun _ => 1) fun _ => 2) (by
      rintro (⟨i, h⟩ | ⟨i, h⟩) <;> norm_num at h) zero_le_one none none none (fun _ h => by cases h)

end Verif.Props
