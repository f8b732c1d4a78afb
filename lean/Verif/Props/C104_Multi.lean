import Verif.Model.MultiRegression
import Verif.Props.C104_MatrixAtoms
import Verif.Props.C100_Losses
import Verif.Props.C28_Multi

/-!
# C104: multi-response regression with a matrix penalty

A `mglm` over a stack of losses stands for the sum of the losses of its columns after any history of calls, so `FISTA` with a matrix
atom certifies and approaches its minimum; the multinomial `mglm` for the optimality certificate.
-/

set_option linter.unusedSectionVars false
set_option linter.unusedVariables false

namespace Verif.Props
open Verif.Spec Verif.Model Verif.Model.Fista Verif.Lemmas Verif.Model.Block

variable {n p q : ℕ}

/-! ### the documented objective -/

/-- `C ∑ⱼ cⱼ ∑ᵢ wᵢ ℓⱼᵢ(xᵢ·(Bⱼ - offsetⱼ) - saturated_offsetᵢⱼ - own_offsetⱼᵢ)`, `Bⱼ` being the column `j` of coefficients -/
noncomputable def multiLoss (X : Fin n → Fin p → ℝ) (d : Fin q → LossData n) (c : Fin q → ℝ) (lo : Fin q → Option (Fin n → ℝ)) (C : ℝ)
    (so : Option (Fin n → Fin q → ℝ)) (o : Option (Fin p → Fin q → ℝ)) (w : Option (Fin n → ℝ)) (B : Fin p → Fin q → ℝ) : ℝ :=
  C * ∑ j, c j * ∑ i, (w.elim 1 fun w => w i) *
    caseLoss (d j) i (∑ k, X i k * (B k j - matOr o k j) - matOr so i j - effOffset (lo j) i)

/-! ### functions of the columns -/

/-- column `j` -/
def col (x : Fin (p * q) → ℝ) (j : Fin q) : Fin p → ℝ := fun k => rows x k j

lemma rows_unrows (B : Fin p → Fin q → ℝ) : rows (unrows B) = B := by
  funext k j
  show matOf (flatten fun ij : Fin p × Fin q => B ij.1 ij.2) (k, j) = B k j
  rw [matOf_flat]

lemma dot_cols (G : Fin p → Fin q → ℝ) (y : Fin (p * q) → ℝ) :
    dot (unrows G) y = ∑ j, dot (fun k => G k j) (col y j) := by
  unfold dot col rows
  rw [Finset.sum_comm, ← Fintype.sum_prod_type' (f := fun k j => G k j * matOf y (k, j))]
  rw [← Equiv.sum_comp (finProdFinEquiv (m := p) (n := q))]
  refine Finset.sum_congr rfl fun ij _ => ?_
  show (unrows G) (finProdFinEquiv ij) * y (finProdFinEquiv ij) = G ij.1 ij.2 * y (finProdFinEquiv ij)
  unfold unrows flatten
  rw [Equiv.symm_apply_apply]

lemma sqDist_cols (x z : Fin (p * q) → ℝ) : sqDist x z = ∑ j, sqDist (col x j) (col z j) := by
  unfold sqDist col rows
  rw [Finset.sum_comm, ← Fintype.sum_prod_type' (f := fun k j => (matOf x (k, j) - matOf z (k, j)) ^ 2)]
  rw [← Equiv.sum_comp (finProdFinEquiv (m := p) (n := q))]
  rfl

/-- sum of functions of the columns -/
def sumCols (F : Fin q → (Fin p → ℝ) → ℝ) (x : Fin (p * q) → ℝ) : ℝ := ∑ j, F j (col x j)

def gradCols (G : Fin q → (Fin p → ℝ) → Fin p → ℝ) (x : Fin (p * q) → ℝ) : Fin (p * q) → ℝ :=
  unrows fun k j => G j (col x j) k

lemma cols_tangent {F : Fin q → (Fin p → ℝ) → ℝ} {G : Fin q → (Fin p → ℝ) → Fin p → ℝ}
    (h : ∀ j x z, F j x + dot (G j x) (fun k => z k - x k) ≤ F j z) (x z : Fin (p * q) → ℝ) :
    sumCols F x + dot (gradCols G x) (fun a => z a - x a) ≤ sumCols F z := by
  unfold gradCols sumCols
  rw [dot_cols, ← Finset.sum_add_distrib]
  exact Finset.sum_le_sum fun j _ => h j (col x j) (col z j)

lemma cols_upper {F : Fin q → (Fin p → ℝ) → ℝ} {G : Fin q → (Fin p → ℝ) → Fin p → ℝ} {M : ℝ}
    (h : ∀ j x z, QuadraticUpperBound (F j) (G j x) M x z) (x z : Fin (p * q) → ℝ) :
    QuadraticUpperBound (sumCols F) (gradCols G x) M x z := by
  unfold QuadraticUpperBound gradCols sumCols
  rw [dot_cols, sqDist_cols, Finset.mul_sum, ← Finset.sum_add_distrib, ← Finset.sum_add_distrib]
  exact Finset.sum_le_sum fun j _ => h j (col x j) (col z j)

lemma cols_gradient {F : Fin q → (Fin p → ℝ) → ℝ} {G : Fin q → (Fin p → ℝ) → Fin p → ℝ}
    (h : ∀ j x, IsGradientAt (F j) (G j x) x) (x : Fin (p * q) → ℝ) : IsGradientAt (sumCols F) (gradCols G x) x := by
  let T : Fin q → (Fin (p * q) → ℝ) →L[ℝ] (Fin p → ℝ) := fun j =>
    ContinuousLinearMap.pi fun k => ContinuousLinearMap.proj (finProdFinEquiv (k, j))
  have hT : ∀ j x, T j x = col x j := fun j x => rfl
  have h1 : ∀ j ∈ Finset.univ, HasFDerivAt (fun x => F j (T j x)) ((∑ k, G j (col x j) k •
      (ContinuousLinearMap.proj k : (Fin p → ℝ) →L[ℝ] ℝ)).comp (T j)) x := fun j _ => by
    have h0 : HasFDerivAt (F j) (∑ k, G j (col x j) k • (ContinuousLinearMap.proj k : (Fin p → ℝ) →L[ℝ] ℝ)) (T j x) := h j (col x j)
    exact h0.comp x (T j).hasFDerivAt
  have h2 := HasFDerivAt.fun_sum h1
  unfold IsGradientAt
  refine h2.congr_fderiv ?_
  ext y
  have e := dot_cols (fun k j => G j (col x j) k) y
  unfold dot at e
  simp only [_root_.sum_apply, _root_.smul_apply, ContinuousLinearMap.comp_apply,
    ContinuousLinearMap.proj_apply, smul_eq_mul]
  exact e.symm

/-! ### a stack keeps its meaning -/

/-- what a `mglm` over a stack without weights keeps through its calls -/
private lemma step_keeps {G : StackedGlm p n q} (h0 : G.loss.caseWeights = none) (hw : ∀ j, (G.loss.losses j).caseWeights = none)
    (B : Fin p → Fin q → ℝ) (m : Mode) :
    ∃ b, (G.smoothObjective B m).2 = { G with loss := { G.loss with buf := b } } := by
  have hkeep : (G.loss.smoothObjective (some G.caseWeights) (Mglm.dot G.X (MultiLoss.applyOffset G.offset B)) m).2.2 =
      some G.caseWeights :=
    (C31_stacked_partial G.loss h0 hw (some G.caseWeights) none _ 0 m m).1
  have hS : ∃ b, (G.loss.smoothObjective (some G.caseWeights) (Mglm.dot G.X (MultiLoss.applyOffset G.offset B)) m).2.1 =
      { G.loss with buf := b } := by
    cases m <;> exact ⟨_, rfl⟩
  obtain ⟨b, hb⟩ := hS
  refine ⟨b, ?_⟩
  have e : (G.smoothObjective B m).2 = { G with
      loss := (G.loss.smoothObjective (some G.caseWeights) (Mglm.dot G.X (MultiLoss.applyOffset G.offset B)) m).2.1
      caseWeights := (G.loss.smoothObjective (some G.caseWeights) (Mglm.dot G.X (MultiLoss.applyOffset G.offset B)) m).2.2.getD
        G.caseWeights } := by
    unfold StackedGlm.smoothObjective
    simp only
    cases m <;> cases (G.loss.smoothObjective _ _ _).1 <;> rfl
  rw [e, hkeep, hb]
  rfl

private lemma run_keeps {G : StackedGlm p n q} (h0 : G.loss.caseWeights = none) (hw : ∀ j, (G.loss.losses j).caseWeights = none)
    (calls : List ((Fin p → Fin q → ℝ) × Mode)) : ∃ b, G.run calls = { G with loss := { G.loss with buf := b } } := by
  induction calls generalizing G with
  | nil => exact ⟨G.loss.buf, rfl⟩
  | cons c rest ih =>
    obtain ⟨b, hb⟩ := step_keeps h0 hw c.1 c.2
    obtain ⟨b', hb'⟩ := @ih (G.smoothObjective c.1 c.2).2 (by rw [hb]; exact h0) (by rw [hb]; exact hw)
    refine ⟨b', ?_⟩
    show (G.smoothObjective c.1 c.2).2.run rest = _
    rw [hb', hb]

section
variable {X : Fin n → Fin p → ℝ} {d : Fin q → LossData n} {c : Fin q → ℝ} {lo : Fin q → Option (Fin n → ℝ)}
  {losses : Fin q → Loss n} {C : ℝ} {so : Option (Fin n → Fin q → ℝ)} {o : Option (Fin p → Fin q → ℝ)} {w : Option (Fin n → ℝ)}
  {S : Stacked n q}

/-- the loss of column `j` as a function of its coefficients -/
private noncomputable def colVal (X : Fin n → Fin p → ℝ) (d : Fin q → LossData n) (c : Fin q → ℝ) (lo : Fin q → Option (Fin n → ℝ)) (C : ℝ)
    (so : Option (Fin n → Fin q → ℝ)) (o : Option (Fin p → Fin q → ℝ)) (w : Option (Fin n → ℝ)) (j : Fin q) : (Fin p → ℝ) → ℝ :=
  glmVal X (fun k => matOr o k j) (fun i => matOr so i j + effOffset (lo j) i) (fun i => w.elim 1 fun w => w i) (C * c j) (phi (d j))

private noncomputable def colGrad (X : Fin n → Fin p → ℝ) (d : Fin q → LossData n) (c : Fin q → ℝ) (lo : Fin q → Option (Fin n → ℝ)) (C : ℝ)
    (so : Option (Fin n → Fin q → ℝ)) (o : Option (Fin p → Fin q → ℝ)) (w : Option (Fin n → ℝ)) (j : Fin q) :
    (Fin p → ℝ) → Fin p → ℝ :=
  glmGrad X (fun k => matOr o k j) (fun i => matOr so i j + effOffset (lo j) i) (fun i => w.elim 1 fun w => w i) (C * c j) (psi (d j))

private lemma multi_eq (hd : ∀ j, ConvexLoss (d j)) :
    (fun x => multiLoss X d c lo C so o w (rows x)) = sumCols (colVal X d c lo C so o w) := by
  funext x
  unfold multiLoss sumCols colVal glmVal
  rw [Finset.mul_sum]
  refine Finset.sum_congr rfl fun j _ => ?_
  rw [phi_case (hd j), mul_assoc]
  congr 2
  refine Finset.sum_congr rfl fun i _ => ?_
  congr 2
  unfold Lemmas.predictor col
  ring

private lemma stack_eq (h : Stacked.init losses C so none = some S) :
    0 ≤ C ∧ S = ⟨losses, C, so, none, fun _ _ => 0⟩ := by
  unfold Stacked.init at h
  split_ifs at h with h1
  · injection h with h
    exact ⟨not_lt.1 h1, h.symm⟩

private lemma stacked_evaluates (hl : ∀ j, Loss.init (d j) (c j) (lo j) (Quad.init none none none none) none = some (losses j))
    (hS : Stacked.init losses C so none = some S) (quad : Option (Quad (Fin (p * q)) ℝ)) (calls : List ((Fin p → Fin q → ℝ) × Mode)) :
    Evaluates (((StackedGlm.init X S o w).run calls).toLoss quad).obj (sumCols (colVal X d c lo C so o w))
      (gradCols (colGrad X d c lo C so o w)) := by
  obtain ⟨-, eS⟩ := stack_eq hS
  have eL : ∀ j, losses j = ⟨d j, c j, lo j, Loss.devQuad (c j) (d j) (Quad.init none none none none), none⟩ := fun j =>
    (loss_of_init (hl j)).2.2.2
  have h0 : (StackedGlm.init X S o w).loss.caseWeights = none := by subst eS; rfl
  have hw0 : ∀ j, ((StackedGlm.init X S o w).loss.losses j).caseWeights = none := by
    intro j; subst eS; show (losses j).caseWeights = none; rw [eL]
  obtain ⟨b, hb⟩ := run_keeps h0 hw0 calls
  set W : Fin n → ℝ := w.getD fun _ => 1 with hW
  have hWe : (fun i => w.elim 1 fun w => w i : Fin n → ℝ) = W := by cases w <;> rfl
  intro x
  have key := stacked_eq (n := n) (q := q) ⟨losses, C, so, none, b⟩ (fun j => by dsimp only; rw [eL]) (some W)
    (fun j => totalLoss (c j) W (effOffset (lo j)) (phi (d j)))
    (fun j y i => c j * (W i * psi (d j) i (y i - effOffset (lo j) i))) (fun j => by
      have := evaluates_loss (losses j) (some (effWeight none (some W)))
      dsimp only at this ⊢
      rw [eL] at this ⊢
      have e1 : Loss.cw (none : Option (Fin n → ℝ)) (some (effWeight none (some W))) = W := by
        funext i; simp [Loss.cw, effWeight]
      dsimp only at this ⊢
      have e2 : offV (lo j) = effOffset (lo j) := by funext i; cases lo j <;> rfl
      rw [e1, e2] at this
      exact this) (Mglm.dot X (MultiLoss.applyOffset o (rows x)))
  have hη : ∀ i j, Mglm.dot X (MultiLoss.applyOffset o (rows x)) i j = ∑ k, X i k * (rows x k j - matOr o k j) := by
    intro i j
    rw [mat_off_eq]; rfl
  obtain ⟨k1, k2, k3⟩ := key
  have hval : C * ∑ j, totalLoss (c j) W (effOffset (lo j)) (phi (d j)) (fun i =>
      Mglm.dot X (MultiLoss.applyOffset o (rows x)) i j - matOr so i j) = sumCols (colVal X d c lo C so o w) x := by
    unfold sumCols colVal glmVal totalLoss
    rw [Finset.mul_sum]
    refine Finset.sum_congr rfl fun j _ => ?_
    rw [mul_assoc]
    congr 2
    refine Finset.sum_congr rfl fun i _ => ?_
    dsimp only
    rw [← hWe, hη]
    congr 2
    unfold Lemmas.predictor col
    ring
  have hgrad : unrows (Mglm.dotT X fun i j => C * (c j * (W i * psi (d j) i
      (Mglm.dot X (MultiLoss.applyOffset o (rows x)) i j - matOr so i j - effOffset (lo j) i)))) =
      gradCols (colGrad X d c lo C so o w) x := by
    unfold gradCols
    congr 1
    funext k j
    unfold colGrad glmGrad Mglm.dotT
    refine Finset.sum_congr rfl fun i _ => ?_
    dsimp only
    rw [← hWe, hη, mul_assoc]
    congr 5
    unfold Lemmas.predictor col
    ring
  have hr : (StackedGlm.init X S o w).run calls = ⟨X, ⟨losses, C, so, none, b⟩, o, W⟩ := by
    rw [hb]; subst eS; rfl
  have hG : ∀ m, (((StackedGlm.init X S o w).run calls).toLoss quad).obj x m =
      match (StackedGlm.smoothObjective ⟨X, ⟨losses, C, so, none, b⟩, o, W⟩ (rows x) m).1 with
      | .val f => .val f
      | .grad g _ => .grad (unrows g)
      | .both f g _ => .both f (unrows g)
      | .valueError => .valueError
      | .typeError => .valueError := by
    intro m; rw [hr]; rfl
  refine ⟨?_, ?_, ?_⟩
  · rw [hG, ← hval]
    simp only [StackedGlm.smoothObjective, k1]
  · rw [hG, ← hgrad]
    simp only [StackedGlm.smoothObjective, k2]
  · rw [hG, ← hval, ← hgrad]
    simp only [StackedGlm.smoothObjective, k3]

/-- **C104** A `mglm` over a stack of losses is a loss: for columns of least squares, Poisson, Huber and Huber SVM type, mixed in any
way and each with its own coefficient and offset, with any stack coefficient, offsets, nonnegative case weights of the `mglm` and convex
quadratic, fresh or after any history of evaluations, it stands for the sum over the columns of the weighted losses of the
predictors of that column; and if every column has curvature `coef κⱼ ∑ᵢ wᵢ ‖xᵢ‖² ≤ M` its gradient is `M`-Lipschitz.  Missing: case
weights of the stack itself (`C104_stack_weights_fails`) or of its columns (`C28_stacked_fails`). -/
theorem C104_stacked_partial (hd : ∀ j, ConvexLoss (d j))
    (hl : ∀ j, Loss.init (d j) (c j) (lo j) (Quad.init none none none none) none = some (losses j))
    (hS : Stacked.init losses C so none = some S) (hw : ∀ w', w = some w' → ∀ i, 0 ≤ w' i)
    (quad : Option (Quad (Fin (p * q)) ℝ)) (hq : 0 ≤ quadCoef quad) (calls : List ((Fin p → Fin q → ℝ) × Mode)) :
    ∃ g, IsLossFor (((StackedGlm.init X S o w).run calls).toLoss quad) (fun x => multiLoss X d c lo C so o w (rows x)) g ∧
      ∀ (κ : Fin q → ℝ) (M : ℝ), (∀ j, HasCurvature (d j) (κ j)) →
        (∀ j, C * c j * κ j * ∑ i, (w.elim 1 fun w => w i) * ∑ k, X i k ^ 2 ≤ M) →
        SmoothWith (fun x => multiLoss X d c lo C so o w (rows x)) g M := by
  rw [multi_eq hd]
  have hC := (stack_eq hS).1
  have hc : ∀ j, 0 ≤ C * c j := fun j => mul_nonneg hC (loss_of_init (hl j)).1
  have hw' : ∀ i, 0 ≤ (w.elim 1 fun w => w i : ℝ) := by
    cases w with
    | none => exact fun _ => zero_le_one
    | some w => exact hw w rfl
  have htan : ∀ j x z, colVal X d c lo C so o w j x + dot (colGrad X d c lo C so o w j x) (fun k => z k - x k) ≤
      colVal X d c lo C so o w j z := fun j x z => glm_tangent (κ := 0) (hc j) hw' (tangent_of (hd j)) x z
  refine ⟨gradCols (colGrad X d c lo C so o w), ⟨stacked_evaluates hl hS quad calls,
    ⟨convex_of_tangents (cols_tangent htan), fun x => cols_gradient (fun j y => glm_gradient (deriv_of (hd j)) y) x⟩, ?_⟩,
    fun κ M hκ hM => ?_⟩
  · cases quad with
    | none => exact le_rfl
    | some q => exact hq
  · refine smooth_of_bounds (cols_tangent htan) (cols_upper fun j x z => ?_)
    obtain ⟨h1, h2⟩ := upper_of (hκ j)
    exact glm_upper (hc j) hw' h1 h2 (hM j) x z

end

/-! ### least squares with several responses -/

private lemma gaussian_cols {Y : Fin n → Fin q → ℝ} {coef : ℝ} {so : Option (Fin n → Fin q → ℝ)} {S : Stacked n q}
    (h : Stacked.gaussian Y coef so none = some S) : 0 ≤ coef ∧
    Stacked.init (fun j => ⟨.gaussian fun i => Y i j, coef, none, Quad.init none none none none, none⟩) 1 so none = some S ∧
    ∀ j : Fin q, Loss.init (.gaussian fun i => Y i j) coef none (Quad.init none none none none) none =
      some ⟨.gaussian fun i => Y i j, coef, none, Quad.init none none none none, none⟩ := by
  unfold Stacked.gaussian at h
  split_ifs at h with hc
  refine ⟨not_lt.1 hc, h, fun j => ?_⟩
  unfold Loss.init Smooth.atomInit
  rw [if_neg hc]
  simp only
  rw [if_neg (by simp [Loss.dataError]), if_neg (by simp)]
  rfl

/-- `coef/2 ∑ᵢⱼ wᵢ (xᵢ·(Bⱼ - offsetⱼ) - saturated_offsetᵢⱼ - yᵢⱼ)²` -/
noncomputable def multiLeastSquares (X : Fin n → Fin p → ℝ) (Y : Fin n → Fin q → ℝ) (coef : ℝ) (so : Option (Fin n → Fin q → ℝ))
    (o : Option (Fin p → Fin q → ℝ)) (w : Option (Fin n → ℝ)) (B : Fin p → Fin q → ℝ) : ℝ :=
  coef / 2 * ∑ i, ∑ j, (w.elim 1 fun w => w i) * (∑ k, X i k * (B k j - matOr o k j) - matOr so i j - Y i j) ^ 2

private lemma ls_eq (X : Fin n → Fin p → ℝ) (Y : Fin n → Fin q → ℝ) (coef : ℝ) (so : Option (Fin n → Fin q → ℝ))
    (o : Option (Fin p → Fin q → ℝ)) (w : Option (Fin n → ℝ)) (B : Fin p → Fin q → ℝ) :
    multiLoss X (fun j => .gaussian fun i => Y i j) (fun _ => coef) (fun _ => none) 1 so o w B = multiLeastSquares X Y coef so o w B := by
  unfold multiLoss multiLeastSquares
  rw [one_mul, ← Finset.mul_sum, Finset.sum_comm, div_mul_eq_mul_div, mul_div_assoc, Finset.sum_div]
  congr 1
  refine Finset.sum_congr rfl fun i _ => ?_
  rw [Finset.sum_div]
  refine Finset.sum_congr rfl fun j _ => ?_
  show _ * gaussianNll (Y i j) (_ - (0:ℝ)) = _
  unfold gaussianNll
  ring

/-- **C104** `mglm(X, stacked_common_loglike.gaussian(responses, coef=coef, offset=so), offset=o, case_weights=w, quadratic=quad)`, fresh or
after any history of evaluations, is the least squares loss of all responses, and its gradient is `coef ∑ᵢ wᵢ ‖xᵢ‖²`-Lipschitz.
Missing: weights given to the stack instead of the `mglm` (`C104_stack_weights_fails`). -/
theorem C104_least_squares_partial (X : Fin n → Fin p → ℝ) (Y : Fin n → Fin q → ℝ) (coef : ℝ) (so : Option (Fin n → Fin q → ℝ))
    (o : Option (Fin p → Fin q → ℝ)) (w : Option (Fin n → ℝ)) (hw : ∀ w', w = some w' → ∀ i, 0 ≤ w' i)
    (quad : Option (Quad (Fin (p * q)) ℝ)) (hq : 0 ≤ quadCoef quad) (S : Stacked n q) (hS : Stacked.gaussian Y coef so none = some S)
    (calls : List ((Fin p → Fin q → ℝ) × Mode)) :
    ∃ g, IsLossFor (((StackedGlm.init X S o w).run calls).toLoss quad) (fun x => multiLeastSquares X Y coef so o w (rows x)) g ∧
      SmoothWith (fun x => multiLeastSquares X Y coef so o w (rows x)) g (coef * ∑ i, (w.elim 1 fun w => w i) * ∑ k, X i k ^ 2) := by
  obtain ⟨hc, h1, h2⟩ := gaussian_cols hS
  obtain ⟨g, h3, h4⟩ := C104_stacked_partial (X := X) (o := o) (w := w) (d := fun j => .gaussian fun i => Y i j) (c := fun _ => coef)
    (lo := fun _ => none) (fun j => trivial) h2 h1 hw quad hq calls
  simp only [ls_eq] at h3 h4
  exact ⟨g, h3, h4 (fun _ => 1) _ (fun j => rfl) fun j => by rw [one_mul, mul_one]⟩

/-- two responses of two cases, weights and an offset meet the hypotheses -/
example : ∃ S : Stacked 2 2, Stacked.gaussian (fun i j => (i + j : ℝ)) 3 (some fun _ _ => 1) none = some S := by
  unfold Stacked.gaussian Stacked.init
  rw [if_neg (by norm_num), if_neg (by norm_num), if_neg (by simp)]
  exact ⟨_, rfl⟩

/-- **C104** Multi-response least squares with a matrix penalty is solved: for any atom standing for a penalty `pen` (nuclear and operator
norm, block norms, `C104_svd_lagrange`, `C104_entries_lagrange`, ...), from any start, `solve` with `m ≤ 99` iterations, backtracking and
no restarts returns coefficients of finite documented objective, within `2 ‖B₀ - B‖² / (t (k + 1)²)` of the minimum after `k` passes,
`t = min(start_inv_step, 1 / (2 M alpha))`, `M = coef ∑ᵢ wᵢ ‖xᵢ‖²`; and a proximal gradient step of any length leaves `B` where it is
exactly when `B` minimises.  Missing: as in `C104_least_squares_partial`. -/
theorem C104_regression_partial (X : Fin n → Fin p → ℝ) (Y : Fin n → Fin q → ℝ) (coef : ℝ) (so : Option (Fin n → Fin q → ℝ))
    (o : Option (Fin p → Fin q → ℝ)) (w : Option (Fin n → ℝ)) (hw : ∀ w', w = some w' → ∀ i, 0 ≤ w' i)
    (quad : Option (Quad (Fin (p * q)) ℝ)) (hq : 0 ≤ quadCoef quad) (S : Stacked n q) (hS : Stacked.gaussian Y coef so none = some S)
    (calls : List ((Fin p → Fin q → ℝ) × Mode)) (A : NonsmoothAtom (p * q)) (pen : (Fin (p * q) → ℝ) → WithTop ℝ)
    (hA : IsAtomFor A pen) (x0 : Fin (p * q) → ℝ) :
    let G := (StackedGlm.init X S o w).run calls
    let P := SimpleProblem.ofLoss (G.toLoss quad) A x0
    let obj : (Fin (p * q) → ℝ) → WithTop ℝ := fun x => pen x +
      ((multiLeastSquares X Y coef so o w (rows x) + quadVal (some (quad.getD (Quad.init none none none none))) x : ℝ) : WithTop ℝ)
    let M := coef * ∑ i, (w.elim 1 fun w => w i) * ∑ k, X i k ^ 2
    (∀ (β : Fin (p * q) → ℝ) (L : ℝ), 0 < L → ∃ z, P.proximal (Quad.init (some L) (some (.arr β)) (some (.arr (P.grad β))) (some 0)) = some z ∧
      (IsMinTop obj β ↔ z = β)) ∧
    (∀ (a : FitArgs), a.performBacktrack = true → 1 < a.alpha → 0 < a.startStep → ∀ lip, ∃ N, ∀ fuel, N < fuel → ∃ c v hist,
      (P.solve none a lip fuel).1 = .ok c (.num v) hist ∧ obj c = v) ∧
    (0 < M → ∀ (a : FitArgs), a.performBacktrack = true → 1 ≤ a.alpha → 0 < a.startStep → a.monotonicityRestart = false →
      a.restart = none → (∃ m, a.maxIts = some m ∧ m ≠ 0 ∧ m ≤ 99) → ∀ (lip : ℝ) (fuel : ℕ) (c : Fin (p * q) → ℝ) (v : ObjVal)
      (hist : List ObjVal), (P.solve none a lip fuel).1 = .ok c v hist → ∀ u, IsMinTop obj u →
      ∃ vc vu : ℝ, v = .num vc ∧ obj c = vc ∧ obj u = vu ∧ vu ≤ vc ∧
        vc - vu ≤ 2 * sqDist x0 u / (min a.startStep (1 / (2 * M * a.alpha)) * (hist.length + 1) ^ 2)) := by
  intro G P obj M
  obtain ⟨g, h1, h2⟩ := C104_least_squares_partial X Y coef so o w hw quad hq S hS calls
  refine ⟨fun β L hL => C100_certificate _ _ _ A pen h1 hA x0 β L hL, fun a hb ha hst lip => ?_, ?_⟩
  · exact C100_returns _ _ _ A pen h1 hA M h2 x0 a hb ha hst lip
  · intro hM a hb ha hst hm hr hmax lip fuel c v hist hsolve u hu
    exact C100_rate _ _ _ A pen h1 hA M hM h2 x0 a hb ha hst hm hr hmax lip fuel c v hist hsolve u hu

/-- the nuclear norm of a 3 by 2 coefficient matrix is such an atom -/
example : ∃ (A : NonsmoothAtom (3 * 2)) (pen : (Fin (3 * 2) → ℝ) → WithTop ℝ), IsAtomFor A pen := by
  choose svd h using fun X : Mat 3 2 => C59_svd_exists (k := 1) (n := 3) (p := 2) (by norm_num) X
  exact ⟨_, _, (C104_svd_lagrange (n := 2) (p := 1) none (Quad.init none none none none) le_rfl svd h 1 zero_le_one).1⟩

/-! ### what fails -/

/-- **C104** Case weights given to the stack are applied once more at every evaluation: the `mglm` hands its own weight array to the
stack, which multiplies it in place.  With one case of response 0, one unit coefficient and stack weight 2 the loss is 1 at the first
evaluation and 2 at the second. -/
theorem C104_stack_weights_fails : ∃ S : Stacked 1 1, Stacked.gaussian (fun _ _ => 0) 1 none (some fun _ => 2) = some S ∧
    let G := StackedGlm.init (fun _ (_ : Fin 1) => 1) S none none
    (G.smoothObjective (fun _ _ => 1) .func).1 = .val 1 ∧
    ((G.smoothObjective (fun _ _ => 1) .func).2.smoothObjective (fun _ _ => 1) .func).1 = .val 2 := by
  refine ⟨⟨fun _ => ⟨.gaussian fun _ => 0, 1, none, Quad.init none none none none, none⟩, 1, none, some fun _ => 2, fun _ _ => 0⟩, ?_, ?_, ?_⟩
  · unfold Stacked.gaussian Stacked.init
    rw [if_neg (by norm_num), if_neg (by norm_num), if_neg (by simp)]
  · simp [StackedGlm.smoothObjective, StackedGlm.init, Stacked.smoothObjective, List.finRange_succ, Stacked.column, Loss.smoothObjective,
      Loss.cw, Loss.argAfter, Smooth.scaleR, Smooth.applyOffset, MultiLoss.applyOffset, Mglm.dot]
  · simp [StackedGlm.smoothObjective, StackedGlm.init, Stacked.smoothObjective, List.finRange_succ, Stacked.column, Loss.smoothObjective,
      Loss.cw, Loss.argAfter, Smooth.scaleR, Smooth.applyOffset, MultiLoss.applyOffset, Mglm.dot]

private lemma plain_step {m : ℕ} (k : SeminormClass m) (par : AtomParam ℝ) {L : ℝ} (hL : 0 < L) (x u : Fin m → ℝ) :
    (k.atom par none (Quad.init none none none none)).proximal
        (((stepQuad L x u).add (some (Quad.init none none none none))).add (some (Quad.init none none none none))) =
      (k.atom par none (Quad.init none none none none)).proximal (Quad.init (some L) (some (.arr x)) (some (.arr u)) (some 0)) := by
  rw [matrix_prox_plain k par hL x u]
  have hne : (0:ℝ) + (L + 0 + 0) ≠ 0 := by rw [zero_add, add_zero, add_zero]; exact hL.ne'
  have e : (fun i => x i - u i / L) = fun i => -(0 - (0 + (L + 0 + 0)) * 0 +
      (0 + (0 - (L + 0 + 0) * 0 + (0 - (L + 0) * 0 + (0 - L * x i + u i + 0) + 0)))) / (0 + (L + 0 + 0)) := by
    funext i
    simp only [add_zero, zero_add]
    field_simp; ring
  show seminormProximal k.lagrangeProx k.boundProx par none (Quad.init none none none none) (some _) = _
  unfold seminormProximal
  simp only [stepQuad, Quad.recenter, Quad.add, Quad.init, Quad.collapsed, Quad.collapsedLinear, PyVec.map₂, PyVec.map, PyVec.get, Option.getD]
  rw [if_neg hne, e]
  cases par with
  | bound b => simp only [zero_add, add_zero]; cases k.boundProx _ b <;> rfl
  | lagrange lam => simp only [zero_add, add_zero]; cases k.lagrangeProx _ L lam <;> rfl

/-- **C104** A feature that is zero in every case makes `solve` fail for a row penalty: with the `l1_l2` penalty of any multiplier, least
squares responses and a design with a zero column, the default start at zero coefficients makes the first proximal step divide 0 by 0. -/
theorem C104_zero_column_fails (X : Fin (n + 1) → Fin (p + 1) → ℝ) (Y : Fin (n + 1) → Fin (q + 1) → ℝ) (coef : ℝ)
    (S : Stacked (n + 1) (q + 1)) (hS : Stacked.gaussian Y coef none none = some S) (k : Fin (p + 1)) (hk : ∀ i, X i k = 0)
    (lam : ℝ) (hl : 0 ≤ lam) (a : FitArgs) (hb : a.performBacktrack = true) (hst : 0 < a.startStep) (hmax : a.maxItsV ≠ 0) (lip : ℝ)
    (fuel : ℕ) (hf : 0 < fuel) :
    ((SimpleProblem.ofLoss ((StackedGlm.init X S none none).toLoss none)
      ((Block.l1l2Cls (n := p + 1) (p := q + 1)).atom (.lagrange lam) none (Quad.init none none none none)) 0).solve none a lip fuel).1 =
      .raised := by
  set A := (Block.l1l2Cls (n := p + 1) (p := q + 1)).atom (.lagrange lam) none (Quad.init none none none none) with hA
  set P := SimpleProblem.ofLoss ((StackedGlm.init X S none none).toLoss none) A 0 with hP
  obtain ⟨hc, h1, h2⟩ := gaussian_cols hS
  have hev := stacked_evaluates (X := X) (o := none) (w := none) h2 h1 none [] 0
  have hev1 : ((StackedGlm.init X S none none).toLoss none).obj 0 .func = .val _ := hev.1
  have hev2 : ((StackedGlm.init X S none none).toLoss none).obj 0 .grad = .grad _ := hev.2.1
  have hsm : ∃ v, P.smooth 0 = .num v := ⟨_, by rw [hP]; unfold SimpleProblem.ofLoss; dsimp only; rw [hev1]⟩
  have hgr : ∀ j, matOf (n := p + 1) (p := q + 1) (P.grad 0) (k, j) = 0 := by
    intro j
    have e : P.grad 0 = gradCols (colGrad X (fun j => .gaussian fun i => Y i j) (fun _ => coef) (fun _ => none) 1 none none none) 0 := by
      rw [hP]; unfold SimpleProblem.ofLoss; dsimp only; rw [hev2]
    rw [e]
    have e2 := congrFun (congrFun (rows_unrows fun k j => colGrad X (fun j => .gaussian fun i => Y i j) (fun _ => coef) (fun _ => none) 1
      none none none j (col (0 : Fin ((p + 1) * (q + 1)) → ℝ) j) k) k) j
    refine e2.trans ?_
    unfold colGrad glmGrad
    exact Finset.sum_eq_zero fun i _ => by rw [hk i, zero_mul]
  have hprox : ∀ L, 0 < L → P.proximal (stepQuad L 0 (P.grad 0)) = none := by
    intro L hL
    have h3 := (C104_zero_row_fails (n := p) (p := q) lam 0 L hl le_rfl hL 0 (P.grad 0) k fun j => by
      rw [hgr j]; simp [matOf]).1
    rw [← plain_step _ _ hL] at h3
    have h4 : ∀ Q, A.proximal Q = .baseError → P.atomSolve Q = none := by
      intro Q hQ
      rw [hP]; unfold SimpleProblem.ofLoss; dsimp only; rw [hQ]
    exact h4 _ h3
  have hdef : A.nonsmooth 0 true ≠ .nan :=
    (C104_row_norms_partial (n := p) (p := q) none (Quad.init none none none none) le_rfl lam 0 hl le_rfl).1.defined 0
  have hstart : startObj (P.composite lip) 0 ≠ .nan := by
    obtain ⟨v, hv⟩ := hsm
    show (P.smooth 0).add (((A.nonsmooth 0 true).add (.num _)).add (.num _)) ≠ .nan
    rw [hv]
    cases h : A.nonsmooth 0 true with
    | nan => exact absurd h hdef
    | num v => simp [ObjVal.add]
    | inf => simp [ObjVal.add]
  obtain ⟨fuel, rfl⟩ : ∃ f, fuel = f + 1 := ⟨fuel - 1, by omega⟩
  have hbt : btLoop (P.composite lip) a.alpha 0 (fuel + 1) a.startStep false = .proxError := by
    unfold btLoop
    have : (P.composite lip).proximal (stepQuad (1 / a.startStep) 0 ((P.composite lip).grad 0)) = none := hprox _ (by positivity)
    rw [this]
  have hfit : ∃ s, Fista.fit (P.composite lip) a none false (fuel + 1) 0 = .proxError s := by
    have hpass : ∃ s, pass (P.composite lip) a (fuel + 1) (startState (P.composite lip) a none false 0) = .proxError s := by
      have hprep : ∃ h, prepare a (startState (P.composite lip) a none false 0) =
          { startState (P.composite lip) a none false 0 with hist := h } := by
        unfold prepare
        cases a.restart with
        | none => exact ⟨_, rfl⟩
        | some r =>
          dsimp only
          split_ifs <;> exact ⟨_, rfl⟩
      obtain ⟨h, hh⟩ := hprep
      unfold pass
      rw [hh, if_pos hb]
      have : backtrack (P.composite lip) a.alpha (fuel + 1) 0 0 a.startStep false = .proxError := by
        unfold backtrack
        rw [if_neg (by simp)]
        exact hbt
      have h0 : backtrack (P.composite lip) a.alpha (fuel + 1) (startState (P.composite lip) a none false 0).itercount
          (startState (P.composite lip) a none false 0).working (startState (P.composite lip) a none false 0).step
          (startState (P.composite lip) a none false 0).attempt = .proxError := this
      dsimp only
      rw [h0]
      exact ⟨_, rfl⟩
    obtain ⟨s, hs⟩ := hpass
    refine ⟨s, ?_⟩
    have hloop : loop (P.composite lip) a (fuel + 1) (a.maxItsV + 1) (startState (P.composite lip) a none false 0) = .proxError s := by
      unfold loop
      rw [if_pos (by show 0 < a.maxItsV; omega), hs]
    unfold Fista.fit
    rw [hloop]
    cases h : startObj (P.composite lip) 0 with
    | nan => exact absurd h hstart
    | num v => rfl
    | inf => rfl
  obtain ⟨s, hs⟩ := hfit
  have hs' : Fista.fit (SimpleProblem.composite { P with quadratic := P.quadratic.add none } lip) a none false (fuel + 1) P.coefs =
      .proxError s := hs
  unfold SimpleProblem.solve
  dsimp only
  rw [hs']

/-- the settings of the hypotheses, a design with a zero column -/
example : (∀ i : Fin 2, (fun (i : Fin 2) (k : Fin 2) => if k = 1 then (0 : ℝ) else i) i 1 = 0) ∧
    ∃ S : Stacked 2 2, Stacked.gaussian (fun i j => (i + j : ℝ)) 1 none none = some S := by
  refine ⟨fun i => by simp, ?_⟩
  unfold Stacked.gaussian Stacked.init
  rw [if_neg (by norm_num), if_neg (by norm_num), if_neg (by simp)]
  exact ⟨_, rfl⟩

/-! ### multinomial regression -/

lemma grad_rows {F : (Fin p → Fin q → ℝ) → ℝ} {G : Fin p → Fin q → ℝ} {x : Fin (p * q) → ℝ} (h : IsGradientAt2 F G (rows x)) :
    IsGradientAt (fun x => F (rows x)) (unrows G) x := by
  let T : (Fin (p * q) → ℝ) →L[ℝ] (Fin p → Fin q → ℝ) := ContinuousLinearMap.pi fun k =>
    ContinuousLinearMap.pi fun j => ContinuousLinearMap.proj (finProdFinEquiv (k, j))
  unfold IsGradientAt2 at h
  have h0 : HasFDerivAt F _ (T x) := h
  have h1 := h0.comp x T.hasFDerivAt
  unfold IsGradientAt
  refine (show HasFDerivAt (fun x => F (rows x)) _ x from h1).congr_fderiv ?_
  ext y
  have e := dot_cols G y
  unfold dot at e
  simp only [_root_.sum_apply, _root_.smul_apply, ContinuousLinearMap.comp_apply, ContinuousLinearMap.proj_apply, smul_eq_mul]
  rw [e, Finset.sum_comm]
  rfl

/-- the linear predictors -/
noncomputable def mpred (X : Fin n → Fin p → ℝ) (so : Option (Fin n → Fin q → ℝ)) (o : Option (Fin p → Fin q → ℝ))
    (B : Fin p → Fin q → ℝ) (i : Fin n) (j : Fin q) : ℝ := ∑ k, X i k * (B k j - matOr o k j) - matOr so i j

/-- `coef ∑ᵢ wᵢ nllᵢ(xᵢ·(B - offset) - saturated_offsetᵢ)`, `nllᵢ` being the multinomial negative log likelihood of the counts of case `i` -/
noncomputable def multinomialRegression (X : Fin n → Fin p → ℝ) (d : MultiData n q) (coef : ℝ) (so : Option (Fin n → Fin q → ℝ))
    (o : Option (Fin p → Fin q → ℝ)) (w : Option (Fin n → ℝ)) (B : Fin p → Fin q → ℝ) : ℝ :=
  coef * ∑ i, (w.elim 1 fun w => w i) * countsNll d i fun j => ∑ k, X i k * (B k j - matOr o k j) - matOr so i j

/-- **C104** A multinomial `mglm` given a quadratic, as a loss: at every coefficient matrix whose linear predictors are all within 50 in
absolute value the three modes agree and give the exact negative log likelihood and its gradient.  Missing: matrices with a predictor
beyond 50 (`C28_multinomial_fails`). -/
theorem C104_multinomial_partial (hq0 : 0 < q) (h : WHeap n) (X : Fin n → Fin p → ℝ) (d : MultiData n q)
    (w : Option (Fin n → ℝ)) (coef : ℝ) (so : Option (Fin n → Fin q → ℝ))
    (o : Option (Fin p → Fin q → ℝ)) (G : Mglm p n q) (hG : Mglm.multinomial h X d w coef so o = some G)
    (quad : Option (Quad (Fin (p * q)) ℝ)) (β : Fin (p * q) → ℝ)
    (hβ : ∀ i j, |∑ k, X i k * (rows β k j - matOr o k j) - matOr so i j| ≤ 50) :
    ∃ g, (G.toLoss quad).obj β .func = .val (multinomialRegression X d coef so o w (rows β)) ∧
      (G.toLoss quad).obj β .grad = .grad g ∧
      (G.toLoss quad).obj β .both = .both (multinomialRegression X d coef so o w (rows β)) g ∧
      IsGradientAt (fun x => multinomialRegression X d coef so o w (rows x)) g β := by
  have eG : G = ⟨X, ⟨d, coef, so, none⟩, o, w.getD fun _ => 1⟩ := by
    unfold Mglm.multinomial MultiLoss.init at hG
    by_cases h1 : coef < 0
    · rw [if_pos h1] at hG; cases hG
    by_cases h2 : MultiLoss.dataError d
    · rw [if_neg h1, if_pos h2] at hG; cases hG
    rw [if_neg h1, if_neg h2, if_neg (by simp)] at hG
    injection hG with hG
    exact hG.symm
  set W : Fin n → ℝ := fun i => w.elim 1 fun w => w i with hW
  have hWe : (w.getD fun _ => 1) = W := by cases w <;> rfl
  obtain ⟨F, D, hev, hF, -⟩ := C28_mglm_partial hq0 G
  have hFe : F (rows β) = multinomialRegression X d coef so o w (rows β) := by
    rw [hF (rows β) (by subst eG; exact hβ)]
    subst eG
    show coef * ∑ i, (w.getD fun _ => 1) i * _ = coef * ∑ i, W i * _
    rw [hWe]
    rfl
  have hDe : D (rows β) = Mglm.dotT X fun i j => coef * (W i * rowGrad d i (mpred X so o (rows β) i) j) := by
    obtain ⟨fr, hg⟩ := (hev (rows β)).2.1
    have h1 : G.smoothObjective (rows β) .grad = .grad (Mglm.dotT X (MultiLoss.gradient ⟨d, coef, so, none⟩ (fun i j =>
        MultiLoss.clip (MultiLoss.applyOffset so (Mglm.dot X (MultiLoss.applyOffset o (rows β))) i j)) (w.getD fun _ => 1))) false := by
      subst eG; rfl
    rw [hg] at h1
    injection h1 with h1 _
    rw [h1, gradient_eq, hWe]
    have e : ∀ i j, MultiLoss.clip (MultiLoss.applyOffset so (Mglm.dot X (MultiLoss.applyOffset o (rows β))) i j) =
        mpred X so o (rows β) i j := by
      intro i j
      rw [mat_off_eq, mat_off_eq]
      exact clip_id (hβ i j)
    simp only [e]
  refine ⟨unrows (D (rows β)), ?_, ?_, ?_, ?_⟩
  · unfold Mglm.toLoss
    dsimp only
    rw [(hev (rows β)).1, hFe]
  · obtain ⟨fr, hg⟩ := (hev (rows β)).2.1
    unfold Mglm.toLoss
    dsimp only
    rw [hg]
  · obtain ⟨fr, hg⟩ := (hev (rows β)).2.2
    unfold Mglm.toLoss
    dsimp only
    rw [hg, hFe]
  · rw [hDe]
    refine grad_rows (F := multinomialRegression X d coef so o w) ?_
    have h1 := grad2_rows coef W (matOr so) (rowNll d) (fun i => rowGrad d i (mpred X so o (rows β) i))
      (Mglm.dot X (MultiLoss.applyOffset o (rows β))) (fun i => by
        have := grad_row hq0 d i (mpred X so o (rows β) i)
        rw [mat_off_eq]
        exact this)
    have h2 := grad2_comp_dot X o (rows β) h1
    have e : multinomialRegression X d coef so o w = fun B => coef * ∑ i, W i * rowNll d i fun j =>
        Mglm.dot X (MultiLoss.applyOffset o B) i j - matOr so i j := by
      funext B
      rw [rowNll_eq, mat_off_eq]
      rfl
    rw [e]
    exact h2

/-- the gradient of `multinomialRegression` -/
noncomputable def multinomialGrad (X : Fin n → Fin p → ℝ) (d : MultiData n q) (coef : ℝ) (so : Option (Fin n → Fin q → ℝ))
    (o : Option (Fin p → Fin q → ℝ)) (w : Option (Fin n → ℝ)) (x : Fin (p * q) → ℝ) : Fin (p * q) → ℝ :=
  unrows (Mglm.dotT X fun i j => coef * ((w.elim 1 fun w => w i) * rowGrad d i (mpred X so o (rows x) i) j))

lemma multinomial_convexDiff (hq0 : 0 < q) (X : Fin n → Fin p → ℝ) (d : MultiData n q) (hd : ¬ MultiLoss.dataError d)
    (w : Option (Fin n → ℝ)) (hw' : ∀ i, 0 ≤ (w.elim 1 fun w => w i : ℝ)) (coef : ℝ) (hc : 0 ≤ coef)
    (so : Option (Fin n → Fin q → ℝ)) (o : Option (Fin p → Fin q → ℝ)) :
    IsConvex (fun x => multinomialRegression X d coef so o w (rows x)) ∧
      ∀ x, IsGradientAt (fun x => multinomialRegression X d coef so o w (rows x)) (multinomialGrad X d coef so o w x) x := by
  set W : Fin n → ℝ := fun i => w.elim 1 fun w => w i with hW
  set f : (Fin (p * q) → ℝ) → ℝ := fun x => multinomialRegression X d coef so o w (rows x) with hf
  set g : (Fin (p * q) → ℝ) → Fin (p * q) → ℝ := multinomialGrad X d coef so o w with hg
  have hgrad0 : ∀ x, IsGradientAt f (g x) x := by
    intro x
    refine grad_rows (F := multinomialRegression X d coef so o w) ?_
    have h1 := grad2_rows coef W (matOr so) (rowNll d) (fun i => rowGrad d i (mpred X so o (rows x) i))
      (Mglm.dot X (MultiLoss.applyOffset o (rows x))) (fun i => by
        have := grad_row hq0 d i (mpred X so o (rows x) i)
        rw [mat_off_eq]
        exact this)
    have h2 := grad2_comp_dot X o (rows x) h1
    have e : multinomialRegression X d coef so o w = fun B => coef * ∑ i, W i * rowNll d i fun j =>
        Mglm.dot X (MultiLoss.applyOffset o B) i j - matOr so i j := by
      funext B
      rw [rowNll_eq, mat_off_eq]
      rfl
    rw [e]
    exact h2
  have hconv : ∀ i, IsConvex (countsNll d i) := by
    intro i
    cases hdd : d with
    | full c =>
      rw [hdd] at hd
      exact convex_multinomial hq0 fun j => not_lt.mp fun hj => hd ⟨i, j, hj⟩
    | baseline c =>
      rw [hdd] at hd
      exact convex_baseline fun j => not_lt.mp fun hj => hd (Or.inr ⟨i, j, hj⟩)
  have hcf : IsConvex f := by
    intro x y s t hs ht hst
    show coef * _ ≤ s * (coef * _) + t * (coef * _)
    have key : ∀ i, countsNll d i (fun j => ∑ k, X i k * (rows (fun a => s * x a + t * y a) k j - matOr o k j) - matOr so i j) ≤
        s * countsNll d i (fun j => ∑ k, X i k * (rows x k j - matOr o k j) - matOr so i j) +
        t * countsNll d i (fun j => ∑ k, X i k * (rows y k j - matOr o k j) - matOr so i j) := by
      intro i
      have := hconv i (fun j => ∑ k, X i k * (rows x k j - matOr o k j) - matOr so i j)
        (fun j => ∑ k, X i k * (rows y k j - matOr o k j) - matOr so i j) s t hs ht hst
      refine le_trans (le_of_eq ?_) this
      congr 1
      funext j
      have e1 : ∀ k, rows (fun a => s * x a + t * y a) k j = s * rows x k j + t * rows y k j := fun k => rfl
      simp only [e1]
      rw [mul_sub, mul_sub, Finset.mul_sum, Finset.mul_sum]
      have e2 : matOr so i j = s * matOr so i j + t * matOr so i j := by rw [← add_mul, hst, one_mul]
      have e3 : ∑ k, X i k * (s * rows x k j + t * rows y k j - matOr o k j) =
          ∑ k, s * (X i k * (rows x k j - matOr o k j)) + ∑ k, t * (X i k * (rows y k j - matOr o k j)) := by
        rw [← Finset.sum_add_distrib]
        refine Finset.sum_congr rfl fun k _ => ?_
        have : t = 1 - s := by linarith
        rw [this]; ring
      rw [e3]
      linarith
    have h1 : ∑ i, W i * countsNll d i (fun j => ∑ k, X i k * (rows (fun a => s * x a + t * y a) k j - matOr o k j) - matOr so i j) ≤
        ∑ i, W i * (s * countsNll d i (fun j => ∑ k, X i k * (rows x k j - matOr o k j) - matOr so i j) +
        t * countsNll d i (fun j => ∑ k, X i k * (rows y k j - matOr o k j) - matOr so i j)) :=
      Finset.sum_le_sum fun i _ => mul_le_mul_of_nonneg_left (key i) (hw' i)
    refine (mul_le_mul_of_nonneg_left h1 hc).trans (le_of_eq ?_)
    simp only [mul_add, Finset.sum_add_distrib, Finset.mul_sum]
    congr 1 <;> exact Finset.sum_congr rfl fun i _ => by simp only [hW]; ring
  exact ⟨hcf, hgrad0⟩

/-- **C104** Optimality certificate for multinomial regression with any matrix atom: at every coefficient matrix whose linear predictors
are all within 50 in absolute value and for every `L > 0` the proximal gradient step exists, and the matrix minimises the exact
penalised negative log likelihood over all matrices exactly when the step leaves it where it is.  Missing: matrices with a predictor
beyond 50, where the code clips and its loss is not convex (`C29_multinomial_fails`). -/
theorem C104_multinomial_certificate_partial (hq0 : 0 < q) (h : WHeap n) (X : Fin n → Fin p → ℝ) (d : MultiData n q)
    (w : Option (Fin n → ℝ)) (hw : ∀ w', w = some w' → ∀ i, 0 ≤ w' i) (coef : ℝ) (so : Option (Fin n → Fin q → ℝ))
    (o : Option (Fin p → Fin q → ℝ)) (G : Mglm p n q) (hG : Mglm.multinomial h X d w coef so o = some G)
    (quad : Option (Quad (Fin (p * q)) ℝ)) (hq : 0 ≤ quadCoef quad) (A : NonsmoothAtom (p * q))
    (pen : (Fin (p * q) → ℝ) → WithTop ℝ) (hA : IsAtomFor A pen) (x0 β : Fin (p * q) → ℝ)
    (hβ : ∀ i j, |∑ k, X i k * (rows β k j - matOr o k j) - matOr so i j| ≤ 50) (L : ℝ) (hL : 0 < L) :
    ∃ z, (SimpleProblem.ofLoss (G.toLoss quad) A x0).proximal (Quad.init (some L) (some (.arr β))
        (some (.arr ((SimpleProblem.ofLoss (G.toLoss quad) A x0).grad β))) (some 0)) = some z ∧
      (IsMinTop (penalised (fun x => multinomialRegression X d coef so o w (rows x)) (quad.getD (Quad.init none none none none)) pen) β ↔
        z = β) := by
  have hw' : ∀ i, 0 ≤ (w.elim 1 fun w => w i : ℝ) := by
    cases w with
    | none => exact fun _ => zero_le_one
    | some w => exact hw w rfl
  obtain ⟨hc, hd, eG⟩ : 0 ≤ coef ∧ ¬ MultiLoss.dataError d ∧ G = ⟨X, ⟨d, coef, so, none⟩, o, w.getD fun _ => 1⟩ := by
    unfold Mglm.multinomial MultiLoss.init at hG
    by_cases h1 : coef < 0
    · rw [if_pos h1] at hG; cases hG
    by_cases h2 : MultiLoss.dataError d
    · rw [if_neg h1, if_pos h2] at hG; cases hG
    rw [if_neg h1, if_neg h2, if_neg (by simp)] at hG
    injection hG with hG
    exact ⟨not_lt.1 h1, h2, hG.symm⟩
  set W : Fin n → ℝ := fun i => w.elim 1 fun w => w i with hW
  have hWe : (w.getD fun _ => 1) = W := by cases w <;> rfl
  set f : (Fin (p * q) → ℝ) → ℝ := fun x => multinomialRegression X d coef so o w (rows x) with hf
  set g : (Fin (p * q) → ℝ) → Fin (p * q) → ℝ := multinomialGrad X d coef so o w with hg
  obtain ⟨hcf, hgrad0⟩ := multinomial_convexDiff hq0 X d hd w hw' coef hc so o
  let S' : QuadLoss (p * q) := ⟨fun x mode => match mode with
    | .func => .val (f x)
    | .grad => .grad (g x)
    | .both => .both (f x) (g x)
    | .other => .valueError, (G.toLoss quad).quad⟩
  have hS' : IsLossFor S' f g := by
    refine ⟨fun x => ⟨rfl, rfl, rfl⟩, ⟨hcf, hgrad0⟩, ?_⟩
    show 0 ≤ (G.toLoss quad).quad.coef
    cases quad with
    | none => exact le_rfl
    | some q => exact hq
  obtain ⟨z, hz, hiff⟩ := C100_certificate S' f g A pen hS' hA x0 β L hL
  have hgrad : (SimpleProblem.ofLoss (G.toLoss quad) A x0).grad β = (SimpleProblem.ofLoss S' A x0).grad β := by
    show (match (G.toLoss quad).obj β .grad with
      | .grad g => g
      | _ => fun _ => 0) = g β
    subst eG
    show unrows (Mglm.dotT X (MultiLoss.gradient ⟨d, coef, so, none⟩ (fun i j => MultiLoss.clip (MultiLoss.applyOffset so
      (Mglm.dot X (MultiLoss.applyOffset o (rows β))) i j)) (w.getD fun _ => 1))) = _
    rw [gradient_eq, hWe]
    have e : ∀ i j, MultiLoss.clip (MultiLoss.applyOffset so (Mglm.dot X (MultiLoss.applyOffset o (rows β))) i j) =
        mpred X so o (rows β) i j := by
      intro i j
      rw [mat_off_eq, mat_off_eq]
      exact clip_id (hβ i j)
    simp only [e]
    rfl
  refine ⟨z, ?_, hiff⟩
  rw [hgrad]
  exact hz

/-- two cases with counts in three categories, at zero coefficients, meet the hypotheses -/
example (h : WHeap 2) : ∃ G : Mglm 1 2 3, Mglm.multinomial h (fun _ _ => 1) (.full fun i j => (i + j : ℝ)) none 1 none none = some G ∧
    ∀ i j, |∑ k : Fin 1, (fun _ _ => (1 : ℝ)) i k * (rows (p := 1) (q := 3) 0 k j - matOr none k j) - matOr (none : Option (Fin 2 → Fin 3 → ℝ)) i j| ≤ 50 := by
  refine ⟨⟨fun _ _ => 1, ⟨.full fun i j => (i + j : ℝ), 1, none, none⟩, none, fun _ => 1⟩, ?_, ?_⟩
  · unfold Mglm.multinomial MultiLoss.init
    rw [if_neg (by norm_num), if_neg, if_neg (by simp)]
    · rfl
    · rintro ⟨i, j, hij⟩
      have : (0:ℝ) ≤ (i : ℝ) + (j : ℝ) := by positivity
      linarith
  · intro i j
    simp [rows, matOf, matOr]

end Verif.Props
