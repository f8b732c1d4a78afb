import Verif.Props.C94_Scores

/-!
# C94, continued: `strong_rules` folds always return; `linpred` with three dimensional coefficients; the gaps
-/

set_option linter.unusedSectionVars false
set_option linter.unusedVariables false

namespace Verif.Props
open Verif.Model Verif.Model.LassoObj Verif.Spec Verif.Lemmas Verif.Lemmas.LassoObj

variable {p n : ℕ}

/-- **C94** a fold fitted with `strong_rules` always returns: for every solver, loss, design, initial data and lagrange sequence, as
soon as there is a training case; its first row is the solution of the initial data, whatever the training cases, and one row
follows for each later lagrange parameter. -/
theorem C94_strong_total (solve solve' : SubSolver p) {L : Loss n} (hL : ReachableLoss L) {D : Design p n} {w : Fin p → ℝ}
    {enet : Option (Fin p → ℝ)} {alpha : ℝ} {P : Obj p n} (hP : init solve L D w enet alpha = some P) (seq : List ℝ)
    (initial : (Fin p → ℝ) × (Fin p → ℝ)) (train : Fin n → Bool) (hne : ∃ i, train i = true) :
    ∃ rest, fitFold solve (strongFit solve') P seq initial train = some (initial.1 :: rest) ∧ rest.length = seq.length - 1 := by
  obtain ⟨Q, -, h0, -⟩ := cvFold_path solve hL hP train hne
  obtain ⟨es, g1, g2⟩ := C40_terminates (toPath (1 / 100) Q) (toSolver solve' Q) false 20 seq initial.1 initial.2
  refine ⟨es.map StrongRules.Entry.beta, ?_, ?_⟩
  · rw [h0]
    unfold strongFit
    rw [g1]; rfl
  · have := congrArg List.length g2
    simpa using this

/-- **C94** the folds may be fitted without the held-out cases and without raising, yet a training set without cases raises (or
gives an infinite coefficient) for every fitter. -/
theorem C94_empty_training (solve : SubSolver p) (fit : Fitter p n) (P : Obj p n) (seq : List ℝ)
    (initial : (Fin p → ℝ) × (Fin p → ℝ)) : fitFold solve fit P seq initial (fun _ => false) = none := by
  have hc : CrossValidate.coefFactor (fun _ : Fin n => false) = none := by
    unfold CrossValidate.coefFactor CrossValidate.count
    rw [if_pos (by simp)]
  unfold fitFold trainPath
  rw [hc]
  cases subsample solve P (Finset.univ.filter fun i : Fin n => (false : Bool) = true) <;> rfl

/-- **C94** `path.linpred(coef, X, test)` for coefficients of shape `(l, q, p)` (several responses): entry `(i, j, k)` of the result
is the linear predictor of the `i`-th test case under the coefficients of response `j` at the `k`-th lagrange parameter. -/
theorem C94_linpred {q l t : ℕ} (D : Design p n) (coef : Fin l → Fin q → Fin p → ℝ) (test : Fin t → Fin n) (i : Fin t) (j : Fin q)
    (k : Fin l) : linpred3 D coef test i j k = ∑ a, D.X (test i) a * coef k j a := by
  unfold linpred3 Design.dot
  simp

/-! ### the first row of `strong_rules` sees the held-out cases -/

section leak

/-- an intercept and a feature that is zero, two cases with responses 0 and 2; the intercept is not penalised -/
def leakDesign : Design 2 2 := ⟨fun _ j => if j = 0 then 1 else 0, none⟩
noncomputable def leakLoss : Loss 2 := ⟨.gaussian ![0, 2], 1, none, Loss.devQuad 1 (.gaussian ![0, 2]) (Quad.init none none none none), none⟩
def leakWeights : Fin 2 → ℝ := ![0, 1]
/-- leave one out -/
def leakFolds : List ((Fin 2 → Bool) × (Fin 2 → Bool)) := [(![false, true], ![true, false]), (![true, false], ![false, true])]

private lemma leak_reachable : ReachableLoss leakLoss :=
  .init (loss_init (.gaussian ![0, 2]) (c := 1) (by norm_num) (by simp [Loss.dataError]) none (Quad.init none none none none) none
    (fun _ h => by cases h))

private lemma leak_func (x : Fin 2 → ℝ) : funcAt leakLoss x = x 0 ^ 2 / 2 + (x 1 - 2) ^ 2 / 2 := by
  rw [funcAt_eq]
  simp [leakLoss, effWeight, effOffset, phi, Fin.sum_univ_two]

private lemma leak_obj (b : Fin 2 → ℝ) : Spec.enetObjective leakDesign.X (funcAt leakLoss) leakWeights (enetOf none) 1 0 b =
    b 0 ^ 2 / 2 + (b 0 - 2) ^ 2 / 2 := by
  unfold Spec.enetObjective enetSmooth
  rw [leak_func]
  simp [leakDesign, Fin.sum_univ_two]

private lemma leak_solution (solve : SubSolver 2) (hs : ExactSub solve) (P : Obj 2 2)
    (hP : init solve leakLoss leakDesign leakWeights none 1 = some P) : P.solution = ![1, 0] := by
  obtain ⟨h1, h2⟩ := C94_null solve hs (by norm_num) le_rfl hP 0 ⟨![1, 0], by
      intro j hj; fin_cases j
      · exact absurd rfl hj
      · rfl, fun u _ => by
      rw [leak_obj, leak_obj]
      have : (![(1:ℝ), 0]) 0 = 1 := rfl
      rw [this]
      nlinarith [sq_nonneg (u 0 - 1)]⟩
  have h3 := h2 ![1, 0] (by
    intro j hj; fin_cases j
    · exact absurd rfl hj
    · rfl)
  rw [leak_obj, leak_obj] at h3
  have e : (![(1:ℝ), 0]) 0 = 1 := rfl
  rw [e] at h3
  have h0 : P.solution 0 = 1 := by nlinarith [sq_nonneg (P.solution 0 - 1)]
  have h10 : P.solution 1 = 0 := h1 1 (by simp [leakWeights])
  funext j
  fin_cases j
  · exact h0
  · exact h10

private lemma leak_train (train : Fin 2 → Bool) (i : Fin 2) (ht : ∀ k, train k = true ↔ k = i) (b : Fin 2 → ℝ) :
    foldObjective leakLoss leakDesign.X train leakWeights (enetOf none) 1 1 b = (b 0 - ![0, 2] i) ^ 2 + |b 1| := by
  have hcard : (Finset.univ.filter fun k => train k = true) = {i} := by
    ext k; simp [ht]
  unfold foldObjective Spec.enetObjective enetSmooth
  rw [C94_training_loss leakLoss (by exact trivial), hcard]
  simp [leakLoss, leakDesign, leakWeights, effOffset, caseLoss, gaussianNll, weightedL1, Fin.sum_univ_two]
  ring

/-- **C94** fails for the first lagrange parameter with `strong_rules`, the default fitter: its first row is the solution of the
initial data, and by default that is the null solution of all cases, the held-out ones included.  Least squares with an
unpenalised intercept and responses 0 and 2, leave-one-out: for every exact solver the score reported for the first lagrange
parameter is 1, while the coefficients that are optimal for the training case of a fold have squared prediction error 4 on the
held-out case. -/
theorem C94_first_score_fails : ∀ solve : SubSolver 2, ExactSub solve →
    ∃ P, init solve leakLoss leakDesign leakWeights none 1 = some P ∧
      crossValidate solve (strongFit solve) P [1] none (defaultScore 2) leakFolds = some ([1], [0]) ∧
      ∀ f ∈ leakFolds, ∀ b, (∀ u, foldObjective leakLoss leakDesign.X f.1 leakWeights (enetOf none) 1 1 b ≤
          foldObjective leakLoss leakDesign.X f.1 leakWeights (enetOf none) 1 1 u) →
        meanSquaredError leakDesign.X (response leakLoss) f.2 b = 4 := by
  intro solve hs
  obtain ⟨P, hP, hPL, hPD, -⟩ := init_some solve leakLoss leakDesign leakWeights none 1 (by
    intro j; fin_cases j <;> simp [leakWeights])
  have hsol := leak_solution solve hs P hP
  refine ⟨P, hP, ?_, ?_⟩
  · have hfold : ∀ f ∈ leakFolds, fitFold solve (strongFit solve) P [1] (P.solution, P.grad) f.1 = some [![1, 0]] := by
      intro f hf
      obtain ⟨rest, h1, h2⟩ := C94_strong_total solve solve leak_reachable hP [1] (P.solution, P.grad) f.1 (by
        simp only [leakFolds, List.mem_cons, List.not_mem_nil, or_false] at hf
        rcases hf with rfl | rfl
        · exact ⟨1, rfl⟩
        · exact ⟨0, rfl⟩)
      have : rest = [] := List.length_eq_zero_iff.1 (by simpa using h2)
      rw [h1, this, hsol]
    have hc : collect (leakFolds.map fun f => fitFold solve (strongFit solve) P [1] ((none : Option ((Fin 2 → ℝ) × (Fin 2 → ℝ))).getD (P.solution, P.grad)) f.1) =
        some [[![1, 0]], [![1, 0]]] := by
      simp only [leakFolds, List.map_cons, List.map_nil, Option.getD_none]
      rw [hfold (![false, true], ![true, false]) (by simp [leakFolds]), hfold (![true, false], ![false, true]) (by simp [leakFolds])]
      rfl
    have hscore : ∀ f ∈ leakFolds, heldOutScore leakDesign.X (response leakLoss) (defaultScore 2) f.2 ![1, 0] = 1 := by
      intro f hf
      rw [C94_default_score]
      simp only [leakFolds, List.mem_cons, List.not_mem_nil, or_false] at hf
      have e0 : (Finset.univ.filter fun i : Fin 2 => ![true, false] i = true) = {0} := by ext k; fin_cases k <;> simp
      have e1 : (Finset.univ.filter fun i : Fin 2 => ![false, true] i = true) = {1} := by ext k; fin_cases k <;> simp
      rcases hf with rfl | rfl
      · unfold meanSquaredError
        dsimp only
        rw [e0]
        simp [leakDesign, response, leakLoss, Fin.sum_univ_two]
      · unfold meanSquaredError
        dsimp only
        rw [e1]
        simp [leakDesign, response, leakLoss, Fin.sum_univ_two]
        norm_num
    unfold crossValidate
    dsimp only
    rw [hc]
    have s1 := hscore (![false, true], ![true, false]) (by simp [leakFolds])
    have s2 := hscore (![true, false], ![false, true]) (by simp [leakFolds])
    unfold heldOutScore at s1 s2
    dsimp only at s1 s2
    simp only [leakFolds, List.zip_cons_cons, List.zip_nil_right, List.map_cons, List.map_nil, linpredRows, hPL, hPD, Design.dot]
    rw [s1, s2]
    unfold columnStats
    dsimp only
    rw [if_pos (by simp)]
    simp
  · intro f hf b hb
    simp only [leakFolds, List.mem_cons, List.not_mem_nil, or_false] at hf
    have e0 : (Finset.univ.filter fun i : Fin 2 => ![true, false] i = true) = {0} := by ext k; fin_cases k <;> simp
    have e1 : (Finset.univ.filter fun i : Fin 2 => ![false, true] i = true) = {1} := by ext k; fin_cases k <;> simp
    rcases hf with rfl | rfl
    · have h := hb ![2, 0]
      rw [leak_train _ 1 (by intro k; fin_cases k <;> simp), leak_train _ 1 (by intro k; fin_cases k <;> simp)] at h
      simp only [Matrix.cons_val_one, Matrix.cons_val_zero, Matrix.cons_val_fin_one, sub_self, abs_zero] at h
      have h2 : b 0 = 2 := by nlinarith [abs_nonneg (b 1), sq_nonneg (b 0 - 2)]
      unfold meanSquaredError
      dsimp only
      rw [e0]
      simp [leakDesign, response, leakLoss, Fin.sum_univ_two, h2]
      norm_num
    · have h := hb ![0, 0]
      rw [leak_train _ 0 (by intro k; fin_cases k <;> simp), leak_train _ 0 (by intro k; fin_cases k <;> simp)] at h
      simp only [Matrix.cons_val_one, Matrix.cons_val_zero, Matrix.cons_val_fin_one, sub_self, abs_zero, sub_zero] at h
      have h2 : b 0 = 0 := by nlinarith [abs_nonneg (b 1), sq_nonneg (b 0)]
      unfold meanSquaredError
      dsimp only
      rw [e1]
      simp [leakDesign, response, leakLoss, Fin.sum_univ_two, h2]
      norm_num

end leak

/-! ### a design with an offset -/

section affine

/-- one case, one unpenalised feature, the design `b ↦ 1 + b`, response 1 -/
def shiftedDesign : Design 1 1 := ⟨fun _ _ => 1, some fun _ => 1⟩
noncomputable def shiftedLoss : Loss 1 :=
  ⟨.gaussian fun _ => 1, 1, none, Loss.devQuad 1 (.gaussian fun _ => 1) (Quad.init none none none none), none⟩

private lemma shifted_func (x : Fin 1 → ℝ) : funcAt shiftedLoss x = (x 0 - 1) ^ 2 / 2 := by
  rw [funcAt_eq]
  simp [shiftedLoss, effWeight, effOffset, phi]

/-- **C94** fails for a design with an offset: the constructor, the subproblems and the linear predictors of the scores apply only
the linear part of the design, `full_loss`, which `warm_start` minimises, applies the offset too.  With the design `b ↦ 1 + b` and
response 1 every exact solver gives the null solution 1, while the unpenalised fit is 0. -/
theorem C94_affine_design_fails : ∀ solve : SubSolver 1, ExactSub solve →
    ∃ P, init solve shiftedLoss shiftedDesign (fun _ => 0) none 1 = some P ∧ P.solution 0 = 1 ∧
      (∀ b, (toWarm P).loss (fun _ => 0) ≤ (toWarm P).loss b) ∧ (toWarm P).loss (fun _ => 0) < (toWarm P).loss P.solution := by
  intro solve hs
  obtain ⟨P, hP, hPL, hPD, -⟩ := init_some solve shiftedLoss shiftedDesign (fun _ => 0) none 1 fun _ => le_rfl
  have hobj : ∀ b : Fin 1 → ℝ, Spec.enetObjective shiftedDesign.X (funcAt shiftedLoss) (fun _ => 0) (enetOf none) 1 0 b =
      (b 0 - 1) ^ 2 / 2 := by
    intro b
    unfold Spec.enetObjective enetSmooth
    rw [shifted_func]
    simp [shiftedDesign]
  obtain ⟨-, h2⟩ := C94_null solve hs (by norm_num) le_rfl hP 0 ⟨fun _ => 1, fun j hj => absurd rfl hj, fun u _ => by
    rw [hobj, hobj]
    have := sq_nonneg (u 0 - 1)
    norm_num
    positivity⟩
  have h3 := h2 (fun _ => 1) fun j hj => absurd rfl hj
  rw [hobj, hobj] at h3
  have h4 : P.solution 0 = 1 := by nlinarith [sq_nonneg (P.solution 0 - 1)]
  have hl : ∀ b : Fin 1 → ℝ, (toWarm P).loss b = b 0 ^ 2 / 2 := by
    intro b
    show funcAt P.loss (P.design.affineMap b) = _
    rw [hPL, hPD, shifted_func]
    simp [shiftedDesign, Design.affineMap, Design.dot]
  refine ⟨P, hP, h4, fun b => ?_, ?_⟩
  · rw [hl, hl]; have := sq_nonneg (b 0); norm_num; positivity
  · rw [hl, hl, h4]; norm_num

end affine

/-! ### the hypotheses are met -/

/-- a lasso with two penalised features and two cases meets the hypotheses of `C94_strong_fold_partial`, `C94_warm_fold_partial` and
`C94_fold_minimiser`, with leave-one-out folds -/
example (solve : SubSolver 2) : ∃ P : Obj 2 2, init solve leakLoss leakDesign (fun _ => 1) none (1 / 2) = some P ∧
    ReachableLoss leakLoss ∧ WeightsKept leakLoss ∧ ConvexLoss leakLoss.data ∧ leakDesign.offset = none ∧
    (∀ j, (0:ℝ) ≤ enetOf (none : Option (Fin 2 → ℝ)) j) ∧ (∀ f ∈ leakFolds, ∃ i, f.1 i = true) ∧
    ∀ f ∈ leakFolds, ∀ lam : ℝ, 0 < lam → ∃ m, ∀ u, foldObjective leakLoss leakDesign.X f.1 (fun _ => 1) (enetOf none) (1 / 2) lam m ≤
      foldObjective leakLoss leakDesign.X f.1 (fun _ => 1) (enetOf none) (1 / 2) lam u := by
  obtain ⟨P, hP, -⟩ := init_some solve leakLoss leakDesign (fun _ => 1) none (1 / 2) fun _ => zero_le_one
  have hne : ∀ f ∈ leakFolds, ∃ i, f.1 i = true := by
    intro f hf
    simp only [leakFolds, List.mem_cons, List.not_mem_nil, or_false] at hf
    rcases hf with rfl | rfl
    · exact ⟨1, rfl⟩
    · exact ⟨0, rfl⟩
  refine ⟨P, hP, leak_reachable, Or.inr rfl, trivial, rfl, fun _ => zero_le_one, hne, fun f hf lam hl => ?_⟩
  exact C94_fold_minimiser leak_reachable (Or.inr rfl) trivial leakDesign.X (fun _ => one_pos) (fun _ => zero_le_one) (by norm_num)
    (by norm_num) hl f.1 (hne f hf)

/-- the hypotheses of `C94_no_leak` are met by two data sets that differ in the held-out response -/
example : ∃ L L' : Loss 2, ReachableLoss L ∧ ReachableLoss L' ∧ SameTraining ![true, false] L L' ∧ response L 1 ≠ response L' 1 := by
  refine ⟨leakLoss, ⟨.gaussian ![0, 5], 1, none, Loss.devQuad 1 (.gaussian ![0, 5]) (Quad.init none none none none), none⟩, leak_reachable,
    .init (loss_init (.gaussian ![0, 5]) (c := 1) (by norm_num) (by simp [Loss.dataError]) none (Quad.init none none none none) none
      (fun _ h => by cases h)), ⟨rfl, ?_, fun _ _ => rfl, fun _ _ => rfl⟩, ?_⟩
  · show ∀ i, _ → _
    intro i hi
    fin_cases i
    · rfl
    · simp at hi
  · simp [response, leakLoss]

end Verif.Props
