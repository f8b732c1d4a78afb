import Verif.Lemmas.LassoObj
import Verif.Props.C40_StrongRules
import Verif.Props.C42_Folds
import Verif.Props.C43_LagrangeSequence
import Verif.Props.C78_WarmStart

/-!
# C94: a lasso path object from its constructor to the cross-validated scores

The losses (C28, C32), the folds (C42), the null solution (C43), `strong_rules` (C40) and `warm_start` (C78) meet here in statements
about `cross_validate(path, lagrange_seq, ...)` whose hypotheses are about the arguments of the calls.
-/

set_option linter.unusedSectionVars false
set_option linter.unusedVariables false

namespace Verif.Props
open Verif.Model Verif.Model.LassoObj Verif.Spec Verif.Lemmas Verif.Lemmas.LassoObj

variable {p n : ℕ}

/-! ### specification -/

/-- the value of the loss with `case_weights=a` -/
noncomputable def valueWithWeights (L : Loss n) (a x : Fin n → ℝ) : ℝ :=
  match (L.smoothObjective x .func (some a)).1 with
  | .val f => f
  | _ => 0

/-- the training loss of a fold: the loss of the full data with case weight one on the training cases and zero elsewhere,
multiplied by (number of cases) / (number of training cases) -/
noncomputable def trainingLoss (L : Loss n) (train : Fin n → Bool) (x : Fin n → ℝ) : ℝ :=
  (n : ℝ) / ((Finset.univ.filter fun i => train i = true).card : ℝ) * valueWithWeights L (fun i => if train i = true then 1 else 0) x

/-- the elastic net problem of a fold at one lagrange parameter -/
noncomputable def foldObjective (L : Loss n) (X : Fin n → Fin p → ℝ) (train : Fin n → Bool) (w enet : Fin p → ℝ) (alpha lam : ℝ)
    (b : Fin p → ℝ) : ℝ := Spec.enetObjective X (trainingLoss L train) w enet alpha lam b

/-- the subproblem solver returns a minimiser of `f + g` whenever there is one -/
def ExactSub (solve : SubSolver p) : Prop :=
  ∀ (calls : ℕ) (S : Fin p → Bool) (f g : ({v // S v = true} → ℝ) → ℝ) (start : {v // S v = true} → ℝ),
    (∃ m, ∀ u, f m + g m ≤ f u + g u) → ∀ u,
      f (solve calls S f g start) + g (solve calls S f g start) ≤ f u + g u

/-- the solver of `warm_start` comes within `eps` of the minimum of `f + g` whenever it is attained -/
def AccurateSolver (solve : WarmStart.Solver (Fin p → ℝ)) (eps : ℝ) : Prop :=
  ∀ (k : ℕ) (f g : (Fin p → ℝ) → ℝ) (start : Fin p → ℝ) (step : ℝ), (∃ m, ∀ u, f m + g m ≤ f u + g u) → ∀ u,
    f (solve k f g start step).1 + g (solve k f g start step).1 ≤ f u + g u + eps

/-- the elastic net parameters in effect -/
def enetOf (enet : Option (Fin p → ℝ)) : Fin p → ℝ := enet.getD fun _ => 1

/-- the case weights survive `subsample`: gaussian, poisson and logistic losses, or no case weights (C32) -/
def WeightsKept (L : Loss n) : Prop := keepsWeights L.data ∨ L.caseWeights = none

/-- the score of the coefficients `b` on the cases of `test` -/
noncomputable def heldOutScore (X : Fin n → Fin p → ℝ) (y : Fin n → ℝ) (score : Score n) (test : Fin n → Bool) (b : Fin p → ℝ) : ℝ :=
  score (Finset.univ.filter fun i => test i = true) (fun i => ∑ j, X i j * b j) fun i => y i

/-- mean squared prediction error on the cases of `test` -/
noncomputable def meanSquaredError (X : Fin n → Fin p → ℝ) (y : Fin n → ℝ) (test : Fin n → Bool) (b : Fin p → ℝ) : ℝ :=
  (∑ i ∈ Finset.univ.filter (fun i => test i = true), (∑ j, X i j * b j - y i) ^ 2) /
    ((Finset.univ.filter fun i => test i = true).card : ℝ)

/-! ### the solver hypotheses can be met -/

open Classical in
/-- exact solvers exist -/
example : ExactSub (p := p) fun _ S f g start => if h : ∃ m, ∀ u, f m + g m ≤ f u + g u then h.choose else start := by
  intro calls S f g start h u
  simp only [dif_pos h]
  exact h.choose_spec u

open Classical in
example : AccurateSolver (p := p)
    (fun _ f g start step => if h : ∃ m, ∀ u, f m + g m ≤ f u + g u then (h.choose, step) else (start, step)) 0 := by
  intro k f g start step h u
  simp only [dif_pos h, add_zero]
  exact h.choose_spec u

/-! ### helpers -/

lemma cvValue_eq (L : Loss n) (a x : Fin n → ℝ) : valueWithWeights L a x =
    L.coef * ∑ i, (a i * L.caseWeights.elim 1 fun w => w i) * phi L.data i (x i - effOffset L.offset i) := by
  have h := (evaluates_loss L (some a) x).1
  dsimp only at h
  rw [cw_effWeight, offV_effOffset] at h
  unfold valueWithWeights
  rw [h]
  rfl

private lemma copyWeights_kept {L : Loss n} (h : WeightsKept L) : copyWeights L = L.caseWeights := copyWeights_keep h

/-- the loss of a fold after the rescaling -/
private lemma fold_loss {L : Loss n} (hv : ValidLoss L) (train : Fin n → Bool) (hne : ∃ i, train i = true) :
    ∃ L', L.subsample (Finset.univ.filter fun i => train i = true) = some L' ∧
      CrossValidate.coefFactor train = some ((n : ℚ) / CrossValidate.count train) ∧ L'.data = L.data ∧ L'.coef = L.coef ∧
      L'.offset = L.offset ∧ ∀ i, effWeight L'.caseWeights none i = ((copyWeights L).elim 1 fun w => w i) * if train i = true then 1 else 0 := by
  obtain ⟨w, h1, h2⟩ := loss_sub_eq hv (Finset.univ.filter fun i => train i = true)
  refine ⟨_, h1, ?_, rfl, rfl, rfl, fun i => ?_⟩
  · unfold CrossValidate.coefFactor
    rw [if_neg]
    obtain ⟨i, hi⟩ := hne
    unfold CrossValidate.count
    exact Finset.card_ne_zero_of_mem (a := i) (by simpa using hi)
  · rw [effWeight_none]
    simp only [Option.elim, h2]
    simp

/-- the path on which a fold is fitted -/
lemma cvFold_path (solve : SubSolver p) {L : Loss n} (hL : ReachableLoss L) {D : Design p n} {w : Fin p → ℝ}
    {enet : Option (Fin p → ℝ)} {alpha : ℝ} {P : Obj p n} (hP : init solve L D w enet alpha = some P) (train : Fin n → Bool)
    (hne : ∃ i, train i = true) :
    ∃ Q : Obj p n, trainPath solve P train = some Q ∧
      (∀ fit seq initial, fitFold solve fit P seq initial train = fit Q seq initial) ∧ Q.design = D ∧ Q.w = w ∧
      Q.enet = enetOf enet ∧ Q.alpha = alpha ∧ Q.loss.data = L.data ∧ Q.loss.offset = L.offset ∧
      Q.loss.coef = L.coef * ((n : ℝ) / ((Finset.univ.filter fun i => train i = true).card : ℝ)) ∧
      ∀ i, effWeight Q.loss.caseWeights none i = ((copyWeights L).elim 1 fun w => w i) * if train i = true then 1 else 0 := by
  have hw : ∀ j, 0 ≤ w j := by
    by_contra h
    rw [init_none _ _ _ _ _ _ h] at hP
    cases hP
  obtain ⟨P', h0, h1, h2, h3, h4, h5⟩ := init_some solve L D w enet alpha hw
  rw [hP] at h0
  injection h0 with h0
  subst h0
  obtain ⟨L', e1, e2, e3, e4, e5, e6⟩ := fold_loss (validLoss_of hL) train hne
  obtain ⟨Q, q0, q1, q2, q3, q4, q5⟩ := init_some solve L' D w (some P.enet) alpha hw
  refine ⟨{ Q with loss := { Q.loss with coef := Q.loss.coef * ((((n : ℚ) / CrossValidate.count train : ℚ)) : ℝ) } },
    ?_, fun fit seq initial => ?_, q2, q3, ?_, q5, ?_, ?_, ?_, ?_⟩
  · unfold trainPath subsample
    rw [h1, h2, h3, h5, e1, e2]
    dsimp only
    rw [q0]
  · unfold fitFold trainPath subsample
    rw [h1, h2, h3, h5, e1, e2]
    dsimp only
    rw [q0]
  · show Q.enet = _
    rw [q4, h4]; rfl
  · show Q.loss.data = _
    rw [q1, e3]
  · show Q.loss.offset = _
    rw [q1, e5]
  · show Q.loss.coef * _ = _
    rw [q1, e4]
    push_cast
    rfl
  · intro i
    show effWeight Q.loss.caseWeights none i = _
    rw [q1, e6]

lemma cvFold_func {L : Loss n} (hk : WeightsKept L) {Q : Loss n} {train : Fin n → Bool} (h1 : Q.data = L.data)
    (h2 : Q.offset = L.offset) (h3 : Q.coef = L.coef * ((n : ℝ) / ((Finset.univ.filter fun i => train i = true).card : ℝ)))
    (h4 : ∀ i, effWeight Q.caseWeights none i = ((copyWeights L).elim 1 fun w => w i) * if train i = true then 1 else 0) :
    funcAt Q = trainingLoss L train := by
  funext x
  unfold trainingLoss
  rw [funcAt_eq, cvValue_eq, h1, h2, h3, mul_comm L.coef, mul_assoc]
  congr 2
  refine Finset.sum_congr rfl fun i _ => ?_
  rw [h4, copyWeights_kept hk]
  ring

/-! ### the training loss -/

/-- **C94** the training loss of a fold is `coef * n / n_train` times the sum over the training cases only of case weight times
documented loss of the case (gaussian, poisson, huber, huber_svm with smoothing 1). -/
theorem C94_training_loss (L : Loss n) (hd : ConvexLoss L.data) (train : Fin n → Bool) (x : Fin n → ℝ) :
    trainingLoss L train x = (n : ℝ) / ((Finset.univ.filter fun i => train i = true).card : ℝ) * (L.coef *
      ∑ i ∈ Finset.univ.filter (fun i => train i = true),
        (L.caseWeights.elim 1 fun w => w i) * caseLoss L.data i (x i - effOffset L.offset i)) := by
  unfold trainingLoss
  rw [cvValue_eq, phi_case hd, Finset.sum_filter]
  congr 2
  refine Finset.sum_congr rfl fun i _ => ?_
  split_ifs <;> ring

/-- **C94** `path.subsample(case_idx)` never raises on a path the constructor accepts, keeps the design, the weights and the
elastic net parameters, and its loss at any linear predictor is the loss of the full data with `case_weights` one on the
subsample and zero elsewhere.  Missing: huber and huber_svm losses with case weights, which their copy drops. -/
theorem C94_subsample_partial (solve : SubSolver p) {L : Loss n} (hL : ReachableLoss L) (hk : WeightsKept L) {D : Design p n}
    {w : Fin p → ℝ} {enet : Option (Fin p → ℝ)} {alpha : ℝ} {P : Obj p n} (hP : init solve L D w enet alpha = some P)
    (idx : Finset (Fin n)) :
    ∃ Q, subsample solve P idx = some Q ∧ Q.design = D ∧ Q.w = w ∧ Q.enet = enetOf enet ∧ Q.alpha = alpha ∧
      ∀ x, funcAt Q.loss x = valueWithWeights L (fun i => if i ∈ idx then 1 else 0) x := by
  have hw : ∀ j, 0 ≤ w j := by
    by_contra h
    rw [init_none _ _ _ _ _ _ h] at hP
    cases hP
  obtain ⟨P', h0, h1, h2, h3, h4, h5⟩ := init_some solve L D w enet alpha hw
  rw [hP] at h0
  injection h0 with h0
  subst h0
  obtain ⟨v, e1, e2⟩ := loss_sub_eq (validLoss_of hL) idx
  obtain ⟨Q, q0, q1, q2, q3, q4, q5⟩ := init_some solve
    (⟨L.data, L.coef, L.offset, Loss.devQuad L.coef L.data L.quad, some v⟩ : Loss n) D w (some P.enet) alpha hw
  refine ⟨Q, ?_, q2, q3, by rw [q4, h4]; rfl, q5, fun x => ?_⟩
  · unfold subsample
    rw [h1, h2, h3, h5, e1]
    exact q0
  · rw [q1, funcAt_eq, cvValue_eq]
    congr 1
    refine Finset.sum_congr rfl fun i _ => ?_
    rw [effWeight_none]
    simp only [Option.elim]
    rw [e2, copyWeights_kept hk]
    cases L.caseWeights <;> simp

/-! ### the constructor -/

/-- **C94** the constructor raises exactly when some weight is negative. -/
theorem C94_raises (solve : SubSolver p) (L : Loss n) (D : Design p n) (w : Fin p → ℝ) (enet : Option (Fin p → ℝ)) (alpha : ℝ) :
    init solve L D w enet alpha = none ↔ ∃ j, w j < 0 := by
  constructor
  · intro h
    by_contra hn
    push Not at hn
    obtain ⟨P, hP, _⟩ := init_some solve L D w enet alpha hn
    rw [hP] at h; cases h
  · rintro ⟨j, hj⟩
    exact init_none _ _ _ _ _ _ fun h => absurd (h j) (not_le.2 hj)

lemma cvInit_eq (solve : SubSolver p) {L : Loss n} {D : Design p n} {w : Fin p → ℝ} {enet : Option (Fin p → ℝ)} {alpha : ℝ}
    {P : Obj p n} (hP : init solve L D w enet alpha = some P) :
    (∀ j, 0 ≤ w j) ∧ P.loss = L ∧ P.design = D ∧
      ((∃ j, w j = 0) → P.solution = extend (fun j => decide (w j = 0))
        (solveSubproblem L D w (enetOf enet) alpha solve 0 (fun _ => 0) (fun j => decide (w j = 0)) BIG)) ∧
      ((¬ ∃ j, w j = 0) → P.solution = fun _ => 0) ∧
      P.grad = fun j => D.adjoint (gradAt L (D.dot P.solution)) j +
        LassoPath.enetGrad alpha (enetOf enet) P.solution (fun j => !decide (w j = 0)) 1 j := by
  have hw : ∀ j, 0 ≤ w j := by
    by_contra h
    rw [init_none _ _ _ _ _ _ h] at hP
    cases hP
  unfold init at hP
  rw [if_neg (by simpa using hw)] at hP
  by_cases h : ∃ j, w j = 0
  · cases enet
    all_goals
      dsimp only at hP
      rw [if_pos (by simpa using h)] at hP
      injection hP with hP
      subst hP
      refine ⟨hw, rfl, rfl, fun _ => rfl, fun h' => absurd h h', ?_⟩
      funext j
      dsimp only
      rw [subLinpred_eq]
      rfl
  · have hz : D.dot (fun _ => 0) = fun _ => 0 := by funext i; simp [Design.dot]
    cases enet
    all_goals
      dsimp only at hP
      rw [if_neg (by simpa using h)] at hP
      injection hP with hP
      subst hP
      refine ⟨hw, rfl, rfl, fun h' => absurd h' h, fun _ => rfl, ?_⟩
      funext j
      dsimp only
      rw [hz]
      rfl

private lemma null_objective {L : Loss n} {D : Design p n} {w e : Fin p → ℝ} {alpha : ℝ} {b : Fin p → ℝ}
    (hb : ∀ j, w j ≠ 0 → b j = 0) (lam lam' : ℝ) :
    Spec.enetObjective D.X (funcAt L) w e alpha lam b = Spec.enetObjective D.X (funcAt L) w e alpha lam' b := by
  unfold Spec.enetObjective enetSmooth weightedL1
  have h1 : ∑ j, w j * |b j| = 0 := Finset.sum_eq_zero fun j _ => by
    by_cases h : w j = 0
    · rw [h, zero_mul]
    · rw [hb j h, abs_zero, mul_zero]
  rw [h1, mul_zero, mul_zero]
  congr 2
  refine Finset.sum_congr rfl fun j _ => ?_
  by_cases h : w j = 0
  · simp [h]
  · rw [hb j h]; ring

/-- **C94** the null solution: with an exact subproblem solver, if the problem on the unpenalised features has a minimiser at all,
the `solution` the constructor computes is zero on every penalised feature and minimises the elastic net objective among all such
vectors, for every lagrange parameter. -/
theorem C94_null (solve : SubSolver p) (hs : ExactSub solve) {L : Loss n} {D : Design p n} {w : Fin p → ℝ}
    {enet : Option (Fin p → ℝ)} {alpha : ℝ} (ha0 : 0 ≤ alpha) (ha1 : alpha ≤ 1) {P : Obj p n}
    (hP : init solve L D w enet alpha = some P) (lam : ℝ)
    (hex : ∃ m : Fin p → ℝ, (∀ j, w j ≠ 0 → m j = 0) ∧ ∀ u : Fin p → ℝ, (∀ j, w j ≠ 0 → u j = 0) →
      Spec.enetObjective D.X (funcAt L) w (enetOf enet) alpha lam m ≤ Spec.enetObjective D.X (funcAt L) w (enetOf enet) alpha lam u) :
    (∀ j, w j ≠ 0 → P.solution j = 0) ∧ ∀ u : Fin p → ℝ, (∀ j, w j ≠ 0 → u j = 0) →
      Spec.enetObjective D.X (funcAt L) w (enetOf enet) alpha lam P.solution ≤
        Spec.enetObjective D.X (funcAt L) w (enetOf enet) alpha lam u := by
  obtain ⟨hw, -, -, h1, h2, -⟩ := cvInit_eq solve hP
  by_cases h : ∃ j, w j = 0
  · rw [h1 h]
    set S : Fin p → Bool := fun j => decide (w j = 0) with hS
    have hext : ∀ b : {v // S v = true} → ℝ, ∀ j, w j ≠ 0 → extend S b j = 0 := fun b j hj =>
      extend_off S b (by simpa [hS] using hj)
    have hres : ∀ u : Fin p → ℝ, (∀ j, w j ≠ 0 → u j = 0) → extend S (fun c => u c) = u := by
      intro u hu
      funext j
      by_cases hj : w j = 0
      · exact extend_of S _ ⟨j, by simpa [hS] using hj⟩
      · rw [hext _ j hj, hu j hj]
    have hB : (0:ℝ) ≤ BIG := by unfold BIG; positivity
    refine ⟨hext _, fun u hu => ?_⟩
    obtain ⟨m, hm0, hm⟩ := hex
    have key := hs 0 S (subSmooth L D w (enetOf enet) alpha S BIG) (subPenalty w alpha S BIG) (fun c => (fun _ => (0:ℝ)) c)
      ⟨fun c => m c, fun v => by
        rw [sub_total L D ha0 ha1 hB hw, sub_total L D ha0 ha1 hB hw, hres m hm0, null_objective hm0 BIG lam,
          null_objective (hext v) BIG lam]
        exact hm _ (hext v)⟩ (fun c => u c)
    rw [sub_total L D ha0 ha1 hB hw, sub_total L D ha0 ha1 hB hw, hres u hu, null_objective hu BIG lam,
      null_objective (hext _) BIG lam] at key
    exact key
  · rw [h2 h]
    refine ⟨fun _ _ => rfl, fun u hu => ?_⟩
    have : u = fun _ => 0 := by funext j; exact hu j fun hj => h ⟨j, hj⟩
    rw [this]

/-- **C94** `grad_solution` is the gradient, at the null solution, of the loss at `X b` plus the ridge term. -/
theorem C94_null_gradient (solve : SubSolver p) {L : Loss n} (hd : ConvexLoss L.data) {D : Design p n} {w : Fin p → ℝ}
    {enet : Option (Fin p → ℝ)} {alpha : ℝ} {P : Obj p n} (hP : init solve L D w enet alpha = some P) :
    IsGradientAt (enetSmooth D.X (funcAt L) w (enetOf enet) alpha 1) P.grad P.solution := by
  obtain ⟨hw, -, -, -, -, h⟩ := cvInit_eq solve hP
  have hg : ∀ eta, IsGradientAt (funcAt L) (gradAt L eta) eta := by
    intro eta
    have e : funcAt L = totalLoss L.coef (effWeight L.caseWeights none) (effOffset L.offset) (phi L.data) := by
      funext x; rw [funcAt_eq]; rfl
    rw [e, gradAt_eq]
    exact grad_totalLoss _ _ _ _ _ eta fun i => deriv_of hd i _
  have := enet_gradient (X := D.X) (w := w) (enet := enetOf enet) (alpha := alpha) (tol := 0) (lam := 1) hg P.solution
  refine grad_congr this rfl ?_
  rw [h]
  funext j
  unfold pathGrad
  dsimp only
  congr 1
  show _ = LassoPath.enetGrad alpha (enetOf enet) P.solution (fun v => decide (w v ≠ 0)) 1 j
  congr 1
  funext v
  simp

private lemma grad_zero_of_min {m : ℕ} {F : (Fin m → ℝ) → ℝ} {g b : Fin m → ℝ} (h : IsGradientAt F g b) (i : Fin m)
    (hmin : ∀ t : ℝ, F b ≤ F fun j => (if j = i then t else 0) + b j) : g i = 0 := by
  have hb : (fun k : Fin m => ∑ j : Fin 1, (if k = i then (1:ℝ) else 0) * (fun _ : Fin 1 => (0:ℝ)) j + b k) = b := by
    funext k; simp
  have h1 := grad_comp_affine (fun k (_ : Fin 1) => if k = i then (1:ℝ) else 0) b (fun _ => 0) (by rw [hb]; exact h)
  have h2 : IsLocalMin (fun y : Fin 1 → ℝ => F fun k => ∑ j, (if k = i then (1:ℝ) else 0) * y j + b k) (fun _ => 0) := by
    refine Filter.Eventually.of_forall fun y => ?_
    show F (fun k : Fin m => ∑ j : Fin 1, (if k = i then (1:ℝ) else 0) * (fun _ : Fin 1 => (0:ℝ)) j + b k) ≤ _
    rw [hb]
    have := hmin (y 0)
    simpa using this
  have h3 := h2.hasFDerivAt_eq_zero h1
  have h4 := congrArg (fun (l : (Fin 1 → ℝ) →L[ℝ] ℝ) => l fun _ => 1) h3
  simpa using h4

private lemma loss_convex {L : Loss n} (hL : ReachableLoss L) (hd : ConvexLoss L.data) :
    ConvexWithGradient (funcAt L) (gradAt L) := by
  obtain ⟨h1, -, h3⟩ := validLoss_of hL
  refine funcAt_convex hd h1 fun i => ?_
  rw [effWeight_none]
  cases h : L.caseWeights with
  | none => simp
  | some v => exact h3 v h i

/-- **C94** the first point of the default path: if the unpenalised problem has a minimiser and `alpha * lam` is at least
`max_j |grad_solution_j| / w_j` over the penalised features, the null solution is optimal for the whole elastic net problem at
`lam`: the start of `strong_rules` is right for the data the path was built from. -/
theorem C94_null_optimal (solve : SubSolver p) (hs : ExactSub solve) {L : Loss n} (hL : ReachableLoss L) (hd : ConvexLoss L.data)
    {D : Design p n} {w : Fin p → ℝ} {enet : Option (Fin p → ℝ)} (he : ∀ j, 0 ≤ enetOf enet j) {alpha : ℝ} (ha0 : 0 ≤ alpha)
    (ha1 : alpha ≤ 1) {P : Obj p n} (hP : init solve L D w enet alpha = some P) {lam m : ℝ} (hl : 0 ≤ lam)
    (hex : ∃ m : Fin p → ℝ, (∀ j, w j ≠ 0 → m j = 0) ∧ ∀ u : Fin p → ℝ, (∀ j, w j ≠ 0 → u j = 0) →
      Spec.enetObjective D.X (funcAt L) w (enetOf enet) alpha lam m ≤ Spec.enetObjective D.X (funcAt L) w (enetOf enet) alpha lam u)
    (hm : IsLagrangeMax w P.grad m) (hlam : m ≤ alpha * lam) (u : Fin p → ℝ) :
    Spec.enetObjective D.X (funcAt L) w (enetOf enet) alpha lam P.solution ≤
      Spec.enetObjective D.X (funcAt L) w (enetOf enet) alpha lam u := by
  obtain ⟨hz, hmin⟩ := C94_null solve hs ha0 ha1 hP lam hex
  obtain ⟨hw, -, -, -, -, hg⟩ := cvInit_eq solve hP
  have hc := enet_convexWithGradient (X := D.X) (w := w) (enet := enetOf enet) (alpha := alpha) (tol := 0) (lam := lam)
    (loss_convex hL hd) ha1 hl he
  have hgrad : pathGrad D.X (gradAt L) (funcAt L) w (enetOf enet) alpha 0 lam P.solution = P.grad := by
    rw [hg]
    funext j
    unfold pathGrad
    dsimp only
    rw [enetGrad_eq]
    congr 1
    unfold LassoPath.enetGrad
    by_cases h : w j = 0
    · simp [h]; ring
    · simp [h, hz j h]
  have hpen0 : ∀ b : Fin p → ℝ, (∀ j, w j ≠ 0 → b j = 0) → weightedL1 w b = 0 := fun b hb =>
    Finset.sum_eq_zero fun j _ => by
      by_cases h : w j = 0
      · rw [h, zero_mul]
      · rw [hb j h, abs_zero, mul_zero]
  have := C43_null_optimal hc w P.solution hw hz (fun i hi => ?_) (by rw [hgrad]; exact hm) hlam
  · exact this.2 u (Set.mem_univ _)
  · refine grad_zero_of_min (hc.gradient P.solution) i fun t => ?_
    have hb : ∀ j, w j ≠ 0 → (if j = i then t else 0) + P.solution j = 0 := by
      intro j hj
      rw [hz j hj, if_neg (by rintro rfl; exact hj hi), add_zero]
    have h1 := hmin _ hb
    unfold Spec.enetObjective at h1
    rw [hpen0 _ hz, hpen0 _ hb] at h1
    linarith

/-! ### one fold -/

lemma cvWarm_objective {Q : Obj p n} (hD : Q.design.offset = none) (hw : ∀ j, 0 ≤ Q.w j) (lam : ℝ) (b : Fin p → ℝ) :
    (toWarm Q).loss b + (toWarm Q).enetLoss lam b + lam * (toWarm Q).alpha * (toWarm Q).penalty b =
      Spec.enetObjective Q.design.X (funcAt Q.loss) Q.w Q.enet Q.alpha lam b := by
  have h1 : (∑ j, b j * (LassoPath.enetParams Q.alpha Q.enet Q.w lam j * b j)) / 2 =
      ∑ j, (1 - Q.alpha) * (if Q.w j = 0 then 1 else lam) * Q.enet j / 2 * b j ^ 2 := by
    rw [Finset.sum_div]
    refine Finset.sum_congr rfl fun j _ => ?_
    unfold LassoPath.enetParams
    by_cases h : Q.w j = 0
    · simp only [h, ne_eq, not_true_eq_false, if_false, if_true]; ring
    · simp only [h, ne_eq, not_false_eq_true, if_false, if_true]; ring
  have h2 : ∑ j, |b j * Q.w j| = weightedL1 Q.w b :=
    Finset.sum_congr rfl fun j _ => by rw [abs_mul, abs_of_nonneg (hw j), mul_comm]
  have h3 : Q.design.affineMap b = fun k => ∑ j, Q.design.X k j * b j := by
    funext k; unfold Design.affineMap; rw [hD]; rfl
  simp only [toWarm, Spec.enetObjective, enetSmooth]
  rw [h1, h2, h3, mul_comm lam]

/-- **C94** cross-validation with `warm_start`, one fold: for every design, loss, weights, initial data, sequence of lagrange
parameters and set of training cases that is not empty, if the solver is accurate and the fold's problems have minimisers, the fold
does not raise and row `k` is optimal up to `eps` for the elastic net problem of the training cases at the `k`-th lagrange
parameter.  Missing: designs with an offset (`C94_affine_design_fails`), and huber losses with case weights. -/
theorem C94_warm_fold_partial (solve : SubSolver p) (ws : WarmStart.Solver (Fin p → ℝ)) {eps : ℝ} (hws : AccurateSolver ws eps)
    (step : ℝ) {L : Loss n} (hL : ReachableLoss L) (hk : WeightsKept L) {D : Design p n} (hD : D.offset = none) {w : Fin p → ℝ}
    {enet : Option (Fin p → ℝ)} {alpha : ℝ} {P : Obj p n} (hP : init solve L D w enet alpha = some P) (seq : List ℝ)
    (hseq : seq ≠ []) (initial : (Fin p → ℝ) × (Fin p → ℝ)) (train : Fin n → Bool) (hne : ∃ i, train i = true)
    (hex : ∀ lam ∈ seq, ∃ m, ∀ u, foldObjective L D.X train w (enetOf enet) alpha lam m ≤ foldObjective L D.X train w (enetOf enet) alpha lam u) :
    ∃ betas, fitFold solve (warmFit ws step) P seq initial train = some betas ∧
      List.Forall₂ (fun lam b => ∀ u, foldObjective L D.X train w (enetOf enet) alpha lam b ≤
        foldObjective L D.X train w (enetOf enet) alpha lam u + eps) seq betas := by
  obtain ⟨hw, -⟩ := cvInit_eq solve hP
  obtain ⟨Q, -, h0, h1, h2, h3, h4, h5, h6, h7, h8⟩ := cvFold_path solve hL hP train hne
  have hf := cvFold_func hk h5 h6 h7 h8
  have hobj : ∀ lam b, (toWarm Q).loss b + (toWarm Q).enetLoss lam b + lam * (toWarm Q).alpha * (toWarm Q).penalty b =
      foldObjective L D.X train w (enetOf enet) alpha lam b := by
    intro lam b
    rw [cvWarm_objective (by rw [h1]; exact hD) (by rw [h2]; exact hw), h1, h2, h3, h4, hf]
    rfl
  have hS : ∀ lam ∈ seq, WarmSolverAt (toWarm Q) eps ws lam := by
    intro lam hlam k start step v
    obtain ⟨m, hm⟩ := hex lam hlam
    exact hws k (fun v => (toWarm Q).loss v + (toWarm Q).enetLoss lam v) (fun v => lam * (toWarm Q).alpha * (toWarm Q).penalty v)
      start step ⟨m, fun u => by
        have := hm u
        rw [← hobj, ← hobj] at this
        exact this⟩ v
  obtain ⟨out, e1, e2, -⟩ := C78_rows (toWarm Q) ws seq hseq initial.1 step
  refine ⟨out.beta, ?_, ?_⟩
  · rw [h0]
    unfold warmFit
    rw [e1]; rfl
  · have := C78_optimal_on _ ws seq hS initial.1 step out e1
    rw [e2] at this
    simp only [hobj] at this
    exact this

private lemma fold_convex {L : Loss n} (hL : ReachableLoss L) (hd : ConvexLoss L.data) {Q : Loss n} {train : Fin n → Bool}
    (h1 : Q.data = L.data)
    (h3 : Q.coef = L.coef * ((n : ℝ) / ((Finset.univ.filter fun i => train i = true).card : ℝ)))
    (h4 : ∀ i, effWeight Q.caseWeights none i = ((copyWeights L).elim 1 fun w => w i) * if train i = true then 1 else 0) :
    ConvexWithGradient (funcAt Q) (gradAt Q) ∧ ∃ B, ∀ x, B ≤ funcAt Q x := by
  obtain ⟨v1, v2, v3⟩ := validLoss_of hL
  have hc : 0 ≤ Q.coef := by rw [h3]; positivity
  have hw : ∀ i, 0 ≤ effWeight Q.caseWeights none i := by
    intro i
    rw [h4]
    refine mul_nonneg ?_ (by split_ifs <;> norm_num)
    cases hcw : copyWeights L with
    | none => simp
    | some v =>
      simp only [Option.elim]
      apply v3 v
      unfold copyWeights at hcw
      cases hd' : L.data <;> simp [hd'] at hcw <;> exact hcw
  rw [← h1] at hd v2
  exact ⟨funcAt_convex hd hc hw, funcAt_bounded hd v2 hc hw⟩

/-- **C94** the problems of a fold have minimisers: all features penalised, `alpha` and the lagrange parameter positive, one of
the convex losses. -/
theorem C94_fold_minimiser {L : Loss n} (hL : ReachableLoss L) (hk : WeightsKept L) (hd : ConvexLoss L.data) (X : Fin n → Fin p → ℝ)
    {w enet : Fin p → ℝ} (hw : ∀ j, 0 < w j) (he : ∀ j, 0 ≤ enet j) {alpha lam : ℝ} (ha0 : 0 < alpha) (ha1 : alpha ≤ 1)
    (hl : 0 < lam) (train : Fin n → Bool) (hne : ∃ i, train i = true) :
    ∃ m, ∀ u, foldObjective L X train w enet alpha lam m ≤ foldObjective L X train w enet alpha lam u := by
  obtain ⟨P, hP, -⟩ := init_some (p := p) (fun _ _ _ _ s => s) L ⟨X, none⟩ w (some enet) alpha fun j => (hw j).le
  obtain ⟨Q, -, h0, h1, h2, h3, h4, h5, h6, h7, h8⟩ := cvFold_path _ hL hP train hne
  obtain ⟨hc, B, hB⟩ := fold_convex hL hd h5 h7 h8
  have hcont : Continuous (funcAt Q.loss) := continuous_iff_continuousAt.2 fun x => (hc.gradient x).continuousAt
  obtain ⟨m, hm⟩ := sub_exists (L := Q.loss) ⟨X, none⟩ hcont hB ha0 hl hw he fun _ => true
  have hres : ∀ u : Fin p → ℝ, extend (fun _ => true) (fun c => u c) = u := by
    intro u; funext j; simp [extend]
  refine ⟨extend _ m, fun u => ?_⟩
  have := hm fun c => u c
  rw [sub_total Q.loss ⟨X, none⟩ ha0.le ha1 hl.le fun j => (hw j).le, sub_total Q.loss ⟨X, none⟩ ha0.le ha1 hl.le fun j => (hw j).le,
    hres, cvFold_func hk h5 h6 h7 h8] at this
  exact this

/-- **C94** cross-validation with `strong_rules`, one fold, all features penalised, default initial data, exact subproblem solver,
convex loss: the fold does not raise, the first row is zero, one row follows for each later lagrange parameter, and a row appended
without the warning is optimal, up to the tolerance 1/100 of the KKT check, for the elastic net problem of the training cases at
its own lagrange parameter.  Missing: unpenalised features (C40_unpenalized_fails, C94_first_score_fails) and the logistic loss,
which is not convex as computed (C29). -/
theorem C94_strong_fold_partial (solve : SubSolver p) (hs : ExactSub solve) {L : Loss n} (hL : ReachableLoss L) (hk : WeightsKept L)
    (hd : ConvexLoss L.data) {D : Design p n} (hp : 0 < p) {w : Fin p → ℝ} (hw : ∀ j, 0 < w j) {enet : Option (Fin p → ℝ)}
    (he : ∀ j, 0 ≤ enetOf enet j) {alpha : ℝ} (ha0 : 0 < alpha) (ha1 : alpha ≤ 1) {P : Obj p n}
    (hP : init solve L D w enet alpha = some P) (seq : List ℝ) (hseq : ∀ l ∈ seq, 0 < l) (train : Fin n → Bool)
    (hne : ∃ i, train i = true) :
    ∃ es : List (StrongRules.Entry ℝ (Fin p)),
      fitFold solve (strongFit solve) P seq (P.solution, P.grad) train = some ((fun _ => 0) :: es.map StrongRules.Entry.beta) ∧
      es.map StrongRules.Entry.lagrange = seq.tail ∧
      ∀ e ∈ es, e.exit = .converged → ∀ u, foldObjective L D.X train w (enetOf enet) alpha e.lagrange e.beta ≤
        foldObjective L D.X train w (enetOf enet) alpha e.lagrange u + 1 / 100 * ∑ j, alpha * e.lagrange * w j * |u j - e.beta j| := by
  obtain ⟨-, -, -, -, hsol, -⟩ := cvInit_eq solve hP
  have hsol : P.solution = fun _ => 0 := hsol fun ⟨j, hj⟩ => (hw j).ne' hj
  obtain ⟨Q, -, h0, h1, h2, h3, h4, h5, h6, h7, h8⟩ := cvFold_path solve hL hP train hne
  have hf := cvFold_func hk h5 h6 h7 h8
  obtain ⟨hc, B, hB⟩ := fold_convex hL hd h5 h7 h8
  have hcont : Continuous (funcAt Q.loss) := continuous_iff_continuousAt.2 fun x => (hc.gradient x).continuousAt
  have hE : ExactSolver D.X (funcAt Q.loss) w (enetOf enet) alpha (toSolver solve Q) := by
    intro k warm S lam hl u hu
    have hres : extend S (fun c => u c) = u := by
      funext j
      by_cases hj : S j = true
      · exact extend_of S _ ⟨j, hj⟩
      · rw [extend_off S _ (by simpa using hj), hu j (by simpa using hj)]
    have hext : (fun i => if S i = true then toSolver solve Q k warm S lam i else 0) =
        extend S (solveSubproblem Q.loss D w (enetOf enet) alpha solve k warm S lam) := by
      funext j
      unfold extend toSolver
      rw [h1, h2, h3, h4]
      by_cases hj : S j = true
      · simp [hj]
      · simp [hj]
    rw [hext]
    have := hs k S (subSmooth Q.loss D w (enetOf enet) alpha S lam) (subPenalty w alpha S lam) (fun c => warm c)
      (sub_exists D hcont hB ha0 hl hw he S) fun c => u c
    rw [sub_total Q.loss D ha0.le ha1 hl.le fun j => (hw j).le, sub_total Q.loss D ha0.le ha1 hl.le fun j => (hw j).le, hres] at this
    exact this
  obtain ⟨es, g1, g2⟩ := C40_terminates (toPath (1 / 100) Q) (toSolver solve Q) false 20 seq (fun _ => 0) P.grad
  refine ⟨es, ?_, g2, fun e hem hex u => ?_⟩
  · rw [h0]
    unfold strongFit
    dsimp only
    rw [hsol, g1]; rfl
  · unfold toPath at g1
    rw [h1, h2, h3, h4] at g1
    have := C40_lasso_exact hc ha0 ha1 (by norm_num : (0:ℝ) ≤ 1 / 100) hp hw he (toSolver solve Q) hE false 20 seq hseq P.grad es g1
      e hem hex u
    rw [hf] at this
    exact this

end Verif.Props
