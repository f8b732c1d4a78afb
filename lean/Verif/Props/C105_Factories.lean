import Verif.Model.StackedFactories
import Verif.Props.C104_Multi

/-!
# C105: the class methods that build multi-response losses

`stacked_common_loglike.cox` and `.huber_svm` build the sum over the columns of the documented losses; the other class methods raise for
every input.
-/

set_option linter.unusedSectionVars false
set_option linter.unusedVariables false

namespace Verif.Props
open Verif.Spec Verif.Model Verif.Model.Fista Verif.Lemmas Verif.Model.Block

variable {n p q : ℕ}

/-! ### several event times per case -/

/-- `coef ∑ⱼ nllⱼ(xᵢ·(Bⱼ - offsetⱼ) - saturated_offsetᵢⱼ)`, `nllⱼ` being the negative log partial likelihood of the times of column `j` -/
noncomputable def multiCox (X : Fin n → Fin p → ℝ) (T : Fin q → Fin n → ℝ) (cens : Fin q → Fin n → ℕ) (coef : ℝ)
    (so : Option (Fin n → Fin q → ℝ)) (o : Option (Fin p → Fin q → ℝ)) (w : Option (Fin n → ℝ)) (B : Fin p → Fin q → ℝ) : ℝ :=
  coef * ∑ j, coxNll (T j) (cens j) (fun i => w.elim 1 fun w => w i) fun i => ∑ k, X i k * (B k j - matOr o k j) - matOr so i j

/-- what the columns of a stack keep -/
private def ColsOk (T : Fin q → Fin n → ℝ) (cens : Fin q → Fin n → ℕ) (coef : ℝ) (l : Fin q → CoxLoss n) : Prop :=
  ∀ j, ReachableCox (l j) ∧ (l j).T = T j ∧ (l j).cens = cens j ∧ (l j).coef = coef ∧ (l j).offset = none ∧
    (l j).caseWeights = fun _ => 1

section
variable {T : Fin q → Fin n → ℝ} {cens : Fin q → Fin n → ℕ} {coef : ℝ} {W : Fin n → ℝ}

private lemma col_keeps {l : Fin q → CoxLoss n} (h : ColsOk T cens coef l) (j : Fin q) (y : Fin n → ℝ) (m : Mode) (a : Option (Fin n → ℝ)) :
    ColsOk T cens coef (Function.update l j ((l j).smoothObjective y m a).2) := by
  intro k
  by_cases hk : k = j
  · subst hk
    rw [Function.update_self]
    obtain ⟨h1, h2, h3, h4, h5, h6⟩ := h k
    have hb : ∃ b, ((l k).smoothObjective y m a).2 = { l k with buf := b } := by
      cases m <;> exact ⟨_, rfl⟩
    have hr : ReachableCox ((l k).run [.smooth y m a]) := .call h1
    have e : (l k).run [.smooth y m a] = ((l k).smoothObjective y m a).2 := rfl
    rw [e] at hr
    obtain ⟨b, hb⟩ := hb
    refine ⟨hr, ?_⟩
    rw [hb]
    exact ⟨h2, h3, h4, h5, h6⟩
  · rw [Function.update_of_ne hk]
    exact h k

private lemma col_value {l : Fin q → CoxLoss n} (h : ColsOk T cens coef l) (hw : ∀ i, 0 ≤ W i) (j : Fin q) (hr : RiskPositive (T j) W)
    (y : Fin n → ℝ) : 0 ≤ coef ∧
      ((l j).smoothObjective y .func (some W)).1 = .val (some (coef * coxNll (T j) (cens j) W y)) ∧
      (∃ b, ((l j).smoothObjective y .grad (some W)).1 = .grad (fun i => some (coef * coxG' (T j) (cens j) W y i)) b) ∧
      ∃ b, ((l j).smoothObjective y .both (some W)).1 =
        .both (some (coef * coxNll (T j) (cens j) W y)) (fun i => some (coef * coxG' (T j) (cens j) W y i)) b := by
  obtain ⟨h1, h2, h3, h4, h5, h6⟩ := h j
  have hW : effWeight (some (l j).caseWeights) (some W) = W := by
    funext i; simp [effWeight, h6]
  obtain ⟨hc, -, hev⟩ := cox_evaluates (l j) h1 (some W) (fun a ha i => by injection ha with ha; rw [← ha]; exact hw i)
    (by rw [hW, h2]; exact hr)
  rw [hW, h2, h3, h4, h5] at hev
  rw [h4] at hc
  have e : (fun i => y i - effOffset (none : Option (Fin n → ℝ)) i) = y := by funext i; simp [effOffset]
  obtain ⟨e1, ⟨b2, e2⟩, ⟨b3, e3⟩⟩ := hev y
  simp only [e] at e1 e2 e3
  have e' : ∀ i, y i - effOffset (none : Option (Fin n → ℝ)) i = y i := fun i => congrFun e i
  simp only [e'] at e2 e3
  exact ⟨hc, e1, ⟨b2, e2⟩, ⟨b3, e3⟩⟩

/-- the loop over the columns -/
private lemma loop_eq (hw : ∀ i, 0 ≤ W i) (hr : ∀ j, RiskPositive (T j) W) (x : Fin n → Fin q → ℝ) (m : Mode) (l : List (Fin q))
    (s : StackedCox.Loop n q) (hs : ColsOk T cens coef s.losses) (hW : s.cw = W) :
    let s' := l.foldl (StackedCox.column x m) s
    ColsOk T cens coef s'.losses ∧ s'.cw = W ∧
      ((m = .func ∨ m = .both) → ∀ v, s.value = some v →
        s'.value = some (v + (l.map fun j => coef * coxNll (T j) (cens j) W fun i => x i j).sum)) ∧
      ((m = .grad ∨ m = .both) → ∀ k j, s'.buf k j = if j ∈ l then some (coef * coxG' (T j) (cens j) W (fun i => x i j) k) else s.buf k j) := by
  induction l generalizing s with
  | nil => exact ⟨hs, hW, fun _ v hv => by simpa using hv, fun _ k j => by simp⟩
  | cons j l ih =>
    set s1 := StackedCox.column x m s j with hs1
    have hcw : (fun i => s.cw i * (s.losses j).caseWeights i) = W := by
      funext i; rw [(hs j).2.2.2.2.2, hW, mul_one]
    have h1 : ColsOk T cens coef s1.losses := by
      have := col_keeps hs j (fun k => x k j) m (some s.cw)
      have e : s1.losses = Function.update s.losses j ((s.losses j).smoothObjective (fun k => x k j) m (some s.cw)).2 := by
        rw [hs1]; unfold StackedCox.column; dsimp only
        cases ((s.losses j).smoothObjective (fun k => x k j) m (some s.cw)).1 <;> rfl
      rw [e]; exact this
    have h2 : s1.cw = W := by
      have e : s1.cw = fun i => s.cw i * (s.losses j).caseWeights i := by
        rw [hs1]; unfold StackedCox.column; dsimp only
        cases ((s.losses j).smoothObjective (fun k => x k j) m (some s.cw)).1 <;> rfl
      rw [e, hcw]
    obtain ⟨-, v1, ⟨b2, v2⟩, ⟨b3, v3⟩⟩ := col_value hs hw j (hr j) (fun k => x k j)
    rw [← hW] at v1 v2 v3
    obtain ⟨i1, i2, i3, i4⟩ := ih s1 h1 h2
    refine ⟨i1, i2, fun hm v hv => ?_, fun hm k j' => ?_⟩
    · have e : s1.value = some (v + coef * coxNll (T j) (cens j) W fun i => x i j) := by
        rw [hs1]; unfold StackedCox.column; dsimp only
        rcases hm with hm | hm <;> subst hm
        · rw [v1]; dsimp only; rw [hv, hW]; rfl
        · rw [v3]; dsimp only; rw [hv, hW]; rfl
      have := i3 hm _ e
      rw [List.foldl_cons, ← hs1, this, List.map_cons, List.sum_cons, add_assoc]
    · have e : s1.buf k j' = if j' = j then some (coef * coxG' (T j) (cens j) W (fun i => x i j) k) else s.buf k j' := by
        rw [hs1]; unfold StackedCox.column; dsimp only
        rcases hm with hm | hm <;> subst hm
        · rw [v2]; dsimp only; rw [hW]
        · rw [v3]; dsimp only; rw [hW]
      rw [List.foldl_cons, ← hs1, i4 hm k j', e]
      by_cases h : j' ∈ l
      · rw [if_pos h, if_pos (List.mem_cons_of_mem _ h)]
      · rw [if_neg h]
        by_cases h' : j' = j
        · subst h'
          rw [if_pos rfl, if_pos List.mem_cons_self]
        · rw [if_neg h', if_neg (by simp [h, h'])]

end

private lemma scale_one (f : Fl) : CoxLoss.scaleF 1 f = f := by simp [CoxLoss.scaleF]

private lemma dotT_some (X : Fin n → Fin p → ℝ) (g : Fin n → Fin q → ℝ) :
    CoxMglm.dotT X (fun i j => some (g i j)) = fun k j => some (∑ i, X i k * g i j) := by
  funext k j
  exact if_pos fun i => rfl

/-- what a `mglm` over a stack of Cox losses keeps -/
private structure MInv (X : Fin n → Fin p → ℝ) (T : Fin q → Fin n → ℝ) (cens : Fin q → Fin n → ℕ) (coef : ℝ)
    (so : Option (Fin n → Fin q → ℝ)) (o : Option (Fin p → Fin q → ℝ)) (W : Fin n → ℝ) (G : CoxMglm p n q) : Prop where
  X : G.X = X
  offset : G.offset = o
  weights : G.caseWeights = W
  cols : ColsOk T cens coef G.loss.losses
  coef : G.loss.coef = 1
  so : G.loss.offset = so
  own : G.loss.caseWeights = none

section
variable {X : Fin n → Fin p → ℝ} {T : Fin q → Fin n → ℝ} {cens : Fin q → Fin n → ℕ} {coef : ℝ} {so : Option (Fin n → Fin q → ℝ)}
  {o : Option (Fin p → Fin q → ℝ)} {W : Fin n → ℝ}

private lemma built {r : ℕ} {X0 : Fin n → Fin r → ℝ} {σ : Fin q → Equiv.Perm (Fin n)} (hσ : ∀ j, IsArgsort (T j) (σ j)) {S : StackedCox n q}
    (h : StackedCox.cox X0 T cens coef so none σ = .object S) (w : Option (Fin n → ℝ)) :
    MInv X T cens coef so o (fun i => w.elim 1 fun w => w i) (CoxMglm.init X S o w) := by
  unfold StackedCox.cox at h
  split_ifs at h with h0
  have h1 : StackedCox.init (fun j => (CoxLoss.init (T j) (cens j) coef none none (σ j)).get (h0 j)) 1 so none =
      some ⟨fun j => (CoxLoss.init (T j) (cens j) coef none none (σ j)).get (h0 j), 1, so, none, fun _ _ => some 0⟩ := by
    unfold StackedCox.init
    rw [if_neg (by norm_num), if_neg (by simp)]
  rw [h1] at h
  have hS : S = ⟨fun j => (CoxLoss.init (T j) (cens j) coef none none (σ j)).get (h0 j), 1, so, none, fun _ _ => some 0⟩ := by
    injection h with h; exact h.symm
  subst hS
  refine ⟨rfl, rfl, ?_, fun j => ?_, rfl, rfl, rfl⟩
  · cases w <;> rfl
  · obtain ⟨L, hL⟩ := Option.isSome_iff_exists.1 (h0 j)
    have e : (CoxLoss.init (T j) (cens j) coef none none (σ j)).get (h0 j) = L := by simp [hL]
    show ReachableCox ((CoxLoss.init (T j) (cens j) coef none none (σ j)).get (h0 j)) ∧ _
    dsimp only [CoxMglm.init]
    rw [e]
    refine ⟨.init (hσ j) hL, ?_⟩
    unfold CoxLoss.init Smooth.atomInit at hL
    split_ifs at hL with hc
    simp only at hL
    split_ifs at hL with hc2
    injection hL with hL
    subst hL
    exact ⟨rfl, rfl, rfl, rfl, rfl⟩

variable (hw : ∀ i, 0 ≤ W i) (hr : ∀ j, RiskPositive (T j) W)
include hw hr

private lemma step {G : CoxMglm p n q} (h : MInv X T cens coef so o W G) (B : Fin p → Fin q → ℝ) (m : Mode) :
    MInv X T cens coef so o W (G.smoothObjective B m).2 := by
  cases m with
  | other =>
    refine ⟨h.X, h.offset, ?_, h.cols, h.coef, h.so, h.own⟩
    show G.loss.caseWeights.elim G.caseWeights _ = W
    rw [h.own]; exact h.weights
  | func =>
    obtain ⟨h1, h2, -, -⟩ := loop_eq hw hr (MultiLoss.applyOffset G.loss.offset (Mglm.dot G.X (MultiLoss.applyOffset G.offset B))) .func
      (List.finRange q) ⟨G.loss.losses, G.loss.caseWeights.elim G.caseWeights fun w i => G.caseWeights i * w i, some 0, G.loss.buf⟩ h.cols
      (by dsimp only; rw [h.own]; exact h.weights)
    exact ⟨h.X, h.offset, h2, h1, h.coef, h.so, h.own⟩
  | grad =>
    obtain ⟨h1, h2, -, -⟩ := loop_eq hw hr (MultiLoss.applyOffset G.loss.offset (Mglm.dot G.X (MultiLoss.applyOffset G.offset B))) .grad
      (List.finRange q) ⟨G.loss.losses, G.loss.caseWeights.elim G.caseWeights fun w i => G.caseWeights i * w i, some 0, G.loss.buf⟩ h.cols
      (by dsimp only; rw [h.own]; exact h.weights)
    exact ⟨h.X, h.offset, h2, h1, h.coef, h.so, h.own⟩
  | both =>
    obtain ⟨h1, h2, -, -⟩ := loop_eq hw hr (MultiLoss.applyOffset G.loss.offset (Mglm.dot G.X (MultiLoss.applyOffset G.offset B))) .both
      (List.finRange q) ⟨G.loss.losses, G.loss.caseWeights.elim G.caseWeights fun w i => G.caseWeights i * w i, some 0, G.loss.buf⟩ h.cols
      (by dsimp only; rw [h.own]; exact h.weights)
    exact ⟨h.X, h.offset, h2, h1, h.coef, h.so, h.own⟩

private lemma run_inv {G : CoxMglm p n q} (h : MInv X T cens coef so o W G) (calls : List ((Fin p → Fin q → ℝ) × Mode)) :
    MInv X T cens coef so o W (G.run calls) := by
  induction calls generalizing G with
  | nil => exact h
  | cons c rest ih => exact ih (step hw hr h c.1 c.2)

/-- the gradient of column `j` -/
private noncomputable def colG (X : Fin n → Fin p → ℝ) (T : Fin q → Fin n → ℝ) (cens : Fin q → Fin n → ℕ) (coef : ℝ)
    (so : Option (Fin n → Fin q → ℝ)) (o : Option (Fin p → Fin q → ℝ)) (W : Fin n → ℝ) (j : Fin q) (β : Fin p → ℝ) (k : Fin p) : ℝ :=
  ∑ i, X i k * (coef * coxG' (T j) (cens j) W (fun i => ∑ k, X i k * (β k - matOr o k j) - matOr so i j) i)

/-- the value of column `j` -/
private noncomputable def colF (X : Fin n → Fin p → ℝ) (T : Fin q → Fin n → ℝ) (cens : Fin q → Fin n → ℕ) (coef : ℝ)
    (so : Option (Fin n → Fin q → ℝ)) (o : Option (Fin p → Fin q → ℝ)) (W : Fin n → ℝ) (j : Fin q) (β : Fin p → ℝ) : ℝ :=
  coef * coxNll (T j) (cens j) W fun i => ∑ k, X i k * (β k - matOr o k j) - matOr so i j

private lemma evaluates {G : CoxMglm p n q} (h : MInv X T cens coef so o W G) (quad : Option (Quad (Fin (p * q)) ℝ)) :
    Evaluates (G.toLoss quad).obj (sumCols (colF X T cens coef so o W)) (gradCols (colG X T cens coef so o W)) := by
  intro x
  set η : Fin n → Fin q → ℝ := MultiLoss.applyOffset G.loss.offset (Mglm.dot G.X (MultiLoss.applyOffset G.offset (rows x))) with hη
  have hηe : ∀ j, (fun i => η i j) = fun i => ∑ k, X i k * (col x j k - matOr o k j) - matOr so i j := by
    intro j; funext i
    rw [hη, mat_off_eq, mat_off_eq, h.so, h.offset, h.X]; rfl
  have L := fun m => loop_eq hw hr η m (List.finRange q)
    ⟨G.loss.losses, G.loss.caseWeights.elim G.caseWeights fun w i => G.caseWeights i * w i, some 0, G.loss.buf⟩ h.cols
    (by dsimp only; rw [h.own]; exact h.weights)
  have hval : (0:ℝ) + ((List.finRange q).map fun j => coef * coxNll (T j) (cens j) W fun i => η i j).sum =
      sumCols (colF X T cens coef so o W) x := by
    rw [zero_add, ← Fin.sum_univ_def]
    unfold sumCols colF
    exact Finset.sum_congr rfl fun j _ => by rw [hηe]
  have hgr : ∀ m, (m = .grad ∨ m = .both) → (fun (k : Fin n) (j : Fin q) => CoxLoss.scaleF G.loss.coef
      ((List.foldl (StackedCox.column η m) ⟨G.loss.losses, G.loss.caseWeights.elim G.caseWeights fun w i => G.caseWeights i * w i,
        some 0, G.loss.buf⟩ (List.finRange q)).buf k j)) =
      fun k j => some (coef * coxG' (T j) (cens j) W (fun i => η i j) k) := by
    intro m hm
    funext k j
    rw [(L m).2.2.2 hm k j, if_pos (List.mem_finRange j), h.coef, scale_one]
  have hgrad : unrows (fun k j => ∑ i, G.X i k * (coef * coxG' (T j) (cens j) W (fun i => η i j) i)) =
      gradCols (colG X T cens coef so o W) x := by
    unfold gradCols
    congr 1
    funext k j
    unfold colG
    rw [h.X]
    exact Finset.sum_congr rfl fun i _ => by rw [hηe]
  have v1 : (G.smoothObjective (rows x) .func).1 = .val (some (sumCols (colF X T cens coef so o W) x)) := by
    have := (L .func).2.2.1 (.inl rfl) 0 rfl
    rw [hval] at this
    show Eval2F.val (CoxLoss.scaleF G.loss.coef _) = _
    rw [h.coef, scale_one]
    exact congrArg _ this
  have v2 : (G.smoothObjective (rows x) .grad).1 =
      .grad fun k j => some (∑ i, G.X i k * (coef * coxG' (T j) (cens j) W (fun i => η i j) i)) := by
    have := hgr .grad (.inl rfl)
    show Eval2F.grad (CoxMglm.dotT G.X _) = _
    rw [← dotT_some]
    exact congrArg (fun u => Eval2F.grad (CoxMglm.dotT G.X u)) this
  have v3 : (G.smoothObjective (rows x) .both).1 = .both (some (sumCols (colF X T cens coef so o W) x))
      fun k j => some (∑ i, G.X i k * (coef * coxG' (T j) (cens j) W (fun i => η i j) i)) := by
    have h1 := hgr .both (.inr rfl)
    have h2 := (L .both).2.2.1 (.inr rfl) 0 rfl
    rw [hval] at h2
    show Eval2F.both (CoxLoss.scaleF G.loss.coef _) (CoxMglm.dotT G.X _) = _
    rw [← dotT_some, h.coef, scale_one]
    rw [h.coef] at h1
    exact congrArg₂ (fun a u => Eval2F.both a (CoxMglm.dotT G.X u)) h2 h1
  rw [← hgrad]
  refine ⟨?_, ?_, ?_⟩
  · unfold CoxMglm.toLoss; dsimp only; rw [v1]
  · unfold CoxMglm.toLoss; dsimp only; rw [v2]
    exact if_pos fun k j => rfl
  · unfold CoxMglm.toLoss; dsimp only; rw [v3]
    exact if_pos fun k j => rfl

end

private lemma cox_coef {r : ℕ} {X0 : Fin n → Fin r → ℝ} {T : Fin q → Fin n → ℝ} {cens : Fin q → Fin n → ℕ} {coef : ℝ}
    {so : Option (Fin n → Fin q → ℝ)} {σ : Fin q → Equiv.Perm (Fin n)} {S : StackedCox n q}
    (h : StackedCox.cox X0 T cens coef so none σ = .object S) (j : Fin q) : 0 ≤ coef := by
  unfold StackedCox.cox at h
  split_ifs at h with h0
  by_contra hc
  have := h0 j
  unfold CoxLoss.init Smooth.atomInit at this
  rw [if_pos (not_le.1 hc)] at this
  simp at this

/-- **C105** `mglm(X, stacked_common_loglike.cox(_, event_times, censoring, coef, offset=so), offset=o, case_weights=w, quadratic=quad)`,
however the times of each column are tied and sorted, fresh or after any history of evaluations, stands for `coef` times the sum over
the columns of the negative log partial likelihoods, which is convex; and its gradient is `M`-Lipschitz if `‖xᵢ‖² ≤ R` for every case and
`coef (∑ᵢ cᵢⱼ wᵢ) R ≤ M` for every column.  Missing: weights that leave a risk set without weight, for which the loss is nan
(`C51_zero_risk_fails`), and weights of the stack itself (`C104_stack_weights_fails`). -/
theorem C105_cox_partial {r : ℕ} (X : Fin n → Fin p → ℝ) (X0 : Fin n → Fin r → ℝ) (T : Fin q → Fin n → ℝ) (cens : Fin q → Fin n → ℕ)
    (coef : ℝ) (so : Option (Fin n → Fin q → ℝ)) (o : Option (Fin p → Fin q → ℝ)) (w : Option (Fin n → ℝ))
    (hw : ∀ w', w = some w' → ∀ i, 0 ≤ w' i) (quad : Option (Quad (Fin (p * q)) ℝ)) (hq : 0 ≤ quadCoef quad)
    (σ : Fin q → Equiv.Perm (Fin n)) (hσ : ∀ j, IsArgsort (T j) (σ j)) (S : StackedCox n q)
    (hS : StackedCox.cox X0 T cens coef so none σ = .object S) (hr : ∀ j, RiskPositive (T j) fun i => w.elim 1 fun w => w i)
    (calls : List ((Fin p → Fin q → ℝ) × Mode)) :
    ∃ g, IsLossFor (((CoxMglm.init X S o w).run calls).toLoss quad) (fun x => multiCox X T cens coef so o w (rows x)) g ∧
      ∀ R M : ℝ, (∀ i, ∑ k, X i k ^ 2 ≤ R) → (∀ j, coef * (∑ i, cens j i * (w.elim 1 fun w => w i)) * R ≤ M) →
        SmoothWith (fun x => multiCox X T cens coef so o w (rows x)) g M := by
  set W : Fin n → ℝ := fun i => w.elim 1 fun w => w i with hW
  have hw' : ∀ i, 0 ≤ W i := by
    cases w with
    | none => exact fun _ => zero_le_one
    | some w => exact hw w rfl
  have hF : (fun x : Fin (p * q) → ℝ => multiCox X T cens coef so o w (rows x)) = sumCols (colF X T cens coef so o W) := by
    funext x
    unfold multiCox sumCols colF
    rw [Finset.mul_sum]
    rfl
  -- every column is a Cox regression
  have hcol : ∀ j, (∀ x z, colF X T cens coef so o W j x + dot (colG X T cens coef so o W j x) (fun k => z k - x k) ≤
      colF X T cens coef so o W j z) ∧ (∀ x, IsGradientAt (colF X T cens coef so o W j) (colG X T cens coef so o W j x) x) ∧
      ∀ R : ℝ, (∀ i, ∑ k, X i k ^ 2 ≤ R) → SmoothWith (colF X T cens coef so o W j) (colG X T cens coef so o W j)
        (coef * (∑ i, cens j i * W i) * R) := by
    intro j
    have hc := cox_coef hS j
    obtain ⟨G, hG⟩ : ∃ G, CoxGlm.build X (T j) (cens j) coef (some fun i => matOr so i j) (some fun k => matOr o k j) w (σ j) = some G := by
      have h1 : ∃ L, CoxLoss.init (T j) (cens j) coef (some fun i => matOr so i j) none (σ j) = some L := by
        unfold CoxLoss.init Smooth.atomInit
        rw [if_neg (not_lt.2 hc)]
        dsimp only
        rw [if_neg (by simp)]
        exact ⟨_, rfl⟩
      obtain ⟨L, hL⟩ := h1
      unfold CoxGlm.build
      rw [hL]
      dsimp only
      rw [if_neg]
      · exact ⟨_, rfl⟩
      · rw [not_not]
        cases w with
        | none => exact fun _ => zero_le_one
        | some w => exact hw w rfl
    obtain ⟨h1, h2⟩ := cox_loss X (T j) (cens j) coef (some fun i => matOr so i j) (some fun k => matOr o k j) w none le_rfl (σ j) (hσ j) G hG
      (hr j) [] _ rfl
    have e1 : coxRegression X (T j) (cens j) coef (some fun i => matOr so i j) (some fun k => matOr o k j) w = colF X T cens coef so o W j :=
      rfl
    rw [e1] at h1 h2
    exact ⟨fun x z => tangent h1.convex x z, h1.convex.gradient, h2⟩
  rw [hF]
  refine ⟨gradCols (colG X T cens coef so o W), ⟨evaluates hw' hr (run_inv hw' hr (built hσ hS w) calls) quad,
    ⟨convex_of_tangents (cols_tangent fun j => (hcol j).1), fun x => cols_gradient (fun j => (hcol j).2.1) x⟩, ?_⟩, fun R M hR hM => ?_⟩
  · cases quad with
    | none => exact le_rfl
    | some q => exact hq
  · refine smooth_of_bounds (cols_tangent fun j => (hcol j).1) (cols_upper fun j x z => ?_)
    have h1 := ((hcol j).2.2 R hR).descent x z
    unfold QuadraticUpperBound at h1 ⊢
    have h2 : coef * (∑ i, cens j i * W i) * R / 2 * sqDist z x ≤ M / 2 * sqDist z x :=
      mul_le_mul_of_nonneg_right (by linarith [hM j]) (sqDist_nonneg z x)
    linarith

/-- two columns of tied times of three cases, weights and an offset meet the hypotheses -/
example : ∃ (T : Fin 2 → Fin 3 → ℝ) (σ : Fin 2 → Equiv.Perm (Fin 3)) (S : StackedCox 3 2), (∀ j, IsArgsort (T j) (σ j)) ∧
    StackedCox.cox (fun _ (_ : Fin 1) => 0) T (fun j i => if i = 0 then 1 else j) 2 (some fun _ _ => 1) none σ = .object S ∧
    ∀ j, RiskPositive (T j) fun i => (some fun i : Fin 3 => (i : ℝ) + 1).elim 1 fun w => w i := by
  choose σ hσ using fun j : Fin 2 => C51_argsort_exists (fun i : Fin 3 => if i = 1 then (j : ℝ) else 1)
  have h : ∀ j : Fin 2, (CoxLoss.init (fun i : Fin 3 => if i = 1 then (j : ℝ) else 1) (fun i => if i = 0 then 1 else j) 2 none none (σ j)).isSome := by
    intro j
    unfold CoxLoss.init Smooth.atomInit
    rw [if_neg (by norm_num)]
    dsimp only
    rw [if_neg (by simp)]
    rfl
  have hS : ∃ S : StackedCox 3 2, StackedCox.cox (fun _ (_ : Fin 1) => 0) (fun (j : Fin 2) (i : Fin 3) => if i = 1 then (j : ℝ) else 1)
      (fun j i => if i = 0 then 1 else j) 2 (some fun _ _ => 1) none σ = .object S := by
    unfold StackedCox.cox
    rw [dif_pos h]
    unfold StackedCox.init
    rw [if_neg (by norm_num), if_neg (by simp)]
    exact ⟨_, rfl⟩
  obtain ⟨S, hS⟩ := hS
  refine ⟨fun j i => if i = 1 then (j : ℝ) else 1, σ, S, hσ, hS, fun j i => ⟨i, le_rfl, ?_⟩⟩
  show (0:ℝ) < (i : ℝ) + 1
  positivity

/-- **C105** Regression of several event times with a matrix penalty is solved: for any atom standing for a penalty `pen`, from any start,
a proximal gradient step of any length leaves `B` where it is exactly when `B` minimises the documented objective; `solve` with backtracking
returns coefficients of finite documented objective; and with `m ≤ 99` iterations and no restarts they are within
`2 ‖B₀ - B‖² / (t (k + 1)²)` of the minimum after `k` passes, `t = min(start_inv_step, 1 / (2 M alpha))`.  Missing: as in
`C105_cox_partial`. -/
theorem C105_cox_regression_partial {r : ℕ} (X : Fin n → Fin p → ℝ) (X0 : Fin n → Fin r → ℝ) (T : Fin q → Fin n → ℝ)
    (cens : Fin q → Fin n → ℕ) (coef : ℝ) (so : Option (Fin n → Fin q → ℝ)) (o : Option (Fin p → Fin q → ℝ)) (w : Option (Fin n → ℝ))
    (hw : ∀ w', w = some w' → ∀ i, 0 ≤ w' i) (quad : Option (Quad (Fin (p * q)) ℝ)) (hq : 0 ≤ quadCoef quad)
    (σ : Fin q → Equiv.Perm (Fin n)) (hσ : ∀ j, IsArgsort (T j) (σ j)) (S : StackedCox n q)
    (hS : StackedCox.cox X0 T cens coef so none σ = .object S) (hr : ∀ j, RiskPositive (T j) fun i => w.elim 1 fun w => w i)
    (calls : List ((Fin p → Fin q → ℝ) × Mode)) (A : NonsmoothAtom (p * q)) (pen : (Fin (p * q) → ℝ) → WithTop ℝ)
    (hA : IsAtomFor A pen) (x0 : Fin (p * q) → ℝ) (R M : ℝ) (hR : ∀ i, ∑ k, X i k ^ 2 ≤ R) (hM0 : 0 < M)
    (hM : ∀ j, coef * (∑ i, cens j i * (w.elim 1 fun w => w i)) * R ≤ M) :
    let P := SimpleProblem.ofLoss (((CoxMglm.init X S o w).run calls).toLoss quad) A x0
    let obj : (Fin (p * q) → ℝ) → WithTop ℝ := fun x => pen x +
      ((multiCox X T cens coef so o w (rows x) + quadVal (some (quad.getD (Quad.init none none none none))) x : ℝ) : WithTop ℝ)
    (∀ (β : Fin (p * q) → ℝ) (L : ℝ), 0 < L → ∃ z, P.proximal (Quad.init (some L) (some (.arr β)) (some (.arr (P.grad β))) (some 0)) = some z ∧
      (IsMinTop obj β ↔ z = β)) ∧
    (∀ (a : FitArgs), a.performBacktrack = true → 1 < a.alpha → 0 < a.startStep → ∀ lip, ∃ N, ∀ fuel, N < fuel → ∃ c v hist,
      (P.solve none a lip fuel).1 = .ok c (.num v) hist ∧ obj c = v) ∧
    (∀ (a : FitArgs), a.performBacktrack = true → 1 ≤ a.alpha → 0 < a.startStep → a.monotonicityRestart = false →
      a.restart = none → (∃ m, a.maxIts = some m ∧ m ≠ 0 ∧ m ≤ 99) → ∀ (lip : ℝ) (fuel : ℕ) (c : Fin (p * q) → ℝ) (v : ObjVal)
      (hist : List ObjVal), (P.solve none a lip fuel).1 = .ok c v hist → ∀ u, IsMinTop obj u →
      ∃ vc vu : ℝ, v = .num vc ∧ obj c = vc ∧ obj u = vu ∧ vu ≤ vc ∧
        vc - vu ≤ 2 * sqDist x0 u / (min a.startStep (1 / (2 * M * a.alpha)) * (hist.length + 1) ^ 2)) := by
  intro P obj
  obtain ⟨g, h1, h2⟩ := C105_cox_partial X X0 T cens coef so o w hw quad hq σ hσ S hS hr calls
  have h3 := h2 R M hR hM
  refine ⟨fun β L hL => C100_certificate _ _ _ A pen h1 hA x0 β L hL, fun a hb ha hst lip => ?_, ?_⟩
  · exact C100_returns _ _ _ A pen h1 hA M h3 x0 a hb ha hst lip
  · intro a hb ha hst hm hrs hmax lip fuel c v hist hsolve u hu
    exact C100_rate _ _ _ A pen h1 hA M hM0 h3 x0 a hb ha hst hm hrs hmax lip fuel c v hist hsolve u hu

/-- the nuclear norm of a 3 by 2 coefficient matrix is such an atom -/
example : ∃ (A : NonsmoothAtom (3 * 2)) (pen : (Fin (3 * 2) → ℝ) → WithTop ℝ), IsAtomFor A pen := by
  choose svd h using fun X : Mat 3 2 => C59_svd_exists (k := 1) (n := 3) (p := 2) (by norm_num) X
  exact ⟨_, _, (C104_svd_lagrange (n := 2) (p := 1) none (Quad.init none none none none) le_rfl svd h 1 zero_le_one).1⟩

private lemma svm_init (s : Fin n → ℝ) (eps : ℝ) : Loss.init (.huberSvm s eps) 1 none (Quad.init none none none none) none =
    some ⟨.huberSvm s eps, 1, none, Quad.init none none none none, none⟩ := by
  unfold Loss.init Smooth.atomInit
  rw [if_neg (by norm_num)]
  simp only
  rw [if_neg (by simp [Loss.dataError]), if_neg (by simp)]
  rfl

private lemma svm_built {r : ℕ} {X0 : Fin n → Fin r → ℝ} {Y : Fin n → Fin q → ℝ} {eps coef : ℝ} {so : Option (Fin n → Fin q → ℝ)}
    {cw : Option (Fin n → ℝ)} :
    Stacked.huberSvm X0 Y eps cw coef so = Made.ofOption (Stacked.init
      (fun j => ⟨.huberSvm (fun i => Y i j) eps, 1, none, Quad.init none none none none, none⟩) 1 so cw) := by
  unfold Stacked.huberSvm Stacked.columns
  simp only [svm_init]
  rw [dif_pos (by intro j; rfl)]
  rfl

/-- **C105** `stacked_common_loglike.cox` and `.huber_svm` return an object exactly when the arguments are admissible: nonnegative weights
and, for `cox`, a nonnegative `coef`; otherwise they raise ValueError.  An unknown mode of evaluation is a ValueError too. -/
theorem C105_admissible {r : ℕ} (X0 : Fin n → Fin r → ℝ) (T : Fin (q + 1) → Fin n → ℝ) (cens : Fin (q + 1) → Fin n → ℕ) (coef : ℝ)
    (so : Option (Fin n → Fin (q + 1) → ℝ)) (cw : Option (Fin n → ℝ)) (σ : Fin (q + 1) → Equiv.Perm (Fin n))
    (Y : Fin n → Fin (q + 1) → ℝ) (eps : ℝ) :
    ((∃ S, StackedCox.cox X0 T cens coef so cw σ = .object S) ↔ 0 ≤ coef ∧ ∀ w, cw = some w → ∀ i, 0 ≤ w i) ∧
    ((∀ S, StackedCox.cox X0 T cens coef so cw σ ≠ .object S) → StackedCox.cox X0 T cens coef so cw σ = .valueError) ∧
    ((∃ S, Stacked.huberSvm X0 Y eps cw coef so = .object S) ↔ ∀ w, cw = some w → ∀ i, 0 ≤ w i) ∧
    ((∀ S, Stacked.huberSvm X0 Y eps cw coef so ≠ .object S) → Stacked.huberSvm X0 Y eps cw coef so = .valueError) ∧
    (∀ (G : CoxMglm p n q) (B : Fin p → Fin q → ℝ), (G.smoothObjective B .other).1 = .valueError) := by
  have hcols : (∀ j, (CoxLoss.init (T j) (cens j) coef none none (σ j)).isSome) ↔ 0 ≤ coef := by
    constructor
    · intro h
      by_contra hc
      have := h 0
      unfold CoxLoss.init Smooth.atomInit at this
      rw [if_pos (not_le.1 hc)] at this
      simp at this
    · intro hc j
      unfold CoxLoss.init Smooth.atomInit
      rw [if_neg (not_lt.2 hc)]
      dsimp only
      rw [if_neg (by simp)]
      rfl
  have hbad : (∃ w, cw = some w ∧ ¬ ∀ i, 0 ≤ w i) ↔ ¬ ∀ w, cw = some w → ∀ i, 0 ≤ w i := by push Not; rfl
  refine ⟨?_, ?_, ?_, ?_, fun G B => rfl⟩
  · unfold StackedCox.cox
    by_cases hc : 0 ≤ coef
    · rw [dif_pos (hcols.2 hc)]
      unfold StackedCox.init
      rw [if_neg (by norm_num)]
      by_cases h : ∀ w, cw = some w → ∀ i, 0 ≤ w i
      · rw [if_neg (by rw [hbad, not_not]; exact h)]
        exact ⟨fun _ => ⟨hc, h⟩, fun _ => ⟨_, rfl⟩⟩
      · rw [if_pos (hbad.2 h)]
        exact ⟨fun ⟨S, hS⟩ => (nomatch hS), fun h' => absurd h'.2 h⟩
    · rw [dif_neg (fun h => hc (hcols.1 h))]
      exact ⟨fun ⟨S, hS⟩ => (nomatch hS), fun h' => absurd h'.1 hc⟩
  · unfold StackedCox.cox
    by_cases hc : 0 ≤ coef
    · rw [dif_pos (hcols.2 hc)]
      cases StackedCox.init _ 1 so cw with
      | none => exact fun _ => rfl
      | some S => exact fun h => absurd rfl (h S)
    · rw [dif_neg (fun h => hc (hcols.1 h))]
      exact fun _ => rfl
  · rw [svm_built]
    unfold Stacked.init
    rw [if_neg (by norm_num)]
    by_cases h : ∀ w, cw = some w → ∀ i, 0 ≤ w i
    · rw [if_neg (by rw [hbad, not_not]; exact h)]
      exact ⟨fun _ => h, fun _ => ⟨_, rfl⟩⟩
    · rw [if_pos (hbad.2 h)]
      exact ⟨fun ⟨S, hS⟩ => (nomatch hS), fun h' => absurd h' h⟩
  · rw [svm_built]
    cases Stacked.init _ 1 so cw with
    | none => exact fun _ => rfl
    | some S => exact fun h => absurd rfl (h S)

/-- admissible and inadmissible arguments exist -/
example : (∀ w, (some fun _ : Fin 2 => (1:ℝ)) = some w → ∀ i, 0 ≤ w i) ∧ ¬ ∀ w, (some fun _ : Fin 2 => (-1:ℝ)) = some w → ∀ i, 0 ≤ w i := by
  refine ⟨fun w hw i => by injection hw with hw; rw [← hw]; exact zero_le_one, fun h => ?_⟩
  have := h _ rfl 0
  norm_num at this

/-- **C105** Weights given to `stacked_common_loglike.cox` itself are applied once more at every evaluation of the `mglm`, and reach the
second column too: with one case, weight 2 and one observed event time the loss is `2 log 2` at the first evaluation and `4 log 4` at the
second, at every coefficient. -/
theorem C105_cox_stack_weights_fails : ∃ S : StackedCox 1 1,
    StackedCox.cox (fun _ (_ : Fin 1) => 1) (fun _ _ => 0) (fun _ _ => 1) 1 none (some fun _ => 2) (fun _ => Equiv.refl _) = .object S ∧
    ∀ B, let G := CoxMglm.init (fun _ (_ : Fin 1) => 1) S none none
    (G.smoothObjective B .func).1 = .val (some (2 * Real.log 2)) ∧
    ((G.smoothObjective B .func).2.smoothObjective B .func).1 = .val (some (4 * Real.log 4)) := by
  refine ⟨⟨fun _ => ⟨fun _ => 0, fun _ => 1, Equiv.refl _, Cox.rankmin fun _ => 0, Cox.rankmax fun _ => 0, 1, none, fun _ => 1, Cox.zeroBuffers 1⟩,
    1, none, some fun _ => 2, fun _ _ => some 0⟩, ?_, fun B => ?_⟩
  · have h : ∀ j : Fin 1, (CoxLoss.init (fun _ : Fin 1 => (0:ℝ)) (fun _ => 1) 1 none none (Equiv.refl _)) =
        some ⟨fun _ => 0, fun _ => 1, Equiv.refl _, Cox.rankmin fun _ => 0, Cox.rankmax fun _ => 0, 1, none, fun _ => 1, Cox.zeroBuffers 1⟩ := by
      intro j
      unfold CoxLoss.init Smooth.atomInit
      rw [if_neg (by norm_num)]
      dsimp only
      rw [if_neg (by simp)]
    unfold StackedCox.cox
    rw [dif_pos (fun j => by rw [h j]; rfl)]
    simp only [h 0, Option.get_some]
    unfold StackedCox.init
    rw [if_neg (by norm_num), if_neg (by simp)]
    rfl
  · intro G
    have e : ∀ (c : ℝ) (y : ℝ), 0 < c → Real.log (Real.exp y * c) - y = Real.log c := by
      intro c y hc
      rw [Real.log_mul (Real.exp_pos y).ne' hc.ne', Real.log_exp]; ring
    have e2 := e 2 (B 0 0) (by norm_num)
    have e4 := e 4 (B 0 0) (by norm_num)
    have n2 : Real.exp (B 0 0) * 2 ≠ 0 := by positivity
    have n4 : Real.exp (B 0 0) * 4 ≠ 0 := by positivity
    have hrank : Cox.rankmin (fun _ : Fin 1 => (0:ℝ)) 0 = 0 := Subsingleton.elim _ _
    constructor
    · simp [G, CoxMglm.smoothObjective, CoxMglm.init, StackedCox.smoothObjective, List.finRange_succ, StackedCox.column, CoxLoss.smoothObjective,
        CoxLoss.cw, CoxLoss.scaleF, CoxLoss.objCall, Cox.updateExp, Cox.updateOuter1, Cox.objectiveLoop, Fl.add, Fl.mulLogSub,
        Smooth.applyOffset, MultiLoss.applyOffset, Mglm.dot, Fin.rev]
      rw [hrank, Function.update_self]
      exact ⟨n2, e2⟩
    · simp [G, CoxMglm.smoothObjective, CoxMglm.init, StackedCox.smoothObjective, List.finRange_succ, StackedCox.column, CoxLoss.smoothObjective,
        CoxLoss.cw, CoxLoss.scaleF, CoxLoss.objCall, Cox.updateExp, Cox.updateOuter1, Cox.objectiveLoop, Fl.add, Fl.mulLogSub,
        Smooth.applyOffset, MultiLoss.applyOffset, Mglm.dot, Fin.rev]
      norm_num
      rw [hrank, Function.update_self]
      exact ⟨n4, e4⟩

private lemma fold_none (x : Fin n → Fin q → ℝ) (l : List (Fin q)) (s : StackedCox.Loop n q) (h : s.value = none) :
    (l.foldl (StackedCox.column x .func) s).value = none := by
  induction l generalizing s with
  | nil => exact h
  | cons j l ih =>
    refine ih _ ?_
    unfold StackedCox.column
    have : ∃ f, ((s.losses j).smoothObjective (fun k => x k j) .func (some s.cw)).1 = .val f := ⟨_, rfl⟩
    obtain ⟨f, hf⟩ := this
    dsimp only
    rw [hf]
    dsimp only
    rw [h]; rfl

/-- **C105** One risk set without weight in one column makes the value of the whole loss nan, at every coefficient. -/
theorem C105_zero_risk_fails {r : ℕ} (X : Fin n → Fin p → ℝ) (X0 : Fin n → Fin r → ℝ) (T : Fin q → Fin n → ℝ) (cens : Fin q → Fin n → ℕ)
    (coef : ℝ) (so : Option (Fin n → Fin q → ℝ)) (o : Option (Fin p → Fin q → ℝ)) (w : Fin n → ℝ)
    (σ : Fin q → Equiv.Perm (Fin n)) (hσ : ∀ j, IsArgsort (T j) (σ j)) (S : StackedCox n q)
    (hS : StackedCox.cox X0 T cens coef so none σ = .object S) (j : Fin q) (i : Fin n) (hi : ∀ k, T j i ≤ T j k → w k = 0)
    (B : Fin p → Fin q → ℝ) :
    ((CoxMglm.init X S o (some w)).smoothObjective B .func).1 = .val none := by
  have hI : MInv X T cens coef so o w (CoxMglm.init X S o (some w)) := built hσ hS (some w)
  set G := CoxMglm.init X S o (some w) with hG
  have key : ∀ (x : Fin n → Fin q → ℝ) (l : List (Fin q)) (s : StackedCox.Loop n q), ColsOk T cens coef s.losses → s.cw = w → j ∈ l →
      (l.foldl (StackedCox.column x .func) s).value = none := by
    intro x l
    induction l with
    | nil => intro s _ _ h; cases h
    | cons k l ih =>
      intro s hs hw h
      obtain ⟨f, hf⟩ : ∃ f, ((s.losses k).smoothObjective (fun i => x i k) .func (some s.cw)).1 = .val f := ⟨_, rfl⟩
      have e : StackedCox.column x .func s k = { s with
          losses := Function.update s.losses k ((s.losses k).smoothObjective (fun i => x i k) .func (some s.cw)).2
          cw := fun i => s.cw i * (s.losses k).caseWeights i
          value := Fl.add s.value f } := by
        unfold StackedCox.column; dsimp only; rw [hf]
      by_cases hk : j = k
      · subst hk
        refine fold_none x l _ ?_
        have h0 := C51_zero_risk_fails (s.losses j) (hs j).1 i (some s.cw) (fun k hk => by
          rw [(hs j).2.1] at hk
          simp [effWeight, hw, hi k hk]) (fun i => x i j)
        rw [hf] at h0
        injection h0 with h0
        rw [e]
        show Fl.add s.value f = none
        rw [h0]
        cases s.value <;> rfl
      · refine ih _ ?_ ?_ ?_
        · rw [e]; exact col_keeps hs k _ _ _
        · rw [e]
          show (fun i => s.cw i * (s.losses k).caseWeights i) = w
          funext i; rw [(hs k).2.2.2.2.2, hw, mul_one]
        · exact (List.mem_cons.1 h).resolve_left hk
  have := key (MultiLoss.applyOffset G.loss.offset (Mglm.dot G.X (MultiLoss.applyOffset G.offset B))) (List.finRange q)
    ⟨G.loss.losses, G.loss.caseWeights.elim G.caseWeights fun w i => G.caseWeights i * w i, some 0, G.loss.buf⟩ hI.cols
    (by dsimp only; rw [hI.own]; exact hI.weights) (List.mem_finRange j)
  show Eval2F.val (CoxLoss.scaleF G.loss.coef _) = _
  rw [hI.coef, scale_one]
  exact congrArg _ this

/-- a risk set without weight: two cases, the later one of weight zero -/
example : ∀ k : Fin 2, (![1, 2] : Fin 2 → ℝ) 1 ≤ (![1, 2] : Fin 2 → ℝ) k → (![1, 0] : Fin 2 → ℝ) k = 0 := by
  intro k hk
  fin_cases k
  · norm_num at hk
  · rfl

/-! ### several classifications per case -/

/-- **C105** `mglm(X, stacked_common_loglike.huber_svm(_, successes, 1, offset=so), offset=o, case_weights=w, quadratic=quad)`, fresh or
after any history of evaluations, stands for the sum over the columns of the weighted smoothed hinge losses; for labels 0 and 1 its
gradient is `∑ᵢ wᵢ ‖xᵢ‖²`-Lipschitz.  Missing: the argument `coef` (`C105_huber_svm_coef_fails`), smoothing parameters other than 1
(`C28_huber_svm_fails`), weights of the stack itself (`C104_stack_weights_fails`). -/
theorem C105_huber_svm_partial {r : ℕ} (X : Fin n → Fin p → ℝ) (X0 : Fin n → Fin r → ℝ) (Y : Fin n → Fin q → ℝ)
    (so : Option (Fin n → Fin q → ℝ)) (o : Option (Fin p → Fin q → ℝ)) (w : Option (Fin n → ℝ))
    (hw : ∀ w', w = some w' → ∀ i, 0 ≤ w' i) (quad : Option (Quad (Fin (p * q)) ℝ)) (hq : 0 ≤ quadCoef quad) (S : Stacked n q)
    (hS : Stacked.huberSvm X0 Y 1 none 1 so = .object S) (calls : List ((Fin p → Fin q → ℝ) × Mode)) :
    ∃ g, IsLossFor (((StackedGlm.init X S o w).run calls).toLoss quad)
        (fun x => multiLoss X (fun j => .huberSvm (fun i => Y i j) 1) (fun _ => 1) (fun _ => none) 1 so o w (rows x)) g ∧
      ((∀ i j, Y i j = 0 ∨ Y i j = 1) →
        SmoothWith (fun x => multiLoss X (fun j => .huberSvm (fun i => Y i j) 1) (fun _ => 1) (fun _ => none) 1 so o w (rows x)) g
          (∑ i, (w.elim 1 fun w => w i) * ∑ k, X i k ^ 2)) := by
  rw [svm_built] at hS
  have h1 : Stacked.init (fun j => ⟨.huberSvm (fun i => Y i j) 1, 1, none, Quad.init none none none none, none⟩) 1 so none = some S := by
    cases h : Stacked.init (fun j => (⟨.huberSvm (fun i => Y i j) 1, 1, none, Quad.init none none none none, none⟩ : Loss n)) 1 so none with
    | none => rw [h] at hS; cases hS
    | some S' => rw [h] at hS; injection hS with hS; rw [hS]
  obtain ⟨g, h3, h4⟩ := C104_stacked_partial (X := X) (o := o) (w := w) (d := fun j => .huberSvm (fun i => Y i j) 1) (c := fun _ => 1)
    (lo := fun _ => none) (fun j => rfl) (fun j => svm_init _ _) h1 hw quad hq calls
  refine ⟨g, h3, fun hY => h4 (fun _ => 1) _ (fun j => ⟨rfl, fun i => hY i j, rfl⟩) fun j => ?_⟩
  rw [one_mul, one_mul, one_mul]

/-- two labels of two cases meet the hypotheses -/
example : ∃ S : Stacked 2 2, Stacked.huberSvm (fun _ (_ : Fin 1) => 0) (fun i j => if i = j then (1 : ℝ) else 0) 1 none 1 none = .object S := by
  rw [svm_built]
  unfold Stacked.init
  rw [if_neg (by norm_num), if_neg (by simp)]
  exact ⟨_, rfl⟩

/-- **C105** `stacked_common_loglike.huber_svm` ignores its argument `coef`: for all arguments the object does not depend on it, and with
one case, label 1, unit design and `coef = 2` the loss at 0 is 1/2 instead of the documented 1. -/
theorem C105_huber_svm_coef_fails :
    (∀ {r : ℕ} (X0 : Fin n → Fin r → ℝ) (Y : Fin n → Fin q → ℝ) (eps c c' : ℝ) (cw : Option (Fin n → ℝ)) (so : Option (Fin n → Fin q → ℝ)),
      Stacked.huberSvm X0 Y eps cw c so = Stacked.huberSvm X0 Y eps cw c' so) ∧
    ∃ S : Stacked 1 1, Stacked.huberSvm (fun _ (_ : Fin 1) => 1) (fun _ _ => 1) 1 none 2 none = .object S ∧
      ((StackedGlm.init (fun _ (_ : Fin 1) => 1) S none none).smoothObjective 0 .func).1 = .val (1 / 2) ∧
      multiLoss (fun _ (_ : Fin 1) => 1) (fun _ : Fin 1 => .huberSvm (fun _ : Fin 1 => 1) 1) (fun _ => 2) (fun _ => none) 1 none none none 0 = 1 := by
  refine ⟨fun X0 Y eps c c' cw so => rfl, ⟨fun _ => ⟨.huberSvm (fun _ => 1) 1, 1, none, Quad.init none none none none, none⟩, 1, none, none,
    fun _ _ => 0⟩, ?_, ?_, ?_⟩
  · rw [svm_built]
    unfold Stacked.init
    rw [if_neg (by norm_num), if_neg (by simp)]
    rfl
  · simp [StackedGlm.smoothObjective, StackedGlm.init, Stacked.smoothObjective, List.finRange_succ, Stacked.column, Loss.smoothObjective,
      Loss.cw, Loss.argAfter, Smooth.scaleR, Smooth.applyOffset, MultiLoss.applyOffset, Mglm.dot, Loss.huberSvmPair]
    norm_num
  · unfold multiLoss
    simp [caseLoss, matOr, effOffset]
    unfold smoothHinge
    norm_num

/-! ### class methods that raise -/

/-- **C105** For every input `mglm.stacked`, `stacked_common_loglike.poisson` and `.huber` raise NameError, because their bodies use
names bound neither by a parameter nor by the module, and `.logistic` raises TypeError with and without `trials`: no input makes them
return an object. -/
theorem C105_broken_fails :
    (∀ (X : Fin n → Fin p → ℝ) (l : Fin q → Loss n) cw c o so, Mglm.stacked X l cw c o so = .nameError) ∧
    (∀ (Y : Fin n → Fin q → ℝ) cw c o, Stacked.poisson Y cw c o = .nameError) ∧
    (∀ (X : Fin n → Fin p → ℝ) (Y : Fin n → Fin q → ℝ) eps cw c o, Stacked.huber X Y eps cw c o = .nameError) ∧
    (∀ (Y : Fin (n + 1) → Fin (q + 1) → ℝ) t cw c o, Stacked.logistic Y t cw c o = .typeError) := by
  refine ⟨fun X l cw c o so => ?_, fun Y cw c o => ?_, fun X Y eps cw c o => ?_, fun Y t cw c o => ?_⟩
  · simp [Mglm.stacked, PyVal.find, List.lookup, Mglm.moduleNames]
  · simp [Stacked.poisson, Stacked.logisticBody, PyVal.find, List.lookup, Mglm.moduleNames]
  · simp [Stacked.huber, PyVal.find, List.lookup, Mglm.moduleNames]
  · cases t with
    | none => simp [Stacked.logistic, Stacked.logisticBody, PyVal.find, List.lookup, Mglm.moduleNames, Stacked.comprehension, Made.exc,
        List.finRange_succ]
    | some t => simp [Stacked.logistic, Stacked.logisticBody, PyVal.find, List.lookup, Mglm.moduleNames, Stacked.comprehension, Made.exc,
        List.finRange_succ, Stacked.logisticLoss]

end Verif.Props
