import Verif.Props.C94_CrossValidate
import Mathlib.Data.List.GetD

/-!
# C94, continued: the scores of `cross_validate`, what a fold may depend on, and where the code differs from the claim
-/

set_option linter.unusedSectionVars false
set_option linter.unusedVariables false

namespace Verif.Props
open Verif.Model Verif.Model.LassoObj Verif.Spec Verif.Lemmas Verif.Lemmas.LassoObj

variable {p n : ℕ}

/-! ### the scores -/

private lemma columnStats_some {scores : List (List ℝ)} {mean sd : List ℝ} (h : columnStats scores = some (mean, sd)) :
    ∃ K, (∀ s ∈ scores, s.length = K) ∧ mean.length = K ∧ sd.length = K ∧ ∀ k < K,
      mean.getD k 0 = (scores.map fun s => s.getD k 0).sum / scores.length ∧
      sd.getD k 0 = Real.sqrt ((scores.map fun s => (s.getD k 0 - mean.getD k 0) ^ 2).sum / scores.length) := by
  unfold columnStats at h
  cases scores with
  | nil => cases h
  | cons r rest =>
    dsimp only at h
    split_ifs at h with hlen
    injection h with h
    injection h with h1 h2
    subst h1
    subst h2
    refine ⟨r.length, hlen, by simp, by simp, fun k hk => ?_⟩
    have hm : ∀ f : ℕ → ℝ, ((List.range r.length).map f).getD k 0 = f k := by
      intro f
      rw [List.getD_eq_getElem _ _ (by simpa using hk)]
      simp
    simp only [hm, and_self]

private lemma forall₂_of_collect {α β : Type} {l : List α} {f : α → Option β} {as : List β} (h : collect (l.map f) = some as) :
    List.Forall₂ (fun a b => f a = some b) l as := by
  have := collect_some h
  clear h
  induction l generalizing as with
  | nil =>
    cases as with
    | nil => exact List.Forall₂.nil
    | cons a as => simp at this
  | cons a l ih =>
    cases as with
    | nil => simp at this
    | cons b bs =>
      simp only [List.map_cons, List.cons.injEq] at this
      exact List.Forall₂.cons this.1 (ih this.2)

/-- **C94** what `cross_validate` returns, for every path fitter, score function and list of folds: if it does not raise there is,
for each fold, the list of coefficient rows its fit on the training cases returned, all of one length `K`; the two returned arrays
have length `K`, and entry `k` of them is the mean and the (population) standard deviation, over the folds, of the score of row `k`
on the held-out cases of the fold: linear predictors `X[test] β_k` against `y[test]`. -/
theorem C94_scores (solve : SubSolver p) (fit : Fitter p n) (P : Obj p n) (seq : List ℝ)
    (initial : Option ((Fin p → ℝ) × (Fin p → ℝ))) (score : Score n) (folds : List ((Fin n → Bool) × (Fin n → Bool)))
    (mean sd : List ℝ) (h : crossValidate solve fit P seq initial score folds = some (mean, sd)) :
    ∃ (fits : List (List (Fin p → ℝ))) (K : ℕ),
      List.Forall₂ (fun f b => fitFold solve fit P seq (initial.getD (P.solution, P.grad)) f.1 = some b) folds fits ∧
      (∀ b ∈ fits, b.length = K) ∧ mean.length = K ∧ sd.length = K ∧ ∀ k < K,
        mean.getD k 0 = ((folds.zip fits).map fun r =>
          heldOutScore P.design.X (response P.loss) score r.1.2 (r.2.getD k 0)).sum / folds.length ∧
        0 ≤ sd.getD k 0 ∧ sd.getD k 0 ^ 2 = ((folds.zip fits).map fun r =>
          (heldOutScore P.design.X (response P.loss) score r.1.2 (r.2.getD k 0) - mean.getD k 0) ^ 2).sum / folds.length := by
  unfold crossValidate at h
  dsimp only at h
  cases hc : collect (folds.map fun f => fitFold solve fit P seq (initial.getD (P.solution, P.grad)) f.1) with
  | none => rw [hc] at h; cases h
  | some fits =>
    rw [hc] at h
    dsimp only at h
    have hF := forall₂_of_collect hc
    have hlen : folds.length = fits.length := hF.length_eq
    obtain ⟨K, h1, h2, h3, h4⟩ := columnStats_some h
    have hK : ∀ r ∈ folds.zip fits, r.2.length = K := by
      intro r hr
      have := h1 _ (List.mem_map_of_mem hr)
      simpa [linpredRows] using this
    have hb : ∀ b ∈ fits, b.length = K := by
      intro b hb
      obtain ⟨i, hi, rfl⟩ := List.getElem_of_mem hb
      refine hK (folds[i]'(by omega), fits[i]) ?_
      rw [List.mem_iff_getElem]
      exact ⟨i, by simp; omega, by simp⟩
    have hentry : ∀ k < K, ∀ r ∈ folds.zip fits,
        ((linpredRows P.design r.2 (Finset.univ.filter fun i => r.1.2 i = true)).map fun x =>
          score (Finset.univ.filter fun i => r.1.2 i = true) x fun i => response P.loss i).getD k 0 =
          heldOutScore P.design.X (response P.loss) score r.1.2 (r.2.getD k 0) := by
      intro k hk r hr
      have := hK r hr
      rw [List.getD_eq_getElem _ _ (by simpa [linpredRows, this] using hk),
        List.getD_eq_getElem _ _ (by rw [this]; exact hk)]
      simp only [linpredRows, List.getElem_map]
      rfl
    refine ⟨fits, K, hF, hb, h2, h3, fun k hk => ?_⟩
    obtain ⟨m1, m2⟩ := h4 k hk
    have hl : (((folds.zip fits).map fun r =>
        (linpredRows P.design r.2 (Finset.univ.filter fun i => r.1.2 i = true)).map fun x =>
          score (Finset.univ.filter fun i => r.1.2 i = true) x fun i => response P.loss i).length) = folds.length := by
      simp [hlen]
    rw [hl, List.map_map] at m1 m2
    have e1 : mean.getD k 0 = ((folds.zip fits).map fun r =>
          heldOutScore P.design.X (response P.loss) score r.1.2 (r.2.getD k 0)).sum / folds.length := by
      rw [m1]
      congr 2
      exact List.map_congr_left fun r hr => hentry k hk r hr
    refine ⟨e1, ?_, ?_⟩
    · rw [m2]; exact Real.sqrt_nonneg _
    · rw [m2, Real.sq_sqrt]
      · congr 2
        refine List.map_congr_left fun r hr => ?_
        simp only [Function.comp_apply]
        rw [hentry k hk r hr]
      · refine div_nonneg (List.sum_nonneg ?_) (Nat.cast_nonneg _)
        intro x hx
        rw [List.mem_map] at hx
        obtain ⟨r, -, rfl⟩ := hx
        exact sq_nonneg _

/-- **C94** with the default score the held-out score is the mean squared prediction error on the held-out cases. -/
theorem C94_default_score (X : Fin n → Fin p → ℝ) (y : Fin n → ℝ) (test : Fin n → Bool) (b : Fin p → ℝ) :
    heldOutScore X y (defaultScore n) test b = meanSquaredError X y test b := by
  unfold heldOutScore defaultScore meanSquaredError
  rw [Real.sq_sqrt (Finset.sum_nonneg fun _ _ => sq_nonneg _)]
  congr 1
  exact (Finset.sum_coe_sort (Finset.univ.filter fun i => test i = true) fun i => (∑ j, X i j * b j - y i) ^ 2)

private lemma collect_of_all {α β : Type} {l : List α} {f : α → Option β} {R : α → β → Prop}
    (h : ∀ a ∈ l, ∃ b, f a = some b ∧ R a b) : ∃ bs, collect (l.map f) = some bs ∧ List.Forall₂ R l bs := by
  induction l with
  | nil => exact ⟨[], rfl, List.Forall₂.nil⟩
  | cons a l ih =>
    obtain ⟨b, hb, hR⟩ := h a List.mem_cons_self
    obtain ⟨bs, hbs, hRs⟩ := ih fun a ha => h a (List.mem_cons_of_mem _ ha)
    exact ⟨b :: bs, by simp [collect, hb, hbs], List.Forall₂.cons hR hRs⟩

private lemma cv_some {solve : SubSolver p} {fit : Fitter p n} {P : Obj p n} {seq : List ℝ}
    {initial : Option ((Fin p → ℝ) × (Fin p → ℝ))} {score : Score n} {folds : List ((Fin n → Bool) × (Fin n → Bool))}
    {fits : List (List (Fin p → ℝ))} {K : ℕ}
    (hc : collect (folds.map fun f => fitFold solve fit P seq (initial.getD (P.solution, P.grad)) f.1) = some fits)
    (hne : folds ≠ []) (hK : ∀ b ∈ fits, b.length = K) :
    ∃ mean sd, crossValidate solve fit P seq initial score folds = some (mean, sd) := by
  have hlen : folds.length = fits.length := (forall₂_of_collect hc).length_eq
  have hz : folds.zip fits ≠ [] := by
    cases folds with
    | nil => exact absurd rfl hne
    | cons f fs =>
      cases fits with
      | nil => simp at hlen
      | cons b bs => simp
  unfold crossValidate
  dsimp only
  rw [hc]
  dsimp only
  have hall : ∀ s ∈ (folds.zip fits).map (fun r => (linpredRows P.design r.2 (Finset.univ.filter fun i => r.1.2 i = true)).map fun x =>
      score (Finset.univ.filter fun i => r.1.2 i = true) x fun i => response P.loss i), s.length = K := by
    intro s hs
    rw [List.mem_map] at hs
    obtain ⟨r, hr, rfl⟩ := hs
    have := hK r.2 (List.of_mem_zip hr).2
    simpa [linpredRows] using this
  revert hall
  cases hsc : (folds.zip fits).map (fun r => (linpredRows P.design r.2 (Finset.univ.filter fun i => r.1.2 i = true)).map fun x =>
      score (Finset.univ.filter fun i => r.1.2 i = true) x fun i => response P.loss i) with
  | nil => exact absurd (List.map_eq_nil_iff.1 hsc) hz
  | cons r rest =>
    intro hall
    unfold columnStats
    dsimp only
    rw [if_pos (c := ∀ s ∈ r :: rest, s.length = r.length) fun s hs => by rw [hall s hs, hall r List.mem_cons_self]]
    exact ⟨_, _, rfl⟩

/-- **C94** cross-validation with `warm_start`, all folds: for every design without offset, every loss whose case weights survive
`subsample`, and every nonempty list of folds with training cases, if the solver is accurate and the problems of the folds have
minimisers, `cross_validate` does not raise; entry `k` of the first array it returns is the average over the folds of the mean
squared prediction error, on the held-out cases, of coefficients that are optimal up to `eps` for the elastic net problem of the
training cases at the `k`-th lagrange parameter. -/
theorem C94_cross_validate_partial (solve : SubSolver p) (ws : WarmStart.Solver (Fin p → ℝ)) {eps : ℝ} (hws : AccurateSolver ws eps)
    (step : ℝ) {L : Loss n} (hL : ReachableLoss L) (hk : WeightsKept L) {D : Design p n} (hD : D.offset = none) {w : Fin p → ℝ}
    {enet : Option (Fin p → ℝ)} {alpha : ℝ} {P : Obj p n} (hP : init solve L D w enet alpha = some P) (seq : List ℝ)
    (hseq : seq ≠ []) (initial : Option ((Fin p → ℝ) × (Fin p → ℝ))) (folds : List ((Fin n → Bool) × (Fin n → Bool)))
    (hfolds : folds ≠ []) (hne : ∀ f ∈ folds, ∃ i, f.1 i = true)
    (hex : ∀ f ∈ folds, ∀ lam ∈ seq, ∃ m, ∀ u, foldObjective L D.X f.1 w (enetOf enet) alpha lam m ≤
      foldObjective L D.X f.1 w (enetOf enet) alpha lam u) :
    ∃ mean sd fits, crossValidate solve (warmFit ws step) P seq initial (defaultScore n) folds = some (mean, sd) ∧
      mean.length = seq.length ∧ sd.length = seq.length ∧
      List.Forall₂ (fun f betas => List.Forall₂ (fun lam b => ∀ u, foldObjective L D.X f.1 w (enetOf enet) alpha lam b ≤
        foldObjective L D.X f.1 w (enetOf enet) alpha lam u + eps) seq betas) folds fits ∧
      ∀ k < seq.length, mean.getD k 0 = ((folds.zip fits).map fun r =>
        meanSquaredError D.X (response L) r.1.2 (r.2.getD k 0)).sum / folds.length := by
  obtain ⟨-, hPL, hPD, -⟩ := cvInit_eq solve hP
  obtain ⟨fits, hc, hR⟩ := collect_of_all (l := folds)
    (f := fun f => fitFold solve (warmFit ws step) P seq (initial.getD (P.solution, P.grad)) f.1)
    (R := fun f betas => List.Forall₂ (fun lam b => ∀ u, foldObjective L D.X f.1 w (enetOf enet) alpha lam b ≤
        foldObjective L D.X f.1 w (enetOf enet) alpha lam u + eps) seq betas)
    fun f hf => C94_warm_fold_partial solve ws hws step hL hk hD hP seq hseq _ f.1 (hne f hf) (hex f hf)
  have hlens : ∀ b ∈ fits, b.length = seq.length := by
    intro b hb
    obtain ⟨i, hi, rfl⟩ := List.getElem_of_mem hb
    have hi' : i < folds.length := by rw [hR.length_eq]; exact hi
    exact (hR.get hi' hi).length_eq.symm
  obtain ⟨mean, sd, hcv⟩ := cv_some (score := defaultScore n) hc hfolds hlens
  obtain ⟨fits', K, h1, h2, h3, h4, h5⟩ := C94_scores solve (warmFit ws step) P seq initial (defaultScore n) folds mean sd hcv
  have hfe : fits' = fits := by
    have h0 := forall₂_of_collect hc
    have huniq : Relator.RightUnique fun (f : (Fin n → Bool) × (Fin n → Bool)) (b : List (Fin p → ℝ)) =>
        fitFold solve (warmFit ws step) P seq (initial.getD (P.solution, P.grad)) f.1 = some b := by
      intro a b c hb hc
      rw [hb] at hc
      exact Option.some.inj hc
    exact huniq.forall₂ h1 h0
  subst hfe
  have hKs : K = seq.length := by
    cases fits' with
    | nil =>
      cases h1
      exact absurd rfl hfolds
    | cons b bs => rw [← h2 b List.mem_cons_self, hlens b List.mem_cons_self]
  refine ⟨mean, sd, fits', hcv, h3.trans hKs, h4.trans hKs, hR, fun k hk' => ?_⟩
  rw [(h5 k (by rw [hKs]; exact hk')).1]
  simp only [C94_default_score, hPL, hPD]

/-- the hypotheses on the folds are met by the folds `cross_validate` forms itself from `cv ≥ 2` and two cases or more -/
example (cv : ℕ) (hcv : 2 ≤ cv) (hn : 2 ≤ n) (shuffle : Equiv.Perm (Fin n)) :
    CrossValidate.folds id n cv shuffle ≠ [] ∧ ∀ f ∈ CrossValidate.folds id n cv shuffle, ∃ i, f.1 i = true := by
  refine ⟨?_, fun f hf => ?_⟩
  · intro h
    obtain ⟨k, -⟩ := (C42_partition id cv shuffle).1 ⟨0, by omega⟩
    rw [h] at k
    exact absurd k.2 (by simp)
  · have := C42_coef_factor cv hcv hn shuffle f hf
    by_contra hno
    push Not at hno
    unfold CrossValidate.coefFactor CrossValidate.count at this
    rw [if_pos] at this
    · cases this
    · rw [Finset.card_eq_zero, Finset.filter_eq_empty_iff]
      intro i _
      exact hno i

/-! ### a fold does not look at the held-out cases -/

/-- two data sets agree on the cases of `train` -/
def AgreeOn (train : Fin n → Bool) : LossData n → LossData n → Prop
  | .gaussian y, .gaussian y' => ∀ i, train i = true → y i = y' i
  | .poisson c, .poisson c' => ∀ i, train i = true → c i = c' i
  | .huber y e, .huber y' e' => e = e' ∧ ∀ i, train i = true → y i = y' i
  | .logistic s m, .logistic s' m' => ∀ i, train i = true → s i = s' i ∧ m i = m' i
  | .huberSvm s e, .huberSvm s' e' => e = e' ∧ ∀ i, train i = true → s i = s' i
  | _, _ => False

/-- two losses agree on the cases of `train`: responses, offsets and case weights there, and the coefficient -/
structure SameTraining (train : Fin n → Bool) (L L' : Loss n) : Prop where
  coef : L.coef = L'.coef
  data : AgreeOn train L.data L'.data
  offset : ∀ i, train i = true → effOffset L.offset i = effOffset L'.offset i
  weights : ∀ i, train i = true → (L.caseWeights.elim 1 fun w => w i) = L'.caseWeights.elim 1 fun w => w i

private lemma agree_phi {train : Fin n → Bool} {d d' : LossData n} (h : AgreeOn train d d') {i : Fin n} (hi : train i = true) (t : ℝ) :
    phi d i t = phi d' i t ∧ psi d i t = psi d' i t := by
  cases d <;> cases d' <;> simp only [AgreeOn] at h <;> simp only [phi, psi]
  · rw [h i hi]; exact ⟨rfl, rfl⟩
  · rw [h i hi]; exact ⟨rfl, rfl⟩
  · rw [h.1, h.2 i hi]; exact ⟨rfl, rfl⟩
  · rw [(h i hi).1, (h i hi).2]; exact ⟨rfl, rfl⟩
  · rw [h.1, h.2 i hi]; exact ⟨rfl, rfl⟩

private lemma agree_weights {train : Fin n → Bool} {L L' : Loss n} (h : SameTraining train L L') {i : Fin n} (hi : train i = true) :
    ((copyWeights L).elim 1 fun w => w i) = (copyWeights L').elim 1 fun w => w i := by
  have h1 := h.data
  have h2 := h.weights i hi
  unfold copyWeights
  cases hd : L.data <;> cases hd' : L'.data <;> rw [hd, hd'] at h1 <;> simp only [AgreeOn] at h1 <;> dsimp only <;>
    first | exact h2 | rfl

/-- **C94** no leakage: the coefficients fitted for a fold are a function of the training cases.  Take two paths with the same
design, weights and elastic net parameters whose losses agree on the training cases (responses, offsets, case weights) and differ
arbitrarily elsewhere; from the same initial data the fits of the fold are equal, with `strong_rules` and with `warm_start`, for
every solver. -/
theorem C94_no_leak (solve solve' : SubSolver p) (ws : WarmStart.Solver (Fin p → ℝ)) (step : ℝ) {L L' : Loss n} (hL : ReachableLoss L)
    (hL' : ReachableLoss L') {D : Design p n} {w : Fin p → ℝ} {enet : Option (Fin p → ℝ)} {alpha : ℝ} {P P' : Obj p n}
    (hP : init solve L D w enet alpha = some P) (hP' : init solve L' D w enet alpha = some P') (train : Fin n → Bool)
    (hsame : SameTraining train L L') (seq : List ℝ) (initial : (Fin p → ℝ) × (Fin p → ℝ)) :
    fitFold solve (strongFit solve') P seq initial train = fitFold solve (strongFit solve') P' seq initial train ∧
    fitFold solve (warmFit ws step) P seq initial train = fitFold solve (warmFit ws step) P' seq initial train := by
  by_cases hne : ∃ i, train i = true
  · obtain ⟨Q, -, a0, a1, a2, a3, a4, a5, a6, a7, a8⟩ := cvFold_path solve hL hP train hne
    obtain ⟨Q', -, b0, b1, b2, b3, b4, b5, b6, b7, b8⟩ := cvFold_path solve hL' hP' train hne
    have hcase : ∀ x : Fin n → ℝ, ∀ i,
        effWeight Q.loss.caseWeights none i * phi Q.loss.data i (x i - effOffset Q.loss.offset i) =
          effWeight Q'.loss.caseWeights none i * phi Q'.loss.data i (x i - effOffset Q'.loss.offset i) ∧
        effWeight Q.loss.caseWeights none i * psi Q.loss.data i (x i - effOffset Q.loss.offset i) =
          effWeight Q'.loss.caseWeights none i * psi Q'.loss.data i (x i - effOffset Q'.loss.offset i) := by
      intro x i
      rw [a8, b8, a5, b5, a6, b6]
      by_cases hi : train i = true
      · rw [agree_weights hsame hi, hsame.offset i hi, (agree_phi hsame.data hi _).1, (agree_phi hsame.data hi _).2]
        exact ⟨rfl, rfl⟩
      · simp [hi]
    have hcoef : Q.loss.coef = Q'.loss.coef := by rw [a7, b7, hsame.coef]
    have hfun : funcAt Q.loss = funcAt Q'.loss := by
      funext x
      rw [funcAt_eq, funcAt_eq, hcoef]
      congr 1
      exact Finset.sum_congr rfl fun i _ => (hcase x i).1
    have hgrad : gradAt Q.loss = gradAt Q'.loss := by
      funext x i
      rw [gradAt_eq, gradAt_eq, hcoef]
      dsimp only
      rw [(hcase x i).2]
    rw [a0, b0, a0, b0]
    exact ⟨strongFit_congr solve' seq initial hfun hgrad (a1.trans b1.symm) (a2.trans b2.symm) (a3.trans b3.symm) (a4.trans b4.symm),
      warmFit_congr ws step seq initial hfun (a1.trans b1.symm) (a2.trans b2.symm) (a3.trans b3.symm) (a4.trans b4.symm)⟩
  · have hc : CrossValidate.coefFactor train = none := by
      unfold CrossValidate.coefFactor CrossValidate.count
      rw [if_pos]
      rw [Finset.card_eq_zero, Finset.filter_eq_empty_iff]
      intro i _ hi
      exact hne ⟨i, hi⟩
    have hn : ∀ (R : Obj p n) (fit : Fitter p n), fitFold solve fit R seq initial train = none := by
      intro R fit
      unfold fitFold trainPath
      rw [hc]
      cases subsample solve R (Finset.univ.filter fun i => train i = true) <;> rfl
    simp only [hn, and_self]

end Verif.Props
