import Verif.Model.MixedPath
import Verif.Props.C81_MixedKKT

/-!
# C82: the path of the mixed lasso
-/

set_option linter.unusedSectionVars false
set_option linter.unusedVariables false

namespace Verif.Props
open Verif.Model Verif.Model.MixedPath Verif.Lemmas Verif.Spec

variable {p q : ℕ}

/-! ## cached attributes -/

/-- a fresh path object -/
def freshCache : Cache p := ⟨none, none⟩

/-- **C82** If `lagrange_max` is read before `null_solution` on a fresh path, then after any further reads both properties
have their documented values: the null solution, and the dual seminorm of the gradient there. -/
theorem C82_lagrange_max_first (D : (Fin p → ℝ) → WithBot ℝ) (solveNull : WithBot ℝ → Fin p → ℝ) (accs : List Access) :
    let c := accs.foldl (Access.run D solveNull) (lagrangeMax D solveNull freshCache).2
    (nullSolution D solveNull c).1 = solveNull (D fun _ => 0) ∧
    (lagrangeMax D solveNull c).1 = D (solveNull (D fun _ => 0)) ∧
    (lagrangeMax D solveNull freshCache).1 = D (solveNull (D fun _ => 0)) := by
  have key : ∀ c : Cache p, c = ⟨some (solveNull (D fun _ => 0)), some (D (solveNull (D fun _ => 0)))⟩ →
      accs.foldl (Access.run D solveNull) c = c := by
    induction accs with
    | nil => intro c _; rfl
    | cons a l ih =>
      intro c hc
      subst hc
      rw [List.foldl_cons]
      cases a <;> exact ih _ rfl
  intro c
  have hc : c = ⟨some (solveNull (D fun _ => 0)), some (D (solveNull (D fun _ => 0)))⟩ := key _ rfl
  rw [hc]
  exact ⟨rfl, rfl, rfl⟩

/-- **C82** If `null_solution` is read first, `lagrange_max` is the dual seminorm of the gradient at the zero vector, and
stays so after any further reads. -/
theorem C82_null_first (D : (Fin p → ℝ) → WithBot ℝ) (solveNull : WithBot ℝ → Fin p → ℝ) (accs : List Access) :
    let c := accs.foldl (Access.run D solveNull) (nullSolution D solveNull freshCache).2
    (nullSolution D solveNull c).1 = solveNull (D fun _ => 0) ∧ (lagrangeMax D solveNull c).1 = D fun _ => 0 := by
  have key : ∀ c : Cache p, c = ⟨some (solveNull (D fun _ => 0)), some (D fun _ => 0)⟩ →
      accs.foldl (Access.run D solveNull) c = c := by
    induction accs with
    | nil => intro c _; rfl
    | cons a l ih =>
      intro c hc
      subst hc
      rw [List.foldl_cons]
      cases a <;> exact ih _ rfl
  intro c
  have hc : c = ⟨some (solveNull (D fun _ => 0)), some (D fun _ => 0)⟩ := key _ rfl
  rw [hc]
  exact ⟨rfl, rfl⟩

/-- **C82** The value of `lagrange_max` depends on which property is read first: an unpenalised and an l1 coefficient with
equal columns and response 3.  The null solution fits exactly, so the right value is 0; reading `null_solution` first
gives 3. -/
theorem C82_null_first_fails :
    let κ : Fin 2 → Kind 0 := ![.unpenalized, .l1]
    let grad : (Fin 2 → ℝ) → Fin 2 → ℝ := fun b _ => b 0 + b 1 - 3
    let D := fun b => MixedKKT.dualSeminorm κ (fun j => j.elim0) (grad b)
    let solveNull : WithBot ℝ → Fin 2 → ℝ := fun _ => ![3, 0]
    (∀ i, κ i = .unpenalized → grad (solveNull 0) i = 0) ∧ solveNull 0 ∈ mixedNull κ ∧
    (lagrangeMax D solveNull freshCache).1 = ((0 : ℝ) : WithBot ℝ) ∧
    (lagrangeMax D solveNull (nullSolution D solveNull freshCache).2).1 = ((3 : ℝ) : WithBot ℝ) := by
  have e : ∀ x : Fin 2 → ℝ, MixedKKT.dualSeminorm (![.unpenalized, .l1] : Fin 2 → Kind 0) (fun j => j.elim0) x =
      ((|x 1| : ℝ) : WithBot ℝ) := by
    intro x
    unfold MixedKKT.dualSeminorm
    simp [List.finRange_succ]
  refine ⟨fun i _ => by simp, ⟨fun i hi => by fin_cases i <;> norm_num, fun i => by fin_cases i <;> simp⟩, ?_, ?_⟩
  · simp [lagrangeMax, nullSolution, lagrangeMaxAt, freshCache, e]
  · simp [lagrangeMax, nullSolution, lagrangeMaxAt, freshCache, e]

/-! ## the elastic net -/

/-- **C82** Reading `elastic_net` changes it: after `k` reads at lagrange parameter `lam` the coefficients carry the factor
`lam ^ k` instead of `lam`, so two calls of `grad` at the same point differ (here `lam = 2`). -/
theorem C82_enet_fails : (∀ (e : Enet) (lam : ℝ) (k : ℕ),
      (fun e => Enet.access e lam)^[k] e = ⟨e.coef * lam ^ k, e.lin * lam ^ k⟩) ∧
    ∃ (D : Data 1 0) (e : Enet) (b : Fin 1 → ℝ),
      D.fullGrad (e.access 2) b 0 = 2 ∧ D.fullGrad ((e.access 2).access 2) b 0 = 4 := by
  refine ⟨fun e lam k => ?_, ⟨fun _ _ => 0, fun _ => .l1, fun j => j.elim0⟩, ⟨1, 0⟩, fun _ => 1, ?_, ?_⟩
  · induction k with
    | zero => simp
    | succ k ih => rw [Function.iterate_succ_apply', ih]; simp [Enet.access, pow_succ, mul_assoc]
  · simp [Data.fullGrad, Enet.access]
  · simp [Data.fullGrad, Enet.access]; norm_num

/-! ## the loop -/

private lemma tries_inv (D : Data p q) (solve : Solver p) (lamCur lamNew : ℝ) (Inv : State p → Prop)
    (hatt : ∀ s, Inv s → Inv (D.attempt solve lamCur lamNew s).1)
    (href : ∀ s g, Inv s → Inv { s with enet := s.enet.access lamNew, gradSol := g }) :
    ∀ fuel s, Inv s → Inv (D.tries solve lamCur lamNew fuel s).1 ∧
      ((D.tries solve lamCur lamNew fuel s).2 = .converged →
        ∃ s0, Inv s0 ∧ D.attempt solve lamCur lamNew s0 = ((D.tries solve lamCur lamNew fuel s).1, true)) := by
  intro fuel
  induction fuel with
  | zero => intro s hs; exact ⟨hs, fun h => by cases h⟩
  | succ fuel ih =>
    intro s hs
    unfold Data.tries
    have h1 := hatt s hs
    rcases ha : D.attempt solve lamCur lamNew s with ⟨s', ok⟩
    rw [ha] at h1
    dsimp only
    by_cases hok : ok = true
    · rw [if_pos hok]
      exact ⟨h1, fun _ => ⟨s, hs, by rw [ha, hok]⟩⟩
    · rw [if_neg hok]
      by_cases hf : fuel % 5 = 0
      · rw [if_pos hf]
        exact ih _ (href _ _ h1)
      · rw [if_neg hf]
        exact ih _ h1

/-- the cases of one pass -/
private lemma attempt_cases (D : Data p q) (solve : Solver p) (lamCur lamNew : ℝ) (s : State p) :
    let S : Fin p → Bool := fun i => s.everActive i || s.allFailing i
    let r := D.attempt solve lamCur lamNew s
    r.1.sol = (fun i => if S i then solve s.calls s.sol S lamNew i else 0) ∧ r.1.calls = s.calls + 1 ∧
    (∀ i, s.everActive i = true → r.1.everActive i = true) ∧
    (r.1.enet = s.enet.access lamNew ∨ r.1.enet = (s.enet.access lamNew).access lamNew) ∧
    (r.2 = true → (∀ i, MixedKKT.checkKKT D.kind D.w (D.fullGrad ((s.enet.access lamNew).access lamNew) r.1.sol) r.1.sol
        lamNew (1 / 100) i = false) ∧ ∀ i, r.1.sol i ≠ 0 → r.1.everActive i = true) := by
  intro S r
  simp only [r]
  unfold Data.attempt
  dsimp only
  split_ifs with h1 h2
  · exact ⟨rfl, rfl, fun i hi => hi, .inl rfl, fun h => by cases h⟩
  · exact ⟨rfl, rfl, fun i hi => by simp [hi], .inr rfl, fun h => by cases h⟩
  · refine ⟨rfl, rfl, fun i hi => by simp [hi], .inr rfl, fun _ => ⟨fun i => ?_, fun i hi => ?_⟩⟩
    · by_contra hc
      exact h2 ⟨i, by simpa using hc⟩
    · have hi' := hi
      dsimp only at hi' ⊢
      rw [decide_eq_true hi', Bool.or_true]

/-- **C82** `main` appends one solution per lagrange parameter after the first, in the order of the sequence. -/
theorem C82_one_per_lagrange (D : Data p q) (solve : Solver p) (null : Fin p → ℝ) (enet : Enet) (lamProblem lam0 : ℝ)
    (seq : List ℝ) : ((D.main solve null enet lamProblem lam0 seq).1.map Entry.lagrange) = seq := by
  unfold Data.main
  generalize D.start null enet lamProblem = s
  induction seq generalizing lam0 s with
  | nil => rfl
  | cons l rest ih =>
    unfold Data.loop
    simp only [List.map_cons]
    rw [ih]

/-- **C82** At most ten subproblems are solved per lagrange parameter, and exactly ten before the warning. -/
theorem C82_bounded_work (D : Data p q) (solve : Solver p) (null : Fin p → ℝ) (enet : Enet) (lamProblem lam0 : ℝ)
    (seq : List ℝ) :
    (D.main solve null enet lamProblem lam0 seq).2.calls ≤ 10 * seq.length ∧
    ((∀ e ∈ (D.main solve null enet lamProblem lam0 seq).1, e.exit = .warned) →
      (D.main solve null enet lamProblem lam0 seq).2.calls = 10 * seq.length) := by
  have htries : ∀ lamCur lamNew fuel (s : State p), (D.tries solve lamCur lamNew fuel s).1.calls ≤ s.calls + fuel ∧
      ((D.tries solve lamCur lamNew fuel s).2 = .warned → (D.tries solve lamCur lamNew fuel s).1.calls = s.calls + fuel) := by
    intro lamCur lamNew fuel
    induction fuel with
    | zero => intro s; exact ⟨le_rfl, fun _ => rfl⟩
    | succ fuel ih =>
      intro s
      have hc := (attempt_cases D solve lamCur lamNew s).2.1
      unfold Data.tries
      rcases ha : D.attempt solve lamCur lamNew s with ⟨s', ok⟩
      rw [ha] at hc
      dsimp only at hc ⊢
      by_cases hok : ok = true
      · rw [if_pos hok]
        exact ⟨by dsimp only; omega, fun h => by cases h⟩
      · rw [if_neg hok]
        by_cases hf : fuel % 5 = 0
        · rw [if_pos hf]
          obtain ⟨h1, h2⟩ := ih { s' with enet := s'.enet.access lamNew, gradSol := D.fullGrad (s'.enet.access lamNew) s'.sol }
          dsimp only at h1 h2
          exact ⟨by omega, fun h => by rw [h2 h]; omega⟩
        · rw [if_neg hf]
          obtain ⟨h1, h2⟩ := ih s'
          exact ⟨by omega, fun h => by rw [h2 h]; omega⟩
  have hloop : ∀ seq lam0 (s : State p), (D.loop solve lam0 seq s).2.calls ≤ s.calls + 10 * seq.length ∧
      ((∀ e ∈ (D.loop solve lam0 seq s).1, e.exit = .warned) →
        (D.loop solve lam0 seq s).2.calls = s.calls + 10 * seq.length) := by
    intro seq
    induction seq with
    | nil => intro lam0 s; exact ⟨le_rfl, fun _ => rfl⟩
    | cons l rest ih =>
      intro lam0 s
      unfold Data.loop
      obtain ⟨h1, h2⟩ := htries lam0 l 10 s
      rcases ht : D.tries solve lam0 l 10 s with ⟨s', ex⟩
      rw [ht] at h1 h2
      obtain ⟨h3, h4⟩ := ih l s'
      dsimp only at h1 h2 ⊢
      rw [List.length_cons]
      refine ⟨by omega, fun h => ?_⟩
      have h5 := h2 (h _ (List.mem_cons_self ..))
      have h6 := h4 fun e he => h e (List.mem_cons_of_mem _ he)
      omega
  have := hloop seq lam0 (D.start null enet lamProblem)
  have h0 : (D.start null enet lamProblem).calls = 0 := rfl
  rw [h0, zero_add] at this
  exact this

/-- every entry comes from a pass in a state satisfying an invariant of the run -/
private lemma loop_inv (D : Data p q) (solve : Solver p) (Inv : State p → Prop)
    (hatt : ∀ lamCur lamNew s, Inv s → Inv (D.attempt solve lamCur lamNew s).1)
    (href : ∀ lamNew s g, Inv s → Inv { s with enet := s.enet.access lamNew, gradSol := g }) :
    ∀ seq lam0 s, Inv s → Inv (D.loop solve lam0 seq s).2 ∧ ∀ e ∈ (D.loop solve lam0 seq s).1, e.exit = .converged →
      ∃ lamCur s0, Inv s0 ∧ (D.attempt solve lamCur e.lagrange s0).2 = true ∧
        (D.attempt solve lamCur e.lagrange s0).1.sol = e.sol := by
  intro seq
  induction seq with
  | nil => intro lam0 s hs; exact ⟨hs, fun e he => by cases he⟩
  | cons l rest ih =>
    intro lam0 s hs
    unfold Data.loop
    obtain ⟨h1, h2⟩ := tries_inv D solve lam0 l Inv (hatt lam0 l) (href l) 10 s hs
    rcases ht : D.tries solve lam0 l 10 s with ⟨s', ex⟩
    rw [ht] at h1 h2
    obtain ⟨h3, h4⟩ := ih l s' h1
    dsimp only at h1 h2 ⊢
    refine ⟨h3, fun e he hex => ?_⟩
    rcases List.mem_cons.1 he with he | he
    · subst he
      obtain ⟨s0, hi, ha⟩ := h2 hex
      exact ⟨lam0, s0, hi, by rw [ha], by rw [ha]⟩
    · exact h4 e he hex

/-- **C82** Every solution appended without the warning passes the optimality check on all coefficients at its lagrange
parameter, with the gradient of the loss at that solution.  (Partial: without elastic net, which the program rescales at
every read, see `C82_enet_fails`.) -/
theorem C82_accepted_partial (D : Data p q) (solve : Solver p) (null : Fin p → ℝ) (lamProblem lam0 : ℝ) (seq : List ℝ) :
    ∀ e ∈ (D.main solve null ⟨0, 0⟩ lamProblem lam0 seq).1, e.exit = .converged →
      ∀ i, MixedKKT.checkKKT D.kind D.w (D.grad e.sol) e.sol e.lagrange (1 / 100) i = false := by
  intro e he hex i
  have hz : ∀ lam : ℝ, Enet.access ⟨0, 0⟩ lam = ⟨0, 0⟩ := fun lam => by simp [Enet.access]
  obtain ⟨-, h⟩ := loop_inv D solve (fun s => s.enet = ⟨0, 0⟩)
    (fun lamCur lamNew s hs => by
      rcases (attempt_cases D solve lamCur lamNew s).2.2.2.1 with h | h <;> rw [h, hs] <;> simp only [hz])
    (fun lamNew s g hs => by dsimp only; rw [hs, hz]) seq lam0 (D.start null ⟨0, 0⟩ lamProblem) (hz lamProblem)
  obtain ⟨lamCur, s0, hi, h1, h2⟩ := h e he hex
  have h3 := ((attempt_cases D solve lamCur e.lagrange s0).2.2.2.2 h1).1 i
  rw [h2, hi, hz, hz] at h3
  have hg : D.fullGrad ⟨0, 0⟩ e.sol = D.grad e.sol := by
    funext k; simp [Data.fullGrad]
  rwa [hg] at h3

/-- **C82** The active set only grows: at the end it contains the coefficients that are never penalised and the support of
every solution appended without the warning. -/
theorem C82_ever_active (D : Data p q) (solve : Solver p) (null : Fin p → ℝ) (enet : Enet) (lamProblem lam0 : ℝ)
    (seq : List ℝ) :
    (∀ i, D.kind i = .unpenalized ∨ D.kind i = .nonnegative →
      (D.main solve null enet lamProblem lam0 seq).2.everActive i = true) ∧
    ∀ e ∈ (D.main solve null enet lamProblem lam0 seq).1, e.exit = .converged → ∀ i, e.sol i ≠ 0 →
      (D.main solve null enet lamProblem lam0 seq).2.everActive i = true := by
  have hmono : ∀ i seq lam0 (s : State p), s.everActive i = true → (D.loop solve lam0 seq s).2.everActive i = true :=
    fun i seq lam0 s hs => (loop_inv D solve (fun s => s.everActive i = true)
      (fun lamCur lamNew s h => (attempt_cases D solve lamCur lamNew s).2.2.1 i h) (fun lamNew s g h => h) seq lam0 s hs).1
  refine ⟨fun i hi => hmono i seq lam0 _ (by simp only [Data.start, Data.initialActive]; simpa using hi), ?_⟩
  unfold Data.main
  generalize D.start null enet lamProblem = s
  induction seq generalizing lam0 s with
  | nil => intro e he; cases he
  | cons l rest ih =>
    intro e he hex i hi
    unfold Data.loop at he ⊢
    obtain ⟨-, h2⟩ := tries_inv D solve lam0 l (fun _ => True) (fun _ _ => trivial) (fun _ _ _ => trivial) 10 s trivial
    rcases ht : D.tries solve lam0 l 10 s with ⟨s', ex⟩
    rw [ht] at h2 he
    dsimp only at h2 he ⊢
    rcases List.mem_cons.1 he with he | he
    · subst he
      obtain ⟨s0, -, ha⟩ := h2 hex
      have := (attempt_cases D solve lam0 l s0).2.2.2.2
      rw [ha] at this
      exact hmono i rest l s' ((this rfl).2 i hi)
    · exact ih l s' e he hex i hi

/-- **C82** What a rejected pass adds.  If the check on the strong set fails, the next pass solves on the same candidates and
every coefficient that failed.  If only the check on all coefficients fails, every coefficient that failed it is active from then
on: after any number of further passes and to the end of any path. -/
theorem C82_failing_kept (D : Data p q) (solve : Solver p) (lamCur lamNew : ℝ) (s : State p) :
    let r := D.attempt solve lamCur lamNew s
    let strong := MixedKKT.strongSet D.kind D.w s.gradSol lamCur lamNew 1
    let e := s.enet.access lamNew
    let cand := fun (s : State p) i => s.everActive i = true ∨ s.allFailing i = true
    r.2 = false →
    ((∃ i, D.strongFailing e strong r.1.sol lamNew i = true) ∧
      ∀ i, cand s i ∨ D.strongFailing e strong r.1.sol lamNew i = true → cand r.1 i) ∨
    ((∃ i, MixedKKT.checkKKT D.kind D.w (D.fullGrad (e.access lamNew) r.1.sol) r.1.sol lamNew (1 / 100) i = true) ∧
      ∀ i, MixedKKT.checkKKT D.kind D.w (D.fullGrad (e.access lamNew) r.1.sol) r.1.sol lamNew (1 / 100) i = true →
        (∀ lc ln fuel, (D.tries solve lc ln fuel r.1).1.everActive i = true) ∧
        ∀ lc seq, (D.loop solve lc seq r.1).2.everActive i = true) := by
  intro r strong e cand
  have hmono : ∀ i seq lam0 (s : State p), s.everActive i = true → (D.loop solve lam0 seq s).2.everActive i = true :=
    fun i seq lam0 s hs => (loop_inv D solve (fun s => s.everActive i = true)
      (fun lamCur lamNew s h => (attempt_cases D solve lamCur lamNew s).2.2.1 i h) (fun lamNew s g h => h) seq lam0 s hs).1
  have hmono' : ∀ i lc ln fuel (s : State p), s.everActive i = true → (D.tries solve lc ln fuel s).1.everActive i = true :=
    fun i lc ln fuel s hs => (tries_inv D solve lc ln (fun s => s.everActive i = true)
      (fun s h => (attempt_cases D solve lc ln s).2.2.1 i h) (fun s g h => h) fuel s hs).1
  have key : r.2 = false →
    ((∃ i, D.strongFailing e strong r.1.sol lamNew i = true) ∧
      ∀ i, cand s i ∨ D.strongFailing e strong r.1.sol lamNew i = true → cand r.1 i) ∨
    ((∃ i, MixedKKT.checkKKT D.kind D.w (D.fullGrad (e.access lamNew) r.1.sol) r.1.sol lamNew (1 / 100) i = true) ∧
      ∀ i, MixedKKT.checkKKT D.kind D.w (D.fullGrad (e.access lamNew) r.1.sol) r.1.sol lamNew (1 / 100) i = true →
        r.1.everActive i = true) := by
    simp only [r, strong, e, cand]
    unfold Data.attempt
    dsimp only
    split_ifs with h1 h2
    · refine fun _ => .inl ⟨h1, fun i hi => ?_⟩
      rcases hi with (hi | hi) | hi
      · exact .inl hi
      · exact .inr (by dsimp only; rw [hi]; rfl)
      · exact .inr ((congrArg (s.allFailing i || ·) hi).trans (Bool.or_true _))
    · exact fun _ => .inr ⟨h2, fun i hi => (congrArg (s.everActive i || ·) hi).trans (Bool.or_true _)⟩
    · exact fun h => by cases h
  intro hr
  rcases key hr with h | ⟨h1, h2⟩
  · exact .inl h
  · exact .inr ⟨h1, fun i hi => ⟨fun lc ln fuel => hmono' i lc ln fuel _ (h2 i hi), fun lc seq => hmono i seq lc _ (h2 i hi)⟩⟩

/-- `solve` returns, for every candidate set and every positive lagrange parameter, a minimiser of the objective over the
feasible vectors that vanish outside the candidate set. -/
def ExactMixedSolver (f : (Fin p → ℝ) → ℝ) (D : Data p q) (solve : Solver p) : Prop :=
  ∀ (n : ℕ) (warm : Fin p → ℝ) (S : Fin p → Bool) (lam : ℝ), 0 < lam →
    Minimises (mixedObjective f D.kind D.w lam) {z | z ∈ mixedDomain D.kind ∧ ∀ i, S i = false → z i = 0}
      (fun i => if S i then solve n warm S lam i else 0)

/-- **C82** With an exact subproblem solver and a convex loss, a solution appended without the warning is optimal up to one
hundredth of the penalty of the competitor: no side condition on unpenalised coefficients or group directions is needed,
because the subproblem contains them.  (Partial: without elastic net; the weights of a group do not depend on the candidate
set, as for explicitly given weights.) -/
theorem C82_exact_partial {f : (Fin p → ℝ) → ℝ} (D : Data p q) (hf : ConvexWithGradient f D.grad) (hw : ∀ j, 0 ≤ D.w j)
    (solve : Solver p) (hsolve : ExactMixedSolver f D solve) (null : Fin p → ℝ) (lamProblem lam0 : ℝ) (seq : List ℝ)
    (hseq : ∀ l ∈ seq, 0 < l) :
    ∀ e ∈ (D.main solve null ⟨0, 0⟩ lamProblem lam0 seq).1, e.exit = .converged →
      e.sol ∈ mixedDomain D.kind ∧ ∀ z ∈ mixedDomain D.kind, mixedObjective f D.kind D.w e.lagrange e.sol ≤
        mixedObjective f D.kind D.w e.lagrange z + 1 / 100 * (e.lagrange * mixedPenalty D.kind D.w z) := by
  intro e he hex
  have hl : 0 < e.lagrange := by
    apply hseq
    have := C82_one_per_lagrange D solve null ⟨0, 0⟩ lamProblem lam0 seq
    rw [← this]
    exact List.mem_map_of_mem he
  have hchk := C82_accepted_partial D solve null lamProblem lam0 seq e he hex
  obtain ⟨-, h⟩ := loop_inv D solve (fun s => ∀ i, D.kind i = .unpenalized ∨ D.kind i = .nonnegative → s.everActive i = true)
    (fun lamCur lamNew s hs i hi => (attempt_cases D solve lamCur lamNew s).2.2.1 i (hs i hi))
    (fun lamNew s g hs => hs) seq lam0 (D.start null ⟨0, 0⟩ lamProblem)
    (fun i hi => by simp only [Data.start, Data.initialActive]; simpa using hi)
  obtain ⟨lamCur, s0, hi, h1, h2⟩ := h e he hex
  have hsol := (attempt_cases D solve lamCur e.lagrange s0).1
  rw [h2] at hsol
  dsimp only at hsol
  set S : Fin p → Bool := fun i => s0.everActive i || s0.allFailing i with hS
  have hmin := hsolve s0.calls s0.sol S e.lagrange hl
  rw [← hsol] at hmin
  set b := e.sol with hb
  set lam := e.lagrange with hlam
  set κ := D.kind with hκ
  set w := D.w with hwd
  refine ⟨hmin.1.1, fun z hz => ?_⟩
  -- `z` on the coordinates that are never penalised
  set z' : Fin p → ℝ := fun i => if κ i = .unpenalized ∨ κ i = .nonnegative then z i else 0 with hz'
  have hz'S : z' ∈ {z | z ∈ mixedDomain κ ∧ ∀ i, S i = false → z i = 0} := by
    refine ⟨fun i hi => ?_, fun i hiS => ?_⟩
    · rw [hz']; dsimp only; split_ifs
      · exact hz i hi
      · exact le_rfl
    · rw [hz']; dsimp only
      rw [if_neg]
      intro hk
      have := hi i hk
      simp [hS, this] at hiS
  have hvi := mixed_vi hw hl.le (hf.gradient b) (S := {z | z ∈ mixedDomain κ ∧ ∀ i, S i = false → z i = 0})
    (fun z hz => hz.1)
    (fun x hx y hy a c ha hc hac => ⟨mixedDomain_comb κ x hx.1 y hy.1 a c ha hc hac, fun i hi => by
      dsimp only; rw [hx.2 i hi, hy.2 i hi]; ring⟩) hmin hz'S
  have hpen0 : mixedPenalty κ w z' = 0 := by
    rw [mixedPenalty_eq]
    have h3 : ∀ j, rk κ j z' = fun _ => 0 := by
      intro j; funext i; unfold rk; rw [hz']; dsimp only
      by_cases hk : κ i = .group j
      · rw [if_pos hk, if_neg (by rw [hk]; simp)]
      · rw [if_neg hk]
    simp only [h3, npNorm_zero, mul_zero, Finset.sum_const_zero, add_zero]
    refine Finset.sum_eq_zero fun i _ => ?_
    rw [hz']; dsimp only
    rcases hk : κ i with _ | _ | _ | _ | j <;> simp [coordPen]
  have ht := tangent hf b z
  have hc := fun i => (mixed_feasible κ w (D.grad b) b hl (hchk i))
  -- the penalised part of `z`
  have hpart : -(1 + 1 / 100) * (lam * mixedPenalty κ w z) ≤ dot (D.grad b) fun i => z i - z' i := by
    unfold dot
    rw [sum_by_kind κ, mixedPenalty_eq]
    have h4 : -(1 + 1 / 100) * (lam * ∑ i, coordPen (κ i) (z i)) ≤ ∑ i, ng (κ i) (D.grad b i * (z i - z' i)) := by
      rw [Finset.mul_sum, Finset.mul_sum]
      refine Finset.sum_le_sum fun i _ => ?_
      rw [hz']; dsimp only
      obtain ⟨c1, c2, -⟩ := hc i
      rcases hk : κ i with _ | _ | _ | _ | j
      · simp [ng, coordPen]
      · simp only [ng, coordPen, reduceCtorEq, or_self, if_false, sub_zero]
        have h5 := c1 hk
        have h6 := neg_abs_le (D.grad b i * z i)
        rw [abs_mul] at h6
        have := mul_le_mul_of_nonneg_right h5 (abs_nonneg (z i))
        linarith
      · simp only [ng, coordPen, reduceCtorEq, or_self, if_false, sub_zero]
        have h5 := c2 hk
        have := mul_le_mul_of_nonneg_right h5 (hz i (.inl hk))
        linarith
      · simp [ng, coordPen]
      · simp [ng, coordPen]
    have h7 : -(1 + 1 / 100) * (lam * ∑ j, w j * npNorm (rk κ j z)) ≤
        ∑ j, ∑ i, if κ i = .group j then D.grad b i * (z i - z' i) else 0 := by
      rw [Finset.mul_sum, Finset.mul_sum]
      refine Finset.sum_le_sum fun j _ => ?_
      have e1 : ∑ i, (if κ i = .group j then D.grad b i * (z i - z' i) else 0) =
          ∑ i, rk κ j (D.grad b) i * rk κ j z i := by
        refine Finset.sum_congr rfl fun i _ => ?_
        unfold rk; rw [hz']; dsimp only
        by_cases hk : κ i = .group j
        · rw [if_pos hk, if_pos hk, if_pos hk, if_neg (by rw [hk]; simp), sub_zero]
        · rw [if_neg hk, if_neg hk, if_neg hk, mul_zero]
      rw [e1]
      by_cases hj : ∃ i, κ i = .group j
      · obtain ⟨i, hk⟩ := hj
        have := block_small (d := rk κ j z) ((hc i).2.2 j hk)
        linarith
      · have h0 : ∀ x : Fin p → ℝ, rk κ j x = fun _ => 0 := by
          intro x; funext i; unfold rk; rw [if_neg (fun h => hj ⟨i, h⟩)]
        simp [h0, npNorm_zero]
    have e2 : -(1 + 1 / 100) * (lam * (∑ i, coordPen (κ i) (z i) + ∑ j, w j * npNorm (rk κ j z))) =
      -(1 + 1 / 100) * (lam * ∑ i, coordPen (κ i) (z i)) + -(1 + 1 / 100) * (lam * ∑ j, w j * npNorm (rk κ j z)) := by ring
    rw [e2]
    linarith
  have hsum : dot (D.grad b) (fun i => z i - b i) = dot (D.grad b) (fun i => z' i - b i) + dot (D.grad b) fun i => z i - z' i := by
    unfold dot
    rw [← Finset.sum_add_distrib]
    exact Finset.sum_congr rfl fun i _ => by ring
  rw [hpen0] at hvi
  unfold mixedObjective
  linarith

/-! ## a concrete path -/

/-- one l1 coefficient and the loss `½(x - 3)²` -/
noncomputable def demoData : Data 1 0 := ⟨fun b i => b i - 3, fun _ => .l1, fun j => j.elim0⟩

/-- the exact solver of its subproblems -/
noncomputable def demoSolve : Solver 1 := fun _ _ S lam i => if S i then max (3 - lam) 0 else 0

private lemma demo_pen (x : Fin 1 → ℝ) : mixedPenalty (q := 0) (fun _ : Fin 1 => .l1) (fun j => j.elim0) x = |x 0| := by
  simp [mixedPenalty]

private lemma demo_exact : ExactMixedSolver (lsqLoss fun _ => 3) demoData demoSolve := by
  intro n warm S lam hl
  have ho : ∀ x : Fin 1 → ℝ, mixedObjective (lsqLoss fun _ => 3) demoData.kind demoData.w lam x =
      (x 0 - 3) ^ 2 / 2 + lam * |x 0| := by
    intro x
    unfold mixedObjective demoData
    rw [demo_pen]
    simp [lsqLoss]
  refine ⟨⟨fun i hi => by simp [demoData] at hi, fun i hi => by simp [hi]⟩, fun u hu => ?_⟩
  rw [ho, ho]
  by_cases hS : S 0 = true
  · simp only [hS, if_true, demoSolve]
    rcases le_total 0 (3 - lam) with h | h
    · rw [max_eq_left h, abs_of_nonneg h]
      nlinarith [le_abs_self (u 0), sq_nonneg (u 0 - (3 - lam))]
    · rw [max_eq_right h, abs_zero]
      nlinarith [le_abs_self (u 0), sq_nonneg (u 0), abs_nonneg (u 0)]
  · have hS' : S 0 = false := by simpa using hS
    have := hu.2 0 hS'
    simp only [hS', this]
    simp

private lemma demo_check (g b lam : ℝ) : MixedKKT.checkKKT demoData.kind demoData.w (fun _ => g) (fun _ => b) lam (1 / 100) 0 = false ↔
    |g| ≤ lam * (1 + 1 / 100) ∧ (b ≠ 0 → MixedKKT.slack g lam (npSign b) (1 / 100) = false) := by
  unfold MixedKKT.checkKKT MixedKKT.failing demoData
  rw [decide_eq_false_iff_not, not_lt, Nat.le_zero]
  dsimp only
  by_cases hb : b = 0
  · simp [hb, MixedKKT.bit]
  · simp [hb, MixedKKT.bit]

/-- **C82** The elastic net is part of the optimality check but not of the subproblems: for one l1 coefficient, loss
`½(x - 3)²`, elastic net `½x²` and `lagrange = 1`, an exact subproblem solver never produces an accepted solution; the path
ends with the warning and appends the solution without elastic net. -/
theorem C82_enet_subproblem_fails :
    ExactMixedSolver (lsqLoss fun _ => 3) demoData demoSolve ∧
    ((demoData.main demoSolve (fun _ => 0) ⟨1, 0⟩ 1 1 [1]).1.map Entry.exit) = [.warned] := by
  refine ⟨demo_exact, ?_⟩
  have hne : ∀ s : State 1, s.enet = ⟨1, 0⟩ → (demoData.attempt demoSolve 1 1 s).2 = false := by
    intro s hs
    by_contra hc
    have hc' : (demoData.attempt demoSolve 1 1 s).2 = true := by simpa using hc
    obtain ⟨h1, -, -, -, h5⟩ := attempt_cases demoData demoSolve 1 1 s
    have h6 := (h5 hc').1 0
    have ha : (s.enet.access 1).access 1 = ⟨1, 0⟩ := by rw [hs]; simp [Enet.access]
    rw [ha] at h6
    set x : ℝ := if (s.everActive 0 || s.allFailing 0) = true then 2 else 0 with hx
    have hsol : (demoData.attempt demoSolve 1 1 s).1.sol = fun _ => x := by
      rw [h1]
      funext i
      have hi : i = 0 := Subsingleton.elim _ _
      subst hi
      rw [hx]
      by_cases h : (s.everActive 0 || s.allFailing 0) = true
      · simp only [h, if_true, demoSolve]; norm_num
      · simp only [h]; rfl
    rw [hsol] at h6
    have hg : demoData.fullGrad ⟨1, 0⟩ (fun _ => x) = fun _ => 2 * x - 3 := by
      funext i; simp [Data.fullGrad, demoData]; ring
    rw [hg, demo_check] at h6
    by_cases h : (s.everActive 0 || s.allFailing 0) = true
    · have hx2 : x = 2 := by rw [hx, if_pos h]
      rw [hx2] at h6
      have := h6.2 (by norm_num)
      unfold MixedKKT.slack npSign at this
      norm_num at this
    · have hx0 : x = 0 := by rw [hx, if_neg h]
      rw [hx0] at h6
      have := (abs_le.1 h6.1).1
      norm_num at this
  have htr : ∀ fuel (s : State 1), s.enet = ⟨1, 0⟩ → (demoData.tries demoSolve 1 1 fuel s).2 = .warned := by
    intro fuel
    induction fuel with
    | zero => intro s _; rfl
    | succ fuel ih =>
      intro s hs
      have h1 := hne s hs
      have h2 : (demoData.attempt demoSolve 1 1 s).1.enet = ⟨1, 0⟩ := by
        rcases (attempt_cases demoData demoSolve 1 1 s).2.2.2.1 with h | h <;> rw [h, hs] <;> simp [Enet.access]
      unfold Data.tries
      rcases ha : demoData.attempt demoSolve 1 1 s with ⟨s', ok⟩
      rw [ha] at h1 h2
      dsimp only at h1 h2 ⊢
      rw [if_neg (by rw [h1]; simp)]
      by_cases hf : fuel % 5 = 0
      · rw [if_pos hf]
        exact ih _ (by dsimp only; rw [h2]; simp [Enet.access])
      · rw [if_neg hf]
        exact ih _ h2
  unfold Data.main Data.loop Data.loop
  simp only [List.map_cons, List.map_nil]
  rw [htr 10 _ (by simp [Data.start, Enet.access])]

private lemma demo_fail (x : ℝ) : (∃ i, MixedKKT.checkKKT demoData.kind demoData.w (fun _ => x - 3) (fun _ => x) 1 (1 / 100) i = true) ↔
    ¬ (|x - 3| ≤ 1 * (1 + 1 / 100) ∧ (x ≠ 0 → MixedKKT.slack (x - 3) 1 (npSign x) (1 / 100) = false)) := by
  rw [← demo_check]
  constructor
  · rintro ⟨i, hi⟩
    have : i = 0 := Subsingleton.elim _ _
    subst this
    rw [hi]; simp
  · intro h; exact ⟨0, by simpa using h⟩

/-- without elastic net the same path is accepted: the hypotheses of `C82_exact_partial` and `C82_accepted_partial` are met
by a run with a nonzero accepted solution -/
private lemma demo_run : (demoData.main demoSolve (fun _ => 0) ⟨0, 0⟩ 3 3 [1]).1 = [⟨1, fun _ => 2, .converged⟩] := by
  have hz : ∀ lam : ℝ, Enet.access ⟨0, 0⟩ lam = ⟨0, 0⟩ := fun lam => by simp [Enet.access]
  have hstrong : (MixedKKT.strongSet demoData.kind demoData.w (fun _ => -3) 3 1 1 : Fin 1 → Bool) = fun _ => true := by
    funext i
    simp only [MixedKKT.strongSet, demoData]
    norm_num
  have hsf : ∀ x : ℝ, demoData.strongFailing ⟨0, 0⟩ (fun _ => true) (fun _ => x) 1 =
      MixedKKT.checkKKT demoData.kind demoData.w (fun _ => x - 3) (fun _ => x) 1 (1 / 100) := by
    intro x
    funext i
    simp [Data.strongFailing, demoData]
  have hfg : ∀ x : ℝ, demoData.fullGrad ⟨0, 0⟩ (fun _ => x) = fun _ => x - 3 := by
    intro x; funext i; simp [Data.fullGrad, demoData]
  have h0 : ∃ i, MixedKKT.checkKKT demoData.kind demoData.w (fun _ => (0:ℝ) - 3) (fun _ => 0) 1 (1 / 100) i = true := by
    rw [demo_fail]
    rintro ⟨h, -⟩
    have := (abs_le.1 h).1
    norm_num at this
  have h2 : ¬ ∃ i, MixedKKT.checkKKT demoData.kind demoData.w (fun _ => (2:ℝ) - 3) (fun _ => 2) 1 (1 / 100) i = true := by
    rw [demo_fail, not_not]
    refine ⟨by rw [abs_le]; norm_num, fun _ => ?_⟩
    unfold MixedKKT.slack npSign
    norm_num
  have hst : demoData.start (fun _ => 0) ⟨0, 0⟩ 3 = ⟨fun _ => 0, fun _ => -3, fun _ => false, fun _ => false, ⟨0, 0⟩, 0⟩ := by
    unfold Data.start
    simp only [hz, hfg]
    congr 1
    funext i; norm_num
  have ha1 : demoData.attempt demoSolve 3 1 ⟨fun _ => 0, fun _ => -3, fun _ => false, fun _ => false, ⟨0, 0⟩, 0⟩ =
      (⟨fun _ => 0, fun _ => -3, MixedKKT.checkKKT demoData.kind demoData.w (fun _ => (0:ℝ) - 3) (fun _ => 0) 1 (1 / 100),
        fun _ => false, ⟨0, 0⟩, 1⟩, false) := by
    unfold Data.attempt
    simp only [hstrong, hz, Bool.or_self, Bool.false_eq_true, if_false, hsf]
    rw [if_pos h0]
    simp
  have hb : MixedKKT.checkKKT demoData.kind demoData.w (fun _ => (0:ℝ) - 3) (fun _ => 0) 1 (1 / 100) = fun _ => true := by
    funext i
    obtain ⟨k, hk⟩ := h0
    rw [← hk]; congr 1; exact Subsingleton.elim _ _
  have ha2 : demoData.attempt demoSolve 3 1 ⟨fun _ => 0, fun _ => -3, fun _ => true, fun _ => false, ⟨0, 0⟩, 1⟩ =
      (⟨fun _ => 2, fun _ => 2 - 3, MixedKKT.checkKKT demoData.kind demoData.w (fun _ => (2:ℝ) - 3) (fun _ => 2) 1 (1 / 100),
        fun _ => true, ⟨0, 0⟩, 2⟩, true) := by
    unfold Data.attempt
    simp only [hstrong, hz, Bool.or_true, Bool.false_or, if_true]
    have hs' : (fun i : Fin 1 => demoSolve 1 (fun _ => 0) (fun _ => true) 1 i) = fun _ => (2:ℝ) := by
      funext i; simp [demoSolve]; norm_num
    simp only [hs', hsf, hfg]
    rw [if_neg h2, if_neg h2]
    simp
  unfold Data.main Data.loop Data.loop
  rw [hst]
  have ht : demoData.tries demoSolve 3 1 10 ⟨fun _ => 0, fun _ => -3, fun _ => false, fun _ => false, ⟨0, 0⟩, 0⟩ =
      (⟨fun _ => 2, fun _ => 2 - 3, MixedKKT.checkKKT demoData.kind demoData.w (fun _ => (2:ℝ) - 3) (fun _ => 2) 1 (1 / 100),
        fun _ => true, ⟨0, 0⟩, 2⟩, .converged) := by
    rw [Data.tries, ha1, hb]
    simp only [Bool.false_eq_true, if_false]
    rw [if_neg (by decide), Data.tries, ha2]
    simp
  rw [ht]

/-- the hypothesis of `C82_failing_kept` is met by the first pass of that run -/
example : (demoData.attempt demoSolve 3 1 ⟨fun _ => 0, fun _ => -3, fun _ => false, fun _ => false, ⟨0, 0⟩, 0⟩).2 = false := by
  have hz : ∀ lam : ℝ, Enet.access ⟨0, 0⟩ lam = ⟨0, 0⟩ := fun lam => by simp [Enet.access]
  have hstrong : (MixedKKT.strongSet demoData.kind demoData.w (fun _ => -3) 3 1 1 : Fin 1 → Bool) = fun _ => true := by
    funext i
    simp only [MixedKKT.strongSet, demoData]
    norm_num
  have hsf : ∀ x : ℝ, demoData.strongFailing ⟨0, 0⟩ (fun _ => true) (fun _ => x) 1 =
      MixedKKT.checkKKT demoData.kind demoData.w (fun _ => x - 3) (fun _ => x) 1 (1 / 100) := by
    intro x
    funext i
    simp [Data.strongFailing, demoData]
  have h0 : ∃ i, MixedKKT.checkKKT demoData.kind demoData.w (fun _ => (0:ℝ) - 3) (fun _ => 0) 1 (1 / 100) i = true := by
    rw [demo_fail]
    rintro ⟨h, -⟩
    have := (abs_le.1 h).1
    norm_num at this
  unfold Data.attempt
  simp only [hstrong, hz, Bool.or_self, Bool.false_eq_true, if_false, hsf]
  rw [if_pos h0]

/-- The hypotheses of `C82_exact_partial` are met by a run with a nonzero accepted solution. -/
example : ConvexWithGradient (lsqLoss fun _ => 3) demoData.grad ∧ ExactMixedSolver (lsqLoss fun _ => 3) demoData demoSolve ∧
    ∃ e ∈ (demoData.main demoSolve (fun _ => 0) ⟨0, 0⟩ 3 3 [1]).1, e.exit = .converged ∧ e.sol 0 ≠ 0 :=
  ⟨lsqLoss_convex _, demo_exact, ⟨1, fun _ => 2, .converged⟩, by rw [demo_run]; simp, rfl, by norm_num⟩

/-- **C82** The rows of `beta` after the first are on the scale of the normalised design: a nonzero coefficient of a column
whose scaling is not one is wrong.  The run above has such an entry. -/
theorem C82_beta_fails : (∀ (null scalings : Fin p → ℝ) (out : List (Entry p)) (k : ℕ) (e : Entry p) (i : Fin p),
      out[k]? = some e → e.sol i ≠ 0 → scalings i ≠ 0 → scalings i ≠ 1 →
      ∃ row, (betaRows null scalings out)[k + 1]? = some row ∧ row i ≠ e.sol i / scalings i) ∧
    (betaRows (fun _ => 0) (fun _ => 2) (demoData.main demoSolve (fun _ => 0) ⟨0, 0⟩ 3 3 [1]).1)[1]? = some fun _ => 2 := by
  refine ⟨fun null scalings out k e i hk hi hs0 hs => ⟨e.sol, ?_, fun h => ?_⟩, ?_⟩
  · simp [betaRows, hk]
  · rw [eq_div_iff hs0] at h
    exact hs (mul_left_cancel₀ hi (by rw [h, mul_one]))
  · rw [demo_run]; rfl

/-- **C82** The first row of `beta` is the null solution on the original scale. -/
theorem C82_beta_first (null scalings : Fin p → ℝ) (out : List (Entry p)) :
    ∃ row, (betaRows null scalings out)[0]? = some row ∧ ∀ i, scalings i ≠ 0 → row i * scalings i = null i :=
  ⟨_, rfl, fun i hi => div_mul_cancel₀ _ hi⟩

/-- **C82** `df` is the number of columns for every solution after the first, whatever the solution. -/
theorem C82_df_fails (D : Data p q) (solve : Solver p) (null : Fin p → ℝ) (enet : Enet) (lamProblem lam0 : ℝ) (seq : List ℝ) :
    (dfs D (D.main solve null enet lamProblem lam0 seq).1).tail = List.replicate seq.length p := by
  have h := congrArg List.length (C82_one_per_lagrange D solve null enet lamProblem lam0 seq)
  rw [List.length_map] at h
  rw [← h]
  unfold dfs
  rw [List.tail_cons, List.map_const']

end Verif.Props
