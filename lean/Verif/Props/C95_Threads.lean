import Verif.Lemmas.Threads
import Verif.Props.C94_CrossValidate

/-!
# C95: the folds of a cross-validation in concurrent threads

`cross_validate` runs `warm_start` in one thread per fold, and all threads write and read one `solve_args` dictionary.  The
statements below are about every schedule, that is, every interleaving of the threads' accesses to the dictionary.
-/

set_option linter.unusedSectionVars false
set_option linter.unusedVariables false

namespace Verif.Props
open Verif.Model Verif.Model.Threads Verif.Model.LassoObj Verif.Spec Verif.Lemmas.Threads

variable {V : Type} {m p n : ℕ}

/-! ### specification -/

/-- the keyword arguments that may reach the solver in concurrent calls: the tolerance of one of the calls, some step, and the
caller's other arguments -/
def RaceArgs (calls : Fin m → Call V) (d0 d : Dict) : Prop :=
  (∃ j, d "tol" = some (calls j).tol) ∧ (∃ x, d "start_step" = some x) ∧ ∀ k, k ≠ "tol" → k ≠ "start_step" → d k = d0 k

/-- the points of a path: entry `k` is the solver's answer, with keyword arguments satisfying `ok`, for the `k`-th problem, started
at entry `k - 1` -/
def RaceRows (P : WarmStart.WarmPath V) (solve : Solver V) (ok : Dict → Prop) : List ℝ → ℕ → V → List V → Prop
  | [], _, _, betas => betas = []
  | lam :: seq, n, start, betas => ∃ b rest d, ok d ∧ betas = b :: rest ∧
      b = (solve d n (fun v => P.loss v + P.enetLoss lam v) (fun v => lam * P.alpha * P.penalty v) start).1 ∧
      RaceRows P solve ok seq (n + 1) b rest

/-- the solver of a call that has the dictionary for itself -/
def ownSolver (solve : Solver V) (d0 : Dict) (tol : ℝ) : WarmStart.Solver V :=
  fun n f g start step => solve ((d0.set "tol" tol).set "start_step" step) n f g start

/-- the answers of the solver do not depend on the tolerance and the step -/
def StepFree (solve : Solver V) : Prop :=
  ∀ d d' : Dict, (∀ k, k ≠ "tol" → k ≠ "start_step" → d k = d' k) → ∀ n f g start, (solve d n f g start).1 = (solve d' n f g start).1

/-- thread `i` has left its loop -/
def Finished (s : State V m) (i : Fin m) : Prop := (s.threads i).remaining = []

/-! ### helpers -/

private lemma rows_snoc (P : WarmStart.WarmPath V) (solve : Solver V) (ok : Dict → Prop) {pre : List ℝ} {lam : ℝ} {n : ℕ} {start : V}
    {betas : List V} (h : RaceRows P solve ok pre n start betas) {d : Dict} (hd : ok d) :
    RaceRows P solve ok (pre ++ [lam]) n start (betas ++ [(solve d (n + pre.length) (fun v => P.loss v + P.enetLoss lam v)
      (fun v => lam * P.alpha * P.penalty v) (betas.getLastD start)).1]) := by
  induction pre generalizing n start betas with
  | nil =>
    cases h
    exact ⟨_, [], d, hd, rfl, rfl, rfl⟩
  | cons a l ih =>
    obtain ⟨b, rest, d', h1, rfl, h3, h4⟩ := h
    refine ⟨b, _, d', h1, rfl, h3, ?_⟩
    have := ih h4
    rw [List.getLastD_cons, List.length_cons, show n + (l.length + 1) = n + 1 + l.length by omega]
    exact this

private lemma thread_inv (solve : Solver V) (calls : Fin m → Call V) (d : Dict) (s : List (Fin m)) (i : Fin m) :
    ∃ pre, (calls i).seq = pre ++ ((run solve calls d s).threads i).remaining ∧
      ((run solve calls d s).threads i).calls = pre.length ∧
      ((run solve calls d s).threads i).solution = ((run solve calls d s).threads i).solutions.getLastD (calls i).initial ∧
      RaceRows (calls i).path solve (RaceArgs calls d) pre 0 (calls i).initial ((run solve calls d s).threads i).solutions := by
  induction s using List.reverseRecOn with
  | nil => exact ⟨[], rfl, rfl, rfl, rfl⟩
  | append_singleton s j ih =>
    rw [run_snoc]
    by_cases h : i = j
    · subst h
      rw [step_same]
      obtain ⟨pre, h1, h2, h3, h4⟩ := ih
      have hD := dict_run solve calls d s i
      have hO := others_run solve calls d s
      generalize hS : run solve calls d s = S at *
      rcases hrem : (S.threads i).remaining with _ | ⟨lam, rest⟩
      · have hact : (act solve (calls i) S.dict (S.threads i)).2 = S.threads i := by rw [act_nil _ _ _ hrem]
        rw [hact]
        exact ⟨pre, h1, h2, h3, h4⟩
      · cases hpc : (S.threads i).pc with
        | setTol =>
          have hact : (act solve (calls i) S.dict (S.threads i)).2 = { S.threads i with pc := .setStep } := by
            rw [act_setTol _ _ _ hrem hpc]
          rw [hact]
          exact ⟨pre, h1, h2, h3, h4⟩
        | setStep =>
          have hact : (act solve (calls i) S.dict (S.threads i)).2 = { S.threads i with pc := .solve } := by
            rw [act_setStep _ _ _ hrem hpc]
          rw [hact]
          exact ⟨pre, h1, h2, h3, h4⟩
        | solve =>
          obtain ⟨g1, g2⟩ := hD (by rw [hrem]; simp)
          have hok : RaceArgs calls d S.dict := ⟨g1 (by rw [hpc]; simp), g2 hpc, hO⟩
          have := rows_snoc (calls i).path solve (RaceArgs calls d) (lam := lam) h4 hok
          rw [Nat.zero_add, ← h2, ← h3] at this
          rw [act_solve _ _ _ hrem hpc]
          refine ⟨pre ++ [lam], ?_, ?_, ?_, this⟩
          · rw [h1, hrem]; simp
          · simp [h2]
          · simp
    · rw [step_other _ _ _ h]; exact ih

private lemma rows_mono {P : WarmStart.WarmPath V} {solve : Solver V} {ok ok' : Dict → Prop} (h : ∀ d, ok d → ok' d) {seq : List ℝ} {n : ℕ}
    {start : V} {betas : List V} (hr : RaceRows P solve ok seq n start betas) : RaceRows P solve ok' seq n start betas := by
  induction seq generalizing n start betas with
  | nil => exact hr
  | cons a l ih =>
    obtain ⟨b, rest, d, h1, h2, h3, h4⟩ := hr
    exact ⟨b, rest, d, h _ h1, h2, h3, ih h4⟩

private lemma rows_optimal {P : WarmStart.WarmPath V} {solve : Solver V} {ok : Dict → Prop} {eps : ℝ} {seq : List ℝ}
    (hs : ∀ d, ok d → ∀ lam ∈ seq, ∀ k start v,
      let b := (solve d k (fun v => P.loss v + P.enetLoss lam v) (fun v => lam * P.alpha * P.penalty v) start).1
      P.loss b + P.enetLoss lam b + lam * P.alpha * P.penalty b ≤ P.loss v + P.enetLoss lam v + lam * P.alpha * P.penalty v + eps)
    {n : ℕ} {start : V} {betas : List V} (hr : RaceRows P solve ok seq n start betas) :
    List.Forall₂ (fun lam b => ∀ v, P.loss b + P.enetLoss lam b + lam * P.alpha * P.penalty b ≤
      P.loss v + P.enetLoss lam v + lam * P.alpha * P.penalty v + eps) seq betas := by
  induction seq generalizing n start betas with
  | nil => cases hr; exact .nil
  | cons a l ih =>
    obtain ⟨b, rest, d, h1, rfl, rfl, h4⟩ := hr
    exact .cons (hs d h1 a List.mem_cons_self n start) (ih (fun d hd lam hl => hs d hd lam (List.mem_cons_of_mem _ hl)) h4)

private lemma rows_free {P : WarmStart.WarmPath V} {solve : Solver V} (hf : StepFree solve) {d0 : Dict} {ok : Dict → Prop}
    (hok : ∀ d, ok d → ∀ k, k ≠ "tol" → k ≠ "start_step" → d k = d0 k) (tol : ℝ) {seq : List ℝ} {n : ℕ} {start : V} {betas : List V} (step : ℝ)
    (hr : RaceRows P solve ok seq n start betas) :
    betas = (WarmStart.loop P (ownSolver solve d0 tol) seq n start step).1.map WarmStart.Entry.beta := by
  induction seq generalizing n start betas step with
  | nil => cases hr; rfl
  | cons a l ih =>
    obtain ⟨b, rest, d, h1, rfl, h3, h4⟩ := hr
    have hb : b = (ownSolver solve d0 tol n (fun v => P.loss v + P.enetLoss a v) (fun v => a * P.alpha * P.penalty v) start step).1 := by
      rw [h3]
      refine hf d _ (fun k k1 k2 => ?_) _ _ _ _
      rw [hok d h1 k k1 k2]
      simp [Dict.set, k1, k2]
    simp only [WarmStart.loop, List.map_cons]
    rw [← hb, ← ih _ h4]

private lemma own_dict {d0 d : Dict} (h : Others d0 d) (tol step : ℝ) :
    (d.set "tol" tol).set "start_step" step = (d0.set "tol" tol).set "start_step" step := by
  funext k
  simp only [Dict.set]
  split_ifs with h1 h2
  · rfl
  · rfl
  · exact h k h2 h1

private lemma warm_beta {P : WarmStart.WarmPath V} {ws : WarmStart.Solver V} {seq : List ℝ} (hs : seq ≠ []) {s : V} {t : ℝ} :
    (WarmStart.warmStart P ws seq s t).map WarmStart.Output.beta = some ((WarmStart.loop P ws seq 0 s t).1.map WarmStart.Entry.beta) := by
  cases seq with
  | nil => exact absurd rfl hs
  | cons a l => rfl

/-! ### theorems -/

/-- **C95** every schedule, at every moment: the rows that a thread has computed so far are those of an initial part of its own
sequence of lagrange parameters, in order; each is the solver's answer for the thread's own problem, started at the thread's own
previous row (the first at its initial solution).  Only the tolerance and the step may come from another thread: the tolerance is
the `inner_tol` of one of the calls, and all other keyword arguments are the caller's. -/
theorem C95_rows (solve : Solver V) (calls : Fin m → Call V) (d : Dict) (schedule : List (Fin m)) (i : Fin m) :
    ∃ done, (calls i).seq = done ++ ((run solve calls d schedule).threads i).remaining ∧
      RaceRows (calls i).path solve (RaceArgs calls d) done 0 (calls i).initial ((run solve calls d schedule).threads i).solutions := by
  obtain ⟨pre, h1, -, -, h4⟩ := thread_inv solve calls d schedule i
  exact ⟨pre, h1, h4⟩

/-- **C95** no schedule blocks a thread: a thread that gets three turns per lagrange parameter has finished, and a thread that has
not got them has not. -/
theorem C95_progress (solve : Solver V) (calls : Fin m → Call V) (d : Dict) (schedule : List (Fin m)) (i : Fin m) :
    Finished (run solve calls d schedule) i ↔ 3 * (calls i).seq.length ≤ schedule.count i := by
  have h := work_run solve calls d schedule i
  constructor
  · intro hf
    have : work ((run solve calls d schedule).threads i) = 0 := by unfold work; rw [hf]
    omega
  · intro hc
    exact work_zero (by omega)

/-- **C95** accuracy under every schedule: if, for the tolerance of any of the concurrent calls and for any step, the solver is
within `eps` of the optimum on the problems of thread `i`, then so is every row of thread `i` once it has finished, at its own
lagrange parameter. -/
theorem C95_optimal (solve : Solver V) (calls : Fin m → Call V) (d : Dict) (i : Fin m) {eps : ℝ}
    (hs : ∀ d', RaceArgs calls d d' → ∀ lam ∈ (calls i).seq, WarmSolverAt (calls i).path eps (fun n f g start _ => solve d' n f g start) lam)
    (schedule : List (Fin m)) (hf : Finished (run solve calls d schedule) i) :
    List.Forall₂ (fun lam b => ∀ v,
      (calls i).path.loss b + (calls i).path.enetLoss lam b + lam * (calls i).path.alpha * (calls i).path.penalty b ≤
      (calls i).path.loss v + (calls i).path.enetLoss lam v + lam * (calls i).path.alpha * (calls i).path.penalty v + eps)
      (calls i).seq ((run solve calls d schedule).threads i).solutions := by
  obtain ⟨pre, h1, -, -, h4⟩ := thread_inv solve calls d schedule i
  rw [hf, List.append_nil] at h1
  rw [← h1] at h4
  exact rows_optimal (fun d' hd lam hl k start v => hs d' hd lam hl k start 0 v) h4

/-- **C95** schedule independence: if the solver's answers do not depend on its tolerance and step, a finished thread has, under
every schedule, exactly the rows that `warm_start` returns when it runs alone. -/
theorem C95_schedule_free (solve : Solver V) (hs : StepFree solve) (calls : Fin m → Call V) (d : Dict) (i : Fin m)
    (hne : (calls i).seq ≠ []) (schedule : List (Fin m)) (hf : Finished (run solve calls d schedule) i) :
    (WarmStart.warmStart (calls i).path (ownSolver solve d (calls i).tol) (calls i).seq (calls i).initial (calls i).step).map
      WarmStart.Output.beta = some ((run solve calls d schedule).threads i).solutions := by
  obtain ⟨pre, h1, -, -, h4⟩ := thread_inv solve calls d schedule i
  rw [hf, List.append_nil] at h1
  rw [← h1] at h4
  rw [warm_beta hne, ← rows_free hs (fun d' hd => hd.2.2) (calls i).tol (calls i).step h4]

/-- the state of a thread between two iterations, when no other thread interferes -/
private def Alone (solve : Solver V) (c : Call V) (d : Dict) (t : Thread V) : Prop :=
  t.pc = .setTol ∧ t.solutions ++ (WarmStart.loop c.path (ownSolver solve d c.tol) t.remaining t.calls t.solution t.finalStep).1.map
    WarmStart.Entry.beta = (WarmStart.loop c.path (ownSolver solve d c.tol) c.seq 0 c.initial c.step).1.map WarmStart.Entry.beta

/-- **C95** schedules without interference: if every iteration of a loop is one uninterrupted turn (the folds run one after the
other, as with `n_jobs=1`, or take turns between iterations), a finished thread has exactly the rows that `warm_start` returns
when it runs alone, for every solver. -/
theorem C95_sequential (solve : Solver V) (calls : Fin m → Call V) (d : Dict) (i : Fin m) (hne : (calls i).seq ≠ [])
    (turns : List (Fin m)) (hf : Finished (run solve calls d (turns.flatMap fun j => [j, j, j])) i) :
    (WarmStart.warmStart (calls i).path (ownSolver solve d (calls i).tol) (calls i).seq (calls i).initial (calls i).step).map
      WarmStart.Output.beta = some ((run solve calls d (turns.flatMap fun j => [j, j, j])).threads i).solutions := by
  have key : ∀ i, Alone solve (calls i) d ((run solve calls d (turns.flatMap fun j => [j, j, j])).threads i) := by
    clear hf hne i
    induction turns using List.reverseRecOn with
    | nil => intro i; exact ⟨rfl, rfl⟩
    | append_singleton s j ih =>
      intro i
      have e : (s ++ [j]).flatMap (fun j => [j, j, j]) = ((s.flatMap fun j => [j, j, j]) ++ [j] ++ [j]) ++ [j] := by simp
      rw [e, run_snoc, run_snoc, run_snoc]
      have hO := others_run solve calls d (s.flatMap fun j => [j, j, j])
      generalize run solve calls d (s.flatMap fun j => [j, j, j]) = S at *
      by_cases h : i = j
      · subst h
        obtain ⟨a1, a2⟩ := ih i
        simp only [step_same, step_dict]
        generalize hT : S.threads i = T at *
        obtain ⟨pc, rem, sol, fs, k, sols⟩ := T
        dsimp only at a1 a2
        subst a1
        cases rem with
        | nil => exact ⟨rfl, a2⟩
        | cons lam rest =>
          refine ⟨rfl, ?_⟩
          rw [← a2]
          simp only [act, WarmStart.loop, List.map_cons, List.append_assoc, List.singleton_append, own_dict hO]
          rfl
      · rw [step_other _ _ _ h, step_other _ _ _ h, step_other _ _ _ h]
        exact ih i
  have := (key i).2
  rw [hf] at this
  rw [warm_beta hne, ← this]
  simp [WarmStart.loop]

/-- **C95** the caller's dictionary: whatever the schedule, entries other than `tol` and `start_step` are left alone. -/
theorem C95_args_kept (solve : Solver V) (calls : Fin m → Call V) (d : Dict) (schedule : List (Fin m)) (key : String)
    (h1 : key ≠ "tol") (h2 : key ≠ "start_step") : (run solve calls d schedule).dict key = d key :=
  others_run solve calls d schedule key h1 h2

/-- what the solver has to do in `cross_validate(..., path_fitter=warm_start, inner_tol=tol)`: with that tolerance, whatever the step
and the other arguments, come within `eps` of the minimum of `f + g` whenever it is attained -/
def AccurateAt (solve : Solver (Fin p → ℝ)) (tol eps : ℝ) : Prop :=
  ∀ (d : Dict) (k : ℕ) (f g : (Fin p → ℝ) → ℝ) (start : Fin p → ℝ), d "tol" = some tol → (∃ m, ∀ u, f m + g m ≤ f u + g u) → ∀ u,
    f (solve d k f g start).1 + g (solve d k f g start).1 ≤ f u + g u + eps

open Classical in
/-- such solvers exist, also among those whose answers depend on the step -/
example : AccurateAt (p := p) (fun d _ f g start => if h : ∃ m, ∀ u, f m + g m ≤ f u + g u then (h.choose, (d "start_step").getD 1)
    else (fun _ => (d "start_step").getD 1, 1)) (1 / 10 ^ 5) 0 := by
  intro d k f g start _ h u
  simp only [dif_pos h, add_zero]
  exact h.choose_spec u

/-- **C95** cross-validation in threads: for every design, loss, weights, initial data, sequence of lagrange parameters and folds
whose training sets are not empty, every choice of initial steps, every initial content of the shared dictionary and every schedule
in which each fold gets its turns, each fold finishes with one row per lagrange parameter, and row `k` is optimal up to `eps` for the
elastic net problem of the fold's own training cases at the `k`-th lagrange parameter.  Missing: designs with an offset
(`C94_affine_design_fails`), huber losses with case weights, and equality with the sequential result
(`C95_step_race_fails`). -/
theorem C95_cross_validate_partial (solve : SubSolver p) (ts : Solver (Fin p → ℝ)) {tol eps : ℝ} (hts : AccurateAt ts tol eps)
    {L : Loss n} (hL : ReachableLoss L) (hk : WeightsKept L) {D : Design p n} (hD : D.offset = none) {w : Fin p → ℝ}
    {enet : Option (Fin p → ℝ)} {alpha : ℝ} {P : Obj p n} (hP : init solve L D w enet alpha = some P) (seq : List ℝ)
    (initial : (Fin p → ℝ) × (Fin p → ℝ)) (train : Fin m → Fin n → Bool) (hne : ∀ f, ∃ i, train f i = true)
    (hex : ∀ f, ∀ lam ∈ seq, ∃ m, ∀ u, foldObjective L D.X (train f) w (enetOf enet) alpha lam m ≤
      foldObjective L D.X (train f) w (enetOf enet) alpha lam u) :
    ∃ Q : Fin m → Obj p n, (∀ f, trainPath solve P (train f) = some (Q f)) ∧
      ∀ (steps : Fin m → ℝ) (d : Dict) (schedule : List (Fin m)), (∀ f, 3 * seq.length ≤ schedule.count f) → ∀ f,
        let s := run ts (fun f => foldCall (Q f) seq initial tol (steps f)) d schedule
        Finished s f ∧ List.Forall₂ (fun lam b => ∀ u, foldObjective L D.X (train f) w (enetOf enet) alpha lam b ≤
          foldObjective L D.X (train f) w (enetOf enet) alpha lam u + eps) seq (s.threads f).solutions := by
  obtain ⟨hw, -⟩ := cvInit_eq solve hP
  choose Q q0 q1 h1 h2 h3 h4 h5 h6 h7 h8 using fun f => cvFold_path solve hL hP (train f) (hne f)
  refine ⟨Q, q0, fun steps d schedule hc f => ?_⟩
  have hfin : Finished (run ts (fun f => foldCall (Q f) seq initial tol (steps f)) d schedule) f :=
    (C95_progress ts _ d schedule f).mpr (hc f)
  refine ⟨hfin, ?_⟩
  have hf := cvFold_func hk (h5 f) (h6 f) (h7 f) (h8 f)
  have hobj : ∀ lam b, (toWarm (Q f)).loss b + (toWarm (Q f)).enetLoss lam b + lam * (toWarm (Q f)).alpha * (toWarm (Q f)).penalty b =
      foldObjective L D.X (train f) w (enetOf enet) alpha lam b := by
    intro lam b
    rw [cvWarm_objective (by rw [h1]; exact hD) (by rw [h2]; exact hw), h1, h2, h3, h4, hf]
    rfl
  have := C95_optimal ts (fun f => foldCall (Q f) seq initial tol (steps f)) d f (eps := eps) (fun d' hd lam hl k start step v => by
    obtain ⟨⟨j, hj⟩, -⟩ := hd
    obtain ⟨m, hm⟩ := hex f lam hl
    exact hts d' k (fun v => (toWarm (Q f)).loss v + (toWarm (Q f)).enetLoss lam v)
      (fun v => lam * (toWarm (Q f)).alpha * (toWarm (Q f)).penalty v) start hj ⟨m, fun u => by
        have := hm u
        rw [← hobj, ← hobj] at this
        exact this⟩ v) schedule hfin
  simp only [foldCall, hobj] at this
  exact this

/-- **C95** the folds in threads are the folds of the sequential cross-validation: for every path, folds, sequence, initial data and
dictionary, if the solver's answers do not depend on its tolerance and step, or if no thread is interrupted within an iteration,
each finished fold has exactly the coefficients that `fit_fold` returns when it runs alone.  -/
theorem C95_folds (solve : SubSolver p) (ts : Solver (Fin p → ℝ)) (P : Obj p n) (seq : List ℝ) (hseq : seq ≠ [])
    (initial : (Fin p → ℝ) × (Fin p → ℝ)) (tol : ℝ) (train : Fin m → Fin n → Bool) (Q : Fin m → Obj p n)
    (hQ : ∀ f, trainPath solve P (train f) = some (Q f)) (steps : Fin m → ℝ) (d : Dict) (schedule : List (Fin m))
    (h : StepFree ts ∨ ∃ turns : List (Fin m), schedule = turns.flatMap fun j => [j, j, j]) (f : Fin m)
    (hf : Finished (run ts (fun f => foldCall (Q f) seq initial tol (steps f)) d schedule) f) :
    fitFold solve (warmFit (ownSolver ts d tol) (steps f)) P seq initial (train f) =
      some ((run ts (fun f => foldCall (Q f) seq initial tol (steps f)) d schedule).threads f).solutions := by
  unfold fitFold warmFit
  rw [hQ f]
  rcases h with h | ⟨turns, rfl⟩
  · exact C95_schedule_free ts h _ d f hseq schedule hf
  · exact C95_sequential ts _ d f hseq turns hf

/-! ### what the shared dictionary breaks -/

/-- the path with loss `v² / 2` on the real line and no penalty -/
noncomputable def squarePath : WarmStart.WarmPath ℝ := ⟨fun v => v ^ 2 / 2, fun _ _ => 0, fun _ => 0, 1⟩

/-- two calls of `warm_start` at one lagrange parameter each -/
noncomputable def twoCalls (step tol : Fin 2 → ℝ) (i : Fin 2) : Call ℝ := ⟨squarePath, [1], 0, step i, tol i⟩

/-- the first thread writes its entries, the second thread writes its own over them, and the first thread calls the solver -/
def lostUpdate : List (Fin 2) := [0, 0, 1, 1, 0, 1]

open Classical in
/-- a solver that is within the requested tolerance and whose answer depends on the step -/
noncomputable def steppingSolver : Solver ℝ := fun d _ f g _ =>
  (if h : ∃ b, (∀ u, f b + g b ≤ f u + g u + (d "tol").getD 0) ∧ b = (d "start_step").getD 0 then h.choose
   else if h : ∃ b, ∀ u, f b + g b ≤ f u + g u + (d "tol").getD 0 then h.choose else 0, 1)

private lemma stepping_accurate (d : Dict) (t : ℝ) (ht : d "tol" = some t) (k : ℕ) (f g : ℝ → ℝ) (start : ℝ)
    (h : ∃ b, ∀ u, f b + g b ≤ f u + g u + t) (u : ℝ) :
    f (steppingSolver d k f g start).1 + g (steppingSolver d k f g start).1 ≤ f u + g u + t := by
  obtain rfl : (d "tol").getD 0 = t := by rw [ht]; rfl
  unfold steppingSolver
  split_ifs with h1
  · exact h1.choose_spec.1 u
  · exact h.choose_spec u

private lemma stepping_at (d : Dict) (t x : ℝ) (ht : d "tol" = some t) (hx : d "start_step" = some x) (hxt : x ^ 2 / 2 ≤ t) (k : ℕ)
    (g : ℝ → ℝ) (hg : ∀ v, g v = 0) (f : ℝ → ℝ) (hf : ∀ v, f v = v ^ 2 / 2) (start : ℝ) : (steppingSolver d k f g start).1 = x := by
  unfold steppingSolver
  have h : ∃ b, (∀ u, f b + g b ≤ f u + g u + (d "tol").getD 0) ∧ b = (d "start_step").getD 0 := by
    refine ⟨x, fun u => ?_, by rw [hx]; rfl⟩
    rw [ht, hf, hf, hg, hg]
    have := sq_nonneg u
    simp only [Option.getD_some]
    linarith
  simp only [dif_pos h]
  have := h.choose_spec.2
  rw [this, hx]; rfl

/-- **C95** the result of a threaded run is not that of the sequential run: there are a solver that always meets the requested
tolerance, two calls with the same tolerance, and a schedule in which both finish, such that the first call's row is not the one it
computes when it runs alone: the second thread's `start_step` reached the first thread's solver. -/
theorem C95_step_race_fails : ∃ (solve : Solver ℝ) (calls : Fin 2 → Call ℝ) (d : Dict) (schedule : List (Fin 2)),
    (∀ (d : Dict) (t : ℝ), d "tol" = some t → ∀ k (f g : ℝ → ℝ) start, (∃ b, ∀ u, f b + g b ≤ f u + g u + t) → ∀ u,
      f (solve d k f g start).1 + g (solve d k f g start).1 ≤ f u + g u + t) ∧
    (calls 0).tol = (calls 1).tol ∧ (∀ i, Finished (run solve calls d schedule) i) ∧
    (WarmStart.warmStart (calls 0).path (ownSolver solve d (calls 0).tol) (calls 0).seq (calls 0).initial (calls 0).step).map
      WarmStart.Output.beta ≠ some ((run solve calls d schedule).threads 0).solutions := by
  refine ⟨steppingSolver, twoCalls ![1, 1 / 2] fun _ => 1, fun _ => none, lostUpdate, stepping_accurate, rfl, fun i => ?_, ?_⟩
  · rw [C95_progress]
    fin_cases i <;> simp [twoCalls, lostUpdate]
  · have h1 : ((run steppingSolver (twoCalls ![1, 1 / 2] fun _ => 1) (fun _ => none) lostUpdate).threads 0).solutions = [1 / 2] := by
      show [] ++ [(steppingSolver _ _ _ _ _).1] = _
      rw [stepping_at _ 1 (1 / 2) rfl rfl (by norm_num) _ _ (fun v => by simp [twoCalls, squarePath]) _
        (fun v => by simp [twoCalls, squarePath])]
      rfl
    have h2 : (WarmStart.warmStart (twoCalls ![1, 1 / 2] (fun _ => 1) 0).path
        (ownSolver steppingSolver (fun _ => none) (twoCalls ![1, 1 / 2] (fun _ => 1) 0).tol) (twoCalls ![1, 1 / 2] (fun _ => 1) 0).seq
        (twoCalls ![1, 1 / 2] (fun _ => 1) 0).initial (twoCalls ![1, 1 / 2] (fun _ => 1) 0).step).map WarmStart.Output.beta = some [1] := by
      rw [warm_beta (by simp [twoCalls])]
      have h3 := stepping_at ((Dict.set (fun _ => none) "tol" 1).set "start_step" 1) 1 1 rfl rfl (by norm_num) 0
        (fun v => (1 : ℝ) * 1 * 0) (fun v => by simp) (fun v => v ^ 2 / 2 + 0) (fun v => by simp) 0
      exact congrArg (fun x => some [x]) h3
    rw [h1, h2]
    intro h
    injection h with h
    injection h with h
    norm_num at h

/-- **C95** the tolerance of a call is not its own: two concurrent calls with different `inner_tol`, a solver that always meets the
tolerance it is given, and a schedule in which both finish, such that the row of the call with `inner_tol` 0 is not optimal. -/
theorem C95_tol_race_fails : ∃ (solve : Solver ℝ) (calls : Fin 2 → Call ℝ) (d : Dict) (schedule : List (Fin 2)),
    (∀ (d : Dict) (t : ℝ), d "tol" = some t → ∀ k (f g : ℝ → ℝ) start, (∃ b, ∀ u, f b + g b ≤ f u + g u + t) → ∀ u,
      f (solve d k f g start).1 + g (solve d k f g start).1 ≤ f u + g u + t) ∧
    (calls 0).tol = 0 ∧ (∀ i, Finished (run solve calls d schedule) i) ∧
    ∃ b, ((run solve calls d schedule).threads 0).solutions = [b] ∧ (calls 0).path.loss 0 < (calls 0).path.loss b := by
  refine ⟨steppingSolver, twoCalls ![1, 1] ![0, 1], fun _ => none, lostUpdate, stepping_accurate, rfl, fun i => ?_, 1, ?_, ?_⟩
  · rw [C95_progress]
    fin_cases i <;> simp [twoCalls, lostUpdate]
  · show [] ++ [(steppingSolver _ _ _ _ _).1] = _
    rw [stepping_at _ 1 1 rfl rfl (by norm_num) _ _ (fun v => by simp [twoCalls, squarePath]) _
      (fun v => by simp [twoCalls, squarePath])]
    rfl
  · show (0 : ℝ) ^ 2 / 2 < (1 : ℝ) ^ 2 / 2
    norm_num

/-- **C95** a tolerance given in `solve_args` is ignored, and the dictionary that the caller passed is changed: after any call with a
nonempty sequence that finishes alone its `tol` is `inner_tol`. -/
theorem C95_user_args_fails (solve : Solver V) (c : Call V) (hne : c.seq ≠ []) (d : Dict) (userTol : ℝ) (hd : d "tol" = some userTol)
    (hu : userTol ≠ c.tol) (schedule : List (Fin 1)) (hf : Finished (run solve (fun _ => c) d schedule) 0) :
    RaceRows c.path solve (fun d' => d' "tol" = some c.tol ∧ d' "tol" ≠ some userTol) c.seq 0 c.initial
      ((run solve (fun _ => c) d schedule).threads 0).solutions ∧
    (run solve (fun _ => c) d schedule).dict "tol" = some c.tol := by
  constructor
  · obtain ⟨pre, h1, -, -, h4⟩ := thread_inv solve (fun _ => c) d schedule 0
    rw [hf, List.append_nil] at h1
    rw [← h1] at h4
    refine rows_mono (fun d' hd' => ?_) h4
    obtain ⟨⟨j, hj⟩, -⟩ := hd'
    refine ⟨hj, fun h => hu ?_⟩
    rw [hj] at h
    exact (Option.some.inj h).symm
  · have key : ∀ s : List (Fin 1), s ≠ [] → (run solve (fun _ => c) d s).dict "tol" = some c.tol := by
      intro s
      induction s using List.reverseRecOn with
      | nil => intro h; exact absurd rfl h
      | append_singleton s j ih =>
        intro _
        rw [run_snoc, step_dict]
        by_cases hs : s = []
        · subst hs
          rw [run_nil]
          obtain ⟨a, l, hl⟩ := List.exists_cons_of_ne_nil hne
          rw [act_setTol (a := a) (l := l) _ _ _ hl rfl]
          simp [Dict.set]
        · have h := ih hs
          generalize run solve (fun _ => c) d s = S at *
          rcases hrem : (S.threads j).remaining with _ | ⟨a, l⟩
          · rw [act_nil _ _ _ hrem]; exact h
          · cases hpc : (S.threads j).pc with
            | setTol => rw [act_setTol _ _ _ hrem hpc]; simp [Dict.set]
            | setStep => rw [act_setStep _ _ _ hrem hpc]; simpa [Dict.set] using h
            | solve => rw [act_solve _ _ _ hrem hpc]; exact h
    refine key schedule ?_
    rintro rfl
    exact hne hf

/-! ### the hypotheses can be met -/

/-- every number of turns per thread is met by some schedule, here the one that lets the threads take single actions in turn -/
example (k : ℕ) : ∃ schedule : List (Fin m), ∀ f, k ≤ schedule.count f := by
  refine ⟨(List.replicate k (List.finRange m)).flatten, fun f => ?_⟩
  rw [List.count_flatten]
  simp [List.map_replicate, List.count_eq_one_of_mem (List.nodup_finRange m) (List.mem_finRange f)]

open Classical in
/-- the hypothesis of `C95_schedule_free` is met by an exact solver that hands on a step depending on the one it got -/
example : StepFree (V := V) fun d _ f g start =>
    (if h : ∃ m, ∀ u, f m + g m ≤ f u + g u then h.choose else start, (d "start_step").getD 1 / 2) :=
  fun _ _ _ _ _ _ _ => rfl

/-- two calls in alternating turns meet the hypotheses of `C95_sequential` -/
example (solve : Solver ℝ) (d : Dict) (step tol : Fin 2 → ℝ) (i : Fin 2) : (twoCalls step tol i).seq ≠ [] ∧
    Finished (run solve (twoCalls step tol) d (([1, 0] : List (Fin 2)).flatMap fun j => [j, j, j])) i := by
  refine ⟨by simp [twoCalls], ?_⟩
  rw [C95_progress]
  fin_cases i <;> simp [twoCalls]

end Verif.Props
