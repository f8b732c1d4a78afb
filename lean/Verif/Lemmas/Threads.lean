import Verif.Model.Threads
import Mathlib.Data.List.Flatten
import Mathlib.Tactic.Linarith

/-!
# Lemmas on concurrent calls of `warm_start`
-/

set_option linter.unusedSectionVars false
set_option linter.unusedVariables false

namespace Verif.Lemmas.Threads
open Verif.Model Verif.Model.Threads

variable {V : Type} {m : ℕ}

lemma run_nil (solve : Solver V) (calls : Fin m → Call V) (d : Dict) :
    run solve calls d [] = { dict := d, threads := fun i => (calls i).start } := rfl

lemma run_snoc (solve : Solver V) (calls : Fin m → Call V) (d : Dict) (s : List (Fin m)) (i : Fin m) :
    run solve calls d (s ++ [i]) = step solve calls (run solve calls d s) i := by
  unfold run; rw [List.foldl_append]; rfl

lemma step_dict (solve : Solver V) (calls : Fin m → Call V) (s : State V m) (i : Fin m) :
    (step solve calls s i).dict = (act solve (calls i) s.dict (s.threads i)).1 := rfl

lemma step_same (solve : Solver V) (calls : Fin m → Call V) (s : State V m) (i : Fin m) :
    (step solve calls s i).threads i = (act solve (calls i) s.dict (s.threads i)).2 := by
  unfold step; simp

lemma step_other (solve : Solver V) (calls : Fin m → Call V) (s : State V m) {i j : Fin m} (h : j ≠ i) :
    (step solve calls s i).threads j = s.threads j := by
  unfold step; simp [h]

lemma act_nil (solve : Solver V) (c : Call V) (d : Dict) {t : Thread V} (h : t.remaining = []) : act solve c d t = (d, t) := by
  unfold act; rw [h]

lemma act_setTol (solve : Solver V) (c : Call V) (d : Dict) {t : Thread V} {a : ℝ} {l : List ℝ} (h : t.remaining = a :: l)
    (hp : t.pc = .setTol) : act solve c d t = (d.set "tol" c.tol, { t with pc := .setStep }) := by
  obtain ⟨pc, rem, sol, fs, k, sols⟩ := t
  dsimp only at h hp
  subst h hp
  rfl

lemma act_setStep (solve : Solver V) (c : Call V) (d : Dict) {t : Thread V} {a : ℝ} {l : List ℝ} (h : t.remaining = a :: l)
    (hp : t.pc = .setStep) : act solve c d t = (d.set "start_step" t.finalStep, { t with pc := .solve }) := by
  obtain ⟨pc, rem, sol, fs, k, sols⟩ := t
  dsimp only at h hp
  subst h hp
  rfl

lemma act_solve (solve : Solver V) (c : Call V) (d : Dict) {t : Thread V} {a : ℝ} {l : List ℝ} (h : t.remaining = a :: l)
    (hp : t.pc = .solve) : act solve c d t =
      (d, { pc := .setTol, remaining := l,
            solution := (solve d t.calls (fun v => c.path.loss v + c.path.enetLoss a v) (fun v => a * c.path.alpha * c.path.penalty v) t.solution).1,
            finalStep := (solve d t.calls (fun v => c.path.loss v + c.path.enetLoss a v) (fun v => a * c.path.alpha * c.path.penalty v) t.solution).2,
            calls := t.calls + 1,
            solutions := t.solutions ++
              [(solve d t.calls (fun v => c.path.loss v + c.path.enetLoss a v) (fun v => a * c.path.alpha * c.path.penalty v) t.solution).1] }) := by
  obtain ⟨pc, rem, sol, fs, k, sols⟩ := t
  dsimp only at h hp
  subst h hp
  rfl

/-- actions left -/
def work (t : Thread V) : ℕ :=
  match t.remaining with
  | [] => 0
  | _ :: rest => 3 * rest.length + match t.pc with
    | .setTol => 3
    | .setStep => 2
    | .solve => 1

lemma work_act (solve : Solver V) (c : Call V) (d : Dict) (t : Thread V) : work (act solve c d t).2 = work t - 1 := by
  obtain ⟨pc, rem, sol, fs, k, sols⟩ := t
  cases rem with
  | nil => simp [act, work]
  | cons a l =>
    cases pc
    · simp [act, work]
    · simp [act, work]
    · cases l <;> simp [act, work] <;> omega

lemma work_run (solve : Solver V) (calls : Fin m → Call V) (d : Dict) (s : List (Fin m)) (i : Fin m) :
    work ((run solve calls d s).threads i) = 3 * (calls i).seq.length - s.count i := by
  induction s using List.reverseRecOn with
  | nil =>
    rw [run_nil]
    show work (calls i).start = _
    unfold Call.start work
    cases h : (calls i).seq <;> simp; omega
  | append_singleton s j ih =>
    rw [run_snoc, List.count_append]
    by_cases h : i = j
    · subst h
      rw [step_same, work_act, ih]
      simp; omega
    · rw [step_other _ _ _ h, ih]
      have : List.count i [j] = 0 := by
        rw [List.count_eq_zero]; simpa using h
      rw [this, Nat.add_zero]

lemma work_zero {t : Thread V} (h : work t = 0) : t.remaining = [] := by
  obtain ⟨pc, rem, sol, fs, k, sols⟩ := t
  cases rem with
  | nil => rfl
  | cons a l => cases pc <;> simp [work] at h

/-- every entry except the two that the loop writes is the initial one -/
def Others (d0 d : Dict) : Prop := ∀ k, k ≠ "tol" → k ≠ "start_step" → d k = d0 k

lemma others_act {solve : Solver V} {c : Call V} {d0 d : Dict} (t : Thread V) (h : Others d0 d) : Others d0 (act solve c d t).1 := by
  obtain ⟨pc, rem, sol, fs, k, sols⟩ := t
  cases rem with
  | nil => exact h
  | cons a l =>
    cases pc
    · intro k h1 h2
      simp only [act, Dict.set, if_neg h1]
      exact h k h1 h2
    · intro k h1 h2
      simp only [act, Dict.set, if_neg h2]
      exact h k h1 h2
    · exact h

lemma others_run (solve : Solver V) (calls : Fin m → Call V) (d : Dict) (s : List (Fin m)) : Others d (run solve calls d s).dict := by
  induction s using List.reverseRecOn with
  | nil => intro k _ _; rfl
  | append_singleton s j ih =>
    rw [run_snoc, step_dict]
    exact others_act _ ih

/-- what the dictionary says whenever a thread is about to read it -/
lemma dict_run (solve : Solver V) (calls : Fin m → Call V) (d : Dict) (s : List (Fin m)) (i : Fin m)
    (hr : ((run solve calls d s).threads i).remaining ≠ []) :
    (((run solve calls d s).threads i).pc ≠ .setTol → ∃ j, (run solve calls d s).dict "tol" = some (calls j).tol) ∧
    (((run solve calls d s).threads i).pc = .solve → ∃ x, (run solve calls d s).dict "start_step" = some x) := by
  have key : ∀ s : List (Fin m),
      ((∃ i, ((run solve calls d s).threads i).remaining ≠ [] ∧ ((run solve calls d s).threads i).pc ≠ .setTol) →
        ∃ j, (run solve calls d s).dict "tol" = some (calls j).tol) ∧
      ((∃ i, ((run solve calls d s).threads i).remaining ≠ [] ∧ ((run solve calls d s).threads i).pc = .solve) →
        ∃ x, (run solve calls d s).dict "start_step" = some x) := by
    intro s
    induction s using List.reverseRecOn with
    | nil =>
      refine ⟨fun ⟨i, _, h⟩ => absurd rfl h, fun ⟨i, _, h⟩ => ?_⟩
      rw [run_nil] at h
      cases h
    | append_singleton s j ih =>
      rw [run_snoc]
      set S := run solve calls d s with hS
      obtain ⟨ih1, ih2⟩ := ih
      rw [step_dict]
      rcases hrem : (S.threads j).remaining with _ | ⟨a, l⟩
      · -- a finished thread changes nothing
        have hact : act solve (calls j) S.dict (S.threads j) = (S.dict, S.threads j) := act_nil _ _ _ hrem
        have hth : ∀ i, (step solve calls S j).threads i = S.threads i := by
          intro i
          by_cases h : i = j
          · subst h; rw [step_same, hact]
          · exact step_other _ _ _ h
        simp only [hth, hact]
        exact ⟨ih1, ih2⟩
      · cases hpc : (S.threads j).pc with
        | setTol =>
          have hact : act solve (calls j) S.dict (S.threads j) = (S.dict.set "tol" (calls j).tol, { S.threads j with pc := .setStep }) :=
            act_setTol _ _ _ hrem hpc
          rw [hact]
          refine ⟨fun _ => ⟨j, by simp [Dict.set]⟩, fun ⟨i, h1, h2⟩ => ?_⟩
          have : ∃ x, S.dict "start_step" = some x := by
            by_cases h : i = j
            · subst h; rw [step_same, hact] at h2; cases h2
            · rw [step_other _ _ _ h] at h1 h2
              exact ih2 ⟨i, h1, h2⟩
          simpa [Dict.set] using this
        | setStep =>
          have hact : act solve (calls j) S.dict (S.threads j) =
              (S.dict.set "start_step" (S.threads j).finalStep, { S.threads j with pc := .solve }) := act_setStep _ _ _ hrem hpc
          rw [hact]
          refine ⟨fun _ => ?_, fun _ => ⟨_, by simp [Dict.set]; rfl⟩⟩
          have := ih1 ⟨j, by rw [hrem]; simp, by rw [hpc]; simp⟩
          simpa [Dict.set] using this
        | solve =>
          have h1 := ih1 ⟨j, by rw [hrem]; simp, by rw [hpc]; simp⟩
          have h2 := ih2 ⟨j, by rw [hrem]; simp, hpc⟩
          have hact : (act solve (calls j) S.dict (S.threads j)).1 = S.dict := by
            rw [act_solve _ _ _ hrem hpc]
          rw [hact]
          exact ⟨fun _ => h1, fun _ => h2⟩
  exact ⟨fun h => (key s).1 ⟨i, hr, h⟩, fun h => (key s).2 ⟨i, hr, h⟩⟩

end Verif.Lemmas.Threads
