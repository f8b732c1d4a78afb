import Verif.Lemmas.SolveFrame
import Mathlib.Tactic.NormNum
import Mathlib.Tactic.FieldSimp
import Mathlib.Tactic.Linarith

/-!
# C99: solutions stay what they were, and problems do not disturb each other

`solve` returns the very array which is the attribute `coefs` of the problem, often also of its atom.  As long as a session only
makes atoms, losses and `simple_problem`s, solves them and reads coefficients, nobody can tell: the session behaves as if every
result were a value.  `quasi_newton`, `admm_problem` and assignments `coefs[:] = v` write in place, and there it does not.
-/

set_option linter.unusedSectionVars false
set_option linter.unusedVariables false

namespace Verif.Props
open Verif.Model.SolveHeap Verif.Spec.Solve Verif.Lemmas.SolveHeap

variable {p : ℕ}

/-- **C99** (values) Every session that makes atoms, losses and `simple_problem`s, solves them in any order and reads coefficients
shows the caller exactly the values it would show if nothing were shared: each solve starts at the current point of its problem,
each result is the last accepted point of its run.  What is missing for the full property: statements that write in place, for
which it is false (`C99_write_fails`, `C99_newton_fails`, `C99_admm_fails`). -/
theorem C99_refines_partial (prog : List (Op p)) (h : ∀ o ∈ prog, Plain o) :
    (exec prog (World.empty p)).map view = Points.exec prog (Points.empty p) :=
  sim_exec prog wf_empty h

example : ∃ W, Points.exec [.newAtom none, .newLoss, .newProblem 0 0, .solve 0 (halfway 1), .solve 0 (halfway 1)] (Points.empty 1) = some W ∧
    W.results = [fun _ => 1 / 2, fun _ => 3 / 4] := by
  refine ⟨_, rfl, ?_⟩
  simp only [halfway, solution, Points.empty]
  norm_num

/-- **C99** (kept) In whatever session the results were obtained — with `quasi_newton`, `admm_problem` and assignments too — a
continuation that only makes and solves atoms, losses and `simple_problem`s changes none of them. -/
theorem C99_kept {before after : List (Op p)} {w w' : World p} (hw : exec before (World.empty p) = some w)
    (hp : ∀ o ∈ after, Plain o) (hw' : exec after w = some w') {j : ℕ} (hj : j < w.results.length) : w'.result j = w.result j := by
  have wf := wf_exec before wf_empty hw
  clear hw
  induction after generalizing w with
  | nil => simp only [exec, Option.some.injEq] at hw'; subst hw'; rfl
  | cons o os ih =>
    simp only [exec] at hw'
    obtain ⟨w1, h1, h2⟩ := Option.bind_eq_some_iff.1 hw'
    obtain ⟨l, hl⟩ := results_step h1
    have hj1 : j < w1.results.length := by rw [hl, List.length_append]; omega
    rw [ih (fun o' ho' => hp o' (List.mem_cons_of_mem _ ho')) h2 hj1 (wf_step wf h1)]
    have hr : w.results[j]? = some w.results[j] := List.getElem?_eq_getElem hj
    have e : w1.results[j]? = some w.results[j] := by rw [hl, List.getElem?_append_left hj]; exact hr
    simp only [World.result, e, hr, Option.map_some]
    rw [(frame_step wf h1).2 _ (wf.results _ (List.getElem_mem hj)) (plain_changes (hp o List.mem_cons_self) _)]

example : ∃ w w' : World 1, exec [.newLoss, .newAtom none, .newNewton 0 0, .solveNewton 0 [⟨halfway 1, fun x z => none⟩]] (World.empty 1) = some w ∧
    exec [.newProblem 0 0, .solve 0 (halfway 3)] w = some w' ∧ 0 < w.results.length :=
  ⟨_, _, rfl, rfl, by decide⟩

/-- **C99** (solve) In every session, `solve` of a problem starts at the current value of its `coefs`, returns the last accepted
point of the run and leaves it as its `coefs`.  No other problem, no other atom, no loss, no `quasi_newton` or `admm_problem`, and no
array obtained before changes its value. -/
theorem C99_solve {before : List (Op p)} {w : World p} (hw : exec before (World.empty p) = some w) {k : ℕ} {x : Vec p}
    (hx : w.value (.problem k) = some x) (run : Vec p → Trace p) :
    ∃ w' P, w.problems[k]? = some P ∧ step w (.solve k run) = some w' ∧ w'.results.length = w.results.length + 1 ∧
      w'.result w.results.length = some (solution (run x) x) ∧ w'.value (.problem k) = some (solution (run x) x) ∧
      ∀ s v, s ≠ .problem k → s ≠ .atom P.atom → w.value s = some v → w'.value s = some v := by
  have wf := wf_exec before wf_empty hw
  obtain ⟨c, hc, rfl⟩ := Option.map_eq_some_iff.1 hx
  obtain ⟨P, hP, rfl⟩ := Option.map_eq_some_iff.1 hc
  obtain ⟨p1, p2⟩ := wf.problems P (mem_of_get hP)
  have ha : w.atoms[P.atom]? = some (w.atoms[P.atom]'p2) := List.getElem?_eq_getElem p2
  obtain ⟨-, -, f3⟩ := fista_coefs (run (contents w.heap P.coefs)) w.heap (w.atoms[P.atom]'p2) P.coefs p1
  have hk := (List.getElem?_eq_some_iff.1 hP).1
  have hs : step w (.solve k run) = some ⟨(fista (run (contents w.heap P.coefs)) w.heap (w.atoms[P.atom]'p2) P.coefs).1,
      w.atoms.set P.atom (fista (run (contents w.heap P.coefs)) w.heap (w.atoms[P.atom]'p2) P.coefs).2.1, w.losses,
      w.problems.set k { P with coefs := (fista (run (contents w.heap P.coefs)) w.heap (w.atoms[P.atom]'p2) P.coefs).2.2 },
      w.newtons, w.admms, w.results ++ [(fista (run (contents w.heap P.coefs)) w.heap (w.atoms[P.atom]'p2) P.coefs).2.2]⟩ := by
    simp only [step, hP, ha]
  refine ⟨_, P, hP, hs, by simp, by simp [World.result, f3], ?_, ?_⟩
  · simp [World.value, Slot.ref, hk, f3]
  · intro s v h1 h2 hv
    obtain ⟨r, hr, rfl⟩ := Option.map_eq_some_iff.1 hv
    have hlt := ref_lt wf hr
    simp only [World.value]
    have hr' : Slot.ref ⟨(fista (run (contents w.heap P.coefs)) w.heap (w.atoms[P.atom]'p2) P.coefs).1,
        w.atoms.set P.atom (fista (run (contents w.heap P.coefs)) w.heap (w.atoms[P.atom]'p2) P.coefs).2.1, w.losses,
        w.problems.set k { P with coefs := (fista (run (contents w.heap P.coefs)) w.heap (w.atoms[P.atom]'p2) P.coefs).2.2 },
        w.newtons, w.admms, w.results ++ [(fista (run (contents w.heap P.coefs)) w.heap (w.atoms[P.atom]'p2) P.coefs).2.2]⟩ s
        = some r := by
      cases s with
      | atom a =>
        have : P.atom ≠ a := fun e => h2 (by rw [e])
        simp only [Slot.ref, List.getElem?_set_ne this]; exact hr
      | problem i =>
        have : k ≠ i := fun e => h1 (by rw [e])
        simp only [Slot.ref, List.getElem?_set_ne this]; exact hr
      | result j =>
        simp only [Slot.ref] at hr ⊢
        rw [List.getElem?_append_left (List.getElem?_eq_some_iff.1 hr).1]; exact hr
      | loss l => exact hr
      | newton i => exact hr
      | inner i => exact hr
      | admm i => exact hr
    rw [hr', Option.map_some, fista_read _ _ _ hlt]

example : ∃ w : World 1, exec [.newAtom none, .newLoss, .newProblem 0 0, .solve 0 (halfway 1)] (World.empty 1) = some w ∧
    w.value (.problem 0) = some (fun _ => 1 / 2) := by
  refine ⟨_, rfl, ?_⟩
  simp only [World.value]
  show some _ = some _
  simp [contents, fista, halfway]

private lemma problem_same {w w' : World p} {o : Op p} {k : ℕ} (hk : k < w.problems.length) (ho : ∀ run, o ≠ .solve k run)
    (h : step w o = some w') : w'.problems[k]? = w.problems[k]? := by
  cases o with
  | newAtom initial => simp only [step, Option.some.injEq] at h; subst h; rfl
  | newLoss => simp only [step, Option.some.injEq] at h; subst h; rfl
  | newProblem l a =>
    simp only [step] at h
    split at h
    · simp only [Option.some.injEq] at h; subst h; exact List.getElem?_append_left hk
    · exact absurd h (by simp)
  | newNewton l a =>
    simp only [step] at h
    split at h
    · simp only [Option.some.injEq] at h; subst h; rfl
    · exact absurd h (by simp)
  | solve i run =>
    simp only [step] at h
    split at h
    · exact absurd h (by simp)
    · split at h
      · exact absurd h (by simp)
      · simp only [Option.some.injEq] at h
        subst h
        exact List.getElem?_set_ne (fun e => ho run (by rw [e]))
  | solveNewton k run =>
    simp only [step] at h
    split at h
    · exact absurd h (by simp)
    · exact absurd h (by simp)
    · split at h
      · exact absurd h (by simp)
      · simp only [Option.some.injEq] at h; subst h; rfl
  | solveAtom a z =>
    simp only [step] at h
    split at h
    · exact absurd h (by simp)
    · simp only [Option.some.injEq] at h; subst h; rfl
  | solveLoss l run =>
    simp only [step] at h
    split at h
    · exact absurd h (by simp)
    · simp only [Option.some.injEq] at h; subst h; rfl
  | newAdmm l =>
    simp only [step] at h
    split at h
    · exact absurd h (by simp)
    · simp only [Option.some.injEq] at h; subst h; rfl
  | solveAdmm k runs =>
    simp only [step] at h
    split at h
    · exact absurd h (by simp)
    · simp only [Option.some.injEq] at h; subst h; rfl
  | get s =>
    simp only [step] at h
    split at h
    · exact absurd h (by simp)
    · simp only [Option.some.injEq] at h; subst h; rfl
  | write s v =>
    simp only [step] at h
    split at h
    · exact absurd h (by simp)
    · simp only [Option.some.injEq] at h; subst h; rfl

/-- **C99** (current point) The point a problem would start from is not changed by anything done with other problems, with its own
loss or with its own atom, as long as nothing is written in place. -/
theorem C99_point_kept {before after : List (Op p)} {w w' : World p} (hw : exec before (World.empty p) = some w)
    (hp : ∀ o ∈ after, Plain o) {k : ℕ} (hk : ∀ o ∈ after, ∀ run, o ≠ .solve k run) (hw' : exec after w = some w') {x : Vec p}
    (hx : w.value (.problem k) = some x) : w'.value (.problem k) = some x := by
  have wf := wf_exec before wf_empty hw
  clear hw
  induction after generalizing w with
  | nil => simp only [exec, Option.some.injEq] at hw'; subst hw'; exact hx
  | cons o os ih =>
    simp only [exec] at hw'
    obtain ⟨w1, h1, h2⟩ := Option.bind_eq_some_iff.1 hw'
    refine ih (fun o' ho' => hp o' (List.mem_cons_of_mem _ ho')) (fun o' ho' => hk o' (List.mem_cons_of_mem _ ho')) h2 ?_ (wf_step wf h1)
    obtain ⟨c, hc, rfl⟩ := Option.map_eq_some_iff.1 hx
    have hlt := ref_lt wf hc
    obtain ⟨P, hP, rfl⟩ := Option.map_eq_some_iff.1 hc
    simp only [World.value, Slot.ref, problem_same (List.getElem?_eq_some_iff.1 hP).1 (hk o List.mem_cons_self) h1, hP, Option.map_some]
    rw [(frame_step wf h1).2 _ hlt (plain_changes (hp o List.mem_cons_self) _)]

/-- **C99** (warm start) Solve a problem, do anything with other problems (nothing written in place), solve it again: the second
solve starts at the first solution, and the first solution is still what it was. -/
theorem C99_warm_start {before between : List (Op p)} {w : World p} (hw : exec before (World.empty p) = some w) {k : ℕ} {x : Vec p}
    (hx : w.value (.problem k) = some x) (run run' : Vec p → Trace p) (hp : ∀ o ∈ between, Plain o)
    (hk : ∀ o ∈ between, ∀ r, o ≠ .solve k r) {w' : World p} (hw' : exec (.solve k run :: between) w = some w') :
    ∃ w'', step w' (.solve k run') = some w'' ∧
      w''.result w.results.length = some (solution (run x) x) ∧
      w''.result w'.results.length = some (solution (run' (solution (run x) x)) (solution (run x) x)) := by
  obtain ⟨w1, P, hP, h1, h2, h3, h4, h5⟩ := C99_solve hw hx run
  simp only [exec, h1, Option.bind_some] at hw'
  have hb1 : exec (before ++ [.solve k run]) (World.empty p) = some w1 := by
    have := exec_append before [.solve k run] (World.empty p)
    rw [this, hw]; simp [exec, h1]
  have hb2 : exec (before ++ [.solve k run] ++ between) (World.empty p) = some w' := by
    rw [exec_append, hb1]; exact hw'
  have hx' := C99_point_kept hb1 hp hk hw' h4
  have hr' := C99_kept hb1 hp hw' (j := w.results.length) (by omega)
  obtain ⟨w2, P2, hP2, g1, g2, g3, g4, g5⟩ := C99_solve hb2 hx' run'
  refine ⟨w2, g1, ?_, g3⟩
  have hv : w'.value (.result w.results.length) = some (solution (run x) x) := by
    show w'.result _ = _
    rw [hr', h3]
  exact g5 (.result w.results.length) _ (by simp) (by simp) hv

/-- **C99** (fresh start) Make an atom, then do anything at all that does not name it — solve other problems, run `quasi_newton` and
`admm_problem`, write into arrays — then put it in a problem: the problem starts at the `initial` given for the atom, zero if none
was, so its solution depends on nothing done before. -/
theorem C99_fresh_start {before between : List (Op p)} {w w' : World p} (hw : exec before (World.empty p) = some w)
    {initial : Option (Vec p)} (hm : ∀ o ∈ between, ¬ Mentions w.atoms.length o)
    (hw' : exec (.newAtom initial :: between) w = some w') {l : ℕ} (hl : l < w'.losses.length) (run : Vec p → Trace p) :
    ∃ w'', exec [.newProblem l w.atoms.length, .solve w'.problems.length run] w' = some w'' ∧
      w''.result w'.results.length = some (solution (run (initial.getD 0)) (initial.getD 0)) := by
  have wf := wf_exec before wf_empty hw
  simp only [exec] at hw'
  obtain ⟨w1, h1, h2⟩ := Option.bind_eq_some_iff.1 hw'
  have wf1 := wf_step wf h1
  obtain ⟨q1, q2⟩ := private_new wf h1
  obtain ⟨r1, r2⟩ := private_exec between wf1 q1 hm h2
  have hl' : w'.losses[l]? = some w'.losses[l] := List.getElem?_eq_getElem hl
  have hb : exec (before ++ (.newAtom initial :: between)) (World.empty p) = some w' := by
    rw [exec_append, hw]; simp only [Option.bind_some, exec]; exact hw'
  have hs : step w' (.newProblem l w.atoms.length) = some { w' with losses := w'.losses.set l w.heap.length, problems := w'.problems ++ [⟨l, w.atoms.length, w.heap.length⟩] } := by
    simp only [step, hl', r1.here]
  have hb' : exec (before ++ (.newAtom initial :: between) ++ [.newProblem l w.atoms.length]) (World.empty p) = some { w' with losses := w'.losses.set l w.heap.length, problems := w'.problems ++ [⟨l, w.atoms.length, w.heap.length⟩] } := by
    rw [exec_append, hb]; simp only [Option.bind_some, exec, hs]
  obtain ⟨w2, P, -, g1, g2, g3, -⟩ := C99_solve hb' (k := w'.problems.length) (x := initial.getD 0)
    (by simp only [World.value, Slot.ref, List.getElem?_concat_length, Option.map_some]; rw [r2, q2]) run
  refine ⟨w2, ?_, g3⟩
  simp only [exec, hs, Option.bind_some, g1]

example : ∃ w', exec ([.newAtom none] ++ [.newLoss, .newAtom none, .newLoss, .newProblem 0 1, .solve 0 (halfway 1), .write (.problem 0) 0] : List (Op 1))
    (World.empty 1) = some w' ∧ 1 < w'.losses.length ∧
    ∀ o ∈ ([.newLoss, .newAtom none, .newLoss, .newProblem 0 1, .solve 0 (halfway 1), .write (.problem 0) 0] : List (Op 1)), ¬ Mentions 0 o := by
  refine ⟨_, rfl, by decide, ?_⟩
  simp [Mentions]

/-- **C99** (quasi-Newton) In every session, `quasi_newton.solve` starts at the current value of its `coefs` and returns the solution
of its last inner problem, each inner problem being started at the current point.  The only arrays whose contents can change are the
one which was its `coefs` and the one which was its inner problem's: an array obtained before keeps its value unless it is one of
these two. -/
theorem C99_newton {before : List (Op p)} {w w' : World p} (hw : exec before (World.empty p) = some w) {k : ℕ} {x : Vec p}
    (hx : w.value (.newton k) = some x) {steps : List (NewtonStep p)} (hs : step w (.solveNewton k steps) = some w') :
    w'.results.length = w.results.length + 1 ∧ w'.result w.results.length = newtonSolution steps x ∧
      w'.value (.newton k) = newtonSolution steps x ∧
      ∀ j < w.results.length, w.results[j]? ≠ (Slot.newton k).ref w → w.results[j]? ≠ (Slot.inner k).ref w →
        w'.result j = w.result j := by
  have wf := wf_exec before wf_empty hw
  have hframe := frame_step wf hs
  obtain ⟨c, hc, rfl⟩ := Option.map_eq_some_iff.1 hx
  obtain ⟨N, hN, rfl⟩ := Option.map_eq_some_iff.1 hc
  obtain ⟨n1, n2, n3⟩ := wf.newtons N (mem_of_get hN)
  have hkl := (List.getElem?_eq_some_iff.1 hN).1
  have hkeep : ∀ j < w.results.length, w.results[j]? ≠ (Slot.newton k).ref w → w.results[j]? ≠ (Slot.inner k).ref w →
      w'.result j = w.result j := by
    intro j hj h1 h2
    obtain ⟨l, hl⟩ := results_step hs
    have hr : w.results[j]? = some w.results[j] := List.getElem?_eq_getElem hj
    have e : w'.results[j]? = some w.results[j] := by rw [hl, List.getElem?_append_left hj]; exact hr
    simp only [World.result, e, hr, Option.map_some]
    rw [hframe.2 _ (wf.results _ (List.getElem_mem hj))]
    rintro (h | h)
    · exact h1 (by rw [hr, h])
    · exact h2 (by rw [hr, h])
  cases steps with
  | nil => simp [step, hN] at hs
  | cons s rest =>
    have ha : w.atoms[N.atom]? = some (w.atoms[N.atom]'n3) := List.getElem?_eq_getElem n3
    obtain ⟨j1, j2, j3, j4, j5, j6, j7, j8, j9⟩ := newtonLoop_spec rest s w.heap (w.atoms[N.atom]'n3) N.coefs N.inner
      (wf.atoms _ (List.getElem_mem n3)) n1 n2
    simp only [step, hN, ha, Option.some.injEq] at hs
    subst hs
    refine ⟨by simp, ?_, ?_, hkeep⟩
    · simp only [World.result, List.getElem?_concat_length, Option.map_some]
      rw [read_set_self j5, j9]
    · simp only [World.value, Slot.ref, List.getElem?_set, hkl, if_true, Option.map_some]
      rw [read_set_self j5, j9]

example : ∃ w : World 1, exec [.newLoss, .newAtom none, .newNewton 0 0] (World.empty 1) = some w ∧ w.value (.newton 0) = some 0 ∧
    ∃ w', step w (.solveNewton 0 [⟨halfway 1, fun x z => some z⟩, ⟨halfway 1, fun x z => none⟩]) = some w' :=
  ⟨_, rfl, rfl, _, rfl⟩

/-- **C99** (ADMM) In every session, `admm_problem.solve` changes the contents of one array only, the one which is its `loss_coefs`;
its new value is the last solution of the augmented loss. -/
theorem C99_admm {before : List (Op p)} {w w' : World p} (hw : exec before (World.empty p) = some w) {k : ℕ} {A : Admm}
    (hA : w.admms[k]? = some A) {runs : List (Vec p → Trace p)} (hs : step w (.solveAdmm k runs) = some w') :
    w'.value (.admm k) = some (admmSolution runs (contents w.heap A.coefs) (contents w.heap A.augmented)).1 ∧
      w'.results = w.results ∧
      ∀ j < w.results.length, w.results[j]? ≠ (Slot.admm k).ref w → w'.result j = w.result j := by
  have wf := wf_exec before wf_empty hw
  have hframe := frame_step wf hs
  obtain ⟨n1, n2⟩ := wf.admms A (mem_of_get hA)
  have hkl := (List.getElem?_eq_some_iff.1 hA).1
  obtain ⟨j1, j2, j3, j4, j5⟩ := admmLoop_spec runs w.heap A.coefs A.augmented n1 n2
  have hres : w'.results = w.results := by
    simp only [step, hA, Option.some.injEq] at hs
    subst hs; rfl
  refine ⟨?_, hres, ?_⟩
  · simp only [step, hA, Option.some.injEq] at hs
    subst hs
    simp only [World.value, Slot.ref, List.getElem?_set, hkl, if_true, Option.map_some]
    rw [← j5]
  · intro j hj h1
    have hr : w.results[j]? = some w.results[j] := List.getElem?_eq_getElem hj
    simp only [World.result, hres, hr, Option.map_some]
    rw [hframe.2 _ (wf.results _ (List.getElem_mem hj))]
    intro h
    exact h1 (by rw [hr, h])

example : ∃ w : World 1, exec [.newLoss, .newAdmm 0] (World.empty 1) = some w ∧ w.admms[0]? = some ⟨0, 0⟩ ∧
    ∃ w', step w (.solveAdmm 0 [halfway 1, halfway 1]) = some w' := ⟨_, rfl, rfl, _, rfl⟩

/-! ### where sharing shows -/

/-- **C99** (used atom) A problem built on an atom that was used before starts where the atom's last proximal call ended, not at
`initial`: one step on `½(x-1)²` from a fresh atom gives `1/2`, the same statement after another problem used the atom `3/4`. -/
theorem C99_used_atom_fails :
    ((exec [.newAtom none, .newLoss, .newProblem 0 0, .solve 0 (halfway 1)] (World.empty 1)).bind fun w => w.result 0)
        = some (fun _ => 1 / 2) ∧
      ((exec [.newAtom none, .newLoss, .newProblem 0 0, .solve 0 (halfway 1), .newLoss, .newProblem 1 0, .solve 1 (halfway 1)]
        (World.empty 1)).bind fun w => w.result 1) = some (fun _ => 3 / 4) := by
  constructor
  · show some _ = some _
    simp [contents, fista, halfway]
  · show some _ = some _
    simp [contents, fista, halfway]
    norm_num

/-- **C99** (assignment) `problem.coefs[:] = v`, as `nesta` does to start a problem, changes the solution another problem returned
earlier, when the two problems share the atom. -/
theorem C99_write_fails :
    let prog : List (Op 1) := [.newAtom none, .newLoss, .newProblem 0 0, .solve 0 (halfway 1), .newLoss, .newProblem 1 0]
    ((exec prog (World.empty 1)).bind fun w => w.result 0) = some (fun _ => 1 / 2) ∧
      ((exec (prog ++ [.write (.problem 1) fun _ => 5]) (World.empty 1)).bind fun w => w.result 0) = some (fun _ => 5) := by
  constructor
  · show some _ = some _
    simp [contents, fista, halfway]
  · rfl

/-- **C99** (editing a solution) Editing the array returned by `solve` moves the point from which the problem starts next. -/
theorem C99_edit_result_fails :
    let prog : List (Op 1) := [.newAtom none, .newLoss, .newProblem 0 0, .solve 0 (halfway 1)]
    ((exec (prog ++ [.solve 0 (halfway 1)]) (World.empty 1)).bind fun w => w.result 1) = some (fun _ => 3 / 4) ∧
      ((exec (prog ++ [.write (.result 0) fun _ => 9, .solve 0 (halfway 1)]) (World.empty 1)).bind fun w => w.result 1)
        = some (fun _ => 5) := by
  constructor
  · show some _ = some _
    simp [contents, fista, halfway]
    norm_num
  · show some _ = some _
    simp [contents, fista, halfway]
    norm_num

/-- **C99** (quasi-Newton twice) A second `quasi_newton.solve` that converges in its first iteration overwrites the solution the first
one returned. -/
theorem C99_newton_fails :
    let prog : List (Op 1) := [.newLoss, .newAtom none, .newNewton 0 0, .solveNewton 0 [⟨halfway 1, fun x z => none⟩]]
    ((exec prog (World.empty 1)).bind fun w => w.result 0) = some (fun _ => 1 / 2) ∧
      ((exec (prog ++ [.solveNewton 0 [⟨halfway 1, fun x z => none⟩]]) (World.empty 1)).bind fun w => w.result 0)
        = some (fun _ => 3 / 4) := by
  constructor
  · show some _ = some _
    simp [contents, fista, halfway, newtonLoop]
  · show some _ = some _
    simp [contents, fista, halfway, newtonLoop]
    norm_num

/-- **C99** (ADMM) `admm_problem.solve` overwrites the solution `loss.solve` returned before the problem was made. -/
theorem C99_admm_fails :
    let prog : List (Op 1) := [.newLoss, .solveLoss 0 (halfway 1), .newAdmm 0]
    ((exec prog (World.empty 1)).bind fun w => w.result 0) = some (fun _ => 1 / 2) ∧
      ((exec (prog ++ [.solveAdmm 0 [halfway 1]]) (World.empty 1)).bind fun w => w.result 0) = some (fun _ => 3 / 4) := by
  constructor
  · show some _ = some _
    simp [contents, fista, halfway]
  · show some _ = some _
    simp [contents, fista, halfway, admmLoop]
    norm_num

/-- **C99** (loss) Putting a loss in a problem moves the point from which `loss.solve` starts: one step from the loss's own point
would give `3/4`, it gives `1/2`. -/
theorem C99_loss_point_fails :
    ((exec [.newLoss, .solveLoss 0 (halfway 1), .solveLoss 0 (halfway 1)] (World.empty 1)).bind fun w => w.result 1)
        = some (fun _ => 3 / 4) ∧
      ((exec [.newLoss, .solveLoss 0 (halfway 1), .newAtom none, .newProblem 0 0, .solveLoss 0 (halfway 1)] (World.empty 1)).bind
        fun w => w.result 1) = some (fun _ => 1 / 2) := by
  constructor
  · show some _ = some _
    simp [contents, fista, halfway]
    norm_num
  · show some _ = some _
    simp [contents, fista, halfway]

/-- **C99** (`niter=0`) `quasi_newton.solve(niter=0)` raises in every session. -/
theorem C99_niter_zero_fails (w : World p) (k : ℕ) : step w (.solveNewton k []) = none := by
  cases h : w.newtons[k]? <;> simp [step, h]

end Verif.Props
