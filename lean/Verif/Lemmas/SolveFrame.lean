import Verif.Lemmas.SolveHeap

/-!
# Which arrays a statement changes, and the simulation by values
-/

set_option linter.unusedSectionVars false
set_option linter.unusedVariables false

namespace Verif.Lemmas.SolveHeap
open Verif.Model.SolveHeap Verif.Spec.Solve

variable {p : ℕ}

/-- the arrays a statement writes into -/
def Changes (w : World p) : Op p → ℕ → Prop
  | .solveNewton k _, r => Slot.ref w (.newton k) = some r ∨ Slot.ref w (.inner k) = some r
  | .solveAdmm k _, r => Slot.ref w (.admm k) = some r
  | .write s _, r => s.ref w = some r
  | _, _ => False

/-- arrays are never removed, those not written into keep their contents -/
lemma frame_step {w w' : World p} (hw : Wf w) {o : Op p} (h : step w o = some w') :
    w.heap.length ≤ w'.heap.length ∧ ∀ r < w.heap.length, ¬ Changes w o r → contents w'.heap r = contents w.heap r := by
  cases o with
  | newAtom initial =>
    simp only [step, Option.some.injEq] at h
    subst h
    exact ⟨by simp, fun r hr _ => read_append hr⟩
  | newLoss =>
    simp only [step, Option.some.injEq] at h
    subst h
    exact ⟨by simp, fun r hr _ => read_append hr⟩
  | newProblem l a =>
    simp only [step] at h
    split at h
    · simp only [Option.some.injEq] at h
      subst h
      exact ⟨le_rfl, fun r hr _ => rfl⟩
    · exact absurd h (by simp)
  | solve k run =>
    simp only [step] at h
    split at h
    · exact absurd h (by simp)
    · split at h
      · exact absurd h (by simp)
      · simp only [Option.some.injEq] at h
        subst h
        exact ⟨fista_length _ _ _ _, fun r hr _ => fista_read _ _ _ hr⟩
  | solveAtom a z =>
    simp only [step] at h
    split at h
    · exact absurd h (by simp)
    · simp only [Option.some.injEq] at h
      subst h
      exact ⟨by simp, fun r hr _ => read_append hr⟩
  | solveLoss l run =>
    simp only [step] at h
    split at h
    · exact absurd h (by simp)
    · simp only [Option.some.injEq] at h
      subst h
      exact ⟨fista_length _ _ _ _, fun r hr _ => fista_read _ _ _ hr⟩
  | newNewton l a =>
    simp only [step] at h
    split at h
    · simp only [Option.some.injEq] at h
      subst h
      exact ⟨le_rfl, fun r hr _ => rfl⟩
    · exact absurd h (by simp)
  | solveNewton k steps =>
    simp only [step] at h
    split at h
    · exact absurd h (by simp)
    · exact absurd h (by simp)
    · rename_i N s rest hN
      split at h
      · exact absurd h (by simp)
      · rename_i a ha
        simp only [Option.some.injEq] at h
        subst h
        obtain ⟨n1, n2, n3⟩ := hw.newtons N (mem_of_get hN)
        obtain ⟨j1, j2, j3, j4, j5, j6, j7, j8, j9⟩ := newtonLoop_spec rest s w.heap a N.coefs N.inner
          (hw.atoms a (mem_of_get ha)) n1 n2
        refine ⟨by dsimp only; rw [List.length_set]; exact j1, fun r hr hc => ?_⟩
        have h1 : r ≠ N.coefs := fun e => hc (Or.inl (by simp [Slot.ref, hN, e]))
        have h2 : r ≠ N.inner := fun e => hc (Or.inr (by simp [Slot.ref, hN, e]))
        dsimp only
        rw [read_set_ne, j8 r hr h2]
        rcases j4 with j4 | j4
        · rw [j4]; exact Ne.symm h1
        · omega
  | newAdmm l =>
    simp only [step] at h
    split at h
    · exact absurd h (by simp)
    · simp only [Option.some.injEq] at h
      subst h
      exact ⟨le_rfl, fun r hr _ => rfl⟩
  | solveAdmm k runs =>
    simp only [step] at h
    split at h
    · exact absurd h (by simp)
    · rename_i A hA
      simp only [Option.some.injEq] at h
      subst h
      obtain ⟨n1, n2⟩ := hw.admms A (mem_of_get hA)
      obtain ⟨j1, j2, j3, j4, j5⟩ := admmLoop_spec runs w.heap A.coefs A.augmented n1 n2
      exact ⟨j1, fun r hr hc => j4 r hr fun e => hc (by simp [Changes, Slot.ref, hA, e])⟩
  | get s =>
    simp only [step] at h
    split at h
    · exact absurd h (by simp)
    · simp only [Option.some.injEq] at h
      subst h
      exact ⟨le_rfl, fun r hr _ => rfl⟩
  | write s v =>
    simp only [step] at h
    split at h
    · exact absurd h (by simp)
    · rename_i r hr
      simp only [Option.some.injEq] at h
      subst h
      refine ⟨by dsimp only; rw [List.length_set], fun x hx hc => read_set_ne (fun e => hc ?_) _⟩
      rw [← e]; exact hr

lemma plain_changes {w : World p} {o : Op p} (h : Plain o) (r : ℕ) : ¬ Changes w o r := by
  cases o <;> simp [Plain, Changes] at *

/-- the arrays obtained stay in the list -/
lemma results_step {w w' : World p} {o : Op p} (h : step w o = some w') : ∃ l, w'.results = w.results ++ l := by
  cases o with
  | newAtom initial => simp only [step, Option.some.injEq] at h; subst h; exact ⟨[], by simp⟩
  | newLoss => simp only [step, Option.some.injEq] at h; subst h; exact ⟨[], by simp⟩
  | newProblem l a =>
    simp only [step] at h
    split at h
    · simp only [Option.some.injEq] at h; subst h; exact ⟨[], by simp⟩
    · exact absurd h (by simp)
  | newNewton l a =>
    simp only [step] at h
    split at h
    · simp only [Option.some.injEq] at h; subst h; exact ⟨[], by simp⟩
    · exact absurd h (by simp)
  | solve k run =>
    simp only [step] at h
    split at h
    · exact absurd h (by simp)
    · split at h
      · exact absurd h (by simp)
      · simp only [Option.some.injEq] at h; subst h; exact ⟨_, rfl⟩
  | solveNewton k run =>
    simp only [step] at h
    split at h
    · exact absurd h (by simp)
    · exact absurd h (by simp)
    · split at h
      · exact absurd h (by simp)
      · simp only [Option.some.injEq] at h; subst h; exact ⟨_, rfl⟩
  | solveAtom a z =>
    simp only [step] at h
    split at h
    · exact absurd h (by simp)
    · simp only [Option.some.injEq] at h; subst h; exact ⟨_, rfl⟩
  | solveLoss l run =>
    simp only [step] at h
    split at h
    · exact absurd h (by simp)
    · simp only [Option.some.injEq] at h; subst h; exact ⟨_, rfl⟩
  | newAdmm l =>
    simp only [step] at h
    split at h
    · exact absurd h (by simp)
    · simp only [Option.some.injEq] at h; subst h; exact ⟨[], by simp⟩
  | solveAdmm k runs =>
    simp only [step] at h
    split at h
    · exact absurd h (by simp)
    · simp only [Option.some.injEq] at h; subst h; exact ⟨[], by simp⟩
  | get s =>
    simp only [step] at h
    split at h
    · exact absurd h (by simp)
    · simp only [Option.some.injEq] at h; subst h; exact ⟨_, rfl⟩
  | write s v =>
    simp only [step] at h
    split at h
    · exact absurd h (by simp)
    · simp only [Option.some.injEq] at h; subst h; exact ⟨[], by simp⟩

/-! ### simulation -/

lemma map_keep {h h' : List (Vec p)} {l : List ℕ} (hl : ∀ r ∈ l, r < h.length)
    (hk : ∀ r < h.length, contents h' r = contents h r) : l.map (contents h') = l.map (contents h) :=
  List.map_congr_left fun r hr => hk r (hl r hr)

lemma problems_keep {h h' : List (Vec p)} {l : List Problem} (hl : ∀ P ∈ l, P.coefs < h.length)
    (hk : ∀ r < h.length, contents h' r = contents h r) :
    l.map (fun P => (P.loss, P.atom, contents h' P.coefs)) = l.map fun P => (P.loss, P.atom, contents h P.coefs) :=
  List.map_congr_left fun P hP => by rw [hk _ (hl P hP)]

lemma map_getElem? {α β : Type*} (f : α → β) (l : List α) (i : ℕ) : (l.map f)[i]? = l[i]?.map f := List.getElem?_map

lemma view_at (w : World p) (s : Slot) (hs : Plain (.get s : Op p)) : (view w).at s = (s.ref w).map (contents w.heap) := by
  cases s with
  | atom a => simp [view, Points.at, Slot.ref]
  | loss a => simp [view, Points.at, Slot.ref]
  | problem k => simp [view, Points.at, Slot.ref, Option.map_map, Function.comp_def]
  | result a => simp [view, Points.at, Slot.ref]
  | newton k => exact absurd hs (by simp [Plain])
  | inner k => exact absurd hs (by simp [Plain])
  | admm k => exact absurd hs (by simp [Plain])

lemma sim_step {w : World p} (hw : Wf w) {o : Op p} (ho : Plain o) : (step w o).map view = (view w).step o := by
  cases o with
  | newAtom initial =>
    have hk : ∀ r < w.heap.length, contents (w.heap ++ [initial.getD 0]) r = contents w.heap r := fun r hr => read_append hr
    simp only [step, Option.map_some, Points.step, view, List.map_append, List.map_cons, List.map_nil, map_keep hw.atoms hk,
      map_keep hw.losses hk, map_keep hw.results hk, problems_keep (fun P hP => (hw.problems P hP).1) hk, read_last w.heap _ []]
  | newLoss =>
    have hk : ∀ r < w.heap.length, contents (w.heap ++ [0]) r = contents w.heap r := fun r hr => read_append hr
    simp only [step, Option.map_some, Points.step, view, List.map_append, List.map_cons, List.map_nil, map_keep hw.atoms hk,
      map_keep hw.losses hk, map_keep hw.results hk, problems_keep (fun P hP => (hw.problems P hP).1) hk, read_last w.heap _ []]
  | newProblem l a =>
    simp only [step, Points.step]
    show _ = match (view w).losses[l]?, (view w).atoms[a]? with
      | some _, some x => _
      | _, _ => none
    simp only [view, map_getElem?]
    cases h1 : w.losses[l]? with
    | none => rfl
    | some c =>
      cases h2 : w.atoms[a]? with
      | none => rfl
      | some r => simp [view, List.map_set]
  | solve k run =>
    simp only [step, Points.step, view, map_getElem?]
    cases h1 : w.problems[k]? with
    | none => rfl
    | some P =>
      simp only [Option.map_some]
      cases h2 : w.atoms[P.atom]? with
      | none => rfl
      | some a =>
        have hP := (hw.problems P (mem_of_get h1)).1
        have hk : ∀ r < w.heap.length, contents (fista (run (contents w.heap P.coefs)) w.heap a P.coefs).1 r = contents w.heap r :=
          fun r hr => fista_read _ _ _ hr
        obtain ⟨-, -, f3⟩ := fista_coefs (run (contents w.heap P.coefs)) w.heap a P.coefs hP
        obtain ⟨-, -, g3⟩ := fista_atom (run (contents w.heap P.coefs)) w.heap a P.coefs (hw.atoms a (mem_of_get h2))
        simp only [Option.map_some, view, List.map_append, List.map_cons, List.map_nil, List.map_set, map_keep hw.atoms hk,
          map_keep hw.losses hk, map_keep hw.results hk, problems_keep (fun P hP => (hw.problems P hP).1) hk, f3, g3]
  | solveAtom a z =>
    simp only [step, Points.step, view, map_getElem?]
    cases h2 : w.atoms[a]? with
    | none => rfl
    | some r =>
      have hk : ∀ r < w.heap.length, contents (w.heap ++ [z]) r = contents w.heap r := fun r hr => read_append hr
      simp only [Option.map_some, view, List.map_append, List.map_cons, List.map_nil, List.map_set, map_keep hw.atoms hk,
        map_keep hw.losses hk, map_keep hw.results hk, problems_keep (fun P hP => (hw.problems P hP).1) hk, read_last w.heap _ []]
  | solveLoss l run =>
    simp only [step, Points.step, view, map_getElem?]
    cases h2 : w.losses[l]? with
    | none => rfl
    | some c =>
      have hk : ∀ r < w.heap.length, contents (fista (run (contents w.heap c)) w.heap 0 c).1 r = contents w.heap r :=
        fun r hr => fista_read _ _ _ hr
      obtain ⟨-, -, f3⟩ := fista_coefs (run (contents w.heap c)) w.heap 0 c (hw.losses c (mem_of_get h2))
      simp only [Option.map_some, view, List.map_append, List.map_cons, List.map_nil, List.map_set, map_keep hw.atoms hk,
        map_keep hw.losses hk, map_keep hw.results hk, problems_keep (fun P hP => (hw.problems P hP).1) hk, f3]
  | get s =>
    simp only [step, Points.step]
    rw [view_at w s ho]
    cases h : s.ref w with
    | none => rfl
    | some r => simp [view]
  | newNewton l a => exact absurd ho (by simp [Plain])
  | solveNewton l a => exact absurd ho (by simp [Plain])
  | newAdmm l => exact absurd ho (by simp [Plain])
  | solveAdmm l a => exact absurd ho (by simp [Plain])
  | write l a => exact absurd ho (by simp [Plain])

lemma sim_exec (os : List (Op p)) : ∀ {w : World p}, Wf w → (∀ o ∈ os, Plain o) →
    (exec os w).map view = Points.exec os (view w) := by
  induction os with
  | nil => intro w hw h; rfl
  | cons o os ih =>
    intro w hw h
    simp only [exec, Points.exec]
    rw [← sim_step hw (h o List.mem_cons_self)]
    cases h1 : step w o with
    | none => rfl
    | some w1 => exact ih (wf_step hw h1) fun o' ho' => h o' (List.mem_cons_of_mem _ ho')

lemma exec_append (os os' : List (Op p)) : ∀ w : World p, exec (os ++ os') w = (exec os w).bind (exec os') := by
  induction os with
  | nil => intro w; rfl
  | cons o os ih =>
    intro w
    simp only [List.cons_append, exec]
    cases step w o with
    | none => rfl
    | some w1 => exact ih w1

/-! ### a private array -/

/-- array `r` is reachable only as the point of atom `a`, and no problem uses the atom -/
structure Private (w : World p) (a r : ℕ) : Prop where
  here : w.atoms[a]? = some r
  lt : r < w.heap.length
  atoms : ∀ b, w.atoms[b]? = some r → b = a
  losses : r ∉ w.losses
  problems : ∀ P ∈ w.problems, P.coefs ≠ r ∧ P.atom ≠ a
  newtons : ∀ N ∈ w.newtons, N.coefs ≠ r ∧ N.inner ≠ r ∧ N.atom ≠ a
  admms : ∀ A ∈ w.admms, A.coefs ≠ r ∧ A.augmented ≠ r
  results : r ∉ w.results

lemma set_get {l : List ℕ} {b a r x : ℕ} (hb : b ≠ a) (hx : x ≠ r) (h1 : l[a]? = some r) (h2 : ∀ c, l[c]? = some r → c = a) :
    (l.set b x)[a]? = some r ∧ ∀ c, (l.set b x)[c]? = some r → c = a := by
  refine ⟨by rw [List.getElem?_set_ne hb]; exact h1, fun c hc => ?_⟩
  by_cases e : b = c
  · subst e
    rw [List.getElem?_set] at hc
    simp only [if_true] at hc
    split at hc
    · simp only [Option.some.injEq] at hc; exact absurd hc hx
    · exact absurd hc (by simp)
  · rw [List.getElem?_set_ne e] at hc; exact h2 c hc

lemma snoc_get {l : List ℕ} {a r x : ℕ} (hx : x ≠ r) (h1 : l[a]? = some r) (h2 : ∀ c, l[c]? = some r → c = a) :
    (l ++ [x])[a]? = some r ∧ ∀ c, (l ++ [x])[c]? = some r → c = a := by
  have hlt := (List.getElem?_eq_some_iff.1 h1).1
  refine ⟨by rw [List.getElem?_append_left hlt]; exact h1, fun c hc => ?_⟩
  by_cases e : c < l.length
  · rw [List.getElem?_append_left e] at hc; exact h2 c hc
  · rw [List.getElem?_append_right (by omega)] at hc
    have := List.mem_of_getElem? hc
    rw [List.mem_singleton] at this
    exact absurd this.symm hx

lemma not_mem_set {l : List ℕ} {i x r : ℕ} (h : r ∉ l) (hx : x ≠ r) : r ∉ l.set i x := fun hm => by
  rcases List.mem_or_eq_of_mem_set hm with h1 | h1
  · exact h h1
  · exact hx h1.symm

lemma not_mem_snoc {l : List ℕ} {x r : ℕ} (h : r ∉ l) (hx : x ≠ r) : r ∉ l ++ [x] := fun hm => by
  rcases List.mem_append.1 hm with h1 | h1
  · exact h h1
  · exact hx (List.mem_singleton.1 h1).symm

lemma private_ref {w : World p} {a r : ℕ} (h : Private w a r) {s : Slot} (hs : s.ref w = some r) : s = .atom a := by
  cases s with
  | atom b => rw [h.atoms b hs]
  | loss l => exact absurd (mem_of_get hs) h.losses
  | result j => exact absurd (mem_of_get hs) h.results
  | problem k =>
    obtain ⟨P, h1, h2⟩ := Option.map_eq_some_iff.1 hs
    exact absurd h2 (h.problems P (mem_of_get h1)).1
  | newton k =>
    obtain ⟨P, h1, h2⟩ := Option.map_eq_some_iff.1 hs
    exact absurd h2 (h.newtons P (mem_of_get h1)).1
  | inner k =>
    obtain ⟨P, h1, h2⟩ := Option.map_eq_some_iff.1 hs
    exact absurd h2 (h.newtons P (mem_of_get h1)).2.1
  | admm k =>
    obtain ⟨P, h1, h2⟩ := Option.map_eq_some_iff.1 hs
    exact absurd h2 (h.admms P (mem_of_get h1)).1

lemma private_keep {w w' : World p} (hw : Wf w) {a r : ℕ} (h : Private w a r) {o : Op p} (ho : ¬ Mentions a o)
    (hs : step w o = some w') : contents w'.heap r = contents w.heap r := by
  refine (frame_step hw hs).2 r h.lt fun hc => ?_
  cases o with
  | solveNewton k _ =>
    rcases hc with hc | hc
    · exact absurd (private_ref h hc) (by simp)
    · exact absurd (private_ref h hc) (by simp)
  | solveAdmm k _ => exact absurd (private_ref h hc) (by simp)
  | write s v =>
    have := private_ref h hc
    subst this
    exact ho rfl
  | _ => exact hc

lemma private_step {w w' : World p} (hw : Wf w) {a r : ℕ} (h : Private w a r) {o : Op p} (ho : ¬ Mentions a o)
    (hs : step w o = some w') : Private w' a r := by
  have hlt : r < w'.heap.length := lt_of_lt_of_le h.lt (frame_step hw hs).1
  cases o with
  | newAtom initial =>
    simp only [step, Option.some.injEq] at hs
    subst hs
    obtain ⟨h1, h2⟩ := snoc_get (x := w.heap.length) (by have := h.lt; omega) h.here h.atoms
    exact ⟨h1, hlt, h2, h.losses, h.problems, h.newtons, h.admms, h.results⟩
  | newLoss =>
    simp only [step, Option.some.injEq] at hs
    subst hs
    exact ⟨h.here, hlt, h.atoms, not_mem_snoc h.losses (by have := h.lt; omega), h.problems, h.newtons, h.admms, h.results⟩
  | newProblem l b =>
    simp only [step] at hs
    split at hs
    · rename_i c x h1 h2
      simp only [Option.some.injEq] at hs
      subst hs
      have hx : x ≠ r := fun e => ho (h.atoms b (e ▸ h2))
      exact ⟨h.here, hlt, h.atoms, not_mem_set h.losses hx, forall_snoc h.problems ⟨hx, ho⟩, h.newtons, h.admms, h.results⟩
    · exact absurd hs (by simp)
  | newNewton l b =>
    simp only [step] at hs
    split at hs
    · rename_i c x h1 h2
      simp only [Option.some.injEq] at hs
      subst hs
      have hx : x ≠ r := fun e => ho (h.atoms b (e ▸ h2))
      exact ⟨h.here, hlt, h.atoms, not_mem_set h.losses hx, h.problems, forall_snoc h.newtons ⟨hx, hx, ho⟩, h.admms, h.results⟩
    · exact absurd hs (by simp)
  | solve k run =>
    simp only [step] at hs
    split at hs
    · exact absurd hs (by simp)
    · rename_i P hP
      split at hs
      · exact absurd hs (by simp)
      · rename_i x hx
        simp only [Option.some.injEq] at hs
        subst hs
        obtain ⟨p1, p2⟩ := h.problems P (mem_of_get hP)
        have hxr : x ≠ r := fun e => p2 (h.atoms _ (e ▸ hx))
        have f := (fista_coefs (run (contents w.heap P.coefs)) w.heap x P.coefs (hw.problems P (mem_of_get hP)).1).1
        have g := (fista_atom (run (contents w.heap P.coefs)) w.heap x P.coefs (hw.atoms x (mem_of_get hx))).1
        have hf : (fista (run (contents w.heap P.coefs)) w.heap x P.coefs).2.2 ≠ r := by
          rcases f with f | f
          · rw [f]; exact p1
          · have := h.lt; omega
        have hg : (fista (run (contents w.heap P.coefs)) w.heap x P.coefs).2.1 ≠ r := by
          rcases g with g | g
          · rw [g]; exact hxr
          · have := h.lt; omega
        obtain ⟨h1, h2⟩ := set_get p2 hg h.here h.atoms
        exact ⟨h1, hlt, h2, h.losses, forall_set h.problems ⟨hf, p2⟩, h.newtons, h.admms, not_mem_snoc h.results hf⟩
  | solveAtom b z =>
    simp only [step] at hs
    split at hs
    · exact absurd hs (by simp)
    · rename_i a0 ha
      simp only [Option.some.injEq] at hs
      subst hs
      have hn : w.heap.length ≠ r := by have := h.lt; omega
      obtain ⟨h1, h2⟩ := set_get (b := b) (x := w.heap.length) (fun e => ho e) hn h.here h.atoms
      exact ⟨h1, hlt, h2, h.losses, h.problems, h.newtons, h.admms, not_mem_snoc h.results hn⟩
  | solveLoss l run =>
    simp only [step] at hs
    split at hs
    · exact absurd hs (by simp)
    · rename_i c hc
      simp only [Option.some.injEq] at hs
      subst hs
      have hcr : c ≠ r := fun e => h.losses (e ▸ mem_of_get hc)
      have f := (fista_coefs (run (contents w.heap c)) w.heap 0 c (hw.losses c (mem_of_get hc))).1
      have hf : (fista (run (contents w.heap c)) w.heap 0 c).2.2 ≠ r := by
        rcases f with f | f
        · rw [f]; exact hcr
        · have := h.lt; omega
      exact ⟨h.here, hlt, h.atoms, not_mem_set h.losses hf, h.problems, h.newtons, h.admms, not_mem_snoc h.results hf⟩
  | solveNewton k steps =>
    simp only [step] at hs
    split at hs
    · exact absurd hs (by simp)
    · exact absurd hs (by simp)
    · rename_i N s rest hN
      split at hs
      · exact absurd hs (by simp)
      · rename_i x hx
        simp only [Option.some.injEq] at hs
        subst hs
        obtain ⟨n1, n2, n3⟩ := hw.newtons N (mem_of_get hN)
        obtain ⟨p1, p2, p3⟩ := h.newtons N (mem_of_get hN)
        have hxr : x ≠ r := fun e => p3 (h.atoms _ (e ▸ hx))
        obtain ⟨j1, j2, j3, j4, j5, j6, j7, j8, j9⟩ := newtonLoop_spec rest s w.heap x N.coefs N.inner
          (hw.atoms x (mem_of_get hx)) n1 n2
        have hr := h.lt
        set L := newtonLoop (s :: rest) w.heap x N.coefs N.inner with hL
        have e1 : L.2.1 ≠ r := by
          rcases j2 with j | j
          · rw [j]; exact hxr
          · omega
        have e2 : L.2.2.1 ≠ r := by
          rcases j4 with j | j
          · rw [j]; exact p1
          · omega
        have e3 : L.2.2.2 ≠ r := by
          rcases j6 with j | j
          · rw [j]; exact p2
          · omega
        obtain ⟨h1, h2⟩ := set_get p3 e1 h.here h.atoms
        exact ⟨h1, hlt, h2, h.losses, h.problems, forall_set h.newtons ⟨e2, e3, p3⟩, h.admms, not_mem_snoc h.results e2⟩
  | newAdmm l =>
    simp only [step] at hs
    split at hs
    · exact absurd hs (by simp)
    · rename_i c hc
      simp only [Option.some.injEq] at hs
      subst hs
      have hcr : c ≠ r := fun e => h.losses (e ▸ mem_of_get hc)
      exact ⟨h.here, hlt, h.atoms, h.losses, h.problems, h.newtons, forall_snoc h.admms ⟨hcr, hcr⟩, h.results⟩
  | solveAdmm k runs =>
    simp only [step] at hs
    split at hs
    · exact absurd hs (by simp)
    · rename_i A hA
      simp only [Option.some.injEq] at hs
      subst hs
      obtain ⟨n1, n2⟩ := hw.admms A (mem_of_get hA)
      obtain ⟨p1, p2⟩ := h.admms A (mem_of_get hA)
      obtain ⟨j1, j2, j3, j4, j5⟩ := admmLoop_spec runs w.heap A.coefs A.augmented n1 n2
      have hr := h.lt
      have e : (admmLoop runs w.heap A.coefs A.augmented).2 ≠ r := by
        rcases j2 with j | j
        · rw [j]; exact p2
        · omega
      exact ⟨h.here, hlt, h.atoms, h.losses, h.problems, h.newtons, forall_set h.admms ⟨p1, e⟩, h.results⟩
  | get s =>
    simp only [step] at hs
    split at hs
    · exact absurd hs (by simp)
    · rename_i x hx
      simp only [Option.some.injEq] at hs
      subst hs
      have hxr : x ≠ r := fun e => by
        have := private_ref h (e ▸ hx)
        subst this
        exact ho rfl
      exact ⟨h.here, hlt, h.atoms, h.losses, h.problems, h.newtons, h.admms, not_mem_snoc h.results hxr⟩
  | write s v =>
    simp only [step] at hs
    split at hs
    · exact absurd hs (by simp)
    · simp only [Option.some.injEq] at hs
      subst hs
      exact ⟨h.here, hlt, h.atoms, h.losses, h.problems, h.newtons, h.admms, h.results⟩

lemma private_exec (os : List (Op p)) : ∀ {w w' : World p} {a r : ℕ}, Wf w → Private w a r → (∀ o ∈ os, ¬ Mentions a o) →
    exec os w = some w' → Private w' a r ∧ contents w'.heap r = contents w.heap r := by
  induction os with
  | nil => intro w w' a r hw h ho he; simp only [exec, Option.some.injEq] at he; subst he; exact ⟨h, rfl⟩
  | cons o os ih =>
    intro w w' a r hw h ho he
    simp only [exec] at he
    obtain ⟨w1, h1, h2⟩ := Option.bind_eq_some_iff.1 he
    have hm := ho o List.mem_cons_self
    obtain ⟨k1, k2⟩ := ih (wf_step hw h1) (private_step hw h hm h1) (fun o' ho' => ho o' (List.mem_cons_of_mem _ ho')) h2
    exact ⟨k1, by rw [k2, private_keep hw h hm h1]⟩

lemma private_new {w w' : World p} (hw : Wf w) {initial : Option (Vec p)} (hs : step w (.newAtom initial) = some w') :
    Private w' w.atoms.length w.heap.length ∧ contents w'.heap w.heap.length = initial.getD 0 := by
  simp only [step, Option.some.injEq] at hs
  subst hs
  refine ⟨⟨by simp, by simp, fun b hb => ?_, fun h => lt_irrefl _ (hw.losses _ h),
    fun P hP => ⟨(hw.problems P hP).1.ne, (hw.problems P hP).2.ne⟩,
    fun N hN => ⟨(hw.newtons N hN).1.ne, (hw.newtons N hN).2.1.ne, (hw.newtons N hN).2.2.ne⟩,
    fun A hA => ⟨(hw.admms A hA).1.ne, (hw.admms A hA).2.ne⟩, fun h => lt_irrefl _ (hw.results _ h)⟩, read_last _ _ []⟩
  dsimp only at hb
  by_cases e : b < w.atoms.length
  · rw [List.getElem?_append_left e] at hb
    exact absurd (hw.atoms _ (mem_of_get hb)) (lt_irrefl _)
  · rw [List.getElem?_append_right (by omega)] at hb
    have := (List.getElem?_eq_some_iff.1 hb).1
    simp at this; omega

end Verif.Lemmas.SolveHeap
