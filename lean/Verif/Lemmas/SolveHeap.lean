import Verif.Spec.SolveValues
import Mathlib.Data.List.GetD

/-!
# Lemmas on the heap of coefficient arrays
-/

set_option linter.unusedSectionVars false
set_option linter.unusedVariables false

namespace Verif.Lemmas.SolveHeap
open Verif.Model.SolveHeap Verif.Spec.Solve

variable {p : ℕ}

lemma read_append {h k : List (Vec p)} {r : ℕ} (hr : r < h.length) : contents (h ++ k) r = contents h r := by
  unfold contents
  rw [List.getD_append _ _ _ _ hr]

lemma read_last (h : List (Vec p)) (v : Vec p) (k : List (Vec p)) : contents (h ++ v :: k) h.length = v := by
  unfold contents
  rw [List.getD_append_right _ _ _ _ le_rfl]; simp

lemma read_set_self {h : List (Vec p)} {r : ℕ} (hr : r < h.length) (v : Vec p) : contents (h.set r v) r = v := by
  unfold contents
  rw [List.getD_eq_getElem?_getD, List.getElem?_set_self hr]; rfl

lemma read_set_ne {h : List (Vec p)} {r s : ℕ} (hrs : r ≠ s) (v : Vec p) : contents (h.set r v) s = contents h s := by
  unfold contents
  rw [List.getD_eq_getElem?_getD, List.getD_eq_getElem?_getD, List.getElem?_set_ne hrs]

/-- setting a position to the value at an alias of it, or to anything if they differ, keeps the alias -/
lemma read_set_copy {h : List (Vec p)} {i c : ℕ} (hi : i < h.length) :
    contents (h.set i (contents h c)) c = contents h c := by
  by_cases hic : i = c
  · subst hic; exact read_set_self hi _
  · exact read_set_ne hic _

/-! ### `fista` -/

lemma fista_heap (t : Trace p) : ∀ (h : List (Vec p)) (a c : ℕ), (fista t h a c).1 = h ++ t.map Prod.fst := by
  induction t with
  | nil => intro h a c; simp [fista]
  | cons x t ih =>
    intro h a c
    obtain ⟨v, b⟩ := x
    simp only [fista]
    rw [ih]; simp

lemma fista_length (t : Trace p) (h : List (Vec p)) (a c : ℕ) : h.length ≤ (fista t h a c).1.length := by
  rw [fista_heap]; simp

lemma fista_read (t : Trace p) {h : List (Vec p)} (a c : ℕ) {r : ℕ} (hr : r < h.length) :
    contents (fista t h a c).1 r = contents h r := by
  rw [fista_heap]; exact read_append hr

/-- the references are old ones or new ones -/
lemma fista_coefs (t : Trace p) : ∀ (h : List (Vec p)) (a c : ℕ), c < h.length →
    ((fista t h a c).2.2 = c ∨ h.length ≤ (fista t h a c).2.2) ∧ (fista t h a c).2.2 < (fista t h a c).1.length ∧
    contents (fista t h a c).1 (fista t h a c).2.2 = solution t (contents h c) := by
  induction t with
  | nil => intro h a c hc; exact ⟨Or.inl rfl, hc, rfl⟩
  | cons x t ih =>
    intro h a c hc
    obtain ⟨v, b⟩ := x
    cases b with
    | true =>
      have := ih (h ++ [v]) h.length h.length (by simp)
      simp only [fista, solution, if_true]
      rw [read_last h v []] at this
      obtain ⟨h1, h2, h3⟩ := this
      refine ⟨Or.inr ?_, h2, h3⟩
      rcases h1 with h1 | h1
      · rw [h1]
      · simp only [List.length_append, List.length_singleton] at h1; omega
    | false =>
      have := ih (h ++ [v]) h.length c (by simp; omega)
      simp only [fista, solution]
      rw [read_append hc] at this
      obtain ⟨h1, h2, h3⟩ := this
      refine ⟨?_, h2, h3⟩
      rcases h1 with h1 | h1
      · exact Or.inl h1
      · right; simp only [List.length_append, List.length_singleton] at h1
        show h.length ≤ (fista t (h ++ [v]) h.length c).2.2
        omega

lemma fista_atom (t : Trace p) : ∀ (h : List (Vec p)) (a c : ℕ), a < h.length →
    ((fista t h a c).2.1 = a ∨ h.length ≤ (fista t h a c).2.1) ∧ (fista t h a c).2.1 < (fista t h a c).1.length ∧
    contents (fista t h a c).1 (fista t h a c).2.1 = lastPoint t (contents h a) := by
  induction t with
  | nil => intro h a c ha; exact ⟨Or.inl rfl, ha, rfl⟩
  | cons x t ih =>
    intro h a c ha
    obtain ⟨v, b⟩ := x
    have := ih (h ++ [v]) h.length (if b then h.length else c) (by simp)
    simp only [fista, lastPoint]
    rw [read_last h v []] at this
    obtain ⟨h1, h2, h3⟩ := this
    refine ⟨Or.inr ?_, h2, h3⟩
    rcases h1 with h1 | h1
    · rw [h1]
    · simp only [List.length_append, List.length_singleton] at h1; omega

/-! ### `newtonLoop` and `admmLoop` -/

lemma newtonSolution_cons (s s' : NewtonStep p) (rest : List (NewtonStep p)) (x : Vec p) :
    newtonSolution (s :: s' :: rest) x = match s.next x (solution (s.run x) x) with
      | some y => newtonSolution (s' :: rest) y
      | none => some (solution (s.run x) x) := by
  conv_lhs => unfold newtonSolution
  cases s.next x (solution (s.run x) x) <;> rfl

/-- what the loop of `quasi_newton` does, the last inner solution being at `i'` -/
lemma newtonLoop_spec (rest : List (NewtonStep p)) : ∀ (s : NewtonStep p) (h : List (Vec p)) (a c i : ℕ),
    a < h.length → c < h.length → i < h.length →
    let r := newtonLoop (s :: rest) h a c i
    h.length ≤ r.1.length ∧ (r.2.1 = a ∨ h.length ≤ r.2.1) ∧ r.2.1 < r.1.length ∧ (r.2.2.1 = c ∨ h.length ≤ r.2.2.1) ∧
      r.2.2.1 < r.1.length ∧ (r.2.2.2 = i ∨ h.length ≤ r.2.2.2) ∧ r.2.2.2 < r.1.length ∧
      (∀ x < h.length, x ≠ i → contents r.1 x = contents h x) ∧
      newtonSolution (s :: rest) (contents h c) = some (contents r.1 r.2.2.2) := by
  induction rest with
  | nil =>
    intro s h a c i ha hc hi
    have hl : (h.set i (contents h c)).length = h.length := List.length_set
    have e1 : contents (h.set i (contents h c)) i = contents h c := read_set_self hi _
    have e2 : contents (h.set i (contents h c)) c = contents h c := read_set_copy hi
    set t := s.run (contents (h.set i (contents h c)) i) with ht
    obtain ⟨f1, f2, f3⟩ := fista_coefs t (h.set i (contents h c)) a i (by rw [hl]; exact hi)
    obtain ⟨g1, g2, g3⟩ := fista_atom t (h.set i (contents h c)) a i (by rw [hl]; exact ha)
    have hlen := fista_length t (h.set i (contents h c)) a i
    have hrd : ∀ x < h.length, x ≠ i → contents (fista t (h.set i (contents h c)) a i).1 x = contents h x := fun x hx hxi => by
      rw [fista_read t a i (by rw [hl]; exact hx), read_set_ne (Ne.symm hxi)]
    have hrc : contents (fista t (h.set i (contents h c)) a i).1 c = contents h c := by
      rw [fista_read t a i (by rw [hl]; exact hc), e2]
    rw [hl] at f1 g1 hlen
    intro r
    have hr : r = newtonLoop [s] h a c i := rfl
    unfold newtonLoop at hr
    dsimp only at hr
    rw [← ht, hrc, f3, e1] at hr
    unfold newtonSolution
    have e3 : s.run (contents h c) = t := by rw [ht, e1]
    rw [e3]
    cases hn : s.next (contents h c) (solution t (contents h c)) with
    | none =>
      rw [hn] at hr
      dsimp only at hr
      rw [hr]
      refine ⟨hlen, g1, g2, Or.inl rfl, lt_of_lt_of_le hc hlen, f1, f2, hrd, ?_⟩
      dsimp only
      rw [f3, e1]
    | some y =>
      rw [hn] at hr
      dsimp only [newtonLoop] at hr
      rw [hr]
      dsimp only
      refine ⟨by simp; omega, g1, by simp; omega, Or.inr hlen, by simp, f1, by simp; omega, fun x hx hxi => ?_, ?_⟩
      · rw [read_append (lt_of_lt_of_le hx hlen)]; exact hrd x hx hxi
      · rw [read_append f2, f3, e1]
  | cons s' rest ih =>
    intro s h a c i ha hc hi
    have hl : (h.set i (contents h c)).length = h.length := List.length_set
    have e1 : contents (h.set i (contents h c)) i = contents h c := read_set_self hi _
    have e2 : contents (h.set i (contents h c)) c = contents h c := read_set_copy hi
    set t := s.run (contents (h.set i (contents h c)) i) with ht
    obtain ⟨f1, f2, f3⟩ := fista_coefs t (h.set i (contents h c)) a i (by rw [hl]; exact hi)
    obtain ⟨g1, g2, g3⟩ := fista_atom t (h.set i (contents h c)) a i (by rw [hl]; exact ha)
    have hlen := fista_length t (h.set i (contents h c)) a i
    have hrd : ∀ x < h.length, x ≠ i → contents (fista t (h.set i (contents h c)) a i).1 x = contents h x := fun x hx hxi => by
      rw [fista_read t a i (by rw [hl]; exact hx), read_set_ne (Ne.symm hxi)]
    have hrc : contents (fista t (h.set i (contents h c)) a i).1 c = contents h c := by
      rw [fista_read t a i (by rw [hl]; exact hc), e2]
    rw [hl] at f1 g1 hlen
    intro r
    have hr : r = newtonLoop (s :: s' :: rest) h a c i := rfl
    rw [newtonLoop] at hr
    rw [← ht, hrc, f3, e1] at hr
    rw [newtonSolution_cons]
    have e3 : s.run (contents h c) = t := by rw [ht, e1]
    rw [e3]
    cases hn : s.next (contents h c) (solution t (contents h c)) with
    | none =>
      rw [hn] at hr
      dsimp only at hr
      rw [hr]
      refine ⟨hlen, g1, g2, Or.inl rfl, lt_of_lt_of_le hc hlen, f1, f2, hrd, ?_⟩
      dsimp only
      rw [f3, e1]
    | some y =>
      rw [hn] at hr
      dsimp only at hr
      set F := fista t (h.set i (contents h c)) a i with hF
      obtain ⟨j1, j2, j3, j4, j5, j6, j7, j8, j9⟩ := ih s' (F.1 ++ [y]) F.2.1 F.1.length F.2.2 (by simp; omega) (by simp)
        (by simp; omega)
      rw [hr]
      simp only [List.length_append, List.length_singleton] at j1 j2 j4 j6 j8
      dsimp only
      refine ⟨by omega, ?_, j3, ?_, j5, ?_, j7, fun x hx hxi => ?_, ?_⟩
      · rcases j2 with j2 | j2
        · rw [j2]; exact g1
        · right; omega
      · rcases j4 with j4 | j4
        · right; rw [j4]; exact hlen
        · right; omega
      · rcases j6 with j6 | j6
        · rw [j6]; exact f1
        · right; omega
      · rw [j8 x (by omega) ?_, read_append (lt_of_lt_of_le hx hlen)]
        · exact hrd x hx hxi
        · rcases f1 with f1 | f1
          · rw [f1]; exact hxi
          · omega
      · rw [read_last F.1 y []] at j9
        exact j9

lemma admmLoop_spec (runs : List (Vec p → Trace p)) : ∀ (h : List (Vec p)) (c g : ℕ), c < h.length → g < h.length →
    let r := admmLoop runs h c g
    h.length ≤ r.1.length ∧ (r.2 = g ∨ h.length ≤ r.2) ∧ r.2 < r.1.length ∧
      (∀ x < h.length, x ≠ c → contents r.1 x = contents h x) ∧
      (contents r.1 c, contents r.1 r.2) = admmSolution runs (contents h c) (contents h g) := by
  induction runs with
  | nil => intro h c g hc hg; exact ⟨le_rfl, Or.inl rfl, hg, fun _ _ _ => rfl, rfl⟩
  | cons run rest ih =>
    intro h c g hc hg
    set t := run (contents h g) with ht
    obtain ⟨f1, f2, f3⟩ := fista_coefs t h 0 g hg
    have hlen := fista_length t h 0 g
    set F := fista t h 0 g with hF
    have hcF : c < F.1.length := lt_of_lt_of_le hc hlen
    have hlen2 : (F.1.set c (contents F.1 F.2.2)).length = F.1.length := List.length_set
    obtain ⟨j1, j2, j3, j4, j5⟩ := ih (F.1.set c (contents F.1 F.2.2)) c F.2.2 (by rw [hlen2]; exact hcF) (by rw [hlen2]; exact f2)
    rw [hlen2] at j1 j2 j4
    intro r
    have hr : r = admmLoop rest (F.1.set c (contents F.1 F.2.2)) c F.2.2 := rfl
    rw [hr]
    refine ⟨by omega, ?_, j3, fun x hx hxc => ?_, ?_⟩
    · rcases j2 with j2 | j2
      · rw [j2]; exact f1
      · right; omega
    · rw [j4 x (by omega) hxc, read_set_ne (Ne.symm hxc)]
      exact fista_read t 0 g hx
    · rw [j5, admmSolution, ← ht, read_set_self hcF, read_set_copy hcF, f3]

/-! ### well formed worlds -/

/-- every reference points to an array, every problem has an atom -/
structure Wf (w : World p) : Prop where
  atoms : ∀ r ∈ w.atoms, r < w.heap.length
  losses : ∀ r ∈ w.losses, r < w.heap.length
  problems : ∀ P ∈ w.problems, P.coefs < w.heap.length ∧ P.atom < w.atoms.length
  newtons : ∀ N ∈ w.newtons, N.coefs < w.heap.length ∧ N.inner < w.heap.length ∧ N.atom < w.atoms.length
  admms : ∀ A ∈ w.admms, A.coefs < w.heap.length ∧ A.augmented < w.heap.length
  results : ∀ r ∈ w.results, r < w.heap.length

lemma mem_of_get {α : Type*} {l : List α} {i : ℕ} {x : α} (h : l[i]? = some x) : x ∈ l := List.mem_of_getElem? h

lemma ref_lt {w : World p} (hw : Wf w) {s : Slot} {r : ℕ} (h : s.ref w = some r) : r < w.heap.length := by
  cases s with
  | atom a => exact hw.atoms r (mem_of_get h)
  | loss l => exact hw.losses r (mem_of_get h)
  | result j => exact hw.results r (mem_of_get h)
  | problem k =>
    obtain ⟨P, h1, rfl⟩ := Option.map_eq_some_iff.1 h
    exact (hw.problems P (mem_of_get h1)).1
  | newton k =>
    obtain ⟨P, h1, rfl⟩ := Option.map_eq_some_iff.1 h
    exact (hw.newtons P (mem_of_get h1)).1
  | inner k =>
    obtain ⟨P, h1, rfl⟩ := Option.map_eq_some_iff.1 h
    exact (hw.newtons P (mem_of_get h1)).2.1
  | admm k =>
    obtain ⟨P, h1, rfl⟩ := Option.map_eq_some_iff.1 h
    exact (hw.admms P (mem_of_get h1)).1

lemma forall_set {α : Type*} {P : α → Prop} {l : List α} {i : ℕ} {x : α} (h : ∀ y ∈ l, P y) (hx : P x) :
    ∀ y ∈ l.set i x, P y := fun y hy => by
  rcases List.mem_or_eq_of_mem_set hy with h1 | h1
  · exact h y h1
  · rw [h1]; exact hx

lemma forall_snoc {α : Type*} {P : α → Prop} {l : List α} {x : α} (h : ∀ y ∈ l, P y) (hx : P x) :
    ∀ y ∈ l ++ [x], P y := fun y hy => by
  rcases List.mem_append.1 hy with h1 | h1
  · exact h y h1
  · rw [List.mem_singleton.1 h1]; exact hx

/-- a world keeps its references when arrays are added -/
lemma Wf.grow {w : World p} (hw : Wf w) {h : List (Vec p)} (hh : w.heap.length ≤ h.length) : Wf { w with heap := h } :=
  ⟨fun r hr => lt_of_lt_of_le (hw.atoms r hr) hh, fun r hr => lt_of_lt_of_le (hw.losses r hr) hh,
    fun P hP => ⟨lt_of_lt_of_le (hw.problems P hP).1 hh, (hw.problems P hP).2⟩,
    fun N hN => ⟨lt_of_lt_of_le (hw.newtons N hN).1 hh, lt_of_lt_of_le (hw.newtons N hN).2.1 hh, (hw.newtons N hN).2.2⟩,
    fun A hA => ⟨lt_of_lt_of_le (hw.admms A hA).1 hh, lt_of_lt_of_le (hw.admms A hA).2 hh⟩,
    fun r hr => lt_of_lt_of_le (hw.results r hr) hh⟩

lemma wf_step {w w' : World p} (hw : Wf w) {o : Op p} (h : step w o = some w') : Wf w' := by
  cases o with
  | newAtom initial =>
    simp only [step, Option.some.injEq] at h
    subst h
    have hg := hw.grow (h := w.heap ++ [initial.getD 0]) (by simp)
    refine ⟨forall_snoc hg.atoms (by simp), hg.losses, fun P hP => ⟨(hg.problems P hP).1, ?_⟩,
      fun N hN => ⟨(hg.newtons N hN).1, (hg.newtons N hN).2.1, ?_⟩, hg.admms, hg.results⟩
    · have := (hw.problems P hP).2; simp; omega
    · have := (hw.newtons N hN).2.2; simp; omega
  | newLoss =>
    simp only [step, Option.some.injEq] at h
    subst h
    have hg := hw.grow (h := w.heap ++ [0]) (by simp)
    exact ⟨hg.atoms, forall_snoc hg.losses (by simp), hg.problems, hg.newtons, hg.admms, hg.results⟩
  | newProblem l a =>
    simp only [step] at h
    split at h
    · rename_i r0 r h1 h2
      simp only [Option.some.injEq] at h
      subst h
      have hr := hw.atoms r (mem_of_get h2)
      exact ⟨hw.atoms, forall_set hw.losses hr, forall_snoc hw.problems ⟨hr, (List.getElem?_eq_some_iff.1 h2).1⟩, hw.newtons,
        hw.admms, hw.results⟩
    · exact absurd h (by simp)
  | solve k run =>
    simp only [step] at h
    split at h
    · exact absurd h (by simp)
    · rename_i P hP
      split at h
      · exact absurd h (by simp)
      · rename_i a ha
        simp only [Option.some.injEq] at h
        subst h
        have h1 := fista_coefs (run (contents w.heap P.coefs)) w.heap a P.coefs (hw.problems P (mem_of_get hP)).1
        have h2 := fista_atom (run (contents w.heap P.coefs)) w.heap a P.coefs (hw.atoms a (mem_of_get ha))
        have hg := hw.grow (fista_length (run (contents w.heap P.coefs)) w.heap a P.coefs)
        refine ⟨forall_set hg.atoms h2.2.1, hg.losses, ?_, fun N hN => ?_, hg.admms, forall_snoc hg.results h1.2.1⟩
        · refine forall_set (fun Q hQ => ⟨(hg.problems Q hQ).1, ?_⟩) ⟨h1.2.1, ?_⟩
          · rw [List.length_set]; exact (hw.problems Q hQ).2
          · rw [List.length_set]; exact (hw.problems P (mem_of_get hP)).2
        · refine ⟨(hg.newtons N hN).1, (hg.newtons N hN).2.1, ?_⟩
          rw [List.length_set]; exact (hw.newtons N hN).2.2
  | solveAtom a z =>
    simp only [step] at h
    split at h
    · exact absurd h (by simp)
    · rename_i a0 ha
      simp only [Option.some.injEq] at h
      subst h
      have hg := hw.grow (h := w.heap ++ [z]) (by simp)
      refine ⟨forall_set hg.atoms (by simp), hg.losses, fun P hP => ⟨(hg.problems P hP).1, ?_⟩,
        fun N hN => ⟨(hg.newtons N hN).1, (hg.newtons N hN).2.1, ?_⟩, hg.admms, forall_snoc hg.results (by simp)⟩
      · rw [List.length_set]; exact (hw.problems P hP).2
      · rw [List.length_set]; exact (hw.newtons N hN).2.2
  | solveLoss l run =>
    simp only [step] at h
    split at h
    · exact absurd h (by simp)
    · rename_i c hc
      simp only [Option.some.injEq] at h
      subst h
      have h1 := fista_coefs (run (contents w.heap c)) w.heap 0 c (hw.losses c (mem_of_get hc))
      have hg := hw.grow (fista_length (run (contents w.heap c)) w.heap 0 c)
      exact ⟨hg.atoms, forall_set hg.losses h1.2.1, hg.problems, hg.newtons, hg.admms, forall_snoc hg.results h1.2.1⟩
  | newNewton l a =>
    simp only [step] at h
    split at h
    · rename_i r0 r h1 h2
      simp only [Option.some.injEq] at h
      subst h
      have hr := hw.atoms r (mem_of_get h2)
      exact ⟨hw.atoms, forall_set hw.losses hr, hw.problems, forall_snoc hw.newtons ⟨hr, hr, (List.getElem?_eq_some_iff.1 h2).1⟩,
        hw.admms, hw.results⟩
    · exact absurd h (by simp)
  | solveNewton k steps =>
    simp only [step] at h
    split at h
    · exact absurd h (by simp)
    · exact absurd h (by simp)
    · rename_i N s rest hN
      split at h
      · exact absurd h (by simp)
      · rename_i a ha
        simp only [Option.some.injEq] at h
        subst h
        obtain ⟨n1, n2, n3⟩ := hw.newtons N (mem_of_get hN)
        obtain ⟨j1, j2, j3, j4, j5, j6, j7, j8, j9⟩ := newtonLoop_spec rest s w.heap a N.coefs N.inner
          (hw.atoms a (mem_of_get ha)) n1 n2
        have hlen : ∀ c v, ((newtonLoop (s :: rest) w.heap a N.coefs N.inner).1.set c v).length =
            (newtonLoop (s :: rest) w.heap a N.coefs N.inner).1.length := fun c v => List.length_set
        have hg := hw.grow j1
        refine ⟨?_, ?_, ?_, ?_, ?_, ?_⟩ <;> dsimp only <;> simp only [hlen, List.length_set]
        · exact forall_set hg.atoms j3
        · exact hg.losses
        · exact hg.problems
        · exact forall_set hg.newtons ⟨j5, j7, n3⟩
        · exact hg.admms
        · exact forall_snoc hg.results j5
  | newAdmm l =>
    simp only [step] at h
    split at h
    · exact absurd h (by simp)
    · rename_i r hr
      simp only [Option.some.injEq] at h
      subst h
      have hr := hw.losses r (mem_of_get hr)
      exact ⟨hw.atoms, hw.losses, hw.problems, hw.newtons, forall_snoc hw.admms ⟨hr, hr⟩, hw.results⟩
  | solveAdmm k runs =>
    simp only [step] at h
    split at h
    · exact absurd h (by simp)
    · rename_i A hA
      simp only [Option.some.injEq] at h
      subst h
      obtain ⟨n1, n2⟩ := hw.admms A (mem_of_get hA)
      obtain ⟨j1, j2, j3, j4, j5⟩ := admmLoop_spec runs w.heap A.coefs A.augmented n1 n2
      have hg := hw.grow j1
      exact ⟨hg.atoms, hg.losses, hg.problems, hg.newtons, forall_set hg.admms ⟨lt_of_lt_of_le n1 j1, j3⟩, hg.results⟩
  | get s =>
    simp only [step] at h
    split at h
    · exact absurd h (by simp)
    · rename_i r hr
      simp only [Option.some.injEq] at h
      subst h
      exact ⟨hw.atoms, hw.losses, hw.problems, hw.newtons, hw.admms, forall_snoc hw.results (ref_lt hw hr)⟩
  | write s v =>
    simp only [step] at h
    split at h
    · exact absurd h (by simp)
    · rename_i r hr
      simp only [Option.some.injEq] at h
      subst h
      exact hw.grow (by rw [List.length_set])

lemma wf_empty : Wf (World.empty p) := by
  refine ⟨?_, ?_, ?_, ?_, ?_, ?_⟩ <;> intro r hr <;> exact absurd hr (by simp [World.empty])

lemma wf_exec (os : List (Op p)) : ∀ {w w' : World p}, Wf w → exec os w = some w' → Wf w' := by
  induction os with
  | nil => intro w w' hw h; simp only [exec, Option.some.injEq] at h; exact h ▸ hw
  | cons o os ih =>
    intro w w' hw h
    simp only [exec] at h
    obtain ⟨w1, h1, h2⟩ := Option.bind_eq_some_iff.1 h
    exact ih (wf_step hw h1) h2

end Verif.Lemmas.SolveHeap
