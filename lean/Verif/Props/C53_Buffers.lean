import Verif.Model.Buffers
import Mathlib.Tactic.NormNum
import Mathlib.Data.Rat.Floor

/-!
# C53 (results keep their values) and C54 (assigning an offset)
-/

set_option linter.unusedSectionVars false
set_option linter.unusedVariables false

namespace Verif.Props
open Verif.Model Verif.Model.Buffers

variable {K : Type} [Field K] [LinearOrder K] [DecidableEq K]

/-! ### C53 -/

/-- the array `adjoint_map(u)` should return -/
def selValue {m r k : ℕ} (idx : Fin r → Fin m) (T : Aff K r k) (u : Fin k → K) : Fin m → K := (Aff.selector idx T).adj u

private lemma foldl_hit {m r : ℕ} (idx : Fin r → Fin m) (v : Fin r → K) (i : Fin m) (l : List (Fin r)) :
    ∀ a b, (∃ j ∈ l, idx j = i) →
    l.foldl (fun (acc : K) j => if idx j = i then v j else acc) a = l.foldl (fun (acc : K) j => if idx j = i then v j else acc) b := by
  induction l with
  | nil => rintro a b ⟨j, hj, _⟩; simp at hj
  | cons c l ih =>
    intro a b ⟨j, hj, hji⟩
    simp only [List.foldl_cons]
    by_cases hc : idx c = i
    · simp [hc]
    · have : ∃ j ∈ l, idx j = i := by
        rcases List.mem_cons.1 hj with h | h
        · exact absurd (h ▸ hji) hc
        · exact ⟨j, h, hji⟩
      exact ih _ _ this

private lemma foldl_miss {m r : ℕ} (idx : Fin r → Fin m) (v : Fin r → K) (i : Fin m) (l : List (Fin r)) :
    ∀ a, (∀ j ∈ l, idx j ≠ i) → l.foldl (fun (acc : K) j => if idx j = i then v j else acc) a = a := by
  induction l with
  | nil => intro a _; rfl
  | cons c l ih =>
    intro a h
    simp only [List.foldl_cons]
    rw [if_neg (h c (by simp))]
    exact ih a fun j hj => h j (by simp [hj])

private lemma assign_clean {m r k : ℕ} (idx : Fin r → Fin m) (T : Aff K r k) (u : Fin k → K) (old : Fin m → K)
    (hold : ∀ i, (∀ j, idx j ≠ i) → old i = 0) : assignAt idx (T.adj u) old = selValue idx T u := by
  funext i
  show (List.finRange r).foldl _ (old i) = (List.finRange r).foldl _ 0
  by_cases h : ∀ j, idx j ≠ i
  · rw [foldl_miss idx _ i _ _ (fun j _ => h j), foldl_miss idx _ i _ _ (fun j _ => h j), hold i h]
  · push Not at h
    obtain ⟨j, hj⟩ := h
    exact foldl_hit idx _ i _ _ _ ⟨j, List.mem_finRange j, hj⟩

private lemma selValue_clean {m r k : ℕ} (idx : Fin r → Fin m) (T : Aff K r k) (u : Fin k → K) (i : Fin m)
    (h : ∀ j, idx j ≠ i) : selValue idx T u i = 0 :=
  foldl_miss idx _ i _ _ (fun j _ => h j)

/-- the object is clean: the buffer is not allocated, or its entries outside `index_obj` are zero -/
private def Clean {m r : ℕ} (idx : Fin r → Fin m) (s : SelState K m) : Prop :=
  ∀ a, s.out = some a → ∃ old, s.heap.read a = some old ∧ ∀ i, (∀ j, idx j ≠ i) → old i = 0

private lemma step_spec {m r k : ℕ} (idx : Fin r → Fin m) (T : Aff K r k) (s : SelState K m) (hs : Clean idx s)
    (u : Fin k → K) :
    (selAdjoint idx T s u).1.heap.read (selAdjoint idx T s u).2 = some (selValue idx T u) ∧
    (selAdjoint idx T s u).1.out = some (selAdjoint idx T s u).2 ∧
    (∀ a, s.out = some a → (selAdjoint idx T s u).2 = a) ∧
    (∀ b v, s.heap.read b = some v → s.out ≠ some b → (selAdjoint idx T s u).1.heap.read b = some v) ∧
    Clean idx (selAdjoint idx T s u).1 := by
  obtain ⟨heap, out⟩ := s
  have key : (selAdjoint idx T ⟨heap, out⟩ u).1.heap.read (selAdjoint idx T ⟨heap, out⟩ u).2 = some (selValue idx T u) := by
    cases out with
    | none =>
      simp only [selAdjoint, Heap.alloc, Heap.read, Heap.write]
      rw [List.getElem?_set_self (by simp), assign_clean]
      intro i _
      simp
    | some a =>
      obtain ⟨old, h1, h2⟩ := hs a rfl
      simp only [selAdjoint, Heap.write]
      have ha : a < heap.length := (List.getElem?_eq_some_iff.1 h1).1
      simp only [Heap.read] at h1 ⊢
      rw [List.getElem?_set_self ha, assign_clean]
      intro i hi
      rw [h1]; exact h2 i hi
  have hout : (selAdjoint idx T ⟨heap, out⟩ u).1.out = some (selAdjoint idx T ⟨heap, out⟩ u).2 := by
    cases out <;> rfl
  refine ⟨key, hout, ?_, ?_, ?_⟩
  · intro a ha
    cases out with
    | none => cases ha
    | some b => injection ha
  · intro b v hb hne
    cases out with
    | none =>
      simp only [selAdjoint, Heap.alloc, Heap.read, Heap.write] at hb ⊢
      have hlt : b < heap.length := (List.getElem?_eq_some_iff.1 hb).1
      rw [List.getElem?_set_ne (by omega), List.getElem?_append_left hlt]
      exact hb
    | some a =>
      simp only [selAdjoint, Heap.read, Heap.write] at hb ⊢
      rw [List.getElem?_set_ne (fun h => hne (by simp only at h ⊢; rw [h]))]
      exact hb
  · intro a ha
    rw [hout] at ha
    injection ha with ha
    subst ha
    exact ⟨_, key, fun i hi => selValue_clean idx T u i hi⟩

private lemma run_spec {m r k : ℕ} (idx : Fin r → Fin m) (T : Aff K r k) (us : List (Fin k → K)) :
    ∀ (s : SelState K m), Clean idx s →
    Clean idx (selRun idx T s us).1 ∧
    (∀ b v, s.heap.read b = some v → s.out ≠ some b → (∀ a, s.out = some a → True) →
      b ∉ (selRun idx T s us).2 → (selRun idx T s us).1.heap.read b = some v) ∧
    (∀ a ∈ (selRun idx T s us).2, (selRun idx T s us).1.out = some a) ∧
    (∀ a, s.out = some a → (selRun idx T s us).1.out = some a) := by
  induction us with
  | nil => intro s hs; exact ⟨hs, fun b v h _ _ _ => h, by simp [selRun], fun a h => h⟩
  | cons u us ih =>
    intro s hs
    obtain ⟨h1, h2, h3, h4, h5⟩ := step_spec idx T s hs u
    obtain ⟨i1, i2, i3, i4⟩ := ih _ h5
    refine ⟨i1, ?_, ?_, ?_⟩
    · intro b v hb hne _ hnot
      simp only [selRun, List.mem_cons, not_or] at hnot
      refine i2 b v (h4 b v hb hne) ?_ (fun _ _ => trivial) hnot.2
      rw [h2]; intro h; injection h with h; exact hnot.1 h.symm
    · intro a ha
      simp only [selRun, List.mem_cons] at ha
      rcases ha with ha | ha
      · subst ha; exact i4 _ h2
      · exact i3 a ha
    · intro a ha
      apply i4
      rw [h2, h3 a ha]

/-- C53, what holds: after any history `us` of calls on a fresh selector, the array returned by the next call
`adjoint_map(u)`, read before any further call, is the right one, and arrays that are not results of this object are
not modified. -/
theorem C53_selector_read_now_partial {m r k : ℕ} (idx : Fin r → Fin m) (T : Aff K r k) (heap : Heap K m)
    (us : List (Fin k → K)) (u : Fin k → K) :
    let s := (selRun idx T ⟨heap, none⟩ us).1
    let res := selAdjoint idx T s u
    res.1.heap.read res.2 = some (selValue idx T u) ∧
    ∀ b v, heap.read b = some v → b ∉ (selRun idx T ⟨heap, none⟩ us).2 → b ≠ res.2 → res.1.heap.read b = some v := by
  intro s res
  have hc : Clean idx (⟨heap, none⟩ : SelState K m) := fun a h => by cases h
  obtain ⟨h1, h2, h3, h4⟩ := run_spec idx T us ⟨heap, none⟩ hc
  obtain ⟨g1, g2, g3, g4, g5⟩ := step_spec idx T s h1 u
  refine ⟨g1, fun b v hb hnot hne => ?_⟩
  refine g4 b v (h2 b v hb (by simp) (fun _ _ => trivial) hnot) fun hh => hne ?_
  exact (g3 b hh).symm

/-- C53: every array ever returned by a selector shows, after the history `us` followed by `adjoint_map(u)`, the value
of the LAST call. -/
theorem C53_selector_alias {m r k : ℕ} (idx : Fin r → Fin m) (T : Aff K r k) (heap : Heap K m)
    (us : List (Fin k → K)) (u : Fin k → K) (a : ℕ) (ha : a ∈ (selRun idx T ⟨heap, none⟩ us).2) :
    (selAdjoint idx T (selRun idx T ⟨heap, none⟩ us).1 u).1.heap.read a = some (selValue idx T u) := by
  have hc : Clean idx (⟨heap, none⟩ : SelState K m) := fun a h => by cases h
  obtain ⟨h1, h2, h3, h4⟩ := run_spec idx T us ⟨heap, none⟩ hc
  obtain ⟨g1, g2, g3, g4, g5⟩ := step_spec idx T _ h1 u
  rw [g3 a (h3 a ha)] at g1
  exact g1

/-- C53 fails for `selector`: the array returned by the first call shows another value after the second call.  It also
fails for later results when the caller modifies a returned array: the entry outside the selection is never reset. -/
theorem C53_selector_fails :
    (∃ (idx : Fin 1 → Fin 2) (T : Aff ℚ 1 1) (u1 u2 : Fin 1 → ℚ),
      let r1 := selAdjoint idx T ⟨[], none⟩ u1
      let r2 := selAdjoint idx T r1.1 u2
      r1.1.heap.read r1.2 = some (selValue idx T u1) ∧ r2.1.heap.read r1.2 ≠ some (selValue idx T u1)) ∧
    (∃ (idx : Fin 1 → Fin 2) (T : Aff ℚ 1 1) (u1 u2 : Fin 1 → ℚ),
      let r1 := selAdjoint idx T ⟨[], none⟩ u1
      let r2 := selAdjoint idx T ⟨r1.1.heap.write r1.2 (fun _ => 1), r1.1.out⟩ u2
      r2.1.heap.read r2.2 ≠ some (selValue idx T u2)) := by
  have hc : Clean (fun _ => 0 : Fin 1 → Fin 2) (⟨[], none⟩ : SelState ℚ 2) := fun a h => by cases h
  refine ⟨⟨fun _ => 0, .identity, fun _ => 0, fun _ => 1, ?_, ?_⟩,
    ⟨fun _ => 0, .identity, fun _ => 0, fun _ => 0, ?_⟩⟩
  · exact (step_spec _ _ _ hc _).1
  · intro h
    have h5 := (step_spec (K := ℚ) (fun _ => 0 : Fin 1 → Fin 2) (.identity) ⟨[], none⟩ hc fun _ => 0)
    have h6 := step_spec (K := ℚ) (fun _ => 0 : Fin 1 → Fin 2) (.identity) _ h5.2.2.2.2 fun _ => 1
    rw [h6.2.2.1 _ h5.2.1] at h6
    rw [h6.1] at h
    injection h with h
    have := congrFun h 0
    simp [selValue, Aff.adj, Aff.meth, Aff.scatter, List.finRange_succ] at this
  · intro r1 r2 h
    simp only [r1, r2, selAdjoint, Heap.alloc, Heap.read, Heap.write, List.nil_append, List.length_nil, List.set_cons_zero,
      List.getElem?_cons_zero, Option.getD_some] at h
    injection h with h
    have := congrFun h 1
    simp [assignAt, selValue, Aff.adj, Aff.meth, Aff.scatter, List.finRange_succ] at this

/-- C53, `posneg`: the array returned is the right one when read at once, whatever was in the buffer, and every array
returned earlier shows the value of the last call. -/
theorem C53_posneg {m k : ℕ} (T : Aff K m k) (buf : ℕ) (heap : Heap K (m + m)) (hb : buf < heap.length)
    (u1 u2 : Fin k → K) :
    let r1 := posnegAdjoint T buf heap u1
    let r2 := posnegAdjoint T buf r1.1 u2
    r1.1.read r1.2 = some ((Aff.posneg T).adj u1) ∧ r2.1.read r1.2 = some ((Aff.posneg T).adj u2) ∧
    ∀ b, b ≠ buf → r2.1.read b = heap.read b := by
  intro r1 r2
  refine ⟨?_, ?_, ?_⟩
  · show (heap.set buf _)[buf]? = _
    rw [List.getElem?_set_self hb]; rfl
  · show ((heap.set buf _).set buf _)[buf]? = _
    rw [List.getElem?_set_self (by simpa using hb)]; rfl
  · intro b hne
    show ((heap.set buf _).set buf _)[b]? = heap[b]?
    rw [List.getElem?_set_ne (Ne.symm hne), List.getElem?_set_ne (Ne.symm hne)]

/-- C53 fails for `posneg`. -/
theorem C53_posneg_fails : ∃ (T : Aff ℚ 1 1) (u1 u2 : Fin 1 → ℚ),
    let r1 := posnegAdjoint T 0 [fun _ => 0] u1
    let r2 := posnegAdjoint T 0 r1.1 u2
    r2.1.read r1.2 ≠ some ((Aff.posneg T).adj u1) := by
  refine ⟨.identity, fun _ => 0, fun _ => 1, ?_⟩
  intro r1 r2 h
  rw [(C53_posneg .identity 0 [fun _ => 0] (by simp) (fun _ => 0) (fun _ => 1)).2.1] at h
  injection h with h
  have h0 := congrFun h (Fin.castAdd 1 0)
  simp only [Aff.adj, Aff.meth, Fin.append_left] at h0
  exact absurd h0 one_ne_zero

/-- C53, gradients of `cox_loglike` and `stacked_loglike`: with `coef = 1` the returned array is the internal buffer,
so it shows the gradient of the last evaluation; with any other `coef` it keeps its value through later calls. -/
theorem C53_gradient_partial {n : ℕ} (grad : (Fin n → K) → Fin n → K) (coef : K) (buf : ℕ) (heap : Heap K n)
    (hb : buf < heap.length) (x1 x2 : Fin n → K) :
    let r1 := bufGrad grad coef buf heap x1
    let r2 := bufGrad grad coef buf r1.1 x2
    r1.1.read r1.2 = some (fun i => coef * grad x1 i) ∧
    (coef ≠ 1 → r2.1.read r1.2 = some (fun i => coef * grad x1 i)) ∧
    (coef = 1 → r2.1.read r1.2 = some (fun i => coef * grad x2 i)) := by
  intro r1 r2
  by_cases hc : coef = 1
  · subst hc
    refine ⟨?_, fun h => absurd rfl h, fun _ => ?_⟩
    · simp only [r1, bufGrad, ne_eq, not_true, if_false, Heap.read, Heap.write, one_mul]
      rw [List.getElem?_set_self hb]
    · simp only [r2, r1, bufGrad, ne_eq, not_true, if_false, Heap.read, Heap.write, one_mul]
      rw [List.getElem?_set_self (by simpa using hb)]
  · refine ⟨?_, fun _ => ?_, fun h => absurd h hc⟩
    · simp only [r1, bufGrad, ne_eq, hc, not_false_eq_true, if_true, Heap.read, Heap.write, Heap.alloc]
      simp
    · simp only [r2, r1, bufGrad, ne_eq, hc, not_false_eq_true, if_true, Heap.read, Heap.write, Heap.alloc]
      rw [List.getElem?_append_left (by simp), List.getElem?_set_ne (by simp; omega)]
      simp

/-- hypotheses met -/
example : ∃ (heap : Heap ℚ 2) (a : ℕ), a ∈ (selRun (fun _ => 0 : Fin 1 → Fin 2) (.identity : Aff ℚ 1 1) ⟨heap, none⟩ [fun _ => 1]).2 :=
  ⟨[], 0, by simp [selRun, selAdjoint, Heap.alloc]⟩

/-! ### C54 -/

section
variable {n : ℕ}

/-- C54, what holds: assigning `None` removes the offset, assigning an array that is not identically zero makes
evaluation use it, whatever was there before; on construction an identically zero array means no offset. -/
theorem C54_set_offset_partial (st : Offset.Attr K n) (x : Fin n → K) :
    Offset.apply (Offset.set st none) x = x ∧
    (∀ v : Fin n → K, v ≠ 0 → Offset.apply (Offset.set st (some v)) x = fun i => x i - v i) ∧
    (∀ v : Fin n → K, Offset.apply (Offset.init (some v)) x = fun i => x i - v i) := by
  refine ⟨rfl, ?_, ?_⟩
  · intro v hv
    have h : ∃ i, v i ≠ 0 := by
      by_contra h
      push Not at h
      exact hv (funext h)
    unfold Offset.set
    simp only [if_pos h]
    rfl
  · intro v
    unfold Offset.init Offset.set
    by_cases h : ∃ i, v i ≠ 0
    · simp only [if_pos h]; rfl
    · simp only [if_neg h]
      push Not at h
      funext i
      show x i = x i - v i
      rw [h i, sub_zero]

/-- C54: after any sequence of assignments, evaluation uses the last assigned value that was `None` or not identically
zero (no offset if there is none). -/
theorem C54_history (vals : List (Option (Fin n → K))) (x : Fin n → K) :
    Offset.apply (vals.foldl Offset.set none) x =
      match (vals.filter fun o => !(decide (o = some 0))).getLast? with
      | some (some v) => fun i => x i - v i
      | _ => x := by
  induction vals using List.reverseRecOn with
  | nil => rfl
  | append_singleton l o ih =>
    rw [List.foldl_append, List.foldl_cons, List.foldl_nil, List.filter_append]
    by_cases ho : o = some 0
    · subst ho
      have : ¬ ∃ i, (0 : Fin n → K) i ≠ 0 := by simp
      have e : Offset.set (l.foldl Offset.set none) (some (0 : Fin n → K)) = l.foldl Offset.set none := by
        unfold Offset.set; simp only [if_neg this]
      rw [e, ih]
      simp
    · have e2 : List.filter (fun o => !(decide (o = some (0 : Fin n → K)))) [o] = [o] := by simp [ho]
      rw [e2, List.getLast?_append_of_ne_nil _ (by simp)]
      simp only [List.getLast?_singleton]
      cases o with
      | none => rfl
      | some v =>
        have hv : v ≠ 0 := fun h => ho (by rw [h])
        exact (C54_set_offset_partial _ x).2.1 v hv

/-- C54 fails: assigning an identically zero array leaves the old offset in force. -/
theorem C54_zero_offset_fails : ∃ (st : Offset.Attr ℚ 1) (x : Fin 1 → ℚ),
    Offset.apply (Offset.set st (some fun _ => 0)) x ≠ fun i => x i - 0 := by
  refine ⟨some (some fun _ => 1), fun _ => 0, fun h => ?_⟩
  have := congrFun h 0
  simp [Offset.apply, Offset.set, Offset.get] at this

/-- hypotheses met -/
example : Offset.apply (Offset.set (some (some fun _ => 5)) (some fun _ => 2)) (fun _ => (3:ℚ)) (0 : Fin 1) = 1 := by
  rw [(C54_set_offset_partial _ _).2.1 _ (fun h => by have := congrFun h 0; norm_num at this)]; norm_num

end

end Verif.Props
