import Verif.Lemmas.AtomHeap
import Mathlib.Algebra.Order.Ring.Rat
import Mathlib.Tactic.NormNum

/-!
# C92: copies, conjugates and compositions of atoms share nothing a program can see — and where they do
-/

set_option linter.unusedSectionVars false
set_option linter.unusedVariables false

namespace Verif.Props
open Verif.Model Verif.Model.AtomHeap Verif.Spec

variable {K : Type*} [Field K] [LinearOrder K]

/-- no `conjugate` or affine composition in the program, or no write in place into an offset, a centre or a linear
term -/
def NoSharedWrite (ops : List (Op K)) : Prop :=
  (∀ op ∈ ops, makesAlias op = false) ∨ ∀ op ∈ ops, writesShared op = false

/-- **C92** (partial) Atoms behave like independent values.  Run any program that makes atoms and transforms, copies
atoms, takes conjugates, composes with affine maps, sets lagrange, bound, offset, quadratic and group weights, solves,
and writes in place into arrays and quadratics.  What each atom then holds, and what each transform holds, is what the
same program gives on plain records, where every call reads and writes the one record it names.  Assumed: a program that
takes conjugates or composes does not also write in place into offsets, centres or linear terms, and no program writes
in place into the quadratic, or the weights dictionary, of an atom of a class whose copies share it.  Missing: these
excluded programs, for which the statement is false of the code (the `_fails` theorems). -/
theorem C92_values_partial (ops : List (Op K)) (h : NoSharedWrite ops)
    (hown : ownsTargets ⟨[], []⟩ ops) :
    atomWorld ((State.empty : State K).run ops) = AtomWorld.run ⟨[], []⟩ ops := by
  rcases h with h | h
  · obtain ⟨_, _, _, h1⟩ := run_spec (ty_empty (K := K) true) ops (fun _ => h) (fun h => by cases h) hown
    exact h1
  · obtain ⟨_, _, _, h1⟩ := run_spec (ty_empty (K := K) false) ops (fun h => by cases h) (fun _ => h) hown
    exact h1

private lemma look_eq (s : State K) (k : ℕ) : s.look k = (atomWorld s).atoms[k]? := by
  simp [State.look, atomWorld]

private lemma world_run_append (w : AtomWorld K) (a b : List (Op K)) : w.run (a ++ b) = (w.run a).run b := by
  simp [AtomWorld.run, List.foldl_append]

private lemma state_run_append (w : State K) (a b : List (Op K)) : w.run (a ++ b) = (w.run a).run b := by
  simp [State.run, List.foldl_append]

private lemma owns_append {a b : List (Op K)} : ∀ {w : AtomWorld K}, ownsTargets w (a ++ b) ↔
    ownsTargets w a ∧ ownsTargets (w.run a) b := by
  induction a with
  | nil => intro w; simp [ownsTargets, AtomWorld.run]
  | cons x a ih =>
    intro w
    simp only [List.cons_append, ownsTargets, ih, and_assoc]
    rfl

/-- **C92** After such a program, a call that names one atom leaves every other atom and every transform as it was:
attributes set on a copy never reach the original, nor the reverse. -/
theorem C92_others_untouched (ops : List (Op K)) (op : Op K) (h : NoSharedWrite (ops ++ [op]))
    (hown : ownsTargets ⟨[], []⟩ (ops ++ [op])) (j : ℕ) (hj : opTarget op ≠ some j)
    (hlive : ((State.empty : State K).run ops).look j ≠ none) :
    ((State.empty : State K).run (ops ++ [op])).look j = ((State.empty : State K).run ops).look j ∧
    ∀ t, t < ((State.empty : State K).run ops).trans.length →
      (atomWorld ((State.empty : State K).run (ops ++ [op]))).trans[t]? =
        (atomWorld ((State.empty : State K).run ops)).trans[t]? := by
  have h0 : NoSharedWrite ops := by
    rcases h with h | h
    · exact Or.inl fun x hx => h x (by simp [hx])
    · exact Or.inr fun x hx => h x (by simp [hx])
  have e1 := C92_values_partial _ h hown
  have e0 := C92_values_partial ops h0 (owns_append.1 hown).1
  have e2 : atomWorld ((State.empty : State K).run (ops ++ [op])) =
      (atomWorld ((State.empty : State K).run ops)).step op := by
    rw [e1, e0, world_run_append]; rfl
  refine ⟨?_, fun t ht => ?_⟩
  · rw [look_eq] at hlive
    rw [look_eq, look_eq, e2]
    have hlen : j < (atomWorld ((State.empty : State K).run ops)).atoms.length := by
      by_contra hc
      exact hlive (List.getElem?_eq_none (by omega))
    show ((match opTarget op with | some k => _ | none => _) ++ _)[j]? = _
    rcases hk : opTarget op with _ | k
    · exact List.getElem?_append_left hlen
    · dsimp only
      rw [List.getElem?_append_left (by rw [List.length_modify]; exact hlen), List.getElem?_modify]
      have hne : k ≠ j := by rintro rfl; exact hj hk
      simp [hne]
  · rw [e2]
    exact List.getElem?_append_left (by simpa [atomWorld] using ht)

/-- lagrange and bound as one of the constructors leaves them -/
def ValidMode (v : View K) : Prop :=
  v.fam.isSeminorm = true → (∃ l, v.mode = ⟨some l, none⟩ ∧ ¬ l < 0) ∨ (∃ b, v.mode = ⟨none, some b⟩ ∧ ¬ b < 0)

private lemma copyView_same {v : View K} (hb : v.fam ≠ .blockSum) (hm : ValidMode v) (hs : v.snap = (v.par, v.dict))
    (ho : ∀ l, v.offset = some l → l.any (· ≠ 0) = true) :
    copyView v = some { v with coefs := if v.fam.keepsCoefs then v.coefs else List.replicate v.size 0 } := by
  have hmode : modeOf v.fam v.mode.lagrange v.mode.bound = some v.mode := by
    unfold modeOf
    by_cases hf : v.fam.isSeminorm = true
    · rw [if_pos hf]
      rcases hm hf with ⟨l, h1, h2⟩ | ⟨l, h1, h2⟩ <;> rw [h1] <;> simp [AtomState.init, h2, Except.toOption]
    · rw [if_neg hf]
  have hoff : dropZero v.offset = v.offset := by
    rcases h : v.offset with _ | l
    · rfl
    · simp only [dropZero, Option.filter_some]
      rw [if_pos (ho l h)]
  unfold copyView
  rw [if_neg hb, hmode, hoff, Option.map_some, ← hs]

/-- **C92** `copy(atom)` is the same atom: after any such program, if the atom's parameters are valid, its derived
arrays are those of its weights and its offset is not an array of zeros, the copy is a new atom of the same class with
the same lagrange, bound, weights, offset and quadratic.  Its coefficients are those of the atom, or zeros in the
classes whose copies start afresh. -/
theorem C92_copy_same (ops : List (Op K)) (h : NoSharedWrite ops) (hown : ownsTargets ⟨[], []⟩ ops) (k : ℕ) (v : View K)
    (hv : ((State.empty : State K).run ops).look k = some v) (hb : v.fam ≠ .blockSum) (hm : ValidMode v)
    (hs : v.snap = (v.par, v.dict)) (ho : ∀ l, v.offset = some l → l.any (· ≠ 0) = true) :
    ((State.empty : State K).run (ops ++ [.copy k])).look ((State.empty : State K).run ops).atoms.length =
      some { v with coefs := if v.fam.keepsCoefs then v.coefs else List.replicate v.size 0 } := by
  have h1 : NoSharedWrite (ops ++ [.copy k]) := by
    rcases h with h | h
    · refine Or.inl fun x hx => ?_
      rcases List.mem_append.1 hx with hx | hx
      · exact h x hx
      · rw [List.mem_singleton.1 hx]; rfl
    · refine Or.inr fun x hx => ?_
      rcases List.mem_append.1 hx with hx | hx
      · exact h x hx
      · rw [List.mem_singleton.1 hx]; rfl
  have e0 := C92_values_partial ops h hown
  have e1 := C92_values_partial (ops ++ [.copy k]) h1 (owns_append.2 ⟨hown, by exact ⟨trivial, trivial⟩⟩)
  have e2 : atomWorld ((State.empty : State K).run (ops ++ [.copy k])) =
      (atomWorld ((State.empty : State K).run ops)).step (.copy k) := by
    rw [e1, e0, world_run_append]; rfl
  rw [look_eq] at hv
  rw [look_eq, e2, world_step_new rfl rfl]
  simp only [newView, hv, Option.bind_some, copyView_same hb hm hs ho, Option.toList_some]
  have hl : ((State.empty : State K).run ops).atoms.length = (atomWorld ((State.empty : State K).run ops)).atoms.length := by
    simp [atomWorld]
  rw [hl, List.getElem?_append_right le_rfl, Nat.sub_self]
  rfl

/-- the default `sq(0,0,0,0)` -/
def zeroQ : QVal ℚ := ⟨0, some (.scalar 0), some (.scalar 0), 0⟩

/-- an l1 norm with an offset, a copy; the copy gets another lagrange and its offset and quadratic are written in place;
a weighted l1 norm, whose weights are written in place after copying; a group lasso with `set_weight` -/
def demoWrites : List (Op ℚ) :=
  [.create .seminorm 1 false 2 (some 3) none [] [] (some [1, 2]) ⟨0, none, some (.arr [4, 5]), 0⟩ [0, 0],
   .copy 0, .setLagrange 1 (some 7), .offsetWrite 1 [8, 9], .linearWrite 1 [6, 6], .quadCoef 1 2,
   .create .weighted 0 false 2 none (some 1) [1, 2] [] none zeroQ [0, 0], .copy 2, .parWrite 3 [5, 5], .solve 3 [1, 1],
   .coefsWrite 3 [2, 1], .create .groupLasso 0 false 2 (some 1) none [] [1, 1] none zeroQ [0, 0], .copy 4,
   .setWeight 5 0 4]

/-- the hypotheses of `C92_values_partial` hold for it -/
example : NoSharedWrite demoWrites ∧ ownsTargets ⟨[], []⟩ demoWrites := by
  have h1 : (1 : ℚ) < 0 ↔ False := by norm_num
  have h3 : (3 : ℚ) < 0 ↔ False := by norm_num
  refine ⟨Or.inl fun op h => ?_, ?_⟩
  · simp only [demoWrites, List.mem_cons, List.not_mem_nil, or_false] at h
    rcases h with rfl | rfl | rfl | rfl | rfl | rfl | rfl | rfl | rfl | rfl | rfl | rfl | rfl | rfl <;> rfl
  · simp [demoWrites, ownsTargets, ownsTarget, AtomWorld.step, opTarget, newView, newTrans, modeOf, Family.isSeminorm,
      AtomState.init, h1, h3, Except.toOption, applyOp, copyView, Family.keepsCoefs, dropZero, List.modify_cons,
      Family.copiesQuad]

/-- and what it says there: the original l1 norm is as it was made -/
example : ((State.empty : State ℚ).run (demoWrites.take 6)).look 0 =
    some ⟨.seminorm, 1, false, 2, ⟨some 3, none⟩, [], [], ([], []), some [1, 2], ⟨0, none, some (.arr [4, 5]), 0⟩, [0, 0]⟩ := by
  have h3 : (3 : ℚ) < 0 ↔ False := by norm_num
  rw [look_eq, C92_values_partial]
  · simp [demoWrites, AtomWorld.run, AtomWorld.step, opTarget, newView, newTrans, modeOf, Family.isSeminorm,
      AtomState.init, h3, Except.toOption, applyOp, copyView, Family.keepsCoefs, dropZero, List.modify_cons]
  · refine Or.inl fun op h => ?_
    simp only [demoWrites, List.take, List.mem_cons, List.not_mem_nil, or_false] at h
    rcases h with rfl | rfl | rfl | rfl | rfl | rfl <;> rfl
  · simp [demoWrites, ownsTargets, ownsTarget, AtomWorld.step, opTarget, newView, newTrans, modeOf, Family.isSeminorm,
      AtomState.init, h3, Except.toOption, applyOp, copyView, Family.keepsCoefs, dropZero, List.modify_cons,
      Family.copiesQuad]

/-- the other half: an l1 norm with an offset and a linear term, its conjugate, compositions with an affine map, and
attributes set on each -/
def demoAlias : List (Op ℚ) :=
  [.create .seminorm 1 false 2 (some 3) none [] [] (some [1, 2]) ⟨0, none, some (.arr [4, 5]), 0⟩ [0, 0],
   .conjugate 0, .newTransform [1, 1], .affine 0 0, .affine 1 0, .setOffset 2 none, .affine 2 0, .setBound 1 (some 2),
   .solve 1 [7, 7]]

example : NoSharedWrite demoAlias ∧ ownsTargets ⟨[], []⟩ demoAlias ∧
    ((AtomWorld.run ⟨[], []⟩ demoAlias : AtomWorld ℚ).atoms.map (fun v => v.offset)) =
      [some [1, 2], some [4, 5], none, some [5, 6], some [1, 1]] := by
  have h3 : (3 : ℚ) < 0 ↔ False := by norm_num
  refine ⟨Or.inr fun op h => ?_, ?_, ?_⟩
  · simp only [demoAlias, List.mem_cons, List.not_mem_nil, or_false] at h
    rcases h with rfl | rfl | rfl | rfl | rfl | rfl | rfl | rfl | rfl <;> rfl
  · simp [demoAlias, ownsTargets, ownsTarget]
  · decide +kernel

/-! ## Where the code does share -/

private lemma copyAtom_fields {s s' : State K} {a c : ACell K} (h : s.copyAtom a = some (c, s')) :
    (a.fam.copiesQuad = false → c.quad = a.quad ∧ s'.qd a.quad = s.qd a.quad) ∧
    (a.fam.copiesDict = false → c.dict = a.dict) ∧ s'.atoms = s.atoms := by
  unfold State.copyAtom at h
  by_cases hbs : a.fam = .blockSum
  · rw [if_pos hbs] at h; cases h
  rw [if_neg hbs] at h
  rcases hm : a.fam.ctorMode a.mode.lagrange a.mode.bound with _ | m
  · rw [hm] at h; cases h
  rw [hm] at h
  simp only [Option.some.injEq, Prod.mk.injEq] at h
  obtain ⟨rfl, rfl⟩ := h
  have hA : ∀ (s : State K) l, (s.allocArr l).2.atoms = s.atoms := fun _ _ => rfl
  have hQ : ∀ (s : State K) l, (s.allocArr l).2.qd = s.qd := fun _ _ => rfl
  have hD : ∀ (s : State K), (s.copyDict a).2.atoms = s.atoms ∧ (s.copyDict a).2.qd = s.qd := fun s => by
    unfold State.copyDict; split_ifs <;> exact ⟨rfl, rfl⟩
  have hO : ∀ (s : State K) x, (s.copyOffset x).2.atoms = s.atoms ∧ (s.copyOffset x).2.qd = s.qd := fun s x => by
    rcases x with _ | x <;> exact ⟨rfl, rfl⟩
  have hN : ∀ (s : State K) x, (s.copyNum x).2.atoms = s.atoms := fun s x => by
    rcases x with _ | ⟨_⟩ | ⟨_⟩ <;> rfl
  have hP : ∀ (s : State K), (s.passQuad a).2.atoms = s.atoms := fun s => by
    unfold State.passQuad; split_ifs
    · show ((s.copyNum _).2.copyNum _).2.atoms = _
      rw [hN, hN]
    · rfl
  refine ⟨fun hq => ⟨?_, ?_⟩, fun hd => ?_, ?_⟩
  · simp [State.passQuad, hq]
  · simp only [State.passQuad, hq, hQ, (hO _ _).2, (hD _).2]
    simp [hQ, (hO _ _).2, (hD _).2]
  · simp [State.copyDict, hd]
  · rw [hA, hP, (hO _ _).1, (hD _).1, hA]

/-- **C92** (fails) In the weighted atoms, slope, the sparse-group classes, the linear, simplex and maximum constraints,
`svd_cone` and the mixed lasso a copy shares the quadratic object with the original: whenever the copy succeeds, setting
`copy.quadratic.coef` sets the coefficient of the original too. -/
theorem C92_shared_quadratic_fails (s : State K) (k : ℕ) (a : ACell K) (hk : s.atoms[k]? = some a)
    (hf : a.fam ∈ [Family.weighted, .slope, .sparseGroup, .sparseGroupBlock, .linearConstraint, .svdCone, .simplex, .mixed])
    (hc : s.copyAtom a ≠ none) (x : K) :
    ((s.run [.copy k, .quadCoef s.atoms.length x]).look k).map (fun v => v.quad.coef) = some x := by
  have hq : a.fam.copiesQuad = false := by
    simp only [List.mem_cons, List.not_mem_nil, or_false] at hf
    rcases hf with h | h | h | h | h | h | h | h <;> rw [h] <;> rfl
  rcases hcp : s.copyAtom a with _ | ⟨c, s'⟩
  · exact absurd hcp hc
  obtain ⟨h1, -, h3⟩ := copyAtom_fields hcp
  have hlen : k < s.atoms.length := by
    by_contra hlt
    rw [List.getElem?_eq_none (by omega)] at hk; cases hk
  have e1 : s.step (.copy k) = { s' with atoms := s'.atoms ++ [c] } := by
    simp only [State.step, hk, hcp, State.push]
  have e2 : (s'.atoms ++ [c])[s.atoms.length]? = some c := by rw [h3]; simp
  have e3 : (s'.atoms ++ [c])[k]? = some a := by rw [h3, List.getElem?_append_left hlen, hk]
  show ((State.step (State.step s (.copy k)) (.quadCoef s.atoms.length x)).look k).map _ = _
  rw [e1]
  simp only [State.step, e2, State.look, State.writeQd, e3, (h1 hq).1, Option.map_some, State.view, State.quad,
    Function.update_self]

/-- **C92** (fails) Copies of `mixed_lasso` share the dictionary of weights: writing a weight of the copy changes the
original. -/
theorem C92_shared_weights_fails (s : State K) (k : ℕ) (a : ACell K) (hk : s.atoms[k]? = some a)
    (hf : a.fam = .mixed) (hc : s.copyAtom a ≠ none) (l : List K) :
    ((s.run [.copy k, .dictWrite s.atoms.length l]).look k).map (fun v => v.dict) = some l := by
  have hq : a.fam.copiesDict = false := by rw [hf]; rfl
  rcases hcp : s.copyAtom a with _ | ⟨c, s'⟩
  · exact absurd hcp hc
  obtain ⟨-, h1, h3⟩ := copyAtom_fields hcp
  have hlen : k < s.atoms.length := by
    by_contra hlt
    rw [List.getElem?_eq_none (by omega)] at hk; cases hk
  have e1 : s.step (.copy k) = { s' with atoms := s'.atoms ++ [c] } := by
    simp only [State.step, hk, hcp, State.push]
  have e2 : (s'.atoms ++ [c])[s.atoms.length]? = some c := by rw [h3]; simp
  have e3 : (s'.atoms ++ [c])[k]? = some a := by rw [h3, List.getElem?_append_left hlen, hk]
  show ((State.step (State.step s (.copy k)) (.dictWrite s.atoms.length l)).look k).map _ = _
  rw [e1]
  simp only [State.step, e2, State.look, State.writeArr, e3, h1 hq, Option.map_some, State.view, Function.update_self]

/-- a weighted l1 norm and a mixed lasso: both copies succeed -/
example : (⟨.weighted, 0, false, 2, ⟨some 1, none⟩, 0, 1, ([], []), none, 0, 2⟩ : ACell ℚ).fam = .weighted ∧
    (State.empty : State ℚ).copyAtom ⟨.weighted, 0, false, 2, ⟨some 1, none⟩, 0, 1, ([], []), none, 0, 2⟩ ≠ none ∧
    (⟨.mixed, 0, false, 2, ⟨some 1, none⟩, 0, 1, ([], []), none, 0, 2⟩ : ACell ℚ).fam = .mixed ∧
    (State.empty : State ℚ).copyAtom ⟨.mixed, 0, false, 2, ⟨some 1, none⟩, 0, 1, ([], []), none, 0, 2⟩ ≠ none := by
  have h1 : (1 : ℚ) < 0 ↔ False := by norm_num
  refine ⟨rfl, ?_, rfl, ?_⟩ <;>
  simp [State.copyAtom, Family.ctorMode, Family.isSeminorm, AtomState.init, h1]

/-- **C92** (fails) `copy` of `block_sum` and `block_max` always raises. -/
theorem C92_block_copy_fails (s : State K) (a : ACell K) (h : a.fam = .blockSum) : s.copyAtom a = none := by
  simp [State.copyAtom, h]

/-- **C92** (fails) The conjugate's offset is the array of the atom's linear term: whenever that array has a nonzero
entry and the conjugate exists, writing in place into `conjugate.offset` changes the linear term of the atom. -/
theorem C92_conjugate_alias_fails (s : State K) (k : ℕ) (a : ACell K) (hk : s.atoms[k]? = some a) (r : ℕ)
    (hl : (s.qd a.quad).linear = some (.arr r)) (hr : r < s.nextArr) (hq : a.quad < s.nextQd)
    (hnz : (s.arr r).any (· ≠ 0) = true) (hc : s.conjAtom a ≠ none) (l : List K) :
    ((s.run [.conjugate k, .offsetWrite s.atoms.length l]).look k).map (fun v => linArr v.quad.linear) = some (some l) := by
  have hlen : k < s.atoms.length := by
    by_contra hlt
    rw [List.getElem?_eq_none (by omega)] at hk; cases hk
  have key : ∃ c s', s.conjAtom a = some (c, s') ∧ c.offset = some r ∧ s'.atoms = s.atoms ∧ s'.qd a.quad = s.qd a.quad := by
    rcases hcp : s.conjAtom a with _ | ⟨c, s'⟩
    · exact absurd hcp hc
    refine ⟨c, s', rfl, ?_⟩
    unfold State.conjAtom at hcp
    split_ifs at hcp
    rcases hm : a.fam.ctorMode a.mode.bound a.mode.lagrange with _ | m
    · rw [hm] at hcp; cases hcp
    rw [hm] at hcp
    simp only [Option.some.injEq, Prod.mk.injEq, State.allocArr, State.allocQd] at hcp
    obtain ⟨rfl, rfl⟩ := hcp
    refine ⟨?_, rfl, Function.update_of_ne hq.ne _ _⟩
    have n1 : r ≠ s.nextArr := by omega
    have n2 : r ≠ s.nextArr + 1 := by omega
    have n3 : r ≠ s.nextArr + 1 + 1 := by omega
    simp only [hl, Num.ref?, State.ctorOffset, Function.update_of_ne n1, Function.update_of_ne n2, Function.update_of_ne n3]
    rw [if_pos hnz]
  obtain ⟨c, s', hcp, ho, h3, h4⟩ := key
  have e1 : s.step (.conjugate k) = { s' with atoms := s'.atoms ++ [c] } := by
    simp only [State.step, hk, hcp, State.push]
  have e2 : (s'.atoms ++ [c])[s.atoms.length]? = some c := by rw [h3]; simp
  have e3 : (s'.atoms ++ [c])[k]? = some a := by rw [h3, List.getElem?_append_left hlen, hk]
  show ((State.step (State.step s (.conjugate k)) (.offsetWrite s.atoms.length l)).look k).map _ = _
  rw [e1]
  simp only [State.step, e2, ho, State.look, State.writeArr, e3, Option.map_some, State.view, State.quad, h4, hl,
    State.num, Function.update_self, linArr]

/-- an l1 norm with linear term (4, 5) -/
example : let s : State ℚ := (State.empty : State ℚ).run (demoAlias.take 1)
    ∃ (a : ACell ℚ) (r : ℕ), s.atoms[0]? = some a ∧ (s.qd a.quad).linear = some (.arr r) ∧ r < s.nextArr ∧
      a.quad < s.nextQd ∧ (s.arr r).any (· ≠ 0) = true ∧ s.conjAtom a ≠ none := by
  have h3 : (3 : ℚ) < 0 ↔ False := by norm_num
  refine ⟨⟨.seminorm, 1, false, 2, ⟨some 3, none⟩, 0, 1, ([], []), some 2, 0, 4⟩, 3, ?_⟩
  simp [demoAlias, State.run, State.step, State.push, State.create, Family.ctorMode, Family.isSeminorm, AtomState.init, h3,
    State.empty, State.allocArr, State.newOffset, State.newQd, State.newNum, State.allocQd, State.ctorOffset,
    State.conjAtom, Num.isFloat, Function.update_apply]

/-- **C92** (fails) Composing an atom that has no offset keeps the array of the transform: writing in place into the
offset of the inner atom changes the transform, and every other atom composed with it. -/
theorem C92_affine_alias_fails : ∃ ops : List (Op ℚ), ∃ l : List ℚ,
    let s := (State.empty : State ℚ).run ops
    let s' := s.step (.offsetWrite 1 l)
    (s.look 2).map (fun v => v.offset) = some (some [1, 1]) ∧ (s'.look 2).map (fun v => v.offset) = some (some l) ∧
      (atomWorld s).trans = [[1, 1]] ∧ (atomWorld s').trans = [l] ∧ l ≠ [1, 1] :=
  ⟨[.create .seminorm 1 false 2 (some 3) none [] [] none zeroQ [0, 0], .newTransform [1, 1], .affine 0 0, .affine 0 0],
    [9, 9], by decide +kernel⟩

/-- **C92** (fails) Writing into the dictionary `weights` of a group lasso, instead of calling `set_weight`, leaves the
array the methods use: the copy, which recomputes it, is a different penalty. -/
theorem C92_stale_weights_fails : ∃ ops : List (Op ℚ), NoSharedWrite ops ∧ ownsTargets ⟨[], []⟩ ops ∧
    ∃ v w, ((State.empty : State ℚ).run ops).look 0 = some v ∧ ((State.empty : State ℚ).run ops).look 1 = some w ∧
      v.dict = w.dict ∧ v.snap = ([], [1]) ∧ w.snap = ([], [5]) := by
  let q0 : QVal ℚ := zeroQ
  let ops : List (Op ℚ) := [.create .groupLasso 0 false 2 (some 1) none [] [1] none q0 [0, 0], .dictWrite 0 [5], .copy 0]
  have hn : NoSharedWrite ops := Or.inl fun op h => by
    simp only [ops, List.mem_cons, List.not_mem_nil, or_false] at h
    rcases h with rfl | rfl | rfl <;> rfl
  have ho : ownsTargets ⟨[], []⟩ ops := by
    refine ⟨trivial, fun v hv => ?_, trivial, trivial⟩
    have : (1 : ℚ) < 0 ↔ False := by norm_num
    simp [AtomWorld.step, opTarget, newView, newTrans, modeOf, Family.isSeminorm, AtomState.init, this, Except.toOption] at hv
    rw [← hv]; rfl
  have e := C92_values_partial ops hn ho
  have : (1 : ℚ) < 0 ↔ False := by norm_num
  refine ⟨ops, hn, ho, ?_⟩
  simp only [look_eq, e]
  refine ⟨⟨.groupLasso, 0, false, 2, ⟨some 1, none⟩, [], [5], ([], [1]), none, q0, [0, 0]⟩,
    ⟨.groupLasso, 0, false, 2, ⟨some 1, none⟩, [], [5], ([], [5]), none, q0, [0, 0]⟩, ?_, ?_, rfl, rfl, rfl⟩ <;>
  simp [ops, AtomWorld.run, AtomWorld.step, opTarget, newView, modeOf, Family.isSeminorm, AtomState.init, this,
    Except.toOption, applyOp, copyView, Family.keepsCoefs, dropZero]

end Verif.Props
