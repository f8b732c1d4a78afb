import Verif.Spec.AtomValues

/-!
Helper lemmas about `Model/AtomHeap.lean`: allocation does not disturb what exists, and every array and quadratic has
an owner.
-/

set_option linter.unusedSectionVars false
set_option linter.unusedVariables false

namespace Verif.Model
namespace AtomHeap
open Verif.Spec

variable {K : Type*} [Field K] [LinearOrder K]

/-- all references of a cell exist -/
structure CellOk (s : State K) (a : ACell K) : Prop where
  par : a.par < s.nextArr
  dict : a.dict < s.nextArr
  off : ∀ r, a.offset = some r → r < s.nextArr
  coefs : a.coefs < s.nextArr
  quad : a.quad < s.nextQd

/-- `s'` has everything `s` has, unchanged -/
structure Ext (s s' : State K) : Prop where
  nArr : s.nextArr ≤ s'.nextArr
  nQd : s.nextQd ≤ s'.nextQd
  arr : ∀ r < s.nextArr, s'.arr r = s.arr r
  qd : ∀ r < s.nextQd, s'.qd r = s.qd r
  atoms : s'.atoms = s.atoms
  trans : s'.trans = s.trans

/-- no dangling references -/
structure Wf (s : State K) : Prop where
  qc : ∀ q < s.nextQd, ∀ r, Num.ref? (s.qd q).center = some r → r < s.nextArr
  ql : ∀ q < s.nextQd, ∀ r, Num.ref? (s.qd q).linear = some r → r < s.nextArr
  cell : ∀ (k : ℕ) (a : ACell K), s.atoms[k]? = some a → CellOk s a
  trans : ∀ t ∈ s.trans, t < s.nextArr

/-- what an array is for -/
inductive Slot where
  | par (k : ℕ) | dict (k : ℕ) | coefs (k : ℕ) | off (k : ℕ) | mixedDict | qc (q : ℕ) | ql (q : ℕ) | loose

/-- owner, or (in the tolerant mode) one of several -/
def Own (b : Bool) (o : ℕ → Slot) (r : ℕ) (σ : Slot) : Prop := o r = σ ∨ (b = false ∧ o r = .loose)

/-- owner of the dictionary of atom `k` -/
def dictSlot (f : Family) (k : ℕ) : Slot := if f.copiesDict then .dict k else .mixedDict

/-- owner of the quadratic of atom `k` -/
def quadSlot (f : Family) (k : ℕ) : Option ℕ := if f.copiesQuad then some k else none

/-- the references of a cell belong to atom `k` -/
structure CellTy (b : Bool) (o : ℕ → Slot) (oq : ℕ → Option ℕ) (k : ℕ) (a : ACell K) : Prop where
  par : o a.par = .par k
  dict : o a.dict = dictSlot a.fam k
  coefs : o a.coefs = .coefs k
  off : ∀ r, a.offset = some r → Own b o r (.off k)
  quad : oq a.quad = quadSlot a.fam k

/-- every reference has its owner -/
structure Ty (b : Bool) (s : State K) (o : ℕ → Slot) (oq : ℕ → Option ℕ) : Prop where
  wf : Wf s
  cell : ∀ (k : ℕ) (a : ACell K), s.atoms[k]? = some a → CellTy b o oq k a
  qc : ∀ q < s.nextQd, ∀ r, Num.ref? (s.qd q).center = some r → Own b o r (.qc q)
  ql : ∀ q < s.nextQd, ∀ r, Num.ref? (s.qd q).linear = some r → Own b o r (.ql q)
  trans : ∀ t ∈ s.trans, o t = .loose

variable {b : Bool} {s s' s'' : State K} {o o' o'' : ℕ → Slot} {oq oq' oq'' : ℕ → Option ℕ}

lemma Ext.refl (s : State K) : Ext s s := ⟨le_rfl, le_rfl, fun _ _ => rfl, fun _ _ => rfl, rfl, rfl⟩

lemma Ext.trans' (h : Ext s s') (h' : Ext s' s'') : Ext s s'' :=
  ⟨h.nArr.trans h'.nArr, h.nQd.trans h'.nQd,
    fun r hr => (h'.arr r (lt_of_lt_of_le hr h.nArr)).trans (h.arr r hr),
    fun r hr => (h'.qd r (lt_of_lt_of_le hr h.nQd)).trans (h.qd r hr),
    h'.atoms.trans h.atoms, h'.trans.trans h.trans⟩

lemma CellOk.ext {a : ACell K} (h : CellOk s a) (e : Ext s s') : CellOk s' a :=
  ⟨lt_of_lt_of_le h.par e.nArr, lt_of_lt_of_le h.dict e.nArr, fun r hr => lt_of_lt_of_le (h.off r hr) e.nArr,
    lt_of_lt_of_le h.coefs e.nArr, lt_of_lt_of_le h.quad e.nQd⟩

lemma num_ext (e : Ext s s') {v : Option (Num K)} (h : ∀ r, Num.ref? v = some r → r < s.nextArr) :
    s'.num v = s.num v := by
  rcases v with _ | ⟨c⟩ | ⟨r⟩
  · rfl
  · rfl
  · simp only [State.num]
    rw [e.arr r (h r rfl)]

lemma quad_ext (e : Ext s s') (w : Wf s) {q : ℕ} (h : q < s.nextQd) : s'.quad q = s.quad q := by
  simp only [State.quad, e.qd q h]
  rw [num_ext e (w.qc q h), num_ext e (w.ql q h)]

lemma view_ext (e : Ext s s') (w : Wf s) {a : ACell K} (h : CellOk s a) : s'.view a = s.view a := by
  have hoff : a.offset.map s'.arr = a.offset.map s.arr := by
    rcases ho : a.offset with _ | r
    · rfl
    · simp [e.arr r (h.off r ho)]
  simp only [State.view, e.arr _ h.par, e.arr _ h.dict, e.arr _ h.coefs, quad_ext e w h.quad, hoff]

lemma world_ext (e : Ext s s') (w : Wf s) : atomWorld s' = atomWorld s := by
  have h1 : s.atoms.map s'.view = s.atoms.map s.view := by
    apply List.map_congr_left
    intro a ha
    obtain ⟨k, hk⟩ := List.mem_iff_getElem?.1 ha
    exact view_ext e w (w.cell k a hk)
  have h2 : s.trans.map s'.arr = s.trans.map s.arr :=
    List.map_congr_left fun t ht => e.arr t (w.trans t ht)
  simp only [atomWorld, e.atoms, e.trans, h1, h2]

/-- owners agree on what existed -/
def Agree (s : State K) (o o' : ℕ → Slot) (oq oq' : ℕ → Option ℕ) : Prop :=
  (∀ r < s.nextArr, o' r = o r) ∧ ∀ q < s.nextQd, oq' q = oq q

lemma Agree.refl : Agree s o o oq oq := ⟨fun _ _ => rfl, fun _ _ => rfl⟩

lemma Agree.trans' (e : Ext s s') (h : Agree s o o' oq oq') (h' : Agree s' o' o'' oq' oq'') :
    Agree s o o'' oq oq'' :=
  ⟨fun r hr => (h'.1 r (lt_of_lt_of_le hr e.nArr)).trans (h.1 r hr),
    fun r hr => (h'.2 r (lt_of_lt_of_le hr e.nQd)).trans (h.2 r hr)⟩

lemma Own.agree {r : ℕ} {σ : Slot} (h : Own b o r σ) (e : o' r = o r) : Own b o' r σ := by
  unfold Own; rw [e]; exact h

lemma CellTy.agree {k : ℕ} {a : ACell K} (h : CellTy b o oq k a) (ok : CellOk s a) (g : Agree s o o' oq oq') :
    CellTy b o' oq' k a :=
  ⟨(g.1 _ ok.par).trans h.par, (g.1 _ ok.dict).trans h.dict, (g.1 _ ok.coefs).trans h.coefs,
    fun r hr => (h.off r hr).agree (g.1 _ (ok.off r hr)), (g.2 _ ok.quad).trans h.quad⟩

/-- the result of growing the state -/
structure Grow (b : Bool) (s s' : State K) (o o' : ℕ → Slot) (oq oq' : ℕ → Option ℕ) : Prop where
  ty : Ty b s' o' oq'
  ext : Ext s s'
  agree : Agree s o o' oq oq'

lemma Grow.refl (t : Ty b s o oq) : Grow b s s o o oq oq := ⟨t, Ext.refl s, Agree.refl⟩

lemma Grow.trans' (h : Grow b s s' o o' oq oq') (h' : Grow b s' s'' o' o'' oq' oq'') : Grow b s s'' o o'' oq oq'' :=
  ⟨h'.ty, h.ext.trans' h'.ext, h.agree.trans' h.ext h'.agree⟩

lemma ext_allocArr (s : State K) (l : List K) : Ext s (s.allocArr l).2 :=
  ⟨Nat.le_succ _, le_rfl, fun r hr => Function.update_of_ne hr.ne _ _, fun _ _ => rfl, rfl, rfl⟩

lemma ext_allocQd (s : State K) (q : QCell K) : Ext s (s.allocQd q).2 :=
  ⟨le_rfl, Nat.le_succ _, fun _ _ => rfl, fun r hr => Function.update_of_ne hr.ne _ _, rfl, rfl⟩

lemma grow_allocArr (t : Ty b s o oq) (l : List K) (σ : Slot) :
    Grow b s (s.allocArr l).2 o (Function.update o s.nextArr σ) oq oq := by
  have hag : Agree s o (Function.update o s.nextArr σ) oq oq :=
    ⟨fun r hr => Function.update_of_ne hr.ne _ _, fun _ _ => rfl⟩
  refine ⟨⟨⟨?_, ?_, ?_, ?_⟩, ?_, ?_, ?_, ?_⟩, ext_allocArr s l, hag⟩
  · exact fun q hq r hr => Nat.lt_succ_of_lt (t.wf.qc q hq r hr)
  · exact fun q hq r hr => Nat.lt_succ_of_lt (t.wf.ql q hq r hr)
  · exact fun k a ha => (t.wf.cell k a ha).ext (ext_allocArr s l)
  · exact fun k hk => Nat.lt_succ_of_lt (t.wf.trans k hk)
  · exact fun k a ha => (t.cell k a ha).agree (t.wf.cell k a ha) hag
  · exact fun q hq r hr => (t.qc q hq r hr).agree (hag.1 r (t.wf.qc q hq r hr))
  · exact fun q hq r hr => (t.ql q hq r hr).agree (hag.1 r (t.wf.ql q hq r hr))
  · exact fun k hk => (hag.1 k (t.wf.trans k hk)).trans (t.trans k hk)

lemma grow_allocQd (t : Ty b s o oq) (q : QCell K) (w : Option ℕ)
    (hc : ∀ r, Num.ref? q.center = some r → Own b o r (.qc s.nextQd) ∧ r < s.nextArr)
    (hl : ∀ r, Num.ref? q.linear = some r → Own b o r (.ql s.nextQd) ∧ r < s.nextArr) :
    Grow b s (s.allocQd q).2 o o oq (Function.update oq s.nextQd w) := by
  have hag : Agree s o o oq (Function.update oq s.nextQd w) :=
    ⟨fun _ _ => rfl, fun r hr => Function.update_of_ne hr.ne _ _⟩
  have hget : ∀ r, (s.allocQd q).2.qd r = if r = s.nextQd then q else s.qd r := fun r => by
    simp only [State.allocQd, Function.update_apply]
  have hlt : ∀ r, r < (s.allocQd q).2.nextQd → r ≠ s.nextQd → r < s.nextQd := fun r hr hne =>
    lt_of_le_of_ne (Nat.lt_succ_iff.1 hr) hne
  refine ⟨⟨⟨?_, ?_, ?_, ?_⟩, ?_, ?_, ?_, ?_⟩, ext_allocQd s q, hag⟩
  · intro p hp r hr
    rw [hget] at hr
    by_cases h : p = s.nextQd
    · rw [if_pos h] at hr; exact (hc r hr).2
    · rw [if_neg h] at hr; exact t.wf.qc p (hlt p hp h) r hr
  · intro p hp r hr
    rw [hget] at hr
    by_cases h : p = s.nextQd
    · rw [if_pos h] at hr; exact (hl r hr).2
    · rw [if_neg h] at hr; exact t.wf.ql p (hlt p hp h) r hr
  · exact fun k a ha => (t.wf.cell k a ha).ext (ext_allocQd s q)
  · exact fun k hk => t.wf.trans k hk
  · exact fun k a ha => (t.cell k a ha).agree (t.wf.cell k a ha) hag
  · intro p hp r hr
    rw [hget] at hr
    by_cases h : p = s.nextQd
    · rw [if_pos h] at hr; rw [h]; exact (hc r hr).1
    · rw [if_neg h] at hr; exact t.qc p (hlt p hp h) r hr
  · intro p hp r hr
    rw [hget] at hr
    by_cases h : p = s.nextQd
    · rw [if_pos h] at hr; rw [h]; exact (hl r hr).1
    · rw [if_neg h] at hr; exact t.ql p (hlt p hp h) r hr
  · exact t.trans

lemma arr_allocArr (s : State K) (l : List K) : (s.allocArr l).2.arr (s.allocArr l).1 = l := by
  simp [State.allocArr]

lemma copyNum_eq (s : State K) (v : Option (Num K)) : s.copyNum v = s.newNum (s.num v) := by
  rcases v with _ | ⟨c⟩ | ⟨r⟩ <;> rfl

lemma newNum_spec (t : Ty b s o oq) (v : Option (Val K)) (σ : Slot) :
    ∃ o', Grow b s (s.newNum v).2 o o' oq oq ∧ (s.newNum v).2.nextQd = s.nextQd ∧
      (∀ r, Num.ref? (s.newNum v).1 = some r → o' r = σ ∧ r < (s.newNum v).2.nextArr ∧ s.nextArr ≤ r) ∧
      (s.newNum v).2.num (s.newNum v).1 = v := by
  rcases v with _ | ⟨c⟩ | ⟨l⟩
  · exact ⟨o, Grow.refl t, rfl, fun r hr => (by cases hr), rfl⟩
  · exact ⟨o, Grow.refl t, rfl, fun r hr => (by cases hr), rfl⟩
  · refine ⟨_, grow_allocArr t l σ, rfl, fun r hr => ?_, ?_⟩
    · have : r = s.nextArr := by
        have h : some s.nextArr = some r := hr
        exact (Option.some.inj h).symm
      subst this
      exact ⟨Function.update_self _ _ _, Nat.lt_succ_self _, le_rfl⟩
    · simp [State.newNum, State.num, State.allocArr]

lemma newQd_spec (t : Ty b s o oq) (q : QVal K) (w : Option ℕ) :
    ∃ o' oq', Grow b s (s.newQd q).2 o o' oq oq' ∧ oq' (s.newQd q).1 = w ∧ (s.newQd q).1 < (s.newQd q).2.nextQd ∧
      s.nextQd ≤ (s.newQd q).1 ∧
      (∀ r, Num.ref? ((s.newQd q).2.qd (s.newQd q).1).center = some r → o' r = .qc (s.newQd q).1) ∧
      (∀ r, Num.ref? ((s.newQd q).2.qd (s.newQd q).1).linear = some r → o' r = .ql (s.newQd q).1) ∧
      (s.newQd q).2.quad (s.newQd q).1 = q := by
  obtain ⟨o1, g1, n1, r1, v1⟩ := newNum_spec t q.center (.qc s.nextQd)
  obtain ⟨o2, g2, n2, r2, v2⟩ := newNum_spec g1.ty q.linear (.ql s.nextQd)
  unfold State.newQd
  generalize hp1 : s.newNum q.center = p1 at *
  obtain ⟨c, s1⟩ := p1
  dsimp only at *
  generalize hp2 : s1.newNum q.linear = p2 at *
  obtain ⟨l, s2⟩ := p2
  dsimp only at *
  have hn : s2.nextQd = s.nextQd := n2.trans n1
  have hc : ∀ r, Num.ref? c = some r → o2 r = .qc s2.nextQd ∧ r < s2.nextArr := fun r hr => by
    obtain ⟨h1, h2, -⟩ := r1 r hr
    exact ⟨by rw [g2.agree.1 r h2, h1, hn], lt_of_lt_of_le h2 g2.ext.nArr⟩
  have hl : ∀ r, Num.ref? l = some r → o2 r = .ql s2.nextQd ∧ r < s2.nextArr := fun r hr => by
    obtain ⟨h1, h2, -⟩ := r2 r hr
    exact ⟨by rw [h1, hn], h2⟩
  have g3 := grow_allocQd g2.ty ⟨q.coef, c, l, q.const⟩ w (fun r hr => ⟨Or.inl (hc r hr).1, (hc r hr).2⟩)
    (fun r hr => ⟨Or.inl (hl r hr).1, (hl r hr).2⟩)
  have hqd : (s2.allocQd ⟨q.coef, c, l, q.const⟩).2.qd s2.nextQd = ⟨q.coef, c, l, q.const⟩ := by
    simp [State.allocQd]
  refine ⟨o2, _, (g1.trans' g2).trans' g3, Function.update_self _ _ _, Nat.lt_succ_self _, hn.ge, ?_, ?_, ?_⟩
  · intro r hr
    have hr' : Num.ref? ((s2.allocQd ⟨q.coef, c, l, q.const⟩).2.qd s2.nextQd).center = some r := hr
    rw [hqd] at hr'
    exact (hc r hr').1
  · intro r hr
    have hr' : Num.ref? ((s2.allocQd ⟨q.coef, c, l, q.const⟩).2.qd s2.nextQd).linear = some r := hr
    rw [hqd] at hr'
    exact (hl r hr').1
  · show (s2.allocQd ⟨q.coef, c, l, q.const⟩).2.quad s2.nextQd = q
    simp only [State.quad, hqd]
    have e3 : (s2.allocQd ⟨q.coef, c, l, q.const⟩).2.num c = s2.num c := by rcases c with _ | ⟨_⟩ | ⟨_⟩ <;> rfl
    have e4 : (s2.allocQd ⟨q.coef, c, l, q.const⟩).2.num l = s2.num l := by rcases l with _ | ⟨_⟩ | ⟨_⟩ <;> rfl
    rw [e3, e4, v2, num_ext g2.ext (fun r hr => (r1 r hr).2.1), v1]

lemma copyQd_eq (s : State K) (r : ℕ) (w : Wf s) (h : r < s.nextQd) : s.copyQd r = s.newQd (s.quad r) := by
  unfold State.copyQd State.newQd
  simp only [copyNum_eq]
  show (match s.newNum (s.num (s.qd r).center) with
    | (c, s_1) => match s_1.newNum (s_1.num (s.qd r).linear) with
      | (l, s_2) => s_2.allocQd ⟨(s.qd r).coef, c, l, (s.qd r).const⟩) = 
    (match s.newNum (s.num (s.qd r).center) with
    | (c, s_1) => match s_1.newNum (s.num (s.qd r).linear) with
      | (l, s_2) => s_2.allocQd ⟨(s.qd r).coef, c, l, (s.qd r).const⟩)
  have e : Ext s (s.newNum (s.num (s.qd r).center)).2 := by
    rcases (s.num (s.qd r).center) with _ | ⟨_⟩ | ⟨_⟩
    · exact Ext.refl s
    · exact Ext.refl s
    · exact ext_allocArr s _
  have e2 := num_ext e (w.ql r h)
  generalize s.newNum (s.num (s.qd r).center) = p at *
  obtain ⟨c, s1⟩ := p
  dsimp only at *
  rw [e2]

lemma ctorOffset_map (s : State K) (x : Option ℕ) : (s.ctorOffset x).map s.arr = dropZero (x.map s.arr) := by
  rcases x with _ | r
  · rfl
  · simp only [State.ctorOffset, dropZero, Option.map_some]
    by_cases h : (s.arr r).any (· ≠ 0) = true
    · rw [if_pos h, Option.filter_some, if_pos h]; rfl
    · rw [if_neg h, Option.filter_some, if_neg h]; rfl

lemma off_ext (e : Ext s s') {x : Option ℕ} (h : ∀ r, x = some r → r < s.nextArr) : x.map s'.arr = x.map s.arr := by
  rcases x with _ | r
  · rfl
  · simp [e.arr r (h r rfl)]

lemma ctorOffset_sub {x : Option ℕ} {r : ℕ} (h : s.ctorOffset x = some r) : x = some r := by
  rcases x with _ | p
  · cases h
  · simp only [State.ctorOffset] at h
    split_ifs at h
    exact h

lemma copyOffset_spec (t : Ty b s o oq) (x : Option ℕ) (σ : Slot) :
    ∃ o', Grow b s (s.copyOffset x).2 o o' oq oq ∧
      (∀ r, (s.copyOffset x).1 = some r → o' r = σ ∧ r < (s.copyOffset x).2.nextArr ∧ s.nextArr ≤ r) ∧
      (s.copyOffset x).1.map (s.copyOffset x).2.arr = x.map s.arr := by
  rcases x with _ | p
  · exact ⟨o, Grow.refl t, fun r hr => (by cases hr), rfl⟩
  · refine ⟨_, grow_allocArr t (s.arr p) σ, fun r hr => ?_, ?_⟩
    · have h : some s.nextArr = some r := hr
      cases h
      exact ⟨Function.update_self _ _ _, Nat.lt_succ_self _, le_rfl⟩
    · simp [State.copyOffset, State.allocArr]

lemma ctorMode_eq (f : Family) (x y : Option K) : f.ctorMode x y = modeOf f x y := by
  unfold Family.ctorMode modeOf
  split_ifs
  · rcases AtomState.init x y with _ | m <;> rfl
  · rfl

lemma copyDict_spec (t : Ty b s o oq) {a : ACell K} (hd : a.dict < s.nextArr)
    (ht : a.fam.copiesDict = false → o a.dict = .mixedDict) (n : ℕ) :
    ∃ o2, Grow b s (s.copyDict a).2 o o2 oq oq ∧ (s.copyDict a).1 < (s.copyDict a).2.nextArr ∧
      o2 (s.copyDict a).1 = dictSlot a.fam n ∧ (s.copyDict a).2.arr (s.copyDict a).1 = s.arr a.dict := by
  unfold State.copyDict
  by_cases h : a.fam.copiesDict
  · simp only [if_pos h]
    refine ⟨_, grow_allocArr t (s.arr a.dict) (.dict n), Nat.lt_succ_self _, ?_, arr_allocArr _ _⟩
    rw [dictSlot, if_pos h]; exact Function.update_self _ _ _
  · simp only [if_neg h]
    refine ⟨o, Grow.refl t, hd, ?_, by simp⟩
    rw [ht (by simpa using h), dictSlot, if_neg h]

lemma passQuad_spec (t : Ty b s o oq) {a : ACell K} (hq : a.quad < s.nextQd)
    (ht : a.fam.copiesQuad = false → oq a.quad = none) (n : ℕ) :
    ∃ o2 oq2, Grow b s (s.passQuad a).2 o o2 oq oq2 ∧ (s.passQuad a).1 < (s.passQuad a).2.nextQd ∧
      oq2 (s.passQuad a).1 = quadSlot a.fam n ∧ (s.passQuad a).2.quad (s.passQuad a).1 = s.quad a.quad := by
  unfold State.passQuad
  by_cases h : a.fam.copiesQuad
  · simp only [if_pos h]
    rw [copyQd_eq s a.quad t.wf hq]
    obtain ⟨o4, oq4, g4, h1, h2, h3, h4, h5, h6⟩ := newQd_spec t (s.quad a.quad) (some n)
    refine ⟨o4, oq4, g4, h2, ?_, h6⟩
    rw [quadSlot, if_pos h, h1]
  · simp only [if_neg h]
    refine ⟨o, oq, Grow.refl t, hq, ?_, by simp⟩
    rw [ht (by simpa using h), quadSlot, if_neg h]

lemma copyAtom_spec (t : Ty b s o oq) {k : ℕ} {a : ACell K} (hk : s.atoms[k]? = some a) (n : ℕ) :
    (s.copyAtom a = none → copyView (s.view a) = none) ∧
    ∀ c s', s.copyAtom a = some (c, s') → ∃ o' oq', Grow b s s' o o' oq oq' ∧ CellOk s' c ∧ CellTy b o' oq' n c ∧
      (∀ r, c.offset = some r → o' r = .off n ∧ s.nextArr ≤ r) ∧ copyView (s.view a) = some (s'.view c) := by
  have hok := t.wf.cell k a hk
  have hty := t.cell k a hk
  unfold State.copyAtom
  by_cases hb : a.fam = .blockSum
  · rw [if_pos hb]
    refine ⟨fun _ => ?_, fun c s' h => by cases h⟩
    simp [copyView, State.view, hb]
  rw [if_neg hb]
  dsimp only
  rw [ctorMode_eq]
  rcases hm : modeOf a.fam a.mode.lagrange a.mode.bound with _ | m
  · refine ⟨fun _ => ?_, fun c s' h => by cases h⟩
    simp [copyView, State.view, hb, hm]
  refine ⟨fun h => by simp at h, ?_⟩
  intro c s' h
  dsimp only at h
  -- par
  have g1 := grow_allocArr t (s.arr a.par) (.par n)
  have v1 := arr_allocArr s (s.arr a.par)
  have l1 : (s.allocArr (s.arr a.par)).1 < (s.allocArr (s.arr a.par)).2.nextArr := Nat.lt_succ_self _
  have w1 : (Function.update o s.nextArr (.par n)) (s.allocArr (s.arr a.par)).1 = .par n := Function.update_self _ _ _
  generalize hp1 : s.allocArr (s.arr a.par) = p1 at *
  obtain ⟨par, s1⟩ := p1
  generalize Function.update o s.nextArr (.par n) = o1 at *
  dsimp only at *
  -- dict
  obtain ⟨o2, g2, l2, w2, v2⟩ := copyDict_spec g1.ty (a := a) (lt_of_lt_of_le hok.dict g1.ext.nArr)
    (fun h => by rw [g1.agree.1 _ hok.dict, hty.dict, dictSlot, h]; rfl) n
  rw [g1.ext.arr _ hok.dict] at v2
  generalize hp2 : s1.copyDict a = p2 at *
  obtain ⟨dict, s2⟩ := p2
  dsimp only at *
  -- offset
  obtain ⟨o3, g3, r3, v3⟩ := copyOffset_spec g2.ty a.offset (.off n)
  generalize hp3 : s2.copyOffset a.offset = p3 at *
  obtain ⟨off, s3⟩ := p3
  dsimp only at *
  have g13 := (g1.trans' g2).trans' g3
  -- quadratic
  obtain ⟨o4, oq4, g4, l4, w4, v4⟩ := passQuad_spec g13.ty (a := a) (lt_of_lt_of_le hok.quad g13.ext.nQd)
    (fun h => by rw [hty.quad, quadSlot, h]; rfl) n
  rw [quad_ext g13.ext t.wf hok.quad] at v4
  generalize hp4 : s3.passQuad a = p4 at *
  obtain ⟨quad, s4⟩ := p4
  dsimp only at *
  have g14 := g13.trans' g4
  -- coefficients
  have hc4 : s4.arr a.coefs = s.arr a.coefs := g14.ext.arr _ hok.coefs
  have g5 := grow_allocArr g4.ty (if a.fam.keepsCoefs then s4.arr a.coefs else List.replicate a.size 0) (.coefs n)
  have v5 := arr_allocArr s4 (if a.fam.keepsCoefs then s4.arr a.coefs else List.replicate a.size 0)
  have l5 : (s4.allocArr (if a.fam.keepsCoefs then s4.arr a.coefs else List.replicate a.size 0)).1 <
      (s4.allocArr (if a.fam.keepsCoefs then s4.arr a.coefs else List.replicate a.size 0)).2.nextArr :=
    Nat.lt_succ_self _
  have w5 : (Function.update o4 s4.nextArr (.coefs n))
      (s4.allocArr (if a.fam.keepsCoefs then s4.arr a.coefs else List.replicate a.size 0)).1 = .coefs n :=
    Function.update_self _ _ _
  generalize hp5 : s4.allocArr (if a.fam.keepsCoefs then s4.arr a.coefs else List.replicate a.size 0) = p5 at *
  obtain ⟨coefs, s5⟩ := p5
  generalize Function.update o4 s4.nextArr (.coefs n) = o5 at *
  dsimp only at *
  simp only [Option.some.injEq, Prod.mk.injEq] at h
  obtain ⟨rfl, rfl⟩ := h
  have g25 := (g2.trans' g3).trans' (g4.trans' g5)
  have g35 := g3.trans' (g4.trans' g5)
  have g45 := g4.trans' g5
  have hoff : ∀ r, s5.ctorOffset off = some r → o5 r = .off n ∧ r < s5.nextArr ∧ s.nextArr ≤ r := fun r hr => by
    obtain ⟨h1, h2, h3⟩ := r3 r (ctorOffset_sub hr)
    exact ⟨(g45.agree.1 r h2).trans h1, lt_of_lt_of_le h2 g45.ext.nArr,
      ((g1.trans' g2).ext.nArr).trans h3⟩
  refine ⟨o5, oq4, g14.trans' g5, ⟨?_, ?_, ?_, l5, ?_⟩, ⟨?_, ?_, w5, ?_, ?_⟩, ?_, ?_⟩
  · exact lt_of_lt_of_le l1 g25.ext.nArr
  · exact lt_of_lt_of_le l2 g35.ext.nArr
  · exact fun r hr => (hoff r hr).2.1
  · exact lt_of_lt_of_le l4 g5.ext.nQd
  · exact (g25.agree.1 _ l1).trans w1
  · exact (g35.agree.1 _ l2).trans w2
  · exact fun r hr => Or.inl (hoff r hr).1
  · exact (g5.agree.2 _ l4).trans w4
  · exact fun r hr => ⟨(hoff r hr).1, (hoff r hr).2.2⟩
  · have e1 : s5.arr par = s.arr a.par := (g25.ext.arr _ l1).trans v1
    have e2 : s5.arr dict = s.arr a.dict := (g35.ext.arr _ l2).trans v2
    have e3 : (s5.ctorOffset off).map s5.arr = dropZero (a.offset.map s.arr) := by
      rw [ctorOffset_map, off_ext g45.ext (fun r hr => (r3 r hr).2.1), v3, off_ext (g1.trans' g2).ext hok.off]
    have e4 : s5.quad quad = s.quad a.quad := (quad_ext g5.ext g4.ty.wf l4).trans v4
    simp only [copyView, State.view, if_neg hb, hm, Option.map_some, e1, e2, e3, e4, v5, hc4]
    rfl

/-- references that may be shared in the tolerant mode -/
def Loosable : Slot → Prop
  | .off _ | .qc _ | .ql _ | .loose => True
  | _ => False

lemma Ty.loosen (t : Ty false s o oq) {r : ℕ} (h : Loosable (o r)) : Ty false s (Function.update o r .loose) oq := by
  have hk : ∀ x σ, o x = σ → ¬ Loosable σ → Function.update o r .loose x = σ := fun x σ hx hσ => by
    rw [Function.update_of_ne]
    · exact hx
    · rintro rfl
      rw [hx] at h; exact hσ h
  have ho : ∀ x σ, Own false o x σ → Own false (Function.update o r .loose) x σ := fun x σ hx => by
    by_cases hxr : x = r
    · subst hxr; exact Or.inr ⟨rfl, Function.update_self _ _ _⟩
    · exact hx.agree (Function.update_of_ne hxr _ _)
  refine ⟨t.wf, fun k a ha => ?_, fun q hq x hx => ho x _ (t.qc q hq x hx), fun q hq x hx => ho x _ (t.ql q hq x hx),
    fun x hx => ?_⟩
  · have c := t.cell k a ha
    refine ⟨hk _ _ c.par (by simp [Loosable]), hk _ _ c.dict ?_, hk _ _ c.coefs (by simp [Loosable]),
      fun x hx => ho x _ (c.off x hx), c.quad⟩
    unfold dictSlot; split_ifs <;> simp [Loosable]
  · by_cases hxr : x = r
    · subst hxr; exact Function.update_self _ _ _
    · rw [Function.update_of_ne hxr]; exact t.trans x hx

lemma Own.loosable {r : ℕ} {σ : Slot} (h : Own b o r σ) (hσ : Loosable σ) : Loosable (o r) := by
  rcases h with h | ⟨-, h⟩
  · rw [h]; exact hσ
  · rw [h]; trivial

/-- loosen a reference if there is one -/
lemma Ty.loosen? (t : Ty false s o oq) (x : Option ℕ) (h : ∀ r, x = some r → Loosable (o r)) :
    ∃ o', Ty false s o' oq ∧ (∀ r, x = some r → o' r = .loose) ∧ ∀ r, Loosable (o r) → Loosable (o' r) ∧
      (o r = .loose → o' r = .loose) := by
  rcases x with _ | r
  · exact ⟨o, t, fun r hr => (by cases hr), fun r hr => ⟨hr, id⟩⟩
  · refine ⟨_, t.loosen (h r rfl), fun r' hr => ?_, fun r' hr => ?_⟩
    · cases hr; exact Function.update_self _ _ _
    · by_cases e : r' = r
      · subst e; rw [Function.update_self]; exact ⟨trivial, fun _ => rfl⟩
      · rw [Function.update_of_ne e]; exact ⟨hr, id⟩

lemma linArr_num (s : State K) (v : Option (Num K)) : linArr (s.num v) = (Num.ref? v).map s.arr := by
  rcases v with _ | ⟨c⟩ | ⟨r⟩ <;> rfl

lemma isFloat_num (s : State K) (v : Option (Num K)) : isFloat (s.num v) = Num.isFloat v := by
  rcases v with _ | ⟨c⟩ | ⟨r⟩ <;> rfl

lemma dot_eq (s : State K) (x y : Option ℕ) :
    s.dot x y = (List.zipWith (· * ·) ((x.map s.arr).getD []) ((y.map s.arr).getD [])).sum := by
  rcases x with _ | x <;> rcases y with _ | y <;> simp [State.dot]

lemma conjAtom_spec (t : Ty false s o oq) {k : ℕ} {a : ACell K} (hk : s.atoms[k]? = some a) (n : ℕ) :
    (s.conjAtom a = none → conjView (s.view a) = none) ∧
    ∀ c s', s.conjAtom a = some (c, s') → ∃ o' oq', Ty false s' o' oq' ∧ Ext s s' ∧ CellOk s' c ∧
      CellTy false o' oq' n c ∧ conjView (s.view a) = some (s'.view c) := by
  have hok := t.wf.cell k a hk
  have hty := t.cell k a hk
  have hcond : ((a.fam = .seminorm ∨ a.fam = .cone ∨ a.fam = .simplex) ∧ (s.qd a.quad).coef = 0 ∧
      Num.isFloat (s.qd a.quad).linear = false) ↔
      (((s.view a).fam = .seminorm ∨ (s.view a).fam = .cone ∨ (s.view a).fam = .simplex) ∧ (s.view a).quad.coef = 0 ∧
      isFloat (s.view a).quad.linear = false) := by
    show _ ↔ ((a.fam = .seminorm ∨ a.fam = .cone ∨ a.fam = .simplex) ∧ (s.qd a.quad).coef = 0 ∧
      isFloat (s.num (s.qd a.quad).linear) = false)
    rw [isFloat_num]
  unfold State.conjAtom conjView
  by_cases hc : (a.fam = .seminorm ∨ a.fam = .cone ∨ a.fam = .simplex) ∧ (s.qd a.quad).coef = 0 ∧
      Num.isFloat (s.qd a.quad).linear = false
  swap
  · rw [if_neg hc, if_neg (fun h => hc (hcond.2 h))]
    exact ⟨fun _ => rfl, fun c s' h => by cases h⟩
  rw [if_pos hc, if_pos (hcond.1 hc), ctorMode_eq]
  show (_ → Option.map _ (modeOf a.fam a.mode.bound a.mode.lagrange) = none) ∧ ∀ c s', _ → ∃ o' oq', _ ∧ _ ∧ _ ∧ _ ∧
    Option.map _ (modeOf a.fam a.mode.bound a.mode.lagrange) = _
  rcases hm : modeOf a.fam a.mode.bound a.mode.lagrange with _ | m
  · exact ⟨fun _ => rfl, fun c s' h => by cases h⟩
  refine ⟨fun h => by simp at h, ?_⟩
  intro c s' h
  dsimp only at h
  -- offset and linear term become shared
  obtain ⟨o1, t1, l1, p1⟩ := t.loosen? a.offset (fun r hr => (hty.off r hr).loosable trivial)
  obtain ⟨o2, t2, l2, p2⟩ := t1.loosen? (Num.ref? (s.qd a.quad).linear)
    (fun r hr => (t1.ql a.quad hok.quad r hr).loosable trivial)
  have hoff2 : ∀ r, a.offset = some r → o2 r = .loose := fun r hr =>
    (p2 r (by rw [l1 r hr]; trivial)).2 (l1 r hr)
  -- the quadratic
  have g1 := grow_allocQd t2 ⟨0, some (.scalar 0), some (match a.offset with | some o => .arr o | none => .scalar 0),
    -(s.qd a.quad).const - s.dot a.offset (Num.ref? (s.qd a.quad).linear)⟩ (quadSlot a.fam n)
    (fun r hr => by cases hr) (fun r hr => by
      rcases ho : a.offset with _ | x
      · rw [ho] at hr; cases hr
      · rw [ho] at hr
        have : r = x := by simpa [Num.ref?] using hr.symm
        subst this
        exact ⟨Or.inr ⟨rfl, hoff2 r ho⟩, hok.off r ho⟩)
  have hq1 : (s.allocQd ⟨0, some (.scalar 0), some (match a.offset with | some o => .arr o | none => .scalar 0),
    -(s.qd a.quad).const - s.dot a.offset (Num.ref? (s.qd a.quad).linear)⟩).2.quad s.nextQd =
      ⟨0, some (.scalar 0), some (((a.offset.map s.arr).map Val.arr).getD (.scalar 0)),
        -(s.qd a.quad).const - s.dot a.offset (Num.ref? (s.qd a.quad).linear)⟩ := by
    rcases a.offset with _ | x <;> simp [State.quad, State.allocQd, State.num]
  have hw1 : Function.update oq s.nextQd (quadSlot a.fam n) s.nextQd = quadSlot a.fam n := Function.update_self _ _ _
  have hl1 : s.nextQd < (s.allocQd ⟨0, some (.scalar 0), some (match a.offset with | some o => .arr o | none => .scalar 0),
    -(s.qd a.quad).const - s.dot a.offset (Num.ref? (s.qd a.quad).linear)⟩).2.nextQd := Nat.lt_succ_self _
  have hf1 : (s.allocQd ⟨0, some (.scalar 0), some (match a.offset with | some o => .arr o | none => .scalar 0),
    -(s.qd a.quad).const - s.dot a.offset (Num.ref? (s.qd a.quad).linear)⟩).1 = s.nextQd := rfl
  generalize hp1 : s.allocQd ⟨0, some (.scalar 0), some (match a.offset with | some o => .arr o | none => .scalar 0),
    -(s.qd a.quad).const - s.dot a.offset (Num.ref? (s.qd a.quad).linear)⟩ = q1 at *
  obtain ⟨quad, s1⟩ := q1
  dsimp only at *
  subst hf1
  generalize Function.update oq s.nextQd (quadSlot a.fam n) = oq1 at *
  -- arrays
  have g2 := grow_allocArr g1.ty [] (.par n)
  have v2 := arr_allocArr s1 []
  have w2 : Function.update o2 s1.nextArr (.par n) (s1.allocArr []).1 = .par n := Function.update_self _ _ _
  have l2' : (s1.allocArr []).1 < (s1.allocArr []).2.nextArr := Nat.lt_succ_self _
  generalize Function.update o2 s1.nextArr (.par n) = o3 at *
  generalize hp2 : s1.allocArr [] = q2 at *
  obtain ⟨par, s2⟩ := q2
  dsimp only at *
  have g3 := grow_allocArr g2.ty [] (.dict n)
  have v3 := arr_allocArr s2 []
  have w3 : Function.update o3 s2.nextArr (.dict n) (s2.allocArr []).1 = .dict n := Function.update_self _ _ _
  have l3 : (s2.allocArr []).1 < (s2.allocArr []).2.nextArr := Nat.lt_succ_self _
  generalize Function.update o3 s2.nextArr (.dict n) = o4 at *
  generalize hp3 : s2.allocArr [] = q3 at *
  obtain ⟨dict, s3⟩ := q3
  dsimp only at *
  have g4 := grow_allocArr g3.ty (List.replicate a.size 0) (.coefs n)
  have v4 := arr_allocArr s3 (List.replicate a.size 0)
  have w4 : Function.update o4 s3.nextArr (.coefs n) (s3.allocArr (List.replicate a.size 0)).1 = .coefs n :=
    Function.update_self _ _ _
  have l4 : (s3.allocArr (List.replicate a.size 0)).1 < (s3.allocArr (List.replicate a.size 0)).2.nextArr :=
    Nat.lt_succ_self _
  generalize Function.update o4 s3.nextArr (.coefs n) = o5 at *
  generalize hp4 : s3.allocArr (List.replicate a.size 0) = q4 at *
  obtain ⟨coefs, s4⟩ := q4
  dsimp only at *
  simp only [Option.some.injEq, Prod.mk.injEq] at h
  obtain ⟨rfl, rfl⟩ := h
  have g24 := (g2.trans' g3).trans' g4
  have g14 := g1.trans' g24
  have hlin : ∀ r, s4.ctorOffset (Num.ref? (s.qd a.quad).linear) = some r → r < s.nextArr ∧ o5 r = .loose := fun r hr => by
    have h1 := ctorOffset_sub hr
    have h2 := t.wf.ql _ hok.quad r h1
    exact ⟨h2, (g14.agree.1 r h2).trans (l2 r h1)⟩
  refine ⟨o5, oq1, g4.ty, g14.ext, ⟨?_, ?_, ?_, l4, ?_⟩, ⟨?_, ?_, w4, ?_, hw1⟩, ?_⟩
  · exact lt_of_lt_of_le l2' (g3.trans' g4).ext.nArr
  · exact lt_of_lt_of_le l3 g4.ext.nArr
  · exact fun r hr => lt_of_lt_of_le (hlin r hr).1 g14.ext.nArr
  · exact lt_of_lt_of_le hl1 g24.ext.nQd
  · exact ((g3.trans' g4).agree.1 _ l2').trans w2
  · rw [dictSlot, if_pos (by rcases hc.1 with h | h | h <;> rw [h] <;> rfl)]
    exact (g4.agree.1 _ l3).trans w3
  · exact fun r hr => Or.inr ⟨rfl, (hlin r hr).2⟩
  · have e1 : s4.arr par = [] := ((g3.trans' g4).ext.arr _ l2').trans v2
    have e2 : s4.arr dict = [] := (g4.ext.arr _ l3).trans v3
    have e4 : s4.quad s.nextQd = _ := (quad_ext g24.ext g1.ty.wf hl1).trans hq1
    have e3 : (s4.ctorOffset (Num.ref? (s.qd a.quad).linear)).map s4.arr =
        dropZero ((Num.ref? (s.qd a.quad).linear).map s.arr) := by
      rw [ctorOffset_map, off_ext g14.ext (t.wf.ql _ hok.quad)]
    have e5 : linArr (s.view a).quad.linear = (Num.ref? (s.qd a.quad).linear).map s.arr := linArr_num s _
    simp only [Option.map_some, e5]
    simp only [State.view, e1, e2, e3, e4, v4, dot_eq]
    rfl

lemma num_write (s : State K) (r : ℕ) (l : List K) {v : Option (Num K)} (h : Num.ref? v ≠ some r) :
    (s.writeArr r l).num v = s.num v := by
  rcases v with _ | ⟨c⟩ | ⟨x⟩
  · rfl
  · rfl
  · have : x ≠ r := fun e => h (by rw [e]; rfl)
    simp [State.num, State.writeArr, Function.update_of_ne this]

lemma num_write_self (s : State K) (r : ℕ) (l : List K) {v : Option (Num K)} (h : Num.ref? v = some r) :
    (s.writeArr r l).num v = overwrite l (s.num v) := by
  rcases v with _ | ⟨c⟩ | ⟨x⟩
  · cases h
  · cases h
  · have : x = r := Option.some.inj h
    subst this
    simp [State.num, State.writeArr, overwrite]

lemma arr_write (s : State K) {r x : ℕ} (l : List K) (h : x ≠ r) : (s.writeArr r l).arr x = s.arr x :=
  Function.update_of_ne h _ _

lemma arr_write_self (s : State K) (r : ℕ) (l : List K) : (s.writeArr r l).arr r = l := Function.update_self _ _ _

lemma off_write (s : State K) {r : ℕ} (l : List K) {x : Option ℕ} (h : x ≠ some r) :
    x.map (s.writeArr r l).arr = x.map s.arr := by
  rcases x with _ | x
  · rfl
  · have hx : x ≠ r := fun e => h (by rw [e])
    simp [arr_write s l hx]

lemma quad_write (s : State K) {r q : ℕ} (l : List K) (hc : Num.ref? (s.qd q).center ≠ some r)
    (hl : Num.ref? (s.qd q).linear ≠ some r) : (s.writeArr r l).quad q = s.quad q := by
  show (⟨(s.qd q).coef, (s.writeArr r l).num (s.qd q).center, (s.writeArr r l).num (s.qd q).linear, (s.qd q).const⟩ :
    QVal K) = _
  rw [num_write s r l hc, num_write s r l hl]; rfl

lemma Ty.write (t : Ty b s o oq) (r : ℕ) (l : List K) : Ty b (s.writeArr r l) o oq :=
  ⟨⟨t.wf.qc, t.wf.ql, fun k a h => ⟨(t.wf.cell k a h).par, (t.wf.cell k a h).dict, (t.wf.cell k a h).off,
    (t.wf.cell k a h).coefs, (t.wf.cell k a h).quad⟩, t.wf.trans⟩, t.cell, t.qc, t.ql, t.trans⟩

lemma affineAtom_spec (t : Ty false s o oq) {k : ℕ} {a : ACell K} (hk : s.atoms[k]? = some a) {x : ℕ}
    (hx : x ∈ s.trans) (n : ℕ) :
    (s.affineAtom a x = none → affineView (s.view a) (s.arr x) = none) ∧
    ∀ c s', s.affineAtom a x = some (c, s') → ∃ o' oq', Ty false s' o' oq' ∧ Ext s s' ∧ CellOk s' c ∧
      CellTy false o' oq' n c ∧ affineView (s.view a) (s.arr x) = some (s'.view c) := by
  obtain ⟨h0, h1⟩ := copyAtom_spec t hk n
  unfold State.affineAtom affineView
  rcases hcp : s.copyAtom a with _ | ⟨c, s1⟩
  · rw [h0 hcp]
    exact ⟨fun _ => rfl, fun c s' h => by cases h⟩
  obtain ⟨o1, oq1, g, ok, ty, hfr, hv⟩ := h1 c s1 hcp
  have hxa : s1.arr x = s.arr x := g.ext.arr x (t.wf.trans x hx)
  have hxo : o1 x = .loose := (g.agree.1 x (t.wf.trans x hx)).trans (t.trans x hx)
  rw [hv, Option.bind_some]
  dsimp only
  rw [show (s1.view c).offset = c.offset.map s1.arr from rfl]
  rcases ho : c.offset with _ | r
  · dsimp only [Option.map_none]
    refine ⟨fun h => by simp at h, fun c' s' h => ?_⟩
    simp only [Option.some.injEq, Prod.mk.injEq] at h
    obtain ⟨rfl, rfl⟩ := h
    have hset : ∀ y, s1.setOffset none (some x) = some y → y = x := fun y hy => by
      simp only [State.setOffset] at hy
      split_ifs at hy
      exact (Option.some.inj hy).symm
    refine ⟨o1, oq1, g.ty, g.ext, ⟨ok.par, ok.dict, ?_, ok.coefs, ok.quad⟩,
      ⟨ty.par, ty.dict, ty.coefs, ?_, ty.quad⟩, ?_⟩
    · intro y hy
      rw [hset y hy]
      exact lt_of_lt_of_le (t.wf.trans x hx) g.ext.nArr
    · intro y hy
      rw [hset y hy]
      exact Or.inr ⟨rfl, hxo⟩
    · have : (s1.setOffset none (some x)).map s1.arr = dropZero (some (s.arr x)) := by
        have := ctorOffset_map s1 (some x)
        rw [Option.map_some, hxa] at this
        exact this
      simp only [State.view, this]
  · dsimp only [Option.map_some]
    rw [hxa]
    by_cases hlen : (s1.arr r).length = (s.arr x).length
    swap
    · rw [if_neg hlen, if_neg hlen]
      exact ⟨fun _ => rfl, fun c s' h => by cases h⟩
    rw [if_pos hlen, if_pos hlen]
    refine ⟨fun h => by simp at h, fun c' s' h => ?_⟩
    simp only [Option.some.injEq, Prod.mk.injEq] at h
    obtain ⟨rfl, rfl⟩ := h
    obtain ⟨hro, hrn⟩ := hfr r ho
    refine ⟨o1, oq1, g.ty.write _ _, ⟨g.ext.nArr, g.ext.nQd, fun y hy => ?_, g.ext.qd, g.ext.atoms, g.ext.trans⟩,
      ⟨ok.par, ok.dict, ok.off, ok.coefs, ok.quad⟩, ty, ?_⟩
    · rw [arr_write s1 _ (by omega)]
      exact g.ext.arr y hy
    · have n1 : c.par ≠ r := fun e => by have := ty.par; rw [e, hro] at this; cases this
      have n2 : c.dict ≠ r := fun e => by
        have := ty.dict; rw [e, hro] at this
        unfold dictSlot at this; split_ifs at this
      have n3 : c.coefs ≠ r := fun e => by have := ty.coefs; rw [e, hro] at this; cases this
      have n4 : Num.ref? (s1.qd c.quad).center ≠ some r := fun e => by
        rcases g.ty.qc c.quad ok.quad r e with h | ⟨-, h⟩ <;> rw [hro] at h <;> cases h
      have n5 : Num.ref? (s1.qd c.quad).linear ≠ some r := fun e => by
        rcases g.ty.ql c.quad ok.quad r e with h | ⟨-, h⟩ <;> rw [hro] at h <;> cases h
      simp only [State.view, ho, Option.map_some, arr_write _ _ n1, arr_write _ _ n2, arr_write _ _ n3,
        arr_write_self, quad_write _ _ n4 n5]

/-- the caller's offset -/
lemma newOffset_spec (t : Ty b s o oq) (x : Option (List K)) (σ : Slot) :
    ∃ o', Grow b s (s.newOffset x).2 o o' oq oq ∧
      (∀ r, (s.newOffset x).1 = some r → o' r = σ ∧ r < (s.newOffset x).2.nextArr) ∧
      (s.newOffset x).1.map (s.newOffset x).2.arr = x := by
  rcases x with _ | l
  · exact ⟨o, Grow.refl t, fun r hr => (by cases hr), rfl⟩
  · refine ⟨_, grow_allocArr t l σ, fun r hr => ?_, ?_⟩
    · have h : some s.nextArr = some r := hr
      cases h
      exact ⟨Function.update_self _ _ _, Nat.lt_succ_self _⟩
    · simp [State.newOffset, State.allocArr]

lemma create_spec (t : Ty b s o oq) (n : ℕ) (fam : Family) (tag : ℕ) (dual : Bool) (size : ℕ) (lag bd : Option K)
    (pv dv : List K) (ov : Option (List K)) (qv : QVal K) (cv : List K) :
    (s.create fam tag dual size lag bd pv dv ov qv cv = none → modeOf fam lag bd = none) ∧
    ∀ c s', s.create fam tag dual size lag bd pv dv ov qv cv = some (c, s') → ∃ o' oq', Ty b s' o' oq' ∧ Ext s s' ∧
      CellOk s' c ∧ CellTy b o' oq' n c ∧ (modeOf fam lag bd).map (fun m =>
        (⟨fam, tag, dual, size, m, pv, dv, (pv, dv), dropZero ov, qv, cv⟩ : View K)) = some (s'.view c) := by
  unfold State.create
  rw [ctorMode_eq]
  rcases hm : modeOf fam lag bd with _ | m
  · exact ⟨fun _ => rfl, fun c s' h => by cases h⟩
  refine ⟨fun h => by simp at h, ?_⟩
  intro c s' h
  dsimp only at h
  have g1 := grow_allocArr t pv (.par n)
  have v1 := arr_allocArr s pv
  have l1 : (s.allocArr pv).1 < (s.allocArr pv).2.nextArr := Nat.lt_succ_self _
  have w1 : (Function.update o s.nextArr (.par n)) (s.allocArr pv).1 = .par n := Function.update_self _ _ _
  generalize hp1 : s.allocArr pv = p1 at *
  obtain ⟨par, s1⟩ := p1
  generalize Function.update o s.nextArr (.par n) = o1 at *
  dsimp only at *
  have g2 := grow_allocArr g1.ty dv (dictSlot fam n)
  have v2 := arr_allocArr s1 dv
  have l2 : (s1.allocArr dv).1 < (s1.allocArr dv).2.nextArr := Nat.lt_succ_self _
  have w2 : (Function.update o1 s1.nextArr (dictSlot fam n)) (s1.allocArr dv).1 = dictSlot fam n :=
    Function.update_self _ _ _
  generalize hp2 : s1.allocArr dv = p2 at *
  obtain ⟨dict, s2⟩ := p2
  generalize Function.update o1 s1.nextArr (dictSlot fam n) = o2 at *
  dsimp only at *
  obtain ⟨o3, g3, r3, v3⟩ := newOffset_spec g2.ty ov (.off n)
  generalize hp3 : s2.newOffset ov = p3 at *
  obtain ⟨off, s3⟩ := p3
  dsimp only at *
  obtain ⟨o4, oq4, g4, w4, l4, -, -, -, v4⟩ := newQd_spec g3.ty qv (quadSlot fam n)
  generalize hp4 : s3.newQd qv = p4 at *
  obtain ⟨quad, s4⟩ := p4
  dsimp only at *
  have g5 := grow_allocArr g4.ty cv (.coefs n)
  have v5 := arr_allocArr s4 cv
  have l5 : (s4.allocArr cv).1 < (s4.allocArr cv).2.nextArr := Nat.lt_succ_self _
  have w5 : (Function.update o4 s4.nextArr (.coefs n)) (s4.allocArr cv).1 = .coefs n := Function.update_self _ _ _
  generalize hp5 : s4.allocArr cv = p5 at *
  obtain ⟨coefs, s5⟩ := p5
  generalize Function.update o4 s4.nextArr (.coefs n) = o5 at *
  dsimp only at *
  simp only [Option.some.injEq, Prod.mk.injEq] at h
  obtain ⟨rfl, rfl⟩ := h
  have g45 := g4.trans' g5
  have g35 := g3.trans' g45
  have g25 := g2.trans' g35
  have hoff : ∀ r, s5.ctorOffset off = some r → o5 r = .off n ∧ r < s5.nextArr := fun r hr => by
    obtain ⟨h1, h2⟩ := r3 r (ctorOffset_sub hr)
    exact ⟨(g45.agree.1 r h2).trans h1, lt_of_lt_of_le h2 g45.ext.nArr⟩
  refine ⟨o5, oq4, g5.ty, (g1.trans' g25).ext, ⟨?_, ?_, ?_, l5, ?_⟩, ⟨?_, ?_, w5, ?_, ?_⟩, ?_⟩
  · exact lt_of_lt_of_le l1 g25.ext.nArr
  · exact lt_of_lt_of_le l2 g35.ext.nArr
  · exact fun r hr => (hoff r hr).2
  · exact lt_of_lt_of_le l4 g5.ext.nQd
  · exact (g25.agree.1 _ l1).trans w1
  · exact (g35.agree.1 _ l2).trans w2
  · exact fun r hr => Or.inl (hoff r hr).1
  · exact (g5.agree.2 _ l4).trans w4
  · have e1 : s5.arr par = pv := (g25.ext.arr _ l1).trans v1
    have e2 : s5.arr dict = dv := (g35.ext.arr _ l2).trans v2
    have e3 : (s5.ctorOffset off).map s5.arr = dropZero ov := by
      rw [ctorOffset_map, off_ext g45.ext (fun r hr => (r3 r hr).2), v3]
    have e4 : s5.quad quad = qv := (quad_ext g5.ext g4.ty.wf l4).trans v4
    simp only [Option.map_some, State.view, e1, e2, e3, e4, v5]

lemma push_spec (t : Ty b s o oq) (t' : Ty b s' o' oq') (e : Ext s s') {c : ACell K} (ok : CellOk s' c)
    (ty : CellTy b o' oq' s.atoms.length c) :
    Ty b (s.push (some (c, s'))) o' oq' ∧
      atomWorld (s.push (some (c, s'))) = ⟨(atomWorld s).atoms ++ [s'.view c], (atomWorld s).trans⟩ := by
  have hget : ∀ (k : ℕ) (a : ACell K), (s'.atoms ++ [c])[k]? = some a → s'.atoms[k]? = some a ∨ (k = s.atoms.length ∧ a = c) := by
    intro k a h
    rw [List.getElem?_append] at h
    split_ifs at h with hk
    · exact Or.inl h
    · right
      rw [e.atoms] at h hk
      have h0 : k - s.atoms.length = 0 := by
        by_contra hne
        rw [List.getElem?_eq_none (by simp; omega)] at h
        cases h
      rw [h0] at h
      exact ⟨by omega, (by simpa using h.symm)⟩
  refine ⟨⟨⟨t'.wf.qc, t'.wf.ql, fun k a h => ?_, t'.wf.trans⟩, fun k a h => ?_, t'.qc, t'.ql, t'.trans⟩, ?_⟩
  · rcases hget k a h with h | ⟨rfl, rfl⟩
    · have := t'.wf.cell k a h
      exact ⟨this.par, this.dict, this.off, this.coefs, this.quad⟩
    · exact ⟨ok.par, ok.dict, ok.off, ok.coefs, ok.quad⟩
  · rcases hget k a h with h | ⟨rfl, rfl⟩
    · exact t'.cell k a h
    · exact ty
  · have h := world_ext e t.wf
    rw [← h]
    show (⟨(s'.atoms ++ [c]).map s'.view, s'.trans.map s'.arr⟩ : AtomWorld K) = _
    rw [List.map_append]
    rfl

lemma put_spec (t : Ty b s o oq) (t' : Ty b s' o' oq') (e : Ext s s') {k : ℕ} {c : ACell K} (ok : CellOk s' c)
    (ty : CellTy b o' oq' k c) :
    Ty b (s'.put k c) o' oq' ∧
      atomWorld (s'.put k c) = ⟨(atomWorld s).atoms.set k (s'.view c), (atomWorld s).trans⟩ := by
  have hget : ∀ (j : ℕ) (a : ACell K), (s'.atoms.set k c)[j]? = some a → s'.atoms[j]? = some a ∨ (j = k ∧ a = c) := by
    intro j a h
    rw [List.getElem?_set] at h
    split_ifs at h with h1 h2
    · exact Or.inr ⟨h1.symm, (Option.some.inj h).symm⟩
    · exact Or.inl h
  refine ⟨⟨⟨t'.wf.qc, t'.wf.ql, fun j a h => ?_, t'.wf.trans⟩, fun j a h => ?_, t'.qc, t'.ql, t'.trans⟩, ?_⟩
  · rcases hget j a h with h | ⟨rfl, rfl⟩
    · have := t'.wf.cell j a h
      exact ⟨this.par, this.dict, this.off, this.coefs, this.quad⟩
    · exact ⟨ok.par, ok.dict, ok.off, ok.coefs, ok.quad⟩
  · rcases hget j a h with h | ⟨rfl, rfl⟩
    · exact t'.cell j a h
    · exact ty
  · have h := world_ext e t.wf
    rw [← h]
    show (⟨(s'.atoms.set k c).map s'.view, s'.trans.map s'.arr⟩ : AtomWorld K) = _
    rw [List.map_set]
    rfl

lemma modify_eq {α : Type*} (l : List α) (k : ℕ) (f : α → α) {v : α} (h : l[k]? = some v) :
    l.modify k f = l.set k (f v) := by
  apply List.ext_getElem?
  intro j
  rw [List.getElem?_modify, List.getElem?_set]
  by_cases e : k = j
  · subst e
    have hk : k < l.length := by
      by_contra hk
      rw [List.getElem?_eq_none (by omega)] at h; cases h
    obtain ⟨_, rfl⟩ := List.getElem?_eq_some_iff.1 h
    simp [hk]
  · simp [e]

lemma modify_none {α : Type*} (l : List α) (k : ℕ) (f : α → α) (h : l[k]? = none) : l.modify k f = l := by
  apply List.ext_getElem?
  intro j
  rw [List.getElem?_modify]
  by_cases e : k = j
  · subst e; simp [h]
  · simp [e]

lemma world_get (s : State K) {k : ℕ} {a : ACell K} (h : s.atoms[k]? = some a) :
    (atomWorld s).atoms[k]? = some (s.view a) := by
  simp [atomWorld, h]

lemma world_get_none (s : State K) {k : ℕ} (h : s.atoms[k]? = none) : (atomWorld s).atoms[k]? = none := by
  simp [atomWorld, h]

/-- a state with the same cells in which only the view of atom `k` changed -/
lemma world_modify {s s' : State K} (ha : s'.atoms = s.atoms) (ht : s'.trans.map s'.arr = s.trans.map s.arr) {k : ℕ}
    (f : View K → View K)
    (h : ∀ (j : ℕ) (a : ACell K), s.atoms[j]? = some a → s'.view a = if j = k then f (s.view a) else s.view a) :
    atomWorld s' = ⟨(atomWorld s).atoms.modify k f, (atomWorld s).trans⟩ := by
  have : s'.atoms.map s'.view = (s.atoms.map s.view).modify k f := by
    apply List.ext_getElem?
    intro j
    rw [List.getElem?_modify, ha, List.getElem?_map, List.getElem?_map]
    rcases hj : s.atoms[j]? with _ | a
    · simp
    · rw [Option.map_some, h j a hj]
      by_cases e : j = k
      · simp [e]
      · simp [e, Ne.symm e]
  simp only [atomWorld, this, ht]

/-- an array with owner `σ` is not among those of atom `j` unless `σ` says so -/
lemma view_write {l : List K} (t : Ty b s o oq) {j r : ℕ} {a : ACell K} (hj : s.atoms[j]? = some a) {σ : Slot} (hr : o r = σ)
    (h1 : σ ≠ .par j) (h2 : σ ≠ dictSlot a.fam j) (h3 : σ ≠ .coefs j) (h4 : σ ≠ .off j) (h5 : σ ≠ .qc a.quad)
    (h6 : σ ≠ .ql a.quad) (h7 : σ ≠ .loose) : (s.writeArr r l).view a = s.view a := by
  have ty := t.cell j a hj
  have ok := t.wf.cell j a hj
  have own : ∀ x σ', Own b o x σ' → σ ≠ σ' → x ≠ r := fun x σ' hx hne e => by
    rw [e] at hx
    rcases hx with h | ⟨-, h⟩
    · exact hne (hr.symm.trans h)
    · exact h7 (hr.symm.trans h)
  have n1 : a.par ≠ r := fun e => h1 (hr.symm.trans (e ▸ ty.par))
  have n2 : a.dict ≠ r := fun e => h2 (hr.symm.trans (e ▸ ty.dict))
  have n3 : a.coefs ≠ r := fun e => h3 (hr.symm.trans (e ▸ ty.coefs))
  have n4 : a.offset ≠ some r := fun e => own r _ (ty.off r e) h4 rfl
  have n5 : Num.ref? (s.qd a.quad).center ≠ some r := fun e => own r _ (t.qc _ ok.quad r e) h5 rfl
  have n6 : Num.ref? (s.qd a.quad).linear ≠ some r := fun e => own r _ (t.ql _ ok.quad r e) h6 rfl
  simp only [State.view, arr_write _ _ n1, arr_write _ _ n2, arr_write _ _ n3, off_write _ _ n4, quad_write _ _ n5 n6]

lemma trans_write {l : List K} (t : Ty b s o oq) {r : ℕ} (hr : o r ≠ .loose) :
    (s.writeArr r l).trans.map (s.writeArr r l).arr = s.trans.map s.arr :=
  List.map_congr_left fun x hx => arr_write s l (fun e => hr (e ▸ t.trans x hx))

lemma dictSlot_ne {σ : Slot} (f : Family) (j : ℕ) (h1 : σ ≠ .dict j) (h2 : σ ≠ .mixedDict) : σ ≠ dictSlot f j := by
  unfold dictSlot; split_ifs <;> assumption

lemma quadSlot_ne {f g : Family} {k j : ℕ} (hf : f.copiesQuad = true) (h : quadSlot f k = quadSlot g j) : k = j := by
  unfold quadSlot at h
  rw [if_pos hf] at h
  split_ifs at h
  exact Option.some.inj h

lemma Ty.writeQd (t : Ty b s o oq) (q : ℕ) (c : QCell K) (hc : c.center = (s.qd q).center)
    (hl : c.linear = (s.qd q).linear) : Ty b (s.writeQd q c) o oq := by
  have h1 : ∀ p, ((s.writeQd q c).qd p).center = (s.qd p).center := fun p => by
    by_cases e : p = q
    · subst e; simp [State.writeQd, hc]
    · simp [State.writeQd, Function.update_of_ne e]
  have h2 : ∀ p, ((s.writeQd q c).qd p).linear = (s.qd p).linear := fun p => by
    by_cases e : p = q
    · subst e; simp [State.writeQd, hl]
    · simp [State.writeQd, Function.update_of_ne e]
  refine ⟨⟨fun p hp r hr => t.wf.qc p hp r (h1 p ▸ hr), fun p hp r hr => t.wf.ql p hp r (h2 p ▸ hr), fun k a h =>
    ⟨(t.wf.cell k a h).par, (t.wf.cell k a h).dict, (t.wf.cell k a h).off, (t.wf.cell k a h).coefs,
      (t.wf.cell k a h).quad⟩, t.wf.trans⟩, t.cell, fun p hp r hr => t.qc p hp r (h1 p ▸ hr),
    fun p hp r hr => t.ql p hp r (h2 p ▸ hr), t.trans⟩

lemma view_writeQd (s : State K) {q : ℕ} (c : QCell K) {a : ACell K} (h : a.quad ≠ q) :
    (s.writeQd q c).view a = s.view a := by
  have : (s.writeQd q c).qd a.quad = s.qd a.quad := Function.update_of_ne h _ _
  simp only [State.view, State.quad, this]
  rfl

lemma view_writeQd_self (s : State K) (c : QCell K) (a : ACell K) :
    (s.writeQd a.quad c).view a = { s.view a with quad := ⟨c.coef, s.num c.center, s.num c.linear, c.const⟩ } := by
  have : (s.writeQd a.quad c).qd a.quad = c := Function.update_self _ _ _
  simp only [State.view, State.quad, this]
  rfl

lemma world_step_modify {w : AtomWorld K} {op : Op K} {k : ℕ} (h1 : opTarget op = some k) (h2 : newView w op = none)
    (h3 : newTrans op = []) :
    w.step op = ⟨w.atoms.modify k (applyOp op), w.trans⟩ := by
  simp only [AtomWorld.step, h1, h2, h3, Option.toList_none, List.append_nil]

lemma world_step_new {w : AtomWorld K} {op : Op K} (h1 : opTarget op = none)
    (h3 : newTrans op = []) :
    w.step op = ⟨w.atoms ++ (newView w op).toList, w.trans⟩ := by
  simp only [AtomWorld.step, h1, h3, List.append_nil]

/-- a call that makes a new atom -/
lemma step_push (t : Ty b s o oq) (r : Option (ACell K × State K)) (v : Option (View K))
    (h0 : r = none → v = none)
    (h1 : ∀ c s', r = some (c, s') → ∃ o' oq', Ty b s' o' oq' ∧ Ext s s' ∧ CellOk s' c ∧
      CellTy b o' oq' s.atoms.length c ∧ v = some (s'.view c)) :
    ∃ o' oq', Ty b (s.push r) o' oq' ∧
      atomWorld (s.push r) = ⟨(atomWorld s).atoms ++ v.toList, (atomWorld s).trans⟩ := by
  rcases r with _ | ⟨c, s'⟩
  · refine ⟨o, oq, t, ?_⟩
    rw [h0 rfl]
    simp [State.push]
  · obtain ⟨o', oq', t', e, ok, ty, hv⟩ := h1 c s' rfl
    obtain ⟨p1, p2⟩ := push_spec t t' e ok ty
    exact ⟨o', oq', p1, by rw [p2, hv]; rfl⟩

/-- a call that rebinds attributes of atom `k` -/
lemma step_put (t : Ty b s o oq) (t' : Ty b s' o' oq') (e : Ext s s') {k : ℕ} {a c : ACell K} (hk : s.atoms[k]? = some a)
    (ok : CellOk s' c) (ty : CellTy b o' oq' k c) {op : Op K} (h1 : opTarget op = some k)
    (h2 : newView (atomWorld s) op = none)
    (h3 : newTrans op = [])
    (hv : s'.view c = applyOp op (s.view a)) :
    ∃ o' oq', Ty b (s'.put k c) o' oq' ∧ atomWorld (s'.put k c) = (atomWorld s).step op := by
  obtain ⟨p1, p2⟩ := put_spec t t' e ok ty
  refine ⟨o', oq', p1, ?_⟩
  rw [p2, world_step_modify h1 h2 h3, modify_eq _ k _ (world_get s hk), hv]

/-- a call on an atom that does not exist -/
lemma step_absent (t : Ty b s o oq) {k : ℕ} (hk : s.atoms[k]? = none) {op : Op K} (h1 : opTarget op = some k)
    (h2 : newView (atomWorld s) op = none)
    (h3 : newTrans op = []) :
    ∃ o' oq', Ty b s o' oq' ∧ atomWorld s = (atomWorld s).step op := by
  refine ⟨o, oq, t, ?_⟩
  rw [world_step_modify h1 h2 h3, modify_none _ k _ (world_get_none s hk)]

/-- a write in place into an array of atom `k` -/
lemma step_write (t : Ty b s o oq) {k r : ℕ} {l : List K} {a : ACell K} (hk : s.atoms[k]? = some a) {op : Op K}
    (h1 : opTarget op = some k) (h2 : newView (atomWorld s) op = none)
    (h3 : newTrans op = [])
    (hr : o r ≠ .loose)
    (hoth : ∀ (j : ℕ) (c : ACell K), s.atoms[j]? = some c → j ≠ k → (s.writeArr r l).view c = s.view c)
    (hself : (s.writeArr r l).view a = applyOp op (s.view a)) :
    ∃ o' oq', Ty b (s.writeArr r l) o' oq' ∧ atomWorld (s.writeArr r l) = (atomWorld s).step op := by
  refine ⟨o, oq, t.write r l, ?_⟩
  rw [world_step_modify h1 h2 h3]
  refine world_modify (s := s) (s' := s.writeArr r l) rfl (trans_write t hr) _ fun j c hj => ?_
  by_cases e : j = k
  · subst e
    rw [if_pos rfl]
    rw [hk] at hj; cases hj
    exact hself
  · rw [if_neg e]
    exact hoth j c hj e

/-- a write to an attribute of the quadratic of atom `k` -/
lemma step_writeQd (t : Ty b s o oq) {k : ℕ} {q : QCell K} {a : ACell K} (hk : s.atoms[k]? = some a) {op : Op K}
    (h1 : opTarget op = some k) (h2 : newView (atomWorld s) op = none)
    (h3 : newTrans op = [])
    (hown : a.fam.copiesQuad = true) (hc : q.center = (s.qd a.quad).center) (hl : q.linear = (s.qd a.quad).linear)
    (hself : (s.writeQd a.quad q).view a = applyOp op (s.view a)) :
    ∃ o' oq', Ty b (s.writeQd a.quad q) o' oq' ∧ atomWorld (s.writeQd a.quad q) = (atomWorld s).step op := by
  refine ⟨o, oq, t.writeQd _ q hc hl, ?_⟩
  rw [world_step_modify h1 h2 h3]
  refine world_modify (s := s) (s' := s.writeQd a.quad q) rfl rfl _ fun j c hj => ?_
  by_cases e : j = k
  · subst e
    rw [if_pos rfl]
    rw [hk] at hj; cases hj
    exact hself
  · rw [if_neg e]
    refine view_writeQd s q fun h => e ?_
    have e1 := (t.cell k a hk).quad
    have e2 := (t.cell j c hj).quad
    rw [h] at e2
    exact (quadSlot_ne hown (e1.symm.trans e2)).symm

lemma set_self {α : Type*} (l : List α) {k : ℕ} {v : α} (h : l[k]? = some v) : l.set k v = l := by
  obtain ⟨hk, rfl⟩ := List.getElem?_eq_some_iff.1 h
  exact List.set_getElem_self hk

lemma dict_write {l : List K} (t : Ty b s o oq) {k : ℕ} {a : ACell K} (hk : s.atoms[k]? = some a)
    (hcd : a.fam.copiesDict = true) :
    (∀ (j : ℕ) (c : ACell K), s.atoms[j]? = some c → j ≠ k → (s.writeArr a.dict l).view c = s.view c) ∧
      (s.writeArr a.dict l).view a = { s.view a with dict := l } := by
  have ok := t.wf.cell k a hk
  have ty := t.cell k a hk
  have hor : o a.dict = .dict k := by rw [ty.dict, dictSlot, if_pos hcd]
  refine ⟨fun j c hj hne => ?_, ?_⟩
  · exact view_write t hj hor (by simp) (dictSlot_ne _ _ (by simpa using fun e => hne e.symm) (by simp)) (by simp)
      (by simp) (by simp) (by simp) (by simp)
  · have n1 : a.par ≠ a.dict := fun e => by have := ty.par; rw [e, hor] at this; cases this
    have n2 : a.coefs ≠ a.dict := fun e => by have := ty.coefs; rw [e, hor] at this; cases this
    have n3 : a.offset ≠ some a.dict := fun e => by
      rcases ty.off _ e with h | ⟨-, h⟩ <;> rw [hor] at h <;> cases h
    have n4 : Num.ref? (s.qd a.quad).center ≠ some a.dict := fun e => by
      rcases t.qc a.quad ok.quad _ e with h | ⟨-, h⟩ <;> rw [hor] at h <;> cases h
    have n5 : Num.ref? (s.qd a.quad).linear ≠ some a.dict := fun e => by
      rcases t.ql a.quad ok.quad _ e with h | ⟨-, h⟩ <;> rw [hor] at h <;> cases h
    simp only [State.view, arr_write _ _ n1, arr_write _ _ n2, arr_write_self, off_write _ _ n3, quad_write _ _ n4 n5]

lemma step_spec (t : Ty b s o oq) (op : Op K) (hb : b = true → makesAlias op = false)
    (hw : b = false → writesShared op = false) (hown : ownsTarget (atomWorld s) op) :
    ∃ o' oq', Ty b (s.step op) o' oq' ∧ atomWorld (s.step op) = (atomWorld s).step op := by
  cases op with
  | create fam tag dual size l bd par dict off q c =>
    obtain ⟨h0, h1⟩ := create_spec t s.atoms.length fam tag dual size l bd par dict off q c
    rw [world_step_new rfl rfl]
    refine step_push t _ _ (fun h => ?_) h1
    simp only [newView, h0 h, Option.map_none]
  | newTransform alpha =>
    have g := grow_allocArr t alpha .loose
    have hw := world_ext g.ext t.wf
    refine ⟨_, _, ⟨⟨g.ty.wf.qc, g.ty.wf.ql, fun k a h => ?_, fun x hx => ?_⟩, g.ty.cell, g.ty.qc, g.ty.ql, fun x hx => ?_⟩, ?_⟩
    · have := g.ty.wf.cell k a h
      exact ⟨this.par, this.dict, this.off, this.coefs, this.quad⟩
    · rcases List.mem_append.1 hx with h | h
      · exact g.ty.wf.trans x h
      · rw [List.mem_singleton.1 h]; exact Nat.lt_succ_self _
    · rcases List.mem_append.1 hx with h | h
      · exact g.ty.trans x h
      · rw [List.mem_singleton.1 h]; exact Function.update_self _ _ _
    · have h1 : s.atoms.map (s.allocArr alpha).2.view = s.atoms.map s.view := congrArg AtomWorld.atoms hw
      have h2 : s.trans.map (s.allocArr alpha).2.arr = s.trans.map s.arr := congrArg AtomWorld.trans hw
      show (⟨s.atoms.map (s.allocArr alpha).2.view, (s.trans ++ [s.nextArr]).map (s.allocArr alpha).2.arr⟩ : AtomWorld K) =
        ⟨s.atoms.map s.view ++ [], s.trans.map s.arr ++ [alpha]⟩
      rw [List.map_append, h1, h2, List.append_nil]
      congr 2
      simp [State.allocArr]
  | copy k =>
    rw [world_step_new rfl rfl]
    simp only [State.step, newView]
    rcases hk : s.atoms[k]? with _ | a
    · rw [world_get_none s hk]
      exact ⟨o, oq, t, by simp⟩
    · rw [world_get s hk]
      obtain ⟨h0, h1⟩ := copyAtom_spec t hk s.atoms.length
      refine step_push t _ _ h0 fun c s' h => ?_
      obtain ⟨o', oq', g, ok, ty, -, hv⟩ := h1 c s' h
      exact ⟨o', oq', g.ty, g.ext, ok, ty, hv⟩
  | conjugate k =>
    have hbf : b = false := by
      rcases Bool.eq_false_or_eq_true b with h | h
      · exact absurd (hb h) (by simp [makesAlias])
      · exact h
    subst hbf
    rw [world_step_new rfl rfl]
    simp only [State.step, newView]
    rcases hk : s.atoms[k]? with _ | a
    · rw [world_get_none s hk]
      exact ⟨o, oq, t, by simp⟩
    · rw [world_get s hk]
      obtain ⟨h0, h1⟩ := conjAtom_spec t hk s.atoms.length
      exact step_push t _ _ h0 h1
  | affine k x =>
    have hbf : b = false := by
      rcases Bool.eq_false_or_eq_true b with h | h
      · exact absurd (hb h) (by simp [makesAlias])
      · exact h
    subst hbf
    rw [world_step_new rfl rfl]
    simp only [State.step, newView]
    rcases hk : s.atoms[k]? with _ | a
    · rw [world_get_none s hk]
      exact ⟨o, oq, t, by simp⟩
    · rw [world_get s hk]
      have hx : (atomWorld s).trans[x]? = s.trans[x]?.map s.arr := by simp [atomWorld]
      rcases hr : s.trans[x]? with _ | r
      · rw [hx, hr]
        exact ⟨o, oq, t, by simp⟩
      · rw [hx, hr]
        obtain ⟨h0, h1⟩ := affineAtom_spec t hk (List.mem_of_getElem? hr) s.atoms.length
        exact step_push t _ _ h0 h1
  | setLagrange k v =>
    rcases hk : s.atoms[k]? with _ | a
    · simp only [State.step, hk]; exact step_absent t hk rfl rfl rfl
    · simp only [State.step, hk]
      have ok := t.wf.cell k a hk
      have ty := t.cell k a hk
      refine step_put t t (Ext.refl s) hk ?_ ?_ ?_ ?_ ?_ ?_
      · exact ⟨ok.par, ok.dict, ok.off, ok.coefs, ok.quad⟩
      · exact ⟨ty.par, ty.dict, ty.coefs, ty.off, ty.quad⟩
      all_goals rfl
  | setBound k v =>
    rcases hk : s.atoms[k]? with _ | a
    · simp only [State.step, hk]; exact step_absent t hk rfl rfl rfl
    · simp only [State.step, hk]
      have ok := t.wf.cell k a hk
      have ty := t.cell k a hk
      refine step_put t t (Ext.refl s) hk ?_ ?_ ?_ ?_ ?_ ?_
      · exact ⟨ok.par, ok.dict, ok.off, ok.coefs, ok.quad⟩
      · exact ⟨ty.par, ty.dict, ty.coefs, ty.off, ty.quad⟩
      all_goals rfl
  | setOffset k v =>
    rcases hk : s.atoms[k]? with _ | a
    · simp only [State.step, hk]; exact step_absent t hk rfl rfl rfl
    · have ok := t.wf.cell k a hk
      have ty := t.cell k a hk
      rcases v with _ | l
      · simp only [State.step, hk]
        refine step_put t t (Ext.refl s) hk ?_ ?_ ?_ ?_ ?_ ?_
        · exact ⟨ok.par, ok.dict, fun r hr => (by cases hr), ok.coefs, ok.quad⟩
        · exact ⟨ty.par, ty.dict, ty.coefs, fun r hr => (by cases hr), ty.quad⟩
        all_goals rfl
      · simp only [State.step, hk]
        have g := grow_allocArr t l (.off k)
        have hv := view_ext g.ext t.wf ok
        have ha := arr_allocArr s l
        have ok' := ok.ext g.ext
        have ty' := ty.agree ok g.agree
        have hs : ∀ r, (s.allocArr l).2.setOffset a.offset (some (s.allocArr l).1) = some r →
            r = (s.allocArr l).1 ∨ a.offset = some r := fun r hr => by
          simp only [State.setOffset] at hr
          split_ifs at hr
          · exact Or.inl (Option.some.inj hr).symm
          · exact Or.inr hr
        refine step_put t g.ty g.ext hk ?_ ?_ ?_ ?_ ?_ ?_
        · refine ⟨ok'.par, ok'.dict, fun r hr => ?_, ok'.coefs, ok'.quad⟩
          rcases hs r hr with rfl | h
          · exact Nat.lt_succ_self _
          · exact ok'.off r h
        · refine ⟨ty'.par, ty'.dict, ty'.coefs, fun r hr => ?_, ty'.quad⟩
          rcases hs r hr with rfl | h
          · exact Or.inl (Function.update_self _ _ _)
          · exact ty'.off r h
        · rfl
        · rfl
        · rfl
        · by_cases hz : l.any (· ≠ 0) = true
          · have e1 : (s.allocArr l).2.setOffset a.offset (some (s.allocArr l).1) = some (s.allocArr l).1 := by
              simp only [State.setOffset, ha]; rw [if_pos hz]
            show ({ (s.allocArr l).2.view a with
              offset := ((s.allocArr l).2.setOffset a.offset (some (s.allocArr l).1)).map (s.allocArr l).2.arr } : View K) = _
            rw [hv, e1, Option.map_some, ha]
            simp only [applyOp]; rw [if_pos hz]
          · have e1 : (s.allocArr l).2.setOffset a.offset (some (s.allocArr l).1) = a.offset := by
              simp only [State.setOffset, ha]; rw [if_neg hz]
            rw [e1]
            show (s.allocArr l).2.view a = _
            rw [hv]
            simp only [applyOp]; rw [if_neg hz]
  | setQuadratic k q =>
    rcases hk : s.atoms[k]? with _ | a
    · simp only [State.step, hk]; exact step_absent t hk rfl rfl rfl
    · simp only [State.step, hk]
      have ok := t.wf.cell k a hk
      have ty := t.cell k a hk
      obtain ⟨o', oq', g, w, lt, -, -, -, hq⟩ := newQd_spec t q (quadSlot a.fam k)
      have hv := view_ext g.ext t.wf ok
      have ok' := ok.ext g.ext
      have ty' := ty.agree ok g.agree
      refine step_put t g.ty g.ext hk ?_ ?_ ?_ ?_ ?_ ?_
      · exact ⟨ok'.par, ok'.dict, ok'.off, ok'.coefs, lt⟩
      · exact ⟨ty'.par, ty'.dict, ty'.coefs, ty'.off, w⟩
      · rfl
      · rfl
      · rfl
      show ({ (s.newQd q).2.view a with quad := (s.newQd q).2.quad (s.newQd q).1 } : View K) = _
      rw [hv, hq]; rfl
  | solve k x =>
    rcases hk : s.atoms[k]? with _ | a
    · simp only [State.step, hk]; exact step_absent t hk rfl rfl rfl
    · simp only [State.step, hk]
      have ok := t.wf.cell k a hk
      have ty := t.cell k a hk
      have g := grow_allocArr t x (.coefs k)
      have hv := view_ext g.ext t.wf ok
      have ok' := ok.ext g.ext
      have ty' := ty.agree ok g.agree
      refine step_put t g.ty g.ext hk ?_ ?_ ?_ ?_ ?_ ?_
      · exact ⟨ok'.par, ok'.dict, ok'.off, Nat.lt_succ_self _, ok'.quad⟩
      · exact ⟨ty'.par, ty'.dict, Function.update_self _ _ _, ty'.off, ty'.quad⟩
      · rfl
      · rfl
      · rfl
      show ({ (s.allocArr x).2.view a with coefs := (s.allocArr x).2.arr (s.allocArr x).1 } : View K) = _
      rw [hv, arr_allocArr]; rfl
  | quadCoef k c =>
    rcases hk : s.atoms[k]? with _ | a
    · simp only [State.step, hk]; exact step_absent t hk rfl rfl rfl
    · simp only [State.step, hk]
      exact step_writeQd t hk rfl rfl rfl (hown _ (world_get s hk)) rfl rfl (view_writeQd_self s _ a)
  | quadConst k c =>
    rcases hk : s.atoms[k]? with _ | a
    · simp only [State.step, hk]; exact step_absent t hk rfl rfl rfl
    · simp only [State.step, hk]
      exact step_writeQd t hk rfl rfl rfl (hown _ (world_get s hk)) rfl rfl (view_writeQd_self s _ a)
  | centerWrite k l =>
    rcases hk : s.atoms[k]? with _ | a
    · simp only [State.step, hk]; exact step_absent t hk rfl rfl rfl
    · have hbt : b = true := by
        rcases Bool.eq_false_or_eq_true b with h | h
        · exact h
        · exact absurd (hw h) (by simp [writesShared])
      subst hbt
      have ok := t.wf.cell k a hk
      have ty := t.cell k a hk
      rcases hr : Num.ref? (s.qd a.quad).center with _ | r
      · simp only [State.step, hk, hr]
        refine ⟨o, oq, t, ?_⟩
        rw [world_step_modify rfl rfl rfl, modify_eq _ k _ (world_get s hk)]
        have : applyOp (.centerWrite k l) (s.view a) = s.view a := by
          have : overwrite l (s.num (s.qd a.quad).center) = s.num (s.qd a.quad).center := by
            rcases hc : (s.qd a.quad).center with _ | ⟨c⟩ | ⟨x⟩
            · rfl
            · rfl
            · rw [hc] at hr; cases hr
          simp only [applyOp, State.view, State.quad, this]
        rw [this, set_self _ (world_get s hk)]
      · simp only [State.step, hk, hr]
        have hor : o r = .qc a.quad := by
          rcases t.qc a.quad ok.quad r hr with h | ⟨h, -⟩
          · exact h
          · cases h
        refine step_write t hk rfl rfl rfl (by rw [hor]; simp) (fun j c hj hne => ?_) ?_
        · refine view_write t hj hor (by simp) (dictSlot_ne _ _ (by simp) (by simp)) (by simp) (by simp) ?_ (by simp)
            (by simp)
          intro e
          have e' : a.quad = c.quad := by simpa using e
          have e2 := (t.cell j c hj).quad
          rw [← e'] at e2
          exact hne (quadSlot_ne (hown _ (world_get s hk)) (ty.quad.symm.trans e2)).symm
        · have n1 : a.par ≠ r := fun e => by have := ty.par; rw [e, hor] at this; cases this
          have n2 : a.dict ≠ r := fun e => by have := ty.dict; rw [e, hor] at this; exact dictSlot_ne _ _ (by simp) (by simp) this
          have n3 : a.coefs ≠ r := fun e => by have := ty.coefs; rw [e, hor] at this; cases this
          have n4 : a.offset ≠ some r := fun e => by
            rcases ty.off r e with h | ⟨h, -⟩
            · rw [hor] at h; cases h
            · cases h
          have n5 : Num.ref? (s.qd a.quad).linear ≠ some r := fun e => by
            rcases t.ql a.quad ok.quad r e with h | ⟨h, -⟩
            · rw [hor] at h; cases h
            · cases h
          have hq : (s.writeArr r l).quad a.quad = ⟨(s.qd a.quad).coef, overwrite l (s.num (s.qd a.quad).center),
              s.num (s.qd a.quad).linear, (s.qd a.quad).const⟩ := by
            show (⟨(s.qd a.quad).coef, (s.writeArr r l).num (s.qd a.quad).center,
              (s.writeArr r l).num (s.qd a.quad).linear, (s.qd a.quad).const⟩ : QVal K) = _
            rw [num_write s r l n5, num_write_self s r l hr]
          simp only [applyOp, State.view, arr_write _ _ n1, arr_write _ _ n2, arr_write _ _ n3, off_write _ _ n4, hq]
          rfl
  | linearWrite k l =>
    rcases hk : s.atoms[k]? with _ | a
    · simp only [State.step, hk]; exact step_absent t hk rfl rfl rfl
    · have hbt : b = true := by
        rcases Bool.eq_false_or_eq_true b with h | h
        · exact h
        · exact absurd (hw h) (by simp [writesShared])
      subst hbt
      have ok := t.wf.cell k a hk
      have ty := t.cell k a hk
      rcases hr : Num.ref? (s.qd a.quad).linear with _ | r
      · simp only [State.step, hk, hr]
        refine ⟨o, oq, t, ?_⟩
        rw [world_step_modify rfl rfl rfl, modify_eq _ k _ (world_get s hk)]
        have : applyOp (.linearWrite k l) (s.view a) = s.view a := by
          have : overwrite l (s.num (s.qd a.quad).linear) = s.num (s.qd a.quad).linear := by
            rcases hc : (s.qd a.quad).linear with _ | ⟨c⟩ | ⟨x⟩
            · rfl
            · rfl
            · rw [hc] at hr; cases hr
          simp only [applyOp, State.view, State.quad, this]
        rw [this, set_self _ (world_get s hk)]
      · simp only [State.step, hk, hr]
        have hor : o r = .ql a.quad := by
          rcases t.ql a.quad ok.quad r hr with h | ⟨h, -⟩
          · exact h
          · cases h
        refine step_write t hk rfl rfl rfl (by rw [hor]; simp) (fun j c hj hne => ?_) ?_
        · refine view_write t hj hor (by simp) (dictSlot_ne _ _ (by simp) (by simp)) (by simp) (by simp) (by simp) ?_
            (by simp)
          intro e
          have e' : a.quad = c.quad := by simpa using e
          have e2 := (t.cell j c hj).quad
          rw [← e'] at e2
          exact hne (quadSlot_ne (hown _ (world_get s hk)) (ty.quad.symm.trans e2)).symm
        · have n1 : a.par ≠ r := fun e => by have := ty.par; rw [e, hor] at this; cases this
          have n2 : a.dict ≠ r := fun e => by have := ty.dict; rw [e, hor] at this; exact dictSlot_ne _ _ (by simp) (by simp) this
          have n3 : a.coefs ≠ r := fun e => by have := ty.coefs; rw [e, hor] at this; cases this
          have n4 : a.offset ≠ some r := fun e => by
            rcases ty.off r e with h | ⟨h, -⟩
            · rw [hor] at h; cases h
            · cases h
          have n5 : Num.ref? (s.qd a.quad).center ≠ some r := fun e => by
            rcases t.qc a.quad ok.quad r e with h | ⟨h, -⟩
            · rw [hor] at h; cases h
            · cases h
          have hq : (s.writeArr r l).quad a.quad = ⟨(s.qd a.quad).coef, s.num (s.qd a.quad).center,
              overwrite l (s.num (s.qd a.quad).linear), (s.qd a.quad).const⟩ := by
            show (⟨(s.qd a.quad).coef, (s.writeArr r l).num (s.qd a.quad).center,
              (s.writeArr r l).num (s.qd a.quad).linear, (s.qd a.quad).const⟩ : QVal K) = _
            rw [num_write s r l n5, num_write_self s r l hr]
          simp only [applyOp, State.view, arr_write _ _ n1, arr_write _ _ n2, arr_write _ _ n3, off_write _ _ n4, hq]
          rfl
  | offsetWrite k l =>
    rcases hk : s.atoms[k]? with _ | a
    · simp only [State.step, hk]; exact step_absent t hk rfl rfl rfl
    · have hbt : b = true := by
        rcases Bool.eq_false_or_eq_true b with h | h
        · exact h
        · exact absurd (hw h) (by simp [writesShared])
      subst hbt
      have ok := t.wf.cell k a hk
      have ty := t.cell k a hk
      rcases hr : a.offset with _ | r
      · simp only [State.step, hk, hr]
        refine ⟨o, oq, t, ?_⟩
        rw [world_step_modify rfl rfl rfl, modify_eq _ k _ (world_get s hk)]
        have : applyOp (.offsetWrite k l) (s.view a) = s.view a := by
          simp only [applyOp, State.view, hr, Option.map_none]
        rw [this, set_self _ (world_get s hk)]
      · simp only [State.step, hk, hr]
        have hor : o r = .off k := by
          rcases ty.off r hr with h | ⟨h, -⟩
          · exact h
          · cases h
        refine step_write t hk rfl rfl rfl (by rw [hor]; simp) (fun j c hj hne => ?_) ?_
        · exact view_write t hj hor (by simp) (dictSlot_ne _ _ (by simp) (by simp)) (by simp)
            (by simpa using fun e => hne e.symm) (by simp) (by simp) (by simp)
        · have n1 : a.par ≠ r := fun e => by have := ty.par; rw [e, hor] at this; cases this
          have n2 : a.dict ≠ r := fun e => by have := ty.dict; rw [e, hor] at this; exact dictSlot_ne _ _ (by simp) (by simp) this
          have n3 : a.coefs ≠ r := fun e => by have := ty.coefs; rw [e, hor] at this; cases this
          have n4 : Num.ref? (s.qd a.quad).center ≠ some r := fun e => by
            rcases t.qc a.quad ok.quad r e with h | ⟨h, -⟩
            · rw [hor] at h; cases h
            · cases h
          have n5 : Num.ref? (s.qd a.quad).linear ≠ some r := fun e => by
            rcases t.ql a.quad ok.quad r e with h | ⟨h, -⟩
            · rw [hor] at h; cases h
            · cases h
          simp only [applyOp, State.view, hr, Option.map_some, arr_write _ _ n1, arr_write _ _ n2, arr_write _ _ n3,
            arr_write_self, quad_write _ _ n4 n5]
  | coefsWrite k l =>
    rcases hk : s.atoms[k]? with _ | a
    · simp only [State.step, hk]; exact step_absent t hk rfl rfl rfl
    · simp only [State.step, hk]
      have ok := t.wf.cell k a hk
      have ty := t.cell k a hk
      have hor := ty.coefs
      refine step_write t hk rfl rfl rfl (by rw [hor]; simp) (fun j c hj hne => ?_) ?_
      · exact view_write t hj hor (by simp) (dictSlot_ne _ _ (by simp) (by simp)) (by simpa using fun e => hne e.symm)
          (by simp) (by simp) (by simp) (by simp)
      · have n1 : a.par ≠ a.coefs := fun e => by have := ty.par; rw [e, hor] at this; cases this
        have n2 : a.dict ≠ a.coefs := fun e => by
          have := ty.dict; rw [e, hor] at this; exact dictSlot_ne _ _ (by simp) (by simp) this
        have n3 : a.offset ≠ some a.coefs := fun e => by
          rcases ty.off _ e with h | ⟨-, h⟩ <;> rw [hor] at h <;> cases h
        have n4 : Num.ref? (s.qd a.quad).center ≠ some a.coefs := fun e => by
          rcases t.qc a.quad ok.quad _ e with h | ⟨-, h⟩ <;> rw [hor] at h <;> cases h
        have n5 : Num.ref? (s.qd a.quad).linear ≠ some a.coefs := fun e => by
          rcases t.ql a.quad ok.quad _ e with h | ⟨-, h⟩ <;> rw [hor] at h <;> cases h
        simp only [applyOp, State.view, arr_write _ _ n1, arr_write _ _ n2, arr_write_self, off_write _ _ n3,
          quad_write _ _ n4 n5]
  | parWrite k l =>
    rcases hk : s.atoms[k]? with _ | a
    · simp only [State.step, hk]; exact step_absent t hk rfl rfl rfl
    · simp only [State.step, hk]
      have ok := t.wf.cell k a hk
      have ty := t.cell k a hk
      have hor := ty.par
      refine step_write t hk rfl rfl rfl (by rw [hor]; simp) (fun j c hj hne => ?_) ?_
      · exact view_write t hj hor (by simpa using fun e => hne e.symm) (dictSlot_ne _ _ (by simp) (by simp)) (by simp)
          (by simp) (by simp) (by simp) (by simp)
      · have n1 : a.coefs ≠ a.par := fun e => by have := ty.coefs; rw [e, hor] at this; cases this
        have n2 : a.dict ≠ a.par := fun e => by
          have := ty.dict; rw [e, hor] at this; exact dictSlot_ne _ _ (by simp) (by simp) this
        have n3 : a.offset ≠ some a.par := fun e => by
          rcases ty.off _ e with h | ⟨-, h⟩ <;> rw [hor] at h <;> cases h
        have n4 : Num.ref? (s.qd a.quad).center ≠ some a.par := fun e => by
          rcases t.qc a.quad ok.quad _ e with h | ⟨-, h⟩ <;> rw [hor] at h <;> cases h
        have n5 : Num.ref? (s.qd a.quad).linear ≠ some a.par := fun e => by
          rcases t.ql a.quad ok.quad _ e with h | ⟨-, h⟩ <;> rw [hor] at h <;> cases h
        simp only [applyOp, State.view, arr_write _ _ n1, arr_write _ _ n2, arr_write_self, off_write _ _ n3,
          quad_write _ _ n4 n5]
  | dictWrite k l =>
    rcases hk : s.atoms[k]? with _ | a
    · simp only [State.step, hk]; exact step_absent t hk rfl rfl rfl
    · simp only [State.step, hk]
      obtain ⟨h1, h2⟩ := dict_write (l := l) t hk (hown _ (world_get s hk))
      refine step_write t hk rfl rfl rfl ?_ h1 h2
      rw [(t.cell k a hk).dict, dictSlot, if_pos (show a.fam.copiesDict = true from hown _ (world_get s hk))]; simp
  | setWeight k i w =>
    rcases hk : s.atoms[k]? with _ | a
    · simp only [State.step, hk]; exact step_absent t hk rfl rfl rfl
    · by_cases hf : a.fam = .groupLasso ∨ a.fam = .sparseGroup
      swap
      · simp only [State.step, hk]
        rw [if_neg hf]
        refine ⟨o, oq, t, ?_⟩
        rw [world_step_modify rfl rfl rfl, modify_eq _ k _ (world_get s hk)]
        have : applyOp (.setWeight k i w) (s.view a) = s.view a := by
          simp only [applyOp]
          rw [if_neg (show ¬ ((s.view a).fam = .groupLasso ∨ (s.view a).fam = .sparseGroup) from hf)]
        rw [this, set_self _ (world_get s hk)]
      · simp only [State.step, hk]
        rw [if_pos hf]
        have hcd : a.fam.copiesDict = true := by rcases hf with h | h <;> rw [h] <;> rfl
        obtain ⟨h1, h2⟩ := dict_write (l := (s.arr a.dict).set i w) t hk hcd
        have hnl : o a.dict ≠ .loose := by rw [(t.cell k a hk).dict, dictSlot, if_pos hcd]; simp
        have t' := t.write a.dict ((s.arr a.dict).set i w)
        have ok := t'.wf.cell k a hk
        have ty := t'.cell k a hk
        obtain ⟨p1, p2⟩ := put_spec t' t' (Ext.refl _) (k := k)
          (c := { a with snap := (a.snap.1, a.snap.2.set i w) }) ⟨ok.par, ok.dict, ok.off, ok.coefs, ok.quad⟩
          ⟨ty.par, ty.dict, ty.coefs, ty.off, ty.quad⟩
        refine ⟨o, oq, p1, ?_⟩
        rw [p2, world_step_modify rfl rfl rfl]
        have hwm : atomWorld (s.writeArr a.dict ((s.arr a.dict).set i w)) =
            ⟨(atomWorld s).atoms.modify k (fun v => { v with dict := (s.arr a.dict).set i w }), (atomWorld s).trans⟩ := by
          refine world_modify (s := s) (s' := s.writeArr a.dict ((s.arr a.dict).set i w)) rfl (trans_write t hnl) _
            fun j c hj => ?_
          by_cases e : j = k
          · subst e
            rw [if_pos rfl]
            rw [hk] at hj; cases hj
            exact h2
          · rw [if_neg e]; exact h1 j c hj e
        rw [hwm, modify_eq _ k _ (world_get s hk), modify_eq _ k _ (world_get s hk), List.set_set]
        congr 2
        have : (s.writeArr a.dict ((s.arr a.dict).set i w)).view { a with snap := (a.snap.1, a.snap.2.set i w) } =
            { (s.writeArr a.dict ((s.arr a.dict).set i w)).view a with snap := (a.snap.1, a.snap.2.set i w) } := rfl
        rw [this, h2]
        simp only [applyOp]
        rw [if_pos (show ((s.view a).fam = .groupLasso ∨ (s.view a).fam = .sparseGroup) from hf)]
        rfl

/-- the state before the program -/
lemma ty_empty (b : Bool) : Ty b (State.empty : State K) (fun _ => .loose) (fun _ => none) :=
  ⟨⟨fun q hq => absurd hq (Nat.not_lt_zero _), fun q hq => absurd hq (Nat.not_lt_zero _),
    fun k a h => by simp [State.empty] at h, fun x hx => by simp [State.empty] at hx⟩,
    fun k a h => by simp [State.empty] at h, fun q hq => absurd hq (Nat.not_lt_zero _),
    fun q hq => absurd hq (Nat.not_lt_zero _), fun x hx => by simp [State.empty] at hx⟩

lemma run_spec (t : Ty b s o oq) (ops : List (Op K)) (hb : b = true → ∀ op ∈ ops, makesAlias op = false)
    (hw : b = false → ∀ op ∈ ops, writesShared op = false) (hown : ownsTargets (atomWorld s) ops) :
    ∃ o' oq', Ty b (s.run ops) o' oq' ∧ atomWorld (s.run ops) = (atomWorld s).run ops := by
  induction ops generalizing s o oq with
  | nil => exact ⟨o, oq, t, rfl⟩
  | cons op ops ih =>
    obtain ⟨o1, oq1, t1, h1⟩ := step_spec t op (fun h => hb h op (by simp)) (fun h => hw h op (by simp)) hown.1
    obtain ⟨o2, oq2, t2, h2⟩ := ih t1 (fun h x hx => hb h x (by simp [hx])) (fun h x hx => hw h x (by simp [hx]))
      (by rw [h1]; exact hown.2)
    refine ⟨o2, oq2, t2, ?_⟩
    show atomWorld ((s.step op).run ops) = ((atomWorld s).step op).run ops
    rw [h2, h1]

end AtomHeap
end Verif.Model
