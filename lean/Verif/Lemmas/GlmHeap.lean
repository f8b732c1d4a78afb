import Verif.Spec.GlmValues

set_option linter.unusedSectionVars false
set_option linter.unusedVariables false

/-! Lemmas for C98: `glm` objects refine `glm` values, and copies are separated from everything else. -/

namespace Verif.Lemmas.GlmHeap
open Verif.Model Verif.Model.GlmHeap Verif.Spec

noncomputable section
variable {p n : ℕ}

/-! ### stores -/

/-- the reference points to an array -/
def ValidV (h : Heap p n) : Ref → Prop
  | .user k => k < h.uvecs.length
  | .own k => k < h.ivecs.length

/-- the reference points to a design -/
def ValidM (h : Heap p n) : Ref → Prop
  | .user k => k < h.umats.length
  | .own k => k < h.imats.length

/-- `h'` has everything `h` has -/
structure Ext (h h' : Heap p n) : Prop where
  vec : ∀ r, ValidV h r → ValidV h' r ∧ h'.vec r = h.vec r
  mat : ∀ r, ValidM h r → ValidM h' r ∧ h'.mat r = h.mat r
  loss : ∀ r L, h.loss r = some L → h'.loss r = some L

lemma Ext.refl (h : Heap p n) : Ext h h := ⟨fun _ hr => ⟨hr, rfl⟩, fun _ hr => ⟨hr, rfl⟩, fun _ _ h => h⟩

lemma Ext.trans {h1 h2 h3 : Heap p n} (a : Ext h1 h2) (b : Ext h2 h3) : Ext h1 h3 :=
  ⟨fun r hr => ⟨(b.vec r (a.vec r hr).1).1, ((b.vec r (a.vec r hr).1).2).trans (a.vec r hr).2⟩,
   fun r hr => ⟨(b.mat r (a.mat r hr).1).1, ((b.mat r (a.mat r hr).1).2).trans (a.mat r hr).2⟩,
   fun r L hL => b.loss r L (a.loss r L hL)⟩

lemma getD_append {α : Type*} (l m : List α) (d : α) {k : ℕ} (hk : k < l.length) : (l ++ m).getD k d = l.getD k d := by
  rw [List.getD_eq_getElem?_getD, List.getD_eq_getElem?_getD, List.getElem?_append_left hk]

lemma getD_append_length {α : Type*} (l : List α) (a d : α) : (l ++ [a]).getD l.length d = a := by
  rw [List.getD_eq_getElem?_getD, List.getElem?_append_right (le_refl _)]; simp

lemma getElem?_append_some {α : Type*} {l : List α} {k : ℕ} {a : α} (m : List α) (h : l[k]? = some a) :
    (l ++ m)[k]? = some a := by
  have hk : k < l.length := by
    by_contra hc
    rw [List.getElem?_eq_none (not_lt.1 hc)] at h
    cases h
  rw [List.getElem?_append_left hk, h]

lemma ext_allocVec (h : Heap p n) (v : Fin n → ℝ) : Ext h (h.allocVec v).2 := by
  refine ⟨?_, fun r hr => ⟨by cases r <;> exact hr, by cases r <;> rfl⟩, fun r L hL => by cases r <;> exact hL⟩
  intro r hr
  cases r with
  | user k => exact ⟨hr, rfl⟩
  | own k =>
    refine ⟨?_, getD_append _ _ _ hr⟩
    change k < (h.ivecs ++ [v]).length
    have hk : k < h.ivecs.length := hr
    rw [List.length_append]; omega

lemma ext_allocMat (h : Heap p n) (v : Fin n → Fin p → ℝ) : Ext h (h.allocMat v).2 := by
  refine ⟨fun r hr => ⟨by cases r <;> exact hr, by cases r <;> rfl⟩, ?_, fun r L hL => by cases r <;> exact hL⟩
  intro r hr
  cases r with
  | user k => exact ⟨hr, rfl⟩
  | own k =>
    refine ⟨?_, getD_append _ _ _ hr⟩
    change k < (h.imats ++ [v]).length
    have hk : k < h.imats.length := hr
    rw [List.length_append]; omega

lemma ext_allocLoss (h : Heap p n) (L : SatObj n) : Ext h (h.allocLoss L).2 := by
  refine ⟨fun r hr => ⟨by cases r <;> exact hr, by cases r <;> rfl⟩,
    fun r hr => ⟨by cases r <;> exact hr, by cases r <;> rfl⟩, ?_⟩
  intro r L' hL
  cases r with
  | user k => exact hL
  | own k => exact getElem?_append_some _ hL

lemma ext_pushGlm (h : Heap p n) (G : GlmObj p n) : Ext h (h.pushGlm G) :=
  ⟨fun r hr => ⟨by cases r <;> exact hr, by cases r <;> rfl⟩, fun r hr => ⟨by cases r <;> exact hr, by cases r <;> rfl⟩,
   fun r L hL => by cases r <;> exact hL⟩

lemma ext_setGlm (h : Heap p n) (g : ℕ) (G : GlmObj p n) : Ext h (h.setGlm g G) :=
  ⟨fun r hr => ⟨by cases r <;> exact hr, by cases r <;> rfl⟩, fun r hr => ⟨by cases r <;> exact hr, by cases r <;> rfl⟩,
   fun r L hL => by cases r <;> exact hL⟩

lemma ext_userMat (h : Heap p n) (M : Fin n → Fin p → ℝ) : Ext h { h with umats := h.umats ++ [M] } := by
  refine ⟨fun r hr => ⟨by cases r <;> exact hr, by cases r <;> rfl⟩, ?_, fun r L hL => by cases r <;> exact hL⟩
  intro r hr
  cases r with
  | own k => exact ⟨hr, rfl⟩
  | user k =>
    refine ⟨?_, getD_append _ _ _ hr⟩
    change k < (h.umats ++ [M]).length
    have hk : k < h.umats.length := hr
    rw [List.length_append]; omega

lemma ext_userVec (h : Heap p n) (v : Fin n → ℝ) : Ext h { h with uvecs := h.uvecs ++ [v] } := by
  refine ⟨?_, fun r hr => ⟨by cases r <;> exact hr, by cases r <;> rfl⟩, fun r L hL => by cases r <;> exact hL⟩
  intro r hr
  cases r with
  | own k => exact ⟨hr, rfl⟩
  | user k =>
    refine ⟨?_, getD_append _ _ _ hr⟩
    change k < (h.uvecs ++ [v]).length
    have hk : k < h.uvecs.length := hr
    rw [List.length_append]; omega

lemma valid_alloc (h : Heap p n) (v : Fin n → ℝ) : ValidV (h.allocVec v).2 (h.allocVec v).1 := by
  change h.ivecs.length < (h.ivecs ++ [v]).length
  rw [List.length_append]; simp

lemma vec_alloc (h : Heap p n) (v : Fin n → ℝ) : (h.allocVec v).2.vec (h.allocVec v).1 = v :=
  getD_append_length _ _ _

lemma valid_allocMat (h : Heap p n) (v : Fin n → Fin p → ℝ) : ValidM (h.allocMat v).2 (h.allocMat v).1 := by
  change h.imats.length < (h.imats ++ [v]).length
  rw [List.length_append]; simp

lemma mat_alloc (h : Heap p n) (v : Fin n → Fin p → ℝ) : (h.allocMat v).2.mat (h.allocMat v).1 = v :=
  getD_append_length _ _ _

lemma loss_alloc (h : Heap p n) (L : SatObj n) : (h.allocLoss L).2.loss (h.allocLoss L).1 = some L := by
  change (h.ilosses ++ [L])[h.ilosses.length]? = some L
  simp

/-! ### values -/

/-- the object `G` with saturated loss `L` denotes the value `v` -/
structure Denotes (h : Heap p n) (G : GlmObj p n) (L : SatObj n) (v : GlmVal p n) : Prop where
  loss : h.loss G.loss = some L
  own : L.own = none
  vresp : ValidV h L.resp
  vcw : ValidV h G.cw
  vX : ValidM h G.X
  vtX : ValidM h G.tX
  X : h.mat G.X = v.glm.X
  tX : h.mat G.tX = v.glm.X
  data : L.cls.data (h.vec L.resp) = v.glm.loss.data
  coefL : L.coef = v.glm.loss.coef
  offL : L.offset = v.glm.loss.offset
  ownV : v.glm.loss.caseWeights = none
  cw : h.vec G.cw = v.glm.caseWeights
  coef : G.coef = v.coef
  offset : G.offset = v.glm.offset
  quad : G.quad = v.quad

lemma Denotes.ext {h h' : Heap p n} {G : GlmObj p n} {L : SatObj n} {v : GlmVal p n} (e : Ext h h') (d : Denotes h G L v) :
    Denotes h' G L v where
  loss := e.loss _ _ d.loss
  own := d.own
  vresp := (e.vec _ d.vresp).1
  vcw := (e.vec _ d.vcw).1
  vX := (e.mat _ d.vX).1
  vtX := (e.mat _ d.vtX).1
  X := (e.mat _ d.vX).2.trans d.X
  tX := (e.mat _ d.vtX).2.trans d.tX
  data := by rw [(e.vec _ d.vresp).2]; exact d.data
  coefL := d.coefL
  offL := d.offL
  ownV := d.ownV
  cw := (e.vec _ d.vcw).2.trans d.cw
  coef := d.coef
  offset := d.offset
  quad := d.quad

/-- the state of the program and the world of values -/
structure Sim (h : Heap p n) (s : GlmWorld p n) : Prop where
  mats : h.umats = s.mats
  vecs : h.uvecs = s.vecs
  len : h.glms.length = s.glms.length
  den : ∀ (k : ℕ) (G : GlmObj p n) (v : GlmVal p n), h.glms[k]? = some G → s.glms[k]? = some v → ∃ L l, G.loss = .own l ∧ Denotes h G L v
  inj : ∀ (j k : ℕ) (G G' : GlmObj p n), h.glms[j]? = some G → h.glms[k]? = some G' → G.loss = G'.loss → j = k

lemma Sim.cases {h : Heap p n} {s : GlmWorld p n} (R : Sim h s) (g : ℕ) :
    (h.glms[g]? = none ∧ s.glms[g]? = none) ∨
      ∃ G v L l, h.glms[g]? = some G ∧ s.glms[g]? = some v ∧ G.loss = .own l ∧ Denotes h G L v := by
  by_cases hg : g < h.glms.length
  · right
    have hG : h.glms[g]? = some h.glms[g] := List.getElem?_eq_getElem hg
    have hg' : g < s.glms.length := by rw [← R.len]; exact hg
    have hv : s.glms[g]? = some s.glms[g] := List.getElem?_eq_getElem hg'
    obtain ⟨L, l, hl, hd⟩ := R.den g _ _ hG hv
    exact ⟨_, _, L, l, hG, hv, hl, hd⟩
  · left
    exact ⟨List.getElem?_eq_none (not_lt.1 hg), List.getElem?_eq_none (by rw [← R.len]; exact not_lt.1 hg)⟩

/-- the state grows and one object is appended -/
lemma Sim.push {h h' : Heap p n} {s : GlmWorld p n} (R : Sim h s) (e : Ext h h') (hm : h'.umats = h.umats)
    (hv : h'.uvecs = h.uvecs) (G : GlmObj p n) (L : SatObj n) (l : ℕ) (v : GlmVal p n) (hg : h'.glms = h.glms ++ [G])
    (hl : G.loss = .own l) (hnew : ∀ (k : ℕ) (G' : GlmObj p n), h.glms[k]? = some G' → G'.loss ≠ G.loss) (d : Denotes h' G L v) :
    Sim h' { s with glms := s.glms ++ [v] } where
  mats := hm.trans R.mats
  vecs := hv.trans R.vecs
  len := by rw [hg]; simp [R.len]
  den := by
    intro k G' v' hG' hv'
    rw [hg] at hG'
    dsimp only at hv'
    by_cases hk : k < h.glms.length
    · rw [List.getElem?_append_left hk] at hG'
      rw [List.getElem?_append_left (by rw [← R.len]; exact hk)] at hv'
      obtain ⟨L', l', hl', d'⟩ := R.den k G' v' hG' hv'
      exact ⟨L', l', hl', d'.ext e⟩
    · by_cases hk2 : k = h.glms.length
      · subst hk2
        rw [List.getElem?_append_right (le_refl _)] at hG'
        rw [R.len, List.getElem?_append_right (le_refl _)] at hv'
        simp only [Nat.sub_self, List.getElem?_cons_zero, Option.some.injEq] at hG' hv'
        subst hG' hv'
        exact ⟨L, l, hl, d⟩
      · rw [List.getElem?_eq_none (by simp; omega)] at hG'
        cases hG'
  inj := by
    intro j k G1 G2 h1 h2 heq
    rw [hg] at h1 h2
    by_cases hj : j < h.glms.length <;> by_cases hk : k < h.glms.length
    · rw [List.getElem?_append_left hj] at h1
      rw [List.getElem?_append_left hk] at h2
      exact R.inj j k G1 G2 h1 h2 heq
    · have hk2 : k = h.glms.length := by
        by_contra hc
        rw [List.getElem?_eq_none (by simp; omega)] at h2; cases h2
      subst hk2
      rw [List.getElem?_append_left hj] at h1
      simp only [List.getElem?_append_right (le_refl _), Nat.sub_self, List.getElem?_cons_zero, Option.some.injEq] at h2
      subst h2
      exact absurd heq (hnew j G1 h1)
    · have hj2 : j = h.glms.length := by
        by_contra hc
        rw [List.getElem?_eq_none (by simp; omega)] at h1; cases h1
      subst hj2
      rw [List.getElem?_append_left hk] at h2
      simp only [List.getElem?_append_right (le_refl _), Nat.sub_self, List.getElem?_cons_zero, Option.some.injEq] at h1
      subst h1
      exact absurd heq.symm (hnew k G2 h2)
    · have hj2 : j = h.glms.length := by
        by_contra hc
        rw [List.getElem?_eq_none (by simp; omega)] at h1; cases h1
      have hk2 : k = h.glms.length := by
        by_contra hc
        rw [List.getElem?_eq_none (by simp; omega)] at h2; cases h2
      rw [hj2, hk2]

/-- the state grows, nothing else -/
lemma Sim.grow {h h' : Heap p n} {s s' : GlmWorld p n} (R : Sim h s) (e : Ext h h') (hm : h'.umats = s'.mats)
    (hv : h'.uvecs = s'.vecs) (hg : h'.glms = h.glms) (hs : s'.glms = s.glms) : Sim h' s' where
  mats := hm
  vecs := hv
  len := by rw [hg, hs]; exact R.len
  den := by
    intro k G v hG hv'
    rw [hg] at hG
    rw [hs] at hv'
    obtain ⟨L, l, hl, d⟩ := R.den k G v hG hv'
    exact ⟨L, l, hl, d.ext e⟩
  inj := by rw [hg]; exact R.inj

/-- object `g` gets other attributes (same saturated loss), nothing else changes -/
lemma Sim.setAttr {h : Heap p n} {s : GlmWorld p n} (R : Sim h s) {g : ℕ} {G G' : GlmObj p n} {L : SatObj n}
    {v' : GlmVal p n} (hG : h.glms[g]? = some G) (hl : G'.loss = G.loss) (d : Denotes h G' L v') :
    Sim (h.setGlm g G') (s.set g v') where
  mats := R.mats
  vecs := R.vecs
  len := by simp [Heap.setGlm, GlmWorld.set, R.len]
  den := by
    intro k G1 v1 h1 h2
    by_cases hk : g = k
    · subst hk
      have hlen : g < h.glms.length := by
        by_contra hc
        rw [List.getElem?_eq_none (not_lt.1 hc)] at hG; cases hG
      have e1 : (h.glms.set g G')[g]? = some G' := List.getElem?_set_self hlen
      have e2 : (s.glms.set g v')[g]? = some v' := List.getElem?_set_self (by rw [← R.len]; exact hlen)
      have a1 : some G1 = some G' := h1.symm.trans e1
      have a2 : some v1 = some v' := h2.symm.trans e2
      cases a1; cases a2
      obtain ⟨v0, hv0⟩ : ∃ v0, s.glms[g]? = some v0 := ⟨_, List.getElem?_eq_getElem (by rw [← R.len]; exact hlen)⟩
      obtain ⟨L0, l0, hl0, _⟩ := R.den g G v0 hG hv0
      exact ⟨L, l0, hl.trans hl0, d.ext (ext_setGlm _ _ _)⟩
    · have a1 : h.glms[k]? = some G1 := (List.getElem?_set_ne hk).symm.trans h1
      have a2 : s.glms[k]? = some v1 := (List.getElem?_set_ne hk).symm.trans h2
      obtain ⟨L', l', hl', d'⟩ := R.den k G1 v1 a1 a2
      exact ⟨L', l', hl', d'.ext (ext_setGlm _ _ _)⟩
  inj := by
    have key : ∀ (k : ℕ) (G1 : GlmObj p n), (h.glms.set g G')[k]? = some G1 → ∃ G0, h.glms[k]? = some G0 ∧ G1.loss = G0.loss := by
      intro k G1 h1
      by_cases hk : g = k
      · subst hk
        have hlen : g < h.glms.length := by
          by_contra hc
          rw [List.getElem?_eq_none (not_lt.1 hc)] at hG; cases hG
        have a1 : some G1 = some G' := h1.symm.trans (List.getElem?_set_self hlen)
        cases a1
        exact ⟨G, hG, hl⟩
      · exact ⟨G1, (List.getElem?_set_ne hk).symm.trans h1, rfl⟩
    intro j k G1 G2 h1 h2 heq
    obtain ⟨A, hA, eA⟩ := key j G1 h1
    obtain ⟨B, hB, eB⟩ := key k G2 h2
    exact R.inj j k A B hA hB (by rw [← eA, ← eB]; exact heq)

lemma loss_set_self (h : Heap p n) {l : ℕ} {L L' : SatObj n} (hL : h.loss (.own l) = some L) :
    (h.setLoss (.own l) L').loss (.own l) = some L' := by
  have hL2 : h.ilosses[l]? = some L := hL
  have hlen : l < h.ilosses.length := by
    by_contra hc
    rw [List.getElem?_eq_none (not_lt.1 hc)] at hL2; cases hL2
  exact List.getElem?_set_self hlen

lemma loss_set_ne (h : Heap p n) {l : ℕ} {r : Ref} (L' : SatObj n) (hr : r ≠ .own l) :
    (h.setLoss (.own l) L').loss r = h.loss r := by
  cases r with
  | user k => rfl
  | own k =>
    have : l ≠ k := fun e => hr (by rw [e])
    exact List.getElem?_set_ne this

lemma vec_setLoss (h : Heap p n) (l : ℕ) (L' : SatObj n) (r : Ref) : (h.setLoss (.own l) L').vec r = h.vec r := by
  cases r <;> rfl

lemma mat_setLoss (h : Heap p n) (l : ℕ) (L' : SatObj n) (r : Ref) : (h.setLoss (.own l) L').mat r = h.mat r := by
  cases r <;> rfl

lemma validV_setLoss (h : Heap p n) (l : ℕ) (L' : SatObj n) (r : Ref) : ValidV (h.setLoss (.own l) L') r ↔ ValidV h r := by
  cases r <;> exact Iff.rfl

lemma validM_setLoss (h : Heap p n) (l : ℕ) (L' : SatObj n) (r : Ref) : ValidM (h.setLoss (.own l) L') r ↔ ValidM h r := by
  cases r <;> exact Iff.rfl

lemma Denotes.setLoss_ne {h : Heap p n} {G : GlmObj p n} {L : SatObj n} {v : GlmVal p n} (d : Denotes h G L v) {l : ℕ}
    (L' : SatObj n) (hne : G.loss ≠ .own l) : Denotes (h.setLoss (.own l) L') G L v where
  loss := (loss_set_ne h L' hne).trans d.loss
  own := d.own
  vresp := (validV_setLoss _ _ _ _).2 d.vresp
  vcw := (validV_setLoss _ _ _ _).2 d.vcw
  vX := (validM_setLoss _ _ _ _).2 d.vX
  vtX := (validM_setLoss _ _ _ _).2 d.vtX
  X := (mat_setLoss _ _ _ _).trans d.X
  tX := (mat_setLoss _ _ _ _).trans d.tX
  data := by rw [vec_setLoss]; exact d.data
  coefL := d.coefL
  offL := d.offL
  ownV := d.ownV
  cw := (vec_setLoss _ _ _ _).trans d.cw
  coef := d.coef
  offset := d.offset
  quad := d.quad

/-- the saturated loss of object `g` gets other attributes; only `g` is concerned -/
lemma Sim.setLossAttr {h : Heap p n} {s : GlmWorld p n} (R : Sim h s) {g l : ℕ} {G : GlmObj p n} {L L' : SatObj n}
    {v' : GlmVal p n} (hG : h.glms[g]? = some G) (hl : G.loss = .own l)
    (d : Denotes (h.setLoss (.own l) L') G L' v') : Sim (h.setLoss (.own l) L') (s.set g v') where
  mats := R.mats
  vecs := R.vecs
  len := by
    change h.glms.length = (s.glms.set g v').length
    rw [List.length_set]; exact R.len
  den := by
    intro k G1 v1 h1 h2
    have h1' : h.glms[k]? = some G1 := h1
    by_cases hk : g = k
    · subst hk
      have hlen : g < h.glms.length := by
        by_contra hc
        rw [List.getElem?_eq_none (not_lt.1 hc)] at hG; cases hG
      have a1 : some G1 = some G := h1'.symm.trans hG
      have a2 : some v1 = some v' := h2.symm.trans (List.getElem?_set_self (by rw [← R.len]; exact hlen))
      cases a1; cases a2
      exact ⟨L', l, hl, d⟩
    · have a2 : s.glms[k]? = some v1 := (List.getElem?_set_ne hk).symm.trans h2
      obtain ⟨L1, l1, hl1, d1⟩ := R.den k G1 v1 h1' a2
      refine ⟨L1, l1, hl1, d1.setLoss_ne L' ?_⟩
      intro e
      exact hk (R.inj g k G G1 hG h1' (hl.trans e.symm))
  inj := R.inj

/-! ### evaluation -/

lemma smoothObjective_congr {L L' : Loss n} (hd : L.data = L'.data) (hc : L.coef = L'.coef) (ho : L.offset = L'.offset)
    (hw : L.caseWeights = L'.caseWeights) (x : Fin n → ℝ) (m : Mode) (arg : Option (Fin n → ℝ)) :
    L.smoothObjective x m arg = L'.smoothObjective x m arg := by
  obtain ⟨d, c, o, q, w⟩ := L
  obtain ⟨d', c', o', q', w'⟩ := L'
  simp only at hd hc ho hw
  subst hd hc ho hw
  rfl

lemma hessian_congr {L L' : Loss n} (hd : L.data = L'.data) (hc : L.coef = L'.coef)
    (hw : L.caseWeights = L'.caseWeights) (x : Fin n → ℝ) (arg : Option (Fin n → ℝ)) :
    L.hessian x arg = L'.hessian x arg := by
  obtain ⟨d, c, o, q, w⟩ := L
  obtain ⟨d', c', o', q', w'⟩ := L'
  simp only at hd hc hw
  subst hd hc hw
  rfl

lemma scaleR_eq (c f : ℝ) : Smooth.scaleR c f = c * f := by
  unfold Smooth.scaleR
  by_cases hc : c = 1
  · rw [if_neg (by simpa using hc), hc, one_mul]
  · rw [if_pos hc, mul_comm]

lemma scaleV_eq {m : ℕ} (c : ℝ) (f : Fin m → ℝ) : Smooth.scaleV c f = fun j => c * f j := by
  unfold Smooth.scaleV
  by_cases hc : c = 1
  · rw [if_neg (by simpa using hc), hc]; simp
  · rw [if_pos hc]; funext j; rw [mul_comm]

lemma scaleEval_eq (c : ℝ) (e : Eval p) : Heap.scaleEval c e = timesEval c e := by
  cases e <;> simp [Heap.scaleEval, timesEval, scaleR_eq, scaleV_eq]

lemma fold_none {h : Heap p n} {G : GlmObj p n} {L : SatObj n} (ho : L.own = none) : h.foldWeights G L = h := by
  unfold Heap.foldWeights; rw [ho]

lemma eval_denotes {h : Heap p n} {G : GlmObj p n} {L : SatObj n} {v : GlmVal p n} (d : Denotes h G L v)
    (β : Fin p → ℝ) (m : Mode) :
    h.smoothObjective G β m = (timesEval v.coef (v.glm.smoothObjective β m).1, h) := by
  unfold Heap.smoothObjective Glm.smoothObjective
  rw [d.loss]
  dsimp only
  rw [fold_none d.own, d.tX, d.offset, d.coef]
  rw [smoothObjective_congr (L := { h.lossValue L with caseWeights := none }) (L' := v.glm.loss) d.data d.coefL d.offL
    d.ownV.symm, d.cw]
  generalize v.glm.loss.smoothObjective _ m _ = r
  obtain ⟨r1, r2⟩ := r
  cases m <;> cases r1 <;> simp [scaleEval_eq, timesEval]

lemma hess_denotes {h : Heap p n} {G : GlmObj p n} {L : SatObj n} {v : GlmVal p n} (d : Denotes h G L v)
    (β : Fin p → ℝ) : h.hessian G β = ((v.glm.hessian β).1, h) := by
  unfold Heap.hessian Glm.hessian
  rw [d.loss]
  dsimp only
  rw [fold_none d.own, d.X]
  rw [hessian_congr (L := { h.lossValue L with caseWeights := none }) (L' := v.glm.loss) d.data d.coefL
    d.ownV.symm, d.cw]
  generalize v.glm.loss.hessian _ _ = r
  obtain ⟨r1, r2⟩ := r
  cases r1 <;> rfl

/-! ### constructors -/

open Classical in
lemma init_none (d : LossData n) (c : ℝ) (o : Option (Fin n → ℝ)) (q : Quad (Fin n) ℝ) :
    Loss.init d c o q none = if c < 0 ∨ Loss.dataError d then none
      else some { data := d, coef := c, offset := o, quad := Loss.devQuad c d q, caseWeights := none } := by
  unfold Loss.init Smooth.atomInit
  by_cases hc : c < 0
  · simp [hc]
  · by_cases hd : Loss.dataError d <;> simp [hc, hd]

open Classical in
lemma lossCopy_none (L : Loss n) (hw : L.caseWeights = none) :
    L.copy = if L.coef < 0 ∨ Loss.dataError L.data then none
      else some { data := L.data, coef := L.coef, offset := L.offset, quad := Loss.devQuad L.coef L.data L.quad, caseWeights := none } := by
  obtain ⟨d, c, o, q, w⟩ := L
  simp only at hw
  subst hw
  cases d <;> exact init_none _ _ _ _

lemma response_data (cls : LossClass n) (y : Fin n → ℝ) : LossData.response (cls.data y) = y := by cases cls <;> rfl

lemma withResponse_data (cls : LossClass n) (y z : Fin n → ℝ) : LossData.withResponse z (cls.data y) = cls.data z := by
  cases cls <;> rfl


lemma ilosses_allocVec (h : Heap p n) (v : Fin n → ℝ) : (h.allocVec v).2.ilosses = h.ilosses := rfl

lemma ext_setLoss_fresh {h h' : Heap p n} (e : Ext h h') {k : ℕ} (hk : h.ilosses.length ≤ k) (L : SatObj n) :
    Ext h (h'.setLoss (.own k) L) := by
  refine ⟨?_, ?_, ?_⟩
  · intro r hr
    rw [validV_setLoss, vec_setLoss]
    exact e.vec r hr
  · intro r hr
    rw [validM_setLoss, mat_setLoss]
    exact e.mat r hr
  · intro r L' hL
    rw [loss_set_ne]
    · exact e.loss r L' hL
    · intro hr
      subst hr
      have hL2 : h.ilosses[k]? = some L' := hL
      rw [List.getElem?_eq_none hk] at hL2
      cases hL2

lemma fresh_loss {h : Heap p n} {s : GlmWorld p n} (R : Sim h s) {l : ℕ} (hl : h.ilosses.length ≤ l) (k : ℕ)
    (G : GlmObj p n) (hG : h.glms[k]? = some G) : G.loss ≠ .own l := by
  rcases R.cases k with ⟨h1, _⟩ | ⟨G', v, L, l', h1, _, hl', d⟩
  · rw [h1] at hG; cases hG
  · rw [h1] at hG
    cases hG
    intro e
    have hL := d.loss
    rw [e] at hL
    have hL2 : h.ilosses[l]? = some L := hL
    rw [List.getElem?_eq_none hl] at hL2
    cases hL2

/-- `copy` of an object that denotes `v` -/
lemma copy_sim {h : Heap p n} {G : GlmObj p n} {L : SatObj n} {v : GlmVal p n} (d : Denotes h G L v) :
    (h.copy G = none ∧ v.glm.copy = none) ∨
    ∃ h1 C L' l kw ky G', h.copy G = some h1 ∧ v.glm.copy = some G' ∧ h1.glms = h.glms ++ [C] ∧ Ext h h1 ∧
      h1.umats = h.umats ∧ h1.uvecs = h.uvecs ∧ C.loss = .own l ∧ h.ilosses.length ≤ l ∧ C.cw = .own kw ∧
      L'.resp = .own ky ∧ h.ivecs.length ≤ kw ∧ ky ≠ kw ∧
      Denotes h1 C L' { glm := G', coef := 1, quad := v.quad } := by
  classical
  have hcopy := lossCopy_none v.glm.loss d.ownV
  unfold Heap.copy
  rw [d.loss]
  dsimp only
  rw [d.own, ite_self]
  simp only [Option.map_none]
  rw [init_none]
  have hcond : (L.coef < 0 ∨ Loss.dataError (L.cls.data (h.vec L.resp))) ↔
      (v.glm.loss.coef < 0 ∨ Loss.dataError v.glm.loss.data) := by rw [d.coefL, d.data]
  by_cases hc : v.glm.loss.coef < 0 ∨ Loss.dataError v.glm.loss.data
  · left
    rw [if_pos (hcond.2 hc)]
    rw [if_pos hc] at hcopy
    refine ⟨rfl, ?_⟩
    unfold Glm.copy
    rw [hcopy]
  rw [if_neg (fun hh => hc (hcond.1 hh))]
  rw [if_neg hc] at hcopy
  dsimp only
  have hgc : v.glm.copy = if ¬ ∀ i, 0 ≤ v.glm.caseWeights i then none else
      some ⟨v.glm.X, ⟨v.glm.loss.data, v.glm.loss.coef, v.glm.loss.offset,
        Loss.devQuad v.glm.loss.coef v.glm.loss.data v.glm.loss.quad, none⟩, v.glm.offset, v.glm.caseWeights⟩ := by
    unfold Glm.copy
    rw [hcopy]
    rfl
  rw [d.cw]
  by_cases hw : ¬ ∀ i, 0 ≤ v.glm.caseWeights i
  · left
    rw [if_pos hw]
    rw [if_pos hw] at hgc
    exact ⟨rfl, hgc⟩
  right
  rw [if_neg hw]
  rw [if_neg hw] at hgc
  set h1 := (h.allocMat (h.mat G.X)).2 with hh1
  set h2 := (h1.allocVec (h.vec L.resp)).2 with hh2
  set h3 := (h2.allocVec v.glm.caseWeights).2 with hh3
  set L' : SatObj n := { L with resp := (h1.allocVec (h.vec L.resp)).1, own := none } with hL'
  set h4 := (h3.allocLoss L').2 with hh4
  set C : GlmObj p n := { X := (h.allocMat (h.mat G.X)).1, tX := (h.allocMat (h.mat G.X)).1, loss := (h3.allocLoss L').1, cw := (h2.allocVec v.glm.caseWeights).1, coef := 1, offset := G.offset, quad := G.quad } with hC
  have e1 : Ext h h1 := ext_allocMat _ _
  have e2 : Ext h1 h2 := ext_allocVec _ _
  have e3 : Ext h2 h3 := ext_allocVec _ _
  have e4 : Ext h3 h4 := ext_allocLoss _ _
  have e5 : Ext h4 (h4.pushGlm C) := ext_pushGlm _ _
  have e45 := e4.trans e5
  have e35 := e3.trans e45
  have e25 := e2.trans e35
  refine ⟨h4.pushGlm C, C, L', h.ilosses.length, h.ivecs.length + 1, h.ivecs.length, _, rfl, hgc, rfl,
    e1.trans e25, rfl, rfl, rfl, le_refl _, ?_, rfl, by omega, by omega, ?_⟩
  · change Ref.own (h.ivecs ++ [h.vec L.resp]).length = _
    rw [List.length_append]; rfl
  · have vx := e25.mat _ (valid_allocMat h (h.mat G.X))
    have vy := e35.vec _ (valid_alloc h1 (h.vec L.resp))
    have vw := e45.vec _ (valid_alloc h2 v.glm.caseWeights)
    exact {
      loss := e5.loss _ _ (loss_alloc h3 L')
      own := rfl
      vresp := vy.1
      vcw := vw.1
      vX := vx.1
      vtX := vx.1
      X := (vx.2.trans (mat_alloc _ _)).trans d.X
      tX := (vx.2.trans (mat_alloc _ _)).trans d.X
      data := by
        change L.cls.data ((h4.pushGlm C).vec (h1.allocVec (h.vec L.resp)).1) = v.glm.loss.data
        rw [vy.2, vec_alloc]
        exact d.data
      coefL := d.coefL
      offL := d.offL
      ownV := rfl
      cw := vw.2.trans (vec_alloc _ _)
      coef := rfl
      offset := d.offset
      quad := d.quad }

lemma vec_write_own {h : Heap p n} {k : ℕ} (hk : k < h.ivecs.length) (u : Fin n → ℝ) :
    (h.writeVec (.own k) u).vec (.own k) = u := by
  change (h.ivecs.set k u).getD k 0 = u
  rw [List.getD_eq_getElem?_getD, List.getElem?_set_self hk]; rfl

lemma vec_write_ne {h : Heap p n} {k : ℕ} {r : Ref} (hr : r ≠ .own k) (u : Fin n → ℝ) :
    (h.writeVec (.own k) u).vec r = h.vec r := by
  cases r with
  | user j => rfl
  | own j =>
    have hj : k ≠ j := fun e => hr (by rw [e])
    change (h.ivecs.set k u).getD j 0 = h.ivecs.getD j 0
    rw [List.getD_eq_getElem?_getD, List.getD_eq_getElem?_getD, List.getElem?_set_ne hj]

lemma validV_write (h : Heap p n) (k : ℕ) (u : Fin n → ℝ) (r : Ref) : ValidV (h.writeVec (.own k) u) r ↔ ValidV h r := by
  cases r with
  | user j => exact Iff.rfl
  | own j =>
    change j < (h.ivecs.set k u).length ↔ j < h.ivecs.length
    rw [List.length_set]

lemma mat_write (h : Heap p n) (k : ℕ) (u : Fin n → ℝ) (r : Ref) : (h.writeVec (.own k) u).mat r = h.mat r := by
  cases r <;> rfl

lemma validM_write (h : Heap p n) (k : ℕ) (u : Fin n → ℝ) (r : Ref) : ValidM (h.writeVec (.own k) u) r ↔ ValidM h r := by
  cases r <;> exact Iff.rfl

lemma loss_write (h : Heap p n) (k : ℕ) (u : Fin n → ℝ) (r : Ref) : (h.writeVec (.own k) u).loss r = h.loss r := by
  cases r <;> rfl

lemma subsample_sim {h : Heap p n} {G : GlmObj p n} {L : SatObj n} {v : GlmVal p n} (d : Denotes h G L v)
    (idx : Finset (Fin n)) :
    (h.subsample G idx = none ∧ v.glm.subsample idx = none) ∨
    ∃ h1 C L' l G', h.subsample G idx = some h1 ∧ v.glm.subsample idx = some G' ∧ h1.glms = h.glms ++ [C] ∧ Ext h h1 ∧
      h1.umats = h.umats ∧ h1.uvecs = h.uvecs ∧ C.loss = .own l ∧ h.ilosses.length ≤ l ∧
      Denotes h1 C L' { glm := G', coef := 1, quad := v.quad } := by
  classical
  unfold Heap.subsample Glm.subsample
  rcases copy_sim d with ⟨h1, h2⟩ | ⟨h1, C, L', l, kw, ky, G', hc, hv, hg, e, hm, hvv, hl, hlen, hcw, hresp, hkw, hne, d'⟩
  · left
    rw [h1, h2]
    exact ⟨rfl, rfl⟩
  · right
    rw [hc, hv]
    dsimp only
    rw [hg, List.getLast?_concat]
    dsimp only
    have hk1 : kw < h1.ivecs.length := by
      have := d'.vcw
      rw [hcw] at this
      exact this
    rw [hcw]
    refine ⟨_, C, L', l, _, rfl, rfl, hg, ?_, hm, hvv, hl, hlen, ?_⟩
    · refine ⟨?_, ?_, ?_⟩
      · intro r hr
        rw [validV_write, vec_write_ne]
        · exact e.vec r hr
        · intro hrr
          subst hrr
          have : kw < h.ivecs.length := hr
          omega
      · intro r hr
        rw [validM_write, mat_write]
        exact e.mat r hr
      · intro r L0 hL0
        rw [loss_write]
        exact e.loss r L0 hL0
    · exact {
        loss := (loss_write _ _ _ _).trans d'.loss
        own := d'.own
        vresp := (validV_write _ _ _ _).2 d'.vresp
        vcw := (validV_write _ _ _ _).2 d'.vcw
        vX := (validM_write _ _ _ _).2 d'.vX
        vtX := (validM_write _ _ _ _).2 d'.vtX
        X := (mat_write _ _ _ _).trans d'.X
        tX := (mat_write _ _ _ _).trans d'.tX
        data := by
          rw [vec_write_ne (by rw [hresp]; intro hh; cases hh; exact hne rfl)]
          exact d'.data
        coefL := d'.coefL
        offL := d'.offL
        ownV := d'.ownV
        cw := by
          rw [hcw, vec_write_own hk1]
          have hcw' := d'.cw
          rw [hcw] at hcw'
          rw [hcw']
        coef := d'.coef
        offset := d'.offset
        quad := d'.quad }

/-- `loss.data = y` on the saturated loss of object `g`, when it is not refused -/
lemma setResponse_sim {h : Heap p n} {s : GlmWorld p n} (R : Sim h s) {g l : ℕ} {G : GlmObj p n} {L : SatObj n}
    {v : GlmVal p n} (hG : h.glms[g]? = some G) (hl : G.loss = .own l) (d : Denotes h G L v) {y : Ref} (hy : ValidV h y)
    (hr : ¬ Refused (h.vec y) v.glm.loss.data) :
    (h.setResponse G.loss y).2 = false ∧ Sim (h.setResponse G.loss y).1 (s.set g (v.setData v.glm.X (h.vec y))) := by
  classical
  have hdata := d.data
  have key : ∀ h' : Heap p n, Ext h h' → h'.umats = h.umats → h'.uvecs = h.uvecs → h'.glms = h.glms → ∀ r, ValidV h' r →
      h'.vec r = h.vec y → Sim (h'.setLoss G.loss { L with resp := r }) (s.set g (v.setData v.glm.X (h.vec y))) := by
    intro h' e hm hv hg r hr1 hr2
    have R' : Sim h' s := R.grow e (hm.trans R.mats) (hv.trans R.vecs) hg rfl
    have d' := d.ext e
    rw [hl]
    refine R'.setLossAttr (L := L) (by rw [hg]; exact hG) hl ?_
    have hL' : h'.loss (.own l) = some L := by rw [← hl]; exact d'.loss
    exact {
      loss := by rw [hl]; exact loss_set_self h' hL'
      own := d.own
      vresp := (validV_setLoss _ _ _ _).2 hr1
      vcw := (validV_setLoss _ _ _ _).2 d'.vcw
      vX := (validM_setLoss _ _ _ _).2 d'.vX
      vtX := (validM_setLoss _ _ _ _).2 d'.vtX
      X := (mat_setLoss _ _ _ _).trans d'.X
      tX := (mat_setLoss _ _ _ _).trans d'.tX
      data := by
        rw [vec_setLoss]
        change L.cls.data (h'.vec r) = LossData.withResponse (h.vec y) v.glm.loss.data
        rw [hr2, ← d.data, withResponse_data]
      coefL := d.coefL
      offL := d.offL
      ownV := d.ownV
      cw := (vec_setLoss _ _ _ _).trans d'.cw
      coef := d.coef
      offset := d.offset
      quad := d.quad }
  unfold Heap.setResponse
  rw [d.loss]
  dsimp only
  rcases hcls : L.cls with _ | _ | eps | t | eps
  · exact ⟨rfl, by simpa [hcls] using key h (Ext.refl h) rfl rfl rfl y hy rfl⟩
  · exact ⟨rfl, by simpa [hcls] using key h (Ext.refl h) rfl rfl rfl y hy rfl⟩
  · exact ⟨rfl, by simpa [hcls] using key h (Ext.refl h) rfl rfl rfl y hy rfl⟩
  · rw [hcls] at hdata
    refine ⟨?_, ?_⟩
    · dsimp only
      rw [decide_eq_false_iff_not]
      intro hbad
      apply hr
      rw [← hdata]
      rcases hbad with ⟨i, hi⟩ | ⟨i, hi⟩
      · exact Or.inl ⟨i, by linarith⟩
      · exact Or.inr ⟨i, hi⟩
    · have := key (h.allocVec (h.vec y)).2 (ext_allocVec _ _) rfl rfl rfl (h.allocVec (h.vec y)).1 (valid_alloc _ _) (vec_alloc _ _)
      simpa [hcls] using this
  · exact ⟨rfl, by simpa [hcls] using key h (Ext.refl h) rfl rfl rfl y hy rfl⟩


/-- the loss `ℓ` that nothing else refers to gets the response `y`, from which it was just made -/
lemma setResponse_fresh {h : Heap p n} {l : ℕ} {L : SatObj n} (hL : h.loss (.own l) = some L) {y : Ref}
    (hy : ValidV h y) (hd : ¬ Loss.dataError (L.cls.data (h.vec y))) (h0 : Heap p n) (e : Ext h0 h)
    (hl : h0.ilosses.length ≤ l) :
    ∃ h' L', h.setResponse (.own l) y = (h', false) ∧ Ext h0 h' ∧ h'.loss (.own l) = some L' ∧ ValidV h' L'.resp ∧
      h'.vec L'.resp = h.vec y ∧ L'.cls = L.cls ∧ L'.coef = L.coef ∧ L'.offset = L.offset ∧ L'.own = L.own ∧
      h'.umats = h.umats ∧ h'.uvecs = h.uvecs ∧ h'.glms = h.glms ∧
      (∀ r, ValidV h r → ValidV h' r ∧ h'.vec r = h.vec r) ∧ (∀ r, ValidM h r → ValidM h' r ∧ h'.mat r = h.mat r) := by
  classical
  have hother : ∃ h' L', (h.setLoss (.own l) { L with resp := y }, false) = (h', false) ∧ Ext h0 h' ∧
      h'.loss (.own l) = some L' ∧ ValidV h' L'.resp ∧
      h'.vec L'.resp = h.vec y ∧ L'.cls = L.cls ∧ L'.coef = L.coef ∧ L'.offset = L.offset ∧ L'.own = L.own ∧
      h'.umats = h.umats ∧ h'.uvecs = h.uvecs ∧ h'.glms = h.glms ∧
      (∀ r, ValidV h r → ValidV h' r ∧ h'.vec r = h.vec r) ∧ (∀ r, ValidM h r → ValidM h' r ∧ h'.mat r = h.mat r) :=
    ⟨_, { L with resp := y }, rfl, ext_setLoss_fresh e hl _, loss_set_self h hL, (validV_setLoss _ _ _ _).2 hy,
      vec_setLoss _ _ _ _, rfl, rfl, rfl, rfl, rfl, rfl, rfl,
      fun r hr => ⟨(validV_setLoss _ _ _ _).2 hr, vec_setLoss _ _ _ _⟩,
      fun r hr => ⟨(validM_setLoss _ _ _ _).2 hr, mat_setLoss _ _ _ _⟩⟩
  unfold Heap.setResponse
  rw [hL]
  dsimp only
  rcases hcls : L.cls with _ | _ | eps | t | eps
  · simpa only [hcls] using hother
  · simpa only [hcls] using hother
  · simpa only [hcls] using hother
  · rw [hcls] at hd
    have hf : decide ((∃ i, t i - h.vec y i < 0) ∨ ∃ i, h.vec y i < 0) = false := by
      rw [decide_eq_false_iff_not]; exact hd
    dsimp only
    rw [hf]
    set h1 := (h.allocVec (h.vec y)).2 with hh1
    have e1 : Ext h h1 := ext_allocVec _ _
    have hL1 : h1.loss (.own l) = some L := e1.loss _ _ hL
    exact ⟨_, { L with resp := (h.allocVec (h.vec y)).1 }, rfl, ext_setLoss_fresh (e.trans e1) hl _,
      by rw [← hcls]; exact loss_set_self h1 hL1, (validV_setLoss _ _ _ _).2 (valid_alloc _ _),
      (vec_setLoss _ _ _ _).trans (vec_alloc _ _), by simp only [hcls], rfl, rfl, rfl, rfl, rfl, rfl,
      fun r hr => ⟨(validV_setLoss _ _ _ _).2 (e1.vec r hr).1, (vec_setLoss _ _ _ _).trans (e1.vec r hr).2⟩,
      fun r hr => ⟨(validM_setLoss _ _ _ _).2 (e1.mat r hr).1, (mat_setLoss _ _ _ _).trans (e1.mat r hr).2⟩⟩
  · simpa only [hcls] using hother

/-- the first constructor of the classmethods -/
lemma newLoss_fresh (h : Heap p n) (cls : LossClass n) {y : Ref} (hy : ValidV h y) (coef : ℝ) (soff : Option (Fin n → ℝ)) :
    (h.newLoss cls y coef soff none = none ∧ (coef < 0 ∨ Loss.dataError (cls.data (h.vec y)))) ∨
    ∃ L h1, h.newLoss cls y coef soff none = some (L, h1) ∧ ¬ (coef < 0 ∨ Loss.dataError (cls.data (h.vec y))) ∧
      L.cls = cls ∧ L.coef = coef ∧ L.offset = soff ∧ L.own = none ∧ Ext h h1 ∧ h1.ilosses = h.ilosses ∧
      h1.umats = h.umats ∧ h1.uvecs = h.uvecs ∧ h1.glms = h.glms := by
  classical
  unfold Heap.newLoss
  simp only [Option.map_none]
  rw [init_none]
  by_cases hc : coef < 0 ∨ Loss.dataError (cls.data (h.vec y))
  · left
    rw [if_pos hc]
    exact ⟨rfl, hc⟩
  · right
    rw [if_neg hc]
    dsimp only
    rcases cls with _ | _ | eps | t | eps
    · exact ⟨_, h, rfl, hc, rfl, rfl, rfl, rfl, Ext.refl h, rfl, rfl, rfl, rfl⟩
    · exact ⟨_, h, rfl, hc, rfl, rfl, rfl, rfl, Ext.refl h, rfl, rfl, rfl, rfl⟩
    · exact ⟨_, h, rfl, hc, rfl, rfl, rfl, rfl, Ext.refl h, rfl, rfl, rfl, rfl⟩
    · exact ⟨_, _, rfl, hc, rfl, rfl, rfl, rfl, ext_allocVec _ _, rfl, rfl, rfl, rfl⟩
    · exact ⟨_, h, rfl, hc, rfl, rfl, rfl, rfl, Ext.refl h, rfl, rfl, rfl, rfl⟩

open Classical in
lemma build_eq (X : Fin n → Fin p → ℝ) (d : LossData n) (coef : ℝ) (soff : Option (Fin n → ℝ)) (off : Option (Fin p → ℝ))
    (w : Option (Fin n → ℝ)) :
    Glm.build X d coef soff off w = if coef < 0 ∨ Loss.dataError d then none else
      if ¬ ∀ i, 0 ≤ (w.getD fun _ => 1) i then none else
      some ⟨X, ⟨d, coef, soff, Loss.devQuad coef d (Quad.init none none none none), none⟩, off, w.getD fun _ => 1⟩ := by
  unfold Glm.build
  rw [init_none]
  by_cases hc : coef < 0 ∨ Loss.dataError d
  · rw [if_pos hc, if_pos hc]
  · rw [if_neg hc, if_neg hc]
    cases w <;> rfl

/-- `glm.gaussian(...)` and the like -/
lemma build_sim {h : Heap p n} {s : GlmWorld p n} (R : Sim h s) (cls : LossClass n) {X y : Ref} (hX : ValidM h X)
    (hy : ValidV h y) (coef : ℝ) (soff : Option (Fin n → ℝ)) {w : Option Ref} (hw : ∀ r, w = some r → ValidV h r)
    (off : Option (Fin p → ℝ)) (quad : Quad (Fin p) ℝ) :
    (Heap.flag (h.buildGlm cls X y coef soff w off quad)).1 =
      (s.push 1 quad (Glm.build (h.mat X) (cls.data (h.vec y)) coef soff off (w.map h.vec))).1 ∧
    Sim (Heap.flag (h.buildGlm cls X y coef soff w off quad)).2
      (s.push 1 quad (Glm.build (h.mat X) (cls.data (h.vec y)) coef soff off (w.map h.vec))).2 := by
  classical
  unfold Heap.buildGlm
  rw [build_eq]
  rcases newLoss_fresh h cls hy coef soff with ⟨h1, h2⟩ | ⟨L, h1, hn, hc, hcls, hcoef, hoff, hown, e1, hil, hm, hv, hg⟩
  · rw [h1, if_pos h2]
    exact ⟨rfl, R⟩
  rw [hn, if_neg hc]
  dsimp only
  set h2 := (h1.allocLoss L).2 with hh2
  have hl : (h1.allocLoss L).1 = .own h1.ilosses.length := rfl
  rw [hl]
  have e2 : Ext h h2 := e1.trans (ext_allocLoss _ _)
  have hL2 : h2.loss (.own h1.ilosses.length) = some L := loss_alloc h1 L
  have hy2 := e2.vec y hy
  have hd2 : ¬ Loss.dataError (L.cls.data (h2.vec y)) := by
    rw [hcls, hy2.2]; exact fun hh => hc (Or.inr hh)
  obtain ⟨h3, L', hs, e3, hL3, hvr, hvr2, hc3, hco3, ho3, how3, hm3, hv3, hg3, hvec3, hmat3⟩ :=
    setResponse_fresh hL2 hy2.1 hd2 h e2 (by rw [hil])
  unfold Heap.newGlm
  rw [hs]
  dsimp only
  have hX3 := e3.mat X hX
  have hfin : ∀ (r : Ref) (h4 : Heap p n), Ext h3 h4 → h4.umats = h.umats → h4.uvecs = h.uvecs → h4.glms = h.glms → ValidV h4 r →
      h4.vec r = ((w.map h.vec).getD fun _ => 1) →
      (Heap.flag (if ¬ ∀ i, 0 ≤ h4.vec r i then (h4, true) else
        (h4.pushGlm ⟨X, X, .own h1.ilosses.length, r, 1, off, quad⟩, false))).1 =
        (s.push 1 quad (if ¬ ∀ i, 0 ≤ ((w.map h.vec).getD fun _ => 1) i then none else
          some ⟨h.mat X, ⟨cls.data (h.vec y), coef, soff, Loss.devQuad coef (cls.data (h.vec y)) (Quad.init none none none none), none⟩, off,
            (w.map h.vec).getD fun _ => 1⟩)).1 ∧
      Sim (Heap.flag (if ¬ ∀ i, 0 ≤ h4.vec r i then (h4, true) else
        (h4.pushGlm ⟨X, X, .own h1.ilosses.length, r, 1, off, quad⟩, false))).2
        (s.push 1 quad (if ¬ ∀ i, 0 ≤ ((w.map h.vec).getD fun _ => 1) i then none else
          some ⟨h.mat X, ⟨cls.data (h.vec y), coef, soff, Loss.devQuad coef (cls.data (h.vec y)) (Quad.init none none none none), none⟩, off,
            (w.map h.vec).getD fun _ => 1⟩)).2 := by
    intro r h4 e4 hm4 hv4 hg4 hr4 hr4v
    have e04 := e3.trans e4
    rw [hr4v]
    by_cases hw0 : ¬ ∀ i, 0 ≤ ((w.map h.vec).getD fun _ => 1) i
    · rw [if_pos hw0, if_pos hw0]
      exact ⟨rfl, R.grow e04 (hm4.trans R.mats) (hv4.trans R.vecs) hg4 rfl⟩
    · rw [if_neg hw0, if_neg hw0]
      refine ⟨rfl, ?_⟩
      have e5 := ext_pushGlm h4 ⟨X, X, .own h1.ilosses.length, r, 1, off, quad⟩
      have hXx := (e04.trans e5).mat X hX
      refine R.push (e04.trans e5) hm4 hv4 ⟨X, X, .own h1.ilosses.length, r, 1, off, quad⟩ L' h1.ilosses.length _ ?_ rfl
        (fun k G' hG' => fresh_loss R (by rw [hil]) k G' hG') ?_
      · change h4.glms ++ _ = _
        rw [hg4]
      · have hresp := (e4.trans e5).vec _ hvr
        exact {
          loss := (e4.trans e5).loss _ _ hL3
          own := how3.trans hown
          vresp := hresp.1
          vcw := (e5.vec _ hr4).1
          vX := hXx.1
          vtX := hXx.1
          X := hXx.2
          tX := hXx.2
          data := by rw [hresp.2, hvr2, hc3, hcls, hy2.2]
          coefL := hco3.trans hcoef
          offL := ho3.trans hoff
          ownV := rfl
          cw := (e5.vec _ hr4).2.trans hr4v
          coef := rfl
          offset := rfl
          quad := rfl }
  have hgl3 : h3.glms = h.glms := hg3.trans hg
  have hum3 : h3.umats = h.umats := hm3.trans hm
  have huv3 : h3.uvecs = h.uvecs := hv3.trans hv
  rcases w with _ | r
  · exact hfin (h3.allocVec fun _ => 1).1 (h3.allocVec fun _ => 1).2 (ext_allocVec _ _) hum3 huv3 hgl3 (valid_alloc _ _)
      (vec_alloc _ _)
  · have hr3 := e3.vec r (hw r rfl)
    exact hfin r h3 (Ext.refl _) hum3 huv3 hgl3 hr3.1 hr3.2


lemma vec_user {h : Heap p n} {k : ℕ} {w : Fin n → ℝ} (hw : h.uvecs[k]? = some w) : ValidV h (.user k) ∧ h.vec (.user k) = w := by
  have hk : k < h.uvecs.length := by
    by_contra hc
    rw [List.getElem?_eq_none (not_lt.1 hc)] at hw; cases hw
  refine ⟨hk, ?_⟩
  change h.uvecs.getD k 0 = w
  rw [List.getD_eq_getElem?_getD, hw]; rfl

lemma mat_user {h : Heap p n} {k : ℕ} {w : Fin n → Fin p → ℝ} (hw : h.umats[k]? = some w) :
    ValidM h (.user k) ∧ h.mat (.user k) = w := by
  have hk : k < h.umats.length := by
    by_contra hc
    rw [List.getElem?_eq_none (not_lt.1 hc)] at hw; cases hw
  refine ⟨hk, ?_⟩
  change h.umats.getD k 0 = w
  rw [List.getD_eq_getElem?_getD, hw]; rfl

lemma hasArray_some {h : Heap p n} {k : ℕ} {w : Fin n → ℝ} (hw : h.uvecs[k]? = some w) : h.hasArray (some k) = true :=
  decide_eq_true (vec_user hw).1

lemma hasArray_none {h : Heap p n} {k : ℕ} (hw : h.uvecs[k]? = none) : h.hasArray (some k) = false := by
  refine decide_eq_false ?_
  rw [not_lt]
  exact List.getElem?_eq_none_iff.1 hw

lemma set_set (s : GlmWorld p n) (g : ℕ) (v v' : GlmVal p n) : (s.set g v).set g v' = s.set g v' := by
  unfold GlmWorld.set
  simp

/-- one statement -/
theorem sim_step {h : Heap p n} {s : GlmWorld p n} (R : Sim h s) (op : Op p n) (hf : s.Fair op) :
    (h.step op).1 = (s.step op).1 ∧ Sim (h.step op).2 (s.step op).2 := by
  classical
  rcases op with M | v | ⟨k, M⟩ | ⟨k, v⟩ | ⟨cls, y, coef, off, w⟩ | ⟨X, y, l, w, off, quad⟩ |
    ⟨cls, X, y, coef, soff, w, off, quad⟩ | g | ⟨g, idx⟩ | ⟨g, β, m⟩ | ⟨g, β⟩ | ⟨g, β⟩ | ⟨g, β⟩ | g | ⟨g, X, y⟩ | ⟨g, y⟩ |
    ⟨g, w⟩ | ⟨g, c⟩ | ⟨g, c⟩ | ⟨g, o⟩ | ⟨g, q⟩ | ⟨g, g2⟩ | ⟨g, g2⟩ | ⟨g, v⟩ | ⟨g, v⟩ | ⟨g, M⟩
  -- matrix
  · refine ⟨rfl, R.grow (ext_userMat h M) ?_ R.vecs rfl rfl⟩
    change h.umats ++ [M] = s.mats ++ [M]
    rw [R.mats]
  -- array
  · refine ⟨rfl, R.grow (ext_userVec h v) R.mats ?_ rfl rfl⟩
    change h.uvecs ++ [v] = s.vecs ++ [v]
    rw [R.vecs]
  · exact hf.elim
  · exact hf.elim
  · exact hf.elim
  · exact hf.elim
  -- build
  · unfold Heap.step GlmWorld.step
    dsimp only
    rw [← R.mats, ← R.vecs]
    rcases hX : h.umats[X]? with _ | MX
    · have : ¬ X < h.umats.length := not_lt.2 (List.getElem?_eq_none_iff.1 hX)
      simp only [this, decide_false, Bool.false_and, Bool.false_eq_true, if_false]
      exact ⟨by cases h.uvecs[y]? <;> first | trivial | rfl, by cases h.uvecs[y]? <;> exact R⟩
    rcases hy : h.uvecs[y]? with _ | vy
    · simp only [hasArray_none hy, Bool.and_false, Bool.false_and, Bool.false_eq_true, if_false]
      exact ⟨trivial, R⟩
    have hXl : X < h.umats.length := (mat_user hX).1
    rcases w with _ | k
    · have hnone : h.hasArray none = true := rfl
      simp only [hasArray_some hy, hXl, decide_true, hnone, Bool.and_self, if_true]
      have := build_sim R cls (mat_user hX).1 (vec_user hy).1 coef soff (w := none) (fun _ hr => by cases hr) off quad
      rw [(mat_user hX).2, (vec_user hy).2] at this
      exact this
    · dsimp only
      rcases hk : h.uvecs[k]? with _ | vk
      · simp only [hasArray_none hk, Bool.and_false, Bool.false_eq_true, if_false]
        exact ⟨rfl, R⟩
      · simp only [hasArray_some hy, hasArray_some hk, hXl, decide_true, Bool.and_self, if_true]
        have := build_sim R cls (mat_user hX).1 (vec_user hy).1 coef soff (w := some (.user k))
          (fun _ hr => by cases hr; exact (vec_user hk).1) off quad
        simp only [Option.map_some] at this
        rw [(mat_user hX).2, (vec_user hy).2, (vec_user hk).2] at this
        exact this
  -- copy
  · change (h.withGlm g _).1 = (s.withGlm g _).1 ∧ Sim (h.withGlm g _).2 (s.withGlm g _).2
    unfold Heap.withGlm GlmWorld.withGlm
    rcases R.cases g with ⟨h1, h2⟩ | ⟨G, v, L, l, h1, h2, hl, d⟩
    · rw [h1, h2]; exact ⟨rfl, R⟩
    · rw [h1, h2]
      dsimp only
      have hcoef : v.coef = 1 := hf v h2
      rcases copy_sim d with ⟨a, b⟩ | ⟨h', C, L', l', kw, ky, G', hc, hv, hg, e, hm, hvv, hl', hlen, _, _, _, _, d'⟩
      · rw [a, b]; exact ⟨rfl, R⟩
      · rw [hc, hv, hcoef]
        exact ⟨rfl, R.push e hm hvv C L' l' _ hg hl' (fun k G1 hG1 => by rw [hl']; exact fresh_loss R hlen k G1 hG1) d'⟩
  -- subsample
  · change (h.withGlm g _).1 = (s.withGlm g _).1 ∧ Sim (h.withGlm g _).2 (s.withGlm g _).2
    unfold Heap.withGlm GlmWorld.withGlm
    rcases R.cases g with ⟨h1, h2⟩ | ⟨G, v, L, l, h1, h2, hl, d⟩
    · rw [h1, h2]; exact ⟨rfl, R⟩
    · rw [h1, h2]
      dsimp only
      have hcoef : v.coef = 1 := hf v h2
      rcases subsample_sim d idx with ⟨a, b⟩ | ⟨h', C, L', l', G', hc, hv, hg, e, hm, hvv, hl', hlen, d'⟩
      · rw [a, b]; exact ⟨rfl, R⟩
      · rw [hc, hv, hcoef]
        exact ⟨rfl, R.push e hm hvv C L' l' _ hg hl' (fun k G1 hG1 => by rw [hl']; exact fresh_loss R hlen k G1 hG1) d'⟩
  -- eval
  · change (h.withGlm g _).1 = (s.withGlm g _).1 ∧ Sim (h.withGlm g _).2 (s.withGlm g _).2
    unfold Heap.withGlm GlmWorld.withGlm
    rcases R.cases g with ⟨h1, h2⟩ | ⟨G, v, L, l, h1, h2, hl, d⟩
    · rw [h1, h2]; exact ⟨rfl, R⟩
    · rw [h1, h2]
      dsimp only
      rw [eval_denotes d β m]
      exact ⟨rfl, R⟩
  -- hess
  · change (h.withGlm g _).1 = (s.withGlm g _).1 ∧ Sim (h.withGlm g _).2 (s.withGlm g _).2
    unfold Heap.withGlm GlmWorld.withGlm
    rcases R.cases g with ⟨h1, h2⟩ | ⟨G, v, L, l, h1, h2, hl, d⟩
    · rw [h1, h2]; exact ⟨rfl, R⟩
    · rw [h1, h2]
      dsimp only
      have hcoef : v.coef = 1 := hf v h2
      rw [hess_denotes d β, hcoef]
      refine ⟨?_, R⟩
      dsimp only
      generalize (v.glm.hessian β).1 = H
      cases H <;> simp [timesHess]
  -- linpred
  · change (h.withGlm g _).1 = (s.withGlm g _).1 ∧ Sim (h.withGlm g _).2 (s.withGlm g _).2
    unfold Heap.withGlm GlmWorld.withGlm
    rcases R.cases g with ⟨h1, h2⟩ | ⟨G, v, L, l, h1, h2, hl, d⟩
    · rw [h1, h2]; exact ⟨rfl, R⟩
    · rw [h1, h2]
      dsimp only
      rw [d.X]
      exact ⟨rfl, R⟩
  -- penalty
  · change (h.withGlm g _).1 = (s.withGlm g _).1 ∧ Sim (h.withGlm g _).2 (s.withGlm g _).2
    unfold Heap.withGlm GlmWorld.withGlm
    rcases R.cases g with ⟨h1, h2⟩ | ⟨G, v, L, l, h1, h2, hl, d⟩
    · rw [h1, h2]; exact ⟨rfl, R⟩
    · rw [h1, h2]
      dsimp only
      rw [d.quad]
      exact ⟨rfl, R⟩
  -- getData
  · change (h.withGlm g _).1 = (s.withGlm g _).1 ∧ Sim (h.withGlm g _).2 (s.withGlm g _).2
    unfold Heap.withGlm GlmWorld.withGlm
    rcases R.cases g with ⟨h1, h2⟩ | ⟨G, v, L, l, h1, h2, hl, d⟩
    · rw [h1, h2]; exact ⟨rfl, R⟩
    · rw [h1, h2]
      dsimp only
      rw [d.loss]
      dsimp only
      rw [d.X, ← d.data, response_data]
      exact ⟨rfl, R⟩
  -- setData
  · change (h.withGlm g _).1 = (s.withGlm g _).1 ∧ Sim (h.withGlm g _).2 (s.withGlm g _).2
    unfold Heap.withGlm GlmWorld.withGlm
    rcases R.cases g with ⟨h1, h2⟩ | ⟨G, v, L, l, h1, h2, hl, d⟩
    · rw [h1, h2]; exact ⟨rfl, R⟩
    · rw [h1, h2]
      dsimp only
      have hfv := fun M w => hf v M w h2
      rw [← R.mats, ← R.vecs] at *
      rcases hX : h.umats[X]? with _ | MX
      · have : ¬ X < h.umats.length := not_lt.2 (List.getElem?_eq_none_iff.1 hX)
        simp only [this, decide_false, Bool.false_and, Bool.false_eq_true, if_false]
        exact ⟨by cases h.uvecs[y]? <;> first | trivial | rfl, by cases h.uvecs[y]? <;> exact R⟩
      rcases hy : h.uvecs[y]? with _ | vy
      · simp only [hasArray_none hy, Bool.and_false, Bool.false_eq_true, if_false]
        exact ⟨trivial, R⟩
      have hXl : X < h.umats.length := (mat_user hX).1
      obtain ⟨hM, hr⟩ := hfv MX vy hX hy
      simp only [hasArray_some hy, hXl, decide_true, Bool.and_self, if_true, hr, if_false]
      have d1 : Denotes h { G with X := .user X } L v :=
        { d with vX := (mat_user hX).1, X := (mat_user hX).2.trans hM }
      have R1 := R.setAttr (G' := { G with X := .user X }) h1 rfl d1
      have hlen : g < h.glms.length := by
        by_contra hc
        rw [List.getElem?_eq_none (not_lt.1 hc)] at h1; cases h1
      have hG1 : (h.setGlm g { G with X := .user X }).glms[g]? = some { G with X := .user X } := List.getElem?_set_self hlen
      have hyv : (h.setGlm g { G with X := .user X }).vec (.user y) = vy := (vec_user hy).2
      have := setResponse_sim R1 hG1 hl (d1.ext (ext_setGlm _ _ _)) (y := .user y) (vec_user hy).1 (by rw [hyv]; exact hr)
      rw [hyv, set_set] at this
      have hM' : v.setData MX vy = v.setData v.glm.X vy := by rw [hM]
      unfold Heap.setData Heap.flag
      rw [hM']
      dsimp only at this
      generalize (h.setGlm g { G with X := .user X }).setResponse G.loss (.user y) = z at this ⊢
      obtain ⟨z1, z2⟩ := z
      obtain ⟨rfl, hz⟩ := this
      exact ⟨rfl, hz⟩
  -- setResponse
  · change (h.withGlm g _).1 = (s.withGlm g _).1 ∧ Sim (h.withGlm g _).2 (s.withGlm g _).2
    unfold Heap.withGlm GlmWorld.withGlm
    rcases R.cases g with ⟨h1, h2⟩ | ⟨G, v, L, l, h1, h2, hl, d⟩
    · rw [h1, h2]; exact ⟨rfl, R⟩
    · rw [h1, h2]
      dsimp only
      have hfv := fun w => hf v w h2
      rw [← R.vecs] at *
      rcases hy : h.uvecs[y]? with _ | vy
      · simp only [hasArray_none hy, Bool.false_eq_true, if_false]
        exact ⟨trivial, R⟩
      have hr := hfv vy hy
      simp only [hasArray_some hy, if_true, hr, if_false]
      have R1 := R.setAttr (G' := { G with X := G.X }) h1 rfl d
      have hlen : g < h.glms.length := by
        by_contra hc
        rw [List.getElem?_eq_none (not_lt.1 hc)] at h1; cases h1
      have hG1 : (h.setGlm g { G with X := G.X }).glms[g]? = some { G with X := G.X } := List.getElem?_set_self hlen
      have hyv : (h.setGlm g { G with X := G.X }).vec (.user y) = vy := (vec_user hy).2
      have := setResponse_sim R1 hG1 hl (d.ext (ext_setGlm _ _ _)) (y := .user y) (vec_user hy).1 (by rw [hyv]; exact hr)
      rw [hyv, set_set] at this
      unfold Heap.setData Heap.flag
      generalize (h.setGlm g { G with X := G.X }).setResponse G.loss (.user y) = z at this ⊢
      obtain ⟨z1, z2⟩ := z
      obtain ⟨rfl, hz⟩ := this
      exact ⟨rfl, hz⟩
  -- setWeights
  · change (h.withGlm g _).1 = (s.withGlm g _).1 ∧ Sim (h.withGlm g _).2 (s.withGlm g _).2
    unfold Heap.withGlm GlmWorld.withGlm
    rcases R.cases g with ⟨h1, h2⟩ | ⟨G, v, L, l, h1, h2, hl, d⟩
    · rw [h1, h2]; exact ⟨rfl, R⟩
    · rw [h1, h2]
      dsimp only
      rw [← R.vecs] at *
      rcases hy : h.uvecs[w]? with _ | vy
      · simp only [hasArray_none hy, Bool.false_eq_true, if_false]
        exact ⟨trivial, R⟩
      simp only [hasArray_some hy, if_true]
      exact ⟨trivial, R.setAttr h1 rfl (L := L) { d with vcw := (vec_user hy).1, cw := (vec_user hy).2 }⟩
  -- setCoef
  · change (h.withGlm g _).1 = (s.withGlm g _).1 ∧ Sim (h.withGlm g _).2 (s.withGlm g _).2
    unfold Heap.withGlm GlmWorld.withGlm
    rcases R.cases g with ⟨h1, h2⟩ | ⟨G, v, L, l, h1, h2, hl, d⟩
    · rw [h1, h2]; exact ⟨rfl, R⟩
    · rw [h1, h2]
      exact ⟨rfl, R.setAttr h1 rfl (L := L) { d with coef := rfl }⟩
  -- setLossCoef
  · change (h.withGlm g _).1 = (s.withGlm g _).1 ∧ Sim (h.withGlm g _).2 (s.withGlm g _).2
    unfold Heap.withGlm GlmWorld.withGlm
    rcases R.cases g with ⟨h1, h2⟩ | ⟨G, v, L, l, h1, h2, hl, d⟩
    · rw [h1, h2]; exact ⟨rfl, R⟩
    · rw [h1, h2]
      dsimp only
      rw [d.loss]
      refine ⟨rfl, ?_⟩
      dsimp only
      rw [hl]
      refine R.setLossAttr (L := L) h1 hl ?_
      have hL' : h.loss (.own l) = some L := by rw [← hl]; exact d.loss
      exact {
        loss := by rw [hl]; exact loss_set_self h hL'
        own := d.own
        vresp := (validV_setLoss _ _ _ _).2 d.vresp
        vcw := (validV_setLoss _ _ _ _).2 d.vcw
        vX := (validM_setLoss _ _ _ _).2 d.vX
        vtX := (validM_setLoss _ _ _ _).2 d.vtX
        X := (mat_setLoss _ _ _ _).trans d.X
        tX := (mat_setLoss _ _ _ _).trans d.tX
        data := by rw [vec_setLoss]; exact d.data
        coefL := rfl
        offL := d.offL
        ownV := d.ownV
        cw := (vec_setLoss _ _ _ _).trans d.cw
        coef := d.coef
        offset := d.offset
        quad := d.quad }
  -- setOffset
  · change (h.withGlm g _).1 = (s.withGlm g _).1 ∧ Sim (h.withGlm g _).2 (s.withGlm g _).2
    unfold Heap.withGlm GlmWorld.withGlm
    rcases R.cases g with ⟨h1, h2⟩ | ⟨G, v, L, l, h1, h2, hl, d⟩
    · rw [h1, h2]; exact ⟨rfl, R⟩
    · rw [h1, h2]
      exact ⟨rfl, R.setAttr h1 rfl (L := L) { d with offset := rfl }⟩
  -- setQuad
  · change (h.withGlm g _).1 = (s.withGlm g _).1 ∧ Sim (h.withGlm g _).2 (s.withGlm g _).2
    unfold Heap.withGlm GlmWorld.withGlm
    rcases R.cases g with ⟨h1, h2⟩ | ⟨G, v, L, l, h1, h2, hl, d⟩
    · rw [h1, h2]; exact ⟨rfl, R⟩
    · rw [h1, h2]
      exact ⟨rfl, R.setAttr h1 rfl (L := L) { d with quad := rfl }⟩
  -- shareWeights
  · change (h.withGlm g _).1 = (s.withGlm g _).1 ∧ Sim (h.withGlm g _).2 (s.withGlm g _).2
    unfold Heap.withGlm GlmWorld.withGlm
    rcases R.cases g with ⟨h1, h2⟩ | ⟨G, v, L, l, h1, h2, hl, d⟩
    · rw [h1, h2]; exact ⟨rfl, R⟩
    · rw [h1, h2]
      dsimp only
      rcases R.cases g2 with ⟨h3, h4⟩ | ⟨G2, v2, L2, l2, h3, h4, hl2, d2⟩
      · rw [h3, h4]; exact ⟨rfl, R⟩
      · rw [h3, h4]
        exact ⟨rfl, R.setAttr h1 rfl (L := L) { d with vcw := d2.vcw, cw := d2.cw }⟩
  · exact hf.elim
  · exact hf.elim
  · exact hf.elim
  · exact hf.elim

theorem sim_run {h : Heap p n} {s : GlmWorld p n} (R : Sim h s) (ops : List (Op p n)) (hf : s.FairRun ops) :
    (h.run ops).1 = (s.run ops).1 ∧ Sim (h.run ops).2 (s.run ops).2 := by
  induction ops generalizing h s with
  | nil => exact ⟨rfl, R⟩
  | cons op ops ih =>
    obtain ⟨h1, h2⟩ := hf
    have hs := sim_step R op h1
    have := ih hs.2 h2
    unfold Heap.run GlmWorld.run
    exact ⟨by rw [hs.1, this.1], this.2⟩

lemma sim_empty : Sim (Heap.empty : Heap p n) GlmWorld.empty where
  mats := rfl
  vecs := rfl
  len := rfl
  den := by intro k G v hG; simp [Heap.empty] at hG
  inj := by intro j k G G' hG; simp [Heap.empty] at hG

end
end Verif.Lemmas.GlmHeap
