import Verif.Lemmas.GlmHeap

set_option linter.unusedSectionVars false
set_option linter.unusedVariables false

/-! Lemmas for C98: what statements that do not name an object can reach. -/

namespace Verif.Lemmas.GlmHeap
open Verif.Model Verif.Model.GlmHeap Verif.Spec

noncomputable section
variable {p n : ℕ}

/-- a reference to one of the first cells -/
def In (nu ni : ℕ) : Ref → Prop
  | .user k => k < nu
  | .own k => k < ni

/-- references that may be held and written, given the numbers of cells in use -/
structure Policy where
  i0 : ℕ
  P : ℕ → ℕ → Ref → Prop
  fresh : ∀ nu ni, i0 ≤ ni → P nu (ni + 1) (.own ni)
  mono : ∀ {nu ni nu' ni' r}, nu ≤ nu' → ni ≤ ni' → P nu ni r → P nu' ni' r
  anti : ∀ {nu ni nu' ni' r}, nu ≤ nu' → ni ≤ ni' → In nu ni r → P nu' ni' r → P nu ni r

/-- a policy for arrays, designs, losses, and the objects that may not be named -/
structure Rules where
  V : Policy
  M : Policy
  L : Policy
  ex : ℕ → Prop

/-- may this array be held -/
def Rules.v (ρ : Rules) (h : Heap p n) : Ref → Prop := ρ.V.P h.uvecs.length h.ivecs.length
/-- may this design be held -/
def Rules.m (ρ : Rules) (h : Heap p n) : Ref → Prop := ρ.M.P h.umats.length h.imats.length
/-- may this loss be held -/
def Rules.l (ρ : Rules) (h : Heap p n) : Ref → Prop := ρ.L.P h.ulosses.length h.ilosses.length

/-- the cell exists -/
def inV (h : Heap p n) : Ref → Prop := In h.uvecs.length h.ivecs.length
/-- the cell exists -/
def inM (h : Heap p n) : Ref → Prop := In h.umats.length h.imats.length
/-- the cell exists -/
def inL (h : Heap p n) : Ref → Prop := In h.ulosses.length h.ilosses.length

variable (ρ : Rules)

/-- an object that follows the rules -/
def OkGlm (h : Heap p n) (G : GlmObj p n) : Prop :=
  ρ.v h G.cw ∧ ρ.m h G.X ∧ ρ.m h G.tX ∧ ρ.l h G.loss

/-- a loss that follows the rules -/
def OkLoss (h : Heap p n) (L : SatObj n) : Prop := ρ.v h L.resp ∧ ∀ w, L.own = some w → ρ.v h w

/-- every object that may be named follows the rules -/
structure Good (h : Heap p n) : Prop where
  baseV : ρ.V.i0 ≤ h.ivecs.length
  baseM : ρ.M.i0 ≤ h.imats.length
  baseL : ρ.L.i0 ≤ h.ilosses.length
  glm : ∀ (j : ℕ) (G : GlmObj p n), ¬ ρ.ex j → h.glms[j]? = some G → OkGlm ρ h G
  loss : ∀ (r : Ref) (L : SatObj n), ρ.l h r → h.loss r = some L → OkLoss ρ h L

/-- what the rules protect is as before -/
structure Frame (h h' : Heap p n) : Prop where
  uv : h.uvecs.length ≤ h'.uvecs.length
  um : h.umats.length ≤ h'.umats.length
  ul : h.ulosses.length ≤ h'.ulosses.length
  nv : h.ivecs.length ≤ h'.ivecs.length
  nm : h.imats.length ≤ h'.imats.length
  nl : h.ilosses.length ≤ h'.ilosses.length
  ng : h.glms.length ≤ h'.glms.length
  vec : ∀ r, inV h r → ¬ ρ.v h r → h'.vec r = h.vec r
  mat : ∀ r, inM h r → ¬ ρ.m h r → h'.mat r = h.mat r
  loss : ∀ r, inL h r → ¬ ρ.l h r → h'.loss r = h.loss r
  glm : ∀ j, j < h.glms.length → ρ.ex j → h'.glms[j]? = h.glms[j]?

/-- rules kept and protected things unchanged -/
structure Keeps (h h' : Heap p n) : Prop where
  good : Good ρ h'
  frame : Frame ρ h h'

variable {ρ}

lemma Frame.refl (h : Heap p n) : Frame ρ h h :=
  ⟨le_refl _, le_refl _, le_refl _, le_refl _, le_refl _, le_refl _, le_refl _, fun _ _ _ => rfl, fun _ _ _ => rfl,
    fun _ _ _ => rfl, fun _ _ _ => rfl⟩

lemma In.grow {nu ni nu' ni' : ℕ} {r : Ref} (h1 : nu ≤ nu') (h2 : ni ≤ ni') (hr : In nu ni r) : In nu' ni' r := by
  cases r with
  | user k => exact lt_of_lt_of_le hr h1
  | own k => exact lt_of_lt_of_le hr h2

lemma Frame.trans {h1 h2 h3 : Heap p n} (a : Frame ρ h1 h2) (b : Frame ρ h2 h3) : Frame ρ h1 h3 where
  uv := a.uv.trans b.uv
  um := a.um.trans b.um
  ul := a.ul.trans b.ul
  nv := a.nv.trans b.nv
  nm := a.nm.trans b.nm
  nl := a.nl.trans b.nl
  ng := a.ng.trans b.ng
  vec := fun r hr hn => (b.vec r (In.grow a.uv a.nv hr) fun hh => hn (ρ.V.anti a.uv a.nv hr hh)).trans (a.vec r hr hn)
  mat := fun r hr hn => (b.mat r (In.grow a.um a.nm hr) fun hh => hn (ρ.M.anti a.um a.nm hr hh)).trans (a.mat r hr hn)
  loss := fun r hr hn => (b.loss r (In.grow a.ul a.nl hr) fun hh => hn (ρ.L.anti a.ul a.nl hr hh)).trans (a.loss r hr hn)
  glm := fun j hj hx => (b.glm j (lt_of_lt_of_le hj a.ng) hx).trans (a.glm j hj hx)

lemma Keeps.refl {h : Heap p n} (g : Good ρ h) : Keeps ρ h h := ⟨g, Frame.refl h⟩

lemma Keeps.trans {h1 h2 h3 : Heap p n} (a : Keeps ρ h1 h2) (b : Keeps ρ h2 h3) : Keeps ρ h1 h3 :=
  ⟨b.good, a.frame.trans b.frame⟩

lemma Frame.v {h h' : Heap p n} (f : Frame ρ h h') {r : Ref} (hr : ρ.v h r) : ρ.v h' r := ρ.V.mono f.uv f.nv hr
lemma Frame.m {h h' : Heap p n} (f : Frame ρ h h') {r : Ref} (hr : ρ.m h r) : ρ.m h' r := ρ.M.mono f.um f.nm hr
lemma Frame.l {h h' : Heap p n} (f : Frame ρ h h') {r : Ref} (hr : ρ.l h r) : ρ.l h' r := ρ.L.mono f.ul f.nl hr

lemma OkGlm.grow {h h' : Heap p n} {G : GlmObj p n} (ok : OkGlm ρ h G) (f : Frame ρ h h') : OkGlm ρ h' G :=
  ⟨f.v ok.1, f.m ok.2.1, f.m ok.2.2.1, f.l ok.2.2.2⟩

lemma OkLoss.grow {h h' : Heap p n} {L : SatObj n} (ok : OkLoss ρ h L) (f : Frame ρ h h') : OkLoss ρ h' L :=
  ⟨f.v ok.1, fun w hw => f.v (ok.2 w hw)⟩

/-- assemble -/
lemma Keeps.mk' {h h' : Heap p n} (g : Good ρ h) (f : Frame ρ h h')
    (hg : ∀ (j : ℕ) (G : GlmObj p n), ¬ ρ.ex j → h'.glms[j]? = some G → h.glms[j]? = some G ∨ OkGlm ρ h G)
    (hl : ∀ (r : Ref) (L : SatObj n), ρ.l h' r → h'.loss r = some L → (ρ.l h r ∧ h.loss r = some L) ∨ OkLoss ρ h L) :
    Keeps ρ h h' := by
  refine ⟨⟨g.baseV.trans f.nv, g.baseM.trans f.nm, g.baseL.trans f.nl, fun j G hx hG => ?_, fun r L hr hL => ?_⟩, f⟩
  · rcases hg j G hx hG with h1 | h1
    · exact (g.glm j G hx h1).grow f
    · exact h1.grow f
  · rcases hl r L hr hL with ⟨h0, h1⟩ | h1
    · exact (g.loss r L h0 h1).grow f
    · exact h1.grow f

lemma keeps_allocVec {h : Heap p n} (g : Good ρ h) (v : Fin n → ℝ) : Keeps ρ h (h.allocVec v).2 := by
  refine Keeps.mk' g ?_ (fun j G _ hG => Or.inl hG) (fun r L hr hL => Or.inl ⟨hr, by cases r <;> exact hL⟩)
  refine ⟨le_refl _, le_refl _, le_refl _, by simp [Heap.allocVec], le_refl _, le_refl _, le_refl _, ?_,
    fun r _ _ => by cases r <;> rfl, fun r _ _ => by cases r <;> rfl, fun _ _ _ => rfl⟩
  intro r hr _
  cases r with
  | user k => rfl
  | own k => exact getD_append _ _ _ hr

lemma ok_allocVec {h : Heap p n} (g : Good ρ h) (v : Fin n → ℝ) : ρ.v (h.allocVec v).2 (h.allocVec v).1 := by
  have := ρ.V.fresh h.uvecs.length h.ivecs.length g.baseV
  simpa [Heap.allocVec, Rules.v] using this

lemma keeps_allocMat {h : Heap p n} (g : Good ρ h) (v : Fin n → Fin p → ℝ) : Keeps ρ h (h.allocMat v).2 := by
  refine Keeps.mk' g ?_ (fun j G _ hG => Or.inl hG) (fun r L hr hL => Or.inl ⟨hr, by cases r <;> exact hL⟩)
  refine ⟨le_refl _, le_refl _, le_refl _, le_refl _, by simp [Heap.allocMat], le_refl _, le_refl _,
    fun r _ _ => by cases r <;> rfl, ?_, fun r _ _ => by cases r <;> rfl, fun _ _ _ => rfl⟩
  intro r hr _
  cases r with
  | user k => rfl
  | own k => exact getD_append _ _ _ hr

lemma ok_allocMat {h : Heap p n} (g : Good ρ h) (v : Fin n → Fin p → ℝ) : ρ.m (h.allocMat v).2 (h.allocMat v).1 := by
  have := ρ.M.fresh h.umats.length h.imats.length g.baseM
  simpa [Heap.allocMat, Rules.m] using this

lemma getElem?_append_cases {α : Type*} {l : List α} {a b : α} {k : ℕ} (h : (l ++ [a])[k]? = some b) :
    (k < l.length ∧ l[k]? = some b) ∨ (k = l.length ∧ b = a) := by
  by_cases hk : k < l.length
  · left
    rw [List.getElem?_append_left hk] at h
    exact ⟨hk, h⟩
  · right
    by_cases hk2 : k = l.length
    · subst hk2
      simp at h
      exact ⟨rfl, h.symm⟩
    · rw [List.getElem?_eq_none (by simp; omega)] at h
      cases h

lemma keeps_allocLoss {h : Heap p n} (g : Good ρ h) {L : SatObj n} (hL : OkLoss ρ h L) : Keeps ρ h (h.allocLoss L).2 := by
  have f : Frame ρ h (h.allocLoss L).2 := by
    refine ⟨le_refl _, le_refl _, le_refl _, le_refl _, le_refl _, by simp [Heap.allocLoss], le_refl _,
      fun r _ _ => by cases r <;> rfl, fun r _ _ => by cases r <;> rfl, ?_, fun _ _ _ => rfl⟩
    intro r hr _
    cases r with
    | user k => rfl
    | own k => exact List.getElem?_append_left hr
  refine Keeps.mk' g f (fun j G _ hG => Or.inl hG) (fun r L' hr hL' => ?_)
  cases r with
  | user k =>
    have hk : k < h.ulosses.length := (List.getElem?_eq_some_iff.1 hL').1
    exact Or.inl ⟨ρ.L.anti f.ul f.nl (r := .user k) hk hr, hL'⟩
  | own k =>
    rcases getElem?_append_cases (show (h.ilosses ++ [L])[k]? = some L' from hL') with ⟨hk, h1⟩ | ⟨_, h1⟩
    · exact Or.inl ⟨ρ.L.anti f.ul f.nl (r := .own k) hk hr, h1⟩
    · rw [h1]; exact Or.inr hL

lemma ok_allocLoss {h : Heap p n} (g : Good ρ h) (v : SatObj n) : ρ.l (h.allocLoss v).2 (h.allocLoss v).1 := by
  have := ρ.L.fresh h.ulosses.length h.ilosses.length g.baseL
  simpa [Heap.allocLoss, Rules.l] using this

lemma vec_write_other {h : Heap p n} {r r' : Ref} (hr : r' ≠ r) (u : Fin n → ℝ) : (h.writeVec r u).vec r' = h.vec r' := by
  cases r with
  | user k => cases r' with
    | own _ => rfl
    | user k' =>
      change (h.uvecs.set k u).getD k' 0 = h.uvecs.getD k' 0
      rw [List.getD_eq_getElem?_getD, List.getD_eq_getElem?_getD, List.getElem?_set_ne (fun e => hr (by rw [e]))]
  | own k => exact vec_write_ne hr u

lemma mat_write_other {h : Heap p n} {r r' : Ref} (hr : r' ≠ r) (u : Fin n → Fin p → ℝ) : (h.writeMat r u).mat r' = h.mat r' := by
  cases r with
  | user k => cases r' with
    | own _ => rfl
    | user k' =>
      change (h.umats.set k u).getD k' 0 = h.umats.getD k' 0
      rw [List.getD_eq_getElem?_getD, List.getD_eq_getElem?_getD, List.getElem?_set_ne (fun e => hr (by rw [e]))]
  | own k => cases r' with
    | user _ => rfl
    | own k' =>
      change (h.imats.set k u).getD k' 0 = h.imats.getD k' 0
      rw [List.getD_eq_getElem?_getD, List.getD_eq_getElem?_getD, List.getElem?_set_ne (fun e => hr (by rw [e]))]

lemma loss_set_other {h : Heap p n} {r r' : Ref} (hr : r' ≠ r) (u : SatObj n) : (h.setLoss r u).loss r' = h.loss r' := by
  cases r with
  | user k => cases r' with
    | own _ => rfl
    | user k' =>
      change (h.ulosses.set k u)[k']? = h.ulosses[k']?
      rw [List.getElem?_set_ne (fun e => hr (by rw [e]))]
  | own k => exact loss_set_ne h u hr

lemma keeps_writeVec {h : Heap p n} (g : Good ρ h) {r : Ref} (hr : inV h r → ρ.v h r) (v : Fin n → ℝ) :
    Keeps ρ h (h.writeVec r v) := by
  have f : Frame ρ h (h.writeVec r v) := by
    refine ⟨?_, ?_, ?_, ?_, ?_, ?_, ?_, ?_, ?_, ?_, ?_⟩
    · cases r <;> simp [Heap.writeVec]
    · cases r <;> simp [Heap.writeVec]
    · cases r <;> simp [Heap.writeVec]
    · cases r <;> simp [Heap.writeVec]
    · cases r <;> simp [Heap.writeVec]
    · cases r <;> simp [Heap.writeVec]
    · cases r <;> simp [Heap.writeVec]
    · intro r' hr' hn
      exact vec_write_other (fun e => by subst e; exact hn (hr hr')) v
    · intro r' _ _; cases r <;> cases r' <;> rfl
    · intro r' _ _; cases r <;> cases r' <;> rfl
    · intro j _ _; cases r <;> rfl
  refine Keeps.mk' g f (fun j G _ hG => Or.inl (by cases r <;> exact hG)) (fun r' L hr' hL => Or.inl ⟨?_, ?_⟩)
  · cases r <;> exact hr'
  · cases r <;> cases r' <;> exact hL

lemma keeps_writeMat {h : Heap p n} (g : Good ρ h) {r : Ref} (hr : inM h r → ρ.m h r) (v : Fin n → Fin p → ℝ) :
    Keeps ρ h (h.writeMat r v) := by
  have f : Frame ρ h (h.writeMat r v) := by
    refine ⟨?_, ?_, ?_, ?_, ?_, ?_, ?_, ?_, ?_, ?_, ?_⟩
    · cases r <;> simp [Heap.writeMat]
    · cases r <;> simp [Heap.writeMat]
    · cases r <;> simp [Heap.writeMat]
    · cases r <;> simp [Heap.writeMat]
    · cases r <;> simp [Heap.writeMat]
    · cases r <;> simp [Heap.writeMat]
    · cases r <;> simp [Heap.writeMat]
    · intro r' _ _; cases r <;> cases r' <;> rfl
    · intro r' hr' hn
      exact mat_write_other (fun e => by subst e; exact hn (hr hr')) v
    · intro r' _ _; cases r <;> cases r' <;> rfl
    · intro j _ _; cases r <;> rfl
  refine Keeps.mk' g f (fun j G _ hG => Or.inl (by cases r <;> exact hG)) (fun r' L hr' hL => Or.inl ⟨?_, ?_⟩)
  · cases r <;> exact hr'
  · cases r <;> cases r' <;> exact hL

lemma keeps_setLoss {h : Heap p n} (g : Good ρ h) {r : Ref} (hr : ρ.l h r) {L : SatObj n}
    (hL : OkLoss ρ h L) : Keeps ρ h (h.setLoss r L) := by
  have f : Frame ρ h (h.setLoss r L) := by
    refine ⟨?_, ?_, ?_, ?_, ?_, ?_, ?_, ?_, ?_, ?_, ?_⟩
    · cases r <;> simp [Heap.setLoss]
    · cases r <;> simp [Heap.setLoss]
    · cases r <;> simp [Heap.setLoss]
    · cases r <;> simp [Heap.setLoss]
    · cases r <;> simp [Heap.setLoss]
    · cases r <;> simp [Heap.setLoss]
    · cases r <;> simp [Heap.setLoss]
    · intro r' _ _; cases r <;> cases r' <;> rfl
    · intro r' _ _; cases r <;> cases r' <;> rfl
    · intro r' hr' hn
      exact loss_set_other (fun e => by subst e; exact hn hr) L
    · intro j _ _; cases r <;> rfl
  refine Keeps.mk' g f (fun j G _ hG => Or.inl (by cases r <;> exact hG)) (fun r' L' hr' hL' => ?_)
  by_cases he : r' = r
  · subst he
    right
    have : L' = L := by
      cases r' with
      | user k =>
        have h1 : (h.ulosses.set k L)[k]? = some L' := hL'
        rw [List.getElem?_set] at h1
        split_ifs at h1 <;> simp_all
      | own k =>
        have h1 : (h.ilosses.set k L)[k]? = some L' := hL'
        rw [List.getElem?_set] at h1
        split_ifs at h1 <;> simp_all
    rw [this]; exact hL
  · left
    rw [loss_set_other he] at hL'
    refine ⟨?_, hL'⟩
    cases r with
    | user k => simpa [Heap.setLoss, Rules.l] using hr'
    | own k => simpa [Heap.setLoss, Rules.l] using hr'

lemma keeps_setGlm {h : Heap p n} (g : Good ρ h) {j : ℕ} (hj : ¬ ρ.ex j) {G : GlmObj p n} (hG : OkGlm ρ h G) :
    Keeps ρ h (h.setGlm j G) := by
  have f : Frame ρ h (h.setGlm j G) := by
    refine ⟨le_refl _, le_refl _, le_refl _, le_refl _, le_refl _, le_refl _, by simp [Heap.setGlm],
      fun r _ _ => by cases r <;> rfl, fun r _ _ => by cases r <;> rfl, fun r _ _ => by cases r <;> rfl, ?_⟩
    intro i hi hx
    exact List.getElem?_set_ne (fun e => hj (by rw [e]; exact hx))
  refine Keeps.mk' g f (fun i G' hx hG' => ?_) (fun r L hr hL => Or.inl ⟨hr, by cases r <;> exact hL⟩)
  have h1 : (h.glms.set j G)[i]? = some G' := hG'
  rw [List.getElem?_set] at h1
  split_ifs at h1
  · cases h1; exact Or.inr hG
  · exact Or.inl h1

lemma keeps_pushGlm {h : Heap p n} (g : Good ρ h) {G : GlmObj p n} (hG : OkGlm ρ h G) : Keeps ρ h (h.pushGlm G) := by
  have f : Frame ρ h (h.pushGlm G) := by
    refine ⟨le_refl _, le_refl _, le_refl _, le_refl _, le_refl _, le_refl _, by simp [Heap.pushGlm],
      fun r _ _ => by cases r <;> rfl, fun r _ _ => by cases r <;> rfl, fun r _ _ => by cases r <;> rfl, ?_⟩
    intro i hi hx
    exact List.getElem?_append_left hi
  refine Keeps.mk' g f (fun i G' hx hG' => ?_) (fun r L hr hL => Or.inl ⟨hr, by cases r <;> exact hL⟩)
  rcases getElem?_append_cases (show (h.glms ++ [G])[i]? = some G' from hG') with ⟨_, h1⟩ | ⟨_, h1⟩
  · exact Or.inl h1
  · rw [h1]; exact Or.inr hG

/-! ### the library functions -/

lemma keeps_setResponse {h : Heap p n} (g : Good ρ h) {ℓ y : Ref} (hℓ : ρ.l h ℓ)
    (hy : ρ.v h y) : Keeps ρ h (h.setResponse ℓ y).1 := by
  classical
  unfold Heap.setResponse
  rcases hL : h.loss ℓ with _ | L
  · exact Keeps.refl g
  have ok := g.loss ℓ L hℓ hL
  dsimp only
  have plain : Keeps ρ h (h.setLoss ℓ { L with resp := y }) := keeps_setLoss g hℓ ⟨hy, ok.2⟩
  rcases hcls : L.cls with _ | _ | eps | t | eps
  · rw [hcls] at plain; exact plain
  · rw [hcls] at plain; exact plain
  · rw [hcls] at plain; exact plain
  · have k1 := keeps_allocVec g (h.vec y)
    have k2 := keeps_setLoss (ρ := ρ) k1.good (r := ℓ) hℓ (L := { L with resp := (h.allocVec (h.vec y)).1 })
      ⟨ok_allocVec g _, (ok.grow k1.frame).2⟩
    rw [hcls] at k2
    exact k1.trans k2
  · rw [hcls] at plain; exact plain

lemma keeps_foldWeights {h : Heap p n} (g : Good ρ h) {G : GlmObj p n} (L : SatObj n) (hG : OkGlm ρ h G) :
    Keeps ρ h (h.foldWeights G L) := by
  unfold Heap.foldWeights
  cases L.own with
  | none => exact Keeps.refl g
  | some w => exact keeps_writeVec g (fun _ => hG.1) _

lemma keeps_smooth {h : Heap p n} (g : Good ρ h) {G : GlmObj p n} (hG : OkGlm ρ h G) (β : Fin p → ℝ) (m : Mode) :
    Keeps ρ h (h.smoothObjective G β m).2 := by
  unfold Heap.smoothObjective
  rcases h.loss G.loss with _ | L
  · exact Keeps.refl g
  dsimp only
  have k := keeps_foldWeights g L hG
  split <;> exact k

lemma keeps_hess {h : Heap p n} (g : Good ρ h) {G : GlmObj p n} (hG : OkGlm ρ h G) (β : Fin p → ℝ) :
    Keeps ρ h (h.hessian G β).2 := by
  unfold Heap.hessian
  rcases h.loss G.loss with _ | L
  · exact Keeps.refl g
  dsimp only
  split
  · exact keeps_foldWeights g L hG
  · exact Keeps.refl g

/-- `copy` only makes new things; the object it appends holds only new references -/
lemma keeps_copy {h : Heap p n} (g : Good ρ h) (G : GlmObj p n) {h' : Heap p n} (hc : h.copy G = some h') :
    Keeps ρ h h' ∧ ∃ C, h'.glms = h.glms ++ [C] ∧ OkGlm ρ h' C := by
  classical
  unfold Heap.copy at hc
  rcases hL : h.loss G.loss with _ | L
  · rw [hL] at hc; cases hc
  rw [hL] at hc
  dsimp only at hc
  generalize (if Heap.LossClass.passesWeights L.cls then L.own else none) = own at hc
  split at hc
  · cases hc
  split_ifs at hc with hw
  have k1 := keeps_allocMat g (h.mat G.X)
  have k2 := k1.trans (keeps_allocVec k1.good (h.vec L.resp))
  have k3 := k2.trans (keeps_allocVec k2.good (h.vec G.cw))
  have oX := ok_allocMat g (h.mat G.X)
  have oY := ok_allocVec k1.good (h.vec L.resp)
  have oW := ok_allocVec k2.good (h.vec G.cw)
  set a1 := (h.allocMat (h.mat G.X)).2 with ha1
  set a2 := (a1.allocVec (h.vec L.resp)).2 with ha2
  set a3 := (a2.allocVec (h.vec G.cw)).2 with ha3
  have f13 : Frame ρ a1 a3 := (keeps_allocVec k1.good _).frame.trans (keeps_allocVec k2.good _).frame
  have fin : ∀ (a4 : Heap p n) (o : Option Ref), Keeps ρ a3 a4 → a4.glms = h.glms →
      (∀ w, o = some w → ρ.v a4 w) → Frame ρ a1 a4 →
      h' = ((a4.allocLoss { L with resp := (a1.allocVec (h.vec L.resp)).1, own := o }).2.pushGlm
        { X := (h.allocMat (h.mat G.X)).1, tX := (h.allocMat (h.mat G.X)).1,
          loss := (a4.allocLoss { L with resp := (a1.allocVec (h.vec L.resp)).1, own := o }).1, cw := (a2.allocVec (h.vec G.cw)).1,
          coef := 1, offset := G.offset, quad := G.quad }) →
      Keeps ρ h h' ∧ ∃ C, h'.glms = h.glms ++ [C] ∧ OkGlm ρ h' C := by
    intro a4 o k4 hg4 ho hm4 e
    have okL : OkLoss ρ a4 { L with resp := (a1.allocVec (h.vec L.resp)).1, own := o } :=
      ⟨k4.frame.v ((keeps_allocVec k2.good (h.vec G.cw)).frame.v oY), ho⟩
    have k5 := keeps_allocLoss k4.good okL
    have k35 := k4.trans k5
    have okC : OkGlm ρ (a4.allocLoss { L with resp := (a1.allocVec (h.vec L.resp)).1, own := o }).2
        { X := (h.allocMat (h.mat G.X)).1, tX := (h.allocMat (h.mat G.X)).1,
          loss := (a4.allocLoss { L with resp := (a1.allocVec (h.vec L.resp)).1, own := o }).1, cw := (a2.allocVec (h.vec G.cw)).1,
          coef := 1, offset := G.offset, quad := G.quad } := by
      exact ⟨k35.frame.v oW, k5.frame.m (hm4.m oX), k5.frame.m (hm4.m oX), ok_allocLoss k4.good _⟩
    have k6 := keeps_pushGlm k5.good okC
    rw [e]
    refine ⟨(k3.trans k35).trans k6, _, ?_, okC.grow k6.frame⟩
    change a4.glms ++ _ = h.glms ++ _
    rw [hg4]
  cases own with
  | none =>
    exact fin a3 none (Keeps.refl k3.good) rfl (fun w hw' => by cases hw') f13 (Option.some.inj hc).symm
  | some r =>
    exact fin (a3.allocVec (h.vec r)).2 (some (a3.allocVec (h.vec r)).1) (keeps_allocVec k3.good _) rfl
      (fun w hw' => by cases hw'; exact ok_allocVec k3.good _)
      (f13.trans (keeps_allocVec k3.good _).frame) (Option.some.inj hc).symm

lemma keeps_subsample {h : Heap p n} (g : Good ρ h) (G : GlmObj p n) (idx : Finset (Fin n)) {h' : Heap p n}
    (hc : h.subsample G idx = some h') : Keeps ρ h h' := by
  classical
  unfold Heap.subsample at hc
  rcases h1 : h.copy G with _ | a
  · rw [h1] at hc; cases hc
  rw [h1] at hc
  obtain ⟨k, C, hC, ok⟩ := keeps_copy g G h1
  dsimp only at hc
  rw [hC, List.getLast?_concat] at hc
  have hc := Option.some.inj hc
  rw [← hc]
  exact k.trans (keeps_writeVec k.good (fun _ => ok.1) _)

lemma keeps_newLoss {h : Heap p n} (g : Good ρ h) (cls : LossClass n) {y : Ref} (hy : ρ.v h y) (coef : ℝ)
    (off : Option (Fin n → ℝ)) {w : Option Ref} (hw : ∀ r, w = some r → ρ.v h r) {L : SatObj n} {h1 : Heap p n}
    (hn : h.newLoss cls y coef off w = some (L, h1)) : Keeps ρ h h1 ∧ OkLoss ρ h1 L ∧ h1.ulosses = h.ulosses := by
  unfold Heap.newLoss at hn
  split at hn
  · cases hn
  have k1 := keeps_allocVec g (h.vec y)
  rcases cls with _ | _ | eps | t | eps
  · cases Option.some.inj hn; exact ⟨Keeps.refl g, ⟨hy, hw⟩, rfl⟩
  · cases Option.some.inj hn; exact ⟨Keeps.refl g, ⟨hy, hw⟩, rfl⟩
  · cases Option.some.inj hn; exact ⟨Keeps.refl g, ⟨hy, hw⟩, rfl⟩
  · cases Option.some.inj hn
    exact ⟨k1, ⟨ok_allocVec g _, fun r hr => k1.frame.v (hw r hr)⟩, rfl⟩
  · cases Option.some.inj hn; exact ⟨Keeps.refl g, ⟨hy, hw⟩, rfl⟩

lemma keeps_newGlm {h : Heap p n} (g : Good ρ h) {X y ℓ : Ref} (hX : ρ.m h X) (hy : ρ.v h y)
    (hℓ : ρ.l h ℓ) {w : Option Ref} (hw : ∀ r, w = some r → ρ.v h r)
    (off : Option (Fin p → ℝ)) (quad : Quad (Fin p) ℝ) : Keeps ρ h (h.newGlm X y ℓ w off quad).1 := by
  classical
  unfold Heap.newGlm
  have k1 := keeps_setResponse g hℓ hy
  rcases hs : h.setResponse ℓ y with ⟨h1, b⟩
  rw [hs] at k1
  cases b with
  | true => exact k1
  | false =>
    dsimp only
    have fin : ∀ (r : Ref) (h2 : Heap p n), Keeps ρ h1 h2 → ρ.v h2 r →
        Keeps ρ h (if ¬ ∀ i, 0 ≤ h2.vec r i then (h2, true)
          else (h2.pushGlm { X := X, tX := X, loss := ℓ, cw := r, coef := 1, offset := off, quad := quad }, false)).1 := by
      intro r h2 k2 hr
      have k := k1.trans k2
      by_cases hneg : ¬ ∀ i, 0 ≤ h2.vec r i
      · rw [if_pos hneg]; exact k
      · rw [if_neg hneg]
        exact k.trans (keeps_pushGlm k.good ⟨hr, k.frame.m hX, k.frame.m hX, k.frame.l hℓ⟩)
    rcases w with _ | r
    · exact fin _ _ (keeps_allocVec k1.good _) (ok_allocVec k1.good _)
    · exact fin r h1 (Keeps.refl k1.good) (k1.frame.v (hw r rfl))

lemma keeps_build {h : Heap p n} (g : Good ρ h) (cls : LossClass n) {X y : Ref} (hX : ρ.m h X)
    (hy : ρ.v h y) (coef : ℝ) (soff : Option (Fin n → ℝ)) {w : Option Ref}
    (hw : ∀ r, w = some r → ρ.v h r) (off : Option (Fin p → ℝ)) (quad : Quad (Fin p) ℝ) :
    Keeps ρ h (h.buildGlm cls X y coef soff w off quad).1 := by
  unfold Heap.buildGlm
  rcases hn : h.newLoss cls y coef soff none with _ | ⟨L, h1⟩
  · exact Keeps.refl g
  obtain ⟨k1, okL, _⟩ := keeps_newLoss g cls hy coef soff (w := none) (fun _ hr => by cases hr) hn
  have k2 := k1.trans (keeps_allocLoss k1.good okL)
  dsimp only
  exact k2.trans (keeps_newGlm k2.good (k2.frame.m hX) (k2.frame.v hy) (ok_allocLoss k1.good _)
    (fun r hr => k2.frame.v (hw r hr)) off quad)

/-! ### statements -/

/-- every existing thing the statement names may be touched -/
structure Allowed (ρ : Rules) (h : Heap p n) (op : Op p n) : Prop where
  obj : ∀ j ∈ Op.objects op, ¬ ρ.ex j
  arr : ∀ k ∈ Op.arrays op, k < h.uvecs.length → ρ.v h (.user k)
  des : ∀ k ∈ Op.designs op, k < h.umats.length → ρ.m h (.user k)
  los : ∀ k ∈ Op.losses op, k < h.ulosses.length → ρ.l h (.user k)

lemma keeps_withGlm {h : Heap p n} (g : Good ρ h) {j : ℕ} (hj : ¬ ρ.ex j) (f : GlmObj p n → Obs p n × Heap p n)
    (hf : ∀ G, h.glms[j]? = some G → OkGlm ρ h G → Keeps ρ h (f G).2) : Keeps ρ h (h.withGlm j f).2 := by
  unfold Heap.withGlm
  rcases hG : h.glms[j]? with _ | G
  · exact Keeps.refl g
  · exact hf G hG (g.glm j G hj hG)

lemma keeps_flag {h : Heap p n} {x : Heap p n × Bool} (k : Keeps ρ h x.1) : Keeps ρ h (Heap.flag x).2 := k

lemma keeps_orRaise {h : Heap p n} (g : Good ρ h) {x : Option (Heap p n)} (k : ∀ h', x = some h' → Keeps ρ h h') :
    Keeps ρ h (h.orRaise x).2 := by
  cases x with
  | none => exact Keeps.refl g
  | some h' => exact k h' rfl

lemma user_map {h : Heap p n} (w : Option ℕ) (hw : h.hasArray w = true) (ha : ∀ k ∈ w.toList, k < h.uvecs.length → ρ.v h (.user k)) :
    ∀ r, w.map Ref.user = some r → ρ.v h r := by
  intro r hr
  cases w with
  | none => cases hr
  | some k => cases hr; exact ha k (by simp) (by simpa [Heap.hasArray] using hw)

lemma hasArray_lt {h : Heap p n} {k : ℕ} (hw : h.hasArray (some k) = true) : k < h.uvecs.length := by
  simpa [Heap.hasArray] using hw

theorem keeps_step {h : Heap p n} (g : Good ρ h) (op : Op p n) (al : Allowed ρ h op) :
    Keeps ρ h (h.step op).2 := by
  classical
  obtain ⟨ob, ar, de, lo⟩ := al
  rcases op with M | v | ⟨k, M⟩ | ⟨k, v⟩ | ⟨cls, y, coef, off, w⟩ | ⟨X, y, l, w, off, quad⟩ |
    ⟨cls, X, y, coef, soff, w, off, quad⟩ | j | ⟨j, idx⟩ | ⟨j, β, m⟩ | ⟨j, β⟩ | ⟨j, β⟩ | ⟨j, β⟩ | j | ⟨j, X, y⟩ | ⟨j, y⟩ |
    ⟨j, w⟩ | ⟨j, c⟩ | ⟨j, c⟩ | ⟨j, o⟩ | ⟨j, q⟩ | ⟨j, j2⟩ | ⟨j, j2⟩ | ⟨j, v⟩ | ⟨j, v⟩ | ⟨j, M⟩ <;>
    simp only [Op.objects, Op.arrays, Op.designs, Op.losses, List.mem_cons, List.not_mem_nil, or_false, forall_eq,
      forall_eq_or_imp, IsEmpty.forall_iff, implies_true] at ob ar de lo
  -- matrix, array
  · refine Keeps.mk' g ?_ (fun j G _ hG => Or.inl hG) (fun r L hr hL => Or.inl ⟨hr, by cases r <;> exact hL⟩)
    refine ⟨le_refl _, by simp [Heap.step], le_refl _, le_refl _, le_refl _, le_refl _, le_refl _, fun r _ _ => by cases r <;> rfl, ?_,
      fun r _ _ => by cases r <;> rfl, fun _ _ _ => rfl⟩
    intro r hr _
    cases r with
    | own k => rfl
    | user k => exact getD_append _ _ _ hr
  · refine Keeps.mk' g ?_ (fun j G _ hG => Or.inl hG) (fun r L hr hL => Or.inl ⟨hr, by cases r <;> exact hL⟩)
    refine ⟨by simp [Heap.step], le_refl _, le_refl _, le_refl _, le_refl _, le_refl _, le_refl _, ?_, fun r _ _ => by cases r <;> rfl,
      fun r _ _ => by cases r <;> rfl, fun _ _ _ => rfl⟩
    intro r hr _
    cases r with
    | own k => rfl
    | user k => exact getD_append _ _ _ hr
  · exact keeps_writeMat g (r := .user k) de M
  · exact keeps_writeVec g (r := .user k) ar v
  -- loss
  · unfold Heap.step
    dsimp only
    split_ifs with hh
    · rw [Bool.and_eq_true] at hh
      rcases hn : h.newLoss cls (.user y) coef off (w.map Ref.user) with _ | ⟨L, h1⟩
      · exact Keeps.refl g
      obtain ⟨k1, okL, hul⟩ := keeps_newLoss g cls (ar.1 (hasArray_lt hh.1)) coef off (user_map w hh.2 ar.2) hn
      dsimp only
      have f : Frame ρ h1 { h1 with ulosses := h1.ulosses ++ [L] } := by
        refine ⟨le_refl _, le_refl _, by simp, le_refl _, le_refl _, le_refl _, le_refl _,
          fun r _ _ => by cases r <;> rfl, fun r _ _ => by cases r <;> rfl, ?_, fun _ _ _ => rfl⟩
        intro r hr _
        cases r with
        | own k => rfl
        | user k => exact List.getElem?_append_left hr
      refine k1.trans (Keeps.mk' k1.good f (fun j G _ hG => Or.inl hG) fun r L' hr hL' => ?_)
      cases r with
      | own k =>
        have hk : k < h1.ilosses.length := (List.getElem?_eq_some_iff.1 hL').1
        exact Or.inl ⟨ρ.L.anti f.ul f.nl (r := .own k) hk hr, hL'⟩
      | user k =>
        rcases getElem?_append_cases (show (h1.ulosses ++ [L])[k]? = some L' from hL') with ⟨hk, e⟩ | ⟨_, e⟩
        · exact Or.inl ⟨ρ.L.anti f.ul f.nl (r := .user k) hk hr, e⟩
        · rw [e]; exact Or.inr okL
    · exact Keeps.refl g
  -- glm
  · unfold Heap.step
    dsimp only
    split_ifs with hh
    · simp only [Bool.and_eq_true, decide_eq_true_eq] at hh
      exact keeps_flag (keeps_newGlm g (de hh.1.1.1) (ar.1 (hasArray_lt hh.1.1.2)) (lo hh.2) (user_map w hh.1.2 ar.2) off quad)
    · exact Keeps.refl g
  -- build
  · unfold Heap.step
    dsimp only
    split_ifs with hh
    · simp only [Bool.and_eq_true, decide_eq_true_eq] at hh
      exact keeps_flag (keeps_build g cls (de hh.1.1) (ar.1 (hasArray_lt hh.1.2)) coef soff (user_map w hh.2 ar.2) off quad)
    · exact Keeps.refl g
  -- copy, subsample
  · exact keeps_withGlm g ob _ fun G hG ok => keeps_orRaise g fun h' hc => (keeps_copy g G hc).1
  · exact keeps_withGlm g ob _ fun G hG ok => keeps_orRaise g fun h' hc => keeps_subsample g G idx hc
  -- eval, hess
  · exact keeps_withGlm g ob _ fun G hG ok => keeps_smooth g ok β m
  · exact keeps_withGlm g ob _ fun G hG ok => keeps_hess g ok β
  -- linpred, penalty, getData
  · exact keeps_withGlm g ob _ fun G hG ok => Keeps.refl g
  · exact keeps_withGlm g ob _ fun G hG ok => Keeps.refl g
  · refine keeps_withGlm g ob _ fun G hG ok => ?_
    rcases h.loss G.loss with _ | L <;> exact Keeps.refl g
  -- setData, setResponse
  · refine keeps_withGlm g ob _ fun G hG ok => ?_
    split_ifs with hh
    · simp only [Bool.and_eq_true, decide_eq_true_eq] at hh
      have k1 := keeps_setGlm g ob (G := { G with X := .user X }) ⟨ok.1, de hh.1, ok.2.2.1, ok.2.2.2⟩
      exact keeps_flag (k1.trans (keeps_setResponse k1.good ok.2.2.2 (ar (hasArray_lt hh.2))))
    · exact Keeps.refl g
  · refine keeps_withGlm g ob _ fun G hG ok => ?_
    split_ifs with hh
    · have k1 := keeps_setGlm g ob (G := { G with X := G.X }) ok
      exact keeps_flag (k1.trans (keeps_setResponse k1.good ok.2.2.2 (ar (hasArray_lt hh))))
    · exact Keeps.refl g
  -- setWeights
  · refine keeps_withGlm g ob _ fun G hG ok => ?_
    split_ifs with hh
    · exact keeps_setGlm g ob ⟨ar (hasArray_lt hh), ok.2⟩
    · exact Keeps.refl g
  -- setCoef
  · exact keeps_withGlm g ob _ fun G hG ok => keeps_setGlm g ob ok
  -- setLossCoef
  · refine keeps_withGlm g ob _ fun G hG ok => ?_
    rcases hL : h.loss G.loss with _ | L
    · exact Keeps.refl g
    · exact keeps_setLoss g ok.2.2.2 (g.loss _ L ok.2.2.2 hL)
  -- setOffset, setQuad
  · exact keeps_withGlm g ob _ fun G hG ok => keeps_setGlm g ob ok
  · exact keeps_withGlm g ob _ fun G hG ok => keeps_setGlm g ob ok
  -- shareWeights, shareLoss
  · refine keeps_withGlm g ob.1 _ fun G hG ok => ?_
    exact keeps_withGlm g ob.2 _ fun G2 hG2 ok2 => keeps_setGlm g ob.1 ⟨ok2.1, ok.2⟩
  · refine keeps_withGlm g ob.1 _ fun G hG ok => ?_
    exact keeps_withGlm g ob.2 _ fun G2 hG2 ok2 => keeps_setGlm g ob.1 ⟨ok.1, ok.2.1, ok.2.2.1, ok2.2.2.2⟩
  -- editWeights, editResponse, editDesign
  · exact keeps_withGlm g ob _ fun G hG ok => keeps_writeVec g (fun _ => ok.1) v
  · refine keeps_withGlm g ob _ fun G hG ok => ?_
    rcases hL : h.loss G.loss with _ | L
    · exact Keeps.refl g
    · exact keeps_writeVec g (fun _ => (g.loss _ L ok.2.2.2 hL).1) v
  · exact keeps_withGlm g ob _ fun G hG ok => keeps_writeMat g (fun _ => ok.2.1) M

theorem keeps_run {h : Heap p n} (g : Good ρ h) (ops : List (Op p n)) (al : ∀ op ∈ ops, ∀ h' : Heap p n, Allowed ρ h' op) :
    Keeps ρ h (h.run ops).2 := by
  induction ops generalizing h with
  | nil => exact Keeps.refl g
  | cons op ops ih =>
    have k := keeps_step g op (al op (List.mem_cons_self ..) h)
    exact k.trans (ih k.good fun op' hm => al op' (List.mem_cons_of_mem _ hm))

/-! ### the rules for copies -/

/-- no rule but that references point to existing things -/
def exists_ : Policy where
  i0 := 0
  P := In
  fresh := fun _ ni _ => Nat.lt_succ_self ni
  mono := fun h1 h2 h => In.grow h1 h2 h
  anti := fun _ _ h _ => h

/-- every reference points to something -/
def wf : Rules := ⟨exists_, exists_, exists_, fun _ => False⟩

/-- everything but the cells there were -/
def newer (nu ni : ℕ) : Policy where
  i0 := ni
  P := fun _ _ r => ¬ In nu ni r
  fresh := fun _ m hm (h : m < ni) => absurd h (not_lt.2 hm)
  mono := fun _ _ h => h
  anti := fun _ _ _ h => h

/-- protects everything in `h` -/
def since (h : Heap p n) : Rules :=
  ⟨newer h.uvecs.length h.ivecs.length, newer h.umats.length h.imats.length, newer h.ulosses.length h.ilosses.length,
    fun j => j < h.glms.length⟩

/-- everything but certain cells of the library -/
def except (ni : ℕ) (F : Ref → Prop) (hF : ∀ r, F r → ∃ k, r = .own k ∧ k < ni) : Policy where
  i0 := ni
  P := fun _ _ r => ¬ F r
  fresh := fun _ m hm h => by
    obtain ⟨k, e, hk⟩ := hF _ h
    cases e
    omega
  mono := fun _ _ h => h
  anti := fun _ _ _ h => h

lemma wf_empty : Good wf (Heap.empty : Heap p n) := by
  refine ⟨le_refl _, le_refl _, le_refl _, fun j G _ hG => ?_, fun r L _ hL => ?_⟩
  · simp [Heap.empty] at hG
  · cases r <;> simp [Heap.empty, Heap.loss] at hL

lemma wf_allowed (op : Op p n) (h : Heap p n) : Allowed wf h op :=
  ⟨fun _ _ hx => hx, fun _ _ hk => hk, fun _ _ hk => hk, fun _ _ hk => hk⟩

lemma wf_run (ops : List (Op p n)) : Good wf (Heap.empty.run ops).2 :=
  (keeps_run wf_empty ops fun op _ h => wf_allowed op h).good

lemma inL_of_loss {h : Heap p n} {r : Ref} {L : SatObj n} (hL : h.loss r = some L) : inL h r := by
  cases r with
  | user k => exact (List.getElem?_eq_some_iff.1 hL).1
  | own k => exact (List.getElem?_eq_some_iff.1 hL).1

lemma since_good (h : Heap p n) : Good (since h) h := by
  refine ⟨le_refl _, le_refl _, le_refl _, fun j G hx hG => ?_, fun r L hr hL => ?_⟩
  · exact absurd (List.getElem?_eq_some_iff.1 hG).1 hx
  · exact absurd (inL_of_loss hL) hr

lemma copy_counts {h : Heap p n} (G : GlmObj p n) {h' : Heap p n} (hc : h.copy G = some h') :
    h'.uvecs = h.uvecs ∧ h'.umats = h.umats ∧ h'.ulosses = h.ulosses ∧ h'.ilosses.length = h.ilosses.length + 1 := by
  classical
  unfold Heap.copy at hc
  rcases hL : h.loss G.loss with _ | L
  · rw [hL] at hc; cases hc
  rw [hL] at hc
  dsimp only at hc
  generalize (if Heap.LossClass.passesWeights L.cls then L.own else none) = own at hc
  split at hc
  · cases hc
  split_ifs at hc with hw
  cases own with
  | none => rw [← Option.some.inj hc]; exact ⟨rfl, rfl, rfl, by simp [Heap.pushGlm, Heap.allocLoss, Heap.allocVec, Heap.allocMat]⟩
  | some r => rw [← Option.some.inj hc]; exact ⟨rfl, rfl, rfl, by simp [Heap.pushGlm, Heap.allocLoss, Heap.allocVec, Heap.allocMat]⟩

/-- the state after a copy or subsample -/
structure Made (h h' : Heap p n) (C : GlmObj p n) : Prop where
  glms : h'.glms = h.glms ++ [C]
  keeps : Keeps (since h) h h'
  okC : OkGlm (since h) h' C
  wf : Good wf h'
  uv : h'.uvecs.length = h.uvecs.length
  um : h'.umats.length = h.umats.length
  ul : h'.ulosses.length = h.ulosses.length
  nl : h'.ilosses.length = h.ilosses.length + 1

lemma made_copy {h : Heap p n} (w : Good wf h) (G : GlmObj p n) {h' : Heap p n} (hc : h.copy G = some h') :
    ∃ C, Made h h' C := by
  obtain ⟨k, C, hC, ok⟩ := keeps_copy (since_good h) G hc
  obtain ⟨e1, e2, e3, e4⟩ := copy_counts G hc
  exact ⟨C, hC, k, ok, (keeps_copy w G hc).1.good, by rw [e1], by rw [e2], by rw [e3], e4⟩

lemma made_subsample {h : Heap p n} (w : Good wf h) (G : GlmObj p n) (idx : Finset (Fin n)) {h' : Heap p n}
    (hc : h.subsample G idx = some h') : ∃ C, Made h h' C := by
  classical
  have kw := (keeps_subsample w G idx hc).good
  unfold Heap.subsample at hc
  rcases h1 : h.copy G with _ | a
  · rw [h1] at hc; cases hc
  rw [h1] at hc
  obtain ⟨C, m⟩ := made_copy w G h1
  dsimp only at hc
  rw [m.glms, List.getLast?_concat] at hc
  have hc := Option.some.inj hc
  have k2 := keeps_writeVec m.keeps.good (r := C.cw) (fun _ => m.okC.1) fun i => a.vec C.cw i * if i ∈ idx then 1 else 0
  rw [hc] at k2
  refine ⟨C, ?_, m.keeps.trans k2, m.okC.grow k2.frame, kw, ?_, ?_, ?_, ?_⟩
  · rw [← hc, ← m.glms]; cases C.cw <;> rfl
  · rw [← hc, ← m.uv]; cases C.cw <;> simp [Heap.writeVec]
  · rw [← hc, ← m.um]; cases C.cw <;> simp [Heap.writeVec]
  · rw [← hc, ← m.ul]; cases C.cw <;> simp [Heap.writeVec]
  · rw [← hc, ← m.nl]; cases C.cw <;> simp [Heap.writeVec]

/-! ### what an object shows depends on the cells it refers to -/

lemma vec_write {h : Heap p n} {s : Ref} (hs : inV h s) (u : Fin n → ℝ) (r : Ref) :
    (h.writeVec s u).vec r = if r = s then u else h.vec r := by
  by_cases hr : r = s
  · subst hr
    rw [if_pos rfl]
    cases r with
    | user k =>
      change (h.uvecs.set k u).getD k 0 = u
      rw [List.getD_eq_getElem?_getD, List.getElem?_set_self hs]; rfl
    | own k => exact vec_write_own hs u
  · rw [if_neg hr, vec_write_other hr]

lemma mat_write_vec {h : Heap p n} (s : Ref) (u : Fin n → ℝ) (r : Ref) : (h.writeVec s u).mat r = h.mat r := by
  cases s <;> cases r <;> rfl

/-- two heaps in which an object refers to the same things -/
structure Same (h h' : Heap p n) (G : GlmObj p n) : Prop where
  cwIn : inV h G.cw
  cwIn' : inV h' G.cw
  cw : h'.vec G.cw = h.vec G.cw
  X : h'.mat G.X = h.mat G.X
  tX : h'.mat G.tX = h.mat G.tX
  loss : h'.loss G.loss = h.loss G.loss
  resp : ∀ L, h.loss G.loss = some L → h'.vec L.resp = h.vec L.resp
  own : ∀ L, h.loss G.loss = some L → ∀ w, L.own = some w → h'.vec w = h.vec w

lemma Same.fold_vec {h h' : Heap p n} {G : GlmObj p n} (s : Same h h' G) {L : SatObj n} (hL : h.loss G.loss = some L)
    {r : Ref} (hr : h'.vec r = h.vec r) : (h'.foldWeights G L).vec r = (h.foldWeights G L).vec r := by
  unfold Heap.foldWeights
  rcases ho : L.own with _ | w
  · exact hr
  · dsimp only
    rw [vec_write s.cwIn, vec_write s.cwIn', s.cw, s.own L hL w ho, hr]

lemma Same.fold_mat {h h' : Heap p n} {G : GlmObj p n} {L : SatObj n}
    {r : Ref} (hr : h'.mat r = h.mat r) : (h'.foldWeights G L).mat r = (h.foldWeights G L).mat r := by
  unfold Heap.foldWeights
  rcases ho : L.own with _ | w
  · exact hr
  · dsimp only
    rw [mat_write_vec, mat_write_vec, hr]

lemma Same.value {h h' : Heap p n} {G : GlmObj p n} (s : Same h h' G) {L : SatObj n} (hL : h.loss G.loss = some L) :
    { (h'.foldWeights G L).lossValue L with caseWeights := none } = { (h.foldWeights G L).lossValue L with caseWeights := none } := by
  unfold Heap.lossValue
  dsimp only
  rw [s.fold_vec hL (s.resp L hL)]

lemma Same.eval {h h' : Heap p n} {G : GlmObj p n} (s : Same h h' G) (β : Fin p → ℝ) (m : Mode) :
    (h'.smoothObjective G β m).1 = (h.smoothObjective G β m).1 := by
  unfold Heap.smoothObjective
  rw [s.loss]
  rcases hL : h.loss G.loss with _ | L
  · rfl
  dsimp only
  rw [s.value hL, s.fold_vec hL s.cw, Same.fold_mat s.tX]
  generalize (Loss.smoothObjective _ _ _ _).1 = r
  cases m <;> cases r <;> rfl

lemma Same.hess {h h' : Heap p n} {G : GlmObj p n} (s : Same h h' G) (β : Fin p → ℝ) :
    (h'.hessian G β).1 = (h.hessian G β).1 := by
  unfold Heap.hessian
  rw [s.loss]
  rcases hL : h.loss G.loss with _ | L
  · rfl
  dsimp only
  rw [s.value hL, s.fold_vec hL s.cw, Same.fold_mat s.X]
  generalize (Loss.hessian _ _ _).1 = r
  cases r <;> rfl

lemma Same.asks {h h' : Heap p n} {c : ℕ} {G : GlmObj p n} (s : Same h h' G) (hG : h.glms[c]? = some G)
    (hG' : h'.glms[c]? = some G) {q : Op p n} (hq : Op.Asks c q) : (h'.step q).1 = (h.step q).1 := by
  cases q <;> simp only [Op.Asks] at hq <;> subst hq <;> unfold Heap.step Heap.withGlm <;> dsimp only <;> rw [hG, hG'] <;> dsimp only
  · rw [s.eval]
  · rw [s.hess]
  · rw [s.X]
  · rw [s.loss]
    rcases hL : h.loss G.loss with _ | L
    · rfl
    · dsimp only
      rw [s.X, s.resp L hL]

/-- what is protected shows the same -/
lemma since_same {h h' : Heap p n} (w : Good wf h) (f : Frame (since h) h h') {j : ℕ} {G : GlmObj p n}
    (hG : h.glms[j]? = some G) : Same h h' G := by
  have ok := w.glm j G (fun x => x) hG
  have okl : ∀ L, h.loss G.loss = some L → OkLoss wf h L := fun L hL => w.loss _ L ok.2.2.2 hL
  have hv : ∀ r, wf.v h r → h'.vec r = h.vec r := fun r hr => f.vec r hr fun hn => hn hr
  have hm : ∀ r, wf.m h r → h'.mat r = h.mat r := fun r hr => f.mat r hr fun hn => hn hr
  exact ⟨ok.1, In.grow f.uv f.nv ok.1, hv _ ok.1, hm _ ok.2.1, hm _ ok.2.2.1, f.loss _ ok.2.2.2 fun hn => hn ok.2.2.2,
    fun L hL => hv _ (okl L hL).1, fun L hL r hr => hv _ ((okl L hL).2 r hr)⟩

/-- statements that name only what was made with or after the copy do not reach what there was before -/
theorem made_old {h h' : Heap p n} {C : GlmObj p n} (w : Good wf h) (m : Made h h' C) (ops : List (Op p n))
    (hop : ∀ op ∈ ops, (∀ j ∈ Op.objects op, h.glms.length ≤ j) ∧ (∀ k ∈ Op.arrays op, h.uvecs.length ≤ k) ∧
      (∀ k ∈ Op.designs op, h.umats.length ≤ k) ∧ (∀ k ∈ Op.losses op, h.ulosses.length ≤ k)) :
    Frame (since h) h (h'.run ops).2 := by
  have k := keeps_run m.keeps.good ops fun op ho h1 => by
    obtain ⟨a, b, c, d⟩ := hop op ho
    exact ⟨fun j hj hx => absurd hx (not_lt.2 (a j hj)), fun k hk _ hi => absurd hi (not_lt.2 (b k hk)),
      fun k hk _ hi => absurd hi (not_lt.2 (c k hk)), fun k hk _ hi => absurd hi (not_lt.2 (d k hk))⟩
  exact m.keeps.frame.trans k.frame

/-- a reference that is new and valid was made by the library -/
lemma new_own {u i i' : ℕ} {r : Ref} (h1 : ¬ In u i r) (h2 : In u i' r) : ∃ k, r = .own k ∧ i ≤ k ∧ k < i' := by
  cases r with
  | user k => exact absurd h2 h1
  | own k => exact ⟨k, rfl, not_lt.1 h1, h2⟩

/-- statements that do not name the copy do not reach it -/
theorem made_new {h h' : Heap p n} {C : GlmObj p n} (w : Good wf h) (m : Made h h' C) (ops : List (Op p n))
    (hop : ∀ op ∈ ops, h.glms.length ∉ Op.objects op) :
    (h'.run ops).2.glms[h.glms.length]? = some C ∧ Same h' (h'.run ops).2 C := by
  have hC : h'.glms[h.glms.length]? = some C := by rw [m.glms]; simp
  have okC := m.wf.glm _ C (fun x => x) hC
  have inL' : inL h' C.loss := okC.2.2.2
  have newv : ∀ r, ¬ In h.uvecs.length h.ivecs.length r → wf.v h' r → ∃ k, r = .own k ∧ h.ivecs.length ≤ k ∧ k < h'.ivecs.length := by
    intro r h1 h2
    refine new_own h1 ?_
    have h2 : In h'.uvecs.length h'.ivecs.length r := h2
    rwa [m.uv] at h2
  have newm : ∀ r, ¬ In h.umats.length h.imats.length r → wf.m h' r → ∃ k, r = .own k ∧ h.imats.length ≤ k ∧ k < h'.imats.length := by
    intro r h1 h2
    refine new_own h1 ?_
    have h2 : In h'.umats.length h'.imats.length r := h2
    rwa [m.um] at h2
  obtain ⟨l, hl, hl1, hl2⟩ : ∃ k, C.loss = .own k ∧ h.ilosses.length ≤ k ∧ k < h'.ilosses.length := by
    refine new_own m.okC.2.2.2 ?_
    have h2 : In h'.ulosses.length h'.ilosses.length C.loss := inL'
    rwa [m.ul] at h2
  have hl0 : l = h.ilosses.length := by have := m.nl; omega
  obtain ⟨L, hL⟩ : ∃ L, h'.loss C.loss = some L := by
    rw [hl]
    exact ⟨_, List.getElem?_eq_getElem hl2⟩
  have okL := m.wf.loss _ L okC.2.2.2 hL
  have okL2 := m.keeps.good.loss _ L m.okC.2.2.2 hL
  -- the cells of the copy
  let FV : Ref → Prop := fun r => r = C.cw ∨ r = L.resp ∨ L.own = some r
  let FM : Ref → Prop := fun r => r = C.X ∨ r = C.tX
  have hFV : ∀ r, FV r → ∃ k, r = .own k ∧ h.ivecs.length ≤ k ∧ k < h'.ivecs.length := by
    rintro r (e | e | e)
    · rw [e]; exact newv _ m.okC.1 okC.1
    · rw [e]; exact newv _ okL2.1 okL.1
    · exact newv _ (okL2.2 r e) (okL.2 r e)
  have hFM : ∀ r, FM r → ∃ k, r = .own k ∧ h.imats.length ≤ k ∧ k < h'.imats.length := by
    rintro r (e | e)
    · rw [e]; exact newm _ m.okC.2.1 okC.2.1
    · rw [e]; exact newm _ m.okC.2.2.1 okC.2.2.1
  let ρ : Rules := ⟨except h'.ivecs.length FV fun r hr => (hFV r hr).imp fun k hk => ⟨hk.1, hk.2.2⟩,
    except h'.imats.length FM fun r hr => (hFM r hr).imp fun k hk => ⟨hk.1, hk.2.2⟩,
    except h'.ilosses.length (fun r => r = .own l) fun r hr => ⟨l, hr, hl2⟩, fun j => j = h.glms.length⟩
  have oldv : ∀ r, wf.v h r → ¬ FV r := by
    intro r hr hf
    obtain ⟨k, e, hk, _⟩ := hFV r hf
    subst e
    exact absurd hr (not_lt.2 hk)
  have oldm : ∀ r, wf.m h r → ¬ FM r := by
    intro r hr hf
    obtain ⟨k, e, hk, _⟩ := hFM r hf
    subst e
    exact absurd hr (not_lt.2 hk)
  have g' : Good ρ h' := by
    refine ⟨le_refl _, le_refl _, le_refl _, fun j G hx hG => ?_, fun r L' hr hL' => ?_⟩
    · rw [m.glms] at hG
      rcases getElem?_append_cases hG with ⟨_, h1⟩ | ⟨h1, _⟩
      · have ok := w.glm j G (fun x => x) h1
        refine ⟨oldv _ ok.1, oldm _ ok.2.1, oldm _ ok.2.2.1, fun e => ?_⟩
        have h2 := ok.2.2.2
        have e : G.loss = .own l := e
        rw [e] at h2
        exact absurd h2 (not_lt.2 hl1)
      · exact absurd h1 hx
    · have hin : inL h r := by
        have h1 := inL_of_loss hL'
        unfold inL at h1
        rw [m.ul, m.nl] at h1
        cases r with
        | user k => exact h1
        | own k =>
          have h1 : k < h.ilosses.length + 1 := h1
          have h2 : k ≠ l := fun e => hr (by rw [e])
          change k < h.ilosses.length
          omega
      have e : h'.loss r = h.loss r := m.keeps.frame.loss r hin fun hn => hn hin
      rw [e] at hL'
      have ok := w.loss r L' hin hL'
      exact ⟨oldv _ ok.1, fun x hx => oldv _ (ok.2 x hx)⟩
  have k := keeps_run g' ops fun op ho h1 => by
    refine ⟨fun j hj hx => ?_, fun k _ _ hf => ?_, fun k _ _ hf => ?_, fun k _ _ hf => ?_⟩
    · have hx : j = h.glms.length := hx
      exact hop op ho (hx ▸ hj)
    · obtain ⟨_, e, _⟩ := hFV _ hf; cases e
    · obtain ⟨_, e, _⟩ := hFM _ hf; cases e
    · cases (show Ref.user k = Ref.own l from hf)
  have f := k.frame
  have hv : ∀ r, wf.v h' r → FV r → (h'.run ops).2.vec r = h'.vec r := fun r hr hf => f.vec r hr fun hn => hn hf
  have hm : ∀ r, wf.m h' r → FM r → (h'.run ops).2.mat r = h'.mat r := fun r hr hf => f.mat r hr fun hn => hn hf
  refine ⟨(f.glm _ (by rw [m.glms]; simp) rfl).trans hC, okC.1, In.grow f.uv f.nv okC.1, hv _ okC.1 (Or.inl rfl),
    hm _ okC.2.1 (Or.inl rfl), hm _ okC.2.2.1 (Or.inr rfl), f.loss _ inL' fun hn => hn hl, fun L' hL' => ?_, fun L' hL' x hx => ?_⟩
  · rw [hL] at hL'; cases hL'
    exact hv _ okL.1 (Or.inr (Or.inl rfl))
  · rw [hL] at hL'; cases hL'
    exact hv _ (okL.2 x hx) (Or.inr (Or.inr hx))

end
end Verif.Lemmas.GlmHeap
