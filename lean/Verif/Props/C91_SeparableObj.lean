import Verif.Model.SeparableObj
import Verif.Props.C68_DualProblem
import Mathlib.Algebra.Order.Group.Pointwise.Bounds

/-!
# C91: separable penalties as objects: conjugate, Moreau decomposition, smoothing, reshaped groups, construction
-/

set_option linter.unusedSectionVars false
set_option linter.unusedVariables false

namespace Verif.Props
open Verif.Model Verif.Lemmas Verif.Spec
open scoped Pointwise

variable {n : ℕ}

/-! ### specification -/

/-- every coordinate is selected exactly once -/
def Partitions {α : Type*} (len : α → ℕ) (idx : (b : α) → Fin (len b) → Fin n) (bs : List α) : Prop :=
  (∀ b ∈ bs, Function.Injective (idx b)) ∧ (bs.Pairwise fun a b => SelectDisjoint (idx a) (idx b)) ∧
    ∀ i, ∃ b ∈ bs, ∃ j, idx b j = i

/-- the function a sum of functions of groups of coordinates stands for -/
noncomputable def sumOver {α : Type*} (len : α → ℕ) (idx : (b : α) → Fin (len b) → Fin n)
    (f : (b : α) → (Fin (len b) → ℝ) → WithTop ℝ) (bs : List α) (x : Fin n → ℝ) : WithTop ℝ :=
  (bs.map fun b => f b fun j => x (idx b j)).sum

/-- the documented function of a seminorm atom without quadratic coefficient, read off its mode -/
noncomputable def atomPen {m : ℕ} (a : AtomObj (Fin (m + 1)) ℝ) (x : Fin (m + 1) → ℝ) : WithTop ℝ :=
  match a.st.lagrange, a.st.bound with
  | some r, none => denoteAtom a false r x
  | none, some r => denoteAtom a true r x
  | _, _ => ⊤

/-- the documented function of a separable object: the sum over its blocks -/
noncomputable def sepPen (bs : List (SepBlock n)) (x : Fin n → ℝ) : WithTop ℝ :=
  (bs.map fun b => atomPen b.atom fun j => x (b.idx j)).sum

/-- an atom made by its constructor, with a linear and constant quadratic only -/
def ValidAtom {m : ℕ} (a : AtomObj (Fin (m + 1)) ℝ) : Prop :=
  (∃ b r, InMode a b r) ∧ a.quad.coef = 0 ∧ ArrayOffset a

/-- the groups of the object select every coordinate exactly once -/
def GroupsPartition (bs : List (SepBlock n)) : Prop := Partitions (fun b => b.m + 1) (fun b => b.idx) bs

/-! ### the conjugate of a sum over groups -/

section generic
variable {α : Type*} (len : α → ℕ) (idx : (b : α) → Fin (len b) → Fin n)

private def vals (f : (b : α) → (Fin (len b) → ℝ) → WithTop ℝ) (bs : List α) (y : Fin n → ℝ) : Set ℝ :=
  {t | ∃ (x : Fin n → ℝ) (a : ℝ), sumOver len idx f bs x = ((a : ℝ) : WithTop ℝ) ∧
    t = (bs.map fun b => dot (fun j => x (idx b j)) (fun j => y (idx b j))).sum - a}

private def bvals {m : ℕ} (f : (Fin m → ℝ) → WithTop ℝ) (y : Fin m → ℝ) : Set ℝ :=
  {t | ∃ x a, f x = ((a : ℝ) : WithTop ℝ) ∧ t = dot x y - a}

private lemma split_top {u v : WithTop ℝ} {a : ℝ} (h : u + v = ((a : ℝ) : WithTop ℝ)) :
    ∃ b c : ℝ, u = b ∧ v = c ∧ b + c = a := by
  cases u with
  | top => rw [WithTop.top_add] at h; exact absurd h.symm WithTop.coe_ne_top
  | coe b =>
    cases v with
    | top => rw [WithTop.add_top] at h; exact absurd h.symm WithTop.coe_ne_top
    | coe c => exact ⟨b, c, rfl, rfl, by exact_mod_cast h⟩

private lemma vals_cons (f : (b : α) → (Fin (len b) → ℝ) → WithTop ℝ) (b : α) (bs : List α) (y : Fin n → ℝ)
    (hinj : Function.Injective (idx b)) (hdis : ∀ c ∈ bs, SelectDisjoint (idx b) (idx c)) :
    vals len idx f (b :: bs) y = bvals (f b) (fun j => y (idx b j)) + vals len idx f bs y := by
  ext t
  rw [Set.mem_add]
  constructor
  · rintro ⟨x, a, h1, rfl⟩
    unfold sumOver at h1
    rw [List.map_cons, List.sum_cons] at h1
    obtain ⟨a1, a2, h2, h3, h4⟩ := split_top h1
    refine ⟨_, ⟨_, a1, h2, rfl⟩, _, ⟨x, a2, h3, rfl⟩, ?_⟩
    rw [List.map_cons, List.sum_cons, ← h4]; ring
  · rintro ⟨_, ⟨xb, a1, h2, rfl⟩, _, ⟨x, a2, h3, rfl⟩, rfl⟩
    let s : Selector n := ⟨len b, idx b⟩
    set z := s.put x xb with hz
    have e1 : (fun j => z (idx b j)) = xb := by
      funext j; exact put_mem s hinj x xb j
    have e2 : ∀ c ∈ bs, (fun j => z (idx c j)) = fun j => x (idx c j) := by
      intro c hc; funext j
      exact put_not_mem s x xb _ fun k => hdis c hc k j
    refine ⟨z, a1 + a2, ?_, ?_⟩
    · unfold sumOver at h3 ⊢
      rw [List.map_cons, List.sum_cons, e1, h2, WithTop.coe_add, ← h3]
      congr 2
      exact List.map_congr_left fun c hc => by rw [e2 c hc]
    · rw [List.map_cons, List.sum_cons, e1]
      have : (bs.map fun c => dot (fun j => z (idx c j)) (fun j => y (idx c j))) =
          bs.map fun c => dot (fun j => x (idx c j)) (fun j => y (idx c j)) :=
        List.map_congr_left fun c hc => by rw [e2 c hc]
      rw [this]; ring

private lemma vals_spec (f g : (b : α) → (Fin (len b) → ℝ) → WithTop ℝ) (bs : List α) (y : Fin n → ℝ)
    (hinj : ∀ b ∈ bs, Function.Injective (idx b)) (hdis : bs.Pairwise fun a b => SelectDisjoint (idx a) (idx b))
    (hconj : ∀ b ∈ bs, IsConjugate (f b) (g b)) (hprop : ∀ b ∈ bs, ∃ x, f b x ≠ ⊤) :
    (vals len idx f bs y).Nonempty ∧
    (∀ v : ℝ, sumOver len idx g bs y = v → IsLUB (vals len idx f bs y) v) ∧
    (sumOver len idx g bs y = ⊤ → ¬ BddAbove (vals len idx f bs y)) := by
  induction bs with
  | nil =>
    have e : vals len idx f [] y = {0} := by
      ext t
      simp only [vals, sumOver, List.map_nil, List.sum_nil, Set.mem_ofPred_eq, Set.mem_singleton_iff]
      constructor
      · rintro ⟨x, a, h1, rfl⟩
        have : (0 : ℝ) = a := by exact_mod_cast h1
        rw [← this]; ring
      · rintro rfl
        exact ⟨fun _ => 0, 0, rfl, by ring⟩
    rw [e]
    refine ⟨⟨0, rfl⟩, fun v hv => ?_, fun h => ?_⟩
    · have : (0 : ℝ) = v := by
        have : (0 : WithTop ℝ) = v := hv
        exact_mod_cast this
      rw [← this]; exact isLUB_singleton
    · exact absurd h (by simp [sumOver])
  | cons b bs ih =>
    rw [List.pairwise_cons] at hdis
    obtain ⟨i1, i2, i3⟩ := ih (fun c hc => hinj c (List.mem_cons_of_mem _ hc)) hdis.2
      (fun c hc => hconj c (List.mem_cons_of_mem _ hc)) (fun c hc => hprop c (List.mem_cons_of_mem _ hc))
    rw [vals_cons len idx f b bs y (hinj b List.mem_cons_self) hdis.1]
    obtain ⟨h1, h2⟩ := hconj b List.mem_cons_self (fun j => y (idx b j))
    have hne : (bvals (f b) (fun j => y (idx b j))).Nonempty := by
      obtain ⟨x, hx⟩ := hprop b List.mem_cons_self
      obtain ⟨a, ha⟩ := WithTop.ne_top_iff_exists.1 hx
      exact ⟨_, x, a, ha.symm, rfl⟩
    have hs : sumOver len idx g (b :: bs) y = g b (fun j => y (idx b j)) + sumOver len idx g bs y := by
      unfold sumOver; rw [List.map_cons, List.sum_cons]
    refine ⟨hne.add i1, fun v hv => ?_, fun hv hb => ?_⟩
    · rw [hs] at hv
      obtain ⟨v1, v2, e1, e2, e3⟩ := split_top hv
      rw [← e3]
      exact (h1 v1 e1).add (i2 v2 e2)
    · rw [hs, WithTop.add_eq_top] at hv
      obtain ⟨B, hB⟩ := hb
      rcases hv with hv | hv
      · obtain ⟨t0, ht0⟩ := i1
        refine h2 hv ⟨B - t0, fun t ht => ?_⟩
        have := hB (Set.add_mem_add ht ht0)
        linarith
      · obtain ⟨t0, ht0⟩ := hne
        refine i3 hv ⟨B - t0, fun t ht => ?_⟩
        have := hB (Set.add_mem_add ht0 ht)
        linarith

private lemma dot_partition (bs : List α) (hp : Partitions len idx bs) (x y : Fin n → ℝ) :
    dot x y = (bs.map fun b => dot (fun j => x (idx b j)) (fun j => y (idx b j))).sum := by
  set bs' : List (Block n ℝ) := bs.map fun b => ⟨⟨len b, idx b⟩, fun _ => 0, fun _ => .typeError⟩ with hbs
  have h := sum_cover bs' (fun i => x i * y i) (fun b hb => by
    obtain ⟨c, hc, rfl⟩ := List.mem_map.1 hb
    exact hp.1 c hc) (by rw [hbs, List.pairwise_map]; exact hp.2.1)
  have hc : cover bs' = Finset.univ := by
    rw [Finset.eq_univ_iff_forall]
    intro i
    obtain ⟨b, hb, j, hj⟩ := hp.2.2 i
    exact (mem_cover _ _).2 ⟨_, List.mem_map_of_mem hb, j, hj⟩
  rw [hc, hbs, List.map_map] at h
  exact h

/-- **C91** the fact behind the conjugate of a separable penalty, for arbitrary functions: if the groups select every
coordinate exactly once, every `f_b` is finite somewhere and `g_b` is the conjugate of `f_b`, then the conjugate of
`Σ_b f_b(x[group_b])` is `Σ_b g_b(u[group_b])`. -/
theorem C91_conjugate_sum (f g : (b : α) → (Fin (len b) → ℝ) → WithTop ℝ) (bs : List α)
    (hp : Partitions len idx bs) (hconj : ∀ b ∈ bs, IsConjugate (f b) (g b)) (hprop : ∀ b ∈ bs, ∃ x, f b x ≠ ⊤) :
    IsConjugate (fun x : Fin n → ℝ => (bs.map fun b => f b fun j => x (idx b j)).sum)
      (fun y => (bs.map fun b => g b fun j => y (idx b j)).sum) := by
  intro y
  obtain ⟨-, h2, h3⟩ := vals_spec len idx f g bs y hp.1 hp.2.1 hconj hprop
  have e : vals len idx f bs y =
      {t : ℝ | ∃ x a, (bs.map fun b => f b fun j => x (idx b j)).sum = ((a : ℝ) : WithTop ℝ) ∧ t = dot x y - a} := by
    ext t
    simp only [vals, sumOver, Set.mem_ofPred_eq]
    constructor
    · rintro ⟨x, a, h, rfl⟩; exact ⟨x, a, h, by rw [dot_partition len idx bs hp]⟩
    · rintro ⟨x, a, h, rfl⟩; exact ⟨x, a, h, by rw [dot_partition len idx bs hp]⟩
  rw [← e]
  exact ⟨h2, h3⟩

end generic

/-! ### the atoms -/

lemma atomPen_mode {m : ℕ} (a : AtomObj (Fin (m + 1)) ℝ) (b : Bool) (r : ℝ) (hm : InMode a b r) :
    atomPen a = denoteAtom a b r := by
  funext x
  unfold atomPen
  rw [hm.2]
  cases b <;> rfl

private lemma pen_zero (m : ℕ) (k : Klass) (b : Bool) {r : ℝ} (hr : 0 ≤ r) :
    atomBase (n := m) k b r (fun _ => 0) ≠ ⊤ := by
  unfold atomBase
  cases b with
  | true =>
    have : (fun _ => 0 : Fin (m + 1) → ℝ) ∈ ballOf k r := by
      cases k <;> simp [ballOf, hr]
    simp [this]
  | false => cases k <;> simp [penalty, -WithTop.coe_mul]

lemma atomPen_proper {m : ℕ} (a : AtomObj (Fin (m + 1)) ℝ) (b : Bool) (r : ℝ) (hm : InMode a b r) :
    ∃ x, denoteAtom a b r x ≠ ⊤ := by
  refine ⟨offAt a.offset, ?_⟩
  have h := pen_zero m a.klass b hm.1
  have e : denoteAtom a b r (offAt a.offset) = atomBase a.klass b r (fun i => offAt a.offset i - offAt a.offset i) +
    ((dot (linearAt a.quad) (offAt a.offset) + a.quad.const : ℝ) : WithTop ℝ) := rfl
  rw [e]
  simp only [sub_self]
  exact WithTop.add_ne_top.2 ⟨h, WithTop.coe_ne_top⟩

/-- what `conjBlocks` returns on valid atoms -/
private lemma conjBlocks_ok (bs : List (SepBlock n)) (h : ∀ b ∈ bs, (∃ d r, InMode b.atom d r) ∧ b.atom.quad.coef = 0) :
    ∃ l, SepObj.conjBlocks bs = some (some l) ∧
      List.Forall₂ (fun b c : SepBlock n => ∃ a', b.atom.getConjugate = .atom a' ∧ c = { b with atom := a' }) bs l := by
  induction bs with
  | nil => exact ⟨[], rfl, .nil⟩
  | cons b bs ih =>
    obtain ⟨l, h1, h2⟩ := ih fun c hc => h c (List.mem_cons_of_mem _ hc)
    obtain ⟨⟨d, r, hm⟩, hq⟩ := h b List.mem_cons_self
    obtain ⟨a', a'', ha, -⟩ := C13_involution b.atom d r hm hq
    refine ⟨{ b with atom := a' } :: l, ?_, .cons ⟨a', ha, rfl⟩ h2⟩
    rw [SepObj.conjBlocks, ha, h1]

private noncomputable def conjPen (b : SepBlock n) (x : Fin (b.m + 1) → ℝ) : WithTop ℝ :=
  match b.atom.getConjugate with
  | .atom a' => atomPen a' x
  | _ => ⊤

private lemma sepPen_conj {bs l : List (SepBlock n)}
    (h : List.Forall₂ (fun b c : SepBlock n => ∃ a', b.atom.getConjugate = .atom a' ∧ c = { b with atom := a' }) bs l) :
    sepPen l = fun y => (bs.map fun b => conjPen b fun j => y (b.idx j)).sum := by
  funext y
  unfold sepPen
  induction h with
  | nil => rfl
  | @cons b c bs l hb _ ih =>
    obtain ⟨a', ha, rfl⟩ := hb
    rw [List.map_cons, List.sum_cons, List.map_cons, List.sum_cons, ih]
    congr 1
    unfold conjPen
    rw [ha]

private lemma groups_conj {bs l : List (SepBlock n)}
    (h : List.Forall₂ (fun b c : SepBlock n => ∃ a', b.atom.getConjugate = .atom a' ∧ c = { b with atom := a' }) bs l) :
    l.map (fun c => (⟨c.m + 1, c.idx⟩, c.shape)) = bs.map fun b => ((⟨b.m + 1, b.idx⟩, b.shape) : Selector n × Reshape) := by
  induction h with
  | nil => rfl
  | @cons b c bs l hb _ ih =>
    obtain ⟨a', ha, rfl⟩ := hb
    rw [List.map_cons, List.map_cons, ih]

private lemma conj_members {bs l : List (SepBlock n)}
    (h : List.Forall₂ (fun b c : SepBlock n => ∃ a', b.atom.getConjugate = .atom a' ∧ c = { b with atom := a' }) bs l)
    (hv : ∀ b ∈ bs, (∃ d r, InMode b.atom d r) ∧ b.atom.quad.coef = 0) :
    ∀ c ∈ l, (∃ d r, InMode c.atom d r) ∧ c.atom.quad.coef = 0 := by
  induction h with
  | nil => simp
  | @cons b c bs l hb _ ih =>
    obtain ⟨a', ha, rfl⟩ := hb
    intro c hc
    rcases List.mem_cons.1 hc with rfl | hc
    · obtain ⟨⟨d, r, hm⟩, hq0⟩ := hv b List.mem_cons_self
      unfold AtomObj.getConjugate at ha
      rw [if_pos hq0, hm.2] at ha
      have hi2 : AtomState.init (if d = true then (⟨none, some r⟩ : AtomState ℝ) else ⟨some r, none⟩).bound
          (if d = true then (⟨none, some r⟩ : AtomState ℝ) else ⟨some r, none⟩).lagrange =
          .ok (if (!d) then ⟨none, some r⟩ else ⟨some r, none⟩) := by
        cases d <;> simp [AtomState.init, not_lt.2 hm.1]
      simp only [hi2] at ha
      injection ha with ha
      subst ha
      exact ⟨⟨!d, r, hm.1, rfl⟩, rfl⟩
    · exact ih (fun b hb => hv b (List.mem_cons_of_mem _ hb)) c hc

private lemma sepPen_twice {bs l : List (SepBlock n)}
    (h : List.Forall₂ (fun b c : SepBlock n => ∃ a', b.atom.getConjugate = .atom a' ∧ c = { b with atom := a' }) bs l)
    (hv : ∀ b ∈ bs, (∃ d r, InMode b.atom d r) ∧ b.atom.quad.coef = 0) (y : Fin n → ℝ) :
    (l.map fun b => conjPen b fun j => y (b.idx j)).sum = sepPen bs y := by
  unfold sepPen
  induction h with
  | nil => rfl
  | @cons b c bs l hb _ ih =>
    obtain ⟨a', ha, rfl⟩ := hb
    rw [List.map_cons, List.sum_cons, List.map_cons, List.sum_cons]
    congr 1
    · obtain ⟨⟨d, r, hm⟩, hq0⟩ := hv b List.mem_cons_self
      obtain ⟨b1, b2, e1, e2, -, e3, -, -, -, -, e4⟩ := C13_involution b.atom d r hm hq0
      rw [ha] at e1
      injection e1 with e1
      subst e1
      unfold conjPen
      simp only
      rw [e2]
      simp only
      rw [atomPen_mode b2 d r ⟨hm.1, by rw [e3]; exact hm.2⟩, atomPen_mode b.atom d r hm, e4]
    · exact ih fun c hc => hv c (List.mem_cons_of_mem _ hc)

/-- **C91** (partial) on every separable penalty whose groups select each coordinate exactly once and whose atoms are
seminorms in either form (any offset array, any linear and constant term), `conjugate` is a separable penalty with the
same groups and shapes, every atom in the other form with the same parameter, and it denotes the Fenchel conjugate of the
sum.  Missing: coordinates in no group (`C91_conjugate_fails`) and an own quadratic (`C91_smoothed_fails`). -/
theorem C91_conjugate_partial (s : SepObj n) (hq : s.quad.coef = 0) (hp : GroupsPartition s.blocks)
    (hv : ∀ b ∈ s.blocks, ValidAtom b.atom) :
    ∃ c, s.conjugate = .sep c ∧ c.quad.coef = 0 ∧ c.coefs = some (fun _ => 0) ∧
      c.blocks.map (fun c => (⟨c.m + 1, c.idx⟩, c.shape)) =
        s.blocks.map (fun b => ((⟨b.m + 1, b.idx⟩, b.shape) : Selector n × Reshape)) ∧
      (∀ c' ∈ c.blocks, c'.atom.quad.coef = 0 ∧ ∃ b r, InMode c'.atom b r) ∧
      IsConjugate (sepPen s.blocks) (sepPen c.blocks) := by
  obtain ⟨l, h1, h2⟩ := conjBlocks_ok s.blocks fun b hb => ⟨(hv b hb).1, (hv b hb).2.1⟩
  refine ⟨⟨l, unsetQuad, some fun _ => 0⟩, ?_, rfl, rfl, groups_conj h2, ?_, ?_⟩
  · unfold SepObj.conjugate
    rw [if_pos hq, h1]
  · exact fun c' hc' => (conj_members h2 (fun b hb => ⟨(hv b hb).1, (hv b hb).2.1⟩) c' hc').symm
  · show IsConjugate _ (sepPen l)
    rw [sepPen_conj h2]
    refine C91_conjugate_sum (fun b : SepBlock n => b.m + 1) (fun b => b.idx) (fun b => atomPen b.atom) conjPen s.blocks hp
      (fun b hb => ?_) (fun b hb => ?_)
    · obtain ⟨⟨d, r, hm⟩, hq0, ho⟩ := hv b hb
      obtain ⟨a', h3, h4, -, h6⟩ := C13_conjugate b.atom d r hm hq0 ho
      have e : conjPen b = denoteAtom a' (!d) r := by
        funext x
        unfold conjPen
        rw [h3]
        exact congrFun (atomPen_mode a' _ r h4) x
      rw [e, atomPen_mode b.atom d r hm]
      exact h6
    · obtain ⟨⟨d, r, hm⟩, -⟩ := hv b hb
      rw [atomPen_mode b.atom d r hm]
      exact atomPen_proper b.atom d r hm

/-- **C91** conjugating twice gives back a separable penalty with the same groups, denoting the same function, whatever the
groups. -/
theorem C91_involution (s : SepObj n) (hq : s.quad.coef = 0)
    (hv : ∀ b ∈ s.blocks, (∃ d r, InMode b.atom d r) ∧ b.atom.quad.coef = 0) :
    ∃ c d, s.conjugate = .sep c ∧ c.conjugate = .sep d ∧ sepPen d.blocks = sepPen s.blocks ∧
      d.blocks.map (fun c => (⟨c.m + 1, c.idx⟩, c.shape)) =
        s.blocks.map (fun b => ((⟨b.m + 1, b.idx⟩, b.shape) : Selector n × Reshape)) := by
  obtain ⟨l, h1, h2⟩ := conjBlocks_ok s.blocks hv
  have hl := conj_members h2 hv
  obtain ⟨l', h3, h4⟩ := conjBlocks_ok l hl
  refine ⟨⟨l, unsetQuad, some fun _ => 0⟩, ⟨l', unsetQuad, some fun _ => 0⟩, ?_, ?_, ?_, ?_⟩
  · unfold SepObj.conjugate; rw [if_pos hq, h1]
  · unfold SepObj.conjugate; rw [if_pos (show (unsetQuad : Quad (Fin n) ℝ).coef = 0 from rfl), h3]
  · show sepPen l' = _
    rw [sepPen_conj h4]
    funext y
    exact sepPen_twice h2 hv y
  · exact (groups_conj h4).trans (groups_conj h2)

/-! ### proximal map -/

private lemma block_ok (b : SepBlock n) (q : Quad (Fin (b.m + 1)) ℝ) (p : Fin (b.m + 1) → ℝ) (h : b.proximal q = .ok p) :
    b.atom.proximal q = .ok p := by
  unfold SepBlock.proximal at h
  split at h
  · exact h
  · split at h
    · exact h
    · cases h
  · split at h
    · cases h
    · exact h
    · cases h

private lemma loop_pen (q : Quad (Fin n) ℝ) (bs : List (SepBlock n)) (v : Fin n → ℝ) :
    Separable.proxLoop q (bs.map SepBlock.toBlock) v =
      Separable.proxLoop q (bs.map fun b => (⟨⟨b.m + 1, b.idx⟩, atomPen b.atom, b.proximal⟩ : Block n ℝ)) v := by
  induction bs generalizing v with
  | nil => rfl
  | cons b bs ih =>
    rw [List.map_cons, List.map_cons, Separable.proxLoop, Separable.proxLoop]
    dsimp only [SepBlock.toBlock]
    cases b.proximal (q.restrict ⟨b.m + 1, b.idx⟩) with
    | ok w => exact ih _
    | valueError => rfl
    | typeError => rfl
    | scalarArgument => rfl
    | baseError => rfl

/-- **C91** on disjoint groups, with or without `shapes`, whatever `proximal(q)` returns is the unique minimiser of `q` plus the
documented sum over the blocks. -/
theorem C91_proximal (s : SepObj n) (hinj : ∀ b ∈ s.blocks, Function.Injective b.idx)
    (hdis : s.blocks.Pairwise fun a b => SelectDisjoint a.idx b.idx)
    (hv : ∀ b ∈ s.blocks, (∃ d r, InMode b.atom d r) ∧ b.atom.quad.coef = 0)
    (q : Quad (Fin n) ℝ) (hq : 0 < q.coef) (p : Fin n → ℝ) (hok : s.proximal q = .ok p) :
    IsUniqueMinTop (fun x => ((quadVal (some q) x : ℝ) : WithTop ℝ) + sepPen s.blocks x) p := by
  set bs' : List (Block n ℝ) := s.blocks.map fun b => ⟨⟨b.m + 1, b.idx⟩, atomPen b.atom, b.proximal⟩ with hbs
  have hz' : (Separable.mk bs').proximal q = .ok p := by
    rw [← hok]
    show _ = (Separable.mk (s.blocks.map SepBlock.toBlock)).proximal q
    unfold Separable.proximal
    cases coneProximal some none (⟨0, some (.scalar 0), some (.scalar 0), 0⟩ : Quad (Fin n) ℝ) (some q) with
    | ok v => exact (loop_pen q s.blocks v).symm
    | valueError => rfl
    | typeError => rfl
    | scalarArgument => rfl
    | baseError => rfl
  have hd : GroupsDisjoint bs' := by
    refine ⟨fun b hb => ?_, ?_⟩
    · obtain ⟨d, hd, rfl⟩ := List.mem_map.1 hb
      exact hinj d hd
    · rw [hbs, List.pairwise_map]
      exact hdis
  have := C37_proximal (Separable.mk bs') hd (fun b => b.nonsmooth) (fun b hb => by
    obtain ⟨c, hc, rfl⟩ := List.mem_map.1 hb
    obtain ⟨⟨d, r, hm⟩, hq0⟩ := hv c hc
    intro Q z hQ hz
    have h := atom_correct c.atom d r hm hq0 Q z hQ (block_ok c Q z hz)
    dsimp only
    rw [atomPen_mode c.atom d r hm]
    exact h) q hq p hz'
  simp only [hbs, List.map_map] at this
  exact this

private lemma loop_total' (q : Quad (Fin n) ℝ) (bs : List (SepBlock n))
    (h : ∀ b ∈ bs, ∃ w, b.proximal (q.restrict ⟨b.m + 1, b.idx⟩) = .ok w) (v : Fin n → ℝ) :
    ∃ z, Separable.proxLoop q (bs.map SepBlock.toBlock) v = .ok z := by
  induction bs generalizing v with
  | nil => exact ⟨v, rfl⟩
  | cons b bs ih =>
    obtain ⟨w, hw⟩ := h b List.mem_cons_self
    obtain ⟨z, hz⟩ := ih (fun d hd => h d (List.mem_cons_of_mem _ hd)) (Selector.put ⟨b.m + 1, b.idx⟩ v w)
    refine ⟨z, ?_⟩
    rw [List.map_cons, Separable.proxLoop]
    dsimp only [SepBlock.toBlock]
    rw [hw]
    exact hz

private lemma restrict_linear (q : Quad (Fin n) ℝ) (w : Fin n → ℝ) (hw : q.linear = some (.arr w)) (g : Selector n) :
    (q.restrict g).linear = some (.arr (g.take w)) := by
  unfold Quad.restrict
  dsimp only
  rw [hw]

private lemma restrict_center (q : Quad (Fin n) ℝ) (g : Selector n) (c : Fin g.len → ℝ) (h : (q.restrict g).center = some (.arr c)) :
    ∃ c', q.center = some (.arr c') := by
  unfold Quad.restrict at h
  dsimp only at h
  rcases hc : q.center with _ | (d | d)
  · rw [hc] at h; simp at h
  · rw [hc] at h; simp at h
  · exact ⟨d, rfl⟩

/-- **C91** `proximal(q)` returns a point for every quadratic with a positive coefficient and an array as linear term, provided no
group is given another shape, or the center is not an array. -/
theorem C91_proximal_total (s : SepObj n) (hv : ∀ b ∈ s.blocks, (∃ d r, InMode b.atom d r) ∧ b.atom.quad.coef = 0)
    (q : Quad (Fin n) ℝ) (hq : 0 < q.coef) (w : Fin n → ℝ) (hw : q.linear = some (.arr w))
    (hs : (∀ b ∈ s.blocks, b.shape ≠ .other) ∨ ∀ c, q.center ≠ some (.arr c)) :
    ∃ p, s.proximal q = .ok p := by
  have hz : ∃ v, coneProximal some none (⟨0, some (.scalar 0), some (.scalar 0), 0⟩ : Quad (Fin n) ℝ) (some q) = .ok v := by
    cases n with
    | succ n =>
      exact prox_total (fun _ _ _ => none) (fun a _ => some a) (.bound 0) (fun arg L _ => ⟨arg, rfl⟩) none
        (⟨0, some (.scalar 0), some (.scalar 0), 0⟩ : Quad (Fin (n + 1)) ℝ) q w hw (by simpa using hq)
    | zero =>
      unfold coneProximal Quad.recenter Quad.add Quad.collapsed Quad.collapsedLinear
      simp only [hw]
      rcases q.center with _ | (c | c) <;> simp [PyVec.map₂, hq.ne'] <;> exact ⟨_, rfl⟩
  obtain ⟨v, hv0⟩ := hz
  unfold SepObj.proximal Separable.proximal
  rw [hv0]
  refine loop_total' q s.blocks (fun b hb => ?_) v
  obtain ⟨⟨d, r, hm⟩, hq0⟩ := hv b hb
  have hl := restrict_linear q w hw ⟨b.m + 1, b.idx⟩
  obtain ⟨p, hp, -⟩ := obj_prox b.atom d r hm (q.restrict ⟨b.m + 1, b.idx⟩) _ hl (by rw [hq0, zero_add]; exact hq)
  refine ⟨p, ?_⟩
  unfold SepBlock.proximal
  cases hsh : b.shape with
  | none => exact hp
  | same => simp only [hl]; exact hp
  | other =>
    rcases hs with hs | hs
    · exact absurd hsh (hs b hb)
    · rcases hcen : (q.restrict ⟨b.m + 1, b.idx⟩).center with _ | (c | c)
      · simp only [hl]; exact hp
      · simp only [hl]; exact hp
      · obtain ⟨c', hc'⟩ := restrict_center q _ c hcen
        exact absurd hc' (hs c')

private lemma add_center (q r : Quad (Fin n) ℝ) : (q.add (some r)).center = some (.scalar 0) := rfl

private lemma add_linear_arr (q r : Quad (Fin n) ℝ) (w : Fin n → ℝ) (hw : q.linear = some (.arr w)) :
    ∃ l, (q.add (some r)).linear = some (.arr l) := by
  show ∃ l, some (PyVec.map₂ (· + ·) q.collapsedLinear r.collapsedLinear) = some (.arr l)
  have : ∃ l, q.collapsedLinear = .arr l := by
    unfold Quad.collapsedLinear
    rw [hw]
    rcases q.center with _ | (c | c) <;> exact ⟨_, rfl⟩
  obtain ⟨l, hl⟩ := this
  rw [hl]
  cases r.collapsedLinear <;> exact ⟨_, rfl⟩

/-- **C91** inside a problem (`simple_problem.proximal` adds the quadratics of the loss and of the problem to the query first) the
proximal map of a separable penalty with reshaped groups always returns the unique minimiser. -/
theorem C91_shapes_in_problem (s : SepObj n) (hinj : ∀ b ∈ s.blocks, Function.Injective b.idx)
    (hdis : s.blocks.Pairwise fun a b => SelectDisjoint a.idx b.idx)
    (hv : ∀ b ∈ s.blocks, (∃ d r, InMode b.atom d r) ∧ b.atom.quad.coef = 0)
    (q ql qp : Quad (Fin n) ℝ) (hq : 0 < q.coef + ql.coef + qp.coef) (w : Fin n → ℝ) (hw : q.linear = some (.arr w)) :
    ∃ p, s.proximal ((q.add (some ql)).add (some qp)) = .ok p ∧
      IsUniqueMinTop (fun x => ((quadVal (some ((q.add (some ql)).add (some qp))) x : ℝ) : WithTop ℝ) + sepPen s.blocks x) p := by
  obtain ⟨l1, h1⟩ := add_linear_arr q ql w hw
  obtain ⟨l2, h2⟩ := add_linear_arr (q.add (some ql)) qp l1 h1
  obtain ⟨p, hp⟩ := C91_proximal_total s hv ((q.add (some ql)).add (some qp)) hq l2 h2 (Or.inr fun c => by rw [add_center]; simp)
  exact ⟨p, hp, C91_proximal s hinj hdis hv _ hq p hp⟩

/-- **C91** fails with `shapes` outside a problem: when a group has another shape, `proximal(q)` never returns for a quadratic
whose center and linear term are both arrays (the query of FISTA), nor for one whose linear term is a number. -/
theorem C91_shapes_fails (s : SepObj n) (b : SepBlock n) (hb : b ∈ s.blocks) (hs : b.shape = .other) (q : Quad (Fin n) ℝ)
    (h : (∃ c w, q.center = some (.arr c) ∧ q.linear = some (.arr w)) ∨ ∀ w, q.linear ≠ some (.arr w)) :
    ∀ p, s.proximal q ≠ .ok p := by
  intro p hp
  have hblk : ∀ w, b.proximal (q.restrict ⟨b.m + 1, b.idx⟩) ≠ .ok w := by
    intro w hw
    unfold SepBlock.proximal at hw
    rw [hs] at hw
    rcases h with ⟨c, l, hc, hl⟩ | h
    · have h1 : (q.restrict ⟨b.m + 1, b.idx⟩).center = some (.arr (Selector.take ⟨b.m + 1, b.idx⟩ c)) := by
        unfold Quad.restrict; dsimp only; rw [hc]
      rw [restrict_linear q l hl, h1] at hw
      cases hw
    · have : ∀ l, (q.restrict ⟨b.m + 1, b.idx⟩).linear ≠ some (.arr l) := by
        intro l hl
        unfold Quad.restrict at hl
        dsimp only at hl
        rcases hq : q.linear with _ | (d | d)
        · rw [hq] at hl; simp at hl
        · rw [hq] at hl; simp at hl
        · exact h d hq
      rcases hq : (q.restrict ⟨b.m + 1, b.idx⟩).linear with _ | (d | d)
      · rw [hq] at hw; simp at hw
      · rw [hq] at hw; simp at hw
      · exact this d hq
  unfold SepObj.proximal Separable.proximal at hp
  have hloop : ∀ (bs : List (SepBlock n)) v, b ∈ bs → Separable.proxLoop q (bs.map SepBlock.toBlock) v ≠ .ok p := by
    intro bs
    induction bs with
    | nil => intro v h; cases h
    | cons c bs ih =>
      intro v hm he
      rw [List.map_cons, Separable.proxLoop] at he
      dsimp only [SepBlock.toBlock] at he
      rcases List.mem_cons.1 hm with rfl | hm
      · cases hc : b.proximal (q.restrict ⟨b.m + 1, b.idx⟩) with
        | ok w => exact hblk w hc
        | valueError => rw [hc] at he; cases he
        | typeError => rw [hc] at he; cases he
        | scalarArgument => rw [hc] at he; cases he
        | baseError => rw [hc] at he; cases he
      · cases hc : c.proximal (q.restrict ⟨c.m + 1, c.idx⟩) with
        | ok w => rw [hc] at he; exact ih _ hm he
        | valueError => rw [hc] at he; cases he
        | typeError => rw [hc] at he; cases he
        | scalarArgument => rw [hc] at he; cases he
        | baseError => rw [hc] at he; cases he
  cases hz : coneProximal some none (⟨0, some (.scalar 0), some (.scalar 0), 0⟩ : Quad (Fin n) ℝ) (some q) with
  | ok v => rw [hz] at hp; exact hloop s.blocks v hb hp
  | valueError => rw [hz] at hp; cases hp
  | typeError => rw [hz] at hp; cases hp
  | scalarArgument => rw [hz] at hp; cases hp
  | baseError => rw [hz] at hp; cases hp

/-! ### Moreau decomposition -/

private lemma prox_vi {f : (Fin n → ℝ) → WithTop ℝ} (hf : ConvexTop f) {L : ℝ} (hL : 0 < L) {x p : Fin n → ℝ}
    (hmin : IsUniqueMinTop (fun z => ((L / 2 * sqDist z x : ℝ) : WithTop ℝ) + f z) p) {a : ℝ} (ha : f p = a)
    (z : Fin n → ℝ) (c : ℝ) (hc : f z = c) : a + dot (fun i => L * (x i - p i)) (fun i => z i - p i) ≤ c := by
  set D := L / 2 * ∑ i, (z i - p i) ^ 2 with hD
  have hD0 : 0 ≤ D := mul_nonneg (by positivity) (Finset.sum_nonneg fun i _ => sq_nonneg _)
  set A := c - a - dot (fun i => L * (x i - p i)) (fun i => z i - p i) with hA
  have key : ∀ t : ℝ, 0 < t → t ≤ 1 → 0 ≤ A + t * D := by
    intro t ht ht1
    obtain ⟨e, he, hle⟩ := hf p z a c ha hc t ht.le ht1
    have hm : L / 2 * sqDist p x + a ≤ L / 2 * sqDist (fun i => (1 - t) * p i + t * z i) x + e := by
      by_cases heq : (fun i => (1 - t) * p i + t * z i) = p
      · rw [heq] at he ⊢
        rw [ha] at he
        rw [WithTop.coe_inj.1 he]
      · have := hmin.2 _ heq
        simp only [ha, he] at this
        exact_mod_cast this.le
    have e1 : sqDist (fun i => (1 - t) * p i + t * z i) x = sqDist p x + 2 * t * (∑ i, (p i - x i) * (z i - p i)) +
        t ^ 2 * ∑ i, (z i - p i) ^ 2 := by
      unfold sqDist
      rw [Finset.mul_sum, Finset.mul_sum, ← Finset.sum_add_distrib, ← Finset.sum_add_distrib]
      exact Finset.sum_congr rfl fun i _ => by ring
    have e2 : dot (fun i => L * (x i - p i)) (fun i => z i - p i) = -(L * ∑ i, (p i - x i) * (z i - p i)) := by
      unfold dot
      rw [Finset.mul_sum, ← Finset.sum_neg_distrib]
      exact Finset.sum_congr rfl fun i _ => by ring
    rw [e1] at hm
    have h2 : 0 ≤ t * (A + t * D) := by
      rw [hA, hD, e2]
      nlinarith
    by_contra hneg
    have : t * (A + t * D) < 0 := mul_neg_of_pos_of_neg ht (not_le.1 hneg)
    linarith
  by_contra hneg
  have hA0 : A < 0 := by rw [hA]; linarith [not_le.1 hneg]
  have hpos : 0 < D + 1 := by linarith
  set t := min 1 (-A / (2 * (D + 1))) with ht
  have ht0 : 0 < t := lt_min one_pos (div_pos (by linarith) (by linarith))
  have h1 := key t ht0 (min_le_left _ _)
  have h2 : t * D ≤ -A / (2 * (D + 1)) * D := mul_le_mul_of_nonneg_right (min_le_right _ _) hD0
  have h3 : -A / (2 * (D + 1)) * D ≤ -A / 2 := by
    rw [div_mul_eq_mul_div, div_le_div_iff₀ (by linarith) (by norm_num)]
    nlinarith
  linarith

/-- **C91** Moreau decomposition of any convex function with values in `ℝ ∪ {+∞}` and its conjugate: if `p` minimises
`L/2‖z-x‖² + f` then `L(x-p)` is the unique minimiser of `1/(2L)‖w-Lx‖² + f*`. -/
theorem C91_moreau_generic {f g : (Fin n → ℝ) → WithTop ℝ} (hc : IsConjugate f g) (hf : ConvexTop f) {L : ℝ} (hL : 0 < L)
    {x p : Fin n → ℝ} (hmin : IsUniqueMinTop (fun z => ((L / 2 * sqDist z x : ℝ) : WithTop ℝ) + f z) p) :
    IsUniqueMinTop (fun w => ((1 / L / 2 * sqDist w (fun i => L * x i) : ℝ) : WithTop ℝ) + g w) (fun i => L * (x i - p i)) := by
  obtain ⟨a, ha⟩ := WithTop.ne_top_iff_exists.1 (WithTop.add_ne_top.1 hmin.1).2
  set u : Fin n → ℝ := fun i => L * (x i - p i) with hu
  have hvi := fun z c hz => prox_vi hf hL hmin ha.symm z c hz
  have hdot : ∀ z, dot u (fun i => z i - p i) = dot z u - dot p u := by
    intro z; unfold dot; rw [← Finset.sum_sub_distrib]; exact Finset.sum_congr rfl fun i _ => by ring
  have hgreat : IsGreatest {t : ℝ | ∃ x a, f x = ((a : ℝ) : WithTop ℝ) ∧ t = dot x u - a} (dot p u - a) := by
    refine ⟨⟨p, a, ha.symm, rfl⟩, ?_⟩
    rintro t ⟨z, c, hz, rfl⟩
    have := hvi z c hz
    rw [hdot] at this
    linarith
  have hgu : g u = ((dot p u - a : ℝ) : WithTop ℝ) := by
    cases h : g u with
    | top => exact absurd ⟨_, hgreat.2⟩ ((hc u).2 h)
    | coe v => rw [((hc u).1 v h).unique hgreat.isLUB]
  refine ⟨?_, fun w hw => ?_⟩
  · dsimp only
    rw [hgu, ← WithTop.coe_add]
    exact WithTop.coe_ne_top
  · dsimp only
    rw [hgu]
    cases h : g w with
    | top => rw [WithTop.add_top, ← WithTop.coe_add]; exact WithTop.coe_lt_top _
    | coe b =>
      rw [← WithTop.coe_add, ← WithTop.coe_add, WithTop.coe_lt_coe]
      have hb : dot p w - a ≤ b := ((hc w).1 b h).1 ⟨p, a, ha.symm, rfl⟩
      have e1 : sqDist w (fun i => L * x i) = sqDist w u - 2 * L * (dot p w - dot p u) + L ^ 2 * ∑ i, p i ^ 2 := by
        unfold sqDist dot
        rw [← Finset.sum_sub_distrib, Finset.mul_sum, Finset.mul_sum, ← Finset.sum_sub_distrib, ← Finset.sum_add_distrib]
        exact Finset.sum_congr rfl fun i _ => by simp only [hu]; ring
      have e2 : sqDist u (fun i => L * x i) = L ^ 2 * ∑ i, p i ^ 2 := by
        unfold sqDist
        rw [Finset.mul_sum]
        exact Finset.sum_congr rfl fun i _ => by simp only [hu]; ring
      have hpos : 0 < sqDist w u := sqDist_pos hw
      rw [e1, e2]
      have e3 : 1 / L / 2 * (sqDist w u - 2 * L * (dot p w - dot p u) + L ^ 2 * ∑ i, p i ^ 2) =
          1 / L / 2 * sqDist w u - (dot p w - dot p u) + 1 / L / 2 * (L ^ 2 * ∑ i, p i ^ 2) := by
        field_simp
      rw [e3]
      have : 0 < 1 / L / 2 * sqDist w u := by positivity
      linarith

private lemma sum_convex' (bs : List (SepBlock n)) (h : ∀ b ∈ bs, ConvexTop (atomPen b.atom)) : ConvexTop (sepPen bs) := by
  induction bs with
  | nil =>
    intro u v a b hu hv t ht ht1
    have ha : (0 : ℝ) = a := WithTop.coe_inj.1 hu
    have hb : (0 : ℝ) = b := WithTop.coe_inj.1 hv
    exact ⟨0, rfl, by rw [← ha, ← hb]; simp⟩
  | cons b bs ih =>
    have hs : ∀ x, sepPen (b :: bs) x = atomPen b.atom (fun j => x (b.idx j)) + sepPen bs x := fun x => by
      unfold sepPen; rw [List.map_cons, List.sum_cons]
    intro u v a c hu hv t ht ht1
    rw [hs] at hu hv
    obtain ⟨u1, u2, hu1, hu2, hu3⟩ := split_top hu
    obtain ⟨v1, v2, hv1, hv2, hv3⟩ := split_top hv
    obtain ⟨c1, h1, h2⟩ := h b List.mem_cons_self _ _ u1 v1 hu1 hv1 t ht ht1
    obtain ⟨c2, h3, h4⟩ := ih (fun d hd => h d (List.mem_cons_of_mem _ hd)) u v u2 v2 hu2 hv2 t ht ht1
    refine ⟨c1 + c2, ?_, by rw [← hu3, ← hv3]; linarith⟩
    rw [hs, h3, WithTop.coe_add]
    congr 1

private lemma unique_top {α : Type*} {F : α → WithTop ℝ} {p q : α} (hp : IsUniqueMinTop F p) (hq : IsUniqueMinTop F q) : p = q := by
  by_contra h
  exact absurd (hp.2 q (Ne.symm h)) (not_lt.2 (hq.2 p h).le)

/-- the query `(L/2)‖z - x‖²`, whether its linear term is absent, the number 0 or an array of zeros -/
def QueryAt (q : Quad (Fin n) ℝ) (L : ℝ) (x : Fin n → ℝ) : Prop :=
  q.coef = L ∧ denote q.center = x ∧ (∀ i, denote q.linear i = 0) ∧ q.const = 0

private lemma query_val' {q : Quad (Fin n) ℝ} {L : ℝ} {x : Fin n → ℝ} (h : QueryAt q L x) (z : Fin n → ℝ) :
    quadVal (some q) z = L / 2 * sqDist z x := by
  obtain ⟨rfl, rfl, h3, h4⟩ := h
  have : quadVal (some q) z = q.coef / 2 * sqDist z (denote q.center) + dot (denote q.linear) z + q.const := rfl
  rw [this, h4]
  simp [dot, h3]

/-- **C91** Moreau decomposition: on groups that select each coordinate exactly once, the proximal maps of a separable penalty and of
its `conjugate` satisfy `x = prox_f(L, x) + prox_{f*}(1/L, L x) / L`. -/
theorem C91_moreau (s : SepObj n) (hq : s.quad.coef = 0) (hp : GroupsPartition s.blocks) (hv : ∀ b ∈ s.blocks, ValidAtom b.atom)
    (c : SepObj n) (hc : s.conjugate = .sep c) (L : ℝ) (hL : 0 < L) (x p u : Fin n → ℝ) (q1 q2 : Quad (Fin n) ℝ)
    (hq1 : QueryAt q1 L x) (hq2 : QueryAt q2 (1 / L) fun i => L * x i)
    (h1 : s.proximal q1 = .ok p) (h2 : c.proximal q2 = .ok u) (i : Fin n) : p i + u i / L = x i := by
  obtain ⟨c', hc', -, -, hg, hm, hconj⟩ := C91_conjugate_partial s hq hp hv
  rw [hc] at hc'
  injection hc' with hc'
  subst hc'
  have m1 := C91_proximal s hp.1 hp.2.1 (fun b hb => ⟨(hv b hb).1, (hv b hb).2.1⟩) _ (by rw [hq1.1]; exact hL) p h1
  simp only [query_val' hq1] at m1
  have hcv : ConvexTop (sepPen s.blocks) := sum_convex' s.blocks fun b hb => by
    obtain ⟨⟨d, r, hmd⟩, -⟩ := hv b hb
    rw [atomPen_mode b.atom d r hmd]
    exact denoteAtom_convex b.atom d hmd.1
  have m2 := C91_moreau_generic hconj hcv hL m1
  have hgc : (∀ b ∈ c.blocks, Function.Injective b.idx) ∧ c.blocks.Pairwise fun a b => SelectDisjoint a.idx b.idx := by
    have hl : ∀ g ∈ c.blocks.map (fun c => (⟨c.m + 1, c.idx⟩ : Selector n)), Function.Injective g.idx := by
      have : c.blocks.map (fun c => (⟨c.m + 1, c.idx⟩ : Selector n)) = s.blocks.map fun b => ⟨b.m + 1, b.idx⟩ := by
        have := congrArg (List.map Prod.fst) hg
        simpa [List.map_map, Function.comp_def] using this
      rw [this]
      intro g hg
      obtain ⟨b, hb, rfl⟩ := List.mem_map.1 hg
      exact hp.1 b hb
    have hl2 : (c.blocks.map (fun c => (⟨c.m + 1, c.idx⟩ : Selector n))).Pairwise fun a b => SelectDisjoint a.idx b.idx := by
      have : c.blocks.map (fun c => (⟨c.m + 1, c.idx⟩ : Selector n)) = s.blocks.map fun b => ⟨b.m + 1, b.idx⟩ := by
        have := congrArg (List.map Prod.fst) hg
        simpa [List.map_map, Function.comp_def] using this
      rw [this, List.pairwise_map]
      exact hp.2.1
    rw [List.pairwise_map] at hl2
    exact ⟨fun b hb => hl _ (List.mem_map_of_mem hb), hl2⟩
  have m3 := C91_proximal c hgc.1 hgc.2 (fun b hb => (hm b hb).symm) _ (by rw [hq2.1]; positivity) u h2
  simp only [query_val' hq2] at m3
  rw [unique_top m3 m2]
  field_simp
  ring

/-! ### where the conjugate and the smoothing fail -/

private lemma sep_proper (bs : List (SepBlock n)) (hinj : ∀ b ∈ bs, Function.Injective b.idx)
    (hdis : bs.Pairwise fun a b => SelectDisjoint a.idx b.idx) (hv : ∀ b ∈ bs, ∃ d r, InMode b.atom d r) :
    ∃ (x : Fin n → ℝ) (a : ℝ), sepPen bs x = a := by
  induction bs with
  | nil => exact ⟨fun _ => 0, 0, rfl⟩
  | cons b bs ih =>
    rw [List.pairwise_cons] at hdis
    obtain ⟨x, a, ha⟩ := ih (fun c hc => hinj c (List.mem_cons_of_mem _ hc)) hdis.2 fun c hc => hv c (List.mem_cons_of_mem _ hc)
    obtain ⟨d, r, hm⟩ := hv b List.mem_cons_self
    obtain ⟨w, hw⟩ := atomPen_proper b.atom d r hm
    obtain ⟨a', ha'⟩ := WithTop.ne_top_iff_exists.1 hw
    let g : Selector n := ⟨b.m + 1, b.idx⟩
    refine ⟨g.put x w, a' + a, ?_⟩
    have e1 : (fun j => g.put x w (b.idx j)) = w := by
      funext j; exact put_mem g (hinj b List.mem_cons_self) x w j
    have e2 : sepPen bs (g.put x w) = sepPen bs x := by
      unfold sepPen
      congr 1
      refine List.map_congr_left fun c hc => ?_
      congr 1
      funext j
      exact put_not_mem g x w _ fun k => hdis.1 c hc k j
    have : sepPen (b :: bs) (g.put x w) = atomPen b.atom (fun j => g.put x w (b.idx j)) + sepPen bs (g.put x w) := by
      unfold sepPen; rw [List.map_cons, List.sum_cons]
    rw [this, e1, e2, ha, atomPen_mode b.atom d r hm, ← ha', WithTop.coe_add]

private lemma sepPen_free (bs : List (SepBlock n)) (i : Fin n) (hi : ∀ b ∈ bs, ∀ j, b.idx j ≠ i) (x : Fin n → ℝ) (t : ℝ) :
    sepPen bs (Function.update x i t) = sepPen bs x := by
  unfold sepPen
  congr 1
  refine List.map_congr_left fun b hb => ?_
  congr 1
  funext j
  exact Function.update_of_ne (hi b hb j) _ _

/-- **C91** fails on penalties that leave a coordinate free: whatever the atoms, if some coordinate is in no group then the object
returned by `conjugate` does not denote the conjugate (which is infinite where that coordinate is not 0). -/
theorem C91_conjugate_fails (s : SepObj n) (hq : s.quad.coef = 0) (hinj : ∀ b ∈ s.blocks, Function.Injective b.idx)
    (hdis : s.blocks.Pairwise fun a b => SelectDisjoint a.idx b.idx)
    (hv : ∀ b ∈ s.blocks, (∃ d r, InMode b.atom d r) ∧ b.atom.quad.coef = 0)
    (i : Fin n) (hi : ∀ b ∈ s.blocks, ∀ j, b.idx j ≠ i) :
    ∃ c, s.conjugate = .sep c ∧ ¬ IsConjugate (sepPen s.blocks) (sepPen c.blocks) := by
  obtain ⟨l, h1, h2⟩ := conjBlocks_ok s.blocks hv
  refine ⟨⟨l, unsetQuad, some fun _ => 0⟩, by unfold SepObj.conjugate; rw [if_pos hq, h1], fun hcon => ?_⟩
  have hg : l.map (fun c => (⟨c.m + 1, c.idx⟩ : Selector n)) = s.blocks.map fun b => ⟨b.m + 1, b.idx⟩ := by
    have := congrArg (List.map Prod.fst) (groups_conj h2)
    simpa [List.map_map, Function.comp_def] using this
  have hl : ∀ c ∈ l, ∃ b ∈ s.blocks, (⟨b.m + 1, b.idx⟩ : Selector n) = ⟨c.m + 1, c.idx⟩ := by
    intro c hc
    have : (⟨c.m + 1, c.idx⟩ : Selector n) ∈ s.blocks.map fun b => (⟨b.m + 1, b.idx⟩ : Selector n) := by
      rw [← hg]; exact List.mem_map_of_mem hc
    exact List.mem_map.1 this
  have hlinj : ∀ c ∈ l, Function.Injective c.idx := by
    intro c hc
    obtain ⟨b, hb, e⟩ := hl c hc
    have h : Function.Injective (⟨c.m + 1, c.idx⟩ : Selector n).idx := by rw [← e]; exact hinj b hb
    exact h
  have hldis : l.Pairwise fun a b => SelectDisjoint a.idx b.idx := by
    have h : (l.map (fun c => (⟨c.m + 1, c.idx⟩ : Selector n))).Pairwise fun a b => SelectDisjoint a.idx b.idx := by
      rw [hg, List.pairwise_map]; exact hdis
    rw [List.pairwise_map] at h
    exact h
  have hli : ∀ c ∈ l, ∀ j, c.idx j ≠ i := by
    intro c hc
    obtain ⟨b, hb, e⟩ := hl c hc
    have h : ∀ j, (⟨c.m + 1, c.idx⟩ : Selector n).idx j ≠ i := by rw [← e]; exact hi b hb
    exact h
  obtain ⟨x, a, ha⟩ := sep_proper s.blocks hinj hdis fun b hb => (hv b hb).1
  obtain ⟨y, v, hy⟩ := sep_proper l hlinj hldis fun c hc => (conj_members h2 hv c hc).1
  have hy' : sepPen l (Function.update y i 1) = v := by rw [sepPen_free l i hli]; exact hy
  have hub := ((hcon (Function.update y i 1)).1 v hy').1
  have key : ∀ t : ℝ, t + (∑ j ∈ Finset.univ.erase i, x j * y j) - a ≤ v := by
    intro t
    refine hub ⟨Function.update x i t, a, by rw [sepPen_free s.blocks i hi]; exact ha, ?_⟩
    congr 1
    unfold dot
    rw [← Finset.add_sum_erase _ _ (Finset.mem_univ i)]
    simp only [Function.update_self, mul_one]
    congr 1
    exact Finset.sum_congr rfl fun j hj => by rw [Function.update_of_ne (Finset.ne_of_mem_erase hj), Function.update_of_ne (Finset.ne_of_mem_erase hj)]
  have := key (v + a - (∑ j ∈ Finset.univ.erase i, x j * y j) + 1)
  linarith

/-- **C91** fails for smoothing: `smoothed(q)` of any separable penalty is built without complaint, and every evaluation of it (value,
gradient, or both) raises ValueError, because `separable.proximal` does not see the quadratic put on the object. -/
theorem C91_smoothed_fails (s : SepObj n) (hq : s.quad.coef = 0)
    (hv : ∀ b ∈ s.blocks, (∃ d r, InMode b.atom d r) ∧ b.atom.quad.coef = 0) (q : Quad (Fin n) ℝ) (hqc : q.coef ≠ 0) :
    ∃ t, s.smoothed q = .smooth t ∧ ∀ x, t.smoothObjective x = (.valueError, none) := by
  obtain ⟨l, h1, h2⟩ := conjBlocks_ok s.blocks hv
  have hc : s.conjugate = .sep ⟨l, unsetQuad, some fun _ => 0⟩ := by unfold SepObj.conjugate; rw [if_pos hq, h1]
  have hcoef : (q.add (some (unsetQuad : Quad (Fin n) ℝ))).coef = q.coef := by
    show q.coef + 0 = q.coef
    ring
  refine ⟨⟨⟨l, q.add (some unsetQuad), some fun _ => 0⟩⟩, ?_, fun x => ?_⟩
  · unfold SepObj.smoothed
    rw [hc]
    simp only
    rw [if_neg hqc]
    unfold SepObj.conjugate
    rw [if_neg (by rw [show (({ blocks := l, quad := q.add (some unsetQuad), coefs := some fun _ => 0 } : SepObj n)).quad.coef = q.coef from hcoef]; exact hqc), if_neg]
    show q.coef + 0 + 0 ≠ 0
    rw [add_zero, add_zero]
    exact hqc
  · have hz : coneProximal some none (⟨0, some (.scalar 0), some (.scalar 0), 0⟩ : Quad (Fin n) ℝ) (some (SepSmooth.query x)) =
        .valueError := by
      unfold coneProximal Quad.recenter
      simp only
      rw [if_pos]
      show (0 : ℝ) + (0 + 0) = 0
      ring
    have hp : SepObj.proximal (⟨l, q.add (some unsetQuad), some fun _ => 0⟩ : SepObj n) (SepSmooth.query x) = .valueError := by
      unfold SepObj.proximal Separable.proximal
      rw [hz]
    unfold SepSmooth.smoothObjective SepObj.solve
    simp only
    rw [hp]
    rfl

/-- **C91** fails for an own quadratic: unlike every other atom, `nonsmooth_objective` and `proximal` of a separable penalty do not
depend on the quadratic assigned to it. -/
theorem C91_quadratic_fails (s : SepObj n) (own : Quad (Fin n) ℝ) :
    (∀ x cf, ({ s with quad := own } : SepObj n).nonsmoothObjective x cf = s.nonsmoothObjective x cf) ∧
      (∀ q, ({ s with quad := own } : SepObj n).proximal q = s.proximal q) ∧
      (own.coef ≠ 0 → ∃ t, ({ s with quad := own } : SepObj n).conjugate = .smooth t ∧
        ∀ x, t.smoothObjective x = (.valueError, none)) := by
  refine ⟨fun _ _ => rfl, fun _ => rfl, fun h => ⟨⟨{ s with quad := own }⟩, ?_, fun x => ?_⟩⟩
  · unfold SepObj.conjugate
    rw [if_neg h, if_neg]
    show own.coef + 0 ≠ 0
    rw [add_zero]; exact h
  · have hz : coneProximal some none (⟨0, some (.scalar 0), some (.scalar 0), 0⟩ : Quad (Fin n) ℝ) (some (SepSmooth.query x)) =
        .valueError := by
      unfold coneProximal Quad.recenter
      simp only
      rw [if_pos]
      show (0 : ℝ) + (0 + 0) = 0
      ring
    have hp : SepObj.proximal ({ s with quad := own } : SepObj n) (SepSmooth.query x) = .valueError := by
      unfold SepObj.proximal Separable.proximal
      rw [hz]
    unfold SepSmooth.smoothObjective SepObj.solve
    simp only
    rw [hp]
    rfl

/-! ### values -/

private lemma fold_some {α : Type*} (bs : List α) (f : α → Option (WithTop ℝ)) (g : α → WithTop ℝ)
    (h : ∀ b ∈ bs, f b = some (g b)) (v : WithTop ℝ) :
    bs.foldl (fun value b => value.bind fun v => (f b).map fun w => v + w) (some v) = some (v + (bs.map g).sum) := by
  induction bs generalizing v with
  | nil => simp
  | cons b bs ih =>
    rw [List.foldl_cons, h b List.mem_cons_self]
    show bs.foldl _ (some (v + g b)) = _
    rw [ih (fun c hc => h c (List.mem_cons_of_mem _ hc)), List.map_cons, List.sum_cons, add_assoc]

/-- **C91** value: `nonsmooth_objective` of a separable penalty is the documented sum over the blocks, `+∞` included.  Each block is
either in Lagrange form with a class of full domain, or in bound form with the feasibility check on and the point not within the
relative tolerance `1e-5` outside the ball. -/
theorem C91_value (s : SepObj n) (x : Fin n → ℝ) (cf : Bool)
    (h : ∀ b ∈ s.blocks, b.atom.quad.coef = 0 ∧
      ((∃ r, InMode b.atom false r ∧ b.atom.klass ≠ .constrainedMax ∧ b.atom.klass ≠ .constrainedPositivePart) ∨
        (cf = true ∧ ∃ r, InMode b.atom true r ∧
          (b.atom.klass = .l1norm ∨ b.atom.klass = .supnorm ∨ b.atom.klass = .l2norm ∨ b.atom.klass = .positivePart) ∧
          ((fun i => x (b.idx i) - offAt b.atom.offset i) ∈ ballOf b.atom.klass r ∨
            (fun i => x (b.idx i) - offAt b.atom.offset i) ∉ ballOf b.atom.klass (r * (1 + 1 / 10 ^ 5)))))) :
    s.nonsmoothObjective x cf = some (sepPen s.blocks x) := by
  unfold SepObj.nonsmoothObjective
  rw [fold_some s.blocks (fun b => b.atom.nonsmoothObjective (b.take x) cf) (fun b => atomPen b.atom fun j => x (b.idx j))]
  · rw [zero_add]; rfl
  · intro b hb
    obtain ⟨hq, ⟨r, hm, hk⟩ | ⟨rfl, r, hm, hk, hx⟩⟩ := h b hb
    · rw [atomPen_mode b.atom false r hm]
      exact C13_value_lagrange b.atom r hm hq hk _ cf
    · rw [atomPen_mode b.atom true r hm]
      exact C13_value_bound b.atom r hm hq hk _ hx

/-- **C91** `constraint(x, bound)` of a separable penalty is 0 exactly when EVERY block is within `bound` (up to the relative
tolerance) and infinite otherwise. -/
theorem C91_constraint (s : SepObj n) (x : Fin n → ℝ) (bound : ℝ)
    (hk : ∀ b ∈ s.blocks, b.atom.klass = .l1norm ∨ b.atom.klass = .supnorm ∨ b.atom.klass = .l2norm ∨
      b.atom.klass = .positivePart) :
    ((∀ b ∈ s.blocks, (fun j => x (b.idx j)) ∈ ballOf b.atom.klass (bound * (1 + 1 / 10 ^ 5))) →
      s.constraint x (some bound) = some 0) ∧
    ((∃ b ∈ s.blocks, (fun j => x (b.idx j)) ∉ ballOf b.atom.klass (bound * (1 + 1 / 10 ^ 5))) →
      s.constraint x (some bound) = some ⊤) := by
  have e : s.constraint x (some bound) = some ((s.blocks.map fun b => b.atom.klass.constraint (b.take x) bound).sum) := by
    unfold SepObj.constraint
    have := fold_some s.blocks (fun b => some (b.atom.klass.constraint (b.take x) bound))
      (fun b => b.atom.klass.constraint (b.take x) bound) (fun _ _ => rfl) 0
    rw [zero_add] at this
    exact this
  have key : ∀ b ∈ s.blocks, ((fun j => x (b.idx j)) ∈ ballOf b.atom.klass (bound * (1 + 1 / 10 ^ 5)) →
      b.atom.klass.constraint (b.take x) bound = 0) ∧ ((fun j => x (b.idx j)) ∉ ballOf b.atom.klass (bound * (1 + 1 / 10 ^ 5)) →
      b.atom.klass.constraint (b.take x) bound = ⊤) := by
    intro b hb
    rcases hk b hb with h | h | h | h <;> rw [h] <;> exact ⟨fun h => if_pos h, fun h => if_neg h⟩
  rw [e]
  constructor
  · intro h
    congr 1
    refine List.sum_eq_zero fun t ht => ?_
    obtain ⟨b, hb, rfl⟩ := List.mem_map.1 ht
    exact (key b hb).1 (h b hb)
  · rintro ⟨b, hb, h⟩
    congr 1
    obtain ⟨l1, l2, hl⟩ := List.append_of_mem hb
    rw [hl, List.map_append, List.sum_append, List.map_cons, List.sum_cons, (key b hb).2 h, WithTop.top_add, WithTop.add_top]

/-- **C91** `seminorm(x, lagrange=l)` of a separable penalty of full-domain classes is `l` times the sum of the blocks' seminorms. -/
theorem C91_seminorm (s : SepObj n) (x : Fin n → ℝ) (l : ℝ) (cf : Bool)
    (hk : ∀ b ∈ s.blocks, b.atom.klass ≠ .constrainedMax ∧ b.atom.klass ≠ .constrainedPositivePart) :
    s.seminorm x (some l) cf = some ((s.blocks.map fun b => penalty b.atom.klass l fun j => x (b.idx j)).sum) := by
  unfold SepObj.seminorm
  have := fold_some s.blocks (fun b => some (b.atom.klass.seminorm (b.take x) l cf))
    (fun b => penalty b.atom.klass l fun j => x (b.idx j)) (fun b hb => by
      congr 1
      obtain ⟨h1, h2⟩ := hk b hb
      generalize b.atom.klass = k at h1 h2 ⊢
      cases k with
      | l1norm => rfl
      | supnorm => rfl
      | l2norm => rfl
      | positivePart => rfl
      | maxPositivePart => simp only [penalty, Klass.seminorm, MaxPosPart.seminorm]; rw [mul_comm]; rfl
      | constrainedMax => exact absurd rfl h1
      | constrainedPositivePart => exact absurd rfl h2) 0
  rw [zero_add] at this
  exact this

/-- an l1 block on one coordinate -/
private noncomputable def l1At (i : Fin 2) : SepBlock 2 := ⟨0, fun _ => i, ⟨.l1norm, ⟨some 1, none⟩, none, unsetQuad⟩, .none⟩

/-- **C91** fails for the constraint form: `constraint(x, bound)` accepts points whose `seminorm(x, lagrange=1)` exceeds the bound,
because every block gets the whole bound. -/
theorem C91_constraint_fails : ∃ (s : SepObj 2) (x : Fin 2 → ℝ), GroupsPartition s.blocks ∧ (∀ b ∈ s.blocks, ValidAtom b.atom) ∧
    s.seminorm x (some 1) true = some ((2 : ℝ) : WithTop ℝ) ∧ s.constraint x (some 1) = some 0 := by
  refine ⟨⟨[l1At 0, l1At 1], unsetQuad, none⟩, fun _ => 1, ?_, ?_, ?_, ?_⟩
  · refine ⟨?_, ?_, ?_⟩
    · intro b hb
      simp only [List.mem_cons, List.not_mem_nil, or_false] at hb
      rcases hb with rfl | rfl <;> exact fun a b _ => Subsingleton.elim (α := Fin 1) a b
    · simp only [List.pairwise_cons, List.mem_cons, List.not_mem_nil, or_false, forall_eq, List.Pairwise.nil, and_true]
      exact ⟨fun _ _ h => absurd (show (0 : Fin 2) = 1 from h) (by decide), fun _ h => h.elim⟩
    · intro i
      have h : i = 0 ∨ i = 1 := by omega
      rcases h with rfl | rfl
      · exact ⟨l1At 0, by simp, 0, rfl⟩
      · exact ⟨l1At 1, by simp, 0, rfl⟩
  · intro b hb
    simp only [List.mem_cons, List.not_mem_nil, or_false] at hb
    rcases hb with rfl | rfl <;> exact ⟨⟨false, 1, zero_le_one, rfl⟩, rfl, fun c h => by simp [l1At] at h⟩
  · rw [C91_seminorm]
    · simp only [List.map_cons, List.map_nil, List.sum_cons, List.sum_nil, l1At, penalty]
      rw [add_zero, ← WithTop.coe_add]
      congr 2
      norm_num
    · intro b hb
      simp only [List.mem_cons, List.not_mem_nil, or_false] at hb
      rcases hb with rfl | rfl <;> simp [l1At]
  · refine (C91_constraint _ _ 1 ?_).1 ?_
    · intro b hb
      simp only [List.mem_cons, List.not_mem_nil, or_false] at hb
      rcases hb with rfl | rfl <;> simp [l1At]
    · intro b hb
      simp only [List.mem_cons, List.not_mem_nil, or_false] at hb
      rcases hb with rfl | rfl <;>
      · show ∑ _ : Fin 1, |(1 : ℝ)| ≤ 1 * (1 + 1 / 10 ^ 5)
        norm_num

/-! ### construction -/

/-- **C91** construction without `initial`: the object keeps the atoms, groups and shapes, has no quadratic of its own, starts at 0 and
can be the penalty of a problem; `test_for_overlap=True` changes nothing when no two groups share a coordinate. -/
theorem C91_init (blocks : List (SepBlock n)) (test : Bool)
    (hdis : test = true → blocks.Pairwise fun a b => SelectDisjoint a.idx b.idx) :
    ∃ s, SepObj.init blocks test = some s ∧ s.blocks = blocks ∧ s.quad.coef = 0 ∧ s.problemCoefs = some fun _ => 0 := by
  have h : (test && hasOverlap (blocks.map fun b => (⟨b.m + 1, b.idx⟩ : Selector n))) = false := by
    rcases Bool.eq_false_or_eq_true test with rfl | rfl
    · have hp := hdis rfl
      rw [Bool.true_and]
      unfold hasOverlap
      simp only [List.any_eq_false, List.mem_range, decide_eq_true_eq, List.length_map, Bool.not_eq_true]
      intro i hi j hj
      rintro ⟨-, x, hx⟩
      have hj' : j < blocks.length := hj.trans hi
      simp only [List.getD_eq_getElem?_getD, List.getElem?_map, List.getElem?_eq_getElem hi,
        List.getElem?_eq_getElem hj', Option.map_some, Option.getD_some, Selector.subset, Finset.mem_inter, Finset.mem_image,
        Finset.mem_univ, true_and] at hx
      obtain ⟨⟨k, hk⟩, l, hl⟩ := hx
      exact List.pairwise_iff_getElem.1 hp j i hj' hi hj l k (hl.trans hk.symm)
    · rfl
  refine ⟨⟨blocks, unsetQuad, some fun _ => 0⟩, ?_, rfl, rfl, rfl⟩
  unfold SepObj.init
  rw [h]
  rfl

/-- **C91** fails for `initial`: a separable penalty built with an initial value cannot be the penalty of a problem, because the
constructor drops the value and never sets `coefs` (AttributeError). -/
theorem C91_initial_fails (blocks : List (SepBlock n)) (x : Fin n → ℝ) :
    ∃ s, SepObj.init blocks false (some x) = some s ∧ s.blocks = blocks ∧ s.problemCoefs = none := ⟨_, rfl, rfl, rfl⟩

/-- **C91** fails for `selectors`: reading it raises NameError on every separable penalty with at least one group. -/
theorem C91_selectors_fails (s : SepObj n) (h : s.blocks ≠ []) : s.selectors = none := by
  unfold SepObj.selectors
  cases hb : s.blocks with
  | nil => exact absurd hb h
  | cons b bs => rfl

/-! ### non-vacuity -/

/-- a sup-norm block in bound form with an offset on coordinates 2 and 0, an l1 block in Lagrange form with a linear term on
coordinate 1 -/
private noncomputable def mixedSep : SepObj 3 :=
  ⟨[⟨1, ![2, 0], ⟨.supnorm, ⟨none, some 3⟩, some (.arr ![1, 2]), unsetQuad⟩, .none⟩,
    ⟨0, ![1], ⟨.l1norm, ⟨some 2, none⟩, none, ⟨0, some (.scalar 0), some (.arr ![5]), 7⟩⟩, .none⟩], unsetQuad, some fun _ => 0⟩

private lemma mixed_partition : GroupsPartition mixedSep.blocks := by
  refine ⟨?_, ?_, ?_⟩
  · intro b hb
    simp only [mixedSep, List.mem_cons, List.not_mem_nil, or_false] at hb
    rcases hb with rfl | rfl
    · show Function.Injective (![2, 0] : Fin 2 → Fin 3)
      decide
    · exact fun a b _ => Subsingleton.elim (α := Fin 1) a b
  · simp only [mixedSep, List.pairwise_cons, List.mem_cons, List.not_mem_nil, or_false, forall_eq, List.Pairwise.nil, and_true]
    refine ⟨?_, fun _ h => h.elim⟩
    show ∀ (j : Fin 2) (k : Fin 1), (![2, 0] : Fin 2 → Fin 3) j ≠ (![1] : Fin 1 → Fin 3) k
    decide
  · intro i
    have h : i = 0 ∨ i = 1 ∨ i = 2 := by omega
    rcases h with rfl | rfl | rfl
    · exact ⟨_, List.mem_cons_self, (1 : Fin 2), rfl⟩
    · exact ⟨_, List.mem_cons_of_mem _ List.mem_cons_self, (0 : Fin 1), rfl⟩
    · exact ⟨_, List.mem_cons_self, (0 : Fin 2), rfl⟩

private lemma mixed_valid : ∀ b ∈ mixedSep.blocks, ValidAtom b.atom := by
  intro b hb
  simp only [mixedSep, List.mem_cons, List.not_mem_nil, or_false] at hb
  rcases hb with rfl | rfl
  · exact ⟨⟨true, 3, by norm_num, rfl⟩, rfl, fun c h => by simp at h⟩
  · exact ⟨⟨false, 2, by norm_num, rfl⟩, rfl, fun c h => by simp at h⟩

/-- the hypotheses of `C91_conjugate_partial`, `C91_involution`, `C91_proximal`, `C91_moreau` and `C91_smoothed_fails` are met by a
penalty mixing both forms, an offset and a linear term; its proximal map and that of its conjugate return -/
example : mixedSep.quad.coef = 0 ∧ GroupsPartition mixedSep.blocks ∧ (∀ b ∈ mixedSep.blocks, ValidAtom b.atom) ∧
    ∃ c, mixedSep.conjugate = .sep c ∧ ∀ (L : ℝ), 0 < L → ∀ x : Fin 3 → ℝ,
      ∃ q1 q2 p u, QueryAt q1 L x ∧ QueryAt q2 (1 / L) (fun i => L * x i) ∧ mixedSep.proximal q1 = .ok p ∧ c.proximal q2 = .ok u := by
  refine ⟨rfl, mixed_partition, mixed_valid, ?_⟩
  obtain ⟨c, hc, -, -, hg, hm, -⟩ := C91_conjugate_partial mixedSep rfl mixed_partition mixed_valid
  refine ⟨c, hc, fun L hL x => ?_⟩
  have hsh : ∀ b ∈ mixedSep.blocks, b.shape ≠ .other := by
    intro b hb
    simp only [mixedSep, List.mem_cons, List.not_mem_nil, or_false] at hb
    rcases hb with rfl | rfl <;> simp
  have hsc : ∀ b ∈ c.blocks, b.shape ≠ .other := by
    intro b hb
    have h := List.mem_map_of_mem (f := fun c : SepBlock 3 => ((⟨c.m + 1, c.idx⟩, c.shape) : Selector 3 × Reshape)) hb
    rw [hg] at h
    obtain ⟨d, hd, e⟩ := List.mem_map.1 h
    have e2 : d.shape = b.shape := (Prod.ext_iff.1 e).2
    rw [← e2]
    exact hsh d hd
  obtain ⟨p, hp⟩ := C91_proximal_total mixedSep (fun b hb => ⟨(mixed_valid b hb).1, (mixed_valid b hb).2.1⟩)
    ⟨L, some (.arr x), some (.arr fun _ => 0), 0⟩ hL _ rfl (Or.inl hsh)
  obtain ⟨u, hu⟩ := C91_proximal_total c (fun b hb => (hm b hb).symm)
    ⟨1 / L, some (.arr fun i => L * x i), some (.arr fun _ => 0), 0⟩ (by positivity) _ rfl (Or.inl hsc)
  exact ⟨_, _, p, u, ⟨rfl, rfl, fun _ => rfl, rfl⟩, ⟨rfl, rfl, fun _ => rfl, rfl⟩, hp, hu⟩

/-- the hypotheses of `C91_conjugate_fails`: the same penalty among four coordinates, the last of which is free -/
example : ∃ s : SepObj 4, s.blocks ≠ [] ∧ s.quad.coef = 0 ∧ (∀ b ∈ s.blocks, Function.Injective b.idx) ∧
    (s.blocks.Pairwise fun a b => SelectDisjoint a.idx b.idx) ∧
    (∀ b ∈ s.blocks, (∃ d r, InMode b.atom d r) ∧ b.atom.quad.coef = 0) ∧ ∀ b ∈ s.blocks, ∀ j, b.idx j ≠ 3 := by
  refine ⟨⟨[⟨2, ![2, 0, 1], ⟨.l2norm, ⟨some 2, none⟩, none, unsetQuad⟩, .none⟩], unsetQuad, none⟩, by simp, rfl, ?_, by simp, ?_, ?_⟩
  · intro b hb
    rw [List.mem_singleton] at hb
    subst hb
    show Function.Injective (![2, 0, 1] : Fin 3 → Fin 4)
    decide
  · intro b hb
    rw [List.mem_singleton] at hb
    subst hb
    exact ⟨⟨false, 2, by norm_num, rfl⟩, rfl⟩
  · intro b hb
    rw [List.mem_singleton] at hb
    subst hb
    show ∀ j : Fin 3, (![2, 0, 1] : Fin 3 → Fin 4) j ≠ 3
    decide

end Verif.Props
