import Verif.Model.Separable
import Verif.Spec.Separable
import Verif.Props.C10_Proximal
import Mathlib.Algebra.BigOperators.Group.List.Lemmas

set_option linter.unusedSectionVars false
set_option linter.unusedVariables false

namespace Verif.Lemmas
open Verif.Model Verif.Spec Verif.Props

variable {K : Type*} [Field K] [LinearOrder K] [IsStrictOrderedRing K] {n : ℕ}

lemma put_not_mem (s : Selector n) (v : Fin n → K) (w : Fin s.len → K) (i : Fin n) (h : ∀ j, s.idx j ≠ i) :
    s.put v w i = v i := by
  unfold Selector.put
  generalize List.finRange s.len = l
  induction l generalizing v with
  | nil => rfl
  | cons j l ih =>
    rw [List.foldl_cons, ih, Function.update_of_ne (h j).symm]

private lemma put_aux (s : Selector n) (hinj : Function.Injective s.idx) (w : Fin s.len → K) (j : Fin s.len) :
    ∀ (l : List (Fin s.len)) (v : Fin n → K), (j ∈ l ∨ v (s.idx j) = w j) →
      l.foldl (fun v j => Function.update v (s.idx j) (w j)) v (s.idx j) = w j := by
  intro l
  induction l with
  | nil => intro v h; simpa using h
  | cons a l ih =>
    intro v h
    rw [List.foldl_cons]
    apply ih
    by_cases hja : j = a
    · right; subst hja; simp
    · rcases h with h | h
      · left; rcases List.mem_cons.1 h with h | h
        · exact absurd h hja
        · exact h
      · right
        rw [Function.update_of_ne (fun e => hja (hinj e)), h]

lemma put_mem (s : Selector n) (hinj : Function.Injective s.idx) (v : Fin n → K) (w : Fin s.len → K)
    (j : Fin s.len) : s.put v w (s.idx j) = w j :=
  put_aux s hinj w j _ v (Or.inl (List.mem_finRange j))

/-- what the loop of `separable.proximal` computes on disjoint groups -/
lemma proxLoop_spec (q : Quad (Fin n) K) (bs : List (Block n K)) (v r : Fin n → K)
    (hinj : ∀ b ∈ bs, Function.Injective b.group.idx)
    (hdis : bs.Pairwise fun a b => SelectDisjoint a.group.idx b.group.idx)
    (hok : Separable.proxLoop q bs v = .ok r) :
    (∀ b ∈ bs, b.proximal (q.restrict b.group) = .ok (b.group.take r)) ∧
    (∀ i, (∀ b ∈ bs, ∀ j, b.group.idx j ≠ i) → r i = v i) := by
  induction bs generalizing v with
  | nil =>
    simp only [Separable.proxLoop, ProxResult.ok.injEq] at hok
    subst hok; simp
  | cons b bs ih =>
    rw [Separable.proxLoop] at hok
    cases hb : b.proximal (q.restrict b.group) with
    | ok w =>
      rw [hb] at hok
      rw [List.pairwise_cons] at hdis
      obtain ⟨h1, h2⟩ := ih _ (fun c hc => hinj c (List.mem_cons_of_mem _ hc)) hdis.2 hok
      have hr : b.group.take r = w := by
        funext j
        unfold Selector.take
        rw [h2 _ (fun c hc k => ((hdis.1 c hc) j k).symm), put_mem _ (hinj b List.mem_cons_self)]
      refine ⟨?_, ?_⟩
      · intro c hc
        rcases List.mem_cons.1 hc with rfl | hc
        · rw [hb, hr]
        · exact h1 c hc
      · intro i hi
        rw [h2 i (fun c hc => hi c (List.mem_cons_of_mem _ hc)), put_not_mem _ _ _ _ (hi b List.mem_cons_self)]
    | valueError => rw [hb] at hok; cases hok
    | typeError => rw [hb] at hok; cases hok
    | scalarArgument => rw [hb] at hok; cases hok
    | baseError => rw [hb] at hok; cases hok

/-- one coordinate of a quadratic -/
def coordQuad (q : Quad (Fin n) K) (i : Fin n) (t : K) : K :=
  q.coef / 2 * (t - denote q.center i) ^ 2 + denote q.linear i * t

lemma quadVal_coord (q : Quad (Fin n) K) (x : Fin n → K) :
    quadVal (some q) x = ∑ i, coordQuad q i (x i) + q.const := by
  simp only [quadVal, quadFn, coordQuad, Finset.sum_add_distrib, Finset.mul_sum, sqDist, dot]

lemma denote_restrict (q : Quad (Fin n) K) (s : Selector n) (j : Fin s.len) :
    denote (q.restrict s).center j = denote q.center (s.idx j) ∧
    denote (q.restrict s).linear j = denote q.linear (s.idx j) := by
  constructor
  · rcases h : q.center with _ | o
    · simp [Quad.restrict, h, denote]
    · cases o <;> simp [Quad.restrict, h, denote, Selector.take]
  · rcases h : q.linear with _ | o
    · simp [Quad.restrict, h, denote]
    · cases o <;> simp [Quad.restrict, h, denote, Selector.take]

lemma quadVal_restrict (q : Quad (Fin n) K) (s : Selector n) (x : Fin n → K) :
    quadVal (some (q.restrict s)) (s.take x) = ∑ j, coordQuad q (s.idx j) (x (s.idx j)) := by
  rw [quadVal_coord]
  have h : (q.restrict s).const = 0 := rfl
  rw [h, add_zero]
  refine Finset.sum_congr rfl fun j _ => ?_
  simp only [coordQuad, (denote_restrict q s j).1, (denote_restrict q s j).2]
  rfl

/-- positions covered by some group -/
def cover (bs : List (Block n K)) : Finset (Fin n) :=
  bs.foldr (fun b s => b.group.subset ∪ s) ∅

lemma mem_cover (bs : List (Block n K)) (i : Fin n) :
    i ∈ cover bs ↔ ∃ b ∈ bs, ∃ j, b.group.idx j = i := by
  induction bs with
  | nil => simp [cover]
  | cons b bs ih =>
    have : cover (b :: bs) = b.group.subset ∪ cover bs := rfl
    rw [this, Finset.mem_union, ih]
    simp [Selector.subset]

lemma sum_cover (bs : List (Block n K)) (ψ : Fin n → K)
    (hinj : ∀ b ∈ bs, Function.Injective b.group.idx)
    (hdis : bs.Pairwise fun a b => SelectDisjoint a.group.idx b.group.idx) :
    ∑ i ∈ cover bs, ψ i = (bs.map fun b => ∑ j, ψ (b.group.idx j)).sum := by
  induction bs with
  | nil => simp [cover]
  | cons b bs ih =>
    rw [List.pairwise_cons] at hdis
    have e : cover (b :: bs) = b.group.subset ∪ cover bs := rfl
    rw [e, Finset.sum_union, ih (fun c hc => hinj c (List.mem_cons_of_mem _ hc)) hdis.2, List.map_cons,
      List.sum_cons]
    · congr 1
      unfold Selector.subset
      rw [Finset.sum_image]
      intro a _ c _ h
      exact hinj b List.mem_cons_self h
    · rw [Finset.disjoint_left]
      intro i hi hi'
      obtain ⟨c, hc, k, hk⟩ := (mem_cover _ _).1 hi'
      obtain ⟨j, -, hj⟩ := Finset.mem_image.1 hi
      exact hdis.1 c hc j k (hj.trans hk.symm)

lemma top_add_lt_add {a a' b b' : WithTop K} (h : a < a') (h' : b ≤ b') (hb : b ≠ ⊤) : a + b < a' + b' :=
  lt_of_lt_of_le (WithTop.add_lt_add_right hb h) (add_le_add le_rfl h')

lemma top_add_lt_add' {a a' b b' : WithTop K} (h : a ≤ a') (h' : b < b') (ha : a ≠ ⊤) : a + b < a' + b' :=
  lt_of_lt_of_le (WithTop.add_lt_add_left ha h') (add_le_add h le_rfl)

lemma list_sum_lt {α : Type*} (l : List α) (f g : α → WithTop K)
    (hfin : ∀ a ∈ l, f a ≠ ⊤) (hle : ∀ a ∈ l, f a ≤ g a) :
    (l.map f).sum ≠ ⊤ ∧ (l.map f).sum ≤ (l.map g).sum ∧
      ((∃ a ∈ l, f a < g a) → (l.map f).sum < (l.map g).sum) := by
  induction l with
  | nil => simp
  | cons a l ih =>
    obtain ⟨h1, h2, h3⟩ := ih (fun c hc => hfin c (List.mem_cons_of_mem _ hc))
      (fun c hc => hle c (List.mem_cons_of_mem _ hc))
    have ha := hfin a List.mem_cons_self
    have hla := hle a List.mem_cons_self
    simp only [List.map_cons, List.sum_cons]
    refine ⟨WithTop.add_ne_top.2 ⟨ha, h1⟩, add_le_add hla h2, ?_⟩
    rintro ⟨c, hc, hlt⟩
    rcases List.mem_cons.1 hc with rfl | hc
    · exact top_add_lt_add hlt h2 h1
    · exact top_add_lt_add' hla (h3 ⟨c, hc, hlt⟩) ha

lemma coe_list_sum {α : Type*} (l : List α) (f : α → K) :
    (((l.map f).sum : K) : WithTop K) = (l.map fun a => (f a : WithTop K)).sum := by
  induction l with
  | nil => simp
  | cons a l ih => simp [ih]

lemma list_sum_add {α : Type*} (l : List α) (f g : α → WithTop K) :
    (l.map fun a => f a + g a).sum = (l.map f).sum + (l.map g).sum := by
  induction l with
  | nil => simp
  | cons a l ih => simp only [List.map_cons, List.sum_cons, ih]; abel

end Verif.Lemmas
