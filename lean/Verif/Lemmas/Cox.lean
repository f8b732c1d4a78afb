import Verif.Model.Cox
import Verif.Lemmas.Losses
import Mathlib.Order.Interval.Finset.Fin
import Mathlib.Analysis.Calculus.FDeriv.Mul
import Mathlib.Analysis.SpecialFunctions.Log.Deriv

/-!
# Lemmas on the Cox loops
-/

set_option linter.unusedSectionVars false
set_option linter.unusedVariables false

namespace Verif.Lemmas
open Verif.Model Verif.Spec
open scoped Classical

noncomputable section
variable {n : ℕ}

lemma foldl_acc_list {α : Type} (op : α → α → α) (z : α) (S : Finset (Fin n) → α) (v : Fin n → α) (h0 : S ∅ = z)
    (hS : ∀ s p, p ∉ s → S (insert p s) = op (S s) (v p)) (pos : Fin n → Fin n) (hpos : Function.Injective pos)
    (a0 : Fin n → α) (l : List (Fin n)) (hl : l.Pairwise (· < ·)) :
    (l.foldl (fun s idx => (op s.1 (v idx), Function.update s.2 (pos idx) (op s.1 (v idx)))) (z, a0)).1 = S l.toFinset ∧
    ∀ p ∈ l, (l.foldl (fun s idx => (op s.1 (v idx), Function.update s.2 (pos idx) (op s.1 (v idx)))) (z, a0)).2 (pos p) =
      S (l.toFinset.filter (· ≤ p)) := by
  induction l using List.reverseRecOn with
  | nil => simp [h0]
  | append_singleton l x ih =>
    rw [List.pairwise_append] at hl
    obtain ⟨hl1, _, hl3⟩ := hl
    obtain ⟨ih1, ih2⟩ := ih hl1
    have hlt : ∀ y ∈ l, y < x := fun y hy => hl3 y hy x (by simp)
    have hx : x ∉ l.toFinset := by
      intro h; exact lt_irrefl x (hlt x (List.mem_toFinset.mp h))
    have hset : (l ++ [x]).toFinset = insert x l.toFinset := by
      ext y; simp [or_comm]
    rw [List.foldl_append]
    simp only [List.foldl_cons, List.foldl_nil]
    rw [hset, hS _ _ hx, ih1]
    refine ⟨rfl, ?_⟩
    intro p hp
    rcases List.mem_append.mp hp with hp | hp
    · have hne : pos p ≠ pos x := fun h => (hlt p hp).ne (hpos h)
      rw [Function.update_of_ne hne, ih2 p hp]
      congr 1
      rw [Finset.filter_insert, if_neg (not_le.mpr (hlt p hp))]
    · rw [List.mem_singleton] at hp
      subst hp
      rw [Function.update_self, ← hS _ _ hx]
      congr 1
      rw [Finset.filter_true_of_mem]
      intro y hy
      rcases Finset.mem_insert.mp hy with rfl | hy
      · exact le_refl _
      · exact (hlt y (List.mem_toFinset.mp hy)).le

lemma finRange_pairwise (n : ℕ) : (List.finRange n).Pairwise (· < ·) := List.pairwise_lt_finRange n

lemma foldl_acc {α : Type} (op : α → α → α) (z : α) (S : Finset (Fin n) → α) (v : Fin n → α) (h0 : S ∅ = z)
    (hS : ∀ s p, p ∉ s → S (insert p s) = op (S s) (v p)) (pos : Fin n → Fin n) (hpos : Function.Injective pos)
    (a0 : Fin n → α) (p : Fin n) :
    ((List.finRange n).foldl (fun s idx => (op s.1 (v idx), Function.update s.2 (pos idx) (op s.1 (v idx)))) (z, a0)).2 (pos p) =
      S (Finset.Iic p) := by
  rw [(foldl_acc_list op z S v h0 hS pos hpos a0 _ (finRange_pairwise n)).2 p (List.mem_finRange p)]
  congr 1
  ext q; simp

lemma foldl_update {α : Type} (pos : Fin n → Fin n) (hpos : Function.Injective pos) (v : Fin n → α) (g : Fin n → α) (p : Fin n) :
    ((List.finRange n).foldl (fun g idx => Function.update g (pos idx) (v idx)) g) (pos p) = v p := by
  have key : ∀ l : List (Fin n), p ∈ l → (l.foldl (fun g idx => Function.update g (pos idx) (v idx)) g) (pos p) = v p := by
    intro l
    induction l using List.reverseRecOn with
    | nil => simp
    | append_singleton l x ih =>
      intro hp
      rw [List.foldl_append]
      simp only [List.foldl_cons, List.foldl_nil]
      by_cases h : p = x
      · subst h; rw [Function.update_self]
      · rw [Function.update_of_ne (fun e => h (hpos e))]
        apply ih
        rcases List.mem_append.mp hp with hp | hp
        · exact hp
        · exact absurd (List.mem_singleton.mp hp) h
  exact key _ (List.mem_finRange p)

/-- sum of possibly-nan values -/
def flSum {ι : Type} (s : Finset ι) (v : ι → Fl) : Fl :=
  if ∀ q ∈ s, ∃ x, v q = some x then some (∑ q ∈ s, (v q).getD 0) else none

lemma flSum_empty {ι : Type} (v : ι → Fl) : flSum ∅ v = some 0 := by simp [flSum]

lemma flSum_insert {ι : Type} [DecidableEq ι] (v : ι → Fl) (s : Finset ι) (p : ι) (hp : p ∉ s) :
    flSum (insert p s) v = Fl.add (flSum s v) (v p) := by
  unfold flSum
  cases hv : v p with
  | none =>
    rw [if_neg]
    · unfold Fl.add; split_ifs <;> rfl
    · intro h
      obtain ⟨x, hx⟩ := h p (Finset.mem_insert_self _ _)
      rw [hv] at hx; cases hx
  | some x =>
    by_cases hs : ∀ q ∈ s, ∃ x, v q = some x
    · rw [if_pos hs, if_pos]
      · simp only [Fl.add, Option.bind_some, Option.map_some, Finset.sum_insert hp, hv, Option.getD_some]
        rw [add_comm]
      · intro q hq
        rcases Finset.mem_insert.mp hq with rfl | hq
        · exact ⟨x, hv⟩
        · exact hs q hq
    · rw [if_neg hs, if_neg (fun h => hs fun q hq => h q (Finset.mem_insert_of_mem hq))]
      rfl

lemma flSum_congr_image {ι κ : Type} [DecidableEq κ] (s : Finset ι) (t : Finset κ) (f : ι → κ) (hf : Function.Injective f)
    (ht : ∀ k, k ∈ t ↔ ∃ i ∈ s, f i = k) (v : κ → Fl) : flSum s (fun i => v (f i)) = flSum t v := by
  have hi : t = s.image f := by ext k; simp [ht]
  unfold flSum
  have h1 : (∀ q ∈ s, ∃ x, v (f q) = some x) ↔ ∀ q ∈ t, ∃ x, v q = some x := by
    rw [hi]; simp
  simp only [h1]
  split_ifs
  · rw [hi, Finset.sum_image fun a _ b _ h => hf h]
  · rfl

lemma flSum_some {ι : Type} {s : Finset ι} {v : ι → Fl} (f : ι → ℝ) (h : ∀ q ∈ s, v q = some (f q)) :
    flSum s v = some (∑ q ∈ s, f q) := by
  unfold flSum
  rw [if_pos fun q hq => ⟨_, h q hq⟩]
  congr 1
  exact Finset.sum_congr rfl fun q hq => by rw [h q hq]; rfl

lemma flSum_none {ι : Type} {s : Finset ι} {v : ι → Fl} {q : ι} (hq : q ∈ s) (h : v q = none) : flSum s v = none := by
  unfold flSum
  rw [if_neg]
  intro hh
  obtain ⟨x, hx⟩ := hh q hq
  rw [h] at hx; cases hx

/-! ## rank lemmas -/

lemma lt_card_of_lower {P : Fin n → Prop} (hP : ∀ a b, a ≤ b → P b → P a) (q : Fin n) :
    q.val < (Finset.univ.filter P).card ↔ P q := by
  constructor
  · intro h
    by_contra hq
    have hsub : Finset.univ.filter P ⊆ Finset.Iio q := by
      intro a ha
      rw [Finset.mem_Iio]
      by_contra hle
      exact hq (hP q a (not_lt.mp hle) (Finset.mem_filter.mp ha).2)
    have := Finset.card_le_card hsub
    rw [Fin.card_Iio] at this
    omega
  · intro h
    have hsub : Finset.Iic q ⊆ Finset.univ.filter P := by
      intro a ha
      exact Finset.mem_filter.mpr ⟨Finset.mem_univ _, hP a q (Finset.mem_Iic.mp ha) h⟩
    have := Finset.card_le_card hsub
    rw [Fin.card_Iic] at this
    omega

lemma card_perm (σ : Equiv.Perm (Fin n)) (P : Fin n → Prop) :
    (Finset.univ.filter fun q => P (σ q)).card = (Finset.univ.filter P).card := by
  rw [← Finset.card_map σ.toEmbedding]
  congr 1
  ext x
  simp only [Finset.mem_map, Finset.mem_filter, Finset.mem_univ, true_and, Equiv.coe_toEmbedding]
  constructor
  · rintro ⟨a, h, rfl⟩; exact h
  · intro h; exact ⟨σ.symm x, by simpa using h, by simp⟩

lemma rankmin_le {T : Fin n → ℝ} {σ : Equiv.Perm (Fin n)} (hσ : IsArgsort T σ) (i q : Fin n) :
    Cox.rankmin T i ≤ q ↔ T i ≤ T (σ q) := by
  have h := lt_card_of_lower (P := fun q => T (σ q) < T i) (fun a b hab hb => lt_of_le_of_lt (hσ a b hab) hb) q
  rw [card_perm σ fun j => T j < T i] at h
  rw [← not_lt, ← not_lt (a := T (σ q)), ← h]
  rfl

lemma le_rankmax {T : Fin n → ℝ} {σ : Equiv.Perm (Fin n)} (hσ : IsArgsort T σ) (i q : Fin n) :
    q ≤ Cox.rankmax T i ↔ T (σ q) ≤ T i := by
  have h := lt_card_of_lower (P := fun q => T (σ q) ≤ T i) (fun a b hab hb => le_trans (hσ a b hab) hb) q
  rw [card_perm σ fun j => T j ≤ T i] at h
  rw [← h]
  have hpos : 0 < (Finset.univ.filter fun j => T j ≤ T i).card :=
    Finset.card_pos.mpr ⟨i, by simp⟩
  show q.val ≤ _ - 1 ↔ _
  omega

/-! ## closed forms of the loops -/

lemma updateExp_exp (η w : Fin n → ℝ) (σ : Equiv.Perm (Fin n)) (e a : Fin n → ℝ) (x : Fin n) :
    (Cox.updateExp η w σ e a).2.1 x = Real.exp (η x) * w x := by
  unfold Cox.updateExp
  have h := List.foldl_hom (fun s : ℝ × (Fin n → ℝ) × (Fin n → ℝ) => s.2.1)
    (g₁ := fun s idx =>
      let o := σ (Fin.rev idx)
      let v := Real.exp (η o) * w o
      let cur := s.1 + v
      (cur, Function.update s.2.1 o v, Function.update s.2.2 (Fin.rev idx) cur))
    (g₂ := fun g idx => Function.update g (σ (Fin.rev idx)) (Real.exp (η (σ (Fin.rev idx))) * w (σ (Fin.rev idx))))
    (l := List.finRange n) (init := (0, e, a)) (fun _ _ => rfl)
  rw [← h]
  have h2 := foldl_update (fun idx => σ (Fin.rev idx)) (fun a b hab => Fin.rev_injective (σ.injective hab))
    (fun idx => Real.exp (η (σ (Fin.rev idx))) * w (σ (Fin.rev idx))) e (Fin.rev (σ.symm x))
  simpa using h2

lemma sum_Ici_perm (σ : Equiv.Perm (Fin n)) (v : Fin n → ℝ) (p : Fin n) :
    ∑ q ∈ Finset.Iic (Fin.rev p), v (σ (Fin.rev q)) = ∑ j with p ≤ σ.symm j, v j := by
  refine Finset.sum_bij (fun q _ => σ (Fin.rev q)) ?_ ?_ ?_ ?_
  · intro q hq
    simp only [Finset.mem_filter, Finset.mem_univ, true_and, Equiv.symm_apply_apply]
    rw [Finset.mem_Iic] at hq
    have := Fin.rev_le_rev.mpr hq
    rwa [Fin.rev_rev] at this
  · intro a _ b _ h; exact Fin.rev_injective (σ.injective h)
  · intro j hj
    simp only [Finset.mem_filter, Finset.mem_univ, true_and] at hj
    exact ⟨Fin.rev (σ.symm j), by rw [Finset.mem_Iic]; exact Fin.rev_le_rev.mpr hj, by simp⟩
  · intro q _; rfl

lemma updateExp_accum (η w : Fin n → ℝ) (σ : Equiv.Perm (Fin n)) (e a : Fin n → ℝ) (p : Fin n) :
    (Cox.updateExp η w σ e a).2.2 p = ∑ j with p ≤ σ.symm j, Real.exp (η j) * w j := by
  unfold Cox.updateExp
  have h := List.foldl_hom (fun s : ℝ × (Fin n → ℝ) × (Fin n → ℝ) => (s.1, s.2.2))
    (g₁ := fun s idx =>
      let o := σ (Fin.rev idx)
      let v := Real.exp (η o) * w o
      let cur := s.1 + v
      (cur, Function.update s.2.1 o v, Function.update s.2.2 (Fin.rev idx) cur))
    (g₂ := fun s idx => (s.1 + Real.exp (η (σ (Fin.rev idx))) * w (σ (Fin.rev idx)),
      Function.update s.2 (Fin.rev idx) (s.1 + Real.exp (η (σ (Fin.rev idx))) * w (σ (Fin.rev idx)))))
    (l := List.finRange n) (init := (0, e, a)) (fun _ _ => rfl)
  have h2 := foldl_acc (fun x y : ℝ => x + y) 0 (fun s => ∑ q ∈ s, Real.exp (η (σ (Fin.rev q))) * w (σ (Fin.rev q)))
    (fun q => Real.exp (η (σ (Fin.rev q))) * w (σ (Fin.rev q))) (by simp)
    (fun s p hp => by simp only [Finset.sum_insert hp]; rw [add_comm]) Fin.rev Fin.rev_injective a (Fin.rev p)
  rw [Fin.rev_rev] at h2
  have h3 := congrArg (fun s : ℝ × (Fin n → ℝ) => s.2 p) h
  simp only at h3
  rw [← h3, ← sum_Ici_perm]
  exact h2

lemma updateExpZ_accum (right exp : Fin n → ℝ) (σ : Equiv.Perm (Fin n)) (a : Fin n → ℝ) (p : Fin n) :
    (Cox.updateExpZ right exp σ a).2 p = ∑ j with p ≤ σ.symm j, right j * exp j := by
  unfold Cox.updateExpZ
  have h2 := foldl_acc (fun x y : ℝ => x + y) 0 (fun s => ∑ q ∈ s, right (σ (Fin.rev q)) * exp (σ (Fin.rev q)))
    (fun q => right (σ (Fin.rev q)) * exp (σ (Fin.rev q))) (by simp)
    (fun s p hp => by simp only [Finset.sum_insert hp]; rw [add_comm]) Fin.rev Fin.rev_injective a (Fin.rev p)
  rw [Fin.rev_rev] at h2
  rw [← sum_Ici_perm σ fun j => right j * exp j]
  exact h2

lemma sum_risk {T : Fin n → ℝ} {σ : Equiv.Perm (Fin n)} (hσ : IsArgsort T σ) (v : Fin n → ℝ) (i : Fin n) :
    (∑ j with Cox.rankmin T i ≤ σ.symm j, v j) = ∑ j with T i ≤ T j, v j := by
  refine Finset.sum_congr ?_ fun _ _ => rfl
  ext j
  simp only [Finset.mem_filter, Finset.mem_univ, true_and]
  rw [rankmin_le hσ, Equiv.apply_symm_apply]

lemma accum_risk {T : Fin n → ℝ} {σ : Equiv.Perm (Fin n)} (hσ : IsArgsort T σ) (η w e a : Fin n → ℝ) (i : Fin n) :
    (Cox.updateExp η w σ e a).2.2 (Cox.rankmin T i) = riskTotal T w η i := by
  rw [updateExp_accum, sum_risk hσ]
  exact Finset.sum_congr rfl fun j _ => mul_comm _ _

lemma outer_closed {T : Fin n → ℝ} {σ : Equiv.Perm (Fin n)} (hσ : IsArgsort T σ) (v : Fin n → Fl) (a : Fin n → Fl) (i : Fin n) :
    ((List.finRange n).foldl (fun s idx =>
      (Fl.add s.1 (v (σ idx)), Function.update s.2 idx (Fl.add s.1 (v (σ idx))))) (some 0, a)).2 (Cox.rankmax T i) =
      flSum (Finset.univ.filter fun j => T j ≤ T i) v := by
  have h := foldl_acc Fl.add (some 0) (fun s => flSum s fun q => v (σ q)) (fun q => v (σ q)) (flSum_empty _)
    (fun s p hp => flSum_insert _ s p hp) id Function.injective_id a (Cox.rankmax T i)
  simp only [id] at h
  rw [h]
  refine flSum_congr_image _ _ σ σ.injective ?_ v
  intro k
  simp only [Finset.mem_filter, Finset.mem_univ, true_and, Finset.mem_Iic]
  constructor
  · intro hk
    exact ⟨σ.symm k, by rw [le_rankmax hσ]; simpa using hk, by simp⟩
  · rintro ⟨q, hq, rfl⟩
    exact (le_rankmax hσ i q).mp hq

lemma objective_closed (v : Fin n → Fl) :
    (List.finRange n).foldl (fun cur idx => Fl.add cur (v idx)) (some 0) = flSum Finset.univ v := by
  have h := foldl_acc_list Fl.add (some 0) (fun s => flSum s v) v (flSum_empty _) (fun s p hp => flSum_insert _ s p hp) id
    Function.injective_id (fun _ => some 0) _ (finRange_pairwise n)
  have h2 := List.foldl_hom (fun s : Fl × (Fin n → Fl) => s.1)
    (g₁ := fun s idx => (Fl.add s.1 (v idx), Function.update s.2 (id idx) (Fl.add s.1 (v idx))))
    (g₂ := fun cur idx => Fl.add cur (v idx)) (l := List.finRange n) (init := (some 0, fun _ => some 0)) (fun _ _ => rfl)
  simp only at h2
  rw [h2, h.1]
  congr 1
  ext x; simp

/-! ## the object's results in closed form -/

/-- objective before scaling, whatever the buffers hold -/
def coxF (T : Fin n → ℝ) (c : Fin n → ℕ) (w η : Fin n → ℝ) : Fl :=
  flSum Finset.univ fun i => Fl.mulLogSub (c i * w i) (riskTotal T w η i) (η i)

/-- gradient before scaling -/
def coxG (T : Fin n → ℝ) (c : Fin n → ℕ) (w η : Fin n → ℝ) (i : Fin n) : Fl :=
  (flSum (Finset.univ.filter fun j => T j ≤ T i) fun j => Fl.div (c j * w j) (riskTotal T w η j)).map
    fun o => o * (Real.exp (η i) * w i) - c i * w i

/-- Hessian times a vector -/
def coxH (T : Fin n → ℝ) (c : Fin n → ℕ) (w η z : Fin n → ℝ) (i : Fin n) : Fl :=
  (flSum (Finset.univ.filter fun j => T j ≤ T i) fun j => Fl.div (c j * w j) (riskTotal T w η j)).bind fun o1 =>
    (flSum (Finset.univ.filter fun j => T j ≤ T i) fun j =>
      Fl.div (c j * w j * ∑ k with T j ≤ T k, z k * (Real.exp (η k) * w k)) (riskTotal T w η j * riskTotal T w η j)).map fun o2 =>
      (Real.exp (η i) * w i) * (o1 * z i - o2)

/-- an object whose ordering and ranks belong to its times -/
def CoxOk (L : CoxLoss n) : Prop :=
  ∃ σ : Equiv.Perm (Fin n), IsArgsort L.T σ ∧ L.ord = σ ∧ L.rankmin = Cox.rankmin L.T ∧ L.rankmax = Cox.rankmax L.T

lemma objCall_eq {L : CoxLoss n} (h : CoxOk L) (η w : Fin n → ℝ) (b : Cox.Buffers n) :
    (L.objCall η w b).1 = coxF L.T L.cens w η ∧ (L.objCall η w b).2.G = b.G := by
  obtain ⟨σ, hσ, h1, h2, h3⟩ := h
  refine ⟨?_, rfl⟩
  show Cox.objectiveLoop η (Cox.updateExp η w L.ord b.exp b.accum).2.2 w L.cens L.rankmin = _
  unfold Cox.objectiveLoop
  rw [objective_closed fun idx => Fl.mulLogSub (L.cens idx * w idx)
    ((Cox.updateExp η w L.ord b.exp b.accum).2.2 (L.rankmin idx)) (η idx)]
  unfold coxF
  congr 1
  funext i
  rw [h1, h2, accum_risk hσ]

lemma outer1_eq {L : CoxLoss n} {σ : Equiv.Perm (Fin n)} (hσ : IsArgsort L.T σ) (h1 : L.ord = σ)
    (h2 : L.rankmin = Cox.rankmin L.T) (η w e a : Fin n → ℝ) (o : Fin n → Fl) (i : Fin n) :
    (Cox.updateOuter1 (Cox.updateExp η w L.ord e a).2.2 w L.cens L.ord L.rankmin o).2 (Cox.rankmax L.T i) =
      flSum (Finset.univ.filter fun j => L.T j ≤ L.T i) fun j => Fl.div (L.cens j * w j) (riskTotal L.T w η j) := by
  unfold Cox.updateOuter1
  rw [h1, h2]
  have h := outer_closed hσ (fun j => Fl.div (L.cens j * w j) ((Cox.updateExp η w σ e a).2.2 (Cox.rankmin L.T j))) o i
  simp only at h ⊢
  rw [h]
  congr 1
  funext j
  rw [accum_risk hσ]

lemma gradCall_eq {L : CoxLoss n} (h : CoxOk L) (η w : Fin n → ℝ) (b : Cox.Buffers n) (i : Fin n) :
    (L.gradCall η w b).G i = coxG L.T L.cens w η i := by
  obtain ⟨σ, hσ, h1, h2, h3⟩ := h
  show Cox.gradientLoop (Cox.updateExp η w L.ord b.exp b.accum).2.1 w
    (Cox.updateOuter1 (Cox.updateExp η w L.ord b.exp b.accum).2.2 w L.cens L.ord L.rankmin b.outer1).2 L.cens L.rankmax b.G i = _
  unfold Cox.gradientLoop
  have hu := foldl_update id Function.injective_id (fun idx =>
    ((Cox.updateOuter1 (Cox.updateExp η w L.ord b.exp b.accum).2.2 w L.cens L.ord L.rankmin b.outer1).2 (L.rankmax idx)).map
      fun o => o * (Cox.updateExp η w L.ord b.exp b.accum).2.1 idx - L.cens idx * w idx) b.G i
  simp only [id] at hu
  rw [hu, h3, outer1_eq hσ h1 h2, h1]
  unfold coxG
  simp only [updateExp_exp]

lemma hessianMult_eq {L : CoxLoss n} (h : CoxOk L) (x z : Fin n → ℝ) (arg : Option (Fin n → ℝ)) (i : Fin n) :
    (L.hessianMult x z arg).1 i = coxH L.T L.cens (L.cw arg) (Smooth.applyOffset L.offset x) z i := by
  obtain ⟨σ, hσ, h1, h2, h3⟩ := h
  generalize hη : Smooth.applyOffset L.offset x = η
  generalize hw : L.cw arg = w
  show Cox.hessianLoop (Cox.updateExp (Smooth.applyOffset L.offset x) (L.cw arg) L.ord L.buf.exp L.buf.accum).2.1 z
    (Cox.updateOuter1 (Cox.updateExp (Smooth.applyOffset L.offset x) (L.cw arg) L.ord L.buf.exp L.buf.accum).2.2
      (L.cw arg) L.cens L.ord L.rankmin L.buf.outer1).2
    (Cox.updateOuter2 (Cox.updateExp (Smooth.applyOffset L.offset x) (L.cw arg) L.ord L.buf.exp L.buf.accum).2.2
      (Cox.updateExpZ z (Cox.updateExp (Smooth.applyOffset L.offset x) (L.cw arg) L.ord L.buf.exp L.buf.accum).2.1 L.ord L.buf.accumZ).2
      (L.cw arg) L.cens L.ord L.rankmin L.buf.outer2).2 L.rankmax (fun _ => some 0) i = _
  rw [hη, hw]
  unfold Cox.hessianLoop
  set A := (Cox.updateExp η w L.ord L.buf.exp L.buf.accum).2.2 with hA
  set E := (Cox.updateExp η w L.ord L.buf.exp L.buf.accum).2.1 with hE
  set Z := (Cox.updateExpZ z E L.ord L.buf.accumZ).2 with hZ
  have hu := foldl_update id Function.injective_id (fun idx =>
    ((Cox.updateOuter1 A w L.cens L.ord L.rankmin L.buf.outer1).2 (L.rankmax idx)).bind fun o1 =>
      ((Cox.updateOuter2 A Z w L.cens L.ord L.rankmin L.buf.outer2).2 (L.rankmax idx)).map fun o2 =>
      E idx * (o1 * z idx - o2)) (fun _ => some 0) i
  simp only [id] at hu
  rw [hu, h3, hA, outer1_eq hσ h1 h2]
  have hEx : ∀ k, E k = Real.exp (η k) * w k := by intro k; rw [hE, h1, updateExp_exp]
  have ho2 : (Cox.updateOuter2 A Z w L.cens L.ord L.rankmin L.buf.outer2).2 (Cox.rankmax L.T i) =
      flSum (Finset.univ.filter fun j => L.T j ≤ L.T i) fun j =>
      Fl.div (L.cens j * w j * ∑ k with L.T j ≤ L.T k, z k * (Real.exp (η k) * w k)) (riskTotal L.T w η j * riskTotal L.T w η j) := by
    unfold Cox.updateOuter2
    rw [h1, h2]
    have h := outer_closed hσ (fun j => Fl.div (L.cens j * w j * Z (Cox.rankmin L.T j)) (A (Cox.rankmin L.T j) * A (Cox.rankmin L.T j)))
      L.buf.outer2 i
    simp only at h ⊢
    rw [h]
    congr 1
    funext j
    rw [hA, h1, accum_risk hσ, hZ, h1, updateExpZ_accum, sum_risk hσ]
    simp only [hEx]
  rw [← hA, ho2, hEx]
  rfl

end
end Verif.Lemmas
