import Verif.Model.MixedKKT
import Verif.Lemmas.MixedLasso
import Verif.Lemmas.ProxGrad
import Mathlib.Tactic.Linarith

/-! Optimality conditions of problems with the mixed lasso penalty, kind by kind. -/

set_option linter.unusedSectionVars false
set_option linter.unusedVariables false

namespace Verif.Lemmas
open Verif.Model Verif.Spec

variable {p q : ℕ}

/-- penalty of a coordinate that is in no group -/
def coordPen (k : Kind q) (t : ℝ) : ℝ := match k with | .l1 => |t| | .positivePart => t | _ => 0

/-- feasible values of a coordinate -/
def coordDom (k : Kind q) (t : ℝ) : Prop := k = .positivePart ∨ k = .nonnegative → 0 ≤ t

lemma mixedPenalty_eq (κ : Fin p → Kind q) (w : Fin q → ℝ) (z : Fin p → ℝ) :
    mixedPenalty κ w z = ∑ i, coordPen (κ i) (z i) + ∑ j, w j * npNorm (rk κ j z) := by
  unfold mixedPenalty
  rw [← Finset.sum_add_distrib]
  simp only [kindNorm_eq]
  congr 1
  apply Finset.sum_congr rfl
  intro i _
  rcases h : κ i with _ | _ | _ | _ | g <;> simp [coordPen]

/-- the change of the linearised objective, split by kind -/
lemma lin_by_kind (κ : Fin p → Kind q) (w : Fin q → ℝ) (g b z : Fin p → ℝ) (lam : ℝ) :
    dot g (fun i => z i - b i) + lam * (mixedPenalty κ w z - mixedPenalty κ w b) =
      ∑ i, ng (κ i) (g i * (z i - b i) + lam * (coordPen (κ i) (z i) - coordPen (κ i) (b i))) +
      ∑ j, (∑ i, rk κ j g i * (rk κ j z i - rk κ j b i) + lam * w j * (npNorm (rk κ j z) - npNorm (rk κ j b))) := by
  unfold dot
  rw [sum_by_kind κ, mixedPenalty_eq, mixedPenalty_eq]
  have h1 : ∀ j, ∑ i, (if κ i = .group j then g i * (z i - b i) else 0) =
      ∑ i, rk κ j g i * (rk κ j z i - rk κ j b i) := by
    intro j
    rw [rk_mul]
    exact Finset.sum_congr rfl fun i _ => by rw [rk_sub]
  have h2 : ∑ i, ng (κ i) (g i * (z i - b i) + lam * (coordPen (κ i) (z i) - coordPen (κ i) (b i))) =
      ∑ i, ng (κ i) (g i * (z i - b i)) + lam * (∑ i, coordPen (κ i) (z i) - ∑ i, coordPen (κ i) (b i)) := by
    rw [← Finset.sum_sub_distrib, Finset.mul_sum, ← Finset.sum_add_distrib]
    apply Finset.sum_congr rfl
    intro i _
    rcases h : κ i with _ | _ | _ | _ | g <;> simp [ng, coordPen]
  rw [h2]
  simp only [h1]
  rw [Finset.sum_add_distrib]
  have h3 : ∑ j, lam * w j * (npNorm (rk κ j z) - npNorm (rk κ j b)) =
      lam * (∑ j, w j * npNorm (rk κ j z) - ∑ j, w j * npNorm (rk κ j b)) := by
    rw [← Finset.sum_sub_distrib, Finset.mul_sum]
    exact Finset.sum_congr rfl fun j _ => by ring
  rw [h3]
  ring

lemma rk_comb (κ : Fin p → Kind q) (j : Fin q) (x y : Fin p → ℝ) (a b : ℝ) :
    rk κ j (fun i => a * x i + b * y i) = fun i => a * rk κ j x i + b * rk κ j y i := by
  funext i; unfold rk; split_ifs <;> simp

lemma npNorm_comb {ι : Type*} [Fintype ι] (x y : ι → ℝ) {a b : ℝ} (ha : 0 ≤ a) (hb : 0 ≤ b) :
    npNorm (fun i => a * x i + b * y i) ≤ a * npNorm x + b * npNorm y := by
  refine (npNorm_add_le (fun i => a * x i) fun i => b * y i).trans ?_
  rw [npNorm_smul, npNorm_smul, abs_of_nonneg ha, abs_of_nonneg hb]

lemma coordPen_comb (k : Kind q) (x y : ℝ) {a b : ℝ} (ha : 0 ≤ a) (hb : 0 ≤ b) :
    coordPen k (a * x + b * y) ≤ a * coordPen k x + b * coordPen k y := by
  rcases k with _ | _ | _ | _ | g <;> simp only [coordPen] <;> try linarith
  refine (abs_add_le _ _).trans ?_
  rw [abs_mul, abs_mul, abs_of_nonneg ha, abs_of_nonneg hb]

lemma mixedPenalty_convex (κ : Fin p → Kind q) {w : Fin q → ℝ} (hw : ∀ j, 0 ≤ w j) :
    IsConvexFnOn (mixedPenalty κ w) (mixedDomain κ) := by
  intro x hx y hy a b ha hb hab
  refine ⟨fun i hi => ?_, ?_⟩
  · have := mul_nonneg ha (hx i hi)
    have := mul_nonneg hb (hy i hi)
    dsimp only; linarith
  · simp only [mixedPenalty_eq]
    rw [mul_add, mul_add, Finset.mul_sum, Finset.mul_sum, Finset.mul_sum, Finset.mul_sum]
    have h1 : ∑ i, coordPen (κ i) (a * x i + b * y i) ≤ ∑ i, a * coordPen (κ i) (x i) + ∑ i, b * coordPen (κ i) (y i) := by
      rw [← Finset.sum_add_distrib]
      exact Finset.sum_le_sum fun i _ => coordPen_comb _ _ _ ha hb
    have h2 : ∑ j, w j * npNorm (rk κ j fun i => a * x i + b * y i) ≤
        ∑ j, a * (w j * npNorm (rk κ j x)) + ∑ j, b * (w j * npNorm (rk κ j y)) := by
      rw [← Finset.sum_add_distrib]
      refine Finset.sum_le_sum fun j _ => ?_
      rw [rk_comb]
      have := mul_le_mul_of_nonneg_left (npNorm_comb (rk κ j x) (rk κ j y) ha hb) (hw j)
      linarith
    linarith

/-- variational inequality of a minimiser -/
lemma mixed_vi {f : (Fin p → ℝ) → ℝ} {κ : Fin p → Kind q} {w : Fin q → ℝ} (hw : ∀ j, 0 ≤ w j) {lam : ℝ} (hl : 0 ≤ lam)
    {g b : Fin p → ℝ} (hg : IsGradientAt f g b) {S : Set (Fin p → ℝ)} (hS : S ⊆ mixedDomain κ)
    (hSc : ∀ x ∈ S, ∀ y ∈ S, ∀ a b : ℝ, 0 ≤ a → 0 ≤ b → a + b = 1 → (fun i => a * x i + b * y i) ∈ S)
    (hb : Minimises (fun z => f z + lam * mixedPenalty κ w z) S b) {z : Fin p → ℝ} (hz : z ∈ S) :
    0 ≤ dot g (fun i => z i - b i) + lam * (mixedPenalty κ w z - mixedPenalty κ w b) := by
  have := dir_ge hg (fun i => z i - b i) (-(lam * (mixedPenalty κ w z - mixedPenalty κ w b))) (fun t ht ht1 => by
    have e : (fun i => b i + t * (z i - b i)) = fun i => (1 - t) * b i + t * z i := by funext i; ring
    rw [e]
    have h1 := (mixedPenalty_convex κ hw b (hS hb.1) z (hS hz) (1 - t) t (by linarith) ht.le (by ring)).2
    have h2 := hb.2 _ (hSc b hb.1 z hz (1 - t) t (by linarith) ht.le (by ring))
    dsimp only at h2
    have h3 := mul_le_mul_of_nonneg_left h1 hl
    nlinarith)
  linarith

lemma mixedDomain_comb (κ : Fin p → Kind q) : ∀ x ∈ mixedDomain κ, ∀ y ∈ mixedDomain κ, ∀ a b : ℝ, 0 ≤ a → 0 ≤ b →
    a + b = 1 → (fun i => a * x i + b * y i) ∈ mixedDomain κ := by
  intro x hx y hy a b ha hb _ i hi
  have := mul_nonneg ha (hx i hi)
  have := mul_nonneg hb (hy i hi)
  dsimp only; linarith

/-- the block of another group, or a coordinate outside, does not see a change of one coordinate -/
lemma rk_update (κ : Fin p → Kind q) (b : Fin p → ℝ) {i : Fin p} (hi : ∀ j, κ i ≠ .group j) (s : ℝ) (j : Fin q) :
    rk κ j (Function.update b i s) = rk κ j b := by
  funext k
  unfold rk
  split_ifs with h
  · rw [Function.update_of_ne]
    rintro rfl
    exact hi j h
  · rfl

lemma coord_vi {κ : Fin p → Kind q} {w : Fin q → ℝ} {g b : Fin p → ℝ} {lam : ℝ}
    (hb : b ∈ mixedDomain κ) (h : ∀ z ∈ mixedDomain κ,
      0 ≤ dot g (fun i => z i - b i) + lam * (mixedPenalty κ w z - mixedPenalty κ w b)) {i : Fin p}
    (hi : ∀ j, κ i ≠ .group j) {s : ℝ} (hs : coordDom (κ i) s) :
    0 ≤ g i * (s - b i) + lam * (coordPen (κ i) s - coordPen (κ i) (b i)) := by
  have h1 := h (Function.update b i s) (fun k hk => by
    by_cases hki : k = i
    · subst hki; rw [Function.update_self]; exact hs hk
    · rw [Function.update_of_ne hki]; exact hb k hk)
  rw [lin_by_kind, Finset.sum_eq_single i] at h1
  · rw [Function.update_self] at h1
    have h2 : ∀ j, rk κ j (Function.update b i s) = rk κ j b := rk_update κ b hi s
    simp only [h2, sub_self, mul_zero, Finset.sum_const_zero, add_zero] at h1
    rcases hk : κ i with _ | _ | _ | _ | j <;> rw [hk] at h1
    · exact h1
    · exact h1
    · exact h1
    · exact h1
    · exact absurd hk (hi j)
  · intro k _ hk
    rw [Function.update_of_ne hk]
    simp only [sub_self, mul_zero, add_zero]
    unfold ng; split <;> rfl
  · intro h; exact absurd (Finset.mem_univ i) h

lemma group_vi {κ : Fin p → Kind q} {w : Fin q → ℝ} {g b : Fin p → ℝ} {lam : ℝ}
    (hb : b ∈ mixedDomain κ) (h : ∀ z ∈ mixedDomain κ,
      0 ≤ dot g (fun i => z i - b i) + lam * (mixedPenalty κ w z - mixedPenalty κ w b)) (j : Fin q) (y : Fin p → ℝ) :
    0 ≤ ∑ i, rk κ j g i * (rk κ j y i - rk κ j b i) + lam * w j * (npNorm (rk κ j y) - npNorm (rk κ j b)) := by
  set z : Fin p → ℝ := fun k => if κ k = .group j then y k else b k with hz
  have h1 := h z (fun k hk => by
    have : κ k ≠ .group j := by rcases hk with h | h <;> rw [h] <;> simp
    rw [hz]; dsimp only; rw [if_neg this]; exact hb k hk)
  have hj : rk κ j z = rk κ j y := by
    funext k; unfold rk; rw [hz]; dsimp only; split_ifs <;> rfl
  have ho : ∀ l, l ≠ j → rk κ l z = rk κ l b := by
    intro l hl
    funext k; unfold rk; rw [hz]; dsimp only
    by_cases hk : κ k = .group l
    · rw [if_pos hk, if_pos hk, if_neg]
      rw [hk]; intro hc; exact hl (Kind.group.inj hc)
    · rw [if_neg hk, if_neg hk]
  rw [lin_by_kind, Finset.sum_eq_zero, zero_add, Finset.sum_eq_single j] at h1
  · rwa [hj] at h1
  · intro l _ hl
    rw [ho l hl]; simp
  · intro h; exact absurd (Finset.mem_univ j) h
  · intro k _
    by_cases hk : ∃ l, κ k = .group l
    · obtain ⟨l, hl⟩ := hk; rw [hl]; rfl
    · have : z k = b k := by
        rw [hz]; dsimp only; rw [if_neg]; intro hc; exact hk ⟨j, hc⟩
      rw [this]; simp only [sub_self, mul_zero, add_zero]
      unfold ng; split <;> rfl

/-- what the variational inequality says of an l1 coordinate -/
lemma l1_of_vi {g b lam : ℝ} (hl : 0 ≤ lam) (h : ∀ s : ℝ, 0 ≤ g * (s - b) + lam * (|s| - |b|)) :
    |g| ≤ lam ∧ g * b = -(lam * |b|) := by
  have h1 := h (b + 1)
  have h2 := h (b - 1)
  have h3 := h 0
  have a1 := mul_le_mul_of_nonneg_left (abs_add_le b 1) hl
  have a2 := mul_le_mul_of_nonneg_left (abs_sub b 1) hl
  rw [abs_one] at a1 a2
  rw [abs_zero] at h3
  have hg : |g| ≤ lam := abs_le.2 ⟨by nlinarith, by nlinarith⟩
  have h4 : -(g * b) ≤ lam * |b| := by
    have := neg_abs_le (g * b)
    rw [abs_mul] at this
    have := mul_le_mul_of_nonneg_right hg (abs_nonneg b)
    linarith
  exact ⟨hg, by nlinarith⟩

lemma group_of_vi {ι : Type*} [Fintype ι] {g b : ι → ℝ} {c : ℝ}
    (hc : 0 ≤ c) (h : ∀ y : ι → ℝ, 0 ≤ ∑ i, g i * (y i - b i) + c * (npNorm y - npNorm b)) :
    npNorm g ≤ c ∧ ∑ i, g i * b i = -(c * npNorm b) := by
  have h1 := h (fun i => b i + (-1) * g i)
  have h2 := h (fun _ => 0)
  have h3 := npNorm_add_le b fun i => (-1) * g i
  have h4 := mul_le_mul_of_nonneg_left h3 hc
  rw [npNorm_smul, abs_neg, abs_one, one_mul] at h4
  have e1 : ∑ i, g i * (b i + (-1) * g i - b i) = -(npNorm g * npNorm g) := by
    rw [← sq, sq_npNorm, ← Finset.sum_neg_distrib]
    exact Finset.sum_congr rfl fun i _ => by ring
  have e2 : ∑ i, g i * (0 - b i) = -∑ i, g i * b i := by
    rw [← Finset.sum_neg_distrib]
    exact Finset.sum_congr rfl fun i _ => by ring
  rw [e1] at h1
  rw [e2, npNorm_zero] at h2
  have hn := npNorm_nonneg g
  have hg : npNorm g ≤ c := by
    by_contra hcn
    push Not at hcn
    have : npNorm g * npNorm g ≤ c * npNorm g := by nlinarith
    nlinarith [lt_of_le_of_lt hc hcn]
  refine ⟨hg, ?_⟩
  have h5 := cauchy (fun i => -g i) b
  have h6 : npNorm (fun i => -g i) = npNorm g := by
    have := npNorm_smul (-1) g
    simp only [neg_mul, one_mul, abs_neg, abs_one] at this
    exact this
  rw [h6] at h5
  have h7 : ∑ i, -g i * b i = -∑ i, g i * b i := by
    rw [← Finset.sum_neg_distrib]
    exact Finset.sum_congr rfl fun i _ => by ring
  rw [h7] at h5
  have := mul_le_mul_of_nonneg_right hg (npNorm_nonneg b)
  linarith

end Verif.Lemmas
