import Verif.Model.Conjugate
import Verif.Props.C08_Dual
import Verif.Lemmas.Quad

/-!
# C13: `get_conjugate` returns the Fenchel conjugate, and is an involution

The specification `atomFn` is the documented function of an atom: in lagrange mode `λ h(x-α) + ⟨l,x⟩ + c`, in
bound mode the (exact, zero tolerance) indicator of `h(x-α) ≤ b` plus `⟨l,x⟩ + c`.
-/

set_option linter.unusedSectionVars false
set_option linter.unusedVariables false

namespace Verif.Props
open Verif.Model Verif.Lemmas Verif.Spec

variable {n : ℕ}

/-- Documented value `r h(x)` of each class, `+∞` outside the domain of the constrained classes. -/
noncomputable def penalty (k : Klass) (r : ℝ) (x : Fin (n + 1) → ℝ) : WithTop ℝ := by
  classical
  exact match k with
  | .l1norm => ((r * ∑ i, |x i| : ℝ) : WithTop ℝ)
  | .supnorm => ((r * maxCoord (fun i => |x i|) : ℝ) : WithTop ℝ)
  | .l2norm => ((r * Real.sqrt (∑ i, x i ^ 2) : ℝ) : WithTop ℝ)
  | .positivePart => ((r * ∑ i, max (x i) 0 : ℝ) : WithTop ℝ)
  | .maxPositivePart => ((r * maxCoord (fun i => max (x i) 0) : ℝ) : WithTop ℝ)
  | .constrainedMax => if ∀ i, 0 ≤ x i then ((r * maxCoord x : ℝ) : WithTop ℝ) else ⊤
  | .constrainedPositivePart => if ∀ i, 0 ≤ x i then ((r * ∑ i, x i : ℝ) : WithTop ℝ) else ⊤

/-- Documented constraint set `h(x) ≤ r`. -/
def ballOf (k : Klass) (r : ℝ) : Set (Fin (n + 1) → ℝ) :=
  match k with
  | .l1norm => {x | ∑ i, |x i| ≤ r}
  | .supnorm => {x | ∀ i, |x i| ≤ r}
  | .l2norm => {x | Real.sqrt (∑ i, x i ^ 2) ≤ r}
  | .positivePart => {x | ∑ i, max (x i) 0 ≤ r}
  | .maxPositivePart => {x | ∀ i, max (x i) 0 ≤ r}
  | .constrainedMax => {x | ∀ i, 0 ≤ x i ∧ x i ≤ r}
  | .constrainedPositivePart => {x | (∀ i, 0 ≤ x i) ∧ ∑ i, x i ≤ r}

/-- The extended-valued function denoted by an atom with given offset, linear term and constant. -/
noncomputable def atomFn (k : Klass) (bound : Bool) (r : ℝ) (α l : Fin (n + 1) → ℝ) (c : ℝ)
    (x : Fin (n + 1) → ℝ) : WithTop ℝ := by
  classical
  exact (if bound then (if (fun i => x i - α i) ∈ ballOf k r then 0 else ⊤)
    else penalty k r (fun i => x i - α i)) + ((dot l x + c : ℝ) : WithTop ℝ)

/-- entries of an optional offset -/
def offAt (o : Option (PyVec (Fin (n + 1)) ℝ)) (i : Fin (n + 1)) : ℝ := o.elim 0 fun v => v.get i

/-- The function denoted by an object with mode and parameter, and zero quadratic coefficient. -/
noncomputable def denoteAtom (a : AtomObj (Fin (n + 1)) ℝ) (bound : Bool) (r : ℝ) :
    (Fin (n + 1) → ℝ) → WithTop ℝ :=
  atomFn a.klass bound r (offAt a.offset) (linearAt a.quad) a.quad.const

/-! ### generic duality -/

private lemma add_coe_eq {H : WithTop ℝ} {t a : ℝ} : H + ((t : ℝ) : WithTop ℝ) = ((a : ℝ) : WithTop ℝ) ↔
    H = (((a - t) : ℝ) : WithTop ℝ) := by
  cases H with
  | top =>
    rw [WithTop.top_add]
    exact ⟨fun h => absurd h.symm WithTop.coe_ne_top, fun h => absurd h.symm WithTop.coe_ne_top⟩
  | coe b =>
    rw [← WithTop.coe_add, WithTop.coe_inj, WithTop.coe_inj]
    constructor <;> intro h <;> linarith

private lemma dot_sub_left {ι : Type*} [Fintype ι] (x α y : ι → ℝ) :
    dot (fun i => x i - α i) y = dot x y - dot α y := by
  unfold dot; rw [← Finset.sum_sub_distrib]; exact Finset.sum_congr rfl fun i _ => by ring

private lemma dot_comm {ι : Type*} [Fintype ι] (x y : ι → ℝ) : dot x y = dot y x := by
  unfold dot; exact Finset.sum_congr rfl fun i _ => by ring

private lemma dot_smul_left {ι : Type*} [Fintype ι] (t : ℝ) (x y : ι → ℝ) :
    dot (fun i => t * x i) y = t * dot x y := by
  unfold dot; rw [Finset.mul_sum]; exact Finset.sum_congr rfl fun i _ => by ring

private lemma dot_zero_left {ι : Type*} [Fintype ι] (y : ι → ℝ) : dot (fun _ => 0) y = 0 := by
  simp [dot]

open Classical in
/-- indicator of a set, shifted, plus affine: conjugate is the shifted support function plus affine -/
lemma conj_ind {ι : Type*} [Fintype ι] {C : Set (ι → ℝ)} {H : (ι → ℝ) → WithTop ℝ}
    (hs : IsSupportFn C H) (α l : ι → ℝ) (c : ℝ) :
    IsConjugate (fun x => (if (fun i => x i - α i) ∈ C then (0 : WithTop ℝ) else ⊤) + ((dot l x + c : ℝ) : WithTop ℝ))
      (fun y => H (fun i => y i - l i) + ((dot α y + (-c - dot α l) : ℝ) : WithTop ℝ)) := by
  have key : ∀ y x a, (if (fun i => x i - α i) ∈ C then (0 : WithTop ℝ) else ⊤) + ((dot l x + c : ℝ) : WithTop ℝ) =
      ((a : ℝ) : WithTop ℝ) → (fun i => x i - α i) ∈ C ∧
        dot x y - a = dot (fun i => y i - l i) (fun i => x i - α i) + (dot α y + (-c - dot α l)) := by
    intro y x a h
    rw [add_coe_eq] at h
    by_cases hm : (fun i => x i - α i) ∈ C
    swap
    · rw [if_neg hm] at h; exact absurd h.symm WithTop.coe_ne_top
    · rw [if_pos hm] at h
      have h' : (0:ℝ) = a - (dot l x + c) := by exact_mod_cast h
      refine ⟨hm, ?_⟩
      have : dot (fun i => y i - l i) (fun i => x i - α i) = dot x y - dot l x - dot α y + dot α l := by
        rw [dot_sub_left, dot_comm y, dot_comm l, dot_sub_left, dot_sub_left, dot_comm x l]; ring
      rw [this]; linarith
  intro y
  obtain ⟨h1, h2⟩ := hs (fun i => y i - l i)
  refine ⟨fun v hv => ?_, fun hv hb => ?_⟩
  · rw [add_coe_eq] at hv
    obtain ⟨⟨u, hu, e⟩, hub⟩ := h1 _ hv
    apply IsGreatest.isLUB
    constructor
    · refine ⟨fun i => u i + α i, dot l (fun i => u i + α i) + c, ?_, ?_⟩
      · have : (fun i => u i + α i - α i) = u := by funext i; ring
        simp only [this, if_pos hu, zero_add]
      · have hk := key y (fun i => u i + α i) (dot l (fun i => u i + α i) + c) (by
          have : (fun i => u i + α i - α i) = u := by funext i; ring
          simp only [this, if_pos hu, zero_add])
        rw [hk.2]
        have : (fun i => u i + α i - α i) = u := by funext i; ring
        rw [this]
        simp only at e
        rw [e]; ring
    · rintro t ⟨x, a, hx, rfl⟩
      obtain ⟨hm, e'⟩ := key y x a hx
      rw [e']
      have := hub ⟨_, hm, rfl⟩
      simp only at this
      linarith
  · have hv' : H (fun i => y i - l i) = ⊤ := by
      by_contra hne
      obtain ⟨b, hb'⟩ := WithTop.ne_top_iff_exists.1 hne
      simp only [← hb', ← WithTop.coe_add] at hv
      exact WithTop.coe_ne_top hv
    apply h2 hv'
    obtain ⟨B, hB⟩ := hb
    refine ⟨B - (dot α y + (-c - dot α l)), ?_⟩
    rintro _ ⟨u, hu, rfl⟩
    have e1 : (fun i => u i + α i - α i) = u := by funext i; ring
    have hk := key y (fun i => u i + α i) (dot l (fun i => u i + α i) + c) (by
      simp only [e1, if_pos hu, zero_add])
    have := hB ⟨fun i => u i + α i, dot l (fun i => u i + α i) + c, (by simp only [e1, if_pos hu, zero_add]), rfl⟩
    rw [hk.2, e1] at this
    simp only
    linarith

open Classical in
/-- shifted support function plus affine: conjugate is the shifted indicator plus affine -/
lemma conj_support {ι : Type*} [Fintype ι] {C : Set (ι → ℝ)} {H : (ι → ℝ) → WithTop ℝ}
    (hs : IsSupportFn C H) (hne : C.Nonempty)
    (hhom : ∀ t : ℝ, 0 ≤ t → ∀ x (v : ℝ), H x = v → H (fun i => t * x i) = ((t * v : ℝ) : WithTop ℝ))
    (hsep : ∀ y, y ∉ C → ∃ x, ∃ v : ℝ, H x = v ∧ v < dot x y) (α l : ι → ℝ) (c : ℝ) :
    IsConjugate (fun x => H (fun i => x i - α i) + ((dot l x + c : ℝ) : WithTop ℝ))
      (fun y => (if (fun i => y i - l i) ∈ C then (0 : WithTop ℝ) else ⊤) +
        ((dot α y + (-c - dot α l) : ℝ) : WithTop ℝ)) := by
  have key : ∀ y x a, H (fun i => x i - α i) + ((dot l x + c : ℝ) : WithTop ℝ) = ((a : ℝ) : WithTop ℝ) →
      dot x y - a = dot (fun i => x i - α i) (fun i => y i - l i) - (a - (dot l x + c))
        + (dot α y + (-c - dot α l)) := by
    intro y x a h
    have : dot (fun i => x i - α i) (fun i => y i - l i) = dot x y - dot l x - dot α y + dot α l := by
      rw [dot_comm, dot_sub_left, dot_comm y, dot_comm l, dot_sub_left, dot_sub_left, dot_comm x l]; ring
    rw [this]; ring
  have h0 : H (fun _ => 0) = ((0:ℝ) : WithTop ℝ) := by
    obtain ⟨h1, h2⟩ := hs (fun _ => 0)
    obtain ⟨u, hu⟩ := hne
    cases hH : H (fun _ => 0) with
    | top =>
      exact absurd ⟨0, by rintro _ ⟨z, _, rfl⟩; simp [dot]⟩ (h2 hH)
    | coe b =>
      obtain ⟨z, _, e⟩ := (h1 b hH).1
      simp only [dot_zero_left] at e
      rw [← e]
  intro y
  refine ⟨fun v hv => ?_, fun hv hb => ?_⟩
  · rw [add_coe_eq] at hv
    by_cases hm : (fun i => y i - l i) ∈ C
    swap
    · rw [if_neg hm] at hv; exact absurd hv.symm WithTop.coe_ne_top
    rw [if_pos hm] at hv
    have hv' : v = dot α y + (-c - dot α l) := by
      have : (0:ℝ) = v - (dot α y + (-c - dot α l)) := by exact_mod_cast hv
      linarith
    apply IsGreatest.isLUB
    constructor
    · have e1 : (fun i => α i - α i) = (fun _ => (0:ℝ)) := by funext i; ring
      have hx : H (fun i => α i - α i) + ((dot l α + c : ℝ) : WithTop ℝ) = ((dot l α + c : ℝ) : WithTop ℝ) := by
        rw [e1, h0, ← WithTop.coe_add, zero_add]
      refine ⟨α, _, hx, ?_⟩
      rw [key y α _ hx, e1, dot_zero_left, hv']; ring
    · rintro t ⟨x, a, hx, rfl⟩
      rw [key y x a hx, hv']
      rw [add_coe_eq] at hx
      have := ((hs _).1 _ hx).2 ⟨_, hm, rfl⟩
      simp only at this
      linarith
  · have hm : (fun i => y i - l i) ∉ C := by
      intro hm
      simp only [if_pos hm, zero_add] at hv
      exact WithTop.coe_ne_top hv
    obtain ⟨x, v, hx, hlt⟩ := hsep _ hm
    obtain ⟨B, hB⟩ := hb
    -- move far along the separating direction
    set d := dot x (fun i => y i - l i) - v with hd
    have hdpos : 0 < d := by rw [hd]; linarith
    set K0 := dot α y + (-c - dot α l) with hK0
    set t := (|B - K0| + 1) / d with ht
    have htn : 0 ≤ t := by positivity
    have e1 : (fun i => t * x i + α i - α i) = (fun i => t * x i) := by funext i; ring
    have hx' : H (fun i => t * x i + α i - α i) + ((dot l (fun i => t * x i + α i) + c : ℝ) : WithTop ℝ) =
        ((t * v + (dot l (fun i => t * x i + α i) + c) : ℝ) : WithTop ℝ) := by
      rw [e1, hhom t htn x v hx, ← WithTop.coe_add]
    have := hB ⟨_, _, hx', rfl⟩
    rw [key y _ _ hx', e1, dot_smul_left] at this
    have e2 : t * dot x (fun i => y i - l i) - t * v = |B - K0| + 1 := by
      have : t * d = |B - K0| + 1 := by rw [ht]; field_simp
      rw [hd] at this; linarith
    have := le_abs_self (B - K0)
    linarith

/-! ### the registered pairs -/

lemma penalty_support (k : Klass) {r : ℝ} (hr : 0 ≤ r) :
    IsSupportFn (ballOf (n := n) k.conj r) (penalty k r) := by
  cases k with
  | l1norm => exact C08_l1_sup r hr
  | supnorm => exact C08_sup_l1 r hr
  | l2norm => exact C08_l2_l2 r hr
  | positivePart => exact C08_positive_part r hr
  | maxPositivePart =>
    have := C08_max_positive_part (n := n) r hr
    intro x
    have e : penalty .maxPositivePart r x = ((MaxPosPart.seminorm x r : ℝ) : WithTop ℝ) := by
      simp only [penalty, MaxPosPart.seminorm]; rw [mul_comm]; rfl
    rw [e]; exact this x
  | constrainedMax =>
    intro x
    have e : penalty .constrainedMax r x = if ∀ i, 0 ≤ x i then ConMax.seminorm x r false else ⊤ := by
      simp only [penalty, ConMax.seminorm]; simp; rfl
    rw [e]; exact C08_constrained_max_partial r hr x
  | constrainedPositivePart =>
    intro x
    have e : penalty .constrainedPositivePart r x = if ∀ i, 0 ≤ x i then ConPosPart.seminorm x r false else ⊤ := by
      simp only [penalty, ConPosPart.seminorm]
      by_cases h : ∀ i, 0 ≤ x i
      · simp only [if_pos h, or_true, if_true]
        rw [mul_comm, Finset.sum_congr rfl fun i _ => (max_eq_left (h i)).symm]
      · simp only [if_neg h]
    rw [e]; exact C08_constrained_positive_part_partial r hr x

private lemma ball_nonempty (k : Klass) {r : ℝ} (hr : 0 ≤ r) : (ballOf (n := n) k r).Nonempty := by
  refine ⟨fun _ => 0, ?_⟩
  cases k <;> simp [ballOf, hr]

private lemma maxCoord_smul {t : ℝ} (ht : 0 ≤ t) (x : Fin (n + 1) → ℝ) :
    maxCoord (fun i => t * x i) = t * maxCoord x := by
  apply le_antisymm
  · exact maxCoord_le fun i => mul_le_mul_of_nonneg_left (le_maxCoord x i) ht
  · obtain ⟨k, hk⟩ := exists_maxCoord x
    rw [hk]; exact le_maxCoord (fun i => t * x i) k

lemma penalty_hom (k : Klass) (r : ℝ) (t : ℝ) (ht : 0 ≤ t) (x : Fin (n + 1) → ℝ) (v : ℝ)
    (h : penalty k r x = v) : penalty k r (fun i => t * x i) = ((t * v : ℝ) : WithTop ℝ) := by
  have habs : ∀ i, |t * x i| = t * |x i| := fun i => by rw [abs_mul, abs_of_nonneg ht]
  have hmax : ∀ i, max (t * x i) 0 = t * max (x i) 0 := fun i => by rw [mul_max_of_nonneg _ _ ht, mul_zero]
  cases k with
  | l1norm =>
    simp only [penalty, WithTop.coe_inj] at h ⊢
    simp only [habs, ← Finset.mul_sum]; rw [← h]; ring
  | supnorm =>
    simp only [penalty, WithTop.coe_inj] at h ⊢
    simp only [habs]; rw [maxCoord_smul ht (fun i => |x i|), ← h]; ring
  | l2norm =>
    simp only [penalty, WithTop.coe_inj] at h ⊢
    have := npNorm_smul t x
    unfold npNorm at this
    rw [this, abs_of_nonneg ht, ← h]; ring
  | positivePart =>
    simp only [penalty, WithTop.coe_inj] at h ⊢
    simp only [hmax, ← Finset.mul_sum]; rw [← h]; ring
  | maxPositivePart =>
    simp only [penalty, WithTop.coe_inj] at h ⊢
    simp only [hmax]; rw [maxCoord_smul ht (fun i => max (x i) 0), ← h]; ring
  | constrainedMax =>
    simp only [penalty] at h ⊢
    by_cases hx : ∀ i, 0 ≤ x i
    swap
    · rw [if_neg hx] at h; exact absurd h.symm WithTop.coe_ne_top
    rw [if_pos hx] at h
    rw [if_pos fun i => mul_nonneg ht (hx i), WithTop.coe_inj, maxCoord_smul ht x]
    rw [WithTop.coe_inj] at h
    rw [← h]; ring
  | constrainedPositivePart =>
    simp only [penalty] at h ⊢
    by_cases hx : ∀ i, 0 ≤ x i
    swap
    · rw [if_neg hx] at h; exact absurd h.symm WithTop.coe_ne_top
    rw [if_pos hx] at h
    rw [if_pos fun i => mul_nonneg ht (hx i), WithTop.coe_inj, ← Finset.mul_sum]
    rw [WithTop.coe_inj] at h
    rw [← h]; ring

private lemma sum_ite_mul {x : Fin (n + 1) → ℝ} (k : Fin (n + 1)) (c : ℝ) :
    ∑ i, (if i = k then c else 0) * x i = c * x k := by simp

lemma penalty_sep (k : Klass) {r : ℝ} (hr : 0 ≤ r) (y : Fin (n + 1) → ℝ) (hy : y ∉ ballOf k.conj r) :
    ∃ x, ∃ v : ℝ, penalty k r x = v ∧ v < dot x y := by
  cases k with
  | l1norm =>
    simp only [Klass.conj, ballOf, Set.mem_ofPred_eq, not_forall, not_le] at hy
    obtain ⟨k, hk⟩ := hy
    refine ⟨fun i => if i = k then (if 0 ≤ y k then 1 else -1) else 0, _, rfl, ?_⟩
    have : ∀ i, |(if i = k then (if 0 ≤ y k then (1:ℝ) else -1) else 0)| = if i = k then 1 else 0 := by
      intro i; split_ifs <;> simp
    simp only [this, dot, sum_ite_mul]
    simp only [Finset.sum_ite_eq', Finset.mem_univ, if_true, mul_one]
    split_ifs with h
    · rw [abs_of_nonneg h] at hk; linarith
    · rw [abs_of_neg (not_le.1 h)] at hk; linarith
  | supnorm =>
    simp only [Klass.conj, ballOf, Set.mem_ofPred_eq, not_le] at hy
    refine ⟨fun i => if 0 ≤ y i then 1 else -1, _, rfl, ?_⟩
    have h1 : ∀ i, |(if 0 ≤ y i then (1:ℝ) else -1)| = 1 := by
      intro i; split_ifs <;> simp
    have h2 : maxCoord (fun _ : Fin (n + 1) => (1:ℝ)) = 1 :=
      le_antisymm (maxCoord_le fun _ => le_refl _) (le_maxCoord (fun _ : Fin (n + 1) => (1:ℝ)) 0)
    simp only [h1, h2, dot]
    have : ∀ i, (if 0 ≤ y i then (1:ℝ) else -1) * y i = |y i| := by
      intro i; split_ifs with h
      · rw [abs_of_nonneg h]; ring
      · rw [abs_of_neg (not_le.1 h)]; ring
    simp only [this]; linarith
  | l2norm =>
    simp only [Klass.conj, ballOf, Set.mem_ofPred_eq, not_le] at hy
    refine ⟨y, _, rfl, ?_⟩
    have h1 := sq_npNorm y
    have h2 : r < npNorm y := hy
    have h3 : dot y y = npNorm y ^ 2 := by
      rw [h1]; unfold dot; exact Finset.sum_congr rfl fun i _ => by ring
    rw [h3]
    have : r * npNorm y < npNorm y ^ 2 := by nlinarith
    exact this
  | positivePart =>
    simp only [Klass.conj, ballOf, Set.mem_ofPred_eq, not_forall, not_and_or, not_le] at hy
    obtain ⟨k, hk⟩ := hy
    rcases hk with hk | hk
    · refine ⟨fun i => if i = k then -1 else 0, _, rfl, ?_⟩
      have : ∀ i, max (if i = k then (-1:ℝ) else 0) 0 = 0 := by
        intro i; split_ifs <;> simp
      simp only [this, dot, sum_ite_mul]
      simp; exact hk
    · refine ⟨fun i => if i = k then 1 else 0, _, rfl, ?_⟩
      have : ∀ i, max (if i = k then (1:ℝ) else 0) 0 = if i = k then 1 else 0 := by
        intro i; split_ifs <;> simp
      simp only [this, dot, sum_ite_mul]
      simp; exact hk
  | maxPositivePart =>
    simp only [Klass.conj, ballOf, Set.mem_ofPred_eq, not_and_or, not_forall, not_le] at hy
    rcases hy with ⟨k, hk⟩ | hs
    · refine ⟨fun i => if i = k then -1 else 0, _, rfl, ?_⟩
      have : ∀ i, max (if i = k then (-1:ℝ) else 0) 0 = 0 := by
        intro i; split_ifs <;> simp
      have h2 : maxCoord (fun _ : Fin (n + 1) => (0:ℝ)) = 0 :=
        le_antisymm (maxCoord_le fun _ => le_refl _) (le_maxCoord (fun _ : Fin (n + 1) => (0:ℝ)) 0)
      simp only [this, h2, dot, sum_ite_mul]
      linarith
    · refine ⟨fun i => 1, _, rfl, ?_⟩
      have h2 : maxCoord (fun _ : Fin (n + 1) => max (1:ℝ) 0) = 1 := by
        have : max (1:ℝ) 0 = 1 := by norm_num
        rw [this]
        exact le_antisymm (maxCoord_le fun _ => le_refl _) (le_maxCoord (fun _ : Fin (n + 1) => (1:ℝ)) 0)
      simp only [h2, dot, one_mul]; linarith
  | constrainedMax =>
    simp only [Klass.conj, ballOf, Set.mem_ofPred_eq, not_le] at hy
    by_cases hp : ∃ i, 0 < y i
    · obtain ⟨j, hj⟩ := hp
      refine ⟨fun i => if 0 < y i then 1 else 0, r, ?_, ?_⟩
      · simp only [penalty]
        rw [if_pos (by intro i; split_ifs <;> simp), WithTop.coe_inj]
        have : maxCoord (fun i => if 0 < y i then (1:ℝ) else 0) = 1 := by
          apply le_antisymm
          · apply maxCoord_le; intro i; split_ifs <;> simp
          · have := le_maxCoord (fun i => if 0 < y i then (1:ℝ) else 0) j
            simpa [hj] using this
        rw [this, mul_one]
      · unfold dot
        refine lt_of_lt_of_eq hy (Finset.sum_congr rfl fun i _ => ?_)
        dsimp only
        split_ifs with h
        · rw [max_eq_left h.le, one_mul]
        · rw [max_eq_right (not_lt.1 h), zero_mul]
    · push Not at hp
      exfalso
      rw [Finset.sum_congr rfl fun i _ => max_eq_right (hp i)] at hy
      simp at hy; linarith
  | constrainedPositivePart =>
    simp only [Klass.conj, ballOf, Set.mem_ofPred_eq, not_forall, not_le] at hy
    obtain ⟨k, hk⟩ := hy
    refine ⟨fun i => if i = k then 1 else 0, r, ?_, ?_⟩
    · simp only [penalty]
      rw [if_pos (by intro i; split_ifs <;> simp)]
      simp
    · simp only [dot, sum_ite_mul, one_mul]
      rcases lt_max_iff.1 hk with h | h
      · exact h
      · exact absurd hr (not_le.2 h)

/-- Mathematical core of C13: documented functions of the pairs are Fenchel conjugate, in both directions. -/
theorem C13_atomFn_conjugate (k : Klass) (b : Bool) {r : ℝ} (hr : 0 ≤ r) (α l : Fin (n + 1) → ℝ) (c : ℝ) :
    IsConjugate (atomFn k b r α l c) (atomFn k.conj (!b) r l α (-c - dot α l)) := by
  have hkk : k.conj.conj = k := by cases k <;> rfl
  cases b with
  | false =>
    have := conj_support (penalty_support (n := n) k hr) (ball_nonempty _ hr) (penalty_hom k r) (penalty_sep k hr) α l c
    exact this
  | true =>
    have h := penalty_support (n := n) k.conj hr
    rw [hkk] at h
    have := conj_ind h α l c
    exact this

/-- the object built by the constructor in one of the two modes with a nonnegative parameter -/
def InMode (a : AtomObj (Fin (n + 1)) ℝ) (bound : Bool) (r : ℝ) : Prop :=
  0 ≤ r ∧ a.st = if bound then ⟨none, some r⟩ else ⟨some r, none⟩

/-- offset and linear term are not both floats: a float offset is never produced by the public API, which passes
arrays -/
def ArrayOffset (a : AtomObj (Fin (n + 1)) ℝ) : Prop := ∀ c, a.offset ≠ some (.scalar c)

lemma offAt_ctor (o : Option (PyVec (Fin (n + 1)) ℝ)) : offAt (ctorOffset o) = offAt o := by
  funext i
  rcases o with _ | v
  · rfl
  · unfold ctorOffset
    simp only
    split_ifs with h
    · cases v with
      | scalar c => simp only [PyVec.allZero] at h; simp [offAt, h]
      | arr v => simp only [PyVec.allZero] at h; simp [offAt, h]
    · rfl

lemma linearAt_work (a : AtomObj (Fin (n + 1)) ℝ) :
    linearAt (workOutConjugate a.offset a.quad).2 = offAt a.offset := by
  funext i
  unfold workOutConjugate linearAt Quad.init offAt
  cases a.offset <;> rfl

lemma const_work (a : AtomObj (Fin (n + 1)) ℝ) (ho : ArrayOffset a) :
    (workOutConjugate a.offset a.quad).2.const = -a.quad.const - dot (offAt a.offset) (linearAt a.quad) := by
  unfold workOutConjugate Quad.init offAt linearAt dot
  simp only [Option.getD_some]
  congr 1
  rcases h : a.offset with _ | (c | v)
  · rcases a.quad.linear with _ | (d | w) <;> simp [PyVec.map₂, PyVec.npSum]
  · exact absurd h (ho c)
  · rcases a.quad.linear with _ | (d | w) <;> simp [PyVec.map₂, PyVec.npSum]

/-- C13: for an atom of any registered class, in either mode, with any array offset and any linear/constant
quadratic (zero quadratic coefficient), `get_conjugate` returns an atom in the other mode with the same parameter
whose documented function is the Fenchel conjugate of the documented function of the given atom. -/
theorem C13_conjugate (a : AtomObj (Fin (n + 1)) ℝ) (b : Bool) (r : ℝ) (hm : InMode a b r)
    (hq : a.quad.coef = 0) (ho : ArrayOffset a) :
    ∃ a', a.getConjugate = .atom a' ∧ InMode a' (!b) r ∧ a'.quad.coef = 0 ∧
      IsConjugate (denoteAtom a b r) (denoteAtom a' (!b) r) := by
  obtain ⟨hr, hst⟩ := hm
  have hinit : AtomState.init a.st.bound a.st.lagrange = .ok (if (!b) then ⟨none, some r⟩ else ⟨some r, none⟩) := by
    rw [hst]; cases b <;> simp [AtomState.init, not_lt.2 hr]
  refine ⟨⟨a.klass.conj, (if (!b) then ⟨none, some r⟩ else ⟨some r, none⟩),
    ctorOffset (workOutConjugate a.offset a.quad).1, (workOutConjugate a.offset a.quad).2⟩, ?_, ⟨hr, rfl⟩, rfl, ?_⟩
  · unfold AtomObj.getConjugate
    rw [if_pos hq]
    simp only [hinit]
  · unfold denoteAtom
    simp only [offAt_ctor, linearAt_work, const_work a ho]
    exact C13_atomFn_conjugate a.klass b hr (offAt a.offset) (linearAt a.quad) a.quad.const

private lemma npSum_comm (u v : PyVec (Fin (n + 1)) ℝ) :
    (PyVec.map₂ (· * ·) u v).npSum = (PyVec.map₂ (· * ·) v u).npSum := by
  cases u <;> cases v <;> simp [PyVec.map₂, PyVec.npSum, mul_comm]

private lemma npSum_zero (u v : PyVec (Fin (n + 1)) ℝ) (h : v.allZero) :
    (PyVec.map₂ (· * ·) u v).npSum = 0 := by
  cases u <;> cases v <;> simp only [PyVec.allZero] at h <;> simp [PyVec.map₂, PyVec.npSum, h]

/-- C13: conjugating twice gives back an atom of the same class and mode with the same parameter, offset entries,
linear term entries and constant; hence the same documented function. -/
theorem C13_involution (a : AtomObj (Fin (n + 1)) ℝ) (b : Bool) (r : ℝ) (hm : InMode a b r)
    (hq : a.quad.coef = 0) :
    ∃ a' a'', a.getConjugate = .atom a' ∧ a'.getConjugate = .atom a'' ∧
      a''.klass = a.klass ∧ a''.st = a.st ∧ (∀ i, offAt a''.offset i = offAt a.offset i) ∧
      a''.quad.coef = a.quad.coef ∧ (∀ i, linearAt a''.quad i = linearAt a.quad i) ∧
      a''.quad.const = a.quad.const ∧
      denoteAtom a'' b r = denoteAtom a b r := by
  obtain ⟨hr, hst⟩ := hm
  have hinit : AtomState.init a.st.bound a.st.lagrange = .ok (if (!b) then ⟨none, some r⟩ else ⟨some r, none⟩) := by
    rw [hst]; cases b <;> simp [AtomState.init, not_lt.2 hr]
  set st' : AtomState ℝ := (if (!b) then ⟨none, some r⟩ else ⟨some r, none⟩) with hst'
  have hinit' : AtomState.init st'.bound st'.lagrange = .ok a.st := by
    rw [hst, hst']; cases b <;> simp [AtomState.init, not_lt.2 hr]
  have hkk : a.klass.conj.conj = a.klass := by cases a.klass <;> rfl
  set a' : AtomObj (Fin (n + 1)) ℝ := ⟨a.klass.conj, st', ctorOffset (workOutConjugate a.offset a.quad).1,
    (workOutConjugate a.offset a.quad).2⟩ with ha'
  set a'' : AtomObj (Fin (n + 1)) ℝ := ⟨a'.klass.conj, a.st, ctorOffset (workOutConjugate a'.offset a'.quad).1,
    (workOutConjugate a'.offset a'.quad).2⟩ with ha''
  have e1 : ∀ i, offAt a''.offset i = offAt a.offset i := by
    intro i
    rw [ha'', offAt_ctor]
    have := congrFun (linearAt_work a) i
    unfold linearAt at this
    exact this
  have e2 : ∀ i, linearAt a''.quad i = linearAt a.quad i := by
    intro i
    have h1 := congrFun (linearAt_work a') i
    rw [ha', offAt_ctor] at h1
    exact h1
  have e3 : a''.quad.const = a.quad.const := by
    have hlin : a'.quad.linear = some (a.offset.getD (.scalar 0)) := rfl
    have hc : a'.quad.const = -a.quad.const -
      (PyVec.map₂ (· * ·) (a.offset.getD (.scalar 0)) (a.quad.linear.getD (.scalar 0))).npSum := rfl
    have hc2 : a''.quad.const = -a'.quad.const -
      (PyVec.map₂ (· * ·) (a'.offset.getD (.scalar 0)) (a'.quad.linear.getD (.scalar 0))).npSum := rfl
    have ho : a'.offset = ctorOffset a.quad.linear := rfl
    rw [hc2, hc, hlin, ho]
    simp only [Option.getD_some]
    rcases a.quad.linear with _ | v
    · simp only [ctorOffset, Option.getD_none]; rw [npSum_comm]; ring
    · unfold ctorOffset
      by_cases hz : v.allZero
      · simp only [if_pos hz, Option.getD_none, Option.getD_some]
        rw [npSum_zero _ _ hz, npSum_comm, npSum_zero _ (.scalar 0) rfl]; ring
      · simp only [if_neg hz, Option.getD_some]
        rw [npSum_comm v]; ring
  refine ⟨a', a'', ?_, ?_, hkk, rfl, e1, hq.symm, e2, e3, ?_⟩
  · unfold AtomObj.getConjugate
    rw [if_pos hq]
    simp only [hinit]; rfl
  · unfold AtomObj.getConjugate
    rw [if_pos (show a'.quad.coef = 0 from rfl)]
    have : a'.st = st' := rfl
    simp only [this, hinit']; rfl
  · unfold denoteAtom
    rw [funext e1, funext e2, e3]
    have : a''.klass = a.klass := hkk
    rw [this]

private lemma atomFn_mem (k : Klass) (r : ℝ) (α l : Fin (n + 1) → ℝ) (c : ℝ) (x : Fin (n + 1) → ℝ)
    (h : (fun i => x i - α i) ∈ ballOf k r) :
    atomFn k true r α l c x = ((dot l x + c : ℝ) : WithTop ℝ) := by
  unfold atomFn
  simp only [if_true, if_pos h, zero_add]

/-- C13 needs array offsets: with a float offset 1 and a float linear term 1 in dimension 2 the constant of the
conjugate is -1 instead of -2. -/
theorem C13_scalar_offset_fails :
    ∃ a : AtomObj (Fin 2) ℝ, InMode (n := 1) a false 1 ∧ a.quad.coef = 0 ∧
      ∀ a', a.getConjugate = .atom a' → ¬ IsConjugate (denoteAtom (n := 1) a false 1) (denoteAtom (n := 1) a' true 1) := by
  let a : AtomObj (Fin 2) ℝ := ⟨.l1norm, ⟨some 1, none⟩, some (.scalar 1), ⟨0, some (.scalar 0), some (.scalar 1), 0⟩⟩
  refine ⟨a, ⟨zero_le_one, rfl⟩, rfl, ?_⟩
  intro a' ha' hcon
  have h1 : a.getConjugate = .atom ⟨.supnorm, ⟨none, some 1⟩, some (.scalar 1), ⟨0, some (.scalar 0), some (.scalar 1), -1⟩⟩ := by
    unfold AtomObj.getConjugate
    simp [a, AtomState.init, workOutConjugate, ctorOffset, Quad.init, PyVec.map₂, PyVec.npSum, Klass.conj,
      PyVec.allZero, not_lt.2 (zero_le_one (α := ℝ))]
  rw [h1] at ha'
  injection ha' with ha''
  rw [← ha''] at hcon
  have h2 := C13_atomFn_conjugate (n := 1) .l1norm false (zero_le_one (α := ℝ)) (fun _ => 1) (fun _ => 1) 0
  have hmem : (fun i : Fin 2 => (1:ℝ) - 1) ∈ ballOf (n := 1) .supnorm 1 := by simp [ballOf]
  have v1 : denoteAtom (n := 1) ⟨.supnorm, ⟨none, some 1⟩, some (.scalar 1),
      ⟨0, some (.scalar 0), some (.scalar 1), -1⟩⟩ true 1 (fun _ => 1) = ((1 : ℝ) : WithTop ℝ) := by
    refine (atomFn_mem (n := 1) .supnorm 1 _ _ _ _ hmem).trans ?_
    rw [WithTop.coe_inj]
    norm_num [dot, Fin.sum_univ_two, linearAt]
  have v2 : atomFn (n := 1) Klass.l1norm.conj (!false) 1 (fun _ => 1) (fun _ => 1)
      (-0 - dot (fun _ : Fin 2 => (1:ℝ)) (fun _ => 1)) (fun _ => 1) = ((0 : ℝ) : WithTop ℝ) := by
    refine (atomFn_mem (n := 1) .supnorm 1 _ _ _ _ hmem).trans ?_
    rw [WithTop.coe_inj]
    norm_num [dot, Fin.sum_univ_two]
  have g1 := (hcon (fun _ => 1)).1 _ v1
  have g2 := (h2 (fun _ => 1)).1 _ v2
  have e : denoteAtom (n := 1) a false 1 = atomFn (n := 1) .l1norm false 1 (fun _ => 1) (fun _ => 1) 0 := rfl
  rw [e] at g1
  have := g1.unique g2
  norm_num at this

private lemma quad_eq (a : AtomObj (Fin (n + 1)) ℝ) (hq : a.quad.coef = 0) (x : Fin (n + 1) → ℝ) :
    a.quad.funcVal x = dot (linearAt a.quad) x + a.quad.const := by
  rw [funcVal_eq, hq]; unfold dot; ring

private lemma applyOffset_eq (a : AtomObj (Fin (n + 1)) ℝ) (x : Fin (n + 1) → ℝ) :
    a.applyOffset x = fun i => x i - offAt a.offset i := by
  unfold AtomObj.applyOffset offAt
  cases a.offset with
  | none => funext i; simp
  | some o => rfl

/-- In lagrange mode the value returned by `nonsmooth_objective` is the documented function, for the classes with
full domain (with or without feasibility checking). -/
theorem C13_value_lagrange (a : AtomObj (Fin (n + 1)) ℝ) (r : ℝ) (hm : InMode a false r) (hq : a.quad.coef = 0)
    (hk : a.klass ≠ .constrainedMax ∧ a.klass ≠ .constrainedPositivePart) (x : Fin (n + 1) → ℝ) (cf : Bool) :
    a.nonsmoothObjective x cf = some (denoteAtom a false r x) := by
  obtain ⟨hr, hst⟩ := hm
  have key : ∀ k : Klass, k ≠ .constrainedMax ∧ k ≠ .constrainedPositivePart →
      ∀ z : Fin (n + 1) → ℝ, k.seminorm z r cf = penalty k r z := by
    intro k hk z
    cases k with
    | l1norm => rfl
    | supnorm => rfl
    | l2norm => rfl
    | positivePart => rfl
    | maxPositivePart =>
      simp only [penalty, Klass.seminorm, MaxPosPart.seminorm]; rw [mul_comm]; rfl
    | constrainedMax => exact absurd rfl hk.1
    | constrainedPositivePart => exact absurd rfl hk.2
  unfold AtomObj.nonsmoothObjective denoteAtom atomFn
  simp only [hst, applyOffset_eq, quad_eq a hq]
  simp only [key a.klass hk, Bool.false_eq_true, if_false]

private lemma ite_iff {p q : Prop} {_ : Decidable p} {_ : Decidable q} (h : p ↔ q) :
    (if p then (0 : WithTop ℝ) else ⊤) = if q then 0 else ⊤ := by
  by_cases hp : p
  · rw [if_pos hp, if_pos (h.1 hp)]
  · rw [if_neg hp, if_neg fun hq => hp (h.2 hq)]

/-- In bound mode the value returned with feasibility checking is the documented function, except that points
outside the set but within the relative tolerance `1e-5` are accepted. -/
theorem C13_value_bound (a : AtomObj (Fin (n + 1)) ℝ) (r : ℝ) (hm : InMode a true r) (hq : a.quad.coef = 0)
    (hk : a.klass = .l1norm ∨ a.klass = .supnorm ∨ a.klass = .l2norm ∨ a.klass = .positivePart)
    (x : Fin (n + 1) → ℝ)
    (hx : (fun i => x i - offAt a.offset i) ∈ ballOf a.klass r ∨
      (fun i => x i - offAt a.offset i) ∉ ballOf a.klass (r * (1 + 1 / 10 ^ 5))) :
    a.nonsmoothObjective x true = some (denoteAtom a true r x) := by
  obtain ⟨hr, hst⟩ := hm
  unfold AtomObj.nonsmoothObjective denoteAtom atomFn
  simp only [hst, applyOffset_eq, quad_eq a hq, if_true]
  congr 2
  have htol : r ≤ r * (1 + 1 / 10 ^ 5) := by nlinarith
  set z := fun i => x i - offAt a.offset i with hz
  have fin : ∀ t : ℝ, (t ≤ r ∨ ¬ t ≤ r * (1 + 1 / 10 ^ 5)) → (t ≤ r * (1 + 1 / 10 ^ 5) ↔ t ≤ r) :=
    fun t ht => ⟨fun h => ht.elim id fun h' => absurd h h', fun h => h.trans htol⟩
  rcases hk with h | h | h | h <;> rw [h] at hx ⊢
  · exact ite_iff (fin _ hx)
  · refine ite_iff ?_
    change (∀ i, |z i| ≤ r) ∨ ¬ (∀ i, |z i| ≤ r * (1 + 1 / 10 ^ 5)) at hx
    change (∀ i, |z i| ≤ r * (1 + 1 / 10 ^ 5)) ↔ ∀ i, |z i| ≤ r
    exact ⟨fun h => hx.elim id fun h' => absurd h h', fun h i => (h i).trans htol⟩
  · exact ite_iff (fin _ hx)
  · exact ite_iff (fin _ hx)

/-- the hypotheses of `C13_conjugate` are met by an l1norm atom with offset and linear term -/
example : ∃ a : AtomObj (Fin 2) ℝ, InMode (n := 1) a false 2 ∧ a.quad.coef = 0 ∧ ArrayOffset (n := 1) a ∧
    a.offset ≠ none := by
  refine ⟨⟨.l1norm, ⟨some 2, none⟩, some (.arr ![1, 3]), ⟨0, some (.scalar 0), some (.arr ![4, -1]), 7⟩⟩,
    ⟨by norm_num, rfl⟩, rfl, ?_, by simp⟩
  intro c h; simp at h

end Verif.Props
