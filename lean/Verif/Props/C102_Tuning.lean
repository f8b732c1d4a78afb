import Verif.Props.C100_AnyLoss
import Verif.Props.C100_Losses
import Verif.Props.C90_Atoms
import Verif.Props.C43_LagrangeSequence
import Verif.Model.PenaltySequence

/-!
# C102: how the solution of a penalised problem depends on the tuning parameter and on the data

`simple_problem(loss, atom)` for any loss that meets `IsLossFor` (C100) and any atom that meets `IsAtomFor` (C90): when is zero the
solution, how penalty and loss move with the Lagrange multiplier, how Lagrange and bound form correspond, and how far two answers can be
apart.
-/

set_option linter.unusedSectionVars false
set_option linter.unusedVariables false

namespace Verif.Props
open Verif.Spec Verif.Model Verif.Model.Fista Verif.Lemmas

variable {n p m q : ℕ}

/-! ### specification -/

/-- the gradient at `x` of the function a quadratic stands for -/
noncomputable def quadSlope (sq : Quad (Fin m) ℝ) (x : Fin m → ℝ) (i : Fin m) : ℝ :=
  sq.coef * (x i - denote sq.center i) + denote sq.linear i

/-- where the seminorm of a class is finite -/
def normDomain (k : Klass) : Set (Fin (p + 1) → ℝ) :=
  match k with
  | .constrainedMax => {z | ∀ i, 0 ≤ z i}
  | .constrainedPositivePart => {z | ∀ i, 0 ≤ z i}
  | _ => Set.univ

/-- the seminorm of a class with multiplier 1, on that set -/
noncomputable def normOf (k : Klass) (z : Fin (p + 1) → ℝ) : ℝ :=
  match k with
  | .l1norm => ∑ i, |z i|
  | .supnorm => maxCoord fun i => |z i|
  | .l2norm => Real.sqrt (∑ i, z i ^ 2)
  | .positivePart => ∑ i, max (z i) 0
  | .maxPositivePart => maxCoord fun i => max (z i) 0
  | .constrainedMax => maxCoord z
  | .constrainedPositivePart => ∑ i, z i

/-- a penalty that comes in Lagrange form, `lam * h(x - offset)`, and in bound form, `h(x - offset) ≤ b` -/
structure IsPenaltyFamily (lag bd : ℝ → NonsmoothAtom m) (h : (Fin m → ℝ) → ℝ) (D : Set (Fin m → ℝ))
    (offset : Option (PyVec (Fin m) ℝ)) (sq : Quad (Fin m) ℝ) : Prop where
  lagrange : ∀ lam, 0 ≤ lam → IsAtomFor (lag lam) (shiftedPen (fun z => lam * h z) D offset sq)
  bound : ∀ b, 0 < b → IsAtomFor (bd b) (shiftedPen (fun _ => 0) {z | z ∈ D ∧ h z ≤ b} offset sq)
  convex : IsConvexFnOn h D
  zero : (fun _ => 0) ∈ D ∧ h (fun _ => 0) = 0
  quad_coef : 0 ≤ sq.coef

/-! ### helpers -/

private lemma sh_in {h : (Fin m → ℝ) → ℝ} {D : Set (Fin m → ℝ)} {o : Option (PyVec (Fin m) ℝ)} {sq : Quad (Fin m) ℝ}
    {x : Fin m → ℝ} (hx : (fun i => x i - denote o i) ∈ D) :
    shiftedPen h D o sq x = ((h (fun i => x i - denote o i) + quadVal (some sq) x : ℝ) : WithTop ℝ) := if_pos hx

private lemma sh_out {h : (Fin m → ℝ) → ℝ} {D : Set (Fin m → ℝ)} {o : Option (PyVec (Fin m) ℝ)} {sq : Quad (Fin m) ℝ}
    {x : Fin m → ℝ} (hx : (fun i => x i - denote o i) ∉ D) : shiftedPen h D o sq x = ⊤ := if_neg hx

private lemma pv {f : (Fin m → ℝ) → ℝ} {quad : Quad (Fin m) ℝ} {pen : (Fin m → ℝ) → WithTop ℝ} {x : Fin m → ℝ} {a v : ℝ}
    (ha : pen x = a) (h : penalised f quad pen x = v) : v = a + (f x + quadVal (some quad) x) := by
  unfold penalised at h
  rw [ha, ← WithTop.coe_add, WithTop.coe_inj] at h
  exact h.symm

private lemma pfin {f : (Fin m → ℝ) → ℝ} {quad : Quad (Fin m) ℝ} {pen : (Fin m → ℝ) → WithTop ℝ} {x : Fin m → ℝ} {v : ℝ}
    (h : penalised f quad pen x = v) : ∃ a : ℝ, pen x = a := by
  cases hp : pen x with
  | top =>
    unfold penalised at h
    rw [hp, WithTop.top_add] at h
    exact absurd h.symm WithTop.coe_ne_top
  | coe a => exact ⟨a, rfl⟩

private lemma min_sh {f : (Fin m → ℝ) → ℝ} {quad : Quad (Fin m) ℝ} {h : (Fin m → ℝ) → ℝ} {D : Set (Fin m → ℝ)}
    {o : Option (PyVec (Fin m) ℝ)} {sq : Quad (Fin m) ℝ} {β : Fin m → ℝ} :
    IsMinTop (penalised f quad (shiftedPen h D o sq)) β ↔ (fun i => β i - denote o i) ∈ D ∧
      ∀ x : Fin m → ℝ, (fun i => x i - denote o i) ∈ D →
        h (fun i => β i - denote o i) + (f β + quadVal (some quad) β + quadVal (some sq) β) ≤
          h (fun i => x i - denote o i) + (f x + quadVal (some quad) x + quadVal (some sq) x) := by
  constructor
  · rintro ⟨h1, h2⟩
    have hβ : (fun i => β i - denote o i) ∈ D := by
      by_contra hc
      exact h1 (by unfold penalised; rw [sh_out hc, WithTop.top_add])
    refine ⟨hβ, fun x hx => ?_⟩
    have := h2 x
    unfold penalised at this
    rw [sh_in hβ, sh_in hx, ← WithTop.coe_add, ← WithTop.coe_add, WithTop.coe_le_coe] at this
    linarith
  · rintro ⟨h1, h2⟩
    refine ⟨?_, fun x => ?_⟩
    · unfold penalised
      rw [sh_in h1, ← WithTop.coe_add]; exact WithTop.coe_ne_top
    · unfold penalised
      by_cases hx : (fun i => x i - denote o i) ∈ D
      · rw [sh_in h1, sh_in hx, ← WithTop.coe_add, ← WithTop.coe_add, WithTop.coe_le_coe]
        have := h2 x hx
        linarith
      · rw [sh_out hx, WithTop.top_add]; exact le_top

/-- expansion of a quadratic around a point -/
private lemma quad_expand (sq : Quad (Fin m) ℝ) (x d : Fin m → ℝ) (t : ℝ) :
    quadVal (some sq) (fun i => x i + t * d i) =
      quadVal (some sq) x + t * dot (quadSlope sq x) d + t ^ 2 * (sq.coef / 2 * ∑ i, d i ^ 2) := by
  unfold quadVal quadFn sqDist dot quadSlope
  simp only [Finset.mul_sum]
  have : ∀ i, sq.coef / 2 * (x i + t * d i - denote sq.center i) ^ 2 + denote sq.linear i * (x i + t * d i) =
      sq.coef / 2 * (x i - denote sq.center i) ^ 2 + denote sq.linear i * x i +
        t * ((sq.coef * (x i - denote sq.center i) + denote sq.linear i) * d i) + t ^ 2 * (sq.coef / 2 * d i ^ 2) := fun i => by ring
  have h := Finset.sum_congr (rfl : (Finset.univ : Finset (Fin m)) = Finset.univ) fun i _ => this i
  simp only [Finset.sum_add_distrib] at h
  linarith

private lemma quad_mix (sq : Quad (Fin m) ℝ) (x y : Fin m → ℝ) (t : ℝ) :
    quadVal (some sq) (fun i => (1 - t) * x i + t * y i) =
      (1 - t) * quadVal (some sq) x + t * quadVal (some sq) y - t * (1 - t) * (sq.coef / 2 * sqDist y x) := by
  have e1 := quad_expand sq x (fun i => y i - x i) t
  have e2 := quad_expand sq x (fun i => y i - x i) 1
  have a1 : (fun i => x i + t * (y i - x i)) = fun i => (1 - t) * x i + t * y i := by funext i; ring
  have a2 : (fun i => x i + 1 * (y i - x i)) = y := by funext i; ring
  rw [a1] at e1
  rw [a2] at e2
  have : sqDist y x = ∑ i, (y i - x i) ^ 2 := rfl
  rw [this, e1, e2]
  ring

/-! ### strong convexity around a solution -/

/-- `F` lies below its chords by at least `t (1 - t) Q` between `u` and `c` -/
private lemma growth {F : (Fin m → ℝ) → ℝ} {pen : (Fin m → ℝ) → WithTop ℝ} (hp : ConvexTop pen) {u c : Fin m → ℝ} {pu pc Q : ℝ}
    (hu : pen u = pu) (hc : pen c = pc)
    (hF : ∀ t : ℝ, 0 < t → t < 1 → F (fun i => (1 - t) * u i + t * c i) ≤ (1 - t) * F u + t * F c - t * (1 - t) * Q)
    (hmin : ∀ x (v : ℝ), pen x = v → pu + F u ≤ v + F x) : pu + F u + Q ≤ pc + F c := by
  have key : ∀ t : ℝ, 0 < t → t < 1 → (1 - t) * Q ≤ (pc + F c) - (pu + F u) := by
    intro t h0 h1
    obtain ⟨v, hv, hle⟩ := hp u c pu pc hu hc t h0.le h1.le
    have h2 := hmin _ v hv
    have h3 := hF t h0 h1
    have : t * ((1 - t) * Q) ≤ t * ((pc + F c) - (pu + F u)) := by nlinarith
    exact le_of_mul_le_mul_left this h0
  by_contra hcon
  push Not at hcon
  set G := (pc + F c) - (pu + F u) with hG
  have hGQ : G < Q := by linarith
  have hG0 : 0 ≤ G := by
    have := hmin c pc hc
    linarith
  have hQ : 0 < Q := by linarith
  have := key ((Q - G) / (2 * Q)) (by apply div_pos <;> linarith) (by rw [div_lt_one (by linarith)]; linarith)
  have e : (1 - (Q - G) / (2 * Q)) * Q = (Q + G) / 2 := by field_simp; ring
  rw [e] at this
  linarith

private lemma min_vals {f : (Fin m → ℝ) → ℝ} {quad : Quad (Fin m) ℝ} {pen : (Fin m → ℝ) → WithTop ℝ} {u : Fin m → ℝ}
    (hu : IsMinTop (penalised f quad pen) u) {pu : ℝ} (hpu : pen u = pu) (x : Fin m → ℝ) (v : ℝ) (hv : pen x = v) :
    pu + (f u + quadVal (some quad) u) ≤ v + (f x + quadVal (some quad) x) := by
  have := hu.2 x
  unfold penalised at this
  rw [hpu, hv, ← WithTop.coe_add, ← WithTop.coe_add, WithTop.coe_le_coe] at this
  exact this

private lemma min_finite {f : (Fin m → ℝ) → ℝ} {quad : Quad (Fin m) ℝ} {pen : (Fin m → ℝ) → WithTop ℝ} {u : Fin m → ℝ}
    (hu : IsMinTop (penalised f quad pen) u) : ∃ pu : ℝ, pen u = pu := by
  obtain ⟨v, hv⟩ := WithTop.ne_top_iff_exists.1 hu.1
  exact pfin hv.symm

/-! ### the seven classes as families -/

private lemma pen_family (k : Klass) (lam : ℝ) (z : Fin (p + 1) → ℝ) :
    (z ∈ normDomain k → penalty k lam z = ((lam * normOf k z : ℝ) : WithTop ℝ)) ∧ (z ∉ normDomain k → penalty k lam z = ⊤) := by
  cases k <;> simp only [normDomain, normOf, penalty, Set.mem_univ, Set.mem_ofPred_eq, not_true_eq_false, false_imp_iff,
    true_imp_iff, and_true]
  · exact ⟨fun h => if_pos h, fun h => if_neg h⟩
  · exact ⟨fun h => if_pos h, fun h => if_neg h⟩

private lemma maxCoord_le_iff (z : Fin (p + 1) → ℝ) (b : ℝ) : maxCoord z ≤ b ↔ ∀ i, z i ≤ b :=
  ⟨fun h i => (le_maxCoord z i).trans h, fun h => maxCoord_le h⟩

private lemma ball_family (k : Klass) (b : ℝ) (z : Fin (p + 1) → ℝ) : z ∈ ballOf k b ↔ z ∈ normDomain k ∧ normOf k z ≤ b := by
  cases k <;> simp only [normDomain, normOf, ballOf, Set.mem_univ, Set.mem_ofPred_eq, true_and, maxCoord_le_iff]
  · exact ⟨fun h => ⟨fun i => (h i).1, fun i => (h i).2⟩, fun h i => ⟨h.1 i, h.2 i⟩⟩

private lemma norm_convex (k : Klass) : IsConvexFnOn (normOf k) (normDomain (p := p) k) := by
  -- the penalty with multiplier 1 is convex, being the penalty of an atom
  have hA := (C90_seminorms (p := p) ⟨k, ⟨some 1, none⟩, none, Quad.init none none none none⟩ false 1 ⟨zero_le_one, rfl⟩ le_rfl).convex
  have hz : ∀ x : Fin (p + 1) → ℝ, quadVal (some (Quad.init none none none none)) x = 0 := fun x => by
    simp [quadVal, quadFn, Quad.init, denote, dot]
  have hx : ∀ x : Fin (p + 1) → ℝ, atomBase k false 1 (fun i => x i - offAt none i) +
      ((quadVal (some (Quad.init none none none none)) x : ℝ) : WithTop ℝ) = penalty k 1 x := fun x => by
    rw [hz, WithTop.coe_zero, add_zero]
    simp [atomBase, offAt]
  simp only [hx] at hA
  intro x hx' y hy a b ha hb hab
  obtain ⟨c, h1, h2⟩ := hA x y _ _ ((pen_family k 1 x).1 hx') ((pen_family k 1 y).1 hy) b hb (by linarith)
  have e : 1 - b = a := by linarith
  rw [e] at h1 h2
  dsimp only at h1
  have hd : (fun i => a * x i + b * y i) ∈ normDomain k := by
    by_contra hc
    rw [(pen_family k 1 _).2 hc] at h1
    exact absurd h1.symm WithTop.coe_ne_top
  rw [(pen_family k 1 _).1 hd, WithTop.coe_inj] at h1
  exact ⟨hd, by linarith⟩

private lemma offAt_denote (o : Option (PyVec (Fin (p + 1)) ℝ)) : offAt o = denote o := by
  funext i
  rcases o with _ | (c | c) <;> rfl

/-- **C102** The seven seminorms of `seminorms.py` come in Lagrange and in bound form: with any offset and any convex quadratic, the
two objects stand for `lam * h(x - offset)` and for `h(x - offset) ≤ b` with the same `h`, and `h` is convex and zero at zero. -/
theorem C102_seminorm_family (k : Klass) (offset : Option (PyVec (Fin (p + 1)) ℝ)) (sq : Quad (Fin (p + 1)) ℝ) (hsq : 0 ≤ sq.coef) :
    IsPenaltyFamily (fun lam => (⟨k, ⟨some lam, none⟩, offset, sq⟩ : AtomObj (Fin (p + 1)) ℝ).toAtom)
      (fun b => (⟨k, ⟨none, some b⟩, offset, sq⟩ : AtomObj (Fin (p + 1)) ℝ).toAtom) (normOf k) (normDomain k) offset sq := by
  refine ⟨fun lam hl => ?_, fun b hb => ?_, norm_convex k, ?_, hsq⟩
  · have h := C90_seminorms (p := p) ⟨k, ⟨some lam, none⟩, offset, sq⟩ false lam ⟨hl, rfl⟩ hsq
    have e : (fun x : Fin (p + 1) → ℝ => atomBase k false lam (fun i => x i - offAt offset i) +
        ((quadVal (some sq) x : ℝ) : WithTop ℝ)) = shiftedPen (fun z => lam * normOf k z) (normDomain k) offset sq := by
      funext x
      rw [offAt_denote]
      by_cases hx : (fun i => x i - denote offset i) ∈ normDomain k
      · rw [sh_in hx]
        have : atomBase k false lam (fun i => x i - denote offset i) = penalty k lam (fun i => x i - denote offset i) := by
          simp [atomBase]
        rw [this, (pen_family k lam _).1 hx, ← WithTop.coe_add]
      · rw [sh_out hx]
        have : atomBase k false lam (fun i => x i - denote offset i) = penalty k lam (fun i => x i - denote offset i) := by
          simp [atomBase]
        rw [this, (pen_family k lam _).2 hx, WithTop.top_add]
    rw [← e]; exact h
  · have h := C90_seminorms (p := p) ⟨k, ⟨none, some b⟩, offset, sq⟩ true b ⟨hb.le, rfl⟩ hsq
    have e : (fun x : Fin (p + 1) → ℝ => atomBase k true b (fun i => x i - offAt offset i) +
        ((quadVal (some sq) x : ℝ) : WithTop ℝ)) =
        shiftedPen (fun _ => 0) {z | z ∈ normDomain k ∧ normOf k z ≤ b} offset sq := by
      funext x
      rw [offAt_denote]
      by_cases hx : (fun i => x i - denote offset i) ∈ ballOf k b
      · rw [sh_in (D := {z | z ∈ normDomain k ∧ normOf k z ≤ b}) ((ball_family k b _).1 hx)]
        simp [atomBase, hx]
      · rw [sh_out (D := {z | z ∈ normDomain k ∧ normOf k z ≤ b}) (fun hc => hx ((ball_family k b _).2 hc))]
        simp [atomBase, hx]
    rw [← e]; exact h
  · have hm : maxCoord (fun _ : Fin (p + 1) => (0 : ℝ)) = 0 :=
      le_antisymm (maxCoord_le fun _ => le_rfl) (le_maxCoord (fun _ : Fin (p + 1) => (0 : ℝ)) 0)
    cases k <;> simp [normDomain, normOf, hm]

/-- **C102** `group_lasso` is such a family: the mixed norm `Σ_g w_g ‖z[g]‖₂`, for weights that are 0 or at least `1e-20`. -/
theorem C102_group_lasso_family (grp : Fin (p + 1) → Fin q) (w : Fin q → ℝ) (hw : ∀ j, w j = 0 ∨ 1 / 10 ^ 20 ≤ w j)
    (sort : (Fin (p + 1) → ℝ) → List (ℝ × ℝ)) (hsort : ∀ x, IsDescArgsort (GroupLasso.knotInput grp w x) (sort x))
    (offset : Option (PyVec (Fin (p + 1)) ℝ)) (sq : Quad (Fin (p + 1)) ℝ) (hsq : 0 ≤ sq.coef) :
    IsPenaltyFamily (fun lam => (GroupLasso.cls grp w sort).atom (.lagrange lam) offset sq)
      (fun b => (GroupLasso.cls grp w sort).atom (.bound b) offset sq) (groupNorm grp w) Set.univ offset sq := by
  have hw0 : ∀ j, 0 ≤ w j := fun j => by
    rcases hw j with h | h
    · rw [h]
    · exact le_trans (by positivity) h
  refine ⟨fun lam hl => C90_group_lasso grp w hw0 sort lam hl offset sq hsq, fun b hb => ?_, ?_, ⟨trivial, ?_⟩, hsq⟩
  · have h := C90_group_lasso_bound grp w hw sort hsort b hb.le (Or.inl hb) offset sq hsq
    simpa only [Set.mem_univ, true_and] using h
  · have h := (C90_group_lasso grp w hw0 sort 1 zero_le_one none (Quad.init none none none none) le_rfl).convex
    intro x _ y _ a b ha hb hab
    have hval : ∀ z : Fin (p + 1) → ℝ, shiftedPen (fun z => 1 * groupNorm grp w z) Set.univ none (Quad.init none none none none) z =
        ((groupNorm grp w z : ℝ) : WithTop ℝ) := fun z => by
      rw [sh_in (Set.mem_univ _)]
      simp [quadVal, quadFn, Quad.init, denote, dot]
    obtain ⟨c, h1, h2⟩ := h x y _ _ (hval x) (hval y) b hb (by linarith)
    rw [hval, WithTop.coe_inj] at h1
    have e : 1 - b = a := by linarith
    rw [e] at h1 h2
    exact ⟨trivial, by linarith⟩
  · simp [groupNorm, blockNorm]

/-! ### when is zero the solution -/

/-- **C102** When zero is the solution: for every convex loss with any quadratic and each of the seven seminorms with multiplier `lam`
(no offset, any convex quadratic), the zero vector minimises the documented objective exactly when minus the gradient of the smooth part
at zero lies in the ball of radius `lam` of the conjugate seminorm; and this is exactly when the proximal gradient step of the problem
from zero stays at zero. -/
theorem C102_null_threshold (S : QuadLoss (p + 1)) (f : (Fin (p + 1) → ℝ) → ℝ) (g : (Fin (p + 1) → ℝ) → Fin (p + 1) → ℝ)
    (hS : IsLossFor S f g) (k : Klass) (lam : ℝ) (hl : 0 ≤ lam) (sq : Quad (Fin (p + 1)) ℝ) (hsq : 0 ≤ sq.coef)
    (x0 : Fin (p + 1) → ℝ) (L : ℝ) (hL : 0 < L) :
    (IsMinTop (penalised f S.quad fun x => penalty k lam x + ((quadVal (some sq) x : ℝ) : WithTop ℝ)) (fun _ => 0) ↔
      (fun i => -(g (fun _ => 0) i + quadSlope S.quad (fun _ => 0) i + quadSlope sq (fun _ => 0) i)) ∈ ballOf k.conj lam) ∧
    ∃ z, (SimpleProblem.ofLoss S (⟨k, ⟨some lam, none⟩, none, sq⟩ : AtomObj (Fin (p + 1)) ℝ).toAtom x0).proximal
        (Quad.init (some L) (some (.arr fun _ => 0)) (some (.arr ((SimpleProblem.ofLoss S
          (⟨k, ⟨some lam, none⟩, none, sq⟩ : AtomObj (Fin (p + 1)) ℝ).toAtom x0).grad fun _ => 0))) (some 0)) = some z ∧
      (z = (fun _ => 0) ↔
        (fun i => -(g (fun _ => 0) i + quadSlope S.quad (fun _ => 0) i + quadSlope sq (fun _ => 0) i)) ∈ ballOf k.conj lam) := by
  set s : Fin (p + 1) → ℝ := fun i => g (fun _ => 0) i + quadSlope S.quad (fun _ => 0) i + quadSlope sq (fun _ => 0) i with hs
  set y : Fin (p + 1) → ℝ := fun i => -s i with hy
  have hdot : ∀ x : Fin (p + 1) → ℝ, dot x y =
      -(dot (g fun _ => 0) x + dot (quadSlope S.quad fun _ => 0) x + dot (quadSlope sq fun _ => 0) x) := by
    intro x
    simp only [dot, hy, hs, ← Finset.sum_add_distrib, ← Finset.sum_neg_distrib]
    exact Finset.sum_congr rfl fun i _ => by ring
  have hp0 : penalty k lam (fun _ : Fin (p + 1) => (0 : ℝ)) = ((0 : ℝ) : WithTop ℝ) := by
    obtain ⟨hz, h0⟩ := (C102_seminorm_family (p := p) k none sq hsq).zero
    rw [(pen_family k lam _).1 hz, h0, mul_zero]
  have hq0 : ∀ (sq : Quad (Fin (p + 1)) ℝ) (x : Fin (p + 1) → ℝ) (t : ℝ), quadVal (some sq) (fun i => t * x i) =
      quadVal (some sq) (fun _ => 0) + t * dot (quadSlope sq fun _ => 0) x + t ^ 2 * (sq.coef / 2 * ∑ i, x i ^ 2) := by
    intro sq x t
    have := quad_expand sq (fun _ => 0) x t
    simpa using this
  have key : IsMinTop (penalised f S.quad fun x => penalty k lam x + ((quadVal (some sq) x : ℝ) : WithTop ℝ)) (fun _ => 0) ↔
      y ∈ ballOf k.conj lam := by
    constructor
    · intro hmin
      by_contra hc
      obtain ⟨x, v, hv, hlt⟩ := penalty_sep k hl y hc
      have hmin' := hmin.2
      have hge : -v - dot (quadSlope S.quad fun _ => 0) x - dot (quadSlope sq fun _ => 0) x ≤ dot (g fun _ => 0) x := by
        refine le_of_forall_pos_le_add fun ε hε => ?_
        set C := |S.quad.coef / 2 * ∑ i, x i ^ 2 + sq.coef / 2 * ∑ i, x i ^ 2| with hC
        have hC0 : 0 ≤ C := abs_nonneg _
        -- shrink the direction so that the second order terms are below `ε`
        set r := ε / (ε + C) with hr
        have hr0 : 0 < r := div_pos hε (by linarith)
        have hr1 : r * C ≤ ε := by
          rw [hr, div_mul_eq_mul_div, div_le_iff₀ (by linarith)]
          nlinarith
        have hd := dir_ge (hS.convex.gradient fun _ => 0) (fun i => r * x i)
          (r * (-v - dot (quadSlope S.quad fun _ => 0) x - dot (quadSlope sq fun _ => 0) x - ε)) (fun t ht0 ht1 => by
            have hm := hmin' (fun i => t * (r * x i))
            have e0 : (fun i => t * (r * x i)) = fun i => (t * r) * x i := by funext i; ring
            have htr : 0 ≤ t * r := by positivity
            unfold penalised at hm
            dsimp only at hm
            rw [e0, hp0, penalty_hom k lam (t * r) htr x v hv, ← WithTop.coe_add, ← WithTop.coe_add, ← WithTop.coe_add,
              ← WithTop.coe_add, WithTop.coe_le_coe, hq0 sq x (t * r), hq0 S.quad x (t * r)] at hm
            have e1 : (fun i => (fun _ => (0 : ℝ)) i + t * (r * x i)) = fun i : Fin (p + 1) => (t * r) * x i := by
              funext i; ring
            rw [e1]
            have h2 : (t * r) ^ 2 * (S.quad.coef / 2 * ∑ i, x i ^ 2) + (t * r) ^ 2 * (sq.coef / 2 * ∑ i, x i ^ 2) ≤ t * r * ε := by
              rw [← mul_add]
              have h3 : S.quad.coef / 2 * ∑ i, x i ^ 2 + sq.coef / 2 * ∑ i, x i ^ 2 ≤ C := le_abs_self _
              have h4 : (t * r) ^ 2 * (S.quad.coef / 2 * ∑ i, x i ^ 2 + sq.coef / 2 * ∑ i, x i ^ 2) ≤ (t * r) ^ 2 * C :=
                mul_le_mul_of_nonneg_left h3 (sq_nonneg _)
              have h5 : (t * r) ^ 2 * C ≤ t * r * ε := by
                have : t * (r * C) ≤ 1 * ε := mul_le_mul ht1 hr1 (by positivity) zero_le_one
                calc (t * r) ^ 2 * C = t * r * (t * (r * C)) := by ring
                  _ ≤ t * r * (1 * ε) := mul_le_mul_of_nonneg_left this htr
                  _ = t * r * ε := by ring
              linarith
            have e2 : t * (r * (-v - dot (quadSlope S.quad fun _ => 0) x - dot (quadSlope sq fun _ => 0) x - ε)) =
              -(t * r * v) - t * r * dot (quadSlope S.quad fun _ => 0) x - t * r * dot (quadSlope sq fun _ => 0) x - t * r * ε := by
              ring
            rw [e2]
            linarith)
        have e3 : dot (g fun _ => 0) (fun i => r * x i) = r * dot (g fun _ => 0) x := by
          unfold dot
          rw [Finset.mul_sum]
          exact Finset.sum_congr rfl fun i _ => by ring
        rw [e3] at hd
        have := le_of_mul_le_mul_left hd hr0
        linarith
      rw [hdot] at hlt
      linarith
    · intro hb
      refine ⟨?_, fun x => ?_⟩
      · unfold penalised
        dsimp only
        rw [hp0, ← WithTop.coe_add, ← WithTop.coe_add]; exact WithTop.coe_ne_top
      · unfold penalised
        dsimp only
        cases hx : penalty k lam x with
        | top => rw [WithTop.top_add, WithTop.top_add]; exact le_top
        | coe v =>
          rw [hp0, ← WithTop.coe_add, ← WithTop.coe_add, ← WithTop.coe_add, ← WithTop.coe_add, WithTop.coe_le_coe]
          have hsup : dot x y ≤ v := ((penalty_support k hl x).1 v hx).2 ⟨y, hb, rfl⟩
          rw [hdot] at hsup
          have ht := tangent hS.convex (fun _ => 0) x
          simp only [sub_zero] at ht
          have h1 := hq0 sq x 1
          have h2 := hq0 S.quad x 1
          simp only [one_mul, one_pow] at h1 h2
          have hx2 : 0 ≤ ∑ i, x i ^ 2 := Finset.sum_nonneg fun i _ => sq_nonneg _
          have h3 : 0 ≤ sq.coef / 2 * ∑ i, x i ^ 2 := mul_nonneg (by linarith) hx2
          have h4 : 0 ≤ S.quad.coef / 2 * ∑ i, x i ^ 2 := mul_nonneg (by have := hS.quad_coef; linarith) hx2
          rw [h1, h2]
          linarith
  refine ⟨key, ?_⟩
  have hA := C90_seminorms (p := p) ⟨k, ⟨some lam, none⟩, none, sq⟩ false lam ⟨hl, rfl⟩ hsq
  have e : (fun x : Fin (p + 1) → ℝ => atomBase k false lam (fun i => x i - offAt none i) +
      ((quadVal (some sq) x : ℝ) : WithTop ℝ)) = fun x => penalty k lam x + ((quadVal (some sq) x : ℝ) : WithTop ℝ) := by
    funext x
    simp [atomBase, offAt]
  rw [e] at hA
  obtain ⟨z, hz, hiff⟩ := C100_certificate S f g _ _ hS hA x0 (fun _ => 0) L hL
  exact ⟨z, hz, by rw [← key, hiff]⟩

/-- **C102** The same threshold as a number: for the l1, sup and l2 norm and for `constrained_max` and `constrained_positive_part`, zero
minimises the documented objective exactly when the conjugate seminorm, as the code computes it with `lagrange=1`, of minus the gradient
at zero is at most the multiplier.  Full property: the same for `positive_part` and `max_positive_part`, whose conjugates are
`constrained_max` and `constrained_positive_part`; it fails for both, see `C102_null_value_fails`. -/
theorem C102_null_value_partial (S : QuadLoss (p + 1)) (f : (Fin (p + 1) → ℝ) → ℝ) (g : (Fin (p + 1) → ℝ) → Fin (p + 1) → ℝ)
    (hS : IsLossFor S f g) (k : Klass) (hk : k ≠ .positivePart ∧ k ≠ .maxPositivePart) (lam : ℝ) (hl : 0 ≤ lam)
    (sq : Quad (Fin (p + 1)) ℝ) (hsq : 0 ≤ sq.coef) (cf : Bool) :
    IsMinTop (penalised f S.quad fun x => penalty k lam x + ((quadVal (some sq) x : ℝ) : WithTop ℝ)) (fun _ => 0) ↔
      k.conj.seminorm (fun i => -(g (fun _ => 0) i + quadSlope S.quad (fun _ => 0) i + quadSlope sq (fun _ => 0) i)) 1 cf ≤
        ((lam : ℝ) : WithTop ℝ) := by
  rw [(C102_null_threshold S f g hS k lam hl sq hsq (fun _ => 0) 1 one_pos).1]
  set y : Fin (p + 1) → ℝ := fun i => -(g (fun _ => 0) i + quadSlope S.quad (fun _ => 0) i + quadSlope sq (fun _ => 0) i)
  have hm : ∀ z : Fin (p + 1) → ℝ, npMax z = maxCoord z := fun z => rfl
  cases k with
  | positivePart => exact absurd rfl hk.1
  | maxPositivePart => exact absurd rfl hk.2
  | l1norm => simp only [Klass.conj, ballOf, Klass.seminorm, Sup.seminorm, one_mul, WithTop.coe_le_coe, hm, maxCoord_le_iff,
      Set.mem_ofPred_eq]
  | supnorm => simp only [Klass.conj, ballOf, Klass.seminorm, L1.seminorm, one_mul, WithTop.coe_le_coe, Set.mem_ofPred_eq]
  | l2norm => simp only [Klass.conj, ballOf, Klass.seminorm, L2.seminorm, npNorm, one_mul, WithTop.coe_le_coe, Set.mem_ofPred_eq]
  | constrainedMax => simp only [Klass.conj, ballOf, Klass.seminorm, PosPart.seminorm, one_mul, WithTop.coe_le_coe, Set.mem_ofPred_eq]
  | constrainedPositivePart => simp only [Klass.conj, ballOf, Klass.seminorm, MaxPosPart.seminorm, mul_one, WithTop.coe_le_coe, hm,
      maxCoord_le_iff, Set.mem_ofPred_eq]

/-- **C102** The default sequence of multipliers starts where the solution leaves zero: for the l1, sup and l2 norm and for
`constrained_max` and `constrained_positive_part`, a loss whose smooth part has gradient `s` at zero, and any `0 < lagrange_proportion < 1`
and at least two steps, `default_lagrange_sequence(penalty, -s)` has `nstep` decreasing entries; zero solves the problem at the first
entry, and at no later one (unless all entries are zero). For the three norms `default_lagrange_sequence(penalty, s)`, as the path code
calls it, is the same sequence. -/
theorem C102_sequence_partial (S : QuadLoss (p + 1)) (f : (Fin (p + 1) → ℝ) → ℝ) (g : (Fin (p + 1) → ℝ) → Fin (p + 1) → ℝ)
    (hS : IsLossFor S f g) (k : Klass) (hk : k ≠ .positivePart ∧ k ≠ .maxPositivePart)
    (sq : Quad (Fin (p + 1)) ℝ) (hsq : 0 ≤ sq.coef) (prop : ℝ) (hp0 : 0 < prop) (hp1 : prop < 1) (nstep : ℕ) (hn : 2 ≤ nstep)
    (s : Fin (p + 1) → ℝ) (hs : s = fun i => g (fun _ => 0) i + quadSlope S.quad (fun _ => 0) i + quadSlope sq (fun _ => 0) i) :
    ∃ m rest, 0 ≤ m ∧ Paths.penaltySequence k (fun i => -s i) prop nstep 1 = some (m :: rest) ∧ rest.length + 1 = nstep ∧
      (∀ lam ∈ rest, 0 ≤ lam ∧ lam ≤ m) ∧ (m :: rest).Pairwise (· ≥ ·) ∧
      IsMinTop (penalised f S.quad fun x => penalty k m x + ((quadVal (some sq) x : ℝ) : WithTop ℝ)) (fun _ => 0) ∧
      (0 < m → ∀ lam ∈ rest,
        ¬ IsMinTop (penalised f S.quad fun x => penalty k lam x + ((quadVal (some sq) x : ℝ) : WithTop ℝ)) (fun _ => 0)) ∧
      (k = .l1norm ∨ k = .supnorm ∨ k = .l2norm → Paths.penaltySequence k s prop nstep 1 = some (m :: rest)) := by
  have hval := fun lam hl => C102_null_value_partial S f g hS k hk lam hl sq hsq false
  have hy : (fun i => -(g (fun _ => 0) i + quadSlope S.quad (fun _ => 0) i + quadSlope sq (fun _ => 0) i)) = fun i => -s i := by
    rw [hs]
  rw [hy] at hval
  have hmx : ∀ z : Fin (p + 1) → ℝ, npMax z = maxCoord z := fun z => rfl
  obtain ⟨m, hm, hm0⟩ : ∃ m : ℝ, k.conj.seminorm (fun i => -s i) 1 false = ((m : ℝ) : WithTop ℝ) ∧ 0 ≤ m := by
    have hmax : ∀ z : Fin (p + 1) → ℝ, (∀ i, 0 ≤ z i) → 0 ≤ maxCoord z := fun z hz => (hz 0).trans (le_maxCoord z 0)
    cases k with
    | positivePart => exact absurd rfl hk.1
    | maxPositivePart => exact absurd rfl hk.2
    | l1norm => exact ⟨_, rfl, by rw [Sup.seminorm, one_mul, hmx]; exact hmax _ fun i => abs_nonneg _⟩
    | supnorm => exact ⟨_, rfl, by rw [L1.seminorm, one_mul]; exact Finset.sum_nonneg fun i _ => abs_nonneg _⟩
    | l2norm => exact ⟨_, rfl, by rw [L2.seminorm, one_mul]; exact Real.sqrt_nonneg _⟩
    | constrainedMax => exact ⟨_, rfl, by rw [PosPart.seminorm, one_mul]; exact Finset.sum_nonneg fun i _ => le_max_right _ _⟩
    | constrainedPositivePart => exact ⟨_, rfl, by rw [MaxPosPart.seminorm, mul_one, hmx]; exact hmax _ fun i => le_max_right _ _⟩
  have hr : (0:ℝ) < (nstep : ℝ) - 1 := by
    have : (2:ℝ) ≤ nstep := by exact_mod_cast hn
    linarith
  have hlog : Real.log prop < 0 := Real.log_neg hp0 hp1
  have hseq : Paths.lagrangeSeq m prop nstep 1 = m :: (List.range (nstep - 1)).map fun j : ℕ =>
      m * Real.exp (Real.log prop * (((j + 1 : ℕ) : ℝ) / ((nstep : ℝ) - 1))) := by
    rw [lagrangeSeq_eq _ _ _ hn]
    obtain ⟨q, rfl⟩ : ∃ q, nstep = q + 1 := ⟨nstep - 1, by omega⟩
    rw [List.range_succ_eq_map, List.map_cons, List.map_map]
    simp [Function.comp_def]
  have hent : ∀ j : ℕ, Real.exp (Real.log prop * (((j + 1 : ℕ) : ℝ) / ((nstep : ℝ) - 1))) < 1 := fun j => by
    rw [Real.exp_lt_one_iff]
    refine mul_neg_of_neg_of_pos hlog (div_pos ?_ hr)
    exact_mod_cast Nat.succ_pos j
  refine ⟨m, (List.range (nstep - 1)).map fun j : ℕ => m * Real.exp (Real.log prop * (((j + 1 : ℕ) : ℝ) / ((nstep : ℝ) - 1))), hm0,
    ?_, ?_, ?_, ?_, (hval m hm0).2 hm.le, ?_, ?_⟩
  · unfold Paths.penaltySequence
    rw [hm, ← hseq]
  · simp; omega
  · intro lam hlam
    obtain ⟨j, -, rfl⟩ := List.mem_map.1 hlam
    exact ⟨mul_nonneg hm0 (Real.exp_pos _).le, mul_le_of_le_one_right hm0 (hent j).le⟩
  · rw [← hseq, lagrangeSeq_eq _ _ _ hn, List.pairwise_map]
    refine List.Pairwise.imp ?_ List.pairwise_lt_range
    intro a b hab
    have hab' : (a : ℝ) < b := by exact_mod_cast hab
    have h3 : Real.log prop * ((b : ℝ) / ((nstep : ℝ) - 1)) ≤ Real.log prop * ((a : ℝ) / ((nstep : ℝ) - 1)) :=
      mul_le_mul_of_nonpos_left (div_le_div_of_nonneg_right hab'.le hr.le) hlog.le
    simp only [div_one]
    exact mul_le_mul_of_nonneg_left (Real.exp_le_exp.2 h3) hm0
  · intro hpos lam hlam
    obtain ⟨j, -, rfl⟩ := List.mem_map.1 hlam
    rw [hval _ (mul_nonneg hm0 (Real.exp_pos _).le), hm, WithTop.coe_le_coe, not_le]
    exact mul_lt_of_lt_one_right hpos (hent j)
  · intro hk3
    have e : k.conj.seminorm s 1 false = k.conj.seminorm (fun i => -s i) 1 false := by
      rcases hk3 with rfl | rfl | rfl <;>
        simp [Klass.conj, Klass.seminorm, Sup.seminorm, L1.seminorm, L2.seminorm, npNorm]
    unfold Paths.penaltySequence
    rw [e, hm, ← hseq]

/-! ### along the multiplier -/

section
variable {S : QuadLoss m} {f : (Fin m → ℝ) → ℝ} {g : (Fin m → ℝ) → Fin m → ℝ} {lag bd : ℝ → NonsmoothAtom m}
  {h : (Fin m → ℝ) → ℝ} {D : Set (Fin m → ℝ)} {o : Option (PyVec (Fin m) ℝ)} {sq : Quad (Fin m) ℝ}

private lemma path_gap {F : (Fin m → ℝ) → ℝ} {H : (Fin m → ℝ) → ℝ} {l1 l2 e1 e2 : ℝ} (hl : l1 < l2) {b1 b2 : Fin m → ℝ}
    (h1 : l1 * H b1 + F b1 ≤ l1 * H b2 + F b2 + e1) (h2 : l2 * H b2 + F b2 ≤ l2 * H b1 + F b1 + e2) :
    (l2 - l1) * (H b2 - H b1) ≤ e1 + e2 := by nlinarith

/-- **C102** Along the multiplier: for any convex loss and any penalty family, and multipliers `l1 < l2`, every solution at `l2` has a
penalty no larger, and a smooth part (loss with quadratics) no smaller, than every solution at `l1`. -/
theorem C102_path (hF : IsPenaltyFamily lag bd h D o sq) (hS : IsLossFor S f g) (l1 l2 : ℝ) (h0 : 0 ≤ l1) (hl : l1 < l2)
    (β1 β2 : Fin m → ℝ) (h1 : IsMinTop (penalised f S.quad (shiftedPen (fun z => l1 * h z) D o sq)) β1)
    (h2 : IsMinTop (penalised f S.quad (shiftedPen (fun z => l2 * h z) D o sq)) β2) :
    h (fun i => β2 i - denote o i) ≤ h (fun i => β1 i - denote o i) ∧
    f β1 + quadVal (some S.quad) β1 + quadVal (some sq) β1 ≤ f β2 + quadVal (some S.quad) β2 + quadVal (some sq) β2 := by
  obtain ⟨d1, m1⟩ := min_sh.1 h1
  obtain ⟨d2, m2⟩ := min_sh.1 h2
  have a1 := m1 β2 d2
  have a2 := m2 β1 d1
  have key : (l2 - l1) * (h (fun i => β2 i - denote o i) - h (fun i => β1 i - denote o i)) ≤ 0 := by nlinarith
  have hh : h (fun i => β2 i - denote o i) ≤ h (fun i => β1 i - denote o i) := by
    by_contra hc
    push Not at hc
    have := mul_pos (show 0 < l2 - l1 by linarith) (show 0 < h (fun i => β2 i - denote o i) - h (fun i => β1 i - denote o i) by linarith)
    linarith
  refine ⟨hh, ?_⟩
  have := mul_le_mul_of_nonneg_left hh h0
  linarith

/-- **C102** What `solve` returns along the multiplier: run the two problems from any starts (no restarts, at most 99 iterations, a loss
with `M`-Lipschitz gradient).  The penalties of the two answers are ordered as those of the exact solutions, up to the two accuracy
bounds `2 ‖start - solution‖² / (t (k+1)²)` divided by the difference of the multipliers. -/
theorem C102_path_solve (hF : IsPenaltyFamily lag bd h D o sq) (hS : IsLossFor S f g) (M : ℝ) (hM0 : 0 < M) (hM : SmoothWith f g M)
    (l1 l2 : ℝ) (h0 : 0 ≤ l1) (hl : l1 < l2) (a : FitArgs) (hb : a.performBacktrack = true) (ha : 1 ≤ a.alpha)
    (hst : 0 < a.startStep) (hm : a.monotonicityRestart = false) (hr : a.restart = none)
    (hmax : ∃ m, a.maxIts = some m ∧ m ≠ 0 ∧ m ≤ 99) (lip : ℝ) (fuel : ℕ) (x1 x2 c1 c2 : Fin m → ℝ) (v1 v2 : ObjVal)
    (hist1 hist2 : List ObjVal)
    (hs1 : ((SimpleProblem.ofLoss S (lag l1) x1).solve none a lip fuel).1 = .ok c1 v1 hist1)
    (hs2 : ((SimpleProblem.ofLoss S (lag l2) x2).solve none a lip fuel).1 = .ok c2 v2 hist2) (u1 u2 : Fin m → ℝ)
    (hu1 : IsMinTop (penalised f S.quad (shiftedPen (fun z => l1 * h z) D o sq)) u1)
    (hu2 : IsMinTop (penalised f S.quad (shiftedPen (fun z => l2 * h z) D o sq)) u2) :
    (fun i => c1 i - denote o i) ∈ D ∧ (fun i => c2 i - denote o i) ∈ D ∧
    (l2 - l1) * (h (fun i => c2 i - denote o i) - h (fun i => c1 i - denote o i)) ≤
      2 * sqDist x1 u1 / (min a.startStep (1 / (2 * M * a.alpha)) * (hist1.length + 1) ^ 2) +
      2 * sqDist x2 u2 / (min a.startStep (1 / (2 * M * a.alpha)) * (hist2.length + 1) ^ 2) := by
  obtain ⟨w1, p1, -, e1, e1', -, r1⟩ := C100_rate S f g _ _ hS (hF.lagrange l1 h0) M hM0 hM x1 a hb ha hst hm hr hmax lip fuel c1 v1
    hist1 hs1 u1 hu1
  obtain ⟨w2, p2, -, e2, e2', -, r2⟩ := C100_rate S f g _ _ hS (hF.lagrange l2 (by linarith)) M hM0 hM x2 a hb ha hst hm hr hmax lip
    fuel c2 v2 hist2 hs2 u2 hu2
  have dom : ∀ {l : ℝ} {c : Fin m → ℝ} {w : ℝ}, penalised f S.quad (shiftedPen (fun z => l * h z) D o sq) c = w →
      (fun i => c i - denote o i) ∈ D ∧
      w = l * h (fun i => c i - denote o i) + quadVal (some sq) c + (f c + quadVal (some S.quad) c) := by
    intro l c w hw
    by_cases hd : (fun i => c i - denote o i) ∈ D
    · exact ⟨hd, pv (sh_in hd) hw⟩
    · unfold penalised at hw
      rw [sh_out hd, WithTop.top_add] at hw
      exact absurd hw.symm WithTop.coe_ne_top
  obtain ⟨d1, q1⟩ := dom e1
  obtain ⟨d2, q2⟩ := dom e2
  obtain ⟨t1, s1⟩ := dom e1'
  obtain ⟨t2, s2⟩ := dom e2'
  have g1 := (min_sh.1 hu1).2 c2 d2
  have g2 := (min_sh.1 hu2).2 c1 d1
  refine ⟨d1, d2, ?_⟩
  have := path_gap (F := fun x => f x + quadVal (some S.quad) x + quadVal (some sq) x) (H := fun x => h (fun i => x i - denote o i))
    hl (b1 := c1) (b2 := c2)
    (e1 := 2 * sqDist x1 u1 / (min a.startStep (1 / (2 * M * a.alpha)) * (hist1.length + 1) ^ 2))
    (e2 := 2 * sqDist x2 u2 / (min a.startStep (1 / (2 * M * a.alpha)) * (hist2.length + 1) ^ 2))
    (by linarith) (by linarith)
  exact this

/-- **C102** From Lagrange to bound form: a solution `β` of the problem with multiplier `lam` solves the problem with the bound
`h(β - offset)` (positive), and every proximal gradient step of the bound problem leaves `β` where it is. -/
theorem C102_bound_form (hF : IsPenaltyFamily lag bd h D o sq) (hS : IsLossFor S f g) (lam : ℝ) (h0 : 0 ≤ lam) (β : Fin m → ℝ)
    (hβ : IsMinTop (penalised f S.quad (shiftedPen (fun z => lam * h z) D o sq)) β) (hb : 0 < h (fun i => β i - denote o i)) :
    IsMinTop (penalised f S.quad (shiftedPen (fun _ => 0) {z | z ∈ D ∧ h z ≤ h (fun i => β i - denote o i)} o sq)) β ∧
    ∀ x0 (L : ℝ), 0 < L → (SimpleProblem.ofLoss S (bd (h fun i => β i - denote o i)) x0).proximal (Quad.init (some L) (some (.arr β))
      (some (.arr ((SimpleProblem.ofLoss S (bd (h fun i => β i - denote o i)) x0).grad β))) (some 0)) = some β := by
  obtain ⟨d1, m1⟩ := min_sh.1 hβ
  have hmin : IsMinTop (penalised f S.quad (shiftedPen (fun _ => 0) {z | z ∈ D ∧ h z ≤ h (fun i => β i - denote o i)} o sq)) β := by
    refine min_sh.2 ⟨⟨d1, le_rfl⟩, fun x hx => ?_⟩
    have := m1 x hx.1
    have h2 := mul_le_mul_of_nonneg_left hx.2 h0
    linarith
  refine ⟨hmin, fun x0 L hL => ?_⟩
  obtain ⟨z, hz, hiff⟩ := C100_certificate S f g _ _ hS (hF.bound _ hb) x0 β L hL
  rw [hiff.1 hmin] at hz
  exact hz

/-- convex functions with a feasible point: a bound has a multiplier -/
private lemma multiplier {Φ H : (Fin m → ℝ) → ℝ} {E : Set (Fin m → ℝ)} (hΦ : IsConvexFnOn Φ E) (hH : IsConvexFnOn H E) {b : ℝ}
    {x0 β : Fin m → ℝ} (hx0 : x0 ∈ E) (hs : H x0 < b) (hβ : β ∈ E) (hβb : H β ≤ b) (hmin : ∀ x ∈ E, H x ≤ b → Φ β ≤ Φ x) :
    ∃ lam, 0 ≤ lam ∧ ∀ x ∈ E, Φ β + lam * b ≤ Φ x + lam * H x := by
  -- slopes from above the bound stay below slopes from below the bound
  have cross : ∀ x ∈ E, ∀ y ∈ E, H y < b → b < H x → (Φ β - Φ x) / (H x - b) ≤ (Φ y - Φ β) / (b - H y) := by
    intro x hx y hy hyb hxb
    have hp : 0 < H x - H y := by linarith
    obtain ⟨he, hc⟩ := hH y hy x hx ((H x - b) / (H x - H y)) ((b - H y) / (H x - H y)) (div_nonneg (by linarith) hp.le)
      (div_nonneg (by linarith) hp.le) (by rw [← add_div, div_eq_one_iff_eq (ne_of_gt hp)]; ring)
    have hle : (H x - b) / (H x - H y) * H y + (b - H y) / (H x - H y) * H x = b := by field_simp; ring
    have h1 := hmin _ he (by linarith)
    obtain ⟨-, h2⟩ := hΦ y hy x hx ((H x - b) / (H x - H y)) ((b - H y) / (H x - H y)) (div_nonneg (by linarith) hp.le)
      (div_nonneg (by linarith) hp.le) (by rw [← add_div, div_eq_one_iff_eq (ne_of_gt hp)]; ring)
    have h3 := h1.trans h2
    have e : (H x - b) / (H x - H y) * Φ y + (b - H y) / (H x - H y) * Φ x =
        ((H x - b) * Φ y + (b - H y) * Φ x) / (H x - H y) := by ring
    rw [e, le_div_iff₀ hp] at h3
    rw [div_le_div_iff₀ (by linarith) (by linarith)]
    nlinarith
  set A : Set ℝ := {r | r = 0 ∨ ∃ x ∈ E, b < H x ∧ r = (Φ β - Φ x) / (H x - b)} with hA
  have hbdd : ∀ y ∈ E, H y < b → ∀ r ∈ A, r ≤ (Φ y - Φ β) / (b - H y) := by
    intro y hy hyb r hr
    rcases hr with rfl | ⟨x, hx, hxb, rfl⟩
    · have := hmin y hy hyb.le
      exact div_nonneg (by linarith) (by linarith)
    · exact cross x hx y hy hyb hxb
  have hBA : BddAbove A := ⟨_, fun r hr => hbdd x0 hx0 hs r hr⟩
  have hne : A.Nonempty := ⟨0, Or.inl rfl⟩
  refine ⟨sSup A, le_csSup hBA (Or.inl rfl), fun x hx => ?_⟩
  rcases lt_trichotomy (H x) b with hlt | heq | hgt
  · have : sSup A ≤ (Φ x - Φ β) / (b - H x) := csSup_le hne (hbdd x hx hlt)
    rw [le_div_iff₀ (by linarith)] at this
    linarith
  · have := hmin x hx heq.le
    rw [heq]; linarith
  · have : (Φ β - Φ x) / (H x - b) ≤ sSup A := le_csSup hBA (Or.inr ⟨x, hx, hgt, rfl⟩)
    rw [div_le_iff₀ (by linarith)] at this
    linarith

/-- **C102** From bound to Lagrange form: for every bound `b > 0` and every solution `β` of the bound problem there is a multiplier
`lam ≥ 0` such that `β` solves the Lagrange problem, and every proximal gradient step of that problem leaves `β` where it is; the
multiplier is zero or the bound is reached. -/
theorem C102_multiplier (hF : IsPenaltyFamily lag bd h D o sq) (hS : IsLossFor S f g) (b : ℝ) (hb : 0 < b) (β : Fin m → ℝ)
    (hβ : IsMinTop (penalised f S.quad (shiftedPen (fun _ => 0) {z | z ∈ D ∧ h z ≤ b} o sq)) β) :
    ∃ lam, 0 ≤ lam ∧ (lam = 0 ∨ h (fun i => β i - denote o i) = b) ∧
      IsMinTop (penalised f S.quad (shiftedPen (fun z => lam * h z) D o sq)) β ∧
      ∀ x0 (L : ℝ), 0 < L → (SimpleProblem.ofLoss S (lag lam) x0).proximal (Quad.init (some L) (some (.arr β))
        (some (.arr ((SimpleProblem.ofLoss S (lag lam) x0).grad β))) (some 0)) = some β := by
  obtain ⟨⟨d1, db⟩, m1⟩ := min_sh.1 hβ
  have hmix : ∀ (x y : Fin m → ℝ) (s t : ℝ), s + t = 1 → (fun i => s * x i + t * y i - denote o i) =
      fun i => s * (x i - denote o i) + t * (y i - denote o i) := by
    intro x y s t hst
    funext i
    have : denote o i = s * denote o i + t * denote o i := by rw [← add_mul, hst, one_mul]
    linarith
  have hE : IsConvexFnOn (fun x => h (fun i => x i - denote o i)) {x | (fun i => x i - denote o i) ∈ D} := by
    intro x hx y hy s t hs ht hst
    obtain ⟨q1, q2⟩ := hF.convex _ hx _ hy s t hs ht hst
    refine ⟨?_, ?_⟩
    · show (fun i => s * x i + t * y i - denote o i) ∈ D
      rw [hmix x y s t hst]; exact q1
    · dsimp only
      rw [hmix x y s t hst]; exact q2
  have hΦ : IsConvexFnOn (fun x => f x + quadVal (some S.quad) x + quadVal (some sq) x) {x | (fun i => x i - denote o i) ∈ D} := by
    intro x hx y hy s t hs ht hst
    refine ⟨(hE x hx y hy s t hs ht hst).1, ?_⟩
    have q1 := hS.convex.convex x y s t hs ht hst
    have q2 := quadVal_convex S.quad hS.quad_coef x y s t hs ht hst
    have q3 := quadVal_convex sq hF.quad_coef x y s t hs ht hst
    dsimp only
    linarith
  have hz : (fun i => denote o i - denote o i) = fun _ : Fin m => (0 : ℝ) := by funext i; ring
  obtain ⟨lam, hl, hle⟩ := multiplier hΦ hE (b := b) (x0 := denote o) (β := β) (by
      show (fun i => denote o i - denote o i) ∈ D
      rw [hz]; exact hF.zero.1) (by
      rw [hz, hF.zero.2]; exact hb) d1 db (fun x hx hxb => by
      have := m1 x ⟨hx, hxb⟩
      linarith)
  have hc := hle β d1
  have hmin : IsMinTop (penalised f S.quad (shiftedPen (fun z => lam * h z) D o sq)) β := by
    refine min_sh.2 ⟨d1, fun x hx => ?_⟩
    have q1 := hle x hx
    have q2 := mul_le_mul_of_nonneg_left db hl
    linarith
  refine ⟨lam, hl, ?_, hmin, fun x0 L hL => ?_⟩
  · by_cases h0 : lam = 0
    · exact Or.inl h0
    · right
      have hp : 0 < lam := lt_of_le_of_ne hl (Ne.symm h0)
      have : lam * b ≤ lam * h (fun i => β i - denote o i) := by linarith
      exact le_antisymm db (le_of_mul_le_mul_left this hp)
  · obtain ⟨z, hz, hiff⟩ := C100_certificate S f g _ _ hS (hF.lagrange lam hl) x0 β L hL
    rw [hiff.1 hmin] at hz
    exact hz

end

/-! ### how far apart -/

/-- **C102** Proximal maps are stable, for any atom that meets the contract: for two quadratics with the same coefficient `C > 0` the
two answers satisfy `‖z₁ - z₂‖² ≤ ⟨z₁ - z₂, w₁ - w₂⟩`, and so `‖z₁ - z₂‖ ≤ ‖w₁ - w₂‖`, where `w = center - linear / C` is the
minimiser of the quadratic alone. -/
theorem C102_prox_nonexpansive (A : NonsmoothAtom m) (pen : (Fin m → ℝ) → WithTop ℝ) (hA : IsAtomFor A pen)
    (Q1 Q2 : Quad (Fin m) ℝ) (hC : Q1.coef = Q2.coef) (hpos : 0 < Q1.coef) (z1 z2 : Fin m → ℝ) (h1 : A.proximal Q1 = .ok z1)
    (h2 : A.proximal Q2 = .ok z2) :
    let w1 : Fin m → ℝ := fun i => denote Q1.center i - denote Q1.linear i / Q1.coef
    let w2 : Fin m → ℝ := fun i => denote Q2.center i - denote Q2.linear i / Q2.coef
    sqDist z1 z2 ≤ dot (fun i => z1 i - z2 i) (fun i => w1 i - w2 i) ∧ sqDist z1 z2 ≤ sqDist w1 w2 := by
  intro w1 w2
  obtain ⟨f1, u1⟩ := hA.solves Q1 z1 hpos h1
  obtain ⟨f2, u2⟩ := hA.solves Q2 z2 (hC ▸ hpos) h2
  obtain ⟨p1, hp1⟩ : ∃ a : ℝ, pen z1 = a := by
    obtain ⟨a, ha⟩ := WithTop.ne_top_iff_exists.1 (WithTop.add_ne_top.1 f1).2
    exact ⟨a, ha.symm⟩
  obtain ⟨p2, hp2⟩ : ∃ a : ℝ, pen z2 = a := by
    obtain ⟨a, ha⟩ := WithTop.ne_top_iff_exists.1 (WithTop.add_ne_top.1 f2).2
    exact ⟨a, ha.symm⟩
  have hle : ∀ {Q : Quad (Fin m) ℝ} {z : Fin m → ℝ} {pz : ℝ}, pen z = pz →
      IsUniqueMinTop (fun x => ((quadVal (some Q) x : ℝ) : WithTop ℝ) + pen x) z → ∀ x (v : ℝ), pen x = v →
      pz + quadVal (some Q) z ≤ v + quadVal (some Q) x := by
    intro Q z pz hz hu x v hv
    by_cases hx : x = z
    · subst hx
      rw [hz, WithTop.coe_inj] at hv
      rw [hv]
    · have := (hu.2 x hx).le
      dsimp only at this
      rw [hz, hv, ← WithTop.coe_add, ← WithTop.coe_add, WithTop.coe_le_coe] at this
      linarith
  have hmix : ∀ (Q : Quad (Fin m) ℝ) (x y : Fin m → ℝ) (t : ℝ), 0 < t → t < 1 → quadVal (some Q) (fun i => (1 - t) * x i + t * y i) ≤
      (1 - t) * quadVal (some Q) x + t * quadVal (some Q) y - t * (1 - t) * (Q.coef / 2 * sqDist y x) :=
    fun Q x y t _ _ => (quad_mix Q x y t).le
  have g1 := growth hA.convex hp1 hp2 (hmix Q1 z1 z2) (hle hp1 ⟨f1, u1⟩)
  have g2 := growth hA.convex hp2 hp1 (hmix Q2 z2 z1) (hle hp2 ⟨f2, u2⟩)
  have hsym : sqDist z2 z1 = sqDist z1 z2 := by
    unfold sqDist
    exact Finset.sum_congr rfl fun i _ => by ring
  have hdiff : quadVal (some Q1) z2 - quadVal (some Q1) z1 + (quadVal (some Q2) z1 - quadVal (some Q2) z2) =
      Q1.coef * dot (fun i => z1 i - z2 i) (fun i => w1 i - w2 i) := by
    unfold quadVal quadFn sqDist dot
    simp only [Finset.mul_sum, ← hC]
    rw [← sub_eq_zero]
    have : ∀ i, Q1.coef / 2 * (z2 i - denote Q1.center i) ^ 2 + denote Q1.linear i * z2 i -
        (Q1.coef / 2 * (z1 i - denote Q1.center i) ^ 2 + denote Q1.linear i * z1 i) +
        ((Q1.coef / 2 * (z1 i - denote Q2.center i) ^ 2 + denote Q2.linear i * z1 i) -
        (Q1.coef / 2 * (z2 i - denote Q2.center i) ^ 2 + denote Q2.linear i * z2 i)) -
        Q1.coef * ((z1 i - z2 i) * (w1 i - w2 i)) = 0 := by
      intro i
      simp only [w1, w2, ← hC]
      field_simp
      ring
    have hsum := Finset.sum_congr (rfl : (Finset.univ : Finset (Fin m)) = Finset.univ) fun i _ => this i
    simp only [Finset.sum_add_distrib, Finset.sum_sub_distrib, Finset.sum_const_zero] at hsum
    linarith
  have hfirm : sqDist z1 z2 ≤ dot (fun i => z1 i - z2 i) (fun i => w1 i - w2 i) := by
    rw [hsym] at g1
    rw [← hC] at g2
    have : Q1.coef * sqDist z1 z2 ≤ Q1.coef * dot (fun i => z1 i - z2 i) (fun i => w1 i - w2 i) := by linarith
    exact le_of_mul_le_mul_left this hpos
  refine ⟨hfirm, ?_⟩
  have hamgm : 2 * dot (fun i => z1 i - z2 i) (fun i => w1 i - w2 i) ≤ sqDist z1 z2 + sqDist w1 w2 := by
    unfold dot sqDist
    rw [Finset.mul_sum, ← Finset.sum_add_distrib]
    exact Finset.sum_le_sum fun i _ => by nlinarith [sq_nonneg ((z1 i - z2 i) - (w1 i - w2 i))]
  linarith

/-- **C102** A quadratic with positive coefficient (elastic net) pins the coefficients: for any loss and any atom, every `c` of finite
objective is at squared distance at most `2 (objective(c) - objective(u)) / coef` from a solution `u`; so the solution is unique. -/
theorem C102_ridge (S : QuadLoss m) (f : (Fin m → ℝ) → ℝ) (g : (Fin m → ℝ) → Fin m → ℝ) (hS : IsLossFor S f g) (A : NonsmoothAtom m)
    (pen : (Fin m → ℝ) → WithTop ℝ) (hA : IsAtomFor A pen) (u : Fin m → ℝ) (hu : IsMinTop (penalised f S.quad pen) u) :
    (∀ c (vc vu : ℝ), penalised f S.quad pen c = vc → penalised f S.quad pen u = vu → S.quad.coef / 2 * sqDist c u ≤ vc - vu) ∧
    (0 < S.quad.coef → ∀ u', IsMinTop (penalised f S.quad pen) u' → u' = u) := by
  have key : ∀ c (vc vu : ℝ), penalised f S.quad pen c = vc → penalised f S.quad pen u = vu →
      S.quad.coef / 2 * sqDist c u ≤ vc - vu := by
    intro c vc vu hvc hvu
    obtain ⟨pc, hpc⟩ := pfin hvc
    obtain ⟨pu, hpu⟩ := pfin hvu
    have := growth (F := fun x => f x + quadVal (some S.quad) x) hA.convex hpu hpc (Q := S.quad.coef / 2 * sqDist c u)
      (fun t h0 h1 => by
        have q1 := hS.convex.convex u c (1 - t) t (by linarith) h0.le (by ring)
        have q2 := quad_mix S.quad u c t
        linarith) (fun x v hv => min_vals hu hpu x v hv)
    rw [pv hpc hvc, pv hpu hvu]
    linarith
  refine ⟨key, fun hpos u' hu' => ?_⟩
  obtain ⟨v, hv⟩ := WithTop.ne_top_iff_exists.1 hu.1
  obtain ⟨v', hv'⟩ := WithTop.ne_top_iff_exists.1 hu'.1
  have h1 := key u' v' v hv'.symm hv.symm
  have h2 : v' ≤ v := by
    have := hu'.2 u
    rw [← hv, ← hv', WithTop.coe_le_coe] at this
    exact this
  have h3 : sqDist u' u ≤ 0 := by
    by_contra hc
    push Not at hc
    have := mul_pos (half_pos hpos) hc
    linarith
  have h4 := (Finset.sum_eq_zero_iff_of_nonneg fun i _ => sq_nonneg (u' i - u i)).1
    (le_antisymm h3 (Finset.sum_nonneg fun i _ => sq_nonneg _))
  funext i
  have := h4 i (Finset.mem_univ i)
  have := pow_eq_zero_iff (two_ne_zero) |>.1 this
  linarith

/-- **C102** The coefficients `solve` returns converge: with a quadratic of coefficient `C` on the loss, the squared distance of the
answer to the solution, times `C / 2`, is at most the accuracy bound of C100. -/
theorem C102_ridge_solve (S : QuadLoss m) (f : (Fin m → ℝ) → ℝ) (g : (Fin m → ℝ) → Fin m → ℝ) (hS : IsLossFor S f g)
    (A : NonsmoothAtom m) (pen : (Fin m → ℝ) → WithTop ℝ) (hA : IsAtomFor A pen) (M : ℝ) (hM0 : 0 < M) (hM : SmoothWith f g M)
    (x0 : Fin m → ℝ) (a : FitArgs) (hb : a.performBacktrack = true) (ha : 1 ≤ a.alpha) (hst : 0 < a.startStep)
    (hm : a.monotonicityRestart = false) (hr : a.restart = none) (hmax : ∃ m, a.maxIts = some m ∧ m ≠ 0 ∧ m ≤ 99)
    (lip : ℝ) (fuel : ℕ) (c : Fin m → ℝ) (v : ObjVal) (hist : List ObjVal)
    (hsolve : ((SimpleProblem.ofLoss S A x0).solve none a lip fuel).1 = .ok c v hist)
    (u : Fin m → ℝ) (hu : IsMinTop (penalised f S.quad pen) u) :
    S.quad.coef / 2 * sqDist c u ≤ 2 * sqDist x0 u / (min a.startStep (1 / (2 * M * a.alpha)) * (hist.length + 1) ^ 2) := by
  obtain ⟨vc, vu, -, e1, e2, -, hrate⟩ := C100_rate S f g A pen hS hA M hM0 hM x0 a hb ha hst hm hr hmax lip fuel c v hist hsolve u hu
  exact ((C102_ridge S f g hS A pen hA u hu).1 c vc vu e1 e2).trans hrate

/-! ### least squares -/

section
variable (X : Fin n → Fin (p + 1) → ℝ) (coef : ℝ) (so : Option (Fin n → ℝ)) (o : Option (Fin (p + 1) → ℝ)) (w : Option (Fin n → ℝ))

private noncomputable def eta (β : Fin (p + 1) → ℝ) (i : Fin n) : ℝ := ∑ j, X i j * (β j - effOffset o j) - effOffset so i

private lemma eta_mix (u c : Fin (p + 1) → ℝ) (t : ℝ) (i : Fin n) :
    eta X so o (fun j => (1 - t) * u j + t * c j) i = (1 - t) * eta X so o u i + t * eta X so o c i := by
  unfold eta
  rw [mul_sub, mul_sub, Finset.mul_sum, Finset.mul_sum]
  have : ∑ j, X i j * ((1 - t) * u j + t * c j - effOffset o j) =
      ∑ j, (1 - t) * (X i j * (u j - effOffset o j)) + ∑ j, t * (X i j * (c j - effOffset o j)) := by
    rw [← Finset.sum_add_distrib]
    exact Finset.sum_congr rfl fun j _ => by ring
  rw [this]; ring

private lemma eta_sub (u c : Fin (p + 1) → ℝ) (i : Fin n) :
    eta X so o c i - eta X so o u i = ∑ j, X i j * (c j - u j) := by
  unfold eta
  have : ∑ j, X i j * (c j - u j) = ∑ j, X i j * (c j - effOffset o j) - ∑ j, X i j * (u j - effOffset o j) := by
    rw [← Finset.sum_sub_distrib]
    exact Finset.sum_congr rfl fun j _ => by ring
  rw [this]; ring

private lemma gauss_mix (y : Fin n → ℝ) (u c : Fin (p + 1) → ℝ) (t : ℝ) :
    regressionLoss X (.gaussian y) coef so o w (fun j => (1 - t) * u j + t * c j) =
      (1 - t) * regressionLoss X (.gaussian y) coef so o w u + t * regressionLoss X (.gaussian y) coef so o w c -
        t * (1 - t) * (coef / 2 * ∑ i, (w.elim 1 fun w => w i) * (∑ j, X i j * (c j - u j)) ^ 2) := by
  have h : ∀ β, regressionLoss X (.gaussian y) coef so o w β =
      coef * ∑ i, (w.elim 1 fun w => w i) * ((eta X so o β i - y i) ^ 2 / 2) := fun β => rfl
  rw [h, h, h]
  simp only [eta_mix, ← eta_sub X so o]
  simp only [Finset.mul_sum]
  rw [← Finset.sum_add_distrib, ← Finset.sum_sub_distrib]
  exact Finset.sum_congr rfl fun i _ => by ring

private lemma gauss_gap (y : Fin n → ℝ) (quad : Quad (Fin (p + 1)) ℝ) (hq : 0 ≤ quad.coef) {pen : (Fin (p + 1) → ℝ) → WithTop ℝ}
    (hp : ConvexTop pen) (u : Fin (p + 1) → ℝ) (hu : IsMinTop (penalised (regressionLoss X (.gaussian y) coef so o w) quad pen) u)
    (c : Fin (p + 1) → ℝ) (vc vu : ℝ) (hvc : penalised (regressionLoss X (.gaussian y) coef so o w) quad pen c = vc)
    (hvu : penalised (regressionLoss X (.gaussian y) coef so o w) quad pen u = vu) :
    coef / 2 * ∑ i, (w.elim 1 fun w => w i) * (∑ j, X i j * (c j - u j)) ^ 2 + quad.coef / 2 * sqDist c u ≤ vc - vu := by
  obtain ⟨pc, hpc⟩ := pfin hvc
  obtain ⟨pu, hpu⟩ := pfin hvu
  have := growth (F := fun x => regressionLoss X (.gaussian y) coef so o w x + quadVal (some quad) x) hp hpu hpc
    (Q := coef / 2 * ∑ i, (w.elim 1 fun w => w i) * (∑ j, X i j * (c j - u j)) ^ 2 + quad.coef / 2 * sqDist c u)
    (fun t h0 h1 => by
      have q1 := gauss_mix X coef so o w y u c t
      have q2 := quad_mix quad u c t
      rw [q1, q2]
      linarith) (fun x v hv => min_vals hu hpu x v hv)
  rw [pv hpc hvc, pv hpu hvu]
  linarith

/-- **C102** Fitted values of penalised least squares are determined and converge: for every atom that meets the contract, the weighted
squared distance between the fitted values of what `solve` returns and those of any solution `u`, times `coef / 2`, is at most the
accuracy bound of C100; and any two solutions have the same fitted values wherever the case weight is positive. -/
theorem C102_fitted_values (y : Fin n → ℝ) (quad : Option (Quad (Fin (p + 1)) ℝ)) (hq : 0 ≤ quadCoef quad) (G : Glm (p + 1) n)
    (hG : Glm.build X (.gaussian y) coef so o w = some G) (A : NonsmoothAtom (p + 1)) (pen : (Fin (p + 1) → ℝ) → WithTop ℝ)
    (hA : IsAtomFor A pen) (u : Fin (p + 1) → ℝ)
    (hu : IsMinTop (penalised (regressionLoss X (.gaussian y) coef so o w) (G.toLoss quad).quad pen) u) :
    (∀ u', IsMinTop (penalised (regressionLoss X (.gaussian y) coef so o w) (G.toLoss quad).quad pen) u' → 0 < coef →
      ∀ i, 0 < (w.elim 1 fun w => w i : ℝ) → ∑ j, X i j * u' j = ∑ j, X i j * u j) ∧
    ∀ (M : ℝ), 0 < M → coef * ∑ i, (w.elim 1 fun w => w i) * ∑ j, X i j ^ 2 ≤ M →
      ∀ (x0 : Fin (p + 1) → ℝ) (a : FitArgs), a.performBacktrack = true → 1 ≤ a.alpha → 0 < a.startStep →
      a.monotonicityRestart = false → a.restart = none → (∃ m, a.maxIts = some m ∧ m ≠ 0 ∧ m ≤ 99) →
      ∀ (lip : ℝ) (fuel : ℕ) (c : Fin (p + 1) → ℝ) (v : ObjVal) (hist : List ObjVal),
      ((SimpleProblem.ofLoss (G.toLoss quad) A x0).solve none a lip fuel).1 = .ok c v hist →
      coef / 2 * ∑ i, (w.elim 1 fun w => w i) * (∑ j, X i j * c j - ∑ j, X i j * u j) ^ 2 ≤
        2 * sqDist x0 u / (min a.startStep (1 / (2 * M * a.alpha)) * (hist.length + 1) ^ 2) := by
  obtain ⟨g, hS, hsm⟩ := C100_glm X (.gaussian y) trivial coef so o w quad hq G hG
  obtain ⟨hc0, hw0, -⟩ := built_eq hG
  have hsub : ∀ (a b : Fin (p + 1) → ℝ) i, ∑ j, X i j * a j - ∑ j, X i j * b j = ∑ j, X i j * (a j - b j) := fun a b i => by
    rw [← Finset.sum_sub_distrib]
    exact Finset.sum_congr rfl fun j _ => by ring
  refine ⟨fun u' hu' hc i hi => ?_, fun M hM0 hM x0 a hb ha hst hm hr hmax lip fuel c v hist hsolve => ?_⟩
  · obtain ⟨vu, hv⟩ := WithTop.ne_top_iff_exists.1 hu.1
    obtain ⟨vu', hv'⟩ := WithTop.ne_top_iff_exists.1 hu'.1
    have hgap := gauss_gap X coef so o w y _ hS.quad_coef hA.convex u hu u' vu' vu hv'.symm hv.symm
    have hle : vu' ≤ vu := by
      have := hu'.2 u
      rw [← hv, ← hv', WithTop.coe_le_coe] at this
      exact this
    have hd : 0 ≤ (G.toLoss quad).quad.coef / 2 * sqDist u' u :=
      mul_nonneg (by have := hS.quad_coef; linarith) (Finset.sum_nonneg fun i _ => sq_nonneg _)
    have hterm : ∀ i ∈ Finset.univ, 0 ≤ (w.elim 1 fun w => w i) * (∑ j, X i j * (u' j - u j)) ^ 2 := fun i _ =>
      mul_nonneg (hw0 i) (sq_nonneg _)
    have hs : ∑ i, (w.elim 1 fun w => w i) * (∑ j, X i j * (u' j - u j)) ^ 2 ≤ 0 := by
      by_contra hcon
      push Not at hcon
      have := mul_pos (half_pos hc) hcon
      linarith
    have h0 := (Finset.sum_eq_zero_iff_of_nonneg hterm).1 (le_antisymm hs (Finset.sum_nonneg hterm)) i (Finset.mem_univ i)
    have h1 : (∑ j, X i j * (u' j - u j)) ^ 2 = 0 := by
      rcases mul_eq_zero.1 h0 with h | h
      · exact absurd h (ne_of_gt hi)
      · exact h
    have h2 := pow_eq_zero_iff two_ne_zero |>.1 h1
    have := hsub u' u i
    linarith
  · have hMs : SmoothWith (regressionLoss X (.gaussian y) coef so o w) g M := by
      have h := hsm 1 rfl
      rw [mul_one] at h
      refine ⟨fun x z => (h.descent x z).trans ?_, fun x z => (h.monotone x z).trans ?_⟩
      · have hd : 0 ≤ sqDist z x := Finset.sum_nonneg fun i _ => sq_nonneg _
        have := mul_le_mul_of_nonneg_right hM hd
        linarith
      · exact mul_le_mul_of_nonneg_right hM (Finset.sum_nonneg fun i _ => sq_nonneg _)
    obtain ⟨vc, vu, -, e1, e2, -, hrate⟩ := C100_rate _ _ g A pen hS hA M hM0 hMs x0 a hb ha hst hm hr hmax lip fuel c v hist hsolve u hu
    have hgap := gauss_gap X coef so o w y _ hS.quad_coef hA.convex u hu c vc vu e1 e2
    have hd : 0 ≤ (G.toLoss quad).quad.coef / 2 * sqDist c u :=
      mul_nonneg (by have := hS.quad_coef; linarith) (Finset.sum_nonneg fun i _ => sq_nonneg _)
    simp only [hsub]
    linarith

/-- **C102** Fitted values of penalised least squares are nonexpansive in the response, for every atom that meets the contract: if `u1`
solves the problem with response `y1` and `u2` the problem with `y2`, the weighted squared distance of the fitted values is at most that
of the responses. -/
theorem C102_response (y1 y2 : Fin n → ℝ) (hc : 0 < coef) (quad : Option (Quad (Fin (p + 1)) ℝ)) (hq : 0 ≤ quadCoef quad)
    (G1 G2 : Glm (p + 1) n) (hG1 : Glm.build X (.gaussian y1) coef so o w = some G1)
    (hG2 : Glm.build X (.gaussian y2) coef so o w = some G2) (A : NonsmoothAtom (p + 1)) (pen : (Fin (p + 1) → ℝ) → WithTop ℝ)
    (hA : IsAtomFor A pen) (u1 u2 : Fin (p + 1) → ℝ)
    (h1 : IsMinTop (penalised (regressionLoss X (.gaussian y1) coef so o w) (G1.toLoss quad).quad pen) u1)
    (h2 : IsMinTop (penalised (regressionLoss X (.gaussian y2) coef so o w) (G2.toLoss quad).quad pen) u2) :
    ∑ i, (w.elim 1 fun w => w i) * (∑ j, X i j * u1 j - ∑ j, X i j * u2 j) ^ 2 ≤
      ∑ i, (w.elim 1 fun w => w i) * (y1 i - y2 i) ^ 2 := by
  obtain ⟨g1, hS1, -⟩ := C100_glm X (.gaussian y1) trivial coef so o w quad hq G1 hG1
  obtain ⟨-, hw0, -⟩ := built_eq hG1
  have hsub : ∀ (a b : Fin (p + 1) → ℝ) i, ∑ j, X i j * a j - ∑ j, X i j * b j = ∑ j, X i j * (a j - b j) := fun a b i => by
    rw [← Finset.sum_sub_distrib]
    exact Finset.sum_congr rfl fun j _ => by ring
  have hqq : (G2.toLoss quad).quad = (G1.toLoss quad).quad := rfl
  rw [hqq] at h2
  set sq := (G1.toLoss quad).quad with hsq
  have hq0 : 0 ≤ sq.coef := hS1.quad_coef
  obtain ⟨p1, hp1⟩ := min_finite h1
  obtain ⟨p2, hp2⟩ := min_finite h2
  have hv : ∀ (y : Fin n → ℝ) (u : Fin (p + 1) → ℝ) (pu : ℝ), pen u = pu →
      penalised (regressionLoss X (.gaussian y) coef so o w) sq pen u =
        ((pu + (regressionLoss X (.gaussian y) coef so o w u + quadVal (some sq) u) : ℝ) : WithTop ℝ) := fun y u pu hpu => by
    unfold penalised
    rw [hpu, ← WithTop.coe_add]
  have a1 := gauss_gap X coef so o w y1 sq hq0 hA.convex u1 h1 u2 _ _ (hv y1 u2 p2 hp2) (hv y1 u1 p1 hp1)
  have a2 := gauss_gap X coef so o w y2 sq hq0 hA.convex u2 h2 u1 _ _ (hv y2 u1 p1 hp1) (hv y2 u2 p2 hp2)
  have hd1 : 0 ≤ sq.coef / 2 * sqDist u2 u1 := mul_nonneg (by linarith) (Finset.sum_nonneg fun i _ => sq_nonneg _)
  have hd2 : 0 ≤ sq.coef / 2 * sqDist u1 u2 := mul_nonneg (by linarith) (Finset.sum_nonneg fun i _ => sq_nonneg _)
  have hsym : ∑ i, (w.elim 1 fun w => w i) * (∑ j, X i j * (u2 j - u1 j)) ^ 2 =
      ∑ i, (w.elim 1 fun w => w i) * (∑ j, X i j * (u1 j - u2 j)) ^ 2 := by
    refine Finset.sum_congr rfl fun i _ => ?_
    rw [← hsub, ← hsub]; ring
  have hdiff : (regressionLoss X (.gaussian y1) coef so o w u2 - regressionLoss X (.gaussian y1) coef so o w u1) +
      (regressionLoss X (.gaussian y2) coef so o w u1 - regressionLoss X (.gaussian y2) coef so o w u2) =
      coef * ∑ i, (w.elim 1 fun w => w i) * ((∑ j, X i j * (u1 j - u2 j)) * (y1 i - y2 i)) := by
    have h : ∀ y β, regressionLoss X (.gaussian y) coef so o w β =
        coef * ∑ i, (w.elim 1 fun w => w i) * ((eta X so o β i - y i) ^ 2 / 2) := fun y β => rfl
    rw [h, h, h, h, ← mul_sub, ← mul_sub, ← mul_add, ← Finset.sum_sub_distrib, ← Finset.sum_sub_distrib, ← Finset.sum_add_distrib]
    congr 1
    refine Finset.sum_congr rfl fun i _ => ?_
    rw [← eta_sub X so o]
    ring
  have hle : coef * ∑ i, (w.elim 1 fun w => w i) * (∑ j, X i j * (u1 j - u2 j)) ^ 2 ≤
      coef * ∑ i, (w.elim 1 fun w => w i) * ((∑ j, X i j * (u1 j - u2 j)) * (y1 i - y2 i)) := by
    rw [hsym] at a1
    linarith
  have hle' := le_of_mul_le_mul_left hle hc
  have hamgm : 2 * ∑ i, (w.elim 1 fun w => w i) * ((∑ j, X i j * (u1 j - u2 j)) * (y1 i - y2 i)) ≤
      ∑ i, (w.elim 1 fun w => w i) * (∑ j, X i j * (u1 j - u2 j)) ^ 2 + ∑ i, (w.elim 1 fun w => w i) * (y1 i - y2 i) ^ 2 := by
    rw [Finset.mul_sum, ← Finset.sum_add_distrib]
    refine Finset.sum_le_sum fun i _ => ?_
    have := mul_nonneg (hw0 i) (sq_nonneg ((∑ j, X i j * (u1 j - u2 j)) - (y1 i - y2 i)))
    nlinarith
  simp only [hsub]
  linarith

end

/-! ### where the number misleads, and examples -/

private lemma sqerr (y : ℝ) : ∃ c : QuadObj.Composed 1 1, QuadObj.affine (.matrix fun _ _ => 1) (fun _ => -y) 1 none [] .none = some c ∧
    IsLossFor c.toLoss (fun β => 1 / 2 * ∑ i : Fin 1, (∑ j : Fin 1, 1 * β j - y) ^ 2)
      (fun β j => ∑ i : Fin 1, 1 * (1 * (∑ l : Fin 1, 1 * β l - y))) ∧ c.toLoss.quad = Quad.init none none none none ∧
    SmoothWith (fun β => 1 / 2 * ∑ i : Fin 1, (∑ j : Fin 1, 1 * β j - y) ^ 2)
      (fun β j => ∑ i : Fin 1, 1 * (1 * (∑ l : Fin 1, 1 * β l - y))) (1 * 1) := by
  obtain ⟨c, hc⟩ : ∃ c, QuadObj.affine (.matrix fun (_ : Fin 1) (_ : Fin 1) => (1 : ℝ)) (fun _ => -y) 1 none [] .none = some c := by
    unfold QuadObj.affine QuadObj.init
    simp [acceptableInitArgs, show ¬ ((1 : ℝ) < 0) by norm_num]
  obtain ⟨h1, h2⟩ := C100_squared_error (fun _ _ => 1) (fun _ => y) 1 c hc
  refine ⟨c, hc, h1, ?_, h2 1 fun d => by simp⟩
  unfold QuadObj.affine QuadObj.init at hc
  simp [acceptableInitArgs, show ¬ ((1 : ℝ) < 0) by norm_num] at hc
  subst hc
  rfl

private lemma slope_default (x : Fin m → ℝ) (i : Fin m) : quadSlope (Quad.init none none none none) x i = 0 := by
  simp [quadSlope, Quad.init, denote]

/-- **C102** For `positive_part` the conjugate seminorm misleads in both settings of `check_feasibility`.  Least squares with one case
and one coefficient: with response -1 the unchecked number is -1, below every multiplier, but zero is not the solution; with response 0
zero is the solution, but the checked number is infinite. -/
theorem C102_null_value_fails :
    (∃ (S : QuadLoss 1) (f : (Fin 1 → ℝ) → ℝ) (g : (Fin 1 → ℝ) → Fin 1 → ℝ), IsLossFor S f g ∧
      S.quad = Quad.init none none none none ∧
      Klass.positivePart.conj.seminorm (fun i => -g (fun _ => 0) i) 1 false ≤ ((1 : ℝ) : WithTop ℝ) ∧
      ¬ IsMinTop (penalised f S.quad (penalty .positivePart 1)) (fun _ => 0)) ∧
    ∃ (S : QuadLoss 1) (f : (Fin 1 → ℝ) → ℝ) (g : (Fin 1 → ℝ) → Fin 1 → ℝ), IsLossFor S f g ∧
      S.quad = Quad.init none none none none ∧
      ¬ Klass.positivePart.conj.seminorm (fun i => -g (fun _ => 0) i) 1 true ≤ ((1 : ℝ) : WithTop ℝ) ∧
      IsMinTop (penalised f S.quad (penalty .positivePart 1)) (fun _ => 0) := by
  have hpen : ∀ S : QuadLoss 1, ∀ f : (Fin 1 → ℝ) → ℝ, penalised f S.quad (penalty .positivePart 1) =
      penalised f S.quad fun x => penalty .positivePart 1 x + ((quadVal (some (Quad.init none none none none)) x : ℝ) : WithTop ℝ) := by
    intro S f
    congr 1
    funext x
    have : quadVal (some (Quad.init none none none none)) x = 0 := by simp [quadVal, quadFn, Quad.init, denote, dot]
    rw [this, WithTop.coe_zero, add_zero]
  constructor
  · obtain ⟨c, -, h, hq, -⟩ := sqerr (-1)
    refine ⟨_, _, _, h, hq, ?_, ?_⟩
    · simp [Klass.conj, Klass.seminorm, ConMax.seminorm]
      exact maxCoord_le fun i => by norm_num
    · rw [hpen, (C102_null_threshold (p := 0) _ _ _ h .positivePart 1 zero_le_one (Quad.init none none none none) le_rfl (fun _ => 0) 1
        one_pos).1, hq]
      simp only [slope_default, Klass.conj, ballOf, Set.mem_ofPred_eq]
      intro hc
      have := (hc 0).1
      norm_num at this
  · obtain ⟨c, -, h, hq, -⟩ := sqerr 0
    refine ⟨_, _, _, h, hq, ?_, ?_⟩
    · simp [Klass.conj, Klass.seminorm, ConMax.seminorm, atomTol]
    · rw [hpen, (C102_null_threshold (p := 0) _ _ _ h .positivePart 1 zero_le_one (Quad.init none none none none) le_rfl (fun _ => 0) 1
        one_pos).1, hq]
      simp only [slope_default, Klass.conj, ballOf, Set.mem_ofPred_eq]
      intro i
      norm_num

/-- least squares with one case, response 3, and the l1 norm: zero is the solution exactly from the multiplier 3 on, so the hypotheses
of `C102_path` hold at 3 and 4 with the same solution -/
example : ∃ (S : QuadLoss 1) (f : (Fin 1 → ℝ) → ℝ) (g : (Fin 1 → ℝ) → Fin 1 → ℝ), IsLossFor S f g ∧ SmoothWith f g 1 ∧
    ∀ lam : ℝ, 0 ≤ lam → (IsMinTop (penalised f S.quad fun x => penalty .l1norm lam x +
      ((quadVal (some (Quad.init none none none none)) x : ℝ) : WithTop ℝ)) (fun _ => 0) ↔ 3 ≤ lam) := by
  obtain ⟨c, -, h, hq, hs⟩ := sqerr 3
  refine ⟨_, _, _, h, by simpa using hs, fun lam hl => ?_⟩
  rw [(C102_null_threshold (p := 0) _ _ _ h .l1norm lam hl (Quad.init none none none none) le_rfl (fun _ => 0) 1 one_pos).1, hq]
  simp only [slope_default, Klass.conj, ballOf, Set.mem_ofPred_eq]
  constructor
  · intro hc
    have := hc 0
    norm_num at this
    exact this
  · intro h3 i
    norm_num
    exact h3

/-- the lasso family with an offset and a ridge term, and two groups with unequal weights -/
example : IsPenaltyFamily (fun lam => (⟨.l1norm, ⟨some lam, none⟩, some (.arr ![1, 2]), ⟨2, none, none, 0⟩⟩ : AtomObj (Fin 2) ℝ).toAtom)
    (fun b => (⟨.l1norm, ⟨none, some b⟩, some (.arr ![1, 2]), ⟨2, none, none, 0⟩⟩ : AtomObj (Fin 2) ℝ).toAtom)
    (normOf .l1norm) (normDomain .l1norm) (some (.arr ![1, 2])) ⟨2, none, none, 0⟩ :=
  C102_seminorm_family (p := 1) .l1norm _ _ (by norm_num)

/-- the bound form: `(x - 3)² / 2` over `|x| ≤ 1` has the solution 1, with multiplier 2 -/
example : ∃ (S : QuadLoss 1) (f : (Fin 1 → ℝ) → ℝ) (g : (Fin 1 → ℝ) → Fin 1 → ℝ), IsLossFor S f g ∧
    IsMinTop (penalised f S.quad (shiftedPen (fun _ => 0) {z | z ∈ normDomain .l1norm ∧ normOf .l1norm z ≤ 1} none
      (Quad.init none none none none))) (fun _ => 1) ∧
    IsMinTop (penalised f S.quad (shiftedPen (fun z => 2 * normOf .l1norm z) (normDomain .l1norm) none
      (Quad.init none none none none))) (fun _ => 1) := by
  obtain ⟨c, -, h, hq, -⟩ := sqerr 3
  refine ⟨_, _, _, h, ?_, ?_⟩
  · rw [hq]
    refine min_sh.2 ⟨⟨trivial, by simp [normOf, denote]⟩, fun x hx => ?_⟩
    have h1 : |x 0| ≤ 1 := by simpa [normOf, denote] using hx.2
    have := (abs_le.1 h1).2
    simp [quadVal, quadFn, Quad.init, denote, dot]
    nlinarith
  · rw [hq]
    refine min_sh.2 ⟨trivial, fun x hx => ?_⟩
    have h1 := le_abs_self (x 0)
    simp [quadVal, quadFn, Quad.init, denote, dot, normOf]
    nlinarith [sq_nonneg (x 0 - 1)]

/-- a weighted least squares glm with two cases is built for every design and response -/
example (X : Fin 2 → Fin 1 → ℝ) (y : Fin 2 → ℝ) : ∃ G, Glm.build X (.gaussian y) 1 none none (some ![1, 2]) = some G :=
  build_ok X (.gaussian y) (fun h => h) zero_le_one none none _ (fun w h => by
    injection h with h
    subst h
    intro i; fin_cases i <;> norm_num)

/-- `C102_fitted_values` and `C102_response`: one case, two responses, ridge-free l1 penalty with multiplier 1; the solutions of the
responses 3 and -4 are 2 and -3 -/
example : IsMinTop (penalised (regressionLoss (fun (_ : Fin 1) (_ : Fin 1) => 1) (.gaussian fun _ => 3) 1 none none none)
      (Quad.init none none none none) (shiftedPen (fun z => 1 * normOf .l1norm z) (normDomain .l1norm) none (Quad.init none none none none)))
      (fun _ => 2) ∧
    IsMinTop (penalised (regressionLoss (fun (_ : Fin 1) (_ : Fin 1) => 1) (.gaussian fun _ => -4) 1 none none none)
      (Quad.init none none none none) (shiftedPen (fun z => 1 * normOf .l1norm z) (normDomain .l1norm) none (Quad.init none none none none)))
      (fun _ => -3) := by
  constructor
  · refine min_sh.2 ⟨trivial, fun x hx => ?_⟩
    have h1 := le_abs_self (x 0)
    simp [quadVal, quadFn, Quad.init, denote, dot, normOf, regressionLoss, caseLoss, gaussianNll, effOffset]
    nlinarith [sq_nonneg (x 0 - 2)]
  · refine min_sh.2 ⟨trivial, fun x hx => ?_⟩
    have h1 := neg_abs_le (x 0)
    simp [quadVal, quadFn, Quad.init, denote, dot, normOf, regressionLoss, caseLoss, gaussianNll, effOffset]
    nlinarith [sq_nonneg (x 0 + 3)]

end Verif.Props
