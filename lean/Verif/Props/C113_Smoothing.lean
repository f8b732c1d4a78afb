import Verif.Props.C102_Tuning
import Verif.Props.C67_AffineAtom
import Verif.Props.C107_ProblemFactories

/-!
# C113: smoothing a penalty, and what a solution of the smoothed problem is worth

`atom.smoothed(identity_quadratic(eps, 0, 0, 0))` replaces a penalty by a smooth function, `smooth_sum` adds it to the loss, and the
problem is solved without the penalty (`doc/source/examples/Atoms.rst`, "Atoms can be smoothed").
-/

set_option linter.unusedSectionVars false
set_option linter.unusedVariables false

namespace Verif.Props
open Verif.Spec Verif.Model Verif.Model.Fista Verif.Lemmas

variable {n p m k : ℕ}

/-! ### specification -/

/-- `identity_quadratic(eps, 0, 0, 0)` -/
noncomputable def plainQuad (eps : ℝ) : Quad (Fin m) ℝ := Quad.init (some eps) (some (.scalar 0)) (some (.scalar 0)) (some 0)

/-- `identity_quadratic(1/eps, x, np.zeros(p), 0)`: `1/(2 eps) ‖z - x‖²` -/
noncomputable def nearQuad (eps : ℝ) (x : Fin m → ℝ) : Quad (Fin m) ℝ :=
  Quad.init (some (1 / eps)) (some (.arr x)) (some (.arr fun _ => 0)) (some 0)

/-- the classes whose seminorm is finite everywhere -/
def IsFinite (c : Klass) : Prop := c ≠ .constrainedMax ∧ c ≠ .constrainedPositivePart

/-- the square of the Lipschitz constant of the seminorm of `p + 1` coordinates -/
noncomputable def steepness (c : Klass) (p : ℕ) : ℝ :=
  match c with
  | .l1norm => p + 1
  | .positivePart => p + 1
  | _ => 1

/-- the loss `S` evaluates a convex function `V` with gradient `G`, `L`-Lipschitz, below `h` by at most `gap` -/
structure IsSmoothing (S : QuadLoss m) (V : (Fin m → ℝ) → ℝ) (G : (Fin m → ℝ) → Fin m → ℝ) (h : (Fin m → ℝ) → ℝ)
    (gap L : ℝ) : Prop where
  loss : IsLossFor S V G
  smooth : SmoothWith V G L
  below : ∀ x, V x ≤ h x
  within : ∀ x, h x ≤ V x + gap

/-! ### helpers -/

private lemma at_zero {A B : ℝ} (h : ∀ t : ℝ, 0 < t → t ≤ 1 → 0 ≤ A + t * B) : 0 ≤ A := by
  by_contra hA
  push Not at hA
  by_cases hB : B ≤ 0
  · have := h 1 one_pos le_rfl
    linarith
  · push Not at hB
    have h1 := h (min 1 (-A / (2 * B))) (lt_min one_pos (div_pos (by linarith) (by linarith))) (min_le_left _ _)
    have h2 : min 1 (-A / (2 * B)) * B ≤ -A / (2 * B) * B := mul_le_mul_of_nonneg_right (min_le_right _ _) hB.le
    have e : -A / (2 * B) * B = -A / 2 := by field_simp
    linarith

/-- a minimiser `z` of `f + 1/(2 eps) ‖x - ·‖²` has the slope `(x - z)/eps` in the subdifferential of `f` -/
private lemma slope_of_min {f : (Fin m → ℝ) → WithTop ℝ} (hc : ConvexTop f) {eps : ℝ} (he : 0 < eps) {x z : Fin m → ℝ} {pz : ℝ}
    (hz : f z = pz) (hmin : ∀ y (v : ℝ), f y = v → pz + sqDist x z / (2 * eps) ≤ v + sqDist x y / (2 * eps)) (y : Fin m → ℝ) (v : ℝ)
    (hy : f y = v) : pz + dot (fun i => (x i - z i) / eps) (fun i => y i - z i) ≤ v := by
  have key : ∀ t : ℝ, 0 < t → t ≤ 1 → 0 ≤ (v - pz - dot (fun i => (x i - z i) / eps) (fun i => y i - z i)) +
      t * (sqDist y z / (2 * eps)) := by
    intro t h0 h1
    obtain ⟨c, hc1, hc2⟩ := hc z y pz v hz hy t h0.le h1
    have h2 := hmin _ c hc1
    have e : sqDist x (fun i => (1 - t) * z i + t * y i) / (2 * eps) = sqDist x z / (2 * eps) -
        t * dot (fun i => (x i - z i) / eps) (fun i => y i - z i) + t * (t * (sqDist y z / (2 * eps))) := by
      unfold sqDist dot
      simp only [Finset.sum_div, Finset.mul_sum]
      rw [← Finset.sum_sub_distrib, ← Finset.sum_add_distrib]
      refine Finset.sum_congr rfl fun i _ => ?_
      field_simp
      ring
    rw [e] at h2
    have : 0 ≤ t * ((v - pz - dot (fun i => (x i - z i) / eps) (fun i => y i - z i)) + t * (sqDist y z / (2 * eps))) := by linarith
    exact nonneg_of_mul_nonneg_right this h0
  linarith [at_zero key]

private lemma young {eps : ℝ} (he : 0 < eps) (d u : Fin m → ℝ) :
    dot d u - eps / 2 * ∑ i, u i ^ 2 ≤ (∑ i, d i ^ 2) / (2 * eps) := by
  unfold dot
  rw [Finset.mul_sum, ← Finset.sum_sub_distrib, Finset.sum_div]
  refine Finset.sum_le_sum fun i _ => ?_
  rw [le_div_iff₀ (by positivity)]
  nlinarith [sq_nonneg (d i - eps * u i)]

/-- the smoothed function is the Moreau envelope, its gradient the scaled distance to the proximal point -/
private lemma envelope {f fstar : (Fin m → ℝ) → WithTop ℝ} (hc : ConvexTop f) (hf : IsConjugate f fstar) {V : (Fin m → ℝ) → ℝ}
    {G : (Fin m → ℝ) → Fin m → ℝ} {q : (Fin m → ℝ) → ℝ} {eps : ℝ} (he : 0 < eps) (hq : ∀ u, q u = eps / 2 * ∑ i, u i ^ 2)
    (hs : IsSmoothedBy fstar q V G) {x z : Fin m → ℝ} {pz : ℝ}
    (hz : f z = pz) (hmin : ∀ y (v : ℝ), f y = v → pz + sqDist x z / (2 * eps) ≤ v + sqDist x y / (2 * eps)) :
    V x = pz + sqDist x z / (2 * eps) ∧ G x = fun i => (x i - z i) / eps := by
  set u : Fin m → ℝ := fun i => (x i - z i) / eps with hu
  have hsub := slope_of_min hc he hz hmin
  have hsplit : ∀ y w : Fin m → ℝ, dot (fun i => y i - w i) u = dot y u - dot w u := fun y w => by
    unfold dot; rw [← Finset.sum_sub_distrib]; exact Finset.sum_congr rfl fun i _ => by ring
  have hcomm : ∀ a b : Fin m → ℝ, dot a b = dot b a := fun a b => Finset.sum_congr rfl fun i _ => mul_comm _ _
  have hub : dot z u - pz ∈ upperBounds {t : ℝ | ∃ x a, f x = ((a : ℝ) : WithTop ℝ) ∧ t = dot x u - a} := by
    rintro t ⟨y, a, hy, rfl⟩
    have h1 := hsub y a hy
    rw [hcomm, hsplit] at h1
    linarith
  have hmem : dot z u - pz ∈ {t : ℝ | ∃ x a, f x = ((a : ℝ) : WithTop ℝ) ∧ t = dot x u - a} := ⟨z, pz, hz, rfl⟩
  have hstar : fstar u = ((dot z u - pz : ℝ) : WithTop ℝ) := by
    cases h : fstar u with
    | top => exact absurd ⟨_, hub⟩ ((hf u).2 h)
    | coe s =>
      have := (hf u).1 s h
      rw [WithTop.coe_inj]
      exact le_antisymm (this.2 hub) (this.1 hmem)
  have hval : dot x u - (dot z u - pz) - q u = pz + sqDist x z / (2 * eps) := by
    rw [hq]
    have e1 : dot x u - dot z u = ∑ i, (x i - z i) ^ 2 / eps := by
      rw [← hsplit]; unfold dot; exact Finset.sum_congr rfl fun i _ => by rw [hu]; ring
    have e2 : eps / 2 * ∑ i, u i ^ 2 = ∑ i, (x i - z i) ^ 2 / (2 * eps) := by
      rw [Finset.mul_sum]; exact Finset.sum_congr rfl fun i _ => by rw [hu]; field_simp
    have e3 : ∑ i, (x i - z i) ^ 2 / eps = 2 * ∑ i, (x i - z i) ^ 2 / (2 * eps) := by
      rw [Finset.mul_sum]; exact Finset.sum_congr rfl fun i _ => by field_simp
    have e4 : sqDist x z / (2 * eps) = ∑ i, (x i - z i) ^ 2 / (2 * eps) := by unfold sqDist; rw [Finset.sum_div]
    rw [e4]
    linarith
  obtain ⟨⟨s, h1, h2⟩, h3⟩ := hs x
  have hle : V x ≤ pz + sqDist x z / (2 * eps) := by
    have hb := (hf (G x)).1 s h1
    have h4 := hb.1 ⟨z, pz, hz, rfl⟩
    have h5 := young he (fun i => x i - z i) (G x)
    have e : dot (fun i => x i - z i) (G x) = dot x (G x) - dot z (G x) := by
      unfold dot; rw [← Finset.sum_sub_distrib]; exact Finset.sum_congr rfl fun i _ => by ring
    rw [e] at h5
    rw [h2, hq]
    show _ ≤ pz + (∑ i, (x i - z i) ^ 2) / (2 * eps)
    linarith
  have hG : u = G x := by
    by_contra hne
    have := h3 u _ hstar hne
    rw [hval] at this
    linarith
  refine ⟨?_, hG.symm⟩
  rw [← hG, hstar, WithTop.coe_inj] at h1
  rw [h2, ← hG, ← h1, hval]

private lemma near_val {eps : ℝ} (x y : Fin m → ℝ) : quadVal (some (nearQuad eps x)) y = sqDist x y / (2 * eps) := by
  simp only [quadVal, quadFn, nearQuad, Quad.init, denote, dot, sqDist, Option.getD_some, zero_mul, Finset.sum_const_zero,
    add_zero]
  have : ∀ i, (y i - x i) ^ 2 = (x i - y i) ^ 2 := fun i => by ring
  simp only [this]
  ring

private lemma plain_fn (eps : ℝ) (u : Fin (n + 1) → ℝ) : smoothingFn (plainQuad eps) u = eps / 2 * ∑ i, u i ^ 2 := by
  simp [smoothingFn, quadFn, plainQuad, Quad.init, denote, dot, sqDist]

private lemma plain_center (eps : ℝ) : ArrayCenter (plainQuad eps : Quad (Fin (n + 1)) ℝ) := by
  intro c h
  simp only [plainQuad, Quad.init, Option.some.injEq, PyVec.scalar.injEq] at h
  exact h.symm

private lemma denote_split (a : AtomObj (Fin (n + 1)) ℝ) (b : Bool) (r : ℝ) (ha : a.quad.coef = 0) (x : Fin (n + 1) → ℝ) :
    denoteAtom a b r x = atomBase a.klass b r (fun i => x i - offAt a.offset i) + ((quadVal (some a.quad) x : ℝ) : WithTop ℝ) := by
  have e : quadVal (some a.quad) x = dot (linearAt a.quad) x + a.quad.const := by
    have h2 : denote a.quad.linear = linearAt a.quad := by
      funext i; unfold denote linearAt; rcases a.quad.linear with _ | (c | c) <;> rfl
    simp only [quadVal, quadFn, ha, h2]
    ring
  rw [e]
  unfold denoteAtom atomFn atomBase
  rfl

/-- the proximal point exists and minimises -/
private lemma prox_point (a : AtomObj (Fin (n + 1)) ℝ) (b : Bool) (r : ℝ) (hm : InMode a b r) (ha : a.quad.coef = 0) {eps : ℝ}
    (he : 0 < eps) (x : Fin (n + 1) → ℝ) :
    ∃ (z : Fin (n + 1) → ℝ) (pz : ℝ), a.proximal (nearQuad eps x) = .ok z ∧ denoteAtom a b r z = pz ∧
      ∀ y (v : ℝ), denoteAtom a b r y = v → pz + sqDist x z / (2 * eps) ≤ v + sqDist x y / (2 * eps) := by
  have hA := C90_seminorms a b r hm ha.ge
  have hcoef : 0 < (nearQuad eps x : Quad (Fin (n + 1)) ℝ).coef := by show 0 < 1 / eps; positivity
  obtain ⟨z, hz, -⟩ := obj_prox a b r hm (nearQuad eps x) (fun _ => 0) rfl (by rw [ha, zero_add]; exact hcoef)
  have hz' : a.toAtom.proximal (nearQuad eps x) = .ok z := hz
  obtain ⟨h1, h2⟩ := hA.solves _ z hcoef hz'
  simp only [← denote_split a b r ha] at h1 h2
  obtain ⟨pz, hpz⟩ := WithTop.ne_top_iff_exists.1 (WithTop.add_ne_top.1 h1).2
  refine ⟨z, pz, hz, hpz.symm, fun y v hv => ?_⟩
  by_cases hy : y = z
  · subst hy
    rw [← hpz, WithTop.coe_inj] at hv
    rw [hv]
  · have := (h2 y hy).le
    rw [← hpz, hv, ← WithTop.coe_add, ← WithTop.coe_add, WithTop.coe_le_coe, near_val, near_val] at this
    linarith

/-! ### one atom -/

/-- **C113** A smoothed atom is its Moreau envelope: for each of the seven seminorms in Lagrange or in bound form, any array offset and
linear term and `eps > 0`, `atom.smoothed(identity_quadratic(eps, 0, 0, 0))` evaluates `V` with gradient `G` where
`V x = min_z pen(z) + 1/(2 eps) ‖x - z‖²`, the minimum is at the point `z` that `atom.proximal(identity_quadratic(1/eps, x, 0, 0))`
returns, and `G x = (x - z)/eps`. -/
theorem C113_envelope (a : AtomObj (Fin (n + 1)) ℝ) (b : Bool) (r : ℝ) (hm : InMode a b r) (ha : a.quad.coef = 0)
    (ho : ArrayOffset a) (eps : ℝ) (he : 0 < eps) :
    ∃ s V G, a.smoothed (plainQuad eps) = .ok s ∧ Evaluates s.smoothObjective V G ∧ ∀ x, ∃ (z : Fin (n + 1) → ℝ) (pz : ℝ),
      a.proximal (nearQuad eps x) = .ok z ∧ denoteAtom a b r z = pz ∧ V x = pz + sqDist x z / (2 * eps) ∧
      (∀ y (v : ℝ), denoteAtom a b r y = v → V x ≤ v + sqDist x y / (2 * eps)) ∧ G x = fun i => (x i - z i) / eps := by
  obtain ⟨s, h1, -, V, G, h2, h3, -⟩ := C48_smoothed a b r hm ha ho (plainQuad eps) he (plain_center eps)
  obtain ⟨a', -, -, -, hconj⟩ := C13_conjugate a b r hm ha ho
  refine ⟨s, V, G, h1, h2, fun x => ?_⟩
  obtain ⟨z, pz, hz, hpz, hmin⟩ := prox_point a b r hm ha he x
  obtain ⟨hV, hG⟩ := envelope (denoteAtom_convex a b hm.1) hconj he (plain_fn eps) (h3 _ hconj) hpz hmin
  exact ⟨z, pz, hz, hpz, hV, fun y v hv => by rw [hV]; exact hmin y v hv, hG⟩

/-- **C113** Smoothing a constraint: `atom.smoothed(identity_quadratic(eps, 0, 0, 0))` of an atom in bound form is the squared distance
to the constraint set over `2 eps`; it is zero exactly at the feasible points. -/
theorem C113_constraint (a : AtomObj (Fin (n + 1)) ℝ) (r : ℝ) (hm : InMode a true r) (hq : a.quad = Quad.init none none none none)
    (ho : ArrayOffset a) (eps : ℝ) (he : 0 < eps) :
    ∃ s V G, a.smoothed (plainQuad eps) = .ok s ∧ Evaluates s.smoothObjective V G ∧ ∀ x, ∃ z : Fin (n + 1) → ℝ,
      a.proximal (nearQuad eps x) = .ok z ∧ IsProj {y | (fun i => y i - offAt a.offset i) ∈ ballOf a.klass r} x z ∧
      V x = sqDist x z / (2 * eps) ∧ (V x = 0 ↔ (fun i => x i - offAt a.offset i) ∈ ballOf a.klass r) := by
  have hden : ∀ y, denoteAtom a true r y = 0 ∧ (fun i => y i - offAt a.offset i) ∈ ballOf a.klass r ∨
      denoteAtom a true r y = ⊤ ∧ (fun i => y i - offAt a.offset i) ∉ ballOf a.klass r := by
    intro y
    have e : ((dot (linearAt a.quad) y + a.quad.const : ℝ) : WithTop ℝ) = 0 := by
      rw [hq]
      have : (dot (linearAt (Quad.init none none none none)) y + (Quad.init none none none none : Quad (Fin (n + 1)) ℝ).const : ℝ) = 0 := by
        simp [dot, linearAt, Quad.init]
      rw [this]; rfl
    unfold denoteAtom atomFn
    rw [e]
    simp only [if_true, add_zero]
    by_cases h : (fun i => y i - offAt a.offset i) ∈ ballOf a.klass r
    · left; rw [if_pos h]; exact ⟨rfl, h⟩
    · right; rw [if_neg h]; exact ⟨rfl, h⟩
  obtain ⟨s, V, G, h1, h2, h3⟩ := C113_envelope a true r hm (by rw [hq]; rfl) ho eps he
  refine ⟨s, V, G, h1, h2, fun x => ?_⟩
  obtain ⟨z, pz, hz, hpz, hV, hmin, -⟩ := h3 x
  have hzb : (fun i => z i - offAt a.offset i) ∈ ballOf a.klass r := by
    rcases hden z with h | h
    · exact h.2
    · rw [h.1] at hpz; exact absurd hpz.symm WithTop.coe_ne_top
  have hp0 : pz = 0 := by
    rcases hden z with h | h
    · rw [h.1, ← WithTop.coe_zero, WithTop.coe_inj] at hpz; exact hpz.symm
    · exact absurd hzb h.2
  rw [hp0, zero_add] at hV
  have hfeas : ∀ y, (fun i => y i - offAt a.offset i) ∈ ballOf a.klass r → denoteAtom a true r y = ((0 : ℝ) : WithTop ℝ) := by
    intro y hy
    rcases hden y with h | h
    · rw [h.1]; rfl
    · exact absurd hy h.2
  -- the minimiser is unique
  have huniq : ∀ y, (fun i => y i - offAt a.offset i) ∈ ballOf a.klass r → y ≠ z → sqDist x z / (2 * eps) < sqDist x y / (2 * eps) := by
    intro y hy hne
    have hA := C90_seminorms a true r hm (by rw [hq]; exact le_rfl)
    obtain ⟨-, hu⟩ := hA.solves (nearQuad eps x) z (by show 0 < 1 / eps; positivity) hz
    have := hu y hne
    simp only [← denote_split a true r (show a.quad.coef = 0 by rw [hq]; rfl)] at this
    rw [hfeas z hzb, hfeas y hy, WithTop.coe_zero, add_zero, add_zero, WithTop.coe_lt_coe, near_val, near_val] at this
    exact this
  refine ⟨z, hz, ⟨hzb, fun y hy hne => ?_⟩, hV, ?_⟩
  · have := huniq y hy hne
    rw [div_lt_div_iff_of_pos_right (by positivity)] at this
    have hs : ∀ u w : Fin (n + 1) → ℝ, sqDist u w = sqDist w u := fun u w => Finset.sum_congr rfl fun i _ => by ring
    show sqDist z x < sqDist y x
    rw [hs z x, hs y x]; exact this
  · constructor
    · intro h0
      rw [hV, div_eq_zero_iff] at h0
      rcases h0 with h0 | h0
      · have : x = z := by
          funext i
          have h5 : ∀ i ∈ Finset.univ, (x i - z i) ^ 2 = 0 :=
            (Finset.sum_eq_zero_iff_of_nonneg fun i _ => sq_nonneg (x i - z i)).1 h0
          have := h5 i (Finset.mem_univ i)
          rw [sq_eq_zero_iff] at this
          linarith
        rw [this]; exact hzb
      · linarith
    · intro hx
      have h4 := hmin x 0 (hfeas x hx)
      have h5 : sqDist x x = 0 := by simp [sqDist]
      rw [h5, zero_div, add_zero] at h4
      refine le_antisymm h4 ?_
      rw [hV]
      have := sqDist_nonneg x z
      positivity

private lemma step_bound {r eps d : ℝ} (he : 0 < eps) : r * |d| ≤ d ^ 2 / (2 * eps) + eps / 2 * r ^ 2 := by
  have h : 0 ≤ (|d| - eps * r) ^ 2 / (2 * eps) := by positivity
  have e : (|d| - eps * r) ^ 2 / (2 * eps) = |d| ^ 2 / (2 * eps) + eps / 2 * r ^ 2 - r * |d| := by field_simp; ring
  rw [e, sq_abs] at h
  linarith

private lemma coord_le (x z : Fin (p + 1) → ℝ) {eps : ℝ} (he : 0 < eps) (i : Fin (p + 1)) :
    (x i - z i) ^ 2 / (2 * eps) ≤ sqDist x z / (2 * eps) := by
  refine div_le_div_of_nonneg_right ?_ (by positivity)
  exact Finset.single_le_sum (f := fun i => (x i - z i) ^ 2) (fun i _ => sq_nonneg _) (Finset.mem_univ i)

private lemma part_le (a b : ℝ) : max a 0 ≤ max b 0 + |a - b| := by
  refine max_le ?_ (add_nonneg (le_max_right _ _) (abs_nonneg _))
  have h1 := le_abs_self (a - b)
  have h2 := le_max_left b 0
  linarith

private lemma abs_le' (a b : ℝ) : |a| ≤ |b| + |a - b| := by
  have h := abs_add_le b (a - b)
  rwa [show b + (a - b) = a by ring] at h

private lemma sum_gap {φ : ℝ → ℝ} (hφ : ∀ a b, φ a ≤ φ b + |a - b|) {r eps : ℝ} (hr : 0 ≤ r) (he : 0 < eps) (x z : Fin (p + 1) → ℝ) :
    r * ∑ i, φ (x i) ≤ r * ∑ i, φ (z i) + sqDist x z / (2 * eps) + eps / 2 * r ^ 2 * (p + 1) := by
  have h1 : ∑ i, (r * φ (x i)) ≤ ∑ i : Fin (p + 1), (r * φ (z i) + (x i - z i) ^ 2 / (2 * eps) + eps / 2 * r ^ 2) := by
    refine Finset.sum_le_sum fun i _ => ?_
    have h2 := mul_le_mul_of_nonneg_left (hφ (x i) (z i)) hr
    have h3 := step_bound (r := r) (d := x i - z i) he
    linarith
  simp only [Finset.sum_add_distrib, ← Finset.mul_sum, ← Finset.sum_div, Finset.sum_const, Finset.card_univ, Fintype.card_fin,
    nsmul_eq_mul] at h1
  have e : ((p + 1 : ℕ) : ℝ) = p + 1 := by push_cast; ring
  rw [e] at h1
  show _ ≤ r * ∑ i, φ (z i) + (∑ i, (x i - z i) ^ 2) / (2 * eps) + _
  linarith

private lemma max_gap {φ : ℝ → ℝ} (hφ : ∀ a b, φ a ≤ φ b + |a - b|) {r eps : ℝ} (hr : 0 ≤ r) (he : 0 < eps) (x z : Fin (p + 1) → ℝ) :
    r * maxCoord (fun i => φ (x i)) ≤ r * maxCoord (fun i => φ (z i)) + sqDist x z / (2 * eps) + eps / 2 * r ^ 2 := by
  have hi : ∀ i, r * φ (x i) ≤ r * maxCoord (fun i => φ (z i)) + sqDist x z / (2 * eps) + eps / 2 * r ^ 2 := by
    intro i
    have h2 := mul_le_mul_of_nonneg_left (hφ (x i) (z i)) hr
    have h3 := step_bound (r := r) (d := x i - z i) he
    have h4 := coord_le x z he i
    have h5 := mul_le_mul_of_nonneg_left (le_maxCoord (fun i => φ (z i)) i) hr
    linarith
  by_cases h0 : r = 0
  · subst h0
    have := sqDist_nonneg x z
    have : 0 ≤ sqDist x z / (2 * eps) := by positivity
    simp only [zero_mul, zero_add]
    positivity
  · have hp : 0 < r := lt_of_le_of_ne hr (Ne.symm h0)
    have : maxCoord (fun i => φ (x i)) ≤ (r * maxCoord (fun i => φ (z i)) + sqDist x z / (2 * eps) + eps / 2 * r ^ 2) / r :=
      maxCoord_le fun i => by rw [le_div_iff₀ hp]; linarith [hi i]
    rw [le_div_iff₀ hp] at this
    linarith

private lemma norm_gap (c : Klass) (hc : IsFinite c) {r eps : ℝ} (hr : 0 ≤ r) (he : 0 < eps) (x z : Fin (p + 1) → ℝ) :
    r * normOf c x ≤ r * normOf c z + sqDist x z / (2 * eps) + eps / 2 * r ^ 2 * steepness c p := by
  cases c with
  | l1norm => exact sum_gap abs_le' hr he x z
  | positivePart => exact sum_gap part_le hr he x z
  | supnorm => simpa [normOf, steepness] using max_gap abs_le' hr he x z
  | maxPositivePart => simpa [normOf, steepness] using max_gap part_le hr he x z
  | constrainedMax => exact absurd rfl hc.1
  | constrainedPositivePart => exact absurd rfl hc.2
  | l2norm =>
    simp only [normOf, steepness, mul_one]
    have htri : Real.sqrt (∑ i, x i ^ 2) ≤ Real.sqrt (∑ i, z i ^ 2) + Real.sqrt (sqDist x z) := by
      have h := norm_add_le (WithLp.toLp 2 z : EuclideanSpace ℝ (Fin (p + 1))) (WithLp.toLp 2 fun i => x i - z i)
      rw [EuclideanSpace.norm_eq, EuclideanSpace.norm_eq, EuclideanSpace.norm_eq] at h
      simpa [sqDist, sq_abs] using h
    have h2 := mul_le_mul_of_nonneg_left htri hr
    have h3 := step_bound (r := r) (d := Real.sqrt (sqDist x z)) he
    rw [abs_of_nonneg (Real.sqrt_nonneg _), Real.sq_sqrt (sqDist_nonneg x z)] at h3
    linarith

private lemma finite_pen (c : Klass) (hc : IsFinite c) (r : ℝ) (x : Fin (p + 1) → ℝ) :
    penalty c r x = ((r * normOf c x : ℝ) : WithTop ℝ) := by
  cases c <;> first | rfl | exact absurd rfl hc.1 | exact absurd rfl hc.2

private lemma denote_plain (c : Klass) (hc : IsFinite c) (r : ℝ) (offset : Option (PyVec (Fin (p + 1)) ℝ)) (x : Fin (p + 1) → ℝ) :
    denoteAtom ⟨c, ⟨some r, none⟩, offset, Quad.init none none none none⟩ false r x =
      ((r * normOf c (fun i => x i - offAt offset i) : ℝ) : WithTop ℝ) := by
  have e : (dot (linearAt (Quad.init none none none none)) x + 0 : ℝ) = 0 := by simp [dot, linearAt, Quad.init]
  unfold denoteAtom atomFn
  simp only [Bool.false_eq_true, if_false]
  rw [finite_pen c hc]
  show _ + ((dot (linearAt (Quad.init none none none none)) x + 0 : ℝ) : WithTop ℝ) = _
  rw [e, WithTop.coe_zero, add_zero]

private lemma smoothing_of (c : Klass) (hc : IsFinite c) (r : ℝ) (hr : 0 ≤ r) (offset : Option (PyVec (Fin (p + 1)) ℝ))
    (ho : ∀ s, offset ≠ some (.scalar s)) (eps : ℝ) (he : 0 < eps) :
    ∃ s V G, AtomObj.smoothed ⟨c, ⟨some r, none⟩, offset, Quad.init none none none none⟩ (plainQuad eps) = .ok s ∧
      (∀ fstar, IsConjugate (denoteAtom ⟨c, ⟨some r, none⟩, offset, Quad.init none none none none⟩ false r) fstar →
        IsSmoothedBy fstar (smoothingFn (plainQuad eps)) V G) ∧
      ∀ quad : Quad (Fin (p + 1)) ℝ, 0 ≤ quad.coef → IsSmoothing ⟨s.smoothObjective, quad⟩ V G
        (fun x => r * normOf c fun i => x i - offAt offset i) (eps / 2 * r ^ 2 * steepness c p) (1 / eps) := by
  set a : AtomObj (Fin (p + 1)) ℝ := ⟨c, ⟨some r, none⟩, offset, Quad.init none none none none⟩ with hadef
  have hm : InMode a false r := ⟨hr, rfl⟩
  obtain ⟨s, V, G, h1, h2, h3, h4⟩ := C100_smoothed a false r hm rfl ho (plainQuad eps) he (plain_center eps)
    (Quad.init none none none none) le_rfl
  obtain ⟨a', -, -, -, hconj⟩ := C13_conjugate a false r hm rfl ho
  have hden : ∀ x, denoteAtom a false r x = _ := denote_plain c hc r offset
  refine ⟨s, V, G, h1, h3, fun quad hquad => ⟨⟨h2.evaluates, h2.convex, hquad⟩, h4, fun x => ?_, fun x => ?_⟩⟩
  · obtain ⟨z, pz, -, hpz, hmin⟩ := prox_point a false r hm rfl he x
    obtain ⟨hV, -⟩ := envelope (denoteAtom_convex a false hr) hconj he (plain_fn eps) (h3 _ hconj) hpz hmin
    have := hmin x _ (hden x)
    have h5 : sqDist x x = 0 := by simp [sqDist]
    rw [h5, zero_div, add_zero] at this
    rw [hV]; exact this
  · obtain ⟨z, pz, -, hpz, hmin⟩ := prox_point a false r hm rfl he x
    obtain ⟨hV, -⟩ := envelope (denoteAtom_convex a false hr) hconj he (plain_fn eps) (h3 _ hconj) hpz hmin
    rw [hden z, WithTop.coe_inj] at hpz
    have h6 := norm_gap c hc hr he (fun i => x i - offAt offset i) (fun i => z i - offAt offset i)
    have h7 : sqDist (fun i => x i - offAt offset i) (fun i => z i - offAt offset i) = sqDist x z :=
      Finset.sum_congr rfl fun i _ => by ring
    rw [h7] at h6
    rw [hV, ← hpz]
    linarith

/-- **C113** How close the smoothed penalty is: for the l1, sup and l2 norm, the positive part and its maximum, with multiplier `r` and
any array offset `α`, `atom.smoothed(identity_quadratic(eps, 0, 0, 0))` is a loss that stands for a convex function with a
`1/eps`-Lipschitz gradient between `r h(x - α) - gap` and `r h(x - α)`, where `gap = eps/2 r² K` and `K` is the number of coefficients for
the l1 norm and the positive part and 1 for the others. -/
theorem C113_smoothing (c : Klass) (hc : IsFinite c) (r : ℝ) (hr : 0 ≤ r) (offset : Option (PyVec (Fin (p + 1)) ℝ))
    (ho : ∀ s, offset ≠ some (.scalar s)) (eps : ℝ) (he : 0 < eps) (quad : Quad (Fin (p + 1)) ℝ) (hquad : 0 ≤ quad.coef) :
    ∃ s V G, AtomObj.smoothed ⟨c, ⟨some r, none⟩, offset, Quad.init none none none none⟩ (plainQuad eps) = .ok s ∧
      IsSmoothing ⟨s.smoothObjective, quad⟩ V G (fun x => r * normOf c fun i => x i - offAt offset i)
        (eps / 2 * r ^ 2 * steepness c p) (1 / eps) := by
  obtain ⟨s, V, G, h1, -, h2⟩ := smoothing_of c hc r hr offset ho eps he
  exact ⟨s, V, G, h1, h2 quad hquad⟩

private lemma smoothed_unique {fstar : (Fin m → ℝ) → WithTop ℝ} {q V V' : (Fin m → ℝ) → ℝ} {G G' : (Fin m → ℝ) → Fin m → ℝ}
    (h : IsSmoothedBy fstar q V G) (h' : IsSmoothedBy fstar q V' G') : V = V' ∧ G = G' := by
  have hG : ∀ x, G x = G' x := by
    intro x
    by_contra hne
    obtain ⟨⟨s, a1, a2⟩, a3⟩ := h x
    obtain ⟨⟨s', b1, b2⟩, b3⟩ := h' x
    have h1 := a3 (G' x) s' b1 (Ne.symm hne)
    have h2 := b3 (G x) s a1 hne
    linarith
  refine ⟨funext fun x => ?_, funext hG⟩
  obtain ⟨⟨s, a1, a2⟩, -⟩ := h x
  obtain ⟨⟨s', b1, b2⟩, -⟩ := h' x
  rw [hG x, b1, WithTop.coe_inj] at a1
  rw [a2, b2, hG x, a1]

/-- **C113** The same for a penalty of a linear image: for `cls.affine(D, α, lagrange=r)` (the fused LASSO term of the documentation is
`l1norm.linear(D, lagrange=r)`), `smoothed(identity_quadratic(eps, 0, 0, 0))` stands for a convex function between
`r h(D x + α) - gap` and `r h(D x + α)`, with the same gap (counting the rows of `D`), and its gradient is `K/eps`-Lipschitz if
`‖D x - D y‖² ≤ K ‖x - y‖²`.  Missing: transforms with an offset of their own, selectors that repeat a position. -/
theorem C113_linear_partial (c : Klass) (hc : IsFinite c) (r : ℝ) (hr : 0 ≤ r) (T l : Aff ℝ m (k + 1)) (hT : distinctSelectors T)
    (hlin : ∀ x, T.aff x = T.lin x) (hl : T.asOperator = some l) (hoff : l.off = .none) (α : Option (PyVec (Fin (k + 1)) ℝ))
    (hα : ∀ s, α ≠ some (.scalar s)) (eps : ℝ) (he : 0 < eps) (K : ℝ)
    (hK : ∀ x y, sqDist (T.lin x) (T.lin y) ≤ K * sqDist x y) (quad : Quad (Fin m) ℝ) (hquad : 0 ≤ quad.coef) :
    ∃ A res V G, AtomObj.affine c T α (some r) none none = some A ∧ A.smoothed (plainQuad eps) = some res ∧
      IsSmoothing ⟨smoothedObjective res, quad⟩ V G (fun x => r * normOf c fun i => T.lin x i + denote α i)
        (eps / 2 * r ^ 2 * steepness c k) (1 / eps * K) := by
  obtain ⟨A, res, V, G, h1, h2, h3, h4, h5⟩ := C67_smoothed_partial c false r hr T l hT hlin hl hoff α hα none (fun _ h => by cases h)
    (plainQuad eps) he (plain_center eps)
  -- the same function without the transform
  let o : Option (PyVec (Fin (k + 1)) ℝ) := some (.arr fun i => -denote α i)
  obtain ⟨s, V', G', -, g2, g3⟩ := smoothing_of c hc r hr o (fun s h => by injection h with h; cases h) eps he
  have hS := g3 (Quad.init none none none none) le_rfl
  obtain ⟨a', -, -, -, hconj⟩ := C13_conjugate (⟨c, ⟨some r, none⟩, o, Quad.init none none none none⟩ : AtomObj (Fin (k + 1)) ℝ) false r
    ⟨hr, rfl⟩ rfl (fun s h => by injection h with h; cases h)
  have hfun : (fun z => composedFn c false r (fun z => z) (denote α) (quadArg none) z) =
      denoteAtom ⟨c, ⟨some r, none⟩, o, Quad.init none none none none⟩ false r := by
    funext z
    rw [denote_plain c hc]
    have e : (fun i => z i - offAt o i) = fun i => z i + denote α i := by
      funext i; show z i - -denote α i = _; ring
    rw [e]
    unfold composedFn penaltyOrBound
    simp only [Bool.false_eq_true, if_false, quadArg]
    rw [finite_pen c hc, WithTop.coe_zero, add_zero]
  obtain ⟨eV, eG⟩ := smoothed_unique (h4 _ (by rw [hfun]; exact hconj)) (g2 _ hconj)
  obtain ⟨k1, k2⟩ := C100_affine_partial _ V' G' hS.loss T hT
  have k3 := k2 (1 / eps) K (by positivity) hS.smooth (fun x y => by rw [hlin, hlin]; exact hK x y)
  have e1 : (fun x => V' (T.aff x)) = fun x => V (T.lin x) := by funext x; rw [eV, hlin]
  have e2 : (fun x => T.adj (G' (T.aff x))) = fun x => T.adj (G (T.lin x)) := by funext x; rw [eG, hlin]
  rw [e1, e2] at k1 k3
  have hoffset : ∀ x, (fun i => T.lin x i - offAt o i) = fun i => T.lin x i + denote α i := fun x => by
    funext i; show T.lin x i - -denote α i = _; ring
  refine ⟨A, res, _, _, h1, h2, ⟨⟨h3, k1.convex, hquad⟩, k3, fun x => ?_, fun x => ?_⟩⟩
  · have := hS.below (T.lin x)
    rw [← eV, hoffset] at this
    exact this
  · have := hS.within (T.lin x)
    rw [← eV, hoffset] at this
    exact this

/-! ### the problem -/

/-- **C113** Sums: `smooth_sum` of smoothings (a plain loss is a smoothing of itself with gap 0), with nonnegative weights, is a smoothing
of the sum; gaps and Lipschitz constants add up with the weights. -/
theorem C113_sum (w : Fin k → ℝ) (hw : ∀ a, 0 ≤ w a) (S : Fin k → QuadLoss m) (V h : Fin k → (Fin m → ℝ) → ℝ)
    (G : Fin k → (Fin m → ℝ) → Fin m → ℝ) (gap L : Fin k → ℝ) (hS : ∀ a, IsSmoothing (S a) (V a) (G a) (h a) (gap a) (L a)) :
    IsSmoothing (QuadLoss.sum (List.ofFn w) (List.ofFn S)) (fun x => ∑ a, w a * V a x) (fun x i => ∑ a, w a * G a x i)
      (fun x => ∑ a, w a * h a x) (∑ a, w a * gap a) (∑ a, w a * L a) := by
  obtain ⟨h1, h2⟩ := C100_sum w hw S V G fun a => (hS a).loss
  refine ⟨h1, h2 L fun a => (hS a).smooth, fun x => ?_, fun x => ?_⟩
  · exact Finset.sum_le_sum fun a _ => mul_le_mul_of_nonneg_left ((hS a).below x) (hw a)
  · rw [← Finset.sum_add_distrib]
    refine Finset.sum_le_sum fun a _ => ?_
    rw [← mul_add]
    exact mul_le_mul_of_nonneg_left ((hS a).within x) (hw a)

/-- **C113** A loss is a smoothing of itself with gap 0. -/
theorem C113_loss (S : QuadLoss m) (f : (Fin m → ℝ) → ℝ) (g : (Fin m → ℝ) → Fin m → ℝ) (L : ℝ) (hS : IsLossFor S f g)
    (hL : SmoothWith f g L) : IsSmoothing S f g f 0 L :=
  ⟨hS, hL, fun x => le_rfl, fun x => (add_zero _).ge⟩

private lemma pen_le {f h : (Fin m → ℝ) → ℝ} {d : ℝ} (hfh : ∀ x, f x ≤ h x + d) (quad : Quad (Fin m) ℝ) (pen : (Fin m → ℝ) → WithTop ℝ)
    (x : Fin m → ℝ) : penalised f quad pen x ≤ penalised h quad pen x + ((d : ℝ) : WithTop ℝ) := by
  unfold penalised
  rw [add_assoc, ← WithTop.coe_add]
  refine add_le_add_right ?_ _
  rw [WithTop.coe_le_coe]
  linarith [hfh x]

/-- **C113** Solutions: coefficients `u` that minimise the smoothed objective plus the remaining penalty (any atom, none included) miss the
smallest value of the exact objective by at most the gap. -/
theorem C113_solution (S : QuadLoss m) (V h : (Fin m → ℝ) → ℝ) (G : (Fin m → ℝ) → Fin m → ℝ) (gap L : ℝ)
    (hS : IsSmoothing S V G h gap L) (pen : (Fin m → ℝ) → WithTop ℝ) (u : Fin m → ℝ) (hu : IsMinTop (penalised V S.quad pen) u)
    (w : Fin m → ℝ) : penalised h S.quad pen u ≤ penalised h S.quad pen w + ((gap : ℝ) : WithTop ℝ) := by
  have h1 := pen_le hS.within S.quad pen u
  have h2 := pen_le (d := 0) (fun x => (hS.below x).trans (add_zero _).ge) S.quad pen w
  rw [WithTop.coe_zero, add_zero] at h2
  exact h1.trans (add_le_add_left ((hu.2 w).trans h2) _)

/-- **C113** What `solve` returns: for a smoothed loss, any atom, no restarts and at most 99 iterations, the coefficients `c` returned after
`k` recorded values satisfy `exact(c) ≤ exact(w) + gap + 2 ‖x0 - u‖²/(t (k+1)²)` for every `w`, where `exact` is the objective with the
unsmoothed penalties, `u` is any solution of the smoothed problem and `t = min(start_step, 1/(2 L alpha))`. -/
theorem C113_rate (S : QuadLoss m) (V h : (Fin m → ℝ) → ℝ) (G : (Fin m → ℝ) → Fin m → ℝ) (gap L : ℝ)
    (hS : IsSmoothing S V G h gap L) (hL : 0 < L) (A : NonsmoothAtom m) (pen : (Fin m → ℝ) → WithTop ℝ) (hA : IsAtomFor A pen)
    (x0 : Fin m → ℝ) (a : FitArgs) (hb : a.performBacktrack = true) (ha : 1 ≤ a.alpha) (hst : 0 < a.startStep)
    (hm : a.monotonicityRestart = false) (hr : a.restart = none) (hmax : ∃ m, a.maxIts = some m ∧ m ≠ 0 ∧ m ≤ 99)
    (lip : ℝ) (fuel : ℕ) (c : Fin m → ℝ) (v : ObjVal) (hist : List ObjVal)
    (hsolve : ((SimpleProblem.ofLoss S A x0).solve none a lip fuel).1 = .ok c v hist)
    (u : Fin m → ℝ) (hu : IsMinTop (penalised V S.quad pen) u) (w : Fin m → ℝ) :
    penalised h S.quad pen c ≤ penalised h S.quad pen w +
      ((gap + 2 * sqDist x0 u / (min a.startStep (1 / (2 * L * a.alpha)) * (hist.length + 1) ^ 2) : ℝ) : WithTop ℝ) := by
  obtain ⟨vc, vu, -, h2, h3, -, h5⟩ := C100_rate S V G A pen hS.loss hA L hL hS.smooth x0 a hb ha hst hm hr hmax lip fuel c v hist
    hsolve u hu
  have h6 := pen_le hS.within S.quad pen c
  have h7 := pen_le (d := 0) (fun x => (hS.below x).trans (add_zero _).ge) S.quad pen w
  rw [WithTop.coe_zero, add_zero] at h7
  have h8 := (hu.2 w).trans h7
  rw [h2, ← WithTop.coe_add] at h6
  rw [h3] at h8
  set rate := 2 * sqDist x0 u / (min a.startStep (1 / (2 * L * a.alpha)) * (hist.length + 1) ^ 2) with hrate
  refine h6.trans (le_trans ?_ (add_le_add_left h8 _))
  rw [← WithTop.coe_add, WithTop.coe_le_coe]
  linarith

/-! ### the hypotheses are met -/

/-- `l1norm(2, lagrange=2, offset=[1, 3])` with a linear term -/
example : ∃ a : AtomObj (Fin 2) ℝ, InMode (n := 1) a false 2 ∧ a.quad.coef = 0 ∧ ArrayOffset (n := 1) a :=
  ⟨⟨.l1norm, ⟨some 2, none⟩, some (.arr ![1, 3]), ⟨0, some (.scalar 0), some (.arr ![4, -1]), 7⟩⟩, ⟨by norm_num, rfl⟩, rfl,
    fun c h => by simp at h⟩

/-- `l2norm(2, bound=1)` -/
example : ∃ a : AtomObj (Fin 2) ℝ, InMode (n := 1) a true 1 ∧ a.quad = Quad.init none none none none ∧ ArrayOffset (n := 1) a :=
  ⟨⟨.l2norm, ⟨none, some 1⟩, none, Quad.init none none none none⟩, ⟨by norm_num, rfl⟩, rfl, fun c h => by cases h⟩

/-- the sparse fused LASSO of the documentation with two coefficients, both penalties smoothed:
`1/2 ‖X β - Y‖² + l1 ‖β‖₁ + l2 |β₀ - β₁|`.  The gap of the sum is `eps/2 (2 l1² + l2²)`, and `solve` returns. -/
example (X : Fin 3 → Fin 2 → ℝ) (Y : Fin 3 → ℝ) (x0 : Fin 2 → ℝ) (l1 l2 eps : ℝ) (h1 : 0 ≤ l1) (h2 : 0 ≤ l2) (he : 0 < eps) :
    ∃ (S : Fin 3 → QuadLoss 2) (V : (Fin 2 → ℝ) → ℝ) (G : (Fin 2 → ℝ) → Fin 2 → ℝ) (L : ℝ) (A : NonsmoothAtom 2)
      (pen : (Fin 2 → ℝ) → WithTop ℝ), 0 < L ∧ IsAtomFor A pen ∧
      IsSmoothing (QuadLoss.sum (List.ofFn fun _ : Fin 3 => 1) (List.ofFn S)) V G
        (fun β => 1 / 2 * ∑ i, (∑ j, X i j * β j - Y i) ^ 2 + l1 * ∑ i, |β i| + l2 * |β 0 - β 1|) (eps / 2 * (2 * l1 ^ 2 + l2 ^ 2)) L ∧
      ∃ N, ∀ fuel, N < fuel → ∃ c v hist,
        ((SimpleProblem.ofLoss (QuadLoss.sum (List.ofFn fun _ : Fin 3 => 1) (List.ofFn S)) A x0).solve none {} 0 fuel).1 = .ok c v hist := by
  obtain ⟨c, hc⟩ : ∃ c, QuadObj.affine (.matrix X) (fun i => -Y i) 1 none [] .none = some c := by
    unfold QuadObj.affine QuadObj.init
    simp [acceptableInitArgs, show ¬ ((1 : ℝ) < 0) by norm_num]
  obtain ⟨q1, q2⟩ := C100_squared_error X Y 1 c hc
  have hK : ∀ d : Fin 2 → ℝ, ∑ i, (∑ j, X i j * d j) ^ 2 ≤ (∑ i, ∑ j, X i j ^ 2) * ∑ j, d j ^ 2 := by
    intro d
    rw [Finset.sum_mul]
    exact Finset.sum_le_sum fun i _ => Finset.sum_mul_sq_le_sq_mul_sq _ _ _
  have p0 := C113_loss _ _ _ _ q1 (q2 _ hK)
  obtain ⟨s, V1, G1, -, p1⟩ := C113_smoothing (p := 1) .l1norm ⟨by simp, by simp⟩ l1 h1 none (fun s h => by cases h) eps he
    (Quad.init none none none none) le_rfl
  obtain ⟨A2, res, V2, G2, -, -, p2⟩ := C113_linear_partial (m := 2) (k := 0) .l1norm ⟨by simp, by simp⟩ l2 h2
    (.matrix ![![1, -1]] none) (.matrix ![![1, -1]] none) trivial (fun _ => rfl) rfl rfl none (fun s h => by cases h) eps he 2
    (fun x y => by
      have e : ∀ x : Fin 2 → ℝ, (Aff.matrix ![![1, -1]] none : Aff ℝ 2 1).lin x 0 = x 0 - x 1 := fun x => by
        show ∑ j, (![![1, -1]] : Fin 1 → Fin 2 → ℝ) 0 j * x j = _
        simp [Fin.sum_univ_two]; ring
      have e2 : sqDist ((Aff.matrix ![![1, -1]] none : Aff ℝ 2 1).lin x) ((Aff.matrix ![![1, -1]] none : Aff ℝ 2 1).lin y) =
          ((x 0 - x 1) - (y 0 - y 1)) ^ 2 := by
        show ∑ i : Fin 1, _ = _
        rw [Fin.sum_univ_succ, e, e]
        simp
      have e3 : sqDist x y = (x 0 - y 0) ^ 2 + (x 1 - y 1) ^ 2 := by simp [sqDist, Fin.sum_univ_two]
      refine le_of_eq_of_le e2 ?_
      rw [e3]
      nlinarith [sq_nonneg (x 0 - y 0 + (x 1 - y 1))])
    (Quad.init none none none none) le_rfl
  let S : Fin 3 → QuadLoss 2 := ![c.toLoss, ⟨s.smoothObjective, Quad.init none none none none⟩,
    ⟨smoothedObjective res, Quad.init none none none none⟩]
  have hsum := C113_sum (fun _ : Fin 3 => (1:ℝ)) (fun _ => zero_le_one) S
    ![fun β => 1 / 2 * ∑ i, (∑ j, X i j * β j - Y i) ^ 2, V1, V2]
    ![fun β => 1 / 2 * ∑ i, (∑ j, X i j * β j - Y i) ^ 2, fun x => l1 * normOf .l1norm fun i => x i - offAt none i,
      fun x => l2 * normOf .l1norm fun i => (Aff.matrix ![![1, -1]] none : Aff ℝ 2 1).lin x i + denote none i]
    ![fun β j => ∑ i, X i j * (1 * (∑ l, X i l * β l - Y i)), G1, G2]
    ![0, eps / 2 * l1 ^ 2 * steepness .l1norm 1, eps / 2 * l2 ^ 2 * steepness .l1norm 0]
    ![1 * ∑ i, ∑ j, X i j ^ 2, 1 / eps, 1 / eps * 2] (fun a => by fin_cases a; exacts [p0, p1, p2])
  have hgap : ∑ a : Fin 3, (1:ℝ) * (![0, eps / 2 * l1 ^ 2 * steepness .l1norm 1, eps / 2 * l2 ^ 2 * steepness .l1norm 0] : Fin 3 → ℝ) a =
      eps / 2 * (2 * l1 ^ 2 + l2 ^ 2) := by
    simp [Fin.sum_univ_three, steepness]; ring
  have hlin : ∀ x : Fin 2 → ℝ, (Aff.matrix ![![1, -1]] none : Aff ℝ 2 1).lin x 0 = x 0 - x 1 := fun x => by
    show ∑ j, (![![1, -1]] : Fin 1 → Fin 2 → ℝ) 0 j * x j = _
    simp [Fin.sum_univ_two]; ring
  rw [hgap] at hsum
  have hL : 0 < ∑ a : Fin 3, (1:ℝ) * (![1 * ∑ i, ∑ j, X i j ^ 2, 1 / eps, 1 / eps * 2] : Fin 3 → ℝ) a := by
    simp only [Fin.sum_univ_three, Matrix.cons_val_zero, Matrix.cons_val_one, Matrix.cons_val, one_mul]
    have : 0 ≤ ∑ i, ∑ j, X i j ^ 2 := Finset.sum_nonneg fun i _ => Finset.sum_nonneg fun j _ => sq_nonneg _
    positivity
  have hA := C90_seminorms (p := 1) ⟨.l1norm, ⟨some 0, none⟩, none, Quad.init none none none none⟩ false 0 ⟨le_rfl, rfl⟩ le_rfl
  obtain ⟨N, hN⟩ := C100_returns _ _ _ _ _ hsum.loss hA _ hsum.smooth x0 {} rfl (by show (1:ℝ) < 11 / 10; norm_num)
    (by show (0:ℝ) < 1; norm_num) 0
  refine ⟨S, _, _, _, _, _, hL, hA, ⟨hsum.loss, hsum.smooth, fun x => ?_, fun x => ?_⟩, N, fun fuel hfu => by
    obtain ⟨c, v, hist, h, _⟩ := hN fuel hfu; exact ⟨c, _, hist, h⟩⟩
  · have := hsum.below x
    simpa [Fin.sum_univ_three, normOf, offAt, denote, hlin] using this
  · have := hsum.within x
    simpa [Fin.sum_univ_three, normOf, offAt, denote, hlin] using this

end Verif.Props
