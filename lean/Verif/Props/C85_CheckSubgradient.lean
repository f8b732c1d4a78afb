import Verif.Model.CheckSubgradient
import Verif.Props.C48_Smoothed
import Verif.Props.C16_Cones

/-!
# C85: `check_subgradient` verifies proximal maps

`penalty k 1 u` is the documented seminorm of the class `k` (`+∞` outside the domain of the constrained classes),
`ballOf k r` the documented constraint set and `atomBase k b r` the penalty or the indicator of the constraint set.
-/

set_option linter.unusedSectionVars false
set_option linter.unusedVariables false

namespace Verif.Props
open Verif.Model Verif.Lemmas Verif.Spec

variable {n : ℕ}

private lemma conj_conj (k : Klass) : k.conj.conj = k := by cases k <;> rfl

private lemma penalty_scale (k : Klass) (r : ℝ) (x : Fin (n + 1) → ℝ) (v : ℝ) (h : penalty k 1 x = v) :
    penalty k r x = ((r * v : ℝ) : WithTop ℝ) := by
  cases k with
  | constrainedMax =>
    simp only [penalty] at h ⊢
    by_cases hx : ∀ i, 0 ≤ x i
    · rw [if_pos hx] at h ⊢; rw [WithTop.coe_inj] at h ⊢; rw [← h, one_mul]
    · rw [if_neg hx] at h; exact absurd h.symm WithTop.coe_ne_top
  | constrainedPositivePart =>
    simp only [penalty] at h ⊢
    by_cases hx : ∀ i, 0 ≤ x i
    · rw [if_pos hx] at h ⊢; rw [WithTop.coe_inj] at h ⊢; rw [← h, one_mul]
    · rw [if_neg hx] at h; exact absurd h.symm WithTop.coe_ne_top
  | l1norm => simp only [penalty] at h ⊢; rw [WithTop.coe_inj] at h ⊢; rw [← h, one_mul]
  | supnorm => simp only [penalty] at h ⊢; rw [WithTop.coe_inj] at h ⊢; rw [← h, one_mul]
  | l2norm => simp only [penalty] at h ⊢; rw [WithTop.coe_inj] at h ⊢; rw [← h, one_mul]
  | positivePart => simp only [penalty] at h ⊢; rw [WithTop.coe_inj] at h ⊢; rw [← h, one_mul]
  | maxPositivePart => simp only [penalty] at h ⊢; rw [WithTop.coe_inj] at h ⊢; rw [← h, one_mul]

private lemma penalty_finite (k : Klass) (r s : ℝ) (x : Fin (n + 1) → ℝ) (h : penalty k r x ≠ ⊤) :
    penalty k s x ≠ ⊤ := by
  cases k with
  | constrainedMax =>
    simp only [penalty] at h ⊢
    by_cases hx : ∀ i, 0 ≤ x i
    · rw [if_pos hx]; exact WithTop.coe_ne_top
    · rw [if_neg hx] at h; exact absurd rfl h
  | constrainedPositivePart =>
    simp only [penalty] at h ⊢
    by_cases hx : ∀ i, 0 ≤ x i
    · rw [if_pos hx]; exact WithTop.coe_ne_top
    · rw [if_neg hx] at h; exact absurd rfl h
  | l1norm => exact WithTop.coe_ne_top
  | supnorm => exact WithTop.coe_ne_top
  | l2norm => exact WithTop.coe_ne_top
  | positivePart => exact WithTop.coe_ne_top
  | maxPositivePart => exact WithTop.coe_ne_top

private lemma penalty_nonneg (k : Klass) {r : ℝ} (hr : 0 ≤ r) (x : Fin (n + 1) → ℝ) (v : ℝ) (h : penalty k r x = v) :
    0 ≤ v := by
  have hz : (fun _ => 0 : Fin (n + 1) → ℝ) ∈ ballOf k.conj r := by
    cases k <;> simp [ballOf, Klass.conj, hr]
  have := ((penalty_support k hr x).1 v h).2 ⟨_, hz, rfl⟩
  simpa [dot] using this

/-- a point whose seminorm is `v` is in the ball of radius `v` -/
private lemma mem_ball (k : Klass) (x : Fin (n + 1) → ℝ) (v : ℝ) (h : penalty k 1 x = v) : x ∈ ballOf k v := by
  cases k with
  | constrainedMax =>
    simp only [penalty] at h
    by_cases hx : ∀ i, 0 ≤ x i
    · rw [if_pos hx, WithTop.coe_inj, one_mul] at h
      exact fun i => ⟨hx i, h ▸ le_maxCoord x i⟩
    · rw [if_neg hx] at h; exact absurd h.symm WithTop.coe_ne_top
  | constrainedPositivePart =>
    simp only [penalty] at h
    by_cases hx : ∀ i, 0 ≤ x i
    · rw [if_pos hx, WithTop.coe_inj, one_mul] at h
      exact ⟨hx, h.le⟩
    · rw [if_neg hx] at h; exact absurd h.symm WithTop.coe_ne_top
  | l1norm => simp only [penalty] at h; rw [WithTop.coe_inj, one_mul] at h; exact h.le
  | supnorm =>
    simp only [penalty] at h; rw [WithTop.coe_inj, one_mul] at h
    exact fun i => h ▸ le_maxCoord (fun i => |x i|) i
  | l2norm => simp only [penalty] at h; rw [WithTop.coe_inj, one_mul] at h; exact h.le
  | positivePart => simp only [penalty] at h; rw [WithTop.coe_inj, one_mul] at h; exact h.le
  | maxPositivePart =>
    simp only [penalty] at h; rw [WithTop.coe_inj, one_mul] at h
    exact fun i => h ▸ le_maxCoord (fun i => max (x i) 0) i

/-- points of the ball pass the exact norm test -/
private lemma ball_seminorm (k : Klass) (x : Fin (n + 1) → ℝ) (r : ℝ) (h : x ∈ ballOf k r) :
    k.seminorm x 1 false ≤ ((r : ℝ) : WithTop ℝ) := by
  cases k with
  | constrainedMax =>
    simp only [Klass.seminorm, ConMax.seminorm]
    rw [if_pos (Or.inr trivial), one_mul, WithTop.coe_le_coe]
    exact maxCoord_le fun i => (h i).2
  | constrainedPositivePart =>
    simp only [Klass.seminorm, ConPosPart.seminorm]
    rw [if_pos (Or.inr trivial), mul_one, WithTop.coe_le_coe, Finset.sum_congr rfl fun i _ => max_eq_left (h.1 i)]
    exact h.2
  | l1norm =>
    simp only [Klass.seminorm, L1.seminorm]; rw [WithTop.coe_le_coe, one_mul]; exact h
  | supnorm =>
    simp only [Klass.seminorm, Sup.seminorm]; rw [WithTop.coe_le_coe, one_mul]
    exact maxCoord_le h
  | l2norm =>
    simp only [Klass.seminorm, L2.seminorm]; rw [WithTop.coe_le_coe, one_mul]; exact h
  | positivePart =>
    simp only [Klass.seminorm, PosPart.seminorm]; rw [WithTop.coe_le_coe, one_mul]; exact h
  | maxPositivePart =>
    simp only [Klass.seminorm, MaxPosPart.seminorm]; rw [WithTop.coe_le_coe, mul_one]
    exact maxCoord_le h

/-- Hölder's inequality for each pair of classes -/
private lemma holder (k : Klass) (u w : Fin (n + 1) → ℝ) (c d : ℝ) (hu : penalty k 1 u = c)
    (hw : penalty k.conj 1 w = d) : dot u w ≤ d * c := by
  have hd : 0 ≤ d := penalty_nonneg k.conj zero_le_one w d hw
  exact ((penalty_support k hd u).1 _ (penalty_scale k d u c hu)).2 ⟨w, mem_ball k.conj w d hw, rfl⟩

private lemma mem_ball_iff (k : Klass) {r : ℝ} (hr : 0 ≤ r) (y : Fin (n + 1) → ℝ) :
    y ∈ ballOf k r ↔ ∀ x v, penalty k.conj r x = ((v : ℝ) : WithTop ℝ) → dot x y ≤ v := by
  constructor
  · intro hy x v hx
    have hs := penalty_support (n := n) k.conj hr
    rw [conj_conj] at hs
    exact ((hs x).1 v hx).2 ⟨y, hy, rfl⟩
  · intro h
    by_contra hy
    have := penalty_sep (n := n) k.conj hr y (by rw [conj_conj]; exact hy)
    obtain ⟨x, v, hx, hlt⟩ := this
    exact absurd (h x v hx) (not_le.2 hlt)

private lemma dot_add_smul (a b c : Fin n → ℝ) (s : ℝ) : dot (fun i => a i + s * b i) c = dot a c + s * dot b c := by
  unfold dot; rw [Finset.mul_sum, ← Finset.sum_add_distrib]; exact Finset.sum_congr rfl fun i _ => by ring

private lemma dot_cm (a b : Fin n → ℝ) : dot a b = dot b a := by
  unfold dot; exact Finset.sum_congr rfl fun i _ => by ring

private lemma sqDist_move (U v z : Fin n → ℝ) (s : ℝ) : sqDist (fun i => U i + s * v i) z =
    sqDist U z - 2 * s * dot v (fun i => z i - U i) + s ^ 2 * dot v v := by
  unfold sqDist dot
  rw [Finset.mul_sum, Finset.mul_sum, ← Finset.sum_sub_distrib, ← Finset.sum_add_distrib]
  exact Finset.sum_congr rfl fun i _ => by ring

/-- `0 ≤ s² A + s B` for all small positive `s` forces `0 ≤ B` -/
private lemma first_order (A B : ℝ) (h : ∀ s : ℝ, 0 < s → s ≤ 1 → 0 ≤ s ^ 2 * A + s * B) : 0 ≤ B := by
  by_contra hB
  have hB : B < 0 := not_le.1 hB
  have hA : 0 < |A| + 1 := by positivity
  have hs0 : 0 < min 1 (-B / (2 * (|A| + 1))) := lt_min one_pos (div_pos (by linarith) (by linarith))
  have h1 := h _ hs0 (min_le_left _ _)
  set s := min 1 (-B / (2 * (|A| + 1))) with hs
  have h2 : s * (2 * (|A| + 1)) ≤ -B := by
    have := min_le_right 1 (-B / (2 * (|A| + 1)))
    rw [← hs, le_div_iff₀ (by linarith)] at this; exact this
  have h3 : 0 ≤ s * A + B := by
    have : s * (s * A + B) = s ^ 2 * A + s * B := by ring
    rw [← this] at h1
    exact nonneg_of_mul_nonneg_right h1 hs0 |> fun h => h
  have h4 : s * A ≤ s * (|A| + 1) := mul_le_mul_of_nonneg_left (by linarith [le_abs_self A]) hs0.le
  nlinarith

/-- the penalty is finite and sublinear along rays -/
private lemma penalty_sub (k : Klass) {r : ℝ} (hr : 0 ≤ r) (x y : Fin (n + 1) → ℝ) (a b s : ℝ) (hs : 0 ≤ s)
    (hx : penalty k r x = a) (hy : penalty k r y = b) :
    ∃ c : ℝ, penalty k r (fun i => x i + s * y i) = c ∧ c ≤ a + s * b := by
  have hbd : ∀ w ∈ ballOf k.conj r, dot (fun i => x i + s * y i) w ≤ a + s * b := by
    intro w hw
    rw [dot_add_smul]
    have h1 := ((penalty_support k hr x).1 a hx).2 ⟨w, hw, rfl⟩
    have h2 := ((penalty_support k hr y).1 b hy).2 ⟨w, hw, rfl⟩
    simp only at h1 h2
    nlinarith
  cases hc : penalty k r (fun i => x i + s * y i) with
  | top =>
    refine absurd ⟨a + s * b, ?_⟩ ((penalty_support k hr _).2 hc)
    rintro _ ⟨w, hw, rfl⟩
    exact hbd w hw
  | coe c =>
    refine ⟨c, rfl, ?_⟩
    obtain ⟨w, hw, e⟩ := ((penalty_support k hr _).1 c hc).1
    simp only at e
    rw [← e]; exact hbd w hw

/-- optimality of the penalised problem: the residual is in the dual ball and the inner product is the penalty -/
private lemma lagrange_kkt (k : Klass) {r : ℝ} (hr : 0 ≤ r) (z U : Fin (n + 1) → ℝ)
    (h : IsProxOn 1 (fun u => (penalty k r u).untopD 0) {u | penalty k r u ≠ ⊤} z U) :
    (fun i => z i - U i) ∈ ballOf k.conj r ∧
      penalty k r U = ((dot U (fun i => z i - U i) : ℝ) : WithTop ℝ) := by
  obtain ⟨a, ha⟩ := WithTop.ne_top_iff_exists.1 h.1
  have ha' := ha.symm
  have hle : ∀ u (c : ℝ), penalty k r u = c → 1 / 2 * sqDist U z + a ≤ 1 / 2 * sqDist u z + c := by
    intro u c hc
    by_cases hne : u = U
    · subst hne
      rw [ha', WithTop.coe_inj] at hc; rw [hc]
    · have := (h.2 u (by simp only [Set.mem_ofPred_eq]; rw [hc]; exact WithTop.coe_ne_top) hne).le
      simp only [hc, ha', WithTop.untopD_coe] at this
      exact this
  constructor
  · rw [mem_ball_iff k.conj hr, conj_conj]
    intro v c hv
    have := first_order (1 / 2 * dot v v) (c - dot v (fun i => z i - U i)) (fun s hs hs1 => by
      obtain ⟨e, he1, he2⟩ := penalty_sub k hr U v a c s hs.le ha' hv
      have := hle _ e he1
      rw [sqDist_move] at this
      nlinarith)
    linarith
  · have key : ∀ t : ℝ, 0 ≤ t → 1 / 2 * sqDist U z + a ≤ 1 / 2 * sqDist (fun i => t * U i) z + t * a := fun t ht =>
      hle _ _ (penalty_hom k r t ht U a ha')
    have hmv : ∀ s : ℝ, (fun i => (1 + s) * U i) = fun i => U i + s * U i := fun s => by funext i; ring
    have h1 := first_order (1 / 2 * dot U U) (a - dot U (fun i => z i - U i)) (fun s hs hs1 => by
      have := key (1 + s) (by linarith)
      rw [hmv, sqDist_move] at this
      nlinarith)
    have h2 := first_order (1 / 2 * dot U U) (-(a - dot U (fun i => z i - U i))) (fun s hs hs1 => by
      have := key (1 + -s) (by linarith)
      rw [hmv, sqDist_move] at this
      nlinarith)
    rw [ha', WithTop.coe_inj]; linarith

/-- optimality of the constrained problem: the inner product is the dual penalty of the residual -/
private lemma bound_kkt (k : Klass) {r : ℝ} (hr : 0 ≤ r) (z U : Fin (n + 1) → ℝ) (h : IsProj (ballOf k r) z U) :
    penalty k.conj r (fun i => z i - U i) = ((dot (fun i => z i - U i) U : ℝ) : WithTop ℝ) := by
  have hvi : ∀ u ∈ ballOf k r, dot (fun i => z i - U i) u ≤ dot (fun i => z i - U i) U := by
    intro u hu
    have := first_order (1 / 2 * dot (fun i => u i - U i) (fun i => u i - U i))
      (- dot (fun i => u i - U i) (fun i => z i - U i)) (fun s hs hs1 => by
      have hm : (fun i => U i + s * (u i - U i)) ∈ ballOf k r := by
        rw [mem_ball_iff k hr]
        intro x v hx
        have h1 := (mem_ball_iff k hr U).1 h.1 x v hx
        have h2 := (mem_ball_iff k hr u).1 hu x v hx
        have e : dot x (fun i => U i + s * (u i - U i)) = (1 - s) * dot x U + s * dot x u := by
          unfold dot; rw [Finset.mul_sum, Finset.mul_sum, ← Finset.sum_add_distrib]
          exact Finset.sum_congr rfl fun i _ => by ring
        rw [e]; nlinarith
      have hle : sqDist U z ≤ sqDist (fun i => U i + s * (u i - U i)) z := by
        by_cases hne : (fun i => U i + s * (u i - U i)) = U
        · rw [hne]
        · exact (h.2 _ hm hne).le
      rw [sqDist_move] at hle
      nlinarith)
    have e : dot (fun i => u i - U i) (fun i => z i - U i) =
        dot (fun i => z i - U i) u - dot (fun i => z i - U i) U := by
      unfold dot; rw [← Finset.sum_sub_distrib]; exact Finset.sum_congr rfl fun i _ => by ring
    linarith
  have hs := penalty_support (n := n) k.conj hr
  rw [conj_conj] at hs
  cases hc : penalty k.conj r (fun i => z i - U i) with
  | top =>
    refine absurd ⟨dot (fun i => z i - U i) U, ?_⟩ ((hs _).2 hc)
    rintro _ ⟨u, hu, rfl⟩; exact hvi u hu
  | coe c =>
    obtain ⟨⟨w, hw, e⟩, hub⟩ := (hs _).1 c hc
    rw [WithTop.coe_inj]
    apply le_antisymm
    · rw [← e]; exact hvi w hw
    · exact hub ⟨U, h.1, rfl⟩

/-- the query of `check_subgradient` calls the base map at the center with Lipschitz constant 1 -/
private lemma check_proximal (lag : (Fin (n + 1) → ℝ) → ℝ → ℝ → Option (Fin (n + 1) → ℝ))
    (bd : (Fin (n + 1) → ℝ) → ℝ → Option (Fin (n + 1) → ℝ)) (par : AtomParam ℝ) (z U : Fin (n + 1) → ℝ)
    (h : (match par with
      | .bound b => bd z b
      | .lagrange l => lag z 1 l) = some U) :
    seminormProximal lag bd par none (Quad.init (some 0) (some (.scalar 0)) (some (.scalar 0)) (some 0))
      (some (Quad.init (some 1) (some (.arr z)) (some (.scalar 0)) (some 0))) = .ok U := by
  unfold seminormProximal
  simp only [Quad.recenter, Quad.add, Quad.init, Quad.collapsed, Quad.collapsedLinear, PyVec.map₂, PyVec.map, PyVec.get,
    Option.getD]
  have h1 : ¬ ((0 : ℝ) + 1 = 0) := by norm_num
  rw [if_neg h1]
  have hz : (fun i => -(0 - (0 + 1) * 0 + (0 - 0 * 0 + 0 + (0 - 1 * z i + 0))) / (0 + 1) : Fin (n + 1) → ℝ) = z := by
    funext i; ring
  have h01 : (0 : ℝ) + 1 = 1 := by norm_num
  cases par with
  | bound b => simp only at h ⊢; rw [hz, h]
  | lagrange l => simp only at h ⊢; rw [hz, h01, h]

private lemma slack {r : ℝ} (hr : 0 ≤ r) : ((r : ℝ) : WithTop ℝ) ≤ (((1 + 1 / 10 ^ 5) * r : ℝ) : WithTop ℝ) := by
  rw [WithTop.coe_le_coe]; nlinarith

private lemma copy_inMode (a : AtomObj (Fin (n + 1)) ℝ) (b : Bool) (r : ℝ) (hm : InMode a b r) :
    a.st.copy = .ok a.st := by
  obtain ⟨hr, hst⟩ := hm
  rw [hst]
  cases b <;> simp [AtomState.copy, AtomState.init, not_lt.2 hr]

/-- what `check_subgradient` computes, in both modes -/
private lemma check_eq (a : AtomObj (Fin (n + 1)) ℝ) (b : Bool) (r : ℝ) (hm : InMode a b r) (z : Fin (n + 1) → ℝ) :
    ∃ U, IsUniqueMinOn (fun u => 1 / 2 * sqDist u z + (atomBase a.klass b r u).untopD 0)
        {u | atomBase a.klass b r u ≠ ⊤} U ∧
      a.checkSubgradient z = checkValues (fun x => a.klass.seminorm x 1 false)
        (fun x => a.klass.conj.seminorm x 1 false) b r z U ∧
      (if b then U ∈ ballOf a.klass r ∧
          penalty a.klass.conj r (fun i => z i - U i) = ((dot (fun i => z i - U i) U : ℝ) : WithTop ℝ)
        else (fun i => z i - U i) ∈ ballOf a.klass.conj r ∧
          penalty a.klass r U = ((dot (fun i => z i - U i) U : ℝ) : WithTop ℝ)) := by
  have hcopy := copy_inMode a b r hm
  obtain ⟨hr, hst⟩ := hm
  cases b with
  | false =>
    have hst' : a.st = ⟨some r, none⟩ := hst
    obtain ⟨U, hU, hmin⟩ := class_lagrange a.klass hr one_pos z
    have hk := lagrange_kkt a.klass hr z U hmin
    refine ⟨U, hmin, ?_, ?_⟩
    · have hp := check_proximal a.klass.lagrangeProx a.klass.boundProx (.lagrange r) z U hU
      unfold AtomObj.checkSubgradient
      rw [hcopy]
      simp only [hst', AtomObj.proximal, hp, AtomObj.getConjugate, AtomState.init]
      simp only [Quad.init, Option.getD, if_true, if_neg (not_lt.2 hr)]
    · rw [if_neg (by simp)]
      refine ⟨hk.1, ?_⟩
      rw [dot_cm]; exact hk.2
  | true =>
    have hst' : a.st = ⟨none, some r⟩ := hst
    obtain ⟨U, hU, hmin⟩ := class_bound a.klass hr z
    have hk := bound_kkt a.klass hr z U hmin
    have hb : ∀ u : Fin (n + 1) → ℝ, atomBase a.klass true r u ≠ ⊤ ↔ u ∈ ballOf a.klass r := by
      intro u; unfold atomBase; by_cases h : u ∈ ballOf a.klass r <;> simp [h]
    have hv : ∀ u : Fin (n + 1) → ℝ, u ∈ ballOf a.klass r → (atomBase a.klass true r u).untopD 0 = 0 := by
      intro u h; unfold atomBase; simp [h]
    refine ⟨U, ⟨(hb U).2 hmin.1, fun u hu hne => ?_⟩, ?_, ?_⟩
    · have hu' := (hb u).1 hu
      have := hmin.2 u hu' hne
      dsimp only at this ⊢
      rw [hv _ hu', hv _ hmin.1]
      linarith
    · have hp := check_proximal a.klass.lagrangeProx a.klass.boundProx (.bound r) z U hU
      unfold AtomObj.checkSubgradient
      rw [hcopy]
      simp only [hst', AtomObj.proximal, hp, AtomObj.getConjugate, AtomState.init]
      simp only [Quad.init, Option.getD, if_true, if_neg (not_lt.2 hr)]
    · rw [if_pos rfl]
      exact ⟨hmin.1, hk⟩

private lemma value_div (k : Klass) {r : ℝ} (hr : 0 < r) (x : Fin (n + 1) → ℝ) (d : ℝ)
    (h : penalty k r x = ((d : ℝ) : WithTop ℝ)) :
    penalty k 1 x = ((d / r : ℝ) : WithTop ℝ) ∧ k.seminorm x 1 false = ((d / r : ℝ) : WithTop ℝ) := by
  have hfin := penalty_finite k r 1 x (by rw [h]; exact WithTop.coe_ne_top)
  obtain ⟨v, hv⟩ := WithTop.ne_top_iff_exists.1 hfin
  have h1 := penalty_scale k r x v hv.symm
  rw [h, WithTop.coe_inj] at h1
  have h2 : penalty k 1 x = ((d / r : ℝ) : WithTop ℝ) := by
    rw [← hv, WithTop.coe_inj, h1]; field_simp
  exact ⟨h2, by rw [seminorm_false k 1 x hfin, h2]⟩

/-- **C85** for every seminorm with a registered conjugate, in both modes, every positive parameter and every center
(whatever offset and quadratic the atom carries), `check_subgradient` does not raise and returns two equal numbers:
in lagrange mode the seminorm of the minimiser of `1/2 ‖u - z‖² + λ h(u)`, in bound mode the dual seminorm of the
residual of the projection on `h ≤ δ`. -/
theorem C85_values (a : AtomObj (Fin (n + 1)) ℝ) (b : Bool) (r : ℝ) (hm : InMode a b r) (hr : 0 < r)
    (z : Fin (n + 1) → ℝ) :
    ∃ (U : Fin (n + 1) → ℝ) (v : ℝ),
      IsUniqueMinOn (fun u => 1 / 2 * sqDist u z + (atomBase a.klass b r u).untopD 0)
        {u | atomBase a.klass b r u ≠ ⊤} U ∧
      a.checkSubgradient z = .values v ((v : ℝ) : WithTop ℝ) ∧
      (if b then penalty a.klass.conj 1 (fun i => z i - U i) else penalty a.klass 1 U) = ((v : ℝ) : WithTop ℝ) := by
  obtain ⟨U, h1, h2, h3⟩ := check_eq a b r hm z
  refine ⟨U, dot (fun i => z i - U i) U / r, h1, ?_, ?_⟩
  · rw [h2]
    unfold checkValues
    cases b with
    | false =>
      rw [if_neg (by simp)] at h3
      dsimp only
      rw [if_neg (by simp), if_neg (not_not.2 (le_trans (ball_seminorm _ _ _ h3.1) (slack hr.le))), if_neg hr.ne',
        (value_div _ hr _ _ h3.2).2]
      rfl
    | true =>
      rw [if_pos rfl] at h3
      dsimp only
      rw [if_pos rfl, if_neg (not_not.2 (le_trans (ball_seminorm _ _ _ h3.1) (slack hr.le))), if_neg hr.ne',
        (value_div _ hr _ _ h3.2).2]
      rfl
  · cases b with
    | false =>
      rw [if_neg (by simp)] at h3 ⊢
      exact (value_div _ hr _ _ h3.2).1
    | true =>
      rw [if_pos rfl] at h3 ⊢
      exact (value_div _ hr _ _ h3.2).1

/-- **C85** the check rejects wrong maps, penalised form: whatever point `U` a `proximal` method returned for the center
`z`, if the check accepts it and the two numbers differ by at most `δ`, then `U` minimises `1/2 ‖u - z‖² + λ h(u)` up to
`λ (10⁻⁵ h(u) + δ)`, and it is at most that far (in half squared distance) from the minimiser.  For the norms the two
domain hypotheses are vacuous. -/
theorem C85_certificate (k : Klass) {r : ℝ} (hr : 0 < r) (z U : Fin (n + 1) → ℝ) (v1 : ℝ) (v2 δ : ℝ)
    (hU : penalty k 1 U ≠ ⊤) (hR : penalty k.conj 1 (fun i => z i - U i) ≠ ⊤)
    (hc : checkValues (fun x => k.seminorm x 1 false) (fun x => k.conj.seminorm x 1 false) false r z U =
      .values v1 ((v2 : ℝ) : WithTop ℝ)) (hδ : |v1 - v2| ≤ δ)
    (u : Fin (n + 1) → ℝ) (c : ℝ) (hu : penalty k 1 u = c) :
    penalty k 1 U = ((v2 : ℝ) : WithTop ℝ) ∧
    1 / 2 * sqDist U z + r * v2 + 1 / 2 * sqDist u U ≤ 1 / 2 * sqDist u z + r * c + r * (1 / 10 ^ 5 * c + δ) := by
  unfold checkValues at hc
  dsimp only at hc
  rw [if_neg (by simp)] at hc
  obtain ⟨d, hd⟩ := WithTop.ne_top_iff_exists.1 hR
  by_cases hle : k.conj.seminorm (fun i => z i - U i) 1 false ≤ (((1 + 1 / 10 ^ 5) * r : ℝ) : WithTop ℝ)
  swap
  · rw [if_pos hle] at hc; exact absurd hc (by simp)
  rw [if_neg (not_not.2 hle), if_neg hr.ne', seminorm_false _ _ _ hU] at hc
  rw [seminorm_false _ _ _ hR] at hle
  simp only [CheckResult.values.injEq] at hc
  obtain ⟨e1, e2⟩ := hc
  refine ⟨e2, ?_⟩
  rw [← hd, WithTop.coe_le_coe] at hle
  have hc0 : 0 ≤ c := penalty_nonneg k zero_le_one u c hu
  have h1 : dot u (fun i => z i - U i) ≤ d * c := holder k u _ c d hu hd.symm
  have h2 : dot U (fun i => z i - U i) = r * v1 := by
    have : dot U (fun i => z i - U i) = ∑ i, (z i - U i) * U i := by
      unfold dot; exact Finset.sum_congr rfl fun i _ => by ring
    rw [this, ← e1]; field_simp
  have h3 : sqDist u z = sqDist U z - 2 * (dot u (fun i => z i - U i) - dot U (fun i => z i - U i)) + sqDist u U := by
    unfold sqDist dot
    rw [← Finset.sum_sub_distrib, Finset.mul_sum, ← Finset.sum_sub_distrib, ← Finset.sum_add_distrib]
    exact Finset.sum_congr rfl fun i _ => by ring
  have h4 : v2 - v1 ≤ δ := by have := abs_le.1 hδ; linarith
  have h5 : d * c ≤ (1 + 1 / 10 ^ 5) * r * c := mul_le_mul_of_nonneg_right hle hc0
  have h6 : r * (v2 - v1) ≤ r * δ := mul_le_mul_of_nonneg_left h4 hr.le
  rw [h3, h2]
  nlinarith

/-- **C85** the check rejects wrong maps, constrained form: if the check accepts the point `U` returned for the center
`z` and the two numbers differ by at most `ε`, then `U` satisfies the constraint up to the factor `1 + 10⁻⁵` and is, up to
`2 δ ε` in squared distance, at least as close to `z` as every feasible point `u`, with `‖u - U‖²` to spare. -/
theorem C85_certificate_bound (k : Klass) {r : ℝ} (hr : 0 < r) (z U : Fin (n + 1) → ℝ) (v1 v2 ε : ℝ)
    (hU : penalty k 1 U ≠ ⊤) (hR : penalty k.conj 1 (fun i => z i - U i) ≠ ⊤)
    (hc : checkValues (fun x => k.seminorm x 1 false) (fun x => k.conj.seminorm x 1 false) true r z U =
      .values v1 ((v2 : ℝ) : WithTop ℝ)) (hε : |v1 - v2| ≤ ε) :
    penalty k 1 U ≤ (((1 + 1 / 10 ^ 5) * r : ℝ) : WithTop ℝ) ∧
    ∀ u ∈ ballOf k r, sqDist U z + sqDist u U ≤ sqDist u z + 2 * (r * ε) := by
  unfold checkValues at hc
  dsimp only at hc
  rw [if_pos rfl] at hc
  by_cases hle : k.seminorm U 1 false ≤ (((1 + 1 / 10 ^ 5) * r : ℝ) : WithTop ℝ)
  swap
  · rw [if_pos hle] at hc; exact absurd hc (by simp)
  rw [if_neg (not_not.2 hle), if_neg hr.ne', seminorm_false _ _ _ hR] at hc
  rw [seminorm_false _ _ _ hU] at hle
  simp only [CheckResult.values.injEq] at hc
  obtain ⟨e1, e2⟩ := hc
  refine ⟨hle, fun u hu => ?_⟩
  have hs := penalty_support (n := n) k.conj hr.le
  rw [conj_conj] at hs
  have h1 : dot (fun i => z i - U i) u ≤ r * v2 :=
    ((hs _).1 _ (penalty_scale k.conj r _ v2 e2)).2 ⟨u, hu, rfl⟩
  have h2 : dot U (fun i => z i - U i) = r * v1 := by
    have : dot U (fun i => z i - U i) = ∑ i, (z i - U i) * U i := by
      unfold dot; exact Finset.sum_congr rfl fun i _ => by ring
    rw [this, ← e1]; field_simp
  have h3 : sqDist u z = sqDist U z - 2 * (dot u (fun i => z i - U i) - dot U (fun i => z i - U i)) + sqDist u U := by
    unfold sqDist dot
    rw [← Finset.sum_sub_distrib, Finset.mul_sum, ← Finset.sum_sub_distrib, ← Finset.sum_add_distrib]
    exact Finset.sum_congr rfl fun i _ => by ring
  have h4 : v2 - v1 ≤ ε := by have := abs_le.1 hε; linarith
  have h6 : r * (v2 - v1) ≤ r * ε := mul_le_mul_of_nonneg_left h4 hr.le
  rw [dot_cm] at h1
  rw [h3, h2]
  nlinarith

/-- **C85** fails: for `positive_part` the check is no certificate.  The dual seminorm is evaluated without its
feasibility check, so at the center `-1` the wrong answer `0` is accepted with two equal values, although the minimiser
is `-1`. -/
theorem C85_positive_part_fails :
    let z : Fin 1 → ℝ := fun _ => -1
    let U : Fin 1 → ℝ := fun _ => 0
    checkValues (fun x => Klass.positivePart.seminorm (n := 0) x 1 false)
      (fun x => Klass.positivePart.conj.seminorm (n := 0) x 1 false) false 1 z U = .values 0 ((0 : ℝ) : WithTop ℝ) ∧
    IsProx 1 (fun u : Fin 1 → ℝ => 1 * ∑ i, max (u i) 0) z z ∧ U ≠ z := by
  intro z U
  refine ⟨?_, ?_, ?_⟩
  · unfold checkValues
    dsimp only
    rw [if_neg (by simp), if_neg, if_neg one_ne_zero]
    · simp [Klass.seminorm, PosPart.seminorm, U]
    · rw [not_not]
      simp only [Klass.seminorm, Klass.conj, ConMax.seminorm]
      rw [if_pos (Or.inr trivial), WithTop.coe_le_coe, one_mul]
      refine le_trans (maxCoord_le (c := -1) fun i => ?_) (by norm_num)
      simp [z, U]
  · have := C07_positive_part_lagrange_prox (n := 1) z 1 1 one_pos zero_le_one
    have e : PosPart.lagrangeProx z 1 1 = z := by
      funext i; simp only [PosPart.lagrangeProx, z]; norm_num
    rw [e] at this
    exact this
  · intro h; have := congrFun h 0; simp [U, z] at this

/-- **C85** fails: with the parameter 0 the check divides by zero, for every class, mode and center, although the
proximal map is correct. -/
theorem C85_zero_fails (a : AtomObj (Fin (n + 1)) ℝ) (b : Bool) (hm : InMode a b 0) (z : Fin (n + 1) → ℝ) :
    a.checkSubgradient z = .undefined := by
  obtain ⟨U, h1, h2, h3⟩ := check_eq a b 0 hm z
  rw [h2]
  unfold checkValues
  cases b with
  | false =>
    rw [if_neg (by simp)] at h3
    dsimp only
    rw [if_neg (by simp), if_neg (not_not.2 (le_trans (ball_seminorm _ _ _ h3.1) (slack le_rfl))), if_pos rfl]
  | true =>
    rw [if_pos rfl] at h3
    dsimp only
    rw [if_pos rfl, if_neg (not_not.2 (le_trans (ball_seminorm _ _ _ h3.1) (slack le_rfl))), if_pos rfl]

private lemma cone_proximal (cp : (Fin n → ℝ) → Option (Fin n → ℝ)) (z U : Fin n → ℝ) (h : cp z = some U) :
    coneProximal cp none (Quad.init (some 0) (some (.scalar 0)) (some (.scalar 0)) (some 0))
      (some (Quad.init (some 1) (some (.arr z)) (some (.scalar 0)) (some 0))) = .ok U := by
  unfold coneProximal
  simp only [Quad.recenter, Quad.add, Quad.init, Quad.collapsed, Quad.collapsedLinear, PyVec.map₂, PyVec.map, PyVec.get,
    Option.getD]
  have h1 : ¬ ((0 : ℝ) + 1 = 0) := by norm_num
  rw [if_neg h1]
  have hz : (fun i => -(0 - (0 + 1) * 0 + (0 - 0 * 0 + 0 + (0 - 1 * z i + 0))) / (0 + 1) : Fin n → ℝ) = z := by
    funext i; ring
  rw [hz, h]

/-- **C85** for a cone (a set closed under multiplication by nonnegative numbers) whose `cone_prox` is the projection,
`check_subgradient` returns `(0, 0)` at every center. -/
theorem C85_cone (C : Set (Fin n → ℝ)) (hC : ∀ t : ℝ, 0 ≤ t → ∀ x ∈ C, (fun i => t * x i) ∈ C)
    (cp : (Fin n → ℝ) → Option (Fin n → ℝ)) (z U : Fin n → ℝ) (hcp : cp z = some U) (hproj : IsProj C z U) :
    coneCheckSubgradient cp z = some (0, 0) := by
  have hmv : ∀ s : ℝ, (fun i => (1 + s) * U i) = fun i => U i + s * U i := fun s => by funext i; ring
  have key : ∀ t : ℝ, 0 ≤ t → sqDist U z ≤ sqDist (fun i => t * U i) z := by
    intro t ht
    by_cases hne : (fun i => t * U i) = U
    · rw [hne]
    · exact (hproj.2 _ (hC t ht U hproj.1) hne).le
  have h1 := first_order (1 / 2 * dot U U) (-dot U (fun i => z i - U i)) (fun s hs hs1 => by
    have := key (1 + s) (by linarith)
    rw [hmv, sqDist_move] at this
    nlinarith)
  have h2 := first_order (1 / 2 * dot U U) (dot U (fun i => z i - U i)) (fun s hs hs1 => by
    have := key (1 + -s) (by linarith)
    rw [hmv, sqDist_move] at this
    nlinarith)
  have h3 : ∑ i, (z i - U i) * U i = 0 := by
    have : dot U (fun i => z i - U i) = ∑ i, (z i - U i) * U i := by
      unfold dot; exact Finset.sum_congr rfl fun i _ => by ring
    rw [← this]; linarith
  unfold coneCheckSubgradient
  dsimp only
  rw [cone_proximal cp z U hcp]
  simp only [h3]

/-- **C85** fails: for cones the two equal values do not verify the projection.  A `cone_prox` that always returns 0, or
that always returns its argument, passes the check at every center; at the center 1 the first is wrong for the
nonnegative orthant, at the center -1 the second is. -/
theorem C85_cone_certificate_fails :
    (∀ (n : ℕ) (z : Fin n → ℝ), coneCheckSubgradient (fun _ => some fun _ => 0) z = some (0, 0) ∧
      coneCheckSubgradient some z = some (0, 0)) ∧
    ¬ IsProj {u : Fin 1 → ℝ | ∀ i, 0 ≤ u i} (fun _ => 1) (fun _ => 0) ∧
    ¬ IsProj {u : Fin 1 → ℝ | ∀ i, 0 ≤ u i} (fun _ => -1) (fun _ => -1) := by
  refine ⟨fun n z => ⟨?_, ?_⟩, ?_, ?_⟩
  · unfold coneCheckSubgradient
    dsimp only
    rw [cone_proximal _ z (fun _ => 0) rfl]
    simp
  · unfold coneCheckSubgradient
    dsimp only
    rw [cone_proximal _ z z rfl]
    simp
  · intro h
    have := h.2 (fun _ => 1) (fun i => by norm_num) (by intro e; have := congrFun e 0; norm_num at this)
    simp [sqDist] at this
    linarith
  · intro h
    have := h.1 0
    norm_num at this

/-- the hypotheses of `C85_values` are satisfiable: an l1 norm with an offset -/
example : InMode (n := 1) ⟨.l1norm, ⟨some 2, none⟩, some (.arr ![1, 0]), ⟨3, none, none, 0⟩⟩ false 2 :=
  ⟨by norm_num, rfl⟩

/-- the hypotheses of `C85_certificate` are satisfiable: the correct point of the l1 norm is accepted -/
example (z : Fin (n + 1) → ℝ) : ∃ U v1 v2, checkValues (fun x => Klass.l1norm.seminorm x 1 false)
    (fun x => Klass.l1norm.conj.seminorm x 1 false) false 2 z U = .values v1 ((v2 : ℝ) : WithTop ℝ) ∧ |v1 - v2| ≤ 0 ∧
    penalty .l1norm 1 U ≠ ⊤ ∧ penalty Klass.l1norm.conj 1 (fun i => z i - U i) ≠ ⊤ := by
  obtain ⟨U, h1, h2, h3⟩ := check_eq (⟨.l1norm, ⟨some 2, none⟩, none, ⟨0, none, none, 0⟩⟩ : AtomObj (Fin (n + 1)) ℝ)
    false 2 ⟨by norm_num, rfl⟩ z
  obtain ⟨U', v, _, h4, _⟩ := C85_values
    (⟨.l1norm, ⟨some 2, none⟩, none, ⟨0, none, none, 0⟩⟩ : AtomObj (Fin (n + 1)) ℝ) false 2 ⟨by norm_num, rfl⟩
    (by norm_num) z
  rw [h2] at h4
  exact ⟨U, v, v, h4, by simp, WithTop.coe_ne_top, WithTop.coe_ne_top⟩

/-- the hypotheses of `C85_cone` are satisfiable: the nonnegative orthant -/
example (z : Fin n → ℝ) : coneCheckSubgradient (fun x => some (Cone.nonnegProx x)) z = some (0, 0) :=
  C85_cone {u | ∀ i, 0 ≤ u i} (fun t ht x hx i => mul_nonneg ht (hx i)) _ z _ rfl (C16_nonnegative z)

end Verif.Props
