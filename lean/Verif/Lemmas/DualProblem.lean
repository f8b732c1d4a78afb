import Verif.Spec.Dualised
import Verif.Spec.Linear
import Verif.Lemmas.Smoothed
import Verif.Lemmas.ProxGrad

set_option linter.unusedSectionVars false
set_option linter.unusedVariables false

/-! # Fenchel duality for `f(x) + g*(D x)` with strongly convex `f` -/

namespace Verif.Lemmas
open Verif.Spec

variable {n k : ℕ} {f : (Fin n → ℝ) → WithTop ℝ} {V : (Fin n → ℝ) → ℝ} {G : (Fin n → ℝ) → Fin n → ℝ} {μ : ℝ}

lemma smoothConj_le (h : IsSmoothConjugate f V G) (z x : Fin n → ℝ) (s : ℝ) (hs : f x = ((s : ℝ) : WithTop ℝ)) :
    dot z x - s ≤ V z := by
  by_cases hx : x = G z
  · obtain ⟨⟨s', h1, h2⟩, -⟩ := h z
    rw [← hx, hs] at h1
    have : s = s' := by exact_mod_cast h1
    rw [h2, ← hx, this]
  · exact ((h z).2 x s hs hx).le

private lemma limit_aux {c A : ℝ} (hc : 0 ≤ c) (h : ∀ t : ℝ, 0 < t → t ≤ 1 → c - t * c ≤ A) : c ≤ A := by
  by_contra hlt
  push Not at hlt
  have h1 := h 1 one_pos le_rfl
  have hA : 0 ≤ A := by linarith
  have hc' : 0 < c := lt_of_le_of_lt hA hlt
  have h2 := h ((c - A) / (2 * c)) (div_pos (by linarith) (by linarith)) (by rw [div_le_one (by linarith)]; linarith)
  have e : (c - A) / (2 * c) * c = (c - A) / 2 := by field_simp
  rw [e] at h2
  linarith

/-- quadratic growth away from the maximiser -/
lemma smoothConj_growth (hμ : 0 < μ) (hf : StronglyConvexTop μ f) (h : IsSmoothConjugate f V G) (z x : Fin n → ℝ) (s : ℝ)
    (hs : f x = ((s : ℝ) : WithTop ℝ)) : dot z x - s + μ / 2 * sqDist x (G z) ≤ V z := by
  obtain ⟨⟨s0, h1, h2⟩, -⟩ := h z
  have key : μ / 2 * sqDist (G z) x ≤ V z - (dot z x - s) := by
    refine limit_aux (mul_nonneg (by linarith) (sqDist_nonneg _ _)) fun t ht ht1 => ?_
    obtain ⟨c, hc, hcle⟩ := hf (G z) x s0 s h1 hs t ht.le ht1
    have h3 := smoothConj_le h z _ c hc
    rw [dot_mix] at h3
    have h4 : t * (μ / 2 * sqDist (G z) x - t * (μ / 2 * sqDist (G z) x)) ≤ t * (V z - (dot z x - s)) := by
      nlinarith
    exact le_of_mul_le_mul_left h4 ht
  rw [sqDist_comm] at key
  linarith

private lemma dot_sub_left' (l x u : Fin n → ℝ) : dot (fun i => l i - x i) u = dot l u - dot x u := by
  unfold dot; rw [← Finset.sum_sub_distrib]; exact Finset.sum_congr rfl fun i _ => by ring

/-- the maximiser is the gradient of the conjugate -/
lemma smoothConj_gradient (hμ : 0 < μ) (hf : StronglyConvexTop μ f) (h : IsSmoothConjugate f V G) (x : Fin n → ℝ) :
    IsGradientAt V (G x) x := by
  refine isGradientAt_of_quadratic (1 / μ) fun y => ?_
  obtain ⟨⟨sx, hx1, hx2⟩, -⟩ := h x
  obtain ⟨⟨sy, hy1, hy2⟩, -⟩ := h y
  have h1 := smoothConj_growth hμ hf h x (G y) sy hy1
  have h2 := smoothConj_growth hμ hf h y (G x) sx hx1
  have n1 : 0 ≤ μ / 2 * sqDist (G y) (G x) := mul_nonneg (by linarith) (sqDist_nonneg _ _)
  rw [sqDist_comm (G x) (G y)] at h2
  have h3 := dot_young hμ (fun i => y i - x i) (fun i => G y i - G x i)
  have e1 : ∑ i, (y i - x i) ^ 2 = sqDist y x := rfl
  have e2 : ∑ i, (G y i - G x i) ^ 2 = sqDist (G y) (G x) := rfl
  rw [e1, e2, dot_sub_right, dot_sub_left', dot_sub_left'] at h3
  have e3 : 1 / (2 * μ) * sqDist y x ≤ 1 / μ * sqDist y x := by
    apply mul_le_mul_of_nonneg_right _ (sqDist_nonneg _ _)
    rw [div_le_div_iff₀ (by linarith) hμ]; linarith
  rw [dot_comm' (G x), dot_sub_left', abs_le]
  constructor
  · have : 0 ≤ 1 / μ * sqDist y x := mul_nonneg (by positivity) (sqDist_nonneg _ _)
    linarith
  · linarith

/-- `-Dᵀ u` -/
def negAdj (Lt : (Fin k → ℝ) → Fin n → ℝ) (u : Fin k → ℝ) : Fin n → ℝ := fun j => -Lt u j

lemma negAdj_dot {L : (Fin n → ℝ) → Fin k → ℝ} {Lt : (Fin k → ℝ) → Fin n → ℝ} (hL : IsAdjoint L Lt) (u : Fin k → ℝ) (x : Fin n → ℝ) :
    dot (negAdj Lt u) x = -dot u (L x) := by
  have := hL x u
  unfold dot negAdj
  rw [← Finset.sum_neg_distrib]
  have e : ∑ i, -(u i * L x i) = -∑ i, L x i * u i := by
    rw [Finset.sum_neg_distrib]; congr 1; exact Finset.sum_congr rfl fun i _ => mul_comm _ _
  rw [Finset.sum_neg_distrib] at *
  have e1 : ∑ i, u i * L x i = ∑ i, L x i * u i := Finset.sum_congr rfl fun i _ => mul_comm _ _
  rw [e1, this, ← Finset.sum_neg_distrib]
  exact Finset.sum_congr rfl fun i _ => by ring

variable {g : (Fin k → ℝ) → WithTop ℝ} {H : (Fin n → ℝ) → WithTop ℝ} {L : (Fin n → ℝ) → Fin k → ℝ} {Lt : (Fin k → ℝ) → Fin n → ℝ}

/-- weak duality for finite values, with the gap made explicit -/
lemma weak_duality (hL : IsAdjoint L Lt) (hf : IsSmoothConjugate f V G) (hg : Represents L g H) (x : Fin n → ℝ) (u : Fin k → ℝ)
    (a b s : ℝ) (ha : f x = ((a : ℝ) : WithTop ℝ)) (hb : H x = ((b : ℝ) : WithTop ℝ)) (hs : g u = ((s : ℝ) : WithTop ℝ)) :
    -(V (negAdj Lt u) + s) ≤ a + b := by
  have h1 := smoothConj_le hf (negAdj Lt u) x a ha
  rw [negAdj_dot hL] at h1
  have h2 := ((hg x).1 b hb).1 ⟨u, s, hs, rfl⟩
  linarith

/-- first order optimality of the dual problem -/
lemma dual_vi (hμ : 0 < μ) (hsc : StronglyConvexTop μ f) (hL : IsAdjoint L Lt) (hlin : IsLin Lt)
    (hf : IsSmoothConjugate f V G) (hgc : ConvexTop g) (u : Fin k → ℝ) (s : ℝ) (hs : g u = ((s : ℝ) : WithTop ℝ))
    (hmin : ∀ v, ((V (negAdj Lt u) : ℝ) : WithTop ℝ) + g u ≤ ((V (negAdj Lt v) : ℝ) : WithTop ℝ) + g v)
    (v : Fin k → ℝ) (b : ℝ) (hb : g v = ((b : ℝ) : WithTop ℝ)) :
    dot v (L (G (negAdj Lt u))) - b ≤ dot u (L (G (negAdj Lt u))) - s := by
  have hgrad := smoothConj_gradient hμ hsc hf (negAdj Lt u)
  have key : s - b ≤ dot (G (negAdj Lt u)) (fun j => negAdj Lt v j - negAdj Lt u j) := by
    refine dir_ge hgrad _ _ fun t ht ht1 => ?_
    obtain ⟨c, hc, hcle⟩ := hgc u v s b hs hb t ht.le ht1
    have h1 := hmin (fun i => (1 - t) * u i + t * v i)
    rw [hs, hc, ← WithTop.coe_add, ← WithTop.coe_add, WithTop.coe_le_coe] at h1
    have e : negAdj Lt (fun i => (1 - t) * u i + t * v i) =
        fun i => negAdj Lt u i + t * (negAdj Lt v i - negAdj Lt u i) := by
      funext i
      unfold negAdj
      rw [hlin (1 - t) t u v i]; ring
    rw [e] at h1
    nlinarith
  rw [dot_sub_right, dot_comm' (G _) (negAdj Lt v), dot_comm' (G _) (negAdj Lt u), negAdj_dot hL, negAdj_dot hL] at key
  linarith

/-- strong duality at a dual minimiser -/
lemma strong_duality (hμ : 0 < μ) (hsc : StronglyConvexTop μ f) (hL : IsAdjoint L Lt) (hlin : IsLin Lt)
    (hf : IsSmoothConjugate f V G) (hg : Represents L g H) (hgc : ConvexTop g) (u : Fin k → ℝ) (s : ℝ)
    (hs : g u = ((s : ℝ) : WithTop ℝ))
    (hmin : ∀ v, ((V (negAdj Lt u) : ℝ) : WithTop ℝ) + g u ≤ ((V (negAdj Lt v) : ℝ) : WithTop ℝ) + g v) :
    ∃ a b : ℝ, f (G (negAdj Lt u)) = ((a : ℝ) : WithTop ℝ) ∧ H (G (negAdj Lt u)) = ((b : ℝ) : WithTop ℝ) ∧
      a + b = -(V (negAdj Lt u) + s) := by
  set x := G (negAdj Lt u) with hx
  obtain ⟨⟨a, ha, hV⟩, -⟩ := hf (negAdj Lt u)
  have hvi := dual_vi hμ hsc hL hlin hf hgc u s hs hmin
  have hG : IsGreatest (conjSet g (L x)) (dot u (L x) - s) := by
    refine ⟨⟨u, s, hs, rfl⟩, ?_⟩
    rintro _ ⟨v, b, hb, rfl⟩
    exact hvi v b hb
  have hH : H x = ((dot u (L x) - s : ℝ) : WithTop ℝ) := by
    cases hHx : H x with
    | top => exact absurd hG.bddAbove ((hg x).2 hHx)
    | coe w => rw [((hg x).1 w hHx).unique hG.isLUB]
  refine ⟨a, _, ha, hH, ?_⟩
  rw [hV, ← hx, negAdj_dot hL]
  ring

end Verif.Lemmas
