import Verif.Lemmas.Svd
import Verif.Lemmas.SvdExists
import Verif.Spec.Gauge
import Verif.Props.C02_Seminorms
import Mathlib.Data.Fin.VecNotation
import Mathlib.Tactic.FinCases

/-!
# C59: nuclear norm and operator norm

For every matrix `X` and every singular value decomposition of it numpy may return: `seminorm` is the norm, `constraint` the
tolerance test on the norm, `lagrange_prox` the proximal point and `bound_prox` the projection, for the operator norm and its
dual, the nuclear norm, defined without singular values in `Verif.Spec.Svd`; and the two norms are dual to each other.
-/

set_option linter.unusedSectionVars false
set_option linter.unusedVariables false

namespace Verif.Props
open Verif.Model Verif.Spec Verif.Lemmas Verif.Model.Svd

variable {n p k : ℕ} {X : Fin n × Fin p → ℝ} {s : Triple n p k}

/-- the hypothesis is met: an SVD of `[[0, 2], [-3, 0]]` -/
example : IsSvd (n := 2) (p := 2) (k := 1) (fun ij => ![![0, 2], ![-3, 0]] ij.1 ij.2)
    ⟨![![0, 1], ![-1, 0]], ![3, 2], ![![1, 0], ![0, 1]]⟩ where
  eq := by intro i j; fin_cases i <;> fin_cases j <;> simp [Fin.sum_univ_two]
  left := by intro a b; fin_cases a <;> fin_cases b <;> simp [Fin.sum_univ_two]
  right := by intro a b; fin_cases a <;> fin_cases b <;> simp [Fin.sum_univ_two]
  nonneg := by intro a; fin_cases a <;> simp
  sorted := by
    intro a b h
    fin_cases a <;> fin_cases b <;> first | exact absurd h (by decide) | norm_num

/-- Every matrix with at least one row and one column has a decomposition as numpy promises it, so the theorems below speak about
every matrix. -/
theorem C59_svd_exists (hk : k + 1 = min n p) (X : Fin n × Fin p → ℝ) : ∃ s : Triple n p k, IsSvd X s := exists_svd hk X

/-- `nuclear_norm.seminorm` is `lagrange` times the nuclear norm (the dual of the operator norm). -/
theorem C59_nuclear_seminorm (h : IsSvd X s) (lagrange : ℝ) : Nuclear.seminorm s lagrange = lagrange * nucNorm X := by
  unfold Nuclear.seminorm
  rw [← h.nuc_recompose, h.recompose_D]

private lemma npMax_eq (h : IsSvd X s) : npMax s.D = opNorm X := by
  have e : ∀ a, |s.D a| = s.D a := fun a => abs_of_nonneg (h.nonneg a)
  apply le_antisymm
  · refine Finset.sup'_le _ _ fun a _ => ?_
    have := h.le_op_recompose s.D a
    rwa [h.recompose_D, e] at this
  · have hm : ∀ a, s.D a ≤ npMax s.D := fun a => Finset.le_sup' s.D (Finset.mem_univ a)
    have := h.op_recompose_le (d := s.D) (c := npMax s.D) (le_trans (h.nonneg 0) (hm 0)) (fun a => by rw [e]; exact hm a)
    rwa [h.recompose_D] at this

/-- `operator_norm.seminorm` is `lagrange` times the operator norm. -/
theorem C59_operator_seminorm (h : IsSvd X s) (lagrange : ℝ) : Operator.seminorm s lagrange = lagrange * opNorm X := by
  unfold Operator.seminorm
  rw [npMax_eq h]

/-- `nuclear_norm.constraint` is zero exactly for nuclear norm at most `(1 + tol) bound`, and infinite otherwise. -/
theorem C59_nuclear_constraint (h : IsSvd X s) (bound : ℝ) :
    Nuclear.constraint s bound = open Classical in if nucNorm X ≤ bound * (1 + 1 / 10 ^ 5) then 0 else ⊤ := by
  have e : nucNorm X = ∑ a, |s.D a| := by rw [← h.nuc_recompose, h.recompose_D]
  rw [e]
  unfold Nuclear.constraint atomTol
  congr

/-- `operator_norm.constraint` is zero exactly for operator norm at most `(1 + tol) bound`, and infinite otherwise. -/
theorem C59_operator_constraint (h : IsSvd X s) (bound : ℝ) :
    Operator.constraint s bound = open Classical in if opNorm X ≤ bound * (1 + 1 / 10 ^ 5) then 0 else ⊤ := by
  rw [← npMax_eq h]
  unfold Operator.constraint atomTol
  congr

private lemma abs_mix (a b x y : ℝ) (ha : 0 ≤ a) (hb : 0 ≤ b) : |a * x + b * y| ≤ a * |x| + b * |y| := by
  calc |a * x + b * y| ≤ |a * x| + |b * y| := abs_add_le _ _
    _ = a * |x| + b * |y| := by rw [abs_mul, abs_mul, abs_of_nonneg ha, abs_of_nonneg hb]

private lemma l1_convex (m : ℕ) {lam : ℝ} (hl : 0 ≤ lam) : IsConvexFnOn (fun z : Fin m → ℝ => lam * ∑ i, |z i|) Set.univ := by
  intro x _ y _ a b ha hb hab
  refine ⟨Set.mem_univ _, ?_⟩
  have : ∑ i, |a * x i + b * y i| ≤ a * ∑ i, |x i| + b * ∑ i, |y i| := by
    rw [Finset.mul_sum, Finset.mul_sum, ← Finset.sum_add_distrib]
    exact Finset.sum_le_sum fun i _ => abs_mix a b _ _ ha hb
  calc lam * ∑ i, |a * x i + b * y i| ≤ lam * (a * ∑ i, |x i| + b * ∑ i, |y i|) := mul_le_mul_of_nonneg_left this hl
    _ = _ := by ring

private lemma sup_convex (m : ℕ) {lam : ℝ} (hl : 0 ≤ lam) :
    IsConvexFnOn (fun z : Fin (m + 1) → ℝ => lam * maxCoord fun i => |z i|) Set.univ := by
  intro x _ y _ a b ha hb hab
  refine ⟨Set.mem_univ _, ?_⟩
  have : maxCoord (fun i => |a * x i + b * y i|) ≤ a * maxCoord (fun i => |x i|) + b * maxCoord (fun i => |y i|) := by
    refine maxCoord_le fun i => le_trans (abs_mix a b _ _ ha hb) (add_le_add ?_ ?_)
    · exact mul_le_mul_of_nonneg_left (le_maxCoord (fun i => |x i|) i) ha
    · exact mul_le_mul_of_nonneg_left (le_maxCoord (fun i => |y i|) i) hb
  calc lam * maxCoord (fun i => |a * x i + b * y i|) ≤
        lam * (a * maxCoord (fun i => |x i|) + b * maxCoord (fun i => |y i|)) := mul_le_mul_of_nonneg_left this hl
    _ = _ := by ring

private lemma sum_single {m : ℕ} (R : Fin m → ℝ) (a : Fin m) (t : ℝ) :
    ∑ i, R i * (if i = a then t else 0) = R a * t := by
  simp [mul_ite]

/-- expansion of the variational inequality of a recomposed matrix -/
private lemma vi_expand (h : IsSvd X s) (q : Fin (k + 1) → ℝ) (Z : Fin n × Fin p → ℝ) :
    ∑ ij, (X ij - recompose s q ij) * (Z ij - recompose s q ij) =
      ∑ ij, recompose s (fun a => s.D a - q a) ij * Z ij - ∑ a, (s.D a - q a) * q a := by
  rw [← h.dot_recompose_recompose, ← Finset.sum_sub_distrib]
  refine Finset.sum_congr rfl fun ij _ => ?_
  rw [recompose_sub, h.recompose_D]
  ring

/-- `nuclear_norm.lagrange_prox` returns the proximal point of `lagrange` times the nuclear norm. -/
theorem C59_nuclear_lagrange_prox (h : IsSvd X s) (L lam : ℝ) (hL : 0 < L) (hl : 0 ≤ lam) :
    IsProx L (fun Z => lam * nucNorm Z) X (Nuclear.lagrangeProx s L lam) := by
  set q := L1.lagrangeProx s.D L lam with hq
  have hp := C03_l1norm_lagrange_prox s.D L lam hL hl
  rw [← hq] at hp
  have sub := fun u => subgrad_of_isProx hL (l1_convex (k + 1) hl) hp u (Set.mem_univ u)
  have hR : ∀ a, |s.D a - q a| ≤ lam / L := by
    intro a
    have key : ∀ t : ℝ, L * ((s.D a - q a) * t) ≤ lam * |t| := by
      intro t
      have h1 := sub fun i => q i + if i = a then t else 0
      simp only [add_sub_cancel_left] at h1
      rw [sum_single (fun i => s.D i - q i) a t] at h1
      have h2 : ∑ i, |q i + if i = a then t else 0| ≤ ∑ i, |q i| + |t| := by
        calc ∑ i, |q i + if i = a then t else 0| ≤ ∑ i, (|q i| + if i = a then |t| else 0) := by
              refine Finset.sum_le_sum fun i _ => le_trans (abs_add_le _ _) ?_
              split_ifs <;> simp
          _ = _ := by rw [Finset.sum_add_distrib]; simp
      have h3 := mul_le_mul_of_nonneg_left h2 hl
      linarith
    rw [abs_le]
    have h1 := key 1
    have h2 := key (-1)
    simp only [abs_neg, abs_one, mul_one] at h1 h2
    rw [neg_le, le_div_iff₀ hL, le_div_iff₀ hL]
    constructor <;> linarith
  have h0 : lam * ∑ i, |q i| ≤ L * ∑ i, (s.D i - q i) * q i := by
    have h1 := sub fun _ => 0
    simp only [zero_sub, mul_neg, Finset.sum_neg_distrib, abs_zero, Finset.sum_const_zero, mul_zero] at h1
    linarith
  refine isProx_of_subgrad hL fun Z => ?_
  change lam * nucNorm (recompose s q) + L * ∑ ij, (X ij - recompose s q ij) * (Z ij - recompose s q ij) ≤ lam * nucNorm Z
  rw [vi_expand h]
  have hc : 0 ≤ lam / L := div_nonneg hl hL.le
  have h1 := dot_le_mul_nuc (Z := Z) hc (h.opLe_recompose hc hR)
  have h2 : L * ∑ ij, recompose s (fun a => s.D a - q a) ij * Z ij ≤ lam * nucNorm Z := by
    calc _ ≤ L * (lam / L * nucNorm Z) := mul_le_mul_of_nonneg_left h1 hL.le
      _ = lam * nucNorm Z := by field_simp
  rw [h.nuc_recompose]
  linarith

/-- `operator_norm.lagrange_prox` returns the proximal point of `lagrange` times the operator norm. -/
theorem C59_operator_lagrange_prox (h : IsSvd X s) (L lam : ℝ) (hL : 0 < L) (hl : 0 ≤ lam) :
    ∃ P, Operator.lagrangeProx s L lam = some P ∧ IsProx L (fun Z => lam * opNorm Z) X P := by
  obtain ⟨q, hq, hp⟩ := C05_supnorm_lagrange_prox s.D L lam hL hl
  refine ⟨recompose s q, by unfold Operator.lagrangeProx; rw [hq]; rfl, ?_⟩
  have sub := fun u => subgrad_of_isProx hL (sup_convex k hl) hp u (Set.mem_univ u)
  have hR : L * ∑ a, |s.D a - q a| ≤ lam := by
    have h1 := sub fun a => q a + if 0 ≤ s.D a - q a then 1 else -1
    simp only [add_sub_cancel_left] at h1
    have e : ∑ i, (s.D i - q i) * (if 0 ≤ s.D i - q i then (1:ℝ) else -1) = ∑ a, |s.D a - q a| := by
      refine Finset.sum_congr rfl fun i _ => ?_
      split_ifs with h0
      · rw [abs_of_nonneg h0, mul_one]
      · rw [abs_of_neg (not_le.1 h0)]; ring
    rw [e] at h1
    have h2 : maxCoord (fun i => |q i + if 0 ≤ s.D i - q i then (1:ℝ) else -1|) ≤ maxCoord (fun i => |q i|) + 1 := by
      refine maxCoord_le fun i => le_trans (abs_add_le _ _) (add_le_add (le_maxCoord (fun i => |q i|) i) ?_)
      split_ifs <;> simp
    have h3 := mul_le_mul_of_nonneg_left h2 hl
    linarith
  have h0 : lam * maxCoord (fun i => |q i|) ≤ L * ∑ i, (s.D i - q i) * q i := by
    have h1 := sub fun _ => 0
    have e : maxCoord (fun _ : Fin (k + 1) => |(0:ℝ)|) = 0 :=
      le_antisymm (maxCoord_le fun i => by simp) (by simpa using le_maxCoord (fun _ : Fin (k + 1) => |(0:ℝ)|) 0)
    rw [e] at h1
    simp only [zero_sub, mul_neg, Finset.sum_neg_distrib, mul_zero] at h1
    linarith
  refine isProx_of_subgrad hL fun Z => ?_
  change lam * opNorm (recompose s q) + L * ∑ ij, (X ij - recompose s q ij) * (Z ij - recompose s q ij) ≤ lam * opNorm Z
  rw [vi_expand h]
  have h1 := h.dot_le_of_opLe (fun a => s.D a - q a) (opLe_opNorm Z)
  have h2 : L * ∑ ij, recompose s (fun a => s.D a - q a) ij * Z ij ≤ lam * opNorm Z := by
    calc _ ≤ L * ((∑ a, |s.D a - q a|) * opNorm Z) := mul_le_mul_of_nonneg_left h1 hL.le
      _ = (L * ∑ a, |s.D a - q a|) * opNorm Z := by ring
      _ ≤ lam * opNorm Z := mul_le_mul_of_nonneg_right hR (opNorm_nonneg Z)
  have h3 : opNorm (recompose s q) ≤ maxCoord fun i => |q i| :=
    h.op_recompose_le (le_trans (abs_nonneg _) (le_maxCoord (fun i => |q i|) 0)) fun a => le_maxCoord (fun i => |q i|) a
  have h4 := mul_le_mul_of_nonneg_left h3 hl
  linarith

/-- `nuclear_norm.bound_prox` returns the projection on the ball of the nuclear norm. -/
theorem C59_nuclear_bound_prox (h : IsSvd X s) (bound : ℝ) (hb : 0 ≤ bound) :
    ∃ P, Nuclear.boundProx s bound = some P ∧ IsProj {Z | nucNorm Z ≤ bound} X P := by
  obtain ⟨q, hq, hp⟩ := C02_l1norm_bound_prox s.D bound hb
  have hq0 : ∀ a, 0 ≤ q a := by
    intro a
    unfold L1.boundProx at hq
    obtain ⟨cut, _, rfl⟩ := Option.map_eq_some_iff.1 hq
    simp only [b2k]
    by_cases hd : s.D a = 0
    · rw [hd]; simp [npSign]
    · have hpos : 0 < s.D a := lt_of_le_of_ne (h.nonneg a) (Ne.symm hd)
      have hs : npSign (s.D a) = 1 := by simp [npSign, hpos]
      rw [hs]
      split_ifs with hc
      · linarith
      · simp
  refine ⟨recompose s q, by unfold Nuclear.boundProx; rw [hq, Option.map_some, recomposeKeep_eq hq0], ?_⟩
  have hconv : IsConvexFnOn (fun _ => 0) {z : Fin (k + 1) → ℝ | ∑ i, |z i| ≤ bound} := by
    intro x hx y hy a b ha hb' hab
    refine ⟨?_, by simp⟩
    have h1 := (l1_convex (k + 1) (lam := 1) zero_le_one x (Set.mem_univ _) y (Set.mem_univ _) a b ha hb' hab).2
    simp only [one_mul] at h1
    change ∑ i, |a * x i + b * y i| ≤ bound
    have hx' : ∑ i, |x i| ≤ bound := hx
    have hy' : ∑ i, |y i| ≤ bound := hy
    calc _ ≤ a * ∑ i, |x i| + b * ∑ i, |y i| := h1
      _ ≤ a * bound + b * bound := add_le_add (mul_le_mul_of_nonneg_left hx' ha) (mul_le_mul_of_nonneg_left hy' hb')
      _ = bound := by rw [← add_mul, hab, one_mul]
  have vi := fun u hu => vi_of_isProj hconv hp u hu
  set A := ∑ i, (s.D i - q i) * q i with hA
  have hR : ∀ a, |s.D a - q a| * bound ≤ A := by
    intro a
    have key : ∀ t : ℝ, |t| ≤ bound → (s.D a - q a) * t ≤ A := by
      intro t ht
      have h1 := vi (fun i => if i = a then t else 0) (by
        change ∑ i, |if i = a then t else 0| ≤ bound
        have : ∀ i, |if i = a then t else 0| = if i = a then |t| else 0 := by intro i; split_ifs <;> simp
        simp only [this]
        simpa using ht)
      simp only [mul_sub, Finset.sum_sub_distrib] at h1
      rw [sum_single (fun i => s.D i - q i) a t] at h1
      linarith
    rcases le_total 0 (s.D a - q a) with h0 | h0
    · rw [abs_of_nonneg h0]; exact key bound (by rw [abs_of_nonneg hb])
    · rw [abs_of_nonpos h0]
      have := key (-bound) (by rw [abs_neg, abs_of_nonneg hb])
      linarith
  refine isProj_of_vi ?_ fun Z hZ => ?_
  · exact le_trans (h.nuc_recompose_le q) hp.1
  · have hZ' : nucNorm Z ≤ bound := hZ
    rw [vi_expand h]
    obtain ⟨a, ha⟩ := exists_maxCoord fun a => |s.D a - q a|
    have hc : 0 ≤ |s.D a - q a| := abs_nonneg _
    have h1 := dot_le_mul_nuc (Z := Z) hc (h.opLe_recompose (d := fun a => s.D a - q a) hc fun b => by
      rw [← ha]; exact le_maxCoord (fun a => |s.D a - q a|) b)
    have h2 := mul_le_mul_of_nonneg_left hZ' hc
    have h3 := hR a
    linarith

/-- `operator_norm.bound_prox` returns the projection on the ball of the operator norm. -/
theorem C59_operator_bound_prox (h : IsSvd X s) (bound : ℝ) (hb : 0 ≤ bound) :
    IsProj {Z | opNorm Z ≤ bound} X (Operator.boundProx s bound) := by
  have hp := C05_supnorm_bound_prox s.D bound hb
  set q := Sup.boundProx s.D bound with hq
  have hconv : IsConvexFnOn (fun _ => 0) {z : Fin (k + 1) → ℝ | ∀ i, |z i| ≤ bound} := by
    intro x hx y hy a b ha hb' hab
    refine ⟨fun i => ?_, by simp⟩
    calc _ ≤ a * |x i| + b * |y i| := abs_mix a b _ _ ha hb'
      _ ≤ a * bound + b * bound := add_le_add (mul_le_mul_of_nonneg_left (hx i) ha) (mul_le_mul_of_nonneg_left (hy i) hb')
      _ = bound := by rw [← add_mul, hab, one_mul]
  have hR : (∑ a, |s.D a - q a|) * bound ≤ ∑ i, (s.D i - q i) * q i := by
    have h1 := vi_of_isProj hconv hp (fun i => if 0 ≤ s.D i - q i then bound else -bound) (by
      intro i; dsimp only; split_ifs
      · rw [abs_of_nonneg hb]
      · rw [abs_neg, abs_of_nonneg hb])
    simp only [mul_sub, Finset.sum_sub_distrib] at h1
    have e : ∑ i, (s.D i - q i) * (if 0 ≤ s.D i - q i then bound else -bound) = (∑ a, |s.D a - q a|) * bound := by
      rw [Finset.sum_mul]
      refine Finset.sum_congr rfl fun i _ => ?_
      split_ifs with h0
      · rw [abs_of_nonneg h0]
      · rw [abs_of_neg (not_le.1 h0)]; ring
    rw [e] at h1
    linarith
  change IsProj {Z | opNorm Z ≤ bound} X (recompose s q)
  refine isProj_of_vi ?_ fun Z hZ => ?_
  · exact h.op_recompose_le hb hp.1
  · rw [vi_expand h]
    have h1 := h.dot_le_of_opLe (fun a => s.D a - q a) ((opLe_iff Z hb).2 hZ)
    linarith

/-- The nuclear norm of `X` as computed is the dual norm of `X` for the operator norm. -/
theorem C59_dual_of_operator (h : IsSvd X s) : IsDualNorm opNorm X (Nuclear.seminorm s 1) := by
  rw [C59_nuclear_seminorm h, one_mul]
  constructor
  · rintro t ⟨Z, hZ, rfl⟩
    exact dot_le_nuc ((opLe_iff Z zero_le_one).2 hZ)
  · intro c hc
    exact nuc_le fun W hW => hc ⟨W, (opLe_iff W zero_le_one).1 hW, rfl⟩

/-- The operator norm of `X` as computed is the dual norm of `X` for the nuclear norm. -/
theorem C59_dual_of_nuclear (h : IsSvd X s) : IsDualNorm nucNorm X (Operator.seminorm s 1) := by
  rw [C59_operator_seminorm h, one_mul]
  constructor
  · rintro t ⟨Z, hZ, rfl⟩
    have h1 := dot_le_mul_nuc (Z := Z) (opNorm_nonneg X) (opLe_opNorm X)
    have h2 := mul_le_mul_of_nonneg_left hZ (opNorm_nonneg X)
    unfold dot
    linarith
  · intro c hc
    rw [← npMax_eq h]
    refine Finset.sup'_le _ _ fun a _ => ?_
    refine hc ⟨recompose s (fun b => if b = a then 1 else 0), ?_, ?_⟩
    · rw [h.nuc_recompose]
      have : ∀ b, |if b = a then (1:ℝ) else 0| = if b = a then 1 else 0 := by intro b; split_ifs <;> simp
      simp [this]
    · unfold dot
      conv_rhs => rw [← h.recompose_D]
      rw [h.dot_recompose_recompose, sum_single s.D a 1, mul_one]

end Verif.Props
