import Verif.Spec.Svd
import Verif.Lemmas.L2
import Verif.Lemmas.Cone
import Verif.Lemmas.ProxGrad

/-! Facts on singular value decompositions, operator and nuclear norms. -/

set_option linter.unusedSectionVars false
set_option linter.unusedVariables false

namespace Verif.Lemmas
open Verif.Model Verif.Spec Verif.Model.Svd

variable {n p k : ℕ}

lemma norm2_eq {ι : Type*} [Fintype ι] (v : ι → ℝ) : norm2 v = npNorm v := rfl

/-- the matrix `u vᵀ` paired with `W` -/
lemma op_bilinear {W : Fin n × Fin p → ℝ} {c : ℝ} (hW : OpLe W c) {u : Fin n → ℝ} {v : Fin p → ℝ}
    (hu : ∑ i, u i * u i = 1) (hv : ∑ j, v j * v j = 1) : |∑ i, ∑ j, u i * v j * W (i, j)| ≤ c := by
  have hu' : npNorm u = 1 := by unfold npNorm; simp [pow_two, hu]
  have hv' : npNorm v = 1 := by unfold npNorm; simp [pow_two, hv]
  have h := hW v
  rw [norm2_eq, norm2_eq, hv', mul_one] at h
  have key : ∀ w : Fin n → ℝ, npNorm w = 1 → ∑ i, w i * ∑ j, W (i, j) * v j ≤ c := by
    intro w hw
    have := cauchy w (fun i => ∑ j, W (i, j) * v j)
    rw [hw, one_mul] at this
    exact le_trans this h
  have e : ∀ w : Fin n → ℝ, ∑ i, ∑ j, w i * v j * W (i, j) = ∑ i, w i * ∑ j, W (i, j) * v j := by
    intro w
    refine Finset.sum_congr rfl fun i _ => ?_
    rw [Finset.mul_sum]
    exact Finset.sum_congr rfl fun j _ => by ring
  rw [abs_le]
  constructor
  · have h2 := key (fun i => -u i) (by
      have := npNorm_smul (-1) u
      simp only [neg_mul, one_mul, abs_neg, abs_one, hu'] at this
      exact this)
    simp only [neg_mul, Finset.sum_neg_distrib] at h2
    rw [e]; linarith
  · rw [e]; exact key u hu'

/-- Bessel's inequality -/
lemma bessel {V : Fin (k + 1) → Fin p → ℝ} (hV : ∀ a b, ∑ j, V a j * V b j = if a = b then 1 else 0) (v : Fin p → ℝ) :
    ∑ a, (∑ j, V a j * v j) ^ 2 ≤ ∑ j, v j ^ 2 := by
  set c : Fin (k + 1) → ℝ := fun a => ∑ j, V a j * v j with hc
  have h0 : 0 ≤ ∑ j, (v j - ∑ a, c a * V a j) ^ 2 := Finset.sum_nonneg fun j _ => sq_nonneg _
  have e1 : ∑ j, v j * ∑ a, c a * V a j = ∑ a, c a ^ 2 := by
    simp only [Finset.mul_sum]
    rw [Finset.sum_comm]
    refine Finset.sum_congr rfl fun a _ => ?_
    rw [pow_two]
    conv_rhs => rw [hc]
    simp only
    rw [Finset.mul_sum]
    exact Finset.sum_congr rfl fun j _ => by rw [hc]; ring
  have e2 : ∑ j, (∑ a, c a * V a j) ^ 2 = ∑ a, c a ^ 2 := by
    have : ∀ j, (∑ a, c a * V a j) ^ 2 = ∑ a, ∑ b, c a * c b * (V a j * V b j) := by
      intro j
      rw [pow_two, Finset.sum_mul_sum]
      exact Finset.sum_congr rfl fun a _ => Finset.sum_congr rfl fun b _ => by ring
    simp only [this]
    rw [Finset.sum_comm]
    refine Finset.sum_congr rfl fun a _ => ?_
    rw [Finset.sum_comm]
    simp only [← Finset.mul_sum, hV]
    simp [pow_two]
  have e3 : ∑ j, (v j - ∑ a, c a * V a j) ^ 2 =
      ∑ j, v j ^ 2 - 2 * ∑ j, v j * ∑ a, c a * V a j + ∑ j, (∑ a, c a * V a j) ^ 2 := by
    rw [Finset.mul_sum, ← Finset.sum_sub_distrib, ← Finset.sum_add_distrib]
    exact Finset.sum_congr rfl fun j _ => by ring
  rw [e3, e1, e2] at h0
  linarith

/-- orthonormal columns preserve lengths -/
lemma iso {U : Fin n → Fin (k + 1) → ℝ} (hU : ∀ a b, ∑ i, U i a * U i b = if a = b then 1 else 0) (c : Fin (k + 1) → ℝ) :
    ∑ i, (∑ a, U i a * c a) ^ 2 = ∑ a, c a ^ 2 := by
  have : ∀ i, (∑ a, U i a * c a) ^ 2 = ∑ a, ∑ b, c a * c b * (U i a * U i b) := by
    intro i
    rw [pow_two, Finset.sum_mul_sum]
    exact Finset.sum_congr rfl fun a _ => Finset.sum_congr rfl fun b _ => by ring
  simp only [this]
  rw [Finset.sum_comm]
  refine Finset.sum_congr rfl fun a _ => ?_
  rw [Finset.sum_comm]
  simp only [← Finset.mul_sum, hU]
  simp [pow_two]

section
variable {X : Fin n × Fin p → ℝ} {s : Triple n p k}

lemma _root_.Verif.Spec.IsSvd.recompose_D (h : IsSvd X s) : recompose s s.D = X := by
  funext ⟨i, j⟩
  rw [h.eq]
  exact Finset.sum_congr rfl fun a _ => by ring

lemma recompose_sub (d e : Fin (k + 1) → ℝ) (ij : Fin n × Fin p) :
    recompose s (fun a => d a - e a) ij = recompose s d ij - recompose s e ij := by
  unfold recompose
  rw [← Finset.sum_sub_distrib]
  exact Finset.sum_congr rfl fun a _ => by ring

lemma recompose_neg (d : Fin (k + 1) → ℝ) (ij : Fin n × Fin p) :
    recompose s (fun a => -d a) ij = -recompose s d ij := by
  unfold recompose
  rw [← Finset.sum_neg_distrib]
  exact Finset.sum_congr rfl fun a _ => by ring

lemma recomposeKeep_eq {d : Fin (k + 1) → ℝ} (hd : ∀ a, 0 ≤ d a) : recomposeKeep s d = recompose s d := by
  funext ij
  unfold recomposeKeep recompose
  refine Finset.sum_subset (Finset.filter_subset _ _) fun a _ ha => ?_
  have : d a = 0 := by
    by_contra hne
    exact ha (Finset.mem_filter.2 ⟨Finset.mem_univ _, lt_of_le_of_ne (hd a) (Ne.symm hne)⟩)
  rw [this]; ring

/-- pairing of `U d V` with a matrix -/
lemma dot_recompose (d : Fin (k + 1) → ℝ) (W : Fin n × Fin p → ℝ) :
    ∑ ij, recompose s d ij * W ij = ∑ a, d a * ∑ i, ∑ j, s.U i a * s.V a j * W (i, j) := by
  rw [Fintype.sum_prod_type]
  simp only [recompose, Finset.sum_mul, Finset.mul_sum]
  have : ∀ i : Fin n, ∑ j : Fin p, ∑ a, s.U i a * (d a * s.V a j) * W (i, j) =
      ∑ a, ∑ j, s.U i a * (d a * s.V a j) * W (i, j) := fun i => Finset.sum_comm
  simp only [this]
  rw [Finset.sum_comm]
  exact Finset.sum_congr rfl fun a _ => Finset.sum_congr rfl fun i _ => Finset.sum_congr rfl fun j _ => by ring

lemma _root_.Verif.Spec.IsSvd.dot_recompose_recompose (h : IsSvd X s) (d e : Fin (k + 1) → ℝ) :
    ∑ ij, recompose s d ij * recompose s e ij = ∑ a, d a * e a := by
  rw [dot_recompose]
  refine Finset.sum_congr rfl fun a _ => ?_
  congr 1
  have : ∀ i j, s.U i a * s.V a j * recompose s e (i, j) =
      ∑ b, e b * (s.U i a * s.U i b) * (s.V a j * s.V b j) := by
    intro i j
    unfold recompose
    rw [Finset.mul_sum]
    exact Finset.sum_congr rfl fun b _ => by ring
  simp only [this]
  have e1 : ∀ i, ∑ j, ∑ b, e b * (s.U i a * s.U i b) * (s.V a j * s.V b j) = e a * (s.U i a * s.U i a) := by
    intro i
    rw [Finset.sum_comm]
    simp only [← Finset.mul_sum, h.right]
    simp
  simp only [e1, ← Finset.mul_sum, h.left]
  simp

/-- `U d V` lengthens vectors by at most `max |d|` -/
lemma _root_.Verif.Spec.IsSvd.opLe_recompose (h : IsSvd X s) {d : Fin (k + 1) → ℝ} {c : ℝ} (hc : 0 ≤ c) (hd : ∀ a, |d a| ≤ c) :
    OpLe (recompose s d) c := by
  intro v
  have e : (fun i => ∑ j, recompose s d (i, j) * v j) = fun i => ∑ a, s.U i a * (d a * ∑ j, s.V a j * v j) := by
    funext i
    simp only [recompose, Finset.sum_mul, Finset.mul_sum]
    rw [Finset.sum_comm]
    exact Finset.sum_congr rfl fun a _ => Finset.sum_congr rfl fun j _ => by ring
  rw [e]
  unfold norm2
  rw [iso h.left]
  have h1 : ∑ a, (d a * ∑ j, s.V a j * v j) ^ 2 ≤ c ^ 2 * ∑ j, v j ^ 2 := by
    calc ∑ a, (d a * ∑ j, s.V a j * v j) ^ 2 ≤ ∑ a, c ^ 2 * (∑ j, s.V a j * v j) ^ 2 := by
          refine Finset.sum_le_sum fun a _ => ?_
          rw [mul_pow]
          refine mul_le_mul_of_nonneg_right ?_ (sq_nonneg _)
          rw [← sq_abs (d a)]
          exact pow_le_pow_left₀ (abs_nonneg _) (hd a) 2
      _ = c ^ 2 * ∑ a, (∑ j, s.V a j * v j) ^ 2 := by rw [Finset.mul_sum]
      _ ≤ c ^ 2 * ∑ j, v j ^ 2 := mul_le_mul_of_nonneg_left (bessel h.right v) (sq_nonneg c)
  calc Real.sqrt (∑ a, (d a * ∑ j, s.V a j * v j) ^ 2) ≤ Real.sqrt (c ^ 2 * ∑ j, v j ^ 2) := Real.sqrt_le_sqrt h1
    _ = c * Real.sqrt (∑ j, v j ^ 2) := by rw [Real.sqrt_mul (sq_nonneg c), Real.sqrt_sq hc]

lemma _root_.Verif.Spec.IsSvd.dot_le_of_opLe (h : IsSvd X s) (d : Fin (k + 1) → ℝ) {W : Fin n × Fin p → ℝ} {c : ℝ} (hW : OpLe W c) :
    ∑ ij, recompose s d ij * W ij ≤ (∑ a, |d a|) * c := by
  rw [dot_recompose, Finset.sum_mul]
  refine Finset.sum_le_sum fun a _ => ?_
  have hb : |∑ i, ∑ j, s.U i a * s.V a j * W (i, j)| ≤ c :=
    op_bilinear hW (by simpa using h.left a a) (by simpa using h.right a a)
  calc d a * _ ≤ |d a * ∑ i, ∑ j, s.U i a * s.V a j * W (i, j)| := le_abs_self _
    _ = |d a| * |∑ i, ∑ j, s.U i a * s.V a j * W (i, j)| := abs_mul _ _
    _ ≤ |d a| * c := mul_le_mul_of_nonneg_left hb (abs_nonneg _)

end

/-! ### the two norms -/

lemma opLe_entry {W : Fin n × Fin p → ℝ} {c : ℝ} (hW : OpLe W c) (i : Fin n) (j : Fin p) : |W (i, j)| ≤ c := by
  classical
  have h := op_bilinear hW (u := fun i' => if i' = i then 1 else 0) (v := fun j' => if j' = j then 1 else 0)
    (by simp) (by simp)
  simpa [ite_mul, mul_ite, Finset.sum_ite_eq'] using h

lemma opLe_zero : OpLe (fun _ : Fin n × Fin p => (0:ℝ)) 1 := by
  intro v
  simp only [zero_mul, Finset.sum_const_zero, one_mul]
  have : norm2 (fun _ : Fin n => (0:ℝ)) = 0 := npNorm_zero
  rw [this]; exact npNorm_nonneg v

lemma nuc_bdd (Z : Fin n × Fin p → ℝ) : BddAbove {t | ∃ W, OpLe W 1 ∧ t = dot Z W} := by
  refine ⟨∑ ij, |Z ij|, ?_⟩
  rintro t ⟨W, hW, rfl⟩
  unfold dot
  refine Finset.sum_le_sum fun ij _ => ?_
  calc Z ij * W ij ≤ |Z ij * W ij| := le_abs_self _
    _ = |Z ij| * |W ij| := abs_mul _ _
    _ ≤ |Z ij| * 1 := mul_le_mul_of_nonneg_left (opLe_entry hW ij.1 ij.2) (abs_nonneg _)
    _ = |Z ij| := mul_one _

lemma dot_le_nuc {Z W : Fin n × Fin p → ℝ} (hW : OpLe W 1) : dot Z W ≤ nucNorm Z :=
  le_csSup (nuc_bdd Z) ⟨W, hW, rfl⟩

lemma nuc_le {Z : Fin n × Fin p → ℝ} {c : ℝ} (h : ∀ W, OpLe W 1 → dot Z W ≤ c) : nucNorm Z ≤ c := by
  refine csSup_le ⟨_, _, opLe_zero, rfl⟩ ?_
  rintro t ⟨W, hW, rfl⟩
  exact h W hW

lemma nuc_nonneg (Z : Fin n × Fin p → ℝ) : 0 ≤ nucNorm Z := by
  have := dot_le_nuc (Z := Z) (opLe_zero (n := n) (p := p))
  simpa [dot] using this

lemma dot_le_mul_nuc {Z W : Fin n × Fin p → ℝ} {c : ℝ} (hc : 0 ≤ c) (hW : OpLe W c) :
    ∑ ij, W ij * Z ij ≤ c * nucNorm Z := by
  rcases hc.eq_or_lt with rfl | hc
  · have : ∀ ij, W ij = 0 := fun ij => abs_eq_zero.1 (le_antisymm (opLe_entry hW ij.1 ij.2) (abs_nonneg _))
    simp [this]
  · have h1 : OpLe (fun ij => c⁻¹ * W ij) 1 := by
      intro v
      have e : (fun i => ∑ j, c⁻¹ * W (i, j) * v j) = fun i => c⁻¹ * ∑ j, W (i, j) * v j := by
        funext i; rw [Finset.mul_sum]; exact Finset.sum_congr rfl fun j _ => by ring
      rw [e, norm2_eq, npNorm_smul, abs_of_pos (inv_pos.2 hc), one_mul]
      have := hW v
      rw [norm2_eq, norm2_eq] at this
      rw [norm2_eq]
      calc c⁻¹ * npNorm (fun i => ∑ j, W (i, j) * v j) ≤ c⁻¹ * (c * npNorm v) :=
            mul_le_mul_of_nonneg_left this (inv_pos.2 hc).le
        _ = npNorm v := by field_simp
    have h2 := dot_le_nuc (Z := Z) h1
    have e : ∑ ij, W ij * Z ij = c * dot Z fun ij => c⁻¹ * W ij := by
      unfold dot
      rw [Finset.mul_sum]
      refine Finset.sum_congr rfl fun ij _ => ?_
      field_simp
    rw [e]
    exact mul_le_mul_of_nonneg_left h2 hc.le

lemma opNorm_le {W : Fin n × Fin p → ℝ} {c : ℝ} (hc : 0 ≤ c) (hW : OpLe W c) : opNorm W ≤ c :=
  csInf_le ⟨0, fun _ h => h.1⟩ ⟨hc, hW⟩

lemma op_nonempty (W : Fin n × Fin p → ℝ) : {c | 0 ≤ c ∧ OpLe W c}.Nonempty := by
  refine ⟨npNorm (fun i => npNorm fun j => W (i, j)), npNorm_nonneg _, fun v => ?_⟩
  rw [norm2_eq, norm2_eq]
  refine abs_le_of_sq_le_sq' ?_ (mul_nonneg (npNorm_nonneg _) (npNorm_nonneg _)) |>.2
  rw [mul_pow, sq_npNorm, sq_npNorm, Finset.sum_mul]
  refine Finset.sum_le_sum fun i _ => ?_
  rw [sq_npNorm, sq_npNorm]
  exact Finset.sum_mul_sq_le_sq_mul_sq _ _ _

lemma opNorm_nonneg (W : Fin n × Fin p → ℝ) : 0 ≤ opNorm W :=
  le_csInf (op_nonempty W) fun _ h => h.1

lemma opLe_opNorm (W : Fin n × Fin p → ℝ) : OpLe W (opNorm W) := by
  intro v
  by_cases hv : norm2 v = 0
  · obtain ⟨c, _, hc⟩ := op_nonempty W
    have := hc v
    rw [hv, mul_zero] at this ⊢
    exact this
  · have hv0 : 0 < norm2 v := lt_of_le_of_ne (npNorm_nonneg v) (Ne.symm hv)
    rw [← div_le_iff₀ hv0]
    refine le_csInf (op_nonempty W) fun c hc => ?_
    rw [div_le_iff₀ hv0]
    exact hc.2 v

lemma opLe_mono {W : Fin n × Fin p → ℝ} {c d : ℝ} (h : OpLe W c) (hcd : c ≤ d) : OpLe W d :=
  fun v => le_trans (h v) (mul_le_mul_of_nonneg_right hcd (npNorm_nonneg v))

lemma opLe_iff (W : Fin n × Fin p → ℝ) {c : ℝ} (hc : 0 ≤ c) : OpLe W c ↔ opNorm W ≤ c :=
  ⟨opNorm_le hc, fun h => opLe_mono (opLe_opNorm W) h⟩

section
variable {X : Fin n × Fin p → ℝ} {s : Triple n p k}

lemma _root_.Verif.Spec.IsSvd.nuc_recompose_le (h : IsSvd X s) (d : Fin (k + 1) → ℝ) : nucNorm (recompose s d) ≤ ∑ a, |d a| :=
  nuc_le fun W hW => by have := h.dot_le_of_opLe d hW; rwa [mul_one] at this

lemma _root_.Verif.Spec.IsSvd.nuc_recompose (h : IsSvd X s) (d : Fin (k + 1) → ℝ) : nucNorm (recompose s d) = ∑ a, |d a| := by
  refine le_antisymm (h.nuc_recompose_le d) ?_
  have h1 : OpLe (recompose s fun a => if 0 ≤ d a then 1 else -1) 1 :=
    h.opLe_recompose zero_le_one fun a => by split_ifs <;> simp
  have h2 := dot_le_nuc (Z := recompose s d) h1
  unfold dot at h2
  rw [h.dot_recompose_recompose] at h2
  refine le_trans (le_of_eq (Finset.sum_congr rfl fun a _ => ?_)) h2
  split_ifs with h0
  · rw [abs_of_nonneg h0, mul_one]
  · rw [abs_of_neg (not_le.1 h0)]; ring

lemma _root_.Verif.Spec.IsSvd.op_recompose_le (h : IsSvd X s) {d : Fin (k + 1) → ℝ} {c : ℝ} (hc : 0 ≤ c) (hd : ∀ a, |d a| ≤ c) :
    opNorm (recompose s d) ≤ c := opNorm_le hc (h.opLe_recompose hc hd)

lemma _root_.Verif.Spec.IsSvd.le_op_recompose (h : IsSvd X s) (d : Fin (k + 1) → ℝ) (a : Fin (k + 1)) :
    |d a| ≤ opNorm (recompose s d) := by
  classical
  have h1 := op_bilinear (opLe_opNorm (recompose s d)) (u := fun i => s.U i a) (v := s.V a)
    (by simpa using h.left a a) (by simpa using h.right a a)
  have h2 := h.dot_recompose_recompose (fun b => if b = a then 1 else 0) d
  rw [dot_recompose] at h2
  simp only [ite_mul, one_mul, zero_mul, Finset.sum_ite_eq', Finset.mem_univ, if_true] at h2
  rwa [h2] at h1

end

/-! ### variational inequalities of proximal points -/

lemma subgrad_of_isProx {m : ℕ} {L : ℝ} (hL : 0 < L) {h : (Fin m → ℝ) → ℝ} {S : Set (Fin m → ℝ)} (hh : IsConvexFnOn h S)
    {x q : Fin m → ℝ} (hq : IsProxOn L h S x q) (u : Fin m → ℝ) (hu : u ∈ S) :
    h q + L * ∑ i, (x i - q i) * (u i - q i) ≤ h u := by
  have h1 := three_point hL hh (x := x) (g := fun _ => 0) (z := q) ⟨hq.1, fun w hw hne => by
    have := hq.2 w hw hne
    simpa [dot] using this⟩ u hu
  have h2 := sqDist_expand u q x
  simp only [dot, zero_mul, Finset.sum_const_zero] at h1
  rw [h2] at h1
  nlinarith

lemma vi_of_isProj {m : ℕ} {S : Set (Fin m → ℝ)} (hS : IsConvexFnOn (fun _ => 0) S) {x q : Fin m → ℝ} (hq : IsProj S x q)
    (u : Fin m → ℝ) (hu : u ∈ S) : ∑ i, (x i - q i) * (u i - q i) ≤ 0 := by
  have := subgrad_of_isProx (L := 2) (by norm_num) hS (x := x) (q := q) ⟨hq.1, fun w hw hne => by
    have := hq.2 w hw hne
    simpa using this⟩ u hu
  linarith

/-- orthogonality and polarity of the residual of the projection on a convex cone -/
lemma cone_residual {ι : Type*} [Fintype ι] {C : Set ((ι → ℝ) × ℝ)} (hC : IsConvexCone C) {x q : (ι → ℝ) × ℝ}
    (h : IsProjPair C x q) :
    (∀ z ∈ C, ∑ i, (x.1 i - q.1 i) * z.1 i + (x.2 - q.2) * z.2 ≤ 0) ∧
      ∑ i, (x.1 i - q.1 i) * q.1 i + (x.2 - q.2) * q.2 = 0 := by
  have hm := moreau_pair hC h
  have hpol : ∀ z ∈ C, ∑ i, (x.1 i - q.1 i) * z.1 i + (x.2 - q.2) * z.2 ≤ 0 := fun z hz => hm.1 z hz
  refine ⟨hpol, le_antisymm (hpol q h.1) ?_⟩
  -- compare `q` with `(1 - t) q`
  set A := ∑ i, (x.1 i - q.1 i) * q.1 i + (x.2 - q.2) * q.2 with hA
  by_contra hneg
  push Not at hneg
  set N := ∑ i, q.1 i ^ 2 + q.2 ^ 2 with hN
  have hN0 : 0 ≤ N := add_nonneg (Finset.sum_nonneg fun _ _ => sq_nonneg _) (sq_nonneg _)
  set t : ℝ := min 1 (-A / (N + 1)) with ht
  have ht0 : 0 < t := lt_min one_pos (div_pos (by linarith) (by linarith))
  have ht1 : t ≤ 1 := min_le_left _ _
  have ht2 : t * (N + 1) ≤ -A := by
    have : t ≤ -A / (N + 1) := min_le_right _ _
    rwa [le_div_iff₀ (by linarith)] at this
  have hmem : ((fun i => (1 - t) * q.1 i, (1 - t) * q.2) : (ι → ℝ) × ℝ) ∈ C := by
    have := hC q h.1 q h.1 (1 - t) 0 (by linarith) le_rfl
    simpa using this
  have hle : sqDist q.1 x.1 + (q.2 - x.2) ^ 2 ≤
      sqDist (fun i => (1 - t) * q.1 i) x.1 + ((1 - t) * q.2 - x.2) ^ 2 := by
    by_cases e : ((fun i => (1 - t) * q.1 i, (1 - t) * q.2) : (ι → ℝ) × ℝ) = q
    · have e1 : (fun i => (1 - t) * q.1 i) = q.1 := congrArg Prod.fst e
      have e2 : (1 - t) * q.2 = q.2 := congrArg Prod.snd e
      rw [e1, e2]
    · exact (h.2 _ hmem e).le
  have hexp : sqDist (fun i => (1 - t) * q.1 i) x.1 = sqDist q.1 x.1 + 2 * t * ∑ i, (x.1 i - q.1 i) * q.1 i +
      t ^ 2 * ∑ i, q.1 i ^ 2 := by
    unfold sqDist
    rw [Finset.mul_sum, Finset.mul_sum, ← Finset.sum_add_distrib, ← Finset.sum_add_distrib]
    exact Finset.sum_congr rfl fun i _ => by ring
  rw [hexp] at hle
  have h3 : 0 ≤ t * (2 * A + t * N) := by rw [hA, hN]; nlinarith
  have h4 : 0 ≤ 2 * A + t * N := nonneg_of_mul_nonneg_right h3 ht0
  nlinarith

end Verif.Lemmas
