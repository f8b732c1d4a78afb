import Verif.Props.C59_Svd
import Verif.Props.C04_Epigraph

/-!
# C60: epigraph cones of the nuclear norm and of the operator norm

For every matrix `X`, number `norm` and singular value decomposition of `X`: `cone_prox` of the four cones is the Euclidean
projection of `(X, norm)` on the cone, the members of the two conjugate pairs are polar to each other, and `constraint` is the
tolerance test — except for `nuclear_norm_epigraph.constraint`, which leaves out the largest singular value.
-/

set_option linter.unusedSectionVars false
set_option linter.unusedVariables false

namespace Verif.Props
open Verif.Model Verif.Spec Verif.Lemmas Verif.Model.Svd

variable {n p k : ℕ} {X : Fin n × Fin p → ℝ} {s : Triple n p k}

private lemma l1_cone (m : ℕ) : IsConvexCone {z : (Fin m → ℝ) × ℝ | ∑ i, |z.1 i| ≤ z.2} := by
  intro x hx y hy a b ha hb
  have hx' : ∑ i, |x.1 i| ≤ x.2 := hx
  have hy' : ∑ i, |y.1 i| ≤ y.2 := hy
  change ∑ i, |a * x.1 i + b * y.1 i| ≤ a * x.2 + b * y.2
  calc ∑ i, |a * x.1 i + b * y.1 i| ≤ ∑ i, (a * |x.1 i| + b * |y.1 i|) := by
        refine Finset.sum_le_sum fun i _ => le_trans (abs_add_le _ _) ?_
        rw [abs_mul, abs_mul, abs_of_nonneg ha, abs_of_nonneg hb]
    _ = a * ∑ i, |x.1 i| + b * ∑ i, |y.1 i| := by rw [Finset.sum_add_distrib, Finset.mul_sum, Finset.mul_sum]
    _ ≤ a * x.2 + b * y.2 := add_le_add (mul_le_mul_of_nonneg_left hx' ha) (mul_le_mul_of_nonneg_left hy' hb)

/-- what the vector projection gives for the matrices: bounds on the residual and orthogonality -/
private lemma epi_facts {d : Fin (k + 1) → ℝ} {y : ℝ} {e : (Fin (k + 1) → ℝ) × ℝ}
    (he : IsProjPair {z | ∑ i, |z.1 i| ≤ z.2} (d, y) e) :
    (∀ a, |d a - e.1 a| ≤ -(y - e.2)) ∧ ∑ a, (d a - e.1 a) * e.1 a + (y - e.2) * e.2 = 0 := by
  obtain ⟨h1, h2⟩ := cone_residual (l1_cone (k + 1)) he
  refine ⟨fun a => ?_, h2⟩
  have key : ∀ t : ℝ, |t| ≤ 1 → (d a - e.1 a) * t + (y - e.2) ≤ 0 := by
    intro t ht
    have := h1 (fun i => if i = a then t else 0, 1) (by
      change ∑ i, |if i = a then t else 0| ≤ 1
      have : ∀ i, |if i = a then t else 0| = if i = a then |t| else 0 := by intro i; split_ifs <;> simp
      simp only [this]
      simpa using ht)
    simp only [mul_ite, mul_zero, Finset.sum_ite_eq', Finset.mem_univ, if_true, mul_one] at this
    exact this
  rw [abs_le]
  have k1 := key 1 (by simp)
  have k2 := key (-1) (by simp)
  constructor <;> linarith

/-- projection of `(U d V, y)` on the epigraph of the nuclear norm -/
private lemma proj_nuc (h : IsSvd X s) {d : Fin (k + 1) → ℝ} {y : ℝ} {e : (Fin (k + 1) → ℝ) × ℝ}
    (he : IsProjPair {z | ∑ i, |z.1 i| ≤ z.2} (d, y) e) :
    IsProjPair {z : (Fin n × Fin p → ℝ) × ℝ | nucNorm z.1 ≤ z.2} (recompose s d, y) (recompose s e.1, e.2) := by
  obtain ⟨hR, h0⟩ := epi_facts he
  refine isProjPair_of_vi ?_ fun z hz => ?_
  · exact le_trans (h.nuc_recompose_le e.1) he.1
  · have hz' : nucNorm z.1 ≤ z.2 := hz
    have hc : 0 ≤ -(y - e.2) := le_trans (abs_nonneg _) (hR 0)
    have h1 := dot_le_mul_nuc (Z := z.1) hc (h.opLe_recompose (d := fun a => d a - e.1 a) hc hR)
    have h2 := mul_le_mul_of_nonneg_left hz' hc
    have h3 : ∑ ij, (recompose s d ij - recompose s e.1 ij) * (z.1 ij - recompose s e.1 ij) =
        ∑ ij, recompose s (fun a => d a - e.1 a) ij * z.1 ij - ∑ a, (d a - e.1 a) * e.1 a := by
      rw [← h.dot_recompose_recompose, ← Finset.sum_sub_distrib]
      exact Finset.sum_congr rfl fun ij _ => by rw [recompose_sub]; ring
    dsimp only
    rw [h3]
    linarith

/-- projection of `(U d V, y)` on the polar cone -/
private lemma proj_nuc_polar (h : IsSvd X s) {d : Fin (k + 1) → ℝ} {y : ℝ} {e : (Fin (k + 1) → ℝ) × ℝ}
    (he : IsProjPair {z | ∑ i, |z.1 i| ≤ z.2} (d, y) e) :
    IsProjPair {z : (Fin n × Fin p → ℝ) × ℝ | opNorm z.1 ≤ -z.2} (recompose s d, y)
      (recompose s (fun a => d a - e.1 a), y - e.2) := by
  obtain ⟨hR, h0⟩ := epi_facts he
  have hc : 0 ≤ -(y - e.2) := le_trans (abs_nonneg _) (hR 0)
  refine isProjPair_of_vi ?_ fun z hz => ?_
  · exact h.op_recompose_le hc hR
  · have hz' : opNorm z.1 ≤ -z.2 := hz
    have he1 : ∑ i, |e.1 i| ≤ e.2 := he.1
    have h1 := h.dot_le_of_opLe e.1 (opLe_opNorm z.1)
    have h2 : (∑ i, |e.1 i|) * opNorm z.1 ≤ e.2 * -z.2 :=
      mul_le_mul he1 hz' (opNorm_nonneg _) (le_trans (Finset.sum_nonneg fun i _ => abs_nonneg _) he1)
    have h3 : ∑ ij, (recompose s d ij - recompose s (fun a => d a - e.1 a) ij) *
          (z.1 ij - recompose s (fun a => d a - e.1 a) ij) =
        ∑ ij, recompose s e.1 ij * z.1 ij - ∑ a, (d a - e.1 a) * e.1 a := by
      have h4 := h.dot_recompose_recompose (fun a => d a - e.1 a) e.1
      rw [← h4, ← Finset.sum_sub_distrib]
      exact Finset.sum_congr rfl fun ij _ => by rw [recompose_sub]; ring
    dsimp only
    rw [h3]
    linarith

/-- the operator norm does not change under sign change -/
lemma op_neg (W : Fin n × Fin p → ℝ) : opNorm (fun ij => -W ij) = opNorm W := by
  have key : ∀ c, OpLe (fun ij => -W ij) c ↔ OpLe W c := by
    intro c
    unfold OpLe
    refine forall_congr' fun v => ?_
    have : norm2 (fun i => ∑ j, -W (i, j) * v j) = norm2 (fun i => ∑ j, W (i, j) * v j) := by
      unfold norm2
      congr 1
      refine Finset.sum_congr rfl fun i _ => ?_
      simp only [neg_mul, Finset.sum_neg_distrib, neg_sq]
    rw [this]
  unfold opNorm
  simp only [key]

lemma nuc_neg (Z : Fin n × Fin p → ℝ) : nucNorm (fun ij => -Z ij) = nucNorm Z := by
  have key : ∀ Z : Fin n × Fin p → ℝ, nucNorm (fun ij => -Z ij) ≤ nucNorm Z := by
    intro Z
    refine nuc_le fun W hW => ?_
    have h1 : OpLe (fun ij => -W ij) 1 := (opLe_iff _ zero_le_one).2 (by
      rw [op_neg]; exact (opLe_iff _ zero_le_one).1 hW)
    have h2 := dot_le_nuc (Z := Z) h1
    have e : dot (fun ij => -Z ij) W = dot Z fun ij => -W ij := by
      unfold dot; exact Finset.sum_congr rfl fun ij _ => by ring
    rw [e]; exact h2
  refine le_antisymm (key Z) ?_
  have := key fun ij => -Z ij
  simpa using this

/-- `nuclear_norm_epigraph.cone_prox` is the projection on `{(X, t) : ‖X‖_* ≤ t}`. -/
theorem C60_nuclear_epigraph (h : IsSvd X s) (norm : ℝ) :
    ∃ P, NuclearEpi.coneProx s norm = some P ∧
      IsProjPair {z : (Fin n × Fin p → ℝ) × ℝ | nucNorm z.1 ≤ z.2} (X, norm) P := by
  obtain ⟨e, he, hp⟩ := C04_projl1_epigraph s.D norm
  refine ⟨(recompose s e.1, e.2), by unfold NuclearEpi.coneProx; rw [he]; rfl, ?_⟩
  have := proj_nuc h hp
  rwa [h.recompose_D] at this

/-- `nuclear_norm_epigraph_polar.cone_prox` is the projection on `{(X, t) : ‖X‖_op ≤ -t}`. -/
theorem C60_nuclear_epigraph_polar (h : IsSvd X s) (norm : ℝ) :
    ∃ P, NuclearEpiPolar.coneProx s norm = some P ∧
      IsProjPair {z : (Fin n × Fin p → ℝ) × ℝ | opNorm z.1 ≤ -z.2} (X, norm) P := by
  obtain ⟨e, he, hp⟩ := C04_projl1_epigraph s.D norm
  refine ⟨(recompose s (fun a => s.D a - e.1 a), norm - e.2), by unfold NuclearEpiPolar.coneProx; rw [he]; rfl, ?_⟩
  have := proj_nuc_polar h hp
  rwa [h.recompose_D] at this

/-- `operator_norm_epigraph.cone_prox` is the projection on `{(X, t) : ‖X‖_op ≤ t}`. -/
theorem C60_operator_epigraph (h : IsSvd X s) (norm : ℝ) :
    ∃ P, OperatorEpi.coneProx s norm = some P ∧
      IsProjPair {z : (Fin n × Fin p → ℝ) × ℝ | opNorm z.1 ≤ z.2} (X, norm) P := by
  obtain ⟨e, he, hp⟩ := C04_projl1_epigraph (fun a => -s.D a) (-norm)
  refine ⟨(recompose s (fun a => s.D a + e.1 a), norm + e.2), by unfold OperatorEpi.coneProx; rw [he]; rfl, ?_⟩
  have h1 := proj_nuc_polar h hp
  have e1 : recompose s (fun a => -s.D a) = fun ij => -X ij := by
    funext ij; rw [recompose_neg, h.recompose_D]
  rw [e1] at h1
  have h2 := isProjPair_neg (x := (X, norm)) h1
  have eset : {z : (Fin n × Fin p → ℝ) × ℝ | (fun i => -z.1 i, -z.2) ∈ {z : (Fin n × Fin p → ℝ) × ℝ | opNorm z.1 ≤ -z.2}} =
      {z | opNorm z.1 ≤ z.2} := by
    ext z
    change opNorm (fun i => -z.1 i) ≤ - -z.2 ↔ opNorm z.1 ≤ z.2
    rw [op_neg, neg_neg]
  rw [eset] at h2
  dsimp only at h2
  have e2 : (fun ij => -recompose s (fun a => -s.D a - e.1 a) ij) = recompose s (fun a => s.D a + e.1 a) := by
    funext ij
    rw [← recompose_neg]
    congr 1
    funext a; ring
  have e3 : -(-norm - e.2) = norm + e.2 := by ring
  rw [e2, e3] at h2
  exact h2

/-- `operator_norm_epigraph_polar.cone_prox` is the projection on `{(X, t) : ‖X‖_* ≤ -t}`. -/
theorem C60_operator_epigraph_polar (h : IsSvd X s) (norm : ℝ) :
    ∃ P, OperatorEpiPolar.coneProx s norm = some P ∧
      IsProjPair {z : (Fin n × Fin p → ℝ) × ℝ | nucNorm z.1 ≤ -z.2} (X, norm) P := by
  obtain ⟨e, he, hp⟩ := C04_projl1_epigraph (fun a => -s.D a) (-norm)
  refine ⟨(recompose s (fun a => -e.1 a), -e.2), by unfold OperatorEpiPolar.coneProx; rw [he]; rfl, ?_⟩
  have h1 := proj_nuc h hp
  have e1 : recompose s (fun a => -s.D a) = fun ij => -X ij := by
    funext ij; rw [recompose_neg, h.recompose_D]
  rw [e1] at h1
  have h2 := isProjPair_neg (x := (X, norm)) h1
  have eset : {z : (Fin n × Fin p → ℝ) × ℝ | (fun i => -z.1 i, -z.2) ∈ {z : (Fin n × Fin p → ℝ) × ℝ | nucNorm z.1 ≤ z.2}} =
      {z | nucNorm z.1 ≤ -z.2} := by
    ext z
    change nucNorm (fun i => -z.1 i) ≤ -z.2 ↔ nucNorm z.1 ≤ -z.2
    rw [nuc_neg]
  rw [eset] at h2
  dsimp only at h2
  have e2 : (fun ij => -recompose s e.1 ij) = recompose s (fun a => -e.1 a) := by
    funext ij; rw [recompose_neg]
  rw [e2] at h2
  exact h2

/-- The cone of `nuclear_norm_epigraph_polar` is the polar of the cone of `nuclear_norm_epigraph`. -/
theorem C60_nuclear_polar (W : Fin n × Fin p → ℝ) (w : ℝ) :
    opNorm W ≤ -w ↔ ∀ (Z : Fin n × Fin p → ℝ) (t : ℝ), nucNorm Z ≤ t → dot W Z + w * t ≤ 0 := by
  constructor
  · intro hW Z t hZ
    have h1 := dot_le_mul_nuc (Z := Z) (opNorm_nonneg W) (opLe_opNorm W)
    have h2 : opNorm W * nucNorm Z ≤ -w * t := mul_le_mul hW hZ (nuc_nonneg Z) (le_trans (opNorm_nonneg W) hW)
    unfold dot
    linarith
  · intro hall
    have hw : 0 ≤ -w := by
      have h0 : nucNorm (fun _ : Fin n × Fin p => (0:ℝ)) ≤ 1 := nuc_le fun V hV => by simp [dot]
      have := hall _ 1 h0
      simp [dot] at this
      linarith
    refine opNorm_le hw fun v => ?_
    -- test matrix `u vᵀ` with `u = W v`
    set u : Fin n → ℝ := fun i => ∑ j, W (i, j) * v j with hu
    have hn : nucNorm (fun ij : Fin n × Fin p => u ij.1 * v ij.2) ≤ npNorm u * npNorm v := by
      refine nuc_le fun V hV => ?_
      have h1 := cauchy u (fun i => ∑ j, V (i, j) * v j)
      have h2 := hV v
      rw [norm2_eq, norm2_eq, one_mul] at h2
      have e : dot (fun ij : Fin n × Fin p => u ij.1 * v ij.2) V = ∑ i, u i * ∑ j, V (i, j) * v j := by
        unfold dot
        rw [Fintype.sum_prod_type]
        refine Finset.sum_congr rfl fun i _ => ?_
        rw [Finset.mul_sum]
        exact Finset.sum_congr rfl fun j _ => by ring
      rw [e]
      exact le_trans h1 (mul_le_mul_of_nonneg_left h2 (npNorm_nonneg u))
    have h3 := hall _ _ hn
    have e : dot W (fun ij : Fin n × Fin p => u ij.1 * v ij.2) = npNorm u ^ 2 := by
      rw [sq_npNorm]
      unfold dot
      rw [Fintype.sum_prod_type]
      refine Finset.sum_congr rfl fun i _ => ?_
      rw [pow_two]
      conv_rhs => rw [hu]
      simp only
      rw [Finset.sum_mul]
      exact Finset.sum_congr rfl fun j _ => by rw [hu]; ring
    rw [e] at h3
    rw [norm2_eq, norm2_eq]
    rcases (npNorm_nonneg u).eq_or_lt with h0 | h0
    · rw [← h0]; exact mul_nonneg hw (npNorm_nonneg v)
    · have : npNorm u * (npNorm u + w * npNorm v) ≤ npNorm u * 0 := by nlinarith
      have := le_of_mul_le_mul_left this h0
      linarith

/-- The cone of `operator_norm_epigraph_polar` is the polar of the cone of `operator_norm_epigraph`. -/
theorem C60_operator_polar (Z : Fin n × Fin p → ℝ) (w : ℝ) :
    nucNorm Z ≤ -w ↔ ∀ (W : Fin n × Fin p → ℝ) (t : ℝ), opNorm W ≤ t → dot Z W + w * t ≤ 0 := by
  constructor
  · intro hZ W t hW
    have h1 := dot_le_mul_nuc (Z := Z) (opNorm_nonneg W) (opLe_opNorm W)
    have h2 : opNorm W * nucNorm Z ≤ t * -w := mul_le_mul hW hZ (nuc_nonneg Z) (le_trans (opNorm_nonneg W) hW)
    have e : dot Z W = ∑ ij, W ij * Z ij := by unfold dot; exact Finset.sum_congr rfl fun _ _ => by ring
    rw [e]; linarith
  · intro hall
    refine nuc_le fun W hW => ?_
    have := hall W 1 ((opLe_iff W zero_le_one).1 hW)
    linarith

private lemma npMax_op (h : IsSvd X s) : npMax s.D = opNorm X := by
  have := C59_operator_seminorm h 1
  simpa [Operator.seminorm] using this

private lemma sum_nuc (h : IsSvd X s) : ∑ a, |s.D a| = nucNorm X := by
  have := C59_nuclear_seminorm h 1
  simpa [Nuclear.seminorm] using this

/-- `nuclear_norm_epigraph_polar.constraint` accepts exactly `‖X‖_op ≤ -(1 + tol) t`. -/
theorem C60_nuclear_polar_constraint (h : IsSvd X s) (norm : ℝ) :
    NuclearEpiPolar.constraint s norm = open Classical in if opNorm X ≤ (1 + 1 / 10 ^ 5) * -norm then 0 else ⊤ := by
  rw [← npMax_op h]; unfold NuclearEpiPolar.constraint atomTol; congr

/-- `operator_norm_epigraph.constraint` accepts exactly `‖X‖_op ≤ (1 + tol) t`. -/
theorem C60_operator_constraint (h : IsSvd X s) (norm : ℝ) :
    OperatorEpi.constraint s norm = open Classical in if opNorm X ≤ (1 + 1 / 10 ^ 5) * norm then 0 else ⊤ := by
  rw [← npMax_op h]; unfold OperatorEpi.constraint atomTol; congr

/-- `operator_norm_epigraph_polar.constraint` accepts exactly `‖X‖_* ≤ -(1 + tol) t`. -/
theorem C60_operator_polar_constraint (h : IsSvd X s) (norm : ℝ) :
    OperatorEpiPolar.constraint s norm = open Classical in if nucNorm X ≤ (1 + 1 / 10 ^ 5) * -norm then 0 else ⊤ := by
  have e : ∑ a, s.D a = nucNorm X := by
    rw [← sum_nuc h]; exact Finset.sum_congr rfl fun a _ => (abs_of_nonneg (h.nonneg a)).symm
  rw [← e]; unfold OperatorEpiPolar.constraint atomTol; congr

/-- `nuclear_norm_epigraph.constraint` compares the nuclear norm *minus the operator norm* with `(1 + tol) t`; so it accepts
every member of the cone, and more.  Missing: it should reject what is outside the cone, which is false
(`C60_nuclear_constraint_fails`). -/
theorem C60_nuclear_constraint_partial (h : IsSvd X s) (norm : ℝ) :
    NuclearEpi.constraint s norm = (open Classical in if nucNorm X - opNorm X ≤ (1 + 1 / 10 ^ 5) * norm then 0 else ⊤) ∧
      (nucNorm X ≤ (1 + 1 / 10 ^ 5) * norm → NuclearEpi.constraint s norm = 0) := by
  have hmax : npMax s.D = s.D 0 := by
    apply le_antisymm
    · exact Finset.sup'_le _ _ fun a _ => h.sorted 0 a (Fin.zero_le a)
    · exact Finset.le_sup' s.D (Finset.mem_univ 0)
  have e : ∑ a : Fin k, |s.D a.succ| = nucNorm X - opNorm X := by
    rw [← npMax_op h, ← sum_nuc h, Fin.sum_univ_succ, hmax, abs_of_nonneg (h.nonneg 0)]; ring
  have h1 : NuclearEpi.constraint s norm =
      (open Classical in if nucNorm X - opNorm X ≤ (1 + 1 / 10 ^ 5) * norm then 0 else ⊤) := by
    rw [← e]; unfold NuclearEpi.constraint atomTol; congr
  refine ⟨h1, fun hle => ?_⟩
  rw [h1, if_pos]
  have := opNorm_nonneg X
  linarith

/-- Counterexample: the `1 × 1` matrix `(1)` with `t = 0` is accepted by `nuclear_norm_epigraph.constraint` although its nuclear
norm is `1`. -/
theorem C60_nuclear_constraint_fails :
    ∃ (X : Fin 1 × Fin 1 → ℝ) (s : Triple 1 1 0), IsSvd X s ∧ nucNorm X = 1 ∧ NuclearEpi.constraint s 0 = 0 := by
  have hs : IsSvd (n := 1) (p := 1) (k := 0) (fun _ => 1) ⟨fun _ _ => 1, fun _ => 1, fun _ _ => 1⟩ :=
    { eq := by intro i j; simp
      left := by intro a b; simp [Fin.fin_one_eq_zero a, Fin.fin_one_eq_zero b]
      right := by intro a b; simp [Fin.fin_one_eq_zero a, Fin.fin_one_eq_zero b]
      nonneg := by intro a; simp
      sorted := by intro a b _; simp }
  refine ⟨_, _, hs, ?_, ?_⟩
  · rw [← sum_nuc hs]; simp
  · simp [NuclearEpi.constraint]

end Verif.Props
