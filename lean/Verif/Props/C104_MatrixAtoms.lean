import Verif.Model.MultiRegression
import Verif.Props.C90_Atoms
import Verif.Props.C57_Block
import Verif.Props.C58_SparseBlock
import Verif.Props.C59_Svd

/-!
# C104: the matrix atoms meet the contract `IsAtomFor`

The atoms of `block_norms.py`, `sparse_group_block.py` and `svd_norms.py`, with any offset and any own quadratic of nonnegative
coefficient, stand for the documented function of the matrix of coefficients.
-/

set_option linter.unusedSectionVars false
set_option linter.unusedVariables false

namespace Verif.Props
open Verif.Spec Verif.Model Verif.Model.Fista Verif.Lemmas Verif.Model.Block

variable {n p k : ℕ}

/-! ### helpers -/

lemma flat_matOf (v : Fin (n * p) → ℝ) : flatten (matOf (n := n) (p := p) v) = v := by
  funext a
  show v (finProdFinEquiv (finProdFinEquiv.symm a)) = v a
  rw [Equiv.apply_symm_apply]

lemma matOf_flat (X : Mat n p) : matOf (flatten X) = X := by
  funext a; simp [flatten, matOf]

private lemma sqDist_mat (x y : Fin (n * p) → ℝ) : sqDist (matOf (n := n) (p := p) x) (matOf y) = sqDist x y := by
  unfold sqDist matOf
  exact Equiv.sum_comp finProdFinEquiv fun a => (x a - y a) ^ 2

private lemma matOf_ne {x y : Fin (n * p) → ℝ} (h : x ≠ y) : matOf (n := n) (p := p) x ≠ matOf y := fun e => h (by
  rw [← flat_matOf x, e, flat_matOf])

private lemma prox_flat {L : ℝ} {h : Mat n p → ℝ} {x : Fin (n * p) → ℝ} {P : Mat n p} (hp : IsProx L h (matOf x) P) :
    IsProxOn L (fun z => h (matOf z)) Set.univ x (flatten P) := by
  refine ⟨trivial, fun z _ hz => ?_⟩
  have := hp.2 (matOf z) trivial (fun e => hz (by rw [← e, flat_matOf]))
  dsimp only at this ⊢
  rw [← sqDist_mat (n := n) (p := p), ← sqDist_mat (n := n) (p := p) z, matOf_flat]
  exact this

private lemma proj_flat {S : Set (Mat n p)} {x : Fin (n * p) → ℝ} {P : Mat n p} (hp : IsProj S (matOf x) P) :
    IsProj {z : Fin (n * p) → ℝ | matOf z ∈ S} x (flatten P) := by
  refine ⟨by show matOf (flatten P) ∈ S; rw [matOf_flat]; exact hp.1, fun z hzS hz => ?_⟩
  have := hp.2 (matOf z) hzS (fun e => hz (by rw [← e, flat_matOf]))
  dsimp only at this ⊢
  rw [← sqDist_mat (n := n) (p := p), ← sqDist_mat (n := n) (p := p) z, matOf_flat]
  exact this

/-- a function of matrices below its chords -/
private def MatConvex (N : Mat n p → ℝ) : Prop :=
  ∀ X Y : Mat n p, ∀ a b : ℝ, 0 ≤ a → 0 ≤ b → a + b = 1 → N (fun ij => a * X ij + b * Y ij) ≤ a * N X + b * N Y

private lemma convex_flat {N : Mat n p → ℝ} (h : MatConvex N) {lam : ℝ} (hl : 0 ≤ lam) :
    IsConvexFnOn (fun z : Fin (n * p) → ℝ => lam * N (matOf z)) Set.univ := by
  intro x _ y _ a b ha hb hab
  refine ⟨trivial, ?_⟩
  have h1 := mul_le_mul_of_nonneg_left (h (matOf x) (matOf y) a b ha hb hab) hl
  have e : matOf (n := n) (p := p) (fun i => a * x i + b * y i) = fun ij => a * matOf x ij + b * matOf y ij := rfl
  dsimp only
  rw [e]
  linarith

private lemma sublevel_flat {N : Mat n p → ℝ} (h : MatConvex N) (b : ℝ) :
    IsConvexFnOn (fun _ => 0) {z : Fin (n * p) → ℝ | matOf z ∈ {Z | N Z ≤ b}} := by
  intro x hx y hy s t hs ht hst
  refine ⟨?_, by simp⟩
  have h1 := h (matOf x) (matOf y) s t hs ht hst
  have hx' : N (matOf x) ≤ b := hx
  have hy' : N (matOf y) ≤ b := hy
  show N (matOf fun i => s * x i + t * y i) ≤ b
  have e : matOf (n := n) (p := p) (fun i => s * x i + t * y i) = fun ij => s * matOf x ij + t * matOf y ij := rfl
  rw [e]
  have := mul_le_mul_of_nonneg_left hx' hs
  have := mul_le_mul_of_nonneg_left hy' ht
  have e : s * b + t * b = b := by rw [← add_mul, hst, one_mul]
  linarith

private lemma abs_comb (x y a b : ℝ) (ha : 0 ≤ a) (hb : 0 ≤ b) : |a * x + b * y| ≤ a * |x| + b * |y| := by
  refine (abs_add_le _ _).trans ?_
  rw [abs_mul, abs_mul, abs_of_nonneg ha, abs_of_nonneg hb]

private lemma norm1_convex : MatConvex (norm1 : Mat n p → ℝ) := by
  intro X Y a b ha hb hab
  unfold norm1
  rw [Finset.mul_sum, Finset.mul_sum, ← Finset.sum_add_distrib]
  exact Finset.sum_le_sum fun ij _ => abs_comb _ _ _ _ ha hb

private lemma row_comb (X Y : Mat n p) (a b : ℝ) (ha : 0 ≤ a) (hb : 0 ≤ b) (i : Fin n) :
    rowNorm2 (fun ij => a * X ij + b * Y ij) i ≤ a * rowNorm2 X i + b * rowNorm2 Y i :=
  npNorm_comb (fun j => X (i, j)) (fun j => Y (i, j)) ha hb

private lemma rows_convex : MatConvex (fun Z : Mat n p => ∑ i, rowNorm2 Z i) := by
  intro X Y a b ha hb hab
  dsimp only
  rw [Finset.mul_sum, Finset.mul_sum, ← Finset.sum_add_distrib]
  exact Finset.sum_le_sum fun i _ => row_comb X Y a b ha hb i

private lemma max_convex {ι : Type*} [Fintype ι] [Nonempty ι] {F : Mat n p → ι → ℝ}
    (h : ∀ (X Y : Mat n p) (a b : ℝ), 0 ≤ a → 0 ≤ b → ∀ i, F (fun ij => a * X ij + b * Y ij) i ≤ a * F X i + b * F Y i) :
    MatConvex (fun Z => maxCoord (F Z)) := by
  intro X Y a b ha hb hab
  refine Finset.sup'_le _ _ fun i _ => (h X Y a b ha hb i).trans ?_
  have h1 : F X i ≤ maxCoord (F X) := Finset.le_sup' (F X) (Finset.mem_univ i)
  have h2 : F Y i ≤ maxCoord (F Y) := Finset.le_sup' (F Y) (Finset.mem_univ i)
  exact add_le_add (mul_le_mul_of_nonneg_left h1 ha) (mul_le_mul_of_nonneg_left h2 hb)

private lemma sparse_convex {l1 l2 : ℝ} (h1 : 0 ≤ l1) (h2 : 0 ≤ l2) :
    MatConvex (fun Z : Mat n p => l1 * norm1 Z + l2 * ∑ i, rowNorm2 Z i) := by
  intro X Y a b ha hb hab
  have e1 := mul_le_mul_of_nonneg_left (norm1_convex X Y a b ha hb hab) h1
  have e2 := mul_le_mul_of_nonneg_left (rows_convex X Y a b ha hb hab) h2
  dsimp only at e2 ⊢
  linarith

private lemma nuc_convex : MatConvex (nucNorm : Mat n p → ℝ) := by
  intro X Y a b ha hb hab
  refine nuc_le fun W hW => ?_
  have e : dot (fun ij => a * X ij + b * Y ij) W = a * dot X W + b * dot Y W := by
    unfold dot
    rw [Finset.mul_sum, Finset.mul_sum, ← Finset.sum_add_distrib]
    exact Finset.sum_congr rfl fun ij _ => by ring
  rw [e]
  exact add_le_add (mul_le_mul_of_nonneg_left (dot_le_nuc hW) ha) (mul_le_mul_of_nonneg_left (dot_le_nuc hW) hb)

private lemma op_convex : MatConvex (opNorm : Mat n p → ℝ) := by
  intro X Y a b ha hb hab
  refine opNorm_le (add_nonneg (mul_nonneg ha (opNorm_nonneg X)) (mul_nonneg hb (opNorm_nonneg Y))) fun v => ?_
  have e : (fun i => ∑ j, (a * X (i, j) + b * Y (i, j)) * v j) =
      fun i => a * (∑ j, X (i, j) * v j) + b * ∑ j, Y (i, j) * v j := by
    funext i
    rw [Finset.mul_sum, Finset.mul_sum, ← Finset.sum_add_distrib]
    exact Finset.sum_congr rfl fun j _ => by ring
  show norm2 (fun i => ∑ j, (a * X (i, j) + b * Y (i, j)) * v j) ≤ _
  rw [e]
  have h1 := mul_le_mul_of_nonneg_left (opLe_opNorm X v) ha
  have h2 := mul_le_mul_of_nonneg_left (opLe_opNorm Y v) hb
  have h3 := npNorm_comb (fun i => ∑ j, X (i, j) * v j) (fun i => ∑ j, Y (i, j) * v j) ha hb
  simp only [norm2_eq] at *
  linarith

private lemma ofTop_ne (v : WithTop ℝ) : ObjVal.ofTop v ≠ .nan := by
  cases v with
  | top => exact fun h => by cases h
  | coe a => exact fun h => by cases h

private lemma all_some (P : Mat n p) : allNumbers (fun ij => some (P ij)) = some P := if_pos fun _ => rfl

/-- a matrix class in Lagrange form whose `lagrange_prox` is the proximal map of `lam N` -/
private lemma mat_lagrange {N : Mat (n + 1) (p + 1) → ℝ} {sem con lag bnd} {lam : ℝ} (hl : 0 ≤ lam)
    (hprox : ∀ X L, 0 < L → ∃ P, lag X L lam = some P ∧ IsProx L (fun Z => lam * N Z) X P)
    (hval : ∀ X, sem X lam = ObjVal.num (lam * N X)) (hc : MatConvex N)
    (offset : Option (PyVec (Fin ((n + 1) * (p + 1))) ℝ)) (sq : Quad (Fin ((n + 1) * (p + 1))) ℝ) (hsq : 0 ≤ sq.coef) :
    IsAtomFor ((matrixCls sem con lag bnd).atom (.lagrange lam) offset sq)
      (shiftedPen (fun x => lam * N (matOf x)) Set.univ offset sq) := by
  refine C90_seminorm_lagrange (p := (n + 1) * p + n) (matrixCls sem con lag bnd) lam (fun x => lam * N (matOf x)) Set.univ
    (fun x L hL => ?_) (fun x _ => ?_) (fun x => ?_) ?_ offset sq hsq
  · obtain ⟨P, h1, h2⟩ := hprox (matOf x) L hL
    exact ⟨flatten P, by show (lag (matOf x) L lam).map flatten = _; rw [h1]; rfl, prox_flat h2⟩
  · exact hval (matOf x)
  · show sem (matOf x) lam ≠ .nan
    rw [hval]
    exact fun h => by cases h
  · exact convex_flat hc hl

private lemma mat_bound {S : Set (Mat (n + 1) (p + 1))} {sem con lag bnd} {b : ℝ}
    (hprox : ∀ X, ∃ P, bnd X b = some P ∧ IsProj S X P) (hdef : ∀ X, con X b ≠ ObjVal.nan)
    (hc : IsConvexFnOn (fun _ => 0) {z : Fin ((n + 1) * (p + 1)) → ℝ | matOf z ∈ S})
    (offset : Option (PyVec (Fin ((n + 1) * (p + 1))) ℝ)) (sq : Quad (Fin ((n + 1) * (p + 1))) ℝ) (hsq : 0 ≤ sq.coef) :
    IsAtomFor ((matrixCls sem con lag bnd).atom (.bound b) offset sq)
      (shiftedPen (fun _ => 0) {z | matOf z ∈ S} offset sq) := by
  refine C90_seminorm_bound (p := (n + 1) * p + n) (matrixCls sem con lag bnd) b {z | matOf z ∈ S}
    (fun x => ?_) (fun x => hdef (matOf x)) hc offset sq hsq
  obtain ⟨P, h1, h2⟩ := hprox (matOf x)
  exact ⟨flatten P, by show (bnd (matOf x) b).map flatten = _; rw [h1]; rfl, proj_flat h2⟩

/-! ### the atoms -/

variable (offset : Option (PyVec (Fin ((n + 1) * (p + 1))) ℝ)) (sq : Quad (Fin ((n + 1) * (p + 1))) ℝ) (hsq : 0 ≤ sq.coef)

include hsq

/-- **C104** `l1_l1` and `linf_linf` in Lagrange form stand for `lam ∑ |Bᵢⱼ|` and `lam max |Bᵢⱼ|` of the shifted matrix plus the
quadratic. -/
theorem C104_entries_lagrange (lam : ℝ) (hl : 0 ≤ lam) :
    IsAtomFor ((Block.l1l1Cls (n := n + 1) (p := p + 1)).atom (.lagrange lam) offset sq)
      (shiftedPen (fun x => lam * norm1 (matOf (n := n + 1) (p := p + 1) x)) Set.univ offset sq) ∧
    IsAtomFor ((Block.linflinfCls (n := n) (p := p)).atom (.lagrange lam) offset sq)
      (shiftedPen (fun x => lam * maxCoord fun ij => |matOf (n := n + 1) (p := p + 1) x ij|) Set.univ offset sq) := by
  constructor
  · unfold Block.l1l1Cls
    refine mat_lagrange (N := norm1) hl (fun X L hL => ?_) (fun X => ?_) norm1_convex offset sq hsq
    · exact ⟨_, rfl, C57_l1_l1_lagrange_prox X hL hl⟩
    · exact congrArg ObjVal.num (C57_seminorm X lam).2.2.1
  · unfold Block.linflinfCls
    refine mat_lagrange (N := fun Z => maxCoord fun ij => |Z ij|) hl (fun X L hL => ?_) (fun X => ?_)
      (max_convex fun X Y a b ha hb ij => abs_comb _ _ _ _ ha hb) offset sq hsq
    · exact C57_linf_linf_lagrange_prox X hL hl
    · exact congrArg ObjVal.num (C57_seminorm X lam).2.2.2

/-- **C104** `l1_l1` and `linf_linf` in bound form stand for the constraints `∑ |Bᵢⱼ| ≤ b` and `|Bᵢⱼ| ≤ b` on the shifted matrix plus
the quadratic. -/
theorem C104_entries_bound (b : ℝ) (hb : 0 ≤ b) :
    IsAtomFor ((Block.l1l1Cls (n := n + 1) (p := p + 1)).atom (.bound b) offset sq)
      (shiftedPen (fun _ => 0) {x | matOf (n := n + 1) (p := p + 1) x ∈ {Z | norm1 Z ≤ b}} offset sq) ∧
    IsAtomFor ((Block.linflinfCls (n := n) (p := p)).atom (.bound b) offset sq)
      (shiftedPen (fun _ => 0) {x | matOf (n := n + 1) (p := p + 1) x ∈ {Z | ∀ ij, |Z ij| ≤ b}} offset sq) := by
  constructor
  · unfold Block.l1l1Cls
    refine mat_bound (fun X => ?_) (fun X => ?_) (sublevel_flat norm1_convex b) offset sq hsq
    · exact C57_l1_l1_bound_prox X hb
    · exact ofTop_ne _
  · unfold Block.linflinfCls
    refine mat_bound (fun X => ?_) (fun X => ?_) ?_ offset sq hsq
    · exact ⟨_, rfl, C57_linf_linf_bound_prox X hb⟩
    · exact ofTop_ne _
    intro x hx y hy s t hs ht hst
    refine ⟨fun ij => (abs_comb _ _ _ _ hs ht).trans ?_, by simp⟩
    have h1 : s * |x (finProdFinEquiv ij)| ≤ s * b := mul_le_mul_of_nonneg_left (hx ij) hs
    have h2 : t * |y (finProdFinEquiv ij)| ≤ t * b := mul_le_mul_of_nonneg_left (hy ij) ht
    have e : s * b + t * b = b := by rw [← add_mul, hst, one_mul]
    linarith

/-- **C104** `linf_l2` in bound form with a positive bound stands for the constraint that no row of the shifted matrix has a norm above
the bound.  Missing: bound zero (`C57_linf_l2_bound_zero_fails`). -/
theorem C104_linf_l2_bound_partial (b : ℝ) (hb : 0 < b) :
    IsAtomFor ((Block.linfl2Cls (n := n) (p := p + 1)).atom (.bound b) offset sq)
      (shiftedPen (fun _ => 0) {x | matOf (n := n + 1) (p := p + 1) x ∈ {Z | ∀ i, rowNorm2 Z i ≤ b}} offset sq) := by
  unfold Block.linfl2Cls
  refine mat_bound (fun X => ?_) (fun X => ?_) ?_ offset sq hsq
  · obtain ⟨P, h1, h2⟩ := C57_linf_l2_bound_prox_partial X hb
    exact ⟨P, by rw [h1, all_some], h2⟩
  · exact ofTop_ne _
  · intro x hx y hy s t hs ht hst
    refine ⟨fun i => (row_comb (matOf x) (matOf y) s t hs ht i).trans ?_, by simp⟩
    have h1 := mul_le_mul_of_nonneg_left (hx i) hs
    have h2 := mul_le_mul_of_nonneg_left (hy i) ht
    have e : s * b + t * b = b := by rw [← add_mul, hst, one_mul]
    linarith

/-- **C104** `sparse_group_block` in Lagrange form stands for `lam (l1 ∑ |Bᵢⱼ| + l2 ∑ᵢ ‖Bᵢ‖)` of the shifted matrix plus the
quadratic. -/
theorem C104_sparse_group_block (l1 l2 lam : ℝ) (h1 : 0 ≤ l1) (h2 : 0 ≤ l2) (hl : 0 ≤ lam) :
    IsAtomFor ((Block.sparseCls (n := n + 1) (p := p + 1) l1 l2).atom (.lagrange lam) offset sq)
      (shiftedPen (fun x => lam * (l1 * norm1 (matOf (n := n + 1) (p := p + 1) x) + l2 * ∑ i, rowNorm2 (matOf x) i)) Set.univ
        offset sq) := by
  unfold Block.sparseCls
  refine mat_lagrange (N := fun Z => l1 * norm1 Z + l2 * ∑ i, rowNorm2 Z i) hl (fun X L hL => ?_) (fun X => ?_)
    (sparse_convex h1 h2) offset sq hsq
  · exact ⟨_, rfl, C58_lagrange_prox X h1 h2 hL hl⟩
  · exact congrArg ObjVal.num (C58_seminorm X l1 l2 lam)

/-- **C104** `sparse_group_block_dual` in bound form stands for the constraint that the dual norm of the shifted matrix is at most
`b`; its gauge search ends at every matrix. -/
theorem C104_sparse_group_block_dual (l1 l2 b : ℝ) (h1 : 0 ≤ l1) (h2 : 0 ≤ l2) (hpos : 0 < l1 + l2) (hb : 0 ≤ b) (hb' : b ≤ 2 ^ 50) :
    ∃ N : Mat (n + 1) (p + 1) → ℕ, ∀ fuel : Mat (n + 1) (p + 1) → ℕ, (∀ X, N X ≤ fuel X) →
      IsAtomFor ((Block.sparseDualCls l1 l2 fuel).atom (.bound b) offset sq)
        (shiftedPen (fun _ => 0)
          {x | matOf (n := n + 1) (p := p + 1) x ∈ {U | ∀ Z, dot U Z ≤ b * (l1 * norm1 Z + l2 * ∑ i, rowNorm2 Z i)}} offset sq) := by
  choose N hN using fun X : Mat (n + 1) (p + 1) => C58_dual_constraint X h1 h2 hpos hb hb'
  refine ⟨N, fun fuel hf => ?_⟩
  unfold Block.sparseDualCls
  refine mat_bound (fun X => ?_) (fun X => ?_) ?_ offset sq hsq
  · exact ⟨_, rfl, C58_dual_bound_prox X h1 h2 hb⟩
  · obtain ⟨r, c, e1, e2, -⟩ := hN X (fuel X) (hf X)
    unfold Block.dualConstraintVal
    rw [e1, Option.bind_some, e2]
    exact ofTop_ne _
  · intro x hx y hy s t hs ht hst
    refine ⟨fun Z => ?_, by simp⟩
    have e : dot (matOf (n := n + 1) (p := p + 1) fun i => s * x i + t * y i) Z = s * dot (matOf x) Z + t * dot (matOf y) Z := by
      unfold dot matOf
      rw [Finset.mul_sum, Finset.mul_sum, ← Finset.sum_add_distrib]
      exact Finset.sum_congr rfl fun ij _ => by ring
    rw [e]
    have e1 := mul_le_mul_of_nonneg_left (hx Z) hs
    have e2 := mul_le_mul_of_nonneg_left (hy Z) ht
    have e3 : s * (b * (l1 * norm1 Z + l2 * ∑ i, rowNorm2 Z i)) + t * (b * (l1 * norm1 Z + l2 * ∑ i, rowNorm2 Z i)) =
        b * (l1 * norm1 Z + l2 * ∑ i, rowNorm2 Z i) := by rw [← add_mul, hst, one_mul]
    linarith

/-- **C104** `nuclear_norm` and `operator_norm` in Lagrange form, for any correct singular value decomposition, stand for `lam` times
the nuclear and the operator norm of the shifted matrix plus the quadratic. -/
theorem C104_svd_lagrange (svd : Mat (n + 1) (p + 1) → Svd.Triple (n + 1) (p + 1) k) (hs : ∀ X, IsSvd X (svd X)) (lam : ℝ)
    (hl : 0 ≤ lam) :
    IsAtomFor ((Svd.nuclearCls svd).atom (.lagrange lam) offset sq)
      (shiftedPen (fun x => lam * nucNorm (matOf (n := n + 1) (p := p + 1) x)) Set.univ offset sq) ∧
    IsAtomFor ((Svd.operatorCls svd).atom (.lagrange lam) offset sq)
      (shiftedPen (fun x => lam * opNorm (matOf (n := n + 1) (p := p + 1) x)) Set.univ offset sq) := by
  constructor
  · unfold Svd.nuclearCls
    refine mat_lagrange (N := nucNorm) hl (fun X L hL => ?_) (fun X => ?_) nuc_convex offset sq hsq
    · exact ⟨_, rfl, C59_nuclear_lagrange_prox (hs X) L lam hL hl⟩
    · exact congrArg ObjVal.num (C59_nuclear_seminorm (hs X) lam)
  · unfold Svd.operatorCls
    refine mat_lagrange (N := opNorm) hl (fun X L hL => ?_) (fun X => ?_) op_convex offset sq hsq
    · exact C59_operator_lagrange_prox (hs X) L lam hL hl
    · exact congrArg ObjVal.num (C59_operator_seminorm (hs X) lam)

/-- **C104** `nuclear_norm` and `operator_norm` in bound form stand for the constraints that the nuclear and the operator norm of the
shifted matrix are at most `b`. -/
theorem C104_svd_bound (svd : Mat (n + 1) (p + 1) → Svd.Triple (n + 1) (p + 1) k) (hs : ∀ X, IsSvd X (svd X)) (b : ℝ)
    (hb : 0 ≤ b) :
    IsAtomFor ((Svd.nuclearCls svd).atom (.bound b) offset sq)
      (shiftedPen (fun _ => 0) {x | matOf (n := n + 1) (p := p + 1) x ∈ {Z | nucNorm Z ≤ b}} offset sq) ∧
    IsAtomFor ((Svd.operatorCls svd).atom (.bound b) offset sq)
      (shiftedPen (fun _ => 0) {x | matOf (n := n + 1) (p := p + 1) x ∈ {Z | opNorm Z ≤ b}} offset sq) := by
  constructor
  · unfold Svd.nuclearCls
    refine mat_bound (fun X => ?_) (fun X => ?_) (sublevel_flat nuc_convex b) offset sq hsq
    · exact C59_nuclear_bound_prox (hs X) b hb
    · exact ofTop_ne _
  · unfold Svd.operatorCls
    refine mat_bound (fun X => ?_) (fun X => ?_) (sublevel_flat op_convex b) offset sq hsq
    · exact ⟨_, rfl, C59_operator_bound_prox (hs X) b hb⟩
    · exact ofTop_ne _

omit hsq

open Classical in
/-- **C104** the checked value of a bound form, for every matrix atom, offset and quadratic: the quadratic where the norm of the shifted
matrix is at most `b (1 + 10⁻⁵)` and infinite elsewhere. -/
theorem C104_bound_tests (svd : Mat (n + 1) (p + 1) → Svd.Triple (n + 1) (p + 1) k) (hs : ∀ X, IsSvd X (svd X)) (b : ℝ)
    (x : Fin ((n + 1) * (p + 1)) → ℝ) (B : Mat (n + 1) (p + 1)) (hB : B = matOf fun i => x i - denote offset i) :
    ((Block.l1l1Cls (n := n + 1) (p := p + 1)).atom (.bound b) offset sq).nonsmooth x true =
      (if ∑ ij, |B ij| ≤ b * (1 + 1 / 10 ^ 5) then .num (quadVal (some sq) x) else .inf) ∧
    ((Block.linflinfCls (n := n) (p := p)).atom (.bound b) offset sq).nonsmooth x true =
      (if maxCoord (fun ij => |B ij|) ≤ b * (1 + 1 / 10 ^ 5) then .num (quadVal (some sq) x) else .inf) ∧
    ((Block.l1l2Cls (n := n + 1) (p := p + 1)).atom (.bound b) offset sq).nonsmooth x true =
      (if ∑ i, rowNorm2 B i ≤ b * (1 + 1 / 10 ^ 5) then .num (quadVal (some sq) x) else .inf) ∧
    ((Block.linfl2Cls (n := n) (p := p + 1)).atom (.bound b) offset sq).nonsmooth x true =
      (if maxCoord (rowNorm2 B) ≤ b * (1 + 1 / 10 ^ 5) then .num (quadVal (some sq) x) else .inf) ∧
    ((Svd.nuclearCls svd).atom (.bound b) offset sq).nonsmooth x true =
      (if nucNorm B ≤ b * (1 + 1 / 10 ^ 5) then .num (quadVal (some sq) x) else .inf) ∧
    ((Svd.operatorCls svd).atom (.bound b) offset sq).nonsmooth x true =
      (if opNorm B ≤ b * (1 + 1 / 10 ^ 5) then .num (quadVal (some sq) x) else .inf) := by
  have key : ∀ {sem con lag bnd} {P : Prop} (hc : con B b = ObjVal.ofTop (if P then 0 else ⊤)),
      ((matrixCls (n := n + 1) (p := p + 1) sem con lag bnd).atom (.bound b) offset sq).nonsmooth x true =
        if P then .num (quadVal (some sq) x) else .inf := by
    intro sem con lag bnd P hc
    have e : atomShift offset x = fun i => x i - denote offset i := by
      funext i
      rcases offset with _ | (c | c) <;> simp [atomShift, denote, PyVec.get]
    show ((if true = true then con (matOf (atomShift offset x)) b else .num 0).add (.num (sq.funcVal x))) = _
    have hv : sq.funcVal x = quadVal (some sq) x := by
      have h := C14_objective_func (some sq.coef) sq.center sq.linear (some sq.const) x
      have e : Quad.init (some sq.coef) sq.center sq.linear (some sq.const) = sq := rfl
      rw [e] at h
      unfold Quad.objective at h
      simpa [quadVal] using h
    rw [e, ← hB, if_pos rfl, hc, hv]
    by_cases hP : P
    · rw [if_pos hP, if_pos hP]; show ObjVal.num (0 + _) = _; rw [zero_add]
    · rw [if_neg hP, if_neg hP]; rfl
  refine ⟨key ?_, key ?_, key ?_, key ?_, key ?_, key ?_⟩
  · exact congrArg ObjVal.ofTop ((C57_constraint B b).2.2.1.trans (by congr))
  · exact congrArg ObjVal.ofTop ((C57_constraint B b).2.2.2.trans (by congr))
  · exact congrArg ObjVal.ofTop ((C57_constraint B b).1.trans (by congr))
  · exact congrArg ObjVal.ofTop ((C57_constraint B b).2.1.trans (by congr))
  · exact congrArg ObjVal.ofTop (C59_nuclear_constraint (hs B) b)
  · exact congrArg ObjVal.ofTop (C59_operator_constraint (hs B) b)

/-- a decomposition as required exists for every shape (`C59_svd_exists`) -/
example : ∃ svd : Mat 2 3 → Svd.Triple 2 3 1, ∀ X, IsSvd X (svd X) := by
  choose svd h using fun X : Mat 2 3 => C59_svd_exists (k := 1) (by norm_num) X
  exact ⟨svd, h⟩

/-! ### row norms: a zero row -/

/-- the contract `IsAtomFor` of an atom which may return nan instead of numbers -/
structure IsAtomIfNumber {m : ℕ} (A : NonsmoothAtom m) (pen : (Fin m → ℝ) → WithTop ℝ) : Prop where
  /-- if `proximal` returns numbers, they are the unique minimiser of `q + pen` -/
  solves : ∀ (Q : Quad (Fin m) ℝ) z, 0 < Q.coef → A.proximal Q = .ok z →
    IsUniqueMinTop (fun x => ((quadVal (some Q) x : ℝ) : WithTop ℝ) + pen x) z
  value : ∀ x (v : ℝ), pen x = v → A.nonsmooth x false = .num v
  defined : ∀ x, A.nonsmooth x true ≠ .nan
  convex : ConvexTop pen

private lemma seminormProximal_mono {m : ℕ} {lag lag' : (Fin m → ℝ) → ℝ → ℝ → Option (Fin m → ℝ)}
    {bd bd' : (Fin m → ℝ) → ℝ → Option (Fin m → ℝ)} {par : AtomParam ℝ}
    (hl : (∃ lam, par = .lagrange lam ∧ ∀ x L z, 0 < L → lag x L lam = some z → lag' x L lam = some z) ∨
      ∃ b, par = .bound b ∧ ∀ x z, bd x b = some z → bd' x b = some z) {offset : Option (PyVec (Fin m) ℝ)}
    {sq Q : Quad (Fin m) ℝ} (hc : 0 < sq.coef + Q.coef) {z : Fin m → ℝ}
    (h : seminormProximal lag bd par offset sq (some Q) = .ok z) :
    seminormProximal lag' bd' par offset sq (some Q) = .ok z := by
  unfold seminormProximal at h ⊢
  have hco : ∀ o tq, (sq.add (some Q)).recenter offset = some (o, tq) → tq.coef = sq.coef + Q.coef := by
    intro o tq
    unfold Quad.recenter
    rcases offset with _ | off
    · intro h; injection h with h; injection h with _ h; subst h; rfl
    · simp only
      split_ifs
      · intro h; injection h with h; injection h with _ h; subst h; rfl
      · intro h
        have hcen : (sq.add (some Q)).center = some (.scalar 0) := rfl
        rw [hcen] at h
        injection h with h; injection h with _ h; subst h; rfl
  cases hr : (sq.add (some Q)).recenter offset with
  | none => rw [hr] at h; cases h
  | some r =>
    obtain ⟨o, tq⟩ := r
    have hpos : 0 < tq.coef := by rw [hco o tq hr]; exact hc
    rw [hr] at h
    simp only at h ⊢
    rw [if_neg hpos.ne'] at h ⊢
    cases hlin : tq.linear with
    | none => rw [hlin] at h; cases h
    | some l =>
      rw [hlin] at h
      cases l with
      | scalar c => cases h
      | arr l =>
        simp only at h ⊢
        rcases hl with ⟨lam, rfl, hl⟩ | ⟨b, rfl, hb⟩
        · simp only at h ⊢
          cases hz : lag (fun i => -(l i) / tq.coef) tq.coef lam with
          | none => rw [hz] at h; cases h
          | some w => rw [hz] at h; rw [hl _ _ _ hpos hz]; exact h
        · simp only at h ⊢
          cases hz : bd (fun i => -(l i) / tq.coef) b with
          | none => rw [hz] at h; cases h
          | some w => rw [hz] at h; rw [hb _ _ hz]; exact h

private lemma lag_mono {m : ℕ} {k k' : SeminormClass m} {lam : ℝ} {offset : Option (PyVec (Fin m) ℝ)} {sq Q : Quad (Fin m) ℝ}
    (hc : 0 < sq.coef + Q.coef) (h : ∀ x L w, 0 < L → k.lagrangeProx x L lam = some w → k'.lagrangeProx x L lam = some w)
    {z : Fin m → ℝ} (hz : (k.atom (.lagrange lam) offset sq).proximal Q = .ok z) :
    (k'.atom (.lagrange lam) offset sq).proximal Q = .ok z :=
  seminormProximal_mono (bd := k.boundProx) (bd' := k'.boundProx) (Or.inl ⟨lam, rfl, h⟩) hc hz

private lemma bnd_mono {m : ℕ} {k k' : SeminormClass m} {b : ℝ} {offset : Option (PyVec (Fin m) ℝ)} {sq Q : Quad (Fin m) ℝ}
    (hc : 0 < sq.coef + Q.coef) (h : ∀ x w, k.boundProx x b = some w → k'.boundProx x b = some w)
    {z : Fin m → ℝ} (hz : (k.atom (.bound b) offset sq).proximal Q = .ok z) :
    (k'.atom (.bound b) offset sq).proximal Q = .ok z :=
  seminormProximal_mono (lag := k.lagrangeProx) (lag' := k'.lagrangeProx) (Or.inr ⟨b, rfl, h⟩) hc hz

private lemma except_some {X : Mat n p} {a : Fin n × Fin p → Option ℝ} {P Z : Mat n p} (h : ExceptZeroRows X a P)
    (hZ : allNumbers a = some Z) : Z = P := by
  unfold allNumbers at hZ
  split_ifs at hZ with hall
  injection hZ with hZ
  subst hZ
  funext ⟨i, j⟩
  have h1 := h i j
  have h2 := hall (i, j)
  by_cases hr : ∀ k, X (i, k) = 0
  · rw [if_pos hr] at h1; rw [h1] at h2; cases h2
  · rw [if_neg hr] at h1; rw [h1]; rfl

lemma except_none {X : Mat n p} {a : Fin n × Fin p → Option ℝ} {P : Mat n p} (h : ExceptZeroRows X a P) (i : Fin n)
    (hi : ∀ k, X (i, k) = 0) (j : Fin p) : allNumbers a = none := by
  unfold allNumbers
  rw [if_neg]
  intro hall
  have h2 := hall (i, j)
  rw [h i j, if_pos hi] at h2
  cases h2

private lemma except_all {X : Mat n p} {a : Fin n × Fin p → Option ℝ} {P : Mat n p} (h : ExceptZeroRows X a P)
    (hX : ∀ i, ∃ j, X (i, j) ≠ 0) : allNumbers a = some P := by
  have e : ∀ ij, a ij = some (P ij) := by
    rintro ⟨i, j⟩
    rw [h i j, if_neg]
    intro h0
    obtain ⟨j, hj⟩ := hX i
    exact hj (h0 j)
  rw [show a = fun ij => some (P ij) from funext e, all_some]

include hsq

/-- **C104** `l1_l2` (in both forms) and `linf_l2` in Lagrange form: whenever the proximal map returns numbers they are the unique
minimiser of the quadratic plus `lam ∑ᵢ ‖Bᵢ‖`, the constraint `∑ᵢ ‖Bᵢ‖ ≤ b`, or `lam maxᵢ ‖Bᵢ‖` of the shifted matrix plus the own
quadratic; the values are those of these functions.  Missing: arguments with a zero row, at which the result is nan
(`C104_zero_row_fails`). -/
theorem C104_row_norms_partial (lam b : ℝ) (hl : 0 ≤ lam) (hb : 0 ≤ b) :
    IsAtomIfNumber ((Block.l1l2Cls (n := n + 1) (p := p + 1)).atom (.lagrange lam) offset sq)
      (shiftedPen (fun x => lam * ∑ i, rowNorm2 (matOf (n := n + 1) (p := p + 1) x) i) Set.univ offset sq) ∧
    IsAtomIfNumber ((Block.l1l2Cls (n := n + 1) (p := p + 1)).atom (.bound b) offset sq)
      (shiftedPen (fun _ => 0) {x | matOf (n := n + 1) (p := p + 1) x ∈ {Z | ∑ i, rowNorm2 Z i ≤ b}} offset sq) ∧
    IsAtomIfNumber ((Block.linfl2Cls (n := n) (p := p + 1)).atom (.lagrange lam) offset sq)
      (shiftedPen (fun x => lam * maxCoord (rowNorm2 (matOf (n := n + 1) (p := p + 1) x))) Set.univ offset sq) := by
  refine ⟨?_, ?_, ?_⟩
  · choose P h1 h2 using fun (X : Mat (n + 1) (p + 1)) (L : {L : ℝ // 0 < L}) => C57_l1_l2_lagrange_prox_partial X L.2 hl
    have hA := mat_lagrange (n := n) (p := p) (N := fun Z => ∑ i, rowNorm2 Z i) (lam := lam)
      (sem := fun X l => .num (L1L2.seminorm X l)) (con := fun X b => ObjVal.ofTop (L1L2.constraint X b))
      (lag := fun X L l => if h : 0 < L ∧ l = lam then some (P X ⟨L, h.1⟩) else none) (bnd := fun _ _ => none) hl
      (fun X L hL => ⟨P X ⟨L, hL⟩, dif_pos ⟨hL, rfl⟩, h2 X ⟨L, hL⟩⟩) (fun X => congrArg ObjVal.num (C57_seminorm X lam).1)
      rows_convex offset sq hsq
    refine ⟨fun Q z hQ hz => hA.solves Q z hQ ?_, hA.value, hA.defined, hA.convex⟩
    refine lag_mono (by linarith) (fun x L w hL hw => ?_) hz
    show Option.map flatten (if h : 0 < L ∧ lam = lam then some (P (matOf x) ⟨L, h.1⟩) else none) = some w
    rw [dif_pos ⟨hL, rfl⟩]
    have hw' : (allNumbers (L1L2.lagrangeProx (matOf (n := n + 1) (p := p + 1) x) L lam)).map flatten = some w := hw
    obtain ⟨Z, e1, e2⟩ := Option.map_eq_some_iff.1 hw'
    rw [← e2, except_some (h1 (matOf x) ⟨L, hL⟩) e1]
    rfl
  · choose a P h0 h1 h2 using fun X : Mat (n + 1) (p + 1) => C57_l1_l2_bound_prox_partial X hb
    have hA := mat_bound (n := n) (p := p) (S := {Z | ∑ i, rowNorm2 Z i ≤ b}) (b := b)
      (sem := fun X l => .num (L1L2.seminorm X l)) (con := fun X b => ObjVal.ofTop (L1L2.constraint X b))
      (lag := fun _ _ _ => none) (bnd := fun X _ => some (P X)) (fun X => ⟨P X, rfl, h2 X⟩) (fun X => ofTop_ne _)
      (sublevel_flat rows_convex b) offset sq hsq
    refine ⟨fun Q z hQ hz => hA.solves Q z hQ ?_, hA.value, hA.defined, hA.convex⟩
    refine bnd_mono (by linarith) (fun x w hw => ?_) hz
    have hw' : ((L1L2.boundProx (matOf (n := n + 1) (p := p + 1) x) b).bind allNumbers).map flatten = some w := hw
    rw [h0, Option.bind_some] at hw'
    obtain ⟨Z, e1, e2⟩ := Option.map_eq_some_iff.1 hw'
    rw [← e2, except_some (h1 (matOf x)) e1]
    rfl
  · choose a P h0 h1 h2 using fun (X : Mat (n + 1) (p + 1)) (L : {L : ℝ // 0 < L}) => C57_linf_l2_lagrange_prox_partial X L.2 hl
    have hA := mat_lagrange (n := n) (p := p) (N := fun Z => maxCoord (rowNorm2 Z)) (lam := lam)
      (sem := fun X l => .num (LinfL2.seminorm X l)) (con := fun X b => ObjVal.ofTop (LinfL2.constraint X b))
      (lag := fun X L l => if h : 0 < L ∧ l = lam then some (P X ⟨L, h.1⟩) else none) (bnd := fun _ _ => none) hl
      (fun X L hL => ⟨P X ⟨L, hL⟩, dif_pos ⟨hL, rfl⟩, h2 X ⟨L, hL⟩⟩) (fun X => congrArg ObjVal.num (C57_seminorm X lam).2.1)
      (max_convex fun X Y a b ha hb i => row_comb X Y a b ha hb i) offset sq hsq
    refine ⟨fun Q z hQ hz => hA.solves Q z hQ ?_, hA.value, hA.defined, hA.convex⟩
    refine lag_mono (by linarith) (fun x L w hL hw => ?_) hz
    show Option.map flatten (if h : 0 < L ∧ lam = lam then some (P (matOf x) ⟨L, h.1⟩) else none) = some w
    rw [dif_pos ⟨hL, rfl⟩]
    have hw' : ((LinfL2.lagrangeProx (matOf (n := n + 1) (p := p + 1) x) L lam).bind allNumbers).map flatten = some w := hw
    rw [h0 (matOf x) ⟨L, hL⟩, Option.bind_some] at hw'
    obtain ⟨Z, e1, e2⟩ := Option.map_eq_some_iff.1 hw'
    rw [← e2, except_some (h1 (matOf x) ⟨L, hL⟩) e1]
    rfl

omit hsq

lemma matrix_prox_plain {m : ℕ} (k : SeminormClass m) (par : AtomParam ℝ) {L : ℝ} (hL : 0 < L) (x u : Fin m → ℝ) :
    (k.atom par none (Quad.init none none none none)).proximal (Quad.init (some L) (some (.arr x)) (some (.arr u)) (some 0)) =
      match (match par with
        | .bound b => k.boundProx (fun i => x i - u i / L) b
        | .lagrange lam => k.lagrangeProx (fun i => x i - u i / L) L lam) with
      | none => .baseError
      | some z => .ok z := by
  have hne : (0:ℝ) + L ≠ 0 := by rw [zero_add]; exact hL.ne'
  have e : (fun i => -(0 - (0 + L) * 0 + (0 + (0 - L * x i + u i))) / (0 + L)) = fun i => x i - u i / L := by
    funext i; field_simp; ring
  show seminormProximal k.lagrangeProx k.boundProx par none (Quad.init none none none none)
    (some (Quad.init (some L) (some (.arr x)) (some (.arr u)) (some 0))) = _
  unfold seminormProximal
  simp only [Quad.recenter, Quad.add, Quad.init, Quad.collapsed, Quad.collapsedLinear, PyVec.map₂, PyVec.map, PyVec.get, Option.getD]
  rw [if_neg hne]
  rw [show (fun i => x i - u i / L) = _ from e.symm]
  cases par with
  | bound b => simp only [zero_add]; cases k.boundProx (fun i => -(0 - L * 0 + (0 - L * x i + u i)) / L) b <;> rfl
  | lagrange lam => simp only [zero_add]; cases k.lagrangeProx (fun i => -(0 - L * 0 + (0 - L * x i + u i)) / L) L lam <;> rfl

/-- **C104** Without offset and own quadratic the three proximal maps fail when the argument `x - u/L` has a zero row: a coefficient
row that is exactly zero with a zero gradient makes the result nan. -/
theorem C104_zero_row_fails (lam b L : ℝ) (hl : 0 ≤ lam) (hb : 0 ≤ b) (hL : 0 < L) (x u : Fin ((n + 1) * (p + 1)) → ℝ)
    (i : Fin (n + 1)) (hi : ∀ j : Fin (p + 1), matOf x (i, j) - matOf u (i, j) / L = 0) :
    let Q := Quad.init (some L) (some (.arr x)) (some (.arr u)) (some 0)
    let q0 : Quad (Fin ((n + 1) * (p + 1))) ℝ := Quad.init none none none none
    ((Block.l1l2Cls (n := n + 1) (p := p + 1)).atom (.lagrange lam) none q0).proximal Q = .baseError ∧
    ((Block.l1l2Cls (n := n + 1) (p := p + 1)).atom (.bound b) none q0).proximal Q = .baseError ∧
    ((Block.linfl2Cls (n := n) (p := p + 1)).atom (.lagrange lam) none q0).proximal Q = .baseError := by
  intro Q q0
  have hz : ∀ j : Fin (p + 1), matOf (n := n + 1) (p := p + 1) (fun a => x a - u a / L) (i, j) = 0 := hi
  refine ⟨?_, ?_, ?_⟩
  · rw [matrix_prox_plain _ _ hL]
    obtain ⟨P, h1, -⟩ := C57_l1_l2_lagrange_prox_partial (matOf (n := n + 1) (p := p + 1) fun a => x a - u a / L) hL hl
    simp only [Block.l1l2Cls, matrixCls]
    rw [except_none h1 i hz 0]; rfl
  · rw [matrix_prox_plain _ _ hL]
    obtain ⟨a, P, h0, h1, -⟩ := C57_l1_l2_bound_prox_partial (matOf (n := n + 1) (p := p + 1) fun a => x a - u a / L) hb
    simp only [Block.l1l2Cls, matrixCls]
    rw [h0, Option.bind_some, except_none h1 i hz 0]; rfl
  · rw [matrix_prox_plain _ _ hL]
    obtain ⟨a, P, h0, h1, -⟩ := C57_linf_l2_lagrange_prox_partial (matOf (n := n + 1) (p := p + 1) fun a => x a - u a / L) hL hl
    simp only [Block.linfl2Cls, matrixCls]
    rw [h0, Option.bind_some, except_none h1 i hz 0]; rfl

/-- **C104** When the argument `x - u/L` has no zero row the three proximal maps return numbers, so `C104_row_norms_partial` applies. -/
theorem C104_row_norms_numbers (lam b L : ℝ) (hl : 0 ≤ lam) (hb : 0 ≤ b) (hL : 0 < L) (x u : Fin ((n + 1) * (p + 1)) → ℝ)
    (hx : ∀ i : Fin (n + 1), ∃ j : Fin (p + 1), matOf x (i, j) - matOf u (i, j) / L ≠ 0) :
    let Q := Quad.init (some L) (some (.arr x)) (some (.arr u)) (some 0)
    let q0 : Quad (Fin ((n + 1) * (p + 1))) ℝ := Quad.init none none none none
    (∃ z, ((Block.l1l2Cls (n := n + 1) (p := p + 1)).atom (.lagrange lam) none q0).proximal Q = .ok z) ∧
    (∃ z, ((Block.l1l2Cls (n := n + 1) (p := p + 1)).atom (.bound b) none q0).proximal Q = .ok z) ∧
    (∃ z, ((Block.linfl2Cls (n := n) (p := p + 1)).atom (.lagrange lam) none q0).proximal Q = .ok z) := by
  intro Q q0
  have hz : ∀ i : Fin (n + 1), ∃ j : Fin (p + 1), matOf (n := n + 1) (p := p + 1) (fun a => x a - u a / L) (i, j) ≠ 0 := hx
  refine ⟨?_, ?_, ?_⟩
  · rw [matrix_prox_plain _ _ hL]
    obtain ⟨P, h1, -⟩ := C57_l1_l2_lagrange_prox_partial (matOf (n := n + 1) (p := p + 1) fun a => x a - u a / L) hL hl
    simp only [Block.l1l2Cls, matrixCls]
    rw [except_all h1 hz]; exact ⟨_, rfl⟩
  · rw [matrix_prox_plain _ _ hL]
    obtain ⟨a, P, h0, h1, -⟩ := C57_l1_l2_bound_prox_partial (matOf (n := n + 1) (p := p + 1) fun a => x a - u a / L) hb
    simp only [Block.l1l2Cls, matrixCls]
    rw [h0, Option.bind_some, except_all h1 hz]; exact ⟨_, rfl⟩
  · rw [matrix_prox_plain _ _ hL]
    obtain ⟨a, P, h0, h1, -⟩ := C57_linf_l2_lagrange_prox_partial (matOf (n := n + 1) (p := p + 1) fun a => x a - u a / L) hL hl
    simp only [Block.linfl2Cls, matrixCls]
    rw [h0, Option.bind_some, except_all h1 hz]; exact ⟨_, rfl⟩

/-- the first iteration from zero coefficients with a zero gradient row is such an argument, whatever the other rows -/
example (u : Fin ((1 + 1) * (0 + 1)) → ℝ) (h : matOf (n := 2) (p := 1) u (0, 0) = 0) :
    ∀ j : Fin (0 + 1), matOf (n := 1 + 1) (p := 0 + 1) (0 : Fin _ → ℝ) (0, j) - matOf u (0, j) / 1 = 0 := by
  intro j
  have hj : j = 0 := Fin.ext (by omega)
  rw [hj, show matOf (n := 1 + 1) (p := 0 + 1) u (0, 0) = 0 from h]
  simp [matOf]

/-- an argument without zero rows -/
example : ∀ i : Fin (1 + 1), ∃ j : Fin (1 + 1),
    matOf (n := 1 + 1) (p := 1 + 1) (fun _ => (1 : ℝ)) (i, j) - matOf (n := 1 + 1) (p := 1 + 1) (fun _ => (0 : ℝ)) (i, j) / 1 ≠ 0 :=
  fun i => ⟨0, by norm_num [matOf]⟩

/-- decompositions as assumed exist, whatever the matrix -/
example : ∃ svd : Mat 3 2 → Svd.Triple 3 2 1, ∀ X, IsSvd X (svd X) := by
  choose svd h using fun X : Mat 3 2 => C59_svd_exists (k := 1) (n := 3) (p := 2) (by norm_num) X
  exact ⟨svd, h⟩

end Verif.Props
