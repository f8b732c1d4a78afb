import Verif.Model.BlockMaps
import Verif.Props.C24_Affine

set_option linter.unusedSectionVars false
set_option linter.unusedVariables false

/-!
# C65: block maps, `tensorize` and `factored_matrix` as affine transforms

For matrices the inner product is `Σ_ij A_ij B_ij`.
-/

namespace Verif.Props
open Verif.Model Verif.Model.BlockMaps Verif.Spec

variable {K : Type} [Field K] [LinearOrder K] {N p : ℕ}

private lemma sum_blocks' {N : ℕ} (ks : Fin N → ℕ) (f : Fin (∑ i, ks i) → K) :
    ∑ o, f o = ∑ i, ∑ j, f (finSigmaFinEquiv ⟨i, j⟩) := by
  rw [← Equiv.sum_comp finSigmaFinEquiv f, Fintype.sum_sigma]

private lemma fill_block' {N : ℕ} (ks : Fin N → ℕ) (v : (i : Fin N) → Fin (ks i) → K) (i : Fin N) (j : Fin (ks i)) :
    Aff.fill ks v (finSigmaFinEquiv ⟨i, j⟩) = v i j := by
  unfold Aff.fill; rw [Equiv.symm_apply_apply]

/-- C65: `block_columns` maps a matrix to the stacked vectors `T_i(column i)`, `block_rows` maps a vector to the matrix with columns
`T_i(block i)`, for the linear and the affine maps. -/
theorem C65_blocks :
    (∀ (ks : Fin N → ℕ) (T : (i : Fin N) → Aff K p (ks i)) (B : Fin p → Fin N → K) (i : Fin N) (o : Fin (ks i)),
      columnsLin ks T B (finSigmaFinEquiv ⟨i, o⟩) = (T i).lin (fun j => B j i) o ∧
      columnsAff ks T B (finSigmaFinEquiv ⟨i, o⟩) = (T i).aff (fun j => B j i) o) ∧
    (∀ (ms : Fin N → ℕ) (T : (i : Fin N) → Aff K (ms i) p), (∀ i, distinctSelectors (T i)) →
      ∀ (y : Fin (∑ i, ms i) → K) (j : Fin p) (i : Fin N),
      rowsLin ms T y j i = (T i).lin (fun o => y (finSigmaFinEquiv ⟨i, o⟩)) j ∧
      rowsAff ms T y j i = (T i).aff (fun o => y (finSigmaFinEquiv ⟨i, o⟩)) j) := by
  refine ⟨fun ks T B i o => ⟨fill_block' _ _ _ _, fill_block' _ _ _ _⟩, fun ms T hT y j i => ⟨rfl, ?_⟩⟩
  have := C25_affine (T i) (hT i) (fun o => y (finSigmaFinEquiv ⟨i, o⟩)) j
  rw [this]
  rfl

/-- C65: the adjoint identity of `block_columns`: `⟨L(B), u⟩ = ⟨B, L*(u)⟩` for every matrix `B` and vector `u`. -/
theorem C65_columns_adjoint_partial (ks : Fin N → ℕ) (T : (i : Fin N) → Aff K p (ks i)) (h : ∀ i, distinctSelectors (T i))
    (B : Fin p → Fin N → K) (u : Fin (∑ i, ks i) → K) :
    ∑ o, columnsLin ks T B o * u o = ∑ j, ∑ i, B j i * columnsAdj ks T u j i := by
  rw [sum_blocks', Finset.sum_comm]
  refine Finset.sum_congr rfl fun i _ => ?_
  have := C24_adjoint_partial (T i) (h i) (fun j => B j i) (Aff.block ks u i)
  simp only [columnsLin, fill_block']
  exact this

/-- C65: the adjoint identity of `block_rows`. -/
theorem C65_rows_adjoint_partial (ms : Fin N → ℕ) (T : (i : Fin N) → Aff K (ms i) p) (h : ∀ i, distinctSelectors (T i))
    (y : Fin (∑ i, ms i) → K) (B : Fin p → Fin N → K) :
    ∑ j, ∑ i, rowsLin ms T y j i * B j i = ∑ o, y o * rowsAdj ms T B o := by
  have := C65_columns_adjoint_partial ms (rowsAdjoints T) (fun i => h i) B y
  unfold rowsLin rowsAdj
  calc ∑ j, ∑ i, columnsAdj ms (rowsAdjoints T) y j i * B j i = ∑ j, ∑ i, B j i * columnsAdj ms (rowsAdjoints T) y j i :=
        Finset.sum_congr rfl fun j _ => Finset.sum_congr rfl fun i _ => mul_comm _ _
    _ = ∑ o, columnsLin ms (rowsAdjoints T) B o * y o := this.symm
    _ = _ := Finset.sum_congr rfl fun o _ => mul_comm _ _

/-- C65: both block maps are affine: the affine map is the linear map plus the value at zero. -/
theorem C65_affine_partial :
    (∀ (ks : Fin N → ℕ) (T : (i : Fin N) → Aff K p (ks i)), (∀ i, distinctSelectors (T i)) → ∀ B o,
      columnsAff ks T B o = columnsLin ks T B o + columnsAff ks T (fun _ _ => 0) o) ∧
    (∀ (ms : Fin N → ℕ) (T : (i : Fin N) → Aff K (ms i) p), (∀ i, distinctSelectors (T i)) → ∀ y j i,
      rowsAff ms T y j i = rowsLin ms T y j i + rowsAff ms T (fun _ => 0) j i) := by
  refine ⟨fun ks T h B o => ?_, fun ms T h y j i => ?_⟩
  · unfold columnsAff columnsLin Aff.fill
    exact C25_affine _ (h _) _ _
  · have h1 := C65_blocks.2 ms T h y j i
    have h2 := C65_blocks.2 ms T h (fun _ => 0) j i
    rw [h1.2, h1.1, h2.2]
    exact C25_affine _ (h _) _ _

/-- concrete case: two blocks, a dense matrix with an offset and a slice selector. -/
example : ∃ T : (i : Fin 2) → Aff ℚ 3 ((![2, 1] : Fin 2 → ℕ) i), ∀ i, distinctSelectors (T i) := by
  refine ⟨fun i => match i with
    | 0 => (.matrix (fun a b => (a : ℚ) + b) (some fun _ => 1) : Aff ℚ 3 2)
    | 1 => (.selector (fun _ => 2) .identity : Aff ℚ 3 1), fun i => ?_⟩
  fin_cases i
  · trivial
  · exact ⟨fun a b _ => Subsingleton.elim _ _, trivial⟩

/-- Counterexample inherited from `selector` (C24): with a transform whose selector repeats a position the adjoint identity fails. -/
theorem C65_repeated_selector_fails :
    ∃ (T : (i : Fin 1) → Aff ℚ 1 ((fun _ => 2 : Fin 1 → ℕ) i)) (B : Fin 1 → Fin 1 → ℚ) (u : Fin (∑ i : Fin 1, (fun _ => 2 : Fin 1 → ℕ) i) → ℚ),
      ∑ o, columnsLin (fun _ => 2) T B o * u o ≠ ∑ j, ∑ i, B j i * columnsAdj (fun _ => 2) T u j i := by
  refine ⟨fun _ => .selector (fun _ => 0) .identity, fun _ _ => 1, fun _ => 1, ?_⟩
  rw [sum_blocks']
  simp only [columnsLin, fill_block']
  simp [columnsAdj, Aff.lin, Aff.adj, Aff.meth, Aff.scatter, Aff.block, List.finRange_succ]

/-- C65: `tensorize` of a matrix transform acts on every column as the transform does, offset included, and satisfies the adjoint identity. -/
theorem C65_tensorize {m k q : ℕ} (D : Fin k → Fin m → K) (offset : Option (Fin k → K)) :
    (∀ (x : Fin m → Fin q → K) c i, tensorAff D offset x i c = (Aff.matrix D offset).aff (fun j => x j c) i ∧
      tensorLin D x i c = (Aff.matrix D offset).lin (fun j => x j c) i) ∧
    (∀ (x : Fin m → Fin q → K) (u : Fin k → Fin q → K), ∑ i, ∑ c, tensorLin D x i c * u i c = ∑ j, ∑ c, x j c * tensorAdj D u j c) := by
  refine ⟨fun x c i => ⟨?_, rfl⟩, fun x u => ?_⟩
  · cases offset <;> rfl
  · rw [Finset.sum_comm, Finset.sum_comm (s := Finset.univ (α := Fin m))]
    refine Finset.sum_congr rfl fun c _ => ?_
    exact C24_adjoint_partial (Aff.matrix D offset) trivial (fun j => x j c) (fun i => u i c)

example : tensorAff (K := ℚ) (fun (i : Fin 1) (j : Fin 2) => (j : ℚ) + 1) (some fun _ => 5) (fun j (c : Fin 2) => (j : ℚ) + c) 0 1 = 10 := by
  simp [tensorAff, tensorLin, Fin.sum_univ_two]; norm_num

/-- C65: `factored_matrix` with factors `U, D, VT` is multiplication by `U diag(D) VT`, whatever the rank (the special branch for rank one
included): `X` is that matrix, `linear_map` and `adjoint_map` multiply by it and its transpose, `affine_map` adds the offset, and the
adjoint identity holds. -/
theorem C65_factored {n m r : ℕ} (F : Factors K n m r) :
    (∀ i j, F.X i j = ∑ a, F.U i a * F.D a * F.VT a j) ∧
    (∀ x i, F.lin x i = ∑ j, F.X i j * x j) ∧
    (∀ u j, F.adj u j = ∑ i, F.X i j * u i) ∧
    (∀ x i, F.aff x i = F.lin x i + (F.offset.getD fun _ => 0) i) ∧
    (∀ x u, ∑ i, F.lin x i * u i = ∑ j, x j * F.adj u j) := by
  have hX : ∀ i j, F.X i j = ∑ a, F.U i a * F.D a * F.VT a j := by
    intro i j
    unfold Factors.X
    by_cases h : r = 1
    · subst h
      simp [Factors.d00]
      ring
    · rw [dif_neg h]
      exact Finset.sum_congr rfl fun a _ => by ring
  have hL : ∀ x i, F.lin x i = ∑ j, F.X i j * x j := by
    intro x i
    simp only [hX, Finset.sum_mul]
    rw [Finset.sum_comm]
    unfold Factors.lin
    by_cases h : r = 1
    · subst h
      simp only [dif_pos, Factors.d00, dotv, Finset.mul_sum]
      refine Finset.sum_congr rfl fun a _ => Finset.sum_congr rfl fun j _ => ?_
      rw [Subsingleton.elim (⟨0, by omega⟩ : Fin 1) a]; ring
    · rw [dif_neg h]
      simp only [dotv, Finset.mul_sum]
      exact Finset.sum_congr rfl fun a _ => Finset.sum_congr rfl fun j _ => by ring
  have hA : ∀ u j, F.adj u j = ∑ i, F.X i j * u i := by
    intro u j
    simp only [hX, Finset.sum_mul]
    rw [Finset.sum_comm]
    unfold Factors.adj
    by_cases h : r = 1
    · subst h
      simp only [dif_pos, Factors.d00, dotv, Finset.mul_sum]
      refine Finset.sum_congr rfl fun a _ => Finset.sum_congr rfl fun i _ => ?_
      rw [Subsingleton.elim (⟨0, by omega⟩ : Fin 1) a]; ring
    · rw [dif_neg h]
      simp only [dotv, Finset.mul_sum]
      exact Finset.sum_congr rfl fun a _ => Finset.sum_congr rfl fun i _ => by ring
  refine ⟨hX, hL, hA, fun x i => ?_, fun x u => ?_⟩
  · unfold Factors.aff
    cases F.offset <;> simp
  · simp only [hL, hA, Finset.sum_mul, Finset.mul_sum]
    rw [Finset.sum_comm]
    exact Finset.sum_congr rfl fun j _ => Finset.sum_congr rfl fun i _ => by ring

/-- concrete case: a factored matrix of rank two with an offset, and one of rank one (the special branch). -/
example :
    (Factors.mk (K := ℚ) (n := 2) (m := 3) (r := 2) (fun i a => (i : ℚ) + a) (fun a => (a : ℚ) + 1) (fun a j => (a : ℚ) * j + 1)
      (some fun _ => 7)).aff (fun _ => 1) 0 = 19 ∧
    (Factors.mk (K := ℚ) (n := 2) (m := 3) (r := 1) (fun i _ => (i : ℚ) + 1) (fun _ => 5) (fun _ j => (j : ℚ)) none).lin (fun _ => 1) 1 = 30 := by
  constructor
  · rw [(C65_factored _).2.2.2.1, (C65_factored _).2.1]
    simp only [(C65_factored _).1, Fin.sum_univ_three, Fin.sum_univ_two]
    norm_num
  · rw [(C65_factored _).2.1]
    simp only [(C65_factored _).1, Fin.sum_univ_three, Fin.sum_univ_one]
    norm_num

end Verif.Props
