import Verif.Spec.Svd
import Mathlib.Analysis.Matrix.Spectrum
import Mathlib.Data.Fin.Tuple.Sort
import Mathlib.Analysis.InnerProductSpace.PiL2

/-! # Every matrix has a thin singular value decomposition -/

set_option linter.unusedSectionVars false
set_option linter.unusedVariables false

namespace Verif.Lemmas
open Verif.Model Verif.Spec Verif.Model.Svd

variable {n p k : ℕ}

/-- an orthonormal basis of eigenvectors, sorted by eigenvalue -/
private lemma eigen (A : Matrix (Fin p) (Fin p) ℝ) (hA : A.IsHermitian) :
    ∃ (v : Fin p → Fin p → ℝ) (l : Fin p → ℝ), (∀ a b, ∑ j, v a j * v b j = if a = b then 1 else 0) ∧
      (∀ a i, ∑ j, A i j * v a j = l a * v a i) ∧ ∀ a b, a ≤ b → l b ≤ l a := by
  set σ := Tuple.sort fun a => -hA.eigenvalues a with hσ
  refine ⟨fun a => (hA.eigenvectorBasis (σ a)).ofLp, fun a => hA.eigenvalues (σ a), fun a b => ?_, fun a i => ?_, fun a b h => ?_⟩
  · have h := (orthonormal_iff_ite.1 hA.eigenvectorBasis.orthonormal) (σ a) (σ b)
    rw [PiLp.inner_apply] at h
    have e : (σ a = σ b) = (a = b) := by simp
    simp only [e] at h
    rw [← h]
    exact Finset.sum_congr rfl fun j _ => by simp [mul_comm]
  · have h := congrFun (hA.mulVec_eigenvectorBasis (σ a)) i
    simpa [Matrix.mulVec, dotProduct] using h
  · have h := Tuple.monotone_sort (fun a => -hA.eigenvalues a) h
    simpa using h

/-- orthonormal vectors indexed by some of the first `p` indices extend to `p` orthonormal vectors -/
private lemma extend (hp : p ≤ n) (u : Fin p → Fin n → ℝ) (s : Set (Fin p))
    (hu : ∀ a ∈ s, ∀ b ∈ s, ∑ i, u a i * u b i = if a = b then 1 else 0) :
    ∃ w : Fin p → Fin n → ℝ, (∀ a b, ∑ i, w a i * w b i = if a = b then 1 else 0) ∧ ∀ a ∈ s, w a = u a := by
  classical
  let v : Fin n → EuclideanSpace ℝ (Fin n) := fun i => if h : (i : ℕ) < p then WithLp.toLp 2 (u ⟨i, h⟩) else 0
  let S : Set (Fin n) := {i | ∃ h : (i : ℕ) < p, (⟨i, h⟩ : Fin p) ∈ s}
  have hv : Orthonormal ℝ (S.domRestrict v) := by
    rw [orthonormal_iff_ite]
    rintro ⟨i, hi, his⟩ ⟨j, hj, hjs⟩
    have h := hu _ his _ hjs
    have ei : v i = WithLp.toLp 2 (u ⟨i, hi⟩) := dif_pos hi
    have ej : v j = WithLp.toLp 2 (u ⟨j, hj⟩) := dif_pos hj
    show inner ℝ (v i) (v j) = _
    rw [ei, ej, PiLp.inner_apply]
    have e : ((⟨i, hi⟩ : Fin p) = ⟨j, hj⟩) ↔ ((⟨i, ⟨hi, his⟩⟩ : S) = ⟨j, ⟨hj, hjs⟩⟩) := by simp [Fin.ext_iff]
    simp only [← e]
    rw [← h]
    exact Finset.sum_congr rfl fun j _ => by simp [mul_comm]
  obtain ⟨b, hb⟩ := hv.exists_orthonormalBasis_extension_of_card_eq (by simp)
  refine ⟨fun a => (b (Fin.castLE hp a)).ofLp, fun a c => ?_, fun a ha => ?_⟩
  · have h := (orthonormal_iff_ite.1 b.orthonormal) (Fin.castLE hp a) (Fin.castLE hp c)
    rw [PiLp.inner_apply] at h
    have e : (Fin.castLE hp a = Fin.castLE hp c) = (a = c) := by simp [Fin.ext_iff]
    simp only [e] at h
    rw [← h]
    exact Finset.sum_congr rfl fun j _ => by simp [mul_comm]
  · dsimp only
    rw [hb (Fin.castLE hp a) ⟨a.2, ha⟩]
    simp [v]

/-- the rows of a square matrix with orthonormal columns are orthonormal -/
private lemma complete (v : Fin p → Fin p → ℝ) (h : ∀ a b, ∑ j, v a j * v b j = if a = b then 1 else 0) (i j : Fin p) :
    ∑ a, v a i * v a j = if i = j then 1 else 0 := by
  have h1 : (Matrix.of v) * (Matrix.of v).transpose = 1 := by
    ext a b
    simp only [Matrix.mul_apply, Matrix.transpose_apply, Matrix.of_apply, Matrix.one_apply]
    exact h a b
  have h1' : (Matrix.of v).transpose * (Matrix.of v) = 1 := mul_eq_one_comm.1 h1
  have h2 := congrFun (congrFun h1' i) j
  simpa [Matrix.mul_apply, Matrix.one_apply] using h2

private lemma tall (hk : k + 1 ≤ n) (X : Fin n × Fin (k + 1) → ℝ) : ∃ s : Triple n (k + 1) k, IsSvd X s := by
  let A : Matrix (Fin (k + 1)) (Fin (k + 1)) ℝ := fun j j' => ∑ i, X (i, j) * X (i, j')
  have hA : A.IsHermitian := by
    ext j j'
    simp only [Matrix.conjTranspose_apply, star_trivial]
    exact Finset.sum_congr rfl fun i _ => mul_comm _ _
  obtain ⟨v, l, hv, hl, hs⟩ := eigen A hA
  let Xv : Fin (k + 1) → Fin n → ℝ := fun a i => ∑ j, X (i, j) * v a j
  have hin : ∀ a b, ∑ i, Xv a i * Xv b i = if a = b then l a else 0 := by
    intro a b
    have e1 : ∑ i, Xv a i * Xv b i = ∑ j, v a j * ∑ j', A j j' * v b j' := by
      simp only [Xv, A, Finset.sum_mul, Finset.mul_sum]
      conv_rhs => rw [Finset.sum_comm]
      rw [Finset.sum_comm]
      refine Finset.sum_congr rfl fun j _ => ?_
      rw [Finset.sum_comm]
      refine Finset.sum_congr rfl fun j' _ => Finset.sum_congr rfl fun i _ => by ring
    rw [e1]
    simp only [hl]
    have e2 : ∑ j, v a j * (l b * v b j) = l b * ∑ j, v a j * v b j := by
      rw [Finset.mul_sum]; exact Finset.sum_congr rfl fun j _ => by ring
    rw [e2, hv]
    by_cases h : a = b
    · subst h; simp
    · simp [h]
  have hl0 : ∀ a, 0 ≤ l a := fun a => by
    have := hin a a
    rw [if_pos rfl] at this
    rw [← this]
    exact Finset.sum_nonneg fun i _ => mul_self_nonneg _
  have hz : ∀ a, l a = 0 → ∀ i, Xv a i = 0 := by
    intro a ha i
    have h := hin a a
    rw [if_pos rfl, ha, Finset.sum_eq_zero_iff_of_nonneg fun i _ => mul_self_nonneg _] at h
    exact mul_self_eq_zero.1 (h i (Finset.mem_univ i))
  obtain ⟨w, hw, hwu⟩ := extend hk (fun a i => Xv a i / Real.sqrt (l a)) {a | 0 < l a} (by
    intro a ha b hb
    have ha' : 0 < Real.sqrt (l a) := Real.sqrt_pos.2 ha
    have hb' : 0 < Real.sqrt (l b) := Real.sqrt_pos.2 hb
    have e : ∑ i, Xv a i / Real.sqrt (l a) * (Xv b i / Real.sqrt (l b)) =
        (∑ i, Xv a i * Xv b i) / (Real.sqrt (l a) * Real.sqrt (l b)) := by
      rw [Finset.sum_div]; exact Finset.sum_congr rfl fun i _ => by field_simp
    rw [e, hin]
    by_cases h : a = b
    · subst h
      rw [if_pos rfl, if_pos rfl, Real.mul_self_sqrt (hl0 a), div_self (ne_of_gt ha)]
    · rw [if_neg h, if_neg h, zero_div])
  refine ⟨⟨fun i a => w a i, fun a => Real.sqrt (l a), v⟩, fun i j => ?_, hw, hv, fun a => Real.sqrt_nonneg _,
    fun a b h => Real.sqrt_le_sqrt (hs a b h)⟩
  have key : ∀ a, w a i * Real.sqrt (l a) = Xv a i := by
    intro a
    rcases (hl0 a).eq_or_lt with h | h
    · rw [← h, Real.sqrt_zero, mul_zero, hz a h.symm]
    · rw [hwu a h]
      exact div_mul_cancel₀ _ (Real.sqrt_pos.2 h).ne'
  dsimp only
  simp only [key, Xv, Finset.sum_mul]
  rw [Finset.sum_comm]
  have e : ∀ j', ∑ a, X (i, j') * v a j' * v a j = if j' = j then X (i, j') else 0 := by
    intro j'
    have : ∑ a, X (i, j') * v a j' * v a j = X (i, j') * ∑ a, v a j' * v a j := by
      rw [Finset.mul_sum]; exact Finset.sum_congr rfl fun a _ => by ring
    rw [this, complete v hv]
    split_ifs <;> simp
  simp only [e]
  simp

/-- every `n × p` matrix with `k + 1 = min(n, p)` has a thin singular value decomposition with `k + 1` values -/
lemma exists_svd (hk : k + 1 = min n p) (X : Fin n × Fin p → ℝ) : ∃ s : Triple n p k, IsSvd X s := by
  rcases le_total p n with h | h
  · rw [min_eq_right h] at hk
    subst hk
    exact tall h X
  · rw [min_eq_left h] at hk
    subst hk
    obtain ⟨s, hs⟩ := tall h fun ji : Fin p × Fin (k + 1) => X (ji.2, ji.1)
    refine ⟨⟨fun i a => s.V a i, s.D, fun a j => s.U j a⟩, fun i j => ?_, hs.right, hs.left, hs.nonneg, hs.sorted⟩
    rw [hs.eq j i]
    exact Finset.sum_congr rfl fun a _ => by ring

end Verif.Lemmas
