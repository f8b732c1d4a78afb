import Verif.Model.PowerSvd
import Verif.Spec.QrFactor
import Mathlib.Analysis.InnerProductSpace.GramSchmidtOrtho
import Mathlib.Analysis.InnerProductSpace.PiL2

/-! Facts on orthonormal columns and on the passes of the block power iteration. -/

set_option linter.unusedSectionVars false
set_option linter.unusedVariables false

namespace Verif.Lemmas.PowerSvd
open Verif.Model.PowerSvd Verif.Spec

variable {m n p q : ℕ}

lemma bessel {ι : Type*} [Fintype ι] [DecidableEq ι] {Q : Fin m → ι → ℝ}
    (hQ : ∀ a b, ∑ i, Q i a * Q i b = if a = b then 1 else 0) (v : Fin m → ℝ) :
    ∑ a, (∑ i, Q i a * v i) ^ 2 ≤ ∑ i, v i ^ 2 := by
  set c : ι → ℝ := fun a => ∑ i, Q i a * v i with hc
  have h0 : 0 ≤ ∑ i, (v i - ∑ a, c a * Q i a) ^ 2 := Finset.sum_nonneg fun j _ => sq_nonneg _
  have e1 : ∑ i, v i * ∑ a, c a * Q i a = ∑ a, c a ^ 2 := by
    simp only [Finset.mul_sum]
    rw [Finset.sum_comm]
    refine Finset.sum_congr rfl fun a _ => ?_
    rw [pow_two]
    conv_rhs => rw [hc]
    simp only
    rw [Finset.mul_sum]
    exact Finset.sum_congr rfl fun j _ => by rw [hc]; ring
  have e2 : ∑ i, (∑ a, c a * Q i a) ^ 2 = ∑ a, c a ^ 2 := by
    have : ∀ i, (∑ a, c a * Q i a) ^ 2 = ∑ a, ∑ b, c a * c b * (Q i a * Q i b) := by
      intro i
      rw [pow_two, Finset.sum_mul_sum]
      exact Finset.sum_congr rfl fun a _ => Finset.sum_congr rfl fun b _ => by ring
    simp only [this]
    rw [Finset.sum_comm]
    refine Finset.sum_congr rfl fun a _ => ?_
    rw [Finset.sum_comm]
    simp only [← Finset.mul_sum, hQ]
    simp [pow_two]
  have e3 : ∑ i, (v i - ∑ a, c a * Q i a) ^ 2
      = ∑ i, v i ^ 2 - 2 * ∑ i, v i * ∑ a, c a * Q i a + ∑ i, (∑ a, c a * Q i a) ^ 2 := by
    rw [Finset.mul_sum, ← Finset.sum_sub_distrib, ← Finset.sum_add_distrib]
    exact Finset.sum_congr rfl fun i _ => by ring
  rw [e3, e1, e2] at h0
  linarith

/-- the squared length of a combination of orthonormal columns -/
lemma iso {ι : Type*} [Fintype ι] [DecidableEq ι] {Q : Fin m → ι → ℝ}
    (hQ : ∀ a b, ∑ i, Q i a * Q i b = if a = b then 1 else 0) (c : ι → ℝ) :
    ∑ i, (∑ a, Q i a * c a) ^ 2 = ∑ a, c a ^ 2 := by
  have : ∀ i, (∑ a, Q i a * c a) ^ 2 = ∑ a, ∑ b, c a * c b * (Q i a * Q i b) := by
    intro i
    rw [pow_two, Finset.sum_mul_sum]
    exact Finset.sum_congr rfl fun a _ => Finset.sum_congr rfl fun b _ => by ring
  simp only [this]
  rw [Finset.sum_comm]
  refine Finset.sum_congr rfl fun a _ => ?_
  rw [Finset.sum_comm]
  simp only [← Finset.mul_sum, hQ]
  simp [pow_two]

/-- the coefficients in orthonormal columns are inner products -/
lemma coef {A Q : Fin m → Fin q → ℝ} {R : Fin q → Fin q → ℝ} (h : IsQr A Q R) (a b : Fin q) :
    ∑ i, Q i b * A i a = R b a := by
  have : ∀ i, Q i b * A i a = ∑ c, (Q i b * Q i c) * R c a := fun i => by
    rw [h.eq, Finset.mul_sum]; exact Finset.sum_congr rfl fun c _ => by ring
  simp only [this]
  rw [Finset.sum_comm]
  simp only [← Finset.sum_mul, h.orth]
  simp

/-- a column of the argument has the length of its column of coefficients -/
lemma col_sq {A Q : Fin m → Fin q → ℝ} {R : Fin q → Fin q → ℝ} (h : IsQr A Q R) (a : Fin q) :
    ∑ i, A i a ^ 2 = ∑ b, R b a ^ 2 := by
  rw [← iso h.orth fun b => R b a]
  exact Finset.sum_congr rfl fun i _ => by rw [h.eq]

/-- adjointness -/
lemma adj (X : Fin n → Fin p → ℝ) (U : Fin n → Fin q → ℝ) (V : Fin p → Fin q → ℝ) (a b : Fin q) :
    ∑ j, V j a * adjMap X U j b = ∑ i, U i b * linMap X V i a := by
  unfold adjMap linMap
  simp only [Finset.mul_sum]
  rw [Finset.sum_comm]
  exact Finset.sum_congr rfl fun i _ => Finset.sum_congr rfl fun j _ => by ring

/-- with `m` rows and at most as many columns there is a factorisation -/
lemma qr_exists (h : q ≤ m) (A : Fin m → Fin q → ℝ) : ∃ Q R, IsQr A Q R := by
  let f : Fin m → EuclideanSpace ℝ (Fin m) := fun k => WithLp.toLp 2 fun i => if hk : k.val < q then A i ⟨k, hk⟩ else 0
  have hc : Module.finrank ℝ (EuclideanSpace ℝ (Fin m)) = Fintype.card (Fin m) := by simp
  let b := InnerProductSpace.gramSchmidtOrthonormalBasis hc f
  have hf : ∀ (a : Fin q) i, f (a.castLE h) i = A i a := fun a i => by simp [f]
  have tri : ∀ k l, k < l → inner ℝ (b l) (f k) = 0 := fun k l hkl =>
    InnerProductSpace.gramSchmidtOrthonormalBasis_inv_triangular hc f hkl
  refine ⟨fun i a => b (a.castLE h) i, fun c a => inner ℝ (b (c.castLE h)) (f (a.castLE h)), ?_, ?_, ?_⟩
  · intro i a
    have e := b.sum_repr' (f (a.castLE h))
    have e2 : f (a.castLE h) i = ∑ k, inner ℝ (b k) (f (a.castLE h)) * b k i := by
      conv_lhs => rw [← e]
      simp
    rw [← hf, e2]
    symm
    have inj : Function.Injective (Fin.castLE h) := Fin.castLE_injective h
    rw [← Finset.sum_subset (Finset.subset_univ (Finset.univ.map ⟨Fin.castLE h, inj⟩)), Finset.sum_map]
    · exact Finset.sum_congr rfl fun c _ => by simp only [Function.Embedding.coeFn_mk]; ring
    · intro k _ hk
      have hk' : ¬ k.val < q := fun hlt => hk (by simpa using ⟨⟨k, hlt⟩, by ext; simp⟩)
      rw [tri _ _ (by rw [Fin.lt_def]; simp; omega), zero_mul]
  · intro a c
    have := orthonormal_iff_ite.1 b.orthonormal (a.castLE h) (c.castLE h)
    rw [PiLp.inner_apply] at this
    simp only [Fin.castLE_inj] at this
    rw [← this]
    exact Finset.sum_congr rfl fun i _ => by simp [mul_comm]
  · intro a c hac
    exact tri _ _ (Fin.lt_def.2 hac)

lemma cs (f g : Fin m → ℝ) : |∑ i, f i * g i| ≤ vnorm f * vnorm g := by
  unfold vnorm
  rw [← Real.sqrt_mul (Finset.sum_nonneg fun i _ => sq_nonneg _), ← Real.sqrt_sq_eq_abs]
  exact Real.sqrt_le_sqrt (Finset.sum_mul_sq_le_sq_mul_sq _ _ _)

lemma norm_unit {f : Fin m → ℝ} (h : ∑ i, f i * f i = 1) : vnorm f = 1 := by
  unfold vnorm
  simp only [pow_two, h, Real.sqrt_one]

variable {rank : ℕ} {h : rank ≤ q} {X : Fin n → Fin p → ℝ} {qp : Qr p q} {qn : Qr n q} {tol : ℝ}
  {rule : Option ((Fin rank → ℝ) → Bool)}

/-- the state after `k` passes when the loop does not stop -/
noncomputable def after (h : rank ≤ q) (X : Fin n → Fin p → ℝ) (qp : Qr p q) (qn : Qr n q) (tol : ℝ)
    (rule : Option ((Fin rank → ℝ) → Bool)) (U0 : Fin n → Fin q → ℝ) : ℕ → State n p q rank
  | 0 => start tol U0
  | k + 1 => step h X qp qn tol rule (after h X qp qn tol rule U0 k)

lemma after_count (U0 : Fin n → Fin q → ℝ) (k : ℕ) : (after h X qp qn tol rule U0 k).itercount = k := by
  induction k with
  | zero => rfl
  | succ k ih => show (after h X qp qn tol rule U0 k).itercount + 1 = k + 1; rw [ih]

lemma loop_after (U0 : Fin n → Fin q → ℝ) (k i : ℕ) :
    ∃ j ≤ k, loop h X qp qn tol rule k (after h X qp qn tol rule U0 i) = after h X qp qn tol rule U0 (i + j) ∧
      (1 ≤ k → (after h X qp qn tol rule U0 i).rel = true → (after h X qp qn tol rule U0 i).broke = false → 1 ≤ j) := by
  induction k generalizing i with
  | zero => exact ⟨0, le_rfl, rfl, fun h => by omega⟩
  | succ k ih =>
    unfold loop
    split_ifs with hc
    · obtain ⟨j, hj, e, _⟩ := ih (i + 1)
      refine ⟨j + 1, by omega, ?_, fun _ _ _ => by omega⟩
      rw [show i + (j + 1) = i + 1 + j by ring, ← e]
      rfl
    · exact ⟨0, by omega, rfl, fun _ h1 h2 => absurd ⟨h1, h2⟩ hc⟩

/-- one more pass allowed: the same result, or one pass more -/
lemma loop_succ (k : ℕ) (s : State n p q rank) :
    loop h X qp qn tol rule (k + 1) s = loop h X qp qn tol rule k s ∨
      loop h X qp qn tol rule (k + 1) s = step h X qp qn tol rule (loop h X qp qn tol rule k s) := by
  induction k generalizing s with
  | zero => unfold loop; split_ifs <;> simp [loop]
  | succ k ih =>
    by_cases hc : s.rel = true ∧ s.broke = false
    · have e1 : ∀ k, loop h X qp qn tol rule (k + 1) s = loop h X qp qn tol rule k (step h X qp qn tol rule s) :=
        fun k => by rw [loop, if_pos hc]
      rw [e1, e1 k]
      exact ih _
    · have e1 : ∀ k, loop h X qp qn tol rule (k + 1) s = s := fun k => by rw [loop, if_neg hc]
      rw [e1, e1]
      exact Or.inl rfl

/-- the loop with all its passes, if it never asks to stop -/
lemma loop_all (U0 : Fin n → Fin q → ℝ) (k i : ℕ)
    (hc : ∀ j, i ≤ j → (after h X qp qn tol rule U0 j).rel = true ∧ (after h X qp qn tol rule U0 j).broke = false) :
    loop h X qp qn tol rule k (after h X qp qn tol rule U0 i) = after h X qp qn tol rule U0 (i + k) := by
  induction k generalizing i with
  | zero => rfl
  | succ k ih =>
    unfold loop
    rw [if_pos (hc i le_rfl), show i + (k + 1) = i + 1 + k by ring, ← ih (i + 1) fun j hj => hc j (by omega)]
    rfl

end Verif.Lemmas.PowerSvd
