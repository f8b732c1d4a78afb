import Verif.Lemmas.PowerSvd
import Verif.Lemmas.Svd

/-!
# C110: what the power iteration of `partial_svd` returns

`np.linalg.qr` is any function meeting its contract (`Spec.IsQr`) and the random start is arbitrary.
-/

set_option linter.unusedSectionVars false
set_option linter.unusedVariables false

namespace Verif.Props
open Verif.Model.PowerSvd Verif.Spec Verif.Lemmas.PowerSvd

variable {n p : ℕ}

/-- the factorisation routine meets its contract on every array -/
def Factors {m q : ℕ} (f : Qr m q) : Prop := ∀ A, IsQr A (f.Q A) (f.R A)

/-- the energy `Σ_{a<m} ‖X v_a‖²` that the leading `m` right vectors capture -/
noncomputable def captured {q : ℕ} (m : ℕ) (X : Fin n → Fin p → ℝ) (V : Fin p → Fin q → ℝ) : ℝ :=
  ∑ a : Fin q, if a.val < m then ∑ i, (∑ j, X i j * V j a) ^ 2 else 0

/-- `X` as a family indexed by pairs -/
def entries (X : Fin n → Fin p → ℝ) : Fin n × Fin p → ℝ := fun ij => X ij.1 ij.2

/-- **C110** arrays with at least as many rows as columns have a QR factorisation: the contract can be met. -/
theorem C110_factors_exist {m q : ℕ} (h : q ≤ m) : ∃ f : Qr m q, Factors f := by
  choose Q R hQR using fun A : Fin m → Fin q → ℝ => qr_exists h A
  exact ⟨⟨Q, R⟩, hQR⟩

section
variable {q rank : ℕ} {h : rank ≤ q} {X : Fin n → Fin p → ℝ} {qp : Qr p q} {qn : Qr n q} {tol : ℝ}
  {rule : Option ((Fin rank → ℝ) → Bool)} {U0 : Fin n → Fin q → ℝ}

/-- the state after a pass -/
private structure Good (X : Fin n → Fin p → ℝ) (s : State n p q rank) : Prop where
  V : ∀ a b, ∑ j, s.V j a * s.V j b = if a = b then 1 else 0
  qr : IsQr (linMap X s.V) s.U s.R

private lemma good_step (hp : Factors qp) (hn : Factors qn) (s : State n p q rank) : Good X (step h X qp qn tol rule s) :=
  ⟨(hp _).orth, hn _⟩

private lemma final_after {k : ℕ} (hk : 1 ≤ k) (ht : tol < 1) :
    ∃ j, 1 ≤ j ∧ j ≤ k ∧ loop h X qp qn tol rule k (start tol U0) = after h X qp qn tol rule U0 j := by
  obtain ⟨j, hj, e, h1⟩ := loop_after (h := h) (X := X) (qp := qp) (qn := qn) (tol := tol) (rule := rule) U0 k 0
  refine ⟨j, h1 hk (by show decide (tol < 1) = true; simpa using ht) rfl, hj, ?_⟩
  rw [zero_add] at e
  exact e

private lemma good_after (hp : Factors qp) (hn : Factors qn) {k : ℕ} (hk : 1 ≤ k) : Good X (after h X qp qn tol rule U0 k) := by
  obtain ⟨k, rfl⟩ := Nat.exists_eq_add_of_le' hk
  exact good_step hp hn _

private lemma Good.diag {s : State n p q rank} (g : Good X s) (a b : Fin q) :
    ∑ i, s.U i b * ∑ j, X i j * s.V j a = s.R b a := coef g.qr a b

private lemma Good.bil {s : State n p q rank} (g : Good X s) (a : Fin q) :
    ∑ i, ∑ j, s.U i a * X i j * s.V j a = s.R a a := by
  rw [← g.diag a a]
  refine Finset.sum_congr rfl fun i _ => ?_
  rw [Finset.mul_sum]
  exact Finset.sum_congr rfl fun j _ => by ring

/-- `m` leading columns: only the leading coefficients matter -/
private lemma lead_sq {m' : ℕ} {A Q : Fin m' → Fin q → ℝ} {R : Fin q → Fin q → ℝ} (hA : IsQr A Q R) (m : ℕ) :
    (∑ a : Fin q, if a.val < m then ∑ i, A i a ^ 2 else 0) =
      ∑ a : Fin q, if a.val < m then ∑ b : Fin q, (if b.val < m then (∑ i, Q i b * A i a) ^ 2 else 0) else 0 := by
  refine Finset.sum_congr rfl fun a _ => ?_
  split_ifs with ha
  · rw [col_sq hA]
    refine Finset.sum_congr rfl fun b _ => ?_
    rw [coef hA]
    split_ifs with hb
    · rfl
    · rw [hA.tri a b (Fin.lt_def.2 (by omega))]; ring
  · rfl

private lemma bessel_lead {m' : ℕ} {Q : Fin m' → Fin q → ℝ} (hQ : ∀ a b, ∑ i, Q i a * Q i b = if a = b then 1 else 0) (m : ℕ)
    (v : Fin m' → ℝ) : (∑ a : Fin q, if a.val < m then (∑ i, Q i a * v i) ^ 2 else 0) ≤ ∑ i, v i ^ 2 := by
  refine le_trans (Finset.sum_le_sum fun a _ => ?_) (bessel hQ v)
  split_ifs
  · exact le_rfl
  · exact sq_nonneg _

private lemma swap (m : ℕ) (F : Fin q → Fin q → ℝ) :
    (∑ a : Fin q, if a.val < m then ∑ b : Fin q, (if b.val < m then F a b else 0) else 0) =
      ∑ b : Fin q, if b.val < m then ∑ a : Fin q, (if a.val < m then F a b else 0) else 0 := by
  have e : ∀ G : Fin q → Fin q → ℝ, (∑ a : Fin q, if a.val < m then ∑ b : Fin q, (if b.val < m then G a b else 0) else 0) =
      ∑ a : Fin q, ∑ b : Fin q, if a.val < m ∧ b.val < m then G a b else 0 := by
    intro G
    refine Finset.sum_congr rfl fun a _ => ?_
    split_ifs with ha
    · simp [ha]
    · simp [ha]
  rw [e, e, Finset.sum_comm]
  exact Finset.sum_congr rfl fun a _ => Finset.sum_congr rfl fun b _ => by simp [and_comm]

private lemma captured_step (hp : Factors qp) (hn : Factors qn) (m : ℕ) {s : State n p q rank} (g : Good X s) :
    captured m X s.V ≤ captured m X (step h X qp qn tol rule s).V := by
  set t := step h X qp qn tol rule s with ht
  have hV : IsQr (adjMap X s.U) t.V (qp.R (adjMap X s.U)) := hp _
  calc captured m X s.V
      = ∑ a : Fin q, if a.val < m then ∑ b : Fin q, (if b.val < m then (∑ i, s.U i b * linMap X s.V i a) ^ 2 else 0) else 0 :=
        lead_sq g.qr m
    _ = ∑ b : Fin q, if b.val < m then ∑ a : Fin q, (if a.val < m then (∑ i, s.U i b * linMap X s.V i a) ^ 2 else 0) else 0 :=
        swap m _
    _ = ∑ b : Fin q, if b.val < m then ∑ a : Fin q, (if a.val < m then (∑ j, s.V j a * adjMap X s.U j b) ^ 2 else 0) else 0 := by
        simp only [adj]
    _ ≤ ∑ b : Fin q, if b.val < m then ∑ j, adjMap X s.U j b ^ 2 else 0 := by
        refine Finset.sum_le_sum fun b _ => ?_
        split_ifs
        · exact bessel_lead g.V m _
        · exact le_rfl
    _ = ∑ b : Fin q, if b.val < m then ∑ c : Fin q, (if c.val < m then (∑ j, t.V j c * adjMap X s.U j b) ^ 2 else 0) else 0 :=
        lead_sq hV m
    _ = ∑ c : Fin q, if c.val < m then ∑ b : Fin q, (if b.val < m then (∑ j, t.V j c * adjMap X s.U j b) ^ 2 else 0) else 0 :=
        swap m _
    _ = ∑ c : Fin q, if c.val < m then ∑ b : Fin q, (if b.val < m then (∑ i, s.U i b * linMap X t.V i c) ^ 2 else 0) else 0 := by
        simp only [adj]
    _ ≤ captured m X t.V := by
        refine Finset.sum_le_sum fun c _ => ?_
        split_ifs
        · exact bessel_lead g.qr.orth m _
        · exact le_rfl

/-! ### the leading column -/

section lead
variable (hp : Factors qp) (hn : Factors qn) {σ : ℝ} {z : Fin n → ℝ} {w : Fin p → ℝ} (a : Fin q) (ha : a.val = 0)
include hp hn ha

private lemma first_col {m' : ℕ} {A Q : Fin m' → Fin q → ℝ} {R : Fin q → Fin q → ℝ} (hA : IsQr A Q R) (i : Fin m') :
    A i a = Q i a * R a a := by
  rw [hA.eq, Finset.sum_eq_single a]
  · intro b _ hb
    rw [hA.tri a b (Fin.lt_def.2 (by have : b.val ≠ a.val := fun e => hb (Fin.ext e)
                                     omega)), mul_zero]
  · simp

private lemma lead_le (hσ : 0 ≤ σ) (hop : ∀ v : Fin p → ℝ, ∑ i, (∑ j, X i j * v j) ^ 2 ≤ σ ^ 2 * ∑ j, v j ^ 2)
    {s : State n p q rank} (g : Good X s) (b : Fin q) : |s.R b b| ≤ σ := by
  have h1 : (s.R b b) ^ 2 ≤ σ ^ 2 := by
    have h2 := hop fun j => s.V j b
    have h3 := col_sq g.qr b
    have h4 : ∑ j, s.V j b ^ 2 = 1 := by simpa [pow_two] using g.V b b
    rw [h4, mul_one] at h2
    refine le_trans ?_ h2
    rw [show ∑ i, (∑ j, X i j * s.V j b) ^ 2 = ∑ c, s.R c b ^ 2 from h3]
    exact Finset.single_le_sum (f := fun c => s.R c b ^ 2) (fun c _ => sq_nonneg _) (Finset.mem_univ b)
  exact abs_le_of_sq_le_sq h1 hσ

/-- the relations between a state and the next -/
private lemma next_rel (hw : ∀ i, ∑ j, X i j * w j = σ * z i) (hz : ∀ j, ∑ i, X i j * z i = σ * w j) (s : State n p q rank) :
    ∃ ρ : ℝ, 0 ≤ ρ ∧
      |∑ j, w j * (step h X qp qn tol rule s).V j a| * ρ = |σ| * |∑ i, z i * s.U i a| ∧
      ρ ≤ |(step h X qp qn tol rule s).R a a| * vnorm (fun i => s.U i a) ∧
      |∑ i, z i * (step h X qp qn tol rule s).U i a| * |(step h X qp qn tol rule s).R a a| =
        |σ| * |∑ j, w j * (step h X qp qn tol rule s).V j a| ∧
      (Good X s → |s.R a a| ≤ ρ) := by
  set t := step h X qp qn tol rule s with ht
  have g : Good X t := good_step hp hn s
  have hV : IsQr (adjMap X s.U) t.V (qp.R (adjMap X s.U)) := hp _
  set P := qp.R (adjMap X s.U) a a with hP
  have fV : ∀ j, adjMap X s.U j a = t.V j a * P := fun j => first_col hp hn a ha hV j
  have fU : ∀ i, linMap X t.V i a = t.U i a * t.R a a := fun i => first_col hp hn a ha g.qr i
  have cP : ∑ i, s.U i a * linMap X t.V i a = P := by rw [← adj]; exact coef hV a a
  refine ⟨|P|, abs_nonneg _, ?_, ?_, ?_, ?_⟩
  · rw [← abs_mul, ← abs_mul]
    congr 1
    rw [Finset.sum_mul]
    have : ∀ j, w j * t.V j a * P = ∑ i, w j * (X i j * s.U i a) := fun j => by
      rw [mul_assoc, ← fV]; unfold adjMap; rw [Finset.mul_sum]
    simp only [this]
    rw [Finset.sum_comm, Finset.mul_sum]
    refine Finset.sum_congr rfl fun i _ => ?_
    rw [← mul_assoc, ← hw, Finset.sum_mul]
    exact Finset.sum_congr rfl fun j _ => by ring
  · rw [← cP]
    have e : ∑ i, s.U i a * linMap X t.V i a = t.R a a * ∑ i, s.U i a * t.U i a := by
      rw [Finset.mul_sum]
      exact Finset.sum_congr rfl fun i _ => by rw [fU]; ring
    rw [e, abs_mul]
    refine mul_le_mul_of_nonneg_left ?_ (abs_nonneg _)
    have := cs (fun i => s.U i a) fun i => t.U i a
    rwa [norm_unit (f := fun i => t.U i a) (by simpa using g.qr.orth a a), mul_one] at this
  · rw [← abs_mul, ← abs_mul]
    congr 1
    rw [Finset.sum_mul]
    have : ∀ i, z i * t.U i a * t.R a a = ∑ j, z i * (X i j * t.V j a) := fun i => by
      rw [mul_assoc, ← fU]; unfold linMap; rw [Finset.mul_sum]
    simp only [this]
    rw [Finset.sum_comm, Finset.mul_sum]
    refine Finset.sum_congr rfl fun j _ => ?_
    rw [← mul_assoc, ← hz, Finset.sum_mul]
    exact Finset.sum_congr rfl fun j _ => by ring
  · intro gs
    have e1 : s.R a a = ∑ j, s.V j a * adjMap X s.U j a := by rw [adj]; exact (gs.diag a a).symm
    have e : ∑ j, s.V j a * adjMap X s.U j a = P * ∑ j, s.V j a * t.V j a := by
      rw [Finset.mul_sum]
      exact Finset.sum_congr rfl fun j _ => by rw [fV]; ring
    rw [e1, e, abs_mul]
    refine mul_le_of_le_one_right (abs_nonneg _) ?_
    have := cs (fun j => s.V j a) fun j => t.V j a
    rwa [norm_unit (f := fun j => t.V j a) (by simpa using g.V a a), norm_unit (f := fun j => s.V j a) (by simpa using gs.V a a),
      mul_one] at this

private lemma lead_inv (hσ : 0 < σ) (hop : ∀ v : Fin p → ℝ, ∑ i, (∑ j, X i j * v j) ^ 2 ≤ σ ^ 2 * ∑ j, v j ^ 2)
    (hw : ∀ i, ∑ j, X i j * w j = σ * z i) (hz : ∀ j, ∑ i, X i j * z i = σ * w j) (k : ℕ) :
    |∑ i, z i * U0 i a| * σ ^ (2 * k) ≤ vnorm (fun i => U0 i a) *
      |∑ j, w j * (after h X qp qn tol rule U0 (k + 1)).V j a| * |(after h X qp qn tol rule U0 (k + 1)).R a a| ^ (2 * k) := by
  induction k with
  | zero =>
    obtain ⟨ρ, h0, h1, h2, -, -⟩ := next_rel (h := h) (tol := tol) (rule := rule) hp hn a ha hw hz (start tol U0)
    have g : Good X (step h X qp qn tol rule (start tol U0)) := good_step hp hn _
    have h3 := lead_le hp hn a ha hσ.le hop g a
    simp only [mul_zero, pow_zero, mul_one]
    show _ ≤ _ * |∑ j, w j * (step h X qp qn tol rule (start tol U0)).V j a|
    rw [abs_of_pos hσ] at h1
    have hv : 0 ≤ vnorm (fun i => U0 i a) := Real.sqrt_nonneg _
    have h4 : ρ ≤ σ * vnorm (fun i => U0 i a) := le_trans h2 (mul_le_mul_of_nonneg_right h3 hv)
    have h5 := mul_le_mul_of_nonneg_left h4 (abs_nonneg (∑ j, w j * (step h X qp qn tol rule (start tol U0)).V j a))
    rw [h1] at h5
    refine le_of_mul_le_mul_left (a := σ) ?_ hσ
    calc σ * |∑ i, z i * U0 i a| ≤ _ := h5
      _ = _ := by ring
  | succ k ih =>
    set s := after h X qp qn tol rule U0 (k + 1) with hs
    obtain ⟨ρ, h0, h1, h2, -, h4⟩ := next_rel (h := h) (tol := tol) (rule := rule) hp hn a ha hw hz s
    obtain ⟨-, -, -, -, h3, -⟩ := next_rel (h := h) (tol := tol) (rule := rule) hp hn a ha hw hz (after h X qp qn tol rule U0 k)
    have g : Good X s := good_after hp hn (by omega)
    have h4 := h4 g
    show _ ≤ _ * |∑ j, w j * (step h X qp qn tol rule s).V j a| * |(step h X qp qn tol rule s).R a a| ^ (2 * (k + 1))
    change |∑ i, z i * s.U i a| * |s.R a a| = |σ| * |∑ j, w j * s.V j a| at h3
    rw [norm_unit (f := fun i => s.U i a) (by simpa using g.qr.orth a a), mul_one] at h2
    rw [abs_of_pos hσ] at h1 h3
    set r := |s.R a a| with hr
    set r' := |(step h X qp qn tol rule s).R a a| with hr'
    set y := |∑ j, w j * (step h X qp qn tol rule s).V j a| with hy
    have hr0 : 0 ≤ r := abs_nonneg _
    have hv : 0 ≤ vnorm (fun i => U0 i a) := Real.sqrt_nonneg _
    have hy0 : 0 ≤ y := abs_nonneg _
    calc |∑ i, z i * U0 i a| * σ ^ (2 * (k + 1)) = (|∑ i, z i * U0 i a| * σ ^ (2 * k)) * σ ^ 2 := by ring
      _ ≤ (vnorm (fun i => U0 i a) * |∑ j, w j * s.V j a| * r ^ (2 * k)) * σ ^ 2 :=
          mul_le_mul_of_nonneg_right ih (sq_nonneg _)
      _ = vnorm (fun i => U0 i a) * (σ * (σ * |∑ j, w j * s.V j a|)) * r ^ (2 * k) := by ring
      _ = vnorm (fun i => U0 i a) * (y * (ρ * r)) * r ^ (2 * k) := by rw [← h3, ← mul_assoc y, h1]; ring
      _ = vnorm (fun i => U0 i a) * y * (ρ * r ^ (2 * k + 1)) := by ring
      _ ≤ vnorm (fun i => U0 i a) * y * (r' * r' ^ (2 * k + 1)) := by
          refine mul_le_mul_of_nonneg_left ?_ (mul_nonneg hv hy0)
          exact mul_le_mul h2 (pow_le_pow_left₀ hr0 (h4.trans h2) _) (pow_nonneg hr0 _) (h0.trans h2)
      _ = vnorm (fun i => U0 i a) * y * r' ^ (2 * (k + 1)) := by ring

private lemma lead_bound (hσ : 0 < σ) (hop : ∀ v : Fin p → ℝ, ∑ i, (∑ j, X i j * v j) ^ 2 ≤ σ ^ 2 * ∑ j, v j ^ 2)
    (hw : ∀ i, ∑ j, X i j * w j = σ * z i) (hz : ∀ j, ∑ i, X i j * z i = σ * w j) (hz1 : ∑ i, z i * z i = 1) (k : ℕ) :
    |∑ i, z i * U0 i a| * σ ^ (2 * k + 1) ≤ vnorm (fun i => U0 i a) *
      |(after h X qp qn tol rule U0 (k + 1)).R a a| ^ (2 * k + 1) := by
  have hi := lead_inv (h := h) (tol := tol) (rule := rule) (U0 := U0) hp hn a ha hσ hop hw hz k
  obtain ⟨-, -, -, -, h3, -⟩ := next_rel (h := h) (tol := tol) (rule := rule) hp hn a ha hw hz (after h X qp qn tol rule U0 k)
  set s := after h X qp qn tol rule U0 (k + 1) with hs
  change |∑ i, z i * s.U i a| * |s.R a a| = |σ| * |∑ j, w j * s.V j a| at h3
  rw [abs_of_pos hσ] at h3
  have g : Good X s := good_after hp hn (by omega)
  have h5 : |∑ i, z i * s.U i a| ≤ 1 := by
    have := cs z fun i => s.U i a
    rwa [norm_unit (f := fun i => s.U i a) (by simpa using g.qr.orth a a), norm_unit hz1, mul_one] at this
  have h6 : σ * |∑ j, w j * s.V j a| ≤ |s.R a a| := by rw [← h3]; exact mul_le_of_le_one_left (abs_nonneg _) h5
  have hv : 0 ≤ vnorm (fun i => U0 i a) := Real.sqrt_nonneg _
  calc |∑ i, z i * U0 i a| * σ ^ (2 * k + 1) = |∑ i, z i * U0 i a| * σ ^ (2 * k) * σ := by ring
    _ ≤ _ := mul_le_mul_of_nonneg_right hi hσ.le
    _ = vnorm (fun i => U0 i a) * |s.R a a| ^ (2 * k) * (σ * |∑ j, w j * s.V j a|) := by ring
    _ ≤ vnorm (fun i => U0 i a) * |s.R a a| ^ (2 * k) * |s.R a a| :=
        mul_le_mul_of_nonneg_left h6 (mul_nonneg hv (pow_nonneg (abs_nonneg _) _))
    _ = _ := by ring

end lead
end

/-! ### the call -/

section
variable {X : Fin n → Fin p → ℝ} {rank padding : ℕ} {qp : Qr p (width p rank padding)} {qn : Qr n (width p rank padding)}
  {maxIts : ℕ} {tol : ℝ} {warm : List (Fin n → ℝ)} {rnd : Fin n → Fin (width p rank padding) → ℝ} {full : Bool}
  {rule : Option ((Fin (effRank p rank) → ℝ) → Bool)}

open Classical in
private lemma finish_triplets {q r m : ℕ} {s : State n p q r} {l : List (Triplet n p)} (h : finish m s = .triplets l) :
    l = ((List.finRange q).filter (fun a => decide (a.val < m ∧ |s.R a a| > 1 / 10 ^ 12))).map
      (fun a => ⟨fun i => s.U i a * Real.sign (s.R a a), |s.R a a|, fun j => s.V j a⟩) := by
  unfold finish at h
  split at h
  · rename_i a l' e
    rw [e]
    exact (Result.triplets.inj h).symm
  · split at h <;> cases h

private lemma answered (h : ∀ e, partialSvd X rank padding qp qn maxIts tol warm rnd full rule = e →
    (∃ l, e = .triplets l) ∨ ∃ u v, e = .flat u v) :
    1 ≤ maxIts ∧ tol < 1 ∧ partialSvd X rank padding qp qn maxIts tol warm rnd full rule =
      finish (if full then width p rank padding else effRank p rank) (final X rank padding qp qn maxIts tol warm rnd rule) := by
  have h1 := h _ rfl
  by_cases c1 : width p rank padding < warm.length
  · unfold partialSvd at h1; rw [if_pos c1] at h1; simp at h1
  by_cases c2 : maxIts = 0 ∨ ¬ tol < 1
  · unfold partialSvd at h1; rw [if_neg c1, if_pos c2] at h1; simp at h1
  by_cases c3 : n < effRank p rank
  · unfold partialSvd at h1; rw [if_neg c1, if_neg c2, if_pos c3] at h1; simp at h1
  by_cases c4 : n < width p rank padding
  · unfold partialSvd at h1; rw [if_neg c1, if_neg c2, if_neg c3, if_pos c4] at h1
    cases full <;> simp at h1
  unfold partialSvd
  rw [if_neg c1, if_neg c2, if_neg c3, if_neg c4]
  push Not at c2
  exact ⟨by omega, c2.2, rfl⟩

private lemma triplets_of {l : List (Triplet n p)}
    (h : partialSvd X rank padding qp qn maxIts tol warm rnd full rule = .triplets l) :
    1 ≤ maxIts ∧ tol < 1 ∧
      finish (if full then width p rank padding else effRank p rank) (final X rank padding qp qn maxIts tol warm rnd rule) =
        .triplets l := by
  obtain ⟨h1, h2, h3⟩ := answered (X := X) (qp := qp) (qn := qn) (maxIts := maxIts) (tol := tol) (warm := warm) (rnd := rnd)
    (full := full) (rule := rule) fun e he => Or.inl ⟨l, he.symm.trans h⟩
  exact ⟨h1, h2, h3.symm.trans h⟩

private lemma final_good (hp : Factors qp) (hn : Factors qn) (h1 : 1 ≤ maxIts) (h2 : tol < 1) :
    Good X (final X rank padding qp qn maxIts tol warm rnd rule) := by
  obtain ⟨j, hj, -, e⟩ := final_after (h := effRank_le p rank padding) (X := X) (qp := qp) (qn := qn) (tol := tol) (rule := rule)
    (U0 := startU _ warm rnd) h1 h2
  unfold final
  rw [e]
  exact good_after hp hn hj

private lemma sign_sq {x : ℝ} (h : |x| > 1 / 10 ^ 12) : Real.sign x * Real.sign x = 1 := by
  have hx : x ≠ 0 := by rintro rfl; norm_num at h
  rcases lt_or_gt_of_ne hx with h | h
  · rw [Real.sign_of_neg h]; norm_num
  · rw [Real.sign_of_pos h]; norm_num

private lemma sign_mul (x : ℝ) : Real.sign x * x = |x| := by
  rcases lt_trichotomy x 0 with h | h | h
  · rw [Real.sign_of_neg h, abs_of_neg h]; ring
  · simp [h]
  · rw [Real.sign_of_pos h, abs_of_pos h]; ring

/-- **C110** whatever the start, the tolerance and the stopping rule, the left vectors returned are orthonormal, so are the right
vectors, there are at most as many as asked for, and each value is positive and is `uᵀ X v` of its two vectors. -/
theorem C110_orthonormal (hp : Factors qp) (hn : Factors qn) {l : List (Triplet n p)}
    (h : partialSvd X rank padding qp qn maxIts tol warm rnd full rule = .triplets l) :
    (∀ t ∈ l, ∑ i, t.u i * t.u i = 1 ∧ ∑ j, t.v j * t.v j = 1 ∧ 0 < t.d ∧ t.d = ∑ i, ∑ j, t.u i * X i j * t.v j) ∧
      l.Pairwise (fun s t => ∑ i, s.u i * t.u i = 0 ∧ ∑ j, s.v j * t.v j = 0) ∧
      l.length ≤ (if full then min (min rank p + padding) p else min rank p) := by
  classical
  obtain ⟨h1, h2, h3⟩ := triplets_of h
  have g := final_good (X := X) (warm := warm) (rnd := rnd) (rule := rule) hp hn h1 h2
  set s := final X rank padding qp qn maxIts tol warm rnd rule with hs
  have hl := finish_triplets h3
  refine ⟨?_, ?_, ?_⟩
  · intro t ht
    rw [hl, List.mem_map] at ht
    obtain ⟨a, ha, rfl⟩ := ht
    rw [List.mem_filter] at ha
    have hbig : |s.R a a| > 1 / 10 ^ 12 := (of_decide_eq_true ha.2).2
    refine ⟨?_, by simpa using g.V a a, lt_trans (by norm_num) hbig, ?_⟩
    · have := g.qr.orth a a
      rw [if_pos rfl] at this
      calc ∑ i, s.U i a * Real.sign (s.R a a) * (s.U i a * Real.sign (s.R a a))
          = ∑ i, (s.U i a * s.U i a) * (Real.sign (s.R a a) * Real.sign (s.R a a)) :=
            Finset.sum_congr rfl fun i _ => by ring
        _ = 1 := by rw [← Finset.sum_mul, this, sign_sq hbig, one_mul]
    · show |s.R a a| = ∑ i, ∑ j, s.U i a * Real.sign (s.R a a) * X i j * s.V j a
      have e : ∀ i j, s.U i a * Real.sign (s.R a a) * X i j * s.V j a = Real.sign (s.R a a) * (s.U i a * X i j * s.V j a) :=
        fun i j => by ring
      simp only [e, ← Finset.mul_sum]
      rw [g.bil, sign_mul]
  · rw [hl, List.pairwise_map]
    have hnd : ((List.finRange (width p rank padding)).filter (fun a => decide (a.val <
        (if full then width p rank padding else effRank p rank) ∧ |s.R a a| > 1 / 10 ^ 12))).Nodup :=
      (List.nodup_finRange _).filter _
    refine hnd.imp fun {a b} hab => ?_
    constructor
    · have := g.qr.orth a b
      rw [if_neg hab] at this
      calc ∑ i, s.U i a * Real.sign (s.R a a) * (s.U i b * Real.sign (s.R b b))
          = ∑ i, (s.U i a * s.U i b) * (Real.sign (s.R a a) * Real.sign (s.R b b)) :=
            Finset.sum_congr rfl fun i _ => by ring
        _ = 0 := by rw [← Finset.sum_mul, this, zero_mul]
    · have := g.V a b
      rwa [if_neg hab] at this
  · rw [hl, List.length_map]
    set m := (if full then width p rank padding else effRank p rank) with hm
    have hmq : m ≤ width p rank padding := by
      rw [hm]; split_ifs
      · exact le_rfl
      · exact effRank_le _ _ _
    have h5 : ((List.finRange (width p rank padding)).filter (fun a => decide (a.val < m ∧ |s.R a a| > 1 / 10 ^ 12))).length ≤ m := by
      rw [← List.toFinset_card_of_nodup ((List.nodup_finRange _).filter _)]
      calc _ ≤ (Finset.univ.filter fun a : Fin (width p rank padding) => a.val < m).card := by
            refine Finset.card_le_card fun a ha => ?_
            simp only [List.mem_toFinset, List.mem_filter, decide_eq_true_eq] at ha
            simpa using ha.2.1
        _ ≤ (Finset.range m).card := by
            refine Finset.card_le_card_of_injOn (fun a => a.val) (fun a ha => by simpa using ha) fun a _ b _ e => Fin.ext e
        _ = m := Finset.card_range m
    exact h5

/-- **C110** no returned value exceeds the operator norm of `X`, and all together they do not exceed its nuclear norm, however few
passes were made. -/
theorem C110_never_exceeds (hp : Factors qp) (hn : Factors qn) {l : List (Triplet n p)}
    (h : partialSvd X rank padding qp qn maxIts tol warm rnd full rule = .triplets l) :
    (∀ c, OpLe (entries X) c → ∀ t ∈ l, t.d ≤ c) ∧ (l.map fun t => t.d).sum ≤ nucNorm (entries X) := by
  classical
  have ho := C110_orthonormal hp hn h
  refine ⟨?_, ?_⟩
  · intro c hc t ht
    obtain ⟨hu, hv, -, hd⟩ := ho.1 t ht
    have := Verif.Lemmas.op_bilinear hc hu hv
    refine le_trans (le_of_eq ?_) (le_trans (le_abs_self _) this)
    rw [hd]
    exact Finset.sum_congr rfl fun i _ => Finset.sum_congr rfl fun j _ => by unfold entries; ring
  · obtain ⟨h1, h2, h3⟩ := triplets_of h
    have g := final_good (X := X) (warm := warm) (rnd := rnd) (rule := rule) hp hn h1 h2
    set s := final X rank padding qp qn maxIts tol warm rnd rule with hs
    have hl := finish_triplets h3
    set L := (List.finRange (width p rank padding)).filter (fun a => decide (a.val <
        (if full then width p rank padding else effRank p rank) ∧ |s.R a a| > 1 / 10 ^ 12)) with hL
    have hnd : L.Nodup := (List.nodup_finRange _).filter _
    have hsum : (l.map fun t => t.d).sum = ∑ a, if a ∈ L then |s.R a a| else 0 := by
      rw [hl, List.map_map]
      rw [show ((fun t : Triplet n p => t.d) ∘ fun a => (⟨fun i => s.U i a * Real.sign (s.R a a), |s.R a a|, fun j => s.V j a⟩ :
        Triplet n p)) = fun a => |s.R a a| from rfl, ← List.sum_toFinset _ hnd, ← Finset.sum_filter]
      refine Finset.sum_congr ?_ fun _ _ => rfl
      ext a; simp
    let W : Fin n × Fin p → ℝ := fun ij => ∑ a, if a ∈ L then Real.sign (s.R a a) * (s.U ij.1 a * s.V ij.2 a) else 0
    have hW : OpLe W 1 := by
      intro v
      rw [one_mul]
      unfold norm2
      refine Real.sqrt_le_sqrt ?_
      have e : ∀ i, ∑ j, W (i, j) * v j = ∑ a, s.U i a * (if a ∈ L then Real.sign (s.R a a) * ∑ j, s.V j a * v j else 0) := by
        intro i
        simp only [W, Finset.sum_mul]
        rw [Finset.sum_comm]
        refine Finset.sum_congr rfl fun a _ => ?_
        split_ifs
        · rw [Finset.mul_sum, Finset.mul_sum]
          exact Finset.sum_congr rfl fun j _ => by ring
        · simp
      simp only [e]
      rw [iso g.qr.orth]
      refine le_trans (Finset.sum_le_sum fun a _ => ?_) (bessel g.V v)
      split_ifs with ha
      · rw [hL, List.mem_filter] at ha
        have := sign_sq (of_decide_eq_true ha.2).2
        rw [mul_pow, pow_two (Real.sign _), this, one_mul]
      · rw [zero_pow two_ne_zero]; exact sq_nonneg _
    have key := Verif.Lemmas.dot_le_nuc (Z := entries X) hW
    rw [hsum]
    refine le_trans (le_of_eq ?_) key
    unfold dot
    rw [Fintype.sum_prod_type]
    have e : ∀ i j, entries X (i, j) * W (i, j) =
        ∑ a, if a ∈ L then Real.sign (s.R a a) * (s.U i a * X i j * s.V j a) else 0 := by
      intro i j
      simp only [W, entries, Finset.mul_sum]
      refine Finset.sum_congr rfl fun a _ => ?_
      split_ifs
      · ring
      · simp
    simp only [e]
    have sw : ∀ F : Fin (width p rank padding) → Fin n → Fin p → ℝ, ∑ i, ∑ j, ∑ a, F a i j = ∑ a, ∑ i, ∑ j, F a i j := by
      intro F
      rw [Finset.sum_comm (s := (Finset.univ : Finset (Fin (width p rank padding))))]
      exact Finset.sum_congr rfl fun i _ => Finset.sum_comm
    rw [sw]
    refine Finset.sum_congr rfl fun a _ => ?_
    split_ifs
    · simp only [← Finset.mul_sum]
      rw [g.bil, sign_mul]
    · simp

/-- **C110** allowing more passes never loses ground: for each `m`, the leading `m` right vectors after up to `K'` passes capture at
least as much of `X` as those after up to `K ≤ K'`, for any start, tolerance and stopping rule. -/
theorem C110_monotone (hp : Factors qp) (hn : Factors qn) (m : ℕ) {K K' : ℕ} (hK : K ≤ K') :
    captured m X (final X rank padding qp qn K tol warm rnd rule).V ≤
      captured m X (final X rank padding qp qn K' tol warm rnd rule).V := by
  have : Monotone fun K => captured m X (final X rank padding qp qn K tol warm rnd rule).V := by
    refine monotone_nat_of_le_succ fun K => ?_
    show captured m X (loop _ X qp qn tol rule K _).V ≤ captured m X (loop _ X qp qn tol rule (K + 1) _).V
    rcases loop_succ (h := effRank_le p rank padding) (X := X) (qp := qp) (qn := qn) (tol := tol) (rule := rule) K
      (start tol (startU _ warm rnd)) with e | e
    · rw [e]
    · rw [e]
      obtain ⟨j, -, e2, -⟩ := loop_after (h := effRank_le p rank padding) (X := X) (qp := qp) (qn := qn) (tol := tol) (rule := rule)
        (startU _ warm rnd) K 0
      rw [show start tol (startU _ warm rnd) = after (effRank_le p rank padding) X qp qn tol rule (startU _ warm rnd) 0 from rfl, e2]
      rcases Nat.eq_zero_or_pos (0 + j) with h0 | h0
      · rw [h0]
        have z : captured m X (after (effRank_le p rank padding) X qp qn tol rule (startU _ warm rnd) 0).V = 0 := by
          unfold captured
          simp [after, start]
        rw [z]
        unfold captured
        exact Finset.sum_nonneg fun a _ => by split_ifs <;> first | exact Finset.sum_nonneg fun i _ => sq_nonneg _ | exact le_rfl
      · exact captured_step hp hn m (good_after hp hn h0)
  exact this hK

/-- **C110** an exact fixed point is a decomposition: if one more pass would give the same right vectors up to signs, each returned
triplet satisfies `X v = d u` and `Xᵀ u = d v`. -/
theorem C110_stationary (hp : Factors qp) (hn : Factors qn) {l : List (Triplet n p)}
    (h : partialSvd X rank padding qp qn maxIts tol warm rnd full rule = .triplets l)
    (hst : ∀ a, ∃ ε : ℝ, ε ^ 2 = 1 ∧ ∀ j, qp.Q (adjMap X (final X rank padding qp qn maxIts tol warm rnd rule).U) j a =
      ε * (final X rank padding qp qn maxIts tol warm rnd rule).V j a) :
    ∀ t ∈ l, (∀ i, ∑ j, X i j * t.v j = t.d * t.u i) ∧ ∀ j, ∑ i, X i j * t.u i = t.d * t.v j := by
  classical
  obtain ⟨h1, h2, h3⟩ := triplets_of h
  have g := final_good (X := X) (warm := warm) (rnd := rnd) (rule := rule) hp hn h1 h2
  set s := final X rank padding qp qn maxIts tol warm rnd rule with hs
  have hl := finish_triplets h3
  choose ε hε hV using hst
  have hq := hp (adjMap X s.U)
  have hP : ∀ c b, qp.R (adjMap X s.U) c b = ε c * s.R b c := by
    intro c b
    rw [← coef hq b c]
    simp only [hV]
    rw [← g.diag c b]
    have := adj X s.U s.V c b
    unfold linMap at this
    rw [← this, Finset.mul_sum]
    exact Finset.sum_congr rfl fun j _ => by ring
  have hd : ∀ b c, b ≠ c → s.R b c = 0 := by
    intro b c hbc
    rcases lt_or_gt_of_ne hbc with hlt | hlt
    · have := hq.tri b c hlt
      rw [hP] at this
      have he : ε c ≠ 0 := fun e => by have := hε c; rw [e] at this; norm_num at this
      exact (mul_eq_zero.1 this).resolve_left he
    · exact g.qr.tri c b hlt
  have eX : ∀ a i, ∑ j, X i j * s.V j a = s.R a a * s.U i a := by
    intro a i
    have := g.qr.eq i a
    rw [show ∑ j, X i j * s.V j a = linMap X s.V i a from rfl, this, Finset.sum_eq_single a]
    · ring
    · intro b _ hb; rw [hd b a hb, mul_zero]
    · simp
  have eT : ∀ a j, ∑ i, X i j * s.U i a = s.R a a * s.V j a := by
    intro a j
    have := hq.eq j a
    rw [show ∑ i, X i j * s.U i a = adjMap X s.U j a from rfl, this, Finset.sum_eq_single a]
    · rw [hP, hV, show ε a * s.V j a * (ε a * s.R a a) = ε a ^ 2 * (s.R a a * s.V j a) by ring, hε, one_mul]
    · intro b _ hb; rw [hP, hd a b (Ne.symm hb), mul_zero, mul_zero]
    · simp
  intro t ht
  rw [hl, List.mem_map] at ht
  obtain ⟨a, ha, rfl⟩ := ht
  rw [List.mem_filter] at ha
  have hbig : |s.R a a| > 1 / 10 ^ 12 := (of_decide_eq_true ha.2).2
  have hsg := sign_sq hbig
  have hsm := sign_mul (s.R a a)
  constructor
  · intro i
    show ∑ j, X i j * s.V j a = |s.R a a| * (s.U i a * Real.sign (s.R a a))
    rw [eX, ← hsm]
    linear_combination (-(s.R a a * s.U i a)) * hsg
  · intro j
    show ∑ i, X i j * (s.U i a * Real.sign (s.R a a)) = |s.R a a| * s.V j a
    rw [← hsm, mul_assoc, ← eT, Finset.mul_sum]
    exact Finset.sum_congr rfl fun i _ => by ring

open Classical in
private lemma head_first {q r : ℕ} (s : State n p q r) (a : Fin q) (ha : a.val = 0) {m : ℕ} (hm : 0 < m)
    (hb : |s.R a a| > 1 / 10 ^ 12) :
    ∃ l, (List.finRange q).filter (fun a => decide (a.val < m ∧ |s.R a a| > 1 / 10 ^ 12)) = a :: l := by
  cases q with
  | zero => exact a.elim0
  | succ k =>
    have : a = 0 := Fin.ext ha
    subst this
    rw [List.finRange_succ, List.filter_cons_of_pos (by simpa using ⟨hm, by simpa using hb⟩)]
    exact ⟨_, rfl⟩

private lemma op_sq {σ : ℝ} (hσ : 0 ≤ σ) (h : OpLe (entries X) σ) (v : Fin p → ℝ) :
    ∑ i, (∑ j, X i j * v j) ^ 2 ≤ σ ^ 2 * ∑ j, v j ^ 2 := by
  have h1 := h v
  unfold norm2 at h1
  have h2 := pow_le_pow_left₀ (Real.sqrt_nonneg _) h1 2
  rwa [mul_pow, Real.sq_sqrt (Finset.sum_nonneg fun i _ => sq_nonneg _), Real.sq_sqrt (Finset.sum_nonneg fun i _ => sq_nonneg _)]
    at h2

/-- **C110** how close the leading value gets: with `σ` the largest singular value, `z` and `w` its unit singular vectors, and `u` the
first column of the start, after the `K ≥ 1` passes that were made the first value returned, `d`, satisfies
`d ≤ σ` and `|⟨z, u⟩| σ^(2K-1) ≤ ‖u‖ d^(2K-1)`. -/
theorem C110_leading_value (hp : Factors qp) (hn : Factors qn) (hq : 0 < width p rank padding) {σ : ℝ} {z : Fin n → ℝ}
    {w : Fin p → ℝ} (hσ : 0 < σ) (hop : OpLe (entries X) σ) (hw : ∀ i, ∑ j, X i j * w j = σ * z i)
    (hz : ∀ j, ∑ i, X i j * z i = σ * w j) (hz1 : ∑ i, z i * z i = 1) {t : Triplet n p} {l : List (Triplet n p)}
    (h : partialSvd X rank padding qp qn maxIts tol warm rnd full rule = .triplets (t :: l)) :
    t.d ≤ σ ∧ ∃ K, K = (final X rank padding qp qn maxIts tol warm rnd rule).itercount ∧ 1 ≤ K ∧ K ≤ maxIts ∧
      |∑ i, z i * startU _ warm rnd i ⟨0, hq⟩| * σ ^ (2 * K - 1) ≤
        Real.sqrt (∑ i, startU _ warm rnd i ⟨0, hq⟩ ^ 2) * t.d ^ (2 * K - 1) := by
  classical
  refine ⟨(C110_never_exceeds hp hn h).1 σ hop t (by simp), ?_⟩
  obtain ⟨h1, h2, h3⟩ := triplets_of h
  have hl := finish_triplets h3
  obtain ⟨j, hj1, hj, e⟩ := final_after (h := effRank_le p rank padding) (X := X) (qp := qp) (qn := qn) (tol := tol) (rule := rule)
    (U0 := startU _ warm rnd) h1 h2
  obtain ⟨k, rfl⟩ := Nat.exists_eq_add_of_le' hj1
  have hb := lead_bound (h := effRank_le p rank padding) (tol := tol) (rule := rule) (U0 := startU _ warm rnd) hp hn ⟨0, hq⟩ rfl hσ
    (op_sq hσ.le hop) hw hz hz1 k
  have e' : final X rank padding qp qn maxIts tol warm rnd rule =
    after (effRank_le p rank padding) X qp qn tol rule (startU _ warm rnd) (k + 1) := e
  refine ⟨k + 1, by rw [e', after_count], by omega, hj, ?_⟩
  rw [show 2 * (k + 1) - 1 = 2 * k + 1 by omega]
  refine le_trans hb (mul_le_mul_of_nonneg_left (pow_le_pow_left₀ (abs_nonneg _) ?_ _) (Real.sqrt_nonneg _))
  rw [← e']
  set s := final X rank padding qp qn maxIts tol warm rnd rule with hs
  set m := (if full then width p rank padding else effRank p rank) with hm
  have ht : t ∈ t :: l := by simp
  rw [hl, List.mem_map] at ht
  obtain ⟨b, hbm, htb⟩ := ht
  rw [List.mem_filter] at hbm
  have hbb := of_decide_eq_true hbm.2
  have htd : t.d = |s.R b b| := by rw [← htb]
  by_cases hr : |s.R ⟨0, hq⟩ ⟨0, hq⟩| > 1 / 10 ^ 12
  · obtain ⟨l', hl'⟩ := head_first (n := n) (p := p) s ⟨0, hq⟩ rfl (m := m) (by omega) hr
    rw [hl', List.map_cons] at hl
    rw [(List.cons.inj hl).1]
  · rw [htd]
    exact le_trans (not_lt.1 hr) hbb.2.le

/-- **C110** when the start has a component along the leading left singular vector and the tolerance is negative, so that only the
number of passes stops the loop, the first value returned tends to the largest singular value as passes are added. -/
theorem C110_converges (hp : Factors qp) (hn : Factors qn) (hr : 0 < rank) (hpp : 0 < p) (hq : 0 < width p rank padding)
    (hqn : width p rank padding ≤ n) (hwarm : warm.length ≤ width p rank padding) (htol : tol < 0) {σ : ℝ} {z : Fin n → ℝ}
    {w : Fin p → ℝ} (hσ : 1 / 10 ^ 12 < σ) (hop : OpLe (entries X) σ) (hw : ∀ i, ∑ j, X i j * w j = σ * z i)
    (hz : ∀ j, ∑ i, X i j * z i = σ * w j) (hz1 : ∑ i, z i * z i = 1)
    (hstart : ∑ i, z i * startU _ warm rnd i ⟨0, hq⟩ ≠ 0) {ε : ℝ} (hε : 0 < ε) :
    ∃ K₀, ∀ K ≥ K₀, ∃ t l, partialSvd X rank padding qp qn K tol warm rnd full none = .triplets (t :: l) ∧
      σ - ε < t.d ∧ t.d ≤ σ := by
  classical
  have hσ0 : 0 < σ := lt_trans (by norm_num) hσ
  set U0 := startU (width p rank padding) warm rnd with hU0
  set a : Fin (width p rank padding) := ⟨0, hq⟩ with ha
  set c := |∑ i, z i * U0 i a| with hc
  have hc0 : 0 < c := abs_pos.2 hstart
  let F := after (effRank_le p rank padding) X qp qn tol none U0
  have hb : ∀ k, c * σ ^ (2 * k + 1) ≤ vnorm (fun i => U0 i a) * |(F (k + 1)).R a a| ^ (2 * k + 1) := fun k =>
    lead_bound hp hn a rfl hσ0 (op_sq hσ0.le hop) hw hz hz1 k
  have hN : 0 < vnorm (fun i => U0 i a) := by
    rcases (Real.sqrt_nonneg (∑ i, (fun i => U0 i a) i ^ 2)).eq_or_lt with e | e
    · have := hb 0
      rw [show vnorm (fun i => U0 i a) = 0 from e.symm, zero_mul] at this
      have h2 : 0 < c * σ ^ (2 * 0 + 1) := by positivity
      linarith
    · exact e
  have hR : ∀ k, 0 < |(F (k + 1)).R a a| := by
    intro k
    rcases (abs_nonneg ((F (k + 1)).R a a)).eq_or_lt with e | e
    · have := hb k
      rw [← e, zero_pow (by omega), mul_zero] at this
      have h2 : 0 < c * σ ^ (2 * k + 1) := by positivity
      linarith
    · exact e
  have hrk : 0 < effRank p rank := lt_min hr hpp
  have hgo : ∀ j, 0 ≤ j → (F j).rel = true ∧ (F j).broke = false := by
    intro j _
    cases j with
    | zero => exact ⟨by show decide (tol < 1) = true; simpa using htol.trans one_pos, rfl⟩
    | succ j =>
      refine ⟨?_, rfl⟩
      show changed tol (fun b : Fin (effRank p rank) => (F (j + 1)).R (b.castLE _) (b.castLE _)) (F j).sv = true
      have hne : vnorm (fun b : Fin (effRank p rank) => (F (j + 1)).R (b.castLE (effRank_le p rank padding))
          (b.castLE (effRank_le p rank padding))) ≠ 0 := by
        intro e
        unfold vnorm at e
        have e2 := (Real.sqrt_eq_zero (Finset.sum_nonneg fun i _ => sq_nonneg _)).1 e
        have e3 := (Finset.sum_eq_zero_iff_of_nonneg fun i _ => sq_nonneg _).1 e2 ⟨0, hrk⟩ (Finset.mem_univ _)
        have e4 : (F (j + 1)).R a a = 0 := pow_eq_zero_iff two_ne_zero |>.1 e3
        exact absurd (hR j) (by rw [e4]; simp)
      unfold changed
      rw [if_neg hne]
      exact decide_eq_true (lt_of_lt_of_le htol (div_nonneg (Real.sqrt_nonneg _) (Real.sqrt_nonneg _)))
  have hfin : ∀ K, final X rank padding qp qn K tol warm rnd none = F K := by
    intro K
    have := loop_all (h := effRank_le p rank padding) (X := X) (qp := qp) (qn := qn) (tol := tol) (rule := none) U0 K 0 hgo
    rw [zero_add] at this
    exact this
  -- a level below `σ` that is above both thresholds
  set τ := max (σ - ε) (1 / 10 ^ 12) with hτ
  have hτ0 : 0 < τ := lt_of_lt_of_le (by norm_num) (le_max_right _ _)
  have hτσ : τ < σ := max_lt (by linarith) hσ
  obtain ⟨N, hN'⟩ := exists_pow_lt_of_lt_one (show 0 < c / vnorm (fun i => U0 i a) by positivity) ((div_lt_one hσ0).2 hτσ)
  have big : ∀ k, N ≤ 2 * k + 1 → τ < |(F (k + 1)).R a a| := by
    intro k hk
    by_contra hcon
    push Not at hcon
    have h1 := le_trans (hb k) (mul_le_mul_of_nonneg_left (pow_le_pow_left₀ (abs_nonneg _) hcon (2 * k + 1)) hN.le)
    have h2 : (τ / σ) ^ (2 * k + 1) ≤ (τ / σ) ^ N :=
      pow_le_pow_of_le_one (div_nonneg hτ0.le hσ0.le) ((div_lt_one hσ0).2 hτσ).le hk
    have h3 := lt_of_le_of_lt h2 hN'
    rw [div_pow, div_lt_div_iff₀ (by positivity) hN] at h3
    linarith
  refine ⟨N + 1, fun K hK => ?_⟩
  obtain ⟨k, rfl⟩ := Nat.exists_eq_add_of_le' (show 1 ≤ K by omega)
  have hlt := big k (by omega)
  have hm : 0 < (if full then width p rank padding else effRank p rank) := by split_ifs <;> assumption
  obtain ⟨l', hl'⟩ := head_first (n := n) (p := p) (F (k + 1)) a rfl (m := if full then width p rank padding else effRank p rank) hm
    (lt_of_le_of_lt (le_max_right _ _) hlt)
  have hres : partialSvd X rank padding qp qn (k + 1) tol warm rnd full none =
      .triplets ((a :: l').map fun b => ⟨fun i => (F (k + 1)).U i b * Real.sign ((F (k + 1)).R b b), |(F (k + 1)).R b b|,
        fun j => (F (k + 1)).V j b⟩) := by
    unfold partialSvd
    rw [if_neg (by omega), if_neg (by push Not; exact ⟨by omega, by linarith⟩),
      if_neg (by have := effRank_le p rank padding; omega), if_neg (by omega), hfin]
    unfold finish
    rw [hl']
  rw [List.map_cons] at hres
  refine ⟨_, _, hres, ?_, ?_⟩
  · exact lt_of_le_of_lt (le_max_left _ _) hlt
  · exact (C110_never_exceeds hp hn hres).1 σ hop _ (by simp)

/-- **C110** a call with room for its columns answers: at least one pass, a tolerance below one, no more columns in the warm start than
wanted and no more wanted than there are rows. -/
theorem C110_answers (hr : 0 < rank) (hpp : 0 < p) (hqn : width p rank padding ≤ n) (hwarm : warm.length ≤ width p rank padding)
    (hits : 1 ≤ maxIts) (htol : tol < 1) :
    (∃ t l, partialSvd X rank padding qp qn maxIts tol warm rnd full rule = .triplets (t :: l)) ∨
      ∃ u v, partialSvd X rank padding qp qn maxIts tol warm rnd full rule = .flat u v := by
  classical
  have hrk : 0 < effRank p rank := lt_min hr hpp
  have hq := lt_of_lt_of_le hrk (effRank_le p rank padding)
  have e : partialSvd X rank padding qp qn maxIts tol warm rnd full rule =
      finish (if full then width p rank padding else effRank p rank) (final X rank padding qp qn maxIts tol warm rnd rule) := by
    unfold partialSvd
    rw [if_neg (by omega), if_neg (by push Not; exact ⟨by omega, htol⟩),
      if_neg (by have := effRank_le p rank padding; omega), if_neg (by omega)]
  rw [e]
  have hm : 0 < (if full then width p rank padding else effRank p rank) := by split_ifs <;> assumption
  unfold finish
  split
  · exact Or.inl ⟨_, _, rfl⟩
  · split
    · exact Or.inr ⟨_, _, rfl⟩
    · rename_i hnone
      rw [List.head?_eq_none_iff] at hnone
      have : (⟨0, hq⟩ : Fin (width p rank padding)) ∈
          (List.finRange (width p rank padding)).filter fun a => decide (a.val < if full then width p rank padding else effRank p rank) := by
        simpa using hm
      rw [hnone] at this
      simp at this

/-- **C110** more singular values than rows cannot be asked for: the request is cut to the number of columns of `X` but not to the number
of its rows, and the call raises `IndexError`. -/
theorem C110_more_values_than_rows_fails (h1 : n < rank) (h2 : n < p) (hwarm : warm.length ≤ width p rank padding)
    (hits : 1 ≤ maxIts) (htol : tol < 1) :
    partialSvd X rank padding qp qn maxIts tol warm rnd full rule = .indexError := by
  unfold partialSvd
  rw [if_neg (by omega), if_neg (by push Not; exact ⟨by omega, htol⟩), if_pos (show n < effRank p rank from lt_min h1 h2)]

end

/-- `diag(2, 1)` -/
private def dg : Fin 2 → Fin 2 → ℝ := ![![2, 0], ![0, 1]]

private lemma stuck_step {q r : ℕ} {h : r ≤ q} {qp : Qr 2 q} {qn : Qr 2 q} {tol : ℝ} {rule : Option ((Fin r → ℝ) → Bool)}
    (hp : Factors qp) (hn : Factors qn) (a : Fin q) (ha : a.val = 0) (s : State 2 2 q r) (h0 : s.U 0 a = 0) (h1 : s.U 1 a ^ 2 = 1) :
    (step h dg qp qn tol rule s).U 0 a = 0 ∧ (step h dg qp qn tol rule s).U 1 a ^ 2 = 1 ∧
      |(step h dg qp qn tol rule s).R a a| = 1 ∧ (step h dg qp qn tol rule s).V 0 a = 0 ∧
      (step h dg qp qn tol rule s).V 1 a ^ 2 = 1 := by
  set t := step h dg qp qn tol rule s with ht
  have g : Good dg t := good_step hp hn s
  have hV : IsQr (adjMap dg s.U) t.V (qp.R (adjMap dg s.U)) := hp _
  obtain ⟨P, fV⟩ : ∃ P, ∀ j, adjMap dg s.U j a = t.V j a * P := ⟨_, fun j => first_col hp hn a ha hV j⟩
  have fU : ∀ i, linMap dg t.V i a = t.U i a * t.R a a := fun i => first_col hp hn a ha g.qr i
  have v0 := fV 0
  have v1 := fV 1
  have oV := g.V a a
  have u0 := fU 0
  have u1 := fU 1
  have oU := g.qr.orth a a
  simp only [adjMap, linMap, dg, Fin.sum_univ_two, Matrix.cons_val_zero, Matrix.cons_val_one, if_pos, h0] at v0 v1 oV u0 u1 oU
  have hP : P ≠ 0 := by
    intro e
    rw [e] at v1
    have : s.U 1 a = 0 := by linarith
    rw [this] at h1; norm_num at h1
  have v00 : t.V 0 a = 0 := by
    have : t.V 0 a * P = 0 := by linarith
    exact (mul_eq_zero.1 this).resolve_right hP
  rw [v00] at oV u0 u1
  have v11 : t.V 1 a ^ 2 = 1 := by linarith
  have hR : t.R a a ≠ 0 := by
    intro e
    rw [e] at u1
    have : t.V 1 a = 0 := by linarith
    rw [this] at v11; norm_num at v11
  have u00 : t.U 0 a = 0 := by
    have : t.U 0 a * t.R a a = 0 := by linarith
    exact (mul_eq_zero.1 this).resolve_right hR
  rw [u00] at oU
  have u11 : t.U 1 a ^ 2 = 1 := by linarith
  refine ⟨u00, u11, ?_, v00, v11⟩
  have : t.R a a ^ 2 = 1 := by
    have e : t.V 1 a = t.U 1 a * t.R a a := by linarith
    rw [e, mul_pow, u11, one_mul] at v11
    exact v11
  rw [← Real.sqrt_sq_eq_abs, this, Real.sqrt_one]

/-- **C110** the leading value can be missed for good: of `diag(2, 1)`, whose largest singular value is 2, a warm start at the second
singular vector gives the value 1, for any factorisation routine, number of passes, tolerance below one and stopping rule. -/
theorem C110_start_fails {qp : Qr 2 (width 2 1 0)} {qn : Qr 2 (width 2 1 0)} (hp : Factors qp) (hn : Factors qn) {maxIts : ℕ}
    (hits : 1 ≤ maxIts) {tol : ℝ} (htol : tol < 1) (rnd : Fin 2 → Fin (width 2 1 0) → ℝ) (full : Bool)
    (rule : Option ((Fin (effRank 2 1) → ℝ) → Bool)) :
    (∃ t, partialSvd (n := 2) (p := 2) ![![2, 0], ![0, 1]] 1 0 qp qn maxIts tol [![0, 1]] rnd full rule = .triplets [t] ∧ t.d = 1) ∧
      ∀ i, ∑ j, (![![2, 0], ![0, 1]] : Fin 2 → Fin 2 → ℝ) i j * (![1, 0] : Fin 2 → ℝ) j = 2 * (![1, 0] : Fin 2 → ℝ) i := by
  classical
  refine ⟨?_, fun i => by fin_cases i <;> simp⟩
  have hw : width 2 1 0 = 1 := rfl
  have hq : 0 < width 2 1 0 := by rw [hw]; exact one_pos
  obtain ⟨j, hj1, hj, e⟩ := final_after (h := effRank_le 2 1 0) (X := dg) (qp := qp) (qn := qn) (tol := tol) (rule := rule)
    (U0 := startU _ [![0, 1]] rnd) hits htol
  have inv : ∀ k, (after (effRank_le 2 1 0) dg qp qn tol rule (startU _ [![0, 1]] rnd) k).U 0 ⟨0, hq⟩ = 0 ∧
      (after (effRank_le 2 1 0) dg qp qn tol rule (startU _ [![0, 1]] rnd) k).U 1 ⟨0, hq⟩ ^ 2 = 1 := by
    intro k
    induction k with
    | zero => simp [after, start, startU]
    | succ k ih =>
      have := stuck_step (h := effRank_le 2 1 0) (tol := tol) (rule := rule) hp hn ⟨0, hq⟩ rfl _ ih.1 ih.2
      exact ⟨this.1, this.2.1⟩
  obtain ⟨k, rfl⟩ := Nat.exists_eq_add_of_le' hj1
  have hR := (stuck_step (h := effRank_le 2 1 0) (tol := tol) (rule := rule) hp hn ⟨0, hq⟩ rfl _ (inv k).1 (inv k).2).2.2.1
  have e' : (final dg 1 0 qp qn maxIts tol [![0, 1]] rnd rule).R ⟨0, hq⟩ ⟨0, hq⟩ =
      (step (effRank_le 2 1 0) dg qp qn tol rule (after (effRank_le 2 1 0) dg qp qn tol rule (startU _ [![0, 1]] rnd) k)).R
        ⟨0, hq⟩ ⟨0, hq⟩ := by
    unfold final; rw [e]; rfl
  rw [← e'] at hR
  set s := final dg 1 0 qp qn maxIts tol [![0, 1]] rnd rule with hs
  obtain ⟨l', hl'⟩ := head_first (n := 2) (p := 2) s ⟨0, hq⟩ rfl (m := if full then width 2 1 0 else effRank 2 1)
    (by split_ifs <;> exact one_pos) (by rw [hR]; norm_num)
  have hres : partialSvd dg 1 0 qp qn maxIts tol [![0, 1]] rnd full rule =
      .triplets (((⟨0, hq⟩ : Fin (width 2 1 0)) :: l').map fun b => ⟨fun i => s.U i b * Real.sign (s.R b b), |s.R b b|, fun j => s.V j b⟩) := by
    unfold partialSvd
    rw [if_neg (by rw [hw]; simp), if_neg (by push Not; exact ⟨by omega, htol⟩),
      if_neg (by decide), if_neg (by decide)]
    unfold finish
    rw [← hs, hl']
  have hlen := (C110_orthonormal hp hn hres).2.2
  have hl0 : l' = [] := by
    rw [List.length_map, List.length_cons] at hlen
    have : (if full = true then min (min 1 2 + 0) 2 else min 1 2) = 1 := by split_ifs <;> rfl
    rw [this] at hlen
    exact List.length_eq_zero_iff.1 (by omega)
  rw [hl0] at hres
  exact ⟨_, hres, hR⟩

/-- the hypotheses of `C110_stationary` are met -/
example {qp : Qr 2 (width 2 1 0)} {qn : Qr 2 (width 2 1 0)} (hp : Factors qp) (hn : Factors qn) (rnd : Fin 2 → Fin (width 2 1 0) → ℝ) :
    ∀ a, ∃ ε : ℝ, ε ^ 2 = 1 ∧ ∀ j, qp.Q (adjMap dg (final dg 1 0 qp qn 1 (1 / 10 ^ 8) [![0, 1]] rnd none).U) j a =
      ε * (final dg 1 0 qp qn 1 (1 / 10 ^ 8) [![0, 1]] rnd none).V j a := by
  intro a
  have ha : a.val = 0 := by have h1 := a.2; have hw : width 2 1 0 = 1 := rfl; omega
  have e : final dg 1 0 qp qn 1 (1 / 10 ^ 8) [![0, 1]] rnd none =
      step (effRank_le 2 1 0) dg qp qn (1 / 10 ^ 8) none (start (1 / 10 ^ 8) (startU _ [![0, 1]] rnd)) := by
    unfold final loop
    rw [if_pos ⟨by show decide ((1 : ℝ) / 10 ^ 8 < 1) = true; simp; norm_num, rfl⟩]
    rfl
  have h1 := stuck_step (h := effRank_le 2 1 0) (tol := 1 / 10 ^ 8) (rule := none) hp hn a ha (start (1 / 10 ^ 8) (startU _ [![0, 1]] rnd))
    (by simp [start, startU, ha]) (by simp [start, startU, ha])
  rw [← e] at h1
  set s := final dg 1 0 qp qn 1 (1 / 10 ^ 8) [![0, 1]] rnd none
  have h2 := stuck_step (h := effRank_le 2 1 0) (tol := 1 / 10 ^ 8) (rule := none) hp hn a ha s h1.1 h1.2.1
  obtain ⟨-, -, -, v0, v1⟩ := h1
  obtain ⟨-, -, -, w0, w1⟩ := h2
  change qp.Q (adjMap dg s.U) 0 a = 0 at w0
  change qp.Q (adjMap dg s.U) 1 a ^ 2 = 1 at w1
  refine ⟨qp.Q (adjMap dg s.U) 1 a * s.V 1 a, by rw [mul_pow, v1, w1, one_mul], fun j => ?_⟩
  fin_cases j
  · show qp.Q (adjMap dg s.U) 0 a = _ * s.V 0 a
    rw [w0, v0, mul_zero]
  · show qp.Q (adjMap dg s.U) 1 a = _ * s.V 1 a
    rw [mul_assoc, ← pow_two, v1, mul_one]

/-- the hypotheses of `C110_converges` are met: `diag(2, 1)` from the start `(1, 1)` -/
example : ∃ (qp : Qr 2 (width 2 1 0)) (qn : Qr 2 (width 2 1 0)), Factors qp ∧ Factors qn ∧
    ∃ K₀, ∀ K ≥ K₀, ∃ t l, partialSvd (n := 2) (p := 2) ![![2, 0], ![0, 1]] 1 0 qp qn K (-1) [![1, 1]] (fun _ _ => 0) false none =
      .triplets (t :: l) ∧ 2 - 1 / 100 < t.d ∧ t.d ≤ 2 := by
  have hw : width 2 1 0 = 1 := rfl
  obtain ⟨qp, hp⟩ := C110_factors_exist (m := 2) (q := width 2 1 0) (by decide)
  refine ⟨qp, qp, hp, hp, ?_⟩
  refine C110_converges (z := ![1, 0]) (w := ![1, 0]) hp hp one_pos two_pos (by decide) (by decide) (by decide) (by norm_num) (by norm_num)
    ?_ (fun i => by fin_cases i <;> simp) (fun i => by fin_cases i <;> simp) (by simp) (by simp [startU]) (by norm_num)
  intro v
  unfold norm2
  rw [show (2 : ℝ) = Real.sqrt (2 ^ 2) by rw [Real.sqrt_sq]; norm_num, ← Real.sqrt_mul (by norm_num)]
  refine Real.sqrt_le_sqrt ?_
  simp [entries, Fin.sum_univ_two]
  nlinarith [sq_nonneg (v 1)]

end Verif.Props
