import Verif.Model.AffineCone
import Verif.Props.C68_DualProblem
import Verif.Props.C16_Cones
import Verif.Lemmas.MixedLasso

/-!
# C101: constraints `D x + α ∈ cone`

`cls.linear(D, offset=α)` and `cls.affine(D, α)` for the ten cone classes: what they evaluate, their conjugates and duals, and
the solution of constrained problems through the dual.
-/

set_option linter.unusedSectionVars false
set_option linter.unusedVariables false

namespace Verif.Props
open Verif.Model Verif.Lemmas Verif.Spec

variable {m n k : ℕ}

/-- Specification: the cone each class is documented to be.  For the epigraphs the last coordinate is the bound. -/
def coneOf (c : ConeKlass) : Set (Fin (k + 1) → ℝ) :=
  match c with
  | .nonnegative => {x | ∀ i, 0 ≤ x i}
  | .nonpositive => {x | ∀ i, x i ≤ 0}
  | .zero => Set.univ
  | .zeroConstraint => {x | ∀ i, x i = 0}
  | .l1Epigraph => {x | ∑ i : Fin k, |x i.castSucc| ≤ x (Fin.last k)}
  | .l1EpigraphPolar => {x | (∀ i : Fin k, |x i.castSucc| ≤ -x (Fin.last k)) ∧ x (Fin.last k) ≤ 0}
  | .l2Epigraph => {x | Real.sqrt (∑ i : Fin k, x i.castSucc ^ 2) ≤ x (Fin.last k)}
  | .l2EpigraphPolar => {x | Real.sqrt (∑ i : Fin k, x i.castSucc ^ 2) ≤ -x (Fin.last k)}
  | .linfEpigraph => {x | (∀ i : Fin k, |x i.castSucc| ≤ x (Fin.last k)) ∧ 0 ≤ x (Fin.last k)}
  | .linfEpigraphPolar => {x | ∑ i : Fin k, |x i.castSucc| ≤ -x (Fin.last k)}

/-- Specification: `0` on the cone translated by `α`, `+∞` elsewhere, plus `⟨l, z⟩ + c0`. -/
noncomputable def coneFn (c : ConeKlass) (α l : Fin (k + 1) → ℝ) (c0 : ℝ) (z : Fin (k + 1) → ℝ) : WithTop ℝ := by
  classical
  exact (if (fun i => z i - α i) ∈ coneOf c then 0 else ⊤) + ((dot l z + c0 : ℝ) : WithTop ℝ)

/-- Specification: the constraint `D x + α ∈ cone` plus `q(D x)`. -/
noncomputable def constrainedFn (c : ConeKlass) (D : (Fin m → ℝ) → Fin (k + 1) → ℝ) (α : Fin (k + 1) → ℝ)
    (q : (Fin (k + 1) → ℝ) → ℝ) (x : Fin m → ℝ) : WithTop ℝ := by
  classical
  exact (if (fun i => D x i + α i) ∈ coneOf c then 0 else ⊤) + ((q (D x) : ℝ) : WithTop ℝ)

/-- The function denoted by a cone object whose quadratic has coefficient zero. -/
noncomputable def denoteCone (a : ConeObj k) : (Fin (k + 1) → ℝ) → WithTop ℝ :=
  coneFn a.klass (offAt a.offset) (linearAt a.quad) a.quad.const

/-! ### the cones -/

lemma dot_last (u v : Fin (k + 1) → ℝ) :
    dot u v = ∑ i : Fin k, u i.castSucc * v i.castSucc + u (Fin.last k) * v (Fin.last k) := by
  unfold dot; rw [Fin.sum_univ_castSucc]

private lemma dot_snoc (u : Fin (k + 1) → ℝ) (a : Fin k → ℝ) (t : ℝ) :
    dot u (joinLast (a, t)) = ∑ i : Fin k, u i.castSucc * a i + u (Fin.last k) * t := by
  rw [dot_last]; simp [joinLast]

private lemma coneOf_zero (c : ConeKlass) : (fun _ => 0) ∈ (coneOf c : Set (Fin (k + 1) → ℝ)) := by
  cases c <;> simp [coneOf]

private lemma coneOf_smul (c : ConeKlass) {v : Fin (k + 1) → ℝ} (hv : v ∈ coneOf c) {t : ℝ} (ht : 0 ≤ t) :
    (fun i => t * v i) ∈ coneOf c := by
  have hs : ∑ i : Fin k, |t * v i.castSucc| = t * ∑ i : Fin k, |v i.castSucc| := by
    rw [Finset.mul_sum]; exact Finset.sum_congr rfl fun i _ => by rw [abs_mul, abs_of_nonneg ht]
  have hq : Real.sqrt (∑ i : Fin k, (t * v i.castSucc) ^ 2) = t * Real.sqrt (∑ i : Fin k, v i.castSucc ^ 2) := by
    have : ∑ i : Fin k, (t * v i.castSucc) ^ 2 = t ^ 2 * ∑ i : Fin k, v i.castSucc ^ 2 := by
      rw [Finset.mul_sum]; exact Finset.sum_congr rfl fun i _ => by ring
    rw [this, Real.sqrt_mul (by positivity), Real.sqrt_sq ht]
  cases c <;> simp only [coneOf, Set.mem_ofPred_eq, Set.mem_univ] at hv ⊢
  · exact fun i => mul_nonneg ht (hv i)
  · exact fun i => mul_nonpos_of_nonneg_of_nonpos ht (hv i)
  · exact fun i => by rw [hv i, mul_zero]
  · rw [hs]; exact mul_le_mul_of_nonneg_left hv ht
  · refine ⟨fun i => ?_, mul_nonpos_of_nonneg_of_nonpos ht hv.2⟩
    rw [abs_mul, abs_of_nonneg ht, ← mul_neg]
    exact mul_le_mul_of_nonneg_left (hv.1 i) ht
  · rw [hq]; exact mul_le_mul_of_nonneg_left hv ht
  · rw [hq, ← mul_neg]; exact mul_le_mul_of_nonneg_left hv ht
  · refine ⟨fun i => ?_, mul_nonneg ht hv.2⟩
    rw [abs_mul, abs_of_nonneg ht]
    exact mul_le_mul_of_nonneg_left (hv.1 i) ht
  · rw [hs, ← mul_neg]; exact mul_le_mul_of_nonneg_left hv ht

private lemma coneOf_add (c : ConeKlass) {u v : Fin (k + 1) → ℝ} (hu : u ∈ coneOf c) (hv : v ∈ coneOf c) :
    (fun i => u i + v i) ∈ coneOf c := by
  have hs : ∑ i : Fin k, |u i.castSucc + v i.castSucc| ≤ ∑ i : Fin k, |u i.castSucc| + ∑ i : Fin k, |v i.castSucc| := by
    rw [← Finset.sum_add_distrib]; exact Finset.sum_le_sum fun i _ => abs_add_le _ _
  have hq : Real.sqrt (∑ i : Fin k, (u i.castSucc + v i.castSucc) ^ 2) ≤
      Real.sqrt (∑ i : Fin k, u i.castSucc ^ 2) + Real.sqrt (∑ i : Fin k, v i.castSucc ^ 2) :=
    npNorm_add_le (fun i : Fin k => u i.castSucc) (fun i => v i.castSucc)
  cases c <;> simp only [coneOf, Set.mem_ofPred_eq, Set.mem_univ] at hu hv ⊢
  · exact fun i => add_nonneg (hu i) (hv i)
  · exact fun i => add_nonpos (hu i) (hv i)
  · exact fun i => by rw [hu i, hv i, add_zero]
  · linarith
  · refine ⟨fun i => ?_, by linarith [hu.2, hv.2]⟩
    have := abs_add_le (u i.castSucc) (v i.castSucc)
    linarith [hu.1 i, hv.1 i]
  · linarith
  · linarith
  · refine ⟨fun i => ?_, by linarith [hu.2, hv.2]⟩
    have := abs_add_le (u i.castSucc) (v i.castSucc)
    linarith [hu.1 i, hv.1 i]
  · linarith

private lemma holder (a b : Fin k → ℝ) {s : ℝ} (h : ∀ i, |a i| ≤ s) : ∑ i, a i * b i ≤ s * ∑ i, |b i| := by
  rw [Finset.mul_sum]
  refine Finset.sum_le_sum fun i _ => ?_
  calc a i * b i ≤ |a i * b i| := le_abs_self _
    _ = |a i| * |b i| := abs_mul _ _
    _ ≤ s * |b i| := mul_le_mul_of_nonneg_right (h i) (abs_nonneg _)

private lemma sign_mul (t : ℝ) : t * SignType.sign t = |t| := by
  rcases lt_trichotomy t 0 with h | h | h
  · simp [h, abs_of_neg h]
  · simp [h]
  · simp [h, abs_of_pos h]

private lemma abs_sign_le (t : ℝ) : |((SignType.sign t : SignType) : ℝ)| ≤ 1 := by
  rcases lt_trichotomy t 0 with h | h | h <;> simp [h]

/-- **C101** the table of conjugate classes pairs each cone with its polar: a vector lies in the cone of the other class of
the pair exactly if it makes no acute angle with a vector of the first. -/
theorem C101_polar (c : ConeKlass) (u : Fin (k + 1) → ℝ) : u ∈ coneOf c.conj ↔ ∀ v ∈ coneOf c, dot u v ≤ 0 := by
  cases c with
  | nonnegative =>
    refine ⟨fun h v hv => ?_, fun h i => ?_⟩
    · exact Finset.sum_nonpos fun i _ => mul_nonpos_of_nonpos_of_nonneg (h i) (hv i)
    · have := h (Pi.single i 1) (fun j => by by_cases e : j = i <;> simp [e])
      simpa [dot, Pi.single_apply] using this
  | nonpositive =>
    refine ⟨fun h v hv => ?_, fun h i => ?_⟩
    · exact Finset.sum_nonpos fun i _ => mul_nonpos_of_nonneg_of_nonpos (h i) (hv i)
    · have := h (fun j => if j = i then -1 else 0) (fun j => by by_cases e : j = i <;> simp [e])
      simpa [dot] using this
  | zero =>
    refine ⟨fun h v hv => ?_, fun h i => ?_⟩
    · simp only [ConeKlass.conj, coneOf, Set.mem_ofPred_eq] at h
      simp [dot, h]
    · have h1 := h u (Set.mem_univ _)
      have h2 : dot u u = ∑ i, u i ^ 2 := Finset.sum_congr rfl fun i _ => by ring
      have h3 : u i ^ 2 ≤ ∑ i, u i ^ 2 := Finset.single_le_sum (f := fun i => u i ^ 2) (fun i _ => sq_nonneg _) (Finset.mem_univ i)
      have h4 : u i ^ 2 ≤ 0 := by linarith
      exact pow_eq_zero_iff (two_ne_zero) |>.1 (le_antisymm h4 (sq_nonneg _))
  | zeroConstraint =>
    refine ⟨fun h v hv => ?_, fun h => Set.mem_univ _⟩
    simp only [coneOf, Set.mem_ofPred_eq] at hv
    simp [dot, hv]
  | l1Epigraph =>
    refine ⟨fun h v hv => ?_, fun h => ⟨fun i => ?_, ?_⟩⟩
    · rw [dot_last]
      have h1 := holder (fun i : Fin k => u i.castSucc) (fun i => v i.castSucc) h.1
      have hv' : ∑ i : Fin k, |v i.castSucc| ≤ v (Fin.last k) := hv
      have := mul_le_mul_of_nonneg_left hv' (neg_nonneg.2 h.2)
      linarith
    · have h1 := h (joinLast (Pi.single i (SignType.sign (u i.castSucc) : ℝ), 1)) (by
        simp only [coneOf, Set.mem_ofPred_eq, joinLast, Fin.snoc_castSucc, Fin.snoc_last]
        rw [Finset.sum_eq_single i (fun j _ hj => by simp [hj]) (by simp)]
        simpa using abs_sign_le _)
      rw [dot_snoc, Finset.sum_eq_single i (fun j _ hj => by simp [hj]) (by simp), Pi.single_eq_same, sign_mul] at h1
      linarith
    · have h1 := h (joinLast (fun _ => 0, 1)) (by simp [coneOf, joinLast])
      rw [dot_snoc] at h1
      simpa using h1
  | l1EpigraphPolar =>
    refine ⟨fun h v hv => ?_, fun h => ?_⟩
    · rw [dot_last]
      have h1 := holder (fun i : Fin k => v i.castSucc) (fun i => u i.castSucc) hv.1
      have hv' : ∑ i : Fin k, |u i.castSucc| ≤ u (Fin.last k) := h
      have h2 := mul_le_mul_of_nonneg_left hv' (neg_nonneg.2 hv.2)
      have h3 : ∑ i : Fin k, u i.castSucc * v i.castSucc = ∑ i : Fin k, v i.castSucc * u i.castSucc :=
        Finset.sum_congr rfl fun i _ => mul_comm _ _
      rw [h3]
      linarith
    · have h1 := h (joinLast (fun i => (SignType.sign (u i.castSucc) : ℝ), -1)) (by
        simp only [coneOf, Set.mem_ofPred_eq, joinLast, Fin.snoc_castSucc, Fin.snoc_last]
        exact ⟨fun i => by simpa using abs_sign_le _, by norm_num⟩)
      rw [dot_snoc] at h1
      simp only [sign_mul] at h1
      show ∑ i : Fin k, |u i.castSucc| ≤ u (Fin.last k)
      linarith
  | l2Epigraph =>
    refine ⟨fun h v hv => ?_, fun h => ?_⟩
    · have h' : npNorm (fun i : Fin k => u i.castSucc) ≤ -u (Fin.last k) := h
      have hv' : npNorm (fun i : Fin k => v i.castSucc) ≤ v (Fin.last k) := hv
      rw [dot_last]
      have h1 := cauchy (fun i : Fin k => u i.castSucc) (fun i => v i.castSucc)
      have h2 := mul_le_mul h' hv' (npNorm_nonneg _) (le_trans (npNorm_nonneg _) h')
      linarith
    · have h1 := h (joinLast (fun i => u i.castSucc, npNorm (fun i : Fin k => u i.castSucc))) (by
        simp only [coneOf, Set.mem_ofPred_eq, joinLast, Fin.snoc_castSucc, Fin.snoc_last]
        exact le_of_eq rfl)
      have h2 := h (joinLast (fun _ => 0, 1)) (by simp [coneOf, joinLast])
      rw [dot_snoc] at h1 h2
      have h3 : ∑ i : Fin k, u i.castSucc * u i.castSucc = npNorm (fun i : Fin k => u i.castSucc) ^ 2 := by
        rw [sq_npNorm]; exact Finset.sum_congr rfl fun i _ => by ring
      rw [h3] at h1
      simp only [mul_zero, Finset.sum_const_zero, zero_add, mul_one] at h2
      show npNorm (fun i : Fin k => u i.castSucc) ≤ -u (Fin.last k)
      set N := npNorm (fun i : Fin k => u i.castSucc)
      have hN : 0 ≤ N := npNorm_nonneg _
      rcases hN.eq_or_lt with e | e
      · rw [← e]; linarith
      · have : N * (N + u (Fin.last k)) ≤ 0 := by nlinarith
        nlinarith
  | l2EpigraphPolar =>
    refine ⟨fun h v hv => ?_, fun h => ?_⟩
    · have h' : npNorm (fun i : Fin k => u i.castSucc) ≤ u (Fin.last k) := h
      have hv' : npNorm (fun i : Fin k => v i.castSucc) ≤ -v (Fin.last k) := hv
      rw [dot_last]
      have h1 := cauchy (fun i : Fin k => u i.castSucc) (fun i => v i.castSucc)
      have h2 := mul_le_mul h' hv' (npNorm_nonneg _) (le_trans (npNorm_nonneg _) h')
      linarith
    · have h1 := h (joinLast (fun i => u i.castSucc, -npNorm (fun i : Fin k => u i.castSucc))) (by
        simp only [coneOf, Set.mem_ofPred_eq, joinLast, Fin.snoc_castSucc, Fin.snoc_last, neg_neg]
        exact le_of_eq rfl)
      have h2 := h (joinLast (fun _ => 0, -1)) (by simp [coneOf, joinLast])
      rw [dot_snoc] at h1 h2
      have h3 : ∑ i : Fin k, u i.castSucc * u i.castSucc = npNorm (fun i : Fin k => u i.castSucc) ^ 2 := by
        rw [sq_npNorm]; exact Finset.sum_congr rfl fun i _ => by ring
      rw [h3] at h1
      simp only [mul_zero, Finset.sum_const_zero, zero_add] at h2
      show npNorm (fun i : Fin k => u i.castSucc) ≤ u (Fin.last k)
      set N := npNorm (fun i : Fin k => u i.castSucc)
      have hN : 0 ≤ N := npNorm_nonneg _
      rcases hN.eq_or_lt with e | e
      · rw [← e]; linarith
      · have : N * (N - u (Fin.last k)) ≤ 0 := by nlinarith
        nlinarith
  | linfEpigraph =>
    refine ⟨fun h v hv => ?_, fun h => ?_⟩
    · rw [dot_last]
      have h1 := holder (fun i : Fin k => v i.castSucc) (fun i => u i.castSucc) hv.1
      have hv' : ∑ i : Fin k, |u i.castSucc| ≤ -u (Fin.last k) := h
      have h2 := mul_le_mul_of_nonneg_left hv' hv.2
      have h3 : ∑ i : Fin k, u i.castSucc * v i.castSucc = ∑ i : Fin k, v i.castSucc * u i.castSucc :=
        Finset.sum_congr rfl fun i _ => mul_comm _ _
      rw [h3]
      linarith
    · have h1 := h (joinLast (fun i => (SignType.sign (u i.castSucc) : ℝ), 1)) (by
        simp only [coneOf, Set.mem_ofPred_eq, joinLast, Fin.snoc_castSucc, Fin.snoc_last]
        exact ⟨fun i => by simpa using abs_sign_le _, by norm_num⟩)
      rw [dot_snoc] at h1
      simp only [sign_mul] at h1
      show ∑ i : Fin k, |u i.castSucc| ≤ -u (Fin.last k)
      linarith
  | linfEpigraphPolar =>
    refine ⟨fun h v hv => ?_, fun h => ⟨fun i => ?_, ?_⟩⟩
    · rw [dot_last]
      have h1 := holder (fun i : Fin k => u i.castSucc) (fun i => v i.castSucc) h.1
      have hv' : ∑ i : Fin k, |v i.castSucc| ≤ -v (Fin.last k) := hv
      have := mul_le_mul_of_nonneg_left hv' h.2
      linarith
    · have h1 := h (joinLast (Pi.single i (SignType.sign (u i.castSucc) : ℝ), -1)) (by
        simp only [coneOf, Set.mem_ofPred_eq, joinLast, Fin.snoc_castSucc, Fin.snoc_last]
        rw [Finset.sum_eq_single i (fun j _ hj => by simp [hj]) (by simp)]
        simpa using abs_sign_le _)
      rw [dot_snoc, Finset.sum_eq_single i (fun j _ hj => by simp [hj]) (by simp), Pi.single_eq_same, sign_mul] at h1
      linarith
    · have h1 := h (joinLast (fun _ => 0, -1)) (by simp [coneOf, joinLast])
      rw [dot_snoc] at h1
      simpa using h1

/-! ### conjugates -/

private lemma conj_conj (c : ConeKlass) : c.conj.conj = c := by cases c <;> rfl

open Classical in
private lemma support (c : ConeKlass) :
    IsSupportFn (coneOf c : Set (Fin (k + 1) → ℝ)) (fun u => if u ∈ coneOf c.conj then (0 : WithTop ℝ) else ⊤) := by
  intro u
  dsimp only
  by_cases hu : u ∈ coneOf c.conj
  · rw [if_pos hu]
    refine ⟨fun v hv => ?_, fun h => absurd h (by simp)⟩
    have hv0 : (0 : ℝ) = v := by exact_mod_cast hv
    subst hv0
    refine ⟨⟨fun _ => 0, coneOf_zero c, by simp [dot]⟩, ?_⟩
    rintro _ ⟨y, hy, rfl⟩
    exact (C101_polar c u).1 hu y hy
  · rw [if_neg hu]
    refine ⟨fun v hv => absurd hv.symm WithTop.coe_ne_top, fun _ hb => ?_⟩
    rw [C101_polar] at hu
    push Not at hu
    obtain ⟨y, hy, hpos⟩ := hu
    obtain ⟨B, hB⟩ := hb
    have h0 : 0 ≤ B := by
      have := hB ⟨fun _ => 0, coneOf_zero c, rfl⟩
      simpa [dot] using this
    have h1 := hB ⟨fun i => ((B + 1) / dot u y) * y i, coneOf_smul c hy (by positivity), rfl⟩
    have h2 : dot u (fun i => ((B + 1) / dot u y) * y i) = B + 1 := by
      have : dot u (fun i => ((B + 1) / dot u y) * y i) = (B + 1) / dot u y * dot u y := by
        conv_rhs => rw [dot]
        unfold dot; rw [Finset.mul_sum]; exact Finset.sum_congr rfl fun i _ => by ring
      rw [this]; field_simp
    simp only [h2] at h1
    linarith

/-- the conjugate of the function of a cone with offset, linear term and constant -/
private lemma coneFn_conj (c : ConeKlass) (α l : Fin (k + 1) → ℝ) (c0 : ℝ) :
    IsConjugate (coneFn c α l c0) (coneFn c.conj l α (-c0 - dot α l)) := by
  classical
  have h := conj_ind (support (k := k) c) α l c0
  have e1 : coneFn c α l c0 = fun x => (if (fun i => x i - α i) ∈ coneOf c then (0 : WithTop ℝ) else ⊤) +
      ((dot l x + c0 : ℝ) : WithTop ℝ) := by
    funext x; unfold coneFn; congr
  have e2 : coneFn c.conj l α (-c0 - dot α l) = fun y => (if (fun i => y i - l i) ∈ coneOf c.conj then (0 : WithTop ℝ) else ⊤) +
      ((dot α y + (-c0 - dot α l) : ℝ) : WithTop ℝ) := by
    funext x; unfold coneFn; congr
  rw [e1, e2]
  convert h using 3

/-- the offset of a cone object is an array or absent (a 0-d array is the excluded case) -/
def ConeArrayOffset (a : ConeObj k) : Prop := ∀ s, a.offset ≠ some (.scalar s)

lemma linear_work (o : Option (PyVec (Fin (k + 1)) ℝ)) (q : Quad (Fin (k + 1)) ℝ) :
    linearAt (workOutConjugate o q).2 = offAt o :=
  linearAt_work ⟨.l1norm, ⟨none, none⟩, o, q⟩

lemma constant_work (o : Option (PyVec (Fin (k + 1)) ℝ)) (q : Quad (Fin (k + 1)) ℝ) (ho : ∀ s, o ≠ some (.scalar s)) :
    (workOutConjugate o q).2.const = -q.const - dot (offAt o) (linearAt q) :=
  const_work ⟨.l1norm, ⟨none, none⟩, o, q⟩ ho

/-- **C101** the conjugate of a cone object with any array offset and any linear and constant term is a cone object, of the
polar class, which denotes the Fenchel conjugate. -/
theorem C101_conjugate (a : ConeObj k) (hq : a.quad.coef = 0) (ho : ConeArrayOffset a) :
    ∃ a', a.getConjugate = .cone a' ∧ a'.klass = a.klass.conj ∧ a'.quad.coef = 0 ∧
      IsConjugate (denoteCone a) (denoteCone a') := by
  refine ⟨ConeObj.new a.klass.conj (workOutConjugate a.offset a.quad).1 (some (workOutConjugate a.offset a.quad).2), ?_, rfl, rfl, ?_⟩
  · unfold ConeObj.getConjugate; rw [if_pos hq]
  · have h := coneFn_conj a.klass (offAt a.offset) (linearAt a.quad) a.quad.const
    unfold denoteCone ConeObj.new
    simp only [Option.getD_some, offAt_ctor, linear_work, constant_work _ _ ho]
    exact h

lemma work_twice (o : Option (PyVec (Fin (k + 1)) ℝ)) (q : Quad (Fin (k + 1)) ℝ) :
    (workOutConjugate (ctorOffset (workOutConjugate o q).1) (workOutConjugate o q).2).2.const = q.const := by
  have key : ∀ w : PyVec (Fin (k + 1)) ℝ, (PyVec.map₂ (· * ·) ((ctorOffset q.linear).getD (.scalar 0)) w).npSum =
      (PyVec.map₂ (· * ·) w (q.linear.getD (.scalar 0))).npSum := by
    intro w
    unfold ctorOffset
    rcases q.linear with _ | (d | l)
    · cases w <;> simp [PyVec.map₂, PyVec.npSum]
    · by_cases h : (PyVec.scalar d : PyVec (Fin (k + 1)) ℝ).allZero
      · have hd : d = 0 := h
        subst hd
        dsimp only
        rw [if_pos h]
        cases w <;> simp [PyVec.map₂, PyVec.npSum]
      · cases w <;> simp [h, PyVec.map₂, PyVec.npSum, mul_comm]
    · by_cases h : (PyVec.arr l : PyVec (Fin (k + 1)) ℝ).allZero
      · have hd : ∀ i, l i = 0 := h
        cases w <;> simp [h, hd, PyVec.map₂, PyVec.npSum]
      · cases w <;> simp [h, PyVec.map₂, PyVec.npSum, mul_comm]
  have h := key (o.getD (.scalar 0))
  show -(-q.const - (PyVec.map₂ (· * ·) (o.getD (.scalar 0)) (q.linear.getD (.scalar 0))).npSum) -
    (PyVec.map₂ (· * ·) ((ctorOffset q.linear).getD (.scalar 0)) (o.getD (.scalar 0))).npSum = q.const
  rw [h]; ring

/-- **C101** conjugating a cone object twice gives back an object of the same class denoting the same function. -/
theorem C101_involution (a : ConeObj k) (hq : a.quad.coef = 0) :
    ∃ a' a'', a.getConjugate = .cone a' ∧ a'.getConjugate = .cone a'' ∧ a''.klass = a.klass ∧ denoteCone a'' = denoteCone a := by
  set a' := ConeObj.new a.klass.conj (workOutConjugate a.offset a.quad).1 (some (workOutConjugate a.offset a.quad).2) with ha'
  refine ⟨a', ConeObj.new a'.klass.conj (workOutConjugate a'.offset a'.quad).1 (some (workOutConjugate a'.offset a'.quad).2),
    by unfold ConeObj.getConjugate; rw [if_pos hq], if_pos rfl, conj_conj _, ?_⟩
  have e1 : offAt a'.offset = linearAt a.quad := by
    show offAt (ctorOffset a.quad.linear) = _; rw [offAt_ctor]; rfl
  have e2 : linearAt a'.quad = offAt a.offset := linear_work _ _
  have e5 : (workOutConjugate a'.offset a'.quad).2.const = a.quad.const := work_twice a.offset a.quad
  have e4 : offAt (workOutConjugate a'.offset a'.quad).1 = linearAt a'.quad := rfl
  unfold denoteCone ConeObj.new
  simp only [Option.getD_some, offAt_ctor, linear_work]
  rw [e5, e4, e1, e2]
  show coneFn a.klass.conj.conj _ _ _ = _
  rw [conj_conj]

/-! ### values -/

/-- the largest absolute value of an entry, or 1 -/
noncomputable def entryScale (z : Fin (k + 1) → ℝ) : ℝ := max 1 (maxCoord fun i => |z i|)

private lemma le_scale (z : Fin (k + 1) → ℝ) (i : Fin (k + 1)) : |z i| ≤ entryScale z :=
  le_trans (le_maxCoord (fun i => |z i|) i) (le_max_right _ _)

lemma tol_eq : (atomTol : ℝ) = 1 / 10 ^ 5 := by norm_num [atomTol]

/-- members of the cone pass the test -/
private lemma constraint_mem (c : ConeKlass) (z : Fin (k + 1) → ℝ) (hk : (c = .l1EpigraphPolar ∨ c = .linfEpigraph) → k ≠ 0)
    (hz : z ∈ coneOf c) : c.constraint z = some 0 := by
  have ht : (0:ℝ) < atomTol := by rw [tol_eq]; norm_num
  have hmax : ∀ {n : ℕ} (y : Fin (n + 1) → ℝ), 0 ≤ npMax (fun i => |y i|) * atomTol := fun y =>
    mul_nonneg (le_trans (abs_nonneg (y 0)) (le_maxCoord (fun i => |y i|) 0)) ht.le
  cases c with
  | nonnegative =>
    simp only [ConeKlass.constraint, Cone.nonnegConstraint]
    rw [if_pos fun i => by have := hz i; have := hmax z; show z i ≥ _; linarith]
  | nonpositive =>
    simp only [ConeKlass.constraint, Cone.nonposConstraint]
    rw [if_pos fun i => by have := hz i; have := hmax z; show z i ≤ _; linarith]
  | zero => rfl
  | zeroConstraint =>
    have : z = fun _ => 0 := funext hz
    simp only [ConeKlass.constraint, Cone.zeroConstraintConstraint]
    rw [if_neg (by rw [this, npNorm_zero, not_not]; exact ht.le)]
  | l1Epigraph =>
    have h : ∑ i : Fin k, |z i.castSucc| ≤ z (Fin.last k) := hz
    have h0 : 0 ≤ z (Fin.last k) := le_trans (Finset.sum_nonneg fun i _ => abs_nonneg _) h
    simp only [ConeKlass.constraint, Cone.l1EpiConstraint]
    rw [if_pos (by show ∑ i : Fin k, |z i.castSucc| ≤ (1 + atomTol) * z (Fin.last k); nlinarith)]
  | l2Epigraph =>
    have h : npNorm (fun i : Fin k => z i.castSucc) ≤ z (Fin.last k) := hz
    have h0 : 0 ≤ z (Fin.last k) := le_trans (npNorm_nonneg _) h
    simp only [ConeKlass.constraint]
    rw [if_pos (by show npNorm (fun i : Fin k => z i.castSucc) ≤ (1 + atomTol) * z (Fin.last k); nlinarith)]
  | l2EpigraphPolar =>
    have h : npNorm (fun i : Fin k => z i.castSucc) ≤ -z (Fin.last k) := hz
    have h0 : 0 ≤ -z (Fin.last k) := le_trans (npNorm_nonneg _) h
    simp only [ConeKlass.constraint]
    rw [if_pos (by show npNorm (fun i : Fin k => z i.castSucc) ≤ (1 + atomTol) * -z (Fin.last k); nlinarith)]
  | linfEpigraphPolar =>
    have h : ∑ i : Fin k, |z i.castSucc| ≤ -z (Fin.last k) := hz
    have h0 : 0 ≤ -z (Fin.last k) := le_trans (Finset.sum_nonneg fun i _ => abs_nonneg _) h
    simp only [ConeKlass.constraint, Cone.linfEpiPolarConstraint]
    rw [if_pos (by show ∑ i : Fin k, |z i.castSucc| ≤ (1 + atomTol) * -z (Fin.last k); nlinarith)]
  | l1EpigraphPolar =>
    cases k with
    | zero => exact absurd rfl (hk (Or.inl rfl))
    | succ k =>
      have h1 : npMax (fun i : Fin (k + 1) => |-z i.castSucc|) ≤ -z (Fin.last (k + 1)) :=
        maxCoord_le fun i => by rw [abs_neg]; exact hz.1 i
      have h0 : 0 ≤ -z (Fin.last (k + 1)) := by linarith [hz.2]
      simp only [ConeKlass.constraint, onNonempty, Cone.l1EpiPolarConstraint]
      rw [if_pos (by show npMax (fun i : Fin (k + 1) => |-z i.castSucc|) ≤ (1 + atomTol) * -z (Fin.last (k + 1)); nlinarith)]
  | linfEpigraph =>
    cases k with
    | zero => exact absurd rfl (hk (Or.inr rfl))
    | succ k =>
      have h1 : npMax (fun i : Fin (k + 1) => |z i.castSucc|) ≤ z (Fin.last (k + 1)) := maxCoord_le fun i => hz.1 i
      have h0 : 0 ≤ z (Fin.last (k + 1)) := hz.2
      simp only [ConeKlass.constraint, onNonempty, Cone.linfEpiConstraint]
      rw [if_pos (by show npMax (fun i : Fin (k + 1) => |z i.castSucc|) ≤ (1 + atomTol) * z (Fin.last (k + 1)); nlinarith)]

/-- points that pass the test are near the cone -/
private lemma constraint_near (c : ConeKlass) (z : Fin (k + 1) → ℝ) {v : WithTop ℝ} (h : c.constraint z = some v) (hv : v ≠ ⊤) :
    v = 0 ∧ ∃ y ∈ coneOf c, ∀ i, |z i - y i| ≤ 1 / 10 ^ 5 * entryScale z := by
  have ht : (0:ℝ) < atomTol := by rw [tol_eq]; norm_num
  have hs : 0 ≤ entryScale z := le_trans zero_le_one (le_max_left _ _)
  have pick : ∀ {P : Prop} [Decidable P], (some (if P then (0 : WithTop ℝ) else ⊤)) = some v → P ∧ v = 0 := by
    intro P _ e
    by_cases hP : P
    · rw [if_pos hP] at e; injection e with e; exact ⟨hP, e.symm⟩
    · rw [if_neg hP] at e; injection e with e; exact absurd e.symm hv
  -- replacing the last entry
  have moved : ∀ s : ℝ, |z (Fin.last k) - s| ≤ 1 / 10 ^ 5 * entryScale z →
      ∀ i, |z i - joinLast (fun i : Fin k => z i.castSucc, s) i| ≤ 1 / 10 ^ 5 * entryScale z := by
    intro s hs' i
    refine Fin.lastCases ?_ (fun i => ?_) i
    · simpa [joinLast] using hs'
    · simp only [joinLast, Fin.snoc_castSucc, sub_self, abs_zero]; positivity
  have hlast : |z (Fin.last k) - (1 + atomTol) * z (Fin.last k)| ≤ 1 / 10 ^ 5 * entryScale z := by
    have e : z (Fin.last k) - (1 + atomTol) * z (Fin.last k) = -(atomTol * z (Fin.last k)) := by ring
    rw [e, abs_neg, abs_mul, abs_of_pos ht, tol_eq]
    exact mul_le_mul_of_nonneg_left (le_scale z _) (by norm_num)
  have bound : ∀ i : Fin (k + 1), npMax (fun i => |z i|) * atomTol ≤ 1 / 10 ^ 5 * entryScale z := by
    intro i
    rw [mul_comm, tol_eq]
    exact mul_le_mul_of_nonneg_left (le_max_right _ _) (by norm_num)
  cases c with
  | nonnegative =>
    obtain ⟨hp, h0⟩ := pick h
    refine ⟨h0, Cone.nonnegProx z, fun i => le_max_right _ _, fun i => ?_⟩
    have h1 := hp i
    have h2 := bound i
    unfold Cone.nonnegProx
    rcases le_total 0 (z i) with e | e
    · rw [max_eq_left e, sub_self, abs_zero]; positivity
    · rw [max_eq_right e, sub_zero, abs_of_nonpos e]; linarith
  | nonpositive =>
    obtain ⟨hp, h0⟩ := pick h
    refine ⟨h0, Cone.nonposProx z, fun i => min_le_right _ _, fun i => ?_⟩
    have h1 := hp i
    have h2 := bound i
    unfold Cone.nonposProx
    rcases le_total 0 (z i) with e | e
    · rw [min_eq_right e, sub_zero, abs_of_nonneg e]; linarith
    · rw [min_eq_left e, sub_self, abs_zero]; positivity
  | zero =>
    injection h with h
    exact ⟨h.symm, z, Set.mem_univ _, fun i => by rw [sub_self, abs_zero]; positivity⟩
  | zeroConstraint =>
    simp only [ConeKlass.constraint, Cone.zeroConstraintConstraint, ite_not] at h
    obtain ⟨hp, h0⟩ := pick h
    refine ⟨h0, fun _ => 0, fun _ => rfl, fun i => ?_⟩
    rw [sub_zero]
    have h1 : |z i| ≤ npNorm z := by
      unfold npNorm
      rw [← Real.sqrt_sq_eq_abs]
      exact Real.sqrt_le_sqrt (Finset.single_le_sum (f := fun i => z i ^ 2) (fun i _ => sq_nonneg _) (Finset.mem_univ i))
    rw [tol_eq] at hp
    have h2 : (1:ℝ) ≤ entryScale z := le_max_left _ _
    have h3 : (1 / 10 ^ 5 : ℝ) * 1 ≤ 1 / 10 ^ 5 * entryScale z := mul_le_mul_of_nonneg_left h2 (by norm_num)
    linarith
  | l1Epigraph =>
    obtain ⟨hp, h0⟩ := pick h
    refine ⟨h0, joinLast (fun i : Fin k => z i.castSucc, (1 + atomTol) * z (Fin.last k)), ?_, moved _ hlast⟩
    simp only [coneOf, Set.mem_ofPred_eq, joinLast, Fin.snoc_castSucc, Fin.snoc_last]
    exact hp
  | l2Epigraph =>
    obtain ⟨hp, h0⟩ := pick h
    refine ⟨h0, joinLast (fun i : Fin k => z i.castSucc, (1 + atomTol) * z (Fin.last k)), ?_, moved _ hlast⟩
    simp only [coneOf, Set.mem_ofPred_eq, joinLast, Fin.snoc_castSucc, Fin.snoc_last]
    exact hp
  | l2EpigraphPolar =>
    obtain ⟨hp, h0⟩ := pick h
    refine ⟨h0, joinLast (fun i : Fin k => z i.castSucc, (1 + atomTol) * z (Fin.last k)), ?_, moved _ hlast⟩
    simp only [coneOf, Set.mem_ofPred_eq, joinLast, Fin.snoc_castSucc, Fin.snoc_last]
    rw [← mul_neg]
    exact hp
  | linfEpigraphPolar =>
    obtain ⟨hp, h0⟩ := pick h
    refine ⟨h0, joinLast (fun i : Fin k => z i.castSucc, (1 + atomTol) * z (Fin.last k)), ?_, moved _ hlast⟩
    simp only [coneOf, Set.mem_ofPred_eq, joinLast, Fin.snoc_castSucc, Fin.snoc_last]
    rw [← mul_neg]
    exact hp
  | l1EpigraphPolar =>
    cases k with
    | zero => cases h
    | succ k =>
      obtain ⟨hp, h0⟩ := pick h
      have hp' : npMax (fun i : Fin (k + 1) => |-z i.castSucc|) ≤ (1 + atomTol) * -z (Fin.last (k + 1)) := hp
      have hi : ∀ i : Fin (k + 1), |z i.castSucc| ≤ -((1 + atomTol) * z (Fin.last (k + 1))) := fun i => by
        have := le_maxCoord (fun i : Fin (k + 1) => |-z i.castSucc|) i
        rw [abs_neg] at this
        have h3 : |z i.castSucc| ≤ (1 + atomTol) * -z (Fin.last (k + 1)) := le_trans this hp'
        linarith
      refine ⟨h0, joinLast (fun i : Fin (k + 1) => z i.castSucc, (1 + atomTol) * z (Fin.last (k + 1))), ?_, moved _ hlast⟩
      simp only [coneOf, Set.mem_ofPred_eq, joinLast, Fin.snoc_castSucc, Fin.snoc_last]
      exact ⟨hi, by have := le_trans (abs_nonneg _) (hi 0); linarith⟩
  | linfEpigraph =>
    cases k with
    | zero => cases h
    | succ k =>
      obtain ⟨hp, h0⟩ := pick h
      have hp' : npMax (fun i : Fin (k + 1) => |z i.castSucc|) ≤ (1 + atomTol) * z (Fin.last (k + 1)) := hp
      have hi : ∀ i : Fin (k + 1), |z i.castSucc| ≤ (1 + atomTol) * z (Fin.last (k + 1)) := fun i =>
        le_trans (le_maxCoord (fun i : Fin (k + 1) => |z i.castSucc|) i) hp'
      refine ⟨h0, joinLast (fun i : Fin (k + 1) => z i.castSucc, (1 + atomTol) * z (Fin.last (k + 1))), ?_, moved _ hlast⟩
      simp only [coneOf, Set.mem_ofPred_eq, joinLast, Fin.snoc_castSucc, Fin.snoc_last]
      exact ⟨hi, le_trans (abs_nonneg _) (hi 0)⟩

private lemma off_neg (o : Option (PyVec (Fin (k + 1)) ℝ)) (i : Fin (k + 1)) :
    offAt (some (negOffset o)) i = -offAt o i := by
  rcases o with _ | (c | v) <;> simp [offAt, negOffset, PyVec.get]

private lemma quadArg_eq (q : Option (Quad (Fin (k + 1)) ℝ)) (z : Fin (k + 1) → ℝ) :
    (q.getD ⟨0, some (.scalar 0), some (.scalar 0), 0⟩).funcVal z = quadArg q z := by
  cases q with
  | none => rw [funcVal_eq]; simp [quadArg, linearAt, PyVec.get]
  | some q =>
    have h := C14_objective_func (some q.coef) q.center q.linear (some q.const) z
    have e : Quad.init (some q.coef) q.center q.linear (some q.const) = q := rfl
    rw [e] at h
    unfold Quad.objective at h
    simpa [quadArg] using h

private lemma asOperator_lin (T l : Aff ℝ m k) (h : T.asOperator = some l) : l.lin = T.lin ∧ l.adj = T.adj := by
  unfold Aff.asOperator at h
  by_cases hT : T.isLinearTransform = true
  · rw [if_pos hT] at h; injection h with h; subst h; exact ⟨rfl, rfl⟩
  · rw [if_neg hT] at h
    cases ho : T.off with
    | missing => rw [ho] at h; cases h
    | none => rw [ho] at h; injection h with h; subst h; exact ⟨rfl, rfl⟩
    | arr v => rw [ho] at h; injection h with h; subst h; exact ⟨rfl, rfl⟩

/-- the cone stored in the object built by `affine` -/
private noncomputable def builtCone (c : ConeKlass) (o : Option (PyVec (Fin (k + 1)) ℝ)) (q : Option (Quad (Fin (k + 1)) ℝ)) : ConeObj k :=
  (ConeObj.new c (some (negOffset o)) q).copy

private lemma affine_eq (c : ConeKlass) (T l : Aff ℝ m (k + 1)) (hl : T.asOperator = some l) (hoff : l.off = .none)
    (o : Option (PyVec (Fin (k + 1)) ℝ)) (q : Option (Quad (Fin (k + 1)) ℝ)) :
    ConeObj.affine c T o q = some ⟨builtCone c o q, l⟩ := by
  unfold ConeObj.affine
  rw [hl]
  unfold AffCone.init
  simp only [hoff]
  rfl

private lemma built_off (c : ConeKlass) (o : Option (PyVec (Fin (k + 1)) ℝ)) (q : Option (Quad (Fin (k + 1)) ℝ)) (i : Fin (k + 1)) :
    offAt (builtCone c o q).offset i = -offAt o i := by
  show offAt (ctorOffset (ctorOffset (some (negOffset o)))) i = _
  rw [offAt_ctor, offAt_ctor, off_neg]

private lemma objective_eq (a : ConeObj k) (x : Fin (k + 1) → ℝ) (cf : Bool) :
    a.nonsmoothObjective x cf = (if cf then a.klass.constraint (fun i => x i - offAt a.offset i) else some 0).map
      fun v => v + ((a.quad.funcVal x : ℝ) : WithTop ℝ) := by
  obtain ⟨c, o, q⟩ := a
  cases o with
  | none =>
    have : (fun i => x i - offAt (none : Option (PyVec (Fin (k + 1)) ℝ)) i) = x := by funext i; simp [offAt]
    dsimp only
    rw [this]
    rfl
  | some o => rfl

/-- **C101** `cls.affine(D, α, quadratic=q)`, and `cls.linear(D, offset=α, ...)`, build an object whose checked value at a
point `x` with `D x + α` in the cone is `q(D x)`; conversely a point whose checked value is finite has `D x + α` within
`10⁻⁵ max(1, ‖D x + α‖∞)` of the cone in every coordinate and its value is again `q(D x)`; the unchecked value is always
`q(D x)`. -/
theorem C101_values (c : ConeKlass) (T l : Aff ℝ m (k + 1)) (hl : T.asOperator = some l) (hoff : l.off = .none)
    (hk : (c = .l1EpigraphPolar ∨ c = .linfEpigraph) → k ≠ 0)
    (α : Option (PyVec (Fin (k + 1)) ℝ)) (q : Option (Quad (Fin (k + 1)) ℝ)) :
    ∃ A, ConeObj.affine c T α q = some A ∧ ∀ x : Fin m → ℝ,
      ((fun i => T.lin x i + denote α i) ∈ coneOf c →
        A.nonsmoothObjective x true = some ((quadArg q (T.lin x) : ℝ) : WithTop ℝ)) ∧
      (∀ v : ℝ, A.nonsmoothObjective x true = some (v : WithTop ℝ) → v = quadArg q (T.lin x) ∧
        ∃ y ∈ coneOf c, ∀ i, |(T.lin x i + denote α i) - y i| ≤ 1 / 10 ^ 5 * entryScale fun i => T.lin x i + denote α i) ∧
      A.nonsmoothObjective x false = some ((quadArg q (T.lin x) : ℝ) : WithTop ℝ) := by
  refine ⟨_, affine_eq c T l hl hoff α q, fun x => ?_⟩
  have hlin := (asOperator_lin T l hl).1
  have hsh : (fun i => T.lin x i - offAt (builtCone c α q).offset i) = fun i => T.lin x i + denote α i := by
    funext i; rw [built_off, denote_eq_offAt]; ring
  have hqv : (builtCone c α q).quad.funcVal (T.lin x) = quadArg q (T.lin x) := quadArg_eq q _
  have hval : ∀ cf, AffCone.nonsmoothObjective ⟨builtCone c α q, l⟩ x cf =
      (if cf then c.constraint (fun i => T.lin x i + denote α i) else some 0).map
        fun v => v + ((quadArg q (T.lin x) : ℝ) : WithTop ℝ) := by
    intro cf
    unfold AffCone.nonsmoothObjective
    dsimp only
    rw [hlin, objective_eq, hsh, hqv]
    rfl
  refine ⟨fun hm => ?_, fun v hv => ?_, ?_⟩
  · rw [hval, if_pos rfl, constraint_mem c _ hk hm, Option.map_some, zero_add]
  · rw [hval, if_pos rfl] at hv
    obtain ⟨w, hw, hwv⟩ := Option.map_eq_some_iff.1 hv
    have hwt : w ≠ ⊤ := by rintro rfl; rw [WithTop.top_add] at hwv; exact WithTop.top_ne_coe hwv
    obtain ⟨h0, hy⟩ := constraint_near c _ hw hwt
    refine ⟨?_, hy⟩
    rw [h0, zero_add] at hwv
    exact (WithTop.coe_inj.1 hwv).symm
  · rw [hval]
    simp

/-- the documented case: `zero_constraint.affine(X, -Y)` with `X = (1 2)`, `Y = 3` accepts the solution `(1, 1)` of `X b = Y` -/
example : ∃ A, ConeObj.affine (m := 2) (k := 0) .zeroConstraint (.matrix ![![1, 2]] none) (some (.arr ![-3])) none = some A ∧
    A.nonsmoothObjective ![1, 1] true = some ((0 : ℝ) : WithTop ℝ) := by
  obtain ⟨A, h1, h2⟩ := C101_values (m := 2) (k := 0) .zeroConstraint (.matrix ![![1, 2]] none) _ rfl rfl (by simp)
    (some (.arr ![-3])) none
  refine ⟨A, h1, ?_⟩
  rw [(h2 ![1, 1]).1]
  · simp [quadArg]
  · intro i
    fin_cases i
    norm_num [Aff.lin, Aff.meth, denote, Fin.sum_univ_two]

/-! ### proximal maps -/

lemma sqDist_join (z x : Fin (k + 1) → ℝ) :
    sqDist z x = sqDist (splitLast z).1 (splitLast x).1 + ((splitLast z).2 - (splitLast x).2) ^ 2 := by
  unfold sqDist splitLast; rw [Fin.sum_univ_castSucc]

lemma join_split (z : Fin (k + 1) → ℝ) : joinLast (splitLast z) = z := by
  funext i
  refine Fin.lastCases ?_ (fun i => ?_) i <;> simp [joinLast, splitLast]

lemma split_join (p : (Fin k → ℝ) × ℝ) : splitLast (joinLast p) = p := by
  unfold splitLast joinLast; simp

lemma proj_pair {S : Set ((Fin k → ℝ) × ℝ)} {x : Fin (k + 1) → ℝ} {p : (Fin k → ℝ) × ℝ} (h : IsProjPair S (splitLast x) p) :
    IsProj {z | splitLast z ∈ S} x (joinLast p) := by
  refine ⟨?_, fun z hz hne => ?_⟩
  · show splitLast (joinLast p) ∈ S; rw [split_join]; exact h.1
  · have h1 := h.2 (splitLast z) hz (fun e => hne (by rw [← e, join_split]))
    dsimp only at h1 ⊢
    rw [sqDist_join z, sqDist_join (joinLast p), split_join]
    exact h1

/-- classes whose `cone_prox` is a projection; the others are the epigraph of the l2 norm and its polar -/
def NotL2 (c : ConeKlass) : Prop := c ≠ .l2Epigraph ∧ c ≠ .l2EpigraphPolar

/-- epigraph classes have at least one coordinate besides the bound -/
def HasVector (c : ConeKlass) (k : ℕ) : Prop :=
  c = .nonnegative ∨ c = .nonpositive ∨ c = .zero ∨ c = .zeroConstraint ∨ k ≠ 0

/-- `cone_prox` of the eight classes is defined everywhere and is the projection -/
private lemma coneProx_proj (c : ConeKlass) (h2 : NotL2 c) (hk : HasVector c k) (x : Fin (k + 1) → ℝ) :
    ∃ p, c.coneProx x = some p ∧ IsProj (coneOf c) x p := by
  cases c with
  | nonnegative => exact ⟨_, rfl, C16_nonnegative x⟩
  | nonpositive => exact ⟨_, rfl, C16_nonpositive x⟩
  | zero => exact ⟨_, rfl, C16_zero x⟩
  | zeroConstraint => exact ⟨_, rfl, C16_zero_constraint x⟩
  | l2Epigraph => exact absurd rfl h2.1
  | l2EpigraphPolar => exact absurd rfl h2.2
  | l1Epigraph =>
    cases k with
    | zero => simp [HasVector] at hk
    | succ k =>
      obtain ⟨p, h1, h3⟩ := C17_l1_epigraph (splitLast x)
      exact ⟨joinLast p, by simp only [ConeKlass.coneProx, h1, Option.map_some], proj_pair h3⟩
  | l1EpigraphPolar =>
    cases k with
    | zero => simp [HasVector] at hk
    | succ k =>
      obtain ⟨p, h1, h3⟩ := C17_l1_epigraph_polar (splitLast x)
      refine ⟨joinLast p, by simp only [ConeKlass.coneProx, h1, Option.map_some], ?_⟩
      convert proj_pair h3 using 1
      ext z
      exact ⟨fun h => h.1, fun h => ⟨h, by have := le_trans (abs_nonneg _) (h 0); change 0 ≤ -z (Fin.last (k + 1)) at this; linarith⟩⟩
  | linfEpigraph =>
    cases k with
    | zero => simp [HasVector] at hk
    | succ k =>
      obtain ⟨p, h1, h3⟩ := C17_linf_epigraph (splitLast x)
      refine ⟨joinLast p, by simp only [ConeKlass.coneProx, h1, Option.map_some], ?_⟩
      convert proj_pair h3 using 1
      ext z
      exact ⟨fun h => h.1, fun h => ⟨h, le_trans (abs_nonneg _) (h 0)⟩⟩
  | linfEpigraphPolar =>
    cases k with
    | zero => simp [HasVector] at hk
    | succ k =>
      obtain ⟨p, h1, h3⟩ := C17_linf_epigraph_polar (splitLast x)
      exact ⟨joinLast p, by simp only [ConeKlass.coneProx, h1, Option.map_some], proj_pair h3⟩

private lemma quadVal_lin (q : Quad (Fin (k + 1)) ℝ) (hq : q.coef = 0) (u : Fin (k + 1) → ℝ) :
    quadVal (some q) u = dot (linearAt q) u + q.const := by
  have e : denote q.linear = linearAt q := by
    funext i; unfold denote linearAt; rcases q.linear with _ | (c | c) <;> rfl
  unfold quadVal quadFn
  simp only [hq, e]
  unfold dot
  ring

/-- **C101** `proximal` of a cone object, for the eight classes other than the epigraph of the l2 norm and its polar, with any
offset and any linear and constant term: for a quadratic with positive coefficient and array center it returns, and what it
returns is the unique minimiser of the quadratic plus the function of the object.  Missing: the l2 epigraph and its polar, where
it is false (`C101_l2_epigraph_fails`). -/
theorem C101_proximal_partial (a : ConeObj k) (h2 : NotL2 a.klass) (hk : HasVector a.klass k) (hq : a.quad.coef = 0) :
    AtomCorrect a.proximal (denoteCone a) ∧
      ∀ (q : Quad (Fin (k + 1)) ℝ) (v : Fin (k + 1) → ℝ), 0 < q.coef → q.center = some (.arr v) → ∃ p, a.proximal q = .ok p := by
  classical
  refine ⟨fun q p hpos hp => ?_, fun q v hpos hv => ?_⟩
  · have h := C10_cone_proximal a.klass.coneProx (coneOf a.klass) (fun arg p hp => by
      obtain ⟨p', e1, e2⟩ := coneProx_proj a.klass h2 hk arg
      rw [e1] at hp; injection hp with hp; rw [← hp]; exact e2) a.offset a.quad (some q) p
      (by rw [hq, zero_add]; exact hpos) hp
    have key : ∀ u, (fun i => u i - offAt a.offset i) ∈ coneOf a.klass → ((quadVal (some q) u : ℝ) : WithTop ℝ) + denoteCone a u =
        ((quadVal (some q) u + quadVal (some a.quad) u : ℝ) : WithTop ℝ) := by
      intro u hu
      unfold denoteCone coneFn
      rw [if_pos hu, zero_add, ← WithTop.coe_add, quadVal_lin a.quad hq]
    have h' : (fun i => p i - offAt a.offset i) ∈ coneOf a.klass := by
      have := h.1; rw [denote_eq_offAt] at this; exact this
    refine ⟨?_, fun z hz => ?_⟩
    · dsimp only; rw [key p h']; exact WithTop.coe_ne_top
    · dsimp only
      rw [key p h']
      by_cases hzm : (fun i => z i - offAt a.offset i) ∈ coneOf a.klass
      · rw [key z hzm, WithTop.coe_lt_coe]
        exact h.2 z (by rw [denote_eq_offAt]; exact hzm) hz
      · have : denoteCone a z = ⊤ := by unfold denoteCone coneFn; rw [if_neg hzm, WithTop.top_add]
        rw [this, WithTop.add_top]; exact WithTop.coe_lt_top _
  · exact (C10_proximal_total (fun _ _ _ => none) (fun x _ => a.klass.coneProx x) (.bound 0)
      (fun arg L => by obtain ⟨p, e, _⟩ := coneProx_proj a.klass h2 hk arg; exact ⟨p, e⟩) a.offset a.quad q v hv).2
      (by rw [hq, zero_add]; exact hpos.ne')

private lemma denoteCone_convex (a : ConeObj k) : ConvexTop (denoteCone a) := by
  classical
  intro u v x y hu hv t ht ht1
  have mem : ∀ (w : Fin (k + 1) → ℝ) (r : ℝ), denoteCone a w = ((r : ℝ) : WithTop ℝ) →
      (fun i => w i - offAt a.offset i) ∈ coneOf a.klass ∧ dot (linearAt a.quad) w + a.quad.const = r := by
    intro w r hw
    unfold denoteCone coneFn at hw
    by_cases h : (fun i => w i - offAt a.offset i) ∈ coneOf a.klass
    · rw [if_pos h, zero_add] at hw; exact ⟨h, WithTop.coe_inj.1 hw⟩
    · rw [if_neg h, WithTop.top_add] at hw; exact absurd hw.symm WithTop.coe_ne_top
  obtain ⟨hu1, hu2⟩ := mem u x hu
  obtain ⟨hv1, hv2⟩ := mem v y hv
  refine ⟨(1 - t) * x + t * y, ?_, le_refl _⟩
  have hm : (fun i => ((1 - t) * u i + t * v i) - offAt a.offset i) ∈ coneOf a.klass := by
    have := coneOf_add a.klass (coneOf_smul a.klass hu1 (sub_nonneg.2 ht1)) (coneOf_smul a.klass hv1 ht)
    convert this using 1
    funext i; ring
  unfold denoteCone coneFn
  rw [if_pos hm, zero_add, ← hu2, ← hv2]
  congr 1
  unfold dot
  rw [mul_add, mul_add, Finset.mul_sum, Finset.mul_sum]
  have : ∑ i, linearAt a.quad i * ((1 - t) * u i + t * v i) =
      ∑ i, (1 - t) * (linearAt a.quad i * u i) + ∑ i, t * (linearAt a.quad i * v i) := by
    rw [← Finset.sum_add_distrib]; exact Finset.sum_congr rfl fun i _ => by ring
  rw [this]; ring

/-! ### duality -/

/-- **C101** the pair `(D, g)` returned by `dual` represents the constraint: for every `x`, the indicator of
`D x + α ∈ cone` plus `⟨l, D x⟩ + c0` is the supremum over `u` of `⟨u, D x⟩ - g(u)`, unbounded where the constraint is
violated; `g` is a convex cone object of the polar class. -/
theorem C101_dual (c : ConeKlass) (T l : Aff ℝ m (k + 1)) (hl : T.asOperator = some l) (hoff : l.off = .none)
    (α : Option (PyVec (Fin (k + 1)) ℝ)) (hα : ∀ s, α ≠ some (.scalar s))
    (q : Option (Quad (Fin (k + 1)) ℝ)) (hq : ∀ q', q = some q' → q'.coef = 0) :
    ∃ A D g, ConeObj.affine c T α q = some A ∧ A.dual = (D, .cone g) ∧ D = l ∧ D.lin = T.lin ∧ D.adj = T.adj ∧
      g.klass = c.conj ∧ g.quad.coef = 0 ∧ ConvexTop (denoteCone g) ∧
      Represents D.lin (denoteCone g) (constrainedFn c T.lin (denote α) (quadArg q)) := by
  classical
  set a := (builtCone c α q).copy with ha
  have hao : ∀ i, offAt a.offset i = -offAt α i := fun i => by
    show offAt (ctorOffset (builtCone c α q).offset) i = _
    rw [offAt_ctor, built_off]
  have harr : ConeArrayOffset a := by
    intro s hs
    have hs' : ctorOffset (ctorOffset (ctorOffset (some (negOffset α)))) = some (.scalar s) := hs
    rcases α with _ | (s' | v)
    · simp [negOffset, ctorOffset, PyVec.allZero] at hs'
    · exact hα s' rfl
    · simp only [negOffset, ctorOffset] at hs'
      by_cases h0 : (PyVec.arr fun i => -v i : PyVec (Fin (k + 1)) ℝ).allZero
      · simp [h0] at hs'
      · simp [h0] at hs'
  have hcoef : a.quad.coef = 0 := by
    cases q with
    | none => rfl
    | some q' => exact hq q' rfl
  have hlin := asOperator_lin T l hl
  set g := ConeObj.new a.klass.conj (workOutConjugate a.offset a.quad).1 (some (workOutConjugate a.offset a.quad).2) with hg
  refine ⟨_, l, g, affine_eq c T l hl hoff α q, ?_, rfl, hlin.1, hlin.2, rfl, rfl, denoteCone_convex g, ?_⟩
  · unfold AffCone.dual
    dsimp only
    rw [← ha]
    unfold ConeObj.getConjugate
    rw [if_pos hcoef]
  · have e1 : offAt g.offset = linearAt a.quad := by
      show offAt (ctorOffset a.quad.linear) = _; rw [offAt_ctor]; rfl
    have e2 : linearAt g.quad = offAt a.offset := linear_work _ _
    have e3 : g.quad.const = -a.quad.const - dot (offAt a.offset) (linearAt a.quad) := constant_work _ _ harr
    have e4 : -g.quad.const - dot (offAt g.offset) (linearAt g.quad) = a.quad.const := by
      rw [e1, e2, e3]
      have : dot (linearAt a.quad) (offAt a.offset) = dot (offAt a.offset) (linearAt a.quad) := by
        unfold dot; exact Finset.sum_congr rfl fun i _ => mul_comm _ _
      rw [this]; ring
    have hconj := coneFn_conj g.klass (offAt g.offset) (linearAt g.quad) g.quad.const
    rw [e4] at hconj
    have hkk : g.klass.conj = c := conj_conj c
    rw [hkk] at hconj
    intro x
    have hx := hconj (T.lin x)
    have hval : coneFn c (linearAt g.quad) (offAt g.offset) a.quad.const (T.lin x) =
        constrainedFn c T.lin (denote α) (quadArg q) x := by
      have e5 : (fun i => T.lin x i - linearAt g.quad i) = fun i => T.lin x i + denote α i := by
        funext i
        rw [e2, hao, denote_eq_offAt]; ring
      have e6 : dot (offAt g.offset) (T.lin x) + a.quad.const = quadArg q (T.lin x) := by
        rw [← quadArg_eq, e1]
        have : (q.getD ⟨0, some (.scalar 0), some (.scalar 0), 0⟩) = a.quad := rfl
        rw [this, funcVal_eq, hcoef]
        unfold dot; ring
      unfold constrainedFn coneFn
      rw [e5, e6]
    rw [← hval, hlin.1]
    exact hx

/-- the dual atom of `cls.linear(T)`: the polar class, with no offset and no linear term -/
lemma cone_dual_plain (c : ConeKlass) (T l : Aff ℝ m (k + 1)) (hl : T.asOperator = some l) (hoff : l.off = .none) :
    ∃ A g, ConeObj.affine c T none none = some A ∧ A.dual = (l, .cone g) ∧ g.klass = c.conj ∧ g.quad.coef = 0 ∧
      (∀ i, offAt g.offset i = 0) ∧ (∀ i, linearAt g.quad i = 0) ∧ g.quad.const = 0 := by
  set a := (builtCone (k := k) c none none).copy with ha
  have hao : ∀ i, offAt a.offset i = 0 := fun i => by
    show offAt (ctorOffset (builtCone c none none).offset) i = _
    rw [offAt_ctor, built_off]; simp [offAt]
  have harr : ConeArrayOffset a := by
    intro s hs
    have hs' : ctorOffset (ctorOffset (ctorOffset (some (negOffset (none : Option (PyVec (Fin (k + 1)) ℝ)))))) = some (.scalar s) := hs
    simp [negOffset, ctorOffset, PyVec.allZero] at hs'
  have hcoef : a.quad.coef = 0 := rfl
  have hlin : ∀ i, linearAt a.quad i = 0 := fun i => rfl
  refine ⟨_, ConeObj.new a.klass.conj (workOutConjugate a.offset a.quad).1 (some (workOutConjugate a.offset a.quad).2),
    affine_eq c T l hl hoff none none, ?_, rfl, rfl, fun i => ?_, fun i => ?_, ?_⟩
  · unfold AffCone.dual
    dsimp only
    rw [← ha]
    unfold ConeObj.getConjugate
    rw [if_pos hcoef]
  · show offAt (ctorOffset a.quad.linear) i = _
    rw [offAt_ctor]; exact hlin i
  · have e2 : linearAt (workOutConjugate a.offset a.quad).2 = offAt a.offset := linear_work _ _
    show linearAt (workOutConjugate a.offset a.quad).2 i = 0
    rw [e2]; exact hao i
  · have e3 : (workOutConjugate a.offset a.quad).2.const = -a.quad.const - dot (offAt a.offset) (linearAt a.quad) :=
      constant_work _ _ harr
    show (workOutConjugate a.offset a.quad).2.const = 0
    rw [e3]
    have h0 : a.quad.const = 0 := rfl
    rw [h0]
    unfold dot
    simp [hao]

/-- the unchecked value of a cone object on its domain -/
lemma cone_unchecked (a : ConeObj k) (hq : a.quad.coef = 0) (u : Fin (k + 1) → ℝ) (hu : denoteCone a u ≠ ⊤) :
    (a.nonsmoothObjective u false).getD ⊤ = denoteCone a u := by
  classical
  rw [objective_eq]
  have hm : (fun i => u i - offAt a.offset i) ∈ coneOf a.klass := by
    by_contra hn
    apply hu
    unfold denoteCone coneFn
    rw [if_neg hn, WithTop.top_add]
  unfold denoteCone coneFn
  rw [if_pos hm]
  have e : a.quad.funcVal u = dot (linearAt a.quad) u + a.quad.const := by
    rw [funcVal_eq, hq]; unfold dot; ring
  rw [e]
  simp

/-- the cone inside the object built by `affine`, as a function of the transformed vector -/
lemma affine_cone_denotes (c : ConeKlass) (T l : Aff ℝ m (k + 1)) (hl : T.asOperator = some l) (hoff : l.off = .none)
    (α : Option (PyVec (Fin (k + 1)) ℝ)) (q : Option (Quad (Fin (k + 1)) ℝ)) (hq : ∀ q', q = some q' → q'.coef = 0) :
    ∃ A, ConeObj.affine c T α q = some A ∧ A.lin = l ∧ A.cone.copy.quad.coef = 0 ∧ A.cone.copy.klass = c ∧
      denoteCone A.cone.copy = constrainedFn c (fun z => z) (denote α) (quadArg q) := by
  classical
  have hcoef : (builtCone c α q).copy.quad.coef = 0 := by
    cases q with
    | none => rfl
    | some q' => exact hq q' rfl
  refine ⟨_, affine_eq c T l hl hoff α q, rfl, hcoef, rfl, ?_⟩
  funext z
  have hao : ∀ i, offAt (builtCone c α q).copy.offset i = -offAt α i := fun i => by
    show offAt (ctorOffset (builtCone c α q).offset) i = _
    rw [offAt_ctor, built_off]
  have e5 : (fun i => z i - offAt (builtCone c α q).copy.offset i) = fun i => z i + denote α i := by
    funext i
    rw [hao, denote_eq_offAt]; ring
  have e6 : dot (linearAt (builtCone c α q).copy.quad) z + (builtCone c α q).copy.quad.const = quadArg q z := by
    rw [← quadArg_eq]
    have : (q.getD ⟨0, some (.scalar 0), some (.scalar 0), 0⟩) = (builtCone c α q).copy.quad := rfl
    rw [this, funcVal_eq, hcoef]
    unfold dot; ring
  unfold denoteCone coneFn constrainedFn
  rw [e5, e6]
  rfl

/-- **C101** the attribute `dual` of a cone object itself, with any array offset, linear and constant term, is the identity and a
cone object `g` of the polar class which represents it: its function at `x` is the supremum over `u` of `⟨u, x⟩ - g(u)`. -/
theorem C101_cone_dual (a : ConeObj k) (hq : a.quad.coef = 0) (ho : ConeArrayOffset a) :
    ∃ D g, a.dual = (D, .cone g) ∧ (∀ x, D.lin x = x) ∧ (∀ x, D.adj x = x) ∧ g.klass = a.klass.conj ∧ g.quad.coef = 0 ∧
      ConvexTop (denoteCone g) ∧ Represents D.lin (denoteCone g) (denoteCone a) := by
  set g := ConeObj.new a.klass.conj (workOutConjugate a.offset a.quad).1 (some (workOutConjugate a.offset a.quad).2) with hg
  refine ⟨.identity, g, ?_, fun x => rfl, fun x => rfl, rfl, rfl, denoteCone_convex g, fun x => ?_⟩
  · unfold ConeObj.dual ConeObj.getConjugate
    rw [if_pos hq]
  · have e1 : offAt g.offset = linearAt a.quad := by
      show offAt (ctorOffset a.quad.linear) = _; rw [offAt_ctor]; rfl
    have e2 : linearAt g.quad = offAt a.offset := linear_work _ _
    have e3 : g.quad.const = -a.quad.const - dot (offAt a.offset) (linearAt a.quad) := constant_work _ _ ho
    have e4 : -g.quad.const - dot (offAt g.offset) (linearAt g.quad) = a.quad.const := by
      rw [e1, e2, e3]
      have : dot (linearAt a.quad) (offAt a.offset) = dot (offAt a.offset) (linearAt a.quad) := by
        unfold dot; exact Finset.sum_congr rfl fun i _ => mul_comm _ _
      rw [this]; ring
    have hconj := coneFn_conj g.klass (offAt g.offset) (linearAt g.quad) g.quad.const
    rw [e4, e1, e2, show g.klass.conj = a.klass from conj_conj a.klass] at hconj
    have hx := hconj x
    unfold denoteCone
    rw [e1, e2]
    exact hx

/-- the shifted nonnegative orthant `x ≥ (1, 2)` with a linear term meets the hypotheses -/
example : ConeArrayOffset (ConeObj.new (k := 1) .nonnegative (some (.arr ![1, 2])) (some ⟨0, none, some (.arr ![4, 5]), 1⟩)) ∧
    (ConeObj.new (k := 1) .nonnegative (some (.arr ![1, 2])) (some ⟨0, none, some (.arr ![4, 5]), 1⟩)).quad.coef = 0 := by
  refine ⟨fun s hs => ?_, rfl⟩
  have hs' : ctorOffset (some (.arr ![1, 2])) = (some (.scalar s) : Option (PyVec (Fin 2) ℝ)) := hs
  unfold ctorOffset at hs'
  dsimp only at hs'
  split_ifs at hs'
  injection hs' with hs'
  cases hs'

/-- the equality constraint `X b = Y` with `X = (1 2)`, `Y = 3` and a linear term meets the hypotheses -/
example : ∃ A D g, ConeObj.affine (m := 2) (k := 0) .zeroConstraint (.matrix ![![1, 2]] none) (some (.arr ![-3]))
    (some ⟨0, none, some (.arr ![4]), 1⟩) = some A ∧ A.dual = (D, .cone g) ∧ g.klass = .zero := by
  obtain ⟨A, D, g, h1, h2, -, -, -, h3, -⟩ := C101_dual (m := 2) (k := 0) .zeroConstraint (.matrix ![![1, 2]] none) _ rfl rfl
    (some (.arr ![-3])) (by simp) (some ⟨0, none, some (.arr ![4]), 1⟩) (by simp)
  exact ⟨A, D, g, h1, h2, h3⟩

/-- **C101** a constrained problem solved through its dual: minimise a strongly convex `f` subject to `D x + α ∈ cone`, where
the constraint is the object `cls.affine(D, α)`, its dual is handed to `dual_problem`, and the last gradient evaluation of the
solver is at a minimiser of the dual objective.  The vector returned is the unique minimiser of `f` over the feasible set, and
minus the optimal dual value is its value. -/
theorem C101_solve (c : ConeKlass) (T l : Aff ℝ n (k + 1)) (hl : T.asOperator = some l) (hoff : l.off = .none)
    (hT : distinctSelectors l) (α : Option (PyVec (Fin (k + 1)) ℝ)) (hα : ∀ s, α ≠ some (.scalar s))
    (fc : Objective n) (f : (Fin n → ℝ) → WithTop ℝ) (V : (Fin n → ℝ) → ℝ) (G : (Fin n → ℝ) → Fin n → ℝ) (hE : Evaluates fc V G)
    (hf : IsSmoothConjugate f V G) (μ : ℝ) (hμ : 0 < μ) (hsc : StronglyConvexTop μ f) :
    ∃ A D g, ConeObj.affine c T α none = some A ∧ A.dual = (D, .cone g) ∧
      ∀ (calls : List ((Fin (k + 1) → ℝ) × Mode)) (u : Fin (k + 1) → ℝ), LastGradientAt calls u →
        IsMinTop (dualFn V D.adj (denoteCone g)) u →
        ∃ x v, (DualProblem.mk fc D g.asDual).solve calls = some x ∧
          (fun i => T.lin x i + denote α i) ∈ coneOf c ∧ f x = ((v : ℝ) : WithTop ℝ) ∧
          (∀ z, (fun i => T.lin z i + denote α i) ∈ coneOf c → z ≠ x → f x < f z) ∧
          dualFn V D.adj (denoteCone g) u = ((-v : ℝ) : WithTop ℝ) := by
  classical
  obtain ⟨A, D, g, h1, h2, hD, -, -, -, -, hconv, hrep⟩ := C101_dual c T l hl hoff α hα none (by simp)
  refine ⟨A, D, g, h1, h2, fun calls u hc hu => ?_⟩
  obtain ⟨x, v, hx, hmin, hv, hd⟩ := C68_optimal (DualProblem.mk fc D g.asDual) (by show distinctSelectors D; rw [hD]; exact hT)
    f V G hE hf μ hμ hsc (denoteCone g) _ hrep hconv calls u hc hu
  have ev : ∀ z, constrainedFn c T.lin (denote α) (quadArg none) z =
      if (fun i => T.lin z i + denote α i) ∈ coneOf c then 0 else ⊤ := by
    intro z
    unfold constrainedFn
    simp only [quadArg, WithTop.coe_zero, add_zero]
  have hxm : (fun i => T.lin x i + denote α i) ∈ coneOf c := by
    by_contra hn
    rw [ev, if_neg hn, WithTop.add_top] at hv
    exact WithTop.top_ne_coe hv
  refine ⟨x, v, hx, hxm, ?_, fun z hz hne => ?_, hd⟩
  · rw [ev, if_pos hxm, add_zero] at hv; exact hv
  · have := hmin.2 z hne
    dsimp only at this
    rwa [ev, ev, if_pos hxm, if_pos hz, add_zero, add_zero] at this

/-- the proximal map of a translated orthant with a linear term -/
example : ∃ p, (ConeObj.new (k := 1) .nonnegative (some (.arr ![1, -2])) (some ⟨0, none, some (.arr ![3, 0]), 1⟩)).proximal
    ⟨2, some (.arr ![0, 5]), none, 0⟩ = .ok p :=
  (C101_proximal_partial (ConeObj.new (k := 1) .nonnegative (some (.arr ![1, -2])) (some ⟨0, none, some (.arr ![3, 0]), 1⟩))
    ⟨by simp [ConeObj.new], by simp [ConeObj.new]⟩ (Or.inl rfl) rfl).2 _ _ (by norm_num) rfl

/-- isotonic regression: `½‖x‖² - ⟨y, x⟩` subject to `nonnegative.linear(D)` with `D` the first differences, of any size, meets
the hypotheses of `C101_solve` -/
example (y : Fin (k + 2) → ℝ) :=
  C101_solve (n := k + 2) (k := k) .nonnegative
    (.matrix (fun i j => (if j = i.succ then 1 else 0) - if j = i.castSucc then 1 else 0) none) _ rfl rfl (by simp [distinctSelectors]) none (by simp)
    (Smooth.signalApproximator (fun i => -y i) 1) (quadF y) (fun z => 1 / 2 * ∑ i, (z i + y i) ^ 2) (fun z i => z i + y i)
    (quadF_eval y) (quadF_conj y) 1 one_pos (quadF_strong y)

/-! ### what fails -/

/-- **C101** fails for the epigraph of the l2 norm: `l2_epigraph((2,)).proximal` with center `(1; 3)`, a point of the cone,
returns `(2; 2)`. -/
theorem C101_l2_epigraph_fails :
    ∃ (a : ConeObj 1) (q : Quad (Fin 2) ℝ), a = ConeObj.new .l2Epigraph none none ∧ 0 < q.coef ∧
      a.proximal q = .ok ![2, 2] ∧ ¬ AtomCorrect a.proximal (denoteCone a) := by
  classical
  have join_two : ∀ a b : ℝ, joinLast (k := 1) (fun _ => a, b) = ![a, b] := by
    intro a b; funext i; fin_cases i <;> rfl
  have hp : (ConeObj.new (k := 1) .l2Epigraph none none).proximal ⟨1, some (.arr ![1, 3]), none, 0⟩ = .ok ![2, 2] := by
    have h := C17_l2_epigraph_fails.2.1
    have e : splitLast (k := 1) ![1, 3] = (fun _ => 1, 3) := by
      refine Prod.ext ?_ rfl
      funext i; fin_cases i; rfl
    have h3 : ConeKlass.l2Epigraph.coneProx (k := 1) ![1, 3] = some ![2, 2] := by
      simp only [ConeKlass.coneProx]
      rw [e, h, Option.map_some, join_two]
    simp [ConeObj.proximal, ConeObj.new, coneProximal, Quad.add, Quad.recenter, Quad.collapsed, Quad.collapsedLinear,
      PyVec.map₂, PyVec.map, PyVec.get, ctorOffset, h3]
  refine ⟨_, _, rfl, one_pos, hp, fun hc => ?_⟩
  have h := (hc _ _ one_pos hp).2 ![1, 3] (fun e => by
    have := congrFun e 0; norm_num at this)
  have mem : ∀ v t : ℝ, 0 ≤ v → v ≤ t → denoteCone (ConeObj.new (k := 1) .l2Epigraph none none) ![v, t] = ((0 : ℝ) : WithTop ℝ) := by
    intro v t hv ht
    unfold denoteCone coneFn
    have : (fun i => (![v, t] : Fin 2 → ℝ) i - offAt (ConeObj.new (k := 1) .l2Epigraph none none).offset i) ∈
        coneOf (ConeObj.new (k := 1) .l2Epigraph none none).klass := by
      show _ ∈ coneOf (k := 1) .l2Epigraph
      simp [coneOf, ConeObj.new, ctorOffset, offAt, Real.sqrt_sq hv, ht]
    rw [if_pos this]
    simp [ConeObj.new, dot, linearAt, PyVec.get]
  dsimp only at h
  rw [mem 2 2 (by norm_num) le_rfl, mem 1 3 (by norm_num) (by norm_num), ← WithTop.coe_add, ← WithTop.coe_add, WithTop.coe_lt_coe] at h
  have h' : ¬ ∑ i : Fin 2, ((![2, 2] : Fin 2 → ℝ) i - (![1, 3] : Fin 2 → ℝ) i) ^ 2 < 0 := not_lt.2 (Finset.sum_nonneg fun i _ => sq_nonneg _)
  norm_num [quadVal, quadFn, denote, sqDist, dot, PyVec.get] at h
  exact h' (by linarith)

/-- **C101** fails for a transform with an offset: `nonnegative.linear(affine_transform(1, -1))` should be the constraint
`x - 1 ≥ 0`; `x = 0` is accepted, the offset being dropped. -/
theorem C101_operator_offset_fails :
    ∃ A, ConeObj.affine (m := 1) (k := 0) .nonnegative (.matrix ![![1]] (some ![-1])) none none = some A ∧
      A.nonsmoothObjective ![0] true = some ((0 : ℝ) : WithTop ℝ) ∧
      (Aff.matrix ![![1]] (some ![-1]) : Aff ℝ 1 1).aff ![0] ∉ coneOf (k := 0) .nonnegative := by
  obtain ⟨A, h1, h2⟩ := C101_values (m := 1) (k := 0) .nonnegative (.matrix ![![1]] (some ![-1])) _ rfl rfl (by simp) none none
  refine ⟨A, h1, ?_, fun h => ?_⟩
  · rw [(h2 ![0]).1]
    · simp [quadArg]
    · intro i
      fin_cases i
      norm_num [Aff.lin, Aff.meth, denote]
  · have := h 0
    norm_num [Aff.aff, Aff.meth, Aff.Off.ofOption, Aff.Off.addTo] at this

/-- **C101** `affine_cone(cone, affine_transform(D, α))`: the constructor adds `α` to the offset `β` of a copy of the cone, so that
the checked value is decided by `D x - β - α` (an offset of a cone is subtracted), the unchecked value is the quadratic at `D x`. -/
theorem C101_constructor_subtracts (c : ConeKlass) (β : Option (Fin (k + 1) → ℝ)) (q : Option (Quad (Fin (k + 1)) ℝ))
    (D : Fin (k + 1) → Fin m → ℝ) (α : Fin (k + 1) → ℝ) :
    ∃ A, AffCone.init (ConeObj.new c (β.map .arr) q) (.matrix D (some α)) = some A ∧ ∀ x : Fin m → ℝ,
      A.nonsmoothObjective x false = some ((quadArg q (fun i => ∑ j, D i j * x j) : ℝ) : WithTop ℝ) ∧
      A.nonsmoothObjective x true = (c.constraint fun i => ∑ j, D i j * x j - (β.elim 0 id) i - α i).map
        fun v => v + ((quadArg q (fun i => ∑ j, D i j * x j) : ℝ) : WithTop ℝ) := by
  obtain ⟨o, ho, hoff⟩ : ∃ o, addAtomOffset (ConeObj.new c (β.map .arr) q).copy.offset α = some o ∧
      ∀ i, offAt o i = (β.elim 0 id) i + α i := by
    show ∃ o, addAtomOffset (ctorOffset (ctorOffset (β.map .arr))) α = some o ∧ _
    cases β with
    | none =>
      refine ⟨_, rfl, fun i => ?_⟩
      rw [offAt_ctor]; simp [offAt, PyVec.get]
    | some b =>
      by_cases h : (PyVec.arr b : PyVec (Fin (k + 1)) ℝ).allZero
      · have e : ctorOffset (some (.arr b)) = (none : Option (PyVec (Fin (k + 1)) ℝ)) := by simp [ctorOffset, h]
        have hb : offAt (some (PyVec.arr b)) = offAt (none : Option (PyVec (Fin (k + 1)) ℝ)) := by rw [← e, offAt_ctor]
        refine ⟨ctorOffset (some (.arr α)), by simp only [Option.map_some]; rw [e]; rfl, fun i => ?_⟩
        have h0 : b i = 0 := congrFun hb i
        rw [offAt_ctor]
        show α i = b i + α i
        rw [h0, zero_add]
      · have e : ctorOffset (some (.arr b)) = some (PyVec.arr b) := by simp [ctorOffset, h]
        exact ⟨some (.arr fun i => b i + α i), by simp only [Option.map_some]; rw [e, e]; rfl, fun i => rfl⟩
  refine ⟨⟨{ (ConeObj.new c (β.map .arr) q).copy with offset := o }, .matrix D none⟩, ?_, fun x => ?_⟩
  · unfold AffCone.init
    simp only [Aff.off, Aff.meth, Aff.Off.ofOption, ho, Aff.linearPart]
  · have hqv : (ConeObj.new c (β.map .arr) q).copy.quad.funcVal (fun i => ∑ j, D i j * x j) =
        quadArg q (fun i => ∑ j, D i j * x j) := quadArg_eq q _
    have hl : (Aff.matrix D none : Aff ℝ m (k + 1)).lin x = fun i => ∑ j, D i j * x j := rfl
    have hsh : (fun i => ∑ j, D i j * x j - offAt o i) = fun i => ∑ j, D i j * x j - (β.elim 0 id) i - α i := by
      funext i; rw [hoff]; ring
    unfold AffCone.nonsmoothObjective
    dsimp only
    refine ⟨?_, ?_⟩
    · rw [objective_eq, hl]
      dsimp only
      rw [hqv]; simp
    · rw [objective_eq, hl]
      dsimp only
      rw [hqv, hsh]; rfl

/-- **C101** fails for `affine_cone(cone, affine_transform(D, α))`: `affine_atom` documents the composition with `D x + α`;
`nonnegative` composed with `x + 1` accepts `x = 1` and rejects `x = 0`, where `x + 1 = 1` is nonnegative. -/
theorem C101_constructor_offset_fails :
    ∃ A, AffCone.init (ConeObj.new (k := 0) .nonnegative none none) (.matrix ![![1]] (some ![1]) : Aff ℝ 1 1) = some A ∧
      A.nonsmoothObjective ![0] true = some ⊤ ∧ A.nonsmoothObjective ![1] true = some ((0 : ℝ) : WithTop ℝ) ∧
      (Aff.matrix ![![1]] (some ![1]) : Aff ℝ 1 1).aff ![0] ∈ coneOf (k := 0) .nonnegative := by
  obtain ⟨A, h1, h2⟩ := C101_constructor_subtracts (k := 0) (m := 1) .nonnegative none none ![![1]] ![1]
  refine ⟨A, h1, ?_, ?_, ?_⟩
  · rw [(h2 ![0]).2]
    have e : (fun i => ∑ j, (![![1]] : Fin 1 → Fin 1 → ℝ) i j * (![0] : Fin 1 → ℝ) j -
        ((none : Option (Fin 1 → ℝ)).elim 0 id) i - (![1] : Fin 1 → ℝ) i) = fun _ => -1 := by
      funext i; fin_cases i; norm_num
    rw [e]
    show (some (Cone.nonnegConstraint (n := 0) fun _ => -1)).map _ = _
    by_cases ht : Cone.nonnegConstraint (n := 0) (fun _ => (-1 : ℝ)) = ⊤
    · rw [ht]; rfl
    · obtain ⟨-, y, hy, hd⟩ := constraint_near (k := 0) .nonnegative (fun _ => -1) rfl ht
      have h1 := hd 0
      have h2 : 0 ≤ y 0 := hy 0
      have h3 : entryScale (fun _ : Fin 1 => (-1 : ℝ)) = 1 := by simp [entryScale, maxCoord]
      rw [h3] at h1
      have := (abs_le.1 h1).1
      norm_num at this
      linarith
  · rw [(h2 ![1]).2, constraint_mem _ _ (by simp) (by
      intro i; fin_cases i; norm_num)]
    simp [quadArg]
  · intro i
    fin_cases i
    norm_num [Aff.aff, Aff.meth, Aff.Off.ofOption, Aff.Off.addTo]

end Verif.Props
