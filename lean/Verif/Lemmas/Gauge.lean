import Verif.Spec.Gauge
import Verif.Lemmas.L2
import Mathlib.Algebra.BigOperators.Field
import Mathlib.Tactic.Linarith
import Mathlib.Tactic.FieldSimp
import Mathlib.Tactic.Ring
import Mathlib.Tactic.Positivity
import Mathlib.Algebra.Order.Archimedean.Basic

/-! Facts about the gauge searches. -/

set_option linter.unusedSectionVars false
set_option linter.unusedVariables false

namespace Verif.Lemmas
open Verif.Model Verif.Model.Gauge Verif.Spec

/-- a stopped binary search -/
def Stopped (ins : ℝ → Bool) (tol m : ℝ) : Prop :=
  ∃ l u, 0 < l ∧ l ≤ u ∧ ins l = false ∧ ins u = true ∧ u - l ≤ tol * (1 / 2) * (u + l) ∧ (m = l ∨ m = u)

lemma bisect_stops (ins : ℝ → Bool) {tol l0 : ℝ} (ht : 0 < tol) (h0 : 0 < l0) :
    ∀ (k fuel : ℕ) (l u : ℝ) (mid : Option ℝ), k + 1 ≤ fuel → l0 ≤ l → l ≤ u → u - l ≤ 2 ^ k * (tol * l0) →
      ins l = false → ins u = true →
      ((∃ m, mid = some m ∧ (m = l ∨ m = u)) ∨ tol * (1 / 2) * (u + l) < u - l) →
      ∃ m, bisect ins tol fuel l u mid = some (some m) ∧ Stopped ins tol m := by
  intro k
  induction k with
  | zero =>
    intro fuel l u mid hf h1 h2 h3 hl hu hm
    have hs : u - l ≤ tol * (1 / 2) * (u + l) := by nlinarith
    obtain ⟨f, rfl⟩ : ∃ f, fuel = f + 1 := ⟨fuel - 1, by omega⟩
    rcases hm with ⟨m, rfl, hm⟩ | h
    · refine ⟨m, ?_, l, u, by linarith, h2, hl, hu, hs, hm⟩
      rw [bisect, if_neg (not_lt.2 hs)]
    · exact absurd hs (not_le.2 h)
  | succ k ih =>
    intro fuel l u mid hf h1 h2 h3 hl hu hm
    obtain ⟨f, rfl⟩ : ∃ f, fuel = f + 1 := ⟨fuel - 1, by omega⟩
    by_cases hc : tol * (1 / 2) * (u + l) < u - l
    · rw [bisect, if_pos hc]
      dsimp only
      have hp : (2:ℝ) ^ (k + 1) * (tol * l0) = 2 * (2 ^ k * (tol * l0)) := by rw [pow_succ]; ring
      rw [hp] at h3
      by_cases hi : ins (1 / 2 * (u + l)) = true
      · rw [if_pos hi]
        exact ih f l _ _ (by omega) h1 (by linarith) (by linarith) hl hi (.inl ⟨_, rfl, .inr rfl⟩)
      · rw [if_neg hi]
        exact ih f _ u _ (by omega) (by linarith) (by linarith) (by linarith) (by simpa using hi) hu
          (.inl ⟨_, rfl, .inl rfl⟩)
    · rcases hm with ⟨m, rfl, hm⟩ | h
      · refine ⟨m, ?_, l, u, by linarith, h2, hl, hu, not_lt.1 hc, hm⟩
        rw [bisect, if_neg hc]
      · exact absurd h hc

lemma finish_stops (ins : ℝ → Bool) {tol l : ℝ} (ht : 0 < tol) (ht' : tol ≤ 1 / 2) (h0 : 0 < l)
    (hl : ins l = false) (hu : ins (2 * l) = true) :
    ∃ N, ∀ fuel, N ≤ fuel → ∃ m, finish ins tol fuel l (2 * l) = some (.value m) ∧ Stopped ins tol m := by
  obtain ⟨k, hk⟩ := pow_unbounded_of_one_lt (l / (tol * l)) (by norm_num : (1:ℝ) < 2)
  have hk' : 2 * l - l ≤ 2 ^ k * (tol * l) := by
    rw [div_lt_iff₀ (by positivity)] at hk; linarith
  refine ⟨k + 1, fun fuel hf => ?_⟩
  obtain ⟨m, hm, hs⟩ := bisect_stops ins ht h0 k fuel l (2 * l) none hf le_rfl (by linarith) hk' hl hu
    (.inr (by nlinarith))
  refine ⟨m, ?_, hs⟩
  unfold finish
  rw [if_neg (by simp [hl, hu]), hm]; rfl

lemma findLower_spec (ins : ℝ → Bool) : ∀ (k : ℕ) (l : ℝ), ins l = true → 0 < l →
    (findLower ins k l l = none ∧ ins (l / 2 ^ k) = true) ∨
      ∃ l', 0 < l' ∧ findLower ins k l l = some (l', 2 * l') ∧ ins l' = false ∧ ins (2 * l') = true := by
  intro k
  induction k with
  | zero => intro l h _; left; simpa [findLower] using h
  | succ k ih =>
    intro l h hl
    by_cases hi : ins (l / 2) = false
    · right
      refine ⟨l / 2, by linarith, ?_, hi, by rwa [show 2 * (l / 2) = l by ring]⟩
      rw [findLower, if_pos hi, show 2 * (l / 2) = l by ring]
    · rw [findLower, if_neg hi]
      have := ih (l / 2) (by simpa using hi) (by linarith)
      rwa [div_div, ← pow_succ'] at this

lemma findUpper_spec (ins : ℝ → Bool) : ∀ (k : ℕ) (l : ℝ), ins l = false → 0 < l →
    (findUpper ins k l l = none ∧ ins (l * 2 ^ k) = false) ∨
      ∃ l', 0 < l' ∧ findUpper ins k l l = some (l', 2 * l') ∧ ins l' = false ∧ ins (2 * l') = true := by
  intro k
  induction k with
  | zero => intro l h _; left; simpa [findUpper] using h
  | succ k ih =>
    intro l h hl
    by_cases hi : ins (l * 2) = true
    · right
      refine ⟨l, hl, ?_, h, by rwa [mul_comm]⟩
      rw [findUpper, if_pos hi, mul_comm]
    · rw [findUpper, if_neg hi]
      have := ih (l * 2) (by simpa using hi) (by linarith)
      rwa [mul_assoc, ← pow_succ'] at this

/-- the whole search: what is known about the answer in terms of the membership test -/
lemma gaugeDual_spec (ins : ℝ → Bool) {tol : ℝ} (ht : 0 < tol) (ht' : tol ≤ 1 / 2) (m : ℕ) :
    ∃ N, ∀ fuel, N ≤ fuel → ∃ r, gaugeDual ins tol m fuel = some r ∧
      ((r = .zero ∧ ins (1 / 2 ^ m) = true) ∨ (r = .inf ∧ ins (2 ^ m) = false) ∨
        ∃ v, r = .value v ∧ Stopped ins tol v) := by
  by_cases h1 : ins 1 = true
  · rcases findLower_spec ins m 1 h1 one_pos with ⟨h, h2⟩ | ⟨l, hl, h, h2, h3⟩
    · exact ⟨0, fun fuel _ => ⟨.zero, by unfold gaugeDual; rw [if_pos h1, h], .inl ⟨rfl, h2⟩⟩⟩
    · obtain ⟨N, hN⟩ := finish_stops ins ht ht' hl h2 h3
      refine ⟨N, fun fuel hf => ?_⟩
      obtain ⟨v, hv, hs⟩ := hN fuel hf
      exact ⟨.value v, by unfold gaugeDual; rw [if_pos h1, h]; exact hv, .inr (.inr ⟨v, rfl, hs⟩)⟩
  · rcases findUpper_spec ins m 1 (by simpa using h1) one_pos with ⟨h, h2⟩ | ⟨l, hl, h, h2, h3⟩
    · exact ⟨0, fun fuel _ => ⟨.inf, by unfold gaugeDual; rw [if_neg h1, h], .inr (.inl ⟨rfl, by simpa using h2⟩)⟩⟩
    · obtain ⟨N, hN⟩ := finish_stops ins ht ht' hl h2 h3
      refine ⟨N, fun fuel hf => ?_⟩
      obtain ⟨v, hv, hs⟩ := hN fuel hf
      exact ⟨.value v, by unfold gaugeDual; rw [if_neg h1, h]; exact hv, .inr (.inr ⟨v, rfl, hs⟩)⟩

/-! ### dual norms -/

variable {ι : Type*} [Fintype ι]

lemma dualNorm_le_iff {h : (ι → ℝ) → ℝ} (hom : ∀ c z, 0 ≤ c → h (fun i => c * z i) = c * h z)
    {ρ : ℝ} (hρ : 0 < ρ) (hh : ∀ z, ρ * npNorm z ≤ h z) {x : ι → ℝ} {g : ℝ} (hg : IsDualNorm h x g) {t : ℝ} (ht : 0 < t) :
    g ≤ t ↔ ∀ z, dot (fun i => x i / t) z ≤ h z := by
  have hd : ∀ z, dot (fun i => x i / t) z = dot x z / t := fun z => by
    unfold dot; rw [Finset.sum_div]; exact Finset.sum_congr rfl fun i _ => by ring
  constructor
  · intro hgt z
    rw [hd, div_le_iff₀ ht]
    rcases (le_trans (mul_nonneg hρ.le (npNorm_nonneg z)) (hh z)).eq_or_lt with h0 | h0
    · have hz : npNorm z = 0 := by
        have := hh z
        rw [← h0] at this
        nlinarith [npNorm_nonneg z]
      have := npNorm_eq_zero hz
      have e : dot x z = 0 := Finset.sum_eq_zero fun i _ => by rw [this i, mul_zero]
      rw [e, ← h0, zero_mul]
    · have := hg.1 (show dot x (fun i => (h z)⁻¹ * z i) ∈ {t | ∃ z, h z ≤ 1 ∧ t = dot x z} from
        ⟨_, by rw [hom _ _ (inv_nonneg.2 h0.le), inv_mul_cancel₀ h0.ne'], rfl⟩)
      have e : dot x (fun i => (h z)⁻¹ * z i) = (h z)⁻¹ * dot x z := by
        unfold dot; rw [Finset.mul_sum]; exact Finset.sum_congr rfl fun i _ => by ring
      rw [e, inv_mul_eq_div, div_le_iff₀ h0] at this
      nlinarith
  · intro H
    apply hg.2
    rintro s ⟨z, hz, rfl⟩
    have := H z
    rw [hd, div_le_iff₀ ht] at this
    nlinarith

lemma dualNorm_nonneg {h : (ι → ℝ) → ℝ} (hom : ∀ c z, 0 ≤ c → h (fun i => c * z i) = c * h z) {x : ι → ℝ} {g : ℝ}
    (hg : IsDualNorm h x g) : 0 ≤ g := by
  refine hg.1 ⟨fun _ => 0, ?_, by simp [dot]⟩
  have := hom 0 (fun _ => 0) le_rfl
  simp only [zero_mul] at this
  rw [this]; exact zero_le_one

lemma dualNorm_exists {h : (ι → ℝ) → ℝ} (hom : ∀ c z, 0 ≤ c → h (fun i => c * z i) = c * h z)
    {ρ : ℝ} (hρ : 0 < ρ) (hh : ∀ z, ρ * npNorm z ≤ h z) (x : ι → ℝ) : ∃ g, IsDualNorm h x g := by
  apply Real.exists_isLUB
  · refine ⟨0, fun _ => 0, ?_, by simp [dot]⟩
    have := hom 0 (fun _ => 0) le_rfl
    simp only [zero_mul] at this
    rw [this]; exact zero_le_one
  · refine ⟨npNorm x * (1 / ρ), ?_⟩
    rintro s ⟨z, hz, rfl⟩
    refine le_trans (cauchy x z) (mul_le_mul_of_nonneg_left ?_ (npNorm_nonneg x))
    rw [le_div_iff₀ hρ]; linarith [hh z]

end Verif.Lemmas
