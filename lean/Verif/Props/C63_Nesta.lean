import Verif.Model.Nesta
import Verif.Lemmas.Saddle
import Verif.Lemmas.L2
import Mathlib.Analysis.PSeries
import Mathlib.Tactic.FinCases

set_option linter.unusedSectionVars false
set_option linter.unusedVariables false

/-!
# C63: the outer loops of `nesta` and `tfocs`

The problem is `minimise F(x) + h(D x + a) over S`, written with the conjugate `G` of `h` as a saddle point problem (`Verif.Spec.Saddle`).
-/

namespace Verif.Props
open Verif.Model Verif.Model.Nesta Verif.Spec Verif.Lemmas

variable {n m : ℕ} {F : (Fin n → ℝ) → ℝ} {S : Set (Fin n → ℝ)} {D : Fin m → Fin n → ℝ} {a : Fin m → ℝ} {G : (Fin m → ℝ) → ℝ}
  {T : Set (Fin m → ℝ)}

/-- centers of successive passes: the value of the variable updated by the extrapolation at the start of pass `k`, when `grad eps y`
is the gradient found by a pass with smoothing constant `eps` and center `y`. -/
noncomputable def centers {k : ℕ} (grad : ℝ → (Fin k → ℝ) → Fin k → ℝ) (eps : ℕ → ℝ) (y0 : Fin k → ℝ) : ℕ → Fin k → ℝ
  | 0 => y0
  | j + 1 => extrapolate j (grad (eps j) (centers grad eps y0 j)) (centers grad eps y0 j)

private lemma nesta_loop (R : Rounds n m) (cs : Bool) (tol : ℝ) (mi : ℕ) (eps : ℕ → ℝ) (y0 : Fin m → ℝ) :
    ∀ (l : List ℝ) (j : ℕ) (v : Option ℝ) (p : Option (Fin n → ℝ)),
      (∀ k (h : k < l.length), l[k] = eps (j + k)) → l ≠ [] →
      ∃ i, j ≤ i ∧ i < j + l.length ∧
        ((mi ≤ i ∧ (cs = true → Real.sqrt (sqDist (R.solve (eps i) (centers (fun e y => (R.solve e y).2) eps y0 i)).2
              (centers (fun e y => (R.solve e y).2) eps y0 i)) <
            tol * (Real.sqrt (∑ t, (R.solve (eps i) (centers (fun e y => (R.solve e y).2) eps y0 i)).2 t ^ 2) + 1)) ∧
          nestaLoop R cs tol mi j l (centers (fun e y => (R.solve e y).2) eps y0 j) v p =
            some ((R.solve (eps i) (centers (fun e y => (R.solve e y).2) eps y0 i)).1, centers (fun e y => (R.solve e y).2) eps y0 i)) ∨
        (i + 1 = j + l.length ∧
          (cs = true → ∀ k, j ≤ k → k < j + l.length → mi ≤ k →
            ¬ (Real.sqrt (sqDist (R.solve (eps k) (centers (fun e y => (R.solve e y).2) eps y0 k)).2
              (centers (fun e y => (R.solve e y).2) eps y0 k)) <
            tol * (Real.sqrt (∑ t, (R.solve (eps k) (centers (fun e y => (R.solve e y).2) eps y0 k)).2 t ^ 2) + 1))) ∧
          nestaLoop R cs tol mi j l (centers (fun e y => (R.solve e y).2) eps y0 j) v p =
            some ((R.solve (eps i) (centers (fun e y => (R.solve e y).2) eps y0 i)).1, centers (fun e y => (R.solve e y).2) eps y0 (i + 1)))) := by
  intro l
  induction l with
  | nil => intro j v p _ hne; exact absurd rfl hne
  | cons e rest ih =>
    intro j v p hl _
    classical
    have he : e = eps j := by have := hl 0 (by simp); simpa using this
    set y := centers (fun e y => (R.solve e y).2) eps y0 with hy
    have hnorm : ∀ k, npNorm (fun i => y k i - (R.solve (eps k) (y k)).2 i) = Real.sqrt (sqDist (R.solve (eps k) (y k)).2 (y k)) := by
      intro k
      unfold npNorm sqDist
      congr 1
      exact Finset.sum_congr rfl fun i _ => by ring
    have hy1 : extrapolate j (R.solve (eps j) (y j)).2 (y j) = y (j + 1) := rfl
    by_cases hc : nestaStop cs tol mi j (y j) (R.solve e (y j)).2 v (R.objective e (y j) (R.solve e (y j)).1)
    · refine ⟨j, le_rfl, by simp, Or.inl ⟨?_, ?_, ?_⟩⟩
      · unfold nestaStop at hc
        cases cs <;> simp at hc <;> exact hc.2
      · intro hcs
        subst hcs
        unfold nestaStop at hc
        simp only [if_true] at hc
        rw [he, hnorm] at hc
        exact hc.1
      · unfold nestaLoop
        dsimp only
        rw [if_pos hc, he]
    · have hstep : nestaLoop R cs tol mi j (e :: rest) (y j) v p =
          nestaLoop R cs tol mi (j + 1) rest (y (j + 1)) (some (R.objective e (y j) (R.solve e (y j)).1)) (some (R.solve e (y j)).1) := by
        conv_lhs => unfold nestaLoop
        dsimp only
        rw [if_neg hc, ← hy1, he]
      rw [hstep]
      have hno : cs = true → mi ≤ j → ¬ (Real.sqrt (sqDist (R.solve (eps j) (y j)).2 (y j)) <
            tol * (Real.sqrt (∑ t, (R.solve (eps j) (y j)).2 t ^ 2) + 1)) := by
        intro hcs hm hlt
        apply hc
        subst hcs
        unfold nestaStop
        simp only [if_true]
        rw [he, hnorm]
        exact ⟨hlt, hm⟩
      by_cases hr : rest = []
      · subst hr
        refine ⟨j, le_rfl, by simp, Or.inr ⟨by simp, ?_, ?_⟩⟩
        · intro hcs k h1 h2 h3
          have : k = j := by simp at h2; omega
          subst this
          exact hno hcs h3
        · unfold nestaLoop
          rw [he]; rfl
      · obtain ⟨i, h1, h2, h3⟩ := ih (j + 1) (some (R.objective e (y j) (R.solve e (y j)).1)) (some (R.solve e (y j)).1)
          (fun k hk => by
            have := hl (k + 1) (by simp; omega)
            rw [List.getElem_cons_succ] at this
            rw [this]; congr 1; omega) hr
        refine ⟨i, by omega, by simp only [List.length_cons]; omega, ?_⟩
        rcases h3 with h3 | ⟨h3, h4, h5⟩
        · exact Or.inl h3
        · refine Or.inr ⟨by simp only [List.length_cons]; omega, ?_, h5⟩
          intro hcs k k1 k2 k3
          by_cases hkj : k = j
          · subst hkj; exact hno hcs k3
          · exact h4 hcs k (by omega) (by simp only [List.length_cons] at k2; omega) k3

/-- C63: with a nonempty list of smoothing constants `nesta` returns the primal point of some pass `i`; either it stopped there, not before
`min_iters` passes and (with `coef_stop`) with the dual center and the new dual within the relative tolerance, returning the center; or
it ran through the whole list, returning the center of the pass that would follow. -/
theorem C63_nesta_returns (R : Rounds n m) (l : List ℝ) (hl : l ≠ []) (maxIters mi : ℕ) (tol : ℝ) (y0 : Option (Fin m → ℝ)) (cs : Bool) :
    let y := centers (fun e y => (R.solve e y).2) (fun k => l.getD k 0) (y0.getD fun _ => 0)
    let x := fun k => (R.solve (l.getD k 0) (y k)).1
    let u := fun k => (R.solve (l.getD k 0) (y k)).2
    ∃ i < l.length,
      (mi ≤ i ∧ (cs = true → Real.sqrt (sqDist (u i) (y i)) < tol * (Real.sqrt (∑ t, u i t ^ 2) + 1)) ∧
        nesta R (some l) maxIters mi tol y0 cs = some (x i, y i)) ∨
      (i + 1 = l.length ∧ nesta R (some l) maxIters mi tol y0 cs = some (x i, y (i + 1))) := by
  intro y x u
  obtain ⟨i, _, h2, h3⟩ := nesta_loop R cs tol mi (fun k => l.getD k 0) (y0.getD fun _ => 0) l 0 none none
    (fun k hk => by simp [List.getD_eq_getElem?_getD, hk]) hl
  refine ⟨i, by omega, ?_⟩
  rcases h3 with h3 | ⟨h3, _, h5⟩
  · exact Or.inl h3
  · exact Or.inr ⟨by omega, h5⟩

/-- the fixed list used when `epsilon` is not given -/
theorem C63_nesta_default (R : Rounds n m) (maxIters mi : ℕ) (tol : ℝ) (y0 : Option (Fin m → ℝ)) (cs : Bool) :
    nesta R none maxIters mi tol y0 cs = nesta R (some (List.replicate maxIters 1)) maxIters mi tol y0 cs := rfl

/-- an empty list of smoothing constants: `primal_coef` is unbound, the call raises. -/
theorem C63_nesta_empty_fails (R : Rounds n m) (maxIters mi : ℕ) (tol : ℝ) (y0 : Option (Fin m → ℝ)) (cs : Bool) :
    nesta R (some []) maxIters mi tol y0 cs = none := rfl

private lemma centers_fejer {k q : ℕ} {F' : (Fin q → ℝ) → ℝ} {S' : Set (Fin q → ℝ)} {D' : Fin k → Fin q → ℝ} {a' : Fin k → ℝ}
    {G' : (Fin k → ℝ) → ℝ} {T' : Set (Fin k → ℝ)} (hF : IsConvexFnOn F' S') (hG : IsConvexFnOn G' T')
    (sol : ℝ → (Fin k → ℝ) → (Fin q → ℝ) × (Fin k → ℝ))
    (hR : ∀ e y, 0 < e → IsSmoothedSolution F' S' D' a' G' T' e y (sol e y).1 (sol e y).2)
    {xs : Fin q → ℝ} {us : Fin k → ℝ} (hs : IsSaddle F' S' D' a' G' T' xs us) (eps : ℕ → ℝ) (y0 : Fin k → ℝ) (j : ℕ) (he : 0 < eps j) :
    sqDist (centers (fun e y => (sol e y).2) eps y0 (j + 1)) us +
      (1 - ((j : ℝ) / ((j : ℝ) + 3)) ^ 2) *
        sqDist (sol (eps j) (centers (fun e y => (sol e y).2) eps y0 j)).2 (centers (fun e y => (sol e y).2) eps y0 j) ≤
      sqDist (centers (fun e y => (sol e y).2) eps y0 j) us :=
  smoothed_fejer he (by positivity) hF hG (hR _ _ he) hs

private lemma relax_factor (j : ℕ) : 1 / ((j : ℝ) + 1) ≤ 1 - ((j : ℝ) / ((j : ℝ) + 3)) ^ 2 := by
  have hj : (0 : ℝ) ≤ j := Nat.cast_nonneg _
  have e : 1 - ((j : ℝ) / ((j : ℝ) + 3)) ^ 2 = (6 * j + 9) / ((j : ℝ) + 3) ^ 2 := by
    field_simp; ring
  rw [e, div_le_div_iff₀ (by linarith) (by positivity)]
  nlinarith

private lemma relax_nonneg (j : ℕ) : 0 ≤ 1 - ((j : ℝ) / ((j : ℝ) + 3)) ^ 2 :=
  le_trans (by positivity) (relax_factor j)

/-- C63: exact passes with positive smoothing constants bring the dual center of `nesta` no farther from any dual solution `us` than it
was, pass after pass; the decrease is at least `1 - (k/(k+3))²` times the squared distance between the center and the dual found. -/
theorem C63_nesta_fejer (hF : IsConvexFnOn F S) (hG : IsConvexFnOn G T) (R : Rounds n m)
    (hR : ∀ e y, 0 < e → IsSmoothedSolution F S D a G T e y (R.solve e y).1 (R.solve e y).2)
    {xs : Fin n → ℝ} {us : Fin m → ℝ} (hs : IsSaddle F S D a G T xs us) (eps : ℕ → ℝ) (y0 : Fin m → ℝ) (k : ℕ) (he : 0 < eps k) :
    let y := centers (fun e y => (R.solve e y).2) eps y0
    sqDist (y (k + 1)) us + (1 - ((k : ℝ) / ((k : ℝ) + 3)) ^ 2) * sqDist (R.solve (eps k) (y k)).2 (y k) ≤ sqDist (y k) us :=
  centers_fejer hF hG R.solve hR hs eps y0 k he

private lemma centers_sum {k q : ℕ} {F' : (Fin q → ℝ) → ℝ} {S' : Set (Fin q → ℝ)} {D' : Fin k → Fin q → ℝ} {a' : Fin k → ℝ}
    {G' : (Fin k → ℝ) → ℝ} {T' : Set (Fin k → ℝ)} (hF : IsConvexFnOn F' S') (hG : IsConvexFnOn G' T')
    (sol : ℝ → (Fin k → ℝ) → (Fin q → ℝ) × (Fin k → ℝ))
    (hR : ∀ e y, 0 < e → IsSmoothedSolution F' S' D' a' G' T' e y (sol e y).1 (sol e y).2)
    {xs : Fin q → ℝ} {us : Fin k → ℝ} (hs : IsSaddle F' S' D' a' G' T' xs us) (eps : ℕ → ℝ) (y0 : Fin k → ℝ) (N : ℕ)
    (he : ∀ j < N, 0 < eps j) :
    sqDist (centers (fun e y => (sol e y).2) eps y0 N) us +
      ∑ j ∈ Finset.range N, 1 / ((j : ℝ) + 1) *
        sqDist (sol (eps j) (centers (fun e y => (sol e y).2) eps y0 j)).2 (centers (fun e y => (sol e y).2) eps y0 j) ≤
      sqDist y0 us := by
  induction N with
  | zero => simp [centers]
  | succ N ih =>
    have h1 := ih fun j hj => he j (by omega)
    have h2 := centers_fejer hF hG sol hR hs eps y0 N (he N (by omega))
    rw [Finset.sum_range_succ]
    have h3 := mul_le_mul_of_nonneg_right (relax_factor N)
      (sqDist_nonneg (sol (eps N) (centers (fun e y => (sol e y).2) eps y0 N)).2 (centers (fun e y => (sol e y).2) eps y0 N))
    linarith

/-- a bound on the number of passes, depending on nothing but the distance of the start, the tolerance and `min_iters` -/
private lemma exists_pass (V δ : ℝ) (hδ : 0 < δ) (mi : ℕ) :
    ∃ N, mi < N ∧ ∀ r : ℕ → ℝ, (∀ j, 0 ≤ r j) → ∀ M, N ≤ M → (∑ j ∈ Finset.range M, 1 / ((j : ℝ) + 1) * r j) ≤ V →
      ∃ j, mi ≤ j ∧ j < M ∧ r j < δ := by
  have ht := Real.tendsto_sum_range_one_div_nat_succ_atTop
  obtain ⟨N0, hN0⟩ := (Filter.tendsto_atTop.1 ht (∑ j ∈ Finset.range mi, 1 / ((j : ℝ) + 1) + (|V| + 1) / δ)).exists_forall_of_atTop
  refine ⟨max N0 (mi + 1), by omega, fun r hr M hM hsum => ?_⟩
  by_contra hcon
  push Not at hcon
  have h1 := hN0 M (by omega)
  have h2 : ∑ j ∈ Finset.range M, 1 / ((j : ℝ) + 1) * r j ≥ δ * (∑ j ∈ Finset.range M, 1 / ((j : ℝ) + 1) - ∑ j ∈ Finset.range mi, 1 / ((j : ℝ) + 1)) := by
    have hsub : Finset.range mi ⊆ Finset.range M := by
      intro j hj; simp only [Finset.mem_range] at *; omega
    rw [← Finset.sum_sdiff hsub, ← Finset.sum_sdiff hsub (f := fun j : ℕ => 1 / ((j : ℝ) + 1))]
    have p1 : 0 ≤ ∑ j ∈ Finset.range mi, 1 / ((j : ℝ) + 1) * r j :=
      Finset.sum_nonneg fun j _ => mul_nonneg (by positivity) (hr j)
    have p2 : δ * ∑ j ∈ Finset.range M \ Finset.range mi, 1 / ((j : ℝ) + 1) ≤
        ∑ j ∈ Finset.range M \ Finset.range mi, 1 / ((j : ℝ) + 1) * r j := by
      rw [Finset.mul_sum]
      refine Finset.sum_le_sum fun j hj => ?_
      simp only [Finset.mem_sdiff, Finset.mem_range, not_lt] at hj
      rw [mul_comm]
      exact mul_le_mul_of_nonneg_left (hcon j hj.2 hj.1) (by positivity)
    linarith
  have h3 : δ * ((|V| + 1) / δ) = |V| + 1 := by field_simp
  have h4 : δ * ((|V| + 1) / δ) ≤ δ * (∑ j ∈ Finset.range M, 1 / ((j : ℝ) + 1) - ∑ j ∈ Finset.range mi, 1 / ((j : ℝ) + 1)) := by
    refine mul_le_mul_of_nonneg_left ?_ hδ.le
    linarith
  have := le_abs_self V
  linarith

/-- C63: with `coef_stop`, a positive tolerance and a problem that has a primal-dual solution, `nesta` with exact passes stops by its
test: there is a number of passes `N` that no run, whatever its positive smoothing constants, needs to exceed. -/
theorem C63_nesta_terminates (hF : IsConvexFnOn F S) (hG : IsConvexFnOn G T) (R : Rounds n m)
    (hR : ∀ e y, 0 < e → IsSmoothedSolution F S D a G T e y (R.solve e y).1 (R.solve e y).2)
    (hs : ∃ xs us, IsSaddle F S D a G T xs us) (tol : ℝ) (htol : 0 < tol) (mi : ℕ) (y0 : Option (Fin m → ℝ)) :
    ∃ N, ∀ l : List ℝ, (∀ e ∈ l, 0 < e) → N ≤ l.length → ∀ maxIters,
      let y := centers (fun e y => (R.solve e y).2) (fun k => l.getD k 0) (y0.getD fun _ => 0)
      let u := fun k => (R.solve (l.getD k 0) (y k)).2
      ∃ i < l.length, mi ≤ i ∧ Real.sqrt (sqDist (u i) (y i)) < tol * (Real.sqrt (∑ t, u i t ^ 2) + 1) ∧
        nesta R (some l) maxIters mi tol y0 true = some ((R.solve (l.getD i 0) (y i)).1, y i) := by
  obtain ⟨xs, us, hs⟩ := hs
  obtain ⟨N, hN1, hN⟩ := exists_pass (sqDist (y0.getD fun _ => 0) us) (tol ^ 2) (by positivity) mi
  refine ⟨N, fun l hpos hlen maxIters => ?_⟩
  intro y u
  have hne : l ≠ [] := by intro h; subst h; simp at hlen; omega
  obtain ⟨i, _, h2, h3⟩ := nesta_loop R true tol mi (fun k => l.getD k 0) (y0.getD fun _ => 0) l 0 none none
    (fun k hk => by simp [List.getD_eq_getElem?_getD, hk]) hne
  rcases h3 with ⟨h3, h4, h5⟩ | ⟨h3, h4, h5⟩
  · exact ⟨i, by omega, h3, h4 rfl, h5⟩
  · exfalso
    have hep : ∀ j < l.length, 0 < l.getD j 0 := by
      intro j hj
      rw [List.getD_eq_getElem?_getD, List.getElem?_eq_getElem hj]
      exact hpos _ (List.getElem_mem hj)
    have hsum := centers_sum hF hG R.solve hR hs (fun k => l.getD k 0) (y0.getD fun _ => 0) l.length hep
    obtain ⟨j, hj1, hj2, hj3⟩ := hN (fun j => sqDist (u j) (y j)) (fun j => sqDist_nonneg _ _) l.length hlen
      (by have := sqDist_nonneg (centers (fun e y => (R.solve e y).2) (fun k => l.getD k 0) (y0.getD fun _ => 0) l.length) us
          linarith)
    refine h4 rfl j (Nat.zero_le _) (by omega) hj1 ?_
    have h6 : Real.sqrt (sqDist (u j) (y j)) < tol := by
      rw [← Real.sqrt_sq htol.le]
      exact Real.sqrt_lt_sqrt (sqDist_nonneg _ _) hj3
    have h7 : 0 ≤ Real.sqrt (∑ t, u j t ^ 2) := Real.sqrt_nonneg _
    refine lt_of_lt_of_le h6 ?_
    show tol ≤ tol * (Real.sqrt (∑ t, u j t ^ 2) + 1)
    nlinarith

private lemma sqDist_three {k : ℕ} (w v y : Fin k → ℝ) :
    sqDist w y - sqDist w v - sqDist v y = 2 * dot (fun i => w i - v i) (fun i => v i - y i) := by
  unfold sqDist dot
  rw [← Finset.sum_sub_distrib, ← Finset.sum_sub_distrib, Finset.mul_sum]
  exact Finset.sum_congr rfl fun i _ => by ring

/-- C63: how good an exact pass is.  With smoothing constant `eps` and center `y` it finds `x` and `u` such that, if the dual feasible set
has diameter at most `Rad`, the objective at `x` exceeds that at any feasible `x'` by at most `eps * Rad * ‖u - y‖`. -/
theorem C63_nesta_suboptimality (hF : IsConvexFnOn F S) (hG : IsConvexFnOn G T) {h : (Fin m → ℝ) → ℝ} {Z : Set (Fin m → ℝ)}
    (hc : IsConjugateOf h Z G T) {eps : ℝ} (he : 0 < eps) {y u : Fin m → ℝ} {x : Fin n → ℝ}
    (hx : IsSmoothedSolution F S D a G T eps y x u) {Rad : ℝ}
    (hRad : ∀ v ∈ T, ∀ w ∈ T, Real.sqrt (sqDist v w) ≤ Rad) (x' : Fin n → ℝ) (hx' : x' ∈ S) (hz' : affineMap D a x' ∈ Z) :
    x ∈ S ∧ affineMap D a x ∈ Z ∧
    F x + h (affineMap D a x) ≤ F x' + h (affineMap D a x') + eps * Rad * Real.sqrt (sqDist u y) := by
  have huT : u ∈ T := by
    obtain ⟨arg, harg, hu, _⟩ := hx
    rw [hu]; exact (harg x).1
  have hxS : x ∈ S := hx.choose_spec.2.2.1
  have hub : ∀ v ∈ T, dot v (affineMap D a x) - G v ≤
      F x' + h (affineMap D a x') - F x + eps * Rad * Real.sqrt (sqDist u y) := by
    intro v hv
    have h1 := smoothed_gap he hF hG hx x' hx' v hv
    have h2 := sqDist_three v u y
    have h3 : dot (fun i => v i - u i) (fun i => u i - y i) ≤ Rad * Real.sqrt (sqDist u y) := by
      have := cauchy (fun i => v i - u i) (fun i => u i - y i)
      have e1 : npNorm (fun i => v i - u i) = Real.sqrt (sqDist v u) := rfl
      have e2 : npNorm (fun i => u i - y i) = Real.sqrt (sqDist u y) := rfl
      rw [e1, e2] at this
      refine le_trans this (mul_le_mul_of_nonneg_right (hRad v hv u huT) (Real.sqrt_nonneg _))
    have h4 : dot u (affineMap D a x') - G u ≤ h (affineMap D a x') := (hc.isLUB _ hz').1 ⟨u, huT, rfl⟩
    have h5 : eps * dot (fun i => v i - u i) (fun i => u i - y i) ≤ eps * (Rad * Real.sqrt (sqDist u y)) :=
      mul_le_mul_of_nonneg_left h3 he.le
    unfold lagrangian at h1
    nlinarith
  have hbd : BddAbove {v | ∃ u ∈ T, v = dot u (affineMap D a x) - G u} :=
    ⟨_, by rintro _ ⟨v, hv, rfl⟩; exact hub v hv⟩
  have hZ := hc.domain _ hbd
  refine ⟨hxS, hZ, ?_⟩
  have : h (affineMap D a x) ≤ F x' + h (affineMap D a x') - F x + eps * Rad * Real.sqrt (sqDist u y) :=
    (hc.isLUB _ hZ).2 (by rintro _ ⟨v, hv, rfl⟩; exact hub v hv)
  linarith

/-- C63: a pass that finds its own center stops at a solution: `x` minimises `F(x) + h(D x + a)` over the feasible points. -/
theorem C63_nesta_fixed_point (hF : IsConvexFnOn F S) (hG : IsConvexFnOn G T) {h : (Fin m → ℝ) → ℝ} {Z : Set (Fin m → ℝ)}
    (hc : IsConjugateOf h Z G T) {eps : ℝ} (he : 0 < eps) {u : Fin m → ℝ} {x : Fin n → ℝ}
    (hx : IsSmoothedSolution F S D a G T eps u x u) :
    IsSaddle F S D a G T x u ∧
    Minimises (fun x' => F x' + h (affineMap D a x')) {x' | x' ∈ S ∧ affineMap D a x' ∈ Z} x := by
  have huT : u ∈ T := by
    obtain ⟨arg, harg, hu, _⟩ := hx
    rw [hu]; exact (harg x).1
  have hxS : x ∈ S := hx.choose_spec.2.2.1
  have hs : IsSaddle F S D a G T x u := by
    refine ⟨hxS, huT, fun u' hu' => ?_, fun x' hx' => smoothed_primal he hF hG hx x' hx'⟩
    have := smoothed_gap he hF hG hx x hxS u' hu'
    rw [sqDist_self] at this
    linarith
  exact ⟨hs, (saddle_primal hc hs).2⟩

/-! ## tfocs -/

private lemma tfocs_loop (sol : ℝ → (Fin n → ℝ) → (Fin m → ℝ) × (Fin n → ℝ)) (tol : ℝ) (eps : ℕ → ℝ) (y0 : Fin n → ℝ) :
    ∀ (l : List ℝ) (j : ℕ) (p : Option (Fin m → ℝ)), (∀ k (h : k < l.length), l[k] = eps (j + k)) → l ≠ [] →
      ∃ i, j ≤ i ∧ i < j + l.length ∧
        ((Real.sqrt (sqDist (sol (eps i) (centers (fun e y => (sol e y).2) eps y0 i)).2 (centers (fun e y => (sol e y).2) eps y0 i)) <
            tol * max (Real.sqrt (∑ t, (sol (eps i) (centers (fun e y => (sol e y).2) eps y0 i)).2 t ^ 2)) 1 ∧
          tfocsLoop sol tol j l (centers (fun e y => (sol e y).2) eps y0 j) p =
            some (centers (fun e y => (sol e y).2) eps y0 i, (sol (eps i) (centers (fun e y => (sol e y).2) eps y0 i)).1)) ∨
        (i + 1 = j + l.length ∧
          (∀ k, j ≤ k → k < j + l.length →
            ¬ (Real.sqrt (sqDist (sol (eps k) (centers (fun e y => (sol e y).2) eps y0 k)).2 (centers (fun e y => (sol e y).2) eps y0 k)) <
            tol * max (Real.sqrt (∑ t, (sol (eps k) (centers (fun e y => (sol e y).2) eps y0 k)).2 t ^ 2)) 1)) ∧
          tfocsLoop sol tol j l (centers (fun e y => (sol e y).2) eps y0 j) p =
            some (centers (fun e y => (sol e y).2) eps y0 (i + 1), (sol (eps i) (centers (fun e y => (sol e y).2) eps y0 i)).1))) := by
  intro l
  induction l with
  | nil => intro j p _ hne; exact absurd rfl hne
  | cons e rest ih =>
    intro j p hl _
    classical
    have he : e = eps j := by have := hl 0 (by simp); simpa using this
    set y := centers (fun e y => (sol e y).2) eps y0 with hy
    have hnorm : npNorm (fun i => y j i - (sol (eps j) (y j)).2 i) = Real.sqrt (sqDist (sol (eps j) (y j)).2 (y j)) := by
      unfold npNorm sqDist
      congr 1
      exact Finset.sum_congr rfl fun i _ => by ring
    have hy1 : extrapolate j (sol (eps j) (y j)).2 (y j) = y (j + 1) := rfl
    by_cases hc : npNorm (fun i => y j i - (sol e (y j)).2 i) < tol * max (npNorm (sol e (y j)).2) 1
    · refine ⟨j, le_rfl, by simp, Or.inl ⟨?_, ?_⟩⟩
      · rw [he, hnorm] at hc
        exact hc
      · unfold tfocsLoop
        dsimp only
        rw [if_pos hc, he]
    · have hstep : tfocsLoop sol tol j (e :: rest) (y j) p = tfocsLoop sol tol (j + 1) rest (y (j + 1)) (some (sol e (y j)).1) := by
        conv_lhs => unfold tfocsLoop
        dsimp only
        rw [if_neg hc, ← hy1, he]
      rw [hstep]
      have hno : ¬ (Real.sqrt (sqDist (sol (eps j) (y j)).2 (y j)) <
            tol * max (Real.sqrt (∑ t, (sol (eps j) (y j)).2 t ^ 2)) 1) := by
        rw [he, hnorm] at hc; exact hc
      by_cases hr : rest = []
      · subst hr
        refine ⟨j, le_rfl, by simp, Or.inr ⟨by simp, ?_, ?_⟩⟩
        · intro k h1 h2
          have : k = j := by simp at h2; omega
          subst this
          exact hno
        · unfold tfocsLoop
          rw [he]; rfl
      · obtain ⟨i, h1, h2, h3⟩ := ih (j + 1) (some (sol e (y j)).1)
          (fun k hk => by
            have := hl (k + 1) (by simp; omega)
            rw [List.getElem_cons_succ] at this
            rw [this]; congr 1; omega) hr
        refine ⟨i, by omega, by simp only [List.length_cons]; omega, ?_⟩
        rcases h3 with h3 | ⟨h3, h4, h5⟩
        · exact Or.inl h3
        · refine Or.inr ⟨by simp only [List.length_cons]; omega, ?_, h5⟩
          intro k k1 k2
          by_cases hkj : k = j
          · subst hkj; exact hno
          · exact h4 k (by omega) (by simp only [List.length_cons] at k2; omega)

/-- C63: `tfocs` returns the dual of some pass `i` and, as primal, the center of that pass if it stopped by its test, the center of the
following pass if it ran through the list. -/
theorem C63_tfocs_returns (sol : ℝ → (Fin n → ℝ) → (Fin m → ℝ) × (Fin n → ℝ)) (l : List ℝ) (hl : l ≠ []) (maxIters : ℕ) (tol : ℝ) :
    let y := centers (fun e y => (sol e y).2) (fun k => l.getD k 0) (fun _ => 0)
    let u := fun k => (sol (l.getD k 0) (y k)).1
    let x := fun k => (sol (l.getD k 0) (y k)).2
    ∃ i < l.length,
      (Real.sqrt (sqDist (x i) (y i)) < tol * max (Real.sqrt (∑ t, x i t ^ 2)) 1 ∧
        tfocs sol (some l) maxIters tol = some (y i, u i)) ∨
      (i + 1 = l.length ∧ tfocs sol (some l) maxIters tol = some (y (i + 1), u i)) := by
  intro y u x
  obtain ⟨i, _, h2, h3⟩ := tfocs_loop sol tol (fun k => l.getD k 0) (fun _ => 0) l 0 none
    (fun k hk => by simp [List.getD_eq_getElem?_getD, hk]) hl
  refine ⟨i, by omega, ?_⟩
  rcases h3 with h3 | ⟨h3, _, h5⟩
  · exact Or.inl h3
  · exact Or.inr ⟨by omega, h5⟩

/-- A pass of `tfocs` with constant `eps` and center `y`, exactly solved: the dual `u` minimises over `T`
`G(u) - ⟨a, u⟩ + max over x in S of (⟨-Dᵀu, x⟩ - F(x) - eps/2 ‖x - y‖²)` and `x` is the maximiser. -/
def IsTfocsSolution (F : (Fin n → ℝ) → ℝ) (S : Set (Fin n → ℝ)) (D : Fin m → Fin n → ℝ) (a : Fin m → ℝ) (G : (Fin m → ℝ) → ℝ)
    (T : Set (Fin m → ℝ)) (eps : ℝ) (y : Fin n → ℝ) (u : Fin m → ℝ) (x : Fin n → ℝ) : Prop :=
  IsSmoothedSolution (fun v => G v - dot a v) T (fun j i => -D i j) (fun _ => 0) F S eps y u x

/-- C63: exact passes of `tfocs` bring its primal center no farther from any solution `xs` of `minimise F(x) + h(D x + a)`. -/
theorem C63_tfocs_fejer (hF : IsConvexFnOn F S) (hG : IsConvexFnOn G T) (sol : ℝ → (Fin n → ℝ) → (Fin m → ℝ) × (Fin n → ℝ))
    (hR : ∀ e y, 0 < e → IsTfocsSolution F S D a G T e y (sol e y).1 (sol e y).2)
    {xs : Fin n → ℝ} {us : Fin m → ℝ} (hs : IsSaddle F S D a G T xs us) (eps : ℕ → ℝ) (y0 : Fin n → ℝ) (k : ℕ) (he : 0 < eps k) :
    let y := centers (fun e y => (sol e y).2) eps y0
    sqDist (y (k + 1)) xs + (1 - ((k : ℝ) / ((k : ℝ) + 3)) ^ 2) * sqDist (sol (eps k) (y k)).2 (y k) ≤ sqDist (y k) xs :=
  centers_fejer (convex_sub_linear hG a) hF sol hR (isSaddle_swap hs) eps y0 k he

/-- C63: `tfocs` with exact passes and a positive tolerance stops by its test, for every list of positive smoothing constants that is
long enough; the length depends on the problem and the tolerance only. -/
theorem C63_tfocs_terminates (hF : IsConvexFnOn F S) (hG : IsConvexFnOn G T) (sol : ℝ → (Fin n → ℝ) → (Fin m → ℝ) × (Fin n → ℝ))
    (hR : ∀ e y, 0 < e → IsTfocsSolution F S D a G T e y (sol e y).1 (sol e y).2)
    (hs : ∃ xs us, IsSaddle F S D a G T xs us) (tol : ℝ) (htol : 0 < tol) :
    ∃ N, ∀ l : List ℝ, (∀ e ∈ l, 0 < e) → N ≤ l.length → ∀ maxIters,
      let y := centers (fun e y => (sol e y).2) (fun k => l.getD k 0) (fun _ => 0)
      let x := fun k => (sol (l.getD k 0) (y k)).2
      ∃ i < l.length, Real.sqrt (sqDist (x i) (y i)) < tol * max (Real.sqrt (∑ t, x i t ^ 2)) 1 ∧
        tfocs sol (some l) maxIters tol = some (y i, (sol (l.getD i 0) (y i)).1) := by
  obtain ⟨xs, us, hs⟩ := hs
  obtain ⟨N, hN1, hN⟩ := exists_pass (sqDist (fun _ => 0) xs) (tol ^ 2) (by positivity) 0
  refine ⟨N, fun l hpos hlen maxIters => ?_⟩
  intro y x
  have hne : l ≠ [] := by intro h; subst h; simp at hlen; omega
  obtain ⟨i, _, h2, h3⟩ := tfocs_loop sol tol (fun k => l.getD k 0) (fun _ => 0) l 0 none
    (fun k hk => by simp [List.getD_eq_getElem?_getD, hk]) hne
  rcases h3 with ⟨h3, h5⟩ | ⟨h3, h4, h5⟩
  · exact ⟨i, by omega, h3, h5⟩
  · exfalso
    have hep : ∀ j < l.length, 0 < l.getD j 0 := by
      intro j hj
      rw [List.getD_eq_getElem?_getD, List.getElem?_eq_getElem hj]
      exact hpos _ (List.getElem_mem hj)
    have hsum := centers_sum (convex_sub_linear hG a) hF sol hR (isSaddle_swap hs) (fun k => l.getD k 0) (fun _ => 0) l.length hep
    obtain ⟨j, hj1, hj2, hj3⟩ := hN (fun j => sqDist (x j) (y j)) (fun j => sqDist_nonneg _ _) l.length hlen
      (by have := sqDist_nonneg (centers (fun e y => (sol e y).2) (fun k => l.getD k 0) (fun _ => 0) l.length) xs
          linarith)
    refine h4 j (Nat.zero_le _) (by omega) ?_
    have h6 : Real.sqrt (sqDist (x j) (y j)) < tol := by
      rw [← Real.sqrt_sq htol.le]
      exact Real.sqrt_lt_sqrt (sqDist_nonneg _ _) hj3
    refine lt_of_lt_of_le h6 ?_
    have : (1 : ℝ) ≤ max (Real.sqrt (∑ t, x j t ^ 2)) 1 := le_max_right _ _
    show tol ≤ tol * max (Real.sqrt (∑ t, x j t ^ 2)) 1
    nlinarith

/-- C63: a pass of `tfocs` that finds its own center stops at a solution. -/
theorem C63_tfocs_fixed_point (hF : IsConvexFnOn F S) (hG : IsConvexFnOn G T) {h : (Fin m → ℝ) → ℝ} {Z : Set (Fin m → ℝ)}
    (hc : IsConjugateOf h Z G T) {eps : ℝ} (he : 0 < eps) {u : Fin m → ℝ} {x : Fin n → ℝ}
    (hx : IsTfocsSolution F S D a G T eps x u x) :
    IsSaddle F S D a G T x u ∧
    Minimises (fun x' => F x' + h (affineMap D a x')) {x' | x' ∈ S ∧ affineMap D a x' ∈ Z} x := by
  have hxS : x ∈ S := by
    obtain ⟨arg, harg, hu, _⟩ := hx
    rw [hu]; exact (harg u).1
  have huT : u ∈ T := hx.choose_spec.2.2.1
  have hs : IsSaddle F S D a G T x u := by
    refine ⟨hxS, huT, fun u' hu' => ?_, fun x' hx' => ?_⟩
    · have := smoothed_primal he (convex_sub_linear hG a) hF hx u' hu'
      rw [lagrangian_swap, lagrangian_swap] at this
      linarith
    · have := smoothed_gap he (convex_sub_linear hG a) hF hx u huT x' hx'
      rw [sqDist_self, lagrangian_swap, lagrangian_swap] at this
      linarith
  exact ⟨hs, (saddle_primal hc hs).2⟩

/-! ## A concrete problem: `½(x - 3)² + |x|` -/

/-- the exact pass for `½(x - 3)² + |x|` -/
private noncomputable def clip1 (t : ℝ) : ℝ := max (-1) (min 1 t)

private lemma clip1_le (t : ℝ) : clip1 t ≤ 1 := by unfold clip1; exact max_le (by norm_num) (min_le_left _ _)
private lemma le_clip1 (t : ℝ) : -1 ≤ clip1 t := le_max_left _ _

private lemma clip1_vi (t v : ℝ) (h1 : -1 ≤ v) (h2 : v ≤ 1) : (t - clip1 t) * (v - clip1 t) ≤ 0 := by
  unfold clip1
  rcases le_total t (-1) with h | h
  · rw [min_eq_right (by linarith), max_eq_left h]
    exact mul_nonpos_of_nonpos_of_nonneg (by linarith) (by linarith)
  · rcases le_total t 1 with h' | h'
    · rw [min_eq_right h', max_eq_right h]; simp
    · rw [min_eq_left h', max_eq_right (by norm_num)]
      exact mul_nonpos_of_nonneg_of_nonpos (by linarith) (by linarith)

private noncomputable def toyRounds : Rounds 1 1 :=
  { solve := fun e y => (fun _ => 3 - clip1 ((3 + e * y 0) / (1 + e)), fun _ => clip1 ((3 + e * y 0) / (1 + e)))
    objective := fun _ _ x => (x 0 - 3) ^ 2 / 2 + |x 0| }

private def toyT : Set (Fin 1 → ℝ) := {v | -1 ≤ v 0 ∧ v 0 ≤ 1}

private lemma toy_arg (e : ℝ) (he : 0 < e) (y : Fin 1 → ℝ) (z : ℝ) :
    IsUniqueMinOn (fun v : Fin 1 → ℝ => -(v 0 * z - 0 - e / 2 * (v 0 - y 0) ^ 2)) toyT (fun _ => clip1 (y 0 + z / e)) := by
  refine ⟨⟨le_clip1 _, clip1_le _⟩, fun v hv hne => ?_⟩
  have h1 := clip1_vi (y 0 + z / e) (v 0) hv.1 hv.2
  set c := clip1 (y 0 + z / e) with hc
  have hvc : v 0 ≠ c := fun h => hne (by funext i; fin_cases i; exact h)
  have h2 : 0 < (v 0 - c) ^ 2 := by positivity [sub_ne_zero.2 hvc]
  have h3 : e * ((y 0 + z / e - c) * (v 0 - c)) ≤ 0 := mul_nonpos_of_nonneg_of_nonpos he.le h1
  have h4 : e * ((y 0 + z / e - c) * (v 0 - c)) = (e * y 0 + z - e * c) * (v 0 - c) := by field_simp
  rw [h4] at h3
  have h5 := mul_pos he h2
  simp only
  nlinarith

private lemma toy_fix (e : ℝ) (he : 0 < e) (y : ℝ) :
    clip1 (y + (3 - clip1 ((3 + e * y) / (1 + e))) / e) = clip1 ((3 + e * y) / (1 + e)) := by
  have h1e : 0 < 1 + e := by linarith
  unfold clip1
  rcases le_total ((3 + e * y) / (1 + e)) (-1) with h | h
  · have h0 := h
    rw [div_le_iff₀ h1e] at h0
    rw [min_eq_right (by linarith : (3 + e * y) / (1 + e) ≤ 1), max_eq_left h]
    have h2 : y + (3 - -1) / e ≤ -1 := by
      have e1 : y + (3 - -1) / e = (e * y + 4) / e := by field_simp; ring
      rw [e1, div_le_iff₀ he]; linarith
    rw [min_eq_right (by linarith), max_eq_left h2]
  · rcases le_total ((3 + e * y) / (1 + e)) 1 with h' | h'
    · rw [min_eq_right h', max_eq_right h]
      have e1 : y + (3 - (3 + e * y) / (1 + e)) / e = (3 + e * y) / (1 + e) := by field_simp; ring
      rw [e1, min_eq_right h', max_eq_right h]
    · have h0 := h'
      rw [le_div_iff₀ h1e] at h0
      rw [min_eq_left h', max_eq_right (by norm_num : (-1:ℝ) ≤ 1)]
      have h2 : 1 ≤ y + (3 - 1) / e := by
        have e1 : y + (3 - 1) / e = (e * y + 2) / e := by field_simp; ring
        rw [e1, le_div_iff₀ he]; linarith
      rw [min_eq_left h2, max_eq_right (by norm_num)]

private lemma toy_exact (e : ℝ) (he : 0 < e) (y : Fin 1 → ℝ) :
    IsSmoothedSolution (n := 1) (m := 1) (fun x => (x 0 - 3) ^ 2 / 2) Set.univ (fun _ _ => 1) (fun _ => 0) (fun _ => 0) toyT e y
      (toyRounds.solve e y).1 (toyRounds.solve e y).2 := by
  have haff : ∀ x : Fin 1 → ℝ, affineMap (fun _ _ => 1) (fun _ => 0) x = fun _ : Fin 1 => x 0 := by
    intro x; funext i; simp [affineMap]
  have hdot : ∀ (v : Fin 1 → ℝ) (t : ℝ), dot v (fun _ => t) = v 0 * t := by intro v t; simp [dot]
  have hsq : ∀ v : Fin 1 → ℝ, sqDist v y = (v 0 - y 0) ^ 2 := by intro v; simp [sqDist]
  refine ⟨fun x _ => clip1 (y 0 + x 0 / e), fun x => ?_, ?_, Set.mem_univ _, fun x' _ => ?_⟩
  · simp only [haff, hdot, hsq]
    exact toy_arg e he y (x 0)
  · funext i
    exact (toy_fix e he (y 0)).symm
  · simp only [haff, hdot, hsq]
    have h1 := toy_arg e he y (x' 0)
    set c := clip1 ((3 + e * y 0) / (1 + e)) with hc
    have hx : ((toyRounds.solve e y).1) 0 = 3 - c := rfl
    rw [hx, toy_fix e he (y 0), ← hc]
    have h2 : c * x' 0 - 0 - e / 2 * (c - y 0) ^ 2 ≤
        clip1 (y 0 + x' 0 / e) * x' 0 - 0 - e / 2 * (clip1 (y 0 + x' 0 / e) - y 0) ^ 2 := by
      by_cases hcc : (fun _ : Fin 1 => c) = fun _ => clip1 (y 0 + x' 0 / e)
      · have : c = clip1 (y 0 + x' 0 / e) := congrFun hcc 0
        rw [← this]
      · have := h1.2 (fun _ => c) ⟨le_clip1 _, clip1_le _⟩ hcc
        simp only at this
        linarith
    nlinarith [sq_nonneg (x' 0 - 3 + c)]

private lemma toy_saddle : IsSaddle (n := 1) (m := 1) (fun x => (x 0 - 3) ^ 2 / 2) Set.univ (fun _ _ => 1) (fun _ => 0) (fun _ => 0) toyT
    (fun _ => 2) (fun _ => 1) := by
  refine ⟨Set.mem_univ _, ⟨by norm_num, le_rfl⟩, fun u hu => ?_, fun x _ => ?_⟩
  · have := hu.2
    simp [lagrangian, affineMap, dot]
    linarith
  · simp [lagrangian, affineMap, dot]
    nlinarith [sq_nonneg (x 0 - 2)]

private lemma toyT_convex : IsConvexFnOn (fun _ : Fin 1 → ℝ => (0 : ℝ)) toyT := by
  intro x hx y hy s t hs ht hst
  refine ⟨⟨?_, ?_⟩, by simp⟩
  · nlinarith [hx.1, hy.1]
  · nlinarith [hx.2, hy.2]

private lemma toyF_convex : IsConvexFnOn (fun x : Fin 1 → ℝ => (x 0 - 3) ^ 2 / 2) Set.univ := by
  intro x hx y hy s t hs ht hst
  refine ⟨Set.mem_univ _, ?_⟩
  have : t = 1 - s := by linarith
  subst this
  simp only
  nlinarith [mul_nonneg hs ht, mul_nonneg (mul_nonneg hs ht) (sq_nonneg (x 0 - y 0))]

private lemma toy_conj : IsConjugateOf (fun z : Fin 1 → ℝ => |z 0|) Set.univ (fun _ => 0) toyT := by
  refine ⟨fun z _ => ⟨?_, fun b hb => ?_⟩, fun _ _ => Set.mem_univ _⟩
  · rintro v ⟨u, hu, rfl⟩
    have e : dot u z - 0 = u 0 * z 0 := by simp [dot]
    rw [e]
    have : |u 0| ≤ 1 := abs_le.2 hu
    calc u 0 * z 0 ≤ |u 0 * z 0| := le_abs_self _
      _ = |u 0| * |z 0| := abs_mul _ _
      _ ≤ 1 * |z 0| := mul_le_mul_of_nonneg_right this (abs_nonneg _)
      _ = |z 0| := one_mul _
  · rcases le_total 0 (z 0) with h | h
    · rw [abs_of_nonneg h]
      exact hb ⟨fun _ => 1, ⟨by norm_num, le_rfl⟩, by simp [dot]⟩
    · rw [abs_of_nonpos h]
      exact hb ⟨fun _ => -1, ⟨le_rfl, by norm_num⟩, by simp [dot]⟩

/-- concrete case: `minimise ½(x - 3)² + |x|` with its exact passes meets all hypotheses of the theorems on `nesta`. -/
example : IsConvexFnOn (fun x : Fin 1 → ℝ => (x 0 - 3) ^ 2 / 2) Set.univ ∧ IsConvexFnOn (fun _ : Fin 1 → ℝ => (0 : ℝ)) toyT ∧
    (∀ e y, 0 < e → IsSmoothedSolution (n := 1) (m := 1) (fun x => (x 0 - 3) ^ 2 / 2) Set.univ (fun _ _ => 1) (fun _ => 0) (fun _ => 0)
      toyT e y (toyRounds.solve e y).1 (toyRounds.solve e y).2) ∧
    (∃ xs us, IsSaddle (n := 1) (m := 1) (fun x => (x 0 - 3) ^ 2 / 2) Set.univ (fun _ _ => 1) (fun _ => 0) (fun _ => 0) toyT xs us) ∧
    IsConjugateOf (fun z : Fin 1 → ℝ => |z 0|) Set.univ (fun _ => 0) toyT :=
  ⟨toyF_convex, toyT_convex, fun e y he => toy_exact e he y, ⟨_, _, toy_saddle⟩, toy_conj⟩

private lemma clip1_mid {t : ℝ} (h1 : -1 ≤ t) (h2 : t ≤ 1) : clip1 t = t := by
  unfold clip1; rw [min_eq_right h2, max_eq_right h1]

/-- Counterexample: the dual returned by `nesta` need not be feasible.  On `½(x - 3)² + |x|`, whose dual variable is bounded by `1`, exact
passes with `epsilon = [5, 5]` end with the extrapolated dual `49/48`. -/
theorem C63_nesta_dual_infeasible_fails :
    ∃ R : Rounds 1 1,
      (∀ e y, 0 < e → IsSmoothedSolution (n := 1) (m := 1) (fun x => (x 0 - 3) ^ 2 / 2) Set.univ (fun _ _ => 1) (fun _ => 0) (fun _ => 0)
        {v | -1 ≤ v 0 ∧ v 0 ≤ 1} e y (R.solve e y).1 (R.solve e y).2) ∧
      ∃ x u, nesta R (some [5, 5]) = some (x, u) ∧ u 0 = 49 / 48 := by
  refine ⟨toyRounds, fun e y he => toy_exact e he y, ?_⟩
  have c0 : (toyRounds.solve 5 fun _ => 0).2 = fun _ => 1 / 2 := by
    funext i; simp only [toyRounds]; rw [clip1_mid] <;> norm_num
  have c1 : (toyRounds.solve 5 fun _ => 1 / 2).2 = fun _ => 11 / 12 := by
    funext i; simp only [toyRounds]; rw [clip1_mid] <;> norm_num
  have e0 : extrapolate 0 (fun _ : Fin 1 => (1 / 2 : ℝ)) (fun _ => 0) = fun _ => 1 / 2 := by
    funext i; simp [extrapolate]
  have e1 : extrapolate (0 + 1) (fun _ : Fin 1 => (11 / 12 : ℝ)) (fun _ => 1 / 2) = fun _ => 49 / 48 := by
    funext i; simp [extrapolate]; norm_num
  have hs : ∀ k d g v w, k < 5 → ¬ nestaStop (m := 1) false (1 / 10 ^ 6) 5 k d g v w := by
    intro k d g v w hk h
    unfold nestaStop at h
    simp at h
    omega
  refine ⟨(toyRounds.solve 5 fun _ => 1 / 2).1, fun _ => 49 / 48, ?_, rfl⟩
  unfold nesta
  simp only [Option.getD_some, Option.getD_none]
  unfold nestaLoop
  dsimp only
  rw [if_neg (hs 0 _ _ _ _ (by norm_num)), c0, e0]
  unfold nestaLoop
  dsimp only
  rw [if_neg (hs _ _ _ _ _ (by norm_num)), c1, e1]
  rfl

/-- Counterexample: the primal returned by `tfocs` need not be feasible.  For `minimise ½x² - 3x` over `|x| ≤ 1`, given as the
constraint `F`, the transform `D = -1` and the conjugate `G(u) = ½(u - 3)²`, exact passes with `epsilon = [5, 5]` end with `49/48`. -/
theorem C63_tfocs_primal_infeasible_fails :
    ∃ sol : ℝ → (Fin 1 → ℝ) → (Fin 1 → ℝ) × (Fin 1 → ℝ),
      (∀ e y, 0 < e → IsTfocsSolution (n := 1) (m := 1) (fun _ => 0) {v | -1 ≤ v 0 ∧ v 0 ≤ 1} (fun _ _ => -1) (fun _ => 0)
        (fun u => (u 0 - 3) ^ 2 / 2) Set.univ e y (sol e y).1 (sol e y).2) ∧
      ∃ x u, tfocs sol (some [5, 5]) = some (x, u) ∧ x 0 = 49 / 48 := by
  refine ⟨toyRounds.solve, fun e y he => ?_, ?_⟩
  · have h := toy_exact e he y
    unfold IsTfocsSolution
    have e1 : (fun v : Fin 1 → ℝ => (v 0 - 3) ^ 2 / 2 - dot (fun _ => 0) v) = fun v => (v 0 - 3) ^ 2 / 2 := by
      funext v; simp [dot]
    have e2 : (fun (_ _ : Fin 1) => -(-1 : ℝ)) = fun _ _ => 1 := by funext i j; simp
    rw [e1, e2]
    exact h
  · have c0 : (toyRounds.solve 5 fun _ => 0).2 = fun _ => 1 / 2 := by
      funext i; simp only [toyRounds]; rw [clip1_mid] <;> norm_num
    have c1 : (toyRounds.solve 5 fun _ => 1 / 2).2 = fun _ => 11 / 12 := by
      funext i; simp only [toyRounds]; rw [clip1_mid] <;> norm_num
    have e0 : extrapolate 0 (fun _ : Fin 1 => (1 / 2 : ℝ)) (fun _ => 0) = fun _ => 1 / 2 := by
      funext i; simp [extrapolate]
    have e1 : extrapolate (0 + 1) (fun _ : Fin 1 => (11 / 12 : ℝ)) (fun _ => 1 / 2) = fun _ => 49 / 48 := by
      funext i; simp [extrapolate]; norm_num
    have n1 : ∀ t : ℝ, npNorm (fun _ : Fin 1 => t) = |t| := by
      intro t; simp [npNorm, Real.sqrt_sq_eq_abs]
    refine ⟨fun _ => 49 / 48, (toyRounds.solve 5 fun _ => 1 / 2).1, ?_, rfl⟩
    unfold tfocs
    simp only [Option.getD_some]
    unfold tfocsLoop
    dsimp only
    rw [c0, if_neg, e0]
    · unfold tfocsLoop
      dsimp only
      rw [c1, if_neg, e1]
      · rfl
      · rw [n1, n1, abs_of_neg (by norm_num), abs_of_pos (by norm_num), max_eq_right (by norm_num)]
        norm_num
    · rw [n1, n1, abs_of_neg (by norm_num), abs_of_pos (by norm_num), max_eq_right (by norm_num)]
      norm_num

end Verif.Props
