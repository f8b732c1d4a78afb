import Verif.Props.C111_Certified
import Verif.Props.C102_Tuning

/-!
# C111: the certificate when the loss carries a quadratic
-/

set_option linter.unusedSectionVars false
set_option linter.unusedVariables false

namespace Verif.Props
open Verif.Spec Verif.Model Verif.Model.Fista Verif.Lemmas

variable {m : ℕ} (S : QuadLoss m) (f : (Fin m → ℝ) → ℝ) (g : (Fin m → ℝ) → Fin m → ℝ) (A : NonsmoothAtom m)
  (pen : (Fin m → ℝ) → WithTop ℝ)

/-- **C111** With a ridge term the certificate bounds everything by known numbers: if the quadratic of the loss has coefficient
`q > 0` (as in an elastic net), a call of `solve(min_its=1)` that records one value returns coefficients `c` of objective `vc` with
`vc - min ≤ 2 r` and `q/4 ‖c - solution‖² ≤ r`, where `r = tol max(|vc|, 1) (1 + 2 / (t q))` and `t = min(start_step, 1/(2 M alpha))`.
No distance of the start from the solution enters. -/
theorem C111_ridge (hS : IsLossFor S f g) (hA : IsAtomFor A pen) (hq : 0 < S.quad.coef) (M : ℝ) (hM0 : 0 < M) (hM : SmoothWith f g M)
    (x0 : Fin m → ℝ) (a : FitArgs) (hb : a.performBacktrack = true) (ha : 1 ≤ a.alpha) (hst : 0 < a.startStep)
    (hcs : a.coefStop = false) (hmin : a.minIts = some 1) (hmax : 2 ≤ a.maxItsV) (htol : 0 < a.tolV)
    (lip : ℝ) (fuel : ℕ) (c : Fin m → ℝ) (v : ObjVal) (hist : List ObjVal)
    (hsolve : ((SimpleProblem.ofLoss S A x0).solve none a lip fuel).1 = .ok c v hist) (hone : hist.length = 1)
    (u : Fin m → ℝ) (hu : IsMinTop (penalised f S.quad pen) u) :
    ∃ vc vu : ℝ, v = .num vc ∧ penalised f S.quad pen c = vc ∧ penalised f S.quad pen u = vu ∧ vu ≤ vc ∧
      vc - vu ≤ 2 * (a.tolV * max |vc| 1 * (1 + 2 / (min a.startStep (1 / (2 * M * a.alpha)) * S.quad.coef))) ∧
      S.quad.coef / 4 * sqDist c u ≤
        a.tolV * max |vc| 1 * (1 + 2 / (min a.startStep (1 / (2 * M * a.alpha)) * S.quad.coef)) := by
  obtain ⟨vc, h1, h2, h3⟩ := C111_sound S f g A pen hS hA M hM0 hM x0 a hb ha hst hcs hmin hmax htol lip fuel c v hist hsolve hone
  obtain ⟨vu, hvu⟩ := WithTop.ne_top_iff_exists.1 hu.1
  have h4 := h3 u vu hvu.symm
  have h5 := (C102_ridge S f g hS A pen hA u hu).1 c vc vu h2 hvu.symm
  have hle : vu ≤ vc := by
    have := hu.2 c
    rwa [h2, ← hvu, WithTop.coe_le_coe] at this
  have ht : 0 < min a.startStep (1 / (2 * M * a.alpha)) := lt_min hst (by
    have : 0 < a.alpha := by linarith
    positivity)
  set t := min a.startStep (1 / (2 * M * a.alpha)) with htd
  set gap := a.tolV * max |vc| 1 with hgd
  have hg0 : 0 ≤ gap := mul_nonneg htol.le (le_trans zero_le_one (le_max_right _ _))
  set q := S.quad.coef with hqd
  have hD : 0 ≤ sqDist c u := sqDist_nonneg _ _
  set D := sqDist c u with hDd
  have h6 : Real.sqrt (2 * gap / t * D) ≤ q / 4 * D + 2 * gap / (t * q) := by
    rw [Real.sqrt_le_left (by positivity)]
    have e : 2 * gap / t * D = 4 * (q / 4 * D) * (2 * gap / (t * q)) := by field_simp
    rw [e]
    nlinarith [sq_nonneg (q / 4 * D - 2 * gap / (t * q))]
  unfold certified at h4
  have e : gap * (1 + 2 / (t * q)) = gap + 2 * gap / (t * q) := by ring
  refine ⟨vc, vu, h1, h2, hvu.symm, hle, ?_, ?_⟩ <;> rw [← hgd, e] <;> linarith

/-- the elastic net with an `n × (p+1)` design: for every design and response there is a loss with coefficient 1 in its quadratic, an
`M`, and a call that returns; its hypotheses are those of `C111_ridge` and `C111_repeat` (which gives a call that records one value). -/
example {n p : ℕ} (X : Fin n → Fin (p + 1) → ℝ) (Y : Fin n → ℝ) (x0 : Fin (p + 1) → ℝ) (lam : ℝ) (hl : 0 ≤ lam) :
    ∃ (G : Glm (p + 1) n) (f : (Fin (p + 1) → ℝ) → ℝ) (g : (Fin (p + 1) → ℝ) → Fin (p + 1) → ℝ) (A : NonsmoothAtom (p + 1))
      (pen : (Fin (p + 1) → ℝ) → WithTop ℝ) (M : ℝ),
      Glm.build X (.gaussian Y) 1 none none none = some G ∧
      IsLossFor (G.toLoss (some (Quad.init (some 1) none none none))) f g ∧ SmoothWith f g M ∧ IsAtomFor A pen ∧
      0 < (G.toLoss (some (Quad.init (some 1) none none none))).quad.coef ∧
      ∃ fuel c v hist, ((SimpleProblem.ofLoss (G.toLoss (some (Quad.init (some 1) none none none))) A x0).solve none
        { minIts := some 1 } 0 fuel).1 = .ok c v hist := by
  obtain ⟨G, hG⟩ := build_ok X (.gaussian Y) (fun h => h) zero_le_one none none none (fun _ h => by cases h)
  obtain ⟨g, hS, hsm⟩ := C100_glm X (.gaussian Y) trivial 1 none none none (some (Quad.init (some 1) none none none))
    (by show (0:ℝ) ≤ 1; norm_num) G hG
  have hA := C90_seminorms (p := p) ⟨.l1norm, ⟨some lam, none⟩, none, Quad.init none none none none⟩ false lam ⟨hl, rfl⟩ le_rfl
  obtain ⟨N, hN⟩ := C100_returns _ _ _ _ _ hS hA _ (hsm 1 rfl) x0 { minIts := some 1 } rfl (by show (1:ℝ) < 11 / 10; norm_num)
    (by show (0:ℝ) < 1; norm_num) 0
  obtain ⟨c, v, hist, h, -⟩ := hN (N + 1) (Nat.lt_succ_self _)
  exact ⟨G, _, g, _, _, _, hG, hS, hsm 1 rfl, hA, by show (0:ℝ) < 1; norm_num, N + 1, c, _, hist, h⟩

end Verif.Props
