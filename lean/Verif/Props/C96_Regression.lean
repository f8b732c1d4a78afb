import Verif.Props.C88_Regression
import Verif.Props.C96_Stopping

/-!
# C96: how long `solve` takes on a penalised regression
-/

set_option linter.unusedSectionVars false
set_option linter.unusedVariables false

namespace Verif.Props
open Verif.Spec Verif.Model Verif.Model.Fista Verif.Lemmas

variable {n p : ℕ}

/-- **C96** for users of `simple_problem(glm, atom).solve()`: for every convex loss of C88 (Poisson included), penalty or constraint,
weights, offsets and quadratics whose documented objective has a minimiser `u`, started at a point where the objective is finite, with the
default rules and a tolerance above `1e-10`, `solve` records at most `min_its + 1 + 2 (1 + 1e-10)^min_its (F(x0) - F(u) + |F(u)| + 1) / tol`
objective values, whatever `max_its`. -/
theorem C96_regression (X : Fin n → Fin (p + 1) → ℝ) (d : LossData n) (coef : ℝ) (so : Option (Fin n → ℝ))
    (o : Option (Fin (p + 1) → ℝ)) (w : Option (Fin n → ℝ)) (quad : Option (Quad (Fin (p + 1)) ℝ)) (A : AtomObj (Fin (p + 1)) ℝ)
    (b : Bool) (r : ℝ) (G : Glm (p + 1) n) (hs : Setup X d coef so o w quad A b r G) (hd : ConvexLoss d) (x0 u : Fin (p + 1) → ℝ)
    (F0 V : ℝ) (hx0 : regressionObjective X d coef so o w quad A b r x0 = F0)
    (hu : IsMinTop (regressionObjective X d coef so o w quad A b r) u) (hV : regressionObjective X d coef so o w quad A b r u = V)
    (a : FitArgs) (hb : a.performBacktrack = true) (ha : 0 < a.alpha) (hst : 0 < a.startStep) (hm : a.monotonicityRestart = true)
    (hcs : a.coefStop = false) (htol : 1e-10 < a.tolV) (lip : ℝ) (fuel : ℕ) (c : Fin (p + 1) → ℝ) (v : ObjVal) (hist : List ObjVal)
    (hsolve : ((SimpleProblem.regression G quad A x0).solve none a lip fuel).1 = .ok c v hist) :
    (hist.length : ℝ) ≤ a.minItsV + 1 + 2 * ((1 + 1e-10) ^ a.minItsV * (F0 - V + |V| + 1)) / a.tolV := by
  obtain ⟨h, S, k1, k2, k3, k4, k5⟩ := regression_problem X d coef so o w quad A b r G hs hd x0 lip
  have mem : ∀ (β : Fin (p + 1) → ℝ) (t : ℝ), regressionObjective X d coef so o w quad A b r β = t →
      β ∈ S ∧ regressionLoss X d coef so o w β + h β = t := by
    intro β t ht
    have hβ : β ∈ S := by
      by_contra hc
      rw [k5 β hc] at ht
      exact WithTop.top_ne_coe ht
    exact ⟨hβ, by have := k4 β hβ; rw [ht, WithTop.coe_inj] at this; exact this.symm⟩
  obtain ⟨s, hfit, hc, hv⟩ := ok_solve hsolve
  have hB : ∀ v ∈ S, V ≤ regressionLoss X d coef so o w v + h v := by
    intro v hv
    have := hu.2 v
    rw [hV, k4 v hv, WithTop.coe_le_coe] at this
    exact this
  have := C96_pass_bound_start _ _ h S k1 k2 k3 a hb ha hm hcs htol none hst false fuel x0 hist s hfit V hB (mem x0 F0 hx0).1
  rw [(mem x0 F0 hx0).2] at this
  exact this

/-- the lasso with default settings: the objective is finite everywhere, a minimiser exists, and runs exist -/
example (X : Fin n → Fin (p + 1) → ℝ) (y w : Fin n → ℝ) (hw : ∀ i, 0 ≤ w i) (lam : ℝ) (hl : 0 < lam) (x0 : Fin (p + 1) → ℝ) :
    let A : AtomObj (Fin (p + 1)) ℝ := ⟨.l1norm, ⟨some lam, none⟩, none, Quad.init none none none none⟩
    ∃ (G : Glm (p + 1) n) (F0 V : ℝ) (u : Fin (p + 1) → ℝ), Setup X (.gaussian y) 1 none none (some w) none A false lam G ∧
      regressionObjective X (.gaussian y) 1 none none (some w) none A false lam x0 = F0 ∧
      IsMinTop (regressionObjective X (.gaussian y) 1 none none (some w) none A false lam) u ∧
      regressionObjective X (.gaussian y) 1 none none (some w) none A false lam u = V ∧
      (1e-10 : ℝ) < FitArgs.tolV {} ∧
      ∃ N, ∀ fuel, N < fuel → ∃ c v hist, ((SimpleProblem.regression G none A x0).solve none {} 0 fuel).1 = .ok c v hist := by
  intro A
  obtain ⟨G, hG⟩ := build_ok X (.gaussian y) (fun h => h) zero_le_one none none (some w) (fun _ h => by injection h with h; rw [← h]; exact hw)
  have hs : Setup X (.gaussian y) 1 none none (some w) none A false lam G := ⟨hG, ⟨hl.le, rfl⟩, le_rfl, le_rfl⟩
  obtain ⟨u, hu⟩ := C88_minimiser_exists _ _ _ _ _ _ _ _ _ _ _ hs 1 rfl (Or.inl rfl) (Or.inr ⟨hl, rfl, rfl⟩)
  obtain ⟨V, hV⟩ := WithTop.ne_top_iff_exists.1 hu.1
  refine ⟨G, _, V, u, hs, rfl, hu, hV.symm, by show (1e-10 : ℝ) < 1 / 100000; norm_num, ?_⟩
  obtain ⟨N, hN⟩ := C88_returns _ _ _ _ _ _ _ _ _ _ _ hs 1 rfl x0 {} rfl (by show (1:ℝ) < 11 / 10; norm_num)
    (by show (0:ℝ) < 1; norm_num) 0
  exact ⟨N, fun fuel hfu => by obtain ⟨c, v, hist, h, _⟩ := hN fuel hfu; exact ⟨c, _, hist, h⟩⟩

end Verif.Props
