import Verif.Model.Affine
import Verif.Model.L2Norm

/-! # Model of `power_L`, `regreg/affine/__init__.py:716-737` -/

namespace Verif.Model

/-- what `power_L` returns: a number or `nan` -/
inductive PowerRes where
  | val (r : ℝ)
  | nan

/-- The loop, lines 729-736; first argument `max_its - itercount`.  When the norm of the new `v` is zero, `v /= norm`
is `nan` in every entry; the loop condition is then `|0 - old_norm| / 0 = inf > tol`, so the loop goes on unless
`max_its` is reached; the next norm is `nan`, every comparison with it is false and `nan` is returned. -/
noncomputable def powerLoop {m k : ℕ} (T : Aff ℝ m k) (tol : ℝ) : ℕ → (Fin m → ℝ) → ℝ → ℝ → PowerRes
  | 0, _, _, norm => .val norm
  | r + 1, v, oldNorm, norm =>
    if |norm - oldNorm| / norm > tol then
      let v := T.adj (T.lin v)
      let newNorm := npNorm v
      if newNorm = 0 then (if r = 0 then .val 0 else .nan)
      else powerLoop T tol r (fun i => v i / newNorm) norm newNorm
    else .val norm

/-- `power_L(T, max_its, tol)`, lines 716-737; `v0` is the random starting vector (line 725). -/
noncomputable def powerL {m k : ℕ} (T : Aff ℝ m k) (maxIts : ℕ) (tol : ℝ) (v0 : Fin m → ℝ) : PowerRes :=
  powerLoop T tol maxIts v0 0 1

end Verif.Model
