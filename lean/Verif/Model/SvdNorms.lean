import Verif.Model.Seminorms
import Verif.Model.Projl1
import Mathlib.Analysis.SpecialFunctions.Sqrt

/-!
# Model of `regreg/atoms/svd_norms.py`

`np.linalg.svd` is not modelled: the functions take the triple `U, D, V` it returned for `X` as an argument, and the theorems
hold for every triple which is a thin singular value decomposition of `X` (`Verif.Spec.IsSvd`).  A matrix of shape `(n, p)` is a
function on `Fin n × Fin p` (`reshape` is the identity); the array `normX` of an epigraph cone is the pair `(X, norm)`.  There
are `k + 1 = min(n, p)` singular values: numpy's `max` of an empty array (a matrix with no row or no column) is not modelled.
Methods take the resolved parameter (`seminorm.lagrange_prox`, ..., see `Verif.Model.AtomMode`).  `np.product` is `np.prod`.
-/

namespace Verif.Model.Svd

noncomputable section

variable {n p k : ℕ}

/-- what `np.linalg.svd(X, full_matrices=0)` returns: `U` of shape `(n, k+1)`, `D` of length `k+1`, `V` of shape `(k+1, p)` -/
structure Triple (n p k : ℕ) where
  U : Fin n → Fin (k + 1) → ℝ
  D : Fin (k + 1) → ℝ
  V : Fin (k + 1) → Fin p → ℝ

/-- `np.dot(U, d[:,np.newaxis] * V)` -/
def recompose (s : Triple n p k) (d : Fin (k + 1) → ℝ) : Fin n × Fin p → ℝ :=
  fun ij => ∑ a, s.U ij.1 a * (d a * s.V a ij.2)

/-- `np.dot(U[:,keep], d[keep][:,np.newaxis] * V[keep])` with `keep = d > 0` -/
def recomposeKeep (s : Triple n p k) (d : Fin (k + 1) → ℝ) : Fin n × Fin p → ℝ :=
  fun ij => ∑ a ∈ Finset.univ.filter (fun a => d a > 0), s.U ij.1 a * (d a * s.V a ij.2)

namespace Nuclear

/-- `nuclear_norm.seminorm`, `svd_norms.py:46-51` -/
def seminorm (s : Triple n p k) (lagrange : ℝ) : ℝ := lagrange * ∑ a, |s.D a|

/-- `nuclear_norm.constraint`, `svd_norms.py:54-61` -/
def constraint (s : Triple n p k) (bound : ℝ) : WithTop ℝ :=
  if ∑ a, |s.D a| ≤ bound * (1 + atomTol) then 0 else ⊤

/-- `nuclear_norm.lagrange_prox`, `svd_norms.py:64-71`; `U_new, D_new, V_new` are computed and not used -/
def lagrangeProx (s : Triple n p k) (lipschitz lagrange : ℝ) : Fin n × Fin p → ℝ :=
  recompose s (L1.lagrangeProx s.D lipschitz lagrange)

/-- `nuclear_norm.bound_prox`, `svd_norms.py:74-81` -/
def boundProx (s : Triple n p k) (bound : ℝ) : Option (Fin n × Fin p → ℝ) :=
  (L1.boundProx s.D bound).map fun projected => recomposeKeep s projected

end Nuclear

namespace Operator

/-- `operator_norm.seminorm`, `svd_norms.py:125-129` -/
def seminorm (s : Triple n p k) (lagrange : ℝ) : ℝ := lagrange * npMax s.D

/-- `operator_norm.constraint`, `svd_norms.py:132-139` -/
def constraint (s : Triple n p k) (bound : ℝ) : WithTop ℝ :=
  if npMax s.D ≤ bound * (1 + atomTol) then 0 else ⊤

/-- `operator_norm.lagrange_prox`, `svd_norms.py:142-147` -/
def lagrangeProx (s : Triple n p k) (lipschitz lagrange : ℝ) : Option (Fin n × Fin p → ℝ) :=
  (Sup.lagrangeProx s.D lipschitz lagrange).map fun new => recompose s new

/-- `operator_norm.bound_prox`, `svd_norms.py:150-155` -/
def boundProx (s : Triple n p k) (bound : ℝ) : Fin n × Fin p → ℝ := recompose s (Sup.boundProx s.D bound)

end Operator

namespace NuclearEpi

/-- `nuclear_norm_epigraph.constraint`, `svd_norms.py:257-265`: the sum is over `D[1:]` -/
def constraint (s : Triple n p k) (norm : ℝ) : WithTop ℝ :=
  if ∑ a : Fin k, |s.D a.succ| ≤ (1 + atomTol) * norm then 0 else ⊤

/-- `nuclear_norm_epigraph.cone_prox`, `svd_norms.py:268-280` -/
def coneProx (s : Triple n p k) (norm : ℝ) : Option ((Fin n × Fin p → ℝ) × ℝ) :=
  (projl1Epigraph s.D norm).map fun newD => (recompose s newD.1, newD.2)

end NuclearEpi

namespace NuclearEpiPolar

/-- `nuclear_norm_epigraph_polar.constraint`, `svd_norms.py:303-311` -/
def constraint (s : Triple n p k) (norm : ℝ) : WithTop ℝ :=
  if npMax s.D ≤ (1 + atomTol) * -norm then 0 else ⊤

/-- `nuclear_norm_epigraph_polar.cone_prox`, `svd_norms.py:314-327` -/
def coneProx (s : Triple n p k) (norm : ℝ) : Option ((Fin n × Fin p → ℝ) × ℝ) :=
  (projl1Epigraph s.D norm).map fun e => (recompose s (fun a => s.D a - e.1 a), norm - e.2)

end NuclearEpiPolar

namespace OperatorEpi

/-- `operator_norm_epigraph.constraint`, `svd_norms.py:350-358` -/
def constraint (s : Triple n p k) (norm : ℝ) : WithTop ℝ :=
  if npMax s.D ≤ (1 + atomTol) * norm then 0 else ⊤

/-- `operator_norm_epigraph.cone_prox`, `svd_norms.py:361-374` -/
def coneProx (s : Triple n p k) (norm : ℝ) : Option ((Fin n × Fin p → ℝ) × ℝ) :=
  (projl1Epigraph (fun a => -s.D a) (-norm)).map fun e => (recompose s (fun a => s.D a + e.1 a), norm + e.2)

end OperatorEpi

namespace OperatorEpiPolar

/-- `operator_norm_epigraph_polar.constraint`, `svd_norms.py:397-405` -/
def constraint (s : Triple n p k) (norm : ℝ) : WithTop ℝ :=
  if ∑ a, s.D a ≤ (1 + atomTol) * -norm then 0 else ⊤

/-- `operator_norm_epigraph_polar.cone_prox`, `svd_norms.py:408-420` -/
def coneProx (s : Triple n p k) (norm : ℝ) : Option ((Fin n × Fin p → ℝ) × ℝ) :=
  (projl1Epigraph (fun a => -s.D a) (-norm)).map fun e => (recompose s (fun a => -e.1 a), -e.2)

end OperatorEpiPolar

end

end Verif.Model.Svd
