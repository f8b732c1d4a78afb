import Verif.Model.Seminorms
import Verif.Model.L2Norm

/-!
# Model of the cones of `regreg/atoms/cones.py`

A point `x` of an epigraph cone is the pair `(x[:-1], x[-1])`.
-/

namespace Verif.Model

variable {K : Type*} [Field K] [LinearOrder K]

namespace Cone

/-- `nonnegative.cone_prox`, `cones.py:331-332`. -/
def nonnegProx {n : ℕ} (x : Fin n → K) : Fin n → K := fun i => max (x i) 0

/-- `nonpositive.cone_prox`, `cones.py:368-369`. -/
def nonposProx {n : ℕ} (x : Fin n → K) : Fin n → K := fun i => min (x i) 0

/-- `zero.cone_prox`, `cones.py:398-400`. -/
def zeroProx {n : ℕ} (x : Fin n → K) : Fin n → K := x

/-- `zero_constraint.cone_prox`, `cones.py:431-433`. -/
def zeroConstraintProx {n : ℕ} (_x : Fin n → K) : Fin n → K := fun _ => 0

/-- `nonnegative.constraint`, `cones.py:319-324`. -/
def nonnegConstraint {n : ℕ} (x : Fin (n + 1) → K) : WithTop K :=
  let tolLim := npMax (fun i => |x i|) * atomTol
  if ∀ i, x i ≥ -tolLim then 0 else ⊤

/-- `nonpositive.constraint`, `cones.py:356-361`. -/
def nonposConstraint {n : ℕ} (x : Fin (n + 1) → K) : WithTop K :=
  let tolLim := npMax (fun i => |x i|) * atomTol
  if ∀ i, x i ≤ tolLim then 0 else ⊤

/-- `zero.constraint`, `cones.py:394-395`. -/
def zeroConstraint {n : ℕ} (_x : Fin n → K) : WithTop K := 0

/-- `zero_constraint.constraint`, `cones.py:425-428`. -/
noncomputable def zeroConstraintConstraint {n : ℕ} (x : Fin n → ℝ) : WithTop ℝ :=
  if ¬ npNorm x ≤ atomTol then ⊤ else 0

/-- `l1_epigraph.constraint`, `cones.py:547-551`. -/
def l1EpiConstraint {n : ℕ} (x : (Fin n → K) × K) : WithTop K :=
  if ∑ i, |x.1 i| ≤ (1 + atomTol) * x.2 then 0 else ⊤

/-- `l1_epigraph.cone_prox`, `cones.py:554-555`. -/
def l1EpiProx {n : ℕ} (x : (Fin n → K) × K) : Option ((Fin n → K) × K) := projl1Epigraph x.1 x.2

/-- `l1_epigraph_polar.cone_prox`, `cones.py:590-592`. -/
def l1EpiPolarProx {n : ℕ} (x : (Fin n → K) × K) : Option ((Fin n → K) × K) :=
  (projl1Epigraph x.1 x.2).map fun p => (fun i => x.1 i - p.1 i, x.2 - p.2)

/-- `linf_epigraph.cone_prox`, `cones.py:626-628`. -/
def linfEpiProx {n : ℕ} (x : (Fin n → K) × K) : Option ((Fin n → K) × K) :=
  (projl1Epigraph (fun i => -x.1 i) (-x.2)).map fun p => (fun i => x.1 i + p.1 i, x.2 + p.2)

/-- `linf_epigraph_polar.cone_prox`, `cones.py:663-665`. -/
def linfEpiPolarProx {n : ℕ} (x : (Fin n → K) × K) : Option ((Fin n → K) × K) :=
  (projl1Epigraph (fun i => -x.1 i) (-x.2)).map fun p => (fun i => -p.1 i, -p.2)

/-- `l1_epigraph_polar.constraint`, `cones.py:583-587`. -/
def l1EpiPolarConstraint {n : ℕ} (x : (Fin (n + 1) → K) × K) : WithTop K :=
  if npMax (fun i => |-x.1 i|) ≤ (1 + atomTol) * (-x.2) then 0 else ⊤

/-- `linf_epigraph.constraint`, `cones.py:619-623`. -/
def linfEpiConstraint {n : ℕ} (x : (Fin (n + 1) → K) × K) : WithTop K :=
  if npMax (fun i => |x.1 i|) ≤ (1 + atomTol) * x.2 then 0 else ⊤

/-- `linf_epigraph_polar.constraint`, `cones.py:656-660`. -/
def linfEpiPolarConstraint {n : ℕ} (x : (Fin n → K) × K) : WithTop K :=
  if ∑ i, |x.1 i| ≤ (1 + atomTol) * (-x.2) then 0 else ⊤

/-- `l2_epigraph.cone_prox`, `cones.py:467-476`.  `none`: the norm of `x[:-1]` is zero and line 474 computes
`0/0`, so the result contains `nan`. -/
noncomputable def l2EpiProx {n : ℕ} (x : (Fin n → ℝ) × ℝ) : Option ((Fin n → ℝ) × ℝ) :=
  let norm := x.2
  let coef := x.1
  let normCoef := npNorm coef
  let thold := (normCoef - norm) / 2
  if normCoef = 0 then none
  else some (fun i => coef i / normCoef * max (normCoef - thold) 0, max (norm + thold) 0)

/-- `l2_epigraph_polar.cone_prox`, `cones.py:510-520`. -/
noncomputable def l2EpiPolarProx {n : ℕ} (x : (Fin n → ℝ) × ℝ) : Option ((Fin n → ℝ) × ℝ) :=
  (l2EpiProx (fun i => -x.1 i, -x.2)).map fun p => (fun i => -p.1 i, -p.2)

end Cone

end Verif.Model
