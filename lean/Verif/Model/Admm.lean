import Verif.Model.IdentityQuadratic
import Mathlib.Data.Real.Basic
import Mathlib.Algebra.BigOperators.Group.Finset.Basic

/-!
# Model of `regreg/problems/admm.py:11-101`

`assert (self.loss.shape == self.transform.output_shape)` (line 60) leaves only square transforms: a `D` with as many rows as columns,
`n`.  The inner minimisation `augmented_loss.solve(quadratic=identity_quadratic(0, 0, linear_term, 0))` and `atom.proximal` are
parameters; `fit_args` is part of the first one.  The constructor argument `quadratic` is stored and never used (lines 31, 38).
-/

namespace Verif.Model.Admm

noncomputable section

variable {n : ℕ}

/-- attributes of an `admm_problem`: the matrix `D`, `transform.affine_offset`, `augmented_param`, the minimiser of `augmented_loss` plus
a linear term, and `atom.proximal` -/
structure Problem (n : ℕ) where
  D : Fin n → Fin n → ℝ
  offset : Option (Fin n → ℝ)
  rho : ℝ
  solveLoss : (Fin n → ℝ) → Fin n → ℝ
  proximal : Quad (Fin n) ℝ → Fin n → ℝ

/-- `loss_coefs`, `dual_coefs`, `atom_coefs` -/
structure State (n : ℕ) where
  x : Fin n → ℝ
  y : Fin n → ℝ
  z : Fin n → ℝ

/-- the constructor, lines 43-45; `coefs` is `loss.coefs` -/
def init (coefs : Fin n → ℝ) : State n := ⟨coefs, fun _ => 0, fun _ => 0⟩

/-- `linear_transform.dot(v)`, i.e. `linear_map`, `affine/__init__.py:157-176, 749-766` -/
def linearMap (P : Problem n) (v : Fin n → ℝ) : Fin n → ℝ := fun i => ∑ j, P.D i j * v j

/-- `transform.affine_map(v)` -/
def affineMap (P : Problem n) (v : Fin n → ℝ) : Fin n → ℝ :=
  match P.offset with
  | none => linearMap P v
  | some a => fun i => linearMap P v i + a i

/-- `update_loss_coefs`, lines 62-75 -/
def updateLoss (P : Problem n) (s : State n) : State n :=
  let alpha : Fin n → ℝ := P.offset.getD fun _ => 0
  let linearTerm := linearMap P fun i => s.y i - P.rho * (s.z i - alpha i)
  { s with x := P.solveLoss linearTerm }

/-- `update_atom_coefs`, lines 77-85 -/
def updateAtom (P : Problem n) (s : State n) : State n :=
  { s with z := P.proximal (Quad.init (some P.rho) (some (.arr (affineMap P s.x))) (some (.arr fun i => -s.y i)) (some 0)) }

/-- `update_dual_coefs`, lines 87-92 -/
def updateDual (P : Problem n) (s : State n) : State n :=
  { s with y := fun i => s.y i + P.rho * (affineMap P s.x i - s.z i) }

/-- one pass of the loop, lines 96-98 -/
def step (P : Problem n) (s : State n) : State n := updateDual P (updateAtom P (updateLoss P s))

/-- `solve(niter)`, lines 94-98 -/
def solve (P : Problem n) : ℕ → State n → State n
  | 0, s => s
  | k + 1, s => solve P k (step P s)

end

end Verif.Model.Admm
