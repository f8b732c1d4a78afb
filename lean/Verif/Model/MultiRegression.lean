import Verif.Model.Multinomial
import Verif.Model.AnyLoss
import Verif.Model.EpiCone
import Verif.Model.BlockNorms
import Verif.Model.SvdNorms
import Verif.Model.AtomRegression

/-!
# Model of `simple_problem(mglm, matrix atom)`

A matrix of coefficients of shape `(p, q)` is handed to `FISTA` as it is: `algorithms.py:149-156, 253-260` reshape to vectors or use
the Frobenius norm, so the iterates are vectors of length `p * q` in C order.  `mglm` over a `stacked_common_loglike` with its
state, `mglm` over a multinomial loss, and the atoms of `block_norms.py`, `sparse_group_block.py` and `svd_norms.py` as classes
derived from `seminorm`.
-/

namespace Verif.Model
open Verif.Spec Verif.Model.Block

noncomputable section

variable {n p q : ℕ}

/-- `mglm` over a `stacked_common_loglike`, `mglm.py:32-81` -/
structure StackedGlm (p n q : ℕ) where
  X : Fin n → Fin p → ℝ
  loss : Stacked n q
  offset : Option (Fin p → Fin q → ℝ)
  /-- the array `self.case_weights` -/
  caseWeights : Fin n → ℝ

/-- the vector of length `p * q` as a matrix -/
def rows (x : Fin (p * q) → ℝ) : Fin p → Fin q → ℝ := fun k j => matOf x (k, j)

/-- the matrix as a vector of length `p * q` -/
def unrows (B : Fin p → Fin q → ℝ) : Fin (p * q) → ℝ := flatten fun ij => B ij.1 ij.2

namespace StackedGlm

/-- `mglm.__init__`, `mglm.py:32-81`: no check on the weights -/
def init (X : Fin n → Fin p → ℝ) (loss : Stacked n q) (offset : Option (Fin p → Fin q → ℝ)) (caseWeights : Option (Fin n → ℝ)) :
    StackedGlm p n q :=
  { X := X, loss := loss, offset := offset, caseWeights := caseWeights.getD fun _ => 1 }

/-- `smooth_objective(beta, mode)`, inherited from `glm` (`glm.py:96-135`), and the object after the call: the loss writes its buffer
and may write the weight array it is handed (`mglm.py:336-344`). -/
def smoothObjective (G : StackedGlm p n q) (B : Fin p → Fin q → ℝ) (mode : Mode) : Eval2 p q × StackedGlm p n q :=
  let B' := MultiLoss.applyOffset G.offset B
  let r := G.loss.smoothObjective (some G.caseWeights) (Mglm.dot G.X B') mode
  let G' := { G with loss := r.2.1, caseWeights := r.2.2.getD G.caseWeights }
  match mode, r.1 with
  | .func, .val f => (.val f, G')
  | .grad, .grad g _ => (.grad (Mglm.dotT G.X g) false, G')
  | .both, .both f g _ => (.both f (Mglm.dotT G.X g) false, G')
  | _, .valueError => (.valueError, G')
  | _, _ => (.typeError, G')

/-- the object after a history of calls -/
def run (G : StackedGlm p n q) : List ((Fin p → Fin q → ℝ) × Mode) → StackedGlm p n q
  | [] => G
  | c :: l => run (G.smoothObjective c.1 c.2).2 l

/-- the object as a loss given the keyword `quadratic`: what one call returns -/
def toLoss (G : StackedGlm p n q) (quad : Option (Quad (Fin (p * q)) ℝ)) : QuadLoss (p * q) :=
  { obj := fun x mode => match (G.smoothObjective (rows x) mode).1 with
      | .val f => .val f
      | .grad g _ => .grad (unrows g)
      | .both f g _ => .both f (unrows g)
      | .valueError => .valueError
      | .typeError => .valueError
    quad := quad.getD (Quad.init none none none none) }

end StackedGlm

/-- `stacked_common_loglike.gaussian(responses, case_weights, coef, offset, quadratic, initial)`, `mglm.py:428-474`: one
`gaussian_loglike(response.shape, response, coef=coef)` per response (`losses.py`, which refuses a negative `coef`); `coef` is not
passed on to the stack.  At least one response.  `none`: ValueError. -/
def Stacked.gaussian (Y : Fin n → Fin q → ℝ) (coef : ℝ) (offset : Option (Fin n → Fin q → ℝ)) (caseWeights : Option (Fin n → ℝ)) :
    Option (Stacked n q) :=
  if coef < 0 then none
  else Stacked.init (fun j => ⟨.gaussian fun i => Y i j, coef, none, Quad.init none none none none, none⟩) 1 offset caseWeights

/-- a multinomial `mglm` given the keyword `quadratic`, as a loss -/
def Mglm.toLoss (G : Mglm p n q) (quad : Option (Quad (Fin (p * q)) ℝ)) : QuadLoss (p * q) :=
  { obj := fun x mode => match G.smoothObjective (rows x) mode with
      | .val f => .val f
      | .grad g _ => .grad (unrows g)
      | .both f g _ => .both f (unrows g)
      | .valueError => .valueError
      | .typeError => .valueError
    quad := quad.getD (Quad.init none none none none) }

/-! ### matrix atoms -/

/-- an array with a nan is `none`: `FISTA.fit` raises on the objective of such coefficients (`algorithms.py:112-113`) -/
def allNumbers (a : Fin n × Fin p → Option ℝ) : Option (Mat n p) :=
  if ∀ ij, (a ij).isSome then some fun ij => (a ij).getD 0 else none

/-- a class derived from `seminorm` whose methods begin with `arg = arg.reshape(self.shape)` -/
def matrixCls (sem : Mat n p → ℝ → ObjVal) (con : Mat n p → ℝ → ObjVal) (lag : Mat n p → ℝ → ℝ → Option (Mat n p))
    (bnd : Mat n p → ℝ → Option (Mat n p)) : SeminormClass (n * p) :=
  { seminorm := fun x l _ => sem (matOf x) l
    constraint := fun x b => con (matOf x) b
    lagrangeProx := fun x L l => (lag (matOf x) L l).map flatten
    boundProx := fun x b => (bnd (matOf x) b).map flatten }

/-- `l1_l2`, `block_norms.py:443-553` -/
def Block.l1l2Cls : SeminormClass (n * p) :=
  matrixCls (fun X l => .num (L1L2.seminorm (n := n) (p := p) X l)) (fun X b => ObjVal.ofTop (L1L2.constraint X b))
    (fun X L l => allNumbers (L1L2.lagrangeProx X L l)) (fun X b => (L1L2.boundProx X b).bind allNumbers)

/-- `linf_l2`, `block_norms.py:239-351` -/
def Block.linfl2Cls : SeminormClass ((n + 1) * p) :=
  matrixCls (fun X l => .num (LinfL2.seminorm (n := n) (p := p) X l)) (fun X b => ObjVal.ofTop (LinfL2.constraint X b))
    (fun X L l => (LinfL2.lagrangeProx X L l).bind allNumbers) (fun X b => allNumbers (LinfL2.boundProx X b))

/-- `l1_l1`, `block_norms.py:555-639` -/
def Block.l1l1Cls : SeminormClass (n * p) :=
  matrixCls (fun X l => .num (L1L1.seminorm (n := n) (p := p) X l)) (fun X b => ObjVal.ofTop (L1L1.constraint X b))
    (fun X L l => some (L1L1.lagrangeProx X L l)) L1L1.boundProx

/-- `linf_linf`, `block_norms.py:353-441` -/
def Block.linflinfCls : SeminormClass ((n + 1) * (p + 1)) :=
  matrixCls (fun X l => .num (LinfLinf.seminorm (n := n) (p := p) X l)) (fun X b => ObjVal.ofTop (LinfLinf.constraint X b))
    LinfLinf.lagrangeProx (fun X b => some (LinfLinf.boundProx X b))

/-- `sparse_group_block`, `sparse_group_block.py:26-144`: `bound_prox` raises NotImplementedError, and so does `constraint` (TypeError:
`np.sqrt(np.sum(x**2), 1)` takes 1 for an output array); an exception is reported as nan -/
def Block.sparseCls (l1Weight l2Weight : ℝ) : SeminormClass (n * p) :=
  matrixCls (fun X l => .num (Sparse.seminorm (n := n) (p := p) X l1Weight l2Weight l)) (fun _ _ => .nan)
    (fun X L l => some (Sparse.prox X l1Weight l2Weight L l)) fun _ _ => none

/-- the value of `_gauge_function_dual` compared with the bound; an exception is reported as nan -/
def Block.dualConstraintVal (r : Option (Gauge.Result ℝ)) (b : ℝ) : ObjVal :=
  match r.bind fun r => Sparse.dualConstraint r b with
  | some v => ObjVal.ofTop v
  | none => .nan

/-- `sparse_group_block_dual`, `sparse_group_block.py:146-252`: `lagrange_prox` raises NotImplementedError; the gauge is searched for
with the default tolerance `1.e-6` and 50 iterations (`sparse_group_block.py:273-277`), `fuel X` bounds the number of passes of its
`while` loop at `X`.  Simplification: `seminorm`, which is not used in bound form, is reported as nan. -/
def Block.sparseDualCls (l1Weight l2Weight : ℝ) (fuel : Mat n p → ℕ) : SeminormClass (n * p) :=
  matrixCls (fun _ _ => .nan)
    (fun X b => Block.dualConstraintVal (Sparse.gaugeDual (n := n) (p := p) X l1Weight l2Weight (1 / 10 ^ 6) 50 (fuel X)) b)
    (fun _ _ _ => none) (fun X b => some (Sparse.dualBoundProx X l1Weight l2Weight b))

/-- `nuclear_norm`, `svd_norms.py:35-110`; `svd` is `np.linalg.svd` -/
def Svd.nuclearCls {k : ℕ} (svd : Mat n p → Svd.Triple n p k) : SeminormClass (n * p) :=
  matrixCls (fun X l => .num (Svd.Nuclear.seminorm (svd X) l)) (fun X b => ObjVal.ofTop (Svd.Nuclear.constraint (svd X) b))
    (fun X L l => some (Svd.Nuclear.lagrangeProx (svd X) L l)) (fun X b => Svd.Nuclear.boundProx (svd X) b)

/-- `operator_norm`, `svd_norms.py:112-184` -/
def Svd.operatorCls {k : ℕ} (svd : Mat n p → Svd.Triple n p k) : SeminormClass (n * p) :=
  matrixCls (fun X l => .num (Svd.Operator.seminorm (svd X) l)) (fun X b => ObjVal.ofTop (Svd.Operator.constraint (svd X) b))
    (fun X L l => Svd.Operator.lagrangeProx (svd X) L l) (fun X b => some (Svd.Operator.boundProx (svd X) b))

end
end Verif.Model
