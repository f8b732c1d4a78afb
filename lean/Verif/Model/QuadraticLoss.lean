import Verif.Model.Container
import Verif.Model.ConjugateClass

/-!
# Model of the constructors and of the conjugate of `quadratic_loss` (regreg/smooth/quadratic.py) and of the factory methods
`affine`, `linear`, `shift` of a smooth atom (regreg/smooth/__init__.py)

Exact reals; arrays are one dimensional.
-/

namespace Verif.Model
open Verif.Spec

noncomputable section

/-- An object of the class `quadratic_loss`: `coef`, `offset`, `Q` with its `Q_transform`, `quadratic`. -/
structure QuadObj (n : ℕ) where
  coef : ℝ
  offset : Option (Fin n → ℝ)
  Q : Smooth.QForm n
  quad : Quad (Fin n) ℝ

/-- the quadratic `sq(0,0,0,0)` of `composite.__init__`, problems/composite.py 31-34 -/
def zeroQuad (n : ℕ) : Quad (Fin n) ℝ := ⟨0, some (.scalar 0), some (.scalar 0), 0⟩

namespace QuadObj

variable {n : ℕ}

open Classical in
/-- `quadratic_loss(shape, Q, Qdiag, coef, offset, quadratic)`, smooth/quadratic.py 52-71, with `smooth_atom.__init__`
(smooth/__init__.py 43-52) and `composite.__init__` (problems/composite.py 21-47: an offset of zeros is read back as `None`).
`none`: ValueError. -/
def init (Q : Smooth.QForm n) (coef : ℝ) (offset : Option (Fin n → ℝ)) (quadratic : Option (Quad (Fin n) ℝ)) : Option (QuadObj n) :=
  let off := match offset with
    | none => none
    | some o => if ∃ i, o i ≠ 0 then some o else none
  if coef < 0 then none else some ⟨coef, off, Q, quadratic.getD (zeroQuad n)⟩

/-- the object with its `smooth_objective` and `quadratic` -/
def toLoss (a : QuadObj n) : QuadLoss n := ⟨Smooth.quadraticLoss a.coef a.offset a.Q, a.quad⟩

/-- `quadratic_loss.fromarray(Q, offset, quadratic)`, smooth/quadratic.py 75-83 -/
def fromarray (Q : Fin n → Fin n → ℝ) (offset : Option (Fin n → ℝ)) (quadratic : Option (Quad (Fin n) ℝ)) : Option (QuadObj n) :=
  init (.full Q) 1 offset quadratic

/-- `quadratic_loss.squared_transform(transform, offset, quadratic)`, smooth/quadratic.py 85-96; `transform` is a transform
object (a matrix becomes one in `astransform`, affine/__init__.py 739-747) -/
def squaredTransform {k : ℕ} (T : Aff ℝ n k) (offset : Option (Fin n → ℝ)) (quadratic : Option (Quad (Fin n) ℝ)) :
    Option (QuadObj n) :=
  init (.transform (.composition (.adjoint T) T)) 1 offset quadratic

/-- `quadratic_loss.diagonal(D, offset, quadratic)`, smooth/quadratic.py 98-109 -/
def diagonal (D : Fin n → ℝ) (offset : Option (Fin n → ℝ)) (quadratic : Option (Quad (Fin n) ℝ)) : Option (QuadObj n) :=
  init (.diag D) 1 offset quadratic

/-- Result of `get_conjugate`. -/
inductive Conj (n : ℕ)
  | ok (f : Objective n)
  | valueError
  | attributeError
  | typeError

/-- `quadratic_loss.get_conjugate(factor)`, smooth/quadratic.py 166-191.
* No `Q`: `smooth_conjugate(zero(shape, quadratic=as_quad))`, whose constructor raises ValueError if the coefficient is 0
  (problems/composite.py 247-248).
* A diagonal `Q`: `Q_transform` is a `scaler` (affine/__init__.py 339-353), which has no attribute `diagD`.
* Any other `Q`: line 191 or, with `factor`, `np.identity(self.shape)` of a tuple on line 186.

The in-place change of the fresh `sq.linear_term` on line 175 has no effect outside. -/
def getConjugate (a : QuadObj n) (factor : Bool) : Conj n :=
  match a.Q with
  | .none =>
    let asQuad := ((Quad.init (some a.coef) (a.offset.map .arr) (some (.scalar 0)) (some 0)).add (some a.quad)).collapsed
    if (asQuad.add (some (zeroQuad n))).coef = 0 then .valueError else .ok (Container.conjOfQuad asQuad)
  | .diag _ => .attributeError
  | _ => if factor then .typeError else .valueError

/-- the argument names of `quadratic_loss.__init__`, smooth/quadratic.py 52-59, seen by `inspect.getargspec` -/
def argNames : List String := ["self", "shape", "Q", "Qdiag", "coef", "offset", "quadratic", "initial"]

end QuadObj

/-- `acceptable_init_args`, smooth/__init__.py 143-156 -/
def acceptableInitArgs (args keywords : List String) : Bool :=
  keywords.all fun kw => args.contains kw && !(["self", "shape", "coef", "quadratic", "initial", "offset"].contains kw)

namespace QuadObj

/-- An `affine_smooth` object built from a quadratic loss: the atom, the transform, and its own attribute `quadratic`, which
`affine_smooth.__init__` (smooth/__init__.py 191-200) does not set: it is created on first use with all fields `None`
(problems/composite.py 126-132). -/
structure Composed (m k : ℕ) where
  atom : QuadObj k
  transform : Aff ℝ m k
  quad : Quad (Fin m) ℝ

/-- smooth part and quadratic of an `affine_smooth` object -/
def Composed.toLoss {m k : ℕ} (c : Composed m k) : QuadLoss m := ⟨Smooth.affineSmooth c.atom.toLoss.obj c.transform, c.quad⟩

/-- `affine_smooth.dual`, smooth/__init__.py 255-261: any exception gives `None` -/
def Composed.dual {m k : ℕ} (c : Composed m k) : Option (Aff ℝ m k × Objective k) :=
  match c.atom.getConjugate false with
  | .ok f => some (c.transform, f)
  | _ => none

/-- The argument `linear_operator`: a matrix or a transform object. -/
inductive Operator (m k : ℕ)
  | matrix (X : Fin k → Fin m → ℝ)
  | transform (T : Aff ℝ m k)

/-- `quadratic_loss.affine(X, offset, coef, quadratic=quadratic, **kws)`, smooth/__init__.py 79-99, with `diag=False`.
`keywords` are the names in `kws`, `Q` what they say.  `none`: ValueError. -/
def affine {m k : ℕ} (X : Operator m k) (offset : Fin k → ℝ) (coef : ℝ) (quadratic : Option (Quad (Fin k) ℝ)) (keywords : List String)
    (Q : Smooth.QForm k) : Option (Composed m k) :=
  let l := match X with                                                       -- 85-88
    | .matrix X => Aff.matrix X none
    | .transform T => T
  if !acceptableInitArgs argNames keywords then none
  else (init Q coef (some fun i => -offset i) quadratic).map fun a => ⟨a, l, Quad.init none none none none⟩

/-- `quadratic_loss.linear(X, coef, offset=offset, quadratic=quadratic, **kws)`, smooth/__init__.py 101-114, with
`diag=False` -/
def linear {m k : ℕ} (X : Operator m k) (coef : ℝ) (offset : Option (Fin k → ℝ)) (quadratic : Option (Quad (Fin k) ℝ))
    (keywords : List String) (Q : Smooth.QForm k) : Option (Composed m k) :=
  let l := match X with                                                       -- 111: `affine_transform(X, None)`
    | .matrix X => Aff.matrix X none
    | .transform T => .wrap T none
  if !acceptableInitArgs argNames keywords then none
  else (init Q coef offset quadratic).map fun a => ⟨a, l, Quad.init none none none none⟩

/-- `quadratic_loss.shift(offset, coef, quadratic=quadratic, **kws)`, smooth/__init__.py 116-126 -/
def shift {n : ℕ} (offset : Fin n → ℝ) (coef : ℝ) (quadratic : Option (Quad (Fin n) ℝ)) (keywords : List String)
    (Q : Smooth.QForm n) : Option (QuadObj n) :=
  if !acceptableInitArgs argNames keywords then none
  else init Q coef (some offset) quadratic

end QuadObj

/-- An object of the class `cholesky`, smooth/quadratic.py 193-233, without `banded`: `solve` is `cho_solve(cho_factor(Q), ·)`. -/
structure Chol (n : ℕ) where
  solve : (Fin n → ℝ) → Fin n → ℝ

namespace Chol

/-- `linear_map`, smooth/quadratic.py 223-227 -/
def linearMap {n : ℕ} (c : Chol n) (x : Fin n → ℝ) : Fin n → ℝ := c.solve x

/-- `affine_map`, smooth/quadratic.py 229-230 -/
def affineMap {n : ℕ} (c : Chol n) (x : Fin n → ℝ) : Fin n → ℝ := c.linearMap x

/-- `adjoint_map`, smooth/quadratic.py 232-233 -/
def adjointMap {n : ℕ} (c : Chol n) (x : Fin n → ℝ) : Fin n → ℝ := c.linearMap x

end Chol

end

end Verif.Model
