import Mathlib.Algebra.Order.BigOperators.Ring.Finset
import Mathlib.Algebra.Order.Field.Basic
import Mathlib.Data.Fintype.BigOperators

/-!
# Specification vocabulary: minimisers, projections, proximal points

Nothing in this file refers to the model of regreg.  Vectors are functions `ι → K` on a finite index type.
-/

namespace Verif.Spec

variable {K : Type*} [Field K] [LinearOrder K] [IsStrictOrderedRing K]
variable {ι : Type*} [Fintype ι]

/-- Euclidean inner product. -/
def dot (x y : ι → K) : K := ∑ i, x i * y i

/-- Squared Euclidean distance. -/
def sqDist (x y : ι → K) : K := ∑ i, (x i - y i) ^ 2

/-- `p` is the unique minimiser of `f` over the set `S`. -/
def IsUniqueMinOn {α : Type*} (f : α → K) (S : Set α) (p : α) : Prop :=
  p ∈ S ∧ ∀ z ∈ S, z ≠ p → f p < f z

/-- `p` is the Euclidean projection of `x` on `S`: the unique closest point. -/
def IsProj (S : Set (ι → K)) (x p : ι → K) : Prop :=
  IsUniqueMinOn (fun z => sqDist z x) S p

/-- `p` is the proximal point: the unique minimiser of `L/2‖z-x‖² + h z` over all `z`. -/
def IsProx (L : K) (h : (ι → K) → K) (x p : ι → K) : Prop :=
  IsUniqueMinOn (fun z => L / 2 * sqDist z x + h z) Set.univ p

/-- Proximal point of a penalty `h` with effective domain `S`. -/
def IsProxOn (L : K) (h : (ι → K) → K) (S : Set (ι → K)) (x p : ι → K) : Prop :=
  IsUniqueMinOn (fun z => L / 2 * sqDist z x + h z) S p

/-- l1 norm. -/
def norm1 (x : ι → K) : K := ∑ i, |x i|

/-- Largest coordinate. -/
def maxCoord [Nonempty ι] (x : ι → K) : K := Finset.univ.sup' Finset.univ_nonempty x

/-- `p` is the projection of the pair `x` on a set `S` of pairs (vector, number), for the Euclidean
distance of the concatenated vectors. -/
def IsProjPair (S : Set ((ι → K) × K)) (x p : (ι → K) × K) : Prop :=
  IsUniqueMinOn (fun z => sqDist z.1 x.1 + (z.2 - x.2) ^ 2) S p

end Verif.Spec
