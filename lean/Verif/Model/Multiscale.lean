import Mathlib.Algebra.BigOperators.Intervals
import Mathlib.Algebra.Order.Field.Basic
import Mathlib.Data.List.ProdSigma

/-!
# Model of `multiscale`, `regreg/affine/multiscale.py`

Signals of length `p` are functions on `ℕ` read at positions `< p`; output vectors are indexed by the position in
`slices`.
-/

namespace Verif.Model
namespace Multiscale

variable {K : Type*} [Field K]

/-- attributes of a `multiscale` object; `minsize` is the value of the attribute (line 43: `minsize or p**(1/3)`) -/
structure Obj (K : Type*) where
  p : ℕ
  minsize : ℕ
  /-- `_all`: no slices given, all intervals used -/
  all : Bool
  slices : List (ℕ × ℕ)
  /-- `None` or an array with one entry per slice -/
  scaling : Option (ℕ → K)

/-- the constructor without `slices`, lines 46-53: `np.indices((p,p))` in C order, mask `S[1]-S[0] >= minsize` -/
def mkAll (p minsize : ℕ) (scaling : Option (ℕ → K)) : Obj K :=
  ⟨p, minsize, true, ((List.range p).product (List.range p)).filter (fun s => decide (s.1 + minsize ≤ s.2)), scaling⟩

/-- the constructor with `slices`, lines 44-45, 54-55; also `update_slices`, lines 73-98 -/
def mkSlices (p minsize : ℕ) (slices : List (ℕ × ℕ)) (scaling : Option (ℕ → K)) : Obj K :=
  ⟨p, minsize, false, slices, scaling⟩

/-- `x - x.mean()` -/
def center (p : ℕ) (x : ℕ → K) : ℕ → K := fun l => x l - (∑ t ∈ Finset.range p, x t) / p

/-- `np.cumsum`, inclusive -/
def cumsum (x : ℕ → K) : ℕ → K := fun l => ∑ t ∈ Finset.range (l + 1), x t

/-- `output *= scaling` -/
def scaleBy (s : Option (ℕ → K)) (k : ℕ) (v : K) : K :=
  match s with
  | some s => v * s k
  | none => v

/-- `linear_map`, lines 100-134 -/
def lin (M : Obj K) (x : ℕ → K) : ℕ → K := fun k =>
  let xc := center M.p x
  let cs := cumsum xc
  let ij := M.slices.getD k (0, 0)
  let out :=
    if M.all = false then
      (if ij.1 ≥ 1 then cs (ij.2 - 1) - cs (ij.1 - 1) else cs (ij.2 - 1)) / ((ij.2 : K) - ij.1)     -- 121-127
    else
      let cs0 : ℕ → K := fun l => if l = 0 then 0 else cs (l - 1)                                    -- 129
      let D : K := cs0 ij.1 - cs0 ij.2                                                               -- 130
      let res : K := -D / ((ij.2 : K) - ij.1)                                                        -- 131
      res
  scaleBy M.scaling k out

/-- `v_scaled`, lines 152-157 -/
def vScaled (M : Obj K) (v : ℕ → K) : ℕ → K := fun k =>
  let ij := M.slices.getD k (0, 0)
  scaleBy M.scaling k (v k / ((ij.2 : K) - ij.1))

/-- `adjoint_map` of a one-dimensional array, lines 139-171.  `_output1[self._mask] = v_scaled` puts the entries of
`v_scaled` in order at the masked positions in C order, i.e. the one of slice `(i, j)` at `(i, j)`. -/
def adj [DecidableEq K] (M : Obj K) (v : ℕ → K) : ℕ → K := fun l =>
  let vs := vScaled M v
  let output : ℕ → K :=
    if M.all = false then fun l =>
      ∑ k ∈ (Finset.range M.slices.length).filter (fun k => vs k ≠ 0),                               -- 160-164
        if (M.slices.getD k (0, 0)).1 ≤ l ∧ l < (M.slices.getD k (0, 0)).2 then vs k else 0
    else
      let out1 : ℕ → ℕ → K := fun i j => if i + M.minsize ≤ j then vs (M.slices.idxOf (i, j)) else 0 -- 166-168
      let out2 : ℕ → K := fun l => ∑ i ∈ Finset.range M.p, out1 i l - ∑ j ∈ Finset.range M.p, out1 l j
      fun l => -cumsum out2 l                                                                        -- 169-170
  center M.p output l

end Multiscale
end Verif.Model
