import Verif.Model.AffineAtom
import Verif.Spec.Opt

/-!
# Model of `huberized_svm` (`regreg/smooth/losses.py`)

The design `X` is an ndarray with one row per label, at least one row.
-/

namespace Verif.Model

open Verif.Spec (Mode Eval maxCoord)

noncomputable section

/-- A `huberized_svm` object: `self.smoothed_atom` (see `AffAtom.smoothed`) and the attributes set by
`smooth_atom.__init__`. -/
structure HuberizedSvm (p n : ℕ) where
  smoothedAtom : SmoothConj n × Aff ℝ p (n + 1)
  coef : ℝ
  offset : Option (Fin p → ℝ)
  quad : Quad (Fin p) ℝ

namespace HuberizedSvm

variable {p n : ℕ}

open Classical in
/-- `Y = 2 * (labels == np.max(labels)) - 1`, `losses.py:38` -/
def signs (labels : Fin (n + 1) → ℝ) : Fin (n + 1) → ℝ := fun i => 2 * (if labels i = maxCoord labels then 1 else 0) - 1

open Classical in
/-- `huberized_svm.__init__`, `losses.py:18-41`; `none` is a ValueError: a negative `coef`
(`smooth/__init__.py:48-49`), more than two labels, a zero smoothing parameter (`atoms/__init__.py:193-195`).
Without `quadratic` the zero quadratic is used. -/
def init (X : Fin (n + 1) → Fin p → ℝ) (labels : Fin (n + 1) → ℝ) (smoothingParameter : ℝ) (coef : ℝ)
    (offset : Option (Fin p → ℝ)) (quadratic : Option (Quad (Fin p) ℝ)) : Option (HuberizedSvm p n) :=
  if coef < 0 then none                                                             -- 28-33
  else if (Finset.univ.image labels).card > 2 then none                             -- 35-36
  else
    let Y := signs labels
    match AtomObj.affine .positivePart (.matrix (fun i j => -Y i * X i j) none) (some (.arr fun _ => 1)) (some 1) none none with
    | none => none                                                                  -- 39
    | some atom =>
      let Q := Quad.init (some smoothingParameter) (some (.scalar 0)) (some (.scalar 0)) (some 0)   -- 40
      match atom.smoothed Q with                                                    -- 41
      | none => none
      | some s => some ⟨s, coef, offset, quadratic.getD ⟨0, some (.scalar 0), some (.scalar 0), 0⟩⟩

/-- `huberized_svm.smooth_objective`, `losses.py:43-70` -/
def smoothObjective (L : HuberizedSvm p n) (beta : Fin p → ℝ) (mode : Mode) : Eval p :=
  smoothedObjective L.smoothedAtom beta mode

end HuberizedSvm

end

end Verif.Model
