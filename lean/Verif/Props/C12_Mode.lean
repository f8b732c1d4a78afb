import Verif.Model.AtomMode
import Mathlib.Tactic.Linarith
import Mathlib.Tactic.NormNum

/-! # C12: an atom is always in exactly one of lagrange or bound mode -/

set_option linter.unusedSectionVars false
set_option linter.unusedVariables false

namespace Verif.Props
open Verif.Model Verif.Model.AtomState

variable {K : Type*} [Field K] [LinearOrder K] [IsStrictOrderedRing K]

/-- Specification: the abstract state of an atom is its mode with the current parameter. -/
inductive Mode12 (K : Type*) where
  | lagrange (v : K)
  | bound (v : K)

/-- Specification of an assignment of a number: accepted exactly in the matching mode, where it replaces the
parameter; otherwise AttributeError and no change. -/
def specAssign : Mode12 K → (toLagrange : Bool) → K → Mode12 K × Bool
  | .lagrange _, true, v => (.lagrange v, true)
  | .bound _, false, v => (.bound v, true)
  | m, _, _ => (m, false)

/-- Specification of a sequence of assignments. -/
def specRun : Mode12 K → List (Bool × K) → Mode12 K × List Bool
  | m, [] => (m, [])
  | m, (b, v) :: ops =>
    let r := specAssign m b v
    let r' := specRun r.1 ops
    (r'.1, r.2 :: r'.2)

/-- concrete object in an abstract state -/
def reprMode : Mode12 K → AtomState K
  | .lagrange v => ⟨some v, none⟩
  | .bound v => ⟨none, some v⟩

/-- the assignments of numbers -/
def toOp : Bool × K → Op K
  | (true, v) => .setLagrange (some v)
  | (false, v) => .setBound (some v)

/-- C12: construction succeeds exactly when exactly one parameter is given and it is nonnegative; then the atom
is in the corresponding mode with that parameter. -/
theorem C12_init (lagrange bound : Option K) :
    (∀ s, AtomState.init lagrange bound = .ok s ↔
      (∃ l, 0 ≤ l ∧ lagrange = some l ∧ bound = none ∧ s = reprMode (.lagrange l)) ∨
      (∃ b, 0 ≤ b ∧ lagrange = none ∧ bound = some b ∧ s = reprMode (.bound b))) ∧
    ((∃ s, AtomState.init lagrange bound = .ok s) ∨ AtomState.init lagrange bound = .error .valueError) := by
  rcases lagrange with _ | l <;> rcases bound with _ | b
  · refine ⟨fun s => ?_, Or.inr rfl⟩
    simp [AtomState.init]
  · by_cases h : b < 0
    · refine ⟨fun s => ?_, Or.inr (by simp [AtomState.init, h])⟩
      simp only [AtomState.init, if_pos h]
      constructor
      · intro h'; cases h'
      · rintro (⟨l, _, h1, _⟩ | ⟨b', h1, _, h2, _⟩)
        · cases h1
        · cases h2; exact absurd h1 (not_le.2 h)
    · refine ⟨fun s => ?_, Or.inl ⟨_, by simp only [AtomState.init, if_neg h]; rfl⟩⟩
      simp only [AtomState.init, if_neg h]
      constructor
      · intro h'; cases h'; exact Or.inr ⟨b, not_lt.1 h, trivial, rfl, rfl⟩
      · rintro (⟨l, _, h1, _⟩ | ⟨b', h1, _, h2, h3⟩)
        · cases h1
        · cases h2; rw [h3]; rfl
  · by_cases h : l < 0
    · refine ⟨fun s => ?_, Or.inr (by simp [AtomState.init, h])⟩
      simp only [AtomState.init, if_pos h]
      constructor
      · intro h'; cases h'
      · rintro (⟨l', h1, h2, _⟩ | ⟨b', h1, h2, _⟩)
        · cases h2; exact absurd h1 (not_le.2 h)
        · cases h2
    · refine ⟨fun s => ?_, Or.inl ⟨_, by simp only [AtomState.init, if_neg h]; rfl⟩⟩
      simp only [AtomState.init, if_neg h]
      constructor
      · intro h'; cases h'; exact Or.inl ⟨l, not_lt.1 h, rfl, trivial, rfl⟩
      · rintro (⟨l', h1, h2, _, h3⟩ | ⟨b', h1, h2, _⟩)
        · cases h2; rw [h3]; rfl
        · cases h2
  · refine ⟨fun s => ?_, Or.inr rfl⟩
    simp [AtomState.init]

/-- C12 (partial): through any sequence of assignments of numbers the object refines the specification: the mode
never changes, wrong-mode assignments raise AttributeError and change nothing, and the parameter is the last one
successfully assigned.  Missing: assignments of `None`, for which the claim is false (`C12_none_fails`), and the
nonnegativity of assigned values, which is not checked (`C12_negative_fails`). -/
theorem C12_run_partial (m : Mode12 K) (ops : List (Bool × K)) :
    (reprMode m).run (ops.map toOp) =
      (reprMode (specRun m ops).1,
        (specRun m ops).2.map fun ok => if ok then none else some .attributeError) := by
  induction ops generalizing m with
  | nil => rfl
  | cons op ops ih =>
    obtain ⟨b, v⟩ := op
    cases m <;> cases b <;>
      simp [run, step, toOp, specRun, specAssign, reprMode, setLagrange, setBound] <;>
      first
        | (rename_i w; have := ih (.lagrange w); simp only [reprMode] at this; simp [this])
        | (have := ih (.lagrange v); simp only [reprMode] at this; simp [this])
        | (have := ih (.bound v); simp only [reprMode] at this; simp [this])
        | (rename_i w; have := ih (.bound w); simp only [reprMode] at this; simp [this])

/-- specification consequence: the mode is never changed -/
theorem C12_mode_constant_partial (m : Mode12 K) (ops : List (Bool × K)) :
    (∃ v, m = .lagrange v) ↔ ∃ v, ((reprMode m).run (ops.map toOp)).1 = reprMode (.lagrange v) := by
  rw [C12_run_partial]
  have key : ∀ (ops : List (Bool × K)) (m : Mode12 K), (∃ v, m = .lagrange v) ↔ ∃ v, (specRun m ops).1 = .lagrange v := by
    intro ops
    induction ops with
    | nil => intro m; rfl
    | cons op ops ih =>
      intro m
      obtain ⟨b, v⟩ := op
      simp only [specRun]
      rw [← ih]
      cases m <;> cases b <;> simp [specAssign]
  rw [key ops m]
  constructor
  · rintro ⟨v, h⟩; exact ⟨v, by simp [h]⟩
  · rintro ⟨v, h⟩
    refine ⟨v, ?_⟩
    cases hs : (specRun m ops).1 with
    | lagrange w => simp [hs, reprMode] at h; rw [h]
    | bound w => simp [hs, reprMode] at h

/-- C12 is false for assignments of `None`: `atom.lagrange = None; atom.bound = 3` switches an atom from lagrange
to bound mode without an exception, through a state that is in neither mode. -/
theorem C12_none_fails :
    ((reprMode (.lagrange (2:ℚ))).run [.setLagrange none]).1 = ⟨none, none⟩ ∧
    (reprMode (.lagrange (2:ℚ))).run [.setLagrange none, .setBound (some 3)] =
      (reprMode (.bound 3), [none, none]) := ⟨rfl, rfl⟩

/-- C12: negative values rejected by the constructor are accepted by the setters, and such an atom can no longer be
copied. -/
theorem C12_negative_fails :
    AtomState.init (some (-1 : ℚ)) none = .error .valueError ∧
    (reprMode (.lagrange (2:ℚ))).run [.setLagrange (some (-1))] = (reprMode (.lagrange (-1)), [none]) ∧
    (reprMode (.lagrange (-1 : ℚ))).copy = .error .valueError := by
  refine ⟨?_, rfl, ?_⟩ <;> simp [AtomState.init, AtomState.copy, reprMode]

/-- C12: a keyword parameter overrides the stored one; with no keyword the stored parameter is used in the matching
mode and ValueError is raised in the other mode. -/
theorem C12_resolve (m : Mode12 K) (kw : K) :
    (reprMode m).resolveLagrange (some kw) = .ok kw ∧ (reprMode m).resolveBound (some kw) = .ok kw ∧
    (match m with
      | .lagrange v => (reprMode m).resolveLagrange none = .ok v ∧ (reprMode m).resolveBound none = .error .valueError
      | .bound v => (reprMode m).resolveBound none = .ok v ∧ (reprMode m).resolveLagrange none = .error .valueError) := by
  cases m <;> exact ⟨rfl, rfl, rfl, rfl⟩

/-- C12: copying an atom with a nonnegative parameter preserves mode and parameter. -/
theorem C12_copy (m : Mode12 K) (h : match m with | .lagrange v => 0 ≤ v | .bound v => 0 ≤ v) :
    (reprMode m).copy = .ok (reprMode m) := by
  cases m <;> simp [AtomState.copy, AtomState.init, reprMode, not_lt.2 h]

example : (reprMode (.bound (1:ℚ))).run [.setLagrange (some 2), .setBound (some 5)] =
    (reprMode (.bound 5), [some .attributeError, none]) := rfl

end Verif.Props
