import Verif.Model.AtomProximal
import Verif.Lemmas.Prox
import Mathlib.Tactic.FieldSimp
import Mathlib.Algebra.BigOperators.Field

set_option linter.unusedSectionVars false
set_option linter.unusedVariables false

namespace Verif.Lemmas
open Verif.Model Verif.Spec

variable {K : Type*} [Field K] [LinearOrder K] [IsStrictOrderedRing K]
variable {ι : Type*} [Fintype ι]

@[simp] lemma get_scalar (c : K) (i : ι) : (PyVec.scalar c : PyVec ι K).get i = c := rfl
@[simp] lemma get_arr (v : ι → K) (i : ι) : (PyVec.arr v).get i = v i := rfl
@[simp] lemma get_map₂ (f : K → K → K) (x y : PyVec ι K) (i : ι) :
    (PyVec.map₂ f x y).get i = f (x.get i) (y.get i) := by
  cases x <;> cases y <;> rfl
@[simp] lemma get_map (f : K → K) (x : PyVec ι K) (i : ι) : (x.map f).get i = f (x.get i) := by
  cases x <;> rfl

/-- coordinates of the center, 0 for `None` -/
def centerAt (q : Quad ι K) (i : ι) : K := q.center.elim 0 fun c => c.get i
/-- coordinates of the linear term, 0 for `None` -/
def linearAt (q : Quad ι K) (i : ι) : K := q.linear.elim 0 fun l => l.get i

lemma resid_eq (q : Quad ι K) (x : ι → K) (i : ι) : q.resid x i = x i - centerAt q i := by
  unfold Quad.resid centerAt
  cases h : q.center <;> simp

lemma funcVal_eq (q : Quad ι K) (x : ι → K) :
    q.funcVal x = q.coef / 2 * ∑ i, (x i - centerAt q i) ^ 2 + ∑ i, linearAt q i * x i + q.const := by
  unfold Quad.funcVal linearAt
  simp only [resid_eq]
  ring

lemma collapsedLinear_get (q : Quad ι K) (i : ι) :
    q.collapsedLinear.get i = linearAt q i - q.coef * centerAt q i := by
  unfold Quad.collapsedLinear linearAt centerAt
  cases h : q.center <;> cases h' : q.linear <;> simp
  ring

/-- excess of the true `‖center‖²` over the `norm(center)**2` used by `collapsed` -/
def centerDefect (q : Quad ι K) : K :=
  match q.center with
  | some (.scalar c) => ((Fintype.card ι : K) - 1) * c ^ 2
  | _ => 0

lemma collapsed_funcVal (q : Quad ι K) (x : ι → K) :
    q.collapsed.funcVal x = q.funcVal x - q.coef / 2 * centerDefect q := by
  have hc : q.collapsed.const + q.coef / 2 * centerDefect q = q.const + q.coef / 2 * ∑ i, centerAt q i ^ 2 := by
    unfold Quad.collapsed centerDefect centerAt
    rcases hq : q.center with _ | c
    · simp
    · cases c with
      | scalar c => simp [PyVec.normSq]; ring
      | arr v => simp [PyVec.normSq]; ring
  rw [funcVal_eq, funcVal_eq]
  have h1 : ∀ i, centerAt q.collapsed i = 0 := fun i => rfl
  have h2 : ∀ i, linearAt q.collapsed i = linearAt q i - q.coef * centerAt q i := collapsedLinear_get q
  have h3 : q.collapsed.coef = q.coef := rfl
  have e : ∑ i, (x i - centerAt q i) ^ 2 = ∑ i, x i ^ 2 - 2 * ∑ i, centerAt q i * x i + ∑ i, centerAt q i ^ 2 := by
    rw [Finset.mul_sum, ← Finset.sum_sub_distrib, ← Finset.sum_add_distrib]
    exact Finset.sum_congr rfl fun i _ => by ring
  have e2 : ∑ i, (linearAt q i - q.coef * centerAt q i) * x i =
      ∑ i, linearAt q i * x i - q.coef * ∑ i, centerAt q i * x i := by
    rw [Finset.mul_sum, ← Finset.sum_sub_distrib]
    exact Finset.sum_congr rfl fun i _ => by ring
  simp only [h1, h2, h3, sub_zero, e2, e]
  linear_combination hc

lemma add_funcVal (q o : Quad ι K) (x : ι → K) :
    (q.add (some o)).funcVal x = q.collapsed.funcVal x + o.collapsed.funcVal x := by
  rw [funcVal_eq, funcVal_eq, funcVal_eq]
  have h1 : ∀ q : Quad ι K, ∀ i, centerAt q.collapsed i = 0 := fun q i => rfl
  have h2 : ∀ i, centerAt (q.add (some o)) i = 0 := fun i => rfl
  have h3 : ∀ i, linearAt (q.add (some o)) i = q.collapsedLinear.get i + o.collapsedLinear.get i := by
    intro i; simp [linearAt, Quad.add]
  have h4 : ∀ q : Quad ι K, ∀ i, linearAt q.collapsed i = q.collapsedLinear.get i := fun q i => rfl
  have h5 : (q.add (some o)).coef = q.coef + o.coef := rfl
  have h6 : (q.add (some o)).const = q.collapsed.const + o.collapsed.const := rfl
  have h7 : ∀ q : Quad ι K, q.collapsed.coef = q.coef := fun q => rfl
  simp only [h1, h2, h3, h4, h5, h6, h7, add_mul, Finset.sum_add_distrib]
  ring

/-- a quadratic in collapsed form, completed square -/
lemma complete_square (c : K) (hc : c ≠ 0) (l x : ι → K) :
    c / 2 * ∑ i, x i ^ 2 + ∑ i, l i * x i =
      c / 2 * sqDist x (fun i => -(l i) / c) - (∑ i, l i ^ 2) / (2 * c) := by
  unfold sqDist
  rw [Finset.mul_sum, Finset.mul_sum, Finset.sum_div, ← Finset.sum_add_distrib, ← Finset.sum_sub_distrib]
  refine Finset.sum_congr rfl fun i _ => ?_
  field_simp
  ring

end Verif.Lemmas
