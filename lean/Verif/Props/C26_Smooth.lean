import Verif.Model.Smooth
import Verif.Lemmas.Smooth
import Mathlib.Analysis.Calculus.Deriv.Mul
import Mathlib.Tactic.FieldSimp
import Mathlib.Tactic.FinCases
import Mathlib.Tactic.NormNum
import Mathlib.Tactic.Linarith

/-!
# C26, C27: composition of a smooth objective with an affine map, and sums of smooth objectives
-/

set_option linter.unusedSectionVars false
set_option linter.unusedVariables false

namespace Verif.Props
open Verif.Model Verif.Spec Verif.Lemmas

/-- **C26** `affine_smooth(f, T)` evaluates to `f(Tx)` and `T'(grad f(Tx))` in every documented mode, whatever the
transform and whatever atom. -/
theorem C26_value {m k : ℕ} (T : Aff ℝ m k) (atom : Objective k) (f : (Fin k → ℝ) → ℝ) (g : (Fin k → ℝ) → Fin k → ℝ)
    (h : Evaluates atom f g) :
    Evaluates (Smooth.affineSmooth atom T) (fun x => f (T.aff x)) (fun x => T.adj (g (T.aff x))) := by
  intro x
  obtain ⟨h1, h2, h3⟩ := h (T.aff x)
  simp [Smooth.affineSmooth, h1, h2, h3]

/-- **C26** chain rule.  If the atom's gradient is the gradient of its value at `Tx`, then the vector `affine_smooth`
returns is the gradient of the composed value at `x`.  Missing: transforms containing a `selector` with repeated
positions, for which it is false (`C26_repeated_selector_fails`). -/
theorem C26_chain_rule_partial {m k : ℕ} (T : Aff ℝ m k) (hT : distinctSelectors T) (atom : Objective k)
    (f : (Fin k → ℝ) → ℝ) (g : (Fin k → ℝ) → Fin k → ℝ) (h : Evaluates atom f g) (x : Fin m → ℝ)
    (hg : IsGradientAt f (g (T.aff x)) (T.aff x)) :
    ∃ F G, Evaluates (Smooth.affineSmooth atom T) F G ∧ (∀ y, F y = f (T.aff y)) ∧ IsGradientAt F (G x) x := by
  refine ⟨_, _, C26_value T atom f g h, fun _ => rfl, ?_⟩
  have hm := C24_matrix T hT
  have e : ∀ y, T.aff y = fun i => ∑ j, toMat T i j * y j + T.aff (fun _ => 0) i := by
    intro y; funext i; rw [C25_affine T hT y i, hm.1]; rfl
  have h2 : IsGradientAt f (g (T.aff x)) (fun i => ∑ j, toMat T i j * x j + T.aff (fun _ => 0) i) := by
    rw [← e]; exact hg
  refine grad_congr (grad_comp_affine _ _ x h2) ?_ ?_
  · funext y; rw [e y]
  · funext j; rw [hm.2]; simp [Matrix.mulVec, dotProduct, Matrix.transpose_apply]

/-- the hypotheses are met: least squares through a matrix with an offset -/
example : distinctSelectors (Aff.matrix (fun (i : Fin 2) (j : Fin 3) => (i : ℝ) + j) (some fun _ => 1) : Aff ℝ 3 2) := by
  trivial

private lemma quadVal {n : ℕ} (coef : ℝ) (offset : Option (Fin n → ℝ)) (Q : Smooth.QForm n) :
    Evaluates (Smooth.quadraticLoss coef offset Q)
      (fun x => coef * ((∑ i, Smooth.applyOffset offset x i * Q.app (Smooth.applyOffset offset x) i) / 2))
      (fun x i => coef * Q.app (Smooth.applyOffset offset x) i) := by
  have hs : ∀ v : Fin n → ℝ, Real.sqrt (∑ i, v i ^ 2) ^ 2 = ∑ i, v i * v i := by
    intro v
    rw [Real.sq_sqrt (Finset.sum_nonneg fun i _ => sq_nonneg _)]
    exact Finset.sum_congr rfl fun i _ => by ring
  intro x
  cases Q <;> simp [Smooth.quadraticLoss, scaleR_eq, scaleV_eq, Smooth.QForm.app, hs, mul_div_assoc]

/-- **C26** (scaling) the value and the gradient of `quadratic_loss(shape, Q, coef=c, offset=o)` are `c` times those
of the same loss with coefficient one. -/
theorem C26_coef {n : ℕ} (c : ℝ) (o : Option (Fin n → ℝ)) (Q : Smooth.QForm n) :
    ∃ f g, Evaluates (Smooth.quadraticLoss 1 o Q) f g ∧
      Evaluates (Smooth.quadraticLoss c o Q) (fun x => c * f x) (fun x i => c * g x i) := by
  refine ⟨_, _, quadVal 1 o Q, ?_⟩
  simpa using quadVal c o Q

/-- **C26** `squared_error(X, Y, coef=c)` is `c/2 ‖X β - Y‖²` with gradient `c X'(X β - Y)`, for every design matrix
and every `β`: the two sign changes of the offset cancel. -/
theorem C26_squared_error {m k : ℕ} (X : Fin k → Fin m → ℝ) (Y : Fin k → ℝ) (c : ℝ) :
    Evaluates (Smooth.squaredError (.matrix X none) Y c)
      (fun β => c / 2 * ∑ i, (∑ j, X i j * β j - Y i) ^ 2)
      (fun β j => c * ∑ i, X i j * (∑ l, X i l * β l - Y i)) := by
  have h := C26_value (.matrix X none) _ _ _ (quadVal c (some fun i => -(-Y i)) .none)
  intro β
  have hβ := h β
  have e : ∀ i, (Aff.matrix X none : Aff ℝ m k).aff β i = ∑ j, X i j * β j := fun i => rfl
  have ea : ∀ u j, (Aff.matrix X none : Aff ℝ m k).adj u j = ∑ i, X i j * u i := fun u j => rfl
  have e1 : c * ((∑ i, Smooth.applyOffset (some fun i => -(-Y i)) ((Aff.matrix X none : Aff ℝ m k).aff β) i *
      Smooth.QForm.none.app (Smooth.applyOffset (some fun i => -(-Y i)) ((Aff.matrix X none : Aff ℝ m k).aff β)) i) / 2)
      = c / 2 * ∑ i, (∑ j, X i j * β j - Y i) ^ 2 := by
    rw [mul_div_assoc', mul_div_right_comm]
    congr 1
    refine Finset.sum_congr rfl fun i _ => ?_
    simp only [Smooth.applyOffset, Smooth.QForm.app, e]; ring
  have e2 : (Aff.matrix X none : Aff ℝ m k).adj (fun i => c * Smooth.QForm.none.app
      (Smooth.applyOffset (some fun i => -(-Y i)) ((Aff.matrix X none : Aff ℝ m k).aff β)) i)
      = fun j => c * ∑ i, X i j * (∑ l, X i l * β l - Y i) := by
    funext j
    rw [ea, Finset.mul_sum]
    refine Finset.sum_congr rfl fun i _ => ?_
    simp only [Smooth.applyOffset, Smooth.QForm.app, e]; ring
  dsimp only at hβ
  rw [e1, e2] at hβ
  exact hβ

/-- **C26** `signal_approximator(y, coef=c)` is `c/2 ‖β - y‖²` with gradient `c (β - y)`. -/
theorem C26_signal_approximator {n : ℕ} (y : Fin n → ℝ) (c : ℝ) :
    Evaluates (Smooth.signalApproximator y c) (fun β => c / 2 * ∑ i, (β i - y i) ^ 2) (fun β i => c * (β i - y i)) := by
  intro β
  have h := quadVal c (some y) .none β
  have e1 : c * ((∑ i, Smooth.applyOffset (some y) β i * Smooth.QForm.none.app (Smooth.applyOffset (some y) β) i) / 2)
      = c / 2 * ∑ i, (β i - y i) ^ 2 := by
    rw [mul_div_assoc', mul_div_right_comm]
    congr 1
    refine Finset.sum_congr rfl fun i _ => ?_
    simp only [Smooth.applyOffset, Smooth.QForm.app]; ring
  dsimp only at h
  rw [e1] at h
  exact h

/-- **C26** fails for a selector with a repeated position: the composed gradient is not the gradient of the composed
value. -/
theorem C26_repeated_selector_fails : ∃ (T : Aff ℝ 1 2) (x : Fin 1 → ℝ),
    ¬ ∃ F G, Evaluates (Smooth.affineSmooth (Smooth.quadraticLoss 1 none .none) T) F G ∧ IsGradientAt F (G x) x := by
  refine ⟨.selector (fun _ => 0) .identity, fun _ => 1, ?_⟩
  rintro ⟨F, G, hE, hg⟩
  have hv := C26_value (.selector (fun _ => 0) .identity : Aff ℝ 1 2) _ _ _ (quadVal (n := 2) 1 none .none)
  have hF : F = fun y => y 0 * y 0 := by
    funext y
    have h1 := (hE y).1; rw [(hv y).1] at h1
    injection h1 with h1
    rw [← h1]
    simp [Smooth.applyOffset, Smooth.QForm.app, Aff.aff, Aff.meth]
  have hG : G (fun _ => 1) = fun _ => 1 := by
    have h1 := (hE fun _ => 1).2.1; rw [(hv _).2.1] at h1
    injection h1 with h1
    rw [← h1]
    funext i
    fin_cases i
    simp [Smooth.applyOffset, Smooth.QForm.app, Aff.aff, Aff.adj, Aff.meth, Aff.scatter, List.finRange_succ]
  have htrue : IsGradientAt F (fun _ => 2) (fun _ => 1) := by
    rw [hF]
    have := isGradientAt_sum (n := 1) (fun _ t => t * t) (fun _ => 2) (fun _ => 1) (fun i => by
      refine hasDerivAt_of_quad (C := 1) fun y => ?_
      rw [show y * y - 1 * 1 - 2 * (y - 1) = (y - 1) ^ 2 by ring, abs_of_nonneg (sq_nonneg _), one_mul])
    simpa using this
  rw [hG] at hg
  have := HasFDerivAt.unique hg htrue
  have := congrArg (fun L : (Fin 1 → ℝ) →L[ℝ] ℝ => L fun _ => 1) this
  simp at this

/-- **C26** an undocumented `mode` makes `affine_smooth.smooth_objective` return `None` silently, although every atom
in the library raises `ValueError` for it. -/
theorem C26_bad_mode {m k : ℕ} (T : Aff ℝ m k) (atom : Objective k) (x : Fin m → ℝ) :
    Smooth.affineSmooth atom T x .other = .pyNone := rfl

/-! ## C27 -/

/-- **C27** (construction) `sum(atoms, weights)` succeeds exactly when there is at least one atom, the number of
weights (all ones when none are given) is the number of atoms, and no weight is negative. -/
theorem C27_init {n : ℕ} (atoms : List (Objective n)) (weights : Option (List ℝ)) :
    (∃ w, Smooth.sumInit atoms weights = .ok w atoms) ↔
      atoms ≠ [] ∧ ∀ w, weights = some w → w.length = atoms.length ∧ ∀ a ∈ w, 0 ≤ a := by
  unfold Smooth.sumInit
  cases weights with
  | none =>
    have hneg : ¬ ∃ a ∈ List.replicate atoms.length (1:ℝ), a < 0 := by
      rintro ⟨a, ha, ha0⟩
      rw [List.eq_of_mem_replicate ha] at ha0; linarith
    simp only [List.length_replicate, ne_eq, not_true_eq_false, if_false, if_neg hneg]
    cases atoms <;> simp
  | some w =>
    by_cases h1 : w.length = atoms.length
    · by_cases h2 : ∃ a ∈ w, a < 0
      · simp only [ne_eq, h1, not_true_eq_false, if_false, if_pos h2]
        constructor
        · rintro ⟨w', h⟩; cases h
        · rintro ⟨_, h⟩
          obtain ⟨a, ha, ha0⟩ := h2
          exact absurd ((h w rfl).2 a ha) (not_le.mpr ha0)
      · simp only [ne_eq, h1, not_true_eq_false, if_false, if_neg h2]
        push Not at h2
        cases atoms with
        | nil => simp
        | cons a l =>
          simp only [reduceCtorEq, not_false_eq_true, true_and]
          constructor
          · rintro _ w' hw'; cases hw'; exact ⟨h1, h2⟩
          · intro _; exact ⟨w, rfl⟩
    · simp only [ne_eq, h1, not_false_eq_true, if_true]
      constructor
      · rintro ⟨w', h⟩; cases h
      · rintro ⟨_, h⟩; exact absurd (h w rfl).1 h1

/-- **C27** the weights stored by a successful construction: those given, or all ones. -/
theorem C27_weights {n : ℕ} (atoms : List (Objective n)) (weights : Option (List ℝ)) (w : List ℝ)
    (h : Smooth.sumInit atoms weights = .ok w atoms) :
    w = weights.getD (List.replicate atoms.length 1) := by
  unfold Smooth.sumInit at h
  cases weights with
  | none =>
    dsimp only at h
    split at h
    · cases h
    · split at h
      · cases h
      · cases atoms with
        | nil => cases h
        | cons a l => injection h with h1 h2; simpa using h1.symm
  | some w' =>
    dsimp only at h
    split at h
    · cases h
    · split at h
      · cases h
      · cases atoms with
        | nil => cases h
        | cons a l => injection h with h1 h2; simpa using h1.symm

private lemma loop_eq {n : ℕ} (x : Fin n → ℝ) :
    ∀ (l : List (ℝ × Objective n)) (F : Objective n → ℝ) (G : Objective n → Fin n → ℝ),
      (∀ p ∈ l, p.2 x .func = .val (F p.2) ∧ p.2 x .grad = .grad (G p.2) ∧ p.2 x .both = .both (F p.2) (G p.2)) →
      ∀ f0 g0,
        (Smooth.sumLoop x .func l f0 g0 = some (f0 + (l.map fun p => p.1 * F p.2).sum, g0)) ∧
        (Smooth.sumLoop x .grad l f0 g0 = some (f0, fun i => g0 i + (l.map fun p => p.1 * G p.2 i).sum)) ∧
        (Smooth.sumLoop x .both l f0 g0 =
          some (f0 + (l.map fun p => p.1 * F p.2).sum, fun i => g0 i + (l.map fun p => p.1 * G p.2 i).sum)) := by
  intro l
  induction l with
  | nil => intro F G _ f0 g0; simp [Smooth.sumLoop]
  | cons p l ih =>
    intro F G h f0 g0
    obtain ⟨w, a⟩ := p
    obtain ⟨h1, h2, h3⟩ := h (w, a) (by simp)
    have ih' := ih F G fun p hp => h p (by simp [hp])
    dsimp only at h1 h2 h3
    refine ⟨?_, ?_, ?_⟩
    · simp only [Smooth.sumLoop, h1]
      rw [(ih' _ _).1]; simp [add_assoc]
    · simp only [Smooth.sumLoop, h2]
      rw [(ih' _ _).2.1]; simp [add_assoc]
    · simp only [Smooth.sumLoop, h3]
      rw [(ih' _ _).2.2]; simp [add_assoc]

/-- **C27** for any number of atoms and any weights, `sum(atoms, weights)` evaluates to the weighted sum of the values
and of the gradients, in every documented mode. -/
theorem C27_sum {n k : ℕ} (ev : Fin k → Objective n) (w : Fin k → ℝ) (f : Fin k → (Fin n → ℝ) → ℝ)
    (g : Fin k → (Fin n → ℝ) → Fin n → ℝ) (h : ∀ a, Evaluates (ev a) (f a) (g a)) :
    Evaluates (Smooth.sumObj (List.ofFn w) (List.ofFn ev)) (fun x => ∑ a, w a * f a x)
      (fun x i => ∑ a, w a * g a x i) := by
  intro x
  classical
  -- the values an atom returns at `x`, read back from the result
  let F : Objective n → ℝ := fun o => match o x .func with | .val v => v | _ => 0
  let G : Objective n → Fin n → ℝ := fun o => match o x .grad with | .grad v => v | _ => fun _ => 0
  have hF : ∀ a, F (ev a) = f a x := fun a => by simp only [F, (h a x).1]
  have hG : ∀ a, G (ev a) = g a x := fun a => by simp only [G, (h a x).2.1]
  have hz : (List.ofFn w).zip (List.ofFn ev) = List.ofFn fun a => (w a, ev a) := by
    apply List.ext_getElem <;> simp
  have hmem : ∀ p ∈ List.ofFn fun a => (w a, ev a),
      p.2 x .func = .val (F p.2) ∧ p.2 x .grad = .grad (G p.2) ∧ p.2 x .both = .both (F p.2) (G p.2) := by
    intro p hp
    obtain ⟨a, rfl⟩ := (List.mem_ofFn' _ _).mp hp
    dsimp only
    rw [hF, hG]; exact h a x
  have hl := loop_eq x _ F G hmem 0 (fun _ => 0)
  have s1 : ((List.ofFn fun a => (w a, ev a)).map fun p => p.1 * F p.2).sum = ∑ a, w a * f a x := by
    rw [List.map_ofFn, List.sum_ofFn]
    exact Finset.sum_congr rfl fun a _ => by simp [hF]
  have s2 : ∀ i, ((List.ofFn fun a => (w a, ev a)).map fun p => p.1 * G p.2 i).sum = ∑ a, w a * g a x i := by
    intro i
    rw [List.map_ofFn, List.sum_ofFn]
    exact Finset.sum_congr rfl fun a _ => by simp [hG]
  obtain ⟨l1, l2, l3⟩ := hl
  simp only [s1, s2, zero_add] at l1 l2 l3
  refine ⟨?_, ?_, ?_⟩
  · simp only [Smooth.sumObj, Smooth.applyOffset, hz, l1]
  · simp only [Smooth.sumObj, Smooth.applyOffset, hz, l2]
  · simp only [Smooth.sumObj, Smooth.applyOffset, hz, l3]

/-- **C27** if every atom's gradient is the gradient of its value at `x` then so is the sum's. -/
theorem C27_gradient {n k : ℕ} (ev : Fin k → Objective n) (w : Fin k → ℝ) (f : Fin k → (Fin n → ℝ) → ℝ)
    (g : Fin k → (Fin n → ℝ) → Fin n → ℝ) (h : ∀ a, Evaluates (ev a) (f a) (g a)) (x : Fin n → ℝ)
    (hg : ∀ a, IsGradientAt (f a) (g a x) x) :
    ∃ F G, Evaluates (Smooth.sumObj (List.ofFn w) (List.ofFn ev)) F G ∧ IsGradientAt F (G x) x := by
  refine ⟨_, _, C27_sum ev w f g h, ?_⟩
  have : ∀ s : Finset (Fin k), IsGradientAt (fun x => ∑ a ∈ s, w a * f a x) (fun i => ∑ a ∈ s, w a * g a x i) x := by
    intro s
    classical
    induction s using Finset.induction_on with
    | empty => simpa using isGradientAt_const 0 x
    | insert a s ha ih =>
      simp only [Finset.sum_insert ha]
      exact grad_add (grad_smul (hg a) _) ih
  exact this Finset.univ

/-- the hypotheses are met: two least squares objectives with different targets -/
example : ∀ a : Fin 2, ∃ f g, Evaluates (Smooth.signalApproximator (fun i : Fin 3 => (a : ℝ) + i) 2) f g :=
  fun a => ⟨_, _, C26_signal_approximator _ _⟩

/-- **C27** an undocumented mode raises `ValueError`. -/
theorem C27_bad_mode {n : ℕ} (weights : List ℝ) (atoms : List (Objective n)) (x : Fin n → ℝ) :
    Smooth.sumObj weights atoms x .other = .valueError := by
  have : ∀ (l : List (ℝ × Objective n)) f g, Smooth.sumLoop x .other l f g = some (f, g) := by
    intro l
    induction l with
    | nil => intro f g; rfl
    | cons p l ih => intro f g; obtain ⟨w, a⟩ := p; simp only [Smooth.sumLoop, ih]
  simp only [Smooth.sumObj, Smooth.applyOffset, this]

end Verif.Props
