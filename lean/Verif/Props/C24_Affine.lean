import Verif.Model.Affine
import Verif.Spec.Linear
import Mathlib.Data.Fin.VecNotation
import Mathlib.Data.Matrix.Mul
import Mathlib.Data.Matrix.Basic
import Mathlib.Tactic.FieldSimp
import Mathlib.Tactic.FinCases
import Mathlib.Tactic.NormNum
import Mathlib.Tactic.Linarith

/-!
# C24, C25: adjoint identity and affine structure of every transform built from the combinators
-/

set_option linter.unusedSectionVars false
set_option linter.unusedVariables false

namespace Verif.Props
open Verif.Model Verif.Spec

variable {K : Type} [Field K] [LinearOrder K]

/-- Every `selector` in the tree selects distinct positions (true of slices and Boolean masks). -/
def distinctSelectors : {m k : ℕ} → Aff K m k → Prop
  | _, _, .matrix _ _ => True
  | _, _, .noneD _ => True
  | _, _, .diag _ _ => True
  | _, _, .wrap T _ => distinctSelectors T
  | _, _, .selector idx T => Function.Injective idx ∧ distinctSelectors T
  | _, _, .scaler _ => True
  | _, _, .reshape => True
  | _, _, .addIntercept T => distinctSelectors T
  | _, _, .centering => True
  | _, _, .identity => True
  | _, _, .vstack _ T => ∀ i, distinctSelectors (T i)
  | _, _, .hstack _ T => ∀ i, distinctSelectors (T i)
  | _, _, .product _ _ T => ∀ i, distinctSelectors (T i)
  | _, _, .aslinear T => distinctSelectors T
  | _, _, .adjoint T => distinctSelectors T
  | _, _, .residual T => distinctSelectors T
  | _, _, .composition S T => distinctSelectors S ∧ distinctSelectors T
  | _, _, .affineSum T _ => ∀ i, distinctSelectors (T i)
  | _, _, .scalarMultiply T _ => distinctSelectors T
  | _, _, .posneg T => distinctSelectors T

private lemma sum_blocks {N : ℕ} (ks : Fin N → ℕ) (f : Fin (∑ i, ks i) → K) :
    ∑ o, f o = ∑ i, ∑ j, f (finSigmaFinEquiv ⟨i, j⟩) := by
  rw [← Equiv.sum_comp finSigmaFinEquiv f, Fintype.sum_sigma]

private lemma fill_block {N : ℕ} (ks : Fin N → ℕ) (v : (i : Fin N) → Fin (ks i) → K) (i : Fin N) (j : Fin (ks i)) :
    Aff.fill ks v (finSigmaFinEquiv ⟨i, j⟩) = v i j := by
  unfold Aff.fill; rw [Equiv.symm_apply_apply]

private lemma foldl_scatter {m r : ℕ} (idx : Fin r → Fin m) (hidx : Function.Injective idx) (v : Fin r → K) (i : Fin m)
    (l : List (Fin r)) (acc : K) (hl : l.Nodup) :
    l.foldl (fun (acc : K) j => if idx j = i then v j else acc) acc =
      if ∃ j ∈ l, idx j = i then (l.map fun j => if idx j = i then v j else 0).sum else acc := by
  induction l generalizing acc with
  | nil => simp
  | cons a l ih =>
    rw [List.foldl_cons, ih _ hl.of_cons, List.map_cons, List.sum_cons]
    have ha := (List.nodup_cons.1 hl).1
    by_cases h : idx a = i
    · have h1 : ¬ ∃ j ∈ l, idx j = i := by
        rintro ⟨j, hj, e⟩
        exact ha (hidx (h.trans e.symm) ▸ hj)
      have h2 : (l.map fun j => if idx j = i then v j else 0).sum = 0 := by
        apply List.sum_eq_zero
        intro c hc
        obtain ⟨j, hj, rfl⟩ := List.mem_map.1 hc
        rw [if_neg]
        intro e; exact h1 ⟨j, hj, e⟩
      rw [if_neg h1, if_pos h, if_pos ⟨a, List.mem_cons_self, h⟩, h2, add_zero, if_pos h]
    · simp only [if_neg h, zero_add]
      by_cases h1 : ∃ j ∈ l, idx j = i
      · rw [if_pos h1, if_pos]
        obtain ⟨j, hj, e⟩ := h1
        exact ⟨j, List.mem_cons_of_mem _ hj, e⟩
      · rw [if_neg h1, if_neg]
        rintro ⟨j, hj, e⟩
        rcases List.mem_cons.1 hj with rfl | hj
        · exact h e
        · exact h1 ⟨j, hj, e⟩

private lemma scatter_sum {m r : ℕ} (idx : Fin r → Fin m) (hidx : Function.Injective idx) (v : Fin r → K)
    (x : Fin m → K) : ∑ i, x i * Aff.scatter idx v i = ∑ j, x (idx j) * v j := by
  have h : ∀ i, Aff.scatter idx v i = ∑ j, if idx j = i then v j else 0 := by
    intro i
    unfold Aff.scatter
    rw [foldl_scatter idx hidx v i _ _ (List.nodup_finRange r), ← List.ofFn_eq_map, List.sum_ofFn]
    by_cases hc : ∃ j ∈ List.finRange r, idx j = i
    · rw [if_pos hc]
    · rw [if_neg hc]
      symm
      apply Finset.sum_eq_zero
      intro j _
      rw [if_neg]
      intro e; exact hc ⟨j, List.mem_finRange j, e⟩
  simp only [h, Finset.mul_sum]
  rw [Finset.sum_comm]
  apply Finset.sum_congr rfl
  intro j _
  simp

/-- C24: for every transform built from the combinators, `adjoint_map` is the adjoint of `linear_map`. -/
theorem C24_adjoint_partial {m k : ℕ} (T : Aff K m k) (h : distinctSelectors T) : IsAdjoint T.lin T.adj := by
  induction T with
  | matrix D o =>
    intro x u
    show ∑ i, (∑ j, D i j * x j) * u i = ∑ j, x j * ∑ i, D i j * u i
    simp only [Finset.sum_mul, Finset.mul_sum]
    rw [Finset.sum_comm]
    exact Finset.sum_congr rfl fun j _ => Finset.sum_congr rfl fun i _ => by ring
  | noneD o => intro x u; rfl
  | diag d o => intro x u; exact Finset.sum_congr rfl fun i _ => by show d i * x i * u i = x i * (d i * u i); ring
  | wrap T o ih => exact ih h
  | selector idx T ih =>
    intro x u
    have := ih h.2 (fun j => x (idx j)) u
    refine Eq.trans this ?_
    exact (scatter_sum idx h.1 (T.adj u) x).symm
  | scaler s => intro x u; exact Finset.sum_congr rfl fun i _ => by show s i * x i * u i = x i * (s i * u i); ring
  | reshape => intro x u; rfl
  | addIntercept T ih =>
    intro x u
    have := ih h (fun j => x j.succ) u
    show ∑ i, (T.lin (fun j => x j.succ) i + x 0) * u i = ∑ j, x j * (Fin.cons (∑ i, u i) (T.adj u) : Fin _ → K) j
    rw [Fin.sum_univ_succ]
    simp only [Fin.cons_zero, Fin.cons_succ, add_mul, Finset.sum_add_distrib]
    rw [this, Finset.mul_sum, add_comm]
  | centering =>
    intro x u
    show ∑ i, (x i - _) * u i = ∑ i, x i * (u i - _)
    simp only [sub_mul, mul_sub, Finset.sum_sub_distrib]
    rw [← Finset.mul_sum, ← Finset.sum_mul]
    ring
  | identity => intro x u; rfl
  | vstack ks T ih =>
    intro x u
    show ∑ o, Aff.fill ks (fun i => (T i).lin x) o * u o = ∑ j, x j * ∑ i, (T i).adj (Aff.block ks u i) j
    rw [sum_blocks]
    simp only [fill_block, Finset.mul_sum]
    rw [Finset.sum_comm]
    exact Finset.sum_congr rfl fun i _ => ih i (h i) x (Aff.block ks u i)
  | hstack ms T ih =>
    intro x u
    show ∑ o, (∑ i, (T i).lin (Aff.block ms x i) o) * u o = ∑ j, x j * Aff.fill ms (fun i => (T i).adj u) j
    rw [sum_blocks]
    simp only [fill_block, Finset.sum_mul]
    rw [Finset.sum_comm]
    exact Finset.sum_congr rfl fun i _ => ih i (h i) (Aff.block ms x i) u
  | product ms ks T ih =>
    intro x u
    show ∑ o, Aff.fill ks (fun i => (T i).lin (Aff.block ms x i)) o * u o =
      ∑ j, x j * Aff.fill ms (fun i => (T i).adj (Aff.block ks u i)) j
    rw [sum_blocks, sum_blocks]
    simp only [fill_block]
    exact Finset.sum_congr rfl fun i _ => ih i (h i) (Aff.block ms x i) (Aff.block ks u i)
  | aslinear T ih => exact ih h
  | adjoint T ih =>
    intro x u
    have := ih h u x
    show ∑ i, T.adj x i * u i = ∑ j, x j * T.lin u j
    rw [Finset.sum_congr rfl fun i _ => mul_comm (T.adj x i) (u i), ← this]
    exact Finset.sum_congr rfl fun i _ => mul_comm _ _
  | residual T ih =>
    intro x u
    have := ih h x u
    show ∑ i, (x i - T.lin x i) * u i = ∑ i, x i * (u i - T.adj u i)
    simp only [sub_mul, mul_sub, Finset.sum_sub_distrib]
    rw [this]
  | composition S T ihS ihT =>
    intro x u
    exact (ihS h.1 (T.lin x) u).trans (ihT h.2 x (S.adj u))
  | affineSum T w ih =>
    intro x u
    show ∑ o, (∑ i, w i * (T i).lin x o) * u o = ∑ j, x j * ∑ i, w i * (T i).adj u j
    simp only [Finset.sum_mul, Finset.mul_sum]
    rw [Finset.sum_comm]
    conv_rhs => rw [Finset.sum_comm]
    refine Finset.sum_congr rfl fun i _ => ?_
    have := congrArg (w i * ·) (ih i (h i) x u)
    simp only [Finset.mul_sum] at this
    calc _ = ∑ o, w i * ((T i).lin x o * u o) := Finset.sum_congr rfl fun o _ => by ring
      _ = _ := this
      _ = _ := Finset.sum_congr rfl fun o _ => by ring
  | scalarMultiply T c ih =>
    intro x u
    have := ih h x u
    show ∑ i, (if c ≠ 1 then T.lin x i * c else T.lin x i) * u i =
      ∑ j, x j * (if c ≠ 1 then T.adj u j * c else T.adj u j)
    by_cases hc : c = 1
    · simp only [hc, ne_eq, not_true_eq_false, if_false]; exact this
    · simp only [ne_eq, hc, not_false_eq_true, if_true]
      have := congrArg (c * ·) this
      simp only [Finset.mul_sum] at this
      calc _ = ∑ i, c * (T.lin x i * u i) := Finset.sum_congr rfl fun o _ => by ring
        _ = _ := this
        _ = _ := Finset.sum_congr rfl fun o _ => by ring
  | @posneg m k T ih =>
    intro x u
    have h1 := ih h (fun j => x (Fin.castAdd m j)) u
    have h2 := ih h (fun j => x (Fin.natAdd m j)) u
    show ∑ i, (T.lin (fun j => x (Fin.castAdd m j)) i - T.lin (fun j => x (Fin.natAdd m j)) i) * u i =
      ∑ j, x j * (Fin.append (T.adj u) (fun i => -T.adj u i) : Fin (m + m) → K) j
    rw [Fin.sum_univ_add]
    simp only [Fin.append_left, Fin.append_right, sub_mul, Finset.sum_sub_distrib, mul_neg, Finset.sum_neg_distrib]
    rw [h1, h2]; ring

/-- C24: a selector with a repeated position has the wrong adjoint. -/
theorem C24_repeated_selector_fails : ∃ T : Aff ℚ 1 2, ¬ IsAdjoint T.lin T.adj := by
  refine ⟨.selector (fun _ => 0) .identity, fun h => ?_⟩
  have := h (fun _ => 1) (fun _ => 1)
  simp [Aff.lin, Aff.adj, Aff.meth, Aff.scatter, List.finRange_succ] at this

private lemma adj_lin {m k : ℕ} {T : Aff K m k} (hT : IsAdjoint T.lin T.adj) : IsLin T.adj := by
  intro a b x y j
  have e := fun u => hT (Pi.single j 1) u
  simp only [Pi.single_apply, ite_mul, one_mul, zero_mul, Finset.sum_ite_eq', Finset.mem_univ, if_true] at e
  rw [← e, ← e, ← e, Finset.mul_sum, Finset.mul_sum, ← Finset.sum_add_distrib]
  exact Finset.sum_congr rfl fun i _ => by ring

/-- C24: `linear_map` is linear. -/
theorem C24_linear {m k : ℕ} (T : Aff K m k) (h : distinctSelectors T) : IsLin T.lin := by
  have hT := C24_adjoint_partial T h
  intro a b x y i
  have e := fun z => hT z (Pi.single i 1)
  simp only [Pi.single_apply, mul_ite, mul_one, mul_zero, Finset.sum_ite_eq', Finset.mem_univ, if_true] at e
  rw [e, e, e, Finset.mul_sum, Finset.mul_sum, ← Finset.sum_add_distrib]
  exact Finset.sum_congr rfl fun j _ => by ring

/-- the matrix of the linear part, column `j` being `linear_map` of the `j`-th unit vector (`todense`) -/
def toMat {m k : ℕ} (T : Aff K m k) : Matrix (Fin k) (Fin m) K := fun i j => T.lin (Pi.single j 1) i

/-- C24: `linear_map` and `adjoint_map` are multiplication by one matrix and its transpose. -/
theorem C24_matrix {m k : ℕ} (T : Aff K m k) (h : distinctSelectors T) :
    (∀ x, T.lin x = (toMat T).mulVec x) ∧ (∀ u, T.adj u = (toMat T).transpose.mulVec u) := by
  have hT := C24_adjoint_partial T h
  have e1 : ∀ i j, toMat T i j = T.adj (Pi.single i 1) j := by
    intro i j
    have := hT (Pi.single j 1) (Pi.single i 1)
    simpa [Pi.single_apply, toMat] using this
  constructor
  · intro x
    funext i
    have := hT x (Pi.single i 1)
    simp only [Pi.single_apply, mul_ite, mul_one, mul_zero, Finset.sum_ite_eq', Finset.mem_univ, if_true] at this
    rw [this]
    exact Finset.sum_congr rfl fun j _ => by show _ = toMat T i j * x j; rw [e1, mul_comm]
  · intro u
    funext j
    have := hT (Pi.single j 1) u
    simp only [Pi.single_apply, ite_mul, one_mul, zero_mul, Finset.sum_ite_eq', Finset.mem_univ, if_true] at this
    rw [← this]
    rfl

/-- C24: the matrices of the combinators: product, transpose, `I - T`, weighted sum, multiple, stacks, block diagonal,
intercept column, difference of the two halves, column selection, `I - 11ᵀ/n`. -/
theorem C24_matrix_of_combinators :
    (∀ {a b c : ℕ} (S : Aff K b c) (T : Aff K a b), distinctSelectors S →
      toMat (.composition S T) = toMat S * toMat T) ∧
    (∀ {m k : ℕ} (T : Aff K m k), distinctSelectors T → toMat (.adjoint T) = (toMat T).transpose) ∧
    (∀ {n : ℕ} (T : Aff K n n), toMat (.residual T) = 1 - toMat T) ∧
    (∀ {N m k : ℕ} (T : Fin (N + 1) → Aff K m k) (w : Fin (N + 1) → K),
      toMat (.affineSum T w) = ∑ i, w i • toMat (T i)) ∧
    (∀ {m k : ℕ} (T : Aff K m k) (c : K), toMat (.scalarMultiply T c) = c • toMat T) ∧
    (∀ {N m : ℕ} (ks : Fin N → ℕ) (T : (i : Fin N) → Aff K m (ks i)) i o j,
      toMat (.vstack ks T) (finSigmaFinEquiv ⟨i, o⟩) j = toMat (T i) o j) ∧
    (∀ {N k : ℕ} (ms : Fin N → ℕ) (T : (i : Fin N) → Aff K (ms i) k), (∀ i, distinctSelectors (T i)) → ∀ o i j,
      toMat (.hstack ms T) o (finSigmaFinEquiv ⟨i, j⟩) = toMat (T i) o j) ∧
    (∀ {N : ℕ} (ms ks : Fin N → ℕ) (T : (i : Fin N) → Aff K (ms i) (ks i)), (∀ i, distinctSelectors (T i)) →
      ∀ i o j, toMat (.product ms ks T) (finSigmaFinEquiv ⟨i, o⟩) (finSigmaFinEquiv ⟨i, j⟩) = toMat (T i) o j ∧
        ∀ i' j', i' ≠ i → toMat (.product ms ks T) (finSigmaFinEquiv ⟨i, o⟩) (finSigmaFinEquiv ⟨i', j'⟩) = 0) ∧
    (∀ {m k : ℕ} (T : Aff K m k), distinctSelectors T → ∀ o,
      toMat (.addIntercept T) o 0 = 1 ∧ ∀ j, toMat (.addIntercept T) o (Fin.succ j) = toMat T o j) ∧
    (∀ {n : ℕ} (i j : Fin n), toMat (.centering : Aff K n n) i j = (if i = j then 1 else 0) - 1 / (n : K)) ∧
    (∀ {m k : ℕ} (T : Aff K m k), distinctSelectors T → ∀ o j,
      toMat (.posneg T) o (Fin.castAdd m j) = toMat T o j ∧ toMat (.posneg T) o (Fin.natAdd m j) = -toMat T o j) ∧
    (∀ {m r : ℕ} (idx : Fin r → Fin m) (o : Fin r) (j : Fin m),
      toMat (.selector idx .identity : Aff K m r) o j = if idx o = j then 1 else 0) := by
  have lin0 : ∀ {m k : ℕ} (T : Aff K m k), distinctSelectors T → ∀ o, T.lin (fun _ => 0) o = 0 := by
    intro m k T hT o
    have := C24_linear T hT 0 0 (fun _ => 0) (fun _ => 0) o
    simpa using this
  have sb : ∀ {N : ℕ} (ms : Fin N → ℕ) (i : Fin N) (j : Fin (ms i)),
      Aff.block ms (Pi.single (finSigmaFinEquiv ⟨i, j⟩) (1:K)) i = Pi.single j 1 := by
    intro N ms i j
    funext j'
    unfold Aff.block
    by_cases hj : j' = j
    · rw [hj]; simp
    · rw [Pi.single_eq_of_ne hj, Pi.single_eq_of_ne]
      intro e
      have := finSigmaFinEquiv.injective e
      simp only [Sigma.mk.injEq, heq_eq_eq, true_and] at this
      exact hj this
  have sb' : ∀ {N : ℕ} (ms : Fin N → ℕ) (i i' : Fin N) (j : Fin (ms i)), i' ≠ i →
      Aff.block ms (Pi.single (finSigmaFinEquiv ⟨i, j⟩) (1:K)) i' = fun _ => 0 := by
    intro N ms i i' j hne
    funext j'
    unfold Aff.block
    rw [Pi.single_eq_of_ne]
    intro e
    have := congrArg Sigma.fst (finSigmaFinEquiv.injective e)
    exact hne this
  refine ⟨?_, ?_, ?_, ?_, ?_, ?_, ?_, ?_, ?_, ?_, ?_, ?_⟩
  · intro a b c S T hS
    funext i j
    show S.lin (T.lin (Pi.single j 1)) i = _
    rw [(C24_matrix S hS).1]
    rfl
  · intro m k T hT
    funext i j
    show T.adj (Pi.single j 1) i = T.lin (Pi.single i 1) j
    have := C24_adjoint_partial T hT (Pi.single i 1) (Pi.single j 1)
    simpa [Pi.single_apply] using this.symm
  · intro n T
    funext i j
    show (Pi.single j 1 : Fin n → K) i - T.lin (Pi.single j 1) i = _
    simp [Matrix.sub_apply, Matrix.one_apply, Pi.single_apply, toMat]
  · intro N m k T w
    ext i j
    rw [Matrix.sum_apply]
    rfl
  · intro m k T c
    funext i j
    show (if c ≠ 1 then T.lin (Pi.single j 1) i * c else T.lin (Pi.single j 1) i) = c * T.lin (Pi.single j 1) i
    by_cases hc : c = 1
    · simp [hc]
    · simp [hc, mul_comm]
  · intro N m ks T i o j
    exact fill_block ks (fun i => (T i).lin (Pi.single j 1)) i o
  · intro N k ms T hT o i j
    show ∑ l, (T l).lin (Aff.block ms (Pi.single (finSigmaFinEquiv ⟨i, j⟩) 1) l) o = _
    rw [Finset.sum_eq_single i]
    · rw [sb]; rfl
    · intro l _ hl; rw [sb' ms i l j hl]; exact lin0 _ (hT l) o
    · simp
  · intro N ms ks T hT i o j
    constructor
    · refine (fill_block ks (fun i' => (T i').lin
        (Aff.block ms (Pi.single (finSigmaFinEquiv ⟨i, j⟩) 1) i')) i o).trans ?_
      rw [sb]; rfl
    · intro i' j' hne
      refine (fill_block ks (fun l => (T l).lin
        (Aff.block ms (Pi.single (finSigmaFinEquiv ⟨i', j'⟩) 1) l)) i o).trans ?_
      rw [sb' ms i' i j' (Ne.symm hne)]; exact lin0 _ (hT i) o
  · intro m k T hT o
    constructor
    · show T.lin (fun j => (Pi.single 0 1 : Fin (m + 1) → K) j.succ) o + (Pi.single 0 1 : Fin (m + 1) → K) 0 = 1
      have : (fun j : Fin m => (Pi.single 0 1 : Fin (m + 1) → K) j.succ) = fun _ => 0 := by
        funext j; exact Pi.single_eq_of_ne (Fin.succ_ne_zero j) _
      rw [this, lin0 T hT, Pi.single_eq_same, zero_add]
    · intro j
      show T.lin (fun l => (Pi.single j.succ 1 : Fin (m + 1) → K) l.succ) o + (Pi.single j.succ 1 : Fin (m + 1) → K) 0 = _
      have : (fun l : Fin m => (Pi.single j.succ 1 : Fin (m + 1) → K) l.succ) = Pi.single j 1 := by
        funext l; simp [Pi.single_apply]
      rw [this, Pi.single_eq_of_ne (Fin.succ_ne_zero j).symm, add_zero]; rfl
  · intro n i j
    show (Pi.single j 1 : Fin n → K) i - (∑ l, (Pi.single j 1 : Fin n → K) l) / (n : K) = _
    simp [Pi.single_apply]
  · intro m k T hT o j
    have h1 : (fun l => (Pi.single (Fin.castAdd m j) 1 : Fin (m + m) → K) (Fin.castAdd m l)) = Pi.single j 1 := by
      funext l; simp [Pi.single_apply]
    have h2 : (fun l => (Pi.single (Fin.castAdd m j) 1 : Fin (m + m) → K) (Fin.natAdd m l)) = fun _ => 0 := by
      funext l
      apply Pi.single_eq_of_ne
      intro e
      have := congrArg Fin.val e
      simp at this; omega
    have h3 : (fun l => (Pi.single (Fin.natAdd m j) 1 : Fin (m + m) → K) (Fin.natAdd m l)) = Pi.single j 1 := by
      funext l; simp [Pi.single_apply]
    have h4 : (fun l => (Pi.single (Fin.natAdd m j) 1 : Fin (m + m) → K) (Fin.castAdd m l)) = fun _ => 0 := by
      funext l
      apply Pi.single_eq_of_ne
      intro e
      have := congrArg Fin.val e
      simp at this; omega
    constructor
    · show T.lin (fun l => (Pi.single (Fin.castAdd m j) 1 : Fin (m + m) → K) (Fin.castAdd m l)) o -
        T.lin (fun l => (Pi.single (Fin.castAdd m j) 1 : Fin (m + m) → K) (Fin.natAdd m l)) o = _
      rw [h1, h2, lin0 T hT, sub_zero]; rfl
    · show T.lin (fun l => (Pi.single (Fin.natAdd m j) 1 : Fin (m + m) → K) (Fin.castAdd m l)) o -
        T.lin (fun l => (Pi.single (Fin.natAdd m j) 1 : Fin (m + m) → K) (Fin.natAdd m l)) o = _
      rw [h3, h4, lin0 T hT, zero_sub]; rfl
  · intro m r idx o j
    show (Pi.single j 1 : Fin m → K) (idx o) = _
    simp [Pi.single_apply]

private lemma off_ofNonzero {k : ℕ} (v w : Fin k → K) (i : Fin k) :
    (Aff.Off.ofNonzero v).addTo w i = w i + v i := by
  unfold Aff.Off.ofNonzero
  split_ifs with h
  · rw [h i, add_zero]; rfl
  · rfl

private lemma lin_zero {m k : ℕ} (T : Aff K m k) (h : distinctSelectors T) (i : Fin k) : T.lin (fun _ => 0) i = 0 := by
  have := C24_linear T h 0 0 (fun _ => 0) (fun _ => 0) i
  simpa using this

private lemma lin_add {m k : ℕ} (T : Aff K m k) (h : distinctSelectors T) (x y : Fin m → K) (i : Fin k) :
    T.lin (fun j => x j + y j) i = T.lin x i + T.lin y i := by
  have := C24_linear T h 1 1 x y i
  simpa using this

/-- C25: `affine_map(x)` is `linear_map(x)` plus the constant vector `affine_map(0)`. -/
theorem C25_affine {m k : ℕ} (T : Aff K m k) (h : distinctSelectors T) (x : Fin m → K) (i : Fin k) :
    T.aff x i = T.lin x i + T.aff (fun _ => 0) i := by
  induction T with
  | matrix D o =>
    cases o with
    | none =>
      show ∑ j, D i j * x j = ∑ j, D i j * x j + ∑ j, D i j * 0
      simp
    | some o =>
      show ∑ j, D i j * x j + o i = ∑ j, D i j * x j + (∑ j, D i j * 0 + o i)
      simp
  | noneD o => show x i + o i = x i + (0 + o i); ring
  | diag d o =>
    cases o with
    | none => show d i * x i = d i * x i + d i * 0; ring
    | some o => show d i * x i + o i = d i * x i + (d i * 0 + o i); ring
  | wrap T o ih =>
    have := ih h x i
    cases o with
    | none => exact this
    | some o =>
      show T.aff x i + o i = T.lin x i + (T.aff (fun _ => 0) i + o i)
      rw [this]; ring
  | selector idx T ih => exact ih h.2 (fun j => x (idx j)) i
  | scaler s => show s i * x i = s i * x i + s i * 0; ring
  | reshape => show x i = x i + 0; ring
  | addIntercept T ih =>
    have := ih h (fun j => x j.succ) i
    show T.aff (fun j => x j.succ) i + x 0 = T.lin (fun j => x j.succ) i + x 0 + (T.aff (fun _ => 0) i + 0)
    rw [this]; ring
  | centering =>
    show Aff.center x i = Aff.center x i + Aff.center (fun _ => 0) i
    unfold Aff.center; simp
  | identity => show x i = x i + 0; ring
  | vstack ks T ih =>
    show (Aff.Off.ofNonzero (Aff.fill ks fun i => (T i).meth.aff fun _ => 0)).addTo (Aff.fill ks fun i => (T i).meth.lin x) i =
      Aff.fill ks (fun i => (T i).meth.lin x) i + (Aff.Off.ofNonzero (Aff.fill ks fun i => (T i).meth.aff fun _ => 0)).addTo (Aff.fill ks fun i => (T i).meth.lin fun _ => 0) i
    rw [off_ofNonzero, off_ofNonzero]
    have : Aff.fill ks (fun i => (T i).meth.lin fun _ => 0) i = 0 := lin_zero (.vstack ks T) h i
    rw [this, zero_add]
  | hstack ms T ih =>
    show (Aff.Off.ofNonzero fun o => ∑ i, (T i).meth.aff (fun _ => 0) o).addTo
        (fun o => ∑ l, (T l).meth.lin (Aff.block ms x l) o) i = _ +
      (Aff.Off.ofNonzero fun o => ∑ i, (T i).meth.aff (fun _ => 0) o).addTo
        (fun o => ∑ l, (T l).meth.lin (Aff.block ms (fun _ => 0) l) o) i
    rw [off_ofNonzero, off_ofNonzero]
    have : ∑ l, (T l).meth.lin (Aff.block ms (fun _ => 0) l) i = 0 := lin_zero (.hstack ms T) h i
    rw [this, zero_add]
    rfl
  | product ms ks T ih =>
    show (Aff.Off.ofNonzero (Aff.fill ks fun i => (T i).meth.aff fun _ => 0)).addTo (Aff.fill ks fun i => (T i).meth.lin (Aff.block ms x i)) i =
      Aff.fill ks (fun i => (T i).meth.lin (Aff.block ms x i)) i + (Aff.Off.ofNonzero (Aff.fill ks fun i => (T i).meth.aff fun _ => 0)).addTo (Aff.fill ks fun i => (T i).meth.lin (Aff.block ms (fun _ => 0) i)) i
    rw [off_ofNonzero, off_ofNonzero]
    have : Aff.fill ks (fun l => (T l).meth.lin (Aff.block ms (fun _ => 0) l)) i = 0 := lin_zero (.product ms ks T) h i
    rw [this, zero_add]
  | aslinear T ih =>
    show T.lin x i = T.lin x i + T.lin (fun _ => 0) i
    rw [lin_zero T h, add_zero]
  | adjoint T ih =>
    show T.adj x i = T.adj x i + T.adj (fun _ => 0) i
    have := lin_zero (.adjoint T) h i
    have h0 : T.adj (fun _ => 0) i = 0 := this
    rw [h0, add_zero]
  | residual T ih =>
    show x i - T.aff x i = x i - T.lin x i + (0 - T.aff (fun _ => 0) i)
    rw [ih h x i]; ring
  | composition S T ihS ihT =>
    show S.aff (T.aff x) i = S.lin (T.lin x) i + S.aff (T.aff fun _ => 0) i
    rw [ihS h.1 (T.aff x) i, ihS h.1 (T.aff fun _ => 0) i]
    have : T.aff x = fun j => T.lin x j + T.aff (fun _ => 0) j := by funext j; exact ihT h.2 x j
    rw [this, lin_add S h.1]; ring
  | affineSum T w ih =>
    show ∑ l, w l * (T l).aff x i = ∑ l, w l * (T l).lin x i + ∑ l, w l * (T l).aff (fun _ => 0) i
    rw [← Finset.sum_add_distrib]
    exact Finset.sum_congr rfl fun l _ => by rw [ih l (h l) x i]; ring
  | scalarMultiply T c ih =>
    have := ih h x i
    show (if c ≠ 1 then T.aff x i * c else T.aff x i) =
      (if c ≠ 1 then T.lin x i * c else T.lin x i) + (if c ≠ 1 then T.aff (fun _ => 0) i * c else T.aff (fun _ => 0) i)
    split_ifs <;> rw [this] <;> ring
  | @posneg m k T ih =>
    have : (Aff.posneg T).aff (fun _ => 0) i = T.lin (fun _ => 0) i - T.lin (fun _ => 0) i := rfl
    rw [this, sub_self, add_zero]; rfl

/-- C25: the constant of each combinator: offsets add, compose, scale and stack as for affine functions. -/
theorem C25_constant_of_combinators :
    (∀ {m k : ℕ} (T : Aff K m k) (o : Fin k → K) i, (Aff.wrap T (some o)).aff (fun _ => 0) i = T.aff (fun _ => 0) i + o i) ∧
    (∀ {a b c : ℕ} (S : Aff K b c) (T : Aff K a b), distinctSelectors S → ∀ i,
      (Aff.composition S T).aff (fun _ => 0) i = S.lin (T.aff fun _ => 0) i + S.aff (fun _ => 0) i) ∧
    (∀ {N m : ℕ} (ks : Fin N → ℕ) (T : (i : Fin N) → Aff K m (ks i)), (∀ i, distinctSelectors (T i)) → ∀ i o,
      (Aff.vstack ks T).aff (fun _ => 0) (finSigmaFinEquiv ⟨i, o⟩) = (T i).aff (fun _ => 0) o) ∧
    (∀ {N k : ℕ} (ms : Fin N → ℕ) (T : (i : Fin N) → Aff K (ms i) k), (∀ i, distinctSelectors (T i)) → ∀ o,
      (Aff.hstack ms T).aff (fun _ => 0) o = ∑ i, (T i).aff (fun _ => 0) o) ∧
    (∀ {N : ℕ} (ms ks : Fin N → ℕ) (T : (i : Fin N) → Aff K (ms i) (ks i)), (∀ i, distinctSelectors (T i)) → ∀ i o,
      (Aff.product ms ks T).aff (fun _ => 0) (finSigmaFinEquiv ⟨i, o⟩) = (T i).aff (fun _ => 0) o) ∧
    (∀ {m k : ℕ} (T : Aff K m k) (c : K) i, (Aff.scalarMultiply T c).aff (fun _ => 0) i = c * T.aff (fun _ => 0) i) ∧
    (∀ {N m k : ℕ} (T : Fin (N + 1) → Aff K m k) (w : Fin (N + 1) → K) i,
      (Aff.affineSum T w).aff (fun _ => 0) i = ∑ l, w l * (T l).aff (fun _ => 0) i) := by
  refine ⟨?_, ?_, ?_, ?_, ?_, ?_, ?_⟩
  · intro m k T o i; rfl
  · intro a b c S T hS i
    exact C25_affine S hS (T.aff fun _ => 0) i
  · intro N m ks T hT i o
    show (Aff.Off.ofNonzero (Aff.fill ks fun i => (T i).meth.aff fun _ => 0)).addTo (Aff.fill ks fun i => (T i).meth.lin fun _ => 0) (finSigmaFinEquiv ⟨i, o⟩) = _
    rw [off_ofNonzero, fill_block, fill_block]
    have : (T i).meth.lin (fun _ => 0) o = 0 := lin_zero (T i) (hT i) o
    rw [this, zero_add]; rfl
  · intro N k ms T hT o
    show (Aff.Off.ofNonzero fun o => ∑ i, (T i).meth.aff (fun _ => 0) o).addTo
        (fun o => ∑ l, (T l).meth.lin (Aff.block ms (fun _ => 0) l) o) o = _
    rw [off_ofNonzero]
    have : ∑ l, (T l).meth.lin (Aff.block ms (fun _ => 0) l) o = 0 :=
      Finset.sum_eq_zero fun l _ => lin_zero (T l) (hT l) o
    rw [this, zero_add]; rfl
  · intro N ms ks T hT i o
    show (Aff.Off.ofNonzero (Aff.fill ks fun i => (T i).meth.aff fun _ => 0)).addTo (Aff.fill ks fun i => (T i).meth.lin (Aff.block ms (fun _ => 0) i)) (finSigmaFinEquiv ⟨i, o⟩) = _
    rw [off_ofNonzero, fill_block, fill_block]
    have : (T i).meth.lin (Aff.block ms (fun _ => 0) i) o = 0 := lin_zero (T i) (hT i) o
    rw [this, zero_add]; rfl
  · intro m k T c i
    show (if c ≠ 1 then T.aff (fun _ => 0) i * c else T.aff (fun _ => 0) i) = _
    by_cases hc : c = 1
    · simp [hc]
    · simp [hc, mul_comm]
  · intro N m k T w i; rfl

/-- C25: the attribute `affine_offset` of the stacking classes is `affine_map(0)`, `None` if that is zero. -/
theorem C25_offset_attribute_partial {N m : ℕ} (ks : Fin N → ℕ) (T : (i : Fin N) → Aff K m (ks i))
    (h : ∀ i, distinctSelectors (T i)) :
    ((Aff.vstack ks T).off = .none ↔ ∀ o, (Aff.vstack ks T).aff (fun _ => 0) o = 0) ∧
    (∀ v, (Aff.vstack ks T).off = .arr v → (Aff.vstack ks T).aff (fun _ => 0) = v) := by
  have e : ∀ o, (Aff.vstack ks T).aff (fun _ => 0) o = Aff.fill ks (fun i => (T i).meth.aff fun _ => 0) o := by
    intro o
    show (Aff.Off.ofNonzero (Aff.fill ks fun i => (T i).meth.aff fun _ => 0)).addTo (Aff.fill ks fun i => (T i).meth.lin fun _ => 0) o = _
    rw [off_ofNonzero]
    have : Aff.fill ks (fun i => (T i).meth.lin fun _ => 0) o = 0 := lin_zero (.vstack ks T) h o
    rw [this, zero_add]
  have eo : (Aff.vstack ks T).off = Aff.Off.ofNonzero (Aff.fill ks fun i => (T i).meth.aff fun _ => 0) := rfl
  constructor
  · rw [eo]
    unfold Aff.Off.ofNonzero
    constructor
    · intro hh
      split_ifs at hh with hz
      intro o; rw [e]; exact hz o
    · intro hh
      rw [if_pos]
      intro o; rw [← e]; exact hh o
  · intro v hv
    rw [eo] at hv
    unfold Aff.Off.ofNonzero at hv
    split_ifs at hv
    injection hv with hv
    funext o; rw [e, ← hv]

/-- C25: the attribute is wrong for `composition` (the test on line 853 is inverted), `residual`,
`scalar_multiply` and a transform wrapped by `affine_transform(T, None)`: it is `None` although
`affine_map(0)` is not zero. -/
theorem C25_offset_attribute_fails :
    (∃ T : Aff ℚ 1 1, T = .composition .identity (.noneD fun _ => 1) ∧ T.off = .none ∧ T.aff (fun _ => 0) 0 ≠ 0) ∧
    (∃ T : Aff ℚ 1 1, T = .residual (.noneD fun _ => 1) ∧ T.off = .none ∧ T.aff (fun _ => 0) 0 ≠ 0) ∧
    (∃ T : Aff ℚ 1 1, T = .scalarMultiply (.noneD fun _ => 1) 2 ∧ T.off = .none ∧ T.aff (fun _ => 0) 0 ≠ 0) ∧
    (∃ T : Aff ℚ 1 1, T = .wrap (.noneD fun _ => 1) none ∧ T.off = .none ∧ T.aff (fun _ => 0) 0 ≠ 0) := by
  refine ⟨⟨_, rfl, ?_, ?_⟩, ⟨_, rfl, rfl, ?_⟩, ⟨_, rfl, rfl, ?_⟩, ⟨_, rfl, rfl, ?_⟩⟩
  · show (if ¬ Aff.allclose0 _ then _ else _) = _
    rw [if_pos]
    intro hh
    have := hh 0
    norm_num [Aff.meth] at this
  all_goals norm_num [Aff.aff, Aff.meth, Aff.Off.addTo, Aff.Off.ofOption]

/-- no `aslinear` in the tree -/
def noAslinear : {m k : ℕ} → Aff K m k → Prop
  | _, _, .wrap T _ => noAslinear T
  | _, _, .selector _ T => noAslinear T
  | _, _, .addIntercept T => noAslinear T
  | _, _, .vstack _ T => ∀ i, noAslinear (T i)
  | _, _, .hstack _ T => ∀ i, noAslinear (T i)
  | _, _, .product _ _ T => ∀ i, noAslinear (T i)
  | _, _, .aslinear _ => False
  | _, _, .adjoint T => noAslinear T
  | _, _, .residual T => noAslinear T
  | _, _, .composition S T => noAslinear S ∧ noAslinear T
  | _, _, .affineSum T _ => ∀ i, noAslinear (T i)
  | _, _, .scalarMultiply T _ => noAslinear T
  | _, _, .posneg T => noAslinear T
  | _, _, _ => True

/-- C24: `input_shape` and `output_shape` are the sizes accepted by `linear_map` and `adjoint_map`, unless an `aslinear`
object occurs. -/
theorem C24_shapes_partial {m k : ℕ} (T : Aff K m k) (h : noAslinear T) : T.shapes = (m, k) := by
  induction T with
  | wrap T o ih => exact ih h
  | selector idx T ih => simp only [Aff.shapes]; rw [ih h]
  | addIntercept T ih => simp only [Aff.shapes]; rw [ih h]
  | @vstack N m ks T ih =>
    simp only [Aff.shapes]
    have : ∀ i, (T i).shapes = (m, ks i) := fun i => ih i (h i)
    simp only [this]
    split_ifs <;> rfl
  | @hstack N k ms T ih =>
    simp only [Aff.shapes]
    have : ∀ i, (T i).shapes = (ms i, k) := fun i => ih i (h i)
    simp only [this]
    split_ifs <;> rfl
  | product ms ks T ih =>
    simp only [Aff.shapes]
    have : ∀ i, (T i).shapes = (ms i, ks i) := fun i => ih i (h i)
    simp only [this]
  | aslinear T ih => exact absurd h (by simp [noAslinear])
  | adjoint T ih => simp only [Aff.shapes]; rw [ih h]
  | residual T ih => exact ih h
  | composition S T ihS ihT => simp only [Aff.shapes]; rw [ihS h.1, ihT h.2]
  | affineSum T w ih => exact ih 0 (h 0)
  | scalarMultiply T c ih => exact ih h
  | posneg T ih => simp only [Aff.shapes]; rw [ih h]
  | _ => rfl

/-- C24: `aslinear` of a non-square transform reports swapped shapes. -/
theorem C24_aslinear_shapes_fails : ∃ T : Aff ℚ 2 1, T.shapes ≠ (2, 1) :=
  ⟨.aslinear (.matrix (fun _ _ => 1) none), by simp [Aff.shapes]⟩

/-- hypotheses met by a tree using most of the combinators -/
example : distinctSelectors (.composition (.residual .centering)
      (.addIntercept (.selector (m := 3) (r := 2) Fin.castSucc (.matrix (fun (i : Fin 4) (j : Fin 2) => (i.val + j.val : ℚ)) none))) :
      Aff ℚ 4 4) := by
  refine ⟨trivial, ?_, trivial⟩
  exact Fin.castSucc_injective 2

end Verif.Props
