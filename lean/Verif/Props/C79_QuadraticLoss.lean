import Verif.Model.QuadraticLoss
import Verif.Props.C26_Smooth
import Verif.Props.C28_Gradients
import Verif.Props.C69_Container

/-!
# C79: quadratic losses, their factory methods and their conjugates
-/

set_option linter.unusedSectionVars false
set_option linter.unusedVariables false

namespace Verif.Props
open Verif.Model Verif.Lemmas Verif.Spec

variable {n m k : ℕ}

/-! ### specification -/

/-- `coef / 2 · (x-α)' Q (x-α)` where `α` is the optional offset -/
noncomputable def lossForm (coef : ℝ) (offset : Option (Fin n → ℝ)) (Q : (Fin n → ℝ) → Fin n → ℝ) (x : Fin n → ℝ) : ℝ :=
  coef / 2 * dot (fun i => x i - effOffset offset i) (Q fun i => x i - effOffset offset i)

/-- The object is a smooth function with value `F` and its true gradient, and its `objective` is `F` plus the quadratic it was given. -/
def IsLoss (f : QuadLoss n) (F : (Fin n → ℝ) → ℝ) (quadratic : Option (Quad (Fin n) ℝ)) : Prop :=
  (∃ G, Evaluates f.obj F G ∧ ∀ x, IsGradientAt F (G x) x) ∧ ∀ x, f.objective x = some (F x + quadVal quadratic x)

/-- the affine map given by the operator -/
noncomputable def operatorMap : QuadObj.Operator m k → (Fin m → ℝ) → Fin k → ℝ
  | .matrix X, x => fun i => ∑ j, X i j * x j
  | .transform T, x => T.aff x

/-! ### constructors -/

private lemma zeroQuad_val (x : Fin n → ℝ) : (zeroQuad n).funcVal x = 0 := by
  simp [zeroQuad, Quad.funcVal, PyVec.get]

private lemma none_val (x : Fin n → ℝ) : (Quad.init none none none none : Quad (Fin n) ℝ).funcVal x = 0 := by
  simp [Quad.init, Quad.funcVal]

private lemma getD_val (q : Option (Quad (Fin n) ℝ)) (x : Fin n → ℝ) : (q.getD (zeroQuad n)).funcVal x = quadVal q x := by
  cases q with
  | none => exact zeroQuad_val x
  | some q => exact funcVal_quad q x

open Classical in
private lemma init_spec (Q : Smooth.QForm n) (coef : ℝ) (hc : 0 ≤ coef) (offset : Option (Fin n → ℝ)) (quadratic : Option (Quad (Fin n) ℝ)) :
    ∃ off, QuadObj.init Q coef offset quadratic = some ⟨coef, off, Q, quadratic.getD (zeroQuad n)⟩ ∧
      effOffset off = effOffset offset := by
  unfold QuadObj.init
  rw [if_neg hc.not_gt]
  refine ⟨_, rfl, ?_⟩
  cases offset with
  | none => rfl
  | some o =>
    dsimp only
    by_cases h : ∃ i, o i ≠ 0
    · rw [if_pos h]
    · rw [if_neg h]
      push Not at h
      funext i
      simp [effOffset, h i]

/-- what is required of `Q`: symmetric -/
def IsSymForm (Q : Smooth.QForm n) : Prop :=
  (∀ M, Q = .full M → ∀ i j, M i j = M j i) ∧
    ∀ T, Q = .transform T → distinctSelectors T ∧ ∀ x y, ∑ i, T.lin x i * y i = ∑ i, x i * T.lin y i

private lemma isLoss_init (Q : Smooth.QForm n) (hQ : IsSymForm Q) (coef : ℝ) (hc : 0 ≤ coef) (offset : Option (Fin n → ℝ))
    (quadratic : Option (Quad (Fin n) ℝ)) :
    ∃ a, QuadObj.init Q coef offset quadratic = some a ∧ IsLoss a.toLoss (lossForm coef offset Q.app) quadratic := by
  obtain ⟨off, h1, h2⟩ := init_spec Q coef hc offset quadratic
  obtain ⟨F, G, hE, hF, hG⟩ := C28_quadratic_partial coef off Q hQ.1 hQ.2
  have hF' : F = lossForm coef offset Q.app := by
    funext x
    rw [hF, h2]; rfl
  refine ⟨_, h1, ⟨G, hF' ▸ hE, hF' ▸ hG⟩, fun x => ?_⟩
  show (match Smooth.quadraticLoss coef off Q x .func with
    | .val v => some (v + (quadratic.getD (zeroQuad n)).funcVal x)
    | _ => none) = _
  rw [(hE x).1, getD_val, hF']

/-- **C79** `quadratic_loss(shape, Q, coef=c, offset=α, quadratic=q)` raises ValueError exactly for a negative `c`; otherwise its
value is `c/2 (x-α)'Q(x-α)` (`c/2 ‖x-α‖²` without `Q`), its gradient is the gradient of that, and `objective` adds `q`.
Missing: a `Q` that is not symmetric (`C28_quadratic_fails`) and transforms that repeat a position. -/
theorem C79_constructor_partial (Q : Smooth.QForm n) (hQ : IsSymForm Q) (coef : ℝ) (offset : Option (Fin n → ℝ))
    (quadratic : Option (Quad (Fin n) ℝ)) :
    (coef < 0 → QuadObj.init Q coef offset quadratic = none) ∧
    (0 ≤ coef → ∃ a, QuadObj.init Q coef offset quadratic = some a ∧ IsLoss a.toLoss (lossForm coef offset Q.app) quadratic) :=
  ⟨fun h => by unfold QuadObj.init; exact if_pos h, fun h => isLoss_init Q hQ coef h offset quadratic⟩

example : IsSymForm (.full ![![2, 1], ![1, 3]] : Smooth.QForm 2) := by
  refine ⟨?_, fun T h => by cases h⟩
  intro M h i j
  cases h
  fin_cases i <;> fin_cases j <;> rfl

/-- **C79** `quadratic_loss.fromarray(Q, offset=α)` is `½ (x-α)'Q(x-α)` for every symmetric matrix `Q`. -/
theorem C79_fromarray_partial (Q : Fin n → Fin n → ℝ) (hQ : ∀ i j, Q i j = Q j i) (offset : Option (Fin n → ℝ))
    (quadratic : Option (Quad (Fin n) ℝ)) :
    ∃ a, QuadObj.fromarray Q offset quadratic = some a ∧
      IsLoss a.toLoss (lossForm 1 offset fun z i => ∑ j, Q i j * z j) quadratic := by
  refine isLoss_init (.full Q) ⟨?_, fun T h => by cases h⟩ 1 zero_le_one offset quadratic
  intro M h
  cases h
  exact hQ

/-- **C79** `quadratic_loss.diagonal(D, offset=α)` is `½ ∑ Dᵢ (xᵢ-αᵢ)²`, and convex when no entry of `D` is negative. -/
theorem C79_diagonal (D : Fin n → ℝ) (offset : Option (Fin n → ℝ)) (quadratic : Option (Quad (Fin n) ℝ)) :
    let F := fun x : Fin n → ℝ => 1 / 2 * ∑ i, D i * (x i - effOffset offset i) ^ 2
    (∃ a, QuadObj.diagonal D offset quadratic = some a ∧ IsLoss a.toLoss F quadratic) ∧ ((∀ i, 0 ≤ D i) → IsConvex F) := by
  intro F
  refine ⟨?_, fun hD => ?_⟩
  · obtain ⟨a, h1, h2⟩ := isLoss_init (.diag D) ⟨fun M h => (by cases h), fun T h => (by cases h)⟩ 1 zero_le_one offset quadratic
    refine ⟨a, h1, ?_⟩
    have : lossForm 1 offset (Smooth.QForm.diag D).app = F := by
      funext x
      unfold lossForm dot Smooth.QForm.app
      show 1 / 2 * _ = 1 / 2 * _
      congr 1
      exact Finset.sum_congr rfl fun i _ => by ring
    rwa [this] at h2
  · intro x y a b ha hb hab
    show 1 / 2 * _ ≤ a * (1 / 2 * _) + b * (1 / 2 * _)
    have : ∀ i, D i * (a * x i + b * y i - effOffset offset i) ^ 2 ≤
        a * (D i * (x i - effOffset offset i) ^ 2) + b * (D i * (y i - effOffset offset i) ^ 2) := by
      intro i
      have e : a * (D i * (x i - effOffset offset i) ^ 2) + b * (D i * (y i - effOffset offset i) ^ 2) -
          D i * (a * x i + b * y i - effOffset offset i) ^ 2 = D i * (a * b * (x i - y i) ^ 2) := by
        have : b = 1 - a := by linarith
        subst this; ring
      have := mul_nonneg (hD i) (mul_nonneg (mul_nonneg ha hb) (sq_nonneg (x i - y i)))
      linarith
    have h := Finset.sum_le_sum fun i (_ : i ∈ Finset.univ) => this i
    rw [Finset.sum_add_distrib, ← Finset.mul_sum, ← Finset.mul_sum] at h
    linarith

/-- **C79** `quadratic_loss.squared_transform(T, offset=α)` is `½ ‖D(x-α)‖²`, `D` the linear part of `T`, with its true gradient, and
it is convex, for every transform without a repeated position in a selector. -/
theorem C79_squared_transform_partial (T : Aff ℝ n k) (hT : distinctSelectors T) (offset : Option (Fin n → ℝ))
    (quadratic : Option (Quad (Fin n) ℝ)) :
    let F := fun x : Fin n → ℝ => 1 / 2 * ∑ i, T.lin (fun j => x j - effOffset offset j) i ^ 2
    (∃ a, QuadObj.squaredTransform T offset quadratic = some a ∧ IsLoss a.toLoss F quadratic) ∧ IsConvex F := by
  intro F
  have hadj := C24_adjoint_partial T hT
  have happ : ∀ x, (Aff.composition (.adjoint T) T).lin x = T.adj (T.lin x) := fun x => rfl
  refine ⟨?_, ?_⟩
  · have hsym : IsSymForm (.transform (.composition (.adjoint T) T)) := by
      refine ⟨fun M h => (by cases h), fun S h => ?_⟩
      cases h
      refine ⟨⟨hT, hT⟩, fun x y => ?_⟩
      have e1 := hadj y (T.lin x)
      have e2 := hadj x (T.lin y)
      simp only [happ]
      calc ∑ i, T.adj (T.lin x) i * y i = ∑ i, y i * T.adj (T.lin x) i := Finset.sum_congr rfl fun i _ => mul_comm _ _
        _ = ∑ i, T.lin y i * T.lin x i := e1.symm
        _ = ∑ i, T.lin x i * T.lin y i := Finset.sum_congr rfl fun i _ => mul_comm _ _
        _ = _ := e2
    obtain ⟨a, h1, h2⟩ := isLoss_init (.transform (.composition (.adjoint T) T)) hsym 1 zero_le_one offset quadratic
    refine ⟨a, h1, ?_⟩
    have : lossForm 1 offset (Smooth.QForm.transform (.composition (.adjoint T) T)).app = F := by
      funext x
      unfold lossForm dot Smooth.QForm.app
      show 1 / 2 * _ = 1 / 2 * _
      congr 1
      simp only [happ]
      rw [← hadj]
      exact Finset.sum_congr rfl fun i _ => by ring
    rwa [this] at h2
  · have hlin := C24_linear T hT
    intro x y a b ha hb hab
    show 1 / 2 * _ ≤ a * (1 / 2 * _) + b * (1 / 2 * _)
    have e : (fun j => a * x j + b * y j - effOffset offset j) =
        fun j => a * (x j - effOffset offset j) + b * (y j - effOffset offset j) := by
      funext j
      have : b = 1 - a := by linarith
      subst this; ring
    have : ∀ i, T.lin (fun j => a * x j + b * y j - effOffset offset j) i ^ 2 ≤
        a * T.lin (fun j => x j - effOffset offset j) i ^ 2 + b * T.lin (fun j => y j - effOffset offset j) i ^ 2 := by
      intro i
      have hl := hlin a b (fun j => x j - effOffset offset j) (fun j => y j - effOffset offset j) i
      rw [e, hl]
      generalize T.lin (fun j => x j - effOffset offset j) i = u
      generalize T.lin (fun j => y j - effOffset offset j) i = v
      have hb' : b = 1 - a := by linarith
      have := mul_nonneg (mul_nonneg ha hb) (sq_nonneg (u - v))
      subst hb'
      nlinarith
    have h := Finset.sum_le_sum fun i (_ : i ∈ Finset.univ) => this i
    rw [Finset.sum_add_distrib, ← Finset.mul_sum, ← Finset.mul_sum] at h
    linarith

example : distinctSelectors (.matrix ![![1, -1, 0], ![0, 1, -1]] none : Aff ℝ 3 2) := trivial

/-! ### affine, linear, shift -/

/-- **C79** keywords: the only extra keywords the factory methods of `quadratic_loss` let through are `Q` and `Qdiag`; any other name
is a ValueError. -/
theorem C79_keywords (keywords : List String) :
    acceptableInitArgs QuadObj.argNames keywords = true ↔ ∀ kw ∈ keywords, kw = "Q" ∨ kw = "Qdiag" := by
  unfold acceptableInitArgs
  rw [List.all_eq_true]
  refine forall₂_congr fun kw _ => ?_
  simp only [QuadObj.argNames, List.contains_eq_mem, List.mem_cons, List.not_mem_nil, or_false, Bool.and_eq_true, decide_eq_true_eq,
    Bool.not_eq_true', decide_eq_false_iff_not, not_or]
  constructor
  · rintro ⟨h, h1, h2, h3, h4, h5, h6⟩
    tauto
  · rintro (rfl | rfl) <;> decide

private lemma composed_isLoss (Q : Smooth.QForm k) (hQ : IsSymForm Q) (coef : ℝ) (off : Option (Fin k → ℝ)) (q : Quad (Fin k) ℝ)
    (T : Aff ℝ m k) (hT : distinctSelectors T) :
    IsLoss (QuadObj.Composed.toLoss ⟨⟨coef, off, Q, q⟩, T, Quad.init none none none none⟩)
      (fun x => lossForm coef off Q.app (T.aff x)) none := by
  obtain ⟨F, G, hE, hF, hG⟩ := C28_quadratic_partial coef off Q hQ.1 hQ.2
  have hF' : F = lossForm coef off Q.app := by
    funext x; rw [hF]; rfl
  subst hF'
  have hV := C26_value T _ _ _ hE
  refine ⟨⟨_, hV, fun x => ?_⟩, fun x => ?_⟩
  · obtain ⟨F', G', hE', hF'', hG'⟩ := C26_chain_rule_partial T hT _ _ _ hE x (hG _)
    have e : F' = fun x => lossForm coef off Q.app (T.aff x) := funext hF''
    have e2 : G' x = T.adj (G (T.aff x)) := by
      have := (hE' x).2.1.symm.trans (hV x).2.1
      injection this
    rw [← e, ← e2]
    exact hG'
  · show (match Smooth.affineSmooth (Smooth.quadraticLoss coef off Q) T x .func with
      | .val v => some (v + (Quad.init none none none none : Quad (Fin m) ℝ).funcVal x)
      | _ => none) = _
    rw [(hV x).1, none_val]; rfl

private lemma factory_none {α β : Type} (keywords : List String) (o : Option α) (f : α → β) :
    (if (!acceptableInitArgs QuadObj.argNames keywords) = true then none else o.map f) = none ↔
      o = none ∨ ¬ ∀ kw ∈ keywords, kw = "Q" ∨ kw = "Qdiag" := by
  rw [← C79_keywords]
  cases h : acceptableInitArgs QuadObj.argNames keywords <;> simp

private lemma init_none (Q : Smooth.QForm n) (coef : ℝ) (offset : Option (Fin n → ℝ)) (quadratic : Option (Quad (Fin n) ℝ)) :
    QuadObj.init Q coef offset quadratic = none ↔ coef < 0 := by
  unfold QuadObj.init
  by_cases h : coef < 0
  · simp [h]
  · simp [h]

/-- **C79** `quadratic_loss.affine(X, b, coef=c, Q=Q)` is `c/2 r'Qr` with `r = Xx + b` (the offset is added), for a matrix or a transform
`X`, and its gradient is the gradient of that.  It raises ValueError exactly for an unacceptable keyword or a negative `c`.
Missing: a `quadratic` argument, which is lost (`C79_quadratic_fails`), and transforms that repeat a position. -/
theorem C79_affine_partial (X : QuadObj.Operator m k) (hX : ∀ T, X = .transform T → distinctSelectors T) (b : Fin k → ℝ) (coef : ℝ)
    (keywords : List String) (Q : Smooth.QForm k) (hQ : IsSymForm Q) :
    (QuadObj.affine X b coef none keywords Q = none ↔ coef < 0 ∨ ¬ ∀ kw ∈ keywords, kw = "Q" ∨ kw = "Qdiag") ∧
    ∀ c, QuadObj.affine X b coef none keywords Q = some c →
      IsLoss c.toLoss (fun x => coef / 2 * dot (fun i => operatorMap X x i + b i) (Q.app fun i => operatorMap X x i + b i)) none := by
  refine ⟨?_, fun c hc => ?_⟩
  · unfold QuadObj.affine
    rw [factory_none, init_none]
  · have hc0 : 0 ≤ coef := by
      by_contra h
      have : QuadObj.affine X b coef none keywords Q = none := by
        unfold QuadObj.affine
        rw [factory_none, init_none]
        exact Or.inl (not_le.1 h)
      rw [this] at hc; cases hc
    obtain ⟨off, h1, h2⟩ := init_spec Q coef hc0 (some fun i => -b i) none
    unfold QuadObj.affine at hc
    rw [h1] at hc
    dsimp only [Option.map_some] at hc
    split_ifs at hc with h
    rw [Option.some_inj] at hc
    subst hc
    have key : ∀ T : Aff ℝ m k, distinctSelectors T → (∀ x, T.aff x = operatorMap X x) →
        IsLoss (QuadObj.Composed.toLoss ⟨⟨coef, off, Q, (none : Option (Quad (Fin k) ℝ)).getD (zeroQuad k)⟩, T, Quad.init none none none none⟩)
          (fun x => coef / 2 * dot (fun i => operatorMap X x i + b i) (Q.app fun i => operatorMap X x i + b i)) none := by
      intro T hT hm
      have e : (fun x => coef / 2 * dot (fun i => operatorMap X x i + b i) (Q.app fun i => operatorMap X x i + b i)) =
          fun x => lossForm coef off Q.app (T.aff x) := by
        funext x
        unfold lossForm
        rw [h2, hm]
        have : ∀ i, operatorMap X x i - effOffset (some fun i => -b i) i = operatorMap X x i + b i := fun i => sub_neg_eq_add _ _
        simp only [this]
      rw [e]
      exact composed_isLoss Q hQ coef off _ T hT
    cases X with
    | matrix X => exact key (.matrix X none) trivial fun _ => rfl
    | transform T => exact key T (hX T rfl) fun _ => rfl

/-- **C79** `quadratic_loss.linear(X, coef=c, offset=α, Q=Q)` is `c/2 r'Qr` with `r = Xx - α` (the offset is subtracted), and its
gradient is the gradient of that.  Missing: as for `affine`. -/
theorem C79_linear_partial (X : QuadObj.Operator m k) (hX : ∀ T, X = .transform T → distinctSelectors T) (offset : Option (Fin k → ℝ))
    (coef : ℝ) (keywords : List String) (Q : Smooth.QForm k) (hQ : IsSymForm Q) :
    (QuadObj.linear X coef offset none keywords Q = none ↔ coef < 0 ∨ ¬ ∀ kw ∈ keywords, kw = "Q" ∨ kw = "Qdiag") ∧
    ∀ c, QuadObj.linear X coef offset none keywords Q = some c →
      IsLoss c.toLoss (fun x => coef / 2 * dot (fun i => operatorMap X x i - effOffset offset i)
        (Q.app fun i => operatorMap X x i - effOffset offset i)) none := by
  refine ⟨?_, fun c hc => ?_⟩
  · unfold QuadObj.linear
    rw [factory_none, init_none]
  · have hc0 : 0 ≤ coef := by
      by_contra h
      have : QuadObj.linear X coef offset none keywords Q = none := by
        unfold QuadObj.linear
        rw [factory_none, init_none]
        exact Or.inl (not_le.1 h)
      rw [this] at hc; cases hc
    obtain ⟨off, h1, h2⟩ := init_spec Q coef hc0 offset none
    unfold QuadObj.linear at hc
    rw [h1] at hc
    dsimp only [Option.map_some] at hc
    split_ifs at hc with h
    rw [Option.some_inj] at hc
    subst hc
    have key : ∀ T : Aff ℝ m k, distinctSelectors T → (∀ x, T.aff x = operatorMap X x) →
        IsLoss (QuadObj.Composed.toLoss ⟨⟨coef, off, Q, (none : Option (Quad (Fin k) ℝ)).getD (zeroQuad k)⟩, T, Quad.init none none none none⟩)
          (fun x => coef / 2 * dot (fun i => operatorMap X x i - effOffset offset i)
            (Q.app fun i => operatorMap X x i - effOffset offset i)) none := by
      intro T hT hm
      have e : (fun x => coef / 2 * dot (fun i => operatorMap X x i - effOffset offset i)
          (Q.app fun i => operatorMap X x i - effOffset offset i)) = fun x => lossForm coef off Q.app (T.aff x) := by
        funext x
        unfold lossForm
        rw [h2, hm]
      rw [e]
      exact composed_isLoss Q hQ coef off _ T hT
    cases X with
    | matrix X => exact key (.matrix X none) trivial fun _ => rfl
    | transform T => exact key (.wrap T none) (hX T rfl) fun _ => rfl

/-- **C79** `quadratic_loss.shift(α, coef=c, quadratic=q, Q=Q)` is `c/2 (x-α)'Q(x-α)` and keeps `q`. -/
theorem C79_shift_partial (offset : Fin n → ℝ) (coef : ℝ) (quadratic : Option (Quad (Fin n) ℝ)) (keywords : List String)
    (Q : Smooth.QForm n) (hQ : IsSymForm Q) :
    (QuadObj.shift offset coef quadratic keywords Q = none ↔ coef < 0 ∨ ¬ ∀ kw ∈ keywords, kw = "Q" ∨ kw = "Qdiag") ∧
    ∀ a, QuadObj.shift offset coef quadratic keywords Q = some a → IsLoss a.toLoss (lossForm coef (some offset) Q.app) quadratic := by
  have hn : QuadObj.shift offset coef quadratic keywords Q = none ↔ coef < 0 ∨ ¬ ∀ kw ∈ keywords, kw = "Q" ∨ kw = "Qdiag" := by
    unfold QuadObj.shift
    rw [← init_none Q coef (some offset) quadratic, ← factory_none keywords _ id, Option.map_id, id]
  refine ⟨hn, fun a ha => ?_⟩
  have hc0 : 0 ≤ coef := by
    by_contra h
    rw [hn.2 (Or.inl (not_le.1 h))] at ha; cases ha
  obtain ⟨a', h1, h2⟩ := isLoss_init Q hQ coef hc0 (some offset) quadratic
  unfold QuadObj.shift at ha
  rw [h1] at ha
  split_ifs at ha with h
  rw [Option.some_inj] at ha
  exact ha ▸ h2

example : ∃ c, QuadObj.affine (.matrix ![![1, 2], ![0, 1]]) ![1, -1] 2 none ["Q"] (.full ![![2, 1], ![1, 3]]) = some c := by
  rw [← Option.ne_none_iff_exists']
  intro h
  have hs : IsSymForm (.full ![![2, 1], ![1, 3]] : Smooth.QForm 2) := by
    refine ⟨?_, fun T h => by cases h⟩
    intro M h i j
    cases h
    fin_cases i <;> fin_cases j <;> rfl
  rcases (C79_affine_partial _ (fun T h => by cases h) _ _ _ _ hs).1.1 h with h | h
  · norm_num at h
  · exact h (by simp)

/-- **C79** fails for the argument `quadratic` of `affine` and `linear`: the object built does not depend on it, because the quadratic is
given to the inner atom, whose `smooth_objective` ignores it.  With `q = ½‖·‖²` the objective at 1 of `linear([[1]], quadratic=q)` is 1/2
where `½x² + q(x)` is 1. -/
theorem C79_quadratic_fails :
    (∀ (X : QuadObj.Operator m k) (b : Fin k → ℝ) (coef : ℝ) (q : Option (Quad (Fin k) ℝ)) (kws : List String) (Q : Smooth.QForm k) x,
      (QuadObj.affine X b coef q kws Q).map (fun c => c.toLoss.objective x) =
        (QuadObj.affine X b coef none kws Q).map fun c => c.toLoss.objective x) ∧
    (∀ (X : QuadObj.Operator m k) (o : Option (Fin k → ℝ)) (coef : ℝ) (q : Option (Quad (Fin k) ℝ)) (kws : List String)
        (Q : Smooth.QForm k) x,
      (QuadObj.linear X coef o q kws Q).map (fun c => c.toLoss.objective x) =
        (QuadObj.linear X coef o none kws Q).map fun c => c.toLoss.objective x) ∧
    ∃ (q : Quad (Fin 1) ℝ) (c : QuadObj.Composed 1 1),
      QuadObj.linear (.matrix fun _ _ => 1) 1 none (some q) [] .none = some c ∧
        (∀ x, quadVal (some q) x = 1 / 2 * x 0 ^ 2) ∧ c.toLoss.objective (fun _ => 1) = some (1 / 2) := by
  refine ⟨?_, ?_, ?_⟩
  · intro X b coef q kws Q x
    unfold QuadObj.affine QuadObj.init
    by_cases h : coef < 0 <;> by_cases h' : (!acceptableInitArgs QuadObj.argNames kws) = true <;> simp [h, h'] <;> rfl
  · intro X o coef q kws Q x
    unfold QuadObj.linear QuadObj.init
    by_cases h : coef < 0 <;> by_cases h' : (!acceptableInitArgs QuadObj.argNames kws) = true <;> simp [h, h'] <;> rfl
  · refine ⟨⟨1, none, none, 0⟩, ⟨⟨1, none, .none, ⟨1, none, none, 0⟩⟩, .matrix (fun _ _ => 1) none, Quad.init none none none none⟩, ?_, ?_, ?_⟩
    · simp [QuadObj.linear, QuadObj.init, acceptableInitArgs]
    · intro x
      simp [quadVal, quadFn, denote, sqDist, dot]
    · have h := (composed_isLoss (k := 1) (m := 1) .none ⟨fun M h => (by cases h), fun T h => (by cases h)⟩ 1 none ⟨1, none, none, 0⟩
        (.matrix (fun _ _ => 1) none) trivial).2 fun _ => 1
      rw [h]
      simp [lossForm, dot, Smooth.QForm.app, effOffset, quadVal, Aff.aff, Aff.meth, Aff.Off.ofOption, Aff.Off.addTo]

/-! ### conjugates -/

/-- the quadratic has no float center other than zero, unless there is only one coordinate -/
def CenterOk (q : Quad (Fin n) ℝ) : Prop := ∀ c, q.center = some (.scalar c) → c = 0 ∨ Fintype.card (Fin n) = 1

/-- **C79** `quadratic_loss(shape, coef=c, offset=α, quadratic=q).conjugate`, with `c ≥ 0` and positive total quadratic coefficient, is the
Fenchel conjugate of `c/2 ‖x-α‖² + q(x)`, with the maximiser as gradient.  With total coefficient 0 it raises ValueError.
Missing: a float other than 0 as center of `q` in dimension at least 2 (`C14_collapsed_fails`), and a `Q` (`C79_conjugate_fails`). -/
theorem C79_conjugate_partial (coef : ℝ) (offset : Option (Fin n → ℝ)) (quadratic : Option (Quad (Fin n) ℝ))
    (hq : ∀ q, quadratic = some q → CenterOk q) (a : QuadObj n) (ha : QuadObj.init .none coef offset quadratic = some a) (factor : Bool) :
    (coef + quadCoef quadratic = 0 → a.getConjugate factor = .valueError) ∧
    (0 < coef + quadCoef quadratic → ∃ f V G, a.getConjugate factor = .ok f ∧ Evaluates f V G ∧
      IsSmoothConjugate (fun x => ((coef / 2 * sqDist x (effOffset offset) + quadVal quadratic x : ℝ) : WithTop ℝ)) V G) := by
  have hc : 0 ≤ coef := by
    by_contra h
    rw [(init_none .none coef offset quadratic).2 (not_le.1 h)] at ha; cases ha
  obtain ⟨off, h1, h2⟩ := init_spec .none coef hc offset quadratic
  rw [h1, Option.some_inj] at ha
  subst ha
  have hcoef : (quadratic.getD (zeroQuad n)).coef = quadCoef quadratic := by cases quadratic <;> rfl
  set asQuad := ((Quad.init (some coef) (off.map .arr) (some (.scalar 0)) (some 0)).add (some (quadratic.getD (zeroQuad n)))).collapsed
    with hA
  have hAc : asQuad.coef = coef + quadCoef quadratic := by rw [← hcoef]; rfl
  have hAz : (asQuad.add (some (zeroQuad n))).coef = coef + quadCoef quadratic := by
    show asQuad.coef + 0 = _
    rw [hAc, add_zero]
  have hg : QuadObj.getConjugate ⟨coef, off, .none, quadratic.getD (zeroQuad n)⟩ factor =
      if (asQuad.add (some (zeroQuad n))).coef = 0 then .valueError else .ok (Container.conjOfQuad asQuad) := rfl
  refine ⟨fun h => ?_, fun h => ?_⟩
  · rw [hg, hAz, if_pos h]
  · have hval : ∀ x, quadVal (some asQuad) x = coef / 2 * sqDist x (effOffset offset) + quadVal quadratic x := by
      intro x
      obtain ⟨v, e1, e2⟩ := C14_collapsed_partial
        ((Quad.init (some coef) (off.map .arr) (some (.scalar 0)) (some 0)).add (some (quadratic.getD (zeroQuad n)))) x
        (fun c hcen => Or.inl (by cases hcen; rfl))
      obtain ⟨v1, v2, e3, e4, e5⟩ := C14_add_partial (Quad.init (some coef) (off.map .arr) (some (.scalar 0)) (some 0))
        (quadratic.getD (zeroQuad n)) x (fun c hcen => by cases off <;> cases hcen) (fun c hcen => by
          cases quadratic with
          | none => left; cases hcen; rfl
          | some q => exact hq q rfl c hcen)
      have f1 : v = v1 + v2 := by
        have := e1.symm.trans e5
        injection this
      have f2 : quadVal (some asQuad) x = v := by
        rw [← funcVal_quad]
        injection e2
      have f3 : v1 = coef / 2 * sqDist x (effOffset offset) := by
        have : (Quad.init (some coef) (off.map .arr) (some (.scalar 0)) (some 0) : Quad (Fin n) ℝ).funcVal x = v1 := by injection e3
        rw [← this, funcVal_quad, ← h2]
        have hd : denote (off.map PyVec.arr) = effOffset off := by
          funext i; cases off <;> rfl
        simp [quadVal, quadFn, Quad.init, hd, dot, denote]
      have f4 : v2 = quadVal quadratic x := by
        have : (quadratic.getD (zeroQuad n)).funcVal x = v2 := by injection e4
        rw [← this, getD_val]
      rw [f2, f1, f3, f4]
    have hpos : 0 < asQuad.coef := hAc ▸ h
    refine ⟨_, _, _, by rw [hg, hAz, if_neg h.ne'], conj_eval asQuad hpos, ?_⟩
    have e : (fun x => ((coef / 2 * sqDist x (effOffset offset) + quadVal quadratic x : ℝ) : WithTop ℝ)) = quadTop asQuad := by
      funext x
      unfold quadTop
      rw [hval]
    rw [e]
    exact conj_smooth asQuad hpos

example : ∃ a, QuadObj.init (.none : Smooth.QForm 2) 2 (some ![1, -1]) (some ⟨1, some (.arr ![1, 2]), some (.scalar 3), 4⟩) = some a :=
  (C79_constructor_partial .none ⟨fun M h => (by cases h), fun T h => (by cases h)⟩ 2 _ _).2 (by norm_num) |>.imp fun _ h => h.1

/-- **C79** fails for a loss with a `Q`: `conjugate` raises for every diagonal, matrix or transform `Q` (also positive definite ones, for
which the conjugate exists), with and without `factor`. -/
theorem C79_conjugate_fails (Q : Smooth.QForm n) (hQ : Q ≠ .none) (coef : ℝ) (offset : Option (Fin n → ℝ))
    (quadratic : Option (Quad (Fin n) ℝ)) (a : QuadObj n) (ha : QuadObj.init Q coef offset quadratic = some a) (factor : Bool) :
    ∀ f, a.getConjugate factor ≠ .ok f := by
  intro f hf
  have haQ : a.Q = Q := by
    unfold QuadObj.init at ha
    dsimp only at ha
    split_ifs at ha
    rw [Option.some_inj] at ha
    rw [← ha]
  unfold QuadObj.getConjugate at hf
  rw [haQ] at hf
  cases Q with
  | none => exact hQ rfl
  | diag d => cases hf
  | full M => cases factor <;> cases hf
  | transform T => cases factor <;> cases hf

example : ∃ a, QuadObj.diagonal ![(1:ℝ), 2] none none = some a := (C79_diagonal _ _ _).1.imp fun _ h => h.1

/-- **C79** `dual` of `quadratic_loss.affine(X, b, coef=c)` with `c > 0` is the pair of the transform and the Fenchel conjugate of
`c/2 ‖r + b‖²`; with a `Q`, or with `c = 0`, it is `None`. -/
theorem C79_dual (T : Aff ℝ m k) (b : Fin k → ℝ) (coef : ℝ) (keywords : List String) (Q : Smooth.QForm k) (c : QuadObj.Composed m k)
    (hc : QuadObj.affine (.transform T) b coef none keywords Q = some c) :
    (Q ≠ .none → c.dual = none) ∧ (coef = 0 → c.dual = none) ∧
    (Q = .none → 0 < coef → ∃ f V G, c.dual = some (T, f) ∧ Evaluates f V G ∧
      IsSmoothConjugate (fun r => ((coef / 2 * ∑ i, (r i + b i) ^ 2 : ℝ) : WithTop ℝ)) V G) := by
  have hca : QuadObj.init Q coef (some fun i => -b i) none = some c.atom ∧ c.transform = T := by
    unfold QuadObj.affine at hc
    dsimp only at hc
    split_ifs at hc with h
    rw [Option.map_eq_some_iff] at hc
    obtain ⟨a, h1, h2⟩ := hc
    rw [← h2]
    exact ⟨h1, rfl⟩
  obtain ⟨hca, hct⟩ := hca
  have hQ1 : Q ≠ .none → c.dual = none := by
    intro hQ
    have := C79_conjugate_fails Q hQ coef _ _ _ hca false
    unfold QuadObj.Composed.dual
    cases h : c.atom.getConjugate false with
    | ok f => exact absurd h (this f)
    | _ => rfl
  refine ⟨hQ1, fun h0 => ?_, fun hQ hpos => ?_⟩
  · by_cases hQ : Q = .none
    · subst hQ
      have := (C79_conjugate_partial coef _ _ (fun q hq => by cases hq) _ hca false).1 (by rw [h0]; simp [quadCoef])
      unfold QuadObj.Composed.dual
      rw [this]
    · exact hQ1 hQ
  · subst hQ
    obtain ⟨f, V, G, h1, h2, h3⟩ := (C79_conjugate_partial coef _ _ (fun q hq => by cases hq) _ hca false).2 (by simpa [quadCoef] using hpos)
    refine ⟨f, V, G, ?_, h2, ?_⟩
    · unfold QuadObj.Composed.dual
      rw [h1, hct]
    · convert h3 using 3 with r
      simp [quadVal, sqDist, effOffset]

/-! ### cholesky -/

/-- **C79** `cholesky(Q)`, with a symmetric `Q` whose factor solves `Q y = x` for every `x`, is multiplication by the inverse of `Q`: applied
after `Q` or before it gives back the argument; `adjoint_map` is the adjoint of `linear_map`. -/
theorem C79_cholesky (c : Chol n) (Q : Fin n → Fin n → ℝ) (hsym : ∀ i j, Q i j = Q j i)
    (hsolve : ∀ x i, ∑ j, Q i j * c.solve x j = x i) :
    (∀ x, (fun i => ∑ j, Q i j * c.linearMap x j) = x) ∧ (∀ x, c.linearMap (fun i => ∑ j, Q i j * x j) = x) ∧
    (∀ x, c.affineMap x = c.linearMap x) ∧ IsAdjoint c.linearMap c.adjointMap := by
  have hs : ∀ x y : Fin n → ℝ, ∑ i, (∑ j, Q i j * x j) * y i = ∑ i, x i * ∑ j, Q i j * y j := by
    intro x y
    simp only [Finset.sum_mul, Finset.mul_sum]
    rw [Finset.sum_comm]
    exact Finset.sum_congr rfl fun j _ => Finset.sum_congr rfl fun i _ => by rw [hsym i j]; ring
  have hadj : IsAdjoint c.linearMap c.adjointMap := by
    intro x u
    show ∑ i, c.solve x i * u i = ∑ i, x i * c.solve u i
    have := hs (c.solve x) (c.solve u)
    simp only [hsolve] at this
    exact this.symm
  refine ⟨fun x => funext fun i => hsolve x i, fun x => ?_, fun x => rfl, hadj⟩
  funext i
  have e1 := hadj (fun i => ∑ j, Q i j * x j) (Pi.single i 1)
  have e2 := hs x (c.solve (Pi.single i 1))
  simp only [hsolve] at e2
  have e3 : ∑ j, c.linearMap (fun i => ∑ j, Q i j * x j) j * (Pi.single i (1:ℝ) : Fin n → ℝ) j =
      ∑ j, x j * (Pi.single i (1:ℝ) : Fin n → ℝ) j := e1.trans e2
  simpa [Pi.single_apply] using e3

example : ∃ (c : Chol 2) (Q : Fin 2 → Fin 2 → ℝ), (∀ i j, Q i j = Q j i) ∧ ∀ x i, ∑ j, Q i j * c.solve x j = x i := by
  refine ⟨⟨fun x => ![(3 * x 0 - x 1) / 5, (2 * x 1 - x 0) / 5]⟩, ![![2, 1], ![1, 3]], ?_, ?_⟩
  · intro i j; fin_cases i <;> fin_cases j <;> rfl
  · intro x i
    fin_cases i <;> simp [Fin.sum_univ_two] <;> ring

end Verif.Props
