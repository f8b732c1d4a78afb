import Verif.Model.Container
import Verif.Props.C68_DualProblem

/-!
# C69: containers

`container(loss_1, ..., penalty_1, ...)` stands for the sum of its members.
-/

set_option linter.unusedSectionVars false
set_option linter.unusedVariables false

namespace Verif.Props
open Verif.Model Verif.Lemmas Verif.Spec

variable {n k : ℕ}

/-- the function denoted by an identity_quadratic, with values in `ℝ ∪ {+∞}` -/
noncomputable def quadTop (q : Quad (Fin n) ℝ) (z : Fin n → ℝ) : WithTop ℝ := ((quadVal (some q) z : ℝ) : WithTop ℝ)

lemma funcVal_quad (q : Quad (Fin n) ℝ) (x : Fin n → ℝ) : q.funcVal x = quadVal (some q) x := by
  have h1 : denote q.center = centerAt q := by
    funext i; unfold denote centerAt; rcases q.center with _ | (c | c) <;> rfl
  have h2 : denote q.linear = linearAt q := by
    funext i; unfold denote linearAt; rcases q.linear with _ | (c | c) <;> rfl
  show _ = quadFn q.coef (denote q.center) (denote q.linear) q.const x
  rw [funcVal_eq, h1, h2]; rfl

/-! ### objective -/

/-- Specification: the sum of the functions `F a` over the members `a`. -/
noncomputable def sumOf {α : Type*} (l : List α) (F : α → ℝ) : ℝ := (l.map F).sum

private lemma funcLoop_eq (x : Fin n → ℝ) (F : ContSmooth n → (Fin n → ℝ) → ℝ) (l : List (ContSmooth n)) (v : ℝ)
    (h : ∀ a ∈ l, a.obj x .func = .val (F a x)) : Container.funcLoop x l v = .val (v + sumOf l fun a => F a x) := by
  induction l generalizing v with
  | nil => simp [Container.funcLoop, sumOf]
  | cons a l ih =>
    unfold Container.funcLoop
    rw [h a (by simp)]
    simp only
    rw [ih _ fun b hb => h b (by simp [hb])]
    simp [sumOf, add_assoc]

private lemma gradLoop_eq (x : Fin n → ℝ) (G : ContSmooth n → (Fin n → ℝ) → Fin n → ℝ) (l : List (ContSmooth n))
    (v : Fin n → ℝ) (h : ∀ a ∈ l, a.obj x .grad = .grad (G a x)) :
    Container.gradLoop x l v = .grad fun i => v i + sumOf l fun a => G a x i := by
  induction l generalizing v with
  | nil => simp [Container.gradLoop, sumOf]
  | cons a l ih =>
    unfold Container.gradLoop
    rw [h a (by simp)]
    simp only
    rw [ih _ fun b hb => h b (by simp [hb])]
    simp [sumOf, add_assoc]

private lemma bothLoop_eq (x : Fin n → ℝ) (F : ContSmooth n → (Fin n → ℝ) → ℝ) (G : ContSmooth n → (Fin n → ℝ) → Fin n → ℝ)
    (l : List (ContSmooth n)) (v : ℝ) (g : Fin n → ℝ) (h : ∀ a ∈ l, a.obj x .both = .both (F a x) (G a x)) :
    Container.bothLoop x l v g = .both (v + sumOf l fun a => F a x) fun i => g i + sumOf l fun a => G a x i := by
  induction l generalizing v g with
  | nil => simp [Container.bothLoop, sumOf]
  | cons a l ih =>
    unfold Container.bothLoop
    rw [h a (by simp)]
    simp only
    rw [ih _ _ fun b hb => h b (by simp [hb])]
    simp [sumOf, add_assoc]

private lemma sum_gradient (x : Fin n → ℝ) (F : ContSmooth n → (Fin n → ℝ) → ℝ) (G : ContSmooth n → (Fin n → ℝ) → Fin n → ℝ)
    (l : List (ContSmooth n)) (h : ∀ a ∈ l, IsGradientAt (F a) (G a x) x) :
    IsGradientAt (fun y => sumOf l fun a => F a y) (fun i => sumOf l fun a => G a x i) x := by
  induction l with
  | nil =>
    have : IsGradientAt (fun _ : Fin n → ℝ => (0 : ℝ)) (fun _ => 0) x :=
      isGradientAt_of_quadratic 0 fun y => by simp [dot]
    simpa [sumOf] using this
  | cons a l ih =>
    have h1 := h a (by simp)
    have h2 := ih fun b hb => h b (by simp [hb])
    have h3 := HasFDerivAt.add h1 h2
    unfold IsGradientAt at *
    have e1 : (fun y => sumOf (a :: l) fun b => F b y) = (F a) + fun y => sumOf l fun b => F b y := by
      funext y; simp [sumOf]
    rw [e1]
    refine h3.congr_fderiv ?_
    ext v
    simp [sumOf, add_mul, Finset.sum_add_distrib]

/-- **C69** `smooth_objective` returns in every documented mode the sum of the values and of the gradients of the smooth
members, the sum of the gradients is the gradient of the sum, and any other mode raises ValueError. -/
theorem C69_smooth_objective (C : Container n) (F : ContSmooth n → (Fin n → ℝ) → ℝ)
    (G : ContSmooth n → (Fin n → ℝ) → Fin n → ℝ) (h : ∀ a ∈ C.smooth, Evaluates a.obj (F a) (G a)) :
    Evaluates C.smoothObjective (fun x => sumOf C.smooth fun a => F a x) (fun x i => sumOf C.smooth fun a => G a x i) ∧
    (∀ x, (∀ a ∈ C.smooth, IsGradientAt (F a) (G a x) x) →
      IsGradientAt (fun x => sumOf C.smooth fun a => F a x) (fun i => sumOf C.smooth fun a => G a x i) x) ∧
    ∀ x, C.smoothObjective x .other = .valueError := by
  refine ⟨fun x => ⟨?_, ?_, ?_⟩, fun x hx => sum_gradient x F G C.smooth hx, fun x => rfl⟩
  · show Container.funcLoop x C.smooth 0 = _
    rw [funcLoop_eq x F C.smooth 0 fun a ha => (h a ha x).1, zero_add]
  · show Container.gradLoop x C.smooth _ = _
    rw [gradLoop_eq x G C.smooth _ fun a ha => (h a ha x).2.1]
    simp
  · show Container.bothLoop x C.smooth 0 _ = _
    rw [bothLoop_eq x F G C.smooth 0 _ fun a ha => (h a ha x).2.2]
    simp

private lemma foldl_top {α : Type*} (l : List α) (f : α → WithTop ℝ) (a : WithTop ℝ) :
    l.foldl (fun v b => v + f b) a = a + (l.map f).sum := by
  induction l generalizing a with
  | nil => simp
  | cons b l ih => rw [List.foldl_cons, ih, List.map_cons, List.sum_cons, add_assoc]

/-- **C69** `objective(x, check_feasibility)` is the sum over all members of the values they report, of the quadratics of
the smooth members, and of the quadratic of the container. -/
theorem C69_objective (C : Container n) (F : ContSmooth n → (Fin n → ℝ) → ℝ)
    (G : ContSmooth n → (Fin n → ℝ) → Fin n → ℝ) (h : ∀ a ∈ C.smooth, Evaluates a.obj (F a) (G a)) (x : Fin n → ℝ) (cf : Bool) :
    C.objective x cf = some ((((sumOf C.smooth fun a => F a x + quadVal (some a.quad) x) + quadVal (some C.quadratic) x : ℝ) :
      WithTop ℝ) + (C.nonsmooth.map fun a => a.value x cf).sum) := by
  unfold Container.objective
  rw [((C69_smooth_objective C F G h).1 x).1]
  simp only [Container.nonsmoothObjective, foldl_top, zero_add, funcVal_quad]
  have e : (C.smooth.map fun a => ((quadVal (some a.quad) x : ℝ) : WithTop ℝ)).sum =
      ((sumOf C.smooth fun a => quadVal (some a.quad) x : ℝ) : WithTop ℝ) := by
    unfold sumOf
    induction C.smooth with
    | nil => simp
    | cons a l ih => simp [ih]
  have e2 : (sumOf C.smooth fun a => F a x + quadVal (some a.quad) x) =
      (sumOf C.smooth fun a => F a x) + sumOf C.smooth fun a => quadVal (some a.quad) x := by
    unfold sumOf
    induction C.smooth with
    | nil => simp
    | cons a l ih => simp [ih]; ring
  rw [e, e2]
  congr 1
  rw [WithTop.coe_add, WithTop.coe_add]
  abel

/-! ### the conjugate of the total quadratic -/

private noncomputable def query (x : Fin n → ℝ) : Quad (Fin n) ℝ :=
  (⟨0, some (.scalar 0), some (.scalar 0), 0⟩ : Quad (Fin n) ℝ).add (some ⟨0, some (.scalar 0), some (.arr fun i => -x i), 0⟩)

private lemma query_coef (x : Fin n → ℝ) : (query x).coef = 0 := by show (0:ℝ) + 0 = 0; norm_num

private lemma query_val (x u : Fin n → ℝ) : (query x).funcVal u = -dot x u := by
  rw [funcVal_eq, query_coef]
  have e1 : ∀ i, linearAt (query x) i = -x i := by
    intro i; simp [linearAt, query, Quad.add, collapsedLinear_get, centerAt]
  have e2 : (query x).const = 0 := by simp [query, Quad.add, Quad.collapsed]
  simp only [e1, e2]
  simp [dot]

private lemma collapsed_arr (q : Quad (Fin n) ℝ) (w : Fin n → ℝ) (hw : q.linear = some (.arr w)) :
    ∃ l, q.collapsedLinear = .arr l := by
  unfold Quad.collapsedLinear
  rw [hw]
  rcases q.center with _ | (c | c) <;> exact ⟨_, rfl⟩

private lemma add_arr (s q : Quad (Fin n) ℝ) (h : ∃ l, q.collapsedLinear = .arr l) :
    ∃ l, (s.add (some q)).linear = some (.arr l) := by
  obtain ⟨l, hl⟩ := h
  show ∃ l', some (PyVec.map₂ (· + ·) s.collapsedLinear q.collapsedLinear) = some (.arr l')
  rw [hl]
  cases s.collapsedLinear <;> exact ⟨_, rfl⟩

private lemma add_arr' (s q : Quad (Fin n) ℝ) (h : ∃ l, s.collapsedLinear = .arr l) :
    ∃ l, (s.add (some q)).linear = some (.arr l) := by
  obtain ⟨l, hl⟩ := h
  show ∃ l', some (PyVec.map₂ (· + ·) s.collapsedLinear q.collapsedLinear) = some (.arr l')
  rw [hl]
  cases q.collapsedLinear <;> exact ⟨_, rfl⟩

/-- `proximal` of the cone `zero` -/
private lemma zero_prox (s q : Quad (Fin n) ℝ) (w : Fin n → ℝ) (hw : q.linear = some (.arr w)) (h : s.coef + q.coef ≠ 0) :
    coneProximal some none s (some q) =
      .ok fun i => -((linearAt s i - s.coef * centerAt s i) + (linearAt q i - q.coef * centerAt q i)) / (s.coef + q.coef) := by
  obtain ⟨l, hl⟩ := add_arr s q (collapsed_arr q w hw)
  obtain ⟨l', hl'⟩ := collapsed_arr (s.add (some q)) l hl
  have hc : (s.add (some q)).collapsed.coef = s.coef + q.coef := rfl
  have hlin : (s.add (some q)).collapsed.linear = some (.arr l') := congrArg some hl'
  unfold coneProximal Quad.recenter
  simp only
  rw [if_neg (by rw [hc]; exact h), hlin]
  simp only
  congr 1
  funext i
  have e : l' i = (s.add (some q)).collapsedLinear.get i := by rw [hl']; rfl
  rw [e, collapsedLinear_get]
  have e1 : linearAt (s.add (some q)) i = s.collapsedLinear.get i + q.collapsedLinear.get i := by simp [linearAt, Quad.add]
  have e2 : centerAt (s.add (some q)) i = 0 := rfl
  rw [e1, e2, hc, collapsedLinear_get, collapsedLinear_get]
  ring

/-- the point `argmin q(x) - ⟨z, x⟩` -/
noncomputable def qArg (q : Quad (Fin n) ℝ) (z : Fin n → ℝ) : Fin n → ℝ :=
  fun i => centerAt q i - (linearAt q i - z i) / q.coef

private lemma quad_expand (q : Quad (Fin n) ℝ) (hq : 0 < q.coef) (z x : Fin n → ℝ) :
    quadVal (some q) x - dot z x = quadVal (some q) (qArg q z) - dot z (qArg q z) + q.coef / 2 * sqDist x (qArg q z) := by
  rw [← funcVal_quad, ← funcVal_quad, funcVal_eq, funcVal_eq]
  unfold dot sqDist
  have : ∀ i, q.coef / 2 * (x i - centerAt q i) ^ 2 + linearAt q i * x i - z i * x i =
      q.coef / 2 * (qArg q z i - centerAt q i) ^ 2 + linearAt q i * qArg q z i - z i * qArg q z i +
        q.coef / 2 * (x i - qArg q z i) ^ 2 := by
    intro i
    unfold qArg
    field_simp
    ring
  have hs := Finset.sum_congr (rfl : (Finset.univ : Finset (Fin n)) = Finset.univ) fun i _ => this i
  simp only [Finset.sum_add_distrib, Finset.sum_sub_distrib, ← Finset.mul_sum] at hs
  linarith

noncomputable def qConj (q : Quad (Fin n) ℝ) (z : Fin n → ℝ) : ℝ := dot z (qArg q z) - quadVal (some q) (qArg q z)

private lemma conj_prox (q : Quad (Fin n) ℝ) (hq : 0 < q.coef) (x : Fin n → ℝ) :
    coneProximal some none q (some (query x)) = .ok (qArg q x) := by
  rw [zero_prox q (query x) _ rfl (by rw [query_coef, add_zero]; exact hq.ne'), query_coef]
  congr 1
  funext i
  have e1 : linearAt (query x) i = -x i := by simp [linearAt, query, Quad.add, collapsedLinear_get, centerAt]
  rw [e1]
  unfold qArg
  field_simp
  ring

lemma conj_eval (q : Quad (Fin n) ℝ) (hq : 0 < q.coef) : Evaluates (Container.conjOfQuad q) (qConj q) (qArg q) := by
  intro x
  have h := conj_prox q hq x
  have hv : -(0 + (0 + q.funcVal (qArg q x)) + (query x).funcVal (qArg q x)) = qConj q x := by
    rw [query_val, funcVal_quad]; unfold qConj; ring
  unfold Container.conjOfQuad
  simp only
  have e : ((⟨0, some (.scalar 0), some (.scalar 0), 0⟩ : Quad (Fin n) ℝ).add
      (some ⟨0, some (.scalar 0), some (.arr fun i => -x i), 0⟩)) = query x := rfl
  rw [e, h]
  simp only [hv, and_self]

lemma conj_smooth (q : Quad (Fin n) ℝ) (hq : 0 < q.coef) : IsSmoothConjugate (quadTop q) (qConj q) (qArg q) := by
  intro z
  refine ⟨⟨_, rfl, rfl⟩, fun x s hs hne => ?_⟩
  have hs' : quadVal (some q) x = s := WithTop.coe_inj.1 hs
  have h := quad_expand q hq z x
  have h2 : 0 < sqDist x (qArg q z) := sqDist_pos hne
  have h3 : 0 < q.coef / 2 * sqDist x (qArg q z) := by positivity
  unfold qConj
  rw [← hs']
  linarith

/-- a quadratic is strongly convex with its coefficient -/
lemma quad_strong (q : Quad (Fin n) ℝ) : StronglyConvexTop q.coef (quadTop q) := by
  intro u v a b ha hb t ht ht1
  have ha' : quadVal (some q) u = a := WithTop.coe_inj.1 ha
  have hb' : quadVal (some q) v = b := WithTop.coe_inj.1 hb
  refine ⟨_, rfl, le_of_eq ?_⟩
  rw [← ha', ← hb', ← funcVal_quad, ← funcVal_quad, ← funcVal_quad, funcVal_eq, funcVal_eq, funcVal_eq]
  unfold sqDist
  have : ∀ i, q.coef / 2 * ((1 - t) * u i + t * v i - centerAt q i) ^ 2 + linearAt q i * ((1 - t) * u i + t * v i) =
      (1 - t) * (q.coef / 2 * (u i - centerAt q i) ^ 2 + linearAt q i * u i) +
      t * (q.coef / 2 * (v i - centerAt q i) ^ 2 + linearAt q i * v i) - q.coef / 2 * (t * (1 - t)) * (u i - v i) ^ 2 := by
    intro i; ring
  have hs := Finset.sum_congr (rfl : (Finset.univ : Finset (Fin n)) = Finset.univ) fun i _ => this i
  simp only [Finset.sum_add_distrib, Finset.sum_sub_distrib, ← Finset.mul_sum] at hs
  linarith

/-! ### the total quadratic -/

private lemma smoothq_val (l : List (ContSmooth n)) (q : Quad (Fin n) ℝ) : ∃ c : ℝ, ∀ x,
    (l.foldl (fun q a => q.add (some a.quad)) q).funcVal x = q.funcVal x + (sumOf l fun a => quadVal (some a.quad) x) + c := by
  induction l generalizing q with
  | nil => exact ⟨0, fun x => by simp [sumOf]⟩
  | cons a l ih =>
    obtain ⟨c, hc⟩ := ih (q.add (some a.quad))
    obtain ⟨d, hd⟩ := C14_add_up_to_const q a.quad
    refine ⟨c + d, fun x => ?_⟩
    rw [List.foldl_cons, hc, hd]
    simp only [sumOf, List.map_cons, List.sum_cons, funcVal_quad]
    ring

private lemma totalq_val (C : Container n) (q : Quad (Fin n) ℝ) : ∃ c : ℝ, ∀ x, quadVal (some (C.totalq q)) x =
    quadVal (some q) x + quadVal (some C.quadratic) x + (sumOf C.smooth fun a => quadVal (some a.quad) x) + c := by
  obtain ⟨c1, h1⟩ := C14_add_up_to_const q C.quadratic
  obtain ⟨c2, h2⟩ := C14_add_up_to_const (q.add (some C.quadratic)) C.smoothq
  obtain ⟨c3, h3⟩ := smoothq_val C.smooth ⟨0, some (.scalar 0), some (.scalar 0), 0⟩
  have h0 : ∀ x : Fin n → ℝ, (⟨0, some (.scalar 0), some (.scalar 0), 0⟩ : Quad (Fin n) ℝ).funcVal x = 0 := by
    intro x; rw [funcVal_eq]; simp [linearAt]
  refine ⟨c1 + c2 + c3, fun x => ?_⟩
  rw [← funcVal_quad]
  unfold Container.totalq
  rw [h2, h1]
  unfold Container.smoothq
  rw [h3, h0, funcVal_quad, funcVal_quad]
  ring

private lemma smoothq_coef (l : List (ContSmooth n)) (q : Quad (Fin n) ℝ) :
    (l.foldl (fun q a => q.add (some a.quad)) q).coef = q.coef + sumOf l fun a => a.quad.coef := by
  induction l generalizing q with
  | nil => simp [sumOf]
  | cons a l ih =>
    rw [List.foldl_cons, ih]
    show q.coef + a.quad.coef + _ = _
    simp only [sumOf, List.map_cons, List.sum_cons]
    ring

private lemma totalq_coef (C : Container n) (q : Quad (Fin n) ℝ) :
    (C.totalq q).coef = q.coef + C.quadratic.coef + sumOf C.smooth fun a => a.quad.coef := by
  show q.coef + C.quadratic.coef + C.smoothq.coef = _
  unfold Container.smoothq
  rw [smoothq_coef]
  simp

/-! ### `proximal` -/

private lemma min_shift {F F' : (Fin n → ℝ) → WithTop ℝ} {c : ℝ} (h : ∀ z, F' z = F z + ((c : ℝ) : WithTop ℝ)) {p : Fin n → ℝ}
    (hp : IsUniqueMinTop F' p) : IsUniqueMinTop F p := by
  refine ⟨fun htop => hp.1 (by rw [h, htop, WithTop.top_add]), fun z hz => ?_⟩
  have h1 := hp.2 z hz
  rw [h, h] at h1
  exact lt_of_add_lt_add_right h1

/-- the quadratic has no quadratic and no linear part -/
def NoQuadratic (q : Quad (Fin n) ℝ) : Prop := q.coef = 0 ∧ ∀ i, denote q.linear i = 0

private lemma noQuadratic_val (q : Quad (Fin n) ℝ) (h : NoQuadratic q) (x : Fin n → ℝ) : quadVal (some q) x = q.const := by
  unfold quadVal quadFn
  simp [h.1, dot, h.2]

private lemma adj_scale (T : Aff ℝ n k) (hT : distinctSelectors T) (u : Fin k → ℝ) (c : ℝ) (j : Fin n) :
    T.adj (fun i => u i / c) j = T.adj u j / c := by
  have h := C24_linear (.adjoint T) hT
  have h1 := h (1 / c) 0 u (fun _ => 0)
  have e : (fun i => 1 / c * u i + 0 * 0) = fun i => u i / c := by funext i; ring
  have h2 := h1 j
  rw [e] at h2
  have h3 : T.adj (fun i => u i / c) j = 1 / c * T.adj u j + 0 * _ := h2
  rw [h3]
  ring

private lemma loop_total {m : ℕ} (q : Quad (Fin m) ℝ) (bs : List (Block m ℝ)) :
    (∀ b ∈ bs, ∃ z, b.proximal (q.restrict b.group) = .ok z) → ∀ x, ∃ z, Separable.proxLoop q bs x = .ok z := by
  induction bs with
  | nil => intro _ x; exact ⟨x, rfl⟩
  | cons b bs ih =>
    intro hb x
    obtain ⟨z, hz⟩ := hb b (List.mem_cons_self ..)
    unfold Separable.proxLoop
    rw [hz]
    exact ih (fun b' hb' => hb b' (List.mem_cons_of_mem _ hb')) _

private lemma separable_total {N : ℕ} (ks : Fin N → ℕ) (g : (i : Fin N) → DualAtom (ks i))
    (h : ∀ i (q : Quad (Fin (ks i)) ℝ) v w, q.center = some (.arr v) → q.linear = some (.arr w) → 0 < q.coef →
      ∃ z, (g i).proximal q = .ok z) (q : Quad (Fin (∑ i, ks i)) ℝ) (v w : Fin (∑ i, ks i) → ℝ)
    (hv : q.center = some (.arr v)) (hw : q.linear = some (.arr w)) (hq : 0 < q.coef) :
    ∃ z, (stackedAtom ks g true).proximal q = .ok z := by
  unfold Separable.proximal
  rw [zero_prox (⟨0, some (.scalar 0), some (.scalar 0), 0⟩ : Quad (Fin (∑ i, ks i)) ℝ) q w hw (by
    show (0 : ℝ) + q.coef ≠ 0; rw [zero_add]; exact hq.ne')]
  refine loop_total q _ (fun b hb => ?_) _
  simp only [stackedAtom, List.mem_ofFn] at hb
  obtain ⟨i, rfl⟩ := hb
  have e1 : (Quad.restrict q (sliceOf ks i)).center = some (.arr ((sliceOf ks i).take v)) := by
    unfold Quad.restrict; simp only [hv]
  have e2 : (Quad.restrict q (sliceOf ks i)).linear = some (.arr ((sliceOf ks i).take w)) := by
    unfold Quad.restrict; simp only [hw]
  exact h i _ _ _ e1 e2 hq

/-- the proximal map of the stacked dual atom returns if those of the parts do -/
lemma stacked_total {N : ℕ} (hN : 0 < N) (ks : Fin N → ℕ) (T : (i : Fin N) → Aff ℝ n (ks i)) (g : (i : Fin N) → DualAtom (ks i))
    (h : ∀ i (q : Quad (Fin (ks i)) ℝ) v w, q.center = some (.arr v) → q.linear = some (.arr w) → 0 < q.coef →
      ∃ z, (g i).proximal q = .ok z) (q : Quad (Fin (stackedDual n ks T g).1) ℝ) (v w : Fin (stackedDual n ks T g).1 → ℝ)
    (hv : q.center = some (.arr v)) (hw : q.linear = some (.arr w)) (hq : 0 < q.coef) :
    ∃ z, (stackedDual n ks T g).2.2.proximal q = .ok z := by
  match N with
  | 0 => omega
  | 1 => exact h 0 q v w hv hw hq
  | N + 2 => exact separable_total ks g h q v w hv hw hq

/-- without quadratic terms the quadratic of the primal problem is that of the argument, up to a constant -/
lemma totalq_plain (C : Container n) (hquad : NoQuadratic C.quadratic ∧ ∀ a ∈ C.smooth, NoQuadratic a.quad)
    (proxq : Quad (Fin n) ℝ) : ∃ d : ℝ, ∀ x, quadVal (some (C.totalq proxq)) x = quadVal (some proxq) x + d := by
  obtain ⟨d, hd⟩ := totalq_val C proxq
  refine ⟨C.quadratic.const + (sumOf C.smooth fun a => a.quad.const) + d, fun x => ?_⟩
  rw [hd, noQuadratic_val _ hquad.1]
  have e : (sumOf C.smooth fun a => quadVal (some a.quad) x) = sumOf C.smooth fun a => a.quad.const := by
    unfold sumOf
    congr 1
    exact List.map_congr_left fun a ha => noQuadratic_val _ (hquad.2 a ha) x
  rw [e]; ring

/-- the point recovered from an approximate solution `u` of the dual problem of a container, when the stacked dual atom
`P` represents `Φ` -/
lemma container_point_core (C : Container n) (P : (Fin C.stack.1 → ℝ) → WithTop ℝ) (Φ : (Fin n → ℝ) → WithTop ℝ)
    (hTs : distinctSelectors C.stack.2.1) (hP2 : Represents C.stack.2.1.lin P Φ) (hP3 : ConvexTop P)
    (hquad : NoQuadratic C.quadratic ∧ ∀ a ∈ C.smooth, NoQuadratic a.quad)
    (proxq : Quad (Fin n) ℝ) (hq : 0 < proxq.coef) (c l : PyVec (Fin n) ℝ) (hcen : proxq.center = some c)
    (hlin : proxq.linear = some l) :
    (C.totalq proxq).coef = proxq.coef ∧
    Evaluates (C.dualProblem proxq).fc (qConj (C.totalq proxq)) (qArg (C.totalq proxq)) ∧
      ∀ (u ustar : Fin C.stack.1 → ℝ) (dstar δ : ℝ),
        IsMinTop (dualFn (qConj (C.totalq proxq)) (C.dualProblem proxq).T.adj P) ustar →
        dualFn (qConj (C.totalq proxq)) (C.dualProblem proxq).T.adj P ustar = ((dstar : ℝ) : WithTop ℝ) →
        dualFn (qConj (C.totalq proxq)) (C.dualProblem proxq).T.adj P u ≤ ((dstar + δ : ℝ) : WithTop ℝ) →
        ∃ p pstar, Container.primalPoint C.stack.2.1 proxq u = .ok p ∧
          IsUniqueMinTop (fun z => quadTop proxq z + Φ z) pstar ∧
          proxq.coef / 2 * sqDist pstar p ≤ δ ∧ (δ ≤ 0 → p = pstar) := by
  set tq := C.totalq proxq with htq
  have hsc : (sumOf C.smooth fun a => a.quad.coef) = 0 := by
    unfold sumOf
    refine List.sum_eq_zero fun v hv => ?_
    obtain ⟨a, ha, rfl⟩ := List.mem_map.1 hv
    exact (hquad.2 a ha).1
  have hcoef : tq.coef = proxq.coef := by rw [htq, totalq_coef, hquad.1.1, hsc]; ring
  have htpos : 0 < tq.coef := by rw [hcoef]; exact hq
  have hval : ∃ d : ℝ, ∀ x, quadVal (some tq) x = quadVal (some proxq) x + d := totalq_plain C hquad proxq
  obtain ⟨d, hd⟩ := hval
  have harg : ∀ z, qArg tq z = qArg proxq z := by
    intro z
    by_contra hne
    have h1 := quad_expand tq htpos z (qArg proxq z)
    have h2 := quad_expand proxq hq z (qArg tq z)
    rw [hd, hd] at h1
    have h3 : 0 < sqDist (qArg proxq z) (qArg tq z) := sqDist_pos fun e => hne e.symm
    have h4 : 0 < sqDist (qArg tq z) (qArg proxq z) := sqDist_pos hne
    have h5 : 0 < tq.coef / 2 * sqDist (qArg proxq z) (qArg tq z) := by positivity
    have h6 : 0 < proxq.coef / 2 * sqDist (qArg tq z) (qArg proxq z) := by positivity
    linarith
  have hE : Evaluates (C.dualProblem proxq).fc (qConj tq) (qArg tq) := conj_eval tq htpos
  refine ⟨hcoef, hE, ?_⟩
  intro u ustar dstar δ hmin hds hfit
  have hc : LastGradientAt [(u, Spec.Mode.both)] u := ⟨[], .both, [], rfl, Or.inr rfl, by simp⟩
  obtain ⟨x, xs, h1, h2, h3⟩ := C68_error_bound (C.dualProblem proxq) hTs (quadTop tq) (qConj tq) (qArg tq) hE
    (conj_smooth tq htpos) tq.coef htpos (quad_strong tq) P Φ hP2 hP3 [(u, .both)] u hc ustar hmin
    dstar δ hds hfit
  rw [dual_solve_eq (C.dualProblem proxq) hE [(u, .both)] u hc, Option.some_inj, harg] at h1
  have hpt : Container.primalPoint C.stack.2.1 proxq u = .ok x := by
    unfold Container.primalPoint
    rw [hcen, hlin]
    simp only
    rw [← h1]
    congr 1
    funext j
    rw [adj_scale C.stack.2.1 hTs]
    have e1 : centerAt proxq j = c.get j := by simp [centerAt, hcen]
    have e2 : linearAt proxq j = l.get j := by simp [linearAt, hlin]
    unfold qArg negAdj
    rw [e1, e2]
    show _ = _ - (_ - -(C.stack.2.1.adj u j)) / _
    ring
  rw [hcoef] at h3
  refine ⟨x, xs, hpt, min_shift (c := d) (fun z => ?_) h2, h3, fun hδ => ?_⟩
  · unfold quadTop
    rw [hd, WithTop.coe_add]
    abel
  · by_contra hne
    have h4 : 0 < sqDist xs x := sqDist_pos fun e => hne e.symm
    have h5 : 0 < proxq.coef / 2 * sqDist xs x := by positivity
    linarith

/-- the dual problem of a container and the point recovered from an approximate solution `u` of it -/
lemma container_dual_core (C : Container n)
    (pen : (i : Fin C.nonsmooth.length) → (Fin (C.nonsmooth.get i).k → ℝ) → WithTop ℝ)
    (H : Fin C.nonsmooth.length → (Fin n → ℝ) → WithTop ℝ)
    (hT : ∀ i, distinctSelectors (C.nonsmooth.get i).T)
    (hprox : ∀ i, AtomCorrect (C.nonsmooth.get i).dual.proximal (pen i)) (hconv : ∀ i, ConvexTop (pen i))
    (hrep : ∀ i, Represents (C.nonsmooth.get i).T.lin (pen i) (H i))
    (hquad : NoQuadratic C.quadratic ∧ ∀ a ∈ C.smooth, NoQuadratic a.quad)
    (proxq : Quad (Fin n) ℝ) (hq : 0 < proxq.coef) (c l : PyVec (Fin n) ℝ) (hcen : proxq.center = some c)
    (hlin : proxq.linear = some l) :
    (C.totalq proxq).coef = proxq.coef ∧ distinctSelectors C.stack.2.1 ∧
    ∃ P, Evaluates (C.dualProblem proxq).fc (qConj (C.totalq proxq)) (qArg (C.totalq proxq)) ∧
      AtomCorrect (C.dualProblem proxq).atom.proximal P ∧ ConvexTop P ∧
      (0 < C.nonsmooth.length → ∀ cf, (∀ i u, pen i u ≠ ⊤ → (C.nonsmooth.get i).dual.value u cf = pen i u) → ∀ u,
        P u ≠ ⊤ → (C.dualProblem proxq).atom.value u cf = P u) ∧
      ∀ (u ustar : Fin C.stack.1 → ℝ) (dstar δ : ℝ),
        IsMinTop (dualFn (qConj (C.totalq proxq)) (C.dualProblem proxq).T.adj P) ustar →
        dualFn (qConj (C.totalq proxq)) (C.dualProblem proxq).T.adj P ustar = ((dstar : ℝ) : WithTop ℝ) →
        dualFn (qConj (C.totalq proxq)) (C.dualProblem proxq).T.adj P u ≤ ((dstar + δ : ℝ) : WithTop ℝ) →
        ∃ p pstar, Container.primalPoint C.stack.2.1 proxq u = .ok p ∧
          IsUniqueMinTop (fun z => quadTop proxq z + ∑ i, H i z) pstar ∧
          proxq.coef / 2 * sqDist pstar p ≤ δ ∧ (δ ≤ 0 → p = pstar) := by
  obtain ⟨hTs, P, hP1, hP2, hP3, -, hP4⟩ := C68_stacked_dual n (fun i : Fin C.nonsmooth.length => (C.nonsmooth.get i).k)
    (fun i => (C.nonsmooth.get i).T) (fun i => (C.nonsmooth.get i).dual) pen H hT hprox hrep
  obtain ⟨hcoef, hE, h⟩ := container_point_core C P (fun x => ∑ i, H i x) hTs hP2 (hP3 hconv) hquad proxq hq c l hcen hlin
  exact ⟨hcoef, hTs, P, hE, hP1, hP3 hconv, hP4, h⟩

/-- **C69** (partial: containers and smooth members without quadratic terms, see `C69_quadratic_fails`) `proximal` when
the dual problem is solved, that is for several penalties, or one penalty composed with an operator.  Each penalty
`H i` is given by its dual pair.  The dual problem built has a smooth part `V` and a penalty `P` whose proximal map the
solver receives; if the solver stops at a point whose dual objective `V(-Dᵀ u) + P(u)` exceeds the minimum by `δ`, the
vector returned is within `√(2δ/coef)` of the minimiser of `proxq + Σ H i`, and it is that minimiser if the dual problem
is solved exactly. -/
theorem C69_proximal_partial (C : Container n)
    (pen : (i : Fin C.nonsmooth.length) → (Fin (C.nonsmooth.get i).k → ℝ) → WithTop ℝ)
    (H : Fin C.nonsmooth.length → (Fin n → ℝ) → WithTop ℝ)
    (hT : ∀ i, distinctSelectors (C.nonsmooth.get i).T)
    (hprox : ∀ i, AtomCorrect (C.nonsmooth.get i).dual.proximal (pen i)) (hconv : ∀ i, ConvexTop (pen i))
    (hrep : ∀ i, Represents (C.nonsmooth.get i).T.lin (pen i) (H i))
    (hquad : NoQuadratic C.quadratic ∧ ∀ a ∈ C.smooth, NoQuadratic a.quad)
    (proxq : Quad (Fin n) ℝ) (hq : 0 < proxq.coef) (c l : PyVec (Fin n) ℝ) (hcen : proxq.center = some c)
    (hlin : proxq.linear = some l) (hbranch : C.direct (C.totalq proxq) = none) :
    ∃ V G P, Evaluates (C.dualProblem proxq).fc V G ∧ AtomCorrect (C.dualProblem proxq).atom.proximal P ∧ ConvexTop P ∧
      ∀ (fit : (k : ℕ) → DualProblem n k → Fin k → ℝ) (ustar : Fin C.stack.1 → ℝ) (dstar δ : ℝ),
        IsMinTop (dualFn V (C.dualProblem proxq).T.adj P) ustar →
        dualFn V (C.dualProblem proxq).T.adj P ustar = ((dstar : ℝ) : WithTop ℝ) →
        dualFn V (C.dualProblem proxq).T.adj P (fit _ (C.dualProblem proxq)) ≤ ((dstar + δ : ℝ) : WithTop ℝ) →
        ∃ p pstar, C.proximal fit proxq = .ok p ∧ IsUniqueMinTop (fun z => quadTop proxq z + ∑ i, H i z) pstar ∧
          proxq.coef / 2 * sqDist pstar p ≤ δ ∧ (δ ≤ 0 → p = pstar) := by
  obtain ⟨-, -, P, hE, h1, h2, -, h3⟩ := container_dual_core C pen H hT hprox hconv hrep hquad proxq hq c l hcen hlin
  refine ⟨_, _, P, hE, h1, h2, fun fit ustar dstar δ hmin hds hfit => ?_⟩
  obtain ⟨p, ps, e1, e2⟩ := h3 _ ustar dstar δ hmin hds hfit
  refine ⟨p, ps, ?_, e2⟩
  unfold Container.proximal
  rw [hbranch]
  exact e1

/-- Specification: the quadratic passed to `proximal`, that of the container, and those of the smooth members. -/
noncomputable def allQuadratics (C : Container n) (proxq : Quad (Fin n) ℝ) (z : Fin n → ℝ) : ℝ :=
  quadVal (some proxq) z + quadVal (some C.quadratic) z + sumOf C.smooth fun a => quadVal (some a.quad) z

/-- **C69** `proximal` for a single penalty `H` which is not composed with an operator: all quadratics are taken into
account. -/
theorem C69_proximal_identity (C : Container n) (dual : DualAtom n) (prox : Quad (Fin n) ℝ → ProxResult (Fin n) ℝ)
    (value : (Fin n → ℝ) → Bool → WithTop ℝ) (hC : C.nonsmooth = [⟨n, .identity, dual, prox, value⟩])
    (H : (Fin n → ℝ) → WithTop ℝ) (hprox : AtomCorrect prox H) (fit : (k : ℕ) → DualProblem n k → Fin k → ℝ)
    (proxq : Quad (Fin n) ℝ) (hpos : 0 < proxq.coef + C.quadratic.coef + sumOf C.smooth fun a => a.quad.coef) (p : Fin n → ℝ)
    (hok : C.proximal fit proxq = .ok p) :
    IsUniqueMinTop (fun z => ((allQuadratics C proxq z : ℝ) : WithTop ℝ) + H z) p := by
  have h1 : C.direct (C.totalq proxq) = some (prox (C.totalq proxq)) := by
    unfold Container.direct; rw [hC]; rfl
  have h2 : prox (C.totalq proxq) = .ok p := by
    unfold Container.proximal at hok; rw [h1] at hok; exact hok
  have h3 := hprox (C.totalq proxq) p (by rw [totalq_coef]; exact hpos) h2
  obtain ⟨d, hd⟩ := totalq_val C proxq
  refine min_shift (c := d) (fun z => ?_) h3
  rw [hd]
  unfold allQuadratics
  rw [WithTop.coe_add]
  abel

/-- **C69** (partial: the selector applies no further transform, see `C69_selector_transform_fails`) `proximal` for a
single penalty `H` of the entries of the vector at distinct positions `idx`: all quadratics are taken into account. -/
theorem C69_proximal_selector_partial (C : Container n) (idx : Fin k → Fin n) (hidx : Function.Injective idx)
    (dual : DualAtom k) (prox : Quad (Fin k) ℝ → ProxResult (Fin k) ℝ)
    (value : (Fin n → ℝ) → Bool → WithTop ℝ) (hC : C.nonsmooth = [⟨k, .selector idx .identity, dual, prox, value⟩])
    (H : (Fin k → ℝ) → WithTop ℝ) (hprox : AtomCorrect prox H) (fit : (k : ℕ) → DualProblem n k → Fin k → ℝ)
    (proxq : Quad (Fin n) ℝ) (hpos : 0 < proxq.coef + C.quadratic.coef + sumOf C.smooth fun a => a.quad.coef) (p : Fin n → ℝ)
    (hok : C.proximal fit proxq = .ok p) :
    IsUniqueMinTop (fun z => ((allQuadratics C proxq z : ℝ) : WithTop ℝ) + H fun j => z (idx j)) p := by
  have h1 : C.direct (C.totalq proxq) = some (Container.selectorProx idx prox (C.totalq proxq)) := by
    unfold Container.direct; rw [hC]; rfl
  have h2 : Container.selectorProx idx prox (C.totalq proxq) = .ok p := by
    unfold Container.proximal at hok; rw [h1] at hok; exact hok
  have hcoef : 0 < (C.totalq proxq).coef := by rw [totalq_coef]; exact hpos
  let s : Separable n ℝ := ⟨[⟨⟨k, idx⟩, H, prox⟩]⟩
  have hs : s.proximal (C.totalq proxq) = .ok p := by
    rw [← h2]
    have hcen : (C.totalq proxq).center = some (.scalar 0) := rfl
    unfold Container.selectorProx at h2 ⊢
    rw [hcen] at h2 ⊢
    cases hl : (C.totalq proxq).linear with
    | none => rw [hl] at h2; simp at h2
    | some l =>
      cases l with
      | scalar v => rw [hl] at h2; simp at h2
      | arr v =>
        simp only [dite_true]
        unfold Separable.proximal
        rw [zero_prox _ _ v hl (by simpa using hcoef.ne')]
        simp only [s, Separable.proxLoop]
        have e : (Container.restrictTo (C.totalq proxq) idx rfl) = (C.totalq proxq).restrict ⟨k, idx⟩ := rfl
        rw [e]
        cases prox ((C.totalq proxq).restrict ⟨k, idx⟩) with
        | ok w =>
          simp only [Container.assign, dite_true]
          congr 2
          funext i
          have e1 : linearAt (C.totalq proxq) i = v i := by simp [linearAt, hl]
          have e2 : centerAt (C.totalq proxq) i = 0 := rfl
          rw [e1, e2]
          simp [linearAt, centerAt, neg_div]
        | _ => rfl
  have h3 := C37_proximal s ⟨by simpa [s] using hidx, by simp [s]⟩ (fun b => b.nonsmooth) (by
    intro b hb
    simp only [s, List.mem_singleton] at hb
    subst hb
    exact hprox) (C.totalq proxq) hcoef p hs
  obtain ⟨d, hd⟩ := totalq_val C proxq
  refine min_shift (c := d) (fun z => ?_) h3
  simp only [s, List.map_cons, List.map_nil, List.sum_cons, List.sum_nil, add_zero]
  rw [hd]
  unfold allQuadratics
  rw [WithTop.coe_add]
  abel

/-! ### the penalties of the library -/

private lemma asOperator_cases (T l : Aff ℝ n k) (h : T.asOperator = some l) : l = T ∨ l = .wrap T none := by
  unfold Aff.asOperator at h
  by_cases hT : T.isLinearTransform = true
  · rw [if_pos hT] at h; injection h with h; exact Or.inl h.symm
  · rw [if_neg hT] at h
    cases ho : T.off with
    | missing => rw [ho] at h; cases h
    | none => rw [ho] at h; injection h with h; exact Or.inr h.symm
    | arr v => rw [ho] at h; injection h with h; exact Or.inr h.symm

/-- **C69** the penalties `cls.linear(D, ...)`, `cls.affine(D, α, ...)` of the seven seminorm classes, in penalty or bound
form, with any linear and constant term, are members of containers to which the theorems about `proximal` apply: the
dual pair represents the penalty, its atom is convex with a correct proximal map, and the atom used when no dual problem
is solved has the proximal map of the penalty itself. -/
theorem C69_seminorm_member (c : Klass) (b : Bool) (r : ℝ) (hr : 0 ≤ r) (T l : Aff ℝ n (k + 1)) (hl : T.asOperator = some l)
    (hT : distinctSelectors T) (hoff : l.off = .none) (α : Option (PyVec (Fin (k + 1)) ℝ)) (hα : ∀ s, α ≠ some (.scalar s))
    (q : Option (Quad (Fin (k + 1)) ℝ)) (hq : ∀ q', q = some q' → q'.coef = 0) :
    ∃ A D dual prox value, AtomObj.affine c T α (modeArgs b r).1 (modeArgs b r).2 q = some A ∧
      A.toCont = some ⟨k + 1, D, dual, prox, value⟩ ∧ distinctSelectors D ∧ (D = T ∨ D = .wrap T none) ∧
      AtomCorrect prox (composedFn c b r (fun z => z) (denote α) (quadArg q)) ∧
      ∃ pen, AtomCorrect dual.proximal pen ∧ ConvexTop pen ∧
        Represents D.lin pen (composedFn c b r T.lin (denote α) (quadArg q)) := by
  obtain ⟨A, D, g, h1, h2, pen, h3, h4, h5⟩ := C68_seminorm_dual c b r hr T l hl hoff α hα q hq
  obtain ⟨A', D', g', c', h1', h2', -, hD, hc1, hc2, hc3, hc4⟩ := C67_double_dual c b r hr T l hl hoff α hα q hq
  have hA : A' = A := by rw [h1] at h1'; exact (Option.some_inj.1 h1').symm
  subst hA
  rw [h2] at h2'
  injection h2' with h2'
  injection h2' with hD' hg
  injection hg with hg
  subst hD' hg
  have hcor : AtomCorrect c'.proximal (composedFn c b r (fun z => z) (denote α) (quadArg q)) := by
    have := atom_correct c' b r hc2 hc3
    have e : denoteAtom c' b r = composedFn c b r (fun z => z) (denote α) (quadArg q) := funext hc4
    rw [e] at this
    exact this
  refine ⟨A', D, g.asDual, c'.proximal, fun x cf => (A'.nonsmoothObjective x cf).getD ⊤, h1, ?_, ?_, ?_, hcor, pen, h3, h4, h5⟩
  · unfold AffAtom.toCont
    rw [h2]
    simp only [hc1]
  · rw [hD]
    rcases asOperator_cases T l hl with h | h
    · rw [h]; exact hT
    · rw [h]; exact hT
  · rw [hD]; exact asOperator_cases T l hl

/-! ### constructor -/

/-- Specification: the smooth members among the arguments, in their order. -/
def smoothMembers : List (ContArg n) → List (ContSmooth n) :=
  List.filterMap fun | .smooth a => some a | _ => none

/-- Specification: the nonsmooth members among the arguments, in their order. -/
def nonsmoothMembers : List (ContArg n) → List (ContAtom n) :=
  List.filterMap fun | .nonsmooth a => some a | _ => none

private lemma collect_eq (l : List (ContArg n)) (h : ¬ ∃ a ∈ l, a = .other) :
    Container.collect l = some (nonsmoothMembers l, smoothMembers l) := by
  induction l with
  | nil => rfl
  | cons a l ih =>
    have hl : ¬ ∃ a ∈ l, a = .other := fun ⟨b, hb, e⟩ => h ⟨b, by simp [hb], e⟩
    cases a with
    | other => exact absurd ⟨_, by simp, rfl⟩ h
    | nonsmooth a => simp [Container.collect, ih hl, nonsmoothMembers, smoothMembers]
    | smooth a => simp [Container.collect, ih hl, nonsmoothMembers, smoothMembers]

/-- **C69** arguments which are neither smooth nor nonsmooth, or no arguments at all, are rejected with ValueError; with at
least one smooth member and no other argument the constructor succeeds and keeps all members in their order, adding the zero
penalty when there is no penalty. -/
theorem C69_constructor (l : List (ContArg n)) :
    ((∃ a ∈ l, a = .other) → Container.init l = .valueError) ∧ (l = [] → Container.init l = .valueError) ∧
    ((¬ ∃ a ∈ l, a = .other) → smoothMembers l ≠ [] → ∃ C, Container.init l = .ok C ∧ C.smooth = smoothMembers l ∧
      C.nonsmooth = (if (nonsmoothMembers l).isEmpty then [zeroContAtom n] else nonsmoothMembers l) ∧
      NoQuadratic C.quadratic) := by
  have hnone : (∃ a ∈ l, a = .other) → Container.collect l = none := by
    induction l with
    | nil => simp
    | cons a l ih =>
      rintro ⟨b, hb, rfl⟩
      cases a with
      | other => rfl
      | nonsmooth a =>
        have := ih ⟨_, by simpa using hb, rfl⟩
        simp [Container.collect, this]
      | smooth a =>
        have := ih ⟨_, by simpa using hb, rfl⟩
        simp [Container.collect, this]
  refine ⟨fun h => ?_, fun h => ?_, fun h hS => ?_⟩
  · unfold Container.init; rw [hnone h]
  · subst h; rfl
  · have hno : NoQuadratic (Quad.init none none none none : Quad (Fin n) ℝ) := ⟨rfl, fun i => rfl⟩
    unfold Container.init
    rw [collect_eq l h]
    cases hs : smoothMembers l with
    | nil => exact absurd hs hS
    | cons s S =>
      cases nonsmoothMembers l with
      | nil => exact ⟨_, rfl, rfl, rfl, hno⟩
      | cons a P => exact ⟨_, rfl, rfl, rfl, hno⟩

/-- **C69** the penalty added when there is none is the zero function: that is its value, its proximal map and the function
represented by its dual pair, so the theorems above apply to it. -/
theorem C69_default_penalty (n : ℕ) :
    (∀ x cf, (zeroContAtom n).value x cf = 0) ∧ distinctSelectors (zeroContAtom n).T ∧
    AtomCorrect (zeroContAtom n).conjProx (fun _ => 0) ∧
    ∃ pen, AtomCorrect (zeroContAtom n).dual.proximal pen ∧ ConvexTop pen ∧
      Represents (zeroContAtom n).T.lin pen (fun _ => 0) := by
  refine ⟨fun x cf => rfl, trivial, fun (q : Quad (Fin n) ℝ) (p : Fin n → ℝ) hq hp => ?_, ?_⟩
  · have h := C10_cone_proximal (fun x : Fin n → ℝ => some x) Set.univ (by
      intro arg p hp
      rw [Option.some_inj] at hp
      rw [← hp]
      refine ⟨trivial, fun z _ hz => ?_⟩
      simp only [sqDist_self]
      exact sqDist_pos hz) none (⟨0, some (.scalar 0), some (.scalar 0), 0⟩ : Quad (Fin n) ℝ) (some q) p
      (by simpa [quadCoef] using hq) hp
    refine ⟨by simp, fun (z : Fin n → ℝ) hz => ?_⟩
    have h2 := h.2 z trivial hz
    have e : ∀ x : Fin n → ℝ, quadVal (some (⟨0, some (.scalar 0), some (.scalar 0), 0⟩ : Quad (Fin n) ℝ)) x = 0 := by
      intro x; simp [quadVal, quadFn, denote, dot]
    dsimp only at h2
    rw [e, e, add_zero, add_zero] at h2
    show (((quadVal (some q) p : ℝ) : WithTop ℝ) + 0) < ((quadVal (some q) z : ℝ) : WithTop ℝ) + 0
    rw [add_zero, add_zero]
    exact WithTop.coe_lt_coe.mpr h2
  · obtain ⟨-, P, h1, h2, h3, -⟩ := C68_stacked_dual n (N := 0) (fun i => i.elim0) (fun i => i.elim0) (fun i => i.elim0)
      (fun i => i.elim0) (fun i => i.elim0) (fun i => i.elim0) (fun i => i.elim0) (fun i => i.elim0)
    refine ⟨P, h1, h3 fun i => i.elim0, ?_⟩
    simp only [Finset.univ_eq_empty, Finset.sum_empty] at h2
    exact h2

/-- **C69** fails for containers of penalties only: although the documentation describes the class as combining penalties,
the constructor raises IndexError whenever all arguments are nonsmooth. -/
theorem C69_only_penalties_fails (a : ContAtom n) (l : List (ContAtom n)) :
    Container.init ((a :: l).map ContArg.nonsmooth) = .indexError := by
  have h : ∀ l : List (ContAtom n), Container.collect (l.map ContArg.nonsmooth) = some (l, []) := by
    intro l
    induction l with
    | nil => rfl
    | cons a l ih => simp [Container.collect, ih]
  unfold Container.init
  rw [h]

/-! ### failures -/

/-- `c/2 (z - x)²` -/
private noncomputable def half (c x : ℝ) : Quad (Fin 1) ℝ := ⟨c, some (.arr fun _ => x), some (.arr fun _ => 0), 0⟩

private lemma half_val (c x : ℝ) (z : Fin 1 → ℝ) : quadVal (some (half c x)) z = c / 2 * (z 0 - x) ^ 2 := by
  show quadFn _ _ _ _ _ = _
  simp [quadFn, sqDist, dot, half, denote, PyVec.get]

/-- the atom `supnorm(1, bound=1)`, dual to `l1norm(1, lagrange=1)` -/
private noncomputable def ball1 : AtomObj (Fin 1) ℝ :=
  ⟨.supnorm, ⟨none, some 1⟩, none, ⟨0, some (.scalar 0), some (.scalar 0), 0⟩⟩

/-- the atom `l1norm(1, lagrange=1)` -/
private noncomputable def abs1 : AtomObj (Fin 1) ℝ :=
  ⟨.l1norm, ⟨some 1, none⟩, none, ⟨0, some (.scalar 0), some (.scalar 0), 0⟩⟩

private lemma ball1_mode : InMode (n := 0) ball1 true 1 := ⟨by norm_num, rfl⟩

private lemma abs1_mode : InMode (n := 0) abs1 false 1 := ⟨by norm_num, rfl⟩

private lemma ball1_val (u : Fin 1 → ℝ) : (|u 0| ≤ 1 → denoteAtom (n := 0) ball1 true 1 u = ((0 : ℝ) : WithTop ℝ)) ∧
    (¬ |u 0| ≤ 1 → denoteAtom (n := 0) ball1 true 1 u = ⊤) := by
  have h : ((fun i => u i - offAt (n := 0) ball1.offset i) ∈ ballOf (n := 0) ball1.klass 1) ↔ |u 0| ≤ 1 := by
    show (∀ i : Fin 1, |u i - offAt (n := 0) ball1.offset i| ≤ 1) ↔ _
    simp [offAt, ball1]
  have e : (dot (linearAt ball1.quad) u + ball1.quad.const : ℝ) = 0 := by simp [dot, linearAt, ball1, PyVec.get]
  unfold denoteAtom atomFn
  rw [e]
  refine ⟨fun hu => ?_, fun hu => ?_⟩
  · rw [if_pos rfl, if_pos (h.2 hu)]; simp
  · rw [if_pos rfl, if_neg (fun h' => hu (h.1 h'))]; simp

private lemma abs1_val (z : Fin 1 → ℝ) : denoteAtom (n := 0) abs1 false 1 z = ((|z 0| : ℝ) : WithTop ℝ) := by
  have e : (dot (linearAt abs1.quad) z + abs1.quad.const : ℝ) = 0 := by simp [dot, linearAt, abs1, PyVec.get]
  unfold denoteAtom atomFn
  rw [e]
  simp [abs1, penalty, offAt]

private lemma abs1_ok (q : Quad (Fin 1) ℝ) (w : Fin 1 → ℝ) (hw : q.linear = some (.arr w)) (h : q.coef ≠ 0) :
    ∃ p, AtomObj.proximal (n := 0) abs1 q = .ok p := by
  obtain ⟨l, hl⟩ := add_arr abs1.quad q (collapsed_arr q w hw)
  obtain ⟨l', hl'⟩ := collapsed_arr (abs1.quad.add (some q)) l hl
  have hc : (abs1.quad.add (some q)).collapsed.coef = 0 + q.coef := rfl
  have hlin : (abs1.quad.add (some q)).collapsed.linear = some (.arr l') := congrArg some hl'
  show ∃ p, seminormProximal (Klass.lagrangeProx (n := 0) .l1norm) (Klass.boundProx (n := 0) .l1norm) (.lagrange 1) none abs1.quad (some q) = _
  unfold seminormProximal Quad.recenter
  simp only
  rw [if_neg (by rw [hc, zero_add]; exact h), hlin]
  exact ⟨_, rfl⟩

private lemma ball1_represents (D : (Fin 1 → ℝ) → Fin 1 → ℝ) :
    Represents D (denoteAtom (n := 0) ball1 true 1) fun z => ((|D z 0| : ℝ) : WithTop ℝ) := by
  intro x
  refine ⟨fun v hv => ?_, fun h => absurd h WithTop.coe_ne_top⟩
  have hv' : |D x 0| = v := WithTop.coe_inj.1 hv
  rw [← hv']
  constructor
  · rintro t ⟨u, s, hu, rfl⟩
    by_cases h : |u 0| ≤ 1
    · rw [(ball1_val u).1 h] at hu
      have hs : (0 : ℝ) = s := WithTop.coe_inj.1 hu
      rw [← hs]
      have h1 : u 0 * D x 0 ≤ |u 0| * |D x 0| := by rw [← abs_mul]; exact le_abs_self _
      have h2 : |u 0| * |D x 0| ≤ 1 * |D x 0| := mul_le_mul_of_nonneg_right h (abs_nonneg _)
      simp only [dot, Finset.univ_unique, Fin.default_eq_zero, Finset.sum_singleton]
      linarith
    · rw [(ball1_val u).2 h] at hu
      exact absurd hu (by simp)
  · intro b hb
    rcases le_total 0 (D x 0) with h | h
    · refine hb ⟨fun _ => 1, 0, (ball1_val _).1 (by norm_num), ?_⟩
      rw [abs_of_nonneg h]; simp [dot]
    · refine hb ⟨fun _ => -1, 0, (ball1_val _).1 (by norm_num), ?_⟩
      rw [abs_of_nonpos h]; simp [dot]

/-- smooth member with value 0 and the given quadratic -/
private noncomputable def zeroSmooth (q : Quad (Fin 1) ℝ) : ContSmooth 1 :=
  ⟨fun _ mode => match mode with
    | .func => .val 0
    | .grad => .grad fun _ => 0
    | .both => .both 0 fun _ => 0
    | .other => .valueError, q⟩

private lemma abs_min (c l r t : ℝ) (hc : 0 < c) (hl : 0 ≤ l) (hr : 0 < r) (h : c * r + l = t)
    (F : (Fin 1 → ℝ) → WithTop ℝ) (hF : ∀ z, F z = ((c / 2 * z 0 ^ 2 - t * z 0 + l * |z 0| : ℝ) : WithTop ℝ)) :
    IsUniqueMinTop F fun _ => r := by
  refine ⟨by rw [hF]; exact WithTop.coe_ne_top, fun z hz => ?_⟩
  have hz0 : z 0 - r ≠ 0 := fun h => hz (funext fun i => by rw [Subsingleton.elim i 0]; linarith)
  have h1 : 0 < c / 2 * (z 0 - r) ^ 2 := by positivity
  have h2 : l * z 0 ≤ l * |z 0| := mul_le_mul_of_nonneg_left (le_abs_self (z 0)) hl
  rw [hF, hF, WithTop.coe_lt_coe, abs_of_pos hr, ← h]
  nlinarith

private lemma dual_min1 (tq : Quad (Fin 1) ℝ) (hpos : 0 < tq.coef) (c r t d : ℝ) (hc : 0 < c) (h : c * r + 1 = t)
    (htq : ∀ z : Fin 1 → ℝ, quadVal (some tq) z = c / 2 * z 0 ^ 2 - t * z 0 + d) (hr : 0 ≤ r := by norm_num) :
    IsMinTop (dualFn (qConj tq) (fun u _ => u 0) (denoteAtom (n := 0) ball1 true 1)) (fun _ => 1) := by
  have hge : ∀ w x : Fin 1 → ℝ, dot w x - quadVal (some tq) x ≤ qConj tq w := by
    intro w x
    have h1 := quad_expand tq hpos w x
    have h2 : 0 ≤ tq.coef / 2 * sqDist x (qArg tq w) :=
      mul_nonneg (by linarith) (Finset.sum_nonneg fun i _ => sq_nonneg _)
    unfold qConj
    linarith
  have hle : qConj tq (fun _ => -1) ≤ -r - (c / 2 * r ^ 2 - t * r + d) := by
    unfold qConj
    rw [htq]
    simp only [dot, Finset.univ_unique, Fin.default_eq_zero, Finset.sum_singleton]
    have : 0 ≤ c / 2 * (qArg tq (fun _ => -1) 0 - r) ^ 2 := by positivity
    rw [← h]
    nlinarith
  have hval : dualFn (qConj tq) (fun u _ => u 0) (denoteAtom (n := 0) ball1 true 1) (fun _ => 1) =
      ((qConj tq (fun _ => -1) : ℝ) : WithTop ℝ) := by
    unfold dualFn
    rw [(ball1_val _).1 (by norm_num)]
    simp
  refine ⟨by rw [hval]; exact WithTop.coe_ne_top, fun u => ?_⟩
  rw [hval]
  by_cases hu : |u 0| ≤ 1
  · unfold dualFn
    rw [(ball1_val _).1 hu, ← WithTop.coe_add, WithTop.coe_le_coe, add_zero]
    have h1 := hge (fun _ => -u 0) (fun _ => r)
    rw [htq] at h1
    simp only [dot, Finset.univ_unique, Fin.default_eq_zero, Finset.sum_singleton] at h1
    have h2 := mul_le_mul_of_nonneg_right (abs_le.1 hu).2 hr
    linarith
  · unfold dualFn
    rw [(ball1_val _).2 hu]
    simp

/-- the hypotheses of `C69_proximal_partial` are met: a loss, a total variation penalty and an `ℓ1` bound on the vector -/
example (r s : ℝ) (hr : 0 ≤ r) (hs : 0 ≤ s) (loss : Objective (k + 2)) : ∃ (A : AffAtom (k + 2) k) (B : AffAtom (k + 2) (k + 1))
    (a b : ContAtom (k + 2)) (C : Container (k + 2)) (pen : (i : Fin C.nonsmooth.length) → (Fin (C.nonsmooth.get i).k → ℝ) → WithTop ℝ)
    (H : Fin C.nonsmooth.length → (Fin (k + 2) → ℝ) → WithTop ℝ),
    AtomObj.affine .l1norm (.matrix (fun i j => (if j = i.succ then 1 else 0) - if j = i.castSucc then 1 else 0) none) none
      (some r) none none = some A ∧ A.toCont = some a ∧
    AtomObj.affine .l1norm .identity none none (some s) none = some B ∧ B.toCont = some b ∧
    Container.init [.smooth ⟨loss, Quad.init none none none none⟩, .nonsmooth a, .nonsmooth b] = .ok C ∧
    (∀ i, distinctSelectors (C.nonsmooth.get i).T) ∧ (∀ i, AtomCorrect (C.nonsmooth.get i).dual.proximal (pen i)) ∧
    (∀ i, ConvexTop (pen i)) ∧ (∀ i, Represents (C.nonsmooth.get i).T.lin (pen i) (H i)) ∧
    (NoQuadratic C.quadratic ∧ ∀ a ∈ C.smooth, NoQuadratic a.quad) ∧ ∀ proxq, C.direct (C.totalq proxq) = none := by
  obtain ⟨A, D, dual, prox, value, h1, h2, h3, -, -, pen, h4, h5, h6⟩ := C69_seminorm_member (n := k + 2) (k := k) .l1norm false r hr
    (.matrix (fun i j => (if j = i.succ then 1 else 0) - if j = i.castSucc then 1 else 0) none) _ rfl (by simp [distinctSelectors]) rfl none
    (by simp) none (by simp)
  obtain ⟨B, D', dual', prox', value', h1', h2', h3', -, -, pen', h4', h5', h6'⟩ := C69_seminorm_member (n := k + 2) (k := k + 1)
    .l1norm true s hs .identity _ rfl (by simp [distinctSelectors]) rfl none (by simp) none (by simp)
  have hno : NoQuadratic (Quad.init none none none none : Quad (Fin (k + 2)) ℝ) := ⟨rfl, fun i => rfl⟩
  obtain ⟨H, h6⟩ : ∃ H, Represents D.lin pen H := ⟨_, h6⟩
  obtain ⟨H', h6'⟩ : ∃ H, Represents D'.lin pen' H := ⟨_, h6'⟩
  refine ⟨A, B, _, _, ⟨[_, _], [_], _⟩, fun i => match i with
      | ⟨0, _⟩ => pen
      | ⟨1, _⟩ => pen', fun i => match i with
      | ⟨0, _⟩ => H
      | ⟨1, _⟩ => H', h1, h2, h1', h2', rfl, ?_, ?_, ?_, ?_, ⟨hno, ?_⟩, fun proxq => rfl⟩
  · intro i; match i with
      | ⟨0, _⟩ => exact h3
      | ⟨1, _⟩ => exact h3'
  · intro i; match i with
      | ⟨0, _⟩ => exact h4
      | ⟨1, _⟩ => exact h4'
  · intro i; match i with
      | ⟨0, _⟩ => exact h5
      | ⟨1, _⟩ => exact h5'
  · intro i; match i with
      | ⟨0, _⟩ => exact h6
      | ⟨1, _⟩ => exact h6'
  · intro a ha
    simp only [List.mem_singleton] at ha
    subst ha
    exact hno

/-- **C69** fails when the container or a smooth member has a quadratic: the dual problem is built from the sum of all
quadratics, but the primal point is recovered with the coefficient of `proxq` alone.  For `proxq = ½(z - 3)²`, a smooth
member with quadratic `½z²` and the penalty `|z|`, with the dual problem solved exactly, `2` is returned and the
minimiser is `1`. -/
theorem C69_quadratic_fails :
    ∃ (T : Aff ℝ 1 1) (dual : DualAtom 1) (prox : Quad (Fin 1) ℝ → ProxResult (Fin 1) ℝ)
      (value : (Fin 1 → ℝ) → Bool → WithTop ℝ) (s : ContSmooth 1) (C : Container 1) (proxq : Quad (Fin 1) ℝ)
      (pen : (Fin 1 → ℝ) → WithTop ℝ) (V : (Fin 1 → ℝ) → ℝ) (G : (Fin 1 → ℝ) → Fin 1 → ℝ),
      C = ⟨[⟨1, T, dual, prox, value⟩], [s], ⟨0, some (.scalar 0), some (.scalar 0), 0⟩⟩ ∧
      AtomCorrect dual.proximal pen ∧ ConvexTop pen ∧ Represents T.lin pen (fun z => ((|z 0| : ℝ) : WithTop ℝ)) ∧
      Evaluates (C.dualProblem proxq).fc V G ∧ IsMinTop (dualFn V T.adj pen) (fun _ => 1) ∧
      C.proximal (fun _ _ _ => 1) proxq = .ok (fun _ => 2) ∧
      (∀ z, allQuadratics C proxq z = (z 0 - 3) ^ 2 / 2 + z 0 ^ 2 / 2) ∧
      IsUniqueMinTop (fun z => ((allQuadratics C proxq z : ℝ) : WithTop ℝ) + ((|z 0| : ℝ) : WithTop ℝ)) (fun _ => 1) := by
  let T : Aff ℝ 1 1 := .matrix (fun _ _ => 1) none
  let C : Container 1 := ⟨[⟨1, T, AtomObj.asDual (k := 0) ball1, AtomObj.proximal (n := 0) abs1,
    fun z _ => ((|z 0| : ℝ) : WithTop ℝ)⟩], [zeroSmooth (half 1 0)], ⟨0, some (.scalar 0), some (.scalar 0), 0⟩⟩
  have hcoef : (C.totalq (half 1 3)).coef = 2 := by
    rw [totalq_coef]; simp [C, sumOf, zeroSmooth, half]; norm_num
  have hpos : 0 < (C.totalq (half 1 3)).coef := by rw [hcoef]; norm_num
  have hz : ∀ z : Fin 1 → ℝ, quadVal (some (⟨0, some (.scalar 0), some (.scalar 0), 0⟩ : Quad (Fin 1) ℝ)) z = 0 := by
    intro z
    show quadFn _ _ _ _ _ = _
    simp [quadFn, sqDist, dot, denote]
  have hall : ∀ z, allQuadratics C (half 1 3) z = (z 0 - 3) ^ 2 / 2 + z 0 ^ 2 / 2 := by
    intro z
    unfold allQuadratics
    have h1 : quadVal (some C.quadratic) z = 0 := hz z
    have h2 : (sumOf C.smooth fun a => quadVal (some a.quad) z) = quadVal (some (half 1 0)) z := by simp [sumOf, C, zeroSmooth]
    rw [h1, h2, half_val, half_val]
    ring
  have hTlin : T.lin = fun z _ => z 0 := by
    funext z i; show (∑ j : Fin 1, (1 : ℝ) * z j) = z 0; simp
  have hTadj : T.adj = fun u _ => u 0 := by
    funext u i; show (∑ j : Fin 1, (1 : ℝ) * u j) = u 0; simp
  refine ⟨T, _, _, _, _, C, half 1 3, denoteAtom (n := 0) ball1 true 1, _, _, rfl, atom_correct (k := 0) ball1 true 1 ball1_mode rfl,
    denoteAtom_convex (k := 0) ball1 true (by norm_num), ?_, conj_eval _ hpos, ?_, ?_, hall, ?_⟩
  · have := ball1_represents T.lin
    rw [hTlin] at this ⊢
    exact this
  · obtain ⟨d, hd⟩ := totalq_val C (half 1 3)
    rw [hTadj]
    refine dual_min1 _ hpos 2 1 3 (9 / 2 + d) (by norm_num) (by norm_num) fun z => ?_
    rw [hd]
    have := hall z
    unfold allQuadratics at this
    rw [this]
    ring
  · show Container.primalPoint T (half 1 3) (fun _ => 1) = _
    unfold Container.primalPoint
    rw [hTadj]
    simp only [half]
    congr 1
    funext i
    simp [PyVec.get]
    norm_num
  · refine min_shift (c := -(9 / 2)) (F' := fun z => ((2 / 2 * z 0 ^ 2 - 3 * z 0 + 1 * |z 0| : ℝ) : WithTop ℝ)) (fun z => ?_)
      (abs_min 2 1 1 3 (by norm_num) (by norm_num) (by norm_num) (by norm_num) _ fun z => rfl)
    rw [hall, ← WithTop.coe_add, ← WithTop.coe_add]
    congr 1
    ring

/-- **C69** fails for a penalty of a selection followed by a further transform: when the single penalty is composed with
`selector(index_obj, shape, T)` the transform `T` is dropped.  For the penalty `|2z|` with `T` scaling by `2` and
`proxq = ½(z - 3)²`, `2` is returned and the minimiser is `1`. -/
theorem C69_selector_transform_fails :
    ∃ (dual : DualAtom 1) (prox : Quad (Fin 1) ℝ → ProxResult (Fin 1) ℝ) (value : (Fin 1 → ℝ) → Bool → WithTop ℝ)
      (s : ContSmooth 1) (C : Container 1) (proxq : Quad (Fin 1) ℝ) (pen : (Fin 1 → ℝ) → WithTop ℝ),
      C = ⟨[⟨1, .selector id (.scaler fun _ => 2), dual, prox, value⟩], [s], ⟨0, some (.scalar 0), some (.scalar 0), 0⟩⟩ ∧
      AtomCorrect prox (fun z => ((|z 0| : ℝ) : WithTop ℝ)) ∧
      Represents (Aff.selector (K := ℝ) (id : Fin 1 → Fin 1) (.scaler fun _ => 2)).lin pen (fun z => ((|2 * z 0| : ℝ) : WithTop ℝ)) ∧
      AtomCorrect dual.proximal pen ∧ (∀ fit, C.proximal fit proxq = .ok (fun _ => 2)) ∧
      (∀ z, allQuadratics C proxq z = (z 0 - 3) ^ 2 / 2) ∧
      IsUniqueMinTop (fun z => ((allQuadratics C proxq z : ℝ) : WithTop ℝ) + ((|2 * z 0| : ℝ) : WithTop ℝ)) (fun _ => 1) := by
  let C : Container 1 := ⟨[⟨1, .selector id (.scaler fun _ => 2), AtomObj.asDual (k := 0) ball1, AtomObj.proximal (n := 0) abs1,
    fun z _ => ((|2 * z 0| : ℝ) : WithTop ℝ)⟩], [zeroSmooth (half 0 0)], ⟨0, some (.scalar 0), some (.scalar 0), 0⟩⟩
  have hz : ∀ z : Fin 1 → ℝ, quadVal (some (⟨0, some (.scalar 0), some (.scalar 0), 0⟩ : Quad (Fin 1) ℝ)) z = 0 := by
    intro z
    show quadFn _ _ _ _ _ = _
    simp [quadFn, sqDist, dot, denote]
  have hall : ∀ z, allQuadratics C (half 1 3) z = (z 0 - 3) ^ 2 / 2 := by
    intro z
    unfold allQuadratics
    have h1 : quadVal (some C.quadratic) z = 0 := hz z
    have h2 : (sumOf C.smooth fun a => quadVal (some a.quad) z) = quadVal (some (half 0 0)) z := by simp [sumOf, C, zeroSmooth]
    rw [h1, h2, half_val, half_val]
    ring
  have hcor : AtomCorrect (AtomObj.proximal (n := 0) abs1) (fun z => ((|z 0| : ℝ) : WithTop ℝ)) := by
    have := atom_correct (k := 0) abs1 false 1 abs1_mode rfl
    rw [funext abs1_val] at this
    exact this
  refine ⟨_, _, _, _, C, half 1 3, denoteAtom (n := 0) ball1 true 1, rfl, hcor, ?_,
    atom_correct (k := 0) ball1 true 1 ball1_mode rfl, fun fit => ?_, hall, ?_⟩
  · have := ball1_represents (Aff.selector (K := ℝ) (id : Fin 1 → Fin 1) (.scaler fun _ => 2)).lin
    have e : ∀ z : Fin 1 → ℝ, (Aff.selector (K := ℝ) (id : Fin 1 → Fin 1) (.scaler fun _ => 2)).lin z 0 = 2 * z 0 := by
      intro z; rfl
    simp only [e] at this
    exact this
  · have h1 : C.direct (C.totalq (half 1 3)) =
        some (Container.selectorProx id (AtomObj.proximal (n := 0) abs1) (C.totalq (half 1 3))) := rfl
    obtain ⟨p, hp⟩ : ∃ p, C.proximal fit (half 1 3) = .ok p := by
      unfold Container.proximal
      rw [h1]
      obtain ⟨l, hl⟩ : ∃ l, (C.totalq (half 1 3)).linear = some (.arr l) := ⟨_, rfl⟩
      obtain ⟨w, hw⟩ := abs1_ok ((C.totalq (half 1 3)).restrict ⟨1, id⟩) (fun j => l j) (by
        unfold Quad.restrict
        simp only [hl]; rfl) (by
        show (C.totalq (half 1 3)).coef ≠ 0
        rw [totalq_coef]; simp [C, sumOf, zeroSmooth, half])
      simp only
      unfold Container.selectorProx Container.restrictTo
      have hcen : (C.totalq (half 1 3)).center = some (.scalar 0) := rfl
      rw [hcen, hl]
      simp only [dif_pos]
      rw [hw]
      exact ⟨_, rfl⟩
    let C' : Container 1 := ⟨[⟨1, .selector id .identity, AtomObj.asDual (k := 0) ball1, AtomObj.proximal (n := 0) abs1,
      fun z _ => ((|2 * z 0| : ℝ) : WithTop ℝ)⟩], [zeroSmooth (half 0 0)], ⟨0, some (.scalar 0), some (.scalar 0), 0⟩⟩
    have hm := C69_proximal_selector_partial C' id (fun _ _ h => h) (AtomObj.asDual (k := 0) ball1) (AtomObj.proximal (n := 0) abs1)
      _ rfl _ hcor fit (half 1 3) (by simp [C', sumOf, zeroSmooth, half]) p hp
    have hm2 : IsUniqueMinTop (fun z => ((allQuadratics C' (half 1 3) z : ℝ) : WithTop ℝ) + ((|z 0| : ℝ) : WithTop ℝ)) (fun _ => 2) := by
      refine min_shift (c := -(9 / 2)) (F' := fun z => ((1 / 2 * z 0 ^ 2 - 3 * z 0 + 1 * |z 0| : ℝ) : WithTop ℝ)) (fun z => ?_)
        (abs_min 1 1 2 3 (by norm_num) (by norm_num) (by norm_num) (by norm_num) _ fun z => rfl)
      have : allQuadratics C' (half 1 3) z = (z 0 - 3) ^ 2 / 2 := hall z
      rw [this, ← WithTop.coe_add, ← WithTop.coe_add]
      congr 1
      ring
    rw [hp]
    by_contra hne
    have hne' : p ≠ fun _ => 2 := fun h => hne (by rw [h])
    exact absurd (hm.2 _ (Ne.symm hne')) (not_lt.2 (hm2.2 _ hne').le)
  · refine min_shift (c := -(9 / 2)) (F' := fun z => ((1 / 2 * z 0 ^ 2 - 3 * z 0 + 2 * |z 0| : ℝ) : WithTop ℝ)) (fun z => ?_)
      (abs_min 1 2 1 3 (by norm_num) (by norm_num) (by norm_num) (by norm_num) _ fun z => rfl)
    rw [hall, ← WithTop.coe_add, ← WithTop.coe_add, abs_mul]
    congr 1
    norm_num
    ring

/-! ### `solve` -/

/-- **C69** `solve()` without argument returns the coefficients the solver arrives at, and the attribute `quadratic` is
unchanged, with or without argument. -/
theorem C69_solve (C : Container n) (fit : Container n → Fin n → ℝ) :
    C.solve fit none = (fit C, C.quadratic) ∧ ∀ q, (C.solve fit (some q)).2 = C.quadratic := ⟨rfl, fun q => rfl⟩

/-- **C69** fails for `solve(quadratic=q)`: the argument has no effect whatsoever.  For the objective `½z²`, solved
exactly, and `q = ½(z - 2)²`, the point `0` is returned, which minimises the objective without `q` and not the one with
it. -/
theorem C69_solve_quadratic_fails :
    (∀ (n : ℕ) (C : Container n) fit q, C.solve fit (some q) = C.solve fit none) ∧
    ∃ (C : Container 1) (fit : Container 1 → Fin 1 → ℝ) (q : Quad (Fin 1) ℝ),
      (∀ x, C.objective (fit C) true = some x → x ≠ ⊤ ∧ ∀ z y, C.objective z true = some y → x ≤ y) ∧
      (∃ x, C.objective (fit C) true = some x) ∧
      ∃ z x y, C.objective z true = some y ∧ C.objective (C.solve fit (some q)).1 true = some x ∧
        y + quadTop q z < x + quadTop q (C.solve fit (some q)).1 := by
  refine ⟨fun n C fit q => rfl, ⟨[zeroContAtom 1], [zeroSmooth (half 1 0)], ⟨0, some (.scalar 0), some (.scalar 0), 0⟩⟩,
    fun _ _ => 0, half 1 2, ?_⟩
  have hobj : ∀ z : Fin 1 → ℝ, Container.objective (⟨[zeroContAtom 1], [zeroSmooth (half 1 0)], ⟨0, some (.scalar 0), some (.scalar 0), 0⟩⟩ :
      Container 1) z true = some ((z 0 ^ 2 / 2 : ℝ) : WithTop ℝ) := by
    intro z
    rw [C69_objective _ (fun _ _ => 0) (fun _ _ _ => 0) (by
      intro a ha x
      simp only [List.mem_singleton] at ha
      subst ha
      exact ⟨rfl, rfl, rfl⟩)]
    have h1 : quadVal (some (⟨0, some (.scalar 0), some (.scalar 0), 0⟩ : Quad (Fin 1) ℝ)) z = 0 := by
      show quadFn _ _ _ _ _ = _
      simp [quadFn, sqDist, dot, denote]
    have h2 : quadVal (some (zeroSmooth (half 1 0)).quad) z = z 0 ^ 2 / 2 := by
      show quadVal (some (half 1 0)) z = _
      rw [half_val]; ring
    simp only [sumOf, List.map_cons, List.map_nil, List.sum_cons, List.sum_nil, h1, h2, zeroContAtom]
    simp
  refine ⟨fun x hx => ?_, ⟨_, hobj _⟩, fun _ => 1, _, _, hobj _, hobj _, ?_⟩
  · rw [hobj] at hx
    injection hx with hx
    subst hx
    refine ⟨WithTop.coe_ne_top, fun z y hy => ?_⟩
    rw [hobj] at hy
    injection hy with hy
    subst hy
    rw [WithTop.coe_le_coe]
    have := sq_nonneg (z 0)
    norm_num
    linarith
  · unfold quadTop
    rw [half_val, half_val, ← WithTop.coe_add, ← WithTop.coe_add, WithTop.coe_lt_coe]
    norm_num [Container.solve]

end Verif.Props
