import Verif.Props.C90_AnyAtom
import Verif.Lemmas.MixedKKT
import Verif.Props.C16_Cones
import Verif.Props.C18_Simplex
import Verif.Props.C20_Slope
import Verif.Props.C21_Group
import Verif.Props.C22_SparseGroup
import Verif.Props.C23_Weighted
import Verif.Props.C56_MixedLasso
import Verif.Props.C61_LinearConstraints

/-!
# C90: the atoms of the library meet the contract

The classes derived from `seminorm` and `cone`, with any offset and any own quadratic of nonnegative coefficient, and
`separable` of such atoms on disjoint groups.
-/

set_option linter.unusedSectionVars false
set_option linter.unusedVariables false

namespace Verif.Props
open Verif.Spec Verif.Model Verif.Model.Fista Verif.Lemmas

variable {n p m q : ℕ}

open Classical in
/-- the function of an atom: `h(x - offset)` where `x - offset` is in `S`, plus the own quadratic; infinite elsewhere -/
noncomputable def shiftedPen (h : (Fin m → ℝ) → ℝ) (S : Set (Fin m → ℝ)) (offset : Option (PyVec (Fin m) ℝ))
    (sq : Quad (Fin m) ℝ) (x : Fin m → ℝ) : WithTop ℝ :=
  if (fun i => x i - denote offset i) ∈ S then ((h (fun i => x i - denote offset i) + quadVal (some sq) x : ℝ) : WithTop ℝ)
  else ⊤

/-! ### helpers -/

private lemma shift_eq (offset : Option (PyVec (Fin m) ℝ)) (x : Fin m → ℝ) :
    atomShift offset x = fun i => x i - denote offset i := by
  rcases offset with _ | (c | c)
  · funext i; simp [atomShift, denote]
  · rfl
  · rfl

private lemma pen_in {h : (Fin m → ℝ) → ℝ} {S : Set (Fin m → ℝ)} {offset : Option (PyVec (Fin m) ℝ)} {sq : Quad (Fin m) ℝ}
    {x : Fin m → ℝ} (hx : (fun i => x i - denote offset i) ∈ S) :
    shiftedPen h S offset sq x = ((h (fun i => x i - denote offset i) + quadVal (some sq) x : ℝ) : WithTop ℝ) := if_pos hx

private lemma pen_out {h : (Fin m → ℝ) → ℝ} {S : Set (Fin m → ℝ)} {offset : Option (PyVec (Fin m) ℝ)} {sq : Quad (Fin m) ℝ}
    {x : Fin m → ℝ} (hx : (fun i => x i - denote offset i) ∉ S) : shiftedPen h S offset sq x = ⊤ := if_neg hx

private lemma pen_val {h : (Fin m → ℝ) → ℝ} {S : Set (Fin m → ℝ)} {offset : Option (PyVec (Fin m) ℝ)} {sq : Quad (Fin m) ℝ}
    {x : Fin m → ℝ} {v : ℝ} (hv : shiftedPen h S offset sq x = v) :
    (fun i => x i - denote offset i) ∈ S ∧ v = h (fun i => x i - denote offset i) + quadVal (some sq) x := by
  by_cases hx : (fun i => x i - denote offset i) ∈ S
  · rw [pen_in hx, WithTop.coe_inj] at hv
    exact ⟨hx, hv.symm⟩
  · rw [pen_out hx] at hv
    exact absurd hv.symm WithTop.coe_ne_top

private lemma pen_convexTop {h : (Fin m → ℝ) → ℝ} {S : Set (Fin m → ℝ)} (hc : IsConvexFnOn h S)
    (offset : Option (PyVec (Fin m) ℝ)) (sq : Quad (Fin m) ℝ) (hsq : 0 ≤ sq.coef) : ConvexTop (shiftedPen h S offset sq) := by
  intro u v a b hu hv t ht ht1
  obtain ⟨hu1, hu2⟩ := pen_val hu
  obtain ⟨hv1, hv2⟩ := pen_val hv
  obtain ⟨h1, h2⟩ := hc _ hu1 _ hv1 (1 - t) t (by linarith) ht (by ring)
  have e : (fun i => (1 - t) * (u i - denote offset i) + t * (v i - denote offset i)) =
      fun i => (fun i => (1 - t) * u i + t * v i) i - denote offset i := by
    funext i; ring
  rw [e] at h1 h2
  refine ⟨_, pen_in h1, ?_⟩
  have h3 := quadVal_convex sq hsq u v (1 - t) t (by linarith) ht (by ring)
  rw [hu2, hv2]
  linarith

private lemma pen_unique {h : (Fin m → ℝ) → ℝ} {S : Set (Fin m → ℝ)} {offset : Option (PyVec (Fin m) ℝ)} {sq Q : Quad (Fin m) ℝ}
    {z : Fin m → ℝ}
    (hz : IsUniqueMinOn (fun x => quadVal (some Q) x + quadVal (some sq) x + h (fun i => x i - denote offset i))
      {x | (fun i => x i - denote offset i) ∈ S} z) :
    IsUniqueMinTop (fun x => ((quadVal (some Q) x : ℝ) : WithTop ℝ) + shiftedPen h S offset sq x) z := by
  obtain ⟨h1, h2⟩ := hz
  have h1' : (fun i => z i - denote offset i) ∈ S := h1
  refine ⟨?_, fun u hu => ?_⟩
  · dsimp only
    rw [pen_in h1', ← WithTop.coe_add]; exact WithTop.coe_ne_top
  · dsimp only
    by_cases hS : (fun i => u i - denote offset i) ∈ S
    · have := h2 u hS hu
      rw [pen_in h1', pen_in hS, ← WithTop.coe_add, ← WithTop.coe_add, WithTop.coe_lt_coe]
      dsimp only at this
      linarith
    · rw [pen_out hS, pen_in h1', ← WithTop.coe_add, WithTop.add_top]
      exact WithTop.coe_lt_top _

private lemma sublevel_convex {h : (Fin m → ℝ) → ℝ} {S : Set (Fin m → ℝ)} (hc : IsConvexFnOn h S) (b : ℝ) :
    IsConvexFnOn (fun _ => 0) {x | x ∈ S ∧ h x ≤ b} := by
  rintro x ⟨hx, hxb⟩ y ⟨hy, hyb⟩ s t hs ht hst
  obtain ⟨h1, h2⟩ := hc x hx y hy s t hs ht hst
  refine ⟨⟨h1, ?_⟩, by simp⟩
  have := mul_le_mul_of_nonneg_left hxb hs
  have := mul_le_mul_of_nonneg_left hyb ht
  have e : s * b + t * b = b := by rw [← add_mul, hst, one_mul]
  linarith

private lemma smul_convex {h : (Fin m → ℝ) → ℝ} {S : Set (Fin m → ℝ)} (hc : IsConvexFnOn h S) {lam : ℝ} (hl : 0 ≤ lam) :
    IsConvexFnOn (fun x => lam * h x) S := by
  intro x hx y hy s t hs ht hst
  obtain ⟨h1, h2⟩ := hc x hx y hy s t hs ht hst
  refine ⟨h1, ?_⟩
  have := mul_le_mul_of_nonneg_left h2 hl
  dsimp only
  linarith

private lemma indicator_convex {S : Set (Fin m → ℝ)}
    (h : ∀ x ∈ S, ∀ y ∈ S, ∀ s t : ℝ, 0 ≤ s → 0 ≤ t → s + t = 1 → (fun i => s * x i + t * y i) ∈ S) :
    IsConvexFnOn (fun _ => 0) S :=
  fun x hx y hy s t hs ht hst => ⟨h x hx y hy s t hs ht hst, by simp⟩

private lemma add_num_ne {v : ObjVal} (hv : v ≠ .nan) (r : ℝ) : v.add (.num r) ≠ .nan := by
  cases v with
  | nan => exact absurd rfl hv
  | num a => exact fun h => by cases h
  | inf => exact fun h => by cases h

/-! ### classes derived from `seminorm` and `cone` -/

/-- **C90** A seminorm class in Lagrange mode: if `lagrange_prox` with multiplier `lam` is the proximal map of the convex
function `h` on `S` and `seminorm` returns `h`, the atom with any offset and any quadratic of nonnegative coefficient stands for
`h(x - offset) + quadratic(x)`. -/
theorem C90_seminorm_lagrange (k : SeminormClass (p + 1)) (lam : ℝ) (h : (Fin (p + 1) → ℝ) → ℝ) (S : Set (Fin (p + 1) → ℝ))
    (hprox : ∀ x L, 0 < L → ∃ z, k.lagrangeProx x L lam = some z ∧ IsProxOn L h S x z)
    (hval : ∀ x ∈ S, k.seminorm x lam false = .num (h x)) (hdef : ∀ x, k.seminorm x lam true ≠ .nan)
    (hc : IsConvexFnOn h S) (offset : Option (PyVec (Fin (p + 1)) ℝ)) (sq : Quad (Fin (p + 1)) ℝ) (hsq : 0 ≤ sq.coef) :
    IsAtomFor (k.atom (.lagrange lam) offset sq) (shiftedPen h S offset sq) := by
  refine ⟨fun Q z hQ hz => ?_, fun Q v hQ hv => ?_, fun x v hv => ?_, fun x => ?_, pen_convexTop hc offset sq hsq⟩
  · refine pen_unique (C10_proximal_lagrange k.lagrangeProx k.boundProx h S lam (fun arg L r hL hr => ?_) offset sq (some Q) z
      (by show 0 < sq.coef + Q.coef; linarith) hz)
    obtain ⟨r', h1, h2⟩ := hprox arg L hL
    rw [hr] at h1; injection h1 with h1; rw [h1]; exact h2
  · refine prox_total k.lagrangeProx k.boundProx (.lagrange lam) (fun arg L hL => ?_) offset sq Q v hv (by linarith)
    obtain ⟨r', h1, h2⟩ := hprox arg L hL
    exact ⟨r', h1⟩
  · obtain ⟨h1, h2⟩ := pen_val hv
    show (k.seminorm (atomShift offset x) lam false).add (.num (sq.funcVal x)) = _
    rw [shift_eq, hval _ h1, fv84, h2]; rfl
  · exact add_num_ne (hdef _) _

/-- **C90** A seminorm class in bound mode: if `bound_prox` at `b` is the projection on the convex set `S`, the atom stands for
the indicator of `{x : x - offset ∈ S}` plus its quadratic. -/
theorem C90_seminorm_bound (k : SeminormClass (p + 1)) (b : ℝ) (S : Set (Fin (p + 1) → ℝ))
    (hprox : ∀ x, ∃ z, k.boundProx x b = some z ∧ IsProj S x z)
    (hdef : ∀ x, k.constraint x b ≠ .nan)
    (hc : IsConvexFnOn (fun _ => 0) S) (offset : Option (PyVec (Fin (p + 1)) ℝ)) (sq : Quad (Fin (p + 1)) ℝ)
    (hsq : 0 ≤ sq.coef) :
    IsAtomFor (k.atom (.bound b) offset sq) (shiftedPen (fun _ => 0) S offset sq) := by
  refine ⟨fun Q z hQ hz => ?_, fun Q v hQ hv => ?_, fun x v hv => ?_, fun x => ?_, pen_convexTop hc offset sq hsq⟩
  · have := C10_proximal_bound k.lagrangeProx k.boundProx S b (fun arg r hr => by
        obtain ⟨r', h1, h2⟩ := hprox arg
        rw [hr] at h1; injection h1 with h1; rw [h1]; exact h2) offset sq (some Q) z
      (by show 0 < sq.coef + Q.coef; linarith) hz
    refine pen_unique ?_
    simp only [add_zero]
    exact this
  · refine prox_total k.lagrangeProx k.boundProx (.bound b) (fun arg L hL => ?_) offset sq Q v hv (by linarith)
    obtain ⟨r', h1, h2⟩ := hprox arg
    exact ⟨r', h1⟩
  · obtain ⟨h1, h2⟩ := pen_val hv
    show (ObjVal.num 0).add (.num (sq.funcVal x)) = _
    rw [fv84, h2]; rfl
  · exact add_num_ne (hdef _) _

/-- **C90** A cone class: if `cone_prox` is the projection on the convex set `S`, the atom stands for the indicator of
`{x : x - offset ∈ S}` plus its quadratic. -/
theorem C90_cone (k : ConeClass (p + 1)) (S : Set (Fin (p + 1) → ℝ))
    (hprox : ∀ x, ∃ z, k.coneProx x = some z ∧ IsProj S x z) (hdef : ∀ x, k.constraint x ≠ .nan)
    (hc : IsConvexFnOn (fun _ => 0) S) (offset : Option (PyVec (Fin (p + 1)) ℝ)) (sq : Quad (Fin (p + 1)) ℝ)
    (hsq : 0 ≤ sq.coef) :
    IsAtomFor (k.atom offset sq) (shiftedPen (fun _ => 0) S offset sq) := by
  let k' : SeminormClass (p + 1) :=
    { seminorm := fun _ _ _ => .nan, constraint := fun x _ => k.constraint x, lagrangeProx := fun _ _ _ => none
      boundProx := fun x _ => k.coneProx x }
  have h := C90_seminorm_bound k' 0 S hprox hdef hc offset sq hsq
  refine ⟨fun Q z hQ hz => h.solves Q z hQ hz, fun Q v hQ hv => h.total Q v hQ hv, fun x v hv => h.value x v hv, fun x => ?_,
    h.convex⟩
  exact h.defined x

/-! ### the atoms of the library -/

private lemma ofTop_ne (v : WithTop ℝ) : ObjVal.ofTop v ≠ .nan := by
  cases v with
  | top => exact fun h => by cases h
  | coe a => exact fun h => by cases h

/-- **C90** The seven seminorms of `seminorms.py` (l1norm, supnorm, l2norm, positive_part, constrained_max,
constrained_positive_part, max_positive_part) in Lagrange and in bound mode: the atom stands for the documented penalty or
constraint of the shifted argument, plus its quadratic. -/
theorem C90_seminorms (A : AtomObj (Fin (p + 1)) ℝ) (b : Bool) (r : ℝ) (hm : InMode A b r) (hq : 0 ≤ A.quad.coef) :
    IsAtomFor A.toAtom fun x =>
      atomBase A.klass b r (fun i => x i - offAt A.offset i) + ((quadVal (some A.quad) x : ℝ) : WithTop ℝ) := by
  have hdv : ∀ x (v : ℝ), atomBase A.klass b r (fun i => x i - offAt A.offset i) + ((quadVal (some A.quad) x : ℝ) : WithTop ℝ) = v →
      atomBase A.klass b r (fun i => x i - offAt A.offset i) ≠ ⊤ := fun x v h hc => by
    rw [hc, WithTop.top_add] at h; exact absurd h.symm WithTop.coe_ne_top
  refine ⟨fun Q z hQ hz => ?_, fun Q v hQ hv => ?_, fun x v hv => ?_, fun x => ?_, ?_⟩
  · obtain ⟨h1, h2⟩ := obj_prox_min A b r hm Q (by linarith) z hz
    obtain ⟨vz, hvz⟩ := WithTop.ne_top_iff_exists.1 h1
    refine ⟨?_, fun u hu => ?_⟩
    · dsimp only
      rw [← hvz, ← WithTop.coe_add, ← WithTop.coe_add]; exact WithTop.coe_ne_top
    · dsimp only
      by_cases hd : atomBase A.klass b r (fun i => u i - offAt A.offset i) = ⊤
      · rw [hd, ← hvz, ← WithTop.coe_add, ← WithTop.coe_add, WithTop.top_add, WithTop.add_top]
        exact WithTop.coe_lt_top _
      · have := h2 u hd hu
        obtain ⟨vu, hvu⟩ := WithTop.ne_top_iff_exists.1 hd
        dsimp only at this
        rw [← hvz, ← hvu, WithTop.untopD_coe, WithTop.untopD_coe] at this
        rw [← hvz, ← hvu, ← WithTop.coe_add, ← WithTop.coe_add, ← WithTop.coe_add, ← WithTop.coe_add, WithTop.coe_lt_coe]
        linarith
  · obtain ⟨z, hz, -⟩ := obj_prox A b r hm Q v hv (by linarith)
    exact ⟨z, hz⟩
  · show (match A.nonsmoothObjective x false with
      | some v => ObjVal.ofTop v
      | none => .nan) = _
    rw [obj_value A b r hm x (hdv x v hv), fv84, hv]
    rfl
  · show (match A.nonsmoothObjective x true with
      | some v => ObjVal.ofTop v
      | none => .nan) ≠ _
    obtain ⟨v, hv⟩ : ∃ v, A.nonsmoothObjective x true = some v := by
      obtain ⟨-, hst⟩ := hm
      unfold AtomObj.nonsmoothObjective
      rw [hst]
      cases b <;> exact ⟨_, rfl⟩
    rw [hv]
    exact ofTop_ne v
  · intro u v a c hu hv t ht ht1
    dsimp only at hu hv
    let A0 : AtomObj (Fin (p + 1)) ℝ := ⟨A.klass, A.st, A.offset, Quad.init none none none none⟩
    have hcv := denoteAtom_convex A0 b hm.1
    have hden : ∀ u, denoteAtom A0 b r u = atomBase A.klass b r (fun j => u j - offAt A.offset j) := by
      intro u
      show atomBase A.klass b r (fun j => u j - offAt A.offset j) +
        ((dot (linearAt (Quad.init none none none none)) u + 0 : ℝ) : WithTop ℝ) = _
      have : (dot (linearAt (Quad.init none none none none)) u + 0 : ℝ) = 0 := by simp [dot, linearAt, Quad.init]
      rw [this, WithTop.coe_zero, add_zero]
    obtain ⟨vu, hvu⟩ := WithTop.ne_top_iff_exists.1 (hdv u a hu)
    obtain ⟨vv, hvv⟩ := WithTop.ne_top_iff_exists.1 (hdv v c hv)
    obtain ⟨d, h1, h2⟩ := hcv u v vu vv (by rw [hden]; exact hvu.symm) (by rw [hden]; exact hvv.symm) t ht ht1
    rw [hden] at h1
    rw [← hvu, ← WithTop.coe_add, WithTop.coe_inj] at hu
    rw [← hvv, ← WithTop.coe_add, WithTop.coe_inj] at hv
    refine ⟨_, by dsimp only; rw [h1, ← WithTop.coe_add], ?_⟩
    have h3 := quadVal_convex A.quad hq u v (1 - t) t (by linarith) ht (by ring)
    rw [← hu, ← hv]
    linarith

private lemma groupNorm_mixed (grp : Fin m → Fin q) (w : Fin q → ℝ) (z : Fin m → ℝ) :
    mixedPenalty (GroupLasso.kind grp) w z = groupNorm grp w z := by
  unfold mixedPenalty groupNorm
  have e : ∀ j, kindNorm (GroupLasso.kind grp) z j = blockNorm grp z j := by
    intro j
    unfold kindNorm blockNorm GroupLasso.kind
    simp
  simp only [e]
  simp [GroupLasso.kind]

private lemma groupNorm_convex (grp : Fin m → Fin q) {w : Fin q → ℝ} (hw : ∀ j, 0 ≤ w j) :
    IsConvexFnOn (groupNorm grp w) Set.univ := by
  intro x _ y _ s t hs ht hst
  have hd : ∀ z : Fin m → ℝ, z ∈ mixedDomain (GroupLasso.kind grp : Fin m → Kind q) := by
    intro z i hi
    rcases hi with h | h <;> cases h
  have := (mixedPenalty_convex (GroupLasso.kind grp) hw x (hd x) y (hd y) s t hs ht hst).2
  simp only [groupNorm_mixed] at this
  exact ⟨trivial, this⟩

/-- **C90** `group_lasso` with a Lagrange multiplier stands for `lam * Σ_g w_g ‖z[g]‖₂` of `z = x - offset`, plus its
quadratic. -/
theorem C90_group_lasso (grp : Fin (p + 1) → Fin q) (w : Fin q → ℝ) (hw : ∀ j, 0 ≤ w j) (sort : (Fin (p + 1) → ℝ) → List (ℝ × ℝ))
    (lam : ℝ) (hl : 0 ≤ lam) (offset : Option (PyVec (Fin (p + 1)) ℝ)) (sq : Quad (Fin (p + 1)) ℝ) (hsq : 0 ≤ sq.coef) :
    IsAtomFor ((GroupLasso.cls grp w sort).atom (.lagrange lam) offset sq)
      (shiftedPen (fun z => lam * groupNorm grp w z) Set.univ offset sq) :=
  C90_seminorm_lagrange _ lam _ _ (fun x L hL => ⟨_, rfl, C21_lagrange_prox grp w hw x hL hl⟩)
    (fun x _ => by
      show ObjVal.num (GroupLasso.seminorm grp w x lam) = _
      rw [C21_seminorm])
    (fun x h => by cases h) (smul_convex (groupNorm_convex grp hw) hl) offset sq hsq

/-- **C90** `group_lasso` with a bound stands for the constraint `Σ_g w_g ‖z[g]‖₂ ≤ bound` on `z = x - offset`, plus its
quadratic, whatever order of ties the sort in the root finder picks.  Weights are 0 or at least `1e-20`. -/
theorem C90_group_lasso_bound (grp : Fin (p + 1) → Fin q) (w : Fin q → ℝ) (hw : ∀ j, w j = 0 ∨ 1 / 10 ^ 20 ≤ w j)
    (sort : (Fin (p + 1) → ℝ) → List (ℝ × ℝ)) (hsort : ∀ x, IsDescArgsort (GroupLasso.knotInput grp w x) (sort x))
    (b : ℝ) (hb : 0 ≤ b) (hpos : 0 < b ∨ ∃ j, w j ≠ 0)
    (offset : Option (PyVec (Fin (p + 1)) ℝ)) (sq : Quad (Fin (p + 1)) ℝ) (hsq : 0 ≤ sq.coef) :
    IsAtomFor ((GroupLasso.cls grp w sort).atom (.bound b) offset sq)
      (shiftedPen (fun _ => 0) {z | groupNorm grp w z ≤ b} offset sq) := by
  have hw0 : ∀ j, 0 ≤ w j := fun j => by
    rcases hw j with h | h
    · rw [h]
    · exact le_trans (by positivity) h
  refine C90_seminorm_bound _ b _ (fun x => C21_bound_prox grp w hw x hb hpos (sort x) (hsort x)) (fun x => ofTop_ne _) ?_
    offset sq hsq
  have := sublevel_convex (groupNorm_convex grp hw0) b
  simpa using this

private lemma l1_convex (a : Fin m → ℝ) (ha : ∀ i, 0 ≤ a i) : IsConvexFnOn (fun z => ∑ i, a i * |z i|) Set.univ := by
  intro x _ y _ s t hs ht hst
  refine ⟨trivial, ?_⟩
  dsimp only
  rw [Finset.mul_sum, Finset.mul_sum, ← Finset.sum_add_distrib]
  refine Finset.sum_le_sum fun i _ => ?_
  have h := abs_add_le (s * x i) (t * y i)
  rw [abs_mul, abs_mul, abs_of_nonneg hs, abs_of_nonneg ht] at h
  have := mul_le_mul_of_nonneg_left h (ha i)
  linarith

private lemma add_convex {h g : (Fin m → ℝ) → ℝ} {S : Set (Fin m → ℝ)} (hc : IsConvexFnOn h S) (gc : IsConvexFnOn g S) :
    IsConvexFnOn (fun x => h x + g x) S := by
  intro x hx y hy s t hs ht hst
  obtain ⟨h1, h2⟩ := hc x hx y hy s t hs ht hst
  obtain ⟨_, h3⟩ := gc x hx y hy s t hs ht hst
  refine ⟨h1, ?_⟩
  dsimp only
  linarith

/-- **C90** `sparse_group_lasso` with a Lagrange multiplier stands for `lam * (Σ_i a_i |z_i| + Σ_g w_g ‖z[g]‖₂)` of
`z = x - offset`, plus its quadratic. -/
theorem C90_sparse_group_lasso (grp : Fin (p + 1) → Fin q) (a : Fin (p + 1) → ℝ) (ha : ∀ i, 0 ≤ a i) (w : Fin q → ℝ)
    (hw : ∀ j, 0 ≤ w j) (lam : ℝ) (hl : 0 ≤ lam) (offset : Option (PyVec (Fin (p + 1)) ℝ)) (sq : Quad (Fin (p + 1)) ℝ)
    (hsq : 0 ≤ sq.coef) :
    IsAtomFor ((SparseGroup.cls grp a w).atom (.lagrange lam) offset sq)
      (shiftedPen (fun z => lam * (∑ i, a i * |z i| + groupNorm grp w z)) Set.univ offset sq) :=
  C90_seminorm_lagrange _ lam _ _ (fun x L hL => ⟨_, rfl, C22_lagrange_prox grp a ha w hw x hL hl⟩)
    (fun x _ => by
      show ObjVal.num (SparseGroup.seminorm grp a w x lam) = _
      rw [C22_seminorm grp a ha])
    (fun x h => by cases h) (smul_convex (add_convex (l1_convex a ha) (groupNorm_convex grp hw)) hl) offset sq hsq

private lemma topZero_convex (w : Fin m → WithTop ℝ) {h : (Fin m → ℝ) → ℝ} (hc : IsConvexFnOn h Set.univ) :
    IsConvexFnOn h (topZero w) := by
  intro x hx y hy s t hs ht hst
  refine ⟨fun i hi => ?_, (hc x trivial y trivial s t hs ht hst).2⟩
  dsimp only
  rw [hx i hi, hy i hi]; ring

private lemma wt_nonneg {w : Fin m → WithTop ℝ} (hw : ∀ i (a : ℝ), w i = a → 0 ≤ a) (i : Fin m) : 0 ≤ wt w i := by
  unfold wt
  cases h : w i with
  | top => exact le_rfl
  | coe a => exact hw i a h

/-- **C90** (partial) The weighted `l1norm` with a Lagrange multiplier stands for `lam * Σ_i w_i |z_i|` of `z = x - offset`,
with `z_i = 0` wherever the weight is infinite, plus its quadratic.  Missing: a multiplier 0 together with an infinite weight, where
the proximal map is nan (C23). -/
theorem C90_weighted_l1_partial (w : Fin (p + 1) → WithTop ℝ) (hw : ∀ i (a : ℝ), w i = a → 0 ≤ a)
    (sort : (Fin (p + 1) → ℝ) → List (ℝ × ℝ)) (lam : ℝ) (hl : 0 ≤ lam) (hnan : 0 < lam ∨ ∀ i, w i ≠ ⊤)
    (offset : Option (PyVec (Fin (p + 1)) ℝ)) (sq : Quad (Fin (p + 1)) ℝ) (hsq : 0 ≤ sq.coef) :
    IsAtomFor ((Weighted.l1cls w sort).atom (.lagrange lam) offset sq)
      (shiftedPen (fun z => lam * ∑ i, wt w i * |z i|) (topZero w) offset sq) := by
  refine C90_seminorm_lagrange _ lam _ _ (fun x L hL => ?_) (fun x hx => ?_) (fun x => ofTop_ne _) ?_ offset sq hsq
  · obtain ⟨P, h1, h2⟩ := C23_l1_lagrange_prox_partial w hw x hL hl hnan
    refine ⟨P, ?_, h2⟩
    show (if ∀ i, (Weighted.l1LagrangeProx w x L lam i).isSome then
      some fun i => (Weighted.l1LagrangeProx w x L lam i).getD 0 else none) = _
    rw [if_pos fun i => by rw [h1 i]; rfl]
    congr 1
    funext i
    rw [h1 i]; rfl
  · show ObjVal.ofTop (Weighted.l1Seminorm w x lam false) = _
    rw [(C23_l1_seminorm w hw x lam).1 hx false]
    rfl
  · exact topZero_convex w (smul_convex (l1_convex _ (wt_nonneg hw)) hl)

/-- **C90** The weighted `l1norm` with a bound stands for the constraint `Σ_i w_i |z_i| ≤ bound`, `z_i = 0` wherever the weight
is infinite, on `z = x - offset`, plus its quadratic.  Finite weights are 0 or at least `1e-20`. -/
theorem C90_weighted_l1_bound (w : Fin (p + 1) → WithTop ℝ) (hw : ∀ i (a : ℝ), w i = a → a = 0 ∨ 1 / 10 ^ 20 ≤ a)
    (sort : (Fin (p + 1) → ℝ) → List (ℝ × ℝ)) (hsort : ∀ x, IsDescArgsort (Weighted.keep w x) (sort x))
    (b : ℝ) (hb : 0 ≤ b) (hpos : 0 < b ∨ ∃ i, wt w i ≠ 0)
    (offset : Option (PyVec (Fin (p + 1)) ℝ)) (sq : Quad (Fin (p + 1)) ℝ) (hsq : 0 ≤ sq.coef) :
    IsAtomFor ((Weighted.l1cls w sort).atom (.bound b) offset sq)
      (shiftedPen (fun _ => 0) {z | z ∈ topZero w ∧ ∑ i, wt w i * |z i| ≤ b} offset sq) := by
  have hwa : ∀ i (a : ℝ), w i = a → 0 ≤ a := by
    intro i a h
    rcases hw i a h with h | h
    · rw [h]
    · exact le_trans (by positivity) h
  refine C90_seminorm_bound _ b _ (fun x => C23_l1_bound_prox w hw x hb hpos (sort x) (hsort x)) (fun x => ?_)
    (sublevel_convex (topZero_convex w (l1_convex _ (wt_nonneg hwa))) b) offset sq hsq
  show (if _ then ObjVal.num 0 else .inf) ≠ _
  split_ifs <;> exact fun h => by cases h

/-- **C90** `slope` with a Lagrange multiplier stands for `lam * max_π Σ_i w_i |z_π(i)|` of `z = x - offset`, plus its quadratic, for
decreasing positive weights, any correct isotonic regression routine and any order of ties. -/
theorem C90_slope (iso : (Fin (p + 1) → ℝ) → Option (Fin (p + 1) → ℝ)) (hiso : IsIsoRoutine iso)
    (arg : (Fin (p + 1) → ℝ) → Equiv.Perm (Fin (p + 1))) (harg : ∀ x : Fin (p + 1) → ℝ, Monotone fun i => |x (arg x i)|)
    (w : Fin (p + 1) → ℝ) (hw : Antitone w) (hw0 : ∀ i, 0 < w i) (lam : ℝ) (hl : 0 ≤ lam)
    (offset : Option (PyVec (Fin (p + 1)) ℝ)) (sq : Quad (Fin (p + 1)) ℝ) (hsq : 0 ≤ sq.coef) :
    ∃ h : (Fin (p + 1) → ℝ) → ℝ,
      (∀ z, IsGreatest {t | ∃ π : Equiv.Perm (Fin (p + 1)), t = lam * ∑ i, w i * |z (π i)|} (h z)) ∧
      IsAtomFor ((Slope.cls iso arg w).atom (.lagrange lam) offset sq) (shiftedPen h Set.univ offset sq) := by
  have hg := fun z => C20_seminorm_spec hw hw0 z hl
  refine ⟨fun z => Slope.seminorm w z lam, hg, C90_seminorm_lagrange _ lam _ _
    (fun x L hL => C20_lagrange_prox hiso hw hw0 x (arg x) (harg x) hL hl) (fun x _ => rfl) (fun x h => by cases h) ?_
    offset sq hsq⟩
  intro x _ y _ s t hs ht hst
  refine ⟨trivial, ?_⟩
  obtain ⟨⟨π, hπ⟩, -⟩ := hg fun i => s * x i + t * y i
  have hx := (hg x).2 ⟨π, rfl⟩
  have hy := (hg y).2 ⟨π, rfl⟩
  dsimp only
  rw [hπ]
  have h1 : lam * ∑ i, w i * |s * x (π i) + t * y (π i)| ≤
      s * (lam * ∑ i, w i * |x (π i)|) + t * (lam * ∑ i, w i * |y (π i)|) := by
    have := (smul_convex (l1_convex w fun i => (hw0 i).le) hl (fun i => x (π i)) trivial (fun i => y (π i)) trivial s t
      hs ht hst).2
    exact this
  refine le_trans h1 ?_
  have := mul_le_mul_of_nonneg_left hx hs
  have := mul_le_mul_of_nonneg_left hy ht
  linarith

/-- **C90** `nonnegative` stands for the constraint `x ≥ offset`, plus its quadratic. -/
theorem C90_nonnegative (offset : Option (PyVec (Fin (p + 1)) ℝ)) (sq : Quad (Fin (p + 1)) ℝ) (hsq : 0 ≤ sq.coef) :
    IsAtomFor (Cone.nonnegCls.atom offset sq) (shiftedPen (fun _ => 0) {z | ∀ i, 0 ≤ z i} offset sq) :=
  C90_cone _ _ (fun x => ⟨_, rfl, C16_nonnegative x⟩) (fun x => ofTop_ne _)
    (indicator_convex fun x hx y hy s t hs ht hst i => add_nonneg (mul_nonneg hs (hx i)) (mul_nonneg ht (hy i))) offset sq hsq

/-- **C90** `nonpositive` stands for the constraint `x ≤ offset`, plus its quadratic. -/
theorem C90_nonpositive (offset : Option (PyVec (Fin (p + 1)) ℝ)) (sq : Quad (Fin (p + 1)) ℝ) (hsq : 0 ≤ sq.coef) :
    IsAtomFor (Cone.nonposCls.atom offset sq) (shiftedPen (fun _ => 0) {z | ∀ i, z i ≤ 0} offset sq) :=
  C90_cone _ _ (fun x => ⟨_, rfl, C16_nonpositive x⟩) (fun x => ofTop_ne _)
    (indicator_convex fun x hx y hy s t hs ht hst i =>
      add_nonpos (mul_nonpos_of_nonneg_of_nonpos hs (hx i)) (mul_nonpos_of_nonneg_of_nonpos ht (hy i))) offset sq hsq

/-- **C90** `zero` stands for its quadratic alone. -/
theorem C90_zero (offset : Option (PyVec (Fin (p + 1)) ℝ)) (sq : Quad (Fin (p + 1)) ℝ) (hsq : 0 ≤ sq.coef) :
    IsAtomFor (Cone.zeroCls.atom offset sq) (shiftedPen (fun _ => 0) Set.univ offset sq) :=
  C90_cone _ _ (fun x => ⟨_, rfl, C16_zero x⟩) (fun x h => by cases h)
    (indicator_convex fun x hx y hy s t hs ht hst => trivial) offset sq hsq

/-- **C90** `zero_constraint` stands for the constraint `x = offset`, plus its quadratic. -/
theorem C90_zero_constraint (offset : Option (PyVec (Fin (p + 1)) ℝ)) (sq : Quad (Fin (p + 1)) ℝ) (hsq : 0 ≤ sq.coef) :
    IsAtomFor (Cone.zeroConstraintCls.atom offset sq) (shiftedPen (fun _ => 0) {z | ∀ i, z i = 0} offset sq) :=
  C90_cone _ _ (fun x => ⟨_, rfl, C16_zero_constraint x⟩) (fun x => ofTop_ne _)
    (indicator_convex fun x hx y hy s t hs ht hst i => by dsimp only; rw [hx i, hy i]; ring) offset sq hsq

/-- **C90** `projection` on the span of orthonormal rows stands for the constraint that `x - offset` is in that span, plus its
quadratic. -/
theorem C90_projection {k : ℕ} (basis : Fin k → Fin (p + 1) → ℝ) (hb : OrthonormalRows basis)
    (offset : Option (PyVec (Fin (p + 1)) ℝ)) (sq : Quad (Fin (p + 1)) ℝ) (hsq : 0 ≤ sq.coef) :
    IsAtomFor ((LinCon.projectionCls basis).atom offset sq) (shiftedPen (fun _ => 0) (rowSpan basis) offset sq) :=
  C90_cone _ _ (fun x => ⟨_, rfl, C61_projection hb x⟩) (fun x => ofTop_ne _)
    (indicator_convex fun x hx y hy s t hs ht hst => by
      obtain ⟨c, rfl⟩ := hx
      obtain ⟨d, rfl⟩ := hy
      refine ⟨fun a => s * c a + t * d a, ?_⟩
      funext i
      simp only [Finset.mul_sum, ← Finset.sum_add_distrib]
      exact Finset.sum_congr rfl fun a _ => by ring) offset sq hsq

/-- **C90** `projection_complement` stands for the constraint that `x - offset` is orthogonal to the rows, plus its quadratic. -/
theorem C90_projection_complement {k : ℕ} (basis : Fin k → Fin (p + 1) → ℝ) (hb : OrthonormalRows basis)
    (offset : Option (PyVec (Fin (p + 1)) ℝ)) (sq : Quad (Fin (p + 1)) ℝ) (hsq : 0 ≤ sq.coef) :
    IsAtomFor ((LinCon.complementCls basis).atom offset sq) (shiftedPen (fun _ => 0) (rowOrthogonal basis) offset sq) :=
  C90_cone _ _ (fun x => ⟨_, rfl, C61_complement hb x⟩) (fun x => ofTop_ne _)
    (indicator_convex fun x hx y hy s t hs ht hst a => by
      have h1 := hx a
      have h2 := hy a
      have e : ∑ i, basis a i * (s * x i + t * y i) = s * ∑ i, basis a i * x i + t * ∑ i, basis a i * y i := by
        rw [Finset.mul_sum, Finset.mul_sum, ← Finset.sum_add_distrib]
        exact Finset.sum_congr rfl fun i _ => by ring
      dsimp only
      rw [e, h1, h2]; ring) offset sq hsq

/-- **C90** `simplex` stands for the constraint that `x - offset` is a probability vector, plus its quadratic. -/
theorem C90_simplex (offset : Option (PyVec (Fin (p + 1)) ℝ)) (sq : Quad (Fin (p + 1)) ℝ) (hsq : 0 ≤ sq.coef) :
    IsAtomFor (Simplex.cls.atom offset sq) (shiftedPen (fun _ => 0) (simplexSet (p + 1)) offset sq) := by
  refine C90_cone _ _ (fun x => C18_simplex x) (fun x => ?_) (indicator_convex ?_) offset sq hsq
  · obtain ⟨z, hz, -⟩ := C18_simplex x
    show (match Simplex.constraint x with
      | some v => ObjVal.ofTop v
      | none => .nan) ≠ _
    unfold Simplex.constraint
    rw [hz]
    exact ofTop_ne _
  · rintro x ⟨hx1, hx2⟩ y ⟨hy1, hy2⟩ s t hs ht hst
    refine ⟨fun i => add_nonneg (mul_nonneg hs (hx1 i)) (mul_nonneg ht (hy1 i)), ?_⟩
    rw [Finset.sum_add_distrib, ← Finset.mul_sum, ← Finset.mul_sum, hx2, hy2, mul_one, mul_one, hst]

/-- **C90** `maximum` stands for the largest coordinate of `x - offset`, plus its quadratic. -/
theorem C90_maximum (offset : Option (PyVec (Fin (p + 1)) ℝ)) (sq : Quad (Fin (p + 1)) ℝ) (hsq : 0 ≤ sq.coef) :
    IsAtomFor (Maximum.atom offset sq) (shiftedPen (fun z => maxCoord z) Set.univ offset sq) := by
  let k : SeminormClass (p + 1) :=
    { seminorm := fun x _ _ => .num (Maximum.value x), constraint := fun _ _ => .nan
      lagrangeProx := fun x L _ => Maximum.basicProx x L, boundProx := fun _ _ => none }
  refine C90_seminorm_lagrange k 1 _ _ (fun x L hL => C18_maximum x L hL) (fun x _ => rfl) (fun x h => by cases h) ?_
    offset sq hsq
  intro x _ y _ s t hs ht hst
  refine ⟨trivial, maxCoord_le fun i => ?_⟩
  have := mul_le_mul_of_nonneg_left (le_maxCoord x i) hs
  have := mul_le_mul_of_nonneg_left (le_maxCoord y i) ht
  dsimp only
  linarith

/-- **C90** (partial) `mixed_lasso` without an offset and with a positive multiplier stands for
`lam * (Σ_l1 |z_i| + Σ_positive part z_i + Σ_g w_g ‖z[g]‖₂)` on the vectors whose positive part and nonnegative coordinates
are not negative, plus its quadratic.  Missing: an offset, which `nonsmooth_objective` applies twice
(`C90_mixed_lasso_offset_fails`), and the multiplier 0, where the proximal map may be nan (C56). -/
theorem C90_mixed_lasso_partial (κ : Fin (p + 1) → Kind q) (w : Fin q → ℝ) (hw : ∀ j, 0 ≤ w j) (lam : ℝ) (hl : 0 < lam)
    (sq : Quad (Fin (p + 1)) ℝ) (hsq : 0 ≤ sq.coef) :
    IsAtomFor (mixedLassoAtom κ w lam none sq) (shiftedPen (fun z => lam * mixedPenalty κ w z) (mixedDomain κ) none sq) := by
  let k : SeminormClass (p + 1) :=
    { seminorm := fun x l c => timesLagrange (mixedSeminorm κ w x c (1 / 10 ^ 5)) l, constraint := fun _ _ => .nan
      lagrangeProx := fun x L l =>
        if ∀ i, (mixedLagrangeProx κ w x L l i).isSome then some fun i => (mixedLagrangeProx κ w x L l i).getD 0 else none
      boundProx := fun _ _ => none }
  refine C90_seminorm_lagrange k lam _ _ (fun x L hL => ?_) (fun x hx => ?_) (fun x => ?_)
    (smul_convex (mixedPenalty_convex κ hw) hl.le) none sq hsq
  · obtain ⟨P, h1, h2⟩ := C56_lagrange_prox_partial κ w hw x hL hl.le (Or.inl hl)
    refine ⟨P, ?_, h2⟩
    show (if ∀ i, (mixedLagrangeProx κ w x L lam i).isSome then
      some fun i => (mixedLagrangeProx κ w x L lam i).getD 0 else none) = _
    rw [if_pos fun i => by rw [h1 i]; rfl]
    congr 1
    funext i
    rw [h1 i]; rfl
  · show timesLagrange (mixedSeminorm κ w x false (1 / 10 ^ 5)) lam = _
    rw [C56_seminorm κ w x hx]
    show ObjVal.num (mixedPenalty κ w x * lam) = _
    rw [mul_comm]
  · show timesLagrange _ lam ≠ _
    cases mixedSeminorm κ w x true (1 / 10 ^ 5) with
    | top =>
      show (if lam = 0 then ObjVal.nan else .inf) ≠ _
      rw [if_neg hl.ne']
      exact fun h => by cases h
    | coe v => exact fun h => by cases h

/-- **C90** Counterexample: `mixed_lasso` with an offset.  For one l1 coordinate, multiplier 1 and offset 1 the value reported
at `x = 1` is `1`, although the penalty of `x - offset = 0` is `0`. -/
theorem C90_mixed_lasso_offset_fails :
    ∃ (κ : Fin 1 → Kind 1) (w : Fin 1 → ℝ) (offset : Option (PyVec (Fin 1) ℝ)) (x : Fin 1 → ℝ),
      (∀ j, 0 ≤ w j) ∧ shiftedPen (fun z => 1 * mixedPenalty κ w z) (mixedDomain κ) offset (Quad.init none none none none) x = 0 ∧
      (mixedLassoAtom κ w 1 offset (Quad.init none none none none)).nonsmooth x false = .num 1 := by
  refine ⟨fun _ => .l1, fun _ => 1, some (.arr fun _ => 1), fun _ => 1, fun j => zero_le_one, ?_, ?_⟩
  · rw [pen_in (by intro i hi; rcases hi with h | h <;> cases h), init_val]
    simp [denote, mixedPenalty, kindNorm]
  · show (timesLagrange (mixedSeminorm _ _ (fun _ => (1 : ℝ) - 1 - 1) false (1 / 10 ^ 5)) 1).add (.num _) = _
    rw [C56_seminorm _ _ _ (by intro i hi; rcases hi with h | h <;> cases h), fv84, init_val]
    show ObjVal.num (mixedPenalty _ _ _ * 1 + 0) = _
    simp [mixedPenalty, kindNorm]

/-! ### separable -/

section
variable {bs : List (Σ g : Selector (p + 1), NonsmoothAtom g.len)}
  {pen : (b : Σ g : Selector (p + 1), NonsmoothAtom g.len) → (Fin b.1.len → ℝ) → WithTop ℝ}

private lemma loop_congr (Q : Quad (Fin (p + 1)) ℝ) (v : Fin (p + 1) → ℝ) :
    Separable.proxLoop Q (bs.map fun b => NonsmoothAtom.block b.1 b.2) v =
      Separable.proxLoop Q (bs.map fun b => (⟨b.1, pen b, b.2.proximal⟩ : Block (p + 1) ℝ)) v := by
  induction bs generalizing v with
  | nil => rfl
  | cons b bs ih =>
    rw [List.map_cons, List.map_cons, Separable.proxLoop, Separable.proxLoop]
    dsimp only [NonsmoothAtom.block]
    cases b.2.proximal (Q.restrict b.1) with
    | ok w => exact ih _
    | valueError => rfl
    | typeError => rfl
    | scalarArgument => rfl
    | baseError => rfl

private lemma loop_total (Q : Quad (Fin (p + 1)) ℝ) (h : ∀ b ∈ bs, ∃ w, b.2.proximal (Q.restrict b.1) = .ok w)
    (v : Fin (p + 1) → ℝ) : ∃ z, Separable.proxLoop Q (bs.map fun b => NonsmoothAtom.block b.1 b.2) v = .ok z := by
  induction bs generalizing v with
  | nil => exact ⟨v, rfl⟩
  | cons b bs ih =>
    obtain ⟨w, hw⟩ := h b List.mem_cons_self
    obtain ⟨z, hz⟩ := ih (fun d hd => h d (List.mem_cons_of_mem _ hd)) (b.1.put v w)
    refine ⟨z, ?_⟩
    rw [List.map_cons, Separable.proxLoop]
    have hw' : (b.2.block b.1).proximal (Q.restrict (b.2.block b.1).group) = .ok w := hw
    rw [hw']
    exact hz

private lemma fold_value {x : Fin (p + 1) → ℝ}
    (h : ∀ b ∈ bs, ∀ y (v : ℝ), pen b y = v → b.2.nonsmooth y false = .num v) (a v : ℝ)
    (hv : (bs.map fun b => pen b fun j => x (b.1.idx j)).sum = v) :
    bs.foldl (fun v b => v.add (b.2.nonsmooth (b.1.take x) false)) (ObjVal.num a) = .num (a + v) := by
  induction bs generalizing a v with
  | nil =>
    have : v = 0 := by
      rw [List.map_nil, List.sum_nil] at hv
      exact (WithTop.coe_inj.1 hv).symm
    rw [this, add_zero]; rfl
  | cons b bs ih =>
    rw [List.map_cons, List.sum_cons] at hv
    obtain ⟨v1, hv1⟩ := WithTop.ne_top_iff_exists.1 (show pen b (fun j => x (b.1.idx j)) ≠ ⊤ from fun e => by
      rw [e, WithTop.top_add] at hv; exact WithTop.coe_ne_top hv.symm)
    obtain ⟨v2, hv2⟩ := WithTop.ne_top_iff_exists.1
      (show (bs.map fun b => pen b fun j => x (b.1.idx j)).sum ≠ ⊤ from fun e => by
        rw [e, WithTop.add_top] at hv; exact WithTop.coe_ne_top hv.symm)
    rw [← hv1, ← hv2, ← WithTop.coe_add, WithTop.coe_inj] at hv
    have h1 : b.2.nonsmooth (b.1.take x) false = .num v1 := h b List.mem_cons_self _ _ hv1.symm
    rw [List.foldl_cons, h1]
    show bs.foldl _ (ObjVal.num (a + v1)) = _
    rw [ih (fun d hd => h d (List.mem_cons_of_mem _ hd)) (a + v1) v2 hv2.symm, ← hv, add_assoc]

private lemma fold_defined {x : Fin (p + 1) → ℝ} (h : ∀ b ∈ bs, ∀ y, b.2.nonsmooth y true ≠ .nan) (a : ObjVal) (ha : a ≠ .nan) :
    bs.foldl (fun v b => v.add (b.2.nonsmooth (b.1.take x) true)) a ≠ .nan := by
  induction bs generalizing a with
  | nil => exact ha
  | cons b bs ih =>
    rw [List.foldl_cons]
    refine ih (fun d hd => h d (List.mem_cons_of_mem _ hd)) _ ?_
    have h1 := h b List.mem_cons_self (b.1.take x)
    cases hb : b.2.nonsmooth (b.1.take x) true with
    | nan => exact absurd hb h1
    | num v => exact add_num_ne ha v
    | inf =>
      cases a with
      | nan => exact absurd rfl ha
      | num v => exact fun h => by cases h
      | inf => exact fun h => by cases h

private lemma sum_convex (h : ∀ b ∈ bs, ConvexTop (pen b)) :
    ConvexTop fun x : Fin (p + 1) → ℝ => (bs.map fun b => pen b fun j => x (b.1.idx j)).sum := by
  induction bs with
  | nil =>
    intro u v a b hu hv t ht ht1
    have ha : (0 : ℝ) = a := WithTop.coe_inj.1 hu
    have hb : (0 : ℝ) = b := WithTop.coe_inj.1 hv
    exact ⟨0, rfl, by rw [← ha, ← hb]; simp⟩
  | cons b bs ih =>
    intro u v a c hu hv t ht ht1
    have hsplit : ∀ (x : Fin (p + 1) → ℝ) (r : ℝ), (((b :: bs).map fun b => pen b fun j => x (b.1.idx j)).sum = ((r : ℝ) : WithTop ℝ)) →
        ∃ r1 r2 : ℝ, (pen b fun j => x (b.1.idx j)) = r1 ∧ (bs.map fun b => pen b fun j => x (b.1.idx j)).sum = r2 ∧ r1 + r2 = r := by
      intro x r hr
      rw [List.map_cons, List.sum_cons] at hr
      obtain ⟨v1, hv1⟩ := WithTop.ne_top_iff_exists.1 (show pen b (fun j => x (b.1.idx j)) ≠ ⊤ from fun e => by
        rw [e, WithTop.top_add] at hr; exact WithTop.coe_ne_top hr.symm)
      obtain ⟨v2, hv2⟩ := WithTop.ne_top_iff_exists.1
        (show (bs.map fun b => pen b fun j => x (b.1.idx j)).sum ≠ ⊤ from fun e => by
          rw [e, WithTop.add_top] at hr; exact WithTop.coe_ne_top hr.symm)
      rw [← hv1, ← hv2, ← WithTop.coe_add, WithTop.coe_inj] at hr
      exact ⟨v1, v2, hv1.symm, hv2.symm, hr⟩
    obtain ⟨u1, u2, hu1, hu2, hu3⟩ := hsplit u a hu
    obtain ⟨v1, v2, hv1, hv2, hv3⟩ := hsplit v c hv
    obtain ⟨c1, h1, h2⟩ := h b List.mem_cons_self _ _ u1 v1 hu1 hv1 t ht ht1
    obtain ⟨c2, h3, h4⟩ := ih (fun d hd => h d (List.mem_cons_of_mem _ hd)) u v u2 v2 hu2 hv2 t ht ht1
    refine ⟨c1 + c2, ?_, by rw [← hu3, ← hv3]; linarith⟩
    dsimp only at h3 ⊢
    rw [List.map_cons, List.sum_cons, h3, WithTop.coe_add]
    congr 1

end

/-- **C90** `separable` of atoms on disjoint groups: if every atom stands for a function of its group, the separable atom stands
for the sum of these functions over the groups (coordinates in no group are free). -/
theorem C90_separable (bs : List (Σ g : Selector (p + 1), NonsmoothAtom g.len))
    (pen : (b : Σ g : Selector (p + 1), NonsmoothAtom g.len) → (Fin b.1.len → ℝ) → WithTop ℝ)
    (hinj : ∀ b ∈ bs, Function.Injective b.1.idx) (hdisj : bs.Pairwise fun a b => SelectDisjoint a.1.idx b.1.idx)
    (hatoms : ∀ b ∈ bs, IsAtomFor b.2 (pen b)) :
    IsAtomFor (separableAtom bs) fun x => (bs.map fun b => pen b fun j => x (b.1.idx j)).sum := by
  refine ⟨fun Q z hQ hz => ?_, fun Q v hQ hv => ?_, fun x v hv => ?_, fun x => ?_, sum_convex fun b hb => (hatoms b hb).convex⟩
  · set bs' : List (Block (p + 1) ℝ) := bs.map fun b => (⟨b.1, pen b, b.2.proximal⟩ : Block (p + 1) ℝ) with hbs
    have hz' : (Separable.mk bs').proximal Q = .ok z := by
      rw [← hz]
      show _ = (Separable.mk (bs.map fun b => NonsmoothAtom.block b.1 b.2)).proximal Q
      unfold Separable.proximal
      cases coneProximal some none (⟨0, some (.scalar 0), some (.scalar 0), 0⟩ : Quad (Fin (p + 1)) ℝ) (some Q) with
      | ok v => exact (loop_congr Q v).symm
      | valueError => rfl
      | typeError => rfl
      | scalarArgument => rfl
      | baseError => rfl
    have hd : GroupsDisjoint bs' := by
      refine ⟨fun b hb => ?_, ?_⟩
      · obtain ⟨d, hd, rfl⟩ := List.mem_map.1 hb
        exact hinj d hd
      · rw [hbs, List.pairwise_map]
        exact hdisj
    have := C37_proximal (Separable.mk bs') hd (fun b => b.nonsmooth) (fun b hb => by
      obtain ⟨d, hd, rfl⟩ := List.mem_map.1 hb
      exact fun Q z hQ hz => (hatoms d hd).solves Q z hQ hz) Q hQ z hz'
    simp only [hbs, List.map_map] at this
    exact this
  · obtain ⟨v0, hv0⟩ := prox_total (fun _ _ _ => none) (fun a _ => some a) (.bound 0) (fun arg L _ => ⟨arg, rfl⟩) none
      (⟨0, some (.scalar 0), some (.scalar 0), 0⟩ : Quad (Fin (p + 1)) ℝ) Q v hv (by simpa using hQ)
    have hv0' : coneProximal some none (⟨0, some (.scalar 0), some (.scalar 0), 0⟩ : Quad (Fin (p + 1)) ℝ) (some Q) = .ok v0 := hv0
    obtain ⟨z, hz⟩ := loop_total (bs := bs) Q (fun b hb => (hatoms b hb).total (Q.restrict b.1) (b.1.take v) hQ (by
      unfold Quad.restrict
      dsimp only
      rw [hv])) v0
    refine ⟨z, ?_⟩
    show (Separable.mk (bs.map fun b => NonsmoothAtom.block b.1 b.2)).proximal Q = _
    unfold Separable.proximal
    rw [hv0']
    exact hz
  · show bs.foldl _ (ObjVal.num 0) = _
    rw [fold_value (pen := pen) (fun b hb => (hatoms b hb).value) 0 v hv, zero_add]
  · exact fold_defined (fun b hb => (hatoms b hb).defined) _ (fun h => by cases h)

/-! ### concrete cases -/

/-- a regression with a group lasso penalty and an offset: for every design and response the hypotheses of `C90_objective`,
`C90_certificate` and `C90_returns` hold, and `solve` with default settings answers -/
example (X : Fin n → Fin 3 → ℝ) (y : Fin n → ℝ) (x0 o : Fin 3 → ℝ) (sort : (Fin 3 → ℝ) → List (ℝ × ℝ)) :
    let A := (GroupLasso.cls (![0, 0, 1] : Fin 3 → Fin 2) ![2, 1] sort).atom (.lagrange 3) (some (.arr o))
      (Quad.init (some 1) none none none)
    let pen := shiftedPen (fun z => 3 * groupNorm (![0, 0, 1] : Fin 3 → Fin 2) ![2, 1] z) Set.univ (some (.arr o))
      (Quad.init (some 1) none none none)
    ∃ G, AtomSetup X (.gaussian y) 1 none none none none A pen G ∧
      ∃ N, ∀ fuel, N < fuel → ∃ c v hist, ((SimpleProblem.withAtom G none A x0).solve none {} 0 fuel).1 = .ok c v hist := by
  intro A pen
  obtain ⟨G, hG⟩ := build_ok X (.gaussian y) (fun h => h) zero_le_one none none none (fun _ h => by cases h)
  have hs : AtomSetup X (.gaussian y) 1 none none none none A pen G :=
    ⟨hG, C90_group_lasso _ _ (fun j => by fin_cases j <;> simp) sort 3 (by norm_num) _ _ (by show (0:ℝ) ≤ 1; norm_num), le_rfl⟩
  obtain ⟨N, hN⟩ := C90_returns _ _ _ _ _ _ _ _ _ _ hs 1 rfl x0 {} rfl (by show (1:ℝ) < 11 / 10; norm_num)
    (by show (0:ℝ) < 1; norm_num) 0
  exact ⟨G, hs, N, fun fuel hfu => by obtain ⟨c, v, hist, h, _⟩ := hN fuel hfu; exact ⟨c, _, hist, h⟩⟩

/-- one observation `1`, design `(1, 0)`, group lasso with multiplier 2: `0` is the solution, so the hypotheses of `C90_rate` and
`C90_keeps_solution` hold together -/
example (sort : (Fin 2 → ℝ) → List (ℝ × ℝ)) :
    let X : Fin 1 → Fin 2 → ℝ := fun _ => ![1, 0]
    let A := (GroupLasso.cls (fun _ => 0 : Fin 2 → Fin 1) (fun _ => 1) sort).atom (.lagrange 2) none (Quad.init none none none none)
    let pen := shiftedPen (fun z => 2 * groupNorm (fun _ => 0 : Fin 2 → Fin 1) (fun _ => 1) z) Set.univ none
      (Quad.init none none none none)
    ∃ G, AtomSetup X (.gaussian fun _ => 1) 1 none none none none A pen G ∧
      IsMinTop (penalisedLoss X (.gaussian fun _ => 1) 1 none none none none pen) (fun _ => 0) ∧
      A.nonsmooth (fun _ => 0) true = A.nonsmooth (fun _ => 0) false := by
  intro X A pen
  obtain ⟨G, hG⟩ := build_ok X (.gaussian fun _ => 1) (fun h => h) zero_le_one none none none (fun _ h => by cases h)
  refine ⟨G, ⟨hG, C90_group_lasso _ _ (fun j => zero_le_one) sort 2 (by norm_num) _ _ le_rfl, le_rfl⟩, ?_, rfl⟩
  have hv : ∀ β : Fin 2 → ℝ, penalisedLoss X (.gaussian fun _ => 1) 1 none none none none pen β =
      ((2 * Real.sqrt (β 0 ^ 2 + β 1 ^ 2) + (β 0 - 1) ^ 2 / 2 : ℝ) : WithTop ℝ) := by
    intro β
    unfold penalisedLoss
    rw [show pen β = _ from pen_in (Set.mem_univ _), ← WithTop.coe_add, init_val]
    congr 1
    simp [groupNorm, blockNorm, denote, regressionLoss, caseLoss, gaussianNll, effOffset, X, quadVal, Fin.sum_univ_two]
  refine ⟨by rw [hv]; exact WithTop.coe_ne_top, fun β => ?_⟩
  rw [hv, hv, WithTop.coe_le_coe]
  have h1 : |β 0| ≤ Real.sqrt (β 0 ^ 2 + β 1 ^ 2) := by
    rw [← Real.sqrt_sq_eq_abs]
    exact Real.sqrt_le_sqrt (by nlinarith [sq_nonneg (β 1)])
  have h2 := le_abs_self (β 0)
  have h3 := abs_nonneg (β 0)
  simp only [ne_eq, OfNat.ofNat_ne_zero, not_false_eq_true, zero_pow, add_zero, Real.sqrt_zero, mul_zero, zero_sub]
  nlinarith [sq_nonneg (β 0)]

/-- hypotheses of the remaining atoms: a simplex constraint on two coordinates and a group lasso on two others of five, through
`separable` -/
example (sort : (Fin 2 → ℝ) → List (ℝ × ℝ)) :
    let zeroQ : Quad (Fin 2) ℝ := Quad.init none none none none
    let g1 : Selector 5 := ⟨2, ![0, 3]⟩
    let g2 : Selector 5 := ⟨2, ![1, 4]⟩
    let bs : List (Σ g : Selector 5, NonsmoothAtom g.len) :=
      [⟨g1, (Simplex.cls (m := 2)).atom none zeroQ⟩,
       ⟨g2, (GroupLasso.cls (m := 2) (fun _ => 0 : Fin 2 → Fin 1) (fun _ => 1) sort).atom (.lagrange 2) none zeroQ⟩]
    ∃ pen : (b : Σ g : Selector 5, NonsmoothAtom g.len) → (Fin b.1.len → ℝ) → WithTop ℝ, (∀ b ∈ bs, Function.Injective b.1.idx) ∧ (bs.Pairwise fun a b => SelectDisjoint a.1.idx b.1.idx) ∧
      (∀ b ∈ bs, IsAtomFor b.2 (pen b)) ∧ IsAtomFor (separableAtom bs) fun x => (bs.map fun b => pen b fun j => x (b.1.idx j)).sum := by
  intro zeroQ g1 g2 bs
  classical
  have h1 : IsAtomFor ((Simplex.cls (m := 2)).atom none zeroQ) (shiftedPen (fun _ => 0) (simplexSet 2) none zeroQ) :=
    C90_simplex (p := 1) none zeroQ le_rfl
  have h2 : IsAtomFor ((GroupLasso.cls (m := 2) (fun _ => 0 : Fin 2 → Fin 1) (fun _ => 1) sort).atom (.lagrange 2) none zeroQ)
      (shiftedPen (fun z => 2 * groupNorm (fun _ => 0 : Fin 2 → Fin 1) (fun _ => 1) z) Set.univ none zeroQ) :=
    C90_group_lasso (p := 1) _ _ (fun j => zero_le_one) sort 2 (by norm_num) none zeroQ le_rfl
  have hex : ∀ b ∈ bs, ∃ f, IsAtomFor b.2 f := by
    intro b hb
    rcases List.mem_cons.1 hb with rfl | hb
    · exact ⟨_, h1⟩
    · rw [List.mem_singleton.1 hb]; exact ⟨_, h2⟩
  let pen : (b : Σ g : Selector 5, NonsmoothAtom g.len) → (Fin b.1.len → ℝ) → WithTop ℝ :=
    fun b => if h : ∃ f, IsAtomFor b.2 f then h.choose else fun _ => 0
  have hpen : ∀ b ∈ bs, IsAtomFor b.2 (pen b) := by
    intro b hb
    have h := hex b hb
    show IsAtomFor b.2 (if h : ∃ f, IsAtomFor b.2 f then h.choose else fun _ => 0)
    rw [dif_pos h]
    exact h.choose_spec
  have hinj : ∀ b ∈ bs, Function.Injective b.1.idx := by
    intro b hb
    rcases List.mem_cons.1 hb with rfl | hb
    · show Function.Injective (![0, 3] : Fin 2 → Fin 5)
      decide
    · rw [List.mem_singleton.1 hb]
      show Function.Injective (![1, 4] : Fin 2 → Fin 5)
      decide
  have hdis : bs.Pairwise fun a b => SelectDisjoint a.1.idx b.1.idx := by
    refine List.pairwise_cons.2 ⟨fun b hb => ?_, List.pairwise_singleton _ _⟩
    rw [List.mem_singleton.1 hb]
    show ∀ (i j : Fin 2), (![0, 3] : Fin 2 → Fin 5) i ≠ (![1, 4] : Fin 2 → Fin 5) j
    decide
  exact ⟨pen, hinj, hdis, hpen, C90_separable bs pen hinj hdis hpen⟩

/-- hypotheses of the slope, weighted and mixed atoms -/
example : (∃ sort : (Fin 3 → ℝ) → List (ℝ × ℝ), ∀ x, IsDescArgsort (GroupLasso.knotInput (![0, 0, 1] : Fin 3 → Fin 2) ![2, 0] x) (sort x)) ∧
    (∃ sort : (Fin 2 → ℝ) → List (ℝ × ℝ), ∀ x, IsDescArgsort (Weighted.keep ![((2:ℝ) : WithTop ℝ), ⊤] x) (sort x)) ∧
    (∃ arg : (Fin 3 → ℝ) → Equiv.Perm (Fin 3), ∀ x : Fin 3 → ℝ, Monotone fun i => |x (arg x i)|) ∧
    IsIsoRoutine (K := ℝ) (n := 3) (Slope.isoPy 4) ∧ Antitone (![3, 2, 1] : Fin 3 → ℝ) ∧ (∀ i, 0 < (![3, 2, 1] : Fin 3 → ℝ) i) := by
  refine ⟨⟨_, fun x => (exists_argsort _).choose_spec⟩, ⟨_, fun x => (exists_argsort _).choose_spec⟩,
    ⟨fun x => Tuple.sort fun j => |x j|, fun x => Tuple.monotone_sort fun j => |x j|⟩, C20_isoPy 4 (by norm_num), ?_, ?_⟩
  · intro i j hij
    fin_cases i <;> fin_cases j <;> first | (exfalso; revert hij; decide) | norm_num
  · intro i; fin_cases i <;> norm_num

end Verif.Props
