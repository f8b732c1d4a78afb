import Verif.Model.EpiCone
import Verif.Props.C101_Cones
import Verif.Props.C21_Labels
import Verif.Props.C21_Group
import Verif.Props.C55_GroupCones
import Verif.Props.C60_SvdCones
import Verif.Lemmas.SvdExists

/-!
# C103: epigraph cones of the group LASSO and of the matrix norms, as objects

The eight classes of `group_lasso.py` and `svd_norms.py`, built from labels and weights or from a matrix shape, with offset and
quadratic, alone or composed with a linear transform: values, conjugates, proximal maps, duals, constrained problems.  What the
classes of a module must satisfy is `IsEpiFamily`; both modules do.
-/

set_option linter.unusedSectionVars false
set_option linter.unusedVariables false

namespace Verif.Props
open Verif.Model Verif.Lemmas Verif.Spec

variable {m n k p : ℕ} {Args : Type}

/-- Specification: the cones of the group LASSO with labels `lab` and weights `d`; the last coordinate is the bound. -/
def groupConeOf (lab : Fin (p + 1) → ℤ) (d : ℤ → Option ℝ) : EpiKlass → Set (Fin (p + 1 + 1) → ℝ)
  | .epi => {x | labelNorm lab d (fun i => x i.castSucc) ≤ x (Fin.last (p + 1))}
  | .epiPolar => {x | ∀ g ∈ Finset.univ.image lab,
      Real.sqrt (∑ i ∈ Finset.univ.filter fun i => lab i = g, x i.castSucc ^ 2) ≤ -x (Fin.last (p + 1)) * labelWeight lab d g}
  | .dualEpi => {x | ∀ g ∈ Finset.univ.image lab,
      Real.sqrt (∑ i ∈ Finset.univ.filter fun i => lab i = g, x i.castSucc ^ 2) ≤ x (Fin.last (p + 1)) * labelWeight lab d g}
  | .dualEpiPolar => {x | labelNorm lab d (fun i => x i.castSucc) ≤ -x (Fin.last (p + 1))}

/-- Specification: the cones of the nuclear norm and of the operator norm of `n × p` matrices stored row by row. -/
def svdConeOf (n p : ℕ) : EpiKlass → Set (Fin (n * p + 1) → ℝ)
  | .epi => {x | nucNorm (fun ij : Fin n × Fin p => x (finProdFinEquiv ij).castSucc) ≤ x (Fin.last (n * p))}
  | .epiPolar => {x | opNorm (fun ij : Fin n × Fin p => x (finProdFinEquiv ij).castSucc) ≤ -x (Fin.last (n * p))}
  | .dualEpi => {x | opNorm (fun ij : Fin n × Fin p => x (finProdFinEquiv ij).castSucc) ≤ x (Fin.last (n * p))}
  | .dualEpiPolar => {x | nucNorm (fun ij : Fin n × Fin p => x (finProdFinEquiv ij).castSucc) ≤ -x (Fin.last (n * p))}

/-- Specification: `0` on the set translated by `α`, `+∞` elsewhere, plus `⟨l, z⟩ + c0`. -/
noncomputable def setFn (C : Set (Fin (k + 1) → ℝ)) (α l : Fin (k + 1) → ℝ) (c0 : ℝ) (z : Fin (k + 1) → ℝ) : WithTop ℝ := by
  classical
  exact (if (fun i => z i - α i) ∈ C then 0 else ⊤) + ((dot l z + c0 : ℝ) : WithTop ℝ)

/-- What is required of the four classes of a module, for the arguments stored in an object: conjugate classes are polar to each
other; members of the cone pass the feasibility test, whose value is 0 or infinite; `cone_prox` projects; and the arguments
stored in an object are left as they are when they are handed to the constructor again. -/
structure IsEpiFamily (F : EpiFamily Args k) (args : Args) (S : EpiKlass → Set (Fin (k + 1) → ℝ)) : Prop where
  stored : F.ctor args = args
  polar : ∀ c u, u ∈ S (EpiKlass.conj c) ↔ ∀ v ∈ S c, dot u v ≤ 0
  accepts : ∀ c x, x ∈ S c → F.constraint args c x = 0
  zeroOrTop : ∀ c x, F.constraint args c x = 0 ∨ F.constraint args c x = ⊤
  projects : ∀ c x, ∃ y, F.coneProx args c x = some y ∧ IsProj (S c) x y

/-- what passes the feasibility test of class `c` becomes a member of the cone when the bound, its last coordinate, is changed
by a factor `1 + 10⁻⁵` -/
def SharpTest (F : EpiFamily Args k) (args : Args) (S : EpiKlass → Set (Fin (k + 1) → ℝ)) (c : EpiKlass) : Prop :=
  ∀ x, F.constraint args c x ≠ ⊤ → (joinLast (fun i => x i.castSucc, (1 + 1 / 10 ^ 5) * x (Fin.last k))) ∈ S c

/-- The function denoted by a cone object whose quadratic has coefficient zero. -/
noncomputable def denoteEpi (S : EpiKlass → Set (Fin (k + 1) → ℝ)) (a : EpiCone Args k) : (Fin (k + 1) → ℝ) → WithTop ℝ :=
  setFn (S a.klass) (offAt a.offset) (linearAt a.quad) a.quad.const

/-! ### polarity -/

private lemma cc (c : EpiKlass) : c.conj.conj = c := by cases c <;> rfl

private lemma dot_neg_left (u v : Fin (k + 1) → ℝ) : dot (fun i => -u i) v = -dot u v := by
  unfold dot; rw [← Finset.sum_neg_distrib]; exact Finset.sum_congr rfl fun i _ => by ring

private lemma dot_neg_right (u v : Fin (k + 1) → ℝ) : dot u (fun i => -v i) = -dot u v := by
  unfold dot; rw [← Finset.sum_neg_distrib]; exact Finset.sum_congr rfl fun i _ => by ring

private lemma polar_all {S : EpiKlass → Set (Fin (k + 1) → ℝ)}
    (h1 : ∀ u, u ∈ S .epiPolar ↔ ∀ v ∈ S .epi, dot u v ≤ 0)
    (h2 : ∀ u, u ∈ S .epi ↔ ∀ v ∈ S .epiPolar, dot u v ≤ 0)
    (h3 : ∀ u, u ∈ S .dualEpi ↔ (fun i => -u i) ∈ S .epiPolar)
    (h4 : ∀ u, u ∈ S .dualEpiPolar ↔ (fun i => -u i) ∈ S .epi) (c : EpiKlass) (u : Fin (k + 1) → ℝ) :
    u ∈ S c.conj ↔ ∀ v ∈ S c, dot u v ≤ 0 := by
  have nn : ∀ v : Fin (k + 1) → ℝ, (fun i => -(fun i => -v i) i) = v := fun v => by funext i; simp
  cases c with
  | epi => exact h1 u
  | epiPolar => exact h2 u
  | dualEpi =>
    show u ∈ S .dualEpiPolar ↔ _
    rw [h4, h2]
    refine ⟨fun h v hv => ?_, fun h v hv => ?_⟩
    · have := h _ ((h3 v).1 hv); rw [dot_neg_left, dot_neg_right] at this; linarith
    · have := h (fun i => -v i) ((h3 _).2 (by rw [nn]; exact hv)); rw [dot_neg_right] at this
      rw [dot_neg_left]; exact this
  | dualEpiPolar =>
    show u ∈ S .dualEpi ↔ _
    rw [h3, h1]
    refine ⟨fun h v hv => ?_, fun h v hv => ?_⟩
    · have := h _ ((h4 v).1 hv); rw [dot_neg_left, dot_neg_right] at this; linarith
    · have := h (fun i => -v i) ((h4 _).2 (by rw [nn]; exact hv)); rw [dot_neg_right] at this
      rw [dot_neg_left]; exact this

section polar
variable {C P : Set (Fin (k + 1) → ℝ)} (hP : ∀ u, u ∈ C ↔ ∀ v ∈ P, dot u v ≤ 0)
include hP

private lemma pol_zero : (fun _ => (0:ℝ)) ∈ C := (hP _).2 fun v _ => by simp [dot]

private lemma pol_smul {v : Fin (k + 1) → ℝ} (hv : v ∈ C) {t : ℝ} (ht : 0 ≤ t) : (fun i => t * v i) ∈ C :=
  (hP _).2 fun w hw => by
    have : dot (fun i => t * v i) w = t * dot v w := by
      unfold dot; rw [Finset.mul_sum]; exact Finset.sum_congr rfl fun i _ => by ring
    rw [this]; exact mul_nonpos_of_nonneg_of_nonpos ht ((hP v).1 hv w hw)

private lemma pol_add {u v : Fin (k + 1) → ℝ} (hu : u ∈ C) (hv : v ∈ C) : (fun i => u i + v i) ∈ C :=
  (hP _).2 fun w hw => by
    have : dot (fun i => u i + v i) w = dot u w + dot v w := by
      unfold dot; rw [← Finset.sum_add_distrib]; exact Finset.sum_congr rfl fun i _ => by ring
    rw [this]; have := (hP u).1 hu w hw; have := (hP v).1 hv w hw; linarith

end polar

open Classical in
private lemma pol_support {C P : Set (Fin (k + 1) → ℝ)} (hC : ∀ u, u ∈ C ↔ ∀ v ∈ P, dot u v ≤ 0)
    (hP : ∀ u, u ∈ P ↔ ∀ v ∈ C, dot u v ≤ 0) : IsSupportFn C (fun u => if u ∈ P then (0 : WithTop ℝ) else ⊤) := by
  intro u
  dsimp only
  by_cases hu : u ∈ P
  · rw [if_pos hu]
    refine ⟨fun v hv => ?_, fun h => absurd h (by simp)⟩
    have hv0 : (0 : ℝ) = v := by exact_mod_cast hv
    subst hv0
    refine ⟨⟨fun _ => 0, pol_zero hC, by simp [dot]⟩, ?_⟩
    rintro _ ⟨y, hy, rfl⟩
    exact (hP u).1 hu y hy
  · rw [if_neg hu]
    refine ⟨fun v hv => absurd hv.symm WithTop.coe_ne_top, fun _ hb => ?_⟩
    rw [hP] at hu
    push Not at hu
    obtain ⟨y, hy, hpos⟩ := hu
    obtain ⟨B, hB⟩ := hb
    have h0 : 0 ≤ B := by
      have := hB ⟨fun _ => 0, pol_zero hC, rfl⟩
      simpa [dot] using this
    have h1 := hB ⟨fun i => ((B + 1) / dot u y) * y i, pol_smul hC hy (by positivity), rfl⟩
    have h2 : dot u (fun i => ((B + 1) / dot u y) * y i) = B + 1 := by
      have : dot u (fun i => ((B + 1) / dot u y) * y i) = (B + 1) / dot u y * dot u y := by
        conv_rhs => rw [dot]
        unfold dot; rw [Finset.mul_sum]; exact Finset.sum_congr rfl fun i _ => by ring
      rw [this]; field_simp
    simp only [h2] at h1
    linarith

private lemma setFn_conj {C P : Set (Fin (k + 1) → ℝ)} (hC : ∀ u, u ∈ C ↔ ∀ v ∈ P, dot u v ≤ 0)
    (hP : ∀ u, u ∈ P ↔ ∀ v ∈ C, dot u v ≤ 0) (α l : Fin (k + 1) → ℝ) (c0 : ℝ) :
    IsConjugate (setFn C α l c0) (setFn P l α (-c0 - dot α l)) := by
  classical
  have h := conj_ind (pol_support hC hP) α l c0
  have e1 : setFn C α l c0 = fun x => (if (fun i => x i - α i) ∈ C then (0 : WithTop ℝ) else ⊤) +
      ((dot l x + c0 : ℝ) : WithTop ℝ) := by
    funext x; unfold setFn; congr
  have e2 : setFn P l α (-c0 - dot α l) = fun y => (if (fun i => y i - l i) ∈ P then (0 : WithTop ℝ) else ⊤) +
      ((dot α y + (-c0 - dot α l) : ℝ) : WithTop ℝ) := by
    funext x; unfold setFn; congr
  rw [e1, e2]
  convert h using 3

private lemma setFn_convex {C P : Set (Fin (k + 1) → ℝ)} (hC : ∀ u, u ∈ C ↔ ∀ v ∈ P, dot u v ≤ 0)
    (α l : Fin (k + 1) → ℝ) (c0 : ℝ) : ConvexTop (setFn C α l c0) := by
  classical
  intro u v x y hu hv t ht ht1
  have mem : ∀ (w : Fin (k + 1) → ℝ) (r : ℝ), setFn C α l c0 w = ((r : ℝ) : WithTop ℝ) →
      (fun i => w i - α i) ∈ C ∧ dot l w + c0 = r := by
    intro w r hw
    unfold setFn at hw
    by_cases h : (fun i => w i - α i) ∈ C
    · rw [if_pos h, zero_add] at hw; exact ⟨h, WithTop.coe_inj.1 hw⟩
    · rw [if_neg h, WithTop.top_add] at hw; exact absurd hw.symm WithTop.coe_ne_top
  obtain ⟨hu1, hu2⟩ := mem u x hu
  obtain ⟨hv1, hv2⟩ := mem v y hv
  refine ⟨(1 - t) * x + t * y, ?_, le_refl _⟩
  have hm : (fun i => ((1 - t) * u i + t * v i) - α i) ∈ C := by
    have := pol_add hC (pol_smul hC hu1 (sub_nonneg.2 ht1)) (pol_smul hC hv1 ht)
    convert this using 1
    funext i; ring
  unfold setFn
  rw [if_pos hm, zero_add, ← hu2, ← hv2]
  congr 1
  unfold dot
  rw [mul_add, mul_add, Finset.mul_sum, Finset.mul_sum]
  have : ∑ i, l i * ((1 - t) * u i + t * v i) = ∑ i, (1 - t) * (l i * u i) + ∑ i, t * (l i * v i) := by
    rw [← Finset.sum_add_distrib]; exact Finset.sum_congr rfl fun i _ => by ring
  rw [this]; ring

private lemma quadVal_zero (q : Quad (Fin (k + 1)) ℝ) (hq : q.coef = 0) (u : Fin (k + 1) → ℝ) :
    quadVal (some q) u = dot (linearAt q) u + q.const := by
  have e : denote q.linear = linearAt q := by
    funext i; unfold denote linearAt; rcases q.linear with _ | (c | c) <;> rfl
  unfold quadVal quadFn
  simp only [hq, e]
  unfold dot
  ring

private lemma funcVal_quad (q : Quad (Fin (k + 1)) ℝ) (z : Fin (k + 1) → ℝ) : q.funcVal z = quadVal (some q) z := by
  have h := C14_objective_func (some q.coef) q.center q.linear (some q.const) z
  have e : Quad.init (some q.coef) q.center q.linear (some q.const) = q := rfl
  rw [e] at h
  unfold Quad.objective at h
  simpa [quadVal] using h

/-! ### objects -/

private lemma obj_eq (F : EpiFamily Args k) (a : EpiCone Args k) (x : Fin (k + 1) → ℝ) (cf : Bool) :
    F.nonsmoothObjective a x cf = (if cf then F.constraint a.args a.klass (fun i => x i - offAt a.offset i) else 0) +
      ((quadVal (some a.quad) x : ℝ) : WithTop ℝ) := by
  obtain ⟨c, ar, o, q⟩ := a
  rw [← funcVal_quad]
  cases o with
  | none =>
    have : (fun i => x i - offAt (none : Option (PyVec (Fin (k + 1)) ℝ)) i) = x := by funext i; simp [offAt]
    dsimp only
    rw [this]
    rfl
  | some o => rfl

section objects
variable {F : EpiFamily Args k} {S : EpiKlass → Set (Fin (k + 1) → ℝ)} {a : EpiCone Args k} (hF : IsEpiFamily F a.args S)
/-- **C103** as written, `affine_cone(a, affine_transform(D, α))` adds `α` to the offset of a copy of `a`, whose offset `β` is an
array or absent: its checked value at `x` is the test of the cone at `D x - β - α` plus the quadratic at `D x`, its unchecked value
is the quadratic at `D x`. -/
theorem C103_constructor_subtracts (c : EpiKlass) (args : Args) (hs : F.ctor args = args) (β : Option (Fin (k + 1) → ℝ))
    (q : Option (Quad (Fin (k + 1)) ℝ)) (D : Fin (k + 1) → Fin m → ℝ) (α : Fin (k + 1) → ℝ) :
    ∃ A, F.affine (F.new c args (β.map .arr) q) (.matrix D (some α)) = some A ∧ ∀ x : Fin m → ℝ,
      F.affineObjective A x false = ((quadVal q (fun i => ∑ j, D i j * x j) : ℝ) : WithTop ℝ) ∧
      F.affineObjective A x true = F.constraint args c (fun i => ∑ j, D i j * x j - (β.elim 0 id) i - α i) +
        ((quadVal q (fun i => ∑ j, D i j * x j) : ℝ) : WithTop ℝ) := by
  obtain ⟨o, ho, hoff⟩ : ∃ o, addAtomOffset (F.copy (F.new c args (β.map .arr) q)).offset α = some o ∧
      ∀ i, offAt o i = (β.elim 0 id) i + α i := by
    show ∃ o, addAtomOffset (ctorOffset (ctorOffset (β.map .arr))) α = some o ∧ _
    cases β with
    | none =>
      refine ⟨_, rfl, fun i => ?_⟩
      rw [offAt_ctor]; simp [offAt, PyVec.get]
    | some b =>
      by_cases h : (PyVec.arr b : PyVec (Fin (k + 1)) ℝ).allZero
      · have e : ctorOffset (some (.arr b)) = (none : Option (PyVec (Fin (k + 1)) ℝ)) := by simp [ctorOffset, h]
        have hb : offAt (some (PyVec.arr b)) = offAt (none : Option (PyVec (Fin (k + 1)) ℝ)) := by rw [← e, offAt_ctor]
        refine ⟨ctorOffset (some (.arr α)), by simp only [Option.map_some]; rw [e]; rfl, fun i => ?_⟩
        have h0 : b i = 0 := congrFun hb i
        rw [offAt_ctor]
        show α i = b i + α i
        rw [h0, zero_add]
      · have e : ctorOffset (some (.arr b)) = some (PyVec.arr b) := by simp [ctorOffset, h]
        exact ⟨some (.arr fun i => b i + α i), by simp only [Option.map_some]; rw [e, e]; rfl, fun i => rfl⟩
  refine ⟨⟨{ F.copy (F.new c args (β.map .arr) q) with offset := o }, .matrix D none⟩, ?_, fun x => ?_⟩
  · unfold EpiFamily.affine
    simp only [Aff.off, Aff.meth, Aff.Off.ofOption, ho, Aff.linearPart]
  · have hqv : quadVal (some (F.copy (F.new c args (β.map .arr) q)).quad) (fun i => ∑ j, D i j * x j) =
        quadVal q (fun i => ∑ j, D i j * x j) := by
      cases q with
      | none =>
        show quadVal (some (⟨0, some (.scalar 0), some (.scalar 0), 0⟩ : Quad (Fin (k + 1)) ℝ)) _ = 0
        rw [quadVal_zero _ rfl]; simp [dot, linearAt, PyVec.get]
      | some q => rfl
    have hl : (Aff.matrix D none : Aff ℝ m (k + 1)).lin x = fun i => ∑ j, D i j * x j := rfl
    have hsh : (fun i => ∑ j, D i j * x j - offAt o i) = fun i => ∑ j, D i j * x j - (β.elim 0 id) i - α i := by
      funext i; rw [hoff]; ring
    have hargs : (F.copy (F.new c args (β.map .arr) q)).args = args := by
      show F.ctor (F.ctor args) = args; rw [hs, hs]
    unfold EpiFamily.affineObjective
    dsimp only
    refine ⟨?_, ?_⟩
    · rw [obj_eq, hl]
      dsimp only
      rw [hqv]; simp
    · rw [obj_eq, hl]
      dsimp only
      rw [hqv, hsh, hargs]; rfl

/-- for groups with weights the arguments are stored as given -/
example (lab : Fin 3 → ℤ) (sort : List (ℝ × ℝ) → List (ℝ × ℝ)) :
    (groupFamily 2 sort).ctor ⟨lab, fun _ => some 1⟩ = ⟨lab, fun _ => some 1⟩ := by
  have : Penalty.groupDict lab (fun _ => some 1) = fun _ => some (1 : ℝ) := by funext g; simp [Penalty.groupDict]
  simp [groupFamily, this]

include hF

private lemma IsEpiFamily.polar' (c : EpiKlass) (u : Fin (k + 1) → ℝ) : u ∈ S c ↔ ∀ v ∈ S c.conj, dot u v ≤ 0 := by
  have := hF.polar c.conj u; rwa [cc] at this

/-- **C103** values of an object and of its compositions: `affine_cone(a, D)` with a linear map `D` exists and at `x` its
checked value is `q(D x)` if `D x - offset` is in the cone; otherwise it is `q(D x)` or infinite, and where the test is sharp
a finite value means that `D x - offset` with its bound multiplied by `1 + 10⁻⁵` is in the cone; the unchecked value is always
`q(D x)`. -/
theorem C103_values (T : Aff ℝ m (k + 1)) (hT : T.off = .none) :
    ∃ A, F.affine a T = some A ∧ ∀ x : Fin m → ℝ,
      ((fun i => T.lin x i - offAt a.offset i) ∈ S a.klass →
        F.affineObjective A x true = ((quadVal (some a.quad) (T.lin x) : ℝ) : WithTop ℝ)) ∧
      (F.affineObjective A x true = ((quadVal (some a.quad) (T.lin x) : ℝ) : WithTop ℝ) ∨ F.affineObjective A x true = ⊤) ∧
      (SharpTest F a.args S a.klass → F.affineObjective A x true ≠ ⊤ →
        joinLast (fun i => T.lin x i.castSucc - offAt a.offset i.castSucc,
          (1 + 1 / 10 ^ 5) * (T.lin x (Fin.last k) - offAt a.offset (Fin.last k))) ∈ S a.klass) ∧
      F.affineObjective A x false = ((quadVal (some a.quad) (T.lin x) : ℝ) : WithTop ℝ) := by
  refine ⟨⟨F.copy a, T⟩, by unfold EpiFamily.affine; rw [hT], fun x => ?_⟩
  have hc : IsEpiFamily F (F.copy a).args S := by
    show IsEpiFamily F (F.ctor a.args) S; rw [hF.stored]; exact hF
  have hval : ∀ cf, F.affineObjective ⟨F.copy a, T⟩ x cf =
      (if cf then F.constraint a.args a.klass (fun i => T.lin x i - offAt a.offset i) else 0) +
        ((quadVal (some a.quad) (T.lin x) : ℝ) : WithTop ℝ) := by
    intro cf
    unfold EpiFamily.affineObjective
    dsimp only
    rw [obj_eq]
    have e1 : (F.copy a).args = a.args := hF.stored
    have e2 : offAt (F.copy a).offset = offAt a.offset := offAt_ctor _
    rw [e1, e2]
    rfl
  refine ⟨fun hm => ?_, ?_, fun hs hfin => ?_, ?_⟩
  · rw [hval, if_pos rfl, hF.accepts _ _ hm, zero_add]
  · rw [hval, if_pos rfl]
    rcases hF.zeroOrTop a.klass (fun i => T.lin x i - offAt a.offset i) with h | h
    · left; rw [h, zero_add]
    · right; rw [h, WithTop.top_add]
  · rw [hval, if_pos rfl] at hfin
    exact hs (fun i => T.lin x i - offAt a.offset i) fun h => hfin (by rw [h, WithTop.top_add])
  · rw [hval]; simp

/-- **C103** the conjugate of an object with any array offset and any linear and constant term is an object of the polar class
with the same arguments, which denotes the Fenchel conjugate. -/
theorem C103_conjugate (hq : a.quad.coef = 0) (ho : ∀ s, a.offset ≠ some (.scalar s)) :
    ∃ a', F.getConjugate a = .cone a' ∧ a'.klass = a.klass.conj ∧ a'.args = a.args ∧ a'.quad.coef = 0 ∧
      IsConjugate (denoteEpi S a) (denoteEpi S a') := by
  refine ⟨F.new a.klass.conj a.args (workOutConjugate a.offset a.quad).1 (some (workOutConjugate a.offset a.quad).2), ?_, rfl,
    hF.stored, rfl, ?_⟩
  · unfold EpiFamily.getConjugate; rw [if_pos hq]
  · have h := setFn_conj (hF.polar' a.klass) (hF.polar a.klass) (offAt a.offset) (linearAt a.quad) a.quad.const
    unfold denoteEpi EpiFamily.new
    simp only [Option.getD_some, offAt_ctor, linear_work, constant_work _ _ ho]
    exact h

/-- **C103** conjugating twice gives back an object of the same class with the same arguments denoting the same function. -/
theorem C103_involution (hq : a.quad.coef = 0) :
    ∃ a' a'', F.getConjugate a = .cone a' ∧ F.getConjugate a' = .cone a'' ∧ a''.klass = a.klass ∧ a''.args = a.args ∧
      denoteEpi S a'' = denoteEpi S a := by
  set a' := F.new a.klass.conj a.args (workOutConjugate a.offset a.quad).1 (some (workOutConjugate a.offset a.quad).2) with ha'
  refine ⟨a', F.new a'.klass.conj a'.args (workOutConjugate a'.offset a'.quad).1 (some (workOutConjugate a'.offset a'.quad).2),
    by unfold EpiFamily.getConjugate; rw [if_pos hq], if_pos rfl, cc _, ?_, ?_⟩
  · show F.ctor (F.ctor a.args) = a.args
    rw [hF.stored, hF.stored]
  have e1 : offAt a'.offset = linearAt a.quad := by
    show offAt (ctorOffset a.quad.linear) = _; rw [offAt_ctor]; rfl
  have e2 : linearAt a'.quad = offAt a.offset := linear_work _ _
  have e5 : (workOutConjugate a'.offset a'.quad).2.const = a.quad.const := work_twice a.offset a.quad
  have e4 : offAt (workOutConjugate a'.offset a'.quad).1 = linearAt a'.quad := rfl
  unfold denoteEpi EpiFamily.new
  simp only [Option.getD_some, offAt_ctor, linear_work]
  rw [e5, e4, e1, e2]
  show setFn (S a.klass.conj.conj) _ _ _ = _
  rw [cc]

/-- **C103** `proximal` of an object, with any offset and any linear and constant term: for a quadratic with positive
coefficient and array center it returns, and what it returns is the unique minimiser of the quadratic plus the function of the
object. -/
theorem C103_proximal (hq : a.quad.coef = 0) :
    AtomCorrect (F.proximal a) (denoteEpi S a) ∧
      ∀ (q : Quad (Fin (k + 1)) ℝ) (v : Fin (k + 1) → ℝ), 0 < q.coef → q.center = some (.arr v) → ∃ p, F.proximal a q = .ok p := by
  classical
  refine ⟨fun q p hpos hp => ?_, fun q v hpos hv => ?_⟩
  · have h := C10_cone_proximal (F.coneProx a.args a.klass) (S a.klass) (fun arg p hp => by
      obtain ⟨p', e1, e2⟩ := hF.projects a.klass arg
      rw [e1] at hp; injection hp with hp; rw [← hp]; exact e2) a.offset a.quad (some q) p
      (by rw [hq, zero_add]; exact hpos) hp
    have key : ∀ u, (fun i => u i - offAt a.offset i) ∈ S a.klass → ((quadVal (some q) u : ℝ) : WithTop ℝ) + denoteEpi S a u =
        ((quadVal (some q) u + quadVal (some a.quad) u : ℝ) : WithTop ℝ) := by
      intro u hu
      unfold denoteEpi setFn
      rw [if_pos hu, zero_add, ← WithTop.coe_add, quadVal_zero a.quad hq]
    have h' : (fun i => p i - offAt a.offset i) ∈ S a.klass := by
      have := h.1; rw [denote_eq_offAt] at this; exact this
    refine ⟨?_, fun z hz => ?_⟩
    · dsimp only; rw [key p h']; exact WithTop.coe_ne_top
    · dsimp only
      rw [key p h']
      by_cases hzm : (fun i => z i - offAt a.offset i) ∈ S a.klass
      · rw [key z hzm, WithTop.coe_lt_coe]
        exact h.2 z (by rw [denote_eq_offAt]; exact hzm) hz
      · have : denoteEpi S a z = ⊤ := by unfold denoteEpi setFn; rw [if_neg hzm, WithTop.top_add]
        rw [this, WithTop.add_top]; exact WithTop.coe_lt_top _
  · exact (C10_proximal_total (fun _ _ _ => none) (fun x _ => F.coneProx a.args a.klass x) (.bound 0)
      (fun arg L => by obtain ⟨p, e, _⟩ := hF.projects a.klass arg; exact ⟨p, e⟩) a.offset a.quad q v hv).2
      (by rw [hq, zero_add]; exact hpos.ne')

private lemma rep (hq : a.quad.coef = 0) (ho : ∀ s, a.offset ≠ some (.scalar s)) :
    ∃ g, F.getConjugate a = .cone g ∧ g.klass = a.klass.conj ∧ g.args = a.args ∧ g.quad.coef = 0 ∧
      ConvexTop (denoteEpi S g) ∧ IsConjugate (denoteEpi S g) (denoteEpi S a) := by
  set g := F.new a.klass.conj a.args (workOutConjugate a.offset a.quad).1 (some (workOutConjugate a.offset a.quad).2) with hg
  refine ⟨g, by unfold EpiFamily.getConjugate; rw [if_pos hq], rfl, hF.stored, rfl,
    setFn_convex (hF.polar a.klass) _ _ _, ?_⟩
  have e1 : offAt g.offset = linearAt a.quad := by
    show offAt (ctorOffset a.quad.linear) = _; rw [offAt_ctor]; rfl
  have e2 : linearAt g.quad = offAt a.offset := linear_work _ _
  have e3 : g.quad.const = -a.quad.const - dot (offAt a.offset) (linearAt a.quad) := constant_work _ _ ho
  have e4 : -g.quad.const - dot (offAt g.offset) (linearAt g.quad) = a.quad.const := by
    rw [e1, e2, e3]
    have : dot (linearAt a.quad) (offAt a.offset) = dot (offAt a.offset) (linearAt a.quad) := by
      unfold dot; exact Finset.sum_congr rfl fun i _ => mul_comm _ _
    rw [this]; ring
  have hconj := setFn_conj (hF.polar a.klass) (hF.polar' a.klass) (offAt g.offset) (linearAt g.quad) g.quad.const
  rw [e4, e2, e1] at hconj
  unfold denoteEpi
  rw [e1, e2]
  exact hconj

/-- **C103** the pair `(D, g)` returned by `dual` of `affine_cone(a, D)` represents the composition: for every `x`, the
function of `a` at `D x` is the supremum over `u` of `⟨u, D x⟩ - g(u)`, unbounded where it is infinite; `g` is a convex object
of the polar class with the same arguments.  The attribute `dual` of `a` itself does the same with the identity. -/
theorem C103_dual (hq : a.quad.coef = 0) (ho : ∀ s, a.offset ≠ some (.scalar s)) (T : Aff ℝ m (k + 1)) (hT : T.off = .none) :
    (∃ A g, F.affine a T = some A ∧ F.affineDual A = (T, .cone g) ∧
      g.klass = a.klass.conj ∧ g.args = a.args ∧ g.quad.coef = 0 ∧ ConvexTop (denoteEpi S g) ∧
      Represents T.lin (denoteEpi S g) (fun x => denoteEpi S a (T.lin x))) ∧
    ∃ g, F.dual a = (.identity, .cone g) ∧ g.klass = a.klass.conj ∧ g.args = a.args ∧ g.quad.coef = 0 ∧
      ConvexTop (denoteEpi S g) ∧ Represents (fun x => x) (denoteEpi S g) (denoteEpi S a) := by
  refine ⟨?_, ?_⟩
  · set b := F.copy (F.copy a) with hb
    have hbF : IsEpiFamily F b.args S := by
      have : b.args = a.args := by show F.ctor (F.ctor a.args) = _; rw [hF.stored, hF.stored]
      rw [this]; exact hF
    have hbo : ∀ s, b.offset ≠ some (.scalar s) := by
      intro s hs
      have hs' : ctorOffset (ctorOffset a.offset) = some (.scalar s) := hs
      rcases ha : a.offset with _ | (s' | v)
      · rw [ha] at hs'; simp [ctorOffset] at hs'
      · exact ho s' ha
      · rw [ha] at hs'
        by_cases h0 : (PyVec.arr v : PyVec (Fin (k + 1)) ℝ).allZero <;> simp [ctorOffset, h0] at hs'
    obtain ⟨g, h1, h2, h3, h4, h5, h6⟩ := rep hbF hq hbo
    have hden : denoteEpi S b = denoteEpi S a := by
      unfold denoteEpi
      have : offAt b.offset = offAt a.offset := by
        show offAt (ctorOffset (ctorOffset a.offset)) = _; rw [offAt_ctor, offAt_ctor]
      rw [this]; rfl
    refine ⟨⟨F.copy a, T⟩, g, by unfold EpiFamily.affine; rw [hT], ?_, h2, ?_, h4, h5, fun x => ?_⟩
    · unfold EpiFamily.affineDual; dsimp only; rw [← hb, h1]
    · rw [h3]; show F.ctor (F.ctor a.args) = _; rw [hF.stored, hF.stored]
    · have := h6 (T.lin x)
      rw [hden] at this
      exact this
  · obtain ⟨g, h1, h2, h3, h4, h5, h6⟩ := rep hF hq ho
    exact ⟨g, by unfold EpiFamily.dual; rw [h1], h2, h3, h4, h5, fun x => h6 x⟩

/-- **C103** a constrained problem solved through its dual: minimise a strongly convex `f` subject to `D x - offset ∈ cone`,
where the constraint is `affine_cone(a, D)`, its dual is handed to `dual_problem`, and the last gradient evaluation of the
solver is at a minimiser of the dual objective.  The vector returned is the unique minimiser of `f` over the feasible set, and
minus the optimal dual value is its value. -/
theorem C103_solve (hq : a.quad = ⟨0, some (.scalar 0), some (.scalar 0), 0⟩) (ho : ∀ s, a.offset ≠ some (.scalar s))
    (T : Aff ℝ n (k + 1)) (hT : T.off = .none) (hsel : distinctSelectors T)
    (fc : Objective n) (f : (Fin n → ℝ) → WithTop ℝ) (V : (Fin n → ℝ) → ℝ) (G : (Fin n → ℝ) → Fin n → ℝ) (hE : Evaluates fc V G)
    (hf : IsSmoothConjugate f V G) (μ : ℝ) (hμ : 0 < μ) (hsc : StronglyConvexTop μ f) :
    ∃ A g, F.affine a T = some A ∧ F.affineDual A = (T, .cone g) ∧
      ∀ (calls : List ((Fin (k + 1) → ℝ) × Mode)) (u : Fin (k + 1) → ℝ), LastGradientAt calls u →
        IsMinTop (dualFn V T.adj (denoteEpi S g)) u →
        ∃ x v, (DualProblem.mk fc T (F.asDual g)).solve calls = some x ∧
          (fun i => T.lin x i - offAt a.offset i) ∈ S a.klass ∧ f x = ((v : ℝ) : WithTop ℝ) ∧
          (∀ z, (fun i => T.lin z i - offAt a.offset i) ∈ S a.klass → z ≠ x → f x < f z) ∧
          dualFn V T.adj (denoteEpi S g) u = ((-v : ℝ) : WithTop ℝ) := by
  classical
  obtain ⟨⟨A, g, h1, h2, -, -, -, hconv, hrep⟩, -⟩ := C103_dual hF (by rw [hq]) ho T hT
  refine ⟨A, g, h1, h2, fun calls u hc hu => ?_⟩
  obtain ⟨x, v, hx, hmin, hv, hd⟩ := C68_optimal (DualProblem.mk fc T (F.asDual g)) hsel
    f V G hE hf μ hμ hsc (denoteEpi S g) _ hrep hconv calls u hc hu
  have ev : ∀ z, denoteEpi S a z = if (fun i => z i - offAt a.offset i) ∈ S a.klass then 0 else ⊤ := by
    intro z
    unfold denoteEpi setFn
    rw [hq]
    have : dot (linearAt (⟨0, some (.scalar 0), some (.scalar 0), 0⟩ : Quad (Fin (k + 1)) ℝ)) z = 0 := by
      simp [dot, linearAt, PyVec.get]
    simp only [this, add_zero, WithTop.coe_zero]
  simp only [ev] at hmin hv
  have hxm : (fun i => T.lin x i - offAt a.offset i) ∈ S a.klass := by
    by_contra hn
    rw [if_neg hn, WithTop.add_top] at hv
    exact WithTop.top_ne_coe hv
  refine ⟨x, v, hx, hxm, ?_, fun z hz hne => ?_, hd⟩
  · rw [if_pos hxm, add_zero] at hv; exact hv
  · have := hmin.2 z hne
    dsimp only at this
    rwa [if_pos hxm, if_pos hz, add_zero, add_zero] at this

end objects

/-! ### the group LASSO -/

private lemma blocks (lab : Fin (p + 1) → ℤ) (d : ℤ → Option ℝ) (z : Fin (p + 1) → ℝ) (j : Fin (Penalty.sortedIds lab).length) :
    blockNorm (Penalty.groupIndex lab) z j =
      Real.sqrt (∑ i ∈ Finset.univ.filter fun i => lab i = (Penalty.sortedIds lab)[j], z i ^ 2) := by
  unfold blockNorm
  congr 1
  rw [Finset.sum_filter]
  refine Finset.sum_congr rfl fun i _ => ?_
  by_cases h : lab i = (Penalty.sortedIds lab)[j]
  · rw [if_pos h, if_pos ((groupIndex_iff lab i j).2 h)]
  · rw [if_neg h, if_neg fun e => h ((groupIndex_iff lab i j).1 e)]

private lemma norm_labels (lab : Fin (p + 1) → ℤ) (d : ℤ → Option ℝ) (z : Fin (p + 1) → ℝ) :
    groupNorm (Penalty.groupIndex lab) (Penalty.weightArray lab (Penalty.groupDict lab d)) z = labelNorm lab d z := by
  have h := seminorm_labels lab d z 1
  rw [one_mul] at h
  rw [← h]
  unfold GroupLasso.seminorm groupNorm
  rw [one_mul]
  exact Finset.sum_congr rfl fun j _ => by rw [normsCython_eq, blockNorm_eq]

private lemma ball_labels (lab : Fin (p + 1) → ℤ) (d : ℤ → Option ℝ) (z : Fin (p + 1) → ℝ) (t : ℝ) :
    (∀ j, blockNorm (Penalty.groupIndex lab) z j ≤ t * Penalty.weightArray lab (Penalty.groupDict lab d) j) ↔
      ∀ g ∈ Finset.univ.image lab,
        Real.sqrt (∑ i ∈ Finset.univ.filter fun i => lab i = g, z i ^ 2) ≤ t * labelWeight lab d g := by
  constructor
  · intro h g hg
    rw [← sortedIds_toFinset, List.mem_toFinset] at hg
    obtain ⟨j, hj, rfl⟩ := List.getElem_of_mem hg
    have := h ⟨j, hj⟩
    rw [weightArray_eq, blocks lab d] at this
    exact this
  · intro h j
    rw [weightArray_eq, blocks lab d]
    refine h _ ?_
    rw [← sortedIds_toFinset, List.mem_toFinset]
    exact List.getElem_mem _

private lemma dual_le (q : ℕ) (hq : 0 < q) {P : ℕ} (grp : Fin P → Fin q) (w : Fin q → ℝ) (hw : ∀ j, 0 < w j) (v : Fin P → ℝ) (t : ℝ) :
    GroupLasso.dualSeminorm grp w v ≤ (t : WithBot ℝ) ↔ ∀ j, blockNorm grp v j ≤ t * w j := by
  have h := C21_dual_constraint_partial grp w hw v t
  unfold GroupLasso.dualConstraint at h
  by_cases hc : GroupLasso.dualSeminorm grp w v ≤ (t : WithBot ℝ)
  · rw [if_pos hc] at h; exact ⟨fun _ => h.1 rfl, fun _ => hc⟩
  · rw [if_neg hc] at h
    exact ⟨fun e => absurd e hc, fun e => absurd (h.2 e) WithTop.top_ne_zero⟩

/-- bipolar theorem for pairs, for a convex cone with projections -/
private lemma bipolar_pair {P : ℕ} {C : Set ((Fin P → ℝ) × ℝ)} (hC : IsConvexCone C) (hproj : ∀ x, ∃ y, IsProjPair C x y)
    (u : (Fin P → ℝ) × ℝ) : u ∈ C ↔ ∀ v ∈ polarPair C, pdot u v ≤ 0 := by
  have comm : ∀ a b : (Fin P → ℝ) × ℝ, pdot a b = pdot b a := fun a b => by
    unfold pdot; rw [mul_comm a.2]; congr 1; exact Finset.sum_congr rfl fun i _ => mul_comm _ _
  refine ⟨fun hu v hv => by rw [comm]; exact hv u hu, fun h => ?_⟩
  obtain ⟨y, hy⟩ := hproj u
  obtain ⟨h1, h2⟩ := cone_residual hC hy
  have h3 := h (fun i => u.1 i - y.1 i, u.2 - y.2) (fun z hz => h1 z hz)
  have h4 : ∑ i, (u.1 i - y.1 i) ^ 2 + (u.2 - y.2) ^ 2 ≤ 0 := by
    have e : ∑ i, (u.1 i - y.1 i) ^ 2 + (u.2 - y.2) ^ 2 =
        pdot u (fun i => u.1 i - y.1 i, u.2 - y.2) - (∑ i, (u.1 i - y.1 i) * y.1 i + (u.2 - y.2) * y.2) := by
      unfold pdot
      have : ∑ i, (u.1 i - y.1 i) ^ 2 = ∑ i, u.1 i * (u.1 i - y.1 i) - ∑ i, (u.1 i - y.1 i) * y.1 i := by
        rw [← Finset.sum_sub_distrib]; exact Finset.sum_congr rfl fun i _ => by ring
      rw [this]; ring
    rw [e, h2]; linarith
  have h5 : u = y := by
    have hs : 0 ≤ ∑ i, (u.1 i - y.1 i) ^ 2 := Finset.sum_nonneg fun i _ => sq_nonneg _
    have h6 : (u.2 - y.2) ^ 2 = 0 := le_antisymm (by linarith) (sq_nonneg _)
    have h7 : ∑ i, (u.1 i - y.1 i) ^ 2 = 0 := le_antisymm (by nlinarith) hs
    rw [Finset.sum_eq_zero_iff_of_nonneg fun i _ => sq_nonneg _] at h7
    refine Prod.ext (funext fun i => ?_) ?_
    · have := pow_eq_zero_iff (two_ne_zero) |>.1 (h7 i (Finset.mem_univ i)); linarith
    · have := pow_eq_zero_iff (two_ne_zero) |>.1 h6; linarith
  rw [h5]; exact hy.1

private lemma dot_split (u v : Fin (k + 1) → ℝ) : dot u v = pdot (splitLast u) (splitLast v) := dot_last u v

/-- the facts about the group cones, in terms of the arrays of the object -/
private lemma group_facts (q : ℕ) (hq : 0 < q) {P : ℕ} (grp : Fin P → Fin q) (w : Fin q → ℝ) (hw : ∀ j, 1 / 10 ^ 20 ≤ w j)
    (sort : List (ℝ × ℝ) → List (ℝ × ℝ)) (hs : ∀ L, IsDescArgsort L (sort L)) (x : (Fin P → ℝ) × ℝ) :
    (∃ y, GroupLasso.epigraph grp w (sort (GroupLasso.knotInput grp w x.1)) x = some y ∧
      IsProjPair {z | groupNorm grp w z.1 ≤ z.2} x y) ∧
    (∃ y, GroupLasso.epigraphPolarProx grp w (sort (GroupLasso.knotInput grp w x.1)) x = some y ∧
      IsProjPair {z | ∀ j, blockNorm grp z.1 j ≤ -z.2 * w j} x y) ∧
    (∃ y, GroupLasso.dualEpigraphProx grp w (sort (GroupLasso.knotInput grp w fun i => -x.1 i)) x = some y ∧
      IsProjPair {z | ∀ j, blockNorm grp z.1 j ≤ z.2 * w j} x y) ∧
    (∃ y, GroupLasso.dualEpigraphPolarProx grp w (sort (GroupLasso.knotInput grp w fun i => -x.1 i)) x = some y ∧
      IsProjPair {z | groupNorm grp w z.1 ≤ -z.2} x y) ∧
    IsConvexCone {z : (Fin P → ℝ) × ℝ | groupNorm grp w z.1 ≤ z.2} ∧
    polarPair {z : (Fin P → ℝ) × ℝ | groupNorm grp w z.1 ≤ z.2} = {y | ∀ j, blockNorm grp y.1 j ≤ -y.2 * w j} := by
  obtain ⟨q, rfl⟩ : ∃ r, q = r + 1 := ⟨q - 1, by omega⟩
  have hwp : ∀ j, 0 < w j := fun j => lt_of_lt_of_le (by positivity) (hw j)
  exact ⟨C55_epigraph grp w hw x.1 x.2 _ (hs _), C55_epigraph_polar grp w hw x.1 x.2 _ (hs _),
    C55_dual_epigraph grp w hw x.1 x.2 _ (hs _), C55_dual_epigraph_polar grp w hw x.1 x.2 _ (hs _),
    epi_cone grp fun j => (hwp j).le, epi_polar grp hwp⟩

private lemma dict_idem (lab : Fin (p + 1) → ℤ) (d : ℤ → Option ℝ) :
    Penalty.groupDict lab (Penalty.groupDict lab d) = Penalty.groupDict lab d := by
  funext g
  unfold Penalty.groupDict
  by_cases h : ∃ i, lab i = g
  · simp [h]
  · simp [h]

private lemma sortedIds_pos (lab : Fin (p + 1) → ℤ) : 0 < (Penalty.sortedIds lab).length :=
  List.length_pos_of_mem (Penalty.mem_sortedIds lab 0)

private lemma weights_array {lab : Fin (p + 1) → ℤ} {d : ℤ → Option ℝ} {ε : ℝ} (hw : ∀ i, ε ≤ labelWeight lab d (lab i))
    (j : Fin (Penalty.sortedIds lab).length) : ε ≤ Penalty.weightArray lab (Penalty.groupDict lab d) j := by
  rw [weightArray_eq]
  have : (Penalty.sortedIds lab)[j] ∈ Finset.univ.image lab := by
    rw [← sortedIds_toFinset, List.mem_toFinset]; exact List.getElem_mem _
  obtain ⟨i, -, hi⟩ := Finset.mem_image.1 this
  rw [← hi]; exact hw i

/-- membership in the four sets, in terms of the arrays of the object -/
private lemma mem_group (lab : Fin (p + 1) → ℤ) (d : ℤ → Option ℝ) (x : Fin (p + 1 + 1) → ℝ) (c : EpiKlass) :
    x ∈ groupConeOf lab d c ↔ match c with
      | .epi => groupNorm (Penalty.groupIndex lab) (Penalty.weightArray lab (Penalty.groupDict lab d)) (splitLast x).1 ≤ (splitLast x).2
      | .epiPolar => ∀ j, blockNorm (Penalty.groupIndex lab) (splitLast x).1 j ≤
          -(splitLast x).2 * Penalty.weightArray lab (Penalty.groupDict lab d) j
      | .dualEpi => ∀ j, blockNorm (Penalty.groupIndex lab) (splitLast x).1 j ≤
          (splitLast x).2 * Penalty.weightArray lab (Penalty.groupDict lab d) j
      | .dualEpiPolar =>
        groupNorm (Penalty.groupIndex lab) (Penalty.weightArray lab (Penalty.groupDict lab d)) (splitLast x).1 ≤ -(splitLast x).2 := by
  cases c with
  | epi => rw [norm_labels]; rfl
  | epiPolar => exact (ball_labels lab d _ _).symm
  | dualEpi => exact (ball_labels lab d _ _).symm
  | dualEpiPolar => rw [norm_labels]; rfl

private lemma block_neg {q P : ℕ} (grp : Fin P → Fin q) (z : Fin P → ℝ) (j : Fin q) :
    blockNorm grp (fun i => -z i) j = blockNorm grp z j := by
  unfold blockNorm; simp only [neg_sq]

private lemma group_neg {q P : ℕ} (grp : Fin P → Fin q) (w : Fin q → ℝ) (z : Fin P → ℝ) :
    groupNorm grp w (fun i => -z i) = groupNorm grp w z := by
  unfold groupNorm; simp only [block_neg]

private lemma block_nonneg {q P : ℕ} (grp : Fin P → Fin q) (z : Fin P → ℝ) (j : Fin q) : 0 ≤ blockNorm grp z j :=
  Real.sqrt_nonneg _

private lemma seminorm_group {q P : ℕ} (grp : Fin P → Fin q) (w : Fin q → ℝ) (z : Fin P → ℝ) :
    GroupLasso.seminorm grp w z 1 = groupNorm grp w z := by
  unfold GroupLasso.seminorm groupNorm
  rw [one_mul]
  exact Finset.sum_congr rfl fun j _ => by rw [normsCython_eq, blockNorm_eq]

private lemma ite_zeroTop {P : Prop} [Decidable P] : (if P then (0 : WithTop ℝ) else ⊤) = 0 ∨ (if P then (0 : WithTop ℝ) else ⊤) = ⊤ := by
  by_cases h : P
  · left; rw [if_pos h]
  · right; rw [if_neg h]

/-- **C103** the group LASSO classes: for all labels and weights (given or the square roots of the group sizes) of at least
`10⁻²⁰`, whatever order the argsort of the root finder chooses among ties, the four classes are the documented cones. -/
theorem C103_group_family (lab : Fin (p + 1) → ℤ) (d : ℤ → Option ℝ) (hw : ∀ i, 1 / 10 ^ 20 ≤ labelWeight lab d (lab i))
    (sort : List (ℝ × ℝ) → List (ℝ × ℝ)) (hs : ∀ L, IsDescArgsort L (sort L)) :
    IsEpiFamily (groupFamily p sort) ((groupFamily p sort).ctor ⟨lab, d⟩) (groupConeOf lab d) := by
  set grp := Penalty.groupIndex lab with hgrp
  set w := Penalty.weightArray lab (Penalty.groupDict lab d) with hwdef
  have hwa : ∀ j, 1 / 10 ^ 20 ≤ w j := weights_array hw
  have hwp : ∀ j, 0 < w j := fun j => lt_of_lt_of_le (by positivity) (hwa j)
  have hpos := sortedIds_pos lab
  have F := group_facts _ hpos grp w hwa sort hs
  have hcone := (F (fun _ => 0, 0)).2.2.2.2.1
  have hpol := (F (fun _ => 0, 0)).2.2.2.2.2
  have ht : (0:ℝ) < atomTol := by rw [tol_eq]; norm_num
  have j0 : Fin (Penalty.sortedIds lab).length := ⟨0, hpos⟩
  refine ⟨?_, ?_, ?_, ?_, ?_⟩
  · show (⟨lab, Penalty.groupDict lab (Penalty.groupDict lab d)⟩ : GroupArgs p) = ⟨lab, Penalty.groupDict lab d⟩
    rw [dict_idem]
  · refine polar_all (fun u => ?_) (fun u => ?_) (fun u => ?_) (fun u => ?_)
    · have h := Set.ext_iff.1 hpol (splitLast u)
      rw [mem_group]
      refine Iff.trans h.symm ?_
      refine ⟨fun h v hv => ?_, fun h z hz => ?_⟩
      · rw [dot_split]; exact h _ ((mem_group lab d v .epi).1 hv)
      · have := h (joinLast z) ((mem_group lab d _ .epi).2 (by rw [split_join]; exact hz))
        rw [dot_split, split_join] at this; exact this
    · rw [mem_group]
      have h := bipolar_pair hcone (fun x => by obtain ⟨y, -, hy⟩ := (F x).1; exact ⟨y, hy⟩) (splitLast u)
      refine Iff.trans h ?_
      rw [hpol]
      refine ⟨fun h v hv => ?_, fun h z hz => ?_⟩
      · rw [dot_split]; exact h _ ((mem_group lab d v .epiPolar).1 hv)
      · have := h (joinLast z) ((mem_group lab d _ .epiPolar).2 (by rw [split_join]; exact hz))
        rw [dot_split, split_join] at this; exact this
    · rw [mem_group, mem_group]
      simp only [splitLast, block_neg, neg_neg]
    · rw [mem_group, mem_group]
      simp only [splitLast, group_neg]
  · intro c x hx
    rw [mem_group] at hx
    cases c with
    | epi =>
      have h0 : 0 ≤ (splitLast x).2 := le_trans (Finset.sum_nonneg fun j _ => mul_nonneg (hwp j).le (block_nonneg _ _ _)) hx
      refine if_pos ?_
      show GroupLasso.seminorm grp w (splitLast x).1 1 ≤ _
      rw [seminorm_group]
      have hx' : groupNorm grp w (splitLast x).1 ≤ (splitLast x).2 := hx
      nlinarith
    | dualEpiPolar =>
      have h0 : 0 ≤ -(splitLast x).2 := le_trans (Finset.sum_nonneg fun j _ => mul_nonneg (hwp j).le (block_nonneg _ _ _)) hx
      refine if_pos ?_
      show GroupLasso.seminorm grp w (splitLast x).1 1 ≤ _
      rw [seminorm_group]
      have hx' : groupNorm grp w (splitLast x).1 ≤ -(splitLast x).2 := hx
      nlinarith
    | epiPolar =>
      refine if_pos ?_
      show GroupLasso.dualSeminorm grp w (splitLast x).1 ≤ _
      rw [dual_le _ hpos grp w hwp]
      intro j
      have hx' : blockNorm grp (splitLast x).1 j ≤ -(splitLast x).2 * w j := hx j
      have h0 : 0 ≤ -(splitLast x).2 * w j := le_trans (block_nonneg _ _ _) hx'
      nlinarith
    | dualEpi =>
      refine if_pos ?_
      show GroupLasso.dualSeminorm grp w (splitLast x).1 ≤ _
      rw [dual_le _ hpos grp w hwp]
      intro j
      have hx' : blockNorm grp (splitLast x).1 j ≤ (splitLast x).2 * w j := hx j
      have h0 : 0 ≤ (splitLast x).2 * w j := le_trans (block_nonneg _ _ _) hx'
      nlinarith
  · intro c x
    cases c <;> exact ite_zeroTop
  · intro c x
    have eset : ∀ (c : EpiKlass) (C : Set ((Fin (p + 1) → ℝ) × ℝ)), (∀ z, z ∈ groupConeOf lab d c ↔ splitLast z ∈ C) →
        groupConeOf lab d c = {z | splitLast z ∈ C} := fun c C h => Set.ext h
    cases c with
    | epi =>
      obtain ⟨y, h1, h2⟩ := (F (splitLast x)).1
      refine ⟨joinLast y, ?_, ?_⟩
      · show (GroupLasso.epigraph grp w _ (splitLast x)).map joinLast = _
        erw [h1]; rfl
      · rw [eset .epi {z : (Fin (p + 1) → ℝ) × ℝ | groupNorm grp w z.1 ≤ z.2} fun z => mem_group lab d z .epi]; exact proj_pair h2
    | epiPolar =>
      obtain ⟨y, h1, h2⟩ := (F (splitLast x)).2.1
      refine ⟨joinLast y, ?_, ?_⟩
      · show (GroupLasso.epigraphPolarProx grp w _ (splitLast x)).map joinLast = _
        erw [h1]; rfl
      · rw [eset .epiPolar {z : (Fin (p + 1) → ℝ) × ℝ | ∀ j, blockNorm grp z.1 j ≤ -z.2 * w j} fun z => mem_group lab d z .epiPolar]; exact proj_pair h2
    | dualEpi =>
      obtain ⟨y, h1, h2⟩ := (F (splitLast x)).2.2.1
      refine ⟨joinLast y, ?_, ?_⟩
      · show (GroupLasso.dualEpigraphProx grp w _ (splitLast x)).map joinLast = _
        erw [h1]; rfl
      · rw [eset .dualEpi {z : (Fin (p + 1) → ℝ) × ℝ | ∀ j, blockNorm grp z.1 j ≤ z.2 * w j} fun z => mem_group lab d z .dualEpi]; exact proj_pair h2
    | dualEpiPolar =>
      obtain ⟨y, h1, h2⟩ := (F (splitLast x)).2.2.2.1
      refine ⟨joinLast y, ?_, ?_⟩
      · show (GroupLasso.dualEpigraphPolarProx grp w _ (splitLast x)).map joinLast = _
        erw [h1]; rfl
      · rw [eset .dualEpiPolar {z : (Fin (p + 1) → ℝ) × ℝ | groupNorm grp w z.1 ≤ -z.2} fun z => mem_group lab d z .dualEpiPolar]; exact proj_pair h2

/-- **C103** the feasibility tests of the four group LASSO classes are sharp, for all labels and positive weights. -/
theorem C103_group_sharp (lab : Fin (p + 1) → ℤ) (d : ℤ → Option ℝ) (hw : ∀ i, 0 < labelWeight lab d (lab i))
    (sort : List (ℝ × ℝ) → List (ℝ × ℝ)) (c : EpiKlass) :
    SharpTest (groupFamily p sort) ((groupFamily p sort).ctor ⟨lab, d⟩) (groupConeOf lab d) c := by
  set grp := Penalty.groupIndex lab with hgrp
  set w := Penalty.weightArray lab (Penalty.groupDict lab d) with hwdef
  have hpos := sortedIds_pos lab
  have hwp : ∀ j, 0 < w j := fun j => by
    rw [hwdef, weightArray_eq]
    have : (Penalty.sortedIds lab)[j] ∈ Finset.univ.image lab := by
      rw [← sortedIds_toFinset, List.mem_toFinset]; exact List.getElem_mem _
    obtain ⟨i, -, hi⟩ := Finset.mem_image.1 this
    rw [← hi]; exact hw i
  have pick : ∀ {P : Prop} [Decidable P], (if P then (0 : WithTop ℝ) else ⊤) ≠ ⊤ → P := by
    intro P _ h
    by_contra hP
    exact h (if_neg hP)
  intro x hx
  rw [mem_group]
  cases c with
  | epi =>
    have h : GroupLasso.seminorm grp w (splitLast x).1 1 ≤ (1 + atomTol) * (splitLast x).2 := pick hx
    dsimp only
    rw [split_join, ← seminorm_group]
    rw [tol_eq] at h; exact h
  | epiPolar =>
    have h : GroupLasso.dualSeminorm grp w (splitLast x).1 ≤ (((1 + atomTol) * (-(splitLast x).2) : ℝ) : WithBot ℝ) := pick hx
    rw [dual_le _ hpos grp w hwp, tol_eq] at h
    dsimp only
    rw [split_join]
    intro j
    have := h j
    dsimp only
    show blockNorm grp (splitLast x).1 j ≤ -((1 + 1 / 10 ^ 5) * (splitLast x).2) * w j
    linarith
  | dualEpi =>
    have h : GroupLasso.dualSeminorm grp w (splitLast x).1 ≤ (((1 + atomTol) * (splitLast x).2 : ℝ) : WithBot ℝ) := pick hx
    rw [dual_le _ hpos grp w hwp, tol_eq] at h
    dsimp only
    rw [split_join]
    exact h
  | dualEpiPolar =>
    have h : GroupLasso.seminorm grp w (splitLast x).1 1 ≤ (1 + atomTol) * (-(splitLast x).2) := pick hx
    dsimp only
    rw [split_join, ← seminorm_group]
    rw [tol_eq] at h
    dsimp only
    show GroupLasso.seminorm grp w (splitLast x).1 1 ≤ -((1 + 1 / 10 ^ 5) * (splitLast x).2)
    linarith

/-! ### matrix norms -/

private lemma matOf_flatten (X : Fin n × Fin p → ℝ) : matOf (flatten X) = X := by
  funext ij; simp [matOf, flatten]

private lemma flatten_matOf (v : Fin (n * p) → ℝ) : flatten (matOf (n := n) (p := p) v) = v := by
  funext a; exact congrArg v (finProdFinEquiv.apply_symm_apply a)

private lemma dot_mat (u v : Fin (n * p + 1) → ℝ) :
    dot u v = dot (matOf (n := n) (p := p) (splitLast u).1) (matOf (splitLast v).1) + (splitLast u).2 * (splitLast v).2 := by
  rw [dot_last]
  congr 1
  unfold dot matOf splitLast
  exact (Equiv.sum_comp finProdFinEquiv (fun a : Fin (n * p) => u a.castSucc * v a.castSucc)).symm

private lemma proj_mat {Q : (Fin n × Fin p → ℝ) → ℝ → Prop} {x : Fin (n * p + 1) → ℝ} {y : (Fin n × Fin p → ℝ) × ℝ}
    (h : IsProjPair {z : (Fin n × Fin p → ℝ) × ℝ | Q z.1 z.2} (matOf (splitLast x).1, (splitLast x).2) y) :
    IsProj {z : Fin (n * p + 1) → ℝ | Q (matOf (splitLast z).1) (splitLast z).2} x (joinLast (flatten y.1, y.2)) := by
  have hd : ∀ u v : Fin (n * p) → ℝ, sqDist u v = sqDist (matOf (n := n) (p := p) u) (matOf v) := fun u v =>
    (Equiv.sum_comp finProdFinEquiv (fun a : Fin (n * p) => (u a - v a) ^ 2)).symm
  refine ⟨?_, fun z hz hne => ?_⟩
  · show Q (matOf (splitLast (joinLast (flatten y.1, y.2))).1) (splitLast (joinLast (flatten y.1, y.2))).2
    rw [split_join]; dsimp only; rw [matOf_flatten]; exact h.1
  · have h1 := h.2 (matOf (splitLast z).1, (splitLast z).2) hz (fun e => hne (by
      rw [← e, flatten_matOf]; exact (join_split z).symm))
    dsimp only at h1 ⊢
    rw [sqDist_join z, sqDist_join (joinLast (flatten y.1, y.2)), split_join]
    dsimp only
    rw [hd (splitLast z).1, hd (flatten y.1), matOf_flatten]
    exact h1

/-- **C103** the classes of the matrix norms: for every matrix shape and every `svd` meeting numpy's contract the four classes
are the documented cones (with the feasibility test of the nuclear norm only one-sided, see `C103_svd_sharp_partial`). -/
theorem C103_svd_family (svd : (Fin n × Fin p → ℝ) → Svd.Triple n p k) (hsvd : ∀ X, IsSvd X (svd X)) :
    IsEpiFamily (svdFamily n p svd) () (svdConeOf n p) := by
  have ht : (0:ℝ) < 1 / 10 ^ 5 := by norm_num
  refine ⟨rfl, ?_, ?_, ?_, ?_⟩
  · refine polar_all (fun u => ?_) (fun u => ?_) (fun u => ?_) (fun u => ?_)
    · refine Iff.trans (C60_nuclear_polar (matOf (splitLast u).1) (splitLast u).2) ⟨fun h v hv => ?_, fun h Z t hZ => ?_⟩
      · rw [dot_mat]; exact h _ _ hv
      · have := h (joinLast (flatten Z, t)) (by
          show nucNorm (matOf (splitLast (joinLast (flatten Z, t))).1) ≤ (splitLast (joinLast (flatten Z, t))).2
          rw [split_join]; dsimp only; rw [matOf_flatten]; exact hZ)
        rw [dot_mat, split_join, matOf_flatten] at this; exact this
    · have h := C60_operator_polar (matOf (n := n) (p := p) (splitLast u).1) (-(splitLast u).2)
      rw [neg_neg] at h
      refine Iff.trans h ⟨fun h v hv => ?_, fun h W t hW => ?_⟩
      · rw [dot_mat]
        have := h _ _ (show opNorm (matOf (splitLast v).1) ≤ -(splitLast v).2 from hv)
        linarith
      · have := h (joinLast (flatten W, -t)) (by
          show opNorm (matOf (splitLast (joinLast (flatten W, -t))).1) ≤ -(splitLast (joinLast (flatten W, -t))).2
          rw [split_join]; dsimp only; rw [matOf_flatten, neg_neg]; exact hW)
        rw [dot_mat, split_join, matOf_flatten] at this
        dsimp only at this
        linarith
    · show opNorm (matOf (splitLast u).1) ≤ (splitLast u).2 ↔ opNorm (fun ij => -(matOf (splitLast u).1 ij)) ≤ - -(splitLast u).2
      rw [op_neg, neg_neg]
    · show nucNorm (matOf (splitLast u).1) ≤ -(splitLast u).2 ↔ nucNorm (fun ij => -(matOf (splitLast u).1 ij)) ≤ -(splitLast u).2
      rw [nuc_neg]
  · intro c x hx
    have hs := hsvd (matOf (splitLast x).1)
    cases c with
    | epi =>
      have hx' : nucNorm (matOf (n := n) (p := p) (splitLast x).1) ≤ (splitLast x).2 := hx
      have h0 : 0 ≤ (splitLast x).2 := le_trans (nuc_nonneg _) hx'
      exact (C60_nuclear_constraint_partial hs _).2 (by nlinarith)
    | epiPolar =>
      have hx' : opNorm (matOf (n := n) (p := p) (splitLast x).1) ≤ -(splitLast x).2 := hx
      have h0 : 0 ≤ -(splitLast x).2 := le_trans (opNorm_nonneg _) hx'
      exact (C60_nuclear_polar_constraint hs _).trans (if_pos (by nlinarith))
    | dualEpi =>
      have hx' : opNorm (matOf (n := n) (p := p) (splitLast x).1) ≤ (splitLast x).2 := hx
      have h0 : 0 ≤ (splitLast x).2 := le_trans (opNorm_nonneg _) hx'
      exact (C60_operator_constraint hs _).trans (if_pos (by nlinarith))
    | dualEpiPolar =>
      have hx' : nucNorm (matOf (n := n) (p := p) (splitLast x).1) ≤ -(splitLast x).2 := hx
      have h0 : 0 ≤ -(splitLast x).2 := le_trans (nuc_nonneg _) hx'
      exact (C60_operator_polar_constraint hs _).trans (if_pos (by nlinarith))
  · intro c x
    cases c <;> exact ite_zeroTop
  · intro c x
    have hs := hsvd (matOf (splitLast x).1)
    cases c with
    | epi =>
      obtain ⟨y, h1, h2⟩ := C60_nuclear_epigraph hs (splitLast x).2
      refine ⟨joinLast (flatten y.1, y.2), ?_, proj_mat (Q := fun Z t => nucNorm Z ≤ t) h2⟩
      show (Svd.NuclearEpi.coneProx _ _).map _ = _
      rw [h1]; rfl
    | epiPolar =>
      obtain ⟨y, h1, h2⟩ := C60_nuclear_epigraph_polar hs (splitLast x).2
      refine ⟨joinLast (flatten y.1, y.2), ?_, proj_mat (Q := fun Z t => opNorm Z ≤ -t) h2⟩
      show (Svd.NuclearEpiPolar.coneProx _ _).map _ = _
      rw [h1]; rfl
    | dualEpi =>
      obtain ⟨y, h1, h2⟩ := C60_operator_epigraph hs (splitLast x).2
      refine ⟨joinLast (flatten y.1, y.2), ?_, proj_mat (Q := fun Z t => opNorm Z ≤ t) h2⟩
      show (Svd.OperatorEpi.coneProx _ _).map _ = _
      rw [h1]; rfl
    | dualEpiPolar =>
      obtain ⟨y, h1, h2⟩ := C60_operator_epigraph_polar hs (splitLast x).2
      refine ⟨joinLast (flatten y.1, y.2), ?_, proj_mat (Q := fun Z t => nucNorm Z ≤ -t) h2⟩
      show (Svd.OperatorEpiPolar.coneProx _ _).map _ = _
      rw [h1]; rfl

/-- **C103** the feasibility tests of three of the four classes of matrix norms are sharp.  Missing: the epigraph of the nuclear
norm, where it is false (`C103_svd_sharp_fails`). -/
theorem C103_svd_sharp_partial (svd : (Fin n × Fin p → ℝ) → Svd.Triple n p k) (hsvd : ∀ X, IsSvd X (svd X)) (c : EpiKlass)
    (hc : c ≠ .epi) : SharpTest (svdFamily n p svd) () (svdConeOf n p) c := by
  classical
  have pick : ∀ {P : Prop} [Decidable P], (if P then (0 : WithTop ℝ) else ⊤) ≠ ⊤ → P := by
    intro P _ h
    by_contra hP
    exact h (if_neg hP)
  intro x hx
  have hs := hsvd (matOf (splitLast x).1)
  cases c with
  | epi => exact absurd rfl hc
  | epiPolar =>
    have e : Svd.NuclearEpiPolar.constraint (svd (matOf (splitLast x).1)) (splitLast x).2 ≠ ⊤ := hx
    rw [C60_nuclear_polar_constraint hs] at e
    have h := pick e
    show opNorm (matOf (splitLast (joinLast ((splitLast x).1, _))).1) ≤ -(splitLast (joinLast ((splitLast x).1, _))).2
    rw [split_join]
    dsimp only
    show _ ≤ -((1 + 1 / 10 ^ 5) * (splitLast x).2)
    linarith
  | dualEpi =>
    have e : Svd.OperatorEpi.constraint (svd (matOf (splitLast x).1)) (splitLast x).2 ≠ ⊤ := hx
    rw [C60_operator_constraint hs] at e
    have h := pick e
    show opNorm (matOf (splitLast (joinLast ((splitLast x).1, _))).1) ≤ (splitLast (joinLast ((splitLast x).1, _))).2
    rw [split_join]
    exact h
  | dualEpiPolar =>
    have e : Svd.OperatorEpiPolar.constraint (svd (matOf (splitLast x).1)) (splitLast x).2 ≠ ⊤ := hx
    rw [C60_operator_polar_constraint hs] at e
    have h := pick e
    show nucNorm (matOf (splitLast (joinLast ((splitLast x).1, _))).1) ≤ -(splitLast (joinLast ((splitLast x).1, _))).2
    rw [split_join]
    dsimp only
    show _ ≤ -((1 + 1 / 10 ^ 5) * (splitLast x).2)
    linarith

/-! ### the hypotheses are met -/

/-- labels `5, 5, -1`, weight 2 for the label 5 and the default for the other, any tie-breaking of the sort: the proximal map of
the epigraph cone with offset and linear term -/
example : ∃ sort : List (ℝ × ℝ) → List (ℝ × ℝ), ∃ y,
    (groupFamily 2 sort).proximal ((groupFamily 2 sort).new .epi ⟨![5, 5, -1], fun g => if g = 5 then some 2 else none⟩
      (some (.arr ![1, 0, 0, 2])) (some ⟨0, none, some (.arr ![1, 2, 3, 4]), 0⟩)) ⟨1, some (.arr ![0, 3, 0, 5]), none, 0⟩ = .ok y := by
  choose sort hs using exists_argsort
  refine ⟨sort, ?_⟩
  have hw : ∀ i, 1 / 10 ^ 20 ≤ labelWeight (![5, 5, -1] : Fin 3 → ℤ) (fun g => if g = 5 then some (2:ℝ) else none) ((![5, 5, -1] : Fin 3 → ℤ) i) := by
    have h2 : (Finset.univ.filter fun i : Fin 3 => (![5, 5, -1] : Fin 3 → ℤ) i = -1).card = 1 := by decide
    intro i
    fin_cases i
    · simp [labelWeight]; norm_num
    · simp [labelWeight]; norm_num
    · show _ ≤ Real.sqrt ((Finset.univ.filter fun i : Fin 3 => (![5, 5, -1] : Fin 3 → ℤ) i = -1).card : ℝ)
      rw [h2]; norm_num
  exact (C103_proximal (C103_group_family _ _ hw sort hs) rfl).2 _ _ one_pos rfl

/-- a bound on the group LASSO norm of `D x` for a matrix `D` of any size: `½‖x‖² - ⟨y, x⟩` subject to `(D x; t)` in the epigraph,
where the last row of `D` is the bound, meets the hypotheses of `C103_solve` -/
example (lab : Fin (p + 1) → ℤ) (sort : List (ℝ × ℝ) → List (ℝ × ℝ)) (hs : ∀ L, IsDescArgsort L (sort L))
    (D : Fin (p + 1 + 1) → Fin (n + 1) → ℝ) (y : Fin (n + 1) → ℝ) :=
  C103_solve (a := (groupFamily p sort).new .epi ⟨lab, fun _ => none⟩ none none)
    (C103_group_family lab (fun _ => none) (fun i => by
      have h : 1 ≤ (Finset.univ.filter fun j => lab j = lab i).card := Finset.card_pos.2 ⟨i, by simp⟩
      have h2 : (1:ℝ) ≤ ((Finset.univ.filter fun j => lab j = lab i).card : ℝ) := by exact_mod_cast h
      have h3 : (1:ℝ) ≤ Real.sqrt ((Finset.univ.filter fun j => lab j = lab i).card : ℝ) := Real.one_le_sqrt.2 h2
      exact le_trans (by norm_num) h3) sort hs)
    rfl (by simp [EpiFamily.new, ctorOffset]) (.matrix D none) rfl (by simp [distinctSelectors])
    (Smooth.signalApproximator (fun i => -y i) 1) (quadF y) (fun z => 1 / 2 * ∑ i, (z i + y i) ^ 2) (fun z i => z i + y i)
    (quadF_eval y) (quadF_conj y) 1 one_pos (quadF_strong y)

/-- every shape with at least one row and one column has an `svd` meeting numpy's contract -/
example (hk : k + 1 = min n p) : ∃ svd : (Fin n × Fin p → ℝ) → Svd.Triple n p k, (∀ X, IsSvd X (svd X)) ∧
    ∀ v, ∃ y, (svdFamily n p svd).proximal ((svdFamily n p svd).new .epi () none none) ⟨1, some (.arr v), none, 0⟩ = .ok y := by
  choose svd hs using exists_svd hk
  exact ⟨svd, hs, fun v => (C103_proximal (C103_svd_family svd hs) rfl).2 _ _ one_pos rfl⟩

/-! ### what fails -/

private lemma foldl_le (l : List (Fin n)) (w f : Fin n → ℝ) (c : ℝ) (h : ∀ j ∈ l, 0 < w j → f j ≤ c) (v : WithBot ℝ)
    (hv : v ≤ (c : WithBot ℝ)) :
    l.foldl (fun v j => if w j > 0 then max v ((f j : ℝ) : WithBot ℝ) else v) v ≤ (c : WithBot ℝ) := by
  induction l generalizing v with
  | nil => exact hv
  | cons a l ih =>
    rw [List.foldl_cons]
    refine ih (fun j hj => h j (List.mem_cons_of_mem _ hj)) _ ?_
    by_cases ha : w a > 0
    · rw [if_pos ha]; exact max_le hv (WithBot.coe_le_coe.2 (h a List.mem_cons_self ha))
    · rw [if_neg ha]; exact hv

/-- **C103** fails for a group of weight zero: labels `0, 1` with weights `0, 1`.  The conjugate of the epigraph object accepts
`(5, 0; -1)`, whose inner product with the member `(1, 0; 0)` of the epigraph is positive: it is not in the polar cone. -/
theorem C103_zero_weight_fails (sort : List (ℝ × ℝ) → List (ℝ × ℝ)) :
    ∃ (lab : Fin 2 → ℤ) (d : ℤ → Option ℝ) (g : EpiCone (GroupArgs 1) 2) (x v : Fin 3 → ℝ), (∀ i, 0 ≤ labelWeight lab d (lab i)) ∧
      (groupFamily 1 sort).getConjugate ((groupFamily 1 sort).new .epi ⟨lab, d⟩ none none) = .cone g ∧
      (groupFamily 1 sort).nonsmoothObjective g x true = ((0 : ℝ) : WithTop ℝ) ∧ v ∈ groupConeOf lab d .epi ∧ 0 < dot x v := by
  set lab : Fin 2 → ℤ := ![0, 1] with hlab
  set d : ℤ → Option ℝ := fun g => some (g : ℝ) with hd
  have hlw : ∀ g, labelWeight lab d g = g := fun g => rfl
  refine ⟨lab, d, _, ![5, 0, -1], ![1, 0, 0], ?_, if_pos rfl, ?_, ?_, ?_⟩
  · intro i; rw [hlw]; fin_cases i <;> simp [hlab]
  · have hc : (groupFamily 1 sort).constraint ⟨lab, Penalty.groupDict lab (Penalty.groupDict lab d)⟩ .epiPolar ![5, 0, -1] = 0 := by
      rw [dict_idem]
      refine if_pos (foldl_le _ _ _ _ (fun j _ hj => ?_) _ bot_le)
      have hwj : (GroupArgs.w ⟨lab, Penalty.groupDict lab d⟩ : Fin (Penalty.sortedIds lab).length → ℝ) j =
          ((Penalty.sortedIds lab)[j] : ℤ) := by
        show Penalty.weightArray lab (Penalty.groupDict lab d) j = _
        rw [weightArray_eq, hlw]
      have hmem : (Penalty.sortedIds lab)[j] ∈ Finset.univ.image lab := by
        rw [← sortedIds_toFinset, List.mem_toFinset]; exact List.getElem_mem _
      obtain ⟨i, -, hi⟩ := Finset.mem_image.1 hmem
      rw [normsCython_eq, ← blockNorm_eq]
      show blockNorm (Penalty.groupIndex lab) _ j / _ ≤ _
      rw [blocks lab d]
      have hone : (Penalty.sortedIds lab)[j] = 1 := by
        rw [hwj] at hj
        rw [← hi] at hj ⊢
        fin_cases i
        · simp [hlab] at hj
        · rfl
      rw [hone]
      have e : (Finset.univ.filter fun i => lab i = 1) = {1} := by rw [hlab]; decide
      rw [e]
      have ht : (0:ℝ) < atomTol := by rw [tol_eq]; norm_num
      have e2 : ∑ i ∈ ({1} : Finset (Fin 2)), (splitLast (k := 2) ![5, 0, -1]).1 i ^ 2 = 0 := by
        rw [Finset.sum_singleton]
        show (0:ℝ) ^ 2 = 0
        norm_num
      rw [e2, Real.sqrt_zero, zero_div]
      show 0 ≤ (1 + atomTol) * (- (-1 : ℝ))
      linarith
    rw [obj_eq, if_pos rfl]
    have e3 : (fun i => (![5, 0, -1] : Fin 3 → ℝ) i - offAt (ctorOffset (some (.scalar 0)) : Option (PyVec (Fin 3) ℝ)) i) = ![5, 0, -1] := by
      funext i; rw [offAt_ctor]; simp [offAt, PyVec.get]
    have e4 : quadVal (some (workOutConjugate (ctorOffset none) (⟨0, some (.scalar 0), some (.scalar 0), 0⟩ : Quad (Fin 3) ℝ)).2)
        ![5, 0, -1] = 0 := by
      rw [quadVal_zero _ rfl]
      simp [workOutConjugate, Quad.init, linearAt, ctorOffset, dot, PyVec.get, PyVec.map₂, PyVec.npSum]
    show (groupFamily 1 sort).constraint ⟨lab, Penalty.groupDict lab (Penalty.groupDict lab d)⟩ .epiPolar
      (fun i => (![5, 0, -1] : Fin 3 → ℝ) i - offAt (ctorOffset (some (.scalar 0)) : Option (PyVec (Fin 3) ℝ)) i) +
      ((quadVal (some (workOutConjugate (ctorOffset none) (⟨0, some (.scalar 0), some (.scalar 0), 0⟩ : Quad (Fin 3) ℝ)).2)
        ![5, 0, -1] : ℝ) : WithTop ℝ) = _
    rw [e3, e4, hc, zero_add]
  · show labelNorm lab d _ ≤ _
    unfold labelNorm
    have e : Finset.univ.image lab = {0, 1} := by rw [hlab]; decide
    rw [e, Finset.sum_pair (by norm_num), hlw, hlw]
    have e1 : (Finset.univ.filter fun i => lab i = 1) = {1} := by rw [hlab]; decide
    rw [e1, Finset.sum_singleton]
    show ((0 : ℤ) : ℝ) * _ + ((1 : ℤ) : ℝ) * Real.sqrt ((0:ℝ) ^ 2) ≤ 0
    simp
  · simp [dot, Fin.sum_univ_three]

/-- **C103** fails for the feasibility test of the nuclear norm: the `1 × 1` matrix `(1)` with bound 0 is accepted, and so is
any matrix of rank one with any bound `≥ 0`. -/
theorem C103_svd_sharp_fails :
    ∃ svd : (Fin 1 × Fin 1 → ℝ) → Svd.Triple 1 1 0, (∀ X, IsSvd X (svd X)) ∧
      ¬ SharpTest (svdFamily 1 1 svd) () (svdConeOf 1 1) .epi := by
  choose svd hs using exists_svd (n := 1) (p := 1) (k := 0) rfl
  refine ⟨svd, hs, fun h => ?_⟩
  have h1 := h ![1, 0] (by
    have : (svdFamily 1 1 svd).constraint () .epi ![1, 0] = 0 := if_pos (by
      rw [Finset.univ_eq_empty, Finset.sum_empty]
      show 0 ≤ (1 + atomTol) * (0:ℝ)
      rw [mul_zero])
    rw [this]; exact WithTop.zero_ne_top)
  have h2 : nucNorm (fun _ : Fin 1 × Fin 1 => (1:ℝ)) ≤ (1 + 1 / 10 ^ 5) * 0 := by
    have e : ∀ t : ℝ, (fun ij : Fin 1 × Fin 1 => joinLast (k := 1 * 1) (fun i => (![1, 0] : Fin (1 * 1 + 1) → ℝ) i.castSucc, t)
        (finProdFinEquiv ij).castSucc) = fun _ => 1 := by
      intro t; funext ij
      simp only [joinLast, Fin.snoc_castSucc]
      obtain ⟨i, j⟩ := ij
      fin_cases i; fin_cases j; rfl
    have h1' : nucNorm (fun ij : Fin 1 × Fin 1 => joinLast (k := 1 * 1) (fun i => (![1, 0] : Fin (1 * 1 + 1) → ℝ) i.castSucc,
        (1 + 1 / 10 ^ 5) * (![1, 0] : Fin (1 * 1 + 1) → ℝ) (Fin.last (1 * 1))) (finProdFinEquiv ij).castSucc) ≤
        joinLast (k := 1 * 1) (fun i => (![1, 0] : Fin (1 * 1 + 1) → ℝ) i.castSucc,
        (1 + 1 / 10 ^ 5) * (![1, 0] : Fin (1 * 1 + 1) → ℝ) (Fin.last (1 * 1))) (Fin.last (1 * 1)) := h1
    rw [e] at h1'
    simp only [joinLast, Fin.snoc_last] at h1'
    exact h1'
  have h3 : OpLe (fun _ : Fin 1 × Fin 1 => (1:ℝ)) 1 := by
    intro v; simp [norm2]
  have h4 := dot_le_nuc (Z := fun _ : Fin 1 × Fin 1 => (1:ℝ)) h3
  simp [dot] at h4
  linarith

end Verif.Props
