import Verif.Model.Smoothed
import Verif.Spec.Smoothed
import Verif.Lemmas.Smoothed
import Verif.Props.C10_Proximal
import Verif.Props.C13_Conjugate

/-!
# C48: `atom.smoothed(q)` is a smooth function with the documented value, gradient and Lipschitz constant
-/

set_option linter.unusedSectionVars false
set_option linter.unusedVariables false

namespace Verif.Props
open Verif.Model Verif.Lemmas Verif.Spec

variable {n : ℕ}

/-! ### the base maps of every class -/

private lemma prox_univ {L : ℝ} {h h' : (Fin (n + 1) → ℝ) → ℝ} {S : Set (Fin (n + 1) → ℝ)} {x p : Fin (n + 1) → ℝ}
    (hp : IsProx L h x p) (hh : h' = h) (hS : S = Set.univ) : IsProxOn L h' S x p := by
  rw [hh, hS]; exact hp

lemma class_lagrange (k : Klass) {r L : ℝ} (hr : 0 ≤ r) (hL : 0 < L) (x : Fin (n + 1) → ℝ) :
    ∃ p, k.lagrangeProx x L r = some p ∧
      IsProxOn L (fun z => (penalty k r z).untopD 0) {z | penalty k r z ≠ ⊤} x p := by
  cases k with
  | l1norm =>
    refine ⟨_, rfl, prox_univ (C03_l1norm_lagrange_prox x L r hL hr) rfl ?_⟩
    exact Set.eq_univ_of_forall fun z => WithTop.coe_ne_top
  | supnorm =>
    obtain ⟨p, h1, h2⟩ := C05_supnorm_lagrange_prox x L r hL hr
    refine ⟨p, h1, prox_univ h2 rfl ?_⟩
    exact Set.eq_univ_of_forall fun z => WithTop.coe_ne_top
  | l2norm =>
    refine ⟨_, rfl, prox_univ (C06_l2norm_lagrange_prox x L r hL hr) rfl ?_⟩
    exact Set.eq_univ_of_forall fun z => WithTop.coe_ne_top
  | positivePart =>
    refine ⟨_, rfl, prox_univ (C07_positive_part_lagrange_prox x L r hL hr) rfl ?_⟩
    exact Set.eq_univ_of_forall fun z => WithTop.coe_ne_top
  | maxPositivePart =>
    obtain ⟨p, h1, h2⟩ := C07_max_positive_part_lagrange_prox x L r hL hr
    refine ⟨p, h1, prox_univ h2 rfl ?_⟩
    exact Set.eq_univ_of_forall fun z => WithTop.coe_ne_top
  | constrainedMax =>
    obtain ⟨p, h1, h2⟩ := C07_constrained_max_lagrange_prox x L r hL hr
    refine ⟨p, h1, ?_⟩
    have hS : {z : Fin (n + 1) → ℝ | penalty .constrainedMax r z ≠ ⊤} = {z | ∀ i, 0 ≤ z i} := by
      ext z
      simp only [penalty, Set.mem_ofPred_eq]
      by_cases h : ∀ i, 0 ≤ z i
      · rw [if_pos h]; exact ⟨fun _ => h, fun _ => WithTop.coe_ne_top⟩
      · rw [if_neg h]; exact ⟨fun h' => absurd rfl h', fun h' => absurd h' h⟩
    rw [hS]
    refine ⟨h2.1, fun z hz hne => ?_⟩
    have := h2.2 z hz hne
    have e : ∀ z : Fin (n + 1) → ℝ, (∀ i, 0 ≤ z i) → (penalty .constrainedMax r z).untopD 0 = r * maxCoord z := by
      intro z hz; simp only [penalty]; rw [if_pos hz]; rfl
    simp only
    rw [e z hz, e p h2.1]; exact this
  | constrainedPositivePart =>
    have h2 := C07_constrained_positive_part_lagrange_prox x L r hL hr
    refine ⟨_, rfl, ?_⟩
    have hS : {z : Fin (n + 1) → ℝ | penalty .constrainedPositivePart r z ≠ ⊤} = {z | ∀ i, 0 ≤ z i} := by
      ext z
      simp only [penalty, Set.mem_ofPred_eq]
      by_cases h : ∀ i, 0 ≤ z i
      · rw [if_pos h]; exact ⟨fun _ => h, fun _ => WithTop.coe_ne_top⟩
      · rw [if_neg h]; exact ⟨fun h' => absurd rfl h', fun h' => absurd h' h⟩
    rw [hS]
    refine ⟨h2.1, fun z hz hne => ?_⟩
    have := h2.2 z hz hne
    have e : ∀ z : Fin (n + 1) → ℝ, (∀ i, 0 ≤ z i) →
        (penalty .constrainedPositivePart r z).untopD 0 = r * ∑ i, z i := by
      intro z hz; simp only [penalty]; rw [if_pos hz]; rfl
    simp only
    rw [e z hz, e _ h2.1]; exact this

lemma class_bound (k : Klass) {r : ℝ} (hr : 0 ≤ r) (x : Fin (n + 1) → ℝ) :
    ∃ p, k.boundProx x r = some p ∧ IsProj (ballOf k r) x p := by
  cases k with
  | l1norm => exact C02_l1norm_bound_prox x r hr
  | supnorm => exact ⟨_, rfl, C05_supnorm_bound_prox x r hr⟩
  | l2norm => exact ⟨_, rfl, C06_l2norm_bound_prox x r hr⟩
  | positivePart => exact C07_positive_part_bound_prox x r hr
  | maxPositivePart => exact ⟨_, rfl, C07_max_positive_part_bound_prox x r hr⟩
  | constrainedMax => exact ⟨_, rfl, C07_constrained_max_bound_prox x r hr⟩
  | constrainedPositivePart => exact C07_constrained_positive_part_bound_prox x r hr

/-- the penalty part of an atom: `r h` or the indicator of `h ≤ r` -/
noncomputable def atomBase (k : Klass) (bound : Bool) (r : ℝ) (z : Fin (n + 1) → ℝ) : WithTop ℝ := by
  classical
  exact if bound then (if z ∈ ballOf k r then 0 else ⊤) else penalty k r z

private lemma collapsedLinear_arr (q : Quad (Fin (n + 1)) ℝ) (w : Fin (n + 1) → ℝ) (hw : q.linear = some (.arr w)) :
    ∃ l, q.collapsedLinear = .arr l := by
  unfold Quad.collapsedLinear
  rw [hw]
  rcases q.center with _ | (c | c) <;> exact ⟨_, rfl⟩

/-- totality of `proximal` when the query has an array-valued linear term -/
lemma prox_total (lag : (Fin (n + 1) → ℝ) → ℝ → ℝ → Option (Fin (n + 1) → ℝ))
    (bd : (Fin (n + 1) → ℝ) → ℝ → Option (Fin (n + 1) → ℝ)) (par : AtomParam ℝ)
    (hbase : ∀ arg L, 0 < L → ∃ p, (match par with
      | .lagrange lam => lag arg L lam
      | .bound b => bd arg b) = some p)
    (offset : Option (PyVec (Fin (n + 1)) ℝ)) (sq q : Quad (Fin (n + 1)) ℝ) (w : Fin (n + 1) → ℝ)
    (hw : q.linear = some (.arr w)) (hpos : 0 < sq.coef + q.coef) :
    ∃ p, seminormProximal lag bd par offset sq (some q) = .ok p := by
  have harr : ∃ l, (sq.add (some q)).linear = some (.arr l) := by
    obtain ⟨l, hl⟩ := collapsedLinear_arr q w hw
    show ∃ l', some (PyVec.map₂ (· + ·) sq.collapsedLinear q.collapsedLinear) = some (.arr l')
    rw [hl]
    cases sq.collapsedLinear <;> exact ⟨_, rfl⟩
  obtain ⟨l, hl⟩ := harr
  have hc : (sq.add (some q)).center = some (.scalar 0) := rfl
  have hrec : ∃ o tq l', (sq.add (some q)).recenter offset = some (o, tq) ∧ tq.coef = sq.coef + q.coef ∧
      tq.linear = some (.arr l') := by
    have key : ∀ q' : Quad (Fin (n + 1)) ℝ, q'.linear = some (.arr l) → ∃ l', q'.collapsed.linear = some (.arr l') := by
      intro q' h
      obtain ⟨l', h'⟩ := collapsedLinear_arr q' l h
      exact ⟨l', congrArg some h'⟩
    unfold Quad.recenter
    rcases offset with _ | o
    · obtain ⟨l', h'⟩ := key _ hl
      exact ⟨_, _, l', rfl, rfl, h'⟩
    · simp only
      by_cases hz : o.allZero
      · rw [if_pos hz]
        obtain ⟨l', h'⟩ := key _ hl
        exact ⟨_, _, l', rfl, rfl, h'⟩
      · rw [if_neg hz, hc]
        obtain ⟨l', h'⟩ := key { sq.add (some q) with center := some (PyVec.map₂ (· - ·) (.scalar 0) o) } hl
        exact ⟨_, _, l', rfl, rfl, h'⟩
  obtain ⟨o, tq, l', h1, h2, h3⟩ := hrec
  obtain ⟨p, hp⟩ := hbase (fun i => -(l' i) / tq.coef) tq.coef (h2 ▸ hpos)
  unfold seminormProximal
  rw [h1]
  simp only
  rw [if_neg (by rw [h2]; exact hpos.ne'), h3]
  simp only
  cases par with
  | lagrange lam =>
    simp only at hp
    dsimp only
    rw [hp]
    cases o <;> exact ⟨_, rfl⟩
  | bound b =>
    simp only at hp
    dsimp only
    rw [hp]
    cases o <;> exact ⟨_, rfl⟩

lemma denote_eq_offAt (o : Option (PyVec (Fin (n + 1)) ℝ)) : denote o = offAt o := by
  funext i
  unfold denote offAt
  rcases o with _ | (c | c) <;> rfl

/-- whatever `proximal` of an atom returns for a positive total coefficient is the minimiser -/
lemma obj_prox_min (a : AtomObj (Fin (n + 1)) ℝ) (b : Bool) (r : ℝ) (hm : InMode a b r)
    (q : Quad (Fin (n + 1)) ℝ) (hpos : 0 < a.quad.coef + q.coef) (p : Fin (n + 1) → ℝ) (hok : a.proximal q = .ok p) :
      IsUniqueMinOn (fun u => quadVal (some q) u + quadVal (some a.quad) u +
          (atomBase a.klass b r fun i => u i - offAt a.offset i).untopD 0)
        {u | atomBase a.klass b r (fun i => u i - offAt a.offset i) ≠ ⊤} p := by
  obtain ⟨hr, hst⟩ := hm
  cases b with
  | false =>
    have hst' : a.st = ⟨some r, none⟩ := hst
    have hp : seminormProximal a.klass.lagrangeProx a.klass.boundProx (.lagrange r) a.offset a.quad (some q) = .ok p := by
      unfold AtomObj.proximal at hok; rw [hst'] at hok; exact hok
    have := C10_proximal_lagrange a.klass.lagrangeProx a.klass.boundProx
      (fun z => (penalty a.klass r z).untopD 0) {z | penalty a.klass r z ≠ ⊤} r (fun arg L p hL h => by
        obtain ⟨p', h1, h2⟩ := class_lagrange a.klass hr hL arg
        rw [h1, Option.some_inj] at h; rw [← h]; exact h2) a.offset a.quad (some q) p hpos hp
    rw [denote_eq_offAt] at this
    exact this
  | true =>
    have hst' : a.st = ⟨none, some r⟩ := hst
    have hp : seminormProximal a.klass.lagrangeProx a.klass.boundProx (.bound r) a.offset a.quad (some q) = .ok p := by
      unfold AtomObj.proximal at hok; rw [hst'] at hok; exact hok
    have := C10_proximal_bound a.klass.lagrangeProx a.klass.boundProx (ballOf a.klass r) r (fun arg p h => by
        obtain ⟨p', h1, h2⟩ := class_bound a.klass hr arg
        rw [h1, Option.some_inj] at h; rw [← h]; exact h2) a.offset a.quad (some q) p hpos hp
    rw [denote_eq_offAt] at this
    have hb : ∀ z : Fin (n + 1) → ℝ, atomBase a.klass true r z ≠ ⊤ ↔ z ∈ ballOf a.klass r := by
      intro z; unfold atomBase; by_cases h : z ∈ ballOf a.klass r <;> simp [h]
    have hv : ∀ z : Fin (n + 1) → ℝ, z ∈ ballOf a.klass r → (atomBase a.klass true r z).untopD 0 = 0 := by
      intro z h; unfold atomBase; simp [h]
    have hp1 := this.1
    refine ⟨(hb _).2 hp1, fun u hu hne => ?_⟩
    have hu' := (hb _).1 hu
    have := this.2 u hu' hne
    simp only
    rw [hv _ hu', hv _ hp1, add_zero, add_zero]
    exact this

/-- what `proximal` of an atom with a positive total coefficient returns -/
lemma obj_prox (a : AtomObj (Fin (n + 1)) ℝ) (b : Bool) (r : ℝ) (hm : InMode a b r)
    (q : Quad (Fin (n + 1)) ℝ) (w : Fin (n + 1) → ℝ) (hw : q.linear = some (.arr w)) (hpos : 0 < a.quad.coef + q.coef) :
    ∃ p, a.proximal q = .ok p ∧
      IsUniqueMinOn (fun u => quadVal (some q) u + quadVal (some a.quad) u +
          (atomBase a.klass b r fun i => u i - offAt a.offset i).untopD 0)
        {u | atomBase a.klass b r (fun i => u i - offAt a.offset i) ≠ ⊤} p := by
  have hex : ∃ p, a.proximal q = .ok p := by
    obtain ⟨hr, hst⟩ := hm
    cases b with
    | false =>
      have hst' : a.st = ⟨some r, none⟩ := hst
      have he : a.proximal q = seminormProximal a.klass.lagrangeProx a.klass.boundProx (.lagrange r) a.offset a.quad (some q) := by
        unfold AtomObj.proximal; rw [hst']
      rw [he]
      exact prox_total a.klass.lagrangeProx a.klass.boundProx (.lagrange r) (fun arg L hL => by
        obtain ⟨p, h, _⟩ := class_lagrange a.klass hr hL arg
        exact ⟨p, h⟩) a.offset a.quad q w hw hpos
    | true =>
      have hst' : a.st = ⟨none, some r⟩ := hst
      have he : a.proximal q = seminormProximal a.klass.lagrangeProx a.klass.boundProx (.bound r) a.offset a.quad (some q) := by
        unfold AtomObj.proximal; rw [hst']
      rw [he]
      exact prox_total a.klass.lagrangeProx a.klass.boundProx (.bound r) (fun arg L hL => by
        obtain ⟨p, h, _⟩ := class_bound a.klass hr arg
        exact ⟨p, h⟩) a.offset a.quad q w hw hpos
  obtain ⟨p, hp⟩ := hex
  exact ⟨p, hp, obj_prox_min a b r hm q hpos p hp⟩

lemma seminorm_false (k : Klass) (r : ℝ) (z : Fin (n + 1) → ℝ) (h : penalty k r z ≠ ⊤) :
    k.seminorm z r false = penalty k r z := by
  cases k with
  | l1norm => rfl
  | supnorm => rfl
  | l2norm => rfl
  | positivePart => rfl
  | maxPositivePart => simp only [penalty, Klass.seminorm, MaxPosPart.seminorm]; rw [mul_comm]; rfl
  | constrainedMax =>
    simp only [penalty] at h ⊢
    by_cases hz : ∀ i, 0 ≤ z i
    · rw [if_pos hz]; simp only [Klass.seminorm, ConMax.seminorm]
      rw [if_pos (Or.inr trivial)]; rfl
    · rw [if_neg hz] at h; exact absurd rfl h
  | constrainedPositivePart =>
    simp only [penalty] at h ⊢
    by_cases hz : ∀ i, 0 ≤ z i
    · rw [if_pos hz]; simp only [Klass.seminorm, ConPosPart.seminorm]
      rw [if_pos (Or.inr trivial), mul_comm, Finset.sum_congr rfl fun i _ => max_eq_left (hz i)]
    · rw [if_neg hz] at h; exact absurd rfl h

private lemma base_add_coe (k : Klass) (b : Bool) (r : ℝ) (z : Fin (n + 1) → ℝ) (h : atomBase k b r z ≠ ⊤) (t : ℝ) :
    atomBase k b r z + ((t : ℝ) : WithTop ℝ) = (((atomBase k b r z).untopD 0 + t : ℝ) : WithTop ℝ) := by
  obtain ⟨v, hv⟩ := WithTop.ne_top_iff_exists.1 h
  rw [← hv]; rfl

/-- the value reported without feasibility check at a point where the atom is finite -/
lemma obj_value (a : AtomObj (Fin (n + 1)) ℝ) (b : Bool) (r : ℝ) (hm : InMode a b r) (p : Fin (n + 1) → ℝ)
    (hdom : atomBase a.klass b r (fun i => p i - offAt a.offset i) ≠ ⊤) :
    a.nonsmoothObjective p false =
      some (atomBase a.klass b r (fun i => p i - offAt a.offset i) + ((a.quad.funcVal p : ℝ) : WithTop ℝ)) := by
  have happ : a.applyOffset p = fun i => p i - offAt a.offset i := by
    unfold AtomObj.applyOffset offAt
    cases a.offset with
    | none => funext i; simp
    | some o => rfl
  obtain ⟨hr, hst⟩ := hm
  unfold AtomObj.nonsmoothObjective
  rw [happ]
  cases b with
  | false =>
    have hst' : a.st = ⟨some r, none⟩ := hst
    rw [hst']
    have hdom' : penalty a.klass r (fun i => p i - offAt a.offset i) ≠ ⊤ := hdom
    simp only
    rw [seminorm_false _ _ _ hdom']
    rfl
  | true =>
    have hst' : a.st = ⟨none, some r⟩ := hst
    rw [hst']
    have : atomBase a.klass true r (fun i => p i - offAt a.offset i) = 0 := by
      unfold atomBase at hdom ⊢
      simp only [if_true] at hdom ⊢
      by_cases h : (fun i => p i - offAt a.offset i) ∈ ballOf a.klass r
      · rw [if_pos h]
      · rw [if_neg h] at hdom; exact absurd rfl hdom
    rw [this]
    simp

/-- what `solve(return_optimum=True)` returns when `proximal` succeeds at a feasible point -/
lemma obj_solve (a : AtomObj (Fin (n + 1)) ℝ) (b : Bool) (r : ℝ) (hm : InMode a b r)
    (q : Quad (Fin (n + 1)) ℝ) (p : Fin (n + 1) → ℝ) (hp : a.proximal q = .ok p)
    (hdom : atomBase a.klass b r (fun i => p i - offAt a.offset i) ≠ ⊤) :
    a.solve q = some ((atomBase a.klass b r fun i => p i - offAt a.offset i).untopD 0 + a.quad.funcVal p + q.funcVal p, p) := by
  have hval := obj_value a b r hm p hdom
  unfold AtomObj.solve
  rw [hp]
  simp only
  rw [hval, base_add_coe _ _ _ _ hdom]
  simp only [Option.bind_some, Option.map_some, zero_add,
    show ∀ v : ℝ, finite? ((v : ℝ) : WithTop ℝ) = some v from fun v => rfl]

private lemma funcVal_quadFn (q : Quad (Fin (n + 1)) ℝ) (x : Fin (n + 1) → ℝ) :
    q.funcVal x = quadFn q.coef (denote q.center) (denote q.linear) q.const x := by
  have h1 : denote q.center = centerAt q := by
    funext i; unfold denote centerAt; rcases q.center with _ | (c | c) <;> rfl
  have h2 : denote q.linear = linearAt q := by
    funext i; unfold denote linearAt; rcases q.linear with _ | (c | c) <;> rfl
  rw [funcVal_eq, h1, h2]; rfl

/-- documented function of a smoothing quadratic: `coef/2 ‖u - center‖² + ⟨linear, u⟩ + const` -/
noncomputable def smoothingFn (q : Quad (Fin (n + 1)) ℝ) : (Fin (n + 1) → ℝ) → ℝ :=
  quadFn q.coef (denote q.center) (denote q.linear) q.const

/-- the quadratic is not centred at a nonzero Python float (whose norm is computed wrongly, see
`C14_collapsed_fails`) -/
def ArrayCenter (q : Quad (Fin (n + 1)) ℝ) : Prop := ∀ c, q.center = some (.scalar c) → c = 0

/-- C48: for every seminorm atom `f` (any class, either mode, any array offset and linear term) and every smoothing
quadratic `q` with positive coefficient, `f.smoothed(q)` succeeds; its `smooth_objective` returns in the three modes a
function `V` and a map `G` with `V x = sup_u ⟨x,u⟩ - f*(u) - q(u)` attained exactly at `G x`; `G` is the gradient of
`V`; and `G` is Lipschitz with the constant `1/coef` stored in the attribute `lipschitz`. -/
theorem C48_smoothed (a : AtomObj (Fin (n + 1)) ℝ) (b : Bool) (r : ℝ) (hm : InMode a b r) (ha : a.quad.coef = 0)
    (ho : ArrayOffset a) (q : Quad (Fin (n + 1)) ℝ) (hq : 0 < q.coef) (hcen : ArrayCenter q) :
    ∃ s, a.smoothed q = .ok s ∧ s.lipschitz = 1 / q.coef ∧
      ∃ V G, Evaluates s.smoothObjective V G ∧
        (∀ fstar, IsConjugate (denoteAtom a b r) fstar → IsSmoothedBy fstar (smoothingFn q) V G) ∧
        (∀ x, IsGradientAt V (G x) x) ∧ IsLipschitzWith (1 / q.coef) G := by
  obtain ⟨a', h1, hm', hq', hconj⟩ := C13_conjugate a b r hm ha ho
  set c' : AtomObj (Fin (n + 1)) ℝ := { a' with quad := q.add (some a'.quad) } with hc'
  have hcoef : c'.quad.coef = q.coef := by
    show q.coef + a'.quad.coef = q.coef
    rw [hq', add_zero]
  have hmc : InMode c' (!b) r := hm'
  set s : SmoothConj n := ⟨c', ⟨0, some (.scalar 0), some (.scalar 0), 0⟩⟩ with hs
  have htot : (s.atom.quad.add (some s.smoothing)).coef = q.coef := by
    show c'.quad.coef + 0 = q.coef
    rw [add_zero, hcoef]
  have hok : a.smoothed q = .ok s := by
    unfold AtomObj.smoothed
    rw [h1]
    simp only
    rw [if_neg hq.ne']
    have e1 : c'.getConjugate = .smoothConjugate c' := by
      unfold AtomObj.getConjugate; rw [if_neg (by rw [hcoef]; exact hq.ne')]
    have e2 : SmoothConj.init c' = some s := by
      unfold SmoothConj.init
      exact if_neg (by rw [show (c'.quad.add (some (⟨0, some (.scalar 0), some (.scalar 0), 0⟩ : Quad (Fin (n + 1)) ℝ))).coef = q.coef from htot]; exact hq.ne')
    rw [← hc', e1]
    simp only
    rw [e2]
  refine ⟨s, hok, by unfold SmoothConj.lipschitz; rw [htot], ?_⟩
  -- the query
  have hlin : ∀ x, ∃ w, (s.query x).linear = some (.arr w) := fun x => ⟨_, rfl⟩
  have hqc : ∀ x, (s.query x).coef = 0 := fun x => by
    show (0:ℝ) + 0 = 0
    norm_num
  have hqv : ∀ x u, (s.query x).funcVal u = -dot x u := by
    intro x u
    rw [funcVal_eq, hqc]
    have e1 : ∀ i, linearAt (s.query x) i = -x i := by
      intro i
      simp [linearAt, SmoothConj.query, Quad.add, collapsedLinear_get, centerAt, hs]
    have e2 : (s.query x).const = 0 := by
      simp [SmoothConj.query, Quad.add, Quad.collapsed, hs]
    simp only [e1, e2]
    simp [dot]
  have hcv : ∀ u, c'.quad.funcVal u = smoothingFn q u + (dot (linearAt a'.quad) u + a'.quad.const) := by
    intro u
    show (q.add (some a'.quad)).funcVal u = _
    have hdef : centerDefect q = 0 := by
      unfold centerDefect
      rcases hqq : q.center with _ | (c | c)
      · rfl
      · simp [hcen c hqq]
      · rfl
    rw [add_funcVal, collapsed_funcVal, collapsed_funcVal, hdef, hq', funcVal_quadFn q, funcVal_eq a'.quad, hq']
    unfold smoothingFn dot
    ring
  choose w hw using hlin
  choose G hG1 hG2 using fun x => obj_prox c' (!b) r hmc (s.query x) (w x) (hw x)
    (by rw [hcoef, hqc, add_zero]; exact hq)
  set f : (Fin (n + 1) → ℝ) → WithTop ℝ := fun u => atomBase a'.klass (!b) r (fun i => u i - offAt a'.offset i) with hf
  have hfs : ∀ u, denoteAtom a' (!b) r u = f u + ((dot (linearAt a'.quad) u + a'.quad.const : ℝ) : WithTop ℝ) :=
    fun u => rfl
  have htop : ∀ u, denoteAtom a' (!b) r u ≠ ⊤ ↔ f u ≠ ⊤ := by
    intro u; rw [hfs]; simp
  have hunt : ∀ u, f u ≠ ⊤ → (denoteAtom a' (!b) r u).untopD 0 =
      (f u).untopD 0 + (dot (linearAt a'.quad) u + a'.quad.const) := by
    intro u hu
    rw [hfs, base_add_coe _ _ _ _ hu]; rfl
  set h : (Fin (n + 1) → ℝ) → ℝ := fun u => (denoteAtom a' (!b) r u).untopD 0 with hh
  set S : Set (Fin (n + 1) → ℝ) := {u | denoteAtom a' (!b) r u ≠ ⊤} with hS
  have hconv : IsConvexFnOn h S := conj_convex hconj
  have hdual : IsDualPoint q.coef h S (denote q.center) (denote q.linear) G := by
    intro x
    have hx := hG2 x
    refine ⟨(htop _).2 hx.1, fun u hu hne => ?_⟩
    have hu' := (htop u).1 hu
    have h2 := hx.2 u hu' hne
    have e : ∀ u, f u ≠ ⊤ → quadVal (some (s.query x)) u + quadVal (some c'.quad) u + (f u).untopD 0 =
        q.coef / 2 * sqDist u (denote q.center) + dot (fun i => denote q.linear i - x i) u + h u + q.const := by
      intro u hu
      have v1 : quadVal (some (s.query x)) u = -dot x u := by rw [← hqv]; exact (funcVal_quadFn _ _).symm
      have v2 : quadVal (some c'.quad) u = c'.quad.funcVal u := (funcVal_quadFn _ _).symm
      have v3 : dot (fun i => denote q.linear i - x i) u = dot (denote q.linear) u - dot x u := by
        unfold dot; rw [← Finset.sum_sub_distrib]; exact Finset.sum_congr rfl fun i _ => by ring
      have v4 : h u = _ := hunt u hu
      rw [v1, v2, hcv, v3, v4]
      unfold smoothingFn quadFn
      ring
    have g1 := e u hu'
    have g2 := e (G x) hx.1
    have h3 : quadVal (some (s.query x)) (G x) + quadVal (some c'.quad) (G x) + (f (G x)).untopD 0 <
        quadVal (some (s.query x)) u + quadVal (some c'.quad) u + (f u).untopD 0 := h2
    rw [g1, g2] at h3
    simp only
    linarith
  have hval : ∀ x, (atomBase c'.klass (!b) r fun i => G x i - offAt c'.offset i).untopD 0 + c'.quad.funcVal (G x) +
      (s.query x).funcVal (G x) =
      -(dualValue q.coef h (denote q.center) (denote q.linear) G x - q.const) := by
    intro x
    have hd : f (G x) ≠ ⊤ := (hG2 x).1
    have e1 : (atomBase c'.klass (!b) r fun i => G x i - offAt c'.offset i).untopD 0 = (f (G x)).untopD 0 := rfl
    have v4 : h (G x) = _ := hunt (G x) hd
    rw [e1, hqv, hcv]
    unfold dualValue smoothingFn quadFn
    rw [v4]
    ring
  have hsol : ∀ x, s.atom.solve (s.query x) =
      some (-(dualValue q.coef h (denote q.center) (denote q.linear) G x - q.const), G x) := by
    intro x
    have := obj_solve c' (!b) r hmc (s.query x) (G x) (hG1 x) (hG2 x).1
    rw [hval] at this
    exact this
  refine ⟨fun x => dualValue q.coef h (denote q.center) (denote q.linear) G x - q.const, G, ?_, ?_, ?_, ?_⟩
  · intro x
    refine ⟨?_, ?_, ?_⟩
    · simp only [SmoothConj.smoothObjective]
      rw [hsol]; simp
    · simp only [SmoothConj.smoothObjective]
      rw [show s.atom.proximal (s.query x) = .ok (G x) from hG1 x]
    · simp only [SmoothConj.smoothObjective]
      rw [hsol]; simp
  · intro fstar hfstar
    rw [conj_unique hfstar hconj]
    intro x
    have val : ∀ u sv, denoteAtom a' (!b) r u = ((sv : ℝ) : WithTop ℝ) → h u = sv := by
      intro u sv hu; rw [hh]; simp only; rw [hu]; rfl
    constructor
    · obtain ⟨sv, hsv⟩ := WithTop.ne_top_iff_exists.1 ((htop _).2 (hG2 x).1)
      refine ⟨sv, hsv.symm, ?_⟩
      unfold dualValue smoothingFn quadFn
      dsimp only
      rw [show h (G x) = sv from val _ _ hsv.symm]
      ring
    · intro u sv hu hne
      have hmem : u ∈ S := by
        show denoteAtom a' (!b) r u ≠ ⊤
        rw [hu]; exact WithTop.coe_ne_top
      have h2 := (hdual x).2 u hmem hne
      have v3 : ∀ u, dot (fun i => denote q.linear i - x i) u = dot (denote q.linear) u - dot x u := by
        intro u; unfold dot; rw [← Finset.sum_sub_distrib]; exact Finset.sum_congr rfl fun i _ => by ring
      simp only [v3] at h2
      rw [val _ _ hu] at h2
      unfold dualValue smoothingFn quadFn
      linarith
  · intro x
    have := dual_gradient hq hconv hdual x
    exact HasFDerivAt.sub_const _ this
  · intro x y
    exact dual_lipschitz hq hconv hdual y x

/-- concrete case: `l1norm(2, lagrange=2, offset=[1,3])` smoothed by `identity_quadratic(0.5, 0, [1,1], 3)` -/
example : ∃ (a : AtomObj (Fin 2) ℝ) (q : Quad (Fin 2) ℝ), InMode (n := 1) a false 2 ∧ a.quad.coef = 0 ∧
    ArrayOffset (n := 1) a ∧ 0 < q.coef ∧ ArrayCenter (n := 1) q := by
  refine ⟨⟨.l1norm, ⟨some 2, none⟩, some (.arr ![1, 3]), ⟨0, some (.scalar 0), some (.arr ![4, -1]), 7⟩⟩,
    ⟨1 / 2, some (.scalar 0), some (.arr ![1, 1]), 3⟩, ⟨by norm_num, rfl⟩, rfl, ?_, by norm_num, ?_⟩
  · intro c h; simp at h
  · intro c h; simp at h; exact h.symm

/-- C48: a smoothing quadratic with zero coefficient is rejected, whatever the atom. -/
theorem C48_zero_coef_rejected (a : AtomObj (Fin (n + 1)) ℝ) (q : Quad (Fin (n + 1)) ℝ) (hq : q.coef = 0) :
    a.smoothed q = .valueError := by
  unfold AtomObj.smoothed
  cases a.getConjugate <;> simp [hq]

/-- C48 fails for an atom which already has a quadratic term: `smoothed` raises TypeError (an unknown keyword is
passed to the constructor of `smooth_conjugate`) for every valid smoothing quadratic. -/
theorem C48_atom_with_quadratic_fails (a : AtomObj (Fin (n + 1)) ℝ) (ha : a.quad.coef ≠ 0)
    (q : Quad (Fin (n + 1)) ℝ) (hq : 0 < q.coef) : a.smoothed q = .typeError := by
  unfold AtomObj.smoothed AtomObj.getConjugate
  rw [if_neg ha]
  simp [hq.ne']

end Verif.Props
