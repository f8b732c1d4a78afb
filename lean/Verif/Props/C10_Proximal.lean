import Verif.Props.C14_Quadratic
import Verif.Props.C02_Seminorms
import Verif.Props.C06_L2

/-!
# C10: `atom.proximal(q)` minimises `q(x) + atom.quadratic(x) + h(x - offset)`

`quadVal` is the documented function of an optional quadratic (`None` counts as 0).
-/

set_option linter.unusedSectionVars false
set_option linter.unusedVariables false

namespace Verif.Props
open Verif.Model Verif.Lemmas Verif.Spec

variable {K : Type*} [Field K] [LinearOrder K] [IsStrictOrderedRing K]
variable {ι : Type*} [Fintype ι]

/-- value of an optional identity_quadratic -/
def quadVal (q : Option (Quad ι K)) (x : ι → K) : K :=
  match q with
  | none => 0
  | some q => quadFn q.coef (denote q.center) (denote q.linear) q.const x

/-- coefficient of an optional identity_quadratic -/
def quadCoef (q : Option (Quad ι K)) : K :=
  match q with
  | none => 0
  | some q => q.coef

private lemma fv (q : Quad ι K) (x : ι → K) :
    q.funcVal x = quadFn q.coef (denote q.center) (denote q.linear) q.const x := by
  have := C14_objective_func (some q.coef) q.center q.linear (some q.const) x
  simpa [Quad.init, Quad.objective] using this

private lemma add_val (sq : Quad ι K) (q : Option (Quad ι K)) :
    (sq.add q).coef = sq.coef + quadCoef q ∧
    ∃ c : K, ∀ x, (sq.add q).funcVal x = quadVal (some sq) x + quadVal q x + c := by
  rcases q with _ | q
  · refine ⟨by simp [Quad.add, quadCoef], 0, fun x => ?_⟩
    simp [Quad.add, quadVal, fv]
  · refine ⟨rfl, ?_⟩
    obtain ⟨c, hc⟩ := C14_add_up_to_const sq q
    exact ⟨c, fun x => by rw [hc, fv, fv]; rfl⟩

private lemma recenter_collapsed (q q' : Quad ι K) (offset o : Option (PyVec ι K))
    (h : q.recenter offset = some (o, q')) : ∃ q'' : Quad ι K, q' = q''.collapsed := by
  unfold Quad.recenter at h
  rcases offset with _ | off
  · simp only [Option.some.injEq, Prod.mk.injEq] at h; exact ⟨_, h.2.symm⟩
  · simp only at h
    split_ifs at h
    · simp only [Option.some.injEq, Prod.mk.injEq] at h; exact ⟨_, h.2.symm⟩
    · rcases hc : q.center with _ | c
      · rw [hc] at h; simp at h
      · rw [hc] at h; simp only [Option.some.injEq, Prod.mk.injEq] at h; exact ⟨_, h.2.symm⟩

private lemma uniqueMin_shift {α : Type*} {f g : α → K} {S : Set α} {p : α} (c : K)
    (h : ∀ x, f x = g x + c) : IsUniqueMinOn f S p ↔ IsUniqueMinOn g S p := by
  unfold IsUniqueMinOn
  simp only [h, add_lt_add_iff_right]

/-- Common core: the base step solves the centred problem. -/
private lemma core (sq : Quad ι K) (q : Option (Quad ι K)) (offset o : Option (PyVec ι K)) (tq : Quad ι K)
    (l : ι → K) (eta : ι → K) (h : (ι → K) → K) (S : Set (ι → K))
    (hrec : (sq.add q).recenter offset = some (o, tq)) (hlin : tq.linear = some (.arr l))
    (hcoef : 0 < sq.coef + quadCoef q)
    (hbase : IsUniqueMinOn (fun z => tq.coef / 2 * sqDist z (fun i => -(l i) / tq.coef) + h z) S eta) :
    IsUniqueMinOn (fun x => quadVal q x + quadVal (some sq) x + h (fun i => x i - denote offset i))
      {x | (fun i => x i - denote offset i) ∈ S} (fun i => eta i + denote offset i) := by
  obtain ⟨hac, c, hc⟩ := add_val sq q
  obtain ⟨_, htc, _⟩ := C15_recenter _ _ _ _ hrec
  obtain ⟨q'', hq''⟩ := recenter_collapsed _ _ _ _ hrec
  have htcoef : 0 < tq.coef := by rw [htc, hac]; exact hcoef
  have h1 : IsUniqueMinOn (fun z => tq.funcVal z + h z) S eta := by
    refine (uniqueMin_shift (tq.const - (∑ i, l i ^ 2) / (2 * tq.coef)) (fun z => ?_)).2 hbase
    have e : tq.funcVal z = tq.coef / 2 * ∑ i, z i ^ 2 + ∑ i, l i * z i + tq.const := by
      rw [funcVal_eq]
      have e1 : ∀ i, centerAt tq i = 0 := by rw [hq'']; exact fun i => rfl
      have e2 : ∀ i, linearAt tq i = l i := by intro i; simp [linearAt, hlin]
      simp only [e1, e2, sub_zero]
    rw [e, complete_square tq.coef htcoef.ne']
    ring
  have h2 := (C15_recenter_minimisers _ _ _ _ hrec h S eta).1 h1
  refine (uniqueMin_shift c (fun z => ?_)).1 h2
  rw [hc]; ring

/-- C10, lagrange mode.  `h, S`: value and effective domain of the penalty `lagrange * h`; the base proximal map
is assumed correct for every positive Lipschitz constant (this is what C03, C05, C06, C07 prove of the
concrete atoms). -/
theorem C10_proximal_lagrange
    (lagrangeProx : (ι → K) → K → K → Option (ι → K)) (boundProx : (ι → K) → K → Option (ι → K))
    (h : (ι → K) → K) (S : Set (ι → K)) (lam : K)
    (hbase : ∀ arg L p, 0 < L → lagrangeProx arg L lam = some p → IsProxOn L h S arg p)
    (offset : Option (PyVec ι K)) (sq : Quad ι K) (q : Option (Quad ι K)) (p : ι → K)
    (hcoef : 0 < sq.coef + quadCoef q)
    (hok : seminormProximal lagrangeProx boundProx (.lagrange lam) offset sq q = .ok p) :
    IsUniqueMinOn (fun x => quadVal q x + quadVal (some sq) x + h (fun i => x i - denote offset i))
      {x | (fun i => x i - denote offset i) ∈ S} p := by
  unfold seminormProximal at hok
  split at hok
  · cases hok
  · rename_i off tq hrec
    obtain ⟨hden, htc, _⟩ := C15_recenter _ _ _ _ hrec
    obtain ⟨hac, _⟩ := add_val sq q
    have htcoef : 0 < tq.coef := by rw [htc, hac]; exact hcoef
    rw [if_neg htcoef.ne'] at hok
    split at hok
    · cases hok
    · cases hok
    · rename_i l hlin
      simp only at hok
      split at hok
      · cases hok
      · rename_i eta heta
        have hb := hbase _ _ _ htcoef heta
        have := core sq q offset off tq l eta h S hrec hlin hcoef hb
        convert this using 1
        split at hok
        · simp only [ProxResult.ok.injEq] at hok
          subst hok
          funext i
          rw [← congrFun hden i]; simp [denote]
        · rename_i o
          simp only [ProxResult.ok.injEq] at hok
          subst hok
          funext i
          rw [← congrFun hden i]; cases o <;> simp [denote]

/-- C10, bound mode: minimises the quadratics over `{x : x - offset ∈ S}`. -/
theorem C10_proximal_bound
    (lagrangeProx : (ι → K) → K → K → Option (ι → K)) (boundProx : (ι → K) → K → Option (ι → K))
    (S : Set (ι → K)) (b : K)
    (hbase : ∀ arg p, boundProx arg b = some p → IsProj S arg p)
    (offset : Option (PyVec ι K)) (sq : Quad ι K) (q : Option (Quad ι K)) (p : ι → K)
    (hcoef : 0 < sq.coef + quadCoef q)
    (hok : seminormProximal lagrangeProx boundProx (.bound b) offset sq q = .ok p) :
    IsUniqueMinOn (fun x => quadVal q x + quadVal (some sq) x)
      {x | (fun i => x i - denote offset i) ∈ S} p := by
  unfold seminormProximal at hok
  split at hok
  · cases hok
  · rename_i off tq hrec
    obtain ⟨hden, htc, _⟩ := C15_recenter _ _ _ _ hrec
    obtain ⟨hac, _⟩ := add_val sq q
    have htcoef : 0 < tq.coef := by rw [htc, hac]; exact hcoef
    rw [if_neg htcoef.ne'] at hok
    split at hok
    · cases hok
    · cases hok
    · rename_i l hlin
      simp only at hok
      split at hok
      · cases hok
      · rename_i eta heta
        have hb := hbase _ _ heta
        have hb' : IsUniqueMinOn (fun z => tq.coef / 2 * sqDist z (fun i => -(l i) / tq.coef) + (fun _ => (0:K)) z) S eta := by
          refine ⟨hb.1, fun z hz hne => ?_⟩
          have := hb.2 z hz hne
          simp only [add_zero] at this ⊢
          exact mul_lt_mul_of_pos_left this (half_pos htcoef)
        have := core sq q offset off tq l eta (fun _ => 0) S hrec hlin hcoef hb'
        simp only [add_zero] at this
        convert this using 1
        split at hok
        · simp only [ProxResult.ok.injEq] at hok
          subst hok
          funext i
          rw [← congrFun hden i]; simp [denote]
        · rename_i o
          simp only [ProxResult.ok.injEq] at hok
          subst hok
          funext i
          rw [← congrFun hden i]; cases o <;> simp [denote]

/-- C10: called with a quadratic whose center is an array (what every solver does), the method returns a point
whenever the total coefficient is nonzero and the base map does not raise, and raises ValueError exactly when
the total coefficient is 0. -/
theorem C10_proximal_total [Nonempty ι]
    (lagrangeProx : (ι → K) → K → K → Option (ι → K)) (boundProx : (ι → K) → K → Option (ι → K))
    (par : AtomParam K)
    (hbase : ∀ arg L, ∃ p, (match par with
      | .lagrange lam => lagrangeProx arg L lam
      | .bound b => boundProx arg b) = some p)
    (offset : Option (PyVec ι K)) (sq q : Quad ι K) (v : ι → K) (hv : q.center = some (.arr v)) :
    (sq.coef + q.coef = 0 → seminormProximal lagrangeProx boundProx par offset sq (some q) = .valueError) ∧
    (sq.coef + q.coef ≠ 0 → ∃ p, seminormProximal lagrangeProx boundProx par offset sq (some q) = .ok p) := by
  have hrec : ∃ o tq, (sq.add (some q)).recenter offset = some (o, tq) := by
    have hn : (sq.add (some q)).recenter offset ≠ none := by
      rw [Ne, C15_recenter_raises]
      simp [Quad.add]
    obtain ⟨⟨o, tq⟩, h⟩ := Option.ne_none_iff_exists'.1 hn
    exact ⟨o, tq, h⟩
  obtain ⟨o, tq, hrec⟩ := hrec
  obtain ⟨_, htc, _⟩ := C15_recenter _ _ _ _ hrec
  have hac : (sq.add (some q)).coef = sq.coef + q.coef := rfl
  -- the linear term of the total quadratic is an array
  have hqc : ∃ w, q.collapsedLinear = .arr w := by
    unfold Quad.collapsedLinear
    rw [hv]
    rcases q.linear with _ | l
    · exact ⟨_, rfl⟩
    · cases l <;> exact ⟨_, rfl⟩
  have hadd : ∃ w, (sq.add (some q)).linear = some (.arr w) := by
    obtain ⟨w, hw⟩ := hqc
    simp only [Quad.add, hw]
    cases sq.collapsedLinear <;> exact ⟨_, rfl⟩
  have hlin : ∃ w, tq.linear = some (.arr w) := by
    obtain ⟨w, hw⟩ := hadd
    have hcl : ∀ q' : Quad ι K, q'.linear = some (.arr w) → ∃ w', q'.collapsed.linear = some (.arr w') := by
      intro q' hq'
      simp only [Quad.collapsed, Quad.collapsedLinear, hq']
      rcases q'.center with _ | c
      · exact ⟨_, rfl⟩
      · cases c <;> exact ⟨_, rfl⟩
    unfold Quad.recenter at hrec
    rcases offset with _ | off
    · simp only [Option.some.injEq, Prod.mk.injEq] at hrec; rw [← hrec.2]; exact hcl _ hw
    · simp only at hrec
      split_ifs at hrec
      · simp only [Option.some.injEq, Prod.mk.injEq] at hrec; rw [← hrec.2]; exact hcl _ hw
      · have hc : (sq.add (some q)).center = some (.scalar 0) := rfl
        rw [hc] at hrec
        simp only [Option.some.injEq, Prod.mk.injEq] at hrec; rw [← hrec.2]; exact hcl _ hw
  obtain ⟨w, hw⟩ := hlin
  constructor
  · intro h0
    unfold seminormProximal
    rw [hrec]
    simp only
    rw [if_pos (by rw [htc, hac, h0])]
  · intro h0
    unfold seminormProximal
    rw [hrec]
    simp only
    rw [if_neg (by rw [htc, hac]; exact h0), hw]
    cases par with
    | lagrange lam =>
      obtain ⟨p, hp⟩ := hbase (fun i => -(w i) / tq.coef) tq.coef
      simp only at hp
      simp only [hp]
      rcases o with _ | o <;> exact ⟨_, rfl⟩
    | bound b =>
      obtain ⟨p, hp⟩ := hbase (fun i => -(w i) / tq.coef) tq.coef
      simp only at hp
      simp only [hp]
      rcases o with _ | o <;> exact ⟨_, rfl⟩

/-- C10 instance: `l1norm(lagrange=lam, offset, quadratic).proximal(q)`. -/
theorem C10_l1norm {n : ℕ} (lam : K) (hl : 0 ≤ lam)
    (offset : Option (PyVec (Fin (n + 1)) K)) (sq : Quad (Fin (n + 1)) K) (q : Option (Quad (Fin (n + 1)) K))
    (p : Fin (n + 1) → K) (hcoef : 0 < sq.coef + quadCoef q)
    (hok : seminormProximal (fun a L l => some (L1.lagrangeProx a L l)) L1.boundProx (.lagrange lam) offset sq q
      = .ok p) :
    IsUniqueMinOn (fun x => quadVal q x + quadVal (some sq) x + lam * ∑ i, |x i - denote offset i|)
      Set.univ p := by
  have := C10_proximal_lagrange _ _ (fun z => lam * ∑ i, |z i|) Set.univ lam (fun arg L p hL h => by
    rw [Option.some_inj] at h; rw [← h]; exact C03_l1norm_lagrange_prox arg L lam hL hl) offset sq q p hcoef hok
  simpa using this

/-- C10 instance: `l1norm(bound=b, offset, quadratic).proximal(q)`. -/
theorem C10_l1norm_bound {n : ℕ} (b : K) (hb : 0 ≤ b)
    (offset : Option (PyVec (Fin (n + 1)) K)) (sq : Quad (Fin (n + 1)) K) (q : Option (Quad (Fin (n + 1)) K))
    (p : Fin (n + 1) → K) (hcoef : 0 < sq.coef + quadCoef q)
    (hok : seminormProximal (fun a L l => some (L1.lagrangeProx a L l)) L1.boundProx (.bound b) offset sq q
      = .ok p) :
    IsUniqueMinOn (fun x => quadVal q x + quadVal (some sq) x) {x | ∑ i, |x i - denote offset i| ≤ b} p := by
  have := C10_proximal_bound _ _ {z | ∑ i, |z i| ≤ b} b (fun arg p h => by
    obtain ⟨p', h1, h2⟩ := C02_l1norm_bound_prox arg b hb
    rw [h1, Option.some_inj] at h; rw [← h]; exact h2) offset sq q p hcoef hok
  simpa using this

/-- C10 instance: `supnorm(lagrange=lam, ...).proximal(q)`. -/
theorem C10_supnorm {n : ℕ} (lam : K) (hl : 0 ≤ lam)
    (offset : Option (PyVec (Fin (n + 1)) K)) (sq : Quad (Fin (n + 1)) K) (q : Option (Quad (Fin (n + 1)) K))
    (p : Fin (n + 1) → K) (hcoef : 0 < sq.coef + quadCoef q)
    (hok : seminormProximal Sup.lagrangeProx (fun a b => some (Sup.boundProx a b)) (.lagrange lam) offset sq q
      = .ok p) :
    IsUniqueMinOn (fun x => quadVal q x + quadVal (some sq) x + lam * maxCoord fun i => |x i - denote offset i|)
      Set.univ p := by
  have := C10_proximal_lagrange _ _ (fun z => lam * maxCoord fun i => |z i|) Set.univ lam (fun arg L p hL h => by
    obtain ⟨p', h1, h2⟩ := C05_supnorm_lagrange_prox arg L lam hL hl
    rw [h1, Option.some_inj] at h; rw [← h]; exact h2) offset sq q p hcoef hok
  simpa using this

/-- C10 instance: `l2norm(lagrange=lam, ...).proximal(q)`. -/
theorem C10_l2norm (lam : ℝ) (hl : 0 ≤ lam)
    (offset : Option (PyVec ι ℝ)) (sq : Quad ι ℝ) (q : Option (Quad ι ℝ))
    (p : ι → ℝ) (hcoef : 0 < sq.coef + quadCoef q)
    (hok : seminormProximal (fun a L l => some (L2.lagrangeProx a L l)) (fun a b => some (L2.boundProx a b))
      (.lagrange lam) offset sq q = .ok p) :
    IsUniqueMinOn (fun x => quadVal q x + quadVal (some sq) x + lam * Real.sqrt (∑ i, (x i - denote offset i) ^ 2))
      Set.univ p := by
  have := C10_proximal_lagrange _ _ (fun z => lam * Real.sqrt (∑ i, z i ^ 2)) Set.univ lam (fun arg L p hL h => by
    rw [Option.some_inj] at h; rw [← h]; exact C06_l2norm_lagrange_prox arg L lam hL hl) offset sq q p hcoef hok
  simpa using this

/-- C10 for cones: `cone.proximal` minimises the quadratics over `{x : x - offset ∈ S}`. -/
theorem C10_cone_proximal (coneProx : (ι → K) → Option (ι → K)) (S : Set (ι → K))
    (hbase : ∀ arg p, coneProx arg = some p → IsProj S arg p)
    (offset : Option (PyVec ι K)) (sq : Quad ι K) (q : Option (Quad ι K)) (p : ι → K)
    (hcoef : 0 < sq.coef + quadCoef q)
    (hok : coneProximal coneProx offset sq q = .ok p) :
    IsUniqueMinOn (fun x => quadVal q x + quadVal (some sq) x)
      {x | (fun i => x i - denote offset i) ∈ S} p := by
  refine C10_proximal_bound (fun _ _ _ => none) (fun a _ => coneProx a) S 0 hbase offset sq q p hcoef ?_
  exact hok

/-- concrete case: the docstring example `l1norm(4, lagrange=2)` with `Q = identity_quadratic(1.5,[3,-4,-1,1],0,0)`
satisfies all the hypotheses of `C10_l1norm` -/
example : ∃ p, seminormProximal (fun a L l => some (L1.lagrangeProx a L l)) L1.boundProx (.lagrange (2:ℚ)) none
    (Quad.init (some 0) (some (.scalar 0)) (some (.scalar 0)) (some 0) : Quad (Fin 4) ℚ)
    (some (Quad.init (some (3/2)) (some (.arr ![3, -4, -1, 1])) (some (.scalar 0)) (some 0))) = .ok p :=
  (C10_proximal_total _ _ _ (fun arg L => ⟨_, rfl⟩) _ _ _ _ rfl).2 (by norm_num [Quad.init])

end Verif.Props
