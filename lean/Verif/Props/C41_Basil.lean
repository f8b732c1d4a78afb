import Verif.Model.Basil
import Verif.Props.C40_StrongRules
import Verif.Lemmas.EnetPath

/-!
# C41: `basil` solves the lagrange sequence in order, and terminates with an exact solver
-/

set_option linter.unusedSectionVars false
set_option linter.unusedVariables false

namespace Verif.Props
open Verif.Model.StrongRules Verif.Model.Basil Verif.Spec Verif.Lemmas

section generic

variable {K : Type*} [Field K] [LinearOrder K] {G V M : Type*} [Fintype G] [Fintype V] [Fintype M]

private lemma innerFor_prefix (P : PathObj K G V M) (solve : Solver K G V) (ca : Bool) (sub : G → Bool) :
    ∀ (l : List K) warm grad ever calls,
      (innerFor P solve ca sub l warm grad ever calls).solved.map Prod.fst <+: l := by
  intro l
  induction l with
  | nil => intro warm grad ever calls; simp [innerFor]
  | cons lam rest ih =>
    intro warm grad ever calls
    rw [innerFor]
    dsimp only
    split
    · simp
    · simp only [List.map_cons]
      exact List.prefix_cons_inj lam |>.2 (ih _ _ _ _)

private lemma minSolved_le (solved : List (K × (V → K))) : ∀ x ∈ solved, minSolved solved ≤ ((x.1 : K) : WithTop K) := by
  induction solved with
  | nil => intro x hx; simp at hx
  | cons a l ih =>
    intro x hx
    unfold minSolved at ih ⊢
    simp only [List.map_cons, List.foldr_cons]
    rcases List.mem_cons.1 hx with rfl | hx
    · exact min_le_left _ _
    · exact (min_le_right _ _).trans (ih x hx)

private lemma lt_minSolved (solved : List (K × (V → K))) (b : K) (h : ∀ x ∈ solved, b < x.1) :
    ((b : K) : WithTop K) < minSolved solved := by
  induction solved with
  | nil => unfold minSolved; simp
  | cons a l ih =>
    unfold minSolved at ih ⊢
    simp only [List.map_cons, List.foldr_cons]
    refine lt_min ?_ (ih fun x hx => h x (List.mem_cons_of_mem _ hx))
    exact WithTop.coe_lt_coe.2 (h a (List.mem_cons_self))

private lemma candidates_eq (A B : List K) (step : ℕ) (solved : List (K × (V → K)))
    (hs : solved.map Prod.fst = A) (hd : (A ++ B).Pairwise (· > ·)) :
    candidates (A ++ B) step solved = B.take step := by
  unfold candidates
  dsimp only
  have h1 : ((A ++ B).filter fun l => decide (minSolved solved ≤ ((l : K) : WithTop K))) = A := by
    rw [List.filter_append]
    have e1 : (A.filter fun l => decide (minSolved solved ≤ ((l : K) : WithTop K))) = A := by
      rw [List.filter_eq_self]
      intro a ha
      rw [← hs, List.mem_map] at ha
      obtain ⟨x, hx, rfl⟩ := ha
      simpa using minSolved_le solved x hx
    have e2 : (B.filter fun l => decide (minSolved solved ≤ ((l : K) : WithTop K))) = [] := by
      rw [List.filter_eq_nil_iff]
      intro b hb
      have := lt_minSolved solved b (fun x hx =>
        (List.pairwise_append.1 hd).2.2 x.1 (by rw [← hs]; exact List.mem_map_of_mem hx) b hb)
      simpa using this
    rw [e1, e2, List.append_nil]
  rw [h1, List.drop_left]

/-- what holds of every appended solution -/
private lemma innerFor_screen (P : PathObj K G V M) (solve : Solver K G V) (ca : Bool) (sub : G → Bool) :
    ∀ (l : List K) warm grad ever calls, ∀ x ∈ (innerFor P solve ca sub l warm grad ever calls).solved,
      ∃ eta, PassesScreen ca (P.checkKKT (fun v => fullGradient P eta v + P.enetGrad x.2 x.1 v) x.2 (P.alpha * x.1)) ∧
        ((∀ v, varsOf P sub v = false → warm v = 0) → eta = linpred P x.2) := by
  intro l
  induction l with
  | nil => intro warm grad ever calls x hx; simp [innerFor] at hx
  | cons lam rest ih =>
    intro warm grad ever calls x hx
    rw [innerFor] at hx
    dsimp only at hx
    split at hx
    · simp at hx
    · next hno =>
      rcases List.mem_cons.1 hx with rfl | hx
      · refine ⟨_, passes_of_not hno, fun hw => ?_⟩
        funext m
        simp only [subLinpred, linpred]
        refine Finset.sum_congr rfl fun v _ => ?_
        by_cases hv : varsOf P sub v = true
        · simp only [hv, if_true]
        · have hv' : varsOf P sub v = false := by simpa using hv
          rw [if_neg hv, if_neg hv, hw v hv', mul_zero]
      · obtain ⟨eta, h1, h2⟩ := ih _ _ _ _ x hx
        refine ⟨eta, h1, fun hw => h2 ?_⟩
        intro v hv
        have : ¬ (varsOf P sub v = true) := by simp [hv]
        simp only [this]
        exact hw v hv

private lemma loop_order (P : PathObj K G V M) (unpen : G → Bool) (solve : Solver K G V) (sn sl : ℕ) (hsl : 1 ≤ sl)
    (seq : List K) (hd : seq.Pairwise (· > ·)) (solution : V → K) :
    ∀ fuel grad cand calls solved out, (solved.map Prod.fst) <+: seq →
      Verif.Model.Basil.loop P unpen solve sn sl seq solution fuel grad cand calls solved = some out →
      out.map Prod.fst = seq := by
  intro fuel
  induction fuel with
  | zero => intro grad cand calls solved out _ h; simp [Verif.Model.Basil.loop] at h
  | succ fuel ih =>
    intro grad cand calls solved out hp h
    rw [Verif.Model.Basil.loop] at h
    obtain ⟨B, rfl⟩ := hp
    have hc := candidates_eq (solved.map Prod.fst) B sl solved rfl hd
    dsimp only at h
    rw [hc] at h
    split at h
    · next hnil =>
      have hB : B = [] := by
        rcases List.take_eq_nil_iff.1 hnil with h | h
        · omega
        · exact h
      injection h with h
      rw [← h, hB, List.append_nil]
    · refine ih _ _ _ _ _ ?_ h
      rw [List.map_append]
      refine (List.prefix_append_right_inj _).2 ?_
      exact (innerFor_prefix _ _ _ _ _ _ _ _ _).trans (List.take_prefix _ _)

/-- C41: for every path object, subproblem solver and (strictly decreasing) lagrange sequence: when `basil` returns, it
has appended exactly one solution for each value of the sequence, in order. -/
theorem C41_order_partial (P : PathObj K G V M) (unpen : G → Bool) (solve : Solver K G V) (stepNvar stepLagrange : ℕ)
    (hstep : 1 ≤ stepLagrange) (seq : List K) (hdec : seq.Pairwise (· > ·)) (solution grad : V → K) (fuel : ℕ)
    (out : List (K × (V → K))) (h : basil P unpen solve stepNvar stepLagrange seq solution grad fuel = some out) :
    out.map Prod.fst = seq :=
  loop_order P unpen solve stepNvar stepLagrange hstep seq hdec solution fuel grad _ 0 [] out (by simp) h

private lemma loop_screen (P : PathObj K G V M) (unpen : G → Bool) (solve : Solver K G V) (sn sl : ℕ)
    (seq : List K) (solution : V → K) (Q : K × (V → K) → Prop)
    (hQ : ∀ subseq grad cand calls, ∀ x ∈ (innerLoop P unpen solve false sn subseq solution grad cand calls).solved, Q x) :
    ∀ fuel grad cand calls solved out, (∀ x ∈ solved, Q x) →
      Verif.Model.Basil.loop P unpen solve sn sl seq solution fuel grad cand calls solved = some out → ∀ x ∈ out, Q x := by
  intro fuel
  induction fuel with
  | zero => intro grad cand calls solved out _ h; simp [Verif.Model.Basil.loop] at h
  | succ fuel ih =>
    intro grad cand calls solved out hs h
    rw [Verif.Model.Basil.loop] at h
    dsimp only at h
    split at h
    · injection h with h; subst h; exact hs
    · refine ih _ _ _ _ _ ?_ h
      intro x hx
      rcases List.mem_append.1 hx with hx | hx
      · exact hs x hx
      · exact hQ _ _ _ _ x hx

/-- C41: every appended solution passed the screen for inactive groups over all groups at its own lagrange value.  When
the starting solution vanishes outside the unpenalised groups, the gradient of the check is that of the loss at the
appended solution. -/
theorem C41_screen (P : PathObj K G V M) (unpen : G → Bool) (solve : Solver K G V) (stepNvar stepLagrange : ℕ)
    (seq : List K) (solution grad : V → K) (hsol : ∀ v, varsOf P unpen v = false → solution v = 0) (fuel : ℕ)
    (out : List (K × (V → K))) (h : basil P unpen solve stepNvar stepLagrange seq solution grad fuel = some out) :
    ∀ x ∈ out, PassesScreen false
      (P.checkKKT (fun v => fullGradient P (linpred P x.2) v + P.enetGrad x.2 x.1 v) x.2 (P.alpha * x.1)) := by
  refine loop_screen P unpen solve stepNvar stepLagrange seq solution _ ?_ fuel grad _ 0 [] out (by simp) h
  intro subseq grad cand calls x hx
  obtain ⟨eta, h1, h2⟩ := innerFor_screen P solve false _ subseq solution grad unpen calls x hx
  rw [h2 ?_] at h1
  · exact h1
  · intro v hv
    refine hsol v (varsOf_mono P ?_ v hv)
    intro g hg
    simp [innerSub, hg]

/-! ### termination -/

private lemma innerFor_progress (P : PathObj K G V M) (solve : Solver K G V) (sub : G → Bool) (lam : K) (rest : List K)
    (warm grad : V → K) (ever : G → Bool) (calls : ℕ)
    (hok : ∀ g, sub g = true →
      failing false (P.checkKKT (fun v => fullGradient P (subLinpred P sub (solve calls warm sub lam)) v +
        P.enetGrad (fun v => if varsOf P sub v then solve calls warm sub lam v else warm v) lam v)
        (fun v => if varsOf P sub v then solve calls warm sub lam v else warm v) (P.alpha * lam)) g = false) :
    (innerFor P solve false sub (lam :: rest) warm grad ever calls).solved ≠ [] ∨
    ((∀ g, sub g = true → (innerFor P solve false sub (lam :: rest) warm grad ever calls).everActive g = true) ∧
      ∃ g, sub g = false ∧ (innerFor P solve false sub (lam :: rest) warm grad ever calls).everActive g = true) := by
  rw [innerFor]
  dsimp only
  split
  · next hf =>
    right
    obtain ⟨g, hg⟩ := hf
    refine ⟨fun g hg => by simp [hg], g, ?_, by simp [hg]⟩
    by_contra hs
    rw [hok g (by simpa using hs)] at hg
    cases hg
  · left; simp

/-- The subproblem solver is exact on its candidate set as far as the path can see: no group of the subproblem is
flagged as an inactive group violating the KKT conditions. -/
def ExactOnCandidates (P : PathObj K G V M) (solve : Solver K G V) (seq : List K) : Prop :=
  ∀ (n : ℕ) (warm : V → K) (S : G → Bool), ∀ lam ∈ seq, (∀ v, varsOf P S v = false → warm v = 0) →
    ∀ g, S g = true →
      let b := fun v => if varsOf P S v then solve n warm S lam v else 0
      (P.checkKKT (fun v => fullGradient P (linpred P b) v + P.enetGrad b lam v) b (P.alpha * lam)).2 g < 0

private lemma hok_of_exact (P : PathObj K G V M) (solve : Solver K G V) (seq : List K)
    (hex : ExactOnCandidates P solve seq) (n : ℕ) (warm : V → K) (S : G → Bool) (lam : K) (hlam : lam ∈ seq)
    (hw : ∀ v, varsOf P S v = false → warm v = 0) (g : G) (hg : S g = true) :
    failing false (P.checkKKT (fun v => fullGradient P (subLinpred P S (solve n warm S lam)) v +
        P.enetGrad (fun v => if varsOf P S v then solve n warm S lam v else warm v) lam v)
        (fun v => if varsOf P S v then solve n warm S lam v else warm v) (P.alpha * lam)) g = false := by
  have e1 : (fun v => if varsOf P S v then solve n warm S lam v else warm v) =
      fun v => if varsOf P S v then solve n warm S lam v else 0 := by
    funext v
    by_cases hv : varsOf P S v = true
    · rw [if_pos hv, if_pos hv]
    · rw [if_neg hv, if_neg hv, hw v (by simpa using hv)]
  have e2 : subLinpred P S (solve n warm S lam) =
      linpred P (fun v => if varsOf P S v then solve n warm S lam v else 0) := by
    funext m
    simp only [subLinpred, linpred]
    refine Finset.sum_congr rfl fun v _ => ?_
    split_ifs <;> simp
  rw [e1, e2]
  have := hex n warm S lam hlam hw g hg
  unfold failing
  rw [Bool.false_and, Bool.false_or, decide_eq_false_iff_not, not_le]
  exact this

private lemma loop_terminates (P : PathObj K G V M) (unpen : G → Bool) (solve : Solver K G V) (sn sl : ℕ) (hsl : 1 ≤ sl)
    (seq : List K) (hd : seq.Pairwise (· > ·)) (solution : V → K)
    (hsol : ∀ v, varsOf P unpen v = false → solution v = 0) (hex : ExactOnCandidates P solve seq) :
    ∀ fuel grad (cand : G → Bool) calls solved B, seq = solved.map Prod.fst ++ B →
      B.length * (Fintype.card G + 1) + (Finset.univ.filter fun g => cand g = false).card < fuel →
      ∃ out, Verif.Model.Basil.loop P unpen solve sn sl seq solution fuel grad cand calls solved = some out := by
  intro fuel
  induction fuel with
  | zero => intro grad cand calls solved B _ h; omega
  | succ fuel ih =>
    intro grad cand calls solved B hB hfuel
    rw [Verif.Model.Basil.loop]
    have hc : candidates seq sl solved = B.take sl := by
      rw [hB] at hd ⊢
      exact candidates_eq _ B sl solved rfl hd
    dsimp only
    rw [hc]
    split
    · exact ⟨_, rfl⟩
    · next hne =>
      cases B with
      | nil => simp at hne
      | cons lam B' =>
        obtain ⟨k, rfl⟩ : ∃ k, sl = k + 1 := ⟨sl - 1, by omega⟩
        rw [List.take_succ_cons]
        set sub := innerSub P unpen sn (lam :: B'.take k) solution grad cand with hsub
        have hr : innerLoop P unpen solve false sn (lam :: B'.take k) solution grad cand calls =
            innerFor P solve false sub (lam :: B'.take k) solution grad unpen calls := rfl
        rw [hr]
        have hmem : lam ∈ seq := by rw [hB]; simp
        have hw : ∀ v, varsOf P sub v = false → solution v = 0 := by
          intro v hv
          refine hsol v (varsOf_mono P (fun g hg => ?_) v hv)
          simp [hsub, innerSub, hg]
        have hcs : ∀ g, cand g = true → sub g = true := by
          intro g hg; simp [hsub, innerSub, hg]
        have hpre := innerFor_prefix P solve false sub (lam :: B'.take k) solution grad unpen calls
        have hprog := innerFor_progress P solve sub lam (B'.take k) solution grad unpen calls
          (fun g hg => hok_of_exact P solve seq hex calls solution sub lam hmem hw g hg)
        generalize innerFor P solve false sub (lam :: B'.take k) solution grad unpen calls = r at hpre hprog ⊢
        have hpre' : r.solved.map Prod.fst <+: lam :: B' := by
          refine hpre.trans ?_
          rw [← List.take_succ_cons]
          exact List.take_prefix _ _
        obtain ⟨C, hC⟩ := hpre'
        refine ih r.grad r.everActive r.calls (solved ++ r.solved) C ?_ ?_
        · rw [hB, List.map_append, List.append_assoc, hC]
        · have hlen : r.solved.length + C.length = B'.length + 1 := by
            have := congrArg List.length hC
            simpa using this
          have hle : (Finset.univ.filter fun g => r.everActive g = false).card ≤ Fintype.card G := Finset.card_le_univ _
          rcases hprog with hne' | ⟨h1, g, h2, h3⟩
          · have hpos : 1 ≤ r.solved.length := by
              rcases Nat.eq_zero_or_pos r.solved.length with h | h
              · exact absurd (List.length_eq_zero_iff.1 h) hne'
              · exact h
            have : (C.length + 1) * (Fintype.card G + 1) ≤ (lam :: B').length * (Fintype.card G + 1) :=
              Nat.mul_le_mul_right _ (by simp; omega)
            rw [Nat.add_mul] at this
            omega
          · have hlt : (Finset.univ.filter fun g => r.everActive g = false).card <
                (Finset.univ.filter fun g => cand g = false).card := by
              apply Finset.card_lt_card
              refine ⟨?_, ?_⟩
              · intro g' hg'
                simp only [Finset.mem_filter, Finset.mem_univ, true_and] at hg' ⊢
                by_contra hcc
                have := h1 g' (hcs g' (by simpa using hcc))
                rw [hg'] at this
                cases this
              · intro hsubset
                have hg : g ∈ Finset.univ.filter fun g => cand g = false := by
                  simp only [Finset.mem_filter, Finset.mem_univ, true_and]
                  by_contra hcc
                  rw [hcs g (by simpa using hcc)] at h2
                  cases h2
                have := hsubset hg
                simp only [Finset.mem_filter, Finset.mem_univ, true_and] at this
                rw [h3] at this
                cases this
            have : C.length * (Fintype.card G + 1) ≤ (lam :: B').length * (Fintype.card G + 1) :=
              Nat.mul_le_mul_right _ (by simp; omega)
            omega

/-- C41: when the subproblem solver is exact on its candidate set, `basil` ends after at most
`length of the sequence * (number of groups + 1) + number of groups + 1` rounds, with one solution per lagrange
value. -/
theorem C41_terminates (P : PathObj K G V M) (unpen : G → Bool) (solve : Solver K G V) (stepNvar stepLagrange : ℕ)
    (hstep : 1 ≤ stepLagrange) (seq : List K) (hdec : seq.Pairwise (· > ·)) (solution grad : V → K)
    (hsol : ∀ v, varsOf P unpen v = false → solution v = 0) (hex : ExactOnCandidates P solve seq) :
    ∃ out, basil P unpen solve stepNvar stepLagrange seq solution grad
        (seq.length * (Fintype.card G + 1) + Fintype.card G + 1) = some out ∧ out.map Prod.fst = seq := by
  obtain ⟨out, h⟩ := loop_terminates P unpen solve stepNvar stepLagrange hstep seq hdec solution hsol hex
    (seq.length * (Fintype.card G + 1) + Fintype.card G + 1) grad (fun _ => false) 0 [] seq (by simp) (by simp)
  exact ⟨out, h, C41_order_partial P unpen solve stepNvar stepLagrange hstep seq hdec solution grad _ out h⟩

private lemma innerFor_fromSolver (P : PathObj K G V M) (solve : Solver K G V) (ca : Bool) (sub : G → Bool) :
    ∀ (l : List K) (warm grad : V → K) ever calls, (∀ v, varsOf P sub v = false → warm v = 0) →
      ∀ x ∈ (innerFor P solve ca sub l warm grad ever calls).solved,
        ∃ n warm', x.2 = fun v => if varsOf P sub v then solve n warm' sub x.1 v else 0 := by
  intro l
  induction l with
  | nil => intro warm grad ever calls _ x hx; simp [innerFor] at hx
  | cons lam rest ih =>
    intro warm grad ever calls hw x hx
    rw [innerFor] at hx
    dsimp only at hx
    split at hx
    · simp at hx
    · rcases List.mem_cons.1 hx with rfl | hx
      · refine ⟨calls, warm, ?_⟩
        funext v
        by_cases hv : varsOf P sub v = true
        · simp only [hv, if_true]
        · simp only [hv]
          exact hw v (by simpa using hv)
      · refine ih _ _ _ _ ?_ x hx
        intro v hv
        have : ¬ (varsOf P sub v = true) := by simp [hv]
        simp only [this]
        exact hw v hv

/-- Every solution is an answer of the solver, extended by zero, on a subproblem that contains the unpenalised
groups. -/
theorem C41_from_solver (P : PathObj K G V M) (unpen : G → Bool) (solve : Solver K G V) (stepNvar stepLagrange : ℕ)
    (seq : List K) (solution grad : V → K) (hsol : ∀ v, varsOf P unpen v = false → solution v = 0) (fuel : ℕ)
    (out : List (K × (V → K))) (h : basil P unpen solve stepNvar stepLagrange seq solution grad fuel = some out) :
    ∀ x ∈ out, ∃ (n : ℕ) (warm : V → K) (S : G → Bool), (∀ g, unpen g = true → S g = true) ∧
      x.2 = fun v => if varsOf P S v then solve n warm S x.1 v else 0 := by
  refine loop_screen P unpen solve stepNvar stepLagrange seq solution _ ?_ fuel grad _ 0 [] out (by simp) h
  intro subseq grad cand calls x hx
  have hunpen : ∀ g, unpen g = true → innerSub P unpen stepNvar subseq solution grad cand g = true := by
    intro g hg; simp [innerSub, hg]
  obtain ⟨n, warm, hb⟩ := innerFor_fromSolver P solve false _ subseq solution grad unpen calls
    (fun v hv => hsol v (varsOf_mono P hunpen v hv)) x hx
  exact ⟨n, warm, _, hunpen, hb⟩

end generic

/-! ### the lasso path -/

section lasso

variable {p m : ℕ} {X : Fin m → Fin p → ℝ} {satGrad : (Fin m → ℝ) → Fin m → ℝ} {satFunc : (Fin m → ℝ) → ℝ}
  {w enet : Fin p → ℝ} {alpha tol : ℝ}

private lemma varsOf_lasso (S : Fin p → Bool) (v : Fin p) :
    varsOf (lassoPath X satGrad satFunc w enet alpha tol) S v = S v := by
  unfold varsOf lassoPath; by_cases hS : S v = true <;> simp [hS]

/-- C41 for the lasso path and an exact subproblem solver: `basil` ends with one solution per lagrange value, and each
of them is optimal for the full elastic net problem up to the tolerance of the KKT check.  Features may be unpenalised;
the starting solution vanishes at the penalised features. -/
theorem C41_lasso (hf : ConvexWithGradient satFunc satGrad) (ha : 0 < alpha) (ha1 : alpha ≤ 1)
    (ht : 0 ≤ tol) (hw : ∀ i, 0 ≤ w i) (hpos : ∃ i, 0 < w i) (he : ∀ i, 0 ≤ enet i)
    (solve : Solver ℝ (Fin p) (Fin p)) (hsolve : ExactSolver X satFunc w enet alpha solve)
    (stepNvar stepLagrange : ℕ) (hstep : 1 ≤ stepLagrange) (seq : List ℝ) (hdec : seq.Pairwise (· > ·))
    (hseq : ∀ l ∈ seq, 0 < l) (solution grad : Fin p → ℝ) (hsol : ∀ i, w i ≠ 0 → solution i = 0) :
    ∃ out, basil (lassoPath X satGrad satFunc w enet alpha tol) (fun i => decide (w i = 0)) solve stepNvar stepLagrange
        seq solution grad (seq.length * (p + 1) + p + 1) = some out ∧
      out.map Prod.fst = seq ∧
      ∀ x ∈ out, ∀ u, enetObjective X satFunc w enet alpha x.1 x.2 ≤ enetObjective X satFunc w enet alpha x.1 u +
        tol * ∑ i, (if w i = 0 then meanPos w else alpha * x.1 * w i) * |u i - x.2 i| := by
  set P := lassoPath X satGrad satFunc w enet alpha tol with hP
  have key : ∀ (n : ℕ) (warm : Fin p → ℝ) (S : Fin p → Bool) (lam : ℝ), 0 < lam → ∀ i, S i = true →
      let b := fun i => if S i = true then solve n warm S lam i else 0
      (Verif.Model.LassoPath.checkKKT w (pathGrad X satGrad satFunc w enet alpha tol lam b) b (alpha * lam) tol).1 i
        = false ∧
      (Verif.Model.LassoPath.checkKKT w (pathGrad X satGrad satFunc w enet alpha tol lam b) b (alpha * lam) tol).2 i
        < 0 := by
    intro n warm S lam hlam i hi b
    refine enet_active_ok (tol := tol) hf.gradient ha hlam ht hw (fun i => S i = true) b ?_ ?_ i hi
    · intro j hj; simp only [b, if_neg hj]
    · intro u hu
      exact hsolve n warm S lam hlam u (fun i hi => hu i (by simp [hi]))
  have hsol' : ∀ v, varsOf P (fun i => decide (w i = 0)) v = false → solution v = 0 := by
    intro v hv
    rw [hP, varsOf_lasso, decide_eq_false_iff_not] at hv
    exact hsol v hv
  have hex : ExactOnCandidates P solve seq := by
    intro n warm S lam hlam _ g hg
    simp only [hP, varsOf_lasso]
    exact (key n warm S lam (hseq lam hlam) g hg).2
  obtain ⟨out, h, ho⟩ := C41_terminates P (fun i => decide (w i = 0)) solve stepNvar stepLagrange hstep seq hdec solution
    grad hsol' hex
  rw [Fintype.card_fin] at h
  refine ⟨out, h, ho, fun x hx u => ?_⟩
  have hlam : 0 < x.1 := hseq _ (by rw [← ho]; exact List.mem_map_of_mem hx)
  have hs := C41_screen P _ solve stepNvar stepLagrange seq solution grad hsol' _ out h x hx
  obtain ⟨n, warm, S, hS, hb⟩ := C41_from_solver P _ solve stepNvar stepLagrange seq solution grad hsol' _ out h x hx
  simp only [hP, varsOf_lasso] at hb
  have hc := enet_convexWithGradient (X := X) (w := w) (tol := tol) hf ha1 hlam.le he
  refine C39_suboptimality hc w x.2 (mul_pos ha hlam) ht hw hpos ⟨fun i => ?_, fun i => (hs i).1⟩ u
  by_cases hi : S i = true
  · have := (key n warm S x.1 hlam i hi).1
    rw [← hb] at this
    exact this
  · have hwi : w i ≠ 0 := fun h0 => hi (hS i (by simp [h0]))
    have hb' : x.2 i = 0 := by rw [hb]; simp [hi]
    unfold Verif.Model.LassoPath.checkKKT Verif.Model.LassoPath.checkKKT' Verif.Model.LassoPath.activeFailing
    simp [hb', hwi]

end lasso

/-! ### the gaps -/

section witness

/-- two orthogonal features, response (3, 2), all penalised -/
def orthoPath : PathObj ℚ (Fin 2) (Fin 2) (Fin 2) :=
  lassoPath (fun m v => if m = v then 1 else 0) (fun eta m => eta m - if m = 0 then 3 else 2)
    (fun eta => ((eta 0 - 3) ^ 2 + (eta 1 - 2) ^ 2) / 2) (fun _ => 1) (fun _ => 1) 1 (1 / 100)

/-- soft-thresholding: the exact solver for `orthoPath` -/
def orthoSolver : Solver ℚ (Fin 2) (Fin 2) := fun _ _ _ lam v => max ((if v = 0 then 3 else 2) - lam) 0

private def lagranges (r : Option (List (ℚ × (Fin 2 → ℚ)))) : Option (List ℚ) := r.map fun l => l.map Prod.fst

/-- the hypotheses are met: a run over a strictly decreasing sequence, one feature allowed per round, two lagrange
values per round -/
example : lagranges (basil orthoPath (fun _ => false) orthoSolver 1 2 [5 / 2, 2, 1, 1 / 2] (fun _ => 0)
    (fun v => if v = 0 then -3 else -2) 15) = some [5 / 2, 2, 1, 1 / 2] := by decide +kernel

/-- A repeated lagrange value is skipped when it falls into another round: with `step_lagrange = 1` and the sequence
`[2, 2, 1]` only two solutions are returned. -/
theorem C41_ties_fails :
    (basil orthoPath (fun _ => false) orthoSolver 50 1 [2, 2, 1] (fun _ => 0)
      (fun v => if v = 0 then -3 else -2) 15).map (fun l => l.map Prod.fst) = some [2, 1] := by
  have : lagranges (basil orthoPath (fun _ => false) orthoSolver 50 1 [2, 2, 1] (fun _ => 0)
      (fun v => if v = 0 then -3 else -2) 15) = some [2, 1] := by decide +kernel
  exact this

/-- one feature, response 5, penalised -/
def onePath : PathObj ℚ (Fin 1) (Fin 1) (Fin 1) :=
  lassoPath (fun _ _ => 1) (fun eta m => eta m - 5) (fun eta => (eta 0 - 5) ^ 2 / 2) (fun _ => 1) (fun _ => 1) 1 (1 / 100)

/-- With a subproblem solver that stays at zero `basil` never returns: no number of rounds suffices. -/
theorem C41_inexact_solver_fails :
    ∀ fuel, basil onePath (fun _ => false) (fun _ _ _ _ _ => 0) 50 5 [1] (fun _ => 0) (fun _ => -5) fuel = none := by
  have hinner : ∀ sub grad ever calls,
      (innerFor onePath (fun _ _ _ _ _ => 0) false sub [1] (fun _ => 0) grad ever calls).solved = [] := by
    intro sub grad ever calls
    rw [innerFor]
    dsimp only
    have e1 : (fun v : Fin 1 => if varsOf onePath sub v = true then (0:ℚ) else 0) = fun _ => 0 := by
      funext v; simp
    have e2 : subLinpred onePath sub (fun _ => 0) = fun _ => 0 := by
      funext k; simp [subLinpred]
    rw [e1, e2]
    rw [if_pos]
    exact ⟨0, by decide +kernel⟩
  have hloop : ∀ fuel grad cand calls, Verif.Model.Basil.loop onePath (fun _ => false) (fun _ _ _ _ _ => 0) 50 5 [1]
      (fun _ => 0) fuel grad cand calls [] = none := by
    intro fuel
    induction fuel with
    | zero => intro grad cand calls; rfl
    | succ fuel ih =>
      intro grad cand calls
      rw [Verif.Model.Basil.loop]
      have hc : candidates [(1:ℚ)] 5 ([] : List (ℚ × (Fin 1 → ℚ))) = [1] :=
        candidates_eq [] [1] 5 [] rfl (by simp)
      dsimp only
      rw [hc, if_neg (by simp)]
      unfold innerLoop
      rw [hinner, List.append_nil]
      exact ih _ _ _
  intro fuel
  exact hloop fuel _ _ _

end witness

end Verif.Props
