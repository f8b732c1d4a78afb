import Verif.Model.StackedLoglike
import Verif.Spec.Stacked
import Verif.Lemmas.Losses

/-!
# C77: `stacked_loglike` is the sum of its losses on consecutive blocks
-/

set_option linter.unusedSectionVars false
set_option linter.unusedVariables false

namespace Verif.Props
open Verif.Model Verif.Spec Verif.Lemmas

variable {m : ℕ} {sizes : Fin m → ℕ}

private def step (sizes : Fin m → ℕ) (s : ℕ × (Fin m → ℕ)) (d : Fin m) : ℕ × (Fin m → ℕ) :=
  (s.1 + sizes d, fun e => if e = d then s.1 else s.2 e)

private lemma fold_castSucc (sizes : Fin (m + 1) → ℕ) (l : List (Fin m)) (a : ℕ) (F : Fin (m + 1) → ℕ) :
    ((l.map Fin.castSucc).foldl (step sizes) (a, F)).1 = (l.foldl (step fun d => sizes d.castSucc) (a, fun d => F d.castSucc)).1 ∧
    (∀ e : Fin m, ((l.map Fin.castSucc).foldl (step sizes) (a, F)).2 e.castSucc =
      (l.foldl (step fun d => sizes d.castSucc) (a, fun d => F d.castSucc)).2 e) := by
  induction l generalizing a F with
  | nil => exact ⟨rfl, fun _ => rfl⟩
  | cons d l ih =>
    rw [List.map_cons, List.foldl_cons, List.foldl_cons]
    obtain ⟨h1, h2⟩ := ih (a + sizes d.castSucc) fun e => if e = d.castSucc then a else F e
    have e : (fun e : Fin m => if e.castSucc = d.castSucc then a else F e.castSucc) = fun e => if e = d then a else F e.castSucc := by
      funext e; simp
    rw [e] at h1 h2
    exact ⟨h1, h2⟩

private lemma sliceLoop_eq : ∀ {m : ℕ} (sizes : Fin m → ℕ), (StackedLoss.sliceLoop sizes).1 = ∑ d, sizes d ∧
    ∀ d, (StackedLoss.sliceLoop sizes).2 d = ∑ i : Fin d, sizes (Fin.castLE d.2.le i)
  | 0, sizes => ⟨by simp [StackedLoss.sliceLoop], fun d => d.elim0⟩
  | m + 1, sizes => by
    obtain ⟨i1, i2⟩ := sliceLoop_eq fun d : Fin m => sizes d.castSucc
    have hf : StackedLoss.sliceLoop sizes = step sizes (((List.finRange m).map Fin.castSucc).foldl (step sizes) (0, fun _ => 0)) (Fin.last m) := by
      change (List.finRange (m + 1)).foldl (step sizes) _ = _
      rw [List.finRange_succ_last, List.foldl_append]
      rfl
    obtain ⟨f1, f2⟩ := fold_castSucc sizes (List.finRange m) 0 fun _ => 0
    have f1' : (((List.finRange m).map Fin.castSucc).foldl (step sizes) (0, fun _ => 0)).1 = ∑ d : Fin m, sizes d.castSucc := f1.trans i1
    refine ⟨?_, fun d => ?_⟩
    · rw [hf, Fin.sum_univ_castSucc]
      simp only [step]
      rw [f1']
    · rw [hf]
      simp only [step]
      refine Fin.lastCases ?_ (fun d => ?_) d
      · rw [if_pos rfl, f1']
        rfl
      · rw [if_neg (Fin.castSucc_lt_last d).ne, f2]
        exact i2 d

private lemma starts_pos (d : Fin m) (k : Fin (sizes d)) : (StackedLoss.sliceLoop sizes).2 d + k = (stackPos d k : ℕ) := by
  rw [(sliceLoop_eq sizes).2 d, stackPos_val]

private lemma slice_block (x : Fin (∑ d, sizes d) → ℝ) (d : Fin m) :
    StackedLoss.slice ((StackedLoss.sliceLoop sizes).2 d) (sizes d) x = block x d := by
  funext k
  have h := starts_pos d k
  have h' : (StackedLoss.sliceLoop sizes).2 d + k < ∑ d, sizes d := by rw [h]; exact (stackPos d k).2
  rw [StackedLoss.slice, dif_pos h']
  exact congrArg x (Fin.ext h)

private lemma setSlice_block (buf : Fin (∑ d, sizes d) → ℝ) (e : Fin m) (g : Fin (sizes e) → ℝ) (d : Fin m) (k : Fin (sizes d)) :
    StackedLoss.setSlice ((StackedLoss.sliceLoop sizes).2 e) (sizes e) buf g (stackPos d k) =
      if h : d = e then g (h ▸ k) else buf (stackPos d k) := by
  unfold StackedLoss.setSlice
  by_cases h : d = e
  · subst h
    have hk := starts_pos d k
    rw [dif_pos ⟨by omega, by have := k.2; omega⟩, dif_pos rfl]
    congr 1
    apply Fin.ext
    simp only
    omega
  · rw [dif_neg h, dif_neg]
    rintro ⟨h1, h2⟩
    let k' : Fin (sizes e) := ⟨stackPos d k - (StackedLoss.sliceLoop sizes).2 e, by omega⟩
    have hk := starts_pos e k'
    have : stackPos e k' = stackPos d k := Fin.ext (by rw [← hk]; simp only [k']; omega)
    have := finSigmaFinEquiv.injective this
    exact h (congrArg Sigma.fst this).symm

/-- a vector with given blocks -/
private def unblock (g : (d : Fin m) → Fin (sizes d) → ℝ) : Fin (∑ d, sizes d) → ℝ := fun t =>
  g (finSigmaFinEquiv.symm t).1 (finSigmaFinEquiv.symm t).2

private lemma unblock_pos (g : (d : Fin m) → Fin (sizes d) → ℝ) (d : Fin m) (k : Fin (sizes d)) : unblock g (stackPos d k) = g d k := by
  unfold unblock stackPos
  rw [Equiv.symm_apply_apply]

private lemma ext_pos {f g : Fin (∑ d, sizes d) → ℝ} (h : ∀ d k, f (stackPos d k) = g (stackPos d k)) : f = g := by
  funext t
  obtain ⟨⟨d, k⟩, rfl⟩ := finSigmaFinEquiv.surjective t
  exact h d k

section loops
variable (S : StackedLoss sizes) (hst : S.starts = (StackedLoss.sliceLoop sizes).2) (F : (d : Fin m) → (Fin (sizes d) → ℝ) → ℝ)
  (G : (d : Fin m) → (Fin (sizes d) → ℝ) → Fin (sizes d) → ℝ) (hE : ∀ d, Evaluates (S.losses d).eval (F d) (G d))
  (x : Fin (∑ d, sizes d) → ℝ)
include hst hE

private lemma col_func (s : StackedLoss.Loop (∑ d, sizes d)) (d : Fin m) :
    S.column x .func s d = { s with value := s.value + F d (block x d) } := by
  unfold StackedLoss.column
  simp only [hst, slice_block, (hE d _).1]

private lemma col_grad (s : StackedLoss.Loop (∑ d, sizes d)) (d : Fin m) :
    S.column x .grad s d = { s with buf := StackedLoss.setSlice ((StackedLoss.sliceLoop sizes).2 d) (sizes d) s.buf (G d (block x d)) } := by
  unfold StackedLoss.column
  simp only [hst, slice_block, (hE d _).2.1]

private lemma col_both (s : StackedLoss.Loop (∑ d, sizes d)) (d : Fin m) :
    S.column x .both s d = { s with value := s.value + F d (block x d),
                                    buf := StackedLoss.setSlice ((StackedLoss.sliceLoop sizes).2 d) (sizes d) s.buf (G d (block x d)) } := by
  unfold StackedLoss.column
  simp only [hst, slice_block, (hE d _).2.2]

private lemma fold_all (mode : Mode) (hm : mode ≠ .other) (l : List (Fin m)) (s : StackedLoss.Loop (∑ d, sizes d)) :
    (l.foldl (S.column x mode) s).ok = s.ok ∧
    (mode ≠ .grad → (l.foldl (S.column x mode) s).value = s.value + (l.map fun d => F d (block x d)).sum) ∧
    (mode ≠ .func → ∀ d k, (l.foldl (S.column x mode) s).buf (stackPos d k) =
      if d ∈ l then G d (block x d) k else s.buf (stackPos d k)) := by
  induction l generalizing s with
  | nil => simp
  | cons e l ih =>
    rw [List.foldl_cons]
    obtain ⟨h1, h2, h3⟩ := ih (S.column x mode s e)
    have hbuf : ∀ (b : Fin (∑ d, sizes d) → ℝ) (d : Fin m) (k : Fin (sizes d)),
        (if d ∈ l then G d (block x d) k else StackedLoss.setSlice ((StackedLoss.sliceLoop sizes).2 e) (sizes e) b (G e (block x e)) (stackPos d k)) =
          if d ∈ e :: l then G d (block x d) k else b (stackPos d k) := by
      intro b d k
      rw [setSlice_block]
      by_cases hl : d ∈ l
      · rw [if_pos hl, if_pos (List.mem_cons_of_mem _ hl)]
      · rw [if_neg hl]
        by_cases hd : d = e
        · subst hd; rw [dif_pos rfl, if_pos List.mem_cons_self]
        · rw [dif_neg hd, if_neg (by simp [hd, hl])]
    cases mode with
    | func =>
      rw [col_func S hst F G hE] at *
      exact ⟨h1, fun h => by rw [h2 h]; simp [add_assoc], fun h => absurd rfl h⟩
    | grad =>
      rw [col_grad S hst F G hE] at *
      exact ⟨h1, fun h => absurd rfl h, fun h d k => (h3 h d k).trans (hbuf _ d k)⟩
    | both =>
      rw [col_both S hst F G hE] at *
      exact ⟨h1, fun h => by rw [h2 h]; simp [add_assoc], fun h d k => (h3 h d k).trans (hbuf _ d k)⟩
    | other => exact absurd rfl hm

end loops

private lemma off_eq {n : ℕ} (o : Option (Fin n → ℝ)) (x : Fin n → ℝ) : Smooth.applyOffset o x = fun i => x i - effOffset o i := by
  funext i; cases o <;> simp [Smooth.applyOffset, effOffset]

private lemma scaleR_eq (c a : ℝ) : Smooth.scaleR c a = c * a := by
  unfold Smooth.scaleR; split_ifs with h
  · ring
  · rw [not_not] at h; rw [h, one_mul]

private lemma scaleV_eq {n : ℕ} (c : ℝ) (a : Fin n → ℝ) : Smooth.scaleV c a = fun i => c * a i := by
  unfold Smooth.scaleV; split_ifs with h
  · funext i; ring
  · rw [not_not] at h; funext i; rw [h, one_mul]

private lemma eval_eq (S : StackedLoss sizes) (hst : S.starts = (StackedLoss.sliceLoop sizes).2) (F : (d : Fin m) → (Fin (sizes d) → ℝ) → ℝ)
    (G : (d : Fin m) → (Fin (sizes d) → ℝ) → Fin (sizes d) → ℝ) (hE : ∀ d, Evaluates (S.losses d).eval (F d) (G d))
    (arg : Option (Fin (∑ d, sizes d) → ℝ)) :
    Evaluates (fun x mode => (S.smoothObjective arg x mode).1) (fun x => S.coef * ∑ d, F d (block (fun i => x i - effOffset S.offset i) d))
      (fun x t => S.coef * unblock (fun d => G d (block (fun i => x i - effOffset S.offset i) d)) t) := by
  intro x
  set y : Fin (∑ d, sizes d) → ℝ := fun i => x i - effOffset S.offset i with hy
  have key := fun mode hm => fold_all S hst F G hE y mode hm (List.finRange m) { ok := true, value := 0, buf := S.buf }
  have hb : ∀ b : Fin (∑ d, sizes d) → ℝ, (∀ d k, b (stackPos d k) = G d (block y d) k) → b = unblock fun d => G d (block y d) :=
    fun b h => ext_pos fun d k => by rw [h, unblock_pos]
  refine ⟨?_, ?_, ?_⟩
  · obtain ⟨h1, h2, -⟩ := key .func (by simp)
    simp only [StackedLoss.smoothObjective, off_eq, ← hy]
    rw [h1, h2 (by simp), if_pos rfl, scaleR_eq, zero_add, ← Fin.sum_univ_def]
  · obtain ⟨h1, -, h3⟩ := key .grad (by simp)
    simp only [StackedLoss.smoothObjective, off_eq, ← hy]
    have hB := hb _ fun d k => (h3 (by simp) d k).trans (if_pos (List.mem_finRange d))
    rw [h1, if_pos rfl, scaleV_eq, hB]
  · obtain ⟨h1, h2, h3⟩ := key .both (by simp)
    simp only [StackedLoss.smoothObjective, off_eq, ← hy]
    have hB := hb _ fun d k => (h3 (by simp) d k).trans (if_pos (List.mem_finRange d))
    rw [h1, h2 (by simp), if_pos rfl, scaleR_eq, scaleV_eq, hB, zero_add, ← Fin.sum_univ_def]

/-- what `init` builds, up to the buffer -/
private lemma init_ok {losses : (d : Fin m) → StackCol (sizes d)} {coef : ℝ} {o w : Option (Fin (∑ d, sizes d) → ℝ)} {S : StackedLoss sizes}
    (h : StackedLoss.init losses coef o w = .ok S) : 0 < m ∧ 0 ≤ coef ∧ S.losses = losses ∧ S.coef = coef ∧ S.offset = o ∧
      S.caseWeights = w ∧ S.starts = (StackedLoss.sliceLoop sizes).2 ∧ ∀ v, w = some v → ∀ i, 0 ≤ v i := by
  unfold StackedLoss.init at h
  split_ifs at h with h1 h2 h3 h4
  injection h with h
  subst h
  refine ⟨by omega, not_lt.mp h2, rfl, rfl, rfl, rfl, rfl, fun v hv i => ?_⟩
  by_contra hn
  exact h4 ⟨v, hv, fun ha => hn (ha i)⟩

private lemma smooth_keeps (S : StackedLoss sizes) (arg : Option (Fin (∑ d, sizes d) → ℝ)) (x : Fin (∑ d, sizes d) → ℝ) (mode : Mode) :
    ∃ b, (S.smoothObjective arg x mode).2.1 = { S with buf := b } := by
  cases mode with
  | func => exact ⟨_, rfl⟩
  | grad => exact ⟨_, rfl⟩
  | both => exact ⟨_, rfl⟩
  | other => exact ⟨S.buf, rfl⟩

private lemma run_keeps (S : StackedLoss sizes) (hist : List (Option (Fin (∑ d, sizes d) → ℝ) × (Fin (∑ d, sizes d) → ℝ) × Mode)) :
    ∃ b, S.run hist = { S with buf := b } := by
  induction hist generalizing S with
  | nil => exact ⟨S.buf, rfl⟩
  | cons c cs ih =>
    obtain ⟨b, hb⟩ := smooth_keeps S c.1 c.2.1 c.2.2
    obtain ⟨b', hb'⟩ := ih (S.smoothObjective c.1 c.2.1 c.2.2).2.1
    refine ⟨b', ?_⟩
    rw [StackedLoss.run, hb', hb]

private lemma grad_block (c : ℝ) (o : Fin (∑ d, sizes d) → ℝ) (F : (d : Fin m) → (Fin (sizes d) → ℝ) → ℝ)
    (g : (d : Fin m) → Fin (sizes d) → ℝ) (x : Fin (∑ d, sizes d) → ℝ)
    (h : ∀ d, IsGradientAt (F d) (g d) (block (fun i => x i - o i) d)) :
    IsGradientAt (fun x => c * ∑ d, F d (block (fun i => x i - o i) d)) (fun t => c * unblock g t) x := by
  unfold IsGradientAt at *
  have hlin : ∀ d : Fin m, HasFDerivAt (fun x : Fin (∑ d, sizes d) → ℝ => block (fun i => x i - o i) d)
      (ContinuousLinearMap.pi fun k => (ContinuousLinearMap.proj (stackPos d k) : (Fin (∑ d, sizes d) → ℝ) →L[ℝ] ℝ)) x := by
    intro d
    rw [hasFDerivAt_pi]
    intro k
    exact ((ContinuousLinearMap.proj (R := ℝ) (φ := fun _ : Fin (∑ d, sizes d) => ℝ) (stackPos d k)).hasFDerivAt).sub_const _
  have h1 : HasFDerivAt (fun x : Fin (∑ d, sizes d) → ℝ => ∑ d, F d (block (fun i => x i - o i) d)) _ x :=
    HasFDerivAt.fun_sum fun d _ => (h d).comp x (hlin d)
  refine (h1.const_mul c).congr_fderiv ?_
  ext v
  simp only [ContinuousLinearMap.smul_apply, ContinuousLinearMap.sum_apply, ContinuousLinearMap.comp_apply,
    ContinuousLinearMap.proj_apply, ContinuousLinearMap.pi_apply, smul_eq_mul]
  rw [← finSigmaFinEquiv.sum_comp, Fintype.sum_sigma, Finset.mul_sum]
  refine Finset.sum_congr rfl fun d _ => ?_
  rw [Finset.mul_sum]
  refine Finset.sum_congr rfl fun k _ => ?_
  have := unblock_pos g d k
  unfold stackPos at *
  rw [this]
  ring

/-- **C77** an accepted stack, after any history of evaluations and whatever weights it was given: the value is `coef` times
the sum of the stacked losses on the consecutive blocks of the argument (minus the offset); the block of the returned gradient
is `coef` times the gradient of that loss; it is the gradient of the value wherever the losses' gradients are; the value is
convex if the losses are.  Missing: the case weights, which have no effect (`C77_weights_fails`). -/
theorem C77_stacked_partial (losses : (d : Fin m) → StackCol (sizes d)) (coef : ℝ) (o w : Option (Fin (∑ d, sizes d) → ℝ))
    (S : StackedLoss sizes) (hS : StackedLoss.init losses coef o w = .ok S)
    (hist : List (Option (Fin (∑ d, sizes d) → ℝ) × (Fin (∑ d, sizes d) → ℝ) × Mode)) (arg : Option (Fin (∑ d, sizes d) → ℝ))
    (F : (d : Fin m) → (Fin (sizes d) → ℝ) → ℝ) (G : (d : Fin m) → (Fin (sizes d) → ℝ) → Fin (sizes d) → ℝ)
    (hE : ∀ d, Evaluates (losses d).eval (F d) (G d)) :
    let total := fun x : Fin (∑ d, sizes d) → ℝ => coef * ∑ d, F d (block (fun i => x i - effOffset o i) d)
    ∃ D : (Fin (∑ d, sizes d) → ℝ) → Fin (∑ d, sizes d) → ℝ,
      Evaluates (fun x mode => ((S.run hist).smoothObjective arg x mode).1) total D ∧
      (∀ x d k, D x (stackPos d k) = coef * G d (block (fun i => x i - effOffset o i) d) k) ∧
      (∀ x, (∀ d, IsGradientAt (F d) (G d (block (fun i => x i - effOffset o i) d)) (block (fun i => x i - effOffset o i) d)) →
        IsGradientAt total (D x) x) ∧
      ((∀ d, IsConvex (F d)) → IsConvex total) := by
  intro total
  obtain ⟨-, hc, h1, h2, h3, h4, h5, -⟩ := init_ok hS
  obtain ⟨b, hb⟩ := run_keeps S hist
  have hev := eval_eq { S with buf := b } h5 F G (by rw [h1]; exact hE) arg
  subst h2 h3
  refine ⟨_, by rw [hb]; exact hev, fun x d k => ?_, fun x hg => grad_block S.coef (effOffset S.offset) F _ x hg, fun hF x y a b ha hb' hab => ?_⟩
  · simp only [unblock_pos]
  · have hd : ∀ d, F d (block (fun i => a * x i + b * y i - effOffset S.offset i) d) ≤
        a * F d (block (fun i => x i - effOffset S.offset i) d) + b * F d (block (fun i => y i - effOffset S.offset i) d) := by
      intro d
      refine le_trans (le_of_eq ?_) (hF d _ _ a b ha hb' hab)
      congr 1
      funext k
      simp only [block]
      linear_combination (effOffset S.offset (stackPos d k)) * hab
    have := Finset.sum_le_sum fun d (_ : d ∈ Finset.univ) => hd d
    rw [Finset.sum_add_distrib, ← Finset.mul_sum, ← Finset.mul_sum] at this
    have := mul_le_mul_of_nonneg_left this hc
    simp only [total]
    linarith

/-- **C77** the stack is never affected by its own case weights or by those of the caller: any two stacks of the same losses
return the same results. -/
theorem C77_weights_ignored (losses : (d : Fin m) → StackCol (sizes d)) (coef : ℝ) (o w w' : Option (Fin (∑ d, sizes d) → ℝ))
    (S S' : StackedLoss sizes) (hS : StackedLoss.init losses coef o w = .ok S) (hS' : StackedLoss.init losses coef o w' = .ok S')
    (arg arg' : Option (Fin (∑ d, sizes d) → ℝ)) (x : Fin (∑ d, sizes d) → ℝ) (mode : Mode) :
    (S.smoothObjective arg x mode).1 = (S'.smoothObjective arg' x mode).1 := by
  unfold StackedLoss.init at hS hS'
  split_ifs at hS with a1 a2 a3 a4
  split_ifs at hS' with b4
  injection hS with hS
  injection hS' with hS'
  subst hS
  subst hS'
  have hcol : ∀ l : List (Fin m), ∀ s, l.foldl (StackedLoss.column (sizes := sizes) ⟨losses, coef, o, w, (StackedLoss.sliceLoop sizes).2, fun _ => 0⟩
      (Smooth.applyOffset o x) mode) s = l.foldl (StackedLoss.column ⟨losses, coef, o, w', (StackedLoss.sliceLoop sizes).2, fun _ => 0⟩
      (Smooth.applyOffset o x) mode) s := fun l s => rfl
  cases mode <;> rfl

/-- two losses with one observation each -/
private noncomputable def cols (y : ℝ) : (d : Fin 2) → StackCol ((fun _ : Fin 2 => 1) d) := fun _ =>
  .ofLoss ⟨.gaussian fun _ => y, 1, none, Quad.init none none none none, none⟩

private lemma cols_eval (y : ℝ) (d : Fin 2) : Evaluates (cols y d).eval (fun x => (x 0 - y) ^ 2 / 2) (fun x k => x 0 - y) := by
  intro x
  refine ⟨?_, ?_, ?_⟩
  · simp [cols, StackCol.ofLoss, Loss.smoothObjective, Loss.cw, Smooth.scaleR, Smooth.applyOffset]
  · simp only [cols, StackCol.ofLoss, Loss.smoothObjective, Loss.cw, Smooth.scaleV, Smooth.applyOffset, ne_eq, not_true_eq_false, if_false]
    congr 1
    funext k; rw [Fin.fin_one_eq_zero k]; ring
  · simp only [cols, StackCol.ofLoss, Loss.smoothObjective, Loss.cw, Smooth.scaleV, Smooth.scaleR, Smooth.applyOffset, ne_eq, not_true_eq_false, if_false]
    congr 1
    · simp
    · funext k; rw [Fin.fin_one_eq_zero k]; ring

private lemma cols_init (y c : ℝ) (hc : 0 ≤ c) (o w : Option (Fin (∑ d : Fin 2, (fun _ : Fin 2 => 1) d) → ℝ)) (hw : ∀ v, w = some v → ∀ i, 0 ≤ v i) :
    ∃ S, StackedLoss.init (cols y) c o w = .ok S := by
  unfold StackedLoss.init
  rw [if_neg (by norm_num), if_neg (not_lt.mpr hc), if_neg (by simp [cols, StackCol.ofLoss]), if_neg]
  · exact ⟨_, rfl⟩
  · rintro ⟨v, hv, hn⟩
    exact hn (hw v hv)

/-- two gaussian losses, an offset, weights and convex columns with gradients meet the hypotheses -/
example : ∃ (S : StackedLoss fun _ : Fin 2 => 1) (F : (d : Fin 2) → (Fin 1 → ℝ) → ℝ) (G : (d : Fin 2) → (Fin 1 → ℝ) → Fin 1 → ℝ),
    StackedLoss.init (cols 5) 3 (some fun _ => 1) (some fun _ => 2) = .ok S ∧ (∀ d, Evaluates (cols 5 d).eval (F d) (G d)) ∧
    ∀ d, IsConvex (F d) := by
  obtain ⟨S, hS⟩ := cols_init 5 3 (by norm_num) (some fun _ => 1) (some fun _ => 2) (by
    intro v hv i; injection hv with hv; rw [← hv]; norm_num)
  refine ⟨S, _, _, hS, cols_eval 5, fun d x y a b ha hb hab => ?_⟩
  have : b = 1 - a := by linarith
  subst this
  simp only
  nlinarith [mul_nonneg ha hb, sq_nonneg (x 0 - y 0), mul_nonneg (mul_nonneg ha hb) (sq_nonneg (x 0 - y 0))]

/-- **C77** fails for case weights: giving all cases weight zero, on construction and in the call, leaves the value `9` of two
squared residuals `3` (halved) as it is. -/
theorem C77_weights_fails : ∃ (S : StackedLoss fun _ : Fin 2 => 1) (x : Fin 2 → ℝ),
    StackedLoss.init (cols 0) 1 none (some fun _ => 0) = .ok S ∧ (S.smoothObjective (some fun _ => 0) x .func).1 = .val 9 := by
  obtain ⟨S, hS⟩ := cols_init 0 1 (by norm_num) none (some fun _ => 0) (by
    intro v hv i; injection hv with hv; rw [← hv])
  refine ⟨S, fun _ => 3, hS, ?_⟩
  obtain ⟨D, h, -⟩ := C77_stacked_partial (cols 0) 1 none _ S hS [] (some fun _ => 0) _ _ (cols_eval 0)
  have := (h fun _ => 3).1
  refine this.trans ?_
  simp [block, effOffset]
  norm_num

open Classical in
/-- **C77** fails for `subsample`: for any set of cases it returns a loss whose attribute `case_weights` is zero on the dropped
cases, and which has the same values and gradients as before. -/
theorem C77_subsample_fails (losses : (d : Fin m) → StackCol (sizes d)) (coef : ℝ) (o w : Option (Fin (∑ d, sizes d) → ℝ))
    (S : StackedLoss sizes) (hS : StackedLoss.init losses coef o w = .ok S) (idx : Finset (Fin (∑ d, sizes d))) :
    ∃ C, S.subsample idx = .ok C ∧
      C.caseWeights = some (fun i => if i ∈ idx then w.elim 1 fun w => w i else 0) ∧
      ∀ arg x mode, (C.smoothObjective arg x mode).1 = (S.smoothObjective none x mode).1 := by
  have hS0 := hS
  unfold StackedLoss.init at hS
  split_ifs at hS with a1 a2 a3 a4
  injection hS with hS
  subst hS
  have hcp : StackedLoss.copy (sizes := sizes) ⟨losses, coef, o, w, (StackedLoss.sliceLoop sizes).2, fun _ => 0⟩ = .ok _ := hS0
  refine ⟨_, by unfold StackedLoss.subsample; rw [hcp], ?_, fun arg x mode => ?_⟩
  · cases w <;> simp
  · cases mode <;> rfl

/-- **C77** what an evaluation does to the caller's array of case weights: it is multiplied by the stack's own weights. -/
theorem C77_caller (S : StackedLoss sizes) (arg : Fin (∑ d, sizes d) → ℝ) (x : Fin (∑ d, sizes d) → ℝ) (mode : Mode) :
    (S.smoothObjective (some arg) x mode).2.2 = some fun i => arg i * S.caseWeights.elim 1 fun w => w i := by
  have : Loss.argAfter S.caseWeights (some arg) = some fun i => arg i * S.caseWeights.elim 1 fun w => w i := by
    cases h : S.caseWeights <;> simp [Loss.argAfter, Loss.cw, h]
  rw [← this]
  cases mode <;> rfl

/-- **C77** fails for purity: an evaluation changes the caller's weights. -/
theorem C77_caller_fails : ∃ (S : StackedLoss fun _ : Fin 2 => 1) (arg : Fin 2 → ℝ),
    StackedLoss.init (cols 0) 1 none (some fun _ => 2) = .ok S ∧ ∀ x mode, (S.smoothObjective (some arg) x mode).2.2 ≠ some arg := by
  obtain ⟨S, hS⟩ := cols_init 0 1 (by norm_num) none (some fun _ => 2) (by
    intro v hv i; injection hv with hv; rw [← hv]; norm_num)
  refine ⟨S, fun _ => 1, hS, fun x mode h => ?_⟩
  have h := (C77_caller S (fun _ => 1) x mode).symm.trans h
  injection h with h
  have := congrFun h (stackPos 0 0)
  rw [(init_ok hS).2.2.2.2.2.1] at this
  norm_num at this

private lemma ofLosses_ok (L : (d : Fin m) → Loss (sizes d)) (mk : (d : Fin m) → Option (Loss (sizes d))) (h : ∀ d, mk d = some (L d))
    (coef : ℝ) (o w : Option (Fin (∑ d, sizes d) → ℝ)) :
    StackedLoss.ofLosses mk coef o w = StackedLoss.init (fun d => .ofLoss (L d)) coef o w := by
  unfold StackedLoss.ofLosses
  have h' : ∀ d, (mk d).isSome := fun d => by rw [h d]; rfl
  rw [dif_pos h']
  congr 1
  funext d
  congr 1
  simp [h d]

private lemma init_exists {losses : (d : Fin m) → StackCol (sizes d)} (hm : 0 < m) (hd : ∀ d, (losses d).dims = 1)
    (o w : Option (Fin (∑ d, sizes d) → ℝ)) (hw : ∀ v, w = some v → ∀ i, 0 ≤ v i) : ∃ S, StackedLoss.init losses 1 o w = .ok S := by
  unfold StackedLoss.init
  rw [if_neg (by omega), if_neg (by norm_num), if_neg (by simp [hd]), if_neg]
  · exact ⟨_, rfl⟩
  · rintro ⟨v, hv, hn⟩
    exact hn (hw v hv)

/-- **C77** `stacked_loglike.gaussian` is accepted for every nonempty sequence of responses, nonnegative `coef` and
nonnegative weights, and its value is `coef` times half the sum of the squared residuals over all responses. -/
theorem C77_gaussian_partial (hm : 0 < m) (Y : (d : Fin m) → Fin (sizes d) → ℝ) (coef : ℝ) (hc : 0 ≤ coef)
    (o w : Option (Fin (∑ d, sizes d) → ℝ)) (hw : ∀ v, w = some v → ∀ i, 0 ≤ v i) :
    ∃ S, StackedLoss.gaussian Y w coef o = .ok S ∧ ∀ arg, ∃ D,
      Evaluates (fun x mode => (S.smoothObjective arg x mode).1)
        (fun x => coef * ∑ d, ∑ k, (x (stackPos d k) - effOffset o (stackPos d k) - Y d k) ^ 2 / 2) D ∧
      (∀ x d k, D x (stackPos d k) = coef * (x (stackPos d k) - effOffset o (stackPos d k) - Y d k)) ∧
      ∀ x, IsGradientAt (fun x => coef * ∑ d, ∑ k, (x (stackPos d k) - effOffset o (stackPos d k) - Y d k) ^ 2 / 2) (D x) x := by
  let L : (d : Fin m) → Loss (sizes d) := fun d => ⟨.gaussian (Y d), coef, none, Quad.init none none none none, none⟩
  have hL : ∀ d, Loss.init (.gaussian (Y d)) coef none (Quad.init none none none none) none = some (L d) := by
    intro d
    simp [Loss.init, Smooth.atomInit, not_lt.mpr hc, Loss.dataError, Loss.devQuad, Loss.devConst, L]
  have hg : StackedLoss.gaussian Y w coef o = StackedLoss.init (fun d => .ofLoss (L d)) 1 o w := ofLosses_ok L _ hL 1 o w
  obtain ⟨S, hS⟩ := init_exists (losses := fun d => StackCol.ofLoss (L d)) hm (fun d => rfl) o w hw
  refine ⟨S, hg.trans hS, fun arg => ?_⟩
  have hE : ∀ d, Evaluates (StackCol.ofLoss (L d)).eval (fun x => coef * ∑ k, (x k - Y d k) ^ 2 / 2) (fun x k => coef * (x k - Y d k)) := by
    intro d
    have := evaluates_loss (L d) none
    intro x
    obtain ⟨h1, h2, h3⟩ := this x
    have e1 : totalLoss (L d).coef (Loss.cw (L d).caseWeights none) (offV (L d).offset) (phi (L d).data) x = coef * ∑ k, (x k - Y d k) ^ 2 / 2 := by
      simp [totalLoss, L, Loss.cw, offV, phi, gaussianNll]
    have e2 : (fun i => (L d).coef * (Loss.cw (L d).caseWeights none i * psi (L d).data i (x i - offV (L d).offset i))) =
        fun k => coef * (x k - Y d k) := by
      funext k; simp [L, Loss.cw, offV, psi]
    rw [e1] at h1 h3
    simp only at h2 h3
    rw [e2] at h2 h3
    exact ⟨h1, h2, h3⟩
  have hgr : ∀ d x, IsGradientAt (fun x : Fin (sizes d) → ℝ => coef * ∑ k, (x k - Y d k) ^ 2 / 2) (fun k => coef * (x k - Y d k)) x := by
    intro d x
    have h := grad_totalLoss coef (fun _ => 1) (fun _ => 0) (fun k => gaussianNll (Y d k)) (fun k => x k - Y d k) x (fun k => by
      have h : HasDerivAt (gaussianNll (Y d k)) (x k - 0 - Y d k) (x k - 0) := hasDerivAt_gaussian (Y d k) (x k - 0)
      rw [sub_zero] at h ⊢
      exact h)
    have e : totalLoss coef (fun _ => 1) (fun _ => 0) (fun k => gaussianNll (Y d k)) = fun x : Fin (sizes d) → ℝ => coef * ∑ k, (x k - Y d k) ^ 2 / 2 := by
      funext x; simp [totalLoss, gaussianNll]
    rw [e] at h
    simpa using h
  obtain ⟨D, h1, h2, h3, -⟩ := C77_stacked_partial _ 1 o w S hS [] arg _ _ hE
  have e : (fun x : Fin (∑ d, sizes d) → ℝ => 1 * ∑ d, coef * ∑ k, (block (fun i => x i - effOffset o i) d k - Y d k) ^ 2 / 2) =
      fun x => coef * ∑ d, ∑ k, (x (stackPos d k) - effOffset o (stackPos d k) - Y d k) ^ 2 / 2 := by
    funext x
    rw [one_mul, Finset.mul_sum]
    rfl
  rw [e] at h1 h3
  refine ⟨D, h1, fun x d k => ?_, fun x => h3 x fun d => hgr d _⟩
  rw [h2, one_mul]
  rfl

/-- **C77** fails for the `coef` argument of `stacked_loglike.huber` and `.huber_svm`: it is ignored. -/
theorem C77_coef_fails (Y : (d : Fin m) → Fin (sizes d) → ℝ) (eps : ℝ) (w o : Option (Fin (∑ d, sizes d) → ℝ)) (c c' : ℝ) :
    StackedLoss.huber Y eps w c o = StackedLoss.huber Y eps w c' o ∧ StackedLoss.huberSvm Y eps w c o = StackedLoss.huberSvm Y eps w c' o :=
  ⟨rfl, rfl⟩

/-- **C77** of the eight `stacked_*` factories, `stacked_gaussian` builds its loss for every nonempty sequence of responses. -/
theorem C77_factory_partial (hm : 0 < m) (Y : (d : Fin m) → Fin (sizes d) → ℝ) (eps : ℝ) :
    ∃ S, StackFamily.gaussian.loss Y eps = .ok S := by
  obtain ⟨S, hS, -⟩ := C77_gaussian_partial hm Y 1 zero_le_one none none (fun v hv => by simp at hv)
  refine ⟨S, ?_⟩
  unfold StackFamily.loss
  rw [if_neg (by decide)]
  exact hS

/-- **C77** fails for the other seven: each raises on every sequence of responses. -/
theorem C77_factory_fails (Y : (d : Fin m) → Fin (sizes d) → ℝ) (eps : ℝ) (fam : StackFamily) (hf : fam ≠ .gaussian) (S : StackedLoss sizes) :
    fam.loss Y eps ≠ .ok S := by
  unfold StackFamily.loss
  cases fam with
  | gaussian => exact absurd rfl hf
  | cox => rw [if_pos (by decide)]; simp
  | huber => rw [if_pos (by decide)]; simp
  | huberSvm => rw [if_pos (by decide)]; simp
  | poisson => rw [if_neg (by decide)]; simp [StackedLoss.poisson]
  | logistic => rw [if_neg (by decide)]; simp only [StackedLoss.binary, StackedLoss.init]; split_ifs <;> simp
  | probit => rw [if_neg (by decide)]; simp only [StackedLoss.binary, StackedLoss.init]; split_ifs <;> simp
  | cloglog => rw [if_neg (by decide)]; simp only [StackedLoss.binary, StackedLoss.init]; split_ifs <;> simp

end Verif.Props
