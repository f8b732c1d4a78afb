import Verif.Lemmas.GlmFrame
import Mathlib.Tactic.FinCases
import Mathlib.Tactic.NormNum

/-!
# C98: GLM losses as objects: they are as good as values under stated conditions, and copies are independent
-/

set_option linter.unusedSectionVars false
set_option linter.unusedVariables false

namespace Verif.Props
open Verif.Model Verif.Model.GlmHeap Verif.Spec Verif.Lemmas.GlmHeap

noncomputable section
variable {p n : ℕ}

private lemma run_append (h : Heap p n) (a b : List (Op p n)) : (h.run (a ++ b)).2 = ((h.run a).2.run b).2 := by
  induction a generalizing h with
  | nil => rfl
  | cons op a ih => exact ih _

/-- a design with one entry -/
def C98.mx (x : ℝ) : Fin 1 → Fin 1 → ℝ := fun _ _ => x
/-- an array with one entry -/
def C98.vc (x : ℝ) : Fin 1 → ℝ := fun _ => x
/-- no quadratic -/
def C98.q0 : Quad (Fin 1) ℝ := Quad.init none none none none

/-- a Gaussian loss around the first design and the first array, without weights -/
def C98.gl : Op 1 1 := .build .gaussian 0 0 1 none none none C98.q0

open C98

private lemma gaussian_init (y : Fin 1 → ℝ) : Loss.init (.gaussian y) 1 none (Quad.init none none none none) none =
    some ⟨.gaussian y, 1, none, Quad.init none none none none, none⟩ := by
  have : ¬ (1 : ℝ) < 0 := by norm_num
  simp [Loss.init, Smooth.atomInit, Loss.dataError, Loss.devQuad, Loss.devConst, this]

private lemma logistic_init : Loss.init (.logistic (vc 1) (vc 1)) 1 none (Quad.init none none none none) none =
    some ⟨.logistic (vc 1) (vc 1), 1, none, Loss.devQuad 1 (.logistic (vc 1) (vc 1)) (Quad.init none none none none), none⟩ := by
  have : ¬ (1 : ℝ) < 0 := by norm_num
  simp [Loss.init, Smooth.atomInit, Loss.dataError, this, vc]

local macro "run_heap" : tactic => `(tactic| (
  simp [(by norm_num : ¬ (1 : ℝ) < 0), (by norm_num : (1 : ℝ) < 2), answer, Heap.run, Heap.step, gl, Heap.empty, Heap.hasArray, Heap.buildGlm, Heap.newLoss, LossClass.data, gaussian_init, logistic_init,
    Heap.allocLoss, Heap.newGlm, Heap.setResponse, Heap.loss, Heap.setLoss, Heap.allocVec, Heap.allocMat, Heap.vec, Heap.pushGlm, Heap.flag,
    Heap.withGlm, Heap.setData, Heap.setGlm, Heap.smoothObjective, Heap.foldWeights, Heap.lossValue, Loss.smoothObjective,
    Loss.cw, Loss.argAfter, Heap.scaleEval, Smooth.scaleR, Smooth.scaleV, Smooth.applyOffset, Glm.dot, Glm.dotT, Heap.mat, mx, vc,
    Heap.copy, Heap.subsample, Heap.LossClass.passesWeights, Heap.orRaise, Heap.hessian, Loss.hessian, Heap.writeVec, Heap.writeMat]))

local macro "run_world" : tactic => `(tactic| (
  simp [(by norm_num : ¬ (1 : ℝ) < 0), GlmWorld.run, GlmWorld.step, GlmWorld.empty, gl, GlmWorld.push, Glm.build, Glm.init, LossClass.data, gaussian_init,
    GlmWorld.withGlm, GlmWorld.set, GlmVal.setData, Refused, LossData.withResponse, Glm.copy, Loss.copy, Glm.smoothObjective,
    Loss.smoothObjective, Loss.cw, Loss.argAfter, Smooth.scaleR, Smooth.scaleV, Smooth.applyOffset, Glm.dot, Glm.dotT, mx, vc,
    timesEval, timesHess, Glm.hessian, Loss.hessian, GlmWorld.FairRun, GlmWorld.Fair, Glm.subsample]))

/-- **C98** As long as losses are built by `glm.gaussian` and the like, no saturated loss is shared, no array is edited in place,
`data` is assigned with the design it has and a response the loss accepts, and objects with a `coef` other than 1 are not copied
or asked for a Hessian, a program sees exactly what it would see if every `glm` were a value of its own: an evaluation depends on
the last assigned attributes of the object it names and on nothing else, and no statement shows on another object.  Missing (and
false, see the `_fails` theorems): the statements excluded. -/
theorem C98_refines_partial (ops : List (Op p n)) (h : GlmWorld.empty.FairRun ops) :
    (Heap.empty.run ops).1 = (GlmWorld.empty.run ops).1 :=
  (sim_run sim_empty ops h).1

/-- a program with assignments, a copy and a subsample that is fair -/
example : (GlmWorld.empty : GlmWorld 1 1).FairRun [.matrix (mx 1), .array (vc 0), .array (vc 3), gl, .eval 0 (vc 1) .both,
    .setResponse 0 1, .hess 0 (vc 1), .copy 0, .setWeights 1 1, .setOffset 0 (some (vc 1)), .subsample 1 ∅,
    .setLossCoef 2 5, .setCoef 2 7, .eval 2 (vc 1) .func, .shareWeights 2 0, .setData 2 0 0, .eval 2 (vc 1) .func] := by
  run_world

private lemma step_makes {h : Heap p n} (w : Good wf h) {make : Op p n} (hm : Op.Makes make) (hd : (h.step make).1 = .done) :
    ∃ C, Made h (h.step make).2 C := by
  cases make <;> simp only [Op.Makes] at hm
  · rename_i g
    unfold Heap.step Heap.withGlm at hd ⊢
    rcases hG : h.glms[g]? with _ | G
    · simp only [hG] at hd; cases hd
    · simp only [hG] at hd ⊢
      rcases hc : h.copy G with _ | h'
      · rw [hc] at hd; cases hd
      · exact made_copy w G hc
  · rename_i g idx
    unfold Heap.step Heap.withGlm at hd ⊢
    rcases hG : h.glms[g]? with _ | G
    · simp only [hG] at hd; cases hd
    · simp only [hG] at hd ⊢
      rcases hc : h.subsample G idx with _ | h'
      · rw [hc] at hd; cases hd
      · exact made_subsample w G idx hc

/-- **C98** A copy or subsample is independent of everything else.  Take any program, and let a copy or a subsample succeed after
it; whatever the caller does next without naming the new object - assign to and evaluate the original, edit in place the arrays
it was built from, share losses and weights among other objects, make further objects - every value, gradient, Hessian, linear
predictor and data the new object gives is what it would have given at once. -/
theorem C98_copy_independent (before after : List (Op p n)) (make : Op p n) (hm : Op.Makes make)
    (hdone : answer before make = .done) (hafter : ∀ op ∈ after, (names before).1 ∉ Op.objects op)
    (q : Op p n) (hq : Op.Asks (names before).1 q) :
    answer (before ++ [make] ++ after) q = answer (before ++ [make]) q := by
  unfold answer
  rw [run_append, run_append]
  have w := wf_run before
  obtain ⟨C, m⟩ := step_makes w hm hdone
  obtain ⟨hC, s⟩ := made_new w m after hafter
  exact s.asks (by rw [m.glms]; simp) hC hq

/-- **C98** A copy or subsample leaves what there was alone, and so does everything done with it: after any statements that name
only the new object, or objects, arrays and losses made later, every object there was before answers as it did before the copy
was made, and the caller's arrays are what they were. -/
theorem C98_copy_leaves_original (before after : List (Op p n)) (make : Op p n) (hm : Op.Makes make)
    (hdone : answer before make = .done)
    (hafter : ∀ op ∈ after, (∀ j ∈ Op.objects op, (names before).1 ≤ j) ∧ (∀ k ∈ Op.arrays op, (names before).2.1 ≤ k) ∧
      (∀ k ∈ Op.designs op, (names before).2.2.1 ≤ k) ∧ (∀ k ∈ Op.losses op, (names before).2.2.2 ≤ k)) :
    (∀ j, j < (names before).1 → ∀ q, Op.Asks j q → answer (before ++ [make] ++ after) q = answer before q) ∧
    (∀ k, k < (names before).2.1 →
      (Heap.empty.run (before ++ [make] ++ after)).2.vec (.user k) = (Heap.empty.run before).2.vec (.user k)) ∧
    ∀ k, k < (names before).2.2.1 →
      (Heap.empty.run (before ++ [make] ++ after)).2.mat (.user k) = (Heap.empty.run before).2.mat (.user k) := by
  unfold answer
  rw [run_append, run_append]
  have w := wf_run before
  obtain ⟨C, m⟩ := step_makes w hm hdone
  have f := made_old w m after hafter
  refine ⟨fun j hj q hq => ?_, fun k hk => f.vec (.user k) hk fun hn => hn hk, fun k hk => f.mat (.user k) hk fun hn => hn hk⟩
  have hG : (Heap.empty.run before).2.glms[j]? = some _ := List.getElem?_eq_getElem hj
  exact (since_same w f hG).asks hG ((f.glm j hj hj).trans hG) hq

/-- both theorems apply: a loss whose weight array and response the caller keeps, a copy of it, and edits on both sides -/
example : answer [.matrix (mx 1), .array (vc 1), .build .gaussian 0 0 1 none (some 0) none q0] (.copy 0) = .done ∧
    (∀ op ∈ [Op.editArray 0 (vc 7), .editMatrix 0 (mx 5), .editWeights 0 (vc 2), .setData 0 0 0, .eval 0 (vc 1) .both],
      (names [Op.matrix (mx 1), .array (vc 1), .build .gaussian 0 0 1 none (some 0) none q0]).1 ∉ Op.objects op) ∧
    ∀ op ∈ [Op.array (vc 7), .setWeights 1 1, .editArray 1 (vc 2), .editWeights 1 (vc 2), .editDesign 1 (mx 3), .eval 1 (vc 1) .both],
      (∀ j ∈ Op.objects op, 1 ≤ j) ∧ (∀ k ∈ Op.arrays op, 1 ≤ k) ∧ (∀ k ∈ Op.designs op, 1 ≤ k) ∧ (∀ k ∈ Op.losses op, 0 ≤ k) := by
  refine ⟨by run_heap, ?_, ?_⟩
  · have : (names [Op.matrix (mx 1), .array (vc 1), .build .gaussian 0 0 1 none (some 0) none q0]).1 = 1 := by
      unfold names; run_heap
    rw [this]
    simp [Op.objects]
  · simp [Op.objects, Op.arrays, Op.designs, Op.losses]

/-- **C98** Assigning `data` does not work: after `g.data = X2, y` the value still uses the design the object was built with, while
the linear predictor, `data`, the Hessian and a copy use the new one.  Here `X = 1`, `X2 = 2`, `y = 0`, `beta = 1`: the value is
`1/2` instead of `2`, a copy gives `2`. -/
theorem C98_data_fails :
    let ops : List (Op 1 1) := [.matrix (mx 1), .matrix (mx 2), .array (vc 0), gl, .setData 0 1 0]
    answer ops (.getData 0) = .data (mx 2) (vc 0) ∧
    answer ops (.linpred 0 (vc 1)) = .vec (vc 2) ∧
    answer ops (.eval 0 (vc 1) .func) = .eval (.val (1 / 2)) ∧
    answer (ops ++ [.copy 0]) (.eval 1 (vc 1) .func) = .eval (.val 2) := by
  refine ⟨?_, ?_, ?_, ?_⟩ <;> run_heap
  · funext i; simp [Glm.dot, mx, vc]
  · norm_num

/-- **C98** Two `glm` objects built on one saturated loss are not separate: building the second one with its own response replaces
the response of the first, whose value at the same point jumps from `1/2` to `8`. -/
theorem C98_shared_loss_fails :
    let ops : List (Op 1 1) := [.matrix (mx 1), .array (vc 0), .array (vc 5), .loss .gaussian 0 1 none none, .glm 0 0 0 none none q0]
    answer ops (.eval 0 (vc 1) .func) = .eval (.val (1 / 2)) ∧
    answer (ops ++ [.glm 0 1 0 none none q0]) (.eval 0 (vc 1) .func) = .eval (.val 8) := by
  refine ⟨?_, ?_⟩ <;> run_heap
  norm_num

/-- **C98** A copy forgets `coef`: a loss with `coef = 3` and value `3/2` has a copy with value `1/2`. -/
theorem C98_copy_coef_fails :
    let ops : List (Op 1 1) := [.matrix (mx 1), .array (vc 0), gl, .setCoef 0 3]
    answer ops (.eval 0 (vc 1) .func) = .eval (.val (3 / 2)) ∧
    answer (ops ++ [.copy 0]) (.eval 1 (vc 1) .func) = .eval (.val (1 / 2)) := by
  refine ⟨?_, ?_⟩ <;> run_heap
  norm_num

/-- **C98** `hessian` forgets `coef`: with `coef = 3` the gradient at `b` is `3 b`, the Hessian `1`. -/
theorem C98_hessian_coef_fails :
    let ops : List (Op 1 1) := [.matrix (mx 1), .array (vc 0), gl, .setCoef 0 3]
    (∀ b, answer ops (.eval 0 (vc b) .grad) = .eval (.grad (vc (3 * b)))) ∧
    ∀ b, answer ops (.hess 0 (vc b)) = .hess (.mat (mx 1)) := by
  refine ⟨fun b => ?_, fun b => ?_⟩ <;> run_heap
  · funext i; simp only [vc]; ring
  · rfl

/-- **C98** An assignment that raises ValueError has happened nevertheless: after the logistic loss refused the response `2` with
one trial, `data` is the refused response with the new design. -/
theorem C98_failed_assignment_fails :
    let ops : List (Op 1 1) := [.matrix (mx 1), .matrix (mx 4), .array (vc 1), .array (vc 2),
      .build (.logistic (vc 1)) 0 0 1 none none none q0]
    answer ops (.getData 0) = .data (mx 1) (vc 1) ∧ answer ops (.setData 0 1 1) = .raised ∧
    answer (ops ++ [.setData 0 1 1]) (.getData 0) = .data (mx 4) (vc 2) := by
  refine ⟨?_, ?_, ?_⟩ <;> run_heap

/-- **C98** An object keeps the caller's arrays: editing the weight array in place changes its value (from `1/2` to `7/2`), and
multiplying its `case_weights` in place changes the caller's array. -/
theorem C98_edit_fails :
    let ops : List (Op 1 1) := [.matrix (mx 1), .array (vc 0), .array (vc 1), .build .gaussian 0 0 1 none (some 1) none q0]
    answer ops (.eval 0 (vc 1) .func) = .eval (.val (1 / 2)) ∧
    answer (ops ++ [.editArray 1 (vc 7)]) (.eval 0 (vc 1) .func) = .eval (.val (7 / 2)) ∧
    (Heap.empty.run (ops ++ [.editWeights 0 (vc 9)])).2.vec (.user 1) = vc 9 := by
  refine ⟨?_, ?_, ?_⟩ <;> run_heap

end
end Verif.Props
