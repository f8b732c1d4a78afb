import Verif.Model.StrongRules
import Verif.Spec.LassoPath

/-!
# Helper lemmas on the path model
-/

set_option linter.unusedSectionVars false

namespace Verif.Lemmas
open Verif.Model.StrongRules Verif.Spec

variable {K : Type*} [Field K] [LinearOrder K] {G V M : Type*} [Fintype G] [Fintype V] [Fintype M]

lemma passes_of_not {ca : Bool} {r : (G → Bool) × (G → K)} (h : ¬ ∃ g, failing ca r g = true) :
    PassesScreen ca r := by
  intro g
  have hg : failing ca r g = false := by
    by_contra hc
    exact h ⟨g, by simpa using hc⟩
  unfold failing at hg
  rw [Bool.or_eq_false_iff, decide_eq_false_iff_not, not_le] at hg
  refine ⟨hg.2, fun hca => ?_⟩
  rw [hca, Bool.true_and] at hg
  exact hg.1

lemma varsOf_mono (P : PathObj K G V M) {S T : G → Bool} (h : ∀ g, S g = true → T g = true) (v : V)
    (hv : varsOf P T v = false) : varsOf P S v = false := by
  unfold varsOf at hv ⊢
  rw [decide_eq_false_iff_not] at hv ⊢
  rintro ⟨g, hg, hgv⟩
  exact hv ⟨g, h g hg, hgv⟩

end Verif.Lemmas
