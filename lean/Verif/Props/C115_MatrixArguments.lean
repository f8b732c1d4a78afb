import Verif.Model.Affine2d
import Verif.Props.C24_Affine

/-!
# C115: transforms applied to a matrix, `todense`, `tensorize`
-/

set_option linter.unusedSectionVars false
set_option linter.unusedVariables false

namespace Verif.Props
open Verif.Model

variable {K : Type} [Field K] [LinearOrder K] [IsStrictOrderedRing K]

/-! ### specification -/

/-- column `c` of a matrix -/
def column {m q : ℕ} (x : Fin m → Fin q → K) (c : Fin q) : Fin m → K := fun j => x j c

/-- `F` applied to a matrix gives the matrix whose columns are `f` of the columns -/
def ActsOnColumns {m k q : ℕ} (F : (Fin m → Fin q → K) → Option (Fin k → Fin q → K)) (f : (Fin m → K) → Fin k → K) : Prop :=
  ∀ x, ∃ y, F x = some y ∧ ∀ c, column y c = f (column x c)

/-- `F` raises an exception for every matrix -/
def Raises {m k q : ℕ} (F : (Fin m → Fin q → K) → Option (Fin k → Fin q → K)) : Prop := ∀ x, F x = none

/-- no `scaler` is used anywhere, and no `posneg`, whose argument has two axes to begin with -/
def plainTransform : {m k : ℕ} → Aff K m k → Prop
  | _, _, .scaler _ => False
  | _, _, .wrap T _ => plainTransform T
  | _, _, .selector _ T => plainTransform T
  | _, _, .addIntercept T => plainTransform T
  | _, _, .vstack _ T => ∀ i, plainTransform (T i)
  | _, _, .hstack _ T => ∀ i, plainTransform (T i)
  | _, _, .product _ _ T => ∀ i, plainTransform (T i)
  | _, _, .aslinear T => plainTransform T
  | _, _, .adjoint T => plainTransform T
  | _, _, .residual T => plainTransform T
  | _, _, .composition S T => plainTransform S ∧ plainTransform T
  | _, _, .affineSum T _ => ∀ i, plainTransform (T i)
  | _, _, .scalarMultiply T _ => plainTransform T
  | _, _, .posneg _ => False
  | _, _, _ => True

/-- the classes whose `linear_map` and `affine_map` (`back = false`) or whose `adjoint_map` (`back = true`) take a matrix: everything but
`vstack`, `hstack`, `product`, `reshape`, `posneg`, `scaler`, and but `selector` and `add_intercept` in the adjoint direction -/
def takesMatrix : Bool → {m k : ℕ} → Aff K m k → Prop
  | _, _, _, .matrix _ _ => True
  | _, _, _, .noneD _ => True
  | _, _, _, .diag _ _ => True
  | b, _, _, .wrap T _ => takesMatrix b T
  | b, _, _, .selector _ T => b = false ∧ takesMatrix b T
  | _, _, _, .scaler _ => False
  | _, _, _, .reshape => False
  | b, _, _, .addIntercept T => b = false ∧ takesMatrix b T
  | _, _, _, .centering => True
  | _, _, _, .identity => True
  | _, _, _, .vstack _ _ => False
  | _, _, _, .hstack _ _ => False
  | _, _, _, .product _ _ _ => False
  | b, _, _, .aslinear T => takesMatrix b T
  | b, _, _, .adjoint T => takesMatrix (!b) T
  | b, _, _, .residual T => takesMatrix b T
  | b, _, _, .composition S T => takesMatrix b S ∧ takesMatrix b T
  | b, _, _, .affineSum T _ => ∀ i, takesMatrix b (T i)
  | b, _, _, .scalarMultiply T _ => takesMatrix b T
  | _, _, _, .posneg _ => False

/-! ### helpers -/

private lemma allSome_some {N : ℕ} {α : Type} {f : Fin N → Option α} {v : Fin N → α} (h : ∀ i, f i = some (v i)) :
    Aff.allSome f = some v := by
  obtain rfl : f = fun i => some (v i) := funext h
  simp [Aff.allSome]

private lemma allSome_none {N : ℕ} {α : Type} {f : Fin N → Option α} {i : Fin N} (h : f i = none) : Aff.allSome f = none := by
  unfold Aff.allSome
  rw [dif_neg]
  intro hall
  have := hall i
  rw [h] at this
  exact absurd this (by simp)

private lemma acts_map {m k k' q : ℕ} {F : (Fin m → Fin q → K) → Option (Fin k → Fin q → K)} {f : (Fin m → K) → Fin k → K}
    (h : ActsOnColumns F f) (g : (Fin m → Fin q → K) → (Fin k → Fin q → K) → Fin k' → Fin q → K)
    (g1 : (Fin m → K) → (Fin k → K) → Fin k' → K) (hg : ∀ x v c, column (g x v) c = g1 (column x c) (column v c)) :
    ActsOnColumns (fun x => (F x).map (g x)) fun x => g1 x (f x) := by
  intro x
  obtain ⟨y, h1, h2⟩ := h x
  exact ⟨g x y, by show (F x).map (g x) = _; rw [h1]; rfl, fun c => by rw [hg, h2]⟩

private lemma acts_bind {a b d q : ℕ} {F : (Fin a → Fin q → K) → Option (Fin b → Fin q → K)} {f : (Fin a → K) → Fin b → K}
    {G : (Fin b → Fin q → K) → Option (Fin d → Fin q → K)} {g : (Fin b → K) → Fin d → K} (hF : ActsOnColumns F f) (hG : ActsOnColumns G g) :
    ActsOnColumns (fun x => (F x).bind G) fun x => g (f x) := by
  intro x
  obtain ⟨y, h1, h2⟩ := hF x
  obtain ⟨z, h3, h4⟩ := hG y
  exact ⟨z, by show (F x).bind G = _; rw [h1]; exact h3, fun c => by rw [h4, h2]⟩

private lemma acts_sum {m k q N : ℕ} {F : Fin N → (Fin m → Fin q → K) → Option (Fin k → Fin q → K)} {f : Fin N → (Fin m → K) → Fin k → K}
    (w : Fin N → K) (h : ∀ i, ActsOnColumns (F i) (f i)) :
    ActsOnColumns (fun x => (Aff.allSome fun i => F i x).map fun v o c => ∑ i, w i * v i o c) fun x o => ∑ i, w i * f i x o := by
  intro x
  choose y h1 h2 using fun i => h i x
  refine ⟨fun o c => ∑ i, w i * y i o c, by show (Aff.allSome fun i => F i x).map _ = _; rw [allSome_some h1]; rfl, fun c => ?_⟩
  funext o
  refine Finset.sum_congr rfl fun i _ => ?_
  rw [← h2 i c]; rfl

private lemma raises_map {m k k' q : ℕ} {F : (Fin m → Fin q → K) → Option (Fin k → Fin q → K)} (h : Raises F)
    (g : (Fin m → Fin q → K) → (Fin k → Fin q → K) → Fin k' → Fin q → K) : Raises fun x => (F x).map (g x) := by
  intro x
  show (F x).map (g x) = none
  rw [h x]; rfl

private lemma acts_self {m q : ℕ} : ActsOnColumns (fun x : Fin m → Fin q → K => some x) fun x => x := fun x => ⟨x, rfl, fun c => rfl⟩

private lemma acts_of {m k q : ℕ} (g : (Fin m → Fin q → K) → Fin k → Fin q → K) (f : (Fin m → K) → Fin k → K)
    (h : ∀ x c, column (g x) c = f (column x c)) : ActsOnColumns (fun x => some (g x)) f := fun x => ⟨g x, rfl, h x⟩

private lemma addOffset_col {k q : ℕ} (o : Option (Fin k → K)) (v : Fin k → Fin q → K) (c : Fin q) :
    column (Aff.addOffset2 o v) c = (Aff.Off.ofOption o).addTo (column v c) := by
  cases o with
  | none => rfl
  | some a => funext i; exact add_comm _ _

/-- both directions at once -/
private lemma core (q : ℕ) {m k : ℕ} (T : Aff K m k) (hs : plainTransform T) :
    ((takesMatrix false T → ActsOnColumns (T.meth2 q).lin T.meth.lin ∧ ActsOnColumns (T.meth2 q).aff T.meth.aff) ∧
      (takesMatrix true T → ActsOnColumns (T.meth2 q).adj T.meth.adj)) ∧
    ((¬ takesMatrix false T → Raises (T.meth2 q).lin ∧ Raises (T.meth2 q).aff) ∧ (¬ takesMatrix true T → Raises (T.meth2 q).adj)) := by
  have hno : ∀ {a b : ℕ}, Raises (fun _ : Fin a → Fin q → K => (none : Option (Fin b → Fin q → K))) := fun _ => rfl
  induction T with
  | matrix D o =>
    refine ⟨⟨fun _ => ⟨acts_of _ _ fun x c => rfl, acts_of _ _ fun x c => addOffset_col o _ c⟩, fun _ => acts_of _ _ fun x c => rfl⟩,
      fun h => absurd trivial h, fun h => absurd trivial h⟩
  | noneD o =>
    refine ⟨⟨fun _ => ⟨acts_self, acts_of _ _ fun x c => ?_⟩, fun _ => acts_self⟩, fun h => absurd trivial h, fun h => absurd trivial h⟩
    funext i; exact add_comm _ _
  | diag d o =>
    refine ⟨⟨fun _ => ⟨acts_of _ _ fun x c => rfl, acts_of _ _ fun x c => addOffset_col o _ c⟩, fun _ => acts_of _ _ fun x c => rfl⟩,
      fun h => absurd trivial h, fun h => absurd trivial h⟩
  | wrap T o ih =>
    obtain ⟨⟨h1, h2⟩, h3, h4⟩ := ih hs
    exact ⟨⟨fun h => ⟨(h1 h).1, acts_map (h1 h).2 (fun _ => Aff.addOffset2 o) (fun _ v => (Aff.Off.ofOption o).addTo v)
      fun x v c => addOffset_col o v c⟩, h2⟩, fun h => ⟨(h3 h).1, raises_map (h3 h).2 fun _ => Aff.addOffset2 o⟩, h4⟩
  | selector idx T ih =>
    obtain ⟨⟨h1, h2⟩, h3, h4⟩ := ih hs
    refine ⟨⟨fun h => ⟨fun x => (h1 h.2).1 fun j => x (idx j), fun x => (h1 h.2).2 fun j => x (idx j)⟩, fun h => absurd h.1 (by simp)⟩,
      fun h => ?_, fun _ => hno⟩
    have h' : ¬ takesMatrix false T := fun hh => h ⟨rfl, hh⟩
    exact ⟨fun x => (h3 h').1 _, fun x => (h3 h').2 _⟩
  | scaler s => exact absurd hs id
  | reshape => exact ⟨⟨fun h => absurd h id, fun h => absurd h id⟩, fun _ => ⟨hno, hno⟩, fun _ => hno⟩
  | addIntercept T ih =>
    obtain ⟨⟨h1, h2⟩, h3, h4⟩ := ih hs
    refine ⟨⟨fun h => ⟨fun x => ?_, fun x => ?_⟩, fun h => absurd h.1 (by simp)⟩, fun h => ?_, fun _ => hno⟩
    · obtain ⟨y, e1, e2⟩ := (h1 h.2).1 fun j => x j.succ
      refine ⟨fun i c => y i c + x 0 c, ?_, fun c => ?_⟩
      · show ((T.meth2 q).lin fun j => x j.succ).map _ = _
        rw [e1]; rfl
      · funext i
        show y i c + x 0 c = T.meth.lin (fun j => x j.succ c) i + x 0 c
        rw [show y i c = column y c i from rfl, e2]; rfl
    · obtain ⟨y, e1, e2⟩ := (h1 h.2).2 fun j => x j.succ
      refine ⟨fun i c => y i c + x 0 c, ?_, fun c => ?_⟩
      · show ((T.meth2 q).aff fun j => x j.succ).map _ = _
        rw [e1]; rfl
      · funext i
        show y i c + x 0 c = T.meth.aff (fun j => x j.succ c) i + x 0 c
        rw [show y i c = column y c i from rfl, e2]; rfl
    · have h' : ¬ takesMatrix false T := fun hh => h ⟨rfl, hh⟩
      constructor
      · intro x
        show ((T.meth2 q).lin fun j => x j.succ).map _ = _
        rw [(h3 h').1]; rfl
      · intro x
        show ((T.meth2 q).aff fun j => x j.succ).map _ = _
        rw [(h3 h').2]; rfl
  | centering =>
    exact ⟨⟨fun _ => ⟨acts_of _ _ fun x c => rfl, acts_of _ _ fun x c => rfl⟩, fun _ => acts_of _ _ fun x c => rfl⟩,
      fun h => absurd trivial h, fun h => absurd trivial h⟩
  | identity => exact ⟨⟨fun _ => ⟨acts_self, acts_self⟩, fun _ => acts_self⟩, fun h => absurd trivial h, fun h => absurd trivial h⟩
  | vstack ks T ih => exact ⟨⟨fun h => absurd h id, fun h => absurd h id⟩, fun _ => ⟨hno, hno⟩, fun _ => hno⟩
  | hstack ms T ih => exact ⟨⟨fun h => absurd h id, fun h => absurd h id⟩, fun _ => ⟨hno, hno⟩, fun _ => hno⟩
  | product ms ks T ih => exact ⟨⟨fun h => absurd h id, fun h => absurd h id⟩, fun _ => ⟨hno, hno⟩, fun _ => hno⟩
  | aslinear T ih =>
    obtain ⟨⟨h1, h2⟩, h3, h4⟩ := ih hs
    exact ⟨⟨fun h => ⟨(h1 h).1, (h1 h).1⟩, h2⟩, fun h => ⟨(h3 h).1, (h3 h).1⟩, h4⟩
  | adjoint T ih =>
    obtain ⟨⟨h1, h2⟩, h3, h4⟩ := ih hs
    exact ⟨⟨fun h => ⟨h2 h, h2 h⟩, fun h => (h1 h).1⟩, fun h => ⟨h4 h, h4 h⟩, fun h => (h3 h).1⟩
  | residual T ih =>
    obtain ⟨⟨h1, h2⟩, h3, h4⟩ := ih hs
    refine ⟨⟨fun h => ⟨acts_map (h1 h).1 (fun x v i c => x i c - v i c) (fun x v i => x i - v i) fun x v c => rfl,
      acts_map (h1 h).2 (fun x v i c => x i c - v i c) (fun x v i => x i - v i) fun x v c => rfl⟩,
      fun h => acts_map (h2 h) (fun x v i c => x i c - v i c) (fun x v i => x i - v i) fun x v c => rfl⟩,
      fun h => ⟨raises_map (h3 h).1 _, raises_map (h3 h).2 _⟩, fun h => raises_map (h4 h) _⟩
  | composition S T ihS ihT =>
    obtain ⟨⟨a1, a2⟩, a3, a4⟩ := ihS hs.1
    obtain ⟨⟨b1, b2⟩, b3, b4⟩ := ihT hs.2
    refine ⟨⟨fun h => ⟨acts_bind (b1 h.2).1 (a1 h.1).1, acts_bind (b1 h.2).2 (a1 h.1).2⟩, fun h => acts_bind (a2 h.1) (b2 h.2)⟩,
      fun h => ?_, fun h => ?_⟩
    · by_cases hT : takesMatrix false T
      · have hS : ¬ takesMatrix false S := fun hh => h ⟨hh, hT⟩
        constructor <;> intro x
        · show ((T.meth2 q).lin x).bind _ = none
          cases (T.meth2 q).lin x with
          | none => rfl
          | some y => exact (a3 hS).1 y
        · show ((T.meth2 q).aff x).bind _ = none
          cases (T.meth2 q).aff x with
          | none => rfl
          | some y => exact (a3 hS).2 y
      · constructor <;> intro x
        · show ((T.meth2 q).lin x).bind _ = none
          rw [(b3 hT).1]; rfl
        · show ((T.meth2 q).aff x).bind _ = none
          rw [(b3 hT).2]; rfl
    · by_cases hS : takesMatrix true S
      · have hT : ¬ takesMatrix true T := fun hh => h ⟨hS, hh⟩
        intro x
        show ((S.meth2 q).adj x).bind _ = none
        cases (S.meth2 q).adj x with
        | none => rfl
        | some y => exact b4 hT y
      · intro x
        show ((S.meth2 q).adj x).bind _ = none
        rw [a4 hS]; rfl
  | affineSum T w ih =>
    have ih := fun i => ih i (hs i)
    refine ⟨⟨fun h => ⟨acts_sum w fun i => ((ih i).1.1 (h i)).1, acts_sum w fun i => ((ih i).1.1 (h i)).2⟩,
      fun h => acts_sum w fun i => (ih i).1.2 (h i)⟩, fun h => ?_, fun h => ?_⟩
    · obtain ⟨i, hi⟩ := not_forall.1 h
      constructor <;> intro x
      · show (Aff.allSome fun i => ((T i).meth2 q).lin x).map _ = none
        rw [allSome_none (i := i) (((ih i).2.1 hi).1 x)]; rfl
      · show (Aff.allSome fun i => ((T i).meth2 q).aff x).map _ = none
        rw [allSome_none (i := i) (((ih i).2.1 hi).2 x)]; rfl
    · obtain ⟨i, hi⟩ := not_forall.1 h
      intro x
      show (Aff.allSome fun i => ((T i).meth2 q).adj x).map _ = none
      rw [allSome_none (i := i) ((ih i).2.2 hi x)]; rfl
  | scalarMultiply T a ih =>
    obtain ⟨⟨h1, h2⟩, h3, h4⟩ := ih hs
    refine ⟨⟨fun h => ⟨acts_map (h1 h).1 (fun _ v i c => if a ≠ 1 then v i c * a else v i c) (fun _ v i => if a ≠ 1 then v i * a else v i)
      fun x v c => rfl, acts_map (h1 h).2 (fun _ v i c => if a ≠ 1 then v i c * a else v i c) (fun _ v i => if a ≠ 1 then v i * a else v i)
      fun x v c => rfl⟩, fun h => acts_map (h2 h) (fun _ v i c => if a ≠ 1 then v i c * a else v i c)
      (fun _ v i => if a ≠ 1 then v i * a else v i) fun x v c => rfl⟩,
      fun h => ⟨raises_map (h3 h).1 _, raises_map (h3 h).2 _⟩, fun h => raises_map (h4 h) _⟩
  | posneg T ih => exact absurd hs id

private lemma scaler_lin {n q : ℕ} (s : Fin n → K) : ((Aff.scaler s).meth2 q).lin = Aff.scale2 s := rfl

private lemma scaler_comp {n m q : ℕ} (s : Fin n → K) (D : Fin n → Fin m → K) (x : Fin m → Fin q → K) :
    ((Aff.composition (.scaler s) (.matrix D none)).meth2 q).lin x = Aff.scale2 s fun i c => ∑ j, D i j * x j c := rfl

/-! ### theorems -/

/-- **C115** `linear_map`, `affine_map` and `adjoint_map` of a transform built from matrices, diagonals, selectors, intercepts, centering
and their sums, multiples, residuals, adjoints and compositions treat a matrix as a list of columns: column `c` of the result is the method
applied to column `c`.  Missing, because it fails: transforms with a `scaler` (`C115_scaler_fails`), and the classes that raise
(`C115_raises`). -/
theorem C115_columns_partial (q : ℕ) {m k : ℕ} (T : Aff K m k) (hs : plainTransform T) :
    (takesMatrix false T → ActsOnColumns (T.meth2 q).lin T.lin ∧ ActsOnColumns (T.meth2 q).aff T.aff) ∧
    (takesMatrix true T → ActsOnColumns (T.meth2 q).adj T.adj) := (core q T hs).1

/-- **C115** The remaining transforms without `scaler` and `posneg` raise an exception rather than return a wrong matrix: stacks and products and
whatever contains one, selectors and intercepts in the adjoint direction.  (A matrix with one column is not covered.) -/
theorem C115_raises (q : ℕ) (hq : 2 ≤ q) {m k : ℕ} (T : Aff K m k) (hs : plainTransform T) :
    (¬ takesMatrix false T → Raises (T.meth2 q).lin ∧ Raises (T.meth2 q).aff) ∧ (¬ takesMatrix true T → Raises (T.meth2 q).adj) :=
  (core q T hs).2

/-- **C115** `todense(T)` returns the matrix of `T`: multiplying by it is `linear_map`.  Missing, because it fails: a `scaler`, the classes that
raise, and `aslinear` of a transform that is not square, whose shapes are interchanged. -/
theorem C115_todense_partial {m k : ℕ} (T : Aff K m k) (hs : plainTransform T) (hT : takesMatrix false T) (hd : distinctSelectors T)
    (ha : noAslinear T) : ∃ M, T.todense = .ok M ∧ (∀ x i, T.lin x i = ∑ j, M i j * x j) ∧ ∀ u j, T.adj u j = ∑ i, M i j * u i := by
  obtain ⟨M, h1, h2⟩ := ((core m T hs).1.1 hT).1 fun j c => if j = c then 1 else 0
  have e : ∀ i c, M i c = toMat T i c := by
    intro i c
    have := congrFun (h2 c) i
    have hcol : column (fun j c : Fin m => if j = c then (1 : K) else 0) c = Pi.single c 1 := by
      funext j; simp [column, Pi.single_apply]
    rw [hcol] at this
    exact this
  refine ⟨M, ?_, fun x i => ?_, fun u j => ?_⟩
  · unfold Aff.todense
    rw [if_pos (by rw [C24_shapes_partial T ha]), h1]
  · rw [(C24_matrix T hd).1 x]
    show ∑ j, toMat T i j * x j = _
    exact Finset.sum_congr rfl fun j _ => by rw [e]
  · rw [(C24_matrix T hd).2 u]
    show ∑ i, toMat T i j * u i = _
    exact Finset.sum_congr rfl fun i _ => by rw [e]

/-- **C115** `tensorize(T, q)` of such a transform: `linear_map` and `adjoint_map` act on the columns, `affine_map` adds the attribute
`affine_offset` of `T` to each column of the linear part; it is `T.affine_map` of each column as far as that attribute is the constant of
`T`.  The class cannot be used on a transform without that attribute. -/
theorem C115_tensorize_partial (q : ℕ) {m k : ℕ} (T : Aff K m k) (hs : plainTransform T) :
    (T.off = .missing → T.tensorize q = none) ∧
    (T.off ≠ .missing → ∃ S, T.tensorize q = some S ∧ (takesMatrix false T → ActsOnColumns S.lin T.lin) ∧
      (takesMatrix true T → ActsOnColumns S.adj T.adj) ∧
      (takesMatrix false T → ActsOnColumns S.aff fun x => T.off.addTo (T.lin x)) ∧
      (takesMatrix false T → distinctSelectors T → (∀ i, T.off.addTo (fun _ => 0) i = T.aff (fun _ => 0) i) → ActsOnColumns S.aff T.aff)) := by
  obtain ⟨h1, h2⟩ := (core q T hs).1
  constructor
  · intro h; unfold Aff.tensorize; rw [h]
  · intro h
    obtain ⟨S, hS, hl, ha, hf⟩ : ∃ S, T.tensorize q = some S ∧ S.lin = (T.meth2 q).lin ∧ S.adj = (T.meth2 q).adj ∧
        (takesMatrix false T → ActsOnColumns S.aff fun x => T.off.addTo (T.lin x)) := by
      unfold Aff.tensorize
      cases ho : T.off with
      | missing => exact absurd ho h
      | none => exact ⟨_, rfl, rfl, rfl, fun ht => (h1 ht).1⟩
      | arr o => exact ⟨_, rfl, rfl, rfl, fun ht => acts_map (h1 ht).1 (fun _ v i c => v i c + o i) (fun _ v i => v i + o i) fun x v c => rfl⟩
    refine ⟨S, hS, fun ht => by rw [hl]; exact (h1 ht).1, fun ht => by rw [ha]; exact h2 ht, hf, fun ht hd ho => ?_⟩
    have e : T.aff = fun x => T.off.addTo (T.lin x) := by
      funext x i
      rw [C25_affine T hd x i, ← ho i]
      cases T.off with
      | missing => exact add_zero _
      | none => exact add_zero _
      | arr a => show T.lin x i + (0 + a i) = T.lin x i + a i; rw [zero_add]
    rw [e]; exact hf ht

/-- **C115** fails for `scaler`: it multiplies the columns of a square matrix by the scalings instead of the rows, so that
`todense(composition(scaler(s), D))` is `D` times the diagonal matrix, not the diagonal matrix times `D`; other matrices raise. -/
theorem C115_scaler_fails : ∃ (s : Fin 2 → ℚ) (D : Fin 2 → Fin 2 → ℚ) (M : Fin 2 → Fin 2 → ℚ),
    (Aff.composition (.scaler s) (.matrix D none)).todense = .ok M ∧
    (∃ x i, (Aff.composition (.scaler s) (.matrix D none)).lin x i ≠ ∑ j, M i j * x j) ∧
    ((Aff.scaler s).meth2 3).lin = fun _ => none := by
  refine ⟨![2, 1], ![![0, 1], ![0, 0]], ![![0, 1], ![0, 0]], ?_, ⟨![0, 1], 0, ?_⟩, rfl⟩
  · unfold Aff.todense
    rw [if_pos (by rfl)]
    have : ((Aff.composition (.scaler ![2, 1]) (.matrix ![![0, 1], ![0, 0]] none) : Aff ℚ 2 2).meth2 2).lin (fun j c => if j = c then 1 else 0) =
        some ![![0, 1], ![0, 0]] := by
      rw [scaler_comp]
      unfold Aff.scale2
      rw [if_neg (by norm_num), dif_pos rfl]
      congr 1
      funext i c
      fin_cases i <;> fin_cases c <;> simp
    rw [this]
  · show (![2, 1] : Fin 2 → ℚ) 0 * ∑ j, (![![0, 1], ![0, 0]] : Fin 2 → Fin 2 → ℚ) 0 j * (![0, 1] : Fin 2 → ℚ) j ≠ _
    simp [Fin.sum_univ_succ]

/-- **C115** fails for stacks: the docstring of `linear_map` allows a matrix, a `vstack` raises. -/
theorem C115_stack_fails : ∃ T : Aff ℚ 2 (∑ i : Fin 2, 1), T = .vstack (fun _ => 1) (fun _ => .matrix (fun _ _ => 1) none) ∧ T.todense = .raised ∧
    ∀ q, 2 ≤ q → Raises (T.meth2 q).lin := ⟨_, rfl, rfl, fun q _ x => rfl⟩

/-- a scaled and centred design with an intercept, as built by `normalize(M, intercept=True)`, and its residual sum -/
example (M : Fin 4 → Fin 2 → K) (d : Fin 2 → K) :
    plainTransform (Aff.addIntercept (.composition .centering (.composition (.matrix M none) (.diag d none)))) ∧
    takesMatrix false (Aff.addIntercept (.composition .centering (.composition (.matrix M none) (.diag d none)))) ∧
    distinctSelectors (Aff.addIntercept (.composition .centering (.composition (.matrix M none) (.diag d none)))) ∧
    noAslinear (Aff.addIntercept (.composition .centering (.composition (.matrix M none) (.diag d none)))) ∧
    takesMatrix true (Aff.composition .centering (.composition (.matrix M none) (.diag d none))) := by
  simp [plainTransform, takesMatrix, distinctSelectors, noAslinear]

/-- a design with an offset for `tensorize`: the attribute is the constant of the map -/
example (D : Fin 3 → Fin 2 → K) (o : Fin 3 → K) : (Aff.matrix D (some o)).off ≠ .missing ∧ takesMatrix false (Aff.matrix D (some o)) ∧
    takesMatrix true (Aff.matrix D (some o)) ∧ plainTransform (Aff.matrix D (some o)) ∧ distinctSelectors (Aff.matrix D (some o)) ∧
    ∀ i, (Aff.matrix D (some o)).off.addTo (fun _ => 0) i = (Aff.matrix D (some o)).aff (fun _ => 0) i := by
  have ho : (Aff.matrix D (some o)).off = .arr o := rfl
  refine ⟨by rw [ho]; simp, trivial, trivial, trivial, trivial, fun i => ?_⟩
  show 0 + o i = (∑ j, D i j * 0) + o i
  simp

/-- a selector takes a matrix forward but not backward; a sum with a stack raises -/
example (D : Fin 2 → Fin 2 → K) : takesMatrix false (Aff.selector ![0, 2] (.matrix D none) : Aff K 3 2) ∧
    ¬ takesMatrix true (Aff.selector ![0, 2] (.matrix D none) : Aff K 3 2) ∧ plainTransform (Aff.selector ![0, 2] (.matrix D none) : Aff K 3 2) ∧
    ¬ takesMatrix false (Aff.scalarMultiply (.vstack (fun _ : Fin 2 => 2) fun _ => .matrix D none) 3) ∧
    plainTransform (Aff.scalarMultiply (.vstack (fun _ : Fin 2 => 2) fun _ => .matrix D none) 3) := by
  simp [takesMatrix, plainTransform]

/-- a scaler on its own has the right dense matrix -/
example : (Aff.scaler ![2, 3] : Aff ℚ 2 2).todense = .ok ![![2, 0], ![0, 3]] := by
  unfold Aff.todense
  rw [if_pos (by rfl)]
  have : ((Aff.scaler ![2, 3] : Aff ℚ 2 2).meth2 2).lin (fun j c => if j = c then 1 else 0) = some ![![2, 0], ![0, 3]] := by
    rw [scaler_lin]
    unfold Aff.scale2
    rw [if_neg (by norm_num), dif_pos rfl]
    congr 1
    funext i c
    fin_cases i <;> fin_cases c <;> simp
  rw [this]

end Verif.Props
