import Verif.Model.Image2d
import Mathlib.Algebra.BigOperators.Ring.Finset
import Mathlib.Tactic.Ring
import Mathlib.Tactic.Linarith
import Mathlib.Tactic.NormNum

/-!
# C46: the 2D difference operator
-/

set_option linter.unusedSectionVars false
set_option linter.unusedVariables false

namespace Verif.Props
open Verif.Model Verif.Model.Image2d

/-- `(u, v)` is an edge of the `m × n` lattice: `u` is vertex `(a, b)` and `v` is `(a+1, b)` or `(a, b+1)`. -/
def IsLatticeEdge (m n u v : ℕ) : Prop :=
  ∃ a b, a < m ∧ b < n ∧ u = a * n + b ∧ ((a + 1 < m ∧ v = (a + 1) * n + b) ∨ (b + 1 < n ∧ v = a * n + (b + 1)))

/-- row `r` of `D` is the difference `x_u - x_v` -/
def IsDiffRow (D : ℕ → ℕ → ℤ) (r u v : ℕ) : Prop :=
  ∀ c, D r c = (if c = u then 1 else 0) - (if c = v then 1 else 0)

private lemma coo_in {n cnt idx width : ℕ} {base shift : ℕ × ℕ} {val : ℤ} (t c : ℕ) (ht : t < cnt) :
    coo n cnt idx width base shift val (idx + t) c =
      if c = ((t / width + base.1) * n + (t % width + base.2)) + (shift.1 * n + shift.2) then val else 0 := by
  unfold coo
  rw [Finset.sum_eq_single t]
  · have : t + idx = idx + t := by omega
    simp only [this, true_and]
    by_cases h : c = ((t / width + base.1) * n + (t % width + base.2)) + (shift.1 * n + shift.2)
    · rw [if_pos h, if_pos h.symm]
    · rw [if_neg h, if_neg (fun h' => h h'.symm)]
  · intro b _ hb
    rw [if_neg]; rintro ⟨h, _⟩; omega
  · intro h; exact absurd (Finset.mem_range.2 ht) h

private lemma coo_out {n cnt idx width : ℕ} {base shift : ℕ × ℕ} {val : ℤ} (r c : ℕ) (hr : ¬ (idx ≤ r ∧ r < idx + cnt)) :
    coo n cnt idx width base shift val r c = 0 := by
  unfold coo
  apply Finset.sum_eq_zero
  intro t ht
  have := Finset.mem_range.1 ht
  rw [if_neg]; rintro ⟨h, _⟩; omega

/-- the sum of the eight blocks, with block offsets `o1 .. o4` -/
private def gen (m' n' o1 o2 o3 o4 r c : ℕ) : ℤ :=
  coo (n' + 1) (m' * n') o1 n' (0, 0) (0, 0) 1 r c + coo (n' + 1) (m' * n') o1 n' (0, 0) (1, 0) (-1) r c +
  (coo (n' + 1) (m' * n') o4 n' (0, 0) (0, 0) 1 r c + coo (n' + 1) (m' * n') o4 n' (0, 0) (0, 1) (-1) r c) +
  (coo (n' + 1) n' o2 n' (m', 0) (0, 0) 1 r c + coo (n' + 1) n' o2 n' (m', 0) (0, 1) (-1) r c) +
  (coo (n' + 1) m' o3 1 (0, n') (0, 0) 1 r c + coo (n' + 1) m' o3 1 (0, n') (1, 0) (-1) r c)

private def disj (m' n' o1 o2 o3 o4 : ℕ) : Prop := ∀ r,
  ((o1 ≤ r ∧ r < o1 + m' * n') → ¬ (o2 ≤ r ∧ r < o2 + n') ∧ ¬ (o3 ≤ r ∧ r < o3 + m') ∧ ¬ (o4 ≤ r ∧ r < o4 + m' * n')) ∧
  ((o2 ≤ r ∧ r < o2 + n') → ¬ (o3 ≤ r ∧ r < o3 + m') ∧ ¬ (o4 ≤ r ∧ r < o4 + m' * n')) ∧
  ((o3 ≤ r ∧ r < o3 + m') → ¬ (o4 ≤ r ∧ r < o4 + m' * n'))

private def Row (m' n' o1 o2 o3 o4 r u v : ℕ) : Prop :=
  (∃ a b, a < m' ∧ b < n' ∧ r = o1 + (a * n' + b) ∧ u = a * (n' + 1) + b ∧ v = u + (n' + 1)) ∨
  (∃ b, b < n' ∧ r = o2 + b ∧ u = m' * (n' + 1) + b ∧ v = u + 1) ∨
  (∃ a, a < m' ∧ r = o3 + a ∧ u = a * (n' + 1) + n' ∧ v = u + (n' + 1)) ∨
  (∃ a b, a < m' ∧ b < n' ∧ r = o4 + (a * n' + b) ∧ u = a * (n' + 1) + b ∧ v = u + 1)

private lemma lt_mul {m' n' a b : ℕ} (ha : a < m') (hb : b < n') : a * n' + b < m' * n' := by
  have : (a + 1) * n' ≤ m' * n' := Nat.mul_le_mul_right _ ha
  nlinarith

private lemma divmod {n' a b : ℕ} (hb : b < n') : (a * n' + b) / n' = a ∧ (a * n' + b) % n' = b := by
  have h0 : 0 < n' := by omega
  constructor
  · rw [mul_comm, Nat.mul_add_div h0, Nat.div_eq_of_lt hb, add_zero]
  · rw [mul_comm, Nat.mul_add_mod, Nat.mod_eq_of_lt hb]

private lemma uniq {n a b a' b' : ℕ} (hb : b < n) (hb' : b' < n) (h : a * n + b = a' * n + b') : a = a' ∧ b = b' := by
  have h1 := divmod (a := a) hb
  have h2 := divmod (a := a') hb'
  rw [h] at h1
  exact ⟨h1.1.symm.trans h2.1, h1.2.symm.trans h2.2⟩

private lemma row_diff {m' n' o1 o2 o3 o4 r u v : ℕ} (hd : disj m' n' o1 o2 o3 o4) (h : Row m' n' o1 o2 o3 o4 r u v) :
    IsDiffRow (gen m' n' o1 o2 o3 o4) r u v := by
  intro c
  unfold gen
  have hr := hd r
  rcases h with ⟨a, b, ha, hb, hrr, hu, hv⟩ | ⟨b, hb, hrr, hu, hv⟩ | ⟨a, ha, hrr, hu, hv⟩ | ⟨a, b, ha, hb, hrr, hu, hv⟩
  · have hlt := lt_mul ha hb
    have hin : o1 ≤ r ∧ r < o1 + m' * n' := by omega
    obtain ⟨g1, g2, g3⟩ := hr.1 hin
    obtain ⟨e1, e2⟩ := divmod (a := a) hb
    simp only [coo_out r c g1, coo_out r c g2, coo_out r c g3]
    rw [hrr, coo_in _ _ hlt, coo_in _ _ hlt, e1, e2]
    simp only [add_zero, zero_add, one_mul, zero_mul, ← hu, ← hv]
    split_ifs <;> norm_num
  · have hin : o2 ≤ r ∧ r < o2 + n' := by omega
    obtain ⟨g1, g2⟩ := hr.2.1 hin
    have g3 : ¬ (o1 ≤ r ∧ r < o1 + m' * n') := fun hh => (hr.1 hh).1 hin
    simp only [coo_out r c g1, coo_out r c g2, coo_out r c g3]
    rw [hrr, coo_in _ _ hb, coo_in _ _ hb, Nat.div_eq_of_lt hb, Nat.mod_eq_of_lt hb]
    simp only [add_zero, zero_add, zero_mul, ← hu, ← hv]
    split_ifs <;> norm_num
  · have hin : o3 ≤ r ∧ r < o3 + m' := by omega
    have g1 := hr.2.2 hin
    have g2 : ¬ (o1 ≤ r ∧ r < o1 + m' * n') := fun hh => (hr.1 hh).2.1 hin
    have g3 : ¬ (o2 ≤ r ∧ r < o2 + n') := fun hh => (hr.2.1 hh).1 hin
    simp only [coo_out r c g1, coo_out r c g2, coo_out r c g3]
    rw [hrr, coo_in _ _ ha, coo_in _ _ ha, Nat.div_one, Nat.mod_one]
    simp only [add_zero, zero_add, one_mul, zero_mul, ← hu, ← hv]
    split_ifs <;> norm_num
  · have hlt := lt_mul ha hb
    have hin : o4 ≤ r ∧ r < o4 + m' * n' := by omega
    have g1 : ¬ (o1 ≤ r ∧ r < o1 + m' * n') := fun hh => (hr.1 hh).2.2 hin
    have g2 : ¬ (o2 ≤ r ∧ r < o2 + n') := fun hh => (hr.2.1 hh).2 hin
    have g3 : ¬ (o3 ≤ r ∧ r < o3 + m') := fun hh => hr.2.2 hh hin
    obtain ⟨e1, e2⟩ := divmod (a := a) hb
    simp only [coo_out r c g1, coo_out r c g2, coo_out r c g3]
    rw [hrr, coo_in _ _ hlt, coo_in _ _ hlt, e1, e2]
    simp only [add_zero, zero_add, zero_mul, ← hu, ← hv]
    split_ifs <;> norm_num

private lemma dm {m' n' t : ℕ} (ht : t < m' * n') : t / n' < m' ∧ t % n' < n' ∧ t = t / n' * n' + t % n' := by
  have h0 : 0 < n' := by
    rcases Nat.eq_zero_or_pos n' with h | h
    · subst h; simp at ht
    · exact h
  refine ⟨(Nat.div_lt_iff_lt_mul h0).2 ht, Nat.mod_lt _ h0, ?_⟩
  have := Nat.div_add_mod t n'
  rw [mul_comm] at this
  exact this.symm

private lemma row_zero {m' n' o1 o2 o3 o4 r : ℕ} (h : ¬ ∃ u v, Row m' n' o1 o2 o3 o4 r u v) (c : ℕ) :
    gen m' n' o1 o2 o3 o4 r c = 0 := by
  have g1 : ¬ (o1 ≤ r ∧ r < o1 + m' * n') := by
    intro hh
    obtain ⟨h1, h2, h3⟩ := dm (show r - o1 < m' * n' by omega)
    exact h ⟨_, _, Or.inl ⟨_, _, h1, h2, by rw [← h3]; omega, rfl, rfl⟩⟩
  have g4 : ¬ (o4 ≤ r ∧ r < o4 + m' * n') := by
    intro hh
    obtain ⟨h1, h2, h3⟩ := dm (show r - o4 < m' * n' by omega)
    exact h ⟨_, _, Or.inr (Or.inr (Or.inr ⟨_, _, h1, h2, by rw [← h3]; omega, rfl, rfl⟩))⟩
  have g2 : ¬ (o2 ≤ r ∧ r < o2 + n') := by
    intro hh
    exact h ⟨_, _, Or.inr (Or.inl ⟨r - o2, by omega, by omega, rfl, rfl⟩)⟩
  have g3 : ¬ (o3 ≤ r ∧ r < o3 + m') := by
    intro hh
    exact h ⟨_, _, Or.inr (Or.inr (Or.inl ⟨r - o3, by omega, by omega, rfl, rfl⟩))⟩
  unfold gen
  simp only [coo_out r c g1, coo_out r c g2, coo_out r c g3, coo_out r c g4, add_zero]

private lemma row_edge {m' n' o1 o2 o3 o4 r u v : ℕ} (h : Row m' n' o1 o2 o3 o4 r u v) :
    IsLatticeEdge (m' + 1) (n' + 1) u v := by
  rcases h with ⟨a, b, ha, hb, hrr, hu, hv⟩ | ⟨b, hb, hrr, hu, hv⟩ | ⟨a, ha, hrr, hu, hv⟩ | ⟨a, b, ha, hb, hrr, hu, hv⟩
  · exact ⟨a, b, by omega, by omega, hu, Or.inl ⟨by omega, by rw [hv, hu]; ring⟩⟩
  · exact ⟨m', b, by omega, by omega, hu, Or.inr ⟨by omega, by rw [hv, hu]; ring⟩⟩
  · exact ⟨a, n', by omega, by omega, hu, Or.inl ⟨by omega, by rw [hv, hu]; ring⟩⟩
  · exact ⟨a, b, by omega, by omega, hu, Or.inr ⟨by omega, by rw [hv, hu]; ring⟩⟩

private lemma edge_row {m' n' u v : ℕ} (o1 o2 o3 o4 : ℕ) (h : IsLatticeEdge (m' + 1) (n' + 1) u v) :
    ∃ r, Row m' n' o1 o2 o3 o4 r u v := by
  obtain ⟨a, b, ha, hb, hu, ⟨h1, hv⟩ | ⟨h1, hv⟩⟩ := h
  · by_cases hbn : b < n'
    · exact ⟨_, Or.inl ⟨a, b, by omega, hbn, rfl, hu, by rw [hv, hu]; ring⟩⟩
    · have : b = n' := by omega
      subst this
      exact ⟨_, Or.inr (Or.inr (Or.inl ⟨a, by omega, rfl, hu, by rw [hv, hu]; ring⟩))⟩
  · by_cases ham : a < m'
    · exact ⟨_, Or.inr (Or.inr (Or.inr ⟨a, b, ham, by omega, rfl, hu, by rw [hv, hu]; ring⟩))⟩
    · have : a = m' := by omega
      subst this
      exact ⟨_, Or.inr (Or.inl ⟨b, by omega, rfl, hu, by rw [hv, hu]; ring⟩)⟩

private lemma row_unique {m' n' o1 o2 o3 o4 r r' u v : ℕ} (h : Row m' n' o1 o2 o3 o4 r u v)
    (h' : Row m' n' o1 o2 o3 o4 r' u v) : r = r' := by
  rcases h with ⟨a, b, ha, hb, hrr, hu, hv⟩ | ⟨b, hb, hrr, hu, hv⟩ | ⟨a, ha, hrr, hu, hv⟩ | ⟨a, b, ha, hb, hrr, hu, hv⟩ <;>
  rcases h' with ⟨a', b', ha', hb', hrr', hu', hv'⟩ | ⟨b', hb', hrr', hu', hv'⟩ | ⟨a', ha', hrr', hu', hv'⟩ | ⟨a', b', ha', hb', hrr', hu', hv'⟩ <;>
  (first
    | (exfalso; omega)
    | (have hh := uniq (n := n' + 1) (by omega) (by omega) (hu.symm.trans hu'); obtain ⟨e1, e2⟩ := hh; first | (rw [hrr, hrr', e1, e2]; done) | omega))

private lemma diffRow_inj {D : ℕ → ℕ → ℤ} {r u v u' v' : ℕ} (h : IsDiffRow D r u v) (h' : IsDiffRow D r u' v')
    (huv : u ≠ v) (huv' : u' ≠ v') : u = u' ∧ v = v' := by
  have e := fun c => (h c).symm.trans (h' c)
  have e1 := e u
  have e2 := e v
  rw [if_pos rfl, if_neg huv] at e1
  rw [if_pos rfl, if_neg (Ne.symm huv)] at e2
  constructor
  · by_contra hne
    rw [if_neg hne] at e1
    split_ifs at e1 <;> omega
  · by_contra hne
    rw [if_neg hne] at e2
    split_ifs at e2 <;> omega

private lemma edge_ne {m n u v : ℕ} (h : IsLatticeEdge m n u v) : u ≠ v := by
  obtain ⟨a, b, ha, hb, hu, ⟨h1, hv⟩ | ⟨h1, hv⟩⟩ := h
  · rw [hu, hv]; intro he; have : (a + 1) * n = a * n + n := by ring
    omega
  · omega

private lemma main {m' n' o1 o2 o3 o4 N : ℕ} (hd : disj m' n' o1 o2 o3 o4)
    (hN : o1 + m' * n' ≤ N ∧ o2 + n' ≤ N ∧ o3 + m' ≤ N ∧ o4 + m' * n' ≤ N) :
    (∀ r < N, (∀ c, gen m' n' o1 o2 o3 o4 r c = 0) ∨
      ∃ u v, IsLatticeEdge (m' + 1) (n' + 1) u v ∧ IsDiffRow (gen m' n' o1 o2 o3 o4) r u v) ∧
    (∀ u v, IsLatticeEdge (m' + 1) (n' + 1) u v → ∃! r, r < N ∧ IsDiffRow (gen m' n' o1 o2 o3 o4) r u v) := by
  constructor
  · intro r hr
    by_cases h : ∃ u v, Row m' n' o1 o2 o3 o4 r u v
    · obtain ⟨u, v, h⟩ := h
      exact Or.inr ⟨u, v, row_edge h, row_diff hd h⟩
    · exact Or.inl fun c => row_zero h c
  · intro u v he
    obtain ⟨r, hr⟩ := edge_row o1 o2 o3 o4 he
    refine ⟨r, ⟨?_, row_diff hd hr⟩, ?_⟩
    · rcases hr with ⟨a, b, ha, hb, hrr, _⟩ | ⟨b, hb, hrr, _⟩ | ⟨a, ha, hrr, _⟩ | ⟨a, b, ha, hb, hrr, _⟩
      · have := lt_mul ha hb; omega
      · omega
      · omega
      · have := lt_mul ha hb; omega
    · rintro r' ⟨hr', hd'⟩
      by_cases h : ∃ u' v', Row m' n' o1 o2 o3 o4 r' u' v'
      · obtain ⟨u', v', h'⟩ := h
        obtain ⟨h1, h2⟩ := diffRow_inj (row_diff hd h') hd' (edge_ne (row_edge h')) (edge_ne he)
        subst h1 h2
        exact row_unique h' hr
      · have h0 := hd' u
        rw [row_zero h, if_pos rfl, if_neg (edge_ne he)] at h0
        omega

private lemma formD_gen (m' n' r c : ℕ) : formD (m' + 1) (n' + 1) r c =
    gen m' n' 0 (m' * n') (m' * n' + n') (m' * n' + n' + m') r c := by
  simp only [formD, gen, Nat.add_sub_cancel]; ring

private lemma formDSmaller_gen (m' n' r c : ℕ) : formDSmaller (m' + 1) (n' + 1) r c =
    gen m' n' 0 (m' * n' + m' * n') (m' * n' + m' * n' + n') (m' * n') r c := by
  simp only [formDSmaller, gen, Nat.add_sub_cancel]; ring

/-- C46: every row of `formD(m, n)` is zero or the difference `x_u - x_v` across a lattice edge, and every edge of the
lattice has exactly one row. -/
theorem C46_formD (m n : ℕ) (hm : 1 ≤ m) (hn : 1 ≤ n) :
    (∀ r < formDRows m n, (∀ c, formD m n r c = 0) ∨ ∃ u v, IsLatticeEdge m n u v ∧ IsDiffRow (formD m n) r u v) ∧
    (∀ u v, IsLatticeEdge m n u v → ∃! r, r < formDRows m n ∧ IsDiffRow (formD m n) r u v) := by
  obtain ⟨m', rfl⟩ : ∃ t, m = t + 1 := ⟨m - 1, by omega⟩
  obtain ⟨n', rfl⟩ : ∃ t, n = t + 1 := ⟨n - 1, by omega⟩
  have e : formD (m' + 1) (n' + 1) = gen m' n' 0 (m' * n') (m' * n' + n') (m' * n' + n' + m') := by
    funext r c; exact formD_gen m' n' r c
  have hr : formDRows (m' + 1) (n' + 1) = 2 * (m' * n' + m' + n') := by
    unfold formDRows
    have : (m' + 1) * (n' + 1) = m' * n' + m' + n' + 1 := by ring
    rw [this, Nat.add_sub_cancel]
  rw [e, hr]
  refine main ?_ ?_
  · intro r; generalize m' * n' = q; omega
  · generalize m' * n' = q; omega

/-- C46 for `formD_smaller`: no zero rows; the rows are exactly the lattice edges, each once. -/
theorem C46_formD_smaller (m n : ℕ) (hm : 1 ≤ m) (hn : 1 ≤ n) :
    (∀ r < formDSmallerRows m n, ∃ u v, IsLatticeEdge m n u v ∧ IsDiffRow (formDSmaller m n) r u v) ∧
    (∀ u v, IsLatticeEdge m n u v → ∃! r, r < formDSmallerRows m n ∧ IsDiffRow (formDSmaller m n) r u v) := by
  obtain ⟨m', rfl⟩ : ∃ t, m = t + 1 := ⟨m - 1, by omega⟩
  obtain ⟨n', rfl⟩ : ∃ t, n = t + 1 := ⟨n - 1, by omega⟩
  have e : formDSmaller (m' + 1) (n' + 1) = gen m' n' 0 (m' * n' + m' * n') (m' * n' + m' * n' + n') (m' * n') := by
    funext r c; exact formDSmaller_gen m' n' r c
  have hr : formDSmallerRows (m' + 1) (n' + 1) = m' * n' + m' * n' + n' + m' := by
    unfold formDSmallerRows; simp only [Nat.add_sub_cancel]; ring
  rw [e, hr]
  have hd : disj m' n' 0 (m' * n' + m' * n') (m' * n' + m' * n' + n') (m' * n') := by
    intro r; generalize m' * n' = q; omega
  have hm := main (N := m' * n' + m' * n' + n' + m') hd (by generalize m' * n' = q; omega)
  refine ⟨?_, hm.2⟩
  intro r hr
  suffices h : ∃ u v, Row m' n' 0 (m' * n' + m' * n') (m' * n' + m' * n' + n') (m' * n') r u v by
    obtain ⟨u, v, h⟩ := h
    exact ⟨u, v, row_edge h, row_diff hd h⟩
  by_cases c1 : r < m' * n'
  · obtain ⟨h1, h2, h3⟩ := dm c1
    exact ⟨_, _, Or.inl ⟨_, _, h1, h2, by rw [← h3]; omega, rfl, rfl⟩⟩
  by_cases c2 : r < m' * n' + m' * n'
  · obtain ⟨h1, h2, h3⟩ := dm (show r - m' * n' < m' * n' by omega)
    exact ⟨_, _, Or.inr (Or.inr (Or.inr ⟨_, _, h1, h2, by rw [← h3]; omega, rfl, rfl⟩))⟩
  by_cases c3 : r < m' * n' + m' * n' + n'
  · exact ⟨_, _, Or.inr (Or.inl ⟨r - (m' * n' + m' * n'), by omega, by omega, rfl, rfl⟩)⟩
  · exact ⟨_, _, Or.inr (Or.inr (Or.inl ⟨r - (m' * n' + m' * n' + n'), by omega, by omega, rfl, rfl⟩))⟩

/-- C46: `image2d_differences.adjoint_map` is the transpose of `linear_map`. -/
theorem C46_adjoint {K : Type*} [Field K] (m n : ℕ) (hmn : 1 < m * n) (x : ℕ → K) (u : ℕ → ℕ → K) :
    ∑ s ∈ Finset.range 2, ∑ i ∈ Finset.range (m * n - 1), diffLin m n x i s * u i s =
      ∑ c ∈ Finset.range (m * n), x c * diffAdj m n u c := by
  set q := m * n - 1 with hq
  have hq0 : 0 < q := by omega
  have e : ∀ f : ℕ → K, ∑ r ∈ Finset.range (2 * q), f r = ∑ s ∈ Finset.range 2, ∑ i ∈ Finset.range q, f (s * q + i) := by
    intro f
    rw [two_mul, Finset.sum_range_add, Finset.sum_range_succ, Finset.sum_range_one]
    simp
  unfold diffLin diffAdj formDRows
  rw [← hq]
  simp only [e, Finset.mul_sum, Finset.sum_mul]
  have e2 : ∀ s i, i < q → (s * q + i) % q = i ∧ (s * q + i) / q = s := by
    intro s i hi
    exact ⟨(divmod hi).2, (divmod hi).1⟩
  rw [Finset.sum_comm (s := Finset.range (m * n))]
  refine Finset.sum_congr rfl fun s _ => ?_
  rw [Finset.sum_comm (s := Finset.range (m * n))]
  refine Finset.sum_congr rfl fun i hi => Finset.sum_congr rfl fun c _ => ?_
  obtain ⟨h1, h2⟩ := e2 s i (Finset.mem_range.1 hi)
  rw [h1, h2]; ring

/-- hypotheses met: the 2 x 3 lattice has an edge from vertex (0,1) to (1,1) -/
example : IsLatticeEdge 2 3 1 4 := ⟨0, 1, by norm_num, by norm_num, rfl, Or.inl ⟨by norm_num, rfl⟩⟩

end Verif.Props
