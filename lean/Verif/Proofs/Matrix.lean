import Mathlib.Tactic.Ring
import Mathlib.Tactic.Linarith
import Mathlib.Data.List.Basic
import Verif.Model.Matrix

/-! Rows of a matrix: well-shaped matrices read and write row by row. -/

namespace Wego.Matrix
variable {F : Type}

/-- The matrix has `r` rows of `c` elements. -/
structure Shaped (m : Matrix F) (r c : Nat) : Prop where
  row : m.row = r
  col : m.col = c
  len : m.array.length = r * c

/-- Row `i` as a list. -/
def rowOf (m : Matrix F) (i : Nat) : List F := (m.array.drop (i * m.col.toNat)).take m.col.toNat

theorem row_bound {i r c : Nat} (h : i < r) : i * c + c ≤ r * c := by
  calc i * c + c = (i + 1) * c := by ring
    _ ≤ r * c := Nat.mul_le_mul_right c h

variable {m : Matrix F} {r c : Nat}

theorem getElem?_take_of_le' {l : List F} {c j : Nat} (h : c ≤ j) : (l.take c)[j]? = none := by
  apply List.getElem?_eq_none; simp; omega

theorem Shaped.slice (h : Shaped m r c) {i : Nat} (hi : i < r) : m.slice i = .ok (i * c) := by
  unfold Matrix.slice startIndex
  have := row_bound (c := c) hi
  simp only [h.col, h.len]
  rw [if_pos ⟨by positivity, by omega, by exact_mod_cast this⟩]
  congr 1

theorem Shaped.getRow (h : Shaped m r c) {i : Nat} (hi : i < r) : m.getRow i = .ok (m.rowOf i) := by
  simp [Matrix.getRow, h.slice hi, rowOf, h.col]

theorem Shaped.length_rowOf (h : Shaped m r c) {i : Nat} (hi : i < r) : (m.rowOf i).length = c := by
  have := row_bound (c := c) hi
  simp [rowOf, h.col, h.len]; omega

theorem Shaped.getElem?_rowOf (h : Shaped m r c) (i j : Nat) (hj : j < c) :
    (m.rowOf i)[j]? = m.array[i * c + j]? := by
  simp [rowOf, h.col, hj, List.getElem?_take]

/-- position of an element determines its row and column -/
theorem pos_inj {c i j i' j' : Nat} (hj : j < c) (hj' : j' < c) (h : i * c + j = i' * c + j') : i = i' ∧ j = j' := by
  have h1 : (i * c + j) / c = i := by rw [Nat.mul_comm, Nat.mul_add_div (by omega), Nat.div_eq_of_lt hj, Nat.add_zero]
  have h2 : (i' * c + j') / c = i' := by rw [Nat.mul_comm, Nat.mul_add_div (by omega), Nat.div_eq_of_lt hj', Nat.add_zero]
  have : i = i' := by rw [← h1, ← h2, h]
  subst this
  exact ⟨rfl, by omega⟩

theorem Shaped.setRow (h : Shaped m r c) {i : Nat} (hi : i < r) (vals : List F) (hv : vals.length = c) :
    ∃ m', m.setRow i vals = .ok m' ∧ Shaped m' r c ∧ m'.rowOf i = vals ∧
      ∀ k, k ≠ i → m'.rowOf k = m.rowOf k := by
  have hb := row_bound (c := c) hi
  have ht : (m.array.take (i * c)).length = i * c := by rw [List.length_take, h.len]; omega
  refine ⟨{ m with array := m.array.take (i * c) ++ vals ++ m.array.drop (i * c + vals.length) },
    by simp only [Matrix.setRow, h.slice hi, Res.ok_bind], ⟨h.row, h.col, ?_⟩, ?_, ?_⟩
  · simp only [List.length_append, ht, hv, List.length_drop, h.len]; omega
  · simp only [rowOf, h.col, Int.toNat_natCast]
    rw [List.append_assoc, List.drop_append_of_le_length (by rw [ht])]
    rw [List.drop_of_length_le (by rw [ht])]
    rw [List.nil_append, List.take_append_of_le_length (by omega), List.take_of_length_le (by omega)]
  · intro k hk
    simp only [rowOf, h.col, Int.toNat_natCast]
    apply List.ext_getElem?
    intro j
    by_cases hj : j < c
    · rw [List.getElem?_take_of_lt hj, List.getElem?_take_of_lt hj, List.getElem?_drop, List.getElem?_drop]
      rcases Nat.lt_or_gt_of_ne hk with hlt | hgt
      · have := row_bound (c := c) hlt
        rw [List.append_assoc, List.getElem?_append_left (by rw [ht]; omega), List.getElem?_take_of_lt (by omega)]
      · have := row_bound (c := c) hgt
        rw [List.getElem?_append_right (by rw [List.length_append, ht, hv]; omega), List.getElem?_drop]
        congr 1
        rw [List.length_append, ht, hv]; omega
    · rw [getElem?_take_of_le' (by omega), getElem?_take_of_le' (by omega)]

theorem Shaped.setAt (h : Shaped m r c) {i j : Nat} (hi : i < r) (hj : j < c) (v : F) :
    ∃ m', m.setAt i j v = .ok m' ∧ Shaped m' r c ∧
      m'.rowOf i = (m.rowOf i).set j v ∧ ∀ k, k ≠ i → m'.rowOf k = m.rowOf k := by
  have hb := row_bound (c := c) hi
  refine ⟨{ m with array := m.array.set (i * c + j) v }, ?_, ⟨h.row, h.col, by simp [h.len]⟩, ?_, ?_⟩
  · simp only [Matrix.setAt, h.slice hi, Res.ok_bind, h.col, Int.toNat_natCast, hj, if_true]
    rw [setIdx_of_lt _ _ _ (by rw [h.len]; omega)]; rfl
  · apply List.ext_getElem?
    intro k
    simp only [rowOf, h.col, Int.toNat_natCast]
    by_cases hk : k < c
    · rw [List.getElem?_take_of_lt hk, List.getElem?_drop, List.getElem?_set, List.getElem?_set]
      by_cases hjk : j = k
      · subst hjk
        simp [h.len, hj]
        rw [if_pos (by omega), if_pos (by omega)]
      · rw [if_neg (by omega), if_neg hjk, List.getElem?_take_of_lt hk, List.getElem?_drop]
    · rw [getElem?_take_of_le' (by omega), List.getElem?_eq_none]
      simp; omega
  · intro k hk
    simp only [rowOf, h.col, Int.toNat_natCast]
    apply List.ext_getElem?
    intro l
    by_cases hl : l < c
    · rw [List.getElem?_take_of_lt hl, List.getElem?_take_of_lt hl, List.getElem?_drop, List.getElem?_drop]
      rw [List.getElem?_set_ne]
      intro e
      exact hk (pos_inj hl hj e.symm).1
    · rw [getElem?_take_of_le' (by omega), getElem?_take_of_le' (by omega)]

theorem Shaped.getAt (h : Shaped m r c) {i j : Nat} (hi : i < r) (hj : j < c) :
    ∃ v, m.getAt i j = .ok v ∧ (m.rowOf i)[j]? = some v := by
  have hb := row_bound (c := c) hi
  have hlt : i * c + j < m.array.length := by rw [h.len]; omega
  refine ⟨m.array[i * c + j], ?_, ?_⟩
  · simp only [Matrix.getAt, h.slice hi, Res.ok_bind, h.col, Int.toNat_natCast, hj, if_true]
    rw [idx_of_lt _ _ hlt]
  · rw [h.getElem?_rowOf i j hj, List.getElem?_eq_getElem hlt]

/-- Two matrices of the same shape with the same rows are equal. -/
theorem Shaped.ext {m' : Matrix F} (h : Shaped m r c) (h' : Shaped m' r c) (e : ∀ i < r, m.rowOf i = m'.rowOf i) :
    m = m' := by
  have ha : m.array = m'.array := by
    apply List.ext_getElem?
    intro k
    by_cases hk : k < r * c
    · have hc : 0 < c := by
        rcases Nat.eq_zero_or_pos c with rfl | h0
        · simp at hk
        · exact h0
      have hi : k / c < r := Nat.div_lt_of_lt_mul (by rw [Nat.mul_comm]; exact hk)
      have hj := Nat.mod_lt k hc
      have := congrArg (fun l => l[k % c]?) (e (k / c) hi)
      simp only [h.getElem?_rowOf _ _ hj, h'.getElem?_rowOf _ _ hj] at this
      rwa [Nat.mul_comm, Nat.div_add_mod] at this
    · rw [List.getElem?_eq_none (by rw [h.len]; omega), List.getElem?_eq_none (by rw [h'.len]; omega)]
  cases m; cases m'
  simp only [Matrix.mk.injEq]
  exact ⟨ha, h.row.trans h'.row.symm, h.col.trans h'.col.symm⟩

end Wego.Matrix
