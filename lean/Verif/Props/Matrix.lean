import Verif.Proofs.Matrix

/-! # C26: matrix rows are disjoint views -/

namespace Wego.Props
open Wego Wego.Matrix

variable {F : Type} {σ : Type}

/-- The captured state before call number `i` of the initialiser, when each call gets a zero row. -/
def initState [GoFloat F] (c : Nat) (fn : Nat → List F → σ → List F × σ) (s : σ) : Nat → σ
  | 0 => s
  | i + 1 => (fn i (List.replicate c fzero) (initState c fn s i)).2

/-- `New` row by row. -/
theorem new_rows [GoFloat F] (r c : Nat) (fn : Nat → List F → σ → List F × σ) (s : σ)
    (hfn : ∀ i v s, v.length = c → (fn i v s).1.length = c) :
    ∃ m, Matrix.new r c fn s = .ok (m, initState c fn s r) ∧ Shaped m r c ∧
      ∀ i : Nat, i < r → m.rowOf i = (fn i (List.replicate c fzero) (initState c fn s i)).1 := by
  have hnn : ¬ ((r : Int) * (c : Int) < 0) := by have : (0:Int) ≤ (r : Int) * (c : Int) := by positivity
                                                 omega
  have hlen : ((r : Int) * (c : Int)).toNat = r * c := by
    rw [← Nat.cast_mul, Int.toNat_natCast]
  have hrow0 : ∀ i < r, ((List.replicate (r * c) (fzero : F)).drop (i * c)).take c = List.replicate c fzero := by
    intro i hi
    have := row_bound (c := c) hi
    rw [List.drop_replicate, List.take_replicate]
    congr 1; omega
  obtain ⟨⟨m, s'⟩, h1, hs, hsh, hrows⟩ := forN_inv
    (fun i (x : Matrix F × σ) => x.2 = initState c fn s i ∧ Shaped x.1 r c ∧
      ∀ k < r, x.1.rowOf k = if k < i then (fn k (List.replicate c fzero) (initState c fn s k)).1
        else List.replicate c fzero) r
    (({ array := List.replicate ((r : Int) * (c : Int)).toNat fzero, row := r, col := c } : Matrix F), s)
    (fun i (x : Matrix F × σ) =>
      x.1.getRow i >>= fun vec =>
      x.1.setRow i (fn i vec x.2).1 >>= fun mat => .ok (mat, (fn i vec x.2).2))
    ⟨rfl, ⟨rfl, rfl, by rw [hlen]; simp⟩, by
      intro k hk
      simp only [rowOf, Int.toNat_natCast, hlen, Nat.not_lt_zero, if_false]
      exact hrow0 k hk⟩
    (by
      rintro i ⟨m, s1⟩ hi ⟨hs, hsh, hrows⟩
      simp only at hs hsh hrows
      have hri := hrows i hi
      simp only [Nat.lt_irrefl, if_false] at hri
      simp only [hsh.getRow hi, Res.ok_bind, hri]
      obtain ⟨m', e, hsh', hr1, hr2⟩ := hsh.setRow hi (fn i (List.replicate c fzero) s1).1 (hfn _ _ _ (by simp))
      rw [e]
      refine ⟨_, rfl, ?_, hsh', ?_⟩
      · simp [initState, hs]
      · intro k hk
        by_cases hki : k = i
        · subst hki; simp only [Nat.lt_succ_self, if_true, hr1, hs]
        · rw [hr2 k hki, hrows k hk]
          have : k < i ↔ k < i + 1 := by omega
          simp only [this])
  simp only at hs hsh hrows
  refine ⟨m, ?_, hsh, ?_⟩
  · unfold Matrix.new
    simp only [hnn, if_false, Int.toNat_natCast]
    rw [← hs]; exact h1
  · intro i hi
    rw [hrows i hi, if_pos hi]

/-- **C26 (New).** `New(row, col, fn)` never panics for sizes `>= 0`; it calls `fn` once per row, in order,
with a zero row, and row `i` of the result holds what call `i` wrote. -/
theorem C26_new [GoFloat F] (r c : Nat) (fn : Nat → List F → σ → List F × σ) (s : σ)
    (hfn : ∀ i v s, v.length = c → (fn i v s).1.length = c) :
    ∃ m, Matrix.new r c fn s = .ok (m, initState c fn s r) ∧ m.row = r ∧ m.col = c ∧
      ∀ i : Nat, i < r → m.getRow i = .ok (fn i (List.replicate c fzero) (initState c fn s i)).1 := by
  obtain ⟨m, h1, h2, h3⟩ := new_rows r c fn s hfn
  exact ⟨m, h1, h2.row, h2.col, fun i hi => by rw [h2.getRow hi, h3 i hi]⟩

/-- `C26_new`: a 2×3 matrix whose initialiser writes the row number into every element and counts its calls. -/
example [GoFloat F] := C26_new (F := F) 2 3 (fun i v (n : Nat) => (v.map (fun _ => GoFloat.ofRat i), n + 1)) 0
  (fun _ v _ h => by rw [List.length_map]; exact h)

/-- A sequence of element writes `Slice(i)[j] = v`. -/
def writes (m : Matrix F) (ws : List (Nat × Nat × F)) : Res (Matrix F) :=
  forEach ws m (fun w m => m.setAt w.1 w.2.1 w.2.2)

/-- The last value written at row `i`, column `j` in a sequence of writes, or else the old value. -/
def lastWritten (old : F) (i j : Nat) (ws : List (Nat × Nat × F)) : F :=
  ws.foldl (fun acc w => if w.1 = i ∧ w.2.1 = j then w.2.2 else acc) old

/-- **C26 (views).** On any `r`×`c` matrix, after any sequence of in-range element writes through row
slices: nothing panicked, the shape is unchanged, and every element holds the last value written to that
very row and column (so a write through one row's slice changes no other row). -/
theorem C26_rows_are_disjoint (m : Matrix F) (r c : Nat) (hm : Shaped m r c) (ws : List (Nat × Nat × F))
    (hws : ∀ w ∈ ws, w.1 < r ∧ w.2.1 < c) :
    ∃ m', writes m ws = .ok m' ∧ m'.row = r ∧ m'.col = c ∧ m'.array.length = m.array.length ∧
      ∀ i j : Nat, i < r → j < c → ∃ old, m.getAt i j = .ok old ∧ m'.getAt i j = .ok (lastWritten old i j ws) := by
  suffices H : ∃ m', writes m ws = .ok m' ∧ Shaped m' r c ∧
      ∀ i j : Nat, i < r → j < c → ∃ old, m.getAt i j = .ok old ∧ m'.getAt i j = .ok (lastWritten old i j ws) by
    obtain ⟨m', h1, h2, h3⟩ := H
    exact ⟨m', h1, h2.row, h2.col, by rw [h2.len, hm.len], h3⟩
  induction ws generalizing m with
  | nil =>
    refine ⟨m, rfl, hm, ?_⟩
    intro i j hi hj
    obtain ⟨v, hv, _⟩ := hm.getAt hi hj
    exact ⟨v, hv, hv⟩
  | cons w ws ih =>
    obtain ⟨a, b, v⟩ := w
    obtain ⟨ha, hb⟩ := hws (a, b, v) (by simp)
    simp only at ha hb
    obtain ⟨m1, e1, hs1, hr1, hr2⟩ := hm.setAt ha hb v
    obtain ⟨m', e', hs', hget⟩ := ih m1 hs1 (fun w hw => hws w (by simp [hw]))
    refine ⟨m', by simp only [writes, forEach_cons, e1, Res.ok_bind]; exact e', hs', ?_⟩
    intro i j hi hj
    obtain ⟨old, ho, hrow⟩ := hm.getAt hi hj
    obtain ⟨old1, ho1, hn⟩ := hget i j hi hj
    refine ⟨old, ho, ?_⟩
    rw [hn]
    congr 1
    obtain ⟨v1, hv1, hrow1⟩ := hs1.getAt hi hj
    rw [ho1] at hv1
    simp only [Res.ok.injEq] at hv1
    subst hv1
    simp only [lastWritten, List.foldl_cons]
    congr 1
    by_cases hai : a = i
    · subst hai
      rw [hr1] at hrow1
      by_cases hbj : b = j
      · subst hbj
        rw [List.getElem?_set_self (by rw [hm.length_rowOf ha]; exact hb)] at hrow1
        simpa using hrow1.symm
      · rw [List.getElem?_set_ne hbj, hrow] at hrow1
        simpa [hbj] using hrow1.symm
    · rw [hr2 i (fun e => hai e.symm), hrow] at hrow1
      simpa [hai] using hrow1.symm

/-- `C26_rows_are_disjoint` on a 2×3 matrix: two writes to row 0, one to row 1. -/
example := C26_rows_are_disjoint ({ array := [1, 2, 3, 4, 5, 6], row := 2, col := 3 } : Matrix Nat) 2 3 ⟨rfl, rfl, rfl⟩
  [(0, 2, 9), (1, 0, 8), (0, 2, 7)] (by decide)

/-- **C26 (bounds).** `Slice(i)` succeeds exactly for the rows `0 <= i < row` when rows are not empty. -/
theorem C26_slice_bounds (m : Matrix F) (r c : Nat) (hm : Shaped m r c) (hc : 0 < c) (i : Int) :
    (∃ off, m.slice i = .ok off) ↔ 0 ≤ i ∧ i < r := by
  constructor
  · rintro ⟨off, h⟩
    unfold Matrix.slice startIndex at h
    simp only [hm.col, hm.len] at h
    split at h
    · next hc' =>
      obtain ⟨h1, h2, h3⟩ := hc'
      have hcp : (0 : Int) < c := by exact_mod_cast hc
      refine ⟨nonneg_of_mul_nonneg_left h1 hcp, ?_⟩
      by_contra hge
      push Not at hge
      have : (r : Int) * c ≤ i * c := mul_le_mul_of_nonneg_right hge (le_of_lt hcp)
      push_cast at h3
      linarith
    · simp at h
  · rintro ⟨h0, hi⟩
    obtain ⟨k, rfl⟩ := Int.eq_ofNat_of_zero_le h0
    exact ⟨_, hm.slice (by exact_mod_cast hi)⟩

/-- `C26_slice_bounds` on a 2×3 matrix. -/
example := C26_slice_bounds ({ array := [1, 2, 3, 4, 5, 6], row := 2, col := 3 } : Matrix Nat) 2 3 ⟨rfl, rfl, rfl⟩
  (by decide) 2

/-- **C26 (column bounds).** In a row in range, reading or writing element `j` through the row's slice succeeds exactly for `j < col`; an index at or
beyond `col` panics (it does not reach the next row), although the array may go on. -/
theorem C26_column_bounds (m : Matrix F) (r c : Nat) (hm : Shaped m r c) (i : Nat) (hi : i < r) (j : Nat) (v : F) :
    ((∃ x, m.getAt i j = .ok x) ↔ j < c) ∧ ((∃ m', m.setAt i j v = .ok m') ↔ j < c) ∧
    (c ≤ j → m.getAt i j = .panic .indexOutOfRange ∧ m.setAt i j v = .panic .indexOutOfRange) := by
  have hbad : c ≤ j → m.getAt i j = .panic .indexOutOfRange ∧ m.setAt i j v = .panic .indexOutOfRange := by
    intro h
    unfold Matrix.getAt Matrix.setAt
    rw [hm.slice hi, Res.ok_bind, Res.ok_bind, hm.col, Int.toNat_natCast, if_neg (by omega), if_neg (by omega)]
    exact ⟨rfl, rfl⟩
  refine ⟨⟨fun ⟨x, hx⟩ => ?_, fun h => ?_⟩, ⟨fun ⟨x, hx⟩ => ?_, fun h => ?_⟩, hbad⟩
  · by_contra hj
    rw [(hbad (by omega)).1] at hx; cases hx
  · obtain ⟨x, hx, _⟩ := hm.getAt hi h; exact ⟨x, hx⟩
  · by_contra hj
    rw [(hbad (by omega)).2] at hx; cases hx
  · obtain ⟨m', hx, _⟩ := hm.setAt hi h v; exact ⟨m', hx⟩

/-- `C26_column_bounds` on a 2×3 matrix: column 3 of row 0 is out of range although the array goes on. -/
example := (C26_column_bounds ({ array := [1, 2, 3, 4, 5, 6], row := 2, col := 3 } : Matrix Nat) 2 3 ⟨rfl, rfl, rfl⟩ 0
  (by decide) 3 9).2.2 (by decide)

example : Shaped ({ array := [1, 2, 3, 4, 5, 6], row := 2, col := 3 } : Matrix Nat) 2 3 := ⟨rfl, rfl, rfl⟩

end Wego.Props
