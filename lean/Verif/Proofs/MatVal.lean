import Verif.Proofs.Matrix
import Verif.Model.Glove
import Mathlib.Algebra.BigOperators.Group.Finset.Basic
import Mathlib.Algebra.BigOperators.Intervals
import Mathlib.Tactic.NormNum

/-! Element-wise view of matrices, and the element-wise effect of the loops of the GloVe and LexVec solvers. -/

namespace Wego.Matrix
variable {F : Type} [GoFloat F]

/-- The element in row `i`, column `j`. -/
def val (m : Matrix F) (i j : Nat) : F := ((m.rowOf i)[j]?).getD fzero

variable {m : Matrix F} {r c : Nat}

theorem Shaped.getAt_val (h : Shaped m r c) {i j : Nat} (hi : i < r) (hj : j < c) : m.getAt i j = .ok (m.val i j) := by
  obtain ⟨v, h1, h2⟩ := h.getAt hi hj
  rw [h1, val, h2]; rfl

theorem Shaped.setAt_val (h : Shaped m r c) {i j : Nat} (hi : i < r) (hj : j < c) (v : F) :
    ∃ m', m.setAt i j v = .ok m' ∧ Shaped m' r c ∧
      ∀ k l, m'.val k l = if k = i ∧ l = j then v else m.val k l := by
  obtain ⟨m', h1, h2, h3, h4⟩ := h.setAt hi hj v
  refine ⟨m', h1, h2, fun k l => ?_⟩
  unfold val
  by_cases hk : k = i
  · subst hk
    rw [h3, List.getElem?_set]
    have := h.length_rowOf hi
    by_cases hl : l = j
    · subst hl; simp [this, hj]
    · rw [if_neg (fun e => hl e.symm), if_neg (fun e => hl e.2)]
  · rw [h4 k hk, if_neg (fun e => hk e.1)]

theorem Shaped.rowOf_eq (h : Shaped m r c) {i : Nat} (hi : i < r) : m.rowOf i = (List.range c).map (m.val i) := by
  apply List.ext_getElem?
  intro j
  have hl := h.length_rowOf hi
  by_cases hj : j < c
  · have hj' : j < (m.rowOf i).length := by omega
    simp [val, hj, List.getElem?_eq_getElem hj']
  · rw [List.getElem?_eq_none (by omega), List.getElem?_eq_none (by simp; omega)]

/-- matrices of the same shape with the same elements are equal -/
theorem Shaped.ext_val {m' : Matrix F} (h : Shaped m r c) (h' : Shaped m' r c)
    (e : ∀ i < r, ∀ j < c, m.val i j = m'.val i j) : m = m' := by
  refine h.ext h' fun i hi => ?_
  rw [h.rowOf_eq hi, h'.rowOf_eq hi]
  exact List.map_congr_left fun j hj => e i hi j (by simpa using hj)

end Wego.Matrix

namespace Wego
open Matrix

section any
variable {F : Type} [GoFloat F] {m : Matrix F} {r c : Nat}

theorem updAt_val (h : Shaped m r c) {i j : Nat} (hi : i < r) (hj : j < c) (g : F → F) :
    ∃ m', updAt m i j g = .ok m' ∧ Shaped m' r c ∧
      ∀ k l, m'.val k l = if k = i ∧ l = j then g (m.val i j) else m.val k l := by
  obtain ⟨m', h1, h2, h3⟩ := h.setAt_val hi hj (g (m.val i j))
  exact ⟨m', by rw [updAt, h.getAt_val hi hj, Res.ok_bind, h1], h2, h3⟩

/-- one coordinate of the simultaneous update, for distinct or equal rows -/
theorem pairSub_val (h : Shaped m r c) {a b j : Nat} (ha : a < r) (hb : b < r) (hj : j < c) (d : F) :
    ∃ m', pairSub d a b j m = .ok m' ∧ Shaped m' r c ∧
      (∀ k l, m'.val k l =
        if l = j then
          (if k = b then (if b = a then m.val a j -. d *. m.val b j else m.val b j) -. d *. m.val a j
           else if k = a then m.val a j -. d *. m.val b j else m.val k l)
        else m.val k l) := by
  obtain ⟨m1, h1, h2, h3⟩ := h.setAt_val ha hj (m.val a j -. d *. m.val b j)
  obtain ⟨m2, k1, k2, k3⟩ := h2.setAt_val hb hj (m1.val b j -. d *. m.val a j)
  refine ⟨m2, ?_, k2, fun k l => ?_⟩
  · simp only [pairSub, h.getAt_val ha hj, h.getAt_val hb hj, Res.ok_bind, h1, h2.getAt_val hb hj, k1]
  · rw [k3, h3, h3]
    by_cases hl : l = j
    · subst hl; by_cases hk : k = b
      · subst hk; by_cases hba : k = a <;> simp [hba]
      · simp [hk]
    · simp [hl]

/-- the whole loop of simultaneous updates over the first `n` columns -/
theorem pairSubLoop_val {a b n : Nat} (h : Shaped m r c) (ha : a < r) (hb : b < r) (hn : n ≤ c) (d : F) :
    ∃ m', forN n m (fun i m => pairSub d a b i m) = .ok m' ∧ Shaped m' r c ∧
      (∀ k l, m'.val k l =
        if l < n then
          (if k = b then (if b = a then m.val a l -. d *. m.val b l else m.val b l) -. d *. m.val a l
           else if k = a then m.val a l -. d *. m.val b l else m.val k l)
        else m.val k l) := by
  obtain ⟨m', h1, h2, h3⟩ := forN_inv (fun i (m' : Matrix F) => Shaped m' r c ∧
      (∀ k l, m'.val k l =
        if l < i then
          (if k = b then (if b = a then m.val a l -. d *. m.val b l else m.val b l) -. d *. m.val a l
           else if k = a then m.val a l -. d *. m.val b l else m.val k l)
        else m.val k l)) n m (fun i m => pairSub d a b i m) ⟨h, fun k l => by simp⟩ (by
    rintro i mm hi ⟨hs, hv⟩
    obtain ⟨m2, k1, k2, k3⟩ := pairSub_val hs ha hb (show i < c by omega) d
    refine ⟨m2, k1, k2, fun k l => ?_⟩
    rw [k3, hv a i, hv b i, hv k l]
    simp only [lt_irrefl, if_false]
    rcases lt_trichotomy l i with hl | hl | hl
    · simp only [show ¬ l = i by omega, hl, show l < i + 1 by omega, if_true, if_false]
    · subst hl; simp
    · simp only [show ¬ l = i by omega, show ¬ l < i by omega, show ¬ l < i + 1 by omega, if_false])
  exact ⟨m', h1, h2, h3⟩

end any
end Wego
