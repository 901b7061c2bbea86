import Verif.Proofs.MatVal
import Verif.Model.WordVector

/-! Building a matrix from other matrices, element by element. -/

namespace Wego
open Matrix
variable {F : Type} [GoFloat F]

theorem fillRow_ok (c : Nat) (g : Nat → Res F) (h : Nat → F) (hg : ∀ i < c, g i = .ok (h i)) (vec : List F) (hv : vec.length = c) :
    fillRow c g vec = .ok ((List.range c).map h) := by
  unfold fillRow
  rw [Int.toNat_natCast]
  obtain ⟨v, h1, h2, h3⟩ := forN_inv (fun i (v : List F) => v.length = c ∧ ∀ j < i, v[j]? = some (h j)) c vec
    (fun i vec => g i >>= fun x => setIdx vec i x) ⟨hv, by intro j hj; omega⟩ (by
      rintro i v hi ⟨hl, hj⟩
      rw [hg i hi, Res.ok_bind, setIdx_of_lt _ _ _ (by omega)]
      refine ⟨_, rfl, by simpa using hl, ?_⟩
      intro j hji
      by_cases e : j = i
      · subst e; rw [List.getElem?_set_self (by omega)]
      · rw [List.getElem?_set_ne (fun e' => e e'.symm)]; exact hj j (by omega))
  rw [h1]
  congr 1
  apply List.ext_getElem?
  intro j
  by_cases hj : j < c
  · rw [h3 j hj]; simp [hj]
  · rw [List.getElem?_eq_none (by omega), List.getElem?_eq_none (by simp; omega)]

/-- `New` with an initialiser that fills each row from existing values -/
theorem newRes_ok (r c : Nat) (fn : Nat → List F → Res (List F)) (h : Nat → Nat → F)
    (hfn : ∀ i < r, ∀ v : List F, v.length = c → fn i v = .ok ((List.range c).map (h i))) :
    ∃ m, Matrix.newRes r c fn = .ok m ∧ Shaped m r c ∧ ∀ i < r, ∀ j < c, m.val i j = h i j := by
  have hnn : ¬ ((r : Int) * (c : Int) < 0) := by
    have : (0:Int) ≤ (r : Int) * (c : Int) := by positivity
    omega
  have hlen : ((r : Int) * (c : Int)).toNat = r * c := by rw [← Nat.cast_mul, Int.toNat_natCast]
  unfold Matrix.newRes
  rw [if_neg hnn, Int.toNat_natCast]
  obtain ⟨m, h1, h2, h3⟩ := forN_inv (fun i (m : Matrix F) => Shaped m r c ∧ ∀ k < i, m.rowOf k = (List.range c).map (h k)) r
    ({ array := List.replicate ((r : Int) * (c : Int)).toNat fzero, row := r, col := c } : Matrix F)
    (fun i mat => mat.getRow i >>= fun vec => fn i vec >>= fun vec' => mat.setRow i vec')
    ⟨⟨rfl, rfl, by rw [hlen]; simp⟩, by intro k hk; omega⟩ (by
      rintro i m hi ⟨hs, hk⟩
      rw [hs.getRow hi, Res.ok_bind, hfn i hi _ (hs.length_rowOf hi), Res.ok_bind]
      obtain ⟨m', e, q1, q2, q3⟩ := hs.setRow hi ((List.range c).map (h i)) (by simp)
      refine ⟨m', e, q1, ?_⟩
      intro k hki
      by_cases e : k = i
      · subst e; exact q2
      · rw [q3 k e]; exact hk k (by omega))
  refine ⟨m, h1, h2, ?_⟩
  intro i hi j hj
  unfold Matrix.val
  rw [h3 i hi]; simp [hj]

/-- copying `c` columns of the first `r` rows -/
theorem newRes_copy {p : Matrix F} {rp cp : Nat} (hp : Shaped p rp cp) {r c : Nat} (hr : r ≤ rp) (hc : c ≤ cp) :
    ∃ m, Matrix.newRes r c (fun row vec => fillRow c (fun i => p.getAt row i) vec) = .ok m ∧ Shaped m r c ∧
      ∀ i < r, ∀ j < c, m.val i j = p.val i j :=
  newRes_ok r c _ (fun i j => p.val i j) fun i hi v hv =>
    fillRow_ok c _ (fun j => p.val i j) (fun j hj => hp.getAt_val (by omega) (by omega)) v hv

/-- adding two families of rows -/
theorem newRes_sum {p q : Matrix F} {rp cp rq cq : Nat} (hp : Shaped p rp cp) (hq : Shaped q rq cq) {r c off : Nat} (hr : r ≤ rp) (hc : c ≤ cp)
    (hr' : r + off ≤ rq) (hc' : c ≤ cq) :
    ∃ m, Matrix.newRes r c (fun row vec => fillRow c (fun i =>
        p.getAt row i >>= fun a => q.getAt (row + off : Int) i >>= fun b => .ok (a +. b)) vec) = .ok m ∧ Shaped m r c ∧
      ∀ i < r, ∀ j < c, m.val i j = p.val i j +. q.val (i + off) j :=
  newRes_ok r c _ (fun i j => p.val i j +. q.val (i + off) j) fun i hi v hv =>
    fillRow_ok c _ (fun j => p.val i j +. q.val (i + off) j) (fun j hj => by
      have := hq.getAt_val (i := i + off) (j := j) (by omega) (by omega)
      push_cast at this
      rw [hp.getAt_val (by omega) (by omega), Res.ok_bind, this, Res.ok_bind]) v hv

end Wego
