import Verif.Model.Cooccurrence
import Verif.Props.Encode

/-! Lemmas about sequences of `Cooccurrence.Add`. -/

namespace Wego

variable {F : Type} [GoFloat F]

/-- `k` times `x += v`, from an absent entry reading as 0. -/
def bumpN (o : Option F) (v : F) : Nat → Option F
  | 0 => o
  | k + 1 => some (((bumpN o v k).getD fzero) +. v)

theorem bumpN_succ' (o : Option F) (v : F) (k : Nat) :
    bumpN (some ((o.getD fzero) +. v)) v k = bumpN o v (k + 1) := by
  induction k with
  | zero => rfl
  | succ k ih => simp only [bumpN] at ih ⊢; rw [ih]

theorem bumpN_none_iff (v : F) (k : Nat) : bumpN (none : Option F) v k = none ↔ k = 0 := by
  cases k <;> simp [bumpN]

theorem bumpN_real (v : ℝ) (k : Nat) (hk : 1 ≤ k) : bumpN none v k = some (k * v) := by
  induction k with
  | zero => omega
  | succ k ih =>
    by_cases h : k = 0
    · subst h; simp [bumpN]
    · simp only [bumpN, ih (by omega)]
      simp; ring

/-- the key of an id pair -/
def pairKey (q : Nat × Nat) : BitVec 64 := encodeBigram (BitVec.ofNat 64 q.1) (BitVec.ofNat 64 q.2)

/-- A sequence of `Add` calls. -/
def addPairs (l : List (Nat × Nat)) (co : Cooccurrence F) : Res (Cooccurrence F) :=
  forEach l co (fun q co => co.add q.1 q.2)

theorem addPairs_inc (l : List (Nat × Nat)) (co : Cooccurrence F) (hinc : co.typ = countInc) :
    ∃ co', addPairs l co = .ok co' ∧ co'.typ = co.typ ∧ (co.ma.WF → co'.ma.WF) ∧
      (∀ k, co'.ma.get? k =
        bumpN (co.ma.get? k) (GoFloat.ofRat 1) (l.countP (fun q => pairKey q = k))) := by
  induction l generalizing co with
  | nil => exact ⟨co, rfl, rfl, id, fun k => rfl⟩
  | cons q l ih =>
    obtain ⟨co', h1, h2, h3, h4⟩ := ih
      { co with ma := Cooccurrence.addAt co.ma (pairKey q) (GoFloat.ofRat 1) } hinc
    refine ⟨co', ?_, h2, ?_, ?_⟩
    · simp only [addPairs, forEach_cons]
      rw [show co.add q.1 q.2 = .ok { co with ma := Cooccurrence.addAt co.ma (pairKey q) (GoFloat.ofRat 1) } from by
        simp [Cooccurrence.add, hinc, pairKey]]
      exact h1
    · intro h; exact h3 (GoMap.wf_set _ _ _ h)
    · intro k
      rw [h4 k]
      simp only [Cooccurrence.addAt, GoMap.get?_set, List.countP_cons]
      by_cases hk : pairKey q = k
      · simp only [hk, if_true, decide_true]
        rw [bumpN_succ']
      · simp [hk]

/-- weight of a pair in proximity counting -/
def proxW (q : Nat × Nat) : F :=
  GoFloat.ofRat 1 /. GoFloat.abs (GoFloat.ofRat ((((q.1 : Int) - (q.2 : Int) : Int)) : ℚ))

theorem add_prox (co : Cooccurrence F) (hp : co.typ = countProx) (a b : Nat) :
    co.add a b = if a = b then .err .divideByZero
      else .ok { co with ma := Cooccurrence.addAt co.ma (pairKey (a, b)) (proxW (a, b)) } := by
  have hne : ¬ (countProx = countInc) := by decide
  simp only [Cooccurrence.add, hp, hne, if_false, if_true, pairKey, proxW]
  by_cases h : a = b
  · simp [h]
  · rw [if_neg (by omega), if_neg h]

theorem addPairs_prox_fail (l : List (Nat × Nat)) (co : Cooccurrence F) (hp : co.typ = countProx)
    (h : ∃ q ∈ l, q.1 = q.2) : addPairs l co = .err .divideByZero := by
  induction l generalizing co with
  | nil => simp at h
  | cons q l ih =>
    simp only [addPairs, forEach_cons]
    rw [add_prox co hp]
    by_cases hq : q.1 = q.2
    · simp [hq]
    · simp only [hq, if_false, Res.ok_bind]
      refine ih { co with ma := Cooccurrence.addAt co.ma (pairKey q) (proxW q) } hp ?_
      obtain ⟨q', hm, e⟩ := h
      rcases List.mem_cons.1 hm with rfl | hm
      · exact absurd e hq
      · exact ⟨q', hm, e⟩

theorem addPairs_prox_ok (l : List (Nat × Nat)) (co : Cooccurrence F) (hp : co.typ = countProx)
    (h : ∀ q ∈ l, q.1 ≠ q.2) : ∃ co', addPairs l co = .ok co' := by
  induction l generalizing co with
  | nil => exact ⟨co, rfl⟩
  | cons q l ih =>
    simp only [addPairs, forEach_cons]
    rw [add_prox co hp, if_neg (h q (by simp))]
    exact ih _ hp (fun q hq => h q (by simp [hq]))

theorem addPairs_prox (l : List (Nat × Nat)) (co : Cooccurrence F) (hp : co.typ = countProx)
    (h : ∀ q ∈ l, q.1 ≠ q.2) (k : BitVec 64) (v : F)
    (hv : ∀ q ∈ l, pairKey q = k → proxW q = v) :
    ∃ co', addPairs l co = .ok co' ∧ co'.typ = co.typ ∧ (co.ma.WF → co'.ma.WF) ∧
      co'.ma.get? k = bumpN (co.ma.get? k) v (l.countP (fun q => pairKey q = k)) := by
  induction l generalizing co with
  | nil => exact ⟨co, rfl, rfl, id, rfl⟩
  | cons q l ih =>
    obtain ⟨co', h1, h2, h3, h4⟩ := ih
      { co with ma := Cooccurrence.addAt co.ma (pairKey q) (proxW q) } hp
      (fun q hq => h q (by simp [hq])) (fun q hq => hv q (by simp [hq]))
    refine ⟨co', ?_, h2, ?_, ?_⟩
    · simp only [addPairs, forEach_cons]
      rw [add_prox co hp, if_neg (h q (by simp))]
      exact h1
    · intro h; exact h3 (GoMap.wf_set _ _ _ h)
    · rw [h4]
      simp only [Cooccurrence.addAt, GoMap.get?_set, List.countP_cons]
      by_cases hk : pairKey q = k
      · simp only [hk, if_true, decide_true]
        rw [hv q (by simp) hk, bumpN_succ']
      · simp [hk]

theorem pairKey_eq_iff (q r : Nat × Nat) (h1 : q.1 < 2^32) (h2 : q.2 < 2^32)
    (h3 : r.1 < 2^32) (h4 : r.2 < 2^32) :
    pairKey q = pairKey r ↔ (q = r ∨ q = (r.2, r.1)) := by
  have t : ∀ n, n < 2^32 → (BitVec.ofNat 64 n).toNat = n := by
    intro n hn; rw [BitVec.toNat_ofNat]; omega
  unfold pairKey
  rw [Props.C03_encode_eq_iff _ _ _ _ (by rw [t _ h1]; exact h1) (by rw [t _ h2]; exact h2)
    (by rw [t _ h3]; exact h3) (by rw [t _ h4]; exact h4)]
  simp only [BitVec.toNat_eq, t _ h1, t _ h2, t _ h3, t _ h4]
  obtain ⟨a, b⟩ := q; obtain ⟨c, d⟩ := r
  simp

end Wego
