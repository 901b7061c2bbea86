import Verif.Props.Cooccurrence
import Verif.Model.Glove

/-! The co-occurrence map after any sequence of `Add` calls, and its keys. -/

namespace Wego

/-- every successful `Add` adds something to the entry of the pair -/
theorem add_ok_eq {F : Type} [GoFloat F] {co co' : Cooccurrence F} {a b : Nat} (h : co.add a b = .ok co') :
    ∃ v, co' = { co with ma := Cooccurrence.addAt co.ma (pairKey (a, b)) v } ∧
      (v = GoFloat.ofRat 1 ∨
        (a ≠ b ∧ v = GoFloat.ofRat 1 /. GoFloat.abs (GoFloat.ofRat ((((a : Int) - (b : Int) : Int)) : ℚ)))) := by
  unfold Cooccurrence.add at h
  dsimp only at h
  split at h
  · exact ⟨_, (Res.ok.inj h).symm, .inl rfl⟩
  · split at h
    · split at h
      · cases h
      · next hd => exact ⟨_, (Res.ok.inj h).symm, .inr ⟨by omega, rfl⟩⟩
    · cases h

theorem addPairs_keys {F : Type} [GoFloat F] (l : List (Nat × Nat)) (co co' : Cooccurrence F) (h : addPairs l co = .ok co')
    (hw : co.ma.WF) : co'.ma.WF ∧
      ∀ k, k ∈ co'.ma.map Prod.fst ↔ k ∈ co.ma.map Prod.fst ∨ ∃ q ∈ l, pairKey q = k := by
  induction l generalizing co with
  | nil => cases h; exact ⟨hw, by simp⟩
  | cons q l ih =>
    simp only [addPairs, forEach_cons] at h
    rw [Res.bind_eq_ok] at h
    obtain ⟨c1, h1, h2⟩ := h
    obtain ⟨v, rfl, _⟩ := add_ok_eq h1
    obtain ⟨i1, i2⟩ := ih _ h2 (GoMap.wf_set _ _ _ hw)
    refine ⟨i1, fun k => ?_⟩
    rw [i2 k, Cooccurrence.addAt, GoMap.mem_keys_set]
    constructor
    · rintro ((rfl | h) | ⟨q', hq, e⟩)
      · exact .inr ⟨q, by simp, rfl⟩
      · exact .inl h
      · exact .inr ⟨q', by simp [hq], e⟩
    · rintro (h | ⟨q', hq, e⟩)
      · exact .inl (.inr h)
      · rcases List.mem_cons.1 hq with rfl | hq
        · exact .inl (.inl e.symm)
        · exact .inr ⟨q', hq, e⟩

theorem addPairs_pos (l : List (Nat × Nat)) (co co' : Cooccurrence ℝ) (h : addPairs l co = .ok co')
    (hp : ∀ k v, co.ma.get? k = some v → 0 < v) : ∀ k v, co'.ma.get? k = some v → 0 < v := by
  induction l generalizing co with
  | nil => cases h; exact hp
  | cons q l ih =>
    simp only [addPairs, forEach_cons] at h
    rw [Res.bind_eq_ok] at h
    obtain ⟨c1, h1, h2⟩ := h
    obtain ⟨w, rfl, hw⟩ := add_ok_eq h1
    have hwpos : 0 < w := by
      rcases hw with rfl | ⟨hne, rfl⟩
      · simp
      · simp only [real_ofRat, real_abs, real_div]
        have : (((((q.1 : Int) - (q.2 : Int)) : Int) : ℚ) : ℝ) ≠ 0 := by
          rw [Ne, Rat.cast_eq_zero, Int.cast_eq_zero]; omega
        have := abs_pos.2 this
        positivity
    refine ih _ h2 ?_
    intro k v hv
    simp only [Cooccurrence.addAt, GoMap.get?_set] at hv
    split at hv
    · next e =>
      subst e
      rw [Option.some.injEq] at hv
      rw [← hv, real_add]
      rcases hg : co.ma.get? (pairKey (q.1, q.2)) with _ | x
      · simpa using hwpos
      · have := hp _ _ hg
        simp only [Option.getD_some]; linarith
    · exact hp k v hv

theorem toNat_ofNat64 {a : Nat} (h : a < 2 ^ 32) : (BitVec.ofNat 64 a).toNat = a := by
  rw [BitVec.toNat_ofNat]; omega

theorem toInt_of_toNat {u : BitVec 64} {a : Nat} (h : u.toNat = a) (ha : a < 2 ^ 32) : u.toInt = a := by
  rw [BitVec.toInt_eq_toNat_of_lt (by omega), h]

/-- the ids of the key of a pair, as `int`s, the smaller one first -/
theorem decode_pairKey {a b : Nat} (ha : a < 2 ^ 32) (hb : b < 2 ^ 32) :
    (decodeBigram (pairKey (a, b))).1.toInt = (min a b : Nat) ∧
    (decodeBigram (pairKey (a, b))).2.toInt = (max a b : Nat) := by
  have := Props.C03_decode_encode (BitVec.ofNat 64 a) (BitVec.ofNat 64 b)
    (by rw [toNat_ofNat64 ha]; exact ha) (by rw [toNat_ofNat64 hb]; exact hb)
  rw [toNat_ofNat64 ha, toNat_ofNat64 hb] at this
  exact ⟨toInt_of_toNat this.1 (by omega), toInt_of_toNat this.2 (by omega)⟩

theorem pairKey_comm (a b : Nat) : pairKey (a, b) = pairKey (b, a) := Props.C03_encode_comm _ _

theorem pairKey_min_max (a b : Nat) : pairKey (a, b) = pairKey (min a b, max a b) := by
  rcases Nat.le_total a b with h | h
  · rw [Nat.min_eq_left h, Nat.max_eq_right h]
  · rw [Nat.min_eq_right h, Nat.max_eq_left h, pairKey_comm]

end Wego
