import Verif.Model.Cooccurrence

/-! # C03: bigram encoding -/

namespace Wego.Props
open Wego

theorem encode_toNat (a b : BitVec 64) (ha : a.toNat < 2^32) (hb : b.toNat < 2^32) :
    (encode a b).toNat = b.toNat * 2^32 + a.toNat := by
  unfold encode
  rw [BitVec.toNat_or, BitVec.toNat_shiftLeft, Nat.shiftLeft_eq]
  rw [Nat.mod_eq_of_lt (by omega)]
  rw [Nat.or_comm, ← Nat.shiftLeft_eq, ← Nat.shiftLeft_add_eq_or_of_lt ha]

theorem encodeBigram_toNat (a b : BitVec 64) (ha : a.toNat < 2^32) (hb : b.toNat < 2^32) :
    (encodeBigram a b).toNat = max a.toNat b.toNat * 2^32 + min a.toNat b.toNat := by
  unfold encodeBigram
  split
  · next h =>
    have h' : a.toNat < b.toNat := by simpa [BitVec.lt_def] using h
    rw [encode_toNat a b ha hb, Nat.max_eq_right (by omega), Nat.min_eq_left (by omega)]
  · next h =>
    have h' : b.toNat ≤ a.toNat := by simpa [BitVec.lt_def] using h
    rw [encode_toNat b a hb ha, Nat.max_eq_left (by omega), Nat.min_eq_right (by omega)]

/-- **C03 (round trip).** Decoding an encoded pair returns the smaller id first. -/
theorem C03_decode_encode (a b : BitVec 64) (ha : a.toNat < 2^32) (hb : b.toNat < 2^32) :
    ((decodeBigram (encodeBigram a b)).1.toNat = min a.toNat b.toNat ∧
     (decodeBigram (encodeBigram a b)).2.toNat = max a.toNat b.toNat) := by
  have h := encodeBigram_toNat a b ha hb
  have hf : ((encodeBigram a b) >>> 32).toNat = max a.toNat b.toNat := by
    rw [BitVec.toNat_ushiftRight, h, Nat.shiftRight_eq_div_pow]; omega
  have hg : (((encodeBigram a b) >>> 32) <<< 32).toNat = max a.toNat b.toNat * 2^32 := by
    rw [BitVec.toNat_shiftLeft, hf, Nat.shiftLeft_eq]; omega
  refine ⟨?_, hf⟩
  simp only [decodeBigram]
  rw [BitVec.toNat_sub, hg, h]
  omega

/-- `C03_decode_encode` at the ids 7 and 4294967295, the largest admissible one. -/
example := C03_decode_encode 7 4294967295 (by decide) (by decide)

/-- **C03 (injectivity).** Two pairs have the same code exactly when they are equal as unordered
pairs; in particular the code does not depend on the order of the two ids. -/
theorem C03_encode_eq_iff (a b c d : BitVec 64) (ha : a.toNat < 2^32) (hb : b.toNat < 2^32)
    (hc : c.toNat < 2^32) (hd : d.toNat < 2^32) :
    encodeBigram a b = encodeBigram c d ↔ (a = c ∧ b = d) ∨ (a = d ∧ b = c) := by
  rw [BitVec.toNat_eq, encodeBigram_toNat a b ha hb, encodeBigram_toNat c d hc hd]
  simp only [BitVec.toNat_eq]
  omega

/-- `C03_encode_eq_iff`: the pairs {3,7} and {7,3} have the same code, {3,7} and {3,8} have not. -/
example : encodeBigram 3 7 = encodeBigram 7 3 ∧ encodeBigram 3 7 ≠ encodeBigram 3 8 :=
  ⟨(C03_encode_eq_iff 3 7 7 3 (by decide) (by decide) (by decide) (by decide)).2 (by decide),
    fun h => absurd ((C03_encode_eq_iff 3 7 3 8 (by decide) (by decide) (by decide) (by decide)).1 h) (by decide)⟩

/-- The order of the arguments never matters (all of `uint64`). -/
theorem C03_encode_comm (a b : BitVec 64) : encodeBigram a b = encodeBigram b a := by
  unfold encodeBigram
  simp only [BitVec.lt_def]
  split <;> split
  · omega
  · rfl
  · rfl
  · have : a = b := by rw [BitVec.toNat_eq]; omega
    rw [this]

/-- Outside 32 bits the encoding is not injective: `{0, 2^32}` collides with `{0, 0}`. -/
theorem C03_collision : encodeBigram 0 (BitVec.ofNat 64 (2^32)) = encodeBigram 0 0 := by decide

example : ∃ a b : BitVec 64, a.toNat < 2^32 ∧ b.toNat < 2^32 ∧ a ≠ b ∧
    decodeBigram (encodeBigram b a) = (a, b) := ⟨3, 7, by decide⟩

end Wego.Props
