import Verif.Proofs.ScannerText

/-! Decoding of arbitrary bytes, and how a word scanner cuts them. -/

namespace Wego.Scan

theorem enc_of_nat (v : Nat) (hv : v < 0xD800 ∨ (0xDFFF < v ∧ v < 0x110000)) : (Char.ofNat v).toNat = v ∧
    String.utf8EncodeChar (Char.ofNat v) = (if v ≤ 0x7f then [UInt8.ofNat v]
      else if v ≤ 0x7ff then [UInt8.ofNat (v / 64 % 0x20 + 0xc0), UInt8.ofNat (v % 0x40 + 0x80)]
      else if v ≤ 0xffff then [UInt8.ofNat (v / 4096 % 0x10 + 0xe0), UInt8.ofNat (v / 64 % 0x40 + 0x80), UInt8.ofNat (v % 0x40 + 0x80)]
      else [UInt8.ofNat (v / 262144 % 0x08 + 0xf0), UInt8.ofNat (v / 4096 % 0x40 + 0x80), UInt8.ofNat (v / 64 % 0x40 + 0x80), UInt8.ofNat (v % 0x40 + 0x80)]) := by
  have h1 : (Char.ofNat v).toNat = v := by
    have hv' : v.isValidChar := hv
    unfold Char.ofNat
    rw [dif_pos hv']
    rfl
  refine ⟨h1, ?_⟩
  have h2 : (Char.ofNat v).val.toNat = v := h1
  unfold String.utf8EncodeChar
  simp only [h2]

theorem byte_eq {n : Nat} {b : UInt8} (h : n = b.toNat) : UInt8.ofNat n = b := by
  subst h; simp

/-- What `utf8.DecodeRune` gives: the rune whose encoding the bytes begin with, or, if they begin with no encoding, `RuneError`
of width 1. -/
theorem decode_sound (p : Bytes) (hp : p ≠ []) :
    (∃ c rest, p = String.utf8EncodeChar c ++ rest ∧ decodeRune p = (c.toNat, c.utf8Size)) ∨
      (decodeRune p = (runeError, 1) ∧ ∀ c rest, p ≠ String.utf8EncodeChar c ++ rest) := by
  suffices h : (∃ c rest, p = String.utf8EncodeChar c ++ rest) ∨ decodeRune p = (runeError, 1) by
    by_cases hc : ∃ c rest, p = String.utf8EncodeChar c ++ rest
    · obtain ⟨c, rest, hc⟩ := hc
      exact Or.inl ⟨c, rest, hc, by rw [hc, decode_enc]⟩
    · refine Or.inr ⟨h.resolve_left hc, fun c rest he => hc ⟨c, rest, he⟩⟩
  have key : ∀ v rest, (v < 0xD800 ∨ (0xDFFF < v ∧ v < 0x110000)) → p = String.utf8EncodeChar (Char.ofNat v) ++ rest →
      (∃ c rest, p = String.utf8EncodeChar c ++ rest) ∨ decodeRune p = (runeError, 1) := fun v rest _ h => Or.inl ⟨_, rest, h⟩
  cases p with
  | nil => exact absurd rfl hp
  | cons p0 rest =>
    have h0 := p0.toNat_lt
    by_cases ha : p0.toNat < 0x80
    · apply key p0.toNat rest (by omega)
      rw [(enc_of_nat p0.toNat (by omega)).2, if_pos (by omega), byte_eq rfl]; rfl
    · cases hl : leadInfo p0.toNat with
      | none => right; unfold decodeRune; simp only [if_neg ha, hl]
      | some x =>
        obtain ⟨sz, lo, hi⟩ := x
        have hcases : (sz = 2 ∧ 0xC2 ≤ p0.toNat ∧ p0.toNat ≤ 0xDF ∧ lo = 0x80 ∧ hi = 0xBF) ∨
            (sz = 3 ∧ 0xE0 ≤ p0.toNat ∧ p0.toNat ≤ 0xEF ∧ 0x80 ≤ lo ∧ hi ≤ 0xBF ∧ (p0.toNat = 0xE0 → lo = 0xA0) ∧ (p0.toNat = 0xED → hi = 0x9F)) ∨
            (sz = 4 ∧ 0xF0 ≤ p0.toNat ∧ p0.toNat ≤ 0xF4 ∧ 0x80 ≤ lo ∧ hi ≤ 0xBF ∧ (p0.toNat = 0xF0 → lo = 0x90) ∧ (p0.toNat = 0xF4 → hi = 0x8F)) := by
          unfold leadInfo at hl
          repeat' split at hl
          all_goals simp only [Option.some.injEq, Prod.mk.injEq, reduceCtorEq] at hl
          all_goals obtain ⟨rfl, rfl, rfl⟩ := hl
          all_goals omega
        by_cases hlen : (p0 :: rest).length < sz
        · right; unfold decodeRune; simp only [if_neg ha, hl, if_pos hlen]
        · cases rest with
          | nil => simp at hlen; omega
          | cons b1 rest =>
            have h1 := b1.toNat_lt
            by_cases hb : b1.toNat < lo ∨ hi < b1.toNat
            · right; unfold decodeRune; simp only [if_neg ha, hl, if_neg hlen, if_pos hb]
            · rcases hcases with ⟨rfl, hc⟩ | ⟨rfl, hc⟩ | ⟨rfl, hc⟩
              · have hv : p0.toNat % 32 * 64 + b1.toNat % 64 < 0xD800 := by omega
                apply key (p0.toNat % 32 * 64 + b1.toNat % 64) rest (Or.inl hv)
                rw [(enc_of_nat _ (Or.inl hv)).2, if_neg (by omega), if_pos (by omega), byte_eq (b := p0) (by omega), byte_eq (b := b1) (by omega)]
                rfl
              · cases rest with
                | nil => simp at hlen
                | cons b2 rest =>
                  have h2 := b2.toNat_lt
                  by_cases hb2 : isCont b2 = false
                  · right; unfold decodeRune; simp only [if_neg ha, hl, if_neg hlen, if_neg hb, if_pos hb2, if_neg (by omega : ¬ 3 ≤ 2)]
                  · simp only [isCont, Bool.and_eq_false_iff, decide_eq_false_iff_not, not_or, not_not] at hb2
                    have hv : p0.toNat % 16 * 4096 + b1.toNat % 64 * 64 + b2.toNat % 64 < 0xD800 ∨
                        (0xDFFF < p0.toNat % 16 * 4096 + b1.toNat % 64 * 64 + b2.toNat % 64 ∧ p0.toNat % 16 * 4096 + b1.toNat % 64 * 64 + b2.toNat % 64 < 0x110000) := by omega
                    apply key _ rest hv
                    rw [(enc_of_nat _ hv).2, if_neg (by omega), if_neg (by omega), if_pos (by omega), byte_eq (b := p0) (by omega),
                      byte_eq (b := b1) (by omega), byte_eq (b := b2) (by omega)]
                    rfl
              · cases rest with
                | nil => simp at hlen
                | cons b2 rest =>
                  have h2 := b2.toNat_lt
                  by_cases hb2 : isCont b2 = false
                  · right; unfold decodeRune; simp only [if_neg ha, hl, if_neg hlen, if_neg hb, if_pos hb2, if_neg (by omega : ¬ 4 ≤ 2)]
                  · cases rest with
                    | nil => simp at hlen
                    | cons b3 rest =>
                      have h3 := b3.toNat_lt
                      by_cases hb3 : isCont b3 = false
                      · right; unfold decodeRune
                        simp only [if_neg ha, hl, if_neg hlen, if_neg hb, if_neg hb2, if_pos hb3, if_neg (by omega : ¬ 4 ≤ 2), if_neg (by omega : ¬ 4 ≤ 3)]
                      · simp only [isCont, Bool.and_eq_false_iff, decide_eq_false_iff_not, not_or, not_not] at hb2 hb3
                        have hv : p0.toNat % 8 * 262144 + b1.toNat % 64 * 4096 + b2.toNat % 64 * 64 + b3.toNat % 64 < 0xD800 ∨
                            (0xDFFF < p0.toNat % 8 * 262144 + b1.toNat % 64 * 4096 + b2.toNat % 64 * 64 + b3.toNat % 64 ∧
                              p0.toNat % 8 * 262144 + b1.toNat % 64 * 4096 + b2.toNat % 64 * 64 + b3.toNat % 64 < 0x110000) := by omega
                        apply key _ rest hv
                        rw [(enc_of_nat _ hv).2, if_neg (by omega), if_neg (by omega), if_neg (by omega), byte_eq (b := p0) (by omega),
                          byte_eq (b := b1) (by omega), byte_eq (b := b2) (by omega), byte_eq (b := b3) (by omega)]
                        rfl

/-- An encoding is a byte that is no continuation byte, then continuation bytes. -/
theorem enc_shape (c : Char) : ∃ b r, String.utf8EncodeChar c = b :: r ∧ isCont b = false ∧ ∀ d ∈ r, isCont d = true := by
  have hv := char_valid c
  have hc : ∀ n, 128 ≤ n → n < 192 → isCont (UInt8.ofNat n) = true := fun n h1 h2 => by
    unfold isCont; rw [toNat_ofNat8 _ (by omega)]; simp; omega
  have hn : ∀ n, n < 256 → (n < 128 ∨ 192 ≤ n) → isCont (UInt8.ofNat n) = false := fun n h1 h2 => by
    unfold isCont; rw [toNat_ofNat8 _ h1]
    simp only [Bool.and_eq_false_iff, decide_eq_false_iff_not]; omega
  unfold String.utf8EncodeChar
  generalize c.val.toNat = v at hv
  simp only
  split
  · exact ⟨_, _, rfl, hn _ (by omega) (by omega), by simp⟩
  · split
    · exact ⟨_, _, rfl, hn _ (by omega) (by omega), by simp only [List.mem_cons, List.not_mem_nil, or_false, forall_eq]; exact hc _ (by omega) (by omega)⟩
    · split
      · refine ⟨_, _, rfl, hn _ (by omega) (by omega), ?_⟩
        simp only [List.mem_cons, List.not_mem_nil, or_false, forall_eq_or_imp, forall_eq]
        exact ⟨hc _ (by omega) (by omega), hc _ (by omega) (by omega)⟩
      · refine ⟨_, _, rfl, hn _ (by omega) (by omega), ?_⟩
        simp only [List.mem_cons, List.not_mem_nil, or_false, forall_eq_or_imp, forall_eq]
        exact ⟨hc _ (by omega) (by omega), hc _ (by omega) (by omega), hc _ (by omega) (by omega)⟩

/-- the bytes skipped are encoded spaces -/
theorem skip_spaces (B : Bytes) : ∃ sp : List Char, (∀ c ∈ sp, isSpace c = true) ∧ B = enc sp ++ B.drop (skipLen B) := by
  induction hn : B.length using Nat.strong_induction_on generalizing B with
  | _ n ih =>
    subst hn
    by_cases h0 : B = []
    · subst h0; exact ⟨[], by simp, by simp [enc]⟩
    · rw [skipLen_ne h0]
      split
      · next hs =>
        rcases decode_sound B h0 with ⟨c, rest, hB, hd⟩ | ⟨hd, _⟩
        · rw [hd] at hs ⊢
          rw [isSpaceRune_char] at hs
          have hdrop : B.drop c.utf8Size = rest := by rw [hB, drop_enc_char]
          have hlen : rest.length < B.length := by
            rw [hB, List.length_append, String.length_utf8EncodeChar]
            have := c.utf8Size_pos; omega
          obtain ⟨sp, h1, h2⟩ := ih rest.length hlen rest rfl
          refine ⟨c :: sp, by simpa [hs] using h1, ?_⟩
          simp only
          rw [hdrop, ← List.drop_drop, hdrop, enc_cons, List.append_assoc, ← h2, ← hB]
        · rw [hd, runeError_no_space] at hs; simp at hs
      · exact ⟨[], by simp, by simp [enc]⟩

/-- after the skipped bytes no space begins -/
theorem skip_stops (B : Bytes) (c : Char) (rest : Bytes) (hc : isSpace c = true) : B.drop (skipLen B) ≠ String.utf8EncodeChar c ++ rest := by
  induction hn : B.length using Nat.strong_induction_on generalizing B with
  | _ n ih =>
    subst hn
    by_cases h0 : B = []
    · subst h0; simp only [List.drop_nil]; exact (enc_char_ne c rest).symm
    · rw [skipLen_ne h0]
      split
      · rw [← List.drop_drop]
        have := decodeRune_width B h0
        exact ih _ (by simp only [List.length_drop]; omega) _ rfl
      · next hs =>
        intro h
        rw [List.drop_zero] at h
        rw [h, decode_enc, isSpaceRune_char, hc] at hs
        simp at hs

/-- what `findSpace` finds is an encoded space -/
theorem found_space (W : Bytes) (i k : Nat) (h : findSpace W = some (i, k)) :
    ∃ c rest, isSpace c = true ∧ k = c.utf8Size ∧ W = W.take i ++ (String.utf8EncodeChar c ++ rest) ∧ rest = W.drop (i + k) := by
  induction hn : W.length using Nat.strong_induction_on generalizing W i k with
  | _ n ih =>
    subst hn
    by_cases h0 : W = []
    · subst h0; rw [findSpace_nil] at h; cases h
    · rw [findSpace_ne h0] at h
      split at h
      · next hs =>
        simp only [Option.some.injEq, Prod.mk.injEq] at h
        obtain ⟨rfl, rfl⟩ := h
        rcases decode_sound W h0 with ⟨c, rest, hB, hd⟩ | ⟨hd, _⟩
        · rw [hd] at hs ⊢
          rw [isSpaceRune_char] at hs
          refine ⟨c, rest, hs, rfl, by simpa using hB, ?_⟩
          simp only [Nat.zero_add]
          conv_rhs => rw [hB]
          rw [drop_enc_char]
        · rw [hd, runeError_no_space] at hs; simp at hs
      · rw [Option.map_eq_some_iff] at h
        obtain ⟨⟨i', k'⟩, h1, h2⟩ := h
        simp only [Prod.mk.injEq] at h2
        obtain ⟨rfl, rfl⟩ := h2
        have hw := decodeRune_width W h0
        obtain ⟨c, rest, h3, h4, h5, h6⟩ := ih _ (by simp only [List.length_drop]; omega) _ _ _ h1 rfl
        refine ⟨c, rest, h3, h4, ?_, ?_⟩
        · rw [List.take_add, List.append_assoc, ← h5, List.take_append_drop]
        · rw [h6, List.drop_drop, Nat.add_assoc]

/-- no space is missed -/
theorem space_found (a : Bytes) (c : Char) (b : Bytes) (hc : isSpace c = true) :
    ∃ i k, findSpace (a ++ (String.utf8EncodeChar c ++ b)) = some (i, k) ∧ i ≤ a.length := by
  induction hn : a.length using Nat.strong_induction_on generalizing a with
  | _ n ih =>
    subst hn
    set W := a ++ (String.utf8EncodeChar c ++ b) with hW
    have h0 : W ≠ [] := by rw [hW]; exact fun h => enc_char_ne c b (List.append_eq_nil_iff.1 h).2
    rw [findSpace_ne h0]
    split
    · exact ⟨0, _, rfl, by omega⟩
    · next hs =>
      obtain ⟨hw1, hw2⟩ := decodeRune_width W h0
      have hle : (decodeRune W).2 ≤ a.length := by
        by_contra hlt
        have hlt : a.length < (decodeRune W).2 := by omega
        rcases Nat.eq_zero_or_pos a.length with h | h
        · have : a = [] := List.length_eq_zero_iff.1 h
          rw [hW, this, List.nil_append, decode_enc, isSpaceRune_char, hc] at hs
          simp at hs
        · rcases decode_sound W h0 with ⟨d, rest, hB, hd⟩ | ⟨hd, _⟩
          · rw [hd] at hlt
            simp only at hlt
            obtain ⟨x, r, hx1, hx2, _⟩ := enc_shape c
            obtain ⟨y, s, hy1, _, hy3⟩ := enc_shape d
            have hlen := String.length_utf8EncodeChar d
            have e1 : W[a.length]? = some x := by rw [hW, hx1]; simp
            have e2 : W[a.length]? = s[a.length - 1]? := by
              rw [hB, hy1, List.cons_append, List.getElem?_cons]
              rw [if_neg (by omega), List.getElem?_append_left]
              rw [hy1, List.length_cons] at hlen; omega
            rw [e1] at e2
            have := hy3 x (List.mem_of_getElem? e2.symm)
            rw [hx2] at this; simp at this
          · rw [hd] at hlt; simp only at hlt; omega
      have hsplit : W.drop (decodeRune W).2 = a.drop (decodeRune W).2 ++ (String.utf8EncodeChar c ++ b) := by
        conv_lhs => rw [hW]
        rw [List.drop_append_of_le_length hle]
      obtain ⟨i, k, h1, h2⟩ := ih (a.drop (decodeRune W).2).length (by simp only [List.length_drop]; omega) _ rfl
      rw [hsplit, h1]
      refine ⟨_, _, rfl, ?_⟩
      simp only [List.length_drop] at h2 ⊢
      omega

end Wego.Scan
