import Verif.Proofs.Scanner
import Verif.Proofs.Text
import Verif.Proofs.SaveLoad
import Mathlib.Data.List.TakeWhile

namespace Wego.Scan

/-- The UTF-8 encoding of a text (`String.utf8EncodeChar` is Lean's). -/
def enc (cs : List Char) : Bytes := cs.flatMap String.utf8EncodeChar

theorem enc_append (a b : List Char) : enc (a ++ b) = enc a ++ enc b := by simp [enc]

theorem enc_cons (c : Char) (l : List Char) : enc (c :: l) = String.utf8EncodeChar c ++ enc l := by simp [enc]

theorem enc_nil : enc [] = [] := rfl

theorem enc_length (cs : List Char) : (enc cs).length = utf8Len cs := by
  unfold enc utf8Len
  rw [List.length_flatMap]
  congr 1
  apply List.map_congr_left
  intro c _
  exact String.length_utf8EncodeChar c

theorem enc_eq_nil {cs : List Char} : enc cs = [] ↔ cs = [] := by
  cases cs with
  | nil => simp [enc]
  | cons c l =>
    have h := String.length_utf8EncodeChar c
    have := c.utf8Size_pos
    simp only [enc_cons, List.append_eq_nil_iff, reduceCtorEq, iff_false, not_and]
    intro h0; rw [h0] at h; simp at h; omega

theorem toNat_ofNat8 (n : Nat) (h : n < 256) : (UInt8.ofNat n).toNat = n := by
  simp [UInt8.toNat_ofNat']; omega

theorem char_valid (c : Char) : c.val.toNat < 0xD800 ∨ (0xDFFF < c.val.toNat ∧ c.val.toNat < 0x110000) := c.valid

/-- Decoding an encoded rune gives it back. -/
theorem decode_enc (c : Char) (rest : Bytes) : decodeRune (String.utf8EncodeChar c ++ rest) = (c.toNat, c.utf8Size) := by
  have hv := char_valid c
  have hsz := String.length_utf8EncodeChar c
  rw [← hsz]
  unfold Char.toNat
  generalize hg : c.val.toNat = v at hv
  have hE : String.utf8EncodeChar c = (let v := v
      if v ≤ 0x7f then [UInt8.ofNat v] else if v ≤ 0x7ff then [UInt8.ofNat (v / 64 % 0x20 + 0xc0), UInt8.ofNat (v % 0x40 + 0x80)]
      else if v ≤ 0xffff then [UInt8.ofNat (v / 4096 % 0x10 + 0xe0), UInt8.ofNat (v / 64 % 0x40 + 0x80), UInt8.ofNat (v % 0x40 + 0x80)]
      else [UInt8.ofNat (v / 262144 % 0x08 + 0xf0), UInt8.ofNat (v / 4096 % 0x40 + 0x80), UInt8.ofNat (v / 64 % 0x40 + 0x80), UInt8.ofNat (v % 0x40 + 0x80)]) := by
    rw [← hg]; rfl
  rw [hE]
  simp only
  split
  · simp only [List.cons_append, List.nil_append, decodeRune, List.length_cons, List.length_nil]
    rw [toNat_ofNat8 _ (by omega), if_pos (by omega)]
  · split
    · simp only [List.cons_append, List.nil_append, decodeRune, List.length_cons, List.length_nil]
      rw [toNat_ofNat8 _ (by omega), toNat_ofNat8 _ (by omega), if_neg (by omega)]
      have : leadInfo (v / 64 % 32 + 192) = some (2, 0x80, 0xBF) := by
        unfold leadInfo; rw [if_pos (by omega)]
      rw [this]
      simp only
      rw [if_neg (by omega), if_neg (by omega), if_pos (by omega)]
      simp only [Prod.mk.injEq, and_true]; omega
    · split
      · simp only [List.cons_append, List.nil_append, decodeRune, List.length_cons, List.length_nil]
        rw [toNat_ofNat8 _ (by omega), toNat_ofNat8 (v / 64 % 64 + 128) (by omega), if_neg (by omega)]
        obtain ⟨lo, hi, h1, h2, h3⟩ : ∃ lo hi, leadInfo (v / 4096 % 16 + 224) = some (3, lo, hi) ∧ lo ≤ v / 64 % 64 + 128 ∧ v / 64 % 64 + 128 ≤ hi := by
          unfold leadInfo
          rw [if_neg (by omega)]
          split
          · exact ⟨_, _, rfl, by omega, by omega⟩
          · split
            · exact ⟨_, _, rfl, by omega, by omega⟩
            · split
              · exact ⟨_, _, rfl, by omega, by omega⟩
              · rw [if_pos (by omega)]; exact ⟨_, _, rfl, by omega, by omega⟩
        rw [h1]
        simp only
        have hc : isCont (UInt8.ofNat (v % 64 + 128)) = true := by
          unfold isCont; rw [toNat_ofNat8 _ (by omega)]; simp; omega
        rw [if_neg (by omega), if_neg (by omega), if_neg (by omega), hc, if_neg (by simp), if_pos (by omega), toNat_ofNat8 _ (by omega)]
        simp only [Prod.mk.injEq, and_true]; omega
      · simp only [List.cons_append, List.nil_append, decodeRune, List.length_cons, List.length_nil]
        rw [toNat_ofNat8 (v / 262144 % 8 + 240) (by omega), toNat_ofNat8 (v / 4096 % 64 + 128) (by omega), if_neg (by omega)]
        obtain ⟨lo, hi, h1, h2, h3⟩ : ∃ lo hi, leadInfo (v / 262144 % 8 + 240) = some (4, lo, hi) ∧ lo ≤ v / 4096 % 64 + 128 ∧ v / 4096 % 64 + 128 ≤ hi := by
          unfold leadInfo
          rw [if_neg (by omega), if_neg (by omega), if_neg (by omega), if_neg (by omega), if_neg (by omega)]
          split
          · exact ⟨_, _, rfl, by omega, by omega⟩
          · split
            · exact ⟨_, _, rfl, by omega, by omega⟩
            · rw [if_pos (by omega)]; exact ⟨_, _, rfl, by omega, by omega⟩
        rw [h1]
        simp only
        have hc : isCont (UInt8.ofNat (v % 64 + 128)) = true := by
          unfold isCont; rw [toNat_ofNat8 _ (by omega)]; simp; omega
        have hc' : isCont (UInt8.ofNat (v / 64 % 64 + 128)) = true := by
          unfold isCont; rw [toNat_ofNat8 _ (by omega)]; simp; omega
        rw [if_neg (by omega), if_neg (by omega), if_neg (by omega), hc', hc, if_neg (by simp), if_neg (by omega), if_neg (by simp),
          toNat_ofNat8 _ (by omega), toNat_ofNat8 _ (by omega)]
        simp only [Prod.mk.injEq, and_true]; omega

theorem isSpaceRune_char (c : Char) : isSpaceRune c.toNat = isSpace c := by
  unfold isSpaceRune isSpace
  generalize c.toNat = n
  simp only
  rw [Bool.eq_iff_iff]
  split
  · simp only [Bool.or_eq_true, Bool.and_eq_true, beq_iff_eq, decide_eq_true_eq]; omega
  · split
    · simp only [Bool.or_eq_true, Bool.and_eq_true, beq_iff_eq, decide_eq_true_eq, true_iff]; omega
    · simp only [Bool.or_eq_true, Bool.and_eq_true, beq_iff_eq, decide_eq_true_eq]; omega

theorem enc_char_ne (c : Char) (rest : Bytes) : String.utf8EncodeChar c ++ rest ≠ [] := by
  have h := String.length_utf8EncodeChar c
  have := c.utf8Size_pos
  intro h0
  rw [List.append_eq_nil_iff] at h0
  rw [h0.1] at h; simp at h; omega

theorem drop_enc_char (c : Char) (rest : Bytes) : (String.utf8EncodeChar c ++ rest).drop c.utf8Size = rest := by
  rw [← String.length_utf8EncodeChar c, List.drop_left]

theorem skipLen_spaces (sp : List Char) (rest : Bytes) (h : ∀ c ∈ sp, isSpace c = true) :
    skipLen (enc sp ++ rest) = (enc sp).length + skipLen rest := by
  induction sp with
  | nil => simp [enc]
  | cons c l ih =>
    rw [enc_cons, List.append_assoc, skipLen_ne (enc_char_ne c _), decode_enc, isSpaceRune_char, if_pos (h c (by simp)), drop_enc_char,
      ih (fun d hd => h d (by simp [hd])), List.length_append, String.length_utf8EncodeChar]
    omega

theorem skipLen_word (c : Char) (rest : Bytes) (h : isSpace c = false) : skipLen (String.utf8EncodeChar c ++ rest) = 0 := by
  rw [skipLen_ne (enc_char_ne c _), decode_enc, isSpaceRune_char, h]; simp

theorem findSpace_word (w : List Char) (rest : Bytes) (h : ∀ c ∈ w, isSpace c = false) :
    findSpace (enc w ++ rest) = (findSpace rest).map (fun x => ((enc w).length + x.1, x.2)) := by
  induction w with
  | nil => simp [enc]
  | cons c l ih =>
    rw [enc_cons, List.append_assoc, findSpace_ne (enc_char_ne c _), decode_enc, isSpaceRune_char, h c (by simp), if_neg (by simp), drop_enc_char,
      ih (fun d hd => h d (by simp [hd])), Option.map_map, List.length_append, String.length_utf8EncodeChar]
    congr 1
    funext x
    simp only [Function.comp]
    rw [Nat.add_assoc]

theorem findSpace_space (c : Char) (rest : Bytes) (h : isSpace c = true) : findSpace (String.utf8EncodeChar c ++ rest) = some (0, c.utf8Size) := by
  rw [findSpace_ne (enc_char_ne c _), decode_enc, isSpaceRune_char, if_pos h]

theorem scan_spaces (sp cs : List Char) (h : ∀ c ∈ sp, isSpace c = true) : scanWordsAux (sp ++ cs) [] = scanWordsAux cs [] := by
  induction sp with
  | nil => rfl
  | cons c l ih =>
    rw [List.cons_append, scanWordsAux, if_pos (h c (by simp)), if_pos rfl]
    exact ih (fun d hd => h d (by simp [hd]))

theorem scan_word (w cs cur : List Char) (h : ∀ c ∈ w, isSpace c = false) : scanWordsAux (w ++ cs) cur = scanWordsAux cs (cur ++ w) := by
  induction w generalizing cur with
  | nil => simp
  | cons c l ih =>
    rw [List.cons_append, scanWordsAux, h c (by simp), if_neg (by simp), ih _ (fun d hd => h d (by simp [hd]))]
    simp

/-- The result of a token-level scan, in bytes. -/
def asWhole (o : ScanOut) : Whole := (o.toks.map enc, o.err.isSome)

theorem wordsOf_enc (cs : List Char) : wordsOf (enc cs) = asWhole (scanWordsAux cs []) := by
  induction hn : cs.length using Nat.strong_induction_on generalizing cs with
  | _ n ih =>
    subst hn
    obtain ⟨sp, cs1, rfl, hsp, h1⟩ : ∃ sp cs1, cs = sp ++ cs1 ∧ (∀ c ∈ sp, isSpace c = true) ∧ ∀ c, cs1.head? = some c → isSpace c = false := by
      refine ⟨cs.takeWhile isSpace, cs.dropWhile isSpace, List.takeWhile_append_dropWhile.symm, fun c hc => List.mem_takeWhile_imp hc, ?_⟩
      intro c hc
      have := List.head?_dropWhile_not isSpace cs
      rw [hc] at this
      simpa using this
    obtain ⟨w, cs2, rfl, hw, h2⟩ : ∃ w cs2, cs1 = w ++ cs2 ∧ (∀ c ∈ w, isSpace c = false) ∧ ∀ c, cs2.head? = some c → isSpace c = true := by
      refine ⟨cs1.takeWhile (fun c => !isSpace c), cs1.dropWhile (fun c => !isSpace c), List.takeWhile_append_dropWhile.symm,
        fun c hc => by simpa using List.mem_takeWhile_imp hc, ?_⟩
      intro c hc
      have := List.head?_dropWhile_not (fun c => !isSpace c) cs1
      rw [hc] at this
      simpa using this
    rw [scan_spaces _ _ hsp, scan_word _ _ _ hw, List.nil_append]
    have hskip : skipLen (enc (w ++ cs2)) = 0 := by
      rcases hw' : w with _ | ⟨c, l⟩
      · subst hw'
        rcases hc2 : cs2 with _ | ⟨c, l⟩
        · simp [enc, skipLen_nil]
        · have a := h2 c (by simp [hc2])
          have b := h1 c (by simp [hc2])
          rw [a] at b; cases b
      · rw [List.cons_append, enc_cons]
        exact skipLen_word _ _ (hw c (by simp [hw']))
    have hs : skipLen (enc (sp ++ (w ++ cs2))) = (enc sp).length := by
      rw [enc_append, skipLen_spaces _ _ hsp, hskip]; omega
    have hd : (enc (sp ++ (w ++ cs2))).drop (skipLen (enc (sp ++ (w ++ cs2)))) = enc w ++ enc cs2 := by
      rw [hs, enc_append, List.drop_left, enc_append]
    rcases hc2 : cs2 with _ | ⟨c, l⟩
    · subst hc2
      have hf : findSpace (enc w ++ enc []) = none := by
        rw [findSpace_word _ _ hw, enc_nil, findSpace_nil]; rfl
      rw [wordsOf_none (by rw [hd]; exact hf), hd, enc_nil, List.append_nil, scanWordsAux, enc_length]
      by_cases h0 : w = []
      · rw [if_pos (enc_eq_nil.2 h0), if_pos h0]; rfl
      · rw [if_neg (fun h => h0 (enc_eq_nil.1 h)), if_neg h0]
        split <;> rfl
    · subst hc2
      have hsc := h2 c (by simp)
      have hf : findSpace (enc w ++ enc (c :: l)) = some (utf8Len w, c.utf8Size) := by
        rw [findSpace_word _ _ hw, enc_cons, findSpace_space _ _ hsc, enc_length]; rfl
      have h0 : w ≠ [] := by
        intro h0; subst h0
        have b := h1 c (by simp)
        rw [hsc] at b; cases b
      rw [scanWordsAux, if_pos hsc, if_neg h0]
      by_cases hle : utf8Len w + c.utf8Size ≤ maxTok
      · rw [if_pos hle, wordsOf_some (by rw [hd]; exact hf) hle, hd]
        have e1 : (enc w ++ enc (c :: l)).take (utf8Len w) = enc w := by
          rw [← enc_length, List.take_left]
        have e2 : (enc (sp ++ (w ++ c :: l))).drop (skipLen (enc (sp ++ (w ++ c :: l))) + utf8Len w + c.utf8Size) = enc l := by
          rw [Nat.add_assoc, ← List.drop_drop, hd, ← List.drop_drop, ← enc_length, List.drop_left, enc_cons, drop_enc_char]
        rw [e1, e2, ih l.length (by simp; omega) l rfl]
        rfl
      · rw [if_neg hle, wordsOf_long (by rw [hd]; exact hf) (by omega)]
        rfl

/-! ## Lines -/

theorem index_some {data : Bytes} {i : Nat} (h : indexNewline data = some i) : i < data.length ∧ ∀ rest, indexNewline (data ++ rest) = some i := by
  unfold indexNewline at *
  have hi := List.findIdx?_eq_some_iff_getElem.1 h
  refine ⟨hi.1, fun rest => ?_⟩
  rw [List.findIdx?_append, h]; rfl

theorem index_none {data : Bytes} (h : indexNewline data = none) {rest : Bytes} {i : Nat} (hB : indexNewline (data ++ rest) = some i) : data.length ≤ i := by
  unfold indexNewline at *
  rw [List.findIdx?_append, h] at hB
  simp only [Option.none_or, Option.map_eq_some_iff] at hB
  obtain ⟨j, _, rfl⟩ := hB
  omega

/-- What a line scanner should deliver for a whole input. -/
def linesOf (B : Bytes) : Whole :=
  match h : indexNewline B with
  | some i => if i + 1 ≤ maxTok then Whole.cons (dropCRBytes (B.take i)) (linesOf (B.drop (i + 1))) else ([], true)
  | none => if B = [] then ([], false) else if B.length < maxTok then ([dropCRBytes B], false) else ([], true)
termination_by B.length
decreasing_by
  have := (index_some h).1
  simp only [List.length_drop]
  omega

theorem linesOf_some {B : Bytes} {i : Nat} (h : indexNewline B = some i) :
    linesOf B = if i + 1 ≤ maxTok then Whole.cons (dropCRBytes (B.take i)) (linesOf (B.drop (i + 1))) else ([], true) := by
  rw [linesOf]
  split
  · rename_i i' h'
    rw [h] at h'; cases h'; rfl
  · rename_i h'; rw [h] at h'; cases h'

theorem linesOf_none {B : Bytes} (h : indexNewline B = none) :
    linesOf B = if B = [] then ([], false) else if B.length < maxTok then ([dropCRBytes B], false) else ([], true) := by
  rw [linesOf]
  split
  · rename_i i' h'; rw [h] at h'; cases h'
  · rfl

theorem correct_lines : Correct splitLines linesOf where
  tok := by
    rintro data _ adv t ⟨rest, rfl⟩ hmax h
    unfold splitLines at h
    rw [if_neg (by simp)] at h
    rcases hf : indexNewline data with _ | i
    · rw [hf] at h; simp at h
    · rw [hf] at h
      simp only [Prod.mk.injEq, Option.some.injEq] at h
      obtain ⟨rfl, rfl⟩ := h
      obtain ⟨h1, h2⟩ := index_some hf
      refine ⟨by omega, by omega, ?_⟩
      rw [linesOf_some (h2 rest), if_pos (by omega), List.take_append_of_le_length (by omega)]
  skip := by
    rintro data _ adv ⟨rest, rfl⟩ h
    unfold splitLines at h
    rw [if_neg (by simp)] at h
    rcases hf : indexNewline data with _ | i
    · rw [hf] at h
      simp at h
      subst h
      exact ⟨Nat.zero_le _, by simp⟩
    · rw [hf] at h; simp at h
  full := by
    rintro data _ ⟨rest, rfl⟩ hl h
    unfold splitLines at h
    rw [if_neg (by simp)] at h
    rcases hf : indexNewline data with _ | i
    · rcases hB : indexNewline (data ++ rest) with _ | i
      · rw [linesOf_none hB, if_neg (by intro h0; rw [List.append_eq_nil_iff] at h0; rw [h0.1] at hl; simp [maxTok] at hl),
          if_neg (by rw [List.length_append]; omega)]
      · rw [linesOf_some hB, if_neg (by have := index_none hf hB; omega)]
    · rw [hf] at h; simp at h
  eofTok := by
    intro B adv t hl hcorner h
    unfold splitLines at h hcorner
    split at h
    · simp at h
    · rename_i hne
      simp only [true_and] at hne
      rcases hf : indexNewline B with _ | i
      · rw [hf] at h
        simp only [if_true, Prod.mk.injEq, Option.some.injEq] at h
        obtain ⟨rfl, rfl⟩ := h
        have : linesOf [] = ([], false) := by rw [linesOf_none rfl]; simp
        refine ⟨List.length_pos_iff.2 hne, le_refl _, ?_⟩
        have hshort : B.length < maxTok := by
          by_cases hm : B.length = maxTok
          · exact absurd (by rw [if_neg (by simp), hf]; simp) (hcorner hm)
          · omega
        rw [linesOf_none hf, if_neg hne, if_pos hshort, List.drop_length, this]
        rfl
      · rw [hf] at h
        simp only [Prod.mk.injEq, Option.some.injEq] at h
        obtain ⟨rfl, rfl⟩ := h
        obtain ⟨h1, _⟩ := index_some hf
        refine ⟨by omega, by omega, ?_⟩
        rw [linesOf_some hf, if_pos (by omega)]
  eofNone := by
    intro B adv h
    unfold splitLines at h
    split at h
    · rename_i h0
      rw [h0.2, linesOf_none rfl]; simp
    · rcases hf : indexNewline B with _ | i
      · rw [hf] at h; simp at h
      · rw [hf] at h; simp at h

/-- A byte of an encoded rune that is ASCII is that rune. -/
theorem enc_ascii (c : Char) (b : UInt8) (hb : b.toNat < 0x80) : b ∈ String.utf8EncodeChar c ↔ String.utf8EncodeChar c = [b] := by
  constructor
  · intro h
    have hv := char_valid c
    unfold String.utf8EncodeChar at h ⊢
    generalize c.val.toNat = v at h hv ⊢
    simp only at h ⊢
    split at h
    · rename_i h7
      rw [if_pos h7]
      simpa [eq_comm] using h
    · have key : ∀ n, n + 128 < 256 → b = UInt8.ofNat (n + 128) → False := by
        intro n hn h; rw [h, toNat_ofNat8 _ hn] at hb; omega
      exfalso
      split at h
      · simp only [List.mem_cons, List.not_mem_nil, or_false] at h
        rcases h with h | h
        · exact key (v / 64 % 32 + 64) (by omega) h
        · exact key _ (by omega) h
      · split at h
        · simp only [List.mem_cons, List.not_mem_nil, or_false] at h
          rcases h with h | h | h
          · exact key (v / 4096 % 16 + 96) (by omega) h
          · exact key _ (by omega) h
          · exact key _ (by omega) h
        · simp only [List.mem_cons, List.not_mem_nil, or_false] at h
          rcases h with h | h | h | h
          · exact key (v / 262144 % 8 + 112) (by omega) h
          · exact key _ (by omega) h
          · exact key _ (by omega) h
          · exact key _ (by omega) h
  · intro h; rw [h]; simp

theorem enc_inj {c d : Char} (h : String.utf8EncodeChar c = String.utf8EncodeChar d) : c = d := by
  have h1 := decode_enc c []
  have h2 := decode_enc d []
  rw [h, h2] at h1
  have := (Prod.mk.inj h1).1
  exact Char.ext (UInt32.toNat_inj.1 this.symm)

theorem mem_enc_ascii (cs : List Char) (a : Char) (b : UInt8) (hb : b.toNat < 0x80) (ha : String.utf8EncodeChar a = [b]) : b ∈ enc cs ↔ a ∈ cs := by
  unfold enc
  rw [List.mem_flatMap]
  constructor
  · rintro ⟨c, hc, hm⟩
    rw [enc_ascii c b hb, ← ha] at hm
    rw [← enc_inj hm]; exact hc
  · intro h
    exact ⟨a, h, by rw [ha]; simp⟩

theorem last_enc_ascii (cs : List Char) (a : Char) (b : UInt8) (hb : b.toNat < 0x80) (ha : String.utf8EncodeChar a = [b]) :
    (enc cs).getLast? = some b ↔ cs.getLast? = some a := by
  rcases List.eq_nil_or_concat cs with rfl | ⟨l, c, rfl⟩
  · simp [enc]
  · rw [List.concat_eq_append, enc_append, List.getLast?_append, List.getLast?_concat]
    have h1 : enc [c] = String.utf8EncodeChar c := by simp [enc]
    have hne : String.utf8EncodeChar c ≠ [] := by have := enc_char_ne c []; rwa [List.append_nil] at this
    rw [h1, List.getLast?_eq_getLast_of_ne_nil hne]
    simp only [Option.some_or, Option.some.injEq]
    constructor
    · intro h
      have : b ∈ String.utf8EncodeChar c := h ▸ List.getLast_mem hne
      rw [enc_ascii c b hb, ← ha] at this
      exact enc_inj this
    · rintro rfl
      simp [ha]

theorem dropCR_enc (cs : List Char) : dropCRBytes (enc cs) = enc (dropCR cs) := by
  unfold dropCRBytes dropCR
  have hcr : String.utf8EncodeChar '\r' = [13] := by decide
  by_cases h : cs.getLast? = some '\r'
  · rw [if_pos h, if_pos ((last_enc_ascii cs '\r' 13 (by decide) hcr).2 h)]
    rcases List.eq_nil_or_concat cs with rfl | ⟨l, c, rfl⟩
    · simp [enc]
    · rw [List.concat_eq_append, List.getLast?_concat] at h
      cases h
      rw [List.concat_eq_append, List.dropLast_concat, enc_append, show enc ['\r'] = [13] by simp [enc, hcr], List.dropLast_concat]
  · rw [if_neg h, if_neg (fun h' => h ((last_enc_ascii cs '\r' 13 (by decide) hcr).1 h'))]

theorem index_enc_none (l : List Char) (h : '\n' ∉ l) : indexNewline (enc l) = none := by
  unfold indexNewline
  rw [List.findIdx?_eq_none_iff]
  intro x hx
  simp only [beq_eq_false_iff_ne, ne_eq]
  rintro rfl
  exact h ((mem_enc_ascii l '\n' 10 (by decide) (by decide)).1 hx)

theorem scanLinesAux_last (l cur : List Char) (h : '\n' ∉ l) : scanLinesAux l cur =
    if cur ++ l = [] then ⟨[], none⟩ else if utf8Len (cur ++ l) < maxTok then ⟨[dropCR (cur ++ l)], none⟩ else ⟨[], some .tokenTooLong⟩ := by
  induction l generalizing cur with
  | nil => simp [scanLinesAux]
  | cons a l ih =>
    simp only [List.mem_cons, not_or] at h
    rw [scanLinesAux, if_neg (Ne.symm h.1), ih (cur ++ [a]) h.2]
    simp

theorem linesOf_enc (cs : List Char) : linesOf (enc cs) = asWhole (scanLinesAux cs []) := by
  induction hn : cs.length using Nat.strong_induction_on generalizing cs with
  | _ n ih =>
    subst hn
    by_cases hnl : '\n' ∈ cs
    · obtain ⟨l, rest, rfl, hl⟩ := List.eq_append_cons_of_mem hnl
      have hE : enc (l ++ '\n' :: rest) = enc l ++ (10 :: enc rest) := by
        rw [enc_append, enc_cons, show String.utf8EncodeChar '\n' = [10] by decide]; rfl
      have hi : indexNewline (enc l ++ (10 :: enc rest)) = some (utf8Len l) := by
        have h0 := index_enc_none l hl
        unfold indexNewline at h0 ⊢
        rw [List.findIdx?_append, h0, List.findIdx?_cons, enc_length]
        simp
      rw [hE, linesOf_some hi]
      by_cases hs : utf8Len l < maxTok
      · rw [if_pos (by omega), scanLinesAux_line l [] rest hl hs]
        have e1 : (enc l ++ (10 :: enc rest)).take (utf8Len l) = enc l := by rw [← enc_length, List.take_left]
        have e2 : (enc l ++ (10 :: enc rest)).drop (utf8Len l + 1) = enc rest := by
          rw [← List.drop_drop, ← enc_length, List.drop_left]; rfl
        rw [e1, e2, ih rest.length (by simp; omega) rest rfl, dropCR_enc]
        rfl
      · rw [if_neg (by omega), scanLinesAux_long l [] rest hl hs]; rfl
    · rw [linesOf_none (index_enc_none cs hnl), scanLinesAux_last cs [] hnl, List.nil_append, enc_length]
      by_cases h0 : cs = []
      · rw [if_pos (enc_eq_nil.2 h0), if_pos h0]; rfl
      · rw [if_neg (fun h => h0 (enc_eq_nil.1 h)), if_neg h0]
        split
        · rw [dropCR_enc]; rfl
        · rfl

end Wego.Scan
