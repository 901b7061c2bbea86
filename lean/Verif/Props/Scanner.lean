import Verif.Proofs.ScannerBytes
import Verif.Spec.Cut
import Verif.Model.Cpsutil
import Verif.Model.Vector

/-!
# C101: how the reader delivers the bytes does not matter

`ReadWord` and `Load` read through `bufio.Scanner`, which sees the input through reads of arbitrary sizes and a buffer that grows. For every
sequence of read sizes - bytes one by one, reads that cut a rune or a space in half, empty reads - the words and lines are those of the whole input.
-/

namespace Wego.Props

open Wego.Scan

/-- What `for scanner.Scan() { ... }` over reader `r` delivers is the list `ts`, and `scanner.Err()` is then `err`. -/
def Delivers (split : SplitFn) (r : Reader) (ts : List Bytes) (err : Option Err) : Prop :=
  ∃ e, Yields split (St.new r) ts e ∧ e.err = err

/-- Two readers deliver the same bytes with the same end (`io.EOF` or an error), in reads of any sizes. -/
def SameBytes (r r' : Reader) : Prop := r.rest = r'.rest ∧ r.fails = r'.fails

open Wego.Spec in
/-- One case is left out, for readers that report the end together with the last bytes only: an input whose last 65536 bytes hold no white space.
(Such a reader gets a last word of exactly 65536 bytes delivered, another one gets `bufio.ErrTooLong`: `C101_eager_corner`.) -/
def WordsEnd (r : Reader) : Prop := r.eager = true → ∀ T, T <:+ r.rest → T.length = 65536 → ¬ NoSpaceIn T

/-- The same for lines: the last 65536 bytes hold a newline. -/
def LinesEnd (r : Reader) : Prop := r.eager = true → ∀ T, T <:+ r.rest → T.length = 65536 → (10 : UInt8) ∈ T

open Wego.Spec in
theorem WordsEnd.noLimit {r : Reader} (h : WordsEnd r) : NoLimit splitWords r.eager r.rest := by
  intro he T hT hl h0
  refine h he T hT (by rw [hl]; rfl) ?_
  rintro a s z ⟨c, hc, rfl⟩ hz
  obtain ⟨i, k, h1, _⟩ := space_found a c z hc
  rw [← List.append_assoc, ← hz] at h1
  unfold splitWords at h0
  by_cases h2 : skipLen T = 0
  · simp only [h2, List.drop_zero, h1] at h0
    cases congrArg Prod.snd h0
  · simp only at h0
    split at h0
    · cases congrArg Prod.snd h0
    · simp only [Bool.false_eq_true, false_and, if_false] at h0
      exact h2 (congrArg Prod.fst h0)

theorem LinesEnd.noLimit {r : Reader} (h : LinesEnd r) : NoLimit splitLines r.eager r.rest := by
  intro he T hT hl h0
  have hm := h he T hT (by rw [hl]; rfl)
  unfold splitLines at h0
  simp only [Bool.false_eq_true, false_and, if_false] at h0
  split at h0
  · cases congrArg Prod.snd h0
  · next hf =>
    unfold indexNewline at hf
    rw [List.findIdx?_eq_none_iff] at hf
    simpa using hf 10 hm

/-- A reader that reports the end in a read of its own, as files and `strings.Reader` do, is never such a case. -/
theorem wordsEnd_lazy {r : Reader} (h : r.eager = false) : WordsEnd r := fun h' => absurd h' (by simp [h])

theorem linesEnd_lazy {r : Reader} (h : r.eager = false) : LinesEnd r := fun h' => absurd h' (by simp [h])

/-- Nor is an input shorter than 65536 bytes. -/
theorem wordsEnd_short {r : Reader} (h : r.rest.length < 65536) : WordsEnd r := fun _ _ hT hl => absurd hT.length_le (by omega)

theorem linesEnd_short {r : Reader} (h : r.rest.length < 65536) : LinesEnd r := fun _ _ hT hl => absurd hT.length_le (by omega)

/-- **C101 (any bytes).** Two readers that deliver the same bytes in different reads (neither with more than 100 empty reads in a row) make a
word scanner, and a line scanner, deliver the same tokens and the same error. The bytes need not be valid UTF-8, and one reader may report the end
together with the last bytes, the other in a read of its own. -/
theorem C101_any_bytes (r r' : Reader) (h : SameBytes r r') (hp : Patient r.sizes) (hp' : Patient r'.sizes) (ts : List Bytes) (err : Option Err) :
    (WordsEnd r → WordsEnd r' → (Delivers splitWords r ts err ↔ Delivers splitWords r' ts err)) ∧
      (LinesEnd r → LinesEnd r' → (Delivers splitLines r ts err ↔ Delivers splitLines r' ts err)) := by
  unfold Delivers
  constructor
  · intro h1 h2
    simp only [yields_iff correct_words r hp h1.noLimit, yields_iff correct_words r' hp' h2.noLimit, h.1, h.2]
  · intro h1 h2
    simp only [yields_iff correct_lines r hp h1.noLimit, yields_iff correct_lines r' hp' h2.noLimit, h.1, h.2]

theorem stop_err (fails : Bool) (o : ScanOut) (h : o.err = none ∨ o.err = some .tokenTooLong) :
    (stopOf fails (asWhole o)).err = (match o.err with
      | some e => some e
      | none => if fails then some .readErr else none) := by
  unfold stopOf asWhole
  rcases h with h | h <;> rw [h]
  · simp only [Option.isSome_none, Bool.false_eq_true, if_false]
    cases fails <;> rfl
  · rfl

theorem scanWordsAux_errs (cs cur : List Char) : (scanWordsAux cs cur).err = none ∨ (scanWordsAux cs cur).err = some .tokenTooLong := by
  induction cs generalizing cur with
  | nil => unfold scanWordsAux; repeat' split
           all_goals simp
  | cons c cs ih =>
    unfold scanWordsAux
    repeat' split
    all_goals first | exact ih _ | simp

theorem scanLinesAux_errs (cs cur : List Char) : (scanLinesAux cs cur).err = none ∨ (scanLinesAux cs cur).err = some .tokenTooLong := by
  induction cs generalizing cur with
  | nil => unfold scanLinesAux; repeat' split
           all_goals simp
  | cons c cs ih =>
    unfold scanLinesAux
    repeat' split
    all_goals first | exact ih _ | simp

/-- **C101 (words).** A word scanner over any patient reader of the UTF-8 text `text` delivers exactly the tokens, and reports exactly the error,
that `Go/Text` describes for the whole text (C07: the words of the text, over-long words, read errors). -/
theorem C101_words (r : Reader) (hp : Patient r.sizes) (he : WordsEnd r) (text : List Char) (h : r.rest = enc text) (ts : List Bytes) (err : Option Err) :
    Delivers splitWords r ts err ↔ ts = (scanWords ⟨text, r.fails⟩).toks.map enc ∧ err = (scanWords ⟨text, r.fails⟩).err := by
  have h1 := stop_err r.fails (scanWordsAux text []) (scanWordsAux_errs text [])
  unfold Delivers
  simp only [yields_iff correct_words r hp he.noLimit, h, wordsOf_enc]
  have h2 : (scanWords ⟨text, r.fails⟩).toks = (scanWordsAux text []).toks ∧ (scanWords ⟨text, r.fails⟩).err = (stopOf r.fails (asWhole (scanWordsAux text []))).err := by
    rw [h1]; unfold scanWords; simp only; split <;> simp_all
  rw [h2.1, h2.2]
  constructor
  · rintro ⟨e, ⟨h3, rfl⟩, rfl⟩; exact ⟨h3, rfl⟩
  · rintro ⟨h3, rfl⟩; exact ⟨_, ⟨h3, rfl⟩, rfl⟩

/-- **C101 (lines).** The same for the line scanner of `Load`. -/
theorem C101_lines (r : Reader) (hp : Patient r.sizes) (he : LinesEnd r) (text : List Char) (h : r.rest = enc text) (ts : List Bytes) (err : Option Err) :
    Delivers splitLines r ts err ↔ ts = (scanLines ⟨text, r.fails⟩).toks.map enc ∧ err = (scanLines ⟨text, r.fails⟩).err := by
  have h1 := stop_err r.fails (scanLinesAux text []) (scanLinesAux_errs text [])
  unfold Delivers
  simp only [yields_iff correct_lines r hp he.noLimit, h, linesOf_enc]
  have h2 : (scanLines ⟨text, r.fails⟩).toks = (scanLinesAux text []).toks ∧ (scanLines ⟨text, r.fails⟩).err = (stopOf r.fails (asWhole (scanLinesAux text []))).err := by
    rw [h1]; unfold scanLines; simp only; split <;> simp_all
  rw [h2.1, h2.2]
  constructor
  · rintro ⟨e, ⟨h3, rfl⟩, rfl⟩; exact ⟨h3, rfl⟩
  · rintro ⟨h3, rfl⟩; exact ⟨_, ⟨h3, rfl⟩, rfl⟩

theorem enc_injective : Function.Injective enc := by
  intro a b h
  induction a generalizing b with
  | nil => exact (enc_eq_nil.1 (by rw [← h]; rfl)).symm
  | cons c l ih =>
    cases b with
    | nil => exact absurd (enc_eq_nil.1 (h.trans rfl)) (by simp)
    | cons d m =>
      rw [enc_cons, enc_cons] at h
      have h1 := decode_enc c (enc l)
      rw [h, decode_enc] at h1
      obtain ⟨h2, h3⟩ := Prod.mk.inj h1
      have hcd : c = d := Char.ext (UInt32.toNat_inj.1 h2.symm)
      subst hcd
      rw [ih (List.append_cancel_left h)]

/-- `cpsutil.go:30-44` `ReadWord` over a byte reader, for a callback on the words of a valid UTF-8 document: the callback is called with every token, then
the scanner's error is returned. -/
def ReadsWord (r : Reader) (fn : Word → σ → σ × Ctl) (s : σ) (res : σ × Ctl) : Prop :=
  ∃ (words : List Word) (err : Option Err), Delivers splitWords r (words.map enc) err ∧ res = thenDo (callEach fn words s) (scanEnd err)

/-- **C101 (ReadWord).** Whatever the sizes of the reads, `ReadWord` over the bytes of `text` does what the model used everywhere else (`readWord`) does
on the whole text: the same calls, the same result. -/
theorem C101_read_word (r : Reader) (hp : Patient r.sizes) (he : WordsEnd r) (text : List Char) (h : r.rest = enc text) (fn : Word → σ → σ × Ctl) (s : σ) (res : σ × Ctl) :
    ReadsWord r fn s res ↔ res = readWord ⟨text, r.fails⟩ fn s := by
  unfold ReadsWord readWord
  simp only [C101_words r hp he text h]
  constructor
  · rintro ⟨ws, err, ⟨h1, rfl⟩, rfl⟩
    rw [List.map_injective_iff.2 enc_injective h1]
  · rintro rfl
    exact ⟨_, _, ⟨rfl, rfl⟩, rfl⟩

/-- `embedding.go:73-106` `Load` over a byte reader. -/
def Loads (other : Word → Option F64) (r : Reader) (res : Res (List (Embedding F64))) : Prop :=
  ∃ (lines : List (List Char)) (err : Option Err), Delivers splitLines r (lines.map enc) err ∧
    res = (forEach lines [] (loadLine other) >>= fun embs =>
      match err with
      | some e => .err e
      | none => .ok embs)

/-- **C101 (Load).** Whatever the sizes of the reads, `Load` over the bytes of `text` returns what `load` returns on the whole text. -/
theorem C101_load (other : Word → Option F64) (r : Reader) (hp : Patient r.sizes) (he : LinesEnd r) (text : List Char) (h : r.rest = enc text) (res : Res (List (Embedding F64))) :
    Loads other r res ↔ res = load other ⟨text, r.fails⟩ := by
  unfold Loads load
  simp only [C101_lines r hp he text h]
  constructor
  · rintro ⟨ws, err, ⟨h1, rfl⟩, rfl⟩
    rw [List.map_injective_iff.2 enc_injective h1]
    rfl
  · rintro rfl
    exact ⟨_, _, ⟨rfl, rfl⟩, rfl⟩

open Wego.Spec in
theorem cutWords_wordsOf (B : Bytes) : CutWords B (wordsOf B).1 (wordsOf B).2 := by
  induction hn : B.length using Nat.strong_induction_on generalizing B with
  | _ n ih =>
    subst hn
    obtain ⟨sp, hsp, hB⟩ := skip_spaces B
    have honly : OnlySpace (enc sp) := ⟨sp, hsp, rfl⟩
    have hstop := skip_stops B
    set W := B.drop (skipLen B) with hW
    have hlenW : W.length ≤ B.length := by rw [hW, List.length_drop]; omega
    rcases hf : findSpace W with _ | ⟨i, k⟩
    · have hno : NoSpaceIn W := by
        rintro a s z ⟨c, hc, rfl⟩ he
        obtain ⟨i, k, h1, _⟩ := space_found a c z hc
        rw [← List.append_assoc, ← he, hf] at h1; cases h1
      rw [wordsOf_none hf, ← hW]
      split
      · next h0 => rw [hB, h0, List.append_nil]; exact honly
      · next h0 =>
        split
        · next hl => exact ⟨enc sp, [], by rw [List.append_nil]; exact hB, honly, h0, hno, Or.inl ⟨rfl, hl, [], by simp, rfl⟩⟩
        · next hl => exact ⟨enc sp, W, [], by rw [List.append_nil]; exact hB, honly, hno, Or.inl ⟨rfl, by unfold maxTok at hl; omega⟩⟩
    · obtain ⟨c, rest, hc, hk, h1, h2⟩ := found_space W i k hf
      have hsb : SpaceBytes (String.utf8EncodeChar c) := ⟨c, hc, rfl⟩
      have hks : (String.utf8EncodeChar c).length = k := by rw [String.length_utf8EncodeChar, hk]
      have hle := (findSpace_some (rest := []) hf).2
      have htl : (W.take i).length = i := by rw [List.length_take]; omega
      have hno : NoSpaceIn (W.take i) := by
        rintro a s z ⟨d, hd, rfl⟩ he
        obtain ⟨i', k', h3, h4⟩ := space_found a d (z ++ (String.utf8EncodeChar c ++ rest)) hd
        have h5 : a ++ (String.utf8EncodeChar d ++ (z ++ (String.utf8EncodeChar c ++ rest))) = W := by
          rw [h1, he]; simp only [List.append_assoc]
        rw [h5, hf] at h3
        cases h3
        have := congrArg List.length he
        rw [htl, List.length_append, List.length_append, String.length_utf8EncodeChar] at this
        have := d.utf8Size_pos
        omega
      have hne : W.take i ≠ [] := by
        intro h0
        rw [h0, List.nil_append] at h1
        exact hstop c rest hc h1
      by_cases hkk : i + k ≤ maxTok
      · rw [wordsOf_some hf hkk]
        refine ⟨enc sp, String.utf8EncodeChar c ++ rest, by rw [List.append_assoc, ← h1]; exact hB, honly, hne, hno,
          Or.inr ⟨_, rest, rfl, hsb, by unfold maxTok at hkk; rw [← hW]; omega, ?_⟩⟩
        have hr : B.drop (skipLen B + i + k) = rest := by
          rw [h2, hW, List.drop_drop, Nat.add_assoc]
        rw [hr]
        refine ih rest.length ?_ rest rfl
        rw [h2, List.length_drop]
        omega
      · rw [wordsOf_long hf (by omega)]
        exact ⟨enc sp, W.take i, String.utf8EncodeChar c ++ rest, by rw [List.append_assoc, ← h1]; exact hB, honly, hno,
          Or.inr ⟨_, rest, rfl, hsb, by unfold maxTok at hkk; omega⟩⟩

open Wego.Spec in
theorem withoutCR (l : Bytes) : WithoutCR l (dropCRBytes l) := by
  unfold dropCRBytes
  split
  · next h =>
    left
    have := List.dropLast_append_getLast? 13 h
    exact this.symm
  · next h =>
    refine Or.inr ⟨rfl, fun t' ht => h ?_⟩
    rw [ht]; simp

open Wego.Spec in
theorem cutLines_linesOf (B : Bytes) : CutLines B (linesOf B).1 (linesOf B).2 := by
  induction hn : B.length using Nat.strong_induction_on generalizing B with
  | _ n ih =>
    subst hn
    rcases hf : indexNewline B with _ | i
    · have hno : (10 : UInt8) ∉ B := by
        unfold indexNewline at hf
        rw [List.findIdx?_eq_none_iff] at hf
        intro h; simpa using hf 10 h
      rw [linesOf_none hf]
      split
      · next h0 => exact h0
      · next h0 =>
        split
        · next hl => exact ⟨B, withoutCR B, hno, hl, Or.inl ⟨rfl, h0, rfl⟩⟩
        · next hl => exact ⟨B, [], by simp, Or.inl rfl, hno, by unfold maxTok at hl; omega⟩
    · unfold indexNewline at hf
      have hf' := hf
      rw [List.findIdx?_eq_some_iff_getElem] at hf
      obtain ⟨hi, h1, h2⟩ := hf
      have hB : B = B.take i ++ 10 :: B.drop (i + 1) := by
        have h3 : B[i] = 10 := by simpa using h1
        rw [← h3, List.getElem_cons_drop, List.take_append_drop]
      have hno : (10 : UInt8) ∉ B.take i := by
        intro h
        obtain ⟨j, hj, hj'⟩ := List.mem_iff_getElem.1 h
        rw [List.length_take] at hj
        rw [List.getElem_take] at hj'
        have := h2 j (by omega)
        simp [hj'] at this
      have hlen : (B.take i).length = i := by rw [List.length_take]; omega
      rw [linesOf_some hf']
      split
      · next hl =>
        refine ⟨B.take i, withoutCR _, hno, by unfold maxTok at hl; omega, Or.inr ⟨_, hB, ?_⟩⟩
        exact ih _ (by rw [List.length_drop]; omega) _ rfl
      · next hl => exact ⟨B.take i, 10 :: B.drop (i + 1), hB, Or.inr ⟨_, rfl⟩, hno, by unfold maxTok at hl; omega⟩

open Wego.Spec in
/-- **C101 (words of any bytes).** Whatever the sizes of the reads, the tokens of a word scanner are the non-empty pieces of
the input between encoded white space; bytes that are not UTF-8 are never taken for white space, nor do they hide white
space that follows. The error is that of a word that is too long, else that of the reader. -/
theorem C101_words_of_bytes (r : Reader) (hp : Patient r.sizes) (he : WordsEnd r) : ∃ ts long, CutWords r.rest ts long ∧
    ∀ ts' err, Delivers splitWords r ts' err ↔
      ts' = ts ∧ err = (if long then some .tokenTooLong else if r.fails then some .readErr else none) := by
  refine ⟨_, _, cutWords_wordsOf r.rest, fun ts' err => ?_⟩
  unfold Delivers
  simp only [yields_iff correct_words r hp he.noLimit]
  constructor
  · rintro ⟨e, ⟨h1, rfl⟩, rfl⟩
    refine ⟨h1, ?_⟩
    unfold stopOf; repeat' split
    all_goals rfl
  · rintro ⟨h1, rfl⟩
    refine ⟨_, ⟨h1, rfl⟩, ?_⟩
    unfold stopOf; repeat' split
    all_goals rfl

open Wego.Spec in
/-- **C101 (lines of any bytes).** The tokens of a line scanner are the lines of the input. -/
theorem C101_lines_of_bytes (r : Reader) (hp : Patient r.sizes) (he : LinesEnd r) : ∃ ts long, CutLines r.rest ts long ∧
    ∀ ts' err, Delivers splitLines r ts' err ↔
      ts' = ts ∧ err = (if long then some .tokenTooLong else if r.fails then some .readErr else none) := by
  refine ⟨_, _, cutLines_linesOf r.rest, fun ts' err => ?_⟩
  unfold Delivers
  simp only [yields_iff correct_lines r hp he.noLimit]
  constructor
  · rintro ⟨e, ⟨h1, rfl⟩, rfl⟩
    refine ⟨h1, ?_⟩
    unfold stopOf; repeat' split
    all_goals rfl
  · rintro ⟨h1, rfl⟩
    refine ⟨_, ⟨h1, rfl⟩, ?_⟩
    unfold stopOf; repeat' split
    all_goals rfl

theorem findSpace_as (n : Nat) : findSpace (List.replicate n 97) = none := by
  induction n with
  | zero => rw [findSpace.eq_def]; simp
  | succ n ih =>
    have hd : decodeRune (List.replicate (n + 1) 97) = (97, 1) := by rw [List.replicate_succ]; simp [decodeRune]
    rw [findSpace.eq_def]
    simp only [hd]
    rw [dif_neg (by simp), if_neg (by decide), List.replicate_succ, List.drop_one, List.tail_cons, ih]
    rfl

theorem skipLen_as (n : Nat) : skipLen (List.replicate n 97) = 0 := by
  cases n with
  | zero => rw [skipLen.eq_def]; simp
  | succ n =>
    have hd : decodeRune (List.replicate (n + 1) 97) = (97, 1) := by rw [List.replicate_succ]; simp [decodeRune]
    rw [skipLen.eq_def]
    simp only [hd]
    rw [dif_neg (by simp), if_neg (by decide)]

theorem splitWords_as (n : Nat) : splitWords (List.replicate n 97) false = (0, none) := by
  unfold splitWords
  simp only [skipLen_as, List.drop_zero, findSpace_as]
  simp

theorem splitWords_as_end (n : Nat) (h : 0 < n) : splitWords (List.replicate n 97) true = (n, some (List.replicate n 97)) := by
  unfold splitWords
  simp only [skipLen_as, List.drop_zero, findSpace_as, List.length_replicate]
  simp [h]

/-- a scanner with a buffer full of `n` letters, and `m` letters to come -/
def fullOf (n m : Nat) (err : Option Stop) (eager : Bool) : St :=
  ⟨List.replicate n 97, 0, n, err, ⟨List.replicate m 97, [], false, eager⟩⟩

theorem round_doubles (n m : Nat) (eager : Bool) (hn : 0 < n) (hm : n ≤ 32768) (hle : n ≤ m) :
    (fullOf n m none eager).round splitWords = .again (fullOf (n + n) (m - n) (if eager = true ∧ m - n = 0 then some .eof else none) eager) := by
  have hsp : (if 0 < (fullOf n m none eager).data.length ∨ (fullOf n m none eager).err.isSome then
      splitWords (fullOf n m none eager).data (fullOf n m none eager).err.isSome else (0, none)) = (0, none) := by
    rw [if_pos (Or.inl (by simpa [fullOf] using hn))]
    exact splitWords_as n
  unfold St.round
  rw [hsp]
  have hz : ¬ m = 0 := by omega
  have hnz : ¬ n = 0 := by omega
  have hcap : min (if n * 2 = 0 then startBuf else n * 2) maxTok = n + n := by
    rw [if_neg (by omega)]; unfold maxTok; omega
  have hfill : (fullOf n m none eager).fill = .inl (St.readLoop ⟨List.replicate n 97, 0, n + n, none, ⟨List.replicate m 97, [], false, eager⟩⟩ 101) := by
    unfold St.fill
    simp only [fullOf, Nat.lt_irrefl, false_and, if_false, List.length_replicate, Nat.zero_add, if_true]
    rw [if_neg (by unfold maxTok; omega), hcap]
  have hread : St.readLoop ⟨List.replicate n 97, 0, n + n, none, ⟨List.replicate m 97, [], false, eager⟩⟩ 101 =
      fullOf (n + n) (m - n) (if eager = true ∧ m - n = 0 then some .eof else none) eager := by
    unfold St.readLoop Reader.read Reader.wants
    simp only [List.length_replicate, Nat.zero_add, Nat.add_sub_cancel, List.replicate_eq_nil_iff, hz, if_false, List.take_replicate, List.drop_replicate,
      Bool.false_eq_true, Nat.min_eq_left hle, List.tail_nil]
    by_cases he : eager = true ∧ m - n = 0
    · rw [if_pos he]
      simp only [fullOf, List.replicate_append_replicate]
    · rw [if_neg he]
      simp only [fullOf, List.replicate_append_replicate, ne_eq, List.replicate_eq_nil_iff, hnz, not_false_eq_true, if_true]
  simp only [List.drop_zero, Nat.add_zero]
  show (match (fullOf n m none eager).fill with
    | .inl s => Round.again s
    | .inr e => Round.stop e) = _
  rw [hfill, hread]

theorem round_last (n : Nat) (hn : 0 < n) :
    (fullOf n 0 (some .eof) true).round splitWords = .token (List.replicate n 97) ⟨[], n, n, some .eof, ⟨[], [], false, true⟩⟩ := by
  unfold St.round
  have hsp : (if 0 < (fullOf n 0 (some .eof) true).data.length ∨ (fullOf n 0 (some .eof) true).err.isSome then
      splitWords (fullOf n 0 (some .eof) true).data (fullOf n 0 (some .eof) true).err.isSome else (0, none)) = (n, some (List.replicate n 97)) := by
    rw [if_pos (Or.inr (by simp [fullOf]))]
    exact splitWords_as_end n hn
  rw [hsp]
  simp only [fullOf, List.drop_replicate, Nat.sub_self, List.replicate_zero, Nat.zero_add]

theorem round_full (n : Nat) (hn : 0 < n) (hm : maxTok ≤ n) : (fullOf n 0 none false).round splitWords = .stop .tooLong := by
  unfold St.round
  have hsp : (if 0 < (fullOf n 0 none false).data.length ∨ (fullOf n 0 none false).err.isSome then
      splitWords (fullOf n 0 none false).data (fullOf n 0 none false).err.isSome else (0, none)) = (0, none) := by
    rw [if_pos (Or.inl (by simpa [fullOf] using hn))]
    exact splitWords_as n
  rw [hsp]
  simp only [List.drop_zero, Nat.add_zero]
  show (match (fullOf n 0 none false).fill with
    | .inl s => Round.again s
    | .inr e => Round.stop e) = _
  have hfill : (fullOf n 0 none false).fill = .inr .tooLong := by
    unfold St.fill
    simp only [fullOf, Nat.lt_irrefl, false_and, if_false, List.length_replicate, Nat.zero_add, if_true]
    rw [if_pos hm]
  rw [hfill]

/-- The input of `C101_eager_corner`: one word of exactly 65536 letters. -/
def longWord (eager : Bool) : Reader := ⟨List.replicate 65536 97, [], false, eager⟩

theorem longWord_fills (eager : Bool) (ts : List Bytes) (e : Stop)
    (h : Yields splitWords (fullOf 65536 0 (if eager = true then some .eof else none) eager) ts e) :
    Yields splitWords (St.new (longWord eager)) ts e := by
  have h0 : (St.new (longWord eager)).round splitWords = .again (fullOf 4096 61440 none eager) := by
    unfold St.round
    simp only [St.new, List.length_nil, Nat.lt_irrefl, Option.isSome_none, Bool.false_eq_true, or_self, if_false, List.drop_zero, Nat.add_zero]
    unfold St.fill
    simp only [Nat.lt_irrefl, false_and, if_false, List.length_nil, Nat.add_zero, if_true, Nat.zero_mul]
    rw [if_neg (by unfold maxTok; omega), show min startBuf maxTok = 4096 by decide]
    unfold St.readLoop Reader.read Reader.wants
    simp only [longWord, List.length_nil, Nat.add_zero, Nat.sub_zero, List.replicate_eq_nil_iff, List.take_replicate, List.drop_replicate, List.nil_append,
      List.tail_nil, Bool.false_eq_true, if_false]
    rw [if_neg (by omega), if_neg (by omega)]
    simp only [ne_eq, List.replicate_eq_nil_iff]
    rw [if_pos (by omega)]
    rfl
  refine .again h0 ?_
  have step := fun n m hn hm hle => round_doubles n m eager hn hm hle
  refine .again (step 4096 61440 (by omega) (by omega) (by omega)) ?_
  rw [if_neg (by omega)]
  refine .again (step 8192 57344 (by omega) (by omega) (by omega)) ?_
  rw [if_neg (by omega)]
  refine .again (step 16384 49152 (by omega) (by omega) (by omega)) ?_
  rw [if_neg (by omega)]
  refine .again (step 32768 32768 (by omega) (by omega) (by omega)) ?_
  simpa using h

/-- **C101 (the corner).** The one case `WordsEnd` leaves out is real: a last word of exactly 65536 bytes is delivered if the reader reports the end
together with the last bytes, and is `bufio.ErrTooLong` if the end comes in a read of its own. -/
theorem C101_eager_corner :
    SameBytes (longWord true) (longWord false) ∧ Patient (longWord true).sizes ∧ Patient (longWord false).sizes ∧
    Delivers splitWords (longWord true) [List.replicate 65536 97] none ∧
    Delivers splitWords (longWord false) [] (some .tokenTooLong) := by
  have hp : Patient [] := by intro h; simpa using h.length_le
  refine ⟨⟨rfl, rfl⟩, hp, hp, ⟨.eof, longWord_fills true _ _ ?_, rfl⟩, ⟨.tooLong, longWord_fills false _ _ ?_, rfl⟩⟩
  · rw [if_pos rfl]
    refine .token (round_last 65536 (by omega)) (.stop ?_)
    unfold St.round
    have hsp : splitWords [] true = (0, none) := by decide +kernel
    simp only [List.length_nil, Nat.lt_irrefl, Option.isSome_some, or_true, if_true, hsp]
  · rw [if_neg (by simp)]
    exact .stop (round_full 65536 (by omega) (by unfold maxTok; omega))

/-- Reading one byte at a time, with an empty read before each. -/
def drip (text : List Char) : Reader := ⟨enc text, (enc text).flatMap (fun _ => [0, 1]), false, false⟩

/-- The hypotheses are met: `a`, the ideographic space U+3000 (three bytes) and `b`, byte by byte. -/
example : Patient (drip ['a', '\u3000', 'b']).sizes ∧
    Delivers splitWords (drip ['a', '\u3000', 'b']) [[97], [98]] none ∧ (drip ['a', '\u3000', 'b']).rest = [97, 0xE3, 0x80, 0x80, 98] := by
  have hp : Patient (drip ['a', '\u3000', 'b']).sizes := by
    intro hc
    have := hc.length_le
    simp [drip, enc] at this
    revert this; decide
  exact ⟨hp, (C101_words _ hp (wordsEnd_lazy rfl) _ rfl _ _).2 ⟨by decide, by decide⟩, by decide⟩

/-- `C101_words_of_bytes` on bytes that are not UTF-8: C0 A0 (an overlong form of the space) does not separate words, the space
after the incomplete E3 80 does. -/
example : ∃ ts long, Spec.CutWords [97, 0xC0, 0xA0, 98, 0xE3, 0x80, 32, 99] ts long ∧
    (∀ ts' err, Delivers splitWords ⟨[97, 0xC0, 0xA0, 98, 0xE3, 0x80, 32, 99], [], false, true⟩ ts' err ↔
      ts' = ts ∧ err = (if long then some .tokenTooLong else none)) ∧
    wordsOf [97, 0xC0, 0xA0, 98, 0xE3, 0x80, 32, 99] = ([[97, 0xC0, 0xA0, 98, 0xE3, 0x80], [99]], false) := by
  obtain ⟨ts, long, h1, h2⟩ := C101_words_of_bytes ⟨[97, 0xC0, 0xA0, 98, 0xE3, 0x80, 32, 99], [], false, true⟩ (by intro h; simpa using h.length_le)
    (wordsEnd_short (by decide))
  exact ⟨ts, long, h1, h2, by decide +kernel⟩

end Wego.Props
