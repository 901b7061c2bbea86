import Verif.Proofs.Vector

/-! `Save` writes the expected text, `Load` reads it. -/

namespace Wego
open Spec

/-- the values part of a line -/
def valsText (row : List F64) : List Char := row.flatMap (fun x => fmtF x ++ [' '])

/-- a line without its newline -/
def lineText (w : Word) (row : List F64) : List Char := w ++ [' '] ++ valsText row

/-- the whole file -/
def fileText (ws : List Word) (rows : List (List F64)) : List Char :=
  (List.zipWith (fun w row => lineText w row ++ ['\n']) ws rows).flatten

theorem forN_vals (mat : Matrix F64) {r c : Nat} (hm : mat.Shaped r c) {i : Nat} (hi : i < r) (buf : List Char) :
    forN mat.col.toNat buf (fun j buf => mat.getAt i j >>= fun x => .ok (buf ++ fmtF x ++ [' '])) =
      .ok (buf ++ valsText (mat.rowOf i)) := by
  have hc : mat.col.toNat = c := by rw [hm.col]; simp
  rw [hc]
  have := forN_inv (fun j b => b = buf ++ valsText ((mat.rowOf i).take j)) c buf
    (fun j buf => mat.getAt i j >>= fun x => .ok (buf ++ fmtF x ++ [' '])) (by simp [valsText]) (by
      intro j b hj hb
      have hlen := hm.length_rowOf hi
      have hjl : j < (mat.rowOf i).length := by omega
      refine ⟨_, by rw [hm.getAt_val hi hj]; rfl, ?_⟩
      have hv : mat.val i j = (mat.rowOf i)[j] := by simp [Matrix.val, hjl]
      have ht : (mat.rowOf i).take (j + 1) = (mat.rowOf i).take j ++ [(mat.rowOf i)[j]] := by
        rw [List.take_add_one, List.getElem?_eq_getElem hjl]; rfl
      rw [hb, ht, hv]
      simp only [valsText, List.flatMap_append, List.flatMap_singleton, List.append_assoc])
  obtain ⟨s', h1, h2⟩ := this
  rw [h1, h2, List.take_of_length_le (by rw [hm.length_rowOf hi])]

theorem Dictionary.Rep.word_lt {d : Dictionary} {ws : List Word} (h : d.Rep ws) {i : Nat}
    (hi : i < (firstOcc ws).length) : d.word i = .ok (some (firstOcc ws)[i]) := by
  have h1 : ¬ ((i : Int) ≥ (d.maxid : Int)) := by rw [h.maxid]; omega
  have h2 : ¬ ((i : Int) < 0) := by omega
  simp only [Dictionary.word, h1, h2, if_false, Int.toNat_natCast, h.id2word]
  rw [idx_of_lt _ _ hi]; rfl

/-- the rows of a matrix -/
def rowsOf (mat : Matrix F64) (n : Nat) : List (List F64) := (List.range n).map mat.rowOf

theorem saveText_eq {dic : Dictionary} {ws : List Word} (hd : dic.Rep ws) {mat : Matrix F64} {c : Nat}
    (hm : mat.Shaped (firstOcc ws).length c) (v : Bool) (lb : Int) (hv : ¬ (v = true ∧ lb = 0)) :
    saveText dic mat v lb = .ok (fileText (firstOcc ws) (rowsOf mat (firstOcc ws).length)) := by
  have hl : dic.len = (firstOcc ws).length := hd.maxid
  have hrow : ¬ ((dic.len : Int) ≠ mat.row) := by rw [hl, hm.row]; simp
  unfold saveText
  rw [if_neg hrow, hl]
  set n := (firstOcc ws).length with hn
  set lines := List.zipWith (fun w row => lineText w row ++ ['\n']) (firstOcc ws) (rowsOf mat n) with hlines
  have hll : lines.length = n := by simp [hlines, rowsOf, ← hn]
  obtain ⟨s', h1, h2⟩ := forN_inv (fun i b => b = (lines.take i).flatten) n [] (saveWord dic mat v lb) (by simp) (by
    intro i b hi hb
    have hil : i < lines.length := by omega
    refine ⟨b ++ (lineText (firstOcc ws)[i] (mat.rowOf i) ++ ['\n']), ?_, ?_⟩
    · unfold saveWord
      rw [hd.word_lt (hn ▸ hi), Res.ok_bind, forN_vals mat hm hi, Res.ok_bind, if_neg hv]
      simp [lineText]
    · rw [List.take_add_one, List.getElem?_eq_getElem hil, hb]
      simp [hlines, rowsOf])
  rw [h1, h2, List.take_of_length_le (by omega)]
  rfl

theorem saveText_mismatch {dic : Dictionary} {mat : Matrix F64} (h : (dic.len : Int) ≠ mat.row) (v : Bool) (lb : Int) :
    saveText dic mat v lb = .err .lenMismatch := by
  unfold saveText; rw [if_pos h]

theorem isSavedFile_fileText (ws : List Word) (rows : List (List F64)) (h : ws.length = rows.length) :
    IsSavedFile ws rows (fileText ws rows) := by
  induction ws generalizing rows with
  | nil =>
    cases rows with
    | nil => exact .nil
    | cons _ _ => simp at h
  | cons w ws ih =>
    cases rows with
    | nil => simp at h
    | cons row rows =>
      have h2 : List.Forall₂ IsSixDecimals row (row.map fmtF) := by
        rw [List.forall₂_map_right_iff]
        exact List.forall₂_same.2 (fun x _ => fmtF_isSixDecimals x)
      have := IsSavedFile.cons w row (row.map fmtF) ws rows _ h2 (ih rows (by simpa using h))
      convert this using 1
      simp [fileText, lineText, valsText, List.flatMap, List.map_map, Function.comp_def]

/-! ### what the writer gets -/

/-- The writer takes everything it is given without error. -/
def Sink.Complete {σ : Type} (f : Sink σ) : Prop := ∀ s b, (f.write s b).2 = (b.length, false)

theorem flatten_bufChunks (fuel : Nat) (b : List UInt8) : (bufChunks fuel b).flatten = b := by
  induction fuel generalizing b with
  | zero => simp [bufChunks]
  | succ k ih =>
    unfold bufChunks
    split
    · next h => simp [h]
    · split
      · simp
      · simp [ih]

theorem sendChunks_complete {σ : Type} (f : Sink σ) (hf : f.Complete) (cs : List (List UInt8)) (s : σ) :
    (sendChunks f cs s).2 = (cs.flatten, false) := by
  induction cs generalizing s with
  | nil => rfl
  | cons c cs ih =>
    unfold sendChunks
    dsimp only
    rw [if_neg (by rw [hf s c]; simp)]
    rw [ih]; simp

theorem sendChunks_prefix {σ : Type} (f : Sink σ) (cs : List (List UInt8)) (s : σ) :
    (sendChunks f cs s).2.1 <+: cs.flatten := by
  induction cs generalizing s with
  | nil => simp [sendChunks]
  | cons c cs ih =>
    unfold sendChunks
    dsimp only
    split
    · exact (List.take_prefix _ _).trans (by simp)
    · simp only [List.flatten_cons]
      exact (List.prefix_append_right_inj c).2 (ih _)

theorem flatten_chunks (direct : Bool) (b : List UInt8) :
    (if direct = true ∧ 4096 < b.length then [b] else bufChunks b.length b).flatten = b := by
  split
  · simp
  · exact flatten_bufChunks _ _

/-! ### scanning lines -/

theorem scanLinesAux_line (l cur rest : List Char) (h : '\n' ∉ l) (hs : utf8Len (cur ++ l) < maxTok) :
    scanLinesAux (l ++ '\n' :: rest) cur =
      ⟨dropCR (cur ++ l) :: (scanLinesAux rest []).toks, (scanLinesAux rest []).err⟩ := by
  induction l generalizing cur with
  | nil => simp at hs; simp [scanLinesAux, hs]
  | cons a l ih =>
    simp only [List.mem_cons, not_or] at h
    rw [List.cons_append, scanLinesAux, if_neg (Ne.symm h.1), ih (cur ++ [a]) h.2 (by simpa using hs)]
    simp

theorem scanLinesAux_long (l cur rest : List Char) (h : '\n' ∉ l) (hs : ¬ utf8Len (cur ++ l) < maxTok) :
    scanLinesAux (l ++ '\n' :: rest) cur = ⟨[], some .tokenTooLong⟩ := by
  induction l generalizing cur with
  | nil => simp at hs; simp [scanLinesAux, hs]
  | cons a l ih =>
    simp only [List.mem_cons, not_or] at h
    rw [List.cons_append, scanLinesAux, if_neg (Ne.symm h.1), ih (cur ++ [a]) h.2 (by simpa using hs)]

/-! ### fields of a saved line -/

theorem fieldsAux_values (ts : List (List Char)) (h : ∀ t ∈ ts, t ≠ [] ∧ ∀ c ∈ t, isSpace c = false) :
    fieldsAux (ts.flatMap (fun t => t ++ [' '])) [] = ts := by
  induction ts with
  | nil => simp [fieldsAux]
  | cons t ts ih =>
    obtain ⟨h1, h2⟩ := h t (by simp)
    rw [List.flatMap_cons, List.append_assoc, fieldsAux_word t _ [] h2]
    simp only [List.nil_append, List.singleton_append]
    rw [fieldsAux, if_pos (by decide), if_neg h1, ih (fun t ht => h t (by simp [ht]))]

theorem fmtF_word (x : F64) : fmtF x ≠ [] ∧ ∀ c ∈ fmtF x, isSpace c = false := by
  cases x with
  | nan => exact ⟨by simp [fmtF], by decide⟩
  | inf s => cases s <;> exact ⟨by simp [fmtF], by decide⟩
  | fin s n h =>
    refine ⟨by simp [fmtF, sixDec], ?_⟩
    obtain ⟨a1, -, -, -⟩ := natDigits_spec (rne (n * 1000000) one1 / 1000000)
    obtain ⟨b1, -, -⟩ := fixDigits_spec 6 (rne (n * 1000000) one1)
    intro c hc
    simp only [fmtF, sixDec, List.mem_append, List.mem_cons] at hc
    rcases hc with hc | hc | hc | hc
    · cases s
      · simp at hc
      · simp at hc; subst hc; decide
    · exact (isDig_ne c (a1 c hc)).2.2.2
    · subst hc; decide
    · exact (isDig_ne c (b1 c hc)).2.2.2

theorem fields_lineText (w : Word) (row : List F64) (h1 : w ≠ []) (h2 : ∀ c ∈ w, isSpace c = false) :
    fields (lineText w row) = w :: row.map fmtF := by
  have := fieldsAux_values (w :: row.map fmtF) (by
    intro t ht
    rcases List.mem_cons.1 ht with rfl | ht
    · exact ⟨h1, h2⟩
    · obtain ⟨x, -, rfl⟩ := List.mem_map.1 ht
      exact fmtF_word x)
  rw [← this]
  simp only [fields, lineText, valsText, List.flatMap_cons, List.flatMap_map]
  

theorem nl_lineText (w : Word) (row : List F64) (h2 : ∀ c ∈ w, isSpace c = false) : '\n' ∉ lineText w row := by
  intro h
  simp only [lineText, valsText, List.mem_append, List.mem_flatMap, List.mem_singleton] at h
  rcases h with (h | h) | ⟨x, -, h | h⟩
  · have := h2 _ h; revert this; decide
  · revert h; decide
  · have := (fmtF_word x).2 _ h; revert this; decide
  · revert h; decide

theorem dropCR_lineText (w : Word) (row : List F64) : dropCR (lineText w row) = lineText w row := by
  have : (lineText w row).getLast? = some ' ' := by
    unfold lineText valsText
    cases row using List.reverseRecOn with
    | nil => simp
    | append_singleton row x =>
      rw [List.flatMap_append, List.flatMap_singleton, ← List.append_assoc, ← List.append_assoc]
      exact List.getLast?_concat
  unfold dropCR
  rw [this, if_neg (by decide)]

theorem parseVec_fmt (other : Word → Option F64) (row : List F64) :
    parseVec other (row.map fmtF) = .ok (row.map readBack) := by
  induction row with
  | nil => rfl
  | cons x row ih => simp [parseVec, parseFloat_fmtF, ih]

/-- the embedding read from a saved line -/
def embOf (w : Word) (row : List F64) : Embedding F64 :=
  { word := w, dim := row.length, vector := row.map readBack, norm := norm (row.map readBack) }

theorem head_lineText (w : Word) (row : List F64) (h1 : w ≠ []) (h2 : ∀ c ∈ w, isSpace c = false) :
    (lineText w row).head? ≠ some ' ' := by
  cases w with
  | nil => exact absurd rfl h1
  | cons a w =>
    intro he
    have he' : a = ' ' := by simpa [lineText] using he
    subst he'
    have := h2 ' ' (by simp)
    revert this; decide

theorem loadLine_saved (other : Word → Option F64) (w : Word) (row : List F64) (hr : row ≠ []) (h1 : w ≠ [])
    (h2 : ∀ c ∈ w, isSpace c = false) (embs : List (Embedding F64)) :
    loadLine other (lineText w row) embs = .ok (embs ++ [embOf w row]) := by
  unfold loadLine
  have hh : (lineText w row).head? ≠ some ' ' := head_lineText w _ h1 h2
  rw [if_neg hh]
  unfold parseLine
  rw [fields_lineText w row h1 h2]
  cases row with
  | nil => exact absurd rfl hr
  | cons x row =>
    have := parseVec_fmt other (x :: row)
    simp only [List.map_cons] at this ⊢
    rw [this]
    simp only [Res.ok_bind, Embedding.validate, h1, if_false]
    rw [if_neg (by simp; omega), if_neg (by simp)]
    simp [embOf]

theorem loadLine_saved_nil (other : Word → Option F64) (w : Word) (h1 : w ≠ [])
    (h2 : ∀ c ∈ w, isSpace c = false) (embs : List (Embedding F64)) :
    loadLine other (lineText w []) embs = .err .tooFewFields := by
  unfold loadLine
  have hh : (lineText w []).head? ≠ some ' ' := head_lineText w _ h1 h2
  rw [if_neg hh]
  unfold parseLine
  rw [fields_lineText w [] h1 h2]
  rfl

theorem fileText_cons (w : Word) (ws : List Word) (row : List F64) (rows : List (List F64)) :
    fileText (w :: ws) (row :: rows) = lineText w row ++ '\n' :: fileText ws rows := by
  simp [fileText]

theorem scan_fileText (ws : List Word) (rows : List (List F64))
    (hw : ∀ w ∈ ws, w ≠ [] ∧ ∀ c ∈ w, isSpace c = false)
    (hlen : ∀ p ∈ List.zip ws rows, utf8Len (lineText p.1 p.2) < maxTok) :
    scanLinesAux (fileText ws rows) [] = ⟨List.zipWith lineText ws rows, none⟩ := by
  induction ws generalizing rows with
  | nil => simp [fileText, scanLinesAux]
  | cons w ws ih =>
    cases rows with
    | nil => simp [fileText, scanLinesAux]
    | cons row rows =>
      have h1 := hlen (w, row) (by simp)
      rw [fileText_cons, scanLinesAux_line _ _ _ (nl_lineText w row (hw w (by simp)).2) (by simpa using h1),
        ih rows (fun w h => hw w (by simp [h])) (fun p hp => hlen p (by simp [hp]))]
      simp [dropCR_lineText]

theorem load_fileText (other : Word → Option F64) (ws : List Word) (rows : List (List F64))
    (hw : ∀ w ∈ ws, w ≠ [] ∧ ∀ c ∈ w, isSpace c = false) (hr : ∀ row ∈ rows, row ≠ [])
    (hlen : ∀ p ∈ List.zip ws rows, utf8Len (lineText p.1 p.2) < maxTok) :
    load other ⟨fileText ws rows, false⟩ = .ok (List.zipWith embOf ws rows) := by
  have key : ∀ (ws : List Word) (rows : List (List F64)) (embs : List (Embedding F64)),
      (∀ w ∈ ws, w ≠ [] ∧ ∀ c ∈ w, isSpace c = false) → (∀ row ∈ rows, row ≠ []) →
      forEach (List.zipWith lineText ws rows) embs (loadLine other) = .ok (embs ++ List.zipWith embOf ws rows) := by
    intro ws
    induction ws with
    | nil => intros; simp
    | cons w ws ih =>
      intro rows embs hw hr
      cases rows with
      | nil => simp
      | cons row rows =>
        simp only [List.zipWith_cons_cons, forEach_cons]
        rw [loadLine_saved other w row (hr row (by simp)) (hw w (by simp)).1 (hw w (by simp)).2, Res.ok_bind,
          ih rows _ (fun w h => hw w (by simp [h])) (fun p hp => hr p (by simp [hp]))]
        simp
  simp [load, scanLines, scan_fileText ws rows hw hlen, key ws rows [] hw hr]

/-- A line of 64 KiB makes the scanner fail. -/
theorem scan_fileText_long (ws : List Word) (rows : List (List F64))
    (hw : ∀ w ∈ ws, w ≠ [] ∧ ∀ c ∈ w, isSpace c = false)
    (hlen : ∃ p ∈ List.zip ws rows, ¬ utf8Len (lineText p.1 p.2) < maxTok) :
    ∃ k, scanLinesAux (fileText ws rows) [] = ⟨List.zipWith lineText (ws.take k) (rows.take k), some .tokenTooLong⟩ := by
  induction ws generalizing rows with
  | nil => simp at hlen
  | cons w ws ih =>
    cases rows with
    | nil => simp at hlen
    | cons row rows =>
      rw [fileText_cons]
      by_cases h1 : utf8Len (lineText w row) < maxTok
      · obtain ⟨p, hp, hl⟩ := hlen
        rw [List.zip_cons_cons, List.mem_cons] at hp
        rcases hp with rfl | hp
        · exact absurd h1 hl
        · obtain ⟨k, hk⟩ := ih rows (fun w h => hw w (by simp [h])) ⟨p, hp, hl⟩
          refine ⟨k + 1, ?_⟩
          rw [scanLinesAux_line _ _ _ (nl_lineText w row (hw w (by simp)).2) (by simpa using h1), hk]
          simp [dropCR_lineText]
      · exact ⟨0, by simpa using scanLinesAux_long _ _ _ (nl_lineText w row (hw w (by simp)).2) (by simpa using h1)⟩

end Wego
