import Verif.Props.FullDisk
import Verif.Props.HexNumber
import Verif.Model.Search

/-! # C106: a vector file cut off at any point

A crash, a full disk or an interrupted copy leaves an initial part of the file `Save` would have written. -/

namespace Wego.Props
open Wego Spec

theorem prefix_append_cases {α : Type} {l a b : List α} (h : l <+: a ++ b) : l <+: a ∨ ∃ t, l = a ++ t ∧ t <+: b := by
  rcases Nat.le_total l.length a.length with hl | hl
  · exact Or.inl (List.prefix_of_prefix_length_le h (List.prefix_append a b) hl)
  · obtain ⟨t, rfl⟩ := List.prefix_of_prefix_length_le (List.prefix_append a b) h hl
    exact Or.inr ⟨t, rfl, (List.prefix_append_right_inj a).1 h⟩

theorem cut_fileText (ws : List Word) (rows : List (List F64)) (hl : ws.length = rows.length) (left : List Char) (h : left <+: fileText ws rows) :
    ∃ m part, m ≤ ws.length ∧ left = fileText (ws.take m) (rows.take m) ++ part ∧
      (part = [] ∨ part ≠ [] ∧ ∃ (w : Word) (row : List F64), ws[m]? = some w ∧ rows[m]? = some row ∧ part <+: lineText w row) := by
  induction ws generalizing rows left with
  | nil =>
    cases rows with
    | nil =>
      simp [fileText] at h
      exact ⟨0, [], by simp, by simp [fileText, h], Or.inl rfl⟩
    | cons => simp at hl
  | cons w ws ih =>
    cases rows with
    | nil => simp at hl
    | cons row rows =>
      rw [fileText_cons] at h
      have first : left <+: lineText w row → ∃ m part, m ≤ (w :: ws).length ∧ left = fileText ((w :: ws).take m) ((row :: rows).take m) ++ part ∧
          (part = [] ∨ part ≠ [] ∧ ∃ (w' : Word) (row' : List F64), (w :: ws)[m]? = some w' ∧ (row :: rows)[m]? = some row' ∧ part <+: lineText w' row') := by
        intro h
        refine ⟨0, left, by simp, by simp [fileText], ?_⟩
        by_cases h0 : left = []
        · exact Or.inl h0
        · exact Or.inr ⟨h0, w, row, rfl, rfl, h⟩
      rcases prefix_append_cases h with h | ⟨t, rfl, hx⟩
      · exact first h
      · cases t with
        | nil => rw [List.append_nil]; rw [List.append_nil] at first; exact first (List.prefix_refl _)
        | cons a t =>
          rw [List.cons_prefix_cons] at hx
          obtain ⟨rfl, hx⟩ := hx
          obtain ⟨m, part, h1, rfl, h2⟩ := ih rows (by simpa using hl) t hx
          refine ⟨m + 1, part, by simpa using h1, ?_, by simpa using h2⟩
          rw [List.take_succ_cons, List.take_succ_cons, fileText_cons]
          simp

theorem cut_vals (row : List F64) (p : List Char) (h : p <+: valsText row) :
    p = [] ∨ ∃ k q, ∃ x, row[k]? = some x ∧ q ≠ [] ∧ q <+: fmtF x ∧ (p = valsText (row.take k) ++ q ∨ p = valsText (row.take k) ++ q ++ [' '] ∧ q = fmtF x) := by
  induction row generalizing p with
  | nil => left; simpa [valsText] using h
  | cons x row ih =>
    have e : valsText (x :: row) = fmtF x ++ ' ' :: valsText row := by simp [valsText]
    rw [e] at h
    have first : p <+: fmtF x → p = [] ∨ ∃ k q, ∃ y, (x :: row)[k]? = some y ∧ q ≠ [] ∧ q <+: fmtF y ∧
        (p = valsText ((x :: row).take k) ++ q ∨ p = valsText ((x :: row).take k) ++ q ++ [' '] ∧ q = fmtF y) := by
      intro h
      by_cases h0 : p = []
      · exact Or.inl h0
      · exact Or.inr ⟨0, p, x, rfl, h0, h, Or.inl (by simp [valsText])⟩
    rcases prefix_append_cases h with h | ⟨t, rfl, hx⟩
    · exact first h
    · cases t with
      | nil => rw [List.append_nil] at first ⊢; exact first (List.prefix_refl _)
      | cons a t =>
        rw [List.cons_prefix_cons] at hx
        obtain ⟨rfl, hx⟩ := hx
        right
        rcases ih t hx with rfl | ⟨k, q, y, h1, h2, h3, h4⟩
        · exact ⟨0, fmtF x, x, rfl, (fmtF_word x).1, List.prefix_refl _, Or.inr ⟨by simp [valsText], rfl⟩⟩
        · refine ⟨k + 1, q, y, by simpa using h1, h2, h3, ?_⟩
          have e2 : valsText ((x :: row).take (k + 1)) = fmtF x ++ ' ' :: valsText (row.take k) := by simp [valsText]
          rw [e2]
          rcases h4 with rfl | ⟨rfl, h4⟩
          · left; simp
          · right; exact ⟨by simp, h4⟩

theorem fields_cut (w : Word) (row : List F64) (q : List Char) (h1 : w ≠ []) (h2 : ∀ c ∈ w, isSpace c = false) (h3 : q ≠ []) (h4 : ∀ c ∈ q, isSpace c = false) :
    fields (lineText w row ++ q) = w :: row.map fmtF ++ [q] ∧ fields (lineText w row ++ q ++ [' ']) = w :: row.map fmtF ++ [q] := by
  have gen : ∀ ts : List (List Char), (∀ t ∈ ts, t ≠ [] ∧ ∀ c ∈ t, isSpace c = false) →
      fieldsAux (ts.flatMap (fun t => t ++ [' ']) ++ q) [] = ts ++ [q] := by
    intro ts
    induction ts with
    | nil =>
      intro _
      have := fieldsAux_word q [] [] h4
      rw [List.append_nil] at this
      simp only [List.flatMap_nil, List.nil_append]
      rw [this]
      simp [fieldsAux, h3]
    | cons t ts ih =>
      intro h
      obtain ⟨k1, k2⟩ := h t (by simp)
      rw [List.flatMap_cons, List.append_assoc, List.append_assoc, fieldsAux_word t _ [] k2]
      simp only [List.nil_append, List.singleton_append]
      rw [fieldsAux, if_pos (by decide), if_neg k1, ih (fun t ht => h t (by simp [ht]))]
      simp
  have hall : ∀ t ∈ w :: row.map fmtF, t ≠ [] ∧ ∀ c ∈ t, isSpace c = false := by
    intro t ht
    rcases List.mem_cons.1 ht with rfl | ht
    · exact ⟨h1, h2⟩
    · obtain ⟨x, -, rfl⟩ := List.mem_map.1 ht
      exact fmtF_word x
  have e : lineText w row = (w :: row.map fmtF).flatMap (fun t => t ++ [' ']) := by
    simp only [lineText, valsText, List.flatMap_cons, List.flatMap_map]
  constructor
  · have := gen _ hall
    rw [← e] at this; exact this
  · have := fieldsAux_values (w :: row.map fmtF ++ [q]) (by
      intro t ht
      rcases List.mem_append.1 ht with ht | ht
      · exact hall t ht
      · rw [List.mem_singleton] at ht; subst ht; exact ⟨h3, h4⟩)
    rw [List.flatMap_append, ← e] at this
    simpa [fields] using this

/-- The last, incomplete line and what its fields are. -/
theorem cut_line (w : Word) (row : List F64) (part : List Char) (hw : w ≠ []) (hs : ∀ c ∈ w, isSpace c = false) (h0 : part ≠ []) (h : part <+: lineText w row) :
    (∃ f, fields part = [f]) ∨ ∃ k q, ∃ x, row[k]? = some x ∧ q ≠ [] ∧ q <+: fmtF x ∧ fields part = w :: (row.take k).map fmtF ++ [q] := by
  have one : ∀ t : List Char, t ≠ [] → (∀ c ∈ t, isSpace c = false) → fields t = [t] := by
    intro t k1 k2
    have := fieldsAux_word t [] [] k2
    rw [List.append_nil] at this
    unfold fields
    rw [this]; simp [fieldsAux, k1]
  unfold lineText at h
  rcases prefix_append_cases h with h | ⟨p, rfl, hx⟩
  · rcases prefix_append_cases h with h | ⟨t, rfl, hx⟩
    · exact Or.inl ⟨_, one part h0 (fun c hc => hs c (h.subset hc))⟩
    · cases t with
      | nil => exact Or.inl ⟨_, one _ h0 (by simpa using hs)⟩
      | cons a t =>
        rw [List.cons_prefix_cons] at hx
        obtain ⟨rfl, hx⟩ := hx
        rw [List.prefix_nil] at hx
        subst hx
        left
        have := fields_lineText w [] hw hs
        exact ⟨w, by simpa [lineText, valsText] using this⟩
  · rcases cut_vals row p hx with rfl | ⟨k, q, x, h1, h2, h3, h4⟩
    · left
      have := fields_lineText w [] hw hs
      exact ⟨w, by simpa [lineText, valsText] using this⟩
    · right
      have hq : ∀ c ∈ q, isSpace c = false := fun c hc => (fmtF_word x).2 c (h3.subset hc)
      obtain ⟨f1, f2⟩ := fields_cut w (row.take k) q hw hs h2 hq
      refine ⟨k, q, x, h1, h2, h3, ?_⟩
      unfold lineText at f1 f2
      rcases h4 with rfl | ⟨rfl, -⟩
      · rw [← f1]; simp
      · rw [← f2]; simp

theorem parseVec_append (other : Word → Option F64) (row : List F64) (q : List Char) :
    parseVec other (row.map fmtF ++ [q]) = (match parseFloat other q with
      | none => .err .parseFloat
      | some y => .ok (row.map readBack ++ [y])) := by
  induction row with
  | nil =>
    simp only [List.map_nil, List.nil_append, parseVec]
    cases parseFloat other q <;> rfl
  | cons x row ih =>
    simp only [List.map_cons, List.cons_append, parseVec, parseFloat_fmtF, ih]
    cases parseFloat other q <;> rfl

theorem dropCR_part (w : Word) (row : List F64) (part : List Char) (hs : ∀ c ∈ w, isSpace c = false) (h : part <+: lineText w row) :
    '\n' ∉ part ∧ dropCR part = part := by
  refine ⟨fun hn => nl_lineText w row hs (h.subset hn), ?_⟩
  unfold dropCR
  rw [if_neg]
  intro hc
  have hm := h.subset (List.mem_of_getLast? hc)
  simp only [lineText, valsText, List.mem_append, List.mem_flatMap, List.mem_singleton] at hm
  rcases hm with (hm | hm) | ⟨x, -, hm | hm⟩
  · have := hs _ hm; revert this; decide
  · revert hm; decide
  · have := (fmtF_word x).2 _ hm; revert this; decide
  · revert hm; decide

theorem scan_cut (ws : List Word) (rows : List (List F64)) (part : List Char)
    (hw : ∀ w ∈ ws, w ≠ [] ∧ ∀ c ∈ w, isSpace c = false)
    (hlen : ∀ p ∈ List.zip ws rows, utf8Len (lineText p.1 p.2) < maxTok)
    (hn : '\n' ∉ part) (hd : dropCR part = part) (hp : utf8Len part < maxTok) :
    scanLinesAux (fileText ws rows ++ part) [] = ⟨List.zipWith lineText ws rows ++ (if part = [] then [] else [part]), none⟩ := by
  have hlast : scanLinesAux part [] = ⟨if part = [] then [] else [part], none⟩ := by
    rw [scanLinesAux_last part [] hn]
    by_cases h0 : part = []
    · simp [scanLinesAux, h0]
    · simp [scanLinesAux, h0, hp, hd]
  induction ws generalizing rows with
  | nil => simp [fileText, hlast]
  | cons w ws ih =>
    cases rows with
    | nil => simp [fileText, hlast]
    | cons row rows =>
      have h1 := hlen (w, row) (by simp)
      rw [fileText_cons, List.append_assoc, List.cons_append, scanLinesAux_line _ _ _ (nl_lineText w row (hw w (by simp)).2) (by simpa using h1),
        ih rows (fun w h => hw w (by simp [h])) (fun p hp => hlen p (by simp [hp]))]
      simp [dropCR_lineText]

theorem load_cut (other : Word → Option F64) (ws : List Word) (rows : List (List F64)) (part : List Char)
    (hw : ∀ w ∈ ws, w ≠ [] ∧ ∀ c ∈ w, isSpace c = false) (hr : ∀ row ∈ rows, row ≠ [])
    (hlen : ∀ p ∈ List.zip ws rows, utf8Len (lineText p.1 p.2) < maxTok)
    (hn : '\n' ∉ part) (hd : dropCR part = part) (hp : utf8Len part < maxTok) :
    load other ⟨fileText ws rows ++ part, false⟩ =
      if part = [] then .ok (List.zipWith embOf ws rows) else loadLine other part (List.zipWith embOf ws rows) := by
  have hfull := load_fileText other ws rows hw hr hlen
  simp only [load, scanLines, scan_fileText ws rows hw hlen] at hfull
  simp only [load, scanLines, scan_cut ws rows part hw hlen hn hd hp]
  by_cases h0 : part = []
  · simpa [h0] using hfull
  · rw [if_neg h0, if_neg h0]
    have hf : forEach (List.zipWith lineText ws rows) [] (loadLine other) = .ok (List.zipWith embOf ws rows) := by
      rcases hx : forEach (List.zipWith lineText ws rows) [] (loadLine other) with x | x | x
      all_goals simp [hx] at hfull
      rw [hfull]
    simp only [Bool.false_eq_true, if_false]
    rw [forEach_append, hf]
    simp only [Res.ok_bind, forEach_cons, forEach_nil]
    rcases loadLine other part (List.zipWith embOf ws rows) with x | x | x <;> rfl

theorem loadLine_one (other : Word → Option F64) (part : List Char) (f : Word) (hh : part.head? ≠ some ' ') (h : fields part = [f]) (embs : List (Embedding F64)) :
    loadLine other part embs = .err .tooFewFields := by
  unfold loadLine parseLine
  rw [if_neg hh, h]
  rfl

theorem loadLine_cut (other : Word → Option F64) (w : Word) (row : List F64) (part q : List Char) (hw : w ≠ []) (hh : part.head? ≠ some ' ')
    (h : fields part = w :: row.map fmtF ++ [q]) (embs : List (Embedding F64)) :
    loadLine other part embs = (match parseFloat other q with
      | none => .err .parseFloat
      | some y => .ok (embs ++ [⟨w, row.length + 1, row.map readBack ++ [y], norm (row.map readBack ++ [y])⟩])) := by
  unfold loadLine parseLine
  rw [if_neg hh, h]
  have hp := parseVec_append other row q
  obtain ⟨a, l, e⟩ : ∃ a l, row.map fmtF ++ [q] = a :: l := by
    cases hrow : row.map fmtF ++ [q] with
    | nil => simp at hrow
    | cons a l => exact ⟨a, l, rfl⟩
  rw [List.cons_append, e]
  have hlen : ((a :: l).length : Int) = row.length + 1 := by rw [← e]; simp
  simp only
  rw [e] at hp
  rw [hp, hlen]
  cases parseFloat other q with
  | none => rfl
  | some y =>
    simp only [Res.ok_bind, Embedding.validate, hw, if_false]
    rw [if_neg (by simp; omega), if_neg (by simp)]
    rfl

/-- **C106.** Any initial part `left` of a saved file consists of the complete lines of the first `m` words and a beginning `part` of the next line
(nothing, if the cut is right behind a newline). `Load` returns exactly the first `m` of the words and vectors of the complete file if `part` is
empty; it fails if `part` has no values; otherwise `part` is the next word, its first `k` values and a beginning `q` (perhaps all) of one more,
and `Load` fails if `q` is no number, else it returns one more word, with the `k` values of the complete file and the number `q`. -/
theorem C106_cut (other : Word → Option F64) (calls : List (List Word)) (dic : Dictionary)
    (hd : addCalls calls = .ok dic) (hw : ∀ w ∈ calls.flatten, w ≠ [] ∧ ∀ c ∈ w, isSpace c = false)
    (mat : Matrix F64) (c : Nat) (hc : 1 ≤ c) (hm : mat.Shaped calls.flatten.dedup.length c) (text : List Char)
    (ht : saveText dic mat false 0 = .ok text)
    (hl : ∀ lines, RawLines text lines → ∀ l ∈ lines, utf8Len l < 65536)
    (embs : List (Embedding F64)) (hf : load other ⟨text, false⟩ = .ok embs)
    (left : List Char) (h : left <+: text) :
    ∃ m first part, left = first ++ part ∧
      IsSavedFile ((firstOcc calls.flatten).take m) (((List.range calls.flatten.dedup.length).map mat.rowOf).take m) first ∧ '\n' ∉ part ∧
      ((part = [] ∧ load other ⟨left, false⟩ = .ok (embs.take m)) ∨
       (part ≠ [] ∧ (∃ f, fields part = [f]) ∧ load other ⟨left, false⟩ = .err .tooFewFields) ∨
       ∃ (e : Embedding F64) (k : Nat) (x : F64) (q : List Char) (ts : List (List Char)), embs[m]? = some e ∧ (mat.rowOf m)[k]? = some x ∧
         List.Forall₂ IsSixDecimals ((mat.rowOf m).take k) ts ∧ q ≠ [] ∧ (∃ t, IsSixDecimals x t ∧ q <+: t) ∧ fields part = e.word :: ts ++ [q] ∧
         load other ⟨left, false⟩ = (match parseFloat other q with
           | none => .err .parseFloat
           | some y => .ok (embs.take m ++ [⟨e.word, k + 1, e.vector.take k ++ [y], norm (e.vector.take k ++ [y])⟩]))) := by
  obtain ⟨d, hd', hr⟩ := addCalls_rep calls
  rw [hd] at hd'; obtain rfl := Res.ok.inj hd'
  have hlen2 : calls.flatten.dedup.length = (firstOcc calls.flatten).length := by
    rw [← hr.len_eq]; exact hr.maxid
  rw [hlen2] at hm ⊢
  rw [saveText_eq hr hm false 0 (by simp)] at ht
  obtain rfl := Res.ok.inj ht
  set ws := firstOcc calls.flatten with hws
  change ∃ m first part, left = first ++ part ∧ IsSavedFile (ws.take m) ((rowsOf mat ws.length).take m) first ∧ _
  have hrowOf : ∀ m row, (rowsOf mat ws.length)[m]? = some row → row = mat.rowOf m := by
    intro m row h
    simp only [rowsOf, List.getElem?_map, Option.map_eq_some_iff] at h
    obtain ⟨a, h1, h2⟩ := h
    rw [List.getElem?_eq_some_iff] at h1
    obtain ⟨h3, h4⟩ := h1
    rw [List.getElem_range] at h4
    rw [← h2, h4]
  set rows := rowsOf mat ws.length with hrows
  have hw' : ∀ w ∈ ws, w ≠ [] ∧ ∀ c ∈ w, isSpace c = false := fun w h => hw w ((mem_firstOcc _ _).1 h)
  have hrow : ∀ row ∈ rows, row.length = c := by
    intro row h
    simp only [hrows, rowsOf, List.mem_map, List.mem_range] at h
    obtain ⟨i, hi, rfl⟩ := h
    exact hm.length_rowOf hi
  have hrne : ∀ row ∈ rows, row ≠ [] := fun row h he => by have := hrow row h; rw [he] at this; simp at this; omega
  have hl' := hl _ (rawLines_fileText ws rows hw')
  have hlen : ∀ p ∈ List.zip ws rows, utf8Len (lineText p.1 p.2) < maxTok := by
    intro p hp
    apply hl'
    rw [← List.map_uncurry_zip_eq_zipWith]
    exact List.mem_map.2 ⟨p, hp, rfl⟩
  have hwl : ws.length = rows.length := by simp [hrows, rowsOf]
  rw [load_fileText other ws rows hw' hrne hlen] at hf
  obtain rfl := Res.ok.inj hf
  obtain ⟨m, part, hm1, rfl, hpart⟩ := cut_fileText ws rows hwl left h
  have hsaved := isSavedFile_fileText (ws.take m) (rows.take m) (by simp [hwl])
  have hwt : ∀ w ∈ ws.take m, w ≠ [] ∧ ∀ c ∈ w, isSpace c = false := fun w h => hw' w (List.mem_of_mem_take h)
  have hrt : ∀ row ∈ rows.take m, row ≠ [] := fun row h => hrne row (List.mem_of_mem_take h)
  have hlt : ∀ p ∈ List.zip (ws.take m) (rows.take m), utf8Len (lineText p.1 p.2) < maxTok :=
    fun p hp => hlen p (by unfold List.zip at hp ⊢; rw [← List.take_zipWith] at hp; exact List.mem_of_mem_take hp)
  have htake : List.zipWith embOf (ws.take m) (rows.take m) = (List.zipWith embOf ws rows).take m := List.take_zipWith.symm
  refine ⟨m, _, part, rfl, hsaved, ?_⟩
  rcases hpart with rfl | ⟨h0, w, row, h1, h2, h3⟩
  · refine ⟨by simp, Or.inl ⟨rfl, ?_⟩⟩
    rw [load_cut other _ _ [] hwt hrt hlt (by simp) (by simp [dropCR]) (by decide), if_pos rfl, htake]
  · have hwm : w ∈ ws := List.mem_of_getElem? h1
    have hrm : row ∈ rows := List.mem_of_getElem? h2
    obtain ⟨hw1, hw2⟩ := hw' w hwm
    obtain ⟨hn, hcr⟩ := dropCR_part w row part hw2 h3
    have hz : (w, row) ∈ List.zip ws rows := by
      apply List.mem_of_getElem? (i := m)
      rw [List.getElem?_zip_eq_some]
      exact ⟨h1, h2⟩
    have hp : utf8Len part < maxTok := by
      refine lt_of_le_of_lt ?_ (hlen _ hz)
      obtain ⟨t, ht⟩ := h3
      rw [← ht]; unfold utf8Len; rw [List.map_append, List.sum_append]; omega
    have hh : part.head? ≠ some ' ' := by
      have := head_lineText w row hw1 hw2
      obtain ⟨t, ht⟩ := h3
      rw [← ht, List.head?_append] at this
      intro hc
      rw [hc] at this
      exact this rfl
    have hload := load_cut other _ _ part hwt hrt hlt hn hcr hp
    rw [if_neg h0, htake] at hload
    refine ⟨hn, Or.inr ?_⟩
    rcases cut_line w row part hw1 hw2 h0 h3 with ⟨f, hf⟩ | ⟨k, q, x, k1, k2, k3, k4⟩
    · exact Or.inl ⟨h0, ⟨f, hf⟩, by rw [hload, loadLine_one other part f hh hf]⟩
    · right
      have he : (List.zipWith embOf ws rows)[m]? = some (embOf w row) := by
        rw [List.getElem?_zipWith, h1, h2]
      have hrr := hrowOf m row h2
      refine ⟨embOf w row, k, x, q, (row.take k).map fmtF, he, by rw [← hrr]; exact k1, ?_, k2, ⟨fmtF x, fmtF_isSixDecimals x, k3⟩, k4, ?_⟩
      · rw [← hrr, List.forall₂_map_right_iff]
        exact List.forall₂_same.2 (fun x _ => fmtF_isSixDecimals x)
      · rw [hload, loadLine_cut other w (row.take k) part q hw1 hh k4]
        have hkl : (row.take k).length = k := by
          rw [List.getElem?_eq_some_iff] at k1
          obtain ⟨k1, -⟩ := k1
          rw [List.length_take]; omega
        rw [hkl]
        simp only [embOf, List.map_take]

theorem parseFloat_plain (other : Word → Option F64) (w : Word) (s : Bool) (m k : Nat) (h : parsePlain w = some (s, m, k)) :
    parseFloat other w = if h : IsRep (roundMag (m * one1) (10 ^ k)) then some (.fin s (roundMag (m * one1) (10 ^ k)) h) else none := by
  unfold parseFloat
  rw [if_neg, if_neg, if_neg, h]
  all_goals
    rintro rfl
    revert h; rw [show parsePlain _ = none by decide]; simp

theorem digitsValue_append (a b : List Char) : digitsValue (a ++ b) = digitsValue a * 10 ^ b.length + digitsValue b := by
  rw [digitsValue_eq, digitsValue_eq, digitsValue_eq, decVal_append]

theorem cut_number_le (s : Bool) (m k N : Nat) (q t : List Char) (hq : parsePlain q = some (s, m, k)) (ht : parsePlain t = some (s, N, 6))
    (hle : m * 10 ^ 6 ≤ N * 10 ^ k) (y z : F64) (hy : goFloat q = some y) (hz : goFloat t = some z) :
    ∃ a ha b hb, y = .fin s a ha ∧ z = .fin s b hb ∧ a ≤ b := by
  unfold goFloat at hy hz
  rw [parseFloat_plain _ _ _ _ _ hq] at hy
  rw [parseFloat_plain _ _ _ _ _ ht] at hz
  split at hy
  · next hy' =>
    split at hz
    · next hz' =>
      refine ⟨_, hy', _, hz', (Option.some.inj hy).symm, (Option.some.inj hz).symm, ?_⟩
      apply roundMag_mono _ _ _ _ (Nat.pow_pos (by omega)) (Nat.pow_pos (by omega))
      generalize one1 = o
      calc m * o * 10 ^ 6 = (m * 10 ^ 6) * o := by ring
        _ ≤ (N * 10 ^ k) * o := Nat.mul_le_mul_right _ hle
        _ = N * o * 10 ^ k := by ring
    · cases hz
  · cases hy

/-- **C106 (the misread number).** A number in a saved file that lost its end is read - if it still is a number - as a finite double of the same
sign that is not larger in absolute value than the number in the complete file; a cut `NaN`, `+Inf` or `-Inf` is not a number. -/
theorem C106_number (x : F64) (t q : List Char) (ht : IsSixDecimals x t) (hq : q <+: t) (hne : q ≠ t) (y z : F64)
    (hy : goFloat q = some y) (hz : goFloat t = some z) :
    ∃ s a ha b hb, y = .fin s a ha ∧ z = .fin s b hb ∧ a ≤ b := by
  have special : ∀ w : List Char, w = ['N', 'a', 'N'] ∨ w = ['+', 'I', 'n', 'f'] ∨ w = ['-', 'I', 'n', 'f'] ∨ w = ['-', '.'] →
      ∀ p ∈ w.inits, p ≠ w → (goFloat p).isNone = true := by
    rintro w (rfl | rfl | rfl | rfl) <;> decide +kernel
  have none_of : ∀ w, (w = ['N', 'a', 'N'] ∨ w = ['+', 'I', 'n', 'f'] ∨ w = ['-', 'I', 'n', 'f'] ∨ w = ['-', '.']) → q <+: w → q ≠ w → False := by
    intro w hw hp hn
    have := special w hw q ((List.mem_inits q w).2 hp) hn
    rw [hy] at this
    cases this
  cases x with
  | nan => exact (none_of t (Or.inl ht) hq hne).elim
  | inf s => cases s
             · exact (none_of t (Or.inr (Or.inl ht)) hq hne).elim
             · exact (none_of t (Or.inr (Or.inr (Or.inl ht))) hq hne).elim
  | fin s n h =>
    obtain ⟨ip, fp, rfl, h1, h2, h3, h4, -, -⟩ := ht
    have hsign : ((if s then ['-'] else []) = ([] : List Char) ∧ s = false) ∨ ((if s then ['-'] else []) = (['+'] : List Char) ∧ s = false) ∨
        ((if s then ['-'] else []) = (['-'] : List Char) ∧ s = true) := by cases s <;> simp
    have hpt : parsePlain ((if s then ['-'] else []) ++ ip ++ ['.'] ++ fp) = some (s, digitsValue (ip ++ fp), 6) :=
      (parsePlain_iff _ _ _ _).2 ⟨_, ip, fp, hsign, h1, h2, by simp [h4], Or.inr (by simp), rfl, h3.symm⟩
    refine ⟨s, ?_⟩
    have whole : ∀ ip', ip' <+: ip → ip' ≠ [] → q = (if s then ['-'] else []) ++ ip' → ∃ a ha b hb, y = .fin s a ha ∧ z = .fin s b hb ∧ a ≤ b := by
      rintro ip' ⟨r, rfl⟩ h0 rfl
      have h1' : AllDigits ip' := fun c hc => h1 c (by simp [hc])
      refine cut_number_le s (digitsValue ip') 0 (digitsValue (ip' ++ r ++ fp)) _ _ ?_ hpt ?_ y z hy hz
      · exact (parsePlain_iff _ _ _ _).2 ⟨_, ip', [], hsign, h1', by intro c hc; simp at hc, by simp [h0], Or.inl ⟨rfl, rfl⟩, by simp, rfl⟩
      · rw [List.append_assoc, digitsValue_append ip', List.length_append, h3, pow_add, pow_zero, Nat.mul_one]
        have : 1 ≤ 10 ^ r.length := Nat.one_le_pow _ _ (by omega)
        calc digitsValue ip' * 10 ^ 6 ≤ digitsValue ip' * (10 ^ r.length * 10 ^ 6) :=
              Nat.mul_le_mul_left _ (Nat.le_mul_of_pos_left _ (by omega))
          _ ≤ _ := Nat.le_add_right _ _
    have nosign : q <+: (if s then ['-'] else []) → False := by
      intro hp
      refine none_of ['-', '.'] (by simp) ?_ ?_
      · cases s
        · simp at hp; subst hp; simp
        · exact hp.trans (by simp)
      · intro hc
        have := hp.length_le
        rw [hc] at this
        cases s <;> simp at this
    have dot : ∀ fp', fp' <+: fp → q = (if s then ['-'] else []) ++ ip ++ ['.'] ++ fp' → ∃ a ha b hb, y = .fin s a ha ∧ z = .fin s b hb ∧ a ≤ b := by
      rintro fp' ⟨r, rfl⟩ rfl
      have h2' : AllDigits fp' := fun c hc => h2 c (by simp [hc])
      refine cut_number_le s (digitsValue (ip ++ fp')) fp'.length (digitsValue (ip ++ (fp' ++ r))) _ _ ?_ hpt ?_ y z hy hz
      · exact (parsePlain_iff _ _ _ _).2 ⟨_, ip, fp', hsign, h1, h2', by simp [h4], Or.inr (by simp), rfl, rfl⟩
      · rw [← List.append_assoc, digitsValue_append (ip ++ fp') r]
        rw [List.length_append] at h3
        rw [← h3, pow_add, Nat.add_mul]
        calc digitsValue (ip ++ fp') * (10 ^ fp'.length * 10 ^ r.length) = digitsValue (ip ++ fp') * 10 ^ r.length * 10 ^ fp'.length := by ring
          _ ≤ _ := Nat.le_add_right _ _
    rcases prefix_append_cases hq with hq | ⟨fp', rfl, hx⟩
    · rcases prefix_append_cases hq with hq | ⟨u, rfl, hx⟩
      · rcases prefix_append_cases hq with hq | ⟨ip', rfl, hx⟩
        · exact (nosign hq).elim
        · by_cases h0 : ip' = []
          · subst h0
            exact (nosign (by simp)).elim
          · exact whole ip' hx h0 rfl
      · cases u with
        | nil => exact whole ip (List.prefix_refl _) h4 (by simp)
        | cons c u =>
          rw [List.cons_prefix_cons] at hx
          obtain ⟨rfl, hx⟩ := hx
          rw [List.prefix_nil] at hx
          subst hx
          exact dot [] (by simp) (by simp)
    · exact dot fp' hx rfl

/-- **C106 (what a search sees).** If `Load` accepts what is left of a saved file, the result is a number of first words with the vectors of the
complete file, and possibly one more word, whose vector is complete or shorter and can differ only in its last value. Then a searcher can be made
(`search.New`, so `wego query` and `wego console` can go on) unless that word has fewer values and is not the only one. -/
theorem C106_search (calls : List (List Word)) (dic : Dictionary)
    (hd : addCalls calls = .ok dic) (hw : ∀ w ∈ calls.flatten, w ≠ [] ∧ ∀ c ∈ w, isSpace c = false)
    (mat : Matrix F64) (c : Nat) (hc : 1 ≤ c) (hm : mat.Shaped calls.flatten.dedup.length c) (text : List Char)
    (ht : saveText dic mat false 0 = .ok text)
    (hl : ∀ lines, RawLines text lines → ∀ l ∈ lines, utf8Len l < 65536)
    (embs : List (Embedding F64)) (hf : load (goNumber goRest) ⟨text, false⟩ = .ok embs)
    (left : List Char) (h : left <+: text) (out : List (Embedding F64)) (ho : load (goNumber goRest) ⟨left, false⟩ = .ok out) :
    (∃ m, out = embs.take m ∧ ∃ s, Searcher.new out = .ok s) ∨
    ∃ m e e', embs[m]? = some e ∧ out = embs.take m ++ [e'] ∧ e'.word = e.word ∧ e'.vector.dropLast <+: e.vector ∧
      1 ≤ e'.vector.length ∧ e'.vector.length ≤ c ∧ ((∃ s, Searcher.new out = .ok s) ↔ m = 0 ∨ e'.vector.length = c) := by
  obtain ⟨embs', h1, h2, h3, h4⟩ := C49_round_trip (goNumber goRest) calls dic hd hw mat c hc hm text ht hl
  rw [hf] at h1
  obtain rfl := Res.ok.inj h1
  have loop : ∀ l : List (Embedding F64), (∀ e ∈ l, e.dim = c) → Embedding.validateLoop c l = .ok () := by
    intro l
    induction l with
    | nil => intro _; rfl
    | cons e l ih =>
      intro h
      unfold Embedding.validateLoop
      rw [if_neg (by rw [h e (by simp)]; simp), ih (fun e he => h e (by simp [he]))]
  have all : ∀ l : List (Embedding F64), (∀ e ∈ l, e.dim = c) → ∃ s, Searcher.new l = .ok s := by
    intro l h
    unfold Searcher.new Embedding.validateAll
    cases l with
    | nil => exact ⟨_, rfl⟩
    | cons e l =>
      simp only
      rw [h e (by simp), loop _ h]
      exact ⟨_, rfl⟩
  have htake : ∀ m, ∀ e ∈ embs.take m, e.dim = c := fun m e he => h3 e (List.mem_of_mem_take he)
  obtain ⟨m, first, part, -, -, -, hcase⟩ := C106_cut (goNumber goRest) calls dic hd hw mat c hc hm text ht hl embs hf left h
  rcases hcase with ⟨-, h5⟩ | ⟨-, -, h5⟩ | ⟨e, k, x, q, ts, h5, h6, -, -, -, -, h7⟩
  · rw [ho] at h5
    obtain rfl := Res.ok.inj h5
    exact Or.inl ⟨m, rfl, all _ (htake m)⟩
  · rw [ho] at h5; cases h5
  · right
    rw [ho] at h7
    cases hy : parseFloat (goNumber goRest) q with
    | none => rw [hy] at h7; cases h7
    | some y =>
      rw [hy] at h7
      obtain rfl := Res.ok.inj h7
      have hmem := List.mem_of_getElem? h5
      have hvl : e.vector.length = c := by
        obtain ⟨b, hb1, hb2⟩ := forall₂_mem_right h4 (b := e.vector) (List.mem_map.2 ⟨e, hmem, rfl⟩)
        obtain ⟨i, hi, rfl⟩ := List.mem_map.1 hb1
        rw [← hb2.length_eq]
        exact hm.length_rowOf (List.mem_range.1 hi)
      have hmlt : m < calls.flatten.dedup.length := by
        rw [List.getElem?_eq_some_iff] at h5
        obtain ⟨h8, -⟩ := h5
        have := h4.length_eq
        simp at this
        omega
      have hk : k < c := by
        rw [List.getElem?_eq_some_iff] at h6
        obtain ⟨h8, -⟩ := h6
        rwa [hm.length_rowOf hmlt] at h8
      have hkl : (e.vector.take k).length = k := by rw [List.length_take]; omega
      refine ⟨m, e, _, h5, rfl, rfl, by simp [List.take_prefix], by simp, by simp; omega, ?_⟩
      have hlen : (e.vector.take k ++ [y]).length = k + 1 := by rw [List.length_append, hkl]; rfl
      simp only [hlen]
      constructor
      · rintro ⟨s, hs⟩
        by_contra hcon
        push Not at hcon
        obtain ⟨hm0, hkc⟩ := hcon
        obtain ⟨e0, l, hel⟩ : ∃ e0 l, embs.take m = e0 :: l := by
          cases hem : embs.take m with
          | nil =>
            rw [List.take_eq_nil_iff] at hem
            rcases hem with hem | hem
            · exact absurd hem hm0
            · rw [hem] at h5; simp at h5
          | cons a l => exact ⟨a, l, rfl⟩
        have hdim := htake m
        rw [hel] at hdim hs
        unfold Searcher.new Embedding.validateAll at hs
        simp only [List.cons_append] at hs
        rw [hdim e0 (by simp)] at hs
        have bad : ∀ l : List (Embedding F64), (∀ e ∈ l, e.dim = c) → ∀ b : Embedding F64, b.dim ≠ c →
            Embedding.validateLoop c (l ++ [b]) = .err .dimNotSame := by
          intro l
          induction l with
          | nil => intro _ b hb; simp [Embedding.validateLoop, hb.symm]
          | cons e l ih =>
            intro h b hb
            rw [List.cons_append]
            unfold Embedding.validateLoop
            rw [if_neg (by rw [h e (by simp)]; simp), ih (fun e he => h e (by simp [he])) b hb]
        have := bad (e0 :: l) hdim ⟨e.word, k + 1, e.vector.take k ++ [y], norm (e.vector.take k ++ [y])⟩ (by simp only; omega)
        rw [List.cons_append] at this
        rw [this] at hs
        cases hs
      · rintro (rfl | hkc)
        · simp only [List.take_zero, List.nil_append]
          unfold Searcher.new Embedding.validateAll
          simp [Embedding.validateLoop]
        · refine all _ (fun a ha => ?_)
          rcases List.mem_append.1 ha with ha | ha
          · exact htake m a ha
          · rw [List.mem_singleton] at ha
            subst ha
            simp only; omega

/-! ### A value changes without any error -/

def cfMat : Matrix F64 := ⟨[F64.round (1 / 128), F64.zero true, .inf true, F64.round (-25 / 2)], 2, 2⟩

def cfText : List Char := "a 0.007812 -0.000000 \nbc -Inf -12.500000 \n".toList

def cfLeft : List Char := "a 0.007812 -0.000000 \nbc -Inf -1".toList

/-- the same file, cut inside the last but one value -/
def cfShort : List Char := "a 0.007812 -0.000000 \nbc -I".toList

def cfEmbs (t : List Char) : List (Embedding F64) := match load (goNumber goRest) ⟨t, false⟩ with | .ok e => e | _ => []

theorem cf_text : saveText slDic cfMat false 0 = .ok cfText := by decide +kernel

theorem cf_embs : load (goNumber goRest) ⟨cfText, false⟩ = .ok (cfEmbs cfText) := by decide +kernel

theorem cf_left : load (goNumber goRest) ⟨cfLeft, false⟩ = .ok (cfEmbs cfLeft) := by decide +kernel

/-- The hypotheses of `C106_cut` are met; what is left here ends in the middle of `-12.500000`. -/
example := C106_cut (goNumber goRest) slCalls slDic sl_dic sl_words cfMat 2 (by decide) ⟨rfl, rfl, rfl⟩ cfText cf_text
  (fun lines h => by
    have e : lines = ["a 0.007812 -0.000000 ".toList, "bc -Inf -12.500000 ".toList] :=
      rawLines_unique h (.cons "a 0.007812 -0.000000 ".toList _ _ (by decide) (.cons "bc -Inf -12.500000 ".toList _ _ (by decide) .nil))
    subst e; decide) _ cf_embs cfLeft (by decide)

/-- The hypotheses of `C106_search` are met. -/
example := C106_search slCalls slDic sl_dic sl_words cfMat 2 (by decide) ⟨rfl, rfl, rfl⟩ cfText cf_text
  (fun lines h => by
    have e : lines = ["a 0.007812 -0.000000 ".toList, "bc -Inf -12.500000 ".toList] :=
      rawLines_unique h (.cons "a 0.007812 -0.000000 ".toList _ _ (by decide) (.cons "bc -Inf -12.500000 ".toList _ _ (by decide) .nil))
    subst e; decide) _ cf_embs cfLeft (by decide) _ cf_left

/-- The hypotheses of `C106_number` are met: `-1` is what is left of `-12.500000`. -/
example : IsSixDecimals (F64.round (-25 / 2)) "-12.500000".toList ∧ (goFloat "-1".toList).isSome = true ∧ (goFloat "-12.500000".toList).isSome = true := by
  refine ⟨?_, by decide +kernel, by decide +kernel⟩
  have e : "-12.500000".toList = fmtF (F64.round (-25 / 2)) := by decide +kernel
  rw [e]; exact fmtF_isSixDecimals _

/-- **C106 (a value changed silently).** There are a model and a point to cut its file off such that loading what is left and making a searcher from it
report no error, all words are there, and a value is -1 instead of -12.5. -/
theorem C106_silent_change : ∃ (dic : Dictionary) (mat : Matrix F64) (text left : List Char), saveText dic mat false 0 = .ok text ∧ left <+: text ∧
    ∃ out e s, load (goNumber goRest) ⟨left, false⟩ = .ok out ∧ out.map (·.word) = [['a'], ['b', 'c']] ∧ Searcher.new out = .ok s ∧
      out[1]? = some e ∧ e.vector = [.inf true, F64.round (-1)] ∧ mat.rowOf 1 = [.inf true, F64.round (-25 / 2)] := by
  refine ⟨slDic, cfMat, cfText, cfLeft, cf_text, by decide, cfEmbs cfLeft, (cfEmbs cfLeft).getD 1 Embedding.zero, ⟨cfEmbs cfLeft⟩, cf_left, ?_, ?_, ?_, ?_, ?_⟩
  · decide +kernel
  · unfold Searcher.new
    have h : Embedding.validateAll (cfEmbs cfLeft) = .ok () := by decide +kernel
    rw [h]; rfl
  · decide +kernel
  · decide +kernel
  · decide +kernel

/-- A cut inside an earlier value, or one that leaves no number, is noticed. -/
example : load (goNumber goRest) ⟨cfShort, false⟩ = .err .parseFloat := by decide +kernel

end Wego.Props
