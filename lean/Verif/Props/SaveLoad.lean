import Verif.Proofs.SaveLoad
import Verif.Props.Dictionary
import Verif.Spec.Words

/-! # C48-C52: saving and loading word vectors -/

namespace Wego.Props
open Wego Wego.Spec

/-! ## C48 -/

/-- **C48.** `Save` fails exactly when the number of rows is not the number of words; otherwise a writer that takes
all its bytes receives exactly the UTF-8 text of the file described by `IsSavedFile`: one line per distinct word, in
order of first addition. (Not verbose, or `LogBatch` not 0: see C71.) -/
theorem C48_save_format {σ : Type} (f : Sink σ) (hf : f.Complete) (direct : Bool) (calls : List (List Word))
    (dic : Dictionary) (hd : addCalls calls = .ok dic) (mat : Matrix F64) (r c : Nat) (hm : mat.Shaped r c)
    (v : Bool) (lb : Int) (hv : v = false ∨ lb ≠ 0) (s : σ) :
    (r ≠ calls.flatten.dedup.length → save f direct dic mat v lb s = .err .lenMismatch) ∧
    (r = calls.flatten.dedup.length → ∃ s' text,
      IsSavedFile (firstOcc calls.flatten) ((List.range r).map mat.rowOf) text ∧
      save f direct dic mat v lb s = .ok (s', utf8 text)) := by
  obtain ⟨d, hd', hr⟩ := addCalls_rep calls
  rw [hd] at hd'; obtain rfl := Res.ok.inj hd'
  have hlen := hr.len_eq
  have hlen2 : dic.len = (firstOcc calls.flatten).length := hr.maxid
  constructor
  · intro hne
    unfold save
    rw [saveText_mismatch (by rw [hm.row]; omega)]
    rfl
  · intro he
    have hm' : mat.Shaped (firstOcc calls.flatten).length c := by rw [← hlen2, hlen, ← he]; exact hm
    have hrr : r = (firstOcc calls.flatten).length := by omega
    refine ⟨(sendChunks f (if direct = true ∧ 4096 < (utf8 (fileText (firstOcc calls.flatten)
      (rowsOf mat (firstOcc calls.flatten).length))).length then [utf8 (fileText (firstOcc calls.flatten)
      (rowsOf mat (firstOcc calls.flatten).length))] else bufChunks (utf8 (fileText (firstOcc calls.flatten)
      (rowsOf mat (firstOcc calls.flatten).length))).length (utf8 (fileText (firstOcc calls.flatten)
      (rowsOf mat (firstOcc calls.flatten).length)))) s).1, fileText (firstOcc calls.flatten) (rowsOf mat (firstOcc calls.flatten).length), ?_, ?_⟩
    · rw [hrr]; exact isSavedFile_fileText _ _ (by simp [rowsOf])
    · unfold save
      rw [saveText_eq hr hm' v lb (by rintro ⟨h1, h2⟩; rcases hv with h | h <;> simp_all), Res.ok_bind]
      dsimp only
      rw [sendChunks_complete f hf, flatten_chunks]

/-- Concrete data for the examples below: `Add("a", "bc", "a")` and a 2 × 2 table with an infinity and a negative zero. -/
def slCalls : List (List Word) := [[['a'], ['b', 'c'], ['a']]]
/-- The dictionary of `slCalls`. -/
def slDic : Dictionary := match addCalls slCalls with | .ok d => d | _ => Dictionary.new
/-- See `slCalls`. -/
def slMat : Matrix F64 := ⟨[F64.round (1 / 128), F64.zero true, .inf true, F64.round (-5)], 2, 2⟩
/-- The file these two give. -/
def slText : List Char := "a 0.007812 -0.000000 \nbc -Inf -5.000000 \n".toList

theorem sl_dic : addCalls slCalls = .ok slDic := rfl
theorem sl_shaped : slMat.Shaped 2 2 := ⟨rfl, rfl, rfl⟩
theorem sl_words : ∀ w ∈ slCalls.flatten, w ≠ [] ∧ ∀ c ∈ w, isSpace c = false := by decide
theorem sl_text : saveText slDic slMat false 0 = .ok slText := by decide +kernel
theorem sl_lines : RawLines slText ["a 0.007812 -0.000000 ".toList, "bc -Inf -5.000000 ".toList] :=
  .cons "a 0.007812 -0.000000 ".toList _ _ (by decide) (.cons "bc -Inf -5.000000 ".toList [] [] (by decide) .nil)

/-- `C48_save_format` on a writer that takes everything: two rows are saved, three are refused. -/
example := (C48_save_format (⟨fun (s : List UInt8) b => (s ++ b, b.length, false)⟩) (fun _ _ => rfl) false slCalls slDic
  sl_dic slMat 2 2 sl_shaped true 1 (.inr (by decide)) []).2 (by decide)
example := (C48_save_format (⟨fun (s : List UInt8) b => (s ++ b, b.length, false)⟩) (fun _ _ => rfl) false slCalls slDic
  sl_dic ⟨[.nan, .nan, .nan], 3, 1⟩ 3 1 ⟨rfl, rfl, rfl⟩ false 0 (.inl rfl) []).1 (by decide)

/-! ## C52 -/

theorem forall₂_mem_left {α β : Type} {R : α → β → Prop} {l : List α} {l' : List β} (h : List.Forall₂ R l l') {a : α}
    (ha : a ∈ l) : ∃ b ∈ l', R a b := by
  induction h with
  | nil => simp at ha
  | cons h1 _ ih =>
    rcases List.mem_cons.1 ha with rfl | ha
    · exact ⟨_, by simp, h1⟩
    · obtain ⟨b, hb, h⟩ := ih ha; exact ⟨b, by simp [hb], h⟩

theorem forall₂_mem_right {α β : Type} {R : α → β → Prop} {l : List α} {l' : List β} (h : List.Forall₂ R l l') {b : β}
    (hb : b ∈ l') : ∃ a ∈ l, R a b := by
  induction h with
  | nil => simp at hb
  | cons h1 _ ih =>
    rcases List.mem_cons.1 hb with rfl | hb
    · exact ⟨_, by simp, h1⟩
    · obtain ⟨a, ha, h⟩ := ih hb; exact ⟨a, by simp [ha], h⟩

theorem stripCR_eq : stripCR = dropCR := rfl

theorem rawLines_exists (text : List Char) : ∃ ls, RawLines text ls := by
  have : ∀ (n : Nat) (t : List Char), t.length ≤ n → ∃ ls, RawLines t ls := by
    intro n
    induction n with
    | zero => intro t h; have : t = [] := List.eq_nil_of_length_eq_zero (by omega); subst this; exact ⟨_, .nil⟩
    | succ n ih =>
      intro t h
      by_cases hn : '\n' ∈ t
      · obtain ⟨l, r, rfl, hl⟩ := List.eq_append_cons_of_mem hn
        obtain ⟨ls, hls⟩ := ih r (by simp at h; omega)
        exact ⟨_, .cons l r ls hl hls⟩
      · by_cases ht : t = []
        · subst ht; exact ⟨_, .nil⟩
        · exact ⟨_, .last t ht hn⟩
  exact this _ text (le_refl _)

theorem rawLines_unique {text : List Char} {ls ls' : List (List Char)} (h : RawLines text ls) (h' : RawLines text ls') :
    ls = ls' := by
  induction h generalizing ls' with
  | nil =>
    generalize ht : ([] : List Char) = t at h'
    cases h' with
    | nil => rfl
    | last _ hne _ => exact absurd ht.symm hne
    | cons l rest => simp at ht
  | last l hne hnl =>
    generalize ht : l = t at h'
    cases h' with
    | nil => exact absurd ht hne
    | last => first | rfl | rw [ht]
    | cons l2 rest => subst ht; simp at hnl
  | cons l rest ls hnl _ ih =>
    generalize ht : l ++ '\n' :: rest = t at h'
    cases h' with
    | nil => simp at ht
    | last l2 _ hnl2 => subst ht; simp at hnl2
    | cons l2 rest2 ls2 hnl2 hr2 =>
      have key : l = l2 ∧ rest = rest2 := by
        clear ih hr2
        induction l generalizing l2 with
        | nil =>
          cases l2 with
          | nil => simpa using ht
          | cons a l2 => simp only [List.nil_append, List.cons_append, List.cons.injEq] at ht; simp [← ht.1] at hnl2
        | cons a l ihl =>
          cases l2 with
          | nil => simp only [List.nil_append, List.cons_append, List.cons.injEq] at ht; simp [ht.1] at hnl
          | cons b l2 =>
            simp only [List.cons_append, List.cons.injEq] at ht
            have := ihl (fun h => hnl (List.mem_cons_of_mem _ h)) l2 (fun h => hnl2 (List.mem_cons_of_mem _ h)) ht.2
            exact ⟨by rw [ht.1, this.1], this.2⟩
      obtain ⟨rfl, rfl⟩ := key
      rw [ih hr2]

theorem scanLinesAux_last (l cur : List Char) (h : '\n' ∉ l) : scanLinesAux l cur = scanLinesAux [] (cur ++ l) := by
  induction l generalizing cur with
  | nil => simp
  | cons a l ih =>
    simp only [List.mem_cons, not_or] at h
    have e : scanLinesAux (a :: l) cur = scanLinesAux l (cur ++ [a]) := by
      conv_lhs => rw [scanLinesAux]
      rw [if_neg (Ne.symm h.1)]
    rw [e, ih _ h.2]; simp

/-- What the scanner delivers, in terms of the lines of the text. -/
theorem scanLines_raw {text : List Char} {ls : List (List Char)} (h : RawLines text ls) :
    ((∀ l ∈ ls, utf8Len l < 65536) → scanLinesAux text [] = ⟨ls.map stripCR, none⟩) ∧
    ((∃ l ∈ ls, 65536 ≤ utf8Len l) → (scanLinesAux text []).err = some .tokenTooLong) := by
  induction h with
  | nil => simp [scanLinesAux]
  | last l hl hn =>
    rw [scanLinesAux_last l [] hn]
    constructor
    · intro h
      have := h l (by simp)
      simp [scanLinesAux, hl, maxTok, this, stripCR_eq]
    · rintro ⟨l', hl', h⟩
      simp at hl'; subst hl'
      simp only [scanLinesAux, List.nil_append, hl, if_false]
      rw [if_neg (by unfold maxTok; omega)]
  | cons l rest ls hn hr ih =>
    by_cases hs : utf8Len l < 65536
    · rw [scanLinesAux_line l [] rest hn (by simpa [maxTok] using hs)]
      constructor
      · intro h
        rw [ih.1 (fun l hl => h l (by simp [hl]))]
        simp [stripCR_eq]
      · rintro ⟨l', hl', h⟩
        rcases List.mem_cons.1 hl' with rfl | hl'
        · omega
        · exact ih.2 ⟨l', hl', h⟩
    · rw [scanLinesAux_long l [] rest hn (by simpa [maxTok] using hs)]
      constructor
      · intro h; exact absurd (h l (by simp)) hs
      · intro _; rfl

/-- `e` is the embedding written on `line`: its fields are the word and at least one number. -/
def IsLineEmb (other : Word → Option F64) (line : List Char) (e : Embedding F64) : Prop :=
  ∃ toks, toks ≠ [] ∧ IsWords line (e.word :: toks) ∧
    List.Forall₂ (fun t x => parseFloat other t = some x) toks e.vector ∧
    e.dim = e.vector.length ∧
    e.norm = F64.sqrt (e.vector.foldl (fun n v => F64.add n (F64.mul v v)) (F64.round 0))

theorem parseVec_ok (other : Word → Option F64) (ts : List Word) (xs : List F64) :
    parseVec other ts = .ok xs ↔ List.Forall₂ (fun t x => parseFloat other t = some x) ts xs := by
  induction ts generalizing xs with
  | nil => simp [parseVec, eq_comm]
  | cons t ts ih =>
    rw [parseVec]
    cases h : parseFloat other t with
    | none =>
      simp only [reduceCtorEq, false_iff]
      intro h'
      cases h' with
      | cons h1 _ => rw [h] at h1; cases h1
    | some x =>
      dsimp only
      rw [Res.bind_eq_ok]
      constructor
      · rintro ⟨ys, h1, h2⟩
        obtain rfl := Res.ok.inj h2
        exact .cons h ((ih ys).1 h1)
      · intro h'
        cases h' with
        | cons h1 h2 =>
          rw [h] at h1
          obtain rfl := Option.some.inj h1
          exact ⟨_, (ih _).2 h2, rfl⟩

theorem parseVec_total (other : Word → Option F64) (ts : List Word) :
    (∃ xs, parseVec other ts = .ok xs) ∨ parseVec other ts = .err .parseFloat := by
  induction ts with
  | nil => exact .inl ⟨[], rfl⟩
  | cons t ts ih =>
    rw [parseVec]
    cases h : parseFloat other t with
    | none => exact .inr rfl
    | some x =>
      rcases ih with ⟨xs, hx⟩ | hx <;> rw [hx]
      · exact .inl ⟨_, rfl⟩
      · exact .inr rfl

/-- Lines that do not start with a space. -/
def kept (lines : List (List Char)) : List (List Char) := lines.filter (fun l => l.head? ≠ some ' ')

theorem loadLine_ok (other : Word → Option F64) (line : List Char) (embs out : List (Embedding F64)) :
    loadLine other line embs = .ok out ↔
      (line.head? = some ' ' ∧ out = embs) ∨
      (line.head? ≠ some ' ' ∧ ∃ e, IsLineEmb other line e ∧ out = embs ++ [e]) := by
  unfold loadLine
  by_cases h : line.head? = some ' '
  · simp [h, eq_comm]
  · simp only [h, if_false, false_and, false_or, not_false_eq_true, true_and, ne_eq]
    have hw : IsWords line (fields line) := isWords_fields line
    unfold parseLine
    match hf : fields line with
    | [] =>
      simp only [Res.err_bind, reduceCtorEq, false_iff, not_exists, not_and]
      rintro e ⟨toks, h1, h2, -⟩
      have := h2.eq_fields
      rw [hf] at this; cases this
    | [w] =>
      simp only [Res.err_bind, reduceCtorEq, false_iff, not_exists, not_and]
      rintro e ⟨toks, h1, h2, -⟩
      have := h2.eq_fields
      rw [hf] at this; cases this; exact absurd rfl h1
    | w :: v :: vs =>
      dsimp only
      have hw0 : w ≠ [] := fields_ne_nil line w (by rw [hf]; simp)
      constructor
      · intro hh
        rw [Res.bind_eq_ok] at hh
        obtain ⟨e, he, hh⟩ := hh
        rw [Res.bind_eq_ok] at he
        obtain ⟨vec, hv, he⟩ := he
        obtain rfl := Res.ok.inj he
        rw [Res.bind_eq_ok] at hh
        obtain ⟨_, -, hh⟩ := hh
        obtain rfl := Res.ok.inj hh
        have hp := (parseVec_ok other _ _).1 hv
        refine ⟨_, ⟨v :: vs, by simp, by rw [← hf]; exact hw, hp, ?_, rfl⟩, rfl⟩
        have := hp.length_eq
        dsimp only
        rw [this]
      · rintro ⟨e, ⟨toks, h1, h2, h3, h4, h5⟩, rfl⟩
        have := h2.eq_fields
        rw [hf] at this
        simp only [List.cons.injEq] at this
        obtain ⟨rfl, rfl⟩ := this
        rw [(parseVec_ok other _ _).2 h3]
        have hl := h3.length_eq
        have he : ({ word := e.word, dim := ((v :: vs).length : Int), vector := e.vector, norm := norm e.vector } : Embedding F64) = e := by
          cases e
          simp only at h4 h5 hl ⊢
          congr 1
          · rw [h4, hl]
          · exact h5.symm
        simp only [Res.ok_bind]
        rw [he]
        have : e.validate = .ok () := by
          unfold Embedding.validate
          have hl0 : e.vector.length ≠ 0 := by rw [← hl]; simp
          rw [if_neg hw0, if_neg (by rw [h4]; omega), if_neg (by simpa using h4)]
        rw [this]; rfl

theorem loadLine_total (other : Word → Option F64) (line : List Char) (embs : List (Embedding F64)) :
    (∃ out, loadLine other line embs = .ok out) ∨ ∃ e, loadLine other line embs = .err e := by
  unfold loadLine
  split
  · exact .inl ⟨_, rfl⟩
  · unfold parseLine
    split
    · next w v vs _ =>
      rcases parseVec_total other (v :: vs) with ⟨xs, hx⟩ | hx <;> rw [hx]
      · simp only [Res.ok_bind]
        unfold Embedding.validate
        split
        · exact .inr ⟨_, rfl⟩
        · split
          · exact .inr ⟨_, rfl⟩
          · split
            · exact .inr ⟨_, rfl⟩
            · exact .inl ⟨_, rfl⟩
      · exact .inr ⟨_, rfl⟩
    · exact .inr ⟨_, rfl⟩

theorem forEach_total {α σ : Type} (l : List α) (s : σ) (f : α → σ → Res σ)
    (h : ∀ a s, (∃ t, f a s = .ok t) ∨ ∃ e, f a s = .err e) :
    (∃ t, forEach l s f = .ok t) ∨ ∃ e, forEach l s f = .err e := by
  induction l generalizing s with
  | nil => exact .inl ⟨s, rfl⟩
  | cons a l ih =>
    rw [forEach_cons]
    rcases h a s with ⟨t, ht⟩ | ⟨e, he⟩
    · rw [ht]; exact ih t
    · rw [he]; exact .inr ⟨e, rfl⟩

theorem load_total (other : Word → Option F64) (p : Pass) :
    (∃ embs, load other p = .ok embs) ∨ ∃ e, load other p = .err e := by
  unfold load
  dsimp only
  rcases forEach_total (scanLines p).toks [] (loadLine other) (loadLine_total other) with ⟨t, ht⟩ | ⟨e, he⟩
  · rw [ht]; simp only [Res.ok_bind]
    cases (scanLines p).err with
    | none => exact .inl ⟨_, rfl⟩
    | some e => exact .inr ⟨_, rfl⟩
  · rw [he]; exact .inr ⟨_, rfl⟩

theorem forEach_loadLine_ok (other : Word → Option F64) (lines : List (List Char)) (acc out : List (Embedding F64)) :
    forEach lines acc (loadLine other) = .ok out ↔
      ∃ embs, List.Forall₂ (IsLineEmb other) (kept lines) embs ∧ out = acc ++ embs := by
  induction lines generalizing acc with
  | nil => simp [kept, eq_comm]
  | cons l lines ih =>
    rw [forEach_cons, Res.bind_eq_ok]
    by_cases hl : l.head? = some ' '
    · have hk : kept (l :: lines) = kept lines := by simp [kept, hl]
      rw [hk]
      simp only [loadLine_ok, hl, true_and, ne_eq, not_true_eq_false, false_and, or_false, exists_eq_left]
      exact ih acc
    · have hk : kept (l :: lines) = l :: kept lines := by simp [kept, hl]
      rw [hk]
      simp only [loadLine_ok, hl, false_and, false_or, ne_eq, not_false_eq_true, true_and]
      constructor
      · rintro ⟨s, ⟨e, he, rfl⟩, h2⟩
        obtain ⟨embs, h3, h4⟩ := (ih _).1 h2
        exact ⟨e :: embs, .cons he h3, by simpa using h4⟩
      · rintro ⟨embs, h1, h2⟩
        cases h1 with
        | cons he h3 => exact ⟨_, ⟨_, he, rfl⟩, (ih _).2 ⟨_, h3, by simpa using h2⟩⟩

/-- **C52.** `Load` succeeds with `embs` exactly when the reader does not fail, every line is shorter than 64 KiB, and
`embs` are the embeddings written on the lines that do not start with a space, in order. -/
theorem C52_load_iff (other : Word → Option F64) (p : Pass) (embs : List (Embedding F64)) :
    load other p = .ok embs ↔
      p.fails = false ∧ ∃ lines, RawLines p.text lines ∧ (∀ l ∈ lines, utf8Len l < 65536) ∧
        List.Forall₂ (IsLineEmb other) ((lines.map stripCR).filter (fun l => l.head? ≠ some ' ')) embs := by
  obtain ⟨ls, hls⟩ := rawLines_exists p.text
  obtain ⟨h1, h2⟩ := scanLines_raw hls
  have hshort : ∀ ls', RawLines p.text ls' → (∀ l ∈ ls', utf8Len l < 65536) →
      (∀ l ∈ ls, utf8Len l < 65536) ∧ ls.map stripCR = ls'.map stripCR := by
    intro ls' hr hs
    have e := (scanLines_raw hr).1 hs
    have hs' : ∀ l ∈ ls, utf8Len l < 65536 := by
      by_contra hc
      push Not at hc
      have := h2 hc
      rw [e] at this; cases this
    have e2 := h1 hs'
    rw [e] at e2
    exact ⟨hs', (congrArg ScanOut.toks e2).symm⟩
  constructor
  · intro h
    unfold load at h
    dsimp only at h
    rw [Res.bind_eq_ok] at h
    obtain ⟨out, ho, h⟩ := h
    have herr : (scanLines p).err = none := by
      cases e : (scanLines p).err with
      | none => rfl
      | some x => rw [e] at h; cases h
    rw [herr] at h
    obtain rfl := Res.ok.inj h
    have hs : ∀ l ∈ ls, utf8Len l < 65536 := by
      by_contra hc
      push Not at hc
      have := h2 hc
      simp [scanLines, this] at herr
    have e := h1 hs
    have hf : p.fails = false := by
      simp only [scanLines, e] at herr
      cases hp : p.fails
      · rfl
      · rw [hp] at herr; simp at herr
    have et : (scanLines p).toks = ls.map stripCR := by simp [scanLines, e]
    rw [et] at ho
    obtain ⟨embs, h3, h4⟩ := (forEach_loadLine_ok other _ _ _).1 ho
    rw [List.nil_append] at h4
    subst h4
    exact ⟨hf, ls, hls, hs, h3⟩
  · rintro ⟨hf, ls', hr, hs, h3⟩
    obtain ⟨hs', e⟩ := hshort ls' hr hs
    have e' := h1 hs'
    have et : scanLines p = ⟨ls'.map stripCR, none⟩ := by simp [scanLines, e', hf, e]
    unfold load
    dsimp only
    rw [et]
    dsimp only
    rw [(forEach_loadLine_ok other _ _ _).2 ⟨embs, h3, rfl⟩]
    simp

/-- `C52_load_iff` on the two-word file of `slText`: it loads, so its lines are as described. -/
example : ∃ embs, load (fun _ => none) ⟨slText, false⟩ = .ok embs ∧ ∃ lines, RawLines slText lines ∧
    List.Forall₂ (IsLineEmb (fun _ => none)) ((lines.map stripCR).filter (fun l => l.head? ≠ some ' ')) embs := by
  have h : load (fun _ => none) ⟨slText, false⟩ = .ok
      (match load (fun _ => none) ⟨slText, false⟩ with | .ok e => e | _ => []) := by decide +kernel
  obtain ⟨-, lines, h1, -, h2⟩ := (C52_load_iff _ _ _).1 h
  exact ⟨_, h, lines, h1, h2⟩

/-- **C52.** Everything `Load` returns has a non-empty word and a vector of `Dim >= 1` elements, so passes
`Validate`. -/
theorem C52_loaded_valid (other : Word → Option F64) (p : Pass) (embs : List (Embedding F64))
    (h : load other p = .ok embs) : ∀ e ∈ embs, e.word ≠ [] ∧ e.dim = e.vector.length ∧ 1 ≤ e.dim := by
  obtain ⟨-, lines, -, -, h3⟩ := (C52_load_iff other p embs).1 h
  intro e he
  obtain ⟨l, -, hl⟩ := forall₂_mem_right h3 he
  obtain ⟨toks, h1, h2, h3, h4, -⟩ := hl
  refine ⟨?_, h4, ?_⟩
  · have := h2.eq_fields
    exact fields_ne_nil l _ (by rw [← this]; simp)
  · rw [h4]
    have := h3.length_eq
    have : toks.length ≠ 0 := by simpa using h1
    omega

/-- `C52_loaded_valid` on the file of `slText`. -/
example := C52_loaded_valid (fun _ => none) ⟨slText, false⟩
  (match load (fun _ => none) ⟨slText, false⟩ with | .ok e => e | _ => []) (by decide +kernel)

/-- **C52.** A line that does not start with a space makes `Load` fail (with an error, never a panic) if it has fewer
than two fields or a field, after the first, that is not a number. -/
theorem C52_bad_line (other : Word → Option F64) (p : Pass) (lines : List (List Char)) (hr : RawLines p.text lines)
    (l : List Char) (hl : l ∈ lines) (hsp : (stripCR l).head? ≠ some ' ') (ws : List Word)
    (hws : IsWords (stripCR l) ws) (hbad : ws.length < 2 ∨ ∃ t ∈ ws.tail, parseFloat other t = none) :
    ∃ e, load other p = .err e := by
  rcases load_total other p with ⟨embs, h⟩ | h
  · exfalso
    obtain ⟨-, ls, hls, hs, h3⟩ := (C52_load_iff other p embs).1 h
    have hs2 : ls.map stripCR = lines.map stripCR := by
      have e1 := (scanLines_raw hls).1 hs
      by_cases hc : ∀ l ∈ lines, utf8Len l < 65536
      · have e2 := (scanLines_raw hr).1 hc
        rw [e1] at e2; exact congrArg ScanOut.toks e2
      · push Not at hc
        have e2 := (scanLines_raw hr).2 hc
        rw [e1] at e2; cases e2
    rw [hs2] at h3
    have hm : stripCR l ∈ (lines.map stripCR).filter (fun l => l.head? ≠ some ' ') := by
      rw [List.mem_filter]
      exact ⟨List.mem_map.2 ⟨l, hl, rfl⟩, by simpa using hsp⟩
    obtain ⟨_, -, hz⟩ := forall₂_mem_left h3 hm
    obtain ⟨toks, h1, h2, h4, -⟩ := hz
    have e3 := hws.eq_fields
    rw [← h2.eq_fields] at e3
    subst e3
    rcases hbad with hb | ⟨t, ht, hb⟩
    · have : toks.length ≠ 0 := by simpa using h1
      simp only [List.length_cons] at hb; omega
    · simp only [List.tail_cons] at ht
      obtain ⟨_, -, hz⟩ := forall₂_mem_left h4 ht
      rw [hb] at hz
      cases hz
  · exact h

/-- `C52_bad_line`: the second line `b` has no number. -/
example : ∃ e, load (fun _ => none) ⟨"a 1\nb".toList, false⟩ = .err e :=
  C52_bad_line (fun _ => none) _ ["a 1".toList, "b".toList]
    (.cons "a 1".toList _ _ (by decide) (.last ['b'] (by decide) (by decide))) ['b'] (by decide) (by decide) [['b']]
    (isWords_fields _) (.inl (by decide))

/-- A text that `Load` accepts and one it does not. -/
example : ∃ embs, load (fun _ => none) ⟨"a 1.5 -2\n skipped\nb 0 +3".toList, false⟩ = .ok embs ∧
    embs.map (·.word) = [['a'], ['b']] ∧ embs.map (·.dim) = [2, 2] := by
  refine ⟨(match load (fun _ => none) ⟨"a 1.5 -2\n skipped\nb 0 +3".toList, false⟩ with | .ok e => e | _ => []), ?_⟩
  decide +kernel
example : load (fun _ => none) ⟨"a 1.5 -2\n\nb 0 +3".toList, false⟩ = .err .tooFewFields := by decide +kernel

/-! ## C49 -/

theorem rawLines_fileText (ws : List Word) (rows : List (List F64))
    (h : ∀ w ∈ ws, w ≠ [] ∧ ∀ c ∈ w, isSpace c = false) :
    RawLines (fileText ws rows) (List.zipWith lineText ws rows) := by
  induction ws generalizing rows with
  | nil => simpa [fileText] using RawLines.nil
  | cons w ws ih =>
    cases rows with
    | nil => simpa [fileText] using RawLines.nil
    | cons row rows =>
      rw [fileText_cons]
      exact .cons _ _ _ (nl_lineText w row (h w (by simp)).2) (ih rows (fun w hw => h w (by simp [hw])))

/-- **C49.** For words that are non-empty and free of white space and a matrix with at least one column, if every line
of the saved file is shorter than 64 KiB, loading the file gives the words in order, the dimension, and values
as described by `ReadsBack`. -/
theorem C49_round_trip (other : Word → Option F64) (calls : List (List Word)) (dic : Dictionary)
    (hd : addCalls calls = .ok dic) (hw : ∀ w ∈ calls.flatten, w ≠ [] ∧ ∀ c ∈ w, isSpace c = false)
    (mat : Matrix F64) (c : Nat) (hc : 1 ≤ c) (hm : mat.Shaped calls.flatten.dedup.length c) (text : List Char)
    (ht : saveText dic mat false 0 = .ok text)
    (hl : ∀ lines, RawLines text lines → ∀ l ∈ lines, utf8Len l < 65536) :
    ∃ embs, load other ⟨text, false⟩ = .ok embs ∧
      embs.map (·.word) = firstOcc calls.flatten ∧
      (∀ e ∈ embs, e.dim = c) ∧
      List.Forall₂ (List.Forall₂ ReadsBack) ((List.range calls.flatten.dedup.length).map mat.rowOf)
        (embs.map (·.vector)) := by
  obtain ⟨d, hd', hr⟩ := addCalls_rep calls
  rw [hd] at hd'; obtain rfl := Res.ok.inj hd'
  have hlen2 : calls.flatten.dedup.length = (firstOcc calls.flatten).length := by
    rw [← hr.len_eq]; exact hr.maxid
  rw [hlen2] at hm ⊢
  rw [saveText_eq hr hm false 0 (by simp)] at ht
  obtain rfl := Res.ok.inj ht
  set ws := firstOcc calls.flatten with hws
  set rows := rowsOf mat ws.length with hrows
  have hw' : ∀ w ∈ ws, w ≠ [] ∧ ∀ c ∈ w, isSpace c = false := fun w h => hw w ((mem_firstOcc _ _).1 h)
  have hrow : ∀ row ∈ rows, row.length = c := by
    intro row h
    simp only [hrows, rowsOf, List.mem_map, List.mem_range] at h
    obtain ⟨i, hi, rfl⟩ := h
    exact hm.length_rowOf hi
  have hl' := hl _ (rawLines_fileText ws rows hw')
  have hlen : ∀ p ∈ List.zip ws rows, utf8Len (lineText p.1 p.2) < maxTok := by
    intro p hp
    apply hl'
    rw [← List.map_uncurry_zip_eq_zipWith]
    exact List.mem_map.2 ⟨p, hp, rfl⟩
  have hwl : ws.length = rows.length := by simp [hrows, rowsOf]
  refine ⟨_, load_fileText other ws rows hw' (fun row h he => by have := hrow row h; rw [he] at this; simp at this; omega) hlen, ?_, ?_, ?_⟩
  · rw [List.map_zipWith]
    simp only [embOf]
    exact List.ext_getElem (by simp [hwl]) (by intro i h1 h2; simp)
  · intro e he
    rw [← List.map_uncurry_zip_eq_zipWith] at he
    obtain ⟨p, hp, rfl⟩ := List.mem_map.1 he
    have := hrow p.2 (List.of_mem_zip hp).2
    simp [Function.uncurry, embOf, this]
  · rw [List.map_zipWith]
    have e : List.zipWith (fun a b => (embOf a b).vector) ws rows = rows.map (fun row => row.map readBack) := by
      apply List.ext_getElem
      · simp [hwl]
      · intro i h1 h2; simp [embOf]
    rw [e]
    change List.Forall₂ _ rows _
    rw [List.forall₂_map_right_iff]
    refine List.forall₂_same.2 (fun row _ => ?_)
    rw [List.forall₂_map_right_iff]
    exact List.forall₂_same.2 (fun x _ => readBack_spec x)

/-- `C49_round_trip` on `slCalls` and `slMat`. -/
example := C49_round_trip (fun _ => none) slCalls slDic sl_dic sl_words slMat 2 (by decide) sl_shaped slText sl_text
  (fun lines h => by
    have e : lines = ["a 0.007812 -0.000000 ".toList, "bc -Inf -5.000000 ".toList] := rawLines_unique h sl_lines
    subst e; decide)

/-- **C49.** The error bound: a finite value read back differs from the saved one by at most `10^-6`. -/
theorem C49_error (x y : F64) (h : ReadsBack x y) (hx : ∃ s n k, x = .fin s n k) :
    |F64.toRat y - F64.toRat x| ≤ 1 / 10 ^ 6 := by
  obtain ⟨s, n, k, rfl⟩ := hx
  obtain ⟨m, k', N, rfl, ⟨h1, -⟩, h2⟩ := h
  have h3 := h2 n k
  rw [abs_sub_comm] at h1
  have h4 : |(|F64.toRat (.fin s m k')| - |F64.toRat (.fin s n k)|)| ≤ 1 / 10 ^ 6 := by
    have := abs_sub_le |F64.toRat (.fin s m k')| ((N : ℚ) / 10 ^ 6) |F64.toRat (.fin s n k)|
    rw [abs_sub_comm ((N : ℚ) / 10 ^ 6)] at this
    have e : (1 : ℚ) / 2 / 10 ^ 6 + 1 / 2 / 10 ^ 6 = 1 / 10 ^ 6 := by norm_num
    linarith
  rw [toRat_abs, toRat_abs] at h4
  cases s
  · simpa [F64.toRat] using h4
  · rw [abs_sub_comm]
    simp only [F64.toRat, if_true]
    rw [show (-1 : ℚ) * ((n : ℚ) / one1) - -1 * ((m : ℚ) / one1) = (m : ℚ) / one1 - n / one1 by ring]
    exact h4


/-- `C49_error`, through `C49_round_trip`: in every reload of `slText` the stored 0.007812 is within 10⁻⁶ of 1/128. -/
example (y : F64) (h : ReadsBack (F64.round (1 / 128)) y) : |F64.toRat y - F64.toRat (F64.round (1 / 128))| ≤ 1 / 10 ^ 6 :=
  C49_error _ _ h (by
    have hf : (match F64.round (1 / 128) with | .fin _ _ _ => true | _ => false) = true := by decide +kernel
    revert hf; generalize F64.round (1 / 128) = x; intro hf; cases x with
    | fin s n k => exact ⟨s, n, k, rfl⟩
    | nan => simp at hf
    | inf => simp at hf)

/-- **C49.** With no columns and at least one word, or with some line of 64 KiB or more, loading the saved file
fails. -/
theorem C49_otherwise_fails (other : Word → Option F64) (calls : List (List Word)) (dic : Dictionary)
    (hd : addCalls calls = .ok dic) (hw : ∀ w ∈ calls.flatten, w ≠ [] ∧ ∀ c ∈ w, isSpace c = false)
    (mat : Matrix F64) (c : Nat) (hm : mat.Shaped calls.flatten.dedup.length c) (text : List Char)
    (ht : saveText dic mat false 0 = .ok text)
    (hbad : (c = 0 ∧ calls.flatten ≠ []) ∨ (∃ lines, RawLines text lines ∧ ∃ l ∈ lines, 65536 ≤ utf8Len l)) :
    ∃ e, load other ⟨text, false⟩ = .err e := by
  rcases hbad with ⟨rfl, hne⟩ | ⟨lines, hl, l, hl1, hl2⟩
  · obtain ⟨d, hd', hr⟩ := addCalls_rep calls
    rw [hd] at hd'; obtain rfl := Res.ok.inj hd'
    have hlen2 : calls.flatten.dedup.length = (firstOcc calls.flatten).length := by
      rw [← hr.len_eq]; exact hr.maxid
    rw [hlen2] at hm
    rw [saveText_eq hr hm false 0 (by simp)] at ht
    obtain rfl := Res.ok.inj ht
    have hw' : ∀ w ∈ firstOcc calls.flatten, w ≠ [] ∧ ∀ c ∈ w, isSpace c = false :=
      fun w h => hw w ((mem_firstOcc _ _).1 h)
    have hraw := rawLines_fileText _ (rowsOf mat (firstOcc calls.flatten).length) hw'
    cases hc : firstOcc calls.flatten with
    | nil =>
      obtain ⟨w, hw⟩ := List.exists_mem_of_ne_nil _ hne
      have := (mem_firstOcc calls.flatten w).2 hw
      rw [hc] at this; simp at this
    | cons w ws =>
      have hw0 := hw' w (by rw [hc]; simp)
      rw [hc] at hraw hm
      have hrow : rowsOf mat (w :: ws).length = [] :: (rowsOf mat (w :: ws).length).tail := by
        have h0 : mat.rowOf 0 = [] := List.eq_nil_of_length_eq_zero (hm.length_rowOf (by simp))
        simp [rowsOf, List.range_succ_eq_map, h0]
      rw [hrow] at hraw ⊢
      refine C52_bad_line other _ _ hraw (lineText w []) (by simp) ?_ [w] ?_ (.inl (by simp))
      · rw [stripCR_eq, dropCR_lineText]
        exact head_lineText w [] hw0.1 hw0.2
      · rw [stripCR_eq, dropCR_lineText]
        have := isWords_fields (lineText w [])
        rwa [fields_lineText w [] hw0.1 hw0.2] at this
  · rcases load_total other ⟨text, false⟩ with ⟨embs, h⟩ | h
    · exfalso
      obtain ⟨-, ls, hls, hs, -⟩ := (C52_load_iff other _ embs).1 h
      have e1 := (scanLines_raw hls).1 hs
      have e2 := (scanLines_raw hl).2 ⟨l, hl1, hl2⟩
      rw [e1] at e2; cases e2
    · exact h

/-- `C49_otherwise_fails`: a table with no columns gives a file that cannot be loaded. -/
example : ∃ e, load (fun _ => none) ⟨"a \nbc \n".toList, false⟩ = .err e :=
  C49_otherwise_fails (fun _ => none) slCalls slDic sl_dic sl_words ⟨[], 2, 0⟩ 0 ⟨rfl, rfl, rfl⟩ _ (by decide +kernel)
    (.inl ⟨rfl, by decide⟩)

/-- The hypotheses of the round trip are met by a two-word file with a negative zero, an infinity and a tie. -/
example : ∃ dic text, addCalls [[['a'], ['b', 'c'], ['a']]] = .ok dic ∧
    saveText dic ⟨[F64.round (1 / 128), F64.zero true, .inf true, F64.round (-5)], 2, 2⟩ false 0 = .ok text ∧
    text = "a 0.007812 -0.000000 \nbc -Inf -5.000000 \n".toList := by
  refine ⟨_, "a 0.007812 -0.000000 \nbc -Inf -5.000000 \n".toList, rfl, ?_, rfl⟩
  decide +kernel

/-! ## C50 -/

/-- **C50.** Save, load, and save the loaded words and vectors again: the same text. -/
theorem C50_idempotent (other : Word → Option F64) (calls : List (List Word)) (dic : Dictionary)
    (hd : addCalls calls = .ok dic) (hw : ∀ w ∈ calls.flatten, w ≠ [] ∧ ∀ c ∈ w, isSpace c = false)
    (mat : Matrix F64) (c : Nat) (hm : mat.Shaped calls.flatten.dedup.length c) (text : List Char)
    (ht : saveText dic mat false 0 = .ok text) (embs : List (Embedding F64))
    (hload : load other ⟨text, false⟩ = .ok embs)
    (calls' : List (List Word)) (hc' : calls'.flatten = embs.map (·.word)) (dic' : Dictionary)
    (hd' : addCalls calls' = .ok dic') (mat' : Matrix F64)
    (hm' : mat'.Shaped embs.length c) (hrows : (List.range embs.length).map mat'.rowOf = embs.map (·.vector)) :
    saveText dic' mat' false 0 = .ok text := by
  have hwords := hload
  obtain ⟨d, hd2, hr⟩ := addCalls_rep calls
  rw [hd] at hd2; obtain rfl := Res.ok.inj hd2
  have hlen2 : calls.flatten.dedup.length = (firstOcc calls.flatten).length := by
    rw [← hr.len_eq]; exact hr.maxid
  have hcne : ¬ (c = 0 ∧ calls.flatten ≠ []) := by
    intro h
    obtain ⟨e, he⟩ := C49_otherwise_fails other calls dic hd hw mat c hm text ht (.inl h)
    rw [hload] at he; cases he
  rw [hlen2] at hm
  have ht' := ht
  rw [saveText_eq hr hm false 0 (by simp)] at ht'
  obtain rfl := Res.ok.inj ht'
  set ws := firstOcc calls.flatten with hws
  have hw' : ∀ w ∈ ws, w ≠ [] ∧ ∀ c ∈ w, isSpace c = false := fun w h => hw w ((mem_firstOcc _ _).1 h)
  have hrow : ∀ row ∈ rowsOf mat ws.length, row ≠ [] := by
    intro row h he
    simp only [rowsOf, List.mem_map, List.mem_range] at h
    obtain ⟨i, hi, rfl⟩ := h
    have := hm.length_rowOf hi
    rw [he] at this
    refine hcne ⟨this.symm, ?_⟩
    intro hnil
    rw [hws, hnil] at hi; simp [firstOcc] at hi
  have hlen : ∀ p ∈ List.zip ws (rowsOf mat ws.length), utf8Len (lineText p.1 p.2) < maxTok := by
    intro p hp
    by_contra hc
    obtain ⟨e, he⟩ := C49_otherwise_fails other calls dic hd hw mat c (by rw [hlen2]; exact hm) _ ht
      (.inr ⟨_, rawLines_fileText ws _ hw', lineText p.1 p.2, by
        rw [← List.map_uncurry_zip_eq_zipWith]; exact List.mem_map.2 ⟨p, hp, rfl⟩, by unfold maxTok at hc; omega⟩)
    rw [hload] at he; cases he
  rw [load_fileText other ws _ hw' hrow hlen] at hload
  obtain rfl := Res.ok.inj hload
  have hwl : ws.length = (rowsOf mat ws.length).length := by simp [rowsOf]
  have hel : (List.zipWith embOf ws (rowsOf mat ws.length)).length = ws.length := by simp [← hwl]
  have hmw : (List.zipWith embOf ws (rowsOf mat ws.length)).map (·.word) = ws := by
    rw [List.map_zipWith]
    exact List.ext_getElem (by simp [← hwl]) (by intro i h1 h2; simp [embOf])
  have hmv : (List.zipWith embOf ws (rowsOf mat ws.length)).map (·.vector) =
      (rowsOf mat ws.length).map (fun row => row.map readBack) := by
    rw [List.map_zipWith]
    exact List.ext_getElem (by simp [← hwl]) (by intro i h1 h2; simp [embOf])
  rw [hmw] at hc'
  rw [hmv, hel] at hrows
  rw [hel] at hm'
  obtain ⟨d, hd2, hr'⟩ := addCalls_rep calls'
  rw [hd'] at hd2; obtain rfl := Res.ok.inj hd2
  have hfo : firstOcc calls'.flatten = ws := by rw [hc', hws]; exact firstOcc_of_nodup (nodup_firstOcc _)
  rw [saveText_eq hr' (by rw [hfo]; exact hm') false 0 (by simp), hfo]
  congr 1
  have e : rowsOf mat' ws.length = (rowsOf mat ws.length).map (fun row => row.map readBack) := hrows
  rw [e]
  have hlt : ∀ w row, lineText w (row.map readBack) = lineText w row := by
    intro w row
    simp [lineText, valsText, List.flatMap_map, fmtF_readBack]
  simp [fileText, List.zipWith_map_right, hlt]

/-- What loading `slText` gives. -/
def slEmbs : List (Embedding F64) := match load (fun _ => none) ⟨slText, false⟩ with | .ok e => e | _ => []

theorem sl_embs : load (fun _ => none) ⟨slText, false⟩ = .ok slEmbs := by decide +kernel

/-- `C50_idempotent` on `slText`: loading it and saving what was loaded gives `slText` again. -/
example (dic' : Dictionary) (h : addCalls [[['a'], ['b', 'c']]] = .ok dic') :
    saveText dic' ⟨(slEmbs.map (·.vector)).flatten, 2, 2⟩ false 0 = .ok slText :=
  have hl : slEmbs.length = 2 := by decide +kernel
  C50_idempotent (fun _ => none) slCalls slDic sl_dic sl_words slMat 2 sl_shaped slText sl_text slEmbs sl_embs
    [[['a'], ['b', 'c']]] (by decide +kernel) dic' h _ (by rw [hl]; exact ⟨rfl, rfl, by decide +kernel⟩)
    (by decide +kernel)

/-! ## C71 -/

/-- **C71.** With `LogBatch` not 0, verbose output does not change what `Save` writes or returns. -/
theorem C71_verbose_same {σ : Type} (f : Sink σ) (direct : Bool) (dic : Dictionary) (mat : Matrix F64) (lb lb' : Int)
    (hlb : lb ≠ 0) (s : σ) : save f direct dic mat true lb s = save f direct dic mat false lb' s := by
  have : saveWord dic mat true lb = saveWord dic mat false lb' := by
    funext i buf
    simp [saveWord, hlb]
  simp only [save, saveText, this]

/-- `C71_verbose_same` on `slDic` and `slMat`, logging every second word. -/
example := C71_verbose_same (⟨fun (s : List UInt8) b => (s ++ b, b.length, false)⟩ : Sink (List UInt8)) false slDic slMat 2 0 (by decide) []

/-- **C71.** Verbose with `LogBatch` 0, `Save` of a non-empty dictionary panics (integer division by zero). -/
theorem C71_logbatch_zero {σ : Type} (f : Sink σ) (direct : Bool) (calls : List (List Word))
    (dic : Dictionary) (hd : addCalls calls = .ok dic) (hne : calls.flatten ≠ []) (mat : Matrix F64) (c : Nat)
    (hm : mat.Shaped calls.flatten.dedup.length c) (s : σ) :
    save f direct dic mat true 0 s = .panic .divByZero := by
  obtain ⟨d, hd', hr⟩ := addCalls_rep calls
  rw [hd] at hd'; obtain rfl := Res.ok.inj hd'
  have hlen2 : calls.flatten.dedup.length = (firstOcc calls.flatten).length := by
    rw [← hr.len_eq]; exact hr.maxid
  rw [hlen2] at hm
  have hlen3 : dic.len = (firstOcc calls.flatten).length := hr.maxid
  have hpos : 0 < (firstOcc calls.flatten).length := by
    obtain ⟨w, hw⟩ := List.exists_mem_of_ne_nil _ hne
    exact List.length_pos_of_mem ((mem_firstOcc calls.flatten w).2 hw)
  unfold save saveText
  rw [if_neg (by rw [hlen3, hm.row]; simp), hlen3]
  obtain ⟨n, hn⟩ : ∃ n, (firstOcc calls.flatten).length = n + 1 := ⟨_, (Nat.succ_pred_eq_of_pos hpos).symm⟩
  have h0 : saveWord dic mat true 0 0 [] = .panic .divByZero := by
    unfold saveWord
    have h1 := hr.word_lt hpos
    have h2 := forN_vals mat hm hpos ([] ++ (some (firstOcc calls.flatten)[0]).getD [] ++ [' '])
    rw [h1, Res.ok_bind, h2, Res.ok_bind, if_pos ⟨rfl, rfl⟩]
  rw [hn]
  unfold forN
  rw [forFrom_succ, h0]
  rfl

/-- `C71_logbatch_zero` on `slDic` and `slMat`. -/
example := C71_logbatch_zero (⟨fun (s : List UInt8) b => (s ++ b, b.length, false)⟩ : Sink (List UInt8)) false slCalls slDic sl_dic
  (by decide) slMat 2 sl_shaped []

/-! ## C51 -/

/-- **C51 is false of the code.** Whatever the writer does (in particular if every write fails), `Save` returns nil as
soon as the lengths match (and it is not verbose with `LogBatch` 0). -/
theorem C51_refuted_errors_ignored {σ : Type} (f : Sink σ) (direct : Bool) (calls : List (List Word))
    (dic : Dictionary) (hd : addCalls calls = .ok dic) (mat : Matrix F64) (c : Nat)
    (hm : mat.Shaped calls.flatten.dedup.length c) (s : σ) :
    ∃ r, save f direct dic mat false 0 s = .ok r := by
  obtain ⟨d, hd', hr⟩ := addCalls_rep calls
  rw [hd] at hd'; obtain rfl := Res.ok.inj hd'
  have hlen2 : calls.flatten.dedup.length = (firstOcc calls.flatten).length := by
    rw [← hr.len_eq]; exact hr.maxid
  rw [hlen2] at hm
  unfold save
  rw [saveText_eq hr hm false 0 (by simp)]
  exact ⟨_, rfl⟩

/-- `C51_refuted_errors_ignored` with a writer that takes nothing and always fails. -/
example := C51_refuted_errors_ignored (⟨fun (s : Unit) _ => (s, 0, true)⟩ : Sink Unit) false slCalls slDic sl_dic slMat 2 sl_shaped ()

/-- A writer that takes nothing and always fails: the call returns nil although nothing was written. -/
theorem C51_refuted_example : ∃ (f : Sink Unit) (dic : Dictionary) (mat : Matrix F64),
    (∀ s b, f.write s b = (s, 0, true)) ∧ addCalls [[['a']]] = .ok dic ∧
    save f false dic mat false 0 () = .ok ((), []) ∧
    saveText dic mat false 0 = .ok "a 0.000000 \n".toList := by
  refine ⟨⟨fun s _ => (s, 0, true)⟩, _, ⟨[F64.zero false], 1, 1⟩, fun _ _ => rfl, rfl, ?_⟩
  decide +kernel

/-- **C51, what holds.** Whatever the writer does, the bytes it took are a prefix of the file. -/
theorem C51_prefix_partial {σ : Type} (f : Sink σ) (direct : Bool) (dic : Dictionary) (mat : Matrix F64) (v : Bool)
    (lb : Int) (s s' : σ) (b : List UInt8) (h : save f direct dic mat v lb s = .ok (s', b)) :
    ∃ text, saveText dic mat v lb = .ok text ∧ b <+: utf8 text := by
  unfold save at h
  rw [Res.bind_eq_ok] at h
  obtain ⟨text, ht, h⟩ := h
  refine ⟨text, ht, ?_⟩
  dsimp only at h
  obtain ⟨-, rfl⟩ := Prod.mk.inj (Res.ok.inj h)
  have := sendChunks_prefix f (if direct = true ∧ 4096 < (utf8 text).length then [utf8 text]
    else bufChunks (utf8 text).length (utf8 text)) s
  rwa [flatten_chunks] at this

/-- `C51_prefix_partial`: a full disk after 3 bytes leaves `a 0`. -/
example := C51_prefix_partial (⟨fun (s : Unit) _ => (s, 3, true)⟩ : Sink Unit) false slDic slMat false 0 () () [97, 32, 48]
  (by decide +kernel)

/-- The writer `f` with a log of the `Write` calls it gets: the bytes, how many it took, whether it returned an error. -/
def logged {σ : Type} (f : Sink σ) : Sink (σ × List (List UInt8 × Nat × Bool)) where
  write s b := (((f.write s.1 b).1, s.2 ++ [(b, (f.write s.1 b).2)]), (f.write s.1 b).2)

theorem sendChunks_logged {σ : Type} (f : Sink σ) (cs : List (List UInt8)) (s : σ) (log : List (List UInt8 × Nat × Bool)) :
    ∃ new, (sendChunks (logged f) cs (s, log)).1 = ((sendChunks f cs s).1, log ++ new) ∧
      (sendChunks (logged f) cs (s, log)).2 = (sendChunks f cs s).2 ∧
      (sendChunks f cs s).2.1 = (new.map (fun e => e.1.take e.2.1)).flatten ∧
      (∀ e ∈ new.dropLast, e.2.2 = false ∧ e.1.length ≤ e.2.1) ∧
      ((sendChunks f cs s).2.2 = false → ∀ e ∈ new, e.2.2 = false ∧ e.1.length ≤ e.2.1) ∧
      (∀ e ∈ new, e.1 ∈ cs) := by
  induction cs generalizing s log with
  | nil => exact ⟨[], by simp [sendChunks], rfl, by simp [sendChunks], by simp, by simp, by simp⟩
  | cons c cs ih =>
    unfold sendChunks
    dsimp only
    have hw : (logged f).write (s, log) c = (((f.write s c).1, log ++ [(c, (f.write s c).2)]), (f.write s c).2) := rfl
    rw [hw]
    dsimp only
    by_cases h : (f.write s c).2.2 = true ∨ (f.write s c).2.1 < c.length
    · rw [if_pos h, if_pos h]
      exact ⟨[(c, (f.write s c).2)], rfl, rfl, by simp, by simp, by simp, by simp⟩
    · rw [if_neg h, if_neg h]
      obtain ⟨new, h1, h2, h3, h4, h5, h6⟩ := ih (f.write s c).1 (log ++ [(c, (f.write s c).2)])
      push Not at h
      have hc : ((c, (f.write s c).2) : List UInt8 × Nat × Bool).2.2 = false ∧
          ((c, (f.write s c).2) : List UInt8 × Nat × Bool).1.length ≤ ((c, (f.write s c).2) : List UInt8 × Nat × Bool).2.1 :=
        ⟨by simpa using h.1, h.2⟩
      refine ⟨(c, (f.write s c).2) :: new, ?_, ?_, ?_, ?_, ?_, ?_⟩
      · rw [h1]; simp
      · rw [h2]
      · dsimp only
        rw [h3, List.map_cons, List.flatten_cons, List.take_of_length_le h.2]
      · intro e he
        cases new with
        | nil => simp at he
        | cons a new =>
          rw [List.dropLast_cons_of_ne_nil (by simp)] at he
          rcases List.mem_cons.1 he with rfl | he
          · exact hc
          · exact h4 e he
      · intro h0 e he
        rcases List.mem_cons.1 he with rfl | he
        · exact hc
        · exact h5 h0 e he
      · intro e he
        rcases List.mem_cons.1 he with rfl | he
        · simp
        · simp [h6 e he]

theorem bufChunks_small (fuel : Nat) (b : List UInt8) (h : b.length ≤ fuel) : ∀ c ∈ bufChunks fuel b, c.length ≤ 4096 := by
  induction fuel generalizing b with
  | zero =>
    have : b = [] := List.length_eq_zero_iff.1 (by omega)
    subst this; simp [bufChunks]
  | succ k ih =>
    unfold bufChunks
    split
    · simp
    · split
      · next h2 => intro c hc; simp at hc; rw [hc]; exact h2
      · intro c hc
        rcases List.mem_cons.1 hc with rfl | hc
        · simp
        · exact ih _ (by simp; omega) c hc

/-- **C51, what holds (the calls).** In terms of the `Write` calls the writer gets: what it took of them, put together, is a prefix of the
file; every call but the last took all its bytes without an error - after the first failure `Save` writes nothing more; and unless
the writer is an `io.StringWriter` no call has more than 4096 bytes. -/
theorem C51_calls_partial {σ : Type} (f : Sink σ) (direct : Bool) (dic : Dictionary) (mat : Matrix F64) (v : Bool)
    (lb : Int) (s : σ) (text : List Char) (ht : saveText dic mat v lb = .ok text) :
    ∃ s' log b, save (logged f) direct dic mat v lb (s, []) = .ok ((s', log), b) ∧ save f direct dic mat v lb s = .ok (s', b) ∧
      b = (log.map (fun e => e.1.take e.2.1)).flatten ∧ b <+: utf8 text ∧
      (∀ e ∈ log.dropLast, e.2.2 = false ∧ e.1.length ≤ e.2.1) ∧
      (direct = false → ∀ e ∈ log, e.1.length ≤ 4096) ∧
      ((∀ e ∈ log, e.2.2 = false ∧ e.1.length ≤ e.2.1) → b = utf8 text) := by
  obtain ⟨new, h1, h2, h3, h4, h5, h6⟩ := sendChunks_logged f (if direct = true ∧ 4096 < (utf8 text).length then [utf8 text]
    else bufChunks (utf8 text).length (utf8 text)) s []
  rw [List.nil_append] at h1
  have e1 : save f direct dic mat v lb s = .ok ((sendChunks f (if direct = true ∧ 4096 < (utf8 text).length then [utf8 text]
      else bufChunks (utf8 text).length (utf8 text)) s).1, (sendChunks f (if direct = true ∧ 4096 < (utf8 text).length then [utf8 text]
      else bufChunks (utf8 text).length (utf8 text)) s).2.1) := by
    unfold save; rw [ht]; rfl
  have e2 : save (logged f) direct dic mat v lb (s, []) = .ok ((sendChunks (logged f) (if direct = true ∧ 4096 < (utf8 text).length then [utf8 text]
      else bufChunks (utf8 text).length (utf8 text)) (s, [])).1, (sendChunks (logged f) (if direct = true ∧ 4096 < (utf8 text).length then [utf8 text]
      else bufChunks (utf8 text).length (utf8 text)) (s, [])).2.1) := by
    unfold save; rw [ht]; rfl
  rw [h1, h2] at e2
  refine ⟨_, new, _, e2, e1, h3, ?_, h4, ?_, ?_⟩
  · obtain ⟨t, ht2, hp⟩ := C51_prefix_partial f direct dic mat v lb s _ _ e1
    rw [ht] at ht2; cases ht2
    exact hp
  · intro hdir e he
    have := h6 e he
    rw [if_neg (by simp [hdir])] at this
    exact bufChunks_small _ _ (le_refl _) _ this
  · intro hall
    have key : ∀ (cs : List (List UInt8)) (s : σ) (log : List (List UInt8 × Nat × Bool)) (new : List (List UInt8 × Nat × Bool)),
        (sendChunks (logged f) cs (s, log)).1.2 = log ++ new → (∀ e ∈ new, e.2.2 = false ∧ e.1.length ≤ e.2.1) →
        (sendChunks f cs s).2.1 = cs.flatten := by
      intro cs
      induction cs with
      | nil => intro s log new _ _; rfl
      | cons c cs ih =>
        intro s log new hn hall
        unfold sendChunks at hn ⊢
        dsimp only at hn ⊢
        have hw : (logged f).write (s, log) c = (((f.write s c).1, log ++ [(c, (f.write s c).2)]), (f.write s c).2) := rfl
        rw [hw] at hn
        dsimp only at hn
        by_cases h : (f.write s c).2.2 = true ∨ (f.write s c).2.1 < c.length
        · exfalso
          rw [if_pos h] at hn
          have hn' : new = [(c, (f.write s c).2)] := (List.append_cancel_left hn).symm
          have := hall (c, (f.write s c).2) (by rw [hn']; simp)
          dsimp only at this
          rcases h with h | h
          · rw [this.1] at h; cases h
          · omega
        · rw [if_neg h] at hn ⊢
          dsimp only at hn ⊢
          obtain ⟨new', g1, -⟩ := sendChunks_logged f cs (f.write s c).1 (log ++ [(c, (f.write s c).2)])
          rw [g1] at hn
          dsimp only at hn
          rw [List.append_assoc] at hn
          have hn' : new = [(c, (f.write s c).2)] ++ new' := (List.append_cancel_left hn).symm
          rw [ih _ _ new' (by rw [g1]) (fun e he => hall e (by rw [hn']; simp only [List.mem_append]; exact Or.inr he)), List.flatten_cons]
    have := key _ s [] new (by rw [h1]; rfl) hall
    rw [flatten_chunks] at this
    exact this

/-- `C51_calls_partial` with the same writer. -/
example := C51_calls_partial (⟨fun (s : Unit) _ => (s, 3, true)⟩ : Sink Unit) false slDic slMat false 0 () slText sl_text

/-- For a file of one line and a writer that fails after three bytes: one call, three bytes taken. -/
example : (save (logged ⟨fun (s : Unit) b => (s, min 3 b.length, true)⟩) false (match addCalls [[['a']]] with | .ok d => d | _ => Dictionary.new)
    ⟨[F64.zero false], 1, 1⟩ false 0 ((), []) >>= fun r => .ok (r.1.2.length, r.2)) = .ok (1, [97, 32, 48]) := by
  decide +kernel

end Wego.Props
