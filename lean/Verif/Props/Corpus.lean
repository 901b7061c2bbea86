import Verif.Proofs.Corpus
import Verif.Props.ReadWord
import Verif.Props.Cooccurrence

/-! # C10–C16: filters and the two corpora -/

namespace Wego.Props
open Wego Wego.Spec

/-- plain configuration used in the examples and counter-examples -/
def plainCfg : CorpusCfg := { toLower := false, lower := id, maxCount := -1, minCount := -1 }

/-- configuration with a lower-casing that maps `A` to `a` -/
def lowerCfg : CorpusCfg :=
  { toLower := true, lower := fun w => w.map (fun c => if c = 'A' then 'a' else c), maxCount := -1, minCount := -1 }

/-- the document `a b a` used in the examples -/
theorem readable_aba : Readable ⟨['a',' ','b',' ','a'], false⟩ [['a'],['b'],['a']] :=
  ⟨isWords_fields ['a',' ','b',' ','a'], rfl, by decide⟩

theorem addCalls_one (us : List Word) : addCalls [us] = Dictionary.new.add us := by
  simp only [addCalls, forEach_cons, forEach_nil]
  cases Dictionary.new.add us <;> rfl

/-- **C10.** For every dictionary word, the filters of a corpus report "drop" exactly when the word's
frequency lies outside the limits. -/
theorem C10_filters (calls : List (List Word)) (d : Dictionary) (hd : addCalls calls = .ok d)
    (cfg : CorpusCfg) (w : Word) (id : Nat) (hid : d.id? w = some id) :
    filtersAny cfg.filters id d =
      .ok (decide ((0 < cfg.maxCount ∧ cfg.maxCount < (calls.flatten.count w : Int)) ∨
                   (0 ≤ cfg.minCount ∧ (calls.flatten.count w : Int) < cfg.minCount))) := by
  obtain ⟨d', h1, _, h3, _⟩ := C02_dictionary_freqs calls
  rw [hd] at h1; simp only [Res.ok.injEq] at h1; subst h1
  rw [filtersAny_eq cfg d id _ (h3 w id hid)]
  rfl

/-- `C10_filters`: after `Add("a","b","a")`, with a minimum count of 2, `b` is dropped. -/
example : ∃ d, addCalls [[['a'],['b'],['a']]] = .ok d ∧
    filtersAny ({ plainCfg with minCount := 2 } : CorpusCfg).filters 1 d = .ok true := by
  refine ⟨_, rfl, ?_⟩
  exact (C10_filters [[['a'],['b'],['a']]] _ rfl { plainCfg with minCount := 2 } ['b'] 1 (by decide)).trans (by decide)

/-- **C10 (defaults).** With a maximum `<= 0` and a minimum `<= 1` no dictionary word is dropped. -/
theorem C10_keep_all (calls : List (List Word)) (d : Dictionary) (hd : addCalls calls = .ok d)
    (cfg : CorpusCfg) (hmax : cfg.maxCount ≤ 0) (hmin : cfg.minCount ≤ 1)
    (id : Nat) (hid : id < d.len) : filtersAny cfg.filters id d = .ok false := by
  obtain ⟨d', h1, _, _, _, h5, _⟩ := C02_dictionary_freqs calls
  rw [hd] at h1; simp only [Res.ok.injEq] at h1; subst h1
  obtain ⟨f, hf, hf1⟩ := h5 id hid
  rw [filtersAny_eq cfg d id f hf]
  congr 1
  have : ¬ outside cfg.maxCount cfg.minCount f := by unfold outside; omega
  simp [dropped, this]

/-- `C10_keep_all` after `Add("a","b","a")` for the id 1. -/
example : ∃ d, addCalls [[['a'],['b'],['a']]] = .ok d ∧ filtersAny plainCfg.filters 1 d = .ok false := by
  refine ⟨_, rfl, ?_⟩
  exact C10_keep_all [[['a'],['b'],['a']]] _ rfl plainCfg (by decide) (by decide) 1 (by decide)

/-- **C11.** After `Load` of a readable document: `Len`, `Dictionary` and `IndexedDoc`. -/
theorem C11_memory_corpus {F : Type} [GoFloat F] (cfg : CorpusCfg) (p : Pass) (ws : List Word)
    (h : Readable p ws) :
    ∃ c : CorpusState F, memLoad cfg p none = .ok c ∧
      c.maxLen = ws.length ∧
      addCalls [ws.map cfg.norm] = .ok c.dic ∧
      memIndexedDoc cfg c = .ok (trainSeq cfg.maxCount cfg.minCount (ws.map cfg.norm)) := by
  obtain ⟨c, h1, h2, h3, _, h5, h6⟩ := memLoad_readable (F := F) cfg h
  refine ⟨c, h6 none, h3, ?_, memIndexedDoc_eq cfg c _ h2 h5⟩
  rw [addCalls_one]; exact h1

/-- `C11_memory_corpus` on `a b a` with a minimum count of 2: `b` is dropped. -/
example : ∃ c : CorpusState ℝ, memLoad { plainCfg with minCount := 2 } ⟨['a',' ','b',' ','a'], false⟩ none = .ok c ∧
    c.maxLen = 3 ∧ memIndexedDoc { plainCfg with minCount := 2 } c = .ok [0, 0] := by
  obtain ⟨c, h1, h2, _, h3⟩ := C11_memory_corpus (F := ℝ) { plainCfg with minCount := 2 } _ _ readable_aba
  exact ⟨c, h1, h2, h3.trans (congrArg Res.ok (by decide))⟩

/-- **C11 (with co-occurrence).** Counting co-occurrences changes none of these. -/
theorem C11_memory_corpus_with {F : Type} [GoFloat F] (cfg : CorpusCfg) (p : Pass) (ws : List Word)
    (h : Readable p ws) (w : WithCooccurrence) (c : CorpusState F) (hc : memLoad cfg p (some w) = .ok c) :
      c.maxLen = ws.length ∧
      addCalls [ws.map cfg.norm] = .ok c.dic ∧
      memIndexedDoc cfg c = .ok (trainSeq cfg.maxCount cfg.minCount (ws.map cfg.norm)) := by
  obtain ⟨c0, h1, h2, h3, _, h5, h6⟩ := memLoad_readable (F := F) cfg h
  have := h6 (some w)
  rw [hc] at this
  simp only at this
  rw [eq_comm, Res.bind_eq_ok] at this
  obtain ⟨co, _, this⟩ := this
  rw [Res.bind_eq_ok] at this
  obtain ⟨co', _, this⟩ := this
  simp only [Res.ok.injEq] at this
  subst this
  refine ⟨h3, by rw [addCalls_one]; exact h1, ?_⟩
  exact memIndexedDoc_eq cfg _ _ h2 h5

/-- `C11_memory_corpus_with` on `a b a` with co-occurrence, window 1 (the load succeeds by C14). -/
example : ∃ c : CorpusState ℝ, memLoad plainCfg ⟨['a',' ','b',' ','a'], false⟩ (some ⟨"inc", 1⟩) = .ok c ∧ c.maxLen = 3 := by
  obtain ⟨c, _, _, _, _, _, h6⟩ := memLoad_readable (F := ℝ) plainCfg readable_aba
  obtain ⟨c, hc⟩ : ∃ c : CorpusState ℝ, memLoad plainCfg ⟨['a',' ','b',' ','a'], false⟩ (some ⟨"inc", 1⟩) = .ok c := by
    have := h6 (some ⟨"inc", 1⟩)
    obtain ⟨co, h, _⟩ := addPairs_inc (F := ℝ) (windowPairs 1 c.idoc) ⟨countInc, GoMap.empty⟩ rfl
    exact ⟨_, this.trans (by simp only [new_inc, Res.ok_bind]; rw [show ((1 : Int).toNat) = 1 from rfl, h]; rfl)⟩
  exact ⟨c, hc, (C11_memory_corpus_with plainCfg _ _ readable_aba _ c hc).1⟩

/-- A read error (or an over-long word) makes `Load` fail. -/
theorem C11_memory_read_error {F : Type} [GoFloat F] (cfg : CorpusCfg) (p : Pass) (ws : List Word)
    (hw : IsWords p.text ws) (hs : ∀ w ∈ ws, utf8Len w ≤ 65533) (hf : p.fails = true)
    (w : Option WithCooccurrence) : (memLoad cfg p w : Res (CorpusState F)) = .err .readErr := by
  obtain ⟨c, h1, _⟩ := memRead_forEach (F := F) cfg ws
  have hr := callEach_runs (fun word (c : CorpusState F) => liftCtl c (memReadCb cfg word c)) ws CorpusState.init
  have h2 := ctlRes_callEach_lift ws (memReadCb cfg) (CorpusState.init : CorpusState F)
  rw [h1] at h2
  have := C07_read_error p ws hw hf hs _ _ _ hr
  unfold memLoad
  rw [this]
  rcases hcall : callEach (fun word (c : CorpusState F) => liftCtl c (memReadCb cfg word c)) ws CorpusState.init with ⟨s, ct⟩
  rw [hcall] at h2
  cases ct <;> simp_all [ctlRes]

/-- `C11_memory_read_error`: the reader fails after `a b`. -/
example := C11_memory_read_error (F := ℝ) plainCfg ⟨['a',' ','b'], true⟩ [['a'],['b']] (isWords_fields _) (by decide) rfl none

/-- **C12.** `BatchWords` with a positive batch size: full batches, then one shorter (possibly empty)
batch, then the channel is closed; together they are the training sequence. -/
theorem C12_batches (cfg : CorpusCfg) (p : Pass) (ws : List Word) (h : Readable p ws)
    (d : Dictionary) (hd : addCalls [ws.map cfg.norm] = .ok d) (batchSize : Nat) (hb : 1 ≤ batchSize) :
    ∃ (full : List (List Nat)) (last : List Nat),
      fsBatchWords cfg d p batchSize =
        (⟨full.map .send ++ [.send last, .close], []⟩, .next) ∧
      (∀ b ∈ full, b.length = batchSize) ∧ last.length < batchSize ∧
      full.flatten ++ last = trainSeq cfg.maxCount cfg.minCount (ws.map cfg.norm) := by
  obtain ⟨d', h1, hr⟩ := addCalls_rep [ws.map cfg.norm]
  rw [hd] at h1; simp only [Res.ok.injEq] at h1; subst h1
  simp only [List.flatten_cons, List.flatten_nil, List.append_nil] at hr
  obtain ⟨full, last, h1, h2, h3, h4⟩ := batch_forEach cfg d (ws.map cfg.norm) hr batchSize hb ws
    (fun w hw => List.mem_map_of_mem hw)
  refine ⟨full, last, ?_, h2, h3, h4⟩
  unfold fsBatchWords
  simp only [Int.toNat_natCast]
  rw [if_neg (by omega), readWord_readable h]
  have hl := ctlRes_callEach_lift ws (batchCb cfg d batchSize) ⟨[], []⟩
  rw [h1] at hl
  rcases hcall : callEach (fun word (b : BatchState) => liftCtl b (batchCb cfg d batchSize word b)) ws ⟨[], []⟩ with ⟨s, ct⟩
  rw [hcall] at hl
  cases ct <;> simp_all [ctlRes]

/-- `C12_batches` on `a b a` with batch size 2. -/
example : ∃ d, addCalls [[['a'],['b'],['a']].map plainCfg.norm] = .ok d ∧ ∃ (full : List (List Nat)) (last : List Nat),
    fsBatchWords plainCfg d ⟨['a',' ','b',' ','a'], false⟩ (2 : Nat) = (⟨full.map .send ++ [.send last, .close], []⟩, .next) ∧
      full.flatten ++ last = [0, 1, 0] := by
  obtain ⟨d, hd, _⟩ := C01_dictionary_ids [[['a'],['b'],['a']].map plainCfg.norm]
  obtain ⟨full, last, h1, _, _, h2⟩ := C12_batches plainCfg _ _ readable_aba d hd 2 (by decide)
  exact ⟨d, hd, full, last, h1, h2.trans (by decide)⟩

theorem batch_zero (cfg : CorpusCfg) (dic : Dictionary) (us : List Word) (hr : dic.Rep us) (ws : List Word)
    (hws : ∀ w ∈ ws, cfg.norm w ∈ us) :
    forEach ws { out := [], ids := [] } (batchCb cfg dic 0) =
      if (ws.map cfg.norm).filter (fun w => ¬ outside cfg.maxCount cfg.minCount (us.count w)) = [] then .ok ⟨[], []⟩
      else .panic .indexOutOfRange := by
  induction ws with
  | nil => simp
  | cons w ws ih =>
    have ih := ih (fun w hw => hws w (by simp [hw]))
    have hw : cfg.norm w ∈ us := hws w (by simp)
    have hfr : dic.idFreq (dic.idOrZero (cfg.norm w)) = .ok (us.count (cfg.norm w)) := by
      rw [hr.idOrZero_eq, if_pos hw]; exact hr.idFreq_id _ hw
    rw [forEach_cons]
    unfold batchCb at ih ⊢
    simp only [filtersAny_eq cfg dic _ _ hfr, Res.ok_bind]
    by_cases hd : outside cfg.maxCount cfg.minCount (us.count (cfg.norm w))
    · simp only [dropped, hd, decide_true, if_true, Res.ok_bind]
      rw [ih]
      simp [hd]
    · simp [dropped, hd]

/-- **C12 (batch size 0).** `BatchWords(ch, 0)` panics if there is a word to send, and otherwise sends one empty
batch and closes the channel. -/
theorem C12_batch_size_zero (cfg : CorpusCfg) (p : Pass) (ws : List Word) (h : Readable p ws)
    (d : Dictionary) (hd : addCalls [ws.map cfg.norm] = .ok d) :
    (trainSeq cfg.maxCount cfg.minCount (ws.map cfg.norm) = [] → fsBatchWords cfg d p 0 = (⟨[.send [], .close], []⟩, .next)) ∧
    (trainSeq cfg.maxCount cfg.minCount (ws.map cfg.norm) ≠ [] →
      ∃ b, fsBatchWords cfg d p 0 = (b, .crash .indexOutOfRange)) := by
  obtain ⟨d', h1, hr⟩ := addCalls_rep [ws.map cfg.norm]
  rw [hd] at h1; simp only [Res.ok.injEq] at h1; subst h1
  simp only [List.flatten_cons, List.flatten_nil, List.append_nil] at hr
  have h1 := batch_zero cfg d (ws.map cfg.norm) hr ws (fun w hw => List.mem_map_of_mem hw)
  have hl := ctlRes_callEach_lift ws (batchCb cfg d 0) ⟨[], []⟩
  have he : trainSeq cfg.maxCount cfg.minCount (ws.map cfg.norm) = [] ↔
      (ws.map cfg.norm).filter (fun w => ¬ outside cfg.maxCount cfg.minCount ((ws.map cfg.norm).count w)) = [] := by
    unfold trainSeq
    rw [List.map_eq_nil_iff]
  have hf : fsBatchWords cfg d p 0 =
      thenDo (callEach (fun word (b : BatchState) => liftCtl b (batchCb cfg d 0 word b)) ws ⟨[], []⟩)
        (fun b => ({ out := b.out ++ [.send b.ids, .close], ids := [] }, .next)) := by
    unfold fsBatchWords
    rw [if_neg (by omega), readWord_readable h]
    rfl
  rw [hf, he]
  rcases hcall : callEach (fun word (b : BatchState) => liftCtl b (batchCb cfg d 0 word b)) ws ⟨[], []⟩ with ⟨s, ct⟩
  rw [hcall, h1] at hl
  refine ⟨fun ht => ?_, fun ht => ?_⟩
  · rw [if_pos ht] at hl
    cases ct <;> simp_all [ctlRes]
  · rw [if_neg (fun h => ht (he.2 h))] at hl
    cases ct <;> simp_all [ctlRes]

/-- `C12_batch_size_zero` on `a b a`: a panic; with a minimum count of 5, where nothing is left: one empty batch. -/
example : ∃ d, addCalls [[['a'],['b'],['a']].map plainCfg.norm] = .ok d ∧
    (∃ b, fsBatchWords plainCfg d ⟨['a',' ','b',' ','a'], false⟩ 0 = (b, .crash .indexOutOfRange)) ∧
    fsBatchWords { plainCfg with minCount := 5 } d ⟨['a',' ','b',' ','a'], false⟩ 0 = (⟨[.send [], .close], []⟩, .next) := by
  obtain ⟨d, hd, _⟩ := C01_dictionary_ids [[['a'],['b'],['a']].map plainCfg.norm]
  exact ⟨d, hd, (C12_batch_size_zero plainCfg _ _ readable_aba d hd).2 (by decide),
    (C12_batch_size_zero { plainCfg with minCount := 5 } _ _ readable_aba d hd).1 (by decide)⟩

/-- **C12 (read error).** If the reader fails after the words `ws` (all of them in the dictionary, which was built
from the words `us` in an earlier pass), `BatchWords` has sent the full batches of the words read so far, keeps the
rest, returns the error and does not close the channel. -/
theorem C12_batches_read_error (cfg : CorpusCfg) (p : Pass) (us ws : List Word)
    (hw : IsWords p.text ws) (hs : ∀ w ∈ ws, utf8Len w ≤ 65533) (hf : p.fails = true)
    (hmem : ∀ w ∈ ws, cfg.norm w ∈ us)
    (d : Dictionary) (hd : addCalls [us] = .ok d) (batchSize : Nat) (hb : 1 ≤ batchSize) :
    ∃ (full : List (List Nat)) (rest : List Nat),
      fsBatchWords cfg d p batchSize = (⟨full.map .send, rest⟩, .fail .readErr) ∧
      (∀ b ∈ full, b.length = batchSize) ∧ rest.length < batchSize ∧
      full.flatten ++ rest = ((ws.map cfg.norm).filter
        (fun w => ¬ outside cfg.maxCount cfg.minCount (us.count w))).map (distinctBefore us) := by
  obtain ⟨d', h1, hr⟩ := addCalls_rep [us]
  rw [hd] at h1; simp only [Res.ok.injEq] at h1; subst h1
  simp only [List.flatten_cons, List.flatten_nil, List.append_nil] at hr
  obtain ⟨full, last, h1, h2, h3, h4⟩ := batch_forEach cfg d us hr batchSize hb ws hmem
  refine ⟨full, last, ?_, h2, h3, h4⟩
  unfold fsBatchWords
  simp only [Int.toNat_natCast]
  have hruns := callEach_runs (fun word (b : BatchState) => liftCtl b (batchCb cfg d batchSize word b)) ws ⟨[], []⟩
  rw [if_neg (by omega), C07_read_error p ws hw hf hs _ _ _ hruns]
  have hl := ctlRes_callEach_lift ws (batchCb cfg d batchSize) ⟨[], []⟩
  rw [h1] at hl
  rcases hcall : callEach (fun word (b : BatchState) => liftCtl b (batchCb cfg d batchSize word b)) ws ⟨[], []⟩ with ⟨s, ct⟩
  rw [hcall] at hl
  cases ct <;> simp_all [ctlRes]

/-- `C12_batches_read_error`: the dictionary was built from `a b a`, the second pass fails after `a b`. -/
example : ∃ d, addCalls [[['a'],['b'],['a']]] = .ok d ∧ ∃ (full : List (List Nat)) (rest : List Nat),
    fsBatchWords plainCfg d ⟨['a',' ','b'], true⟩ (1 : Nat) = (⟨full.map .send, rest⟩, .fail .readErr) ∧
      full.flatten ++ rest = [0, 1] := by
  obtain ⟨d, hd, _⟩ := C01_dictionary_ids [[['a'],['b'],['a']]]
  obtain ⟨full, rest, h1, _, _, h2⟩ := C12_batches_read_error plainCfg ⟨['a',' ','b'], true⟩ [['a'],['b'],['a']]
    [['a'],['b']] (isWords_fields _) (by decide) rfl (by decide) d hd 1 (by decide)
  exact ⟨d, hd, full, rest, h1, h2.trans (by decide)⟩

/-- **C13.** The two corpora agree on dictionary, length and training sequence. -/
theorem C13_corpora_agree {F : Type} [GoFloat F] (cfg : CorpusCfg) (p : Pass) (ws : List Word)
    (h : Readable p ws) (batchSize : Nat) (hb : 1 ≤ batchSize) :
    ∃ cm cf : CorpusState F, memLoad cfg p none = .ok cm ∧ fsLoad cfg p p none = .ok cf ∧
      cm.dic = cf.dic ∧ cm.maxLen = cf.maxLen ∧
      ∃ (batches : List (List Nat)) (ids : List Nat),
        fsBatchWords cfg cf.dic p batchSize = (⟨batches.map .send ++ [.close], []⟩, .next) ∧
        memIndexedDoc cfg cm = .ok ids ∧ batches.flatten = ids := by
  obtain ⟨cm, m1, m2, m3, m4⟩ := C11_memory_corpus (F := F) cfg p ws h
  obtain ⟨cf, f1, f2, f3, _, _, f6, _⟩ := fsLoad_readable (F := F) cfg h
  have hdic : cm.dic = cf.dic := by
    rw [addCalls_one, f1] at m3; simpa using m3.symm
  refine ⟨cm, cf, m1, f6, hdic, by rw [m2, f3], ?_⟩
  obtain ⟨full, last, b1, b2, b3, b4⟩ := C12_batches cfg p ws h cf.dic (by rw [addCalls_one]; exact f1) batchSize hb
  exact ⟨full ++ [last], _, by simpa using b1, m4, by simpa using b4⟩

/-- `C13_corpora_agree` on `a b a` with batch size 2. -/
example := C13_corpora_agree (F := ℝ) plainCfg _ _ readable_aba 2 (by decide)

/-- The ids of a document, by first occurrence. -/
def docIds (us : List Word) : List Nat := us.map (distinctBefore us)

theorem docIds_eq (us : List Word) : docIds us = idsOf us us := by
  unfold docIds idsOf
  apply List.map_congr_left
  intro w hw
  rw [idxOf_firstOcc us w hw]

theorem docIds_lt (us : List Word) (hlen : us.dedup.length ≤ 2 ^ 32) : ∀ i ∈ docIds us, i < 2 ^ 32 := by
  intro i hi
  rw [docIds_eq] at hi
  obtain ⟨w, hw, rfl⟩ := List.mem_map.1 hi
  have : (firstOcc us).idxOf w < (firstOcc us).length := List.idxOf_lt_length_iff.2 (by simpa using hw)
  rw [length_firstOcc] at this
  omega

theorem mem_windowPairs {α : Type} (n : Nat) (l : List α) : ∀ q ∈ windowPairs n l, q.1 ∈ l ∧ q.2 ∈ l := by
  induction l with
  | nil => simp [windowPairs]
  | cons a l ih =>
    intro q hq
    simp only [windowPairs, List.mem_append, List.mem_map] at hq
    rcases hq with ⟨b, hb, rfl⟩ | hq
    · exact ⟨by simp, by simp [List.mem_of_mem_take hb]⟩
    · exact ⟨by simp [(ih q hq).1], by simp [(ih q hq).2]⟩

/-- **C14.** In-memory co-occurrence: the entry of `{a,b}` is the number of position pairs
`i < j <= i+window` whose ids are `{a,b}` (`windowPairs` lists all position pairs). -/
theorem C14_memory_cooccurrence (cfg : CorpusCfg) (p : Pass) (ws : List Word) (h : Readable p ws)
    (window : Int) (hdic : (ws.map cfg.norm).dedup.length ≤ 2 ^ 32) :
    ∃ (c : CorpusState ℝ) (co : Cooccurrence ℝ), memLoad cfg p (some ⟨"inc", window⟩) = .ok c ∧
      c.cooc = some co ∧
      ∀ a b, a < 2^32 → b < 2^32 →
        let n := pairCount (windowPairs window.toNat (docIds (ws.map cfg.norm))) a b
        entry co a b = if n = 0 then none else some (n : ℝ) := by
  obtain ⟨c, h1, h2, h3, _, h5, h6⟩ := memLoad_readable (F := ℝ) cfg h
  rw [← docIds_eq] at h5
  have hlt : ∀ q ∈ windowPairs window.toNat c.idoc, q.1 < 2^32 ∧ q.2 < 2^32 := by
    intro q hq
    have := mem_windowPairs _ _ q hq
    rw [h5] at this
    exact ⟨docIds_lt _ hdic _ this.1, docIds_lt _ hdic _ this.2⟩
  obtain ⟨co, c1, c2⟩ := C04_inc_counts (windowPairs window.toNat c.idoc) hlt
  refine ⟨{ c with cooc := some co }, co, ?_, rfl, ?_⟩
  · rw [h6]
    unfold cooCalls at c1
    simp only [new_inc, Res.ok_bind] at c1 ⊢
    unfold addPairs
    rw [c1]; rfl
  · intro a b ha hb
    rw [h5] at c2
    exact c2 a b ha hb

/-- `C14_memory_cooccurrence` on `a b a` with window 1: the words `a` and `b` are neighbours twice. -/
example : ∃ (c : CorpusState ℝ) (co : Cooccurrence ℝ),
    memLoad plainCfg ⟨['a',' ','b',' ','a'], false⟩ (some ⟨"inc", 1⟩) = .ok c ∧ c.cooc = some co ∧
      entry co 0 1 = some ((2 : ℕ) : ℝ) := by
  obtain ⟨c, co, h1, h2, h3⟩ := C14_memory_cooccurrence plainCfg _ _ readable_aba 1 (by decide)
  exact ⟨c, co, h1, h2, (h3 0 1 (by decide) (by decide)).trans (if_neg (by decide))⟩

/-- **C14 (float64).** -/
theorem C14_memory_cooccurrence_f64 (cfg : CorpusCfg) (p : Pass) (ws : List Word) (h : Readable p ws)
    (window : Int) (hdic : (ws.map cfg.norm).dedup.length ≤ 2 ^ 32) :
    ∃ (c : CorpusState F64) (co : Cooccurrence F64), memLoad cfg p (some ⟨"inc", window⟩) = .ok c ∧
      c.cooc = some co ∧
      ∀ a b, a < 2^32 → b < 2^32 →
        let n := pairCount (windowPairs window.toNat (docIds (ws.map cfg.norm))) a b
        n ≤ 2 ^ 53 → (n = 0 → entry co a b = none) ∧
          (n ≠ 0 → ∃ v, entry co a b = some v ∧ F64.toRat v = n) := by
  obtain ⟨c, h1, h2, h3, _, h5, h6⟩ := memLoad_readable (F := F64) cfg h
  rw [← docIds_eq] at h5
  have hlt : ∀ q ∈ windowPairs window.toNat c.idoc, q.1 < 2^32 ∧ q.2 < 2^32 := by
    intro q hq
    have := mem_windowPairs _ _ q hq
    rw [h5] at this
    exact ⟨docIds_lt _ hdic _ this.1, docIds_lt _ hdic _ this.2⟩
  obtain ⟨co, c1, c2⟩ := C04_inc_counts_f64 (windowPairs window.toNat c.idoc) hlt
  refine ⟨{ c with cooc := some co }, co, ?_, rfl, ?_⟩
  · rw [h6]
    unfold cooCalls at c1
    simp only [new_inc, Res.ok_bind] at c1 ⊢
    unfold addPairs
    rw [c1]; rfl
  · intro a b ha hb n hn
    rw [h5] at c2
    obtain ⟨e1, e2⟩ := c2 a b ha hb hn
    refine ⟨e1, fun h0 => ?_⟩
    obtain ⟨v, v1, _, v3⟩ := e2 h0
    exact ⟨v, v1, v3⟩

/-- `C14_memory_cooccurrence_f64` on `a b a` with window 1. -/
example := C14_memory_cooccurrence_f64 plainCfg _ _ readable_aba 1 (by decide)

/-- Ids are equal exactly when the words are. -/
theorem docId_inj (us : List Word) (u v : Word) (hu : u ∈ us) (hv : v ∈ us) :
    distinctBefore us u = distinctBefore us v ↔ u = v := by
  constructor
  · intro h
    rw [← idxOf_firstOcc us u hu, ← idxOf_firstOcc us v hv] at h
    exact (List.idxOf_inj (by simpa using hu)).1 h
  · rintro rfl; rfl

theorem mem_windowPairs_iff {α : Type} (n : Nat) (l : List α) (x y : α) :
    (x, y) ∈ windowPairs n l ↔ ∃ i j, i < j ∧ j ≤ i + n ∧ l[i]? = some x ∧ l[j]? = some y := by
  induction l with
  | nil => simp [windowPairs]
  | cons a l ih =>
    simp only [windowPairs, List.mem_append, List.mem_map, Prod.mk.injEq]
    rw [ih]
    constructor
    · rintro (⟨b, hb, rfl, rfl⟩ | ⟨i, j, h1, h2, h3, h4⟩)
      · obtain ⟨k, hk⟩ := List.mem_iff_getElem?.1 hb
        rw [List.getElem?_take] at hk
        split at hk
        · exact ⟨0, k + 1, by omega, by omega, by simp, by simpa using hk⟩
        · simp at hk
      · exact ⟨i + 1, j + 1, by omega, by omega, by simpa using h3, by simpa using h4⟩
    · rintro ⟨i, j, h1, h2, h3, h4⟩
      cases i with
      | zero =>
        left
        obtain ⟨j, rfl⟩ : ∃ k, j = k + 1 := ⟨j - 1, by omega⟩
        refine ⟨y, ?_, by simpa using h3, rfl⟩
        apply List.mem_iff_getElem?.2
        exact ⟨j, by rw [List.getElem?_take, if_pos (by omega)]; simpa using h4⟩
      | succ i =>
        right
        obtain ⟨j, rfl⟩ : ∃ k, j = k + 1 := ⟨j - 1, by omega⟩
        exact ⟨i, j, by omega, by omega, by simpa using h3, by simpa using h4⟩

theorem windowPairs_map {α β : Type} (f : α → β) (n : Nat) (l : List α) :
    windowPairs n (l.map f) = (windowPairs n l).map (fun q => (f q.1, f q.2)) := by
  induction l with
  | nil => rfl
  | cons a l ih =>
    simp only [List.map_cons, windowPairs, ih, List.map_append, List.map_map, ← List.map_take]
    rfl

/-- **C16.** Proximity counting on the in-memory corpus: `Load` fails exactly when some word occurs
again within the window. -/
theorem C16_prox_load {F : Type} [GoFloat F] (cfg : CorpusCfg) (p : Pass) (ws : List Word) (h : Readable p ws)
    (window : Int) :
    ((∃ i j : Nat, ∃ u, i < j ∧ j ≤ i + window.toNat ∧ (ws.map cfg.norm)[i]? = some u ∧
        (ws.map cfg.norm)[j]? = some u) →
      (memLoad cfg p (some ⟨"prox", window⟩) : Res (CorpusState F)) = .err .divideByZero) ∧
    ((¬ ∃ i j : Nat, ∃ u, i < j ∧ j ≤ i + window.toNat ∧ (ws.map cfg.norm)[i]? = some u ∧
        (ws.map cfg.norm)[j]? = some u) →
      ∃ c : CorpusState F, memLoad cfg p (some ⟨"prox", window⟩) = .ok c) := by
  obtain ⟨c, h1, h2, h3, _, h5, h6⟩ := memLoad_readable (F := F) cfg h
  rw [← docIds_eq] at h5
  set us := ws.map cfg.norm with hus
  refine ⟨?_, ?_⟩
  · rintro ⟨i, j, u, a1, a2, a3, a4⟩
    rw [h6]
    simp only [new_prox, Res.ok_bind]
    rw [addPairs_prox_fail _ _ rfl]
    · rfl
    · rw [h5, docIds, windowPairs_map]
      exact ⟨_, List.mem_map_of_mem ((mem_windowPairs_iff _ _ _ _).2 ⟨i, j, a1, a2, a3, a4⟩), rfl⟩
  · intro hno
    have hne : ∀ q ∈ windowPairs window.toNat c.idoc, q.1 ≠ q.2 := by
      rw [h5, docIds, windowPairs_map]
      intro q hq heq
      obtain ⟨⟨u, v⟩, hr, rfl⟩ := List.mem_map.1 hq
      have hm := mem_windowPairs _ _ _ hr
      simp only at heq
      rw [docId_inj us _ _ hm.1 hm.2] at heq
      simp only at heq
      obtain ⟨i, j, a1, a2, a3, a4⟩ := (mem_windowPairs_iff _ _ _ _).1 hr
      exact hno ⟨i, j, u, a1, a2, a3, by rw [a4, heq]⟩
    rw [h6]
    simp only [new_prox, Res.ok_bind]
    have : ∃ co, addPairs (windowPairs window.toNat c.idoc) (⟨countProx, GoMap.empty⟩ : Cooccurrence F) = .ok co := by 
      exact addPairs_prox_ok _ _ rfl hne
    obtain ⟨co, hco⟩ := this
    exact ⟨{ c with cooc := some co }, by rw [hco]; rfl⟩

/-- `C16_prox_load`: with window 2 the repeated `a` of `a b a` makes the load fail, with window 1 it succeeds. -/
example : (memLoad plainCfg ⟨['a',' ','b',' ','a'], false⟩ (some ⟨"prox", 2⟩) : Res (CorpusState ℝ)) = .err .divideByZero ∧
    ∃ c : CorpusState ℝ, memLoad plainCfg ⟨['a',' ','b',' ','a'], false⟩ (some ⟨"prox", 1⟩) = .ok c := by
  refine ⟨(C16_prox_load plainCfg _ _ readable_aba 2).1 ⟨0, 2, ['a'], by decide, by decide, by decide, by decide⟩,
    (C16_prox_load plainCfg _ _ readable_aba 1).2 ?_⟩
  rintro ⟨i, j, u, h1, h2, h3, h4⟩
  have hj : j = i + 1 := by simp at h2; omega
  subst hj
  match i with
  | 0 => simp [plainCfg, CorpusCfg.norm] at h3 h4; rw [← h3] at h4; simp at h4
  | 1 => simp [plainCfg, CorpusCfg.norm] at h3 h4; rw [← h3] at h4; simp at h4
  | i + 2 => simp at h4

/-- **C15, proved part.** For the windows 1 and 2, documents longer than the window and no change by
lower-casing, the file corpus builds exactly the co-occurrence matrix of the in-memory corpus (and
fails on the same documents). Missing: other windows, shorter documents and lower-cased documents,
for which the property is false (`C15_false_*`). -/
theorem C15_corpora_agree_partial {F : Type} [GoFloat F] (cfg : CorpusCfg) (p : Pass) (ws : List Word)
    (h : Readable p ws) (typ : String) (n : Nat) (hn : n = 1 ∨ n = 2) (hN : n < ws.length)
    (hlow : ∀ w ∈ ws, cfg.norm w = w) :
    (memLoad cfg p (some ⟨typ, n⟩) >>= fun c => .ok c.cooc : Res (Option (Cooccurrence F))) =
    (fsLoad cfg p p (some ⟨typ, n⟩) >>= fun c => .ok c.cooc) := by
  have hmap : ws.map cfg.norm = ws := by
    conv_rhs => rw [← List.map_id ws]
    exact List.map_congr_left hlow
  obtain ⟨cm, _, m2, _, _, m5, m6⟩ := memLoad_readable (F := F) cfg h
  obtain ⟨cf, _, f2, _, _, _, _, f7⟩ := fsLoad_readable (F := F) cfg h
  rw [m6, f7 typ n (by omega)]
  rw [hmap] at m5 f2
  have hcalls : (fwdCalls n ws).map (fun q => (cf.dic.idOrZero q.1, cf.dic.idOrZero q.2)) =
      windowPairs n cm.idoc := by
    have hw : fwdCalls n ws = windowPairs n ws := by
      cases ws with
      | nil => simp at hN
      | cons w ws =>
        have hpad : padTo n (w :: ws) = w :: ws := by
          simp only [padTo]; rw [show n + 1 - (w :: ws).length = 0 by omega]; simp
        simp only [fwdCalls, hpad]
        rw [windowPairsUpTo_append n ((w :: ws).length - n + 1) (w :: ws),
          windowPairs_short n ((w :: ws).drop _) (by simp only [List.length_drop]; omega)]
        simp
    rw [hw, m5, idsOf, windowPairs_map]
    apply List.map_congr_left
    intro q hq
    have hm := mem_windowPairs _ _ q hq
    rw [f2.idOrZero_eq, f2.idOrZero_eq, if_pos hm.1, if_pos hm.2]
  simp only [hcalls, Int.toNat_natCast]
  cases Cooccurrence.new (F := F) typ with
  | err e => rfl
  | panic e => rfl
  | ok co =>
    simp only [Res.ok_bind]
    cases addPairs (windowPairs n cm.idoc) co <;> rfl

/-- `C15_corpora_agree_partial` on `a b a` with window 1. -/
example := C15_corpora_agree_partial (F := ℝ) plainCfg _ _ readable_aba "inc" 1 (Or.inl rfl) (by decide) (by decide)

/-- The co-occurrence of the file corpus: its entries count the calls of the forward reader. -/
theorem C15_fs_cooccurrence (cfg : CorpusCfg) (p : Pass) (ws : List Word) (h : Readable p ws)
    (n : Nat) (hn : 1 ≤ n) (hdic : (ws.map cfg.norm).dedup.length ≤ 2 ^ 32) :
    ∃ (c : CorpusState ℝ) (co : Cooccurrence ℝ), fsLoad cfg p p (some ⟨"inc", n⟩) = .ok c ∧
      c.cooc = some co ∧
      let idOf : Word → Nat := fun w =>
        if w ∈ ws.map cfg.norm then distinctBefore (ws.map cfg.norm) w else 0
      ∀ a b, a < 2^32 → b < 2^32 →
        let k := pairCount ((fwdCalls n ws).map (fun q => (idOf q.1, idOf q.2))) a b
        entry co a b = if k = 0 then none else some (k : ℝ) := by
  obtain ⟨c, _, f2, _, _, _, _, f7⟩ := fsLoad_readable (F := ℝ) cfg h
  have hid : ∀ w, c.dic.idOrZero w =
      if w ∈ ws.map cfg.norm then distinctBefore (ws.map cfg.norm) w else 0 := by
    intro w
    rw [f2.idOrZero_eq]
    split
    · next hw => rw [idxOf_firstOcc _ _ hw]
    · rfl
  have hlt : ∀ w, c.dic.idOrZero w < 2 ^ 32 := by
    intro w
    rw [hid]
    split
    · next hw => exact docIds_lt _ hdic _ (List.mem_map_of_mem hw)
    · omega
  obtain ⟨co, c1, c2⟩ := C04_inc_counts
    ((fwdCalls n ws).map (fun q => (c.dic.idOrZero q.1, c.dic.idOrZero q.2))) (by
      intro q hq
      obtain ⟨r, _, rfl⟩ := List.mem_map.1 hq
      exact ⟨hlt _, hlt _⟩)
  refine ⟨{ c with cooc := some co }, co, ?_, rfl, ?_⟩
  · rw [f7 _ _ hn]
    unfold cooCalls at c1
    rw [new_inc] at c1 ⊢
    simp only [Res.ok_bind] at c1 ⊢
    unfold addPairs
    rw [c1]; rfl
  · intro idOf a b ha hb
    have e : (fun w => c.dic.idOrZero w) = idOf := funext hid
    have := c2 a b ha hb
    simp only [hid] at this
    exact this

/-- `C15_fs_cooccurrence` on `a b a` with window 1. -/
example := C15_fs_cooccurrence plainCfg _ _ readable_aba 1 (by decide) (by decide)

/-- **C16, file corpus.** With proximity counting and a window of at least 1 the file corpus loads
exactly when no two words reported together by its reader (`fwdCalls`) have the same id, where a
word absent from the dictionary (padding, or an original of a lower-cased word) has id 0, the id of
the first word of the document. -/
theorem C16_file {F : Type} [GoFloat F] (cfg : CorpusCfg) (p : Pass) (ws : List Word) (h : Readable p ws)
    (n : Nat) (hn : 1 ≤ n) :
    let idOf : Word → Nat := fun w =>
      if w ∈ ws.map cfg.norm then distinctBefore (ws.map cfg.norm) w else 0
    ((∃ q ∈ fwdCalls n ws, idOf q.1 = idOf q.2) →
      (fsLoad cfg p p (some ⟨"prox", n⟩) : Res (CorpusState F)) = .err .divideByZero) ∧
    ((∀ q ∈ fwdCalls n ws, idOf q.1 ≠ idOf q.2) →
      ∃ c : CorpusState F, fsLoad cfg p p (some ⟨"prox", n⟩) = .ok c) := by
  intro idOf
  obtain ⟨c, _, f2, _, _, _, _, f7⟩ := fsLoad_readable (F := F) cfg h
  have hid : ∀ w, c.dic.idOrZero w = idOf w := by
    intro w
    rw [f2.idOrZero_eq]
    simp only [idOf]
    split
    · next hw => rw [idxOf_firstOcc _ _ hw]
    · rfl
  refine ⟨?_, ?_⟩
  · rintro ⟨q, hq, he⟩
    rw [f7 _ _ hn]
    simp only [new_prox, Res.ok_bind]
    rw [addPairs_prox_fail _ _ rfl]
    · rfl
    · exact ⟨_, List.mem_map_of_mem hq, by simp only [hid]; exact he⟩
  · intro hno
    have hne : ∀ q ∈ (fwdCalls n ws).map (fun q => (c.dic.idOrZero q.1, c.dic.idOrZero q.2)),
        q.1 ≠ q.2 := by
      intro q hq
      obtain ⟨r, hr, rfl⟩ := List.mem_map.1 hq
      simp only [hid]
      exact hno r hr
    rw [f7 _ _ hn]
    simp only [new_prox, Res.ok_bind]
    obtain ⟨co, hco⟩ := addPairs_prox_ok (F := F) _ ⟨countProx, GoMap.empty⟩ rfl hne
    exact ⟨{ c with cooc := some co }, by rw [hco]; rfl⟩

/-- **C16, short files.** A file of at most `n` words, whatever the words are, cannot be loaded with
proximity counting and window `n` (`norm` being idempotent and erasing no word, as lower-casing is). -/
theorem C16_file_short {F : Type} [GoFloat F] (cfg : CorpusCfg) (p : Pass) (ws : List Word)
    (h : Readable p ws) (n : Nat) (hn : 1 ≤ n) (hs : ws.length ≤ n)
    (hidem : ∀ w, cfg.norm (cfg.norm w) = cfg.norm w) (hnon : ∀ w ∈ ws, cfg.norm w ≠ []) :
    (fsLoad cfg p p (some ⟨"prox", n⟩) : Res (CorpusState F)) = .err .divideByZero := by
  refine (C16_file cfg p ws h n hn).1 ?_
  have he : ([] : Word) ∉ ws.map cfg.norm := by
    intro hm
    obtain ⟨w, hw, e⟩ := List.mem_map.1 hm
    exact hnon w hw e
  cases ws with
  | nil =>
    obtain ⟨m, rfl⟩ : ∃ m, n = m + 1 := ⟨n - 1, by omega⟩
    exact ⟨([], []), by simp [fwdCalls], rfl⟩
  | cons w ws =>
    refine ⟨(w, []), ?_, ?_⟩
    · have hl : (w :: ws).length < n + 1 := by omega
      obtain ⟨k, hk⟩ : ∃ k, n + 1 - (w :: ws).length = k + 1 := ⟨n - (w :: ws).length, by omega⟩
      have hk' : ws.length + (k + 1) = n := by simp only [List.length_cons] at hk hl; omega
      simp only [fwdCalls, padTo, hk, List.cons_append, windowPairsUpTo]
      refine List.mem_append_left _ (List.mem_map.2 ⟨[], ?_, rfl⟩)
      rw [List.take_of_length_le (by simp only [List.length_append, List.length_replicate]; omega)]
      simp
    · simp only
      rw [if_neg he]
      split
      · next hw =>
        obtain ⟨x, _, hx⟩ := List.mem_map.1 hw
        have hww : cfg.norm w = w := by rw [← hx, hidem]
        simp only [distinctBefore, List.map_cons, hww]
        simp
      · rfl

/-- `C16_file`, `C16_file_short`: `a b a` cannot be loaded with window 3 (short), nor with window 2
(`a` occurs again), but can be with window 1. -/
example : (fsLoad plainCfg ⟨['a',' ','b',' ','a'], false⟩ ⟨['a',' ','b',' ','a'], false⟩
      (some ⟨"prox", 3⟩) : Res (CorpusState ℝ)) = .err .divideByZero ∧
    (fsLoad plainCfg ⟨['a',' ','b',' ','a'], false⟩ ⟨['a',' ','b',' ','a'], false⟩
      (some ⟨"prox", 2⟩) : Res (CorpusState ℝ)) = .err .divideByZero ∧
    ∃ c : CorpusState ℝ, fsLoad plainCfg ⟨['a',' ','b',' ','a'], false⟩ ⟨['a',' ','b',' ','a'], false⟩
      (some ⟨"prox", 1⟩) = .ok c :=
  ⟨C16_file_short plainCfg _ _ readable_aba 3 (by decide) (by decide) (fun _ => rfl) (by decide),
   (C16_file plainCfg _ _ readable_aba 2 (by decide)).1 (by decide),
   (C16_file plainCfg _ _ readable_aba 1 (by decide)).2 (by decide)⟩

/-- **C16, files with capitals.** With lower-casing on, two adjacent words that both change under it
(`Ab Cd`) make the file corpus fail, although they are different words. -/
theorem C16_file_lower {F : Type} [GoFloat F] (cfg : CorpusCfg) (p : Pass) (ws : List Word)
    (h : Readable p ws) (n : Nat) (hn : 1 ≤ n)
    (hidem : ∀ w, cfg.norm (cfg.norm w) = cfg.norm w) (u v : Word) (hq : (u, v) ∈ fwdCalls n ws)
    (hu : cfg.norm u ≠ u) (hv : cfg.norm v ≠ v) :
    (fsLoad cfg p p (some ⟨"prox", n⟩) : Res (CorpusState F)) = .err .divideByZero := by
  refine (C16_file cfg p ws h n hn).1 ⟨(u, v), hq, ?_⟩
  have hno : ∀ x, cfg.norm x ≠ x → x ∉ ws.map cfg.norm := by
    intro x hx hm
    obtain ⟨y, _, hy⟩ := List.mem_map.1 hm
    exact hx (by rw [← hy, hidem])
  simp only
  rw [if_neg (hno u hu), if_neg (hno v hv)]

/-- `C16_file_lower` on `A AB a`, window 1. -/
example : (fsLoad lowerCfg ⟨['A',' ','A','B',' ','a'], false⟩ ⟨['A',' ','A','B',' ','a'], false⟩
      (some ⟨"prox", 1⟩) : Res (CorpusState ℝ)) = .err .divideByZero :=
  C16_file_lower lowerCfg _ [['A'],['A','B'],['a']]
    ⟨isWords_fields ['A',' ','A','B',' ','a'], rfl, by decide⟩ 1 (by decide)
    (by
      intro w
      simp only [lowerCfg, CorpusCfg.norm, if_true, List.map_map]
      apply List.map_congr_left
      intro c _
      by_cases hc : c = 'A' <;> simp [hc])
    ['A'] ['A','B'] (by decide) (by decide) (by decide)

/-- **C15 is false for window 3**: in `a b c d e` the pair `{d,e}` is counted by the in-memory corpus
and not by the file corpus. -/
theorem C15_false_window_3 :
    ∃ (cm cf : CorpusState ℝ) (com cof : Cooccurrence ℝ),
      memLoad plainCfg ⟨['a',' ','b',' ','c',' ','d',' ','e'], false⟩ (some ⟨"inc", 3⟩) = .ok cm ∧
      fsLoad plainCfg ⟨['a',' ','b',' ','c',' ','d',' ','e'], false⟩
        ⟨['a',' ','b',' ','c',' ','d',' ','e'], false⟩ (some ⟨"inc", 3⟩) = .ok cf ∧
      cm.cooc = some com ∧ cf.cooc = some cof ∧
      entry com 3 4 = some 1 ∧ entry cof 3 4 = none := by
  have h : Readable ⟨['a',' ','b',' ','c',' ','d',' ','e'], false⟩ [['a'],['b'],['c'],['d'],['e']] :=
    ⟨isWords_fields ['a',' ','b',' ','c',' ','d',' ','e'], rfl, by decide⟩
  obtain ⟨cm, com, m1, m2, m3⟩ := C14_memory_cooccurrence plainCfg _ _ h 3 (by decide)
  obtain ⟨cf, cof, f1, f2, f3⟩ := C15_fs_cooccurrence plainCfg _ _ h 3 (by decide) (by decide)
  refine ⟨cm, cf, com, cof, m1, f1, m2, f2, ?_, ?_⟩
  · have := m3 3 4 (by decide) (by decide)
    rw [this, if_neg (by decide)]
    have hc : pairCount (windowPairs (3 : Int).toNat (docIds ([['a'],['b'],['c'],['d'],['e']].map plainCfg.norm))) 3 4 = 1 := by decide
    rw [hc]; simp
  · have := f3 3 4 (by decide) (by decide)
    rw [this, if_pos (by decide)]

/-- **C15 is false for short documents**: on the one-word text `a` with window 1 the file corpus
counts the pair `{0,0}` once, the in-memory corpus counts nothing. -/
theorem C15_false_short :
    ∃ (cm cf : CorpusState ℝ) (com cof : Cooccurrence ℝ),
      memLoad plainCfg ⟨['a'], false⟩ (some ⟨"inc", 1⟩) = .ok cm ∧
      fsLoad plainCfg ⟨['a'], false⟩ ⟨['a'], false⟩ (some ⟨"inc", 1⟩) = .ok cf ∧
      cm.cooc = some com ∧ cf.cooc = some cof ∧
      entry com 0 0 = none ∧ entry cof 0 0 = some 1 := by
  have h : Readable ⟨['a'], false⟩ [['a']] := ⟨isWords_fields ['a'], rfl, by decide⟩
  obtain ⟨cm, com, m1, m2, m3⟩ := C14_memory_cooccurrence plainCfg _ _ h 1 (by decide)
  obtain ⟨cf, cof, f1, f2, f3⟩ := C15_fs_cooccurrence plainCfg _ _ h 1 (by decide) (by decide)
  refine ⟨cm, cf, com, cof, m1, f1, m2, f2, ?_, ?_⟩
  · have := m3 0 0 (by decide) (by decide)
    rw [this, if_pos (by decide)]
  · have := f3 0 0 (by decide) (by decide)
    rw [this, if_neg (by decide)]
    have hc : pairCount ((fwdCalls 1 [['a']]).map (fun q => ((if q.1 ∈ [['a']].map plainCfg.norm then distinctBefore ([['a']].map plainCfg.norm) q.1 else 0), (if q.2 ∈ [['a']].map plainCfg.norm then distinctBefore ([['a']].map plainCfg.norm) q.2 else 0)))) 0 0 = 1 := by decide
    rw [hc]; simp

/-- **C15 is false with lower-casing**: on `b A` with window 1 the in-memory corpus counts `{0,1}`,
the file corpus looks up `A`, which is not in the (lower-cased) dictionary, and counts `{0,0}`. -/
theorem C15_false_lower :
    ∃ (cm cf : CorpusState ℝ) (com cof : Cooccurrence ℝ),
      memLoad lowerCfg ⟨['b',' ','A'], false⟩ (some ⟨"inc", 1⟩) = .ok cm ∧
      fsLoad lowerCfg ⟨['b',' ','A'], false⟩ ⟨['b',' ','A'], false⟩ (some ⟨"inc", 1⟩) = .ok cf ∧
      cm.cooc = some com ∧ cf.cooc = some cof ∧
      entry com 0 1 = some 1 ∧ entry cof 0 1 = none := by
  have h : Readable ⟨['b',' ','A'], false⟩ [['b'],['A']] := ⟨isWords_fields ['b',' ','A'], rfl, by decide⟩
  obtain ⟨cm, com, m1, m2, m3⟩ := C14_memory_cooccurrence lowerCfg _ _ h 1 (by decide)
  obtain ⟨cf, cof, f1, f2, f3⟩ := C15_fs_cooccurrence lowerCfg _ _ h 1 (by decide) (by decide)
  refine ⟨cm, cf, com, cof, m1, f1, m2, f2, ?_, ?_⟩
  · have := m3 0 1 (by decide) (by decide)
    rw [this, if_neg (by decide)]
    have hc : pairCount (windowPairs (1 : Int).toNat (docIds ([['b'],['A']].map lowerCfg.norm))) 0 1 = 1 := by decide
    rw [hc]; simp
  · have := f3 0 1 (by decide) (by decide)
    rw [this, if_pos (by decide)]

/-- Non-vacuity: a document, limits that drop one of its words, and its training sequence. -/
example : Readable ⟨['a',' ','b',' ','a'], false⟩ [['a'],['b'],['a']] ∧
    trainSeq (-1) 2 [['a'],['b'],['a']] = [0, 0] ∧ trainSeq 1 0 [['a'],['b'],['a']] = [1] :=
  ⟨⟨isWords_fields ['a',' ','b',' ','a'], rfl, by decide⟩, by decide, by decide⟩

end Wego.Props
