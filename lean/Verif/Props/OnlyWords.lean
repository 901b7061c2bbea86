import Verif.Props.TrainOk
import Verif.Props.Corpus

/-! # C107: only the sequence of words of the document matters
# C108: `ToLower` is the same as lower-casing the document first -/

namespace Wego.Props
open Wego Spec

/-- Two documents with the same words, however they are laid out (blanks, tabs, line ends, blank lines), read without over-long words; a reader that fails does so in both. -/
structure SameWords (p q : Pass) : Prop where
  words : ∃ ws, IsWords p.text ws ∧ IsWords q.text ws ∧ ∀ w ∈ ws, utf8Len w ≤ 65533
  fails : p.fails = q.fails

theorem SameWords.scan {p q : Pass} (h : SameWords p q) : scanWords p = scanWords q := by
  obtain ⟨ws, h1, h2, h3⟩ := h.words
  have hs : ∀ w ∈ ws, utf8Len w + 3 ≤ maxTok := fun w hw => by have := h3 w hw; simp [maxTok]; omega
  rw [scanWords_ok 3 (by omega) p (fun c _ => space_utf8Size c) ws h1 hs, scanWords_ok 3 (by omega) q (fun c _ => space_utf8Size c) ws h2 hs, h.fails]

theorem SameWords.symm {p q : Pass} (h : SameWords p q) : SameWords q p := by
  obtain ⟨ws, h1, h2, h3⟩ := h.words
  exact ⟨⟨ws, h2, h1, h3⟩, h.fails.symm⟩

section
variable {F : Type} [GoMath F] {σ : Type}

theorem readWord_congr {τ : Type} {p q : Pass} (h : scanWords p = scanWords q) (fn : Word → τ → τ × Ctl) (s : τ) : readWord p fn s = readWord q fn s := by
  simp only [readWord, h]

theorem loadCorpus_congr {p q : Pass} (h : scanWords p = scanWords q) (im : Bool) (cfg : CorpusCfg) (w : Option WithCooccurrence) :
    loadCorpus (F := F) im cfg p p w = loadCorpus im cfg q q w := by
  simp only [loadCorpus, memLoad, fsLoad, readWord_congr h, readWordWithForwardContext, h]

theorem fsBatchWords_congr {p q : Pass} (h : scanWords p = scanWords q) (cfg : CorpusCfg) (dic : Dictionary) (b : Int) :
    fsBatchWords cfg dic p b = fsBatchWords cfg dic q b := by
  simp only [fsBatchWords, readWord_congr h]

theorem workerDocs_congr {p q : Pass} (h : scanWords p = scanWords q) (im : Bool) (cfg : CorpusCfg) (c : CorpusState F) (g b : Int) :
    workerDocs im cfg c p g b = workerDocs im cfg c q g b := by
  simp only [workerDocs, fsBatchWords_congr h]

/-- **C107 (word2vec).** `Train` on a document can end in exactly the ways `Train` on any other layout of the same words can: the same errors, the same panics, the same models. -/
theorem C107_word2vec (env : MemEnv F) (lower : Word → Word) (r : σ → F × σ) (o : W2VOptions F) (p q : Pass) (h : SameWords p q) (s : σ) (next : UInt64) (res : Res (W2VModel F)) :
    W2VTrain env lower r o p s next res ↔ W2VTrain env lower r o q s next res := by
  have key : ∀ p q : Pass, SameWords p q → W2VTrain env lower r o p s next res → W2VTrain env lower r o q s next res := by
    intro p q h ht
    have hs := h.scan
    have e : w2vSetup lower r o p p s = w2vSetup lower r o q q s := by simp only [w2vSetup, loadCorpus_congr hs]
    cases ht with
    | setupErr e' h1 => exact .setupErr e' (e ▸ h1)
    | setupPanic x h1 => exact .setupPanic x (e ▸ h1)
    | slicePanic M s' x h1 h2 => exact .slicePanic M s' x (e ▸ h1) (by rw [← workerDocs_congr hs]; exact h2)
    | panics M s' docs x h1 h2 h3 => exact .panics M s' docs x (e ▸ h1) (by rw [← workerDocs_congr hs]; exact h2) h3
    | producerPanic M s' b x h1 h2 h3 h4 => exact .producerPanic M s' b x (e ▸ h1) h2 h3 (by rw [← fsBatchWords_congr hs]; exact h4)
    | done M s' docs mem h1 h2 h3 h4 =>
      exact .done M s' docs mem (e ▸ h1) (by rw [← fsBatchWords_congr hs]; exact h2) (by rw [← workerDocs_congr hs]; exact h3) h4
  exact ⟨key p q h, key q p h.symm⟩

/-- **C107 (LexVec).** -/
theorem C107_lexvec (env : MemEnv F) (lower : Word → Word) (enum : GoMap (BitVec 64) F → List (BitVec 64 × F)) (r : σ → F × σ) (o : LexvecOptions F) (p q : Pass) (h : SameWords p q)
    (s : σ) (next : UInt64) (res : Res (LexModel F)) :
    LexTrain env lower enum r o p s next res ↔ LexTrain env lower enum r o q s next res := by
  have key : ∀ p q : Pass, SameWords p q → LexTrain env lower enum r o p s next res → LexTrain env lower enum r o q s next res := by
    intro p q h ht
    have hs := h.scan
    have e : lexSetup lower enum r o p p s = lexSetup lower enum r o q q s := by simp only [lexSetup, loadCorpus_congr hs]
    cases ht with
    | setupErr e' h1 => exact .setupErr e' (e ▸ h1)
    | setupPanic x h1 => exact .setupPanic x (e ▸ h1)
    | slicePanic M s' x h1 h2 => exact .slicePanic M s' x (e ▸ h1) (by rw [← workerDocs_congr hs]; exact h2)
    | panics M s' docs x h1 h2 h3 h4 => exact .panics M s' docs x (e ▸ h1) (by rw [← workerDocs_congr hs]; exact h2) h3 h4
    | chanPanic M s' h1 h2 h3 h4 => exact .chanPanic M s' (e ▸ h1) h2 h3 h4
    | producerPanic M s' b x h1 h2 h3 h4 h5 => exact .producerPanic M s' b x (e ▸ h1) h2 h3 (by rw [← fsBatchWords_congr hs]; exact h4) h5
    | done M s' docs mem h1 h2 h3 h4 h5 =>
      exact .done M s' docs mem (e ▸ h1) (by rw [← fsBatchWords_congr hs]; exact h2) (by rw [← workerDocs_congr hs]; exact h3) h4 h5
  exact ⟨key p q h, key q p h.symm⟩

/-- **C107 (GloVe).** -/
theorem C107_glove (env : MemEnv F) (lower : Word → Word) (enum : GoMap (BitVec 64) F → List (BitVec 64 × F)) (r : σ → F × σ) (o : GloveOptions F) (p q : Pass) (h : SameWords p q)
    (s : σ) (next : UInt64) (res : Res (GloveModel F)) :
    GloveTrain env lower enum r o p s next res ↔ GloveTrain env lower enum r o q s next res := by
  have key : ∀ p q : Pass, SameWords p q → GloveTrain env lower enum r o p s next res → GloveTrain env lower enum r o q s next res := by
    intro p q h ht
    have hs := h.scan
    have e : gloveSetup lower r o p p s = gloveSetup lower r o q q s := by simp only [gloveSetup, loadCorpus_congr hs]
    cases ht with
    | setupErr e' h1 => exact .setupErr e' (e ▸ h1)
    | setupPanic x h1 => exact .setupPanic x (e ▸ h1)
    | slicePanic M s' x h1 h2 => exact .slicePanic M s' x (e ▸ h1) h2
    | panics M s' docs x h1 h2 h3 => exact .panics M s' docs x (e ▸ h1) h2 h3
    | done M s' docs mem h1 h2 h3 => exact .done M s' docs mem (e ▸ h1) h2 h3
  exact ⟨key p q h, key q p h.symm⟩

/-- The same words on two lines with a tab, and on one line: windows reach across line ends. -/
example : SameWords ⟨['a', '\t', 'b', '\n', '\n', 'c', '\r', '\n'], false⟩ ⟨['a', ' ', 'b', ' ', 'c'], false⟩ :=
  ⟨⟨[['a'], ['b'], ['c']], isWords_fields ['a', '\t', 'b', '\n', '\n', 'c', '\r', '\n'], isWords_fields ['a', ' ', 'b', ' ', 'c'], by decide⟩, rfl⟩
end

/-! ## C108 -/

/-- `q` is `p` with every word lower-cased. -/
structure Lowered (lower : Word → Word) (p q : Pass) : Prop where
  words : ∃ ws, IsWords p.text ws ∧ IsWords q.text (ws.map lower) ∧ ∀ w ∈ ws, utf8Len w ≤ 65533 ∧ utf8Len (lower w) ≤ 65533
  fails : p.fails = q.fails

theorem Lowered.scan {lower : Word → Word} {p q : Pass} (h : Lowered lower p q) :
    (scanWords q).toks = (scanWords p).toks.map lower ∧ (scanWords q).err = (scanWords p).err := by
  obtain ⟨ws, h1, h2, h3⟩ := h.words
  have hs : ∀ w ∈ ws, utf8Len w + 3 ≤ maxTok := fun w hw => by have := (h3 w hw).1; simp [maxTok]; omega
  have hs2 : ∀ w ∈ ws.map lower, utf8Len w + 3 ≤ maxTok := fun w hw => by
    obtain ⟨v, hv, rfl⟩ := List.mem_map.1 hw
    have := (h3 v hv).2; simp [maxTok]; omega
  rw [scanWords_ok 3 (by omega) p (fun c _ => space_utf8Size c) ws h1 hs, scanWords_ok 3 (by omega) q (fun c _ => space_utf8Size c) _ h2 hs2, h.fails]
  exact ⟨rfl, rfl⟩

theorem callEach_map {α β τ : Type} (f : α → β) (fn : β → τ → τ × Ctl) (l : List α) (s : τ) : callEach fn (l.map f) s = callEach (fun a => fn (f a)) l s := by
  induction l generalizing s with
  | nil => rfl
  | cons a l ih =>
    simp only [List.map_cons, callEach]
    congr 1
    funext s'; exact ih s'

theorem readWord_lowered {τ : Type} {lower : Word → Word} {p q : Pass} (h : Lowered lower p q) (fn : Word → τ → τ × Ctl) (s : τ) :
    readWord q fn s = readWord p (fun w => fn (lower w)) s := by
  simp only [readWord, h.scan.1, h.scan.2, callEach_map]

/-- the corpus options with and without `ToLower` -/
def lowCfg (lower : Word → Word) (hi lo : Int) (b : Bool) : CorpusCfg := ⟨b, lower, hi, lo⟩

section
variable {F : Type} [GoMath F] {σ : Type} {lower : Word → Word} {p q : Pass} (h : Lowered lower p q)
include h

theorem memLoad_lowered (hi lo : Int) (w : Option WithCooccurrence) :
    memLoad (F := F) (lowCfg lower hi lo false) q w = memLoad (lowCfg lower hi lo true) p w := by
  simp only [memLoad, readWord_lowered h]; rfl

theorem fsLoad_lowered (hi lo : Int) :
    fsLoad (F := F) (lowCfg lower hi lo false) q q none = fsLoad (lowCfg lower hi lo true) p p none := by
  simp only [fsLoad, readWord_lowered h]; rfl

theorem batch_lowered (hi lo : Int) (dic : Dictionary) (b : Int) :
    fsBatchWords (lowCfg lower hi lo false) dic q b = fsBatchWords (lowCfg lower hi lo true) dic p b := by
  simp only [fsBatchWords, readWord_lowered h]; rfl

theorem docs_lowered (hi lo : Int) (im : Bool) (c : CorpusState F) (g b : Int) :
    workerDocs im (lowCfg lower hi lo false) c q g b = workerDocs im (lowCfg lower hi lo true) c p g b := by
  simp only [workerDocs, batch_lowered h]; rfl

theorem w2vSetup_lowered (r : σ → F × σ) (o : W2VOptions F) (s : σ) :
    w2vSetup lower r { o with toLower := false } q q s = w2vSetup lower r { o with toLower := true } p p s := by
  have e : loadCorpus (F := F) o.docInMemory (lowCfg lower o.maxCount o.minCount false) q q none = loadCorpus o.docInMemory (lowCfg lower o.maxCount o.minCount true) p p none := by
    simp only [loadCorpus, memLoad_lowered h, fsLoad_lowered h]
  unfold w2vSetup
  show loadCorpus (F := F) o.docInMemory (lowCfg lower o.maxCount o.minCount false) q q none >>= _ = loadCorpus (F := F) o.docInMemory (lowCfg lower o.maxCount o.minCount true) p p none >>= _
  rw [e]

theorem lexSetup_lowered (enum : GoMap (BitVec 64) F → List (BitVec 64 × F)) (r : σ → F × σ) (o : LexvecOptions F) (s : σ) (hm : o.docInMemory = true) :
    lexSetup lower enum r { o with toLower := false } q q s = lexSetup lower enum r { o with toLower := true } p p s := by
  have e : ∀ w, loadCorpus (F := F) o.docInMemory (lowCfg lower o.maxCount o.minCount false) q q w = loadCorpus o.docInMemory (lowCfg lower o.maxCount o.minCount true) p p w := by
    intro w
    simp only [loadCorpus, hm, if_true, memLoad_lowered h]
  unfold lexSetup
  show loadCorpus (F := F) o.docInMemory (lowCfg lower o.maxCount o.minCount false) q q _ >>= _ = loadCorpus (F := F) o.docInMemory (lowCfg lower o.maxCount o.minCount true) p p _ >>= _
  rw [e]

theorem gloveSetup_lowered (r : σ → F × σ) (o : GloveOptions F) (s : σ) (hm : o.docInMemory = true) :
    gloveSetup lower r { o with toLower := false } q q s = gloveSetup lower r { o with toLower := true } p p s := by
  have e : ∀ w, loadCorpus (F := F) o.docInMemory (lowCfg lower o.maxCount o.minCount false) q q w = loadCorpus o.docInMemory (lowCfg lower o.maxCount o.minCount true) p p w := by
    intro w
    simp only [loadCorpus, hm, if_true, memLoad_lowered h]
  unfold gloveSetup
  show loadCorpus (F := F) o.docInMemory (lowCfg lower o.maxCount o.minCount false) q q _ >>= _ = loadCorpus (F := F) o.docInMemory (lowCfg lower o.maxCount o.minCount true) p p _ >>= _
  rw [e]

/-- **C108 (word2vec).** `Train` with `ToLower` on a document can end in exactly the ways `Train` without it on the lower-cased document can. -/
theorem C108_word2vec (env : MemEnv F) (r : σ → F × σ) (o : W2VOptions F) (s : σ) (next : UInt64) (res : Res (W2VModel F)) :
    W2VTrain env lower r { o with toLower := true } p s next res ↔ W2VTrain env lower r { o with toLower := false } q s next res := by
  have e := w2vSetup_lowered h r o s
  have d : ∀ c : CorpusState F, workerDocs o.docInMemory ({ o with toLower := false }.corpus lower) c q o.goroutines o.batchSize
      = workerDocs o.docInMemory ({ o with toLower := true }.corpus lower) c p o.goroutines o.batchSize := fun c => docs_lowered h _ _ _ c _ _
  have f : ∀ dic, fsBatchWords ({ o with toLower := false }.corpus lower) dic q o.batchSize = fsBatchWords ({ o with toLower := true }.corpus lower) dic p o.batchSize :=
    fun dic => batch_lowered h _ _ dic _
  constructor
  · intro ht
    cases ht with
    | setupErr e' h1 => exact .setupErr e' (e.trans h1)
    | setupPanic x h1 => exact .setupPanic x (e.trans h1)
    | slicePanic M s' x h1 h2 => exact .slicePanic M s' x (e.trans h1) ((d _).trans h2)
    | panics M s' docs x h1 h2 h3 => exact .panics M s' docs x (e.trans h1) ((d _).trans h2) h3
    | producerPanic M s' b x h1 h2 h3 h4 => exact .producerPanic M s' b x (e.trans h1) h2 h3 ((f _).trans h4)
    | done M s' docs mem h1 h2 h3 h4 =>
      exact .done (o := { o with toLower := false }) M s' docs mem (e.trans h1) (by rw [f]; exact h2) ((d _).trans h3) h4
  · intro ht
    cases ht with
    | setupErr e' h1 => exact .setupErr e' (e.symm.trans h1)
    | setupPanic x h1 => exact .setupPanic x (e.symm.trans h1)
    | slicePanic M s' x h1 h2 => exact .slicePanic M s' x (e.symm.trans h1) ((d _).symm.trans h2)
    | panics M s' docs x h1 h2 h3 => exact .panics M s' docs x (e.symm.trans h1) ((d _).symm.trans h2) h3
    | producerPanic M s' b x h1 h2 h3 h4 => exact .producerPanic M s' b x (e.symm.trans h1) h2 h3 ((f _).symm.trans h4)
    | done M s' docs mem h1 h2 h3 h4 =>
      exact .done (o := { o with toLower := true }) M s' docs mem (e.symm.trans h1) (by rw [← f]; exact h2) ((d _).symm.trans h3) h4

/-- **C108 (LexVec, in memory).** -/
theorem C108_lexvec_partial (env : MemEnv F) (enum : GoMap (BitVec 64) F → List (BitVec 64 × F)) (r : σ → F × σ) (o : LexvecOptions F) (hm : o.docInMemory = true)
    (s : σ) (next : UInt64) (res : Res (LexModel F)) :
    LexTrain env lower enum r { o with toLower := true } p s next res ↔ LexTrain env lower enum r { o with toLower := false } q s next res := by
  have e := lexSetup_lowered h enum r o s hm
  have d : ∀ c : CorpusState F, workerDocs o.docInMemory ({ o with toLower := false }.corpus lower) c q o.goroutines o.batchSize
      = workerDocs o.docInMemory ({ o with toLower := true }.corpus lower) c p o.goroutines o.batchSize := fun c => docs_lowered h _ _ _ c _ _
  constructor
  · intro ht
    cases ht with
    | setupErr e' h1 => exact .setupErr e' (e.trans h1)
    | setupPanic x h1 => exact .setupPanic x (e.trans h1)
    | slicePanic M s' x h1 h2 => exact .slicePanic M s' x (e.trans h1) ((d _).trans h2)
    | panics M s' docs x h1 h2 h3 => exact .panics M s' docs x (e.trans h1) ((d _).trans h2) h3 (.inl hm)
    | chanPanic M s' h1 h2 h3 h4 => exact absurd (hm.symm.trans h2) (by decide)
    | producerPanic M s' b x h1 h2 h3 h4 h5 => exact absurd (hm.symm.trans h2) (by decide)
    | done M s' docs mem h1 h2 h3 h4 h5 =>
      exact .done (o := { o with toLower := false }) M s' docs mem (e.trans h1) (.inl hm) ((d _).trans h3) h4 (.inl hm)
  · intro ht
    cases ht with
    | setupErr e' h1 => exact .setupErr e' (e.symm.trans h1)
    | setupPanic x h1 => exact .setupPanic x (e.symm.trans h1)
    | slicePanic M s' x h1 h2 => exact .slicePanic M s' x (e.symm.trans h1) ((d _).symm.trans h2)
    | panics M s' docs x h1 h2 h3 => exact .panics M s' docs x (e.symm.trans h1) ((d _).symm.trans h2) h3 (.inl hm)
    | chanPanic M s' h1 h2 h3 h4 => exact absurd (hm.symm.trans h2) (by decide)
    | producerPanic M s' b x h1 h2 h3 h4 h5 => exact absurd (hm.symm.trans h2) (by decide)
    | done M s' docs mem h1 h2 h3 h4 h5 =>
      exact .done (o := { o with toLower := true }) M s' docs mem (e.symm.trans h1) (.inl hm) ((d _).symm.trans h3) h4 (.inl hm)

/-- **C108 (GloVe, in memory).** -/
theorem C108_glove_partial (env : MemEnv F) (enum : GoMap (BitVec 64) F → List (BitVec 64 × F)) (r : σ → F × σ) (o : GloveOptions F) (hm : o.docInMemory = true)
    (s : σ) (next : UInt64) (res : Res (GloveModel F)) :
    GloveTrain env lower enum r { o with toLower := true } p s next res ↔ GloveTrain env lower enum r { o with toLower := false } q s next res := by
  have e := gloveSetup_lowered h r o s hm
  constructor
  · intro ht
    cases ht with
    | setupErr e' h1 => exact .setupErr e' (e.trans h1)
    | setupPanic x h1 => exact .setupPanic x (e.trans h1)
    | slicePanic M s' x h1 h2 => exact .slicePanic M s' x (e.trans h1) h2
    | panics M s' docs x h1 h2 h3 => exact .panics M s' docs x (e.trans h1) h2 h3
    | done M s' docs mem h1 h2 h3 => exact .done (o := { o with toLower := false }) M s' docs mem (e.trans h1) h2 h3
  · intro ht
    cases ht with
    | setupErr e' h1 => exact .setupErr e' (e.symm.trans h1)
    | setupPanic x h1 => exact .setupPanic x (e.symm.trans h1)
    | slicePanic M s' x h1 h2 => exact .slicePanic M s' x (e.symm.trans h1) h2
    | panics M s' docs x h1 h2 h3 => exact .panics M s' docs x (e.symm.trans h1) h2 h3
    | done M s' docs mem h1 h2 h3 => exact .done (o := { o with toLower := true }) M s' docs mem (e.symm.trans h1) h2 h3

end

/-- The document `b A` and its lower-cased form. -/
theorem lowered_bA : Lowered lowerCfg.lower ⟨['b', ' ', 'A'], false⟩ ⟨['b', ' ', 'a'], false⟩ :=
  ⟨⟨[['b'], ['A']], isWords_fields ['b', ' ', 'A'], isWords_fields ['b', ' ', 'a'], by decide⟩, rfl⟩

/-- **C108 is false for GloVe and LexVec on a file.** The second pass looks words up as they stand in the file (`fs.go:133-146`): for `b A` with `ToLower` the pair of its two words
is not counted, for `b a` without it is. -/
theorem C108_refuted : ∃ (c c' : CorpusState ℝ) (co co' : Cooccurrence ℝ),
    loadCorpus false ⟨true, lowerCfg.lower, -1, -1⟩ ⟨['b', ' ', 'A'], false⟩ ⟨['b', ' ', 'A'], false⟩ (some ⟨"inc", 1⟩) = .ok c ∧
    loadCorpus false ⟨false, lowerCfg.lower, -1, -1⟩ ⟨['b', ' ', 'a'], false⟩ ⟨['b', ' ', 'a'], false⟩ (some ⟨"inc", 1⟩) = .ok c' ∧
    c.cooc = some co ∧ c'.cooc = some co' ∧ entry co 0 1 = none ∧ entry co' 0 1 = some 1 := by
  have h : Readable ⟨['b', ' ', 'A'], false⟩ [['b'], ['A']] := ⟨isWords_fields ['b', ' ', 'A'], rfl, by decide⟩
  have h' : Readable ⟨['b', ' ', 'a'], false⟩ [['b'], ['a']] := ⟨isWords_fields ['b', ' ', 'a'], rfl, by decide⟩
  obtain ⟨c, co, f1, f2, f3⟩ := C15_fs_cooccurrence ⟨true, lowerCfg.lower, -1, -1⟩ _ _ h 1 (by decide) (by decide)
  obtain ⟨c', co', g1, g2, g3⟩ := C15_fs_cooccurrence ⟨false, lowerCfg.lower, -1, -1⟩ _ _ h' 1 (by decide) (by decide)
  refine ⟨c, c', co, co', f1, g1, f2, g2, ?_, ?_⟩
  · have := f3 0 1 (by decide) (by decide)
    rw [this, if_pos (by decide)]
  · have := g3 0 1 (by decide) (by decide)
    rw [this, if_neg (by decide)]
    have hk : ∀ k : Nat, k = 1 → some (k : ℝ) = some 1 := by rintro _ rfl; simp
    exact hk _ (by decide)

end Wego.Props
