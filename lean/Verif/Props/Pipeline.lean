import Verif.Proofs.Pipeline

/-! # C83: a training command followed by a query command -/

namespace Wego.Props
open Wego Wego.Spec
variable {σ : Type}

/-- What a training command that succeeded leaves behind: the output file lists exactly the distinct words `us` of the corpus, in order of first occurrence, each with
`dim` values, and the query command with rank `k >= 1` on that file succeeds exactly for those words (if no line of the file is 64 KiB or longer; else it fails for
every word), reporting only other words of the corpus. -/
def Queryable (other : Word → Option F64) (us : List Word) (dim : Nat) (output : Path) (fs : FS) : Prop :=
  ∃ m text, fs output = some (.file text) ∧ ListsVocabulary us m text ∧ m.col = dim ∧
    (∀ w k, 1 ≤ k → ((∃ res, queryExecute other fs false false output [w] k = .ok res) ↔
      w ∈ us ∧ ∀ lines, RawLines text lines → ∀ l ∈ lines, utf8Len l < 65536)) ∧
    ∀ w k res, 1 ≤ k → queryExecute other fs false false output [w] k = .ok res → ∀ n ∈ res, n.word ≠ [] → n.word ∈ us ∧ n.word ≠ w

theorem pipeline_core (other : Word → Option F64) (us : List Word) (hw : ∀ w ∈ us, w ≠ [] ∧ ∀ c ∈ w, isSpace c = false) (dic : Dictionary)
    (hd : addCalls [us] = .ok dic) (dim : Nat) (h1 : 1 ≤ dim) (t : Trained) (h : t.OK dic.len dim) (typ : Word) (v : Bool) (lb : Int) (text : List Char)
    (hs : saveOutcome dic (t.wordVector dic.len dim typ) v lb = .saved text (.ok ())) (fs : FS) (output : Path) (hfs : fs output = some (.file text)) :
    Queryable other us dim output fs := by
  obtain ⟨d, hd', hr⟩ := addCalls_rep [us]
  rw [hd] at hd'; obtain rfl := Res.ok.inj hd'
  have hfl : [us].flatten = us := by simp
  rw [hfl] at hr
  have hl : dic.len = (firstOcc us).length := by rw [hr.len_eq, length_firstOcc]
  have key : ∃ m, t.wordVector dic.len dim typ = .ok m ∧ Matrix.Shaped m dic.len dim := by
    have : ∃ m, t.wordVector dic.len dim typ = .ok m ∧ m.row = dic.len ∧ m.col = dim ∧ m.array.length = dic.len * dim := by
      cases t with
      | w2v p o => exact C43_word2vec_shape _ _ p o h typ
      | glove p => exact C43_glove_shape _ _ p h typ
      | lexvec p => exact C43_lexvec_shape _ _ p h typ
    obtain ⟨m, e, a, b, c⟩ := this
    exact ⟨m, e, ⟨a, b, c⟩⟩
  obtain ⟨m, e, hm⟩ := key
  unfold saveOutcome at hs
  rw [e, Res.ok_bind] at hs
  have hst : saveText dic m v lb = .ok text := by
    cases hx : saveText dic m v lb with
    | ok x => rw [hx] at hs; cases hs; rfl
    | err x => rw [hx] at hs; cases hs
    | panic x => rw [hx] at hs; cases hs
  have hm1 : Matrix.Shaped m (firstOcc us).length dim := by rw [← hl]; exact hm
  have ht : saveText dic m false 0 = .ok text := saveText_verbose hr hm1 v lb text hst
  have hm2 : Matrix.Shaped m us.dedup.length dim := by rw [← hr.len_eq]; exact hm
  have hm3 : Matrix.Shaped m [us].flatten.dedup.length dim := by rw [hfl]; exact hm2
  have hw3 : ∀ w ∈ [us].flatten, w ≠ [] ∧ ∀ c ∈ w, isSpace c = false := by rw [hfl]; exact hw
  have hread : fs.read output = text := by simp [FS.read, hfs]
  have hgood : ∀ w k, 1 ≤ k → w ∈ us → (∀ lines, RawLines text lines → ∀ l ∈ lines, utf8Len l < 65536) →
      ∃ res, queryExecute other fs false false output [w] k = .ok res ∧ ∀ n ∈ res, n.word ≠ [] → n.word ∈ us ∧ n.word ≠ w := by
    intro w k hk hwm hlines
    obtain ⟨embs, q, res, rest, -, -, -, -, e5, -, -, -, -, -, e6⟩ :=
      C79_query_after_save other [us] dic hd hw3 m dim h1 hm3 text ht hlines fs output hfs w (by rw [hfl]; exact hwm) k hk
    rw [hfl] at e6
    exact ⟨res, e5, fun n hn hne => e6 n (List.mem_filter.2 ⟨hn, by simpa using hne⟩)⟩
  have hiff : ∀ w k, 1 ≤ k → ((∃ res, queryExecute other fs false false output [w] k = .ok res) ↔
      w ∈ us ∧ ∀ lines, RawLines text lines → ∀ l ∈ lines, utf8Len l < 65536) := by
    intro w k hk
    constructor
    · rintro ⟨res, hres⟩
      have hnerr : ¬ ∃ e, queryExecute other fs false false output [w] k = .err e := by
        rintro ⟨e, he⟩; rw [hres] at he; cases he
      rw [(C79_query_fails_iff other fs false false output [w] k hk).2, hread] at hnerr
      push Not at hnerr
      obtain ⟨-, -, -, ⟨embs, hload⟩, hn⟩ := hnerr
      have hlines : ∀ lines, RawLines text lines → ∀ l ∈ lines, utf8Len l < 65536 := by
        intro lines hlr l hll
        by_contra hge
        obtain ⟨e, he⟩ := C49_otherwise_fails other [us] dic hd hw3 m dim hm3 text ht (.inr ⟨lines, hlr, l, hll, by omega⟩)
        rw [hload] at he; cases he
      obtain ⟨embs', hload', hwords, -⟩ := C49_round_trip other [us] dic hd hw3 m dim h1 hm3 text ht hlines
      rw [hload] at hload'; cases hload'
      obtain ⟨x, hx, hxw⟩ := (hn embs hload).2 w rfl
      have : w ∈ embs.map (·.word) := List.mem_map.2 ⟨x, hx, hxw⟩
      rw [hwords, hfl] at this
      exact ⟨(mem_firstOcc _ _).1 this, hlines⟩
    · rintro ⟨hwm, hlines⟩
      obtain ⟨res, e, _⟩ := hgood w k hk hwm hlines
      exact ⟨res, e⟩
  refine ⟨m, text, hfs, ⟨by rw [hm.row, hl], ?_⟩, hm.col, hiff, ?_⟩
  · have e1 := saveText_eq hr hm1 false 0 (by simp)
    rw [ht] at e1
    rw [Res.ok.inj e1]
    exact isSavedFile_fileText _ _ (by simp [rowsOf])
  · intro w k res hk hres
    obtain ⟨hwm, hlines⟩ := (hiff w k hk).1 ⟨res, hres⟩
    obtain ⟨res', e, h2⟩ := hgood w k hk hwm hlines
    rw [hres] at e; cases e
    exact h2

/-- `run` does with `content` what the word2vec training command does with the text of its input: some execution of `Train` with options `o`, then `Save` with vector type `typ`. -/
def RunsW2V (lib : LibM) (env : MemEnv F64) (lower : Word → Word) (r : σ → F64 × σ) (o : W2VOptions F64) (s : σ) (next : UInt64) (typ : Word)
    (run : List Char → TrainOutcome) (content : List Char) : Prop :=
  letI := lib.math
  ∃ res, W2VTrain env lower r o ⟨content, false⟩ s next res ∧ run content = w2vOutcome o typ res

/-- the same for the GloVe training command -/
def RunsGlove (lib : LibM) (env : MemEnv F64) (lower : Word → Word) (enum : GoMap (BitVec 64) F64 → List (BitVec 64 × F64)) (r : σ → F64 × σ) (o : GloveOptions F64) (s : σ)
    (next : UInt64) (typ : Word) (run : List Char → TrainOutcome) (content : List Char) : Prop :=
  letI := lib.math
  ∃ res, GloveTrain env lower enum r o ⟨content, false⟩ s next res ∧ run content = gloveOutcome o typ res

/-- the same for the LexVec training command -/
def RunsLex (lib : LibM) (env : MemEnv F64) (lower : Word → Word) (enum : GoMap (BitVec 64) F64 → List (BitVec 64 × F64)) (r : σ → F64 × σ) (o : LexvecOptions F64) (s : σ)
    (next : UInt64) (typ : Word) (run : List Char → TrainOutcome) (content : List Char) : Prop :=
  letI := lib.math
  ∃ res, LexTrain env lower enum r o ⟨content, false⟩ s next res ∧ run content = lexOutcome o typ res

/-- lower-casing maps words to words -/
def KeepsWords (lower : Word → Word) : Prop := ∀ w : Word, w ≠ [] → (∀ c ∈ w, isSpace c = false) → lower w ≠ [] ∧ ∀ c ∈ lower w, isSpace c = false

variable (lib : LibM) (menv : MemEnv F64) (other : Word → Option F64) (env : Env) (lower : Word → Word) (hlow : KeepsWords lower)
  (enum : GoMap (BitVec 64) F64 → List (BitVec 64 × F64)) (r : σ → F64 × σ) (dim : Nat) (h1 : 1 ≤ dim) (s : σ) (next : UInt64) (typ : Word)
  (input output : Path) (fs : FS) (ws : List Word) (hr : Readable ⟨fs.read input, false⟩ ws) (run : List Char → TrainOutcome)
include hlow h1 hr

/-- **C83 (word2vec).** -/
theorem C83_word2vec (o : W2VOptions F64) (hdim : o.dim = dim) (hrun : RunsW2V lib menv lower r o s next typ run (fs.read input))
    (hok : (execute env false input output run fs).2 = .ok ()) :
    Queryable other (ws.map (o.corpus lower).norm) dim output (execute env false input output run fs).1 := by
  let _ := lib.math
  obtain ⟨-, -, content, e1, e2⟩ := C64_success env input output run fs hok
  obtain ⟨res, ht, e3⟩ := hrun
  rw [e1] at e3
  have hw := norm_words hr (o.corpus lower) hlow
  have hcol : o.dim.toNat = dim := by rw [hdim]; simp
  cases ht with
  | setupErr e h => cases e3
  | setupPanic x h => cases e3
  | slicePanic M s' x h hd => cases e3
  | panics M s' docs x h hd hi => cases e3
  | producerPanic M s' b x h hm hi hp => cases e3
  | done M s' docs mem h hp hd hi =>
    obtain ⟨f1, _⟩ := w2vSetup_facts lower r o dim hdim _ ws hr s s' M h
    refine pipeline_core other _ hw M.corpus.dic f1 dim h1 (.w2v (M.after o mem).param (M.after o mem).opt) ?_ typ o.verbose o.logBatch content ?_ _ output e2
    · refine ⟨?_, ?_⟩
      · rw [show (M.after o mem).param = mem.matrix .param M.corpus.dic.len dim by simp only [W2VModel.after, hcol]]
        exact matrix_shaped _ _ _ _
      · intro ng hng
        simp only [W2VModel.after] at hng
        split at hng
        · cases hng
          dsimp only
          rw [hcol]
          exact matrix_shaped _ _ _ _
        · cases hng
    · rw [← hdim]; exact e3.symm

/-- **C83 (GloVe).** File-backed, the window must be at least 1. -/
theorem C83_glove (o : GloveOptions F64) (hdim : o.dim = dim) (hwin : o.docInMemory = true ∨ 1 ≤ o.window)
    (hrun : RunsGlove lib menv lower enum r o s next typ run (fs.read input)) (hok : (execute env false input output run fs).2 = .ok ()) :
    Queryable other (ws.map (o.corpus lower).norm) dim output (execute env false input output run fs).1 := by
  let _ := lib.math
  obtain ⟨-, -, content, e1, e2⟩ := C64_success env input output run fs hok
  obtain ⟨res, ht, e3⟩ := hrun
  rw [e1] at e3
  have hw := norm_words hr (o.corpus lower) hlow
  have hcol : o.dim.toNat = dim := by rw [hdim]; simp
  cases ht with
  | setupErr e h => cases e3
  | setupPanic x h => cases e3
  | slicePanic M s' x h hd => cases e3
  | panics M s' docs x h hd hi => cases e3
  | done M s' docs mem h hd hi =>
    obtain ⟨f1, _⟩ := C72_glove_shapes lower r o dim hdim hwin _ ws hr s s' M h
    refine pipeline_core other _ hw M.corpus.dic f1 dim h1 (.glove (M.after o mem).param) ?_ typ o.verbose o.logBatch content ?_ _ output e2
    · unfold Trained.OK
      dsimp only [GloveModel.after]
      rw [hcol]
      exact matrix_shaped _ _ _ _
    · rw [← hdim]; exact e3.symm

/-- **C83 (LexVec).** -/
theorem C83_lexvec (o : LexvecOptions F64) (hdim : o.dim = dim) (hwin : o.docInMemory = true ∨ 1 ≤ o.window)
    (hrun : RunsLex lib menv lower enum r o s next typ run (fs.read input)) (hok : (execute env false input output run fs).2 = .ok ()) :
    Queryable other (ws.map (o.corpus lower).norm) dim output (execute env false input output run fs).1 := by
  let _ := lib.math
  obtain ⟨-, -, content, e1, e2⟩ := C64_success env input output run fs hok
  obtain ⟨res, ht, e3⟩ := hrun
  rw [e1] at e3
  have hw := norm_words hr (o.corpus lower) hlow
  have hcol : o.dim.toNat = dim := by rw [hdim]; simp
  cases ht with
  | setupErr e h => cases e3
  | setupPanic x h => cases e3
  | slicePanic M s' x h hd => cases e3
  | panics M s' docs x h hd hi => cases e3
  | chanPanic M s' h hm hi hg => cases e3
  | producerPanic M s' b x h hm hi hp => cases e3
  | done M s' docs mem h hp hd hi =>
    obtain ⟨f1, _⟩ := lexSetup_facts lower enum r o dim hdim hwin _ ws hr s s' M h
    refine pipeline_core other _ hw M.corpus.dic f1 dim h1 (.lexvec (M.after o mem).param) ?_ typ o.verbose o.logBatch content ?_ _ output e2
    · unfold Trained.OK
      dsimp only [LexModel.after]
      rw [hcol]
      exact matrix_shaped _ _ _ _
    · rw [← hdim]; exact e3.symm

end Wego.Props
