import Verif.Proofs.TrainSys
import Verif.Proofs.Terminate
import Verif.Props.WordVector
import Verif.Props.IndexPerThread
import Verif.Go.LibM

/-! # C67, C68, C73, C74: every interleaving of the loads and stores of the training goroutines

The goroutines are programs of single loads and stores (`Verif/Model/TrainProg.lean`); `Sys.Reach env s₀ s` says that some
schedule leads from `s₀` to `s`, where `env` says what a load may return. `env` is arbitrary in these theorems (a racing
load may return any value at all), so they hold for sequential consistency and for every weaker memory. -/

namespace Wego.Props
open Wego Wego.Matrix Spec
variable {F : Type} {σ : Type}

/-! ## C68 -/

/-- **C68 (word2vec).** For every readable document, option values and random state for which the set-up of `Train` succeeds, either corpus,
any number `n` of iterations (`docs` are the documents the workers of an iteration get), any memory model `env`, any schedule: in every
reachable state the word vector of a word whose count is outside the limits is the one the set-up gave it. -/
theorem C68_word2vec [GoMath F] (lower : Word → Word) (r : σ → F × σ) (o : W2VOptions F) (dim : Nat) (hdim : o.dim = dim)
    (p : Pass) (ws : List Word) (h : Readable p ws) (s s' : σ) (M : W2VModel F) (hM : w2vSetup lower r o p p s = .ok (M, s'))
    (hbs : o.docInMemory = true ∨ 1 ≤ o.batchSize) (docs : List (List Nat))
    (hd : workerDocs o.docInMemory (o.corpus lower) M.corpus p o.goroutines o.batchSize = .ok docs)
    (env : MemEnv F) (next : UInt64) (n : Nat) (st : Sys F) (hst : Sys.Reach env (M.sys o next (List.replicate n docs)) st)
    (w : Word) (hw : w ∈ ws.map (o.corpus lower).norm) (ho : outside o.maxCount o.minCount ((ws.map (o.corpus lower).norm).count w)) :
    (M.after o st.mem).param.rowOf (distinctBefore (ws.map (o.corpus lower).norm) w) =
      M.param.rowOf (distinctBefore (ws.map (o.corpus lower).norm) w) := by
  obtain ⟨f1, f2, f3, ⟨f4, _⟩, f5, f6, f7⟩ := w2vSetup_facts lower r o dim hdim p ws h s s' M hM
  set us := ws.map (o.corpus lower).norm with hus
  have hmem := workerDocs_mem o.docInMemory (o.corpus lower) M.corpus p ws h f2 f1 f3 _ _ hbs docs hd
  have hlen : M.corpus.dic.len = us.dedup.length := f2.len_eq
  have hok := w2v_threads_ok M o dim hdim next (List.replicate n docs) env (fun _ => True) f5 f7 (by
    intro ds hds d hdd id hid
    rw [List.eq_of_mem_replicate hds] at hdd
    rw [hlen]
    exact mem_trainSeq_lt _ _ _ id (hmem d hdd id hid)) (Or.inl fun _ => trivial) (Or.inl trivial) (Or.inl fun _ => trivial) (Or.inl fun _ => trivial)
  have hfr := (Sys.reach_ok hok hst).2
  have hlt : distinctBefore us w < M.corpus.dic.len := by
    rw [hlen, ← idxOf_firstOcc us w hw, ← length_firstOcc]
    exact List.idxOf_lt_length_iff.2 (by simpa using hw)
  have hcol : o.dim.toNat = dim := by rw [hdim]; simp
  have hsh := matrix_shaped st.mem .param M.corpus.dic.len dim
  rw [show (M.after o st.mem).param = st.mem.matrix .param M.corpus.dic.len dim by simp only [W2VModel.after, hcol],
    hsh.rowOf_eq hlt, f4.rowOf_eq hlt]
  refine List.map_congr_left fun j hj => ?_
  have hj' : j < dim := by simpa using hj
  rw [matrix_val _ _ hlt hj', hfr (.param _ j) ?_]
  · simp only [W2VModel.sys, W2VModel.mem]
    exact cellAt_eq f4 hlt hj'
  · rintro ⟨ds, hds, d, hdd, hid⟩
    rw [List.eq_of_mem_replicate hds] at hdd
    exact not_mem_trainSeq _ _ us w hw ho (hmem d hdd _ hid)

/-- **C68 (LexVec).** The same for the word rows of LexVec (its context rows are drawn from all words and may change). -/
theorem C68_lexvec [GoMath F] (lower : Word → Word) (enum : GoMap (BitVec 64) F → List (BitVec 64 × F)) (r : σ → F × σ)
    (o : LexvecOptions F) (dim : Nat) (hdim : o.dim = dim) (hwin : o.docInMemory = true ∨ 1 ≤ o.window)
    (p : Pass) (ws : List Word) (h : Readable p ws) (s s' : σ) (M : LexModel F) (hM : lexSetup lower enum r o p p s = .ok (M, s'))
    (hbs : o.docInMemory = true ∨ 1 ≤ o.batchSize) (hdic : (ws.map (o.corpus lower).norm).dedup.length < 2 ^ 63) (docs : List (List Nat))
    (hd : workerDocs o.docInMemory (o.corpus lower) M.corpus p o.goroutines o.batchSize = .ok docs)
    (env : MemEnv F) (next : UInt64) (n : Nat) (st : Sys F) (hst : Sys.Reach env (M.sys o next (List.replicate n docs)) st)
    (w : Word) (hw : w ∈ ws.map (o.corpus lower).norm) (ho : outside o.maxCount o.minCount ((ws.map (o.corpus lower).norm).count w)) :
    (M.after o st.mem).param.rowOf (distinctBefore (ws.map (o.corpus lower).norm) w) =
      M.param.rowOf (distinctBefore (ws.map (o.corpus lower).norm) w) := by
  obtain ⟨f1, f2, f3, f4, f5⟩ := lexSetup_facts lower enum r o dim hdim hwin p ws h s s' M hM
  set us := ws.map (o.corpus lower).norm with hus
  have hmem := workerDocs_mem o.docInMemory (o.corpus lower) M.corpus p ws h f2 f1 f3 _ _ hbs docs hd
  have hlen : M.corpus.dic.len = us.dedup.length := f2.len_eq
  have hok := lex_threads_ok M o next (List.replicate n docs) env (fun _ => True) f5 (by
    intro ds hds d hdd id hid
    rw [List.eq_of_mem_replicate hds] at hdd
    rw [hlen]
    exact mem_trainSeq_lt _ _ _ id (hmem d hdd id hid)) (Or.inl fun _ => trivial) (by rw [hlen]; exact hdic) (Or.inl fun _ => trivial)
  have hfr := (Sys.reach_ok hok hst).2
  have hlt' : distinctBefore us w < M.corpus.dic.len := by
    rw [hlen, ← idxOf_firstOcc us w hw, ← length_firstOcc]
    exact List.idxOf_lt_length_iff.2 (by simpa using hw)
  have hlt : distinctBefore us w < M.corpus.dic.len * 2 := by omega
  have hcol : o.dim.toNat = dim := by rw [hdim]; simp
  have hsh := matrix_shaped st.mem .param (M.corpus.dic.len * 2) dim
  rw [show (M.after o st.mem).param = st.mem.matrix .param (M.corpus.dic.len * 2) dim by simp only [LexModel.after, hcol],
    hsh.rowOf_eq hlt, f4.rowOf_eq hlt]
  refine List.map_congr_left fun j hj => ?_
  have hj' : j < dim := by simpa using hj
  rw [matrix_val _ _ hlt hj', hfr (.param _ j) ?_]
  · simp only [LexModel.sys, LexModel.mem]
    exact cellAt_eq f4 hlt hj'
  · rintro (⟨ds, hds, d, hdd, hid⟩ | ⟨_, hge⟩)
    · rw [List.eq_of_mem_replicate hds] at hdd
      exact not_mem_trainSeq _ _ us w hw ho (hmem d hdd _ hid)
    · omega

/-! ## C67 -/

/-- The file `text` lists the distinct words of `us` in the order of their first occurrence, each with the row of `m` at its position. -/
def ListsVocabulary (us : List Word) (m : Matrix F64) (text : List Char) : Prop :=
  m.row = (firstOcc us).length ∧ IsSavedFile (firstOcc us) ((List.range (firstOcc us).length).map m.rowOf) text

variable {τ : Type}

theorem saved_vocab (f : Sink τ) (hf : f.Complete) (direct : Bool) (us : List Word) (dic : Dictionary) (hd : addCalls [us] = .ok dic)
    (dim : Nat) (t : Trained) (h : t.OK dic.len dim) (typ : Word) (v : Bool) (lb : Int) (hv : v = false ∨ lb ≠ 0) (b : τ) :
    ∃ m b' text, t.wordVector dic.len dim typ = .ok m ∧ ListsVocabulary us m text ∧ save f direct dic m v lb b = .ok (b', utf8 text) := by
  obtain ⟨m, e, h1, _, b', text, h3, h4⟩ := C43_save_word_vectors f hf direct [us] dic hd dim t h typ v lb hv b
  obtain ⟨d, hd', hr⟩ := addCalls_rep [us]
  rw [hd] at hd'; obtain rfl := Res.ok.inj hd'
  have hl : dic.len = (firstOcc us).length := by rw [hr.len_eq, length_firstOcc]; simp
  simp only [List.flatten_cons, List.flatten_nil, List.append_nil] at h3
  refine ⟨m, b', text, e, ⟨?_, ?_⟩, h4⟩
  · rw [h1, hl]
  · rw [← hl]; exact h3

/-- **C67 (word2vec).** For every readable document and option values for which the set-up succeeds, with either corpus, after any number of
iterations in any schedule, for either vector type (`lib`: whatever `math.Exp` etc. compute): `WordVector` and `Save` succeed and the file lists exactly the distinct normalised
words of the document in the order of their first occurrence (whatever `MinCount`/`MaxCount`). -/
theorem C67_word2vec (lib : LibM) (f : Sink τ) (hf : f.Complete) (direct : Bool) (lower : Word → Word) (r : σ → F64 × σ) (o : W2VOptions F64) (dim : Nat)
    (hdim : o.dim = dim) (p : Pass) (ws : List Word) (h : Readable p ws) (s s' : σ) (M : W2VModel F64)
    (hM : letI := lib.math; w2vSetup lower r o p p s = .ok (M, s')) (env : MemEnv F64) (next : UInt64) (iters : List (List (List Nat))) (st : Sys F64)
    (_hst : Sys.Reach env (M.sys o next iters) st) (typ : Word) (v : Bool) (lb : Int) (hv : v = false ∨ lb ≠ 0) (b : τ) :
    let N := M.after o st.mem
    ∃ m b' text, w2vWordVector N.corpus.dic.len o.dim N.param N.opt typ = .ok m ∧ ListsVocabulary (ws.map (o.corpus lower).norm) m text ∧
      save f direct N.corpus.dic m v lb b = .ok (b', utf8 text) := by
  letI := lib.math
  obtain ⟨f1, _⟩ := w2vSetup_facts lower r o dim hdim p ws h s s' M hM
  have := saved_vocab f hf direct _ M.corpus.dic f1 dim (.w2v (M.after o st.mem).param (M.after o st.mem).opt) (by
    have hcol : o.dim.toNat = dim := by rw [hdim]; simp
    refine ⟨?_, ?_⟩
    · rw [show (M.after o st.mem).param = st.mem.matrix .param M.corpus.dic.len dim by simp only [W2VModel.after, hcol]]
      exact matrix_shaped _ _ _ _
    · intro ng hng
      simp only [W2VModel.after] at hng
      split at hng
      · cases hng
        dsimp only
        rw [hcol]
        exact matrix_shaped _ _ _ _
      · cases hng) typ v lb hv b
  rw [← hdim] at this
  exact this

/-- **C67 (GloVe).** -/
theorem C67_glove (f : Sink τ) (hf : f.Complete) (direct : Bool) (lower : Word → Word) (r : σ → F64 × σ) (o : GloveOptions F64) (dim : Nat)
    (hdim : o.dim = dim) (hwin : o.docInMemory = true ∨ 1 ≤ o.window) (p : Pass) (ws : List Word) (h : Readable p ws) (s s' : σ)
    (M : GloveModel F64) (hM : gloveSetup lower r o p p s = .ok (M, s')) (env : MemEnv F64) (next : UInt64)
    (iters : List (List (List (GItem F64)))) (st : Sys F64)
    (_hst : Sys.Reach env (M.sys o next iters) st) (typ : Word) (v : Bool) (lb : Int) (hv : v = false ∨ lb ≠ 0) (b : τ) :
    let N := M.after o st.mem
    ∃ m b' text, gloveWordVector N.corpus.dic.len o.dim N.param typ = .ok m ∧ ListsVocabulary (ws.map (o.corpus lower).norm) m text ∧
      save f direct N.corpus.dic m v lb b = .ok (b', utf8 text) := by
  obtain ⟨f1, _⟩ := C72_glove_shapes lower r o dim hdim hwin p ws h s s' M hM
  have := saved_vocab f hf direct _ M.corpus.dic f1 dim (.glove (M.after o st.mem).param) (by
    have hcol : o.dim.toNat = dim := by rw [hdim]; simp
    unfold Trained.OK
    dsimp only [GloveModel.after]
    rw [hcol]
    exact matrix_shaped _ _ _ _) typ v lb hv b
  rw [← hdim] at this
  exact this

/-- **C67 (LexVec).** -/
theorem C67_lexvec (lib : LibM) (f : Sink τ) (hf : f.Complete) (direct : Bool) (lower : Word → Word) (enum : GoMap (BitVec 64) F64 → List (BitVec 64 × F64))
    (r : σ → F64 × σ) (o : LexvecOptions F64) (dim : Nat)
    (hdim : o.dim = dim) (hwin : o.docInMemory = true ∨ 1 ≤ o.window) (p : Pass) (ws : List Word) (h : Readable p ws) (s s' : σ)
    (M : LexModel F64) (hM : letI := lib.math; lexSetup lower enum r o p p s = .ok (M, s')) (env : MemEnv F64) (next : UInt64)
    (iters : List (List (List Nat))) (st : Sys F64)
    (_hst : Sys.Reach env (M.sys o next iters) st) (typ : Word) (v : Bool) (lb : Int) (hv : v = false ∨ lb ≠ 0) (b : τ) :
    let N := M.after o st.mem
    ∃ m b' text, lexWordVector N.corpus.dic.len o.dim N.param typ = .ok m ∧ ListsVocabulary (ws.map (o.corpus lower).norm) m text ∧
      save f direct N.corpus.dic m v lb b = .ok (b', utf8 text) := by
  letI := lib.math
  obtain ⟨f1, _⟩ := lexSetup_facts lower enum r o dim hdim hwin p ws h s s' M hM
  have := saved_vocab f hf direct _ M.corpus.dic f1 dim (.lexvec (M.after o st.mem).param) (by
    have hcol : o.dim.toNat = dim := by rw [hdim]; simp
    unfold Trained.OK
    dsimp only [LexModel.after]
    rw [hcol]
    exact matrix_shaped _ _ _ _) typ v lb hv b
  rw [← hdim] at this
  exact this

/-! ## C73 -/

/-- **C73 (word2vec).** With valid options (`1 <= window < 2^63`, `UpdateLRBatch` not 0), real arithmetic, every readable document of fewer than
`2^63` distinct words, either corpus, model and optimizer: no schedule makes a worker or observer goroutine panic, whatever
values racing loads return. -/
theorem C73_word2vec_no_panic (lower : Word → Word) (r : σ → ℝ × σ) (o : W2VOptions ℝ) (dim : Nat) (hdim : o.dim = dim)
    (hw1 : 1 ≤ o.window) (hw2 : o.window < 2 ^ 63) (hu : o.updateLRBatch ≠ 0)
    (p : Pass) (ws : List Word) (h : Readable p ws) (hdic : (ws.map (o.corpus lower).norm).dedup.length < 2 ^ 63)
    (s s' : σ) (M : W2VModel ℝ) (hM : w2vSetup lower r o p p s = .ok (M, s'))
    (hbs : o.docInMemory = true ∨ 1 ≤ o.batchSize) (docs : List (List Nat))
    (hd : workerDocs o.docInMemory (o.corpus lower) M.corpus p o.goroutines o.batchSize = .ok docs)
    (env : MemEnv ℝ) (next : UInt64) (n : Nat) (st : Sys ℝ) (hst : Sys.Reach env (M.sys o next (List.replicate n docs)) st) :
    ¬ st.Crashed := by
  obtain ⟨f1, f2, f3, ⟨f4, _⟩, f5, f6, f7⟩ := w2vSetup_facts lower r o dim hdim p ws h s s' M hM
  have hmem := workerDocs_mem o.docInMemory (o.corpus lower) M.corpus p ws h f2 f1 f3 _ _ hbs docs hd
  have hlen : M.corpus.dic.len = (ws.map (o.corpus lower).norm).dedup.length := f2.len_eq
  have hsafe : SigSafe M.table := by
    have := sigSafe_real
    generalize (sigTable : List ℝ) = tb at f6 this
    rw [f6]; exact this
  exact Sys.reach_no_crash (w2v_threads_ok M o dim hdim next (List.replicate n docs) env (fun _ => False) f5 f7 (by
    intro ds hds d hdd id hid
    rw [List.eq_of_mem_replicate hds] at hdd
    rw [hlen]
    exact mem_trainSeq_lt _ _ _ id (hmem d hdd id hid)) (Or.inr ⟨hw1, hw2⟩) (Or.inr hsafe) (Or.inr (by rw [hlen]; exact hdic)) (Or.inr hu)) hst

/-- **C73 (LexVec).** The same for LexVec in any arithmetic. -/
theorem C73_lexvec_no_panic [GoMath F] (lower : Word → Word) (enum : GoMap (BitVec 64) F → List (BitVec 64 × F)) (r : σ → F × σ)
    (o : LexvecOptions F) (dim : Nat) (hdim : o.dim = dim) (hw1 : 1 ≤ o.window) (hw2 : o.window < 2 ^ 63) (hu : o.updateLRBatch ≠ 0)
    (p : Pass) (ws : List Word) (h : Readable p ws) (hdic : (ws.map (o.corpus lower).norm).dedup.length < 2 ^ 63)
    (s s' : σ) (M : LexModel F) (hM : lexSetup lower enum r o p p s = .ok (M, s'))
    (hbs : o.docInMemory = true ∨ 1 ≤ o.batchSize) (docs : List (List Nat))
    (hd : workerDocs o.docInMemory (o.corpus lower) M.corpus p o.goroutines o.batchSize = .ok docs)
    (env : MemEnv F) (next : UInt64) (n : Nat) (st : Sys F) (hst : Sys.Reach env (M.sys o next (List.replicate n docs)) st) :
    ¬ st.Crashed := by
  obtain ⟨f1, f2, f3, f4, f5⟩ := lexSetup_facts lower enum r o dim hdim (Or.inr hw1) p ws h s s' M hM
  have hmem := workerDocs_mem o.docInMemory (o.corpus lower) M.corpus p ws h f2 f1 f3 _ _ hbs docs hd
  have hlen : M.corpus.dic.len = (ws.map (o.corpus lower).norm).dedup.length := f2.len_eq
  exact Sys.reach_no_crash (lex_threads_ok M o next (List.replicate n docs) env (fun _ => False) f5 (by
    intro ds hds d hdd id hid
    rw [List.eq_of_mem_replicate hds] at hdd
    rw [hlen]
    exact mem_trainSeq_lt _ _ _ id (hmem d hdd id hid)) (Or.inr ⟨hw1, hw2⟩) (by rw [hlen]; exact hdic) (Or.inr hu)) hst

/-- **C73 (GloVe).** The same for GloVe in any arithmetic, either solver, either count type, any enumeration order of the map (at most `2^32`
words; a non-empty document if file-backed). -/
theorem C73_glove_no_panic [GoMath F] (lower : Word → Word) (enum : GoMap (BitVec 64) F → List (BitVec 64 × F)) (henum : ∀ m, (enum m).Perm m)
    (r : σ → F × σ) (o : GloveOptions F) (hwin : o.docInMemory = true ∨ 1 ≤ o.window)
    (p : Pass) (ws : List Word) (h : Readable p ws) (hne : o.docInMemory = true ∨ ws ≠ [])
    (hdic : (ws.map (o.corpus lower).norm).dedup.length ≤ 2 ^ 32)
    (s s' : σ) (M : GloveModel F) (hM : gloveSetup lower r o p p s = .ok (M, s'))
    (slices : List (List (GItem F))) (hs : gloveSlices M o enum = .ok slices)
    (env : MemEnv F) (next : UInt64) (n : Nat) (st : Sys F) (hst : Sys.Reach env (M.sys o next (List.replicate n slices)) st) :
    ¬ st.Crashed := by
  have hit := gloveSlices_ok lower r o hwin p ws h hne hdic s s' M hM enum henum slices hs
  exact Sys.reach_no_crash (glove_threads_ok M o next (List.replicate n slices) env (fun _ => False) (by
    intro sl hsl a ha it hi
    rw [List.eq_of_mem_replicate hsl] at ha
    exact hit a ha it hi)) hst

/-! ## C74 -/

/-- **C74.** For every system of training goroutines and every memory model: there is no infinite schedule; and a state in which no goroutine
can move is one where all have returned, unless one has panicked (which C73 excludes). -/
theorem C74_every_schedule_ends (env : MemEnv F) (he : env.Total) :
    (∀ f : Nat → Sys F, ¬ ∀ n, Sys.Step env (f n) (f (n + 1))) ∧
    (∀ s : Sys F, ¬ s.Crashed → (∀ t, ¬ Sys.Step env s t) → s.Done) :=
  ⟨fun f => Sys.no_infinite f, fun s hc hs => (Sys.progress he s hs).resolve_right hc⟩

/-! ## The hypotheses are met

The document `a b a` with the default options (any machine, either corpus), `MinCount` 2 and `ToLower` off: `b` is outside the limits. -/

/-- documents for the workers always exist: file-backed any batch size, in memory any `Goroutines >= 1` -/
theorem workerDocs_exist [GoMath F] (lower : Word → Word) (r : σ → F × σ) (o : W2VOptions F) (dim : Nat) (hdim : o.dim = dim)
    (p : Pass) (ws : List Word) (h : Readable p ws) (s s' : σ) (M : W2VModel F) (hM : w2vSetup lower r o p p s = .ok (M, s'))
    (g : Nat) (hg : o.goroutines = g) (hg1 : 1 ≤ g) (hb : ws.length + g ≤ 2 ^ 53) :
    ∃ docs, workerDocs o.docInMemory (o.corpus lower) M.corpus p o.goroutines o.batchSize = .ok docs := by
  obtain ⟨_, _, f3, _⟩ := w2vSetup_facts lower r o dim hdim p ws h s s' M hM
  unfold workerDocs
  cases hm : o.docInMemory with
  | false => exact ⟨_, rfl⟩
  | true =>
    simp only [if_true]
    rw [f3 hm, Res.ok_bind, hg]
    have hl : (trainSeq o.maxCount o.minCount (ws.map (o.corpus lower).norm)).length + g ≤ 2 ^ 53 := by
      have : (trainSeq o.maxCount o.minCount (ws.map (o.corpus lower).norm)).length ≤ ws.length := by
        unfold trainSeq
        rw [List.length_map]
        exact (List.length_filter_le _ _).trans (by simp)
      omega
    obtain ⟨v, ps, e1, e2, _⟩ := C25_slices_partition (trainSeq o.maxCount o.minCount (ws.map (o.corpus lower).norm)) g hg1 hl
    exact ⟨ps, by rw [e1, Res.ok_bind, Int.toNat_natCast, e2]⟩

example (im : Bool) (r : σ → ℝ × σ) (s : σ) :
    let o : W2VOptions ℝ := { W2VOptions.default 4 with docInMemory := im, minCount := 2 }
    let p : Pass := ⟨['a', ' ', 'b', ' ', 'a'], false⟩
    ∃ M s' docs, Readable p [['a'], ['b'], ['a']] ∧ w2vSetup id r o p p s = .ok (M, s') ∧
      workerDocs o.docInMemory (o.corpus id) M.corpus p o.goroutines o.batchSize = .ok docs ∧
      o.dim = (10 : Nat) ∧ 1 ≤ o.window ∧ o.window < 2 ^ 63 ∧ o.updateLRBatch ≠ 0 ∧ 1 ≤ o.batchSize ∧
      ['b'] ∈ [['a'], ['b'], ['a']].map (o.corpus id).norm ∧
      outside o.maxCount o.minCount (([['a'], ['b'], ['a']].map (o.corpus id).norm).count ['b']) ∧
      ¬ outside o.maxCount o.minCount (([['a'], ['b'], ['a']].map (o.corpus id).norm).count ['a']) := by
  intro o p
  have hp : Readable p [['a'], ['b'], ['a']] := ⟨isWords_fields ['a',' ','b',' ','a'], rfl, by decide⟩
  have hgor : o.goroutines = (4 : Nat) := rfl
  obtain ⟨M, s', e, _⟩ := C72_word2vec_starts (F := ℝ) id r o 10 rfl (by rw [hgor]; omega) (Or.inr rfl) (Or.inl rfl) p _ hp s
  obtain ⟨docs, hd⟩ := workerDocs_exist id r o 10 rfl p _ hp s s' M e 4 rfl (by omega) (by norm_num)
  have hn : [['a'], ['b'], ['a']].map (o.corpus id).norm = [['a'], ['b'], ['a']] := rfl
  refine ⟨M, s', docs, hp, e, hd, rfl, ?_, ?_, ?_, ?_, ?_, ?_, ?_⟩
  · show (1 : Int) ≤ 5; omega
  · show (5 : Int) < 2 ^ 63; omega
  · show (100000 : Int) ≠ 0; omega
  · show (1 : Int) ≤ 10000; omega
  · rw [hn]; decide
  · rw [hn]; show outside (-1) 2 _; decide
  · rw [hn]; show ¬ outside (-1) 2 _; decide

/-- A memory model under which every load is possible (sequential consistency is another one). -/
example : (MemEnv.sc (F := F) (fun _ => True) (fun _ _ => True)).Total ↔ Nonempty F := by
  constructor
  · rintro ⟨_, _, ⟨v, _⟩, _⟩; exact ⟨v⟩
  · rintro ⟨v⟩; exact ⟨fun m l => ⟨m.cell l, rfl⟩, fun m => ⟨m.next, rfl⟩, ⟨v, trivial⟩, fun _ => ⟨[], trivial⟩⟩

end Wego.Props
