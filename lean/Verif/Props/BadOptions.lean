import Verif.Props.ObjectUntrained
import Verif.Props.TrainOk

/-! # C90: numeric options outside their range -/

namespace Wego.Props
open Wego Wego.Spec
variable {F : Type} {σ : Type}

theorem randMatrix_neg [GoFloat F] (r : σ → F × σ) (f : F → F) (rows col : Int) (h1 : 0 < rows) (h2 : col < 0) (s : σ) :
    randMatrix r f rows col s = .panic .makeNegLen := by
  unfold randMatrix Matrix.new
  rw [if_pos (by nlinarith)]

theorem len_pos {us : List Word} {d : Dictionary} (h : addCalls [us] = .ok d) (hne : us ≠ []) : (0 : Int) < d.len := by
  obtain ⟨d', hd', hr⟩ := addCalls_rep [us]
  rw [h] at hd'; obtain rfl := Res.ok.inj hd'
  rw [hr.len_eq]
  obtain ⟨w, l, rfl⟩ := List.exists_cons_of_ne_nil hne
  have : w ∈ ([w :: l].flatten).dedup := by simp
  have := List.length_pos_of_mem this
  exact_mod_cast this

theorem indexPerThread_neg (g : Int) (n : Nat) (h : g < 0) : ∃ x, indexPerThread g n = .panic x := by
  unfold indexPerThread
  split
  · exact ⟨_, rfl⟩
  · obtain rfl : g = -1 := by omega
    exact ⟨.indexOutOfRange, rfl⟩

theorem workerDocs_flatten [GoFloat F] (im : Bool) (cfg : CorpusCfg) (c : CorpusState F) (p : Pass) (ws : List Word) (h : Readable p ws)
    (hadd : addCalls [ws.map cfg.norm] = .ok c.dic) (hdoc : im = true → memIndexedDoc cfg c = .ok (trainSeq cfg.maxCount cfg.minCount (ws.map cfg.norm)))
    (goroutines batchSize : Int) (hg : 1 ≤ goroutines) (hb : (ws.length : Int) + goroutines ≤ 2 ^ 53) (hbs : im = true ∨ 1 ≤ batchSize) :
    ∃ docs, workerDocs im cfg c p goroutines batchSize = .ok docs ∧ docs.flatten = trainSeq cfg.maxCount cfg.minCount (ws.map cfg.norm) := by
  obtain ⟨g, rfl⟩ := Int.eq_ofNat_of_zero_le (by omega : 0 ≤ goroutines)
  unfold workerDocs
  cases im with
  | false =>
    simp only [Bool.false_eq_true, if_false, false_or] at hbs ⊢
    obtain ⟨b, rfl⟩ := Int.eq_ofNat_of_zero_le (by omega : 0 ≤ batchSize)
    obtain ⟨full, last, e, _, _, hf⟩ := C12_batches cfg p ws h c.dic hadd b (by omega)
    refine ⟨_, rfl, ?_⟩
    rw [e, ← hf]
    have hs : ∀ l : List (List Nat), sentBatches (l.map ChanEv.send ++ [.send last, .close]) = l ++ [last] := by
      intro l
      induction l with
      | nil => rfl
      | cons a l ih => simpa [sentBatches] using ih
    rw [hs]; simp
  | true =>
    simp only [if_true]
    rw [hdoc rfl, Res.ok_bind]
    have hl : (trainSeq cfg.maxCount cfg.minCount (ws.map cfg.norm)).length + g ≤ 2 ^ 53 := by
      have : (trainSeq cfg.maxCount cfg.minCount (ws.map cfg.norm)).length ≤ ws.length := by
        unfold trainSeq
        rw [List.length_map]
        exact (List.length_filter_le _ _).trans (by simp)
      omega
    obtain ⟨v, ps, e1, e2, _, e3⟩ := C25_slices_partition (trainSeq cfg.maxCount cfg.minCount (ws.map cfg.norm)) g (by omega) hl
    exact ⟨ps, by rw [e1, Res.ok_bind, Int.toNat_natCast, e2], e3⟩

/-- with `UpdateLRBatch = 0` the observer panics on its first word -/
theorem observer_zero [GoFloat F] (cfg : LrCfg F) (hu : cfg.updateLRBatch = 0) (n : Nat) (hn : 1 ≤ n) : observerP cfg n = .panic .divByZero := by
  obtain ⟨n, rfl⟩ := Nat.exists_eq_add_of_le' hn
  unfold observerP Prog.forP Prog.forFromP
  simp only [lrDue, if_pos hu]
  rfl

theorem sum_pos_of_flatten {l : List (List Nat)} {t : List Nat} (h : l.flatten = t) (hne : t ≠ []) : 1 ≤ (l.map List.length).sum := by
  rw [← List.length_flatten, h]
  exact List.length_pos_iff.2 hne

section word2vec
variable [GoMath F] (menv : MemEnv F) (lower : Word → Word) (r : σ → F × σ) (o : W2VOptions F) (p : Pass) (ws : List Word) (h : Readable p ws) (s : σ) (next : UInt64)
include h

theorem w2v_setup_panic {x : Panic} (hs : w2vSetup lower r o p p s = .panic x) (res : Res (W2VModel F)) : W2VTrain menv lower r o p s next res ↔ res = .panic x := by
  constructor
  · intro ht
    cases ht with
    | setupErr e h => rw [hs] at h; cases h
    | setupPanic y h => rw [hs] at h; cases h; rfl
    | slicePanic M s' y h hd => rw [hs] at h; cases h
    | panics M s' docs y h hd hi => rw [hs] at h; cases h
    | producerPanic M s' b y h hm hi hp => rw [hs] at h; cases h
    | done M s' docs mem h hp hd hi => rw [hs] at h; cases h
  · rintro rfl; exact .setupPanic x hs

/-- **C90 (word2vec, negative `Dim`).** On a corpus with at least one word the only result is a panic. -/
theorem C90_word2vec_dim (hne : ws ≠ []) (hdim : o.dim < 0) (res : Res (W2VModel F)) :
    W2VTrain menv lower r o p s next res ↔ res = .panic .makeNegLen := by
  refine w2v_setup_panic menv lower r o p ws h s next ?_ res
  obtain ⟨c, hc, hd⟩ := w2v_load_readable (F := F) o.docInMemory (o.corpus lower) p ws h
  unfold w2vSetup
  rw [hc, Res.ok_bind, randMatrix_neg _ _ _ _ (len_pos hd (by simpa using hne)) hdim]
  rfl

/-- **C90 (word2vec, negative `Goroutines`).** -/
theorem C90_word2vec_goroutines (hdim : 0 ≤ o.dim) (hg : o.goroutines < 0) (hm : o.modelType = "skipgram".toList ∨ o.modelType = "cbow".toList)
    (res : Res (W2VModel F)) : W2VTrain menv lower r o p s next res ↔ res = .panic .makeNegLen := by
  refine w2v_setup_panic menv lower r o p ws h s next ?_ res
  obtain ⟨c, hc, hd⟩ := w2v_load_readable (F := F) o.docInMemory (o.corpus lower) p ws h
  obtain ⟨d', hd', hr⟩ := addCalls_rep [ws.map (o.corpus lower).norm]
  rw [hd] at hd'; obtain rfl := Res.ok.inj hd'
  obtain ⟨d, hdd⟩ := Int.eq_ofNat_of_zero_le hdim
  obtain ⟨m, s1, e1, _⟩ := randMatrix_ok r (initValue (F := F) o.dim) c.dic.len d s
  unfold w2vSetup
  generalize (sigTable : List F) = tb
  have hb : newBuffers o.goroutines o.dim = .panic .makeNegLen := by unfold newBuffers; rw [if_pos hg]
  rw [hc, Res.ok_bind]
  rw [hdd] at hb e1 ⊢
  rw [e1, Res.ok_bind, subsamples_eq _ _ hr, Res.ok_bind, hb]
  rcases hm with hm | hm
  · rw [if_pos hm]; rfl
  · rw [if_neg (by rw [hm]; decide), if_pos hm]; rfl

/-- **C90 (word2vec, `UpdateLRBatch = 0`).** If there is a word to train on and `Iter >= 1`, some execution panics. -/
theorem C90_word2vec_update_batch (hdim : 0 ≤ o.dim) (hu : o.updateLRBatch = 0) (hi : 1 ≤ o.iter) (hg : 1 ≤ o.goroutines)
    (hm : o.modelType = "skipgram".toList ∨ o.modelType = "cbow".toList) (ho : o.optimizerType = "ns".toList ∨ o.optimizerType = "hs".toList)
    (hbs : o.docInMemory = true ∨ 1 ≤ o.batchSize) (hb : (ws.length : Int) + o.goroutines ≤ 2 ^ 53)
    (hne : trainSeq o.maxCount o.minCount (ws.map (o.corpus lower).norm) ≠ []) :
    W2VTrain menv lower r o p s next (.panic .divByZero) := by
  obtain ⟨dim, hd⟩ := Int.eq_ofNat_of_zero_le hdim
  obtain ⟨M, s', hM, _⟩ := C72_word2vec_starts lower r o dim hd (by omega) hm ho p ws h s
  obtain ⟨f1, f2, f3, _⟩ := w2vSetup_facts lower r o dim hd p ws h s s' M hM
  obtain ⟨docs, hdocs, hfl⟩ := workerDocs_flatten o.docInMemory (o.corpus lower) M.corpus p ws h f1 f3 o.goroutines o.batchSize hg hb hbs
  obtain ⟨k, hk⟩ := Nat.exists_eq_add_of_le' (by omega : 1 ≤ o.iter.toNat)
  refine .panics M s' docs _ hM hdocs ?_
  rw [hk, List.replicate_succ]
  refine .here _ _ _ _ _ _ .refl ?_
  show _ ∈ _
  rw [observer_zero _ hu _ (sum_pos_of_flatten hfl hne)]
  simp

/-- **C90 (word2vec, negative or zero `BatchSize`, file-backed).** If the set-up succeeds, `Iter >= 1` and there is a word to train on, `Train` panics in some
execution and returns in none. -/
theorem C90_word2vec_batch_size (hdim : 0 ≤ o.dim) (hg : 0 ≤ o.goroutines) (hm : o.modelType = "skipgram".toList ∨ o.modelType = "cbow".toList)
    (ho : o.optimizerType = "ns".toList ∨ o.optimizerType = "hs".toList) (hf : o.docInMemory = false) (hi : 1 ≤ o.iter) (hbs : o.batchSize ≤ 0)
    (hts : o.batchSize < 0 ∨ trainSeq o.maxCount o.minCount (ws.map (o.corpus lower).norm) ≠ []) :
    W2VTrain menv lower r o p s next (.panic (if o.batchSize < 0 then .makeNegLen else .indexOutOfRange)) ∧
    ∀ res, W2VTrain menv lower r o p s next res → ∃ x, res = .panic x := by
  obtain ⟨dim, hd⟩ := Int.eq_ofNat_of_zero_le hdim
  obtain ⟨M, s', hM, _⟩ := C72_word2vec_starts lower r o dim hd hg hm ho p ws h s
  obtain ⟨f1, _⟩ := w2vSetup_facts lower r o dim hd p ws h s s' M hM
  have hb : ∃ b, fsBatchWords (o.corpus lower) M.corpus.dic p o.batchSize = (b, .crash (if o.batchSize < 0 then .makeNegLen else .indexOutOfRange)) := by
    by_cases hneg : o.batchSize < 0
    · unfold fsBatchWords
      rw [if_pos hneg, if_pos hneg]
      exact ⟨_, rfl⟩
    · have h0 : o.batchSize = 0 := by omega
      rw [if_neg hneg, h0]
      exact (C12_batch_size_zero (o.corpus lower) p ws h M.corpus.dic f1).2 (hts.resolve_left hneg)
  obtain ⟨b, eb⟩ := hb
  refine ⟨.producerPanic M s' b _ hM hf hi eb, ?_⟩
  intro res ht
  cases ht with
  | setupErr e h => rw [hM] at h; cases h
  | setupPanic y h => rw [hM] at h; cases h
  | slicePanic M s' y h hd => exact ⟨_, rfl⟩
  | panics M s' docs y h hd hi => exact ⟨_, rfl⟩
  | producerPanic M s' b y h hm hi hp => exact ⟨_, rfl⟩
  | done N s2 docs mem h hp hd hi' =>
    rw [hM] at h; cases h
    rcases hp with hp | hp | hp
    · rw [hf] at hp; cases hp
    · omega
    · rw [eb] at hp; cases hp

end word2vec

section lexvec
variable [GoMath F] (menv : MemEnv F) (lower : Word → Word) (enum : GoMap (BitVec 64) F → List (BitVec 64 × F)) (henum : ∀ m, (enum m).Perm m) (r : σ → F × σ)
  (o : LexvecOptions F) (p : Pass) (ws : List Word) (h : Readable p ws) (hne : ws ≠ []) (hw : o.docInMemory = true ∨ 1 ≤ o.window) (s : σ) (next : UInt64)
include h hne hw

/-- **C90 (LexVec, negative `Dim`).** -/
theorem C90_lexvec_dim (hdim : o.dim < 0) (res : Res (LexModel F)) : LexTrain menv lower enum r o p s next res ↔ res = .panic .makeNegLen := by
  have hs : lexSetup lower enum r o p p s = .panic .makeNegLen := by
    obtain ⟨c, hc⟩ := load_inc_ok (F := F) o.docInMemory (o.corpus lower) o.window hw p ws h
    obtain ⟨h1, hr⟩ := load_cooc_readable o.docInMemory (o.corpus lower) _ _ hw p ws h c hc
    have := len_pos h1 (by simpa using hne)
    unfold lexSetup
    rw [hc, Res.ok_bind, randMatrix_neg _ _ _ _ (by omega) hdim]
    rfl
  constructor
  · intro ht
    cases ht with
    | setupErr e h => rw [hs] at h; cases h
    | setupPanic y h => rw [hs] at h; cases h; rfl
    | slicePanic M s' y h hd => rw [hs] at h; cases h
    | panics M s' docs y h hd hi => rw [hs] at h; cases h
    | chanPanic M s' h hm hi hg => rfl
    | producerPanic M s' b y h hm hi hp => rw [hs] at h; cases h
    | done M s' docs mem h hp hd hi => rw [hs] at h; cases h
  · rintro rfl; exact .setupPanic _ hs

include henum

/-- **C90 (LexVec, negative `Goroutines`, in memory).** -/
theorem C90_lexvec_goroutines (hdim : 0 ≤ o.dim) (hrel : KnownRelation o.relationType) (hdic : (ws.map (o.corpus lower).norm).dedup.length ≤ 2 ^ 32)
    (hm : o.docInMemory = true) (hg : o.goroutines < 0) : ∃ x, ∀ res, LexTrain menv lower enum r o p s next res ↔ res = .panic x := by
  obtain ⟨dim, hd⟩ := Int.eq_ofNat_of_zero_le hdim
  obtain ⟨M, s', hM, _⟩ := C72_lexvec_starts lower enum henum r o dim hd hw hrel p ws h hne hdic s
  obtain ⟨f1, f2, f3, _⟩ := lexSetup_facts lower enum r o dim hd hw p ws h s s' M hM
  obtain ⟨x, hx⟩ := indexPerThread_neg o.goroutines (trainSeq o.maxCount o.minCount (ws.map (o.corpus lower).norm)).length hg
  have hdocs : workerDocs o.docInMemory (o.corpus lower) M.corpus p o.goroutines o.batchSize = .panic x := by
    unfold workerDocs
    rw [hm, if_pos rfl, f3 hm, Res.ok_bind, hx]
    rfl
  refine ⟨x, fun res => ⟨?_, ?_⟩⟩
  · intro ht
    cases ht with
    | setupErr e h => rw [hM] at h; cases h
    | setupPanic y h => rw [hM] at h; cases h
    | slicePanic N s2 y h hd => rw [hM] at h; cases h; rw [hdocs] at hd; cases hd; rfl
    | panics N s2 docs y h hd hi => rw [hM] at h; cases h; rw [hdocs] at hd; cases hd
    | chanPanic N s2 h hm2 hi hg => rw [hm] at hm2; cases hm2
    | producerPanic N s2 b y h hm2 hi hp => rw [hm] at hm2; cases hm2
    | done N s2 docs mem h hp hd hi => rw [hM] at h; cases h; rw [hdocs] at hd; cases hd
  · rintro rfl; exact .slicePanic M s' x hM hdocs

/-- **C90 (LexVec, negative `Goroutines`, file-backed).** With at least one iteration the only outcome is the panic of
`make(chan []int, Goroutines)`; without an iteration the initial vectors are the result. -/
theorem C90_lexvec_goroutines_file (hdim : 0 ≤ o.dim) (hrel : KnownRelation o.relationType) (hdic : (ws.map (o.corpus lower).norm).dedup.length ≤ 2 ^ 32)
    (hm : o.docInMemory = false) (hg : o.goroutines < 0) :
    (1 ≤ o.iter → ∀ res, LexTrain menv lower enum r o p s next res ↔ res = .panic .makeNegLen) ∧
    (o.iter ≤ 0 → ∃ M s', lexSetup lower enum r o p p s = .ok (M, s') ∧ ∀ res, LexTrain menv lower enum r o p s next res ↔ res = .ok M) := by
  obtain ⟨dim, hd⟩ := Int.eq_ofNat_of_zero_le hdim
  obtain ⟨M, s', hM, _, hsh, _⟩ := C72_lexvec_starts lower enum henum r o dim hd hw hrel p ws h hne hdic s
  have hdocs : workerDocs o.docInMemory (o.corpus lower) M.corpus p o.goroutines o.batchSize =
      .ok (sentBatches (fsBatchWords (o.corpus lower) M.corpus.dic p o.batchSize).1.out) := by
    unfold workerDocs
    rw [hm]; rfl
  constructor
  · intro hi res
    constructor
    · intro ht
      cases ht with
      | setupErr e h => rw [hM] at h; cases h
      | setupPanic y h => rw [hM] at h; cases h
      | slicePanic N s2 y h hd => rw [hM] at h; cases h; rw [hdocs] at hd; cases hd
      | panics N s2 docs y h hd hi' hc => rw [hm] at hc; simp at hc; omega
      | chanPanic N s2 h hm2 hi hg => rfl
      | producerPanic N s2 b y h hm2 hi hp hc => omega
      | done N s2 docs mem h hp hd hi' hc => rw [hm] at hc; simp at hc; omega
    · rintro rfl; exact .chanPanic M s' hM hm hi hg
  · intro hi
    have h0 : o.iter.toNat = 0 := by omega
    have hmem : M.after o (M.mem o next) = M := by
      have e : (M.mem o next).matrix .param (M.corpus.dic.len * 2) o.dim.toNat = M.param := by
        rw [hd, Int.toNat_natCast]
        refine (matrix_shaped _ _ _ _).ext_val hsh fun i hi j hj => ?_
        rw [matrix_val _ _ hi hj]
        exact cellAt_eq hsh hi hj
      unfold LexModel.after
      rw [e]
    refine ⟨M, s', hM, fun res => ⟨?_, ?_⟩⟩
    · intro ht
      cases ht with
      | setupErr e h => rw [hM] at h; cases h
      | setupPanic y h => rw [hM] at h; cases h
      | slicePanic N s2 y h hd => rw [hM] at h; cases h; rw [hdocs] at hd; cases hd
      | panics N s2 docs y h hd hi' hc => rw [h0] at hi'; cases hi'
      | chanPanic N s2 h hm2 hi hg => omega
      | producerPanic N s2 b y h hm2 hi hp hc => omega
      | done N s2 docs mem h hp hd hi' hc =>
        rw [hM] at h; cases h
        rw [h0] at hi'; cases hi'
        rw [hmem]
    · rintro rfl
      have := LexTrain.done (env := menv) M s' _ (M.mem o next) hM (.inr (.inl hi)) hdocs (by rw [h0]; exact .nil _ _) (.inr (.inl hi))
      rw [hmem] at this
      exact this

/-- **C90 (LexVec, `UpdateLRBatch = 0`).** -/
theorem C90_lexvec_update_batch (hdim : 0 ≤ o.dim) (hrel : KnownRelation o.relationType) (hdic : (ws.map (o.corpus lower).norm).dedup.length ≤ 2 ^ 32)
    (hu : o.updateLRBatch = 0) (hi : 1 ≤ o.iter) (hg : 1 ≤ o.goroutines) (hbs : o.docInMemory = true ∨ 1 ≤ o.batchSize) (hb : (ws.length : Int) + o.goroutines ≤ 2 ^ 53)
    (hts : trainSeq o.maxCount o.minCount (ws.map (o.corpus lower).norm) ≠ []) : LexTrain menv lower enum r o p s next (.panic .divByZero) := by
  obtain ⟨dim, hd⟩ := Int.eq_ofNat_of_zero_le hdim
  obtain ⟨M, s', hM, _⟩ := C72_lexvec_starts lower enum henum r o dim hd hw hrel p ws h hne hdic s
  obtain ⟨f1, f2, f3, _⟩ := lexSetup_facts lower enum r o dim hd hw p ws h s s' M hM
  obtain ⟨docs, hdocs, hfl⟩ := workerDocs_flatten o.docInMemory (o.corpus lower) M.corpus p ws h f1 f3 o.goroutines o.batchSize hg hb hbs
  obtain ⟨k, hk⟩ := Nat.exists_eq_add_of_le' (by omega : 1 ≤ o.iter.toNat)
  refine .panics M s' docs _ hM hdocs ?_ (by omega)
  rw [hk, List.replicate_succ]
  refine .here _ _ _ _ _ _ .refl ?_
  show _ ∈ _
  rw [observer_zero _ hu _ (sum_pos_of_flatten hfl hts)]
  simp

/-- **C90 (LexVec, negative or zero `BatchSize`, file-backed).** If the set-up succeeds, `Iter >= 1` and there is a word to train on, `Train` panics in some
execution and returns in none. -/
theorem C90_lexvec_batch_size (hdim : 0 ≤ o.dim) (hrel : KnownRelation o.relationType) (hdic : (ws.map (o.corpus lower).norm).dedup.length ≤ 2 ^ 32) (hg : 0 ≤ o.goroutines) (hf : o.docInMemory = false) (hi : 1 ≤ o.iter) (hbs : o.batchSize ≤ 0)
    (hts : o.batchSize < 0 ∨ trainSeq o.maxCount o.minCount (ws.map (o.corpus lower).norm) ≠ []) :
    LexTrain menv lower enum r o p s next (.panic (if o.batchSize < 0 then .makeNegLen else .indexOutOfRange)) ∧
    ∀ res, LexTrain menv lower enum r o p s next res → ∃ x, res = .panic x := by
  obtain ⟨dim, hd⟩ := Int.eq_ofNat_of_zero_le hdim
  obtain ⟨M, s', hM, _⟩ := C72_lexvec_starts lower enum henum r o dim hd hw hrel p ws h hne hdic s
  obtain ⟨f1, _⟩ := lexSetup_facts lower enum r o dim hd hw p ws h s s' M hM
  have hb : ∃ b, fsBatchWords (o.corpus lower) M.corpus.dic p o.batchSize = (b, .crash (if o.batchSize < 0 then .makeNegLen else .indexOutOfRange)) := by
    by_cases hneg : o.batchSize < 0
    · unfold fsBatchWords
      rw [if_pos hneg, if_pos hneg]
      exact ⟨_, rfl⟩
    · have h0 : o.batchSize = 0 := by omega
      rw [if_neg hneg, h0]
      exact (C12_batch_size_zero (o.corpus lower) p ws h M.corpus.dic f1).2 (hts.resolve_left hneg)
  obtain ⟨b, eb⟩ := hb
  refine ⟨.producerPanic M s' b _ hM hf hi eb hg, ?_⟩
  intro res ht
  cases ht with
  | setupErr e h => rw [hM] at h; cases h
  | setupPanic y h => rw [hM] at h; cases h
  | slicePanic M s' y h hd => exact ⟨_, rfl⟩
  | panics M s' docs y h hd hi => exact ⟨_, rfl⟩
  | chanPanic M s' h hm hi hg => exact ⟨_, rfl⟩
  | producerPanic M s' b y h hm hi hp => exact ⟨_, rfl⟩
  | done N s2 docs mem h hp hd hi' =>
    rw [hM] at h; cases h
    rcases hp with hp | hp | hp
    · rw [hf] at hp; cases hp
    · omega
    · rw [eb] at hp; cases hp

end lexvec

section glove
variable [GoMath F] (menv : MemEnv F) (lower : Word → Word) (enum : GoMap (BitVec 64) F → List (BitVec 64 × F)) (r : σ → F × σ)
  (o : GloveOptions F) (p : Pass) (ws : List Word) (h : Readable p ws) (hw : o.docInMemory = true ∨ 1 ≤ o.window) (hct : o.countType = "inc".toList)
  (s : σ) (next : UInt64)
include h hw hct

/-- **C90 (GloVe, negative `Dim`).** (`Dim = -1` leaves room for the bias, the set-up succeeds.) -/
theorem C90_glove_dim (hne : ws ≠ []) (hdim : o.dim < -1) (res : Res (GloveModel F)) : GloveTrain menv lower enum r o p s next res ↔ res = .panic .makeNegLen := by
  have hs : gloveSetup lower r o p p s = .panic .makeNegLen := by
    have hload : ∃ c : CorpusState F, loadCorpus o.docInMemory (o.corpus lower) p p (some ⟨String.ofList o.countType, o.window⟩) = .ok c := by
      rw [hct, show String.ofList "inc".toList = countInc by simp [countInc]]
      exact load_inc_ok o.docInMemory (o.corpus lower) o.window hw p ws h
    obtain ⟨c, hc⟩ := hload
    obtain ⟨h1, hr⟩ := load_cooc_readable o.docInMemory (o.corpus lower) _ _ hw p ws h c hc
    have := len_pos h1 (by simpa using hne)
    unfold gloveSetup
    rw [hc, Res.ok_bind, randMatrix_neg _ _ _ _ (by omega) (by omega)]
    rfl
  constructor
  · intro ht
    cases ht with
    | setupErr e h => rw [hs] at h; cases h
    | setupPanic y h => rw [hs] at h; cases h; rfl
    | slicePanic M s' y h hd => rw [hs] at h; cases h
    | panics M s' docs y h hd hi => rw [hs] at h; cases h
    | done M s' docs mem h hd hi => rw [hs] at h; cases h
  · rintro rfl; exact .setupPanic _ hs

/-- **C90 (GloVe, negative `Goroutines`).** -/
theorem C90_glove_goroutines (hdim : 0 ≤ o.dim) (hso : o.solverType = "sgd".toList ∨ o.solverType = "adagrad".toList) (hg : o.goroutines < 0) :
    (∃ x, GloveTrain menv lower enum r o p s next (.panic x)) ∧ ∀ res, GloveTrain menv lower enum r o p s next res → ∃ x, res = .panic x := by
  obtain ⟨M, s', hM⟩ := C72_glove_starts lower r o hdim hct hso hw p ws h s
  have hsl : ∃ x, gloveSlices M o enum = .panic x := by
    unfold gloveSlices
    cases M.corpus.cooc with
    | none => exact ⟨_, rfl⟩
    | some co =>
      obtain ⟨x, hx⟩ := indexPerThread_neg o.goroutines (gloveItems o.xmax o.alpha (enum co.encodedMatrix)).length hg
      exact ⟨x, by dsimp only; rw [hx]; rfl⟩
  obtain ⟨x, hx⟩ := hsl
  refine ⟨⟨x, .slicePanic M s' x hM hx⟩, ?_⟩
  intro res ht
  cases ht with
  | setupErr e h => rw [hM] at h; cases h
  | setupPanic y h => exact ⟨_, rfl⟩
  | slicePanic N s2 y h hd => exact ⟨_, rfl⟩
  | panics N s2 docs y h hd hi => exact ⟨_, rfl⟩
  | done N s2 docs mem h hd hi => rw [hM] at h; cases h; rw [hx] at hd; cases hd

end glove

/-! Concrete cases, on the corpus `a b a`: `Dim = -3`, `Goroutines = -1`, `UpdateLRBatch = 0`, `BatchSize = -1`. -/

section examples
variable [GoMath F] (menv : MemEnv F) (r : σ → F × σ) (s : σ) (next : UInt64) (im : Bool)

example : W2VTrain menv id r { W2VOptions.default 1 with dim := -3, docInMemory := im } ⟨exampleFS.read ['i', 'n'], false⟩ s next (.panic .makeNegLen) :=
  (C90_word2vec_dim menv id r _ _ _ example_readable s next (by simp) (by show (-3 : Int) < 0; omega) _).2 rfl

example : W2VTrain menv id r { W2VOptions.default (-1) with docInMemory := im } ⟨exampleFS.read ['i', 'n'], false⟩ s next (.panic .makeNegLen) :=
  (C90_word2vec_goroutines menv id r _ _ _ example_readable s next (by show (0 : Int) ≤ 10; omega) (by show (-1 : Int) < 0; omega) (.inr rfl) _).2 rfl

example : W2VTrain menv id r { W2VOptions.default 1 with updateLRBatch := 0, minCount := 0, docInMemory := im } ⟨exampleFS.read ['i', 'n'], false⟩ s next (.panic .divByZero) :=
  C90_word2vec_update_batch menv id r _ _ _ example_readable s next (by show (0 : Int) ≤ 10; omega) rfl (by show (1 : Int) ≤ 15; omega) (by show (1 : Int) ≤ 1; omega) (.inr rfl)
    (.inl rfl) (.inr (by show (1 : Int) ≤ 10000; omega)) (by show (3 : Int) + 1 ≤ 2 ^ 53; norm_num)
    (by show trainSeq (-1) 0 ([['a'], ['b'], ['a']].map id) ≠ []; decide)

example : W2VTrain menv id r { W2VOptions.default 1 with batchSize := -1 } ⟨exampleFS.read ['i', 'n'], false⟩ s next (.panic .makeNegLen) :=
  (C90_word2vec_batch_size menv id r _ _ _ example_readable s next (by show (0 : Int) ≤ 10; omega) (by show (0 : Int) ≤ 1; omega) (.inr rfl) (.inl rfl) rfl
    (by show (1 : Int) ≤ 15; omega) (by show (-1 : Int) ≤ 0; omega) (.inl (by show (-1 : Int) < 0; omega))).1

example : W2VTrain menv id r { W2VOptions.default 1 with batchSize := 0, minCount := 0 } ⟨exampleFS.read ['i', 'n'], false⟩ s next (.panic .indexOutOfRange) :=
  (C90_word2vec_batch_size menv id r _ _ _ example_readable s next (by show (0 : Int) ≤ 10; omega) (by show (0 : Int) ≤ 1; omega) (.inr rfl) (.inl rfl) rfl
    (by show (1 : Int) ≤ 15; omega) (by show (0 : Int) ≤ 0; omega) (.inr (by show trainSeq (-1) 0 ([['a'], ['b'], ['a']].map id) ≠ []; decide))).1

example : LexTrain menv id id r { LexvecOptions.default (-1) with docInMemory := false } ⟨exampleFS.read ['i', 'n'], false⟩ s next (.panic .makeNegLen) :=
  ((C90_lexvec_goroutines_file menv id id (fun _ => List.Perm.refl _) r { LexvecOptions.default (-1) with docInMemory := false } _ _ example_readable (by simp)
    (.inr (by show (1 : Int) ≤ 5; omega)) s next (by show (0 : Int) ≤ 10; omega) (.inl rfl)
    (by rw [show ([['a'], ['b'], ['a']].map (LexvecOptions.corpus { LexvecOptions.default (F := F) (-1) with docInMemory := false } id).norm).dedup.length = 2 from
          (by decide : ([['a'], ['b'], ['a']].map id).dedup.length = 2)]; omega) rfl (by show (-1 : Int) < 0; omega)).1 (by show (1 : Int) ≤ 15; omega) _).2 rfl

example : LexTrain menv id id r { LexvecOptions.default 1 with dim := -3, docInMemory := im } ⟨exampleFS.read ['i', 'n'], false⟩ s next (.panic .makeNegLen) :=
  (C90_lexvec_dim menv id id r _ _ _ example_readable (by simp) (.inr (by show (1 : Int) ≤ 5; omega)) s next (by show (-3 : Int) < 0; omega) _).2 rfl

example : ∃ x, LexTrain menv id id r { LexvecOptions.default (-1) with docInMemory := true } ⟨exampleFS.read ['i', 'n'], false⟩ s next (.panic x) := by
  obtain ⟨x, hx⟩ := C90_lexvec_goroutines menv id id (fun _ => List.Perm.refl _) r { LexvecOptions.default (-1) with docInMemory := true } _ _ example_readable (by simp)
    (.inl rfl) s next (by show (0 : Int) ≤ 10; omega) (.inl rfl)
    (by rw [show ([['a'], ['b'], ['a']].map (LexvecOptions.corpus { LexvecOptions.default (F := F) (-1) with docInMemory := true } id).norm).dedup.length = 2 from
          (by decide : ([['a'], ['b'], ['a']].map id).dedup.length = 2)]; omega) rfl (by show (-1 : Int) < 0; omega)
  exact ⟨x, (hx _).2 rfl⟩

example : LexTrain menv id id r { LexvecOptions.default 1 with updateLRBatch := 0, minCount := 0, docInMemory := im } ⟨exampleFS.read ['i', 'n'], false⟩ s next (.panic .divByZero) :=
  C90_lexvec_update_batch menv id id (fun _ => List.Perm.refl _) r { LexvecOptions.default 1 with updateLRBatch := 0, minCount := 0, docInMemory := im } _ _ example_readable (by simp)
    (.inr (by show (1 : Int) ≤ 5; omega)) s next (by show (0 : Int) ≤ 10; omega) (.inl rfl)
    (by rw [show ([['a'], ['b'], ['a']].map (LexvecOptions.corpus { LexvecOptions.default (F := F) 1 with updateLRBatch := 0, minCount := 0, docInMemory := im } id).norm).dedup.length = 2 from
          (by decide : ([['a'], ['b'], ['a']].map id).dedup.length = 2)]; omega)
    rfl (by show (1 : Int) ≤ 15; omega) (by show (1 : Int) ≤ 1; omega) (.inr (by show (1 : Int) ≤ 10000; omega)) (by show (3 : Int) + 1 ≤ 2 ^ 53; norm_num)
    (by show trainSeq (-1) 0 ([['a'], ['b'], ['a']].map id) ≠ []; decide)

example : GloveTrain menv id id r { GloveOptions.default 1 with dim := -3, docInMemory := im } ⟨exampleFS.read ['i', 'n'], false⟩ s next (.panic .makeNegLen) :=
  (C90_glove_dim menv id id r _ _ _ example_readable (.inr (by show (1 : Int) ≤ 5; omega)) rfl s next (by simp) (by show (-3 : Int) < -1; omega) _).2 rfl

example : ∃ x, GloveTrain menv id id r { GloveOptions.default (-1) with docInMemory := im } ⟨exampleFS.read ['i', 'n'], false⟩ s next (.panic x) :=
  (C90_glove_goroutines menv id id r _ _ _ example_readable (.inr (by show (1 : Int) ≤ 5; omega)) rfl s next (by show (0 : Int) ≤ 10; omega) (.inl rfl)
    (by show (-1 : Int) < 0; omega)).1

end examples

end Wego.Props
