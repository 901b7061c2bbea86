import Verif.Props.Pipeline

/-! # C84: with valid options a GloVe or LexVec training command cannot fail -/

namespace Wego.Props
open Wego Wego.Spec
variable {σ : Type} {F : Type}

/-- the documents of the workers exist -/
theorem workerDocs_ok [GoFloat F] (im : Bool) (cfg : CorpusCfg) (c : CorpusState F) (p : Pass) (ws : List Word) (max min : Int)
    (hdoc : im = true → memIndexedDoc cfg c = .ok (trainSeq max min (ws.map cfg.norm))) (goroutines batchSize : Int)
    (hg : 1 ≤ goroutines) (hb : (ws.length : Int) + goroutines ≤ 2 ^ 53) : ∃ docs, workerDocs im cfg c p goroutines batchSize = .ok docs := by
  obtain ⟨g, rfl⟩ := Int.eq_ofNat_of_zero_le (by omega : 0 ≤ goroutines)
  unfold workerDocs
  cases im with
  | false => exact ⟨_, rfl⟩
  | true =>
    simp only [if_true]
    rw [hdoc rfl, Res.ok_bind]
    have hl : (trainSeq max min (ws.map cfg.norm)).length + g ≤ 2 ^ 53 := by
      have : (trainSeq max min (ws.map cfg.norm)).length ≤ ws.length := by
        unfold trainSeq
        rw [List.length_map]
        exact (List.length_filter_le _ _).trans (by simp)
      omega
    obtain ⟨v, ps, e1, e2, _⟩ := C25_slices_partition (trainSeq max min (ws.map cfg.norm)) g (by omega) hl
    exact ⟨ps, by rw [e1, Res.ok_bind, Int.toNat_natCast, e2]⟩

/-- `BatchWords` over a readable document returns nil -/
theorem batches_end (cfg : CorpusCfg) (p : Pass) (ws : List Word) (h : Readable p ws) (d : Dictionary) (hd : addCalls [ws.map cfg.norm] = .ok d)
    (im : Bool) (iter batchSize : Int) (hb : im = true ∨ 1 ≤ batchSize) : im = true ∨ iter ≤ 0 ∨ (fsBatchWords cfg d p batchSize).2 = .next := by
  rcases hb with hb | hb
  · exact .inl hb
  · obtain ⟨b, rfl⟩ := Int.eq_ofNat_of_zero_le (by omega : 0 ≤ batchSize)
    obtain ⟨full, last, e, _⟩ := C12_batches cfg p ws h d hd b (by omega)
    rw [e]; exact .inr (.inr rfl)

/-- If `Train` never fails and the model it returns can be saved, the command succeeds. -/
theorem command_succeeds (env : Env) (input output : Path) (run : List Char → TrainOutcome) (fs : FS) (hin : fs input ≠ none) (hout : fs output = none)
    (h1 : env.mkdirFails = false) (h2 : env.createFails = false) (h3 : env.openFails = false) (text : List Char)
    (hr : run (fs.read input) = .saved text (.ok ())) : (execute env false input output run fs).2 = .ok () := by
  have hne : input ≠ output := by rintro rfl; exact hin hout
  have hread : ((fs.mkdirAll env.mkdirs).put output (.file [])).read input = fs.read input := by
    unfold FS.read
    rw [put_other _ _ _ _ hne]
    cases hf : fs input with
    | none => exact absurd hf hin
    | some n => simp [FS.mkdirAll, hf]
  unfold execute executeMain
  have a : fs.exists output = false := by simp [FS.exists, hout]
  have b : fs.exists input = true := by
    cases hf : fs input with
    | none => exact absurd hf hin
    | some n => simp [FS.exists, hf]
  simp [a, b, h1, h2, h3, hread, hr]

theorem saveOutcome_ok (us : List Word) (dic : Dictionary) (hd : addCalls [us] = .ok dic) (dim : Nat) (t : Trained) (h : t.OK dic.len dim) (typ : Word)
    (v : Bool) (lb : Int) (hv : v = false ∨ lb ≠ 0) : ∃ text, saveOutcome dic (t.wordVector dic.len dim typ) v lb = .saved text (.ok ()) := by
  obtain ⟨d, hd', hr⟩ := addCalls_rep [us]
  rw [hd] at hd'; obtain rfl := Res.ok.inj hd'
  have hl : dic.len = (firstOcc [us].flatten).length := by rw [hr.len_eq, length_firstOcc]
  have key : ∃ m, t.wordVector dic.len dim typ = .ok m ∧ Matrix.Shaped m dic.len dim := by
    have : ∃ m, t.wordVector dic.len dim typ = .ok m ∧ m.row = dic.len ∧ m.col = dim ∧ m.array.length = dic.len * dim := by
      cases t with
      | w2v p o => exact C43_word2vec_shape _ _ p o h typ
      | glove p => exact C43_glove_shape _ _ p h typ
      | lexvec p => exact C43_lexvec_shape _ _ p h typ
    obtain ⟨m, e, a, b, c⟩ := this
    exact ⟨m, e, ⟨a, b, c⟩⟩
  obtain ⟨m, e, hm⟩ := key
  unfold saveOutcome
  rw [e, Res.ok_bind, saveText_eq hr (by rw [← hl]; exact hm) v lb (by rintro ⟨h1, h2⟩; rcases hv with h | h <;> simp_all)]
  exact ⟨_, rfl⟩

section glove
variable [GoMath F] (lower : Word → Word) (enum : GoMap (BitVec 64) F → List (BitVec 64 × F)) (henum : ∀ m, (enum m).Perm m) (r : σ → F × σ)
  (o : GloveOptions F) (hdim : 0 ≤ o.dim) (hct : o.countType = "inc".toList) (hso : o.solverType = "sgd".toList ∨ o.solverType = "adagrad".toList)
  (hwin : o.docInMemory = true ∨ 1 ≤ o.window) (p : Pass) (ws : List Word) (h : Readable p ws) (hne : o.docInMemory = true ∨ ws ≠ [])
  (hg : 1 ≤ o.goroutines)
  (hb : ((ws.map (o.corpus lower).norm).dedup.length : Int) * (ws.map (o.corpus lower).norm).dedup.length + o.goroutines ≤ 2 ^ 53)
  (menv : MemEnv F) (s : σ) (next : UInt64)
include henum hdim hct hso hwin h hne hg hb

/-- set-up and slices succeed, and the goroutines cannot panic -/
theorem glove_facts : ∃ M s' slices, gloveSetup lower r o p p s = .ok (M, s') ∧ gloveSlices M o enum = .ok slices ∧
    (∀ t ∈ slices.map (gloveWorkerP (M.step o) M.corpus.dic.len), t.Ok menv (fun _ => True) (fun _ => False) (fun _ => True)) := by
  obtain ⟨M, s', hM⟩ := C72_glove_starts lower r o hdim hct hso hwin p ws h s
  have hn : (ws.map (o.corpus lower).norm).dedup.length ≤ 2 ^ 32 := by
    by_contra hc
    push Not at hc
    have h1 : ((2 ^ 32 : Nat) : Int) < (ws.map (o.corpus lower).norm).dedup.length := by exact_mod_cast hc
    generalize ((ws.map (o.corpus lower).norm).dedup.length : Int) = n at hb h1
    norm_num at h1 hb
    nlinarith
  have hsl : ∃ slices, gloveSlices M o enum = .ok slices := by
    have hM' := hM
    unfold gloveSetup at hM'
    rw [Res.bind_eq_ok] at hM'
    obtain ⟨c, hc, hM'⟩ := hM'
    rw [Res.bind_eq_ok] at hM'
    obtain ⟨ps, _, hM'⟩ := hM'
    have hMc : M.corpus = c := by
      split at hM'
      · cases hM'; rfl
      · split at hM'
        · rw [Res.bind_eq_ok] at hM'
          obtain ⟨g, _, hM'⟩ := hM'
          cases hM'; rfl
        · cases hM'
    obtain ⟨_, hr⟩ := load_cooc_readable o.docInMemory (o.corpus lower) _ _ hwin p ws h c hc
    obtain ⟨co, calls, a, b, d⟩ := load_cooc_calls o.docInMemory (o.corpus lower) _ _ hwin p ws h hne c hc
    have hsz := cooc_size _ calls c.dic.len d co b
    rw [hr.len_eq] at hsz
    unfold gloveSlices
    rw [hMc, a]
    dsimp only
    obtain ⟨g, hgg⟩ := Int.eq_ofNat_of_zero_le (by omega : 0 ≤ o.goroutines)
    rw [hgg] at hb hg ⊢
    have hlen : (gloveItems o.xmax o.alpha (enum co.encodedMatrix)).length + g ≤ 2 ^ 53 := by
      unfold gloveItems
      rw [List.length_map, (henum _).length_eq]
      have : ((ws.map (o.corpus lower).norm).dedup.length * (ws.map (o.corpus lower).norm).dedup.length + g : Nat) ≤ 2 ^ 53 := by exact_mod_cast hb
      omega
    obtain ⟨v, ps, e1, e2, _⟩ := C25_slices_partition _ g (by omega) hlen
    exact ⟨ps, by rw [e1, Res.ok_bind, Int.toNat_natCast, e2]⟩
  obtain ⟨slices, hs⟩ := hsl
  refine ⟨M, s', slices, hM, hs, ?_⟩
  have hit := gloveSlices_ok lower r o hwin p ws h hne hn s s' M hM enum henum slices hs
  have := glove_threads_ok M o 0 [slices] menv (fun _ => False) (by
    intro sl hsl a ha it hi
    rw [List.mem_singleton.1 hsl] at ha
    exact hit a ha it hi)
  simpa [GloveModel.sys] using this

/-- **C84 (GloVe, Train).** For every readable document and valid options, in every schedule and with every outcome of racing loads and stores, an execution of
`Train` that ends returns no error and does not panic; and some execution ends. -/
theorem C84_glove_train : (∀ res, GloveTrain menv lower enum r o p s next res → ∃ N, res = .ok N) ∧
    (menv.Total → ∃ N, GloveTrain menv lower enum r o p s next (.ok N)) := by
  obtain ⟨M, s', slices, hM, hs, hok⟩ := glove_facts lower enum henum r o hdim hct hso hwin p ws h hne hg hb menv s
  have hrounds : ∀ q ∈ List.replicate o.iter.toNat (gloveIter M o slices), q.1.Ok menv (fun _ => True) (fun _ => False) (fun _ => True) ∧
      ∀ t ∈ q.2, t.Ok menv (fun _ => True) (fun _ => False) (fun _ => True) := by
    intro q hq
    rw [List.eq_of_mem_replicate hq]
    exact ⟨trivial, hok⟩
  constructor
  · intro res ht
    cases ht with
    | setupErr e h => rw [hM] at h; cases h
    | setupPanic x h => rw [hM] at h; cases h
    | slicePanic M' s'' x h hd => rw [hM] at h; cases h; rw [hs] at hd; cases hd
    | panics M' s'' sl x h hd hi =>
      rw [hM] at h; cases h; rw [hs] at hd; cases hd
      exact absurd hi (Pool.no_panic (by simp) hrounds)
    | done M' s'' sl mem h hd hi => exact ⟨_, rfl⟩
  · intro he
    obtain ⟨mem, hm⟩ := iters_exist he (g := o.goroutines.toNat) (by omega) (M.mem next) [] (List.replicate o.iter.toNat (gloveIter M o slices)) (fun q hq => (hrounds q hq).2)
    exact ⟨_, .done M s' slices mem hM hs hm⟩

end glove

section lexvec
variable [GoMath F] (lower : Word → Word) (enum : GoMap (BitVec 64) F → List (BitVec 64 × F)) (henum : ∀ m, (enum m).Perm m) (r : σ → F × σ)
  (o : LexvecOptions F) (hdim : 0 ≤ o.dim) (hrel : KnownRelation o.relationType) (hw1 : 1 ≤ o.window) (hw2 : o.window < 2 ^ 63)
  (hu : o.updateLRBatch ≠ 0) (hbs : o.docInMemory = true ∨ 1 ≤ o.batchSize) (p : Pass) (ws : List Word) (h : Readable p ws) (hne : ws ≠ [])
  (hdic : (ws.map (o.corpus lower).norm).dedup.length ≤ 2 ^ 32) (hg : 1 ≤ o.goroutines) (hb : (ws.length : Int) + o.goroutines ≤ 2 ^ 53)
  (menv : MemEnv F) (s : σ) (next : UInt64)
include henum hdim hrel hw1 hw2 hu hbs h hne hdic hg hb

theorem lex_facts : ∃ M s' docs W, lexSetup lower enum r o p p s = .ok (M, s') ∧
    (o.docInMemory = true ∨ o.iter ≤ 0 ∨ (fsBatchWords (o.corpus lower) M.corpus.dic p o.batchSize).2 = .next) ∧
    workerDocs o.docInMemory (o.corpus lower) M.corpus p o.goroutines o.batchSize = .ok docs ∧
    (lexRound M o docs).1.Ok menv W (fun _ => False) (fun _ => True) ∧ (∀ t ∈ (lexRound M o docs).2, t.Ok menv W (fun _ => False) (fun _ => True)) := by
  obtain ⟨dim, hd⟩ := Int.eq_ofNat_of_zero_le hdim
  obtain ⟨M, s', hM, _⟩ := C72_lexvec_starts lower enum henum r o dim hd (.inr hw1) hrel p ws h hne hdic s
  obtain ⟨f1, f2, f3, _, f5⟩ := lexSetup_facts lower enum r o dim hd (.inr hw1) p ws h s s' M hM
  obtain ⟨docs, hdocs⟩ := workerDocs_ok o.docInMemory (o.corpus lower) M.corpus p ws o.maxCount o.minCount f3 o.goroutines o.batchSize hg hb
  have hmem := workerDocs_mem o.docInMemory (o.corpus lower) M.corpus p ws h f2 f1 f3 _ _ hbs docs hdocs
  have hlen : M.corpus.dic.len = (ws.map (o.corpus lower).norm).dedup.length := f2.len_eq
  have := lex_threads_ok M o 0 [docs] menv (fun _ => False) f5 (by
    intro ds hds d hdd id hid
    rw [List.mem_singleton.1 hds] at hdd
    rw [hlen]
    exact mem_trainSeq_lt _ _ _ _ (hmem d hdd id hid)) (.inr ⟨hw1, hw2⟩) (by rw [hlen]; omega) (.inr hu)
  simp only [LexModel.sys, List.flatMap_cons, List.flatMap_nil, List.append_nil, List.mem_cons, forall_eq_or_imp] at this
  exact ⟨M, s', docs, _, hM, batches_end _ p ws h _ f1 _ _ _ hbs, hdocs, this.1, this.2⟩

/-- **C84 (LexVec, Train).** -/
theorem C84_lexvec_train : (∀ res, LexTrain menv lower enum r o p s next res → ∃ N, res = .ok N) ∧
    (menv.Total → ∃ N, LexTrain menv lower enum r o p s next (.ok N)) := by
  obtain ⟨M, s', docs, W, hM, hbe, hs, hok1, hok2⟩ := lex_facts lower enum henum r o hdim hrel hw1 hw2 hu hbs p ws h hne hdic hg hb menv s
  have hrounds : ∀ q ∈ List.replicate o.iter.toNat (lexRound M o docs), q.1.Ok menv W (fun _ => False) (fun _ => True) ∧
      ∀ t ∈ q.2, t.Ok menv W (fun _ => False) (fun _ => True) := by
    intro q hq
    rw [List.eq_of_mem_replicate hq]
    exact ⟨hok1, hok2⟩
  constructor
  · intro res ht
    cases ht with
    | setupErr e h => rw [hM] at h; cases h
    | setupPanic x h => rw [hM] at h; cases h
    | slicePanic M' s'' x h hd => rw [hM] at h; cases h; rw [hs] at hd; cases hd
    | panics M' s'' sl x h hd hi =>
      rw [hM] at h; cases h; rw [hs] at hd; cases hd
      exact absurd hi (Pool.no_panic (by simp) hrounds)
    | chanPanic M' s'' h hm hi hg' => omega
    | producerPanic M' s'' b x h hm hi hp =>
      rw [hM] at h; cases h
      rw [hm, hp] at hbe
      rcases hbe with h | h | h
      · cases h
      · omega
      · cases h
    | done M' s'' sl mem h hp hd hi => exact ⟨_, rfl⟩
  · intro he
    obtain ⟨mem, hm⟩ := iters_exist he (g := o.goroutines.toNat) (by omega) (M.mem o next) [] (List.replicate o.iter.toNat (lexRound M o docs))
      (fun q hq t ht => ((hrounds q hq).2 t ht).mono (fun _ _ => trivial) (fun _ _ => trivial))
    exact ⟨_, .done M s' docs mem hM hbe hs hm (by omega)⟩

end lexvec

section word2vec
variable (lower : Word → Word) (r : σ → ℝ × σ)
  (o : W2VOptions ℝ) (hdim : 0 ≤ o.dim) (hm : o.modelType = "skipgram".toList ∨ o.modelType = "cbow".toList)
  (ho : o.optimizerType = "ns".toList ∨ o.optimizerType = "hs".toList) (hw1 : 1 ≤ o.window) (hw2 : o.window < 2 ^ 63)
  (hu : o.updateLRBatch ≠ 0) (hbs : o.docInMemory = true ∨ 1 ≤ o.batchSize) (p : Pass) (ws : List Word) (h : Readable p ws)
  (hdic : (ws.map (o.corpus lower).norm).dedup.length < 2 ^ 63) (hg : 1 ≤ o.goroutines) (hb : (ws.length : Int) + o.goroutines ≤ 2 ^ 53)
  (menv : MemEnv ℝ) (s : σ) (next : UInt64)
include hdim hm ho hw1 hw2 hu hbs h hdic hg hb

/-- **C84 (word2vec, Train).** In real arithmetic (in float64 a parameter that overflowed makes the sigmoid lookup panic, C33; see `C84_word2vec_float64`). -/
theorem C84_word2vec_train : (∀ res, W2VTrain menv lower r o p s next res → ∃ N, res = .ok N) ∧
    (menv.Total → ∃ N, W2VTrain menv lower r o p s next (.ok N)) := by
  obtain ⟨dim, hd⟩ := Int.eq_ofNat_of_zero_le hdim
  obtain ⟨M, s', hM, _⟩ := C72_word2vec_starts lower r o dim hd (by omega) hm ho p ws h s
  obtain ⟨f1, f2, f3, ⟨f4, _⟩, f5, f6, f7⟩ := w2vSetup_facts lower r o dim hd p ws h s s' M hM
  obtain ⟨docs, hdocs⟩ := workerDocs_ok o.docInMemory (o.corpus lower) M.corpus p ws o.maxCount o.minCount f3 o.goroutines o.batchSize hg hb
  have hbe := batches_end (o.corpus lower) p ws h _ f1 o.docInMemory o.iter o.batchSize hbs
  have hmem := workerDocs_mem o.docInMemory (o.corpus lower) M.corpus p ws h f2 f1 f3 _ _ hbs docs hdocs
  have hlen : M.corpus.dic.len = (ws.map (o.corpus lower).norm).dedup.length := f2.len_eq
  have hsafe : SigSafe M.table := by
    have := sigSafe_real
    generalize (sigTable : List ℝ) = tb at f6 this
    rw [f6]; exact this
  have hthr := w2v_threads_ok M o dim hd 0 [docs] menv (fun _ => False) f5 f7 (by
    intro ds hds d hdd id hid
    rw [List.mem_singleton.1 hds] at hdd
    rw [hlen]
    exact mem_trainSeq_lt _ _ _ _ (hmem d hdd id hid)) (.inr ⟨hw1, hw2⟩) (.inr hsafe) (.inr (by rw [hlen]; exact hdic)) (.inr hu)
  simp only [W2VModel.sys, List.flatMap_cons, List.flatMap_nil, List.append_nil, List.mem_cons, forall_eq_or_imp] at hthr
  have hrounds : ∀ q ∈ List.replicate o.iter.toNat (w2vRound M o docs), q.1.Ok menv (w2vW [docs]) (fun _ => False) (fun _ => True) ∧
      ∀ t ∈ q.2, t.Ok menv (w2vW [docs]) (fun _ => False) (fun _ => True) := by
    intro q hq
    rw [List.eq_of_mem_replicate hq]
    exact hthr
  constructor
  · intro res ht
    cases ht with
    | setupErr e h => rw [hM] at h; cases h
    | setupPanic x h => rw [hM] at h; cases h
    | slicePanic M' s'' x h hd => rw [hM] at h; cases h; rw [hdocs] at hd; cases hd
    | panics M' s'' sl x h hd hi =>
      rw [hM] at h; cases h; rw [hdocs] at hd; cases hd
      exact absurd hi (Pool.no_panic (by simp) hrounds)
    | producerPanic M' s'' b x h hm hi hp =>
      rw [hM] at h; cases h
      rw [hm, hp] at hbe
      rcases hbe with h | h | h
      · cases h
      · omega
      · cases h
    | done M' s'' sl mem h hp hd hi => exact ⟨_, rfl⟩
  · intro he
    obtain ⟨mem, hm⟩ := iters_exist he (g := o.goroutines.toNat) (by omega) (M.mem o next) [] (List.replicate o.iter.toNat (w2vRound M o docs))
      (fun q hq t ht => ((hrounds q hq).2 t ht).mono (fun _ _ => trivial) (fun _ _ => trivial))
    exact ⟨_, .done M s' docs mem hM hbe hdocs hm⟩

end word2vec

/-! ## The commands -/

variable (lib : LibM) (menv : MemEnv F64) (env : Env) (lower : Word → Word) (enum : GoMap (BitVec 64) F64 → List (BitVec 64 × F64)) (henum : ∀ m, (enum m).Perm m)
  (r : σ → F64 × σ) (s : σ) (next : UInt64) (typ : Word) (input output : Path) (fs : FS) (hin : fs input ≠ none) (hout : fs output = none)
  (henv : env.mkdirFails = false ∧ env.createFails = false ∧ env.openFails = false) (ws : List Word) (hr : Readable ⟨fs.read input, false⟩ ws)
  (run : List Char → TrainOutcome)
include henum hin hout henv hr

/-- **C84 (GloVe command).** The training command with valid options on a readable document succeeds in every schedule, in float64. -/
theorem C84_glove_command (o : GloveOptions F64) (hdim : 0 ≤ o.dim) (hct : o.countType = "inc".toList)
    (hso : o.solverType = "sgd".toList ∨ o.solverType = "adagrad".toList)
    (hwin : o.docInMemory = true ∨ 1 ≤ o.window) (hne : o.docInMemory = true ∨ ws ≠ []) (hg : 1 ≤ o.goroutines)
    (hb : ((ws.map (o.corpus lower).norm).dedup.length : Int) * (ws.map (o.corpus lower).norm).dedup.length + o.goroutines ≤ 2 ^ 53)
    (hv : o.verbose = false ∨ o.logBatch ≠ 0) (hrun : RunsGlove lib menv lower enum r o s next typ run (fs.read input)) :
    (execute env false input output run fs).2 = .ok () := by
  let _ := lib.math
  obtain ⟨res, ht, e⟩ := hrun
  obtain ⟨N, rfl⟩ := (C84_glove_train lower enum henum r o hdim hct hso hwin _ ws hr hne hg hb menv s next).1 res ht
  obtain ⟨dim, hd⟩ := Int.eq_ofNat_of_zero_le hdim
  have hcol : o.dim.toNat = dim := by rw [hd]; simp
  cases ht with
  | done M s' sl mem h hd' hi =>
    obtain ⟨f1, _⟩ := C72_glove_shapes lower r o dim hd hwin _ ws hr s s' M h
    obtain ⟨text, ht⟩ := saveOutcome_ok _ M.corpus.dic f1 dim (.glove (M.after o mem).param) (by
      unfold Trained.OK
      dsimp only [GloveModel.after]
      rw [hcol]
      exact matrix_shaped _ _ _ _) typ o.verbose o.logBatch hv
    refine command_succeeds env input output run fs hin hout henv.1 henv.2.1 henv.2.2 text ?_
    rw [e, ← ht, ← hd]; rfl

/-- **C84 (LexVec command).** -/
theorem C84_lexvec_command (o : LexvecOptions F64) (hdim : 0 ≤ o.dim) (hrel : KnownRelation o.relationType) (hw1 : 1 ≤ o.window) (hw2 : o.window < 2 ^ 63)
    (hu : o.updateLRBatch ≠ 0) (hbs : o.docInMemory = true ∨ 1 ≤ o.batchSize) (hne : ws ≠ [])
    (hdic : (ws.map (o.corpus lower).norm).dedup.length ≤ 2 ^ 32) (hg : 1 ≤ o.goroutines) (hb : (ws.length : Int) + o.goroutines ≤ 2 ^ 53)
    (hv : o.verbose = false ∨ o.logBatch ≠ 0) (hrun : RunsLex lib menv lower enum r o s next typ run (fs.read input)) :
    (execute env false input output run fs).2 = .ok () := by
  let _ := lib.math
  obtain ⟨res, ht, e⟩ := hrun
  obtain ⟨N, rfl⟩ := (C84_lexvec_train lower enum henum r o hdim hrel hw1 hw2 hu hbs _ ws hr hne hdic hg hb menv s next).1 res ht
  obtain ⟨dim, hd⟩ := Int.eq_ofNat_of_zero_le hdim
  have hcol : o.dim.toNat = dim := by rw [hd]; simp
  cases ht with
  | done M s' sl mem h hp hd' hi =>
    obtain ⟨f1, _⟩ := lexSetup_facts lower enum r o dim hd (.inr hw1) _ ws hr s s' M h
    obtain ⟨text, ht⟩ := saveOutcome_ok _ M.corpus.dic f1 dim (.lexvec (M.after o mem).param) (by
      unfold Trained.OK
      dsimp only [LexModel.after]
      rw [hcol]
      exact matrix_shaped _ _ _ _) typ o.verbose o.logBatch hv
    refine command_succeeds env input output run fs hin hout henv.1 henv.2.1 henv.2.2 text ?_
    rw [e, ← ht, ← hd]; rfl

end Wego.Props

namespace Wego.Props
open Wego Wego.Spec
variable {σ F : Type}

/-- **C74 (with the semaphore).** In an iteration with `Goroutines >= 1` no schedule goes on for ever, and when no goroutine can move any more, every worker has
finished its document and released the semaphore, or a goroutine has panicked: the iteration is never stuck. -/
theorem C74_every_iteration_ends (env : MemEnv F) (he : env.Total) (g : Nat) (hg : 1 ≤ g) :
    (∀ f : Nat → Pool F, ¬ ∀ n, Pool.Step env g (f n) (f (n + 1))) ∧
    (∀ s : Pool F, (∀ x, ¬ s.Panicked x) → (∀ t, ¬ Pool.Step env g s t) → s.wait = [] ∧ s.run = []) :=
  ⟨fun f => Pool.no_infinite f, fun s hc hs => (Pool.progress he hg s hs).resolve_right fun ⟨x, hx⟩ => hc x hx⟩

/-- Without the semaphore's permits (`Goroutines = 0`) a waiting worker is never let in: the hypothesis is needed. -/
example (env : MemEnv F) (m : Mem F) : ∀ t, ¬ Pool.Step env 0 ⟨m, [], [.ret ()], []⟩ t := by
  intro t h
  generalize e : (⟨m, [], [.ret ()], []⟩ : Pool F) = s at h
  cases h with
  | acquire _ _ _ _ _ _ hlt => exact absurd hlt (Nat.not_lt_zero _)
  | work _ _ _ _ _ _ hw =>
    cases e
    have := Sys.step_pool hw
    generalize e' : ([] : List (Prog F Unit)) = z at this
    cases this; simp at e'
  | observe _ _ _ _ _ _ hw =>
    cases e
    have := Sys.step_pool hw
    generalize e' : ([] : List (Prog F Unit)) = z at this
    cases this; simp at e'
  | release => simp at e

/-! ## The hypotheses are met

The document `a b a` in the file `in`, no file `out`, default options with one goroutine, any mathematical library and any random numbers. -/

/-- the file system of the examples -/
def exampleFS : FS := fun q => if q = ['i', 'n'] then some (.file ['a', ' ', 'b', ' ', 'a']) else none

def exampleEnv : Env := ⟨[], false, false, false, false⟩

theorem example_readable : Readable ⟨exampleFS.read ['i', 'n'], false⟩ [['a'], ['b'], ['a']] :=
  ⟨isWords_fields ['a', ' ', 'b', ' ', 'a'], rfl, by decide⟩

/-- GloVe: an execution exists, the command succeeds (C84), and the output can be queried for `a` and `b` and for nothing else (C83). -/
example (lib : LibM) (other : Word → Option F64) (r : σ → F64 × σ) (s : σ) (next : UInt64) (im : Bool) :
    let o : GloveOptions F64 := { GloveOptions.default 1 with docInMemory := im }
    let menv : MemEnv F64 := MemEnv.sc (fun _ => True) (fun _ q => q = [])
    ∃ run, RunsGlove lib menv id id r o s next [] run (exampleFS.read ['i', 'n']) ∧
      (execute exampleEnv false ['i', 'n'] ['o'] run exampleFS).2 = .ok () ∧
      Queryable other [['a'], ['b'], ['a']] 10 ['o'] (execute exampleEnv false ['i', 'n'] ['o'] run exampleFS).1 := by
  intro o menv
  let _ := lib.math
  have hw : o.docInMemory = true ∨ 1 ≤ o.window := Or.inr (by show (1 : Int) ≤ 5; omega)
  have hb : (([['a'], ['b'], ['a']].map (o.corpus id).norm).dedup.length : Int) * ([['a'], ['b'], ['a']].map (o.corpus id).norm).dedup.length +
      o.goroutines ≤ 2 ^ 53 := by
    rw [show ([['a'], ['b'], ['a']].map (o.corpus id).norm).dedup.length = 2 from (by decide : ([['a'], ['b'], ['a']].map id).dedup.length = 2)]
    show (2 : Int) * 2 + 1 ≤ 2 ^ 53
    norm_num
  obtain ⟨N, hN⟩ := (C84_glove_train id id (fun _ => List.Perm.refl _) r o (by show (0 : Int) ≤ 10; omega) rfl (.inl rfl) hw _ _ example_readable (.inr (by simp))
    (by show (1 : Int) ≤ 1; omega) hb menv s next).2 (MemEnv.sc_total ⟨fzero, trivial⟩ (fun _ => []))
  have hrun : RunsGlove lib menv id id r o s next [] (fun _ => gloveOutcome o [] (.ok N)) (exampleFS.read ['i', 'n']) := ⟨_, hN, rfl⟩
  have hok := C84_glove_command lib menv exampleEnv id id (fun _ => List.Perm.refl _) r s next [] ['i', 'n'] ['o'] exampleFS (by simp [exampleFS]) (by simp [exampleFS])
    ⟨rfl, rfl, rfl⟩ _ example_readable _ o (by show (0 : Int) ≤ 10; omega) rfl (.inl rfl) hw (.inr (by simp)) (by show (1 : Int) ≤ 1; omega) hb (.inl rfl) hrun
  exact ⟨_, hrun, hok, C83_glove lib menv other exampleEnv id (fun w h1 h2 => ⟨h1, h2⟩) id r 10 (by omega) s next [] ['i', 'n'] ['o'] exampleFS _ example_readable _ o rfl hw
    hrun hok⟩

/-- LexVec -/
example (lib : LibM) (other : Word → Option F64) (r : σ → F64 × σ) (s : σ) (next : UInt64) (im : Bool) :
    let o : LexvecOptions F64 := { LexvecOptions.default 1 with docInMemory := im }
    let menv : MemEnv F64 := MemEnv.sc (fun _ => True) (fun _ q => q = [])
    ∃ run, RunsLex lib menv id id r o s next [] run (exampleFS.read ['i', 'n']) ∧
      (execute exampleEnv false ['i', 'n'] ['o'] run exampleFS).2 = .ok () ∧
      Queryable other [['a'], ['b'], ['a']] 10 ['o'] (execute exampleEnv false ['i', 'n'] ['o'] run exampleFS).1 := by
  intro o menv
  let _ := lib.math
  have hw : 1 ≤ o.window := by show (1 : Int) ≤ 5; omega
  have hw2 : o.window < 2 ^ 63 := by show (5 : Int) < 2 ^ 63; omega
  have hu : o.updateLRBatch ≠ 0 := by show (100000 : Int) ≠ 0; omega
  have hbs : o.docInMemory = true ∨ 1 ≤ o.batchSize := .inr (by show (1 : Int) ≤ 10000; omega)
  have hdic : ([['a'], ['b'], ['a']].map (o.corpus id).norm).dedup.length ≤ 2 ^ 32 := by
    rw [show ([['a'], ['b'], ['a']].map (o.corpus id).norm).dedup.length = 2 from (by decide : ([['a'], ['b'], ['a']].map id).dedup.length = 2)]; omega
  have hb : (([['a'], ['b'], ['a']] : List Word).length : Int) + o.goroutines ≤ 2 ^ 53 := by show (3 : Int) + 1 ≤ 2 ^ 53; norm_num
  have hrel : KnownRelation o.relationType := .inl rfl
  obtain ⟨N, hN⟩ := (C84_lexvec_train id id (fun _ => List.Perm.refl _) r o (by show (0 : Int) ≤ 10; omega) hrel hw hw2 hu hbs _ _ example_readable (by simp)
    hdic (by show (1 : Int) ≤ 1; omega) hb menv s next).2 (MemEnv.sc_total ⟨fzero, trivial⟩ (fun _ => []))
  have hrun : RunsLex lib menv id id r o s next [] (fun _ => lexOutcome o [] (.ok N)) (exampleFS.read ['i', 'n']) := ⟨_, hN, rfl⟩
  have hok := C84_lexvec_command lib menv exampleEnv id id (fun _ => List.Perm.refl _) r s next [] ['i', 'n'] ['o'] exampleFS (by simp [exampleFS]) (by simp [exampleFS])
    ⟨rfl, rfl, rfl⟩ _ example_readable _ o (by show (0 : Int) ≤ 10; omega) hrel hw hw2 hu hbs (by simp) hdic (by show (1 : Int) ≤ 1; omega) hb (.inl rfl) hrun
  exact ⟨_, hrun, hok, C83_lexvec lib menv other exampleEnv id (fun w h1 h2 => ⟨h1, h2⟩) id r 10 (by omega) s next [] ['i', 'n'] ['o'] exampleFS _ example_readable _ o rfl
    (.inr hw) hrun hok⟩

/-- word2vec: with `Iter` 0 the command succeeds in float64 too (the file then holds the initial vectors). -/
example (lib : LibM) (other : Word → Option F64) (r : σ → F64 × σ) (s : σ) (next : UInt64) (menv : MemEnv F64) :
    let o : W2VOptions F64 := { W2VOptions.default 1 with iter := 0 }
    ∃ run, RunsW2V lib menv id r o s next [] run (exampleFS.read ['i', 'n']) ∧
      (execute exampleEnv false ['i', 'n'] ['o'] run exampleFS).2 = .ok () ∧
      Queryable other [['a'], ['b'], ['a']] 10 ['o'] (execute exampleEnv false ['i', 'n'] ['o'] run exampleFS).1 := by
  intro o
  let _ := lib.math
  obtain ⟨M, s', e, _⟩ := C72_word2vec_starts (F := F64) id r o 10 rfl (by show (0 : Int) ≤ 1; omega) (Or.inr rfl) (Or.inl rfl) _ _ example_readable s
  obtain ⟨docs, hd⟩ := workerDocs_exist id r o 10 rfl _ _ example_readable s s' M e 1 rfl (by omega) (by norm_num)
  have hN : W2VTrain menv id r o ⟨exampleFS.read ['i', 'n'], false⟩ s next (.ok (M.after o (M.mem o next))) := .done M s' docs _ e (.inr (.inl (le_refl 0))) hd (.nil _ _)
  have hrun : RunsW2V lib menv id r o s next [] (fun _ => w2vOutcome o [] (.ok (M.after o (M.mem o next)))) (exampleFS.read ['i', 'n']) := ⟨_, hN, rfl⟩
  obtain ⟨f1, _⟩ := w2vSetup_facts id r o 10 rfl _ _ example_readable s s' M e
  obtain ⟨text, ht⟩ := saveOutcome_ok _ M.corpus.dic f1 10 (.w2v (M.after o (M.mem o next)).param (M.after o (M.mem o next)).opt) (by
    refine ⟨matrix_shaped _ _ _ _, ?_⟩
    intro ng hng
    simp only [W2VModel.after] at hng
    split at hng
    · cases hng
      exact matrix_shaped _ _ _ _
    · cases hng) [] o.verbose o.logBatch (.inl rfl)
  have hok := command_succeeds exampleEnv ['i', 'n'] ['o'] (fun _ => w2vOutcome o [] (.ok (M.after o (M.mem o next)))) exampleFS (by simp [exampleFS]) (by simp [exampleFS])
    rfl rfl rfl text ht
  exact ⟨_, hrun, hok, C83_word2vec lib menv other exampleEnv id (fun w h1 h2 => ⟨h1, h2⟩) r 10 (by omega) s next [] ['i', 'n'] ['o'] exampleFS _ example_readable _ o rfl
    hrun hok⟩

end Wego.Props
