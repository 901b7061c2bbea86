import Verif.Props.TrainOk
import Verif.Props.ObjectOk
import Verif.Go.LibM

/-! # word2vec in float64 (C73, C84, C86)

Over the reals word2vec training cannot fail (`C84_word2vec_train`). In float64 one failure is left, whatever the random numbers, the schedule
and the values racing loads return: the index panic of the sigmoid lookup (C33). These theorems hold in any arithmetic, float64 being one. -/

namespace Wego

/-- Some execution of an iteration ends, or panics. -/
theorem pool_ends {F : Type} {env : MemEnv F} (he : env.Total) {g : Nat} (hg : 1 ≤ g) (m : Mem F) (obs ws : List (Prog F Unit)) :
    (∃ m', Pool.Reach env g ⟨m, obs, ws, []⟩ ⟨m', obs, [], []⟩) ∨ ∃ s x, Pool.Reach env g ⟨m, obs, ws, []⟩ s ∧ s.Panicked x := by
  induction ws generalizing m with
  | nil => exact .inl ⟨m, .refl⟩
  | cons x ws ih =>
    obtain ⟨t, h1, h2⟩ := Sys.reaches_end he ⟨m, [x]⟩
    have start : Pool.Reach env g ⟨m, obs, x :: ws, []⟩ ⟨t.mem, obs, ws, t.threads⟩ :=
      Pool.Reach.trans (.one (.acquire m obs [] ws [] x (by simp; omega))) (Pool.of_sys h1 obs ws)
    rcases h2 with h3 | ⟨q, hq⟩
    · have hl := h1.length
      obtain ⟨y, hy⟩ := List.length_eq_one_iff.1 (by simpa using hl)
      have : y = .ret () := h3 y (by rw [hy]; simp)
      subst this
      rw [hy] at start
      have fin := Pool.Reach.trans start (.one (.release _ _ _ [] []))
      rcases ih t.mem with ⟨m', h4⟩ | ⟨s, x, h4, h5⟩
      · exact .inl ⟨m', fin.trans h4⟩
      · exact .inr ⟨s, x, fin.trans h4, h5⟩
    · exact .inr ⟨_, q, start, List.mem_append.2 (.inr hq)⟩

/-- Some execution of all iterations ends, or panics. -/
theorem iters_end {F : Type} {env : MemEnv F} (he : env.Total) {g : Nat} (hg : 1 ≤ g) (m : Mem F) (obs : List (Prog F Unit))
    (rounds : List (Prog F Unit × List (Prog F Unit))) :
    (∃ m', Pool.Iters env g m obs rounds m') ∨ ∃ x, Pool.ItersPanic env g x m obs rounds := by
  induction rounds generalizing m obs with
  | nil => exact .inl ⟨m, .nil m obs⟩
  | cons r rounds ih =>
    obtain ⟨ob, ws⟩ := r
    rcases pool_ends he hg m (ob :: obs) ws with ⟨m1, h1⟩ | ⟨s, x, h1, h2⟩
    · rcases ih m1 (ob :: obs) with ⟨m2, h2⟩ | ⟨x, h2⟩
      · exact .inl ⟨m2, .cons _ _ _ _ _ _ _ _ h1 h2⟩
      · exact .inr ⟨x, .later _ _ _ _ _ _ _ h1 h2⟩
    · exact .inr ⟨x, .here _ _ _ _ _ _ h1 h2⟩

end Wego

namespace Wego.Props
open Wego Wego.Spec
variable {σ F : Type}

/-- **C73 (word2vec, any arithmetic).** With valid options, on every readable document, in every schedule and whatever values racing loads return, the
only panic a training goroutine can reach is an index out of range: no slice bound, no division by zero, no nil dereference. -/
theorem C73_word2vec_float64 [GoMath F] (lower : Word → Word) (r : σ → F × σ) (o : W2VOptions F) (dim : Nat) (hdim : o.dim = dim)
    (hw1 : 1 ≤ o.window) (hw2 : o.window < 2 ^ 63) (hu : o.updateLRBatch ≠ 0)
    (p : Pass) (ws : List Word) (h : Readable p ws) (hdic : (ws.map (o.corpus lower).norm).dedup.length < 2 ^ 63)
    (s s' : σ) (M : W2VModel F) (hM : w2vSetup lower r o p p s = .ok (M, s'))
    (hbs : o.docInMemory = true ∨ 1 ≤ o.batchSize) (docs : List (List Nat))
    (hd : workerDocs o.docInMemory (o.corpus lower) M.corpus p o.goroutines o.batchSize = .ok docs)
    (env : MemEnv F) (next : UInt64) (n : Nat) (st : Sys F) (hst : Sys.Reach env (M.sys o next (List.replicate n docs)) st)
    (x : Panic) (hx : .panic x ∈ st.threads) : x = .indexOutOfRange := by
  obtain ⟨f1, f2, f3, ⟨f4, _⟩, f5, f6, f7⟩ := w2vSetup_facts lower r o dim hdim p ws h s s' M hM
  have hmem := workerDocs_mem o.docInMemory (o.corpus lower) M.corpus p ws h f2 f1 f3 _ _ hbs docs hd
  have hlen : M.corpus.dic.len = (ws.map (o.corpus lower).norm).dedup.length := f2.len_eq
  exact Sys.reach_panics (w2v_threads_ok M o dim hdim next (List.replicate n docs) env (· = .indexOutOfRange) f5 f7 (by
    intro ds hds d hdd id hid
    rw [List.eq_of_mem_replicate hds] at hdd
    rw [hlen]
    exact mem_trainSeq_lt _ _ _ id (hmem d hdd id hid)) (Or.inr ⟨hw1, hw2⟩) (Or.inl rfl) (Or.inr (by rw [hlen]; exact hdic)) (Or.inr hu)) hst hx

section train
variable [GoMath F] (lower : Word → Word) (r : σ → F × σ)
  (o : W2VOptions F) (hdim : 0 ≤ o.dim) (hm : o.modelType = "skipgram".toList ∨ o.modelType = "cbow".toList)
  (ho : o.optimizerType = "ns".toList ∨ o.optimizerType = "hs".toList) (hw1 : 1 ≤ o.window) (hw2 : o.window < 2 ^ 63)
  (hu : o.updateLRBatch ≠ 0) (hbs : o.docInMemory = true ∨ 1 ≤ o.batchSize) (p : Pass) (ws : List Word) (h : Readable p ws)
  (hdic : (ws.map (o.corpus lower).norm).dedup.length < 2 ^ 63) (hg : 1 ≤ o.goroutines) (hb : (ws.length : Int) + o.goroutines ≤ 2 ^ 53)
  (menv : MemEnv F) (s : σ) (next : UInt64)
include hdim hm ho hw1 hw2 hu hbs h hdic hg hb

omit hm ho hg hb in
/-- the goroutines of a word2vec iteration panic with an index out of range only -/
theorem w2v_rounds_index (M : W2VModel F) (s' : σ) (hM : w2vSetup lower r o p p s = .ok (M, s')) (docs : List (List Nat))
    (hdocs : workerDocs o.docInMemory (o.corpus lower) M.corpus p o.goroutines o.batchSize = .ok docs) :
    ∀ q ∈ List.replicate o.iter.toNat (w2vRound M o docs), q.1.Ok menv (fun _ => True) (· = .indexOutOfRange) (fun _ => True) ∧
      ∀ t ∈ q.2, t.Ok menv (fun _ => True) (· = .indexOutOfRange) (fun _ => True) := by
  obtain ⟨dim, hd⟩ := Int.eq_ofNat_of_zero_le hdim
  obtain ⟨f1, f2, f3, ⟨f4, _⟩, f5, f6, f7⟩ := w2vSetup_facts lower r o dim hd p ws h s s' M hM
  have hmem := workerDocs_mem o.docInMemory (o.corpus lower) M.corpus p ws h f2 f1 f3 _ _ hbs docs hdocs
  have hlen : M.corpus.dic.len = (ws.map (o.corpus lower).norm).dedup.length := f2.len_eq
  have hthr := w2v_threads_ok M o dim hd 0 [docs] menv (· = .indexOutOfRange) f5 f7 (by
    intro ds hds d hdd id hid
    rw [List.mem_singleton.1 hds] at hdd
    rw [hlen]
    exact mem_trainSeq_lt _ _ _ _ (hmem d hdd id hid)) (.inr ⟨hw1, hw2⟩) (.inl rfl) (.inr (by rw [hlen]; exact hdic)) (.inr hu)
  simp only [W2VModel.sys, List.flatMap_cons, List.flatMap_nil, List.append_nil, List.mem_cons, forall_eq_or_imp] at hthr
  intro q hq
  rw [List.eq_of_mem_replicate hq]
  exact ⟨hthr.1.mono (fun _ _ => trivial) (fun _ h => h), fun t ht => (hthr.2 t ht).mono (fun _ _ => trivial) (fun _ h => h)⟩

/-- **C84 (word2vec, Train, any arithmetic).** With valid options and a readable document `Train` has an outcome, and in every schedule it returns nil
or panics with an index out of range: no error and no other panic. -/
theorem C84_word2vec_float64 : (∀ res, W2VTrain menv lower r o p s next res → (∃ N, res = .ok N) ∨ res = .panic .indexOutOfRange) ∧
    (menv.Total → ∃ res, W2VTrain menv lower r o p s next res) := by
  obtain ⟨dim, hd⟩ := Int.eq_ofNat_of_zero_le hdim
  obtain ⟨M, s', hM, _⟩ := C72_word2vec_starts lower r o dim hd (by omega) hm ho p ws h s
  obtain ⟨f1, f2, f3, ⟨f4, _⟩, f5, f6, f7⟩ := w2vSetup_facts lower r o dim hd p ws h s s' M hM
  obtain ⟨docs, hdocs⟩ := workerDocs_ok o.docInMemory (o.corpus lower) M.corpus p ws o.maxCount o.minCount f3 o.goroutines o.batchSize hg hb
  have hbe := batches_end (o.corpus lower) p ws h _ f1 o.docInMemory o.iter o.batchSize hbs
  have hrounds := w2v_rounds_index lower r o hdim hw1 hw2 hu hbs p ws h hdic menv s M s' hM docs hdocs
  constructor
  · intro res ht
    cases ht with
    | setupErr e h => rw [hM] at h; cases h
    | setupPanic x h => rw [hM] at h; cases h
    | slicePanic M' s'' x h hd => rw [hM] at h; cases h; rw [hdocs] at hd; cases hd
    | panics M' s'' sl x h hd hi =>
      rw [hM] at h; cases h; rw [hdocs] at hd; cases hd
      exact .inr (by rw [Pool.panics (by simp) hrounds hi])
    | producerPanic M' s'' b x h hm hi hp =>
      rw [hM] at h; cases h
      rw [hm, hp] at hbe
      rcases hbe with h | h | h
      · cases h
      · omega
      · cases h
    | done M' s'' sl mem h hp hd hi => exact .inl ⟨_, rfl⟩
  · intro he
    rcases iters_end he (g := o.goroutines.toNat) (by omega) (M.mem o next) [] (List.replicate o.iter.toNat (w2vRound M o docs)) with ⟨mem, hm⟩ | ⟨x, hx⟩
    · exact ⟨_, .done M s' docs mem hM hbe hdocs hm⟩
    · exact ⟨_, .panics M s' docs x hM hdocs hx⟩

variable (late : List (Prog F Unit)) (hlate : ∀ t ∈ late, t.Late) (x : ModelObj F)
include hlate

/-- **C86 (word2vec, any arithmetic).** A later `Train` on the same object, also while observers of earlier calls run, returns nil or panics with an
index out of range. -/
theorem C86_word2vec_float64 : (∀ x' res, W2VObjTrain menv lower r o late x p s next x' res → res = .ok () ∨ res = .panic .indexOutOfRange) ∧
    (menv.Total → ∃ x' res, W2VObjTrain menv lower r o late x p s next x' res) := by
  obtain ⟨dim, hd⟩ := Int.eq_ofNat_of_zero_le hdim
  obtain ⟨M, s', hM, _⟩ := C72_word2vec_starts lower r o dim hd (by omega) hm ho p ws h s
  obtain ⟨f1, f2, f3, ⟨f4, _⟩, f5, f6, f7⟩ := w2vSetup_facts lower r o dim hd p ws h s s' M hM
  obtain ⟨docs, hdocs⟩ := workerDocs_ok o.docInMemory (o.corpus lower) M.corpus p ws o.maxCount o.minCount f3 o.goroutines o.batchSize hg hb
  have hbe := batches_end (o.corpus lower) p ws h _ f1 o.docInMemory o.iter o.batchSize hbs
  have hrounds := w2v_rounds_index lower r o hdim hw1 hw2 hu hbs p ws h hdic menv s M s' hM docs hdocs
  rw [← w2vSetupObj_res (x := x)] at hM
  constructor
  · intro x' res ht
    cases ht with
    | setupErr e h => rw [hM] at h; cases h
    | setupPanic x h => rw [hM] at h; cases h
    | slicePanic M' s'' x h hd => rw [hM] at h; cases h; rw [hdocs] at hd; cases hd
    | panics M' s'' sl x h hd hi =>
      rw [hM] at h; cases h; rw [hdocs] at hd; cases hd
      exact .inr (by rw [Pool.panics (fun t ht => late_ok (hlate t ht) menv) hrounds hi])
    | producerPanic M' s'' b x h hm hi hp =>
      rw [hM] at h; cases h
      rw [hm, hp] at hbe
      rcases hbe with h | h | h
      · cases h
      · omega
      · cases h
    | done M' s'' sl mem h hp hd hi => exact .inl rfl
  · intro he
    rcases iters_end he (g := o.goroutines.toNat) (by omega) ((M.mem o next).set .lr x.lr) late (List.replicate o.iter.toNat (w2vRound M o docs)) with ⟨mem, hm⟩ | ⟨x, hx⟩
    · exact ⟨_, _, .done M s' docs mem hM hbe hdocs hm⟩
    · exact ⟨_, _, .panics M s' docs _ hM hdocs hx⟩

end train

/-- If `Train` panics, so does the command, after creating the output file. -/
theorem command_panics (env : Env) (input output : Path) (run : List Char → TrainOutcome) (fs : FS) (hin : fs input ≠ none) (hout : fs output = none)
    (h1 : env.mkdirFails = false) (h2 : env.createFails = false) (h3 : env.openFails = false) (x : Panic)
    (hr : run (fs.read input) = .trainPanic x) :
    (execute env false input output run fs).2 = .panic x ∧ (execute env false input output run fs).1 output = some (.file []) := by
  have hne : input ≠ output := by rintro rfl; exact hin hout
  have hread : ((fs.mkdirAll env.mkdirs).put output (.file [])).read input = fs.read input := by
    unfold FS.read
    rw [put_other _ _ _ _ hne]
    cases hf : fs input with
    | none => exact absurd hf hin
    | some n => simp [FS.mkdirAll, hf]
  unfold execute executeMain
  have a : fs.exists output = false := by simp [FS.exists, hout]
  have b : fs.exists input = true := by
    cases hf : fs input with
    | none => exact absurd hf hin
    | some n => simp [FS.exists, hf]
  simp [a, b, h1, h2, h3, hread, hr, FS.put]

/-- **C84 (word2vec command, float64).** The training command with valid options on a readable document, the output not existing, the input existing and
the system calls succeeding: in every schedule it succeeds, or ends with an index panic and leaves an empty output file (in which case the next run refuses to start, C64). -/
theorem C84_word2vec_command_float64 (lib : LibM) (menv : MemEnv F64) (env : Env) (lower : Word → Word) (r : σ → F64 × σ) (s : σ) (next : UInt64)
    (typ : Word) (input output : Path) (fs : FS) (hin : fs input ≠ none) (hout : fs output = none)
    (henv : env.mkdirFails = false ∧ env.createFails = false ∧ env.openFails = false) (ws : List Word) (hr : Readable ⟨fs.read input, false⟩ ws)
    (run : List Char → TrainOutcome)
    (o : W2VOptions F64) (hdim : 0 ≤ o.dim) (hm : o.modelType = "skipgram".toList ∨ o.modelType = "cbow".toList)
    (ho : o.optimizerType = "ns".toList ∨ o.optimizerType = "hs".toList) (hw1 : 1 ≤ o.window) (hw2 : o.window < 2 ^ 63)
    (hu : o.updateLRBatch ≠ 0) (hbs : o.docInMemory = true ∨ 1 ≤ o.batchSize)
    (hdic : (ws.map (o.corpus lower).norm).dedup.length < 2 ^ 63) (hg : 1 ≤ o.goroutines) (hb : (ws.length : Int) + o.goroutines ≤ 2 ^ 53)
    (hv : o.verbose = false ∨ o.logBatch ≠ 0) (hrun : RunsW2V lib menv lower r o s next typ run (fs.read input)) :
    (execute env false input output run fs).2 = .ok () ∨
    ((execute env false input output run fs).2 = .panic .indexOutOfRange ∧ (execute env false input output run fs).1 output = some (.file [])) := by
  let _ := lib.math
  obtain ⟨res, ht, e⟩ := hrun
  rcases (C84_word2vec_float64 lower r o hdim hm ho hw1 hw2 hu hbs _ ws hr hdic hg hb menv s next).1 res ht with ⟨N, rfl⟩ | rfl
  · left
    obtain ⟨dim, hd⟩ := Int.eq_ofNat_of_zero_le hdim
    have hcol : o.dim.toNat = dim := by rw [hd]; simp
    cases ht with
    | done M s' sl mem h hp hd' hi =>
      obtain ⟨f1, _⟩ := w2vSetup_facts lower r o dim hd _ ws hr s s' M h
      obtain ⟨text, ht⟩ := saveOutcome_ok _ M.corpus.dic f1 dim (.w2v (M.after o mem).param (M.after o mem).opt) (by
        refine ⟨?_, ?_⟩
        · rw [show (M.after o mem).param = mem.matrix .param M.corpus.dic.len dim by simp only [W2VModel.after, hcol]]
          exact matrix_shaped _ _ _ _
        · intro ng hng
          simp only [W2VModel.after] at hng
          split at hng
          · cases hng
            dsimp only
            rw [hcol]
            exact matrix_shaped _ _ _ _
          · cases hng) typ o.verbose o.logBatch hv
      refine command_succeeds env input output run fs hin hout henv.1 henv.2.1 henv.2.2 text ?_
      rw [e, ← ht, ← hd]; rfl
  · right
    exact command_panics env input output run fs hin hout henv.1 henv.2.1 henv.2.2 _ e

end Wego.Props
