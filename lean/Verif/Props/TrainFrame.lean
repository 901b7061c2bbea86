import Verif.Props.TrainOk

/-! # C68, C104: what a whole call of Train leaves alone -/

namespace Wego.Props
open Wego Wego.Matrix Spec
variable {F : Type} {σ : Type}

section pool
variable {env : MemEnv F} {g : Nat} {W : Loc → Prop} {np : Panic → Prop}

/-- A run of the goroutines changes no cell outside the ones they may write. -/
theorem pool_frame {s t : Pool F} (h0 : s.AllOk env W np) (h : Pool.Reach env g s t) (l : Loc) (hl : ¬ W l) : t.mem.cell l = s.mem.cell l := by
  induction h with
  | refl => rfl
  | step a b hr hs ih =>
    rw [← ih]
    have ha := Pool.reach_ok h0 hr
    unfold Pool.AllOk at ha
    cases hs with
    | acquire => rfl
    | release => rfl
    | work m m' obs wait run run' h =>
      exact (Sys.reach_ok (s₀ := ⟨m, run⟩) (fun t ht => ha t (by simp; tauto)) (.step _ _ .refl h)).2 l hl
    | observe m m' obs obs' wait run h =>
      exact (Sys.reach_ok (s₀ := ⟨m, obs⟩) (fun t ht => ha t (by simp; tauto)) (.step _ _ .refl h)).2 l hl

/-- The same for all iterations. -/
theorem iters_frame {m m' : Mem F} {obs : List (Prog F Unit)} {rounds : List (Prog F Unit × List (Prog F Unit))}
    (h : Pool.Iters env g m obs rounds m') (ho : ∀ t ∈ obs, t.Ok env W np (fun _ => True))
    (hr : ∀ q ∈ rounds, q.1.Ok env W np (fun _ => True) ∧ ∀ t ∈ q.2, t.Ok env W np (fun _ => True)) (l : Loc) (hl : ¬ W l) :
    m'.cell l = m.cell l := by
  induction h with
  | nil => rfl
  | cons m m' m'' obs obs' ob ws rest h _ ih =>
    have hok : (⟨m, ob :: obs, ws, []⟩ : Pool F).AllOk env W np := by
      intro t ht
      have h3 := hr _ List.mem_cons_self
      simp only [List.append_nil, List.mem_append, List.mem_cons] at ht
      rcases ht with (rfl | ht) | ht
      · exact h3.1
      · exact ho t ht
      · exact h3.2 t ht
    rw [ih (fun t ht => Pool.reach_ok hok h t (by simpa using ht)) (fun q hq => hr q (List.mem_cons_of_mem _ hq))]
    exact pool_frame hok h l hl

end pool

/-- **C68 (word2vec, the whole of Train).** Whatever the schedule and the memory model, when `Train` returns the word vector of every
word outside the count limits is the one the set-up drew for it. -/
theorem C68_train_word2vec [GoMath F] (menv : MemEnv F) (lower : Word → Word) (r : σ → F × σ) (o : W2VOptions F) (hdim : 0 ≤ o.dim)
    (p : Pass) (ws : List Word) (h : Readable p ws) (hbs : o.docInMemory = true ∨ 1 ≤ o.batchSize) (s : σ) (next : UInt64)
    (T : W2VModel F) (hT : W2VTrain menv lower r o p s next (.ok T)) :
    ∃ M s', w2vSetup lower r o p p s = .ok (M, s') ∧ ∀ w ∈ ws.map (o.corpus lower).norm,
      outside o.maxCount o.minCount ((ws.map (o.corpus lower).norm).count w) →
      T.param.rowOf (distinctBefore (ws.map (o.corpus lower).norm) w) = M.param.rowOf (distinctBefore (ws.map (o.corpus lower).norm) w) := by
  obtain ⟨dim, hd'⟩ := Int.eq_ofNat_of_zero_le hdim
  cases hT with
  | done M s' docs mem hM hp hd hi =>
  refine ⟨M, s', hM, fun w hw ho => ?_⟩
  obtain ⟨f1, f2, f3, ⟨f4, _⟩, f5, f6, f7⟩ := w2vSetup_facts lower r o dim hd' p ws h s s' M hM
  set us := ws.map (o.corpus lower).norm with hus
  have hmem := workerDocs_mem o.docInMemory (o.corpus lower) M.corpus p ws h f2 f1 f3 _ _ hbs docs hd
  have hlen : M.corpus.dic.len = us.dedup.length := f2.len_eq
  have hok := w2v_threads_ok M o dim hd' next [docs] menv (fun _ => True) f5 f7 (by
    intro ds hds d hdd id hid
    rw [List.mem_singleton.1 hds] at hdd
    rw [hlen]
    exact mem_trainSeq_lt _ _ _ id (hmem d hdd id hid)) (Or.inl fun _ => trivial) (Or.inl trivial) (Or.inl fun _ => trivial) (Or.inl fun _ => trivial)
  simp only [W2VModel.sys, List.flatMap_cons, List.flatMap_nil, List.append_nil, List.mem_cons] at hok
  have hfr := fun l hl => iters_frame (W := w2vW [docs]) (np := fun _ => True) hi (by simp) (by
    intro q hq
    rw [List.eq_of_mem_replicate hq]
    exact ⟨hok _ (Or.inl rfl), fun t ht => hok t (Or.inr ht)⟩) l hl
  have hlt : distinctBefore us w < M.corpus.dic.len := by
    rw [hlen, ← idxOf_firstOcc us w hw, ← length_firstOcc]
    exact List.idxOf_lt_length_iff.2 (by simpa using hw)
  have hcol : o.dim.toNat = dim := by rw [hd']; simp
  have hsh := matrix_shaped mem .param M.corpus.dic.len dim
  rw [show (M.after o mem).param = mem.matrix .param M.corpus.dic.len dim by simp only [W2VModel.after, hcol],
    hsh.rowOf_eq hlt, f4.rowOf_eq hlt]
  refine List.map_congr_left fun j hj => ?_
  have hj' : j < dim := by simpa using hj
  rw [matrix_val _ _ hlt hj', hfr (.param _ j) ?_]
  · simp only [W2VModel.mem]
    exact cellAt_eq f4 hlt hj'
  · rintro ⟨ds, hds, d, hdd, hid⟩
    rw [List.mem_singleton.1 hds] at hdd
    exact not_mem_trainSeq _ _ us w hw ho (hmem d hdd _ hid)

/-- What no schedule of LexVec can change. -/
theorem lex_frame [GoMath F] (menv : MemEnv F) (lower : Word → Word) (enum : GoMap (BitVec 64) F → List (BitVec 64 × F)) (r : σ → F × σ)
    (o : LexvecOptions F) (hdim : 0 ≤ o.dim) (hwin : o.docInMemory = true ∨ 1 ≤ o.window)
    (p : Pass) (ws : List Word) (h : Readable p ws) (hbs : o.docInMemory = true ∨ 1 ≤ o.batchSize)
    (hdic : (ws.map (o.corpus lower).norm).dedup.length < 2 ^ 63) (s : σ) (next : UInt64)
    (T : LexModel F) (hT : LexTrain menv lower enum r o p s next (.ok T)) :
    ∃ M s', lexSetup lower enum r o p p s = .ok (M, s') ∧ T.corpus = M.corpus ∧ addCalls [ws.map (o.corpus lower).norm] = .ok M.corpus.dic ∧
      Shaped M.param (M.corpus.dic.len * 2) o.dim.toNat ∧ Shaped T.param (M.corpus.dic.len * 2) o.dim.toNat ∧
      M.corpus.dic.len = (ws.map (o.corpus lower).norm).dedup.length ∧
      ∀ i < M.corpus.dic.len * 2, i ∉ trainSeq o.maxCount o.minCount (ws.map (o.corpus lower).norm) → (M.corpus.dic.len ≤ i → o.negativeSampleSize ≤ 0) →
        T.param.rowOf i = M.param.rowOf i := by
  obtain ⟨dim, hd'⟩ := Int.eq_ofNat_of_zero_le hdim
  have hcol : o.dim.toNat = dim := by rw [hd']; simp
  cases hT with
  | done M s' docs mem hM hp hd hi hc =>
  obtain ⟨f1, f2, f3, f4, f5⟩ := lexSetup_facts lower enum r o dim hd' hwin p ws h s s' M hM
  set us := ws.map (o.corpus lower).norm with hus
  have hlen : M.corpus.dic.len = us.dedup.length := f2.len_eq
  have hsh := matrix_shaped mem .param (M.corpus.dic.len * 2) dim
  refine ⟨M, s', hM, rfl, f1, by rw [hcol]; exact f4, by rw [hcol]; simpa only [LexModel.after, hcol] using hsh, hlen, fun i hlt hn hneg => ?_⟩
  have hmem := workerDocs_mem o.docInMemory (o.corpus lower) M.corpus p ws h f2 f1 f3 _ _ hbs docs hd
  have hok := lex_threads_ok M o next [docs] menv (fun _ => True) f5 (by
    intro ds hds d hdd id hid
    rw [List.mem_singleton.1 hds] at hdd
    rw [hlen]
    exact mem_trainSeq_lt _ _ _ id (hmem d hdd id hid)) (Or.inl fun _ => trivial) (by rw [hlen]; exact hdic) (Or.inl fun _ => trivial)
  simp only [LexModel.sys, List.flatMap_cons, List.flatMap_nil, List.append_nil, List.mem_cons] at hok
  have hfr := fun l hl => iters_frame (W := lexW o.negativeSampleSize M.corpus.dic.len [docs]) (np := fun _ => True) hi (by simp) (by
    intro q hq
    rw [List.eq_of_mem_replicate hq]
    exact ⟨hok _ (Or.inl rfl), fun t ht => hok t (Or.inr ht)⟩) l hl
  rw [show (M.after o mem).param = mem.matrix .param (M.corpus.dic.len * 2) dim by simp only [LexModel.after, hcol],
    hsh.rowOf_eq hlt, f4.rowOf_eq hlt]
  refine List.map_congr_left fun j hj => ?_
  have hj' : j < dim := by simpa using hj
  rw [matrix_val _ _ hlt hj', hfr (.param _ j) ?_]
  · simp only [LexModel.mem]
    exact cellAt_eq f4 hlt hj'
  · rintro (⟨ds, hds, d, hdd, hid⟩ | ⟨h1, h2⟩)
    · rw [List.mem_singleton.1 hds] at hdd
      exact hn (hmem d hdd _ hid)
    · have := hneg h2; omega

/-- **C68 (LexVec, the whole of Train).** The same for the word rows of LexVec. -/
theorem C68_train_lexvec [GoMath F] (menv : MemEnv F) (lower : Word → Word) (enum : GoMap (BitVec 64) F → List (BitVec 64 × F)) (r : σ → F × σ)
    (o : LexvecOptions F) (hdim : 0 ≤ o.dim) (hwin : o.docInMemory = true ∨ 1 ≤ o.window)
    (p : Pass) (ws : List Word) (h : Readable p ws) (hbs : o.docInMemory = true ∨ 1 ≤ o.batchSize)
    (hdic : (ws.map (o.corpus lower).norm).dedup.length < 2 ^ 63) (s : σ) (next : UInt64)
    (T : LexModel F) (hT : LexTrain menv lower enum r o p s next (.ok T)) :
    ∃ M s', lexSetup lower enum r o p p s = .ok (M, s') ∧ ∀ w ∈ ws.map (o.corpus lower).norm,
      outside o.maxCount o.minCount ((ws.map (o.corpus lower).norm).count w) →
      T.param.rowOf (distinctBefore (ws.map (o.corpus lower).norm) w) = M.param.rowOf (distinctBefore (ws.map (o.corpus lower).norm) w) := by
  obtain ⟨M, s', hM, _, _, _, _, hlen, hf⟩ := lex_frame menv lower enum r o hdim hwin p ws h hbs hdic s next T hT
  refine ⟨M, s', hM, fun w hw ho => ?_⟩
  have hlt : distinctBefore (ws.map (o.corpus lower).norm) w < M.corpus.dic.len := by
    rw [hlen, ← idxOf_firstOcc _ w hw, ← length_firstOcc]
    exact List.idxOf_lt_length_iff.2 (by simpa using hw)
  exact hf _ (by omega) (not_mem_trainSeq _ _ _ w hw ho) (fun _ => by omega)

/-- **C104.** With `NegativeSampleSize(0)` (or less) no schedule of `Train` moves any context vector of LexVec: row `N + i` of the trained
parameters, `N` the number of words, is the row the set-up drew. -/
theorem C104_no_samples [GoMath F] (menv : MemEnv F) (lower : Word → Word) (enum : GoMap (BitVec 64) F → List (BitVec 64 × F)) (r : σ → F × σ)
    (o : LexvecOptions F) (hneg : o.negativeSampleSize ≤ 0) (hdim : 0 ≤ o.dim) (hwin : o.docInMemory = true ∨ 1 ≤ o.window)
    (p : Pass) (ws : List Word) (h : Readable p ws) (hbs : o.docInMemory = true ∨ 1 ≤ o.batchSize)
    (hdic : (ws.map (o.corpus lower).norm).dedup.length < 2 ^ 63) (s : σ) (next : UInt64)
    (T : LexModel F) (hT : LexTrain menv lower enum r o p s next (.ok T)) :
    ∃ M s', lexSetup lower enum r o p p s = .ok (M, s') ∧ ∀ i < (ws.map (o.corpus lower).norm).dedup.length,
      T.param.rowOf (i + (ws.map (o.corpus lower).norm).dedup.length) = M.param.rowOf (i + (ws.map (o.corpus lower).norm).dedup.length) := by
  obtain ⟨M, s', hM, _, _, _, _, hlen, hf⟩ := lex_frame menv lower enum r o hdim hwin p ws h hbs hdic s next T hT
  refine ⟨M, s', hM, fun i hi => hf _ (by omega) (fun hm => ?_) (fun _ => hneg)⟩
  have := mem_trainSeq_lt _ _ _ _ hm
  omega

/-- **C104 (what WordVector then returns).** With `NegativeSampleSize(0)` the vector of type `single` of every word is its vector of type `agg`
plus the vector the set-up drew for its context row, whatever the schedule: the two types differ by the same random vector before and
after training. -/
theorem C104_vector_types [GoMath F] (menv : MemEnv F) (lower : Word → Word) (enum : GoMap (BitVec 64) F → List (BitVec 64 × F)) (r : σ → F × σ)
    (o : LexvecOptions F) (hneg : o.negativeSampleSize ≤ 0) (hdim : 0 ≤ o.dim) (hwin : o.docInMemory = true ∨ 1 ≤ o.window)
    (p : Pass) (ws : List Word) (h : Readable p ws) (hbs : o.docInMemory = true ∨ 1 ≤ o.batchSize)
    (hdic : (ws.map (o.corpus lower).norm).dedup.length < 2 ^ 63) (s : σ) (next : UInt64)
    (T : LexModel F) (hT : LexTrain menv lower enum r o p s next (.ok T)) :
    ∃ M s' agg single, lexSetup lower enum r o p p s = .ok (M, s') ∧
      lexWordVector T.corpus.dic.len o.dim T.param "agg".toList = .ok agg ∧ lexWordVector T.corpus.dic.len o.dim T.param "single".toList = .ok single ∧
      ∀ i < (ws.map (o.corpus lower).norm).dedup.length, ∀ j < o.dim.toNat, ∃ a c, agg.getAt i j = .ok a ∧
        M.param.getAt ((i + (ws.map (o.corpus lower).norm).dedup.length : Nat) : Int) j = .ok c ∧ single.getAt i j = .ok (a +. c) := by
  obtain ⟨M, s', hM, hc, _, hs, hs', hlen, hf⟩ := lex_frame menv lower enum r o hdim hwin p ws h hbs hdic s next T hT
  obtain ⟨dim, hd'⟩ := Int.eq_ofNat_of_zero_le hdim
  have hcol : o.dim.toNat = dim := by rw [hd']; simp
  rw [hcol] at hs hs'
  obtain ⟨_, _, ⟨agg, e1, _, _, g1⟩, k⟩ := C44_glove_lexvec_swapped M.corpus.dic.len dim ⟨List.replicate (M.corpus.dic.len * 2 * (dim + 1)) fzero, M.corpus.dic.len * 2, dim + 1⟩ T.param
    ⟨rfl, rfl, by simp⟩ hs'
  obtain ⟨single, e2, _, _, g2⟩ := k "single".toList (by decide)
  refine ⟨M, s', agg, single, hM, by rw [hc, hd']; exact e1, by rw [hc, hd']; exact e2, fun i hi j hj => ?_⟩
  rw [hcol] at hj
  rw [← hlen] at hi ⊢
  obtain ⟨a, h1, h2⟩ := g1 i hi j hj
  obtain ⟨a', b, h3, h4, h5⟩ := g2 i hi j hj
  rw [h1] at h3
  obtain rfl := Res.ok.inj h3
  refine ⟨a, b, h2, ?_, h5⟩
  have hrow := hf (i + M.corpus.dic.len) (by omega) (fun hm => by
    have := mem_trainSeq_lt _ _ _ _ hm
    omega) (fun _ => hneg)
  rw [← h4, hs.getAt_val (by omega) hj, hs'.getAt_val (by omega) hj]
  unfold Matrix.val
  rw [hrow]

/-- The hypotheses of `C68_train_lexvec`, `C104_no_samples` and `C104_vector_types` are met: `a b a`, default options with
`NegativeSampleSize(0)` and `MinCount(2)`, either corpus; `b` (count 1) lies outside the limits. -/
example (lib : LibM) (r : σ → F64 × σ) (s : σ) (next : UInt64) (im : Bool) :
    let o : LexvecOptions F64 := { LexvecOptions.default 1 with docInMemory := im, negativeSampleSize := 0, minCount := 2 }
    let menv : MemEnv F64 := MemEnv.sc (fun _ => True) (fun _ q => q = [])
    let _ := lib.math
    outside o.maxCount o.minCount (([['a'], ['b'], ['a']].map (o.corpus id).norm).count ['b']) ∧
    ∃ T, LexTrain menv id id r o ⟨exampleFS.read ['i', 'n'], false⟩ s next (.ok T) ∧
      (∃ M s', lexSetup id id r o ⟨exampleFS.read ['i', 'n'], false⟩ ⟨exampleFS.read ['i', 'n'], false⟩ s = .ok (M, s') ∧ T.param.rowOf 1 = M.param.rowOf 1 ∧
        T.param.rowOf 2 = M.param.rowOf 2) := by
  intro o menv _
  have hw : 1 ≤ o.window := by show (1 : Int) ≤ 5; omega
  have hw2 : o.window < 2 ^ 63 := by show (5 : Int) < 2 ^ 63; omega
  have hu : o.updateLRBatch ≠ 0 := by show (100000 : Int) ≠ 0; omega
  have hbs : o.docInMemory = true ∨ 1 ≤ o.batchSize := .inr (by show (1 : Int) ≤ 10000; omega)
  have hl : ([['a'], ['b'], ['a']].map (o.corpus id).norm) = [['a'], ['b'], ['a']] := by simp [CorpusCfg.norm, LexvecOptions.corpus, o]
  have hdic : ([['a'], ['b'], ['a']].map (o.corpus id).norm).dedup.length ≤ 2 ^ 32 := by rw [hl]; decide
  have hb : (([['a'], ['b'], ['a']] : List Word).length : Int) + o.goroutines ≤ 2 ^ 53 := by show (3 : Int) + 1 ≤ 2 ^ 53; norm_num
  have hout : outside o.maxCount o.minCount (([['a'], ['b'], ['a']].map (o.corpus id).norm).count ['b']) := by
    rw [hl]; exact Or.inr ⟨by show (0 : Int) ≤ 2; omega, by show ((([['a'], ['b'], ['a']] : List Word).count ['b'] : Nat) : Int) < 2; decide⟩
  refine ⟨hout, ?_⟩
  have hrel : KnownRelation o.relationType := .inl rfl
  obtain ⟨N, hN⟩ := (C84_lexvec_train id id (fun _ => List.Perm.refl _) r o (by show (0 : Int) ≤ 10; omega) hrel hw hw2 hu hbs _ _ example_readable (by simp)
    hdic (by show (1 : Int) ≤ 1; omega) hb menv s next).2 (MemEnv.sc_total ⟨fzero, trivial⟩ (fun _ => []))
  have hdic' : ([['a'], ['b'], ['a']].map (o.corpus id).norm).dedup.length < 2 ^ 63 := by rw [hl]; decide
  obtain ⟨M, s', e, h1⟩ := C68_train_lexvec menv id id r o (by show (0 : Int) ≤ 10; omega) (.inr hw) _ _ example_readable hbs hdic' s next N hN
  obtain ⟨M', s'', e', h2⟩ := C104_no_samples menv id id r o (le_refl 0) (by show (0 : Int) ≤ 10; omega) (.inr hw) _ _ example_readable hbs hdic' s next N hN
  have := C104_vector_types menv id id r o (le_refl 0) (by show (0 : Int) ≤ 10; omega) (.inr hw) _ _ example_readable hbs hdic' s next N hN
  rw [e] at e'; cases e'
  have h1' := h1 ['b'] (by rw [hl]; decide) hout
  have h2' := h2 0 (by rw [hl]; decide)
  rw [hl] at h1' h2'
  exact ⟨N, hN, M, s', e, h1', h2'⟩

/-- The hypotheses of `C68_train_word2vec` are met: `a b a` with `MinCount(2)`, real arithmetic. -/
example (r : σ → ℝ × σ) (s : σ) (next : UInt64) :
    let o : W2VOptions ℝ := { W2VOptions.default 1 with minCount := 2 }
    let menv : MemEnv ℝ := MemEnv.sc (fun _ => True) (fun _ q => q = [])
    ∃ T, W2VTrain menv id r o ⟨exampleFS.read ['i', 'n'], false⟩ s next (.ok T) ∧
      (∃ M s', w2vSetup id r o ⟨exampleFS.read ['i', 'n'], false⟩ ⟨exampleFS.read ['i', 'n'], false⟩ s = .ok (M, s') ∧ T.param.rowOf 1 = M.param.rowOf 1) := by
  intro o menv
  have hw : 1 ≤ o.window := by show (1 : Int) ≤ 5; omega
  have hw2 : o.window < 2 ^ 63 := by show (5 : Int) < 2 ^ 63; omega
  have hu : o.updateLRBatch ≠ 0 := by show (100000 : Int) ≠ 0; omega
  have hbs : o.docInMemory = true ∨ 1 ≤ o.batchSize := .inr (by show (1 : Int) ≤ 10000; omega)
  have hl : ([['a'], ['b'], ['a']].map (o.corpus id).norm) = [['a'], ['b'], ['a']] := by simp [CorpusCfg.norm, W2VOptions.corpus, o]
  have hdic : ([['a'], ['b'], ['a']].map (o.corpus id).norm).dedup.length < 2 ^ 63 := by rw [hl]; decide
  have hb : (([['a'], ['b'], ['a']] : List Word).length : Int) + o.goroutines ≤ 2 ^ 53 := by show (3 : Int) + 1 ≤ 2 ^ 53; norm_num
  have hout : outside o.maxCount o.minCount (([['a'], ['b'], ['a']].map (o.corpus id).norm).count ['b']) := by
    rw [hl]; exact Or.inr ⟨by show (0 : Int) ≤ 2; omega, by show ((([['a'], ['b'], ['a']] : List Word).count ['b'] : Nat) : Int) < 2; decide⟩
  obtain ⟨N, hN⟩ := (C84_word2vec_train id r o (by show (0 : Int) ≤ 10; omega) (Or.inr rfl) (Or.inl rfl) hw hw2 hu hbs _ _ example_readable
    hdic (by show (1 : Int) ≤ 1; omega) hb menv s next).2 (MemEnv.sc_total ⟨fzero, trivial⟩ (fun _ => []))
  obtain ⟨M, s', e, h1⟩ := C68_train_word2vec menv id r o (by show (0 : Int) ≤ 10; omega) _ _ example_readable hbs s next N hN
  have h1' := h1 ['b'] (by rw [hl]; decide) hout
  rw [hl] at h1'
  exact ⟨N, hN, M, s', e, h1'⟩

/-- **C104 (samples do train).** With one negative sample the same step does move a context vector: one word, dimension 1, both rows 1, rate 1/4. -/
theorem C104_samples_move :
    let s : LexState F64 := ⟨⟨[GoFloat.ofRat 1, GoFloat.ofRat 1], 2, 1⟩, 1, 0⟩
    s.param.getAt 1 0 = .ok (GoFloat.ofRat 1) ∧
    (lexPair (⟨1, 5, 1, 1, fun _ => GoFloat.ofRat (1 / 4)⟩ : LexCfg F64) GoMap.empty 0 0 s >>= fun s' => s'.param.getAt 1 0) = .ok (GoFloat.ofRat (15 / 16)) ∧
    (GoFloat.ofRat 1 : F64) ≠ GoFloat.ofRat (15 / 16) := by
  decide +kernel

end Wego.Props
