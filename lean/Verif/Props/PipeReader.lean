import Verif.Model.Readings
import Verif.Props.ChangedDoc
import Verif.Props.NothingToTrain
import Verif.Props.TrainFrame

/-! # C110, C111: later readings of the input that find something else, or nothing -/

namespace Wego.Props
open Wego Wego.Matrix Spec
variable {F : Type} {σ : Type}

/-! ## One reading -/

/-- the batches of a reading, put together -/
theorem readBatches_eq [GoFloat F] (cfg : CorpusCfg) (us : List Word) (c : CorpusState F) (hd : addCalls [us] = .ok c.dic) (q : Pass) (vs : List Word) (h : Readable q vs)
    (bs : Int) (hb : 1 ≤ bs) : (fsBatchWords cfg c.dic q bs).2 = .next ∧
      (readBatches cfg c q bs).flatten = ((vs.map (fun w => countsAs us (cfg.norm w))).filter
        (fun w => ¬ outside cfg.maxCount cfg.minCount (us.count w))).map (distinctBefore us) := by
  obtain ⟨n, rfl⟩ := Int.eq_ofNat_of_zero_le (by omega : 0 ≤ bs)
  obtain ⟨full, last, e, _, _, e2⟩ := C110_batches cfg us c.dic hd q vs h n (by omega)
  unfold readBatches
  rw [e, ← e2]
  have hf : ∀ l : List (List Nat), sentBatches (l.map ChanEv.send ++ [.send last, .close]) = l ++ [last] := by
    intro l
    induction l with
    | nil => rfl
    | cons a l ih =>
      simp only [sentBatches, List.map_cons, List.cons_append, List.filterMap_cons] at ih ⊢
      rw [ih]
  refine ⟨rfl, ?_⟩
  dsimp only
  rw [hf]
  simp

/-- the second reading of `Load`: the pairs are counted over what it finds -/
theorem fsLoad_changed [GoFloat F] (cfg : CorpusCfg) {p1 p2 : Pass} {ws vs : List Word} (h1 : Readable p1 ws) (h2 : Readable p2 vs) :
    ∃ c : CorpusState F, addCalls [ws.map cfg.norm] = .ok c.dic ∧ c.dic.Rep (ws.map cfg.norm) ∧ c.maxLen = ws.length ∧
      ∀ t (n : Nat), 1 ≤ n → fsLoad cfg p1 p2 (some ⟨t, n⟩) =
        (Cooccurrence.new (F := F) t >>= fun co =>
            addPairs ((fwdCalls n vs).map (fun q => (c.dic.idOrZero q.1, c.dic.idOrZero q.2))) co >>= fun co =>
            .ok { c with cooc := some co }) := by
  obtain ⟨c, e1, e2, e3, e4, e5, e6⟩ := fsRead_forEach (F := F) cfg ws
  refine ⟨c, ?_, e3, e4, ?_⟩
  · obtain ⟨d, a, b⟩ := addCalls_rep [ws.map cfg.norm]
    rw [a]
    simp only [addCalls, forEach_cons, forEach_nil] at a
    rw [e2] at a
    simpa using a.symm
  · intro t n hn
    unfold fsLoad
    rw [readWord_lift h1, e1]
    simp only [Res.ok_bind]
    congr 1; funext co
    rw [fwd_readable h2 n hn]
    unfold fsPairCb addPairs
    rw [forEach_map', ← ctlRes_callEach_lift]

/-- `Load` with counting, when both readings succeed and the first found a word -/
theorem load_changed [GoFloat F] (cfg : CorpusCfg) {p1 p2 : Pass} {ws vs : List Word} (h1 : Readable p1 ws) (h2 : Readable p2 vs) (hne : ws ≠ []) (n : Int) (hn : 1 ≤ n) :
    ∃ (c : CorpusState F) (co : Cooccurrence F) (calls : List (Nat × Nat)), fsLoad cfg p1 p2 (some ⟨countInc, n⟩) = .ok c ∧ addCalls [ws.map cfg.norm] = .ok c.dic ∧
      c.dic.Rep (ws.map cfg.norm) ∧ c.cooc = some co ∧ cooCalls countInc calls = .ok co ∧ (∀ q ∈ calls, q.1 < c.dic.len ∧ q.2 < c.dic.len) ∧
      calls = (fwdCalls n.toNat vs).map (fun q => (c.dic.idOrZero q.1, c.dic.idOrZero q.2)) := by
  obtain ⟨k, rfl⟩ := Int.eq_ofNat_of_zero_le (by omega : 0 ≤ n)
  obtain ⟨c, e1, e2, _, e4⟩ := fsLoad_changed (F := F) cfg h1 h2
  have e5 := e4 countInc k (by omega)
  obtain ⟨co, a1, _⟩ := addPairs_inc (F := F) ((fwdCalls k vs).map (fun q => (c.dic.idOrZero q.1, c.dic.idOrZero q.2))) ⟨countInc, GoMap.empty⟩ rfl
  have hnew : Cooccurrence.new (F := F) countInc = .ok ⟨countInc, GoMap.empty⟩ := by simp [Cooccurrence.new]
  rw [hnew, Res.ok_bind, a1, Res.ok_bind] at e5
  refine ⟨_, co, _, e5, e1, e2, rfl, by unfold cooCalls; rw [hnew, Res.ok_bind]; exact a1, ?_, rfl⟩
  have hlen : 0 < c.dic.len := by
    rw [e2.len_eq]
    obtain ⟨w, hw⟩ := List.exists_mem_of_ne_nil ws hne
    exact List.length_pos_of_mem (List.mem_dedup.2 (List.mem_map_of_mem hw))
  have hid : ∀ w, c.dic.idOrZero w < c.dic.len := by
    intro w
    rw [e2.idOrZero_eq]
    split
    · next hw => rw [Dictionary.len, e2.maxid]; exact List.idxOf_lt_length_iff.2 (by simpa using hw)
    · exact hlen
  intro q hq
  obtain ⟨x, _, rfl⟩ := List.mem_map.1 hq
  exact ⟨hid _, hid _⟩

theorem lexSetup_changed [GoMath F] (lower : Word → Word) (enum : GoMap (BitVec 64) F → List (BitVec 64 × F)) (henum : ∀ m, (enum m).Perm m)
    (r : σ → F × σ) (o : LexvecOptions F) (dim : Nat) (hdim : o.dim = dim) (hm : o.docInMemory = false) (hw : 1 ≤ o.window) (hrel : KnownRelation o.relationType)
    (p1 p2 : Pass) (ws vs : List Word) (h1 : Readable p1 ws) (h2 : Readable p2 vs)
    (hne : ws ≠ []) (hdic : (ws.map (o.corpus lower).norm).dedup.length ≤ 2 ^ 32) (s : σ) :
    ∃ M s', lexSetup lower enum r o p1 p2 s = .ok (M, s') ∧ addCalls [ws.map (o.corpus lower).norm] = .ok M.corpus.dic ∧ M.corpus.dic.Rep (ws.map (o.corpus lower).norm) ∧
      Shaped M.param (M.corpus.dic.len * 2) dim ∧ M.samples.length = M.corpus.dic.len := by
  obtain ⟨c, co, calls, e, e1, hr, hco, hcc, hlt, _⟩ := load_changed (F := F) (o.corpus lower) h1 h2 hne o.window hw
  obtain ⟨m, s1, q1, q2⟩ := randMatrix_ok r (initValue (F := F) o.dim) (c.dic.len * 2) dim s
  push_cast at q1
  rw [← hdim] at q1
  obtain ⟨items, hit⟩ := lexItems_total c.dic _ hr c.maxLen o.smooth (String.ofList o.relationType) (by
      rcases hrel with e | e | e | e <;> rw [e] <;> simp) calls (by rw [hr.len_eq]; exact hdic) hlt co hcc (enum co.encodedMatrix) (henum _)
  refine ⟨⟨c, m, (firstOcc (ws.map (o.corpus lower).norm)).map (fun w => sampleValue o.subsampleThreshold ((ws.map (o.corpus lower).norm).count w)), items⟩,
    s1, ?_, e1, hr, q2, ?_⟩
  · unfold lexSetup loadCorpus
    rw [hm]
    simp only [Bool.false_eq_true, if_false]
    rw [e, Res.ok_bind, q1, Res.ok_bind, subsamples_eq c.dic _ hr, Res.ok_bind, hco]
    dsimp only
    rw [hit, Res.ok_bind]
  · rw [List.length_map, show c.dic.len = _ from hr.maxid]

theorem _root_.Wego.Pool.ItersPanic.append_right {env : MemEnv F} {g : Nat} {x : Panic} {m : Mem F} {obs : List (Prog F Unit)} {l : List (Prog F Unit × List (Prog F Unit))}
    (h : Pool.ItersPanic env g x m obs l) (k : List (Prog F Unit × List (Prog F Unit))) : Pool.ItersPanic env g x m obs (l ++ k) := by
  induction h with
  | here m obs ob ws rest s h hs => exact .here m obs ob ws _ s h hs
  | later m m' obs obs' ob ws rest h _ ih => exact .later m m' obs obs' ob ws _ h ih

/-! ## word2vec -/

section word2vec
variable [GoMath F] (menv : MemEnv F) (lower : Word → Word) (r : σ → F × σ) (o : W2VOptions F) (hdim : 0 ≤ o.dim) (hg : 1 ≤ o.goroutines)
  (hm : o.modelType = "skipgram".toList ∨ o.modelType = "cbow".toList) (ho : o.optimizerType = "ns".toList ∨ o.optimizerType = "hs".toList)
  (hmem : o.docInMemory = false) (hbs : 1 ≤ o.batchSize) (p : Pass) (ws : List Word) (h : Readable p ws) (s : σ) (next : UInt64)
include hdim hg hm ho hmem hbs h

/-- `W2VReads` with the same text in every reading is `W2VTrain`. -/
theorem C110_word2vec_same (res : Res (W2VModel F)) :
    W2VReads menv lower r o p (List.replicate o.iter.toNat p) s next res ↔ W2VTrain menv lower r o p s next res := by
  obtain ⟨dim, hd⟩ := Int.eq_ofNat_of_zero_le hdim
  obtain ⟨M, s', hM, _⟩ := C72_word2vec_starts lower r o dim hd (by omega) hm ho p ws h s
  obtain ⟨f1, _⟩ := w2vSetup_facts lower r o dim hd p ws h s s' M hM
  obtain ⟨hnext, _⟩ := readBatches_eq (o.corpus lower) _ M.corpus f1 p ws h o.batchSize hbs
  have hdocs : workerDocs o.docInMemory (o.corpus lower) M.corpus p o.goroutines o.batchSize = .ok (readBatches (o.corpus lower) M.corpus p o.batchSize) := by
    unfold workerDocs; rw [hmem]; rfl
  have hmap : ∀ n, (List.replicate n p).map (fun q => w2vRound M o (readBatches (o.corpus lower) M.corpus q o.batchSize)) =
      List.replicate n (w2vRound M o (readBatches (o.corpus lower) M.corpus p o.batchSize)) := by
    intro n; rw [List.map_replicate]
  constructor
  · intro ht
    cases ht with
    | setupErr e h => rw [hM] at h; cases h
    | setupPanic x h => rw [hM] at h; cases h
    | panics M' s'' x before q after hq h hp hi =>
      rw [hM] at h; cases h
      refine .panics M s' _ x hM hdocs ?_
      obtain ⟨n, k, hnk⟩ : ∃ n k, before = List.replicate n p ∧ after = List.replicate k p ∧ q = p ∧ o.iter.toNat = n + 1 + k := by
        have hall : ∀ a ∈ before ++ q :: after, a = p := by
          intro a ha
          rw [← hq] at ha
          exact List.eq_of_mem_replicate ha
        refine ⟨before.length, after.length, List.eq_replicate_iff.2 ⟨rfl, fun a ha => hall a (by simp [ha])⟩,
          List.eq_replicate_iff.2 ⟨rfl, fun a ha => hall a (by simp [ha])⟩, hall q (by simp), ?_⟩
        have := congrArg List.length hq
        simp at this
        omega
      obtain ⟨rfl, -, rfl, e⟩ := hnk
      rw [e, List.replicate_add]
      have h1 : List.replicate n q ++ [q] = List.replicate (n + 1) q := by rw [List.replicate_succ', ]
      rw [h1, hmap] at hi
      exact Pool.ItersPanic.append_right hi _
    | producerPanic M' s'' x before q after b mem hq h hp hi hb =>
      rw [hM] at h; cases h
      have : q = p := by
        have : q ∈ before ++ q :: after := by simp
        rw [← hq] at this
        exact List.eq_of_mem_replicate this
      subst this
      rw [hb] at hnext
      cases hnext
    | done M' s'' mem h hp hi =>
      rw [hM] at h; cases h
      rw [hmap] at hi
      exact .done M s' _ mem hM (.inr (.inr hnext)) hdocs hi
  · intro ht
    cases ht with
    | setupErr e h => rw [hM] at h; cases h
    | setupPanic x h => rw [hM] at h; cases h
    | slicePanic M' s'' x h hd => rw [hM] at h; cases h; rw [hdocs] at hd; cases hd
    | panics M' s'' sl x h hd hi =>
      rw [hM] at h; cases h; rw [hdocs] at hd; cases hd
      have h0 : o.iter.toNat ≠ 0 := by
        intro h0
        rw [h0] at hi
        cases hi
      obtain ⟨k, hk⟩ := Nat.exists_eq_succ_of_ne_zero h0
      refine .panics M s' x (List.replicate k p) p [] (by rw [hk, List.replicate_succ']) hM (fun q hq => ?_) ?_
      · rw [List.eq_of_mem_replicate hq]; exact hnext
      · rw [← List.replicate_succ', hmap, ← Nat.succ_eq_add_one, ← hk]; exact hi
    | producerPanic M' s'' b x h hm hi hp =>
      rw [hM] at h; cases h
      rw [hp] at hnext
      cases hnext
    | done M' s'' sl mem h hp hd hi =>
      rw [hM] at h; cases h; rw [hdocs] at hd; cases hd
      refine .done M s' mem hM (fun q hq => ?_) (by rw [hmap]; exact hi)
      rw [List.eq_of_mem_replicate hq]; exact hnext

/-- **C111 (word2vec).** If no reading after the first finds a word, then in every schedule `Train` returns nil and the model is the one it started training with: the dictionary of
the whole document, and for every word the initial random vector. Holds for float64. -/
theorem C111_word2vec (qs : List Pass) (hq : ∀ q ∈ qs, Readable q []) :
    ∃ M s', w2vSetup lower r o p p s = .ok (M, s') ∧ addCalls [ws.map (o.corpus lower).norm] = .ok M.corpus.dic ∧
    (∀ res, W2VReads menv lower r o p qs s next res ↔ res = .ok M) ∧
    M.param.array = (List.range (M.corpus.dic.len * o.dim.toNat)).map (fun k => centred o.dim.toNat (drawn r s k)) := by
  obtain ⟨dim, hd⟩ := Int.eq_ofNat_of_zero_le hdim
  have hcol : o.dim.toNat = dim := by rw [hd]; simp
  obtain ⟨M, s', hM, _⟩ := C72_word2vec_starts lower r o dim hd (by omega) hm ho p ws h s
  obtain ⟨f1, f2, f3, ⟨f4, f4'⟩, _⟩ := w2vSetup_facts lower r o dim hd p ws h s s' M hM
  have hone := fun q hq' => readBatches_eq (o.corpus lower) _ M.corpus f1 q [] (hq q hq') o.batchSize hbs
  have hrounds : ∀ l : List Pass, (∀ q ∈ l, q ∈ qs) → ∀ q ∈ l.map (fun q => w2vRound M o (readBatches (o.corpus lower) M.corpus q o.batchSize)),
      q.1 = .ret () ∧ ∀ x ∈ q.2, x = .ret () := by
    intro l hl q hq'
    obtain ⟨a, ha, rfl⟩ := List.mem_map.1 hq'
    obtain ⟨hnil, hsum⟩ := docs_nil (by simpa using (hone a (hl a ha)).2)
    unfold w2vRound
    rw [hsum]
    refine ⟨rfl, fun x hx => ?_⟩
    obtain ⟨d, hd, rfl⟩ := List.mem_map.1 hx
    rw [hnil d hd]; rfl
  have hafter : M.after o (M.mem o next) = M := by
    have e1 : (M.mem o next).matrix .param M.corpus.dic.len o.dim.toNat = M.param := mem_matrix_cellAt (by rw [hcol]; exact f4) (fun _ _ => rfl)
    unfold W2VModel.after
    rw [e1]
    obtain ⟨c, pm, sa, sg, op⟩ := M
    cases op with
    | hs t => rfl
    | ns ng =>
      have e2 : (W2VModel.mem ⟨c, pm, sa, sg, .ns ng⟩ o next).matrix .ctx c.dic.len o.dim.toNat = ng.ctx :=
        mem_matrix_cellAt (by rw [hcol]; exact f4' ng rfl) (fun _ _ => rfl)
      dsimp only
      rw [e2]
  refine ⟨M, s', hM, f1, fun res => ⟨fun ht => ?_, ?_⟩, ?_⟩
  · cases ht with
    | setupErr e h => rw [hM] at h; cases h
    | setupPanic x h => rw [hM] at h; cases h
    | panics M' s'' x before q after hq' h hp hi =>
      rw [hM] at h; cases h
      exact absurd hi (Pool.idle_no_panic _ _ (hrounds _ (by intro a ha; rw [hq']; simp at ha ⊢; tauto)))
    | producerPanic M' s'' x before q after b mem hq' h hp hi hb =>
      rw [hM] at h; cases h
      have := (hone q (by rw [hq']; simp)).1
      rw [hb] at this
      cases this
    | done M' s'' mem h hp hi =>
      rw [hM] at h; cases h
      rw [(Pool.idle_iters (by omega) _ _ [] _ (by simp) (hrounds qs (fun _ h => h))).1 hi, hafter]
  · rintro rfl
    have := W2VReads.done (env := menv) (lower := lower) (r := r) (o := o) (p := p) (s := s) (next := next) M s' (M.mem o next) hM (fun q hq' => (hone q hq').1)
      ((Pool.idle_iters (by omega) _ _ [] _ (by simp) (hrounds qs (fun _ h => h))).2 rfl)
    rwa [hafter] at this
  · rw [hcol]
    exact (C78_word2vec lower r o dim hd p ws h s s' M hM).1

end word2vec

/-- **C110 (word2vec, the whole of Train).** If every later reading succeeds, whatever it finds, an execution of `Train` that ends returns no error and does not panic (in real
arithmetic), provided the first reading found a word; and some execution ends. -/
theorem C110_word2vec_train (lower : Word → Word) (r : σ → ℝ × σ) (o : W2VOptions ℝ) (hdim : 0 ≤ o.dim) (hg : 1 ≤ o.goroutines)
    (hm : o.modelType = "skipgram".toList ∨ o.modelType = "cbow".toList) (ho : o.optimizerType = "ns".toList ∨ o.optimizerType = "hs".toList)
    (hw1 : 1 ≤ o.window) (hw2 : o.window < 2 ^ 63) (hu : o.updateLRBatch ≠ 0) (hbs : 1 ≤ o.batchSize)
    (p : Pass) (ws : List Word) (h : Readable p ws) (hne : ws ≠ []) (hdic : (ws.map (o.corpus lower).norm).dedup.length < 2 ^ 63)
    (qs : List Pass) (hq : ∀ q ∈ qs, ∃ vs, Readable q vs) (menv : MemEnv ℝ) (s : σ) (next : UInt64) :
    (∀ res, W2VReads menv lower r o p qs s next res → ∃ N, res = .ok N) ∧ (menv.Total → ∃ N, W2VReads menv lower r o p qs s next (.ok N)) := by
  obtain ⟨dim, hd⟩ := Int.eq_ofNat_of_zero_le hdim
  obtain ⟨M, s', hM, _⟩ := C72_word2vec_starts lower r o dim hd (by omega) hm ho p ws h s
  obtain ⟨f1, f2, f3, ⟨f4, _⟩, f5, f6, f7⟩ := w2vSetup_facts lower r o dim hd p ws h s s' M hM
  have hlen : M.corpus.dic.len = (ws.map (o.corpus lower).norm).dedup.length := f2.len_eq
  have hsafe : SigSafe M.table := by
    have := sigSafe_real
    generalize (sigTable : List ℝ) = tb at f6 this
    rw [f6]; exact this
  have hone : ∀ q ∈ qs, (fsBatchWords (o.corpus lower) M.corpus.dic q o.batchSize).2 = .next := by
    intro q hq'
    obtain ⟨vs, hv⟩ := hq q hq'
    exact (readBatches_eq (o.corpus lower) _ M.corpus f1 q vs hv o.batchSize hbs).1
  have hthr := w2v_threads_ok M o dim hd 0 (qs.map (fun q => readBatches (o.corpus lower) M.corpus q o.batchSize)) menv (fun _ => False) f5 f7 (by
    intro ds hds d hdd id hid
    obtain ⟨q, hq', rfl⟩ := List.mem_map.1 hds
    obtain ⟨vs, hv⟩ := hq q hq'
    rw [hlen]
    exact batches_lt (o.corpus lower) _ (by simpa using hne) _ f1 q vs hv _ hbs d hdd id hid) (.inr ⟨hw1, hw2⟩) (.inr hsafe) (.inr (by rw [hlen]; exact hdic)) (.inr hu)
  have hrounds : ∀ l : List Pass, (∀ q ∈ l, q ∈ qs) → ∀ q ∈ l.map (fun q => w2vRound M o (readBatches (o.corpus lower) M.corpus q o.batchSize)),
      q.1.Ok menv (w2vW (qs.map (fun q => readBatches (o.corpus lower) M.corpus q o.batchSize))) (fun _ => False) (fun _ => True) ∧
      ∀ t ∈ q.2, t.Ok menv (w2vW (qs.map (fun q => readBatches (o.corpus lower) M.corpus q o.batchSize))) (fun _ => False) (fun _ => True) := by
    intro l hl q hq'
    obtain ⟨a, ha, rfl⟩ := List.mem_map.1 hq'
    simp only [W2VModel.sys, List.mem_flatMap] at hthr
    have := fun t ht => hthr t ⟨_, List.mem_map.2 ⟨a, hl a ha, rfl⟩, ht⟩
    exact ⟨this _ List.mem_cons_self, fun t ht => this t (List.mem_cons_of_mem _ ht)⟩
  constructor
  · intro res ht
    cases ht with
    | setupErr e h => rw [hM] at h; cases h
    | setupPanic x h => rw [hM] at h; cases h
    | panics M' s'' x before q after hq' h hp hi =>
      rw [hM] at h; cases h
      exact absurd hi (Pool.no_panic (by simp) (hrounds _ (by intro a ha; rw [hq']; simp at ha ⊢; tauto)))
    | producerPanic M' s'' x before q after b mem hq' h hp hi hb =>
      rw [hM] at h; cases h
      have := hone q (by rw [hq']; simp)
      rw [hb] at this
      cases this
    | done M' s'' mem h hp hi => exact ⟨_, rfl⟩
  · intro he
    obtain ⟨mem, hm⟩ := iters_exist he (g := o.goroutines.toNat) (by omega) (M.mem o next) [] (qs.map (fun q => w2vRound M o (readBatches (o.corpus lower) M.corpus q o.batchSize)))
      (fun q hq t ht => (((hrounds qs (fun _ h => h)) q hq).2 t ht).mono (fun _ _ => trivial) (fun _ _ => trivial))
    exact ⟨_, .done M s' mem hM hone hm⟩

/-! ## LexVec -/

section lexvec
variable [GoMath F] (menv : MemEnv F) (lower : Word → Word) (enum : GoMap (BitVec 64) F → List (BitVec 64 × F)) (henum : ∀ m, (enum m).Perm m) (r : σ → F × σ)
  (o : LexvecOptions F) (hdim : 0 ≤ o.dim) (hg : 1 ≤ o.goroutines) (hrel : KnownRelation o.relationType) (hw : 1 ≤ o.window) (hmem : o.docInMemory = false)
  (hbs : 1 ≤ o.batchSize) (p1 p2 : Pass) (ws vs : List Word) (h1 : Readable p1 ws) (h2 : Readable p2 vs) (hne : ws ≠ [])
  (hdic : (ws.map (o.corpus lower).norm).dedup.length ≤ 2 ^ 32) (qs : List Pass) (s : σ) (next : UInt64)
include henum hdim hg hrel hw hmem hbs h1 h2 hne hdic

/-- **C110 (LexVec, the whole of Train).** The same in any arithmetic, also when the second reading of `Load` finds another text. -/
theorem C110_lexvec_train (hw2 : o.window < 2 ^ 63) (hu : o.updateLRBatch ≠ 0) (hq : ∀ q ∈ qs, ∃ vs, Readable q vs) :
    (∀ res, LexReads menv lower enum r o p1 p2 qs s next res → ∃ N, res = .ok N) ∧ (menv.Total → ∃ N, LexReads menv lower enum r o p1 p2 qs s next (.ok N)) := by
  obtain ⟨dim, hd⟩ := Int.eq_ofNat_of_zero_le hdim
  obtain ⟨M, s', hM, f1, f2, f4, f5⟩ := lexSetup_changed lower enum henum r o dim hd hmem hw hrel p1 p2 ws vs h1 h2 hne hdic s
  have hlen : M.corpus.dic.len = (ws.map (o.corpus lower).norm).dedup.length := f2.len_eq
  have hone : ∀ q ∈ qs, (fsBatchWords (o.corpus lower) M.corpus.dic q o.batchSize).2 = .next := by
    intro q hq'
    obtain ⟨vs, hv⟩ := hq q hq'
    exact (readBatches_eq (o.corpus lower) _ M.corpus f1 q vs hv o.batchSize hbs).1
  have hthr := lex_threads_ok M o 0 (qs.map (fun q => readBatches (o.corpus lower) M.corpus q o.batchSize)) menv (fun _ => False) f5 (by
    intro ds hds d hdd id hid
    obtain ⟨q, hq', rfl⟩ := List.mem_map.1 hds
    obtain ⟨vs, hv⟩ := hq q hq'
    rw [hlen]
    exact batches_lt (o.corpus lower) _ (by simpa using hne) _ f1 q vs hv _ hbs d hdd id hid) (.inr ⟨hw, hw2⟩) (by rw [hlen]; omega) (.inr hu)
  have hrounds : ∀ l : List Pass, (∀ q ∈ l, q ∈ qs) → ∀ q ∈ l.map (fun q => lexRound M o (readBatches (o.corpus lower) M.corpus q o.batchSize)),
      q.1.Ok menv (lexW o.negativeSampleSize M.corpus.dic.len (qs.map (fun q => readBatches (o.corpus lower) M.corpus q o.batchSize))) (fun _ => False) (fun _ => True) ∧
      ∀ t ∈ q.2, t.Ok menv (lexW o.negativeSampleSize M.corpus.dic.len (qs.map (fun q => readBatches (o.corpus lower) M.corpus q o.batchSize))) (fun _ => False) (fun _ => True) := by
    intro l hl q hq'
    obtain ⟨a, ha, rfl⟩ := List.mem_map.1 hq'
    simp only [LexModel.sys, List.mem_flatMap] at hthr
    have := fun t ht => hthr t ⟨_, List.mem_map.2 ⟨a, hl a ha, rfl⟩, ht⟩
    exact ⟨this _ List.mem_cons_self, fun t ht => this t (List.mem_cons_of_mem _ ht)⟩
  constructor
  · intro res ht
    cases ht with
    | setupErr e h => rw [hM] at h; cases h
    | setupPanic x h => rw [hM] at h; cases h
    | chanPanic M' s'' h hq' hg' => omega
    | panics M' s'' x before q after hq' hg' h hp hi =>
      rw [hM] at h; cases h
      exact absurd hi (Pool.no_panic (by simp) (hrounds _ (by intro a ha; rw [hq']; simp at ha ⊢; tauto)))
    | producerPanic M' s'' x before q after b mem hq' hg' h hp hi hb =>
      rw [hM] at h; cases h
      have := hone q (by rw [hq']; simp)
      rw [hb] at this
      cases this
    | done M' s'' mem h hg' hp hi => exact ⟨_, rfl⟩
  · intro he
    obtain ⟨mem, hm⟩ := iters_exist he (g := o.goroutines.toNat) (by omega) (M.mem o next) [] (qs.map (fun q => lexRound M o (readBatches (o.corpus lower) M.corpus q o.batchSize)))
      (fun q hq t ht => (((hrounds qs (fun _ h => h)) q hq).2 t ht).mono (fun _ _ => trivial) (fun _ _ => trivial))
    exact ⟨_, .done M s' mem hM (.inr (by omega)) hone hm⟩

/-- **C111 (LexVec).** If no reading in the iterations finds a word (whatever the second reading of `Load` finds), `Train` returns nil with the initial model. -/
theorem C111_lexvec (hq : ∀ q ∈ qs, Readable q []) :
    ∃ M s', lexSetup lower enum r o p1 p2 s = .ok (M, s') ∧ addCalls [ws.map (o.corpus lower).norm] = .ok M.corpus.dic ∧
    (∀ res, LexReads menv lower enum r o p1 p2 qs s next res ↔ res = .ok M) ∧
    M.param.array = (List.range (M.corpus.dic.len * 2 * o.dim.toNat)).map (fun k => centred o.dim.toNat (drawn r s k)) := by
  obtain ⟨dim, hd⟩ := Int.eq_ofNat_of_zero_le hdim
  have hcol : o.dim.toNat = dim := by rw [hd]; simp
  obtain ⟨M, s', hM, f1, f2, f4, f5⟩ := lexSetup_changed lower enum henum r o dim hd hmem hw hrel p1 p2 ws vs h1 h2 hne hdic s
  have hone := fun q hq' => readBatches_eq (o.corpus lower) _ M.corpus f1 q [] (hq q hq') o.batchSize hbs
  have hrounds : ∀ l : List Pass, (∀ q ∈ l, q ∈ qs) → ∀ q ∈ l.map (fun q => lexRound M o (readBatches (o.corpus lower) M.corpus q o.batchSize)),
      q.1 = .ret () ∧ ∀ x ∈ q.2, x = .ret () := by
    intro l hl q hq'
    obtain ⟨a, ha, rfl⟩ := List.mem_map.1 hq'
    obtain ⟨hnil, hsum⟩ := docs_nil (by simpa using (hone a (hl a ha)).2)
    unfold lexRound
    rw [hsum]
    refine ⟨rfl, fun x hx => ?_⟩
    obtain ⟨d, hd, rfl⟩ := List.mem_map.1 hx
    rw [hnil d hd]; rfl
  have hafter : M.after o (M.mem o next) = M := by
    have e1 : (M.mem o next).matrix .param (M.corpus.dic.len * 2) o.dim.toNat = M.param := mem_matrix_cellAt (by rw [hcol]; exact f4) (fun _ _ => rfl)
    unfold LexModel.after
    rw [e1]
  refine ⟨M, s', hM, f1, fun res => ⟨fun ht => ?_, ?_⟩, ?_⟩
  · cases ht with
    | setupErr e h => rw [hM] at h; cases h
    | setupPanic x h => rw [hM] at h; cases h
    | chanPanic M' s'' h hq' hg' => omega
    | panics M' s'' x before q after hq' hg' h hp hi =>
      rw [hM] at h; cases h
      exact absurd hi (Pool.idle_no_panic _ _ (hrounds _ (by intro a ha; rw [hq']; simp at ha ⊢; tauto)))
    | producerPanic M' s'' x before q after b mem hq' hg' h hp hi hb =>
      rw [hM] at h; cases h
      have := (hone q (by rw [hq']; simp)).1
      rw [hb] at this
      cases this
    | done M' s'' mem h hg' hp hi =>
      rw [hM] at h; cases h
      rw [(Pool.idle_iters (by omega) _ _ [] _ (by simp) (hrounds qs (fun _ h => h))).1 hi, hafter]
  · rintro rfl
    have := LexReads.done (env := menv) (lower := lower) (enum := enum) (r := r) (o := o) (p1 := p1) (p2 := p2) (s := s) (next := next) M s' (M.mem o next) hM (.inr (by omega))
      (fun q hq' => (hone q hq').1) ((Pool.idle_iters (by omega) _ _ [] _ (by simp) (hrounds qs (fun _ h => h))).2 rfl)
    rwa [hafter] at this
  · rw [hcol]
    exact C78_lexvec lower enum r o dim hd p1 p2 s s' M hM

end lexvec

/-! ## GloVe -/

section glove
variable [GoMath F] (menv : MemEnv F) (lower : Word → Word) (enum : GoMap (BitVec 64) F → List (BitVec 64 × F)) (henum : ∀ m, (enum m).Perm m) (r : σ → F × σ)
  (o : GloveOptions F) (hdim : 0 ≤ o.dim) (hct : o.countType = "inc".toList) (hso : o.solverType = "sgd".toList ∨ o.solverType = "adagrad".toList)
  (hmem : o.docInMemory = false) (hw : 1 ≤ o.window) (hg : 1 ≤ o.goroutines) (p1 p2 : Pass) (ws vs : List Word) (h1 : Readable p1 ws) (h2 : Readable p2 vs) (hne : ws ≠ [])
  (hb : ((ws.map (o.corpus lower).norm).dedup.length : Int) * (ws.map (o.corpus lower).norm).dedup.length + o.goroutines ≤ 2 ^ 53) (s : σ) (next : UInt64)
include henum hdim hct hso hmem hw hg h1 h2 hne hb

theorem glove_changed : ∃ M s' slices, gloveSetup lower r o p1 p2 s = .ok (M, s') ∧ gloveSlices M o enum = .ok slices ∧ addCalls [ws.map (o.corpus lower).norm] = .ok M.corpus.dic ∧
    M.corpus.dic.Rep (ws.map (o.corpus lower).norm) ∧ Shaped M.param (M.corpus.dic.len * 2) (o.dim.toNat + 1) ∧
    (∀ sl ∈ slices, ∀ it ∈ sl, ItemOK M.corpus.dic.len it) ∧
    ∀ it ∈ slices.flatten, ∃ q ∈ fwdCalls o.window.toNat vs, it.l1 = (min (M.corpus.dic.idOrZero q.1) (M.corpus.dic.idOrZero q.2) : Nat) ∧
      it.l2 = (max (M.corpus.dic.idOrZero q.1) (M.corpus.dic.idOrZero q.2) : Nat) := by
  obtain ⟨dim, hd⟩ := Int.eq_ofNat_of_zero_le hdim
  have hcol : o.dim.toNat = dim := by rw [hd]; simp
  obtain ⟨c, co, calls, e, e1, hr, hco, hcc, hlt, hcalls⟩ := load_changed (F := F) (o.corpus lower) h1 h2 hne o.window hw
  obtain ⟨m, s1, q1, q2⟩ := randMatrix_ok r (fun x : F => x /. GoFloat.ofRat (o.dim : ℚ)) (c.dic.len * 2) (dim + 1) s
  push_cast at q1
  rw [← hd] at q1
  have hn : c.dic.len ≤ 2 ^ 32 := by
    rw [hr.len_eq]
    by_contra hc
    push Not at hc
    have h1 : ((2 ^ 32 : Nat) : Int) < (ws.map (o.corpus lower).norm).dedup.length := by exact_mod_cast hc
    generalize ((ws.map (o.corpus lower).norm).dedup.length : Int) = n at hb h1
    norm_num at h1 hb
    nlinarith
  have hM : ∃ g s', gloveSetup lower r o p1 p2 s = .ok (⟨c, m, g⟩, s') := by
    unfold gloveSetup loadCorpus
    rw [hmem]
    simp only [Bool.false_eq_true, if_false]
    rw [hct, show String.ofList "inc".toList = countInc by simp [countInc], e, Res.ok_bind, q1, Res.ok_bind]
    rcases hso with hs | hs
    · rw [if_pos hs]; exact ⟨_, _, rfl⟩
    · obtain ⟨g, e2, _⟩ := adaGradsq_ok (F := F) c.dic.len dim
      rw [if_neg (by rw [hs]; decide), if_pos hs, hd, e2]; exact ⟨_, _, rfl⟩
  obtain ⟨g, s', hM⟩ := hM
  have hsz := cooc_size _ calls c.dic.len hlt co hcc
  rw [hr.len_eq] at hsz
  have hlen : (gloveItems o.xmax o.alpha (enum co.encodedMatrix)).length + o.goroutines.toNat ≤ 2 ^ 53 := by
    unfold gloveItems
    rw [List.length_map, (henum _).length_eq]
    have h3 : (((ws.map (o.corpus lower).norm).dedup.length * (ws.map (o.corpus lower).norm).dedup.length + o.goroutines.toNat : Nat) : Int) ≤ ((2 ^ 53 : Nat) : Int) := by
      push_cast
      rw [Int.toNat_of_nonneg (by omega)]
      exact hb
    have := Int.ofNat_le.1 h3
    omega
  obtain ⟨v, ps, g1, g2, _, g3⟩ := C25_slices_partition _ o.goroutines.toNat (by omega) hlen
  rw [Int.toNat_of_nonneg (by omega)] at g1
  refine ⟨⟨c, m, g⟩, s', ps, hM, ?_, e1, hr, by rw [hcol]; exact q2, ?_, ?_⟩
  · unfold gloveSlices
    dsimp only
    rw [hco]
    dsimp only
    rw [g1, Res.ok_bind, g2]
  · intro sl hsl it hit
    exact items_ok _ calls c.dic.len hn hlt co hcc _ (henum _) _ _ it (parts_mem _ _ _ _ g2 sl hsl it hit)
  · intro it hit
    rw [g3] at hit
    obtain ⟨x, hx, rfl⟩ := List.mem_map.1 hit
    have hkeys := (addPairs_keys calls ⟨countInc, GoMap.empty⟩ co (by
      have hcc' := hcc
      unfold cooCalls at hcc'
      rw [show Cooccurrence.new (F := F) countInc = .ok ⟨countInc, GoMap.empty⟩ by simp [Cooccurrence.new], Res.ok_bind] at hcc'
      exact hcc') GoMap.wf_empty).2
    obtain h | ⟨q, hq, hk⟩ := (hkeys x.1).1 (List.mem_map.2 ⟨x, (henum _).mem_iff.1 hx, rfl⟩)
    · simp [GoMap.empty] at h
    · have hl := hlt q hq
      rw [hcalls] at hq
      obtain ⟨y, hy, rfl⟩ := List.mem_map.1 hq
      have hdec := decode_pairKey (a := c.dic.idOrZero y.1) (b := c.dic.idOrZero y.2) (by omega) (by omega)
      refine ⟨y, hy, ?_⟩
      unfold gloveItem
      dsimp only
      rw [← hk]
      exact hdec

/-- **C110 (GloVe, the whole of Train).** When the second reading of `Load` finds another text than the first: the same in any arithmetic. -/
theorem C110_glove_train : (∀ res, GloveReads menv lower enum r o p1 p2 s next res → ∃ N, res = .ok N) ∧
    (menv.Total → ∃ N, GloveReads menv lower enum r o p1 p2 s next (.ok N)) := by
  obtain ⟨M, s', slices, hM, hs, _, _, _, hit, _⟩ := glove_changed lower enum henum r o hdim hct hso hmem hw hg p1 p2 ws vs h1 h2 hne hb s
  have hok : ∀ t ∈ slices.map (gloveWorkerP (M.step o) M.corpus.dic.len), t.Ok menv (fun _ => True) (fun _ => False) (fun _ => True) := by
    have := glove_threads_ok M o 0 [slices] menv (fun _ => False) (by
      intro sl hsl a ha it hi
      rw [List.mem_singleton.1 hsl] at ha
      exact hit a ha it hi)
    simpa [GloveModel.sys] using this
  have hrounds : ∀ q ∈ List.replicate o.iter.toNat (gloveIter M o slices), q.1.Ok menv (fun _ => True) (fun _ => False) (fun _ => True) ∧
      ∀ t ∈ q.2, t.Ok menv (fun _ => True) (fun _ => False) (fun _ => True) := by
    intro q hq
    rw [List.eq_of_mem_replicate hq]
    exact ⟨trivial, hok⟩
  constructor
  · intro res ht
    cases ht with
    | setupErr e h => rw [hM] at h; cases h
    | setupPanic x h => rw [hM] at h; cases h
    | slicePanic M' s'' x h hd => rw [hM] at h; cases h; rw [hs] at hd; cases hd
    | panics M' s'' sl x h hd hi =>
      rw [hM] at h; cases h; rw [hs] at hd; cases hd
      exact absurd hi (Pool.no_panic (by simp) hrounds)
    | done M' s'' sl mem h hd hi => exact ⟨_, rfl⟩
  · intro he
    obtain ⟨mem, hm⟩ := iters_exist he (g := o.goroutines.toNat) (by omega) (M.mem next) [] (List.replicate o.iter.toNat (gloveIter M o slices)) (fun q hq => (hrounds q hq).2)
    exact ⟨_, .done M s' slices mem hM hs hm⟩

/-- **C111 (GloVe).** If the second reading finds no word, whatever the schedule and the number of iterations: of the vectors (both rows of a word) only those of the first word of the
document can differ from the initial random ones when `Train` returns. -/
theorem C111_glove (hvs : vs = []) (hlow : ∀ w ∈ ws, (o.corpus lower).norm w ≠ []) (N : GloveModel F) (hN : GloveReads menv lower enum r o p1 p2 s next (.ok N)) :
    ∃ M s', gloveSetup lower r o p1 p2 s = .ok (M, s') ∧ addCalls [ws.map (o.corpus lower).norm] = .ok M.corpus.dic ∧ N.corpus = M.corpus ∧
    ∀ i < M.corpus.dic.len, i ≠ 0 → N.param.rowOf i = M.param.rowOf i ∧ N.param.rowOf (i + M.corpus.dic.len) = M.param.rowOf (i + M.corpus.dic.len) := by
  obtain ⟨M, s', slices, hM, hs, f1, f2, f4, hit, hpairs⟩ := glove_changed lower enum henum r o hdim hct hso hmem hw hg p1 p2 ws vs h1 h2 hne hb s
  have hzero : ∀ sl ∈ slices, ∀ it ∈ sl, it.l1 = 0 ∧ it.l2 = 0 := by
    intro sl hsl it hi
    obtain ⟨q, hq, e1, e2⟩ := hpairs it (List.mem_flatten.2 ⟨sl, hsl, hi⟩)
    rw [hvs] at hq
    have : q = ([], []) := List.eq_of_mem_replicate hq
    have hid : M.corpus.dic.idOrZero [] = 0 := by
      rw [f2.idOrZero_eq, if_neg]
      simpa using hlow
    rw [this, hid] at e1 e2
    simpa using And.intro e1 e2
  have hlen : 0 < M.corpus.dic.len := by
    rw [f2.len_eq]
    obtain ⟨w, hw⟩ := List.exists_mem_of_ne_nil ws hne
    exact List.length_pos_of_mem (List.mem_dedup.2 (List.mem_map_of_mem hw))
  let W : Loc → Prop := fun l => ∀ i c, (l = .param i c ∨ l = .gradsq i c) → i = 0 ∨ i = M.corpus.dic.len
  have hstep : ∀ l1 l2 : Int, ((l1 = 0 ∧ l2 = M.corpus.dic.len) ∨ (l1 = M.corpus.dic.len ∧ l2 = 0)) → ∀ f c, (M.step o l1 l2 f c).Ok menv W (fun _ => False) (fun _ => True) := by
    intro l1 l2 hl f c
    have b1 : 0 ≤ l1 ∧ l1 < ((M.corpus.dic.len * 2 : Nat) : Int) := by push_cast; omega
    have b2 : 0 ≤ l2 ∧ l2 < ((M.corpus.dic.len * 2 : Nat) : Int) := by push_cast; omega
    have w1 : l1.toNat = 0 ∨ l1.toNat = M.corpus.dic.len := by omega
    have w2 : l2.toNat = 0 ∨ l2.toNat = M.corpus.dic.len := by omega
    have hp : ∀ a : Nat, (a = 0 ∨ a = M.corpus.dic.len) → ∀ c, W (.param a c) := by
      rintro a ha c i j (h | h)
      · cases h; exact ha
      · cases h
    have hgr : ∀ a : Nat, (a = 0 ∨ a = M.corpus.dic.len) → ∀ c, W (.gradsq a c) := by
      rintro a ha c i j (h | h)
      · cases h
      · cases h; exact ha
    unfold GloveModel.step
    cases M.gradsq with
    | none => exact sgdP_ok _ b1 b2 _ _ (hp _ w1) (hp _ w2)
    | some g => exact adaP_ok _ b1 b2 _ _ (hp _ w1) (hp _ w2) (hgr _ w1) (hgr _ w2)
  have hok : ∀ t ∈ slices.map (gloveWorkerP (M.step o) M.corpus.dic.len), t.Ok menv W (fun _ => False) (fun _ => True) := by
    intro t ht
    obtain ⟨sl, hsl, rfl⟩ := List.mem_map.1 ht
    unfold gloveWorkerP
    refine Prog.Ok.forP (fun _ _ => True) trivial fun k _ hk _ => ?_
    refine Prog.Ok.bind (Q := fun a => a ∈ sl) (idx_ok_of_lt hk fun a ha => ha) fun it hi => ?_
    obtain ⟨a, b⟩ := hzero sl hsl it hi
    rw [a, b]
    exact Prog.Ok.bind (hstep _ _ (.inl ⟨rfl, by omega⟩) _ _) fun _ _ => hstep _ _ (.inr ⟨by omega, rfl⟩) _ _
  cases hN with
  | done M' s'' sl mem hM' hs' hi =>
    rw [hM] at hM'; cases hM'
    rw [hs] at hs'; cases hs'
    refine ⟨M, s', hM, f1, rfl, ?_⟩
    have hfr := fun l hl => iters_frame (W := W) (np := fun _ => False) hi (by simp) (by
      intro q hq
      rw [List.eq_of_mem_replicate hq]
      exact ⟨trivial, hok⟩) l hl
    have hrow : ∀ i < M.corpus.dic.len * 2, i ≠ 0 → i ≠ M.corpus.dic.len → (M.after o mem).param.rowOf i = M.param.rowOf i := by
      intro i hlt hi0 hi1
      have hsh := matrix_shaped mem .param (M.corpus.dic.len * 2) (o.dim.toNat + 1)
      rw [show (M.after o mem).param = mem.matrix .param (M.corpus.dic.len * 2) (o.dim.toNat + 1) from rfl, hsh.rowOf_eq hlt, f4.rowOf_eq hlt]
      refine List.map_congr_left fun j hj => ?_
      have hj' : j < o.dim.toNat + 1 := by simpa using hj
      rw [matrix_val _ _ hlt hj', hfr (.param i j) ?_]
      · simp only [GloveModel.mem]
        exact cellAt_eq f4 hlt hj'
      · intro h
        rcases h i j (.inl rfl) with h | h
        · exact hi0 h
        · exact hi1 h
    intro i hi0 hi1
    exact ⟨hrow i (by omega) hi1 (by omega), hrow _ (by omega) (by omega) (by omega)⟩

end glove

/-- **C111 (in memory).** With `DocInMemory` the input is read once: what a second reading would find is irrelevant for all three models. -/
theorem C111_memory [GoMath F] (lower : Word → Word) (enum : GoMap (BitVec 64) F → List (BitVec 64 × F)) (r : σ → F × σ) (p q q' : Pass) (s : σ) :
    (∀ o : W2VOptions F, o.docInMemory = true → w2vSetup lower r o p q s = w2vSetup lower r o p q' s) ∧
    (∀ o : LexvecOptions F, o.docInMemory = true → lexSetup lower enum r o p q s = lexSetup lower enum r o p q' s) ∧
    ∀ o : GloveOptions F, o.docInMemory = true → gloveSetup lower r o p q s = gloveSetup lower r o p q' s := by
  refine ⟨fun o h => ?_, fun o h => ?_, fun o h => ?_⟩
  · unfold w2vSetup loadCorpus; rw [h, if_pos rfl, if_pos rfl]
  · unfold lexSetup loadCorpus; rw [h, if_pos rfl, if_pos rfl]
  · unfold gloveSetup loadCorpus; rw [h, if_pos rfl, if_pos rfl]

theorem pipe_first : Readable ⟨['a', ' ', 'b', ' ', 'a'], false⟩ [['a'], ['b'], ['a']] := ⟨isWords_fields ['a',' ','b',' ','a'], rfl, by decide⟩
theorem pipe_rest : Readable ⟨[], false⟩ [] := ⟨isWords_fields [], rfl, by decide⟩

/-- Non-vacuity: `a b a` through a pipe, the default options with the file-backed corpus and two iterations, any arithmetic: word2vec returns its initial model. -/
example [GoMath F] (menv : MemEnv F) (r : σ → F × σ) (s : σ) (next : UInt64) : ∃ M, ∀ res,
    W2VReads menv id r { W2VOptions.default 4 with docInMemory := false, minCount := 0 } ⟨['a', ' ', 'b', ' ', 'a'], false⟩ [⟨[], false⟩, ⟨[], false⟩] s next res ↔ res = .ok M := by
  obtain ⟨M, _, _, _, h, _⟩ := C111_word2vec menv id r { W2VOptions.default 4 with docInMemory := false, minCount := 0 } (by show (0 : Int) ≤ 10; omega) (by show (1 : Int) ≤ 4; omega)
    (.inr rfl) (.inl rfl) rfl (by show (1 : Int) ≤ 10000; omega) _ _ pipe_first s next [⟨[], false⟩, ⟨[], false⟩] (by
      intro q hq
      simp only [List.mem_cons, List.not_mem_nil, or_false, or_self] at hq
      rw [hq]; exact pipe_rest)
  exact ⟨M, h⟩

/-- … and LexVec -/
example [GoMath F] (menv : MemEnv F) (r : σ → F × σ) (s : σ) (next : UInt64) : ∃ M, ∀ res,
    LexReads menv id id r { LexvecOptions.default 4 with docInMemory := false, minCount := 0 } ⟨['a', ' ', 'b', ' ', 'a'], false⟩ ⟨[], false⟩ [⟨[], false⟩, ⟨[], false⟩] s next res ↔ res = .ok M := by
  obtain ⟨M, _, _, _, h, _⟩ := C111_lexvec menv id id (fun _ => List.Perm.refl _) r { LexvecOptions.default 4 with docInMemory := false, minCount := 0 } (by show (0 : Int) ≤ 10; omega)
    (by show (1 : Int) ≤ 4; omega) (.inl rfl) (by show (1 : Int) ≤ 5; omega) rfl (by show (1 : Int) ≤ 10000; omega) _ _ _ _ pipe_first pipe_rest (by simp)
    (le_trans (List.Sublist.length_le (List.dedup_sublist _)) (by simp)) [⟨[], false⟩, ⟨[], false⟩] s next (by
      intro q hq
      simp only [List.mem_cons, List.not_mem_nil, or_false, or_self] at hq
      rw [hq]; exact pipe_rest)
  exact ⟨M, h⟩

/-- … and GloVe: executions that end exist, and `b` (id 1) keeps its initial vectors in all of them -/
example [GoMath F] (menv : MemEnv F) (he : menv.Total) (r : σ → F × σ) (s : σ) (next : UInt64) :
    let o : GloveOptions F := { GloveOptions.default 4 with docInMemory := false, minCount := 0 }
    let p : Pass := ⟨['a', ' ', 'b', ' ', 'a'], false⟩
    (∃ N, GloveReads menv id id r o p ⟨[], false⟩ s next (.ok N)) ∧ ∀ N, GloveReads menv id id r o p ⟨[], false⟩ s next (.ok N) →
      ∃ M s', gloveSetup id r o p ⟨[], false⟩ s = .ok (M, s') ∧ N.param.rowOf 1 = M.param.rowOf 1 := by
  intro o p
  have hb : ((([['a'], ['b'], ['a']] : List Word).map (o.corpus id).norm).dedup.length : Int) * (([['a'], ['b'], ['a']] : List Word).map (o.corpus id).norm).dedup.length + o.goroutines ≤ 2 ^ 53 := by
    show ((([['a'], ['b'], ['a']] : List Word).dedup.length : Int)) * ([['a'], ['b'], ['a']] : List Word).dedup.length + 4 ≤ 2 ^ 53
    rw [show ([['a'], ['b'], ['a']] : List Word).dedup.length = 2 by decide]
    omega
  refine ⟨(C110_glove_train menv id id (fun _ => List.Perm.refl _) r o (by show (0 : Int) ≤ 10; omega) rfl (.inl rfl) rfl (by show (1 : Int) ≤ 5; omega) (by show (1 : Int) ≤ 4; omega)
    p ⟨[], false⟩ _ _ pipe_first pipe_rest (by simp) hb s next).2 he, fun N hN => ?_⟩
  obtain ⟨M, s', e, f1, _, h⟩ := C111_glove menv id id (fun _ => List.Perm.refl _) r o (by show (0 : Int) ≤ 10; omega) rfl (.inl rfl) rfl (by show (1 : Int) ≤ 5; omega) (by show (1 : Int) ≤ 4; omega)
    p ⟨[], false⟩ _ _ pipe_first pipe_rest (by simp) hb s next rfl (by
      intro w hw
      simp only [List.mem_cons, List.not_mem_nil, or_false] at hw
      rcases hw with rfl | rfl | rfl <;> exact List.cons_ne_nil _ _) N hN
  refine ⟨M, s', e, (h 1 ?_ (by omega)).1⟩
  obtain ⟨d, a, b⟩ := addCalls_rep [([['a'], ['b'], ['a']] : List Word).map (o.corpus id).norm]
  rw [f1] at a
  cases a
  rw [b.len_eq]
  show 1 < ([['a'], ['b'], ['a']] : List Word).dedup.length
  rw [show ([['a'], ['b'], ['a']] : List Word).dedup.length = 2 by decide]
  omega

end Wego.Props
