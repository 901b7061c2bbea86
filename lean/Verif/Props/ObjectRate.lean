import Verif.Props.ObjectOk

/-! # C88: the learning rate a `Train` starts from -/

namespace Wego.Props
open Wego Wego.Spec Wego.Matrix
variable {F : Type} {σ : Type}

theorem set_same (m : Mem F) (l : Loc) : m.set l (m.cell l) = m := by
  unfold Mem.set
  congr 1
  funext l'
  split
  · rename_i h; rw [h]
  · rfl

section
variable [GoMath F] (env : MemEnv F) (lower : Word → Word) (enum : GoMap (BitVec 64) F → List (BitVec 64 × F)) (r : σ → F × σ) (x x' : ModelObj F) (p : Pass) (s : σ)
  (next : UInt64)

/-- **C88 (word2vec, partial).** On an object whose rate is `Initlr` - every new object - and on which no earlier observer runs, `Train` returns nil exactly when `Train` of
C83 and C84, which starts from `Initlr`, can return a model, and then leaves the fields of such a model. Missing: later calls start from the rate that is left over
(`C88_refuted`). -/
theorem C88_word2vec_partial (o : W2VOptions F) (hlr : x.lr = o.initlr) :
    (∀ x', W2VObjTrain env lower r o [] x p s next x' (.ok ()) →
      ∃ N, W2VTrain env lower r o p s next (.ok N) ∧ x'.corpus = some N.corpus ∧ x'.param = some N.param ∧ x'.opt = some N.opt) ∧
    (∀ N, W2VTrain env lower r o p s next (.ok N) →
      ∃ x', W2VObjTrain env lower r o [] x p s next x' (.ok ()) ∧ x'.corpus = some N.corpus ∧ x'.param = some N.param ∧ x'.opt = some N.opt) := by
  have hset : ∀ M : W2VModel F, (M.mem o next).set .lr x.lr = M.mem o next := fun M => by
    rw [hlr]; exact set_same (M.mem o next) .lr
  constructor
  · intro x' ht
    cases ht with
    | done M s' docs mem hM hp hd hi =>
      rw [hset] at hi
      rw [w2vSetupObj_ok _ _ _ _ _ _ _ _ M hM]
      rw [w2vSetupObj_res] at hM
      exact ⟨M.after o mem, .done M s' docs mem hM hp hd hi, rfl, rfl, rfl⟩
  · intro N ht
    cases ht with
    | done M s' docs mem hM hp hd hi =>
      rw [← w2vSetupObj_res (x := x)] at hM
      refine ⟨_, .done M s' docs mem hM hp hd (by rw [hset]; exact hi), ?_, rfl, rfl⟩
      rw [w2vSetupObj_ok _ _ _ _ _ _ _ _ M hM]
      rfl

/-- **C88 (LexVec, partial).** -/
theorem C88_lexvec_partial (o : LexvecOptions F) (hlr : x.lr = o.initlr) :
    (∀ x', LexObjTrain env lower enum r o [] x p s next x' (.ok ()) →
      ∃ N, LexTrain env lower enum r o p s next (.ok N) ∧ x'.corpus = some N.corpus ∧ x'.param = some N.param) ∧
    (∀ N, LexTrain env lower enum r o p s next (.ok N) →
      ∃ x', LexObjTrain env lower enum r o [] x p s next x' (.ok ()) ∧ x'.corpus = some N.corpus ∧ x'.param = some N.param) := by
  have hset : ∀ M : LexModel F, (M.mem o next).set .lr x.lr = M.mem o next := fun M => by
    rw [hlr]; exact set_same (M.mem o next) .lr
  constructor
  · intro x' ht
    cases ht with
    | done M s' docs mem hM hp hd hi hc =>
      rw [hset] at hi
      rw [lexSetupObj_ok _ _ _ _ _ _ _ _ _ M hM]
      rw [lexSetupObj_res] at hM
      exact ⟨M.after o mem, .done M s' docs mem hM hp hd hi hc, rfl, rfl⟩
  · intro N ht
    cases ht with
    | done M s' docs mem hM hp hd hi hc =>
      rw [← lexSetupObj_res (x := x)] at hM
      refine ⟨_, .done M s' docs mem hM hp hd (by rw [hset]; exact hi) hc, ?_, rfl⟩
      rw [lexSetupObj_ok _ _ _ _ _ _ _ _ _ M hM]
      rfl

/-- **C88 (GloVe).** GloVe uses `Initlr` itself: on every object, used or new, `Train` returns nil exactly when `Train` of C83 and C84 can return a model. -/
theorem C88_glove (o : GloveOptions F) :
    (∀ x', GloveObjTrain env lower enum r o x p s next x' (.ok ()) →
      ∃ N, GloveTrain env lower enum r o p s next (.ok N) ∧ x'.corpus = some N.corpus ∧ x'.param = some N.param) ∧
    (∀ N, GloveTrain env lower enum r o p s next (.ok N) →
      ∃ x', GloveObjTrain env lower enum r o x p s next x' (.ok ()) ∧ x'.corpus = some N.corpus ∧ x'.param = some N.param) := by
  constructor
  · intro x' ht
    cases ht with
    | done M s' docs mem hM hd hi =>
      rw [gloveSetupObj_ok _ _ _ _ _ _ _ _ M hM]
      rw [gloveSetupObj_res] at hM
      exact ⟨M.after o mem, .done M s' docs mem hM hd hi, rfl, rfl⟩
  · intro N ht
    cases ht with
    | done M s' docs mem hM hd hi =>
      rw [← gloveSetupObj_res (x := x)] at hM
      refine ⟨_, .done M s' docs mem hM hd hi, ?_, rfl⟩
      rw [gloveSetupObj_ok _ _ _ _ _ _ _ _ M hM]
      rfl

/-- **C88 (word2vec, partial: failures).** On such an object `Train` can fail with exactly the errors and panics with which `Train` of C83 and C84 can. -/
theorem C88_word2vec_failures_partial (o : W2VOptions F) (hlr : x.lr = o.initlr) :
    (∀ e, (∃ x', W2VObjTrain env lower r o [] x p s next x' (.err e)) ↔ W2VTrain env lower r o p s next (.err e)) ∧
    (∀ q, (∃ x', W2VObjTrain env lower r o [] x p s next x' (.panic q)) ↔ W2VTrain env lower r o p s next (.panic q)) := by
  have hset : ∀ M : W2VModel F, (M.mem o next).set .lr x.lr = M.mem o next := fun M => by
    rw [hlr]; exact set_same (M.mem o next) .lr
  have hres := fun p1 p2 s => w2vSetupObj_res lower r o p1 p2 s x
  constructor
  · intro e
    constructor
    · rintro ⟨x', ht⟩
      cases ht with
      | setupErr e h => exact .setupErr e (by rw [← hres]; exact h)
    · intro ht
      cases ht with
      | setupErr e h => exact ⟨_, .setupErr e (by rw [hres]; exact h)⟩
  · intro q
    constructor
    · rintro ⟨x', ht⟩
      cases ht with
      | setupPanic q h => exact .setupPanic q (by rw [← hres]; exact h)
      | slicePanic M s' q h hd => exact .slicePanic M s' q (by rw [← hres]; exact h) hd
      | panics M s' docs q h hd hi => exact .panics M s' docs q (by rw [← hres]; exact h) hd (by rw [← hset]; exact hi)
      | producerPanic M s' b q h hm hi hp => exact .producerPanic M s' b q (by rw [← hres]; exact h) hm hi hp
    · intro ht
      cases ht with
      | setupPanic q h => exact ⟨_, .setupPanic q (by rw [hres]; exact h)⟩
      | slicePanic M s' q h hd => exact ⟨_, .slicePanic M s' q (by rw [hres]; exact h) hd⟩
      | panics M s' docs q h hd hi => exact ⟨_, .panics M s' docs q (by rw [hres]; exact h) hd (by rw [hset]; exact hi)⟩
      | producerPanic M s' b q h hm hi hp => exact ⟨_, .producerPanic M s' b q (by rw [hres]; exact h) hm hi hp⟩

/-- **C88 (LexVec, partial: failures).** -/
theorem C88_lexvec_failures_partial (o : LexvecOptions F) (hlr : x.lr = o.initlr) :
    (∀ e, (∃ x', LexObjTrain env lower enum r o [] x p s next x' (.err e)) ↔ LexTrain env lower enum r o p s next (.err e)) ∧
    (∀ q, (∃ x', LexObjTrain env lower enum r o [] x p s next x' (.panic q)) ↔ LexTrain env lower enum r o p s next (.panic q)) := by
  have hset : ∀ M : LexModel F, (M.mem o next).set .lr x.lr = M.mem o next := fun M => by
    rw [hlr]; exact set_same (M.mem o next) .lr
  have hres := fun p1 p2 s => lexSetupObj_res lower enum r o p1 p2 s x
  constructor
  · intro e
    constructor
    · rintro ⟨x', ht⟩
      cases ht with
      | setupErr e h => exact .setupErr e (by rw [← hres]; exact h)
    · intro ht
      cases ht with
      | setupErr e h => exact ⟨_, .setupErr e (by rw [hres]; exact h)⟩
  · intro q
    constructor
    · rintro ⟨x', ht⟩
      cases ht with
      | setupPanic q h => exact .setupPanic q (by rw [← hres]; exact h)
      | slicePanic M s' q h hd => exact .slicePanic M s' q (by rw [← hres]; exact h) hd
      | panics M s' docs q h hd hi hc => exact .panics M s' docs q (by rw [← hres]; exact h) hd (by rw [← hset]; exact hi) hc
      | chanPanic M s' h hm hi hg => exact .chanPanic M s' (by rw [← hres]; exact h) hm hi hg
      | producerPanic M s' b q h hm hi hp hc => exact .producerPanic M s' b q (by rw [← hres]; exact h) hm hi hp hc
    · intro ht
      cases ht with
      | setupPanic q h => exact ⟨_, .setupPanic q (by rw [hres]; exact h)⟩
      | slicePanic M s' q h hd => exact ⟨_, .slicePanic M s' q (by rw [hres]; exact h) hd⟩
      | panics M s' docs q h hd hi hc => exact ⟨_, .panics M s' docs q (by rw [hres]; exact h) hd (by rw [hset]; exact hi) hc⟩
      | chanPanic M s' h hm hi hg => exact ⟨_, .chanPanic M s' (by rw [hres]; exact h) hm hi hg⟩
      | producerPanic M s' b q h hm hi hp hc => exact ⟨_, .producerPanic M s' b q (by rw [hres]; exact h) hm hi hp hc⟩

/-- **C88 (GloVe: failures).** On every object. -/
theorem C88_glove_failures (o : GloveOptions F) :
    (∀ e, (∃ x', GloveObjTrain env lower enum r o x p s next x' (.err e)) ↔ GloveTrain env lower enum r o p s next (.err e)) ∧
    (∀ q, (∃ x', GloveObjTrain env lower enum r o x p s next x' (.panic q)) ↔ GloveTrain env lower enum r o p s next (.panic q)) := by
  have hres := fun p1 p2 s => gloveSetupObj_res lower r o p1 p2 s x
  constructor
  · intro e
    constructor
    · rintro ⟨x', ht⟩
      cases ht with
      | setupErr e h => exact .setupErr e (by rw [← hres]; exact h)
    · intro ht
      cases ht with
      | setupErr e h => exact ⟨_, .setupErr e (by rw [hres]; exact h)⟩
  · intro q
    constructor
    · rintro ⟨x', ht⟩
      cases ht with
      | setupPanic q h => exact .setupPanic q (by rw [← hres]; exact h)
      | slicePanic M s' q h hd => exact .slicePanic M s' q (by rw [← hres]; exact h) hd
      | panics M s' sl q h hd hi => exact .panics M s' sl q (by rw [← hres]; exact h) hd hi
    · intro ht
      cases ht with
      | setupPanic q h => exact ⟨_, .setupPanic q (by rw [hres]; exact h)⟩
      | slicePanic M s' q h hd => exact ⟨_, .slicePanic M s' q (by rw [hres]; exact h) hd⟩
      | panics M s' sl q h hd hi => exact ⟨_, .panics M s' sl q (by rw [hres]; exact h) hd hi⟩

/-- The hypothesis of the C88 theorems for word2vec and LexVec holds on new objects. -/
example (o : W2VOptions F) := C88_word2vec_failures_partial env lower r (ModelObj.new o.initlr) p s next o rfl
example (o : LexvecOptions F) := C88_lexvec_failures_partial env lower enum r (ModelObj.new o.initlr) p s next o rfl

end

/-- the observer of one word, when the rate is updated after every word -/
theorem observerP_one [GoFloat F] (cfg : LrCfg F) (hu : cfg.updateLRBatch = 1) :
    observerP cfg 1 = .load .lr (fun lr => .store .lr (newLr cfg 1 lr) (.ret ())) := by
  have : lrDue cfg (0 + 1) = .ok true := by unfold lrDue; rw [hu]; rfl
  unfold observerP Prog.forP Prog.forFromP Prog.forFromP
  rw [this]
  rfl

/-- **C88 (refuted).** LexVec with the default options, except `UpdateLRBatch` 1, `MinCount` 0, `Iter` 1 and an in-memory document: `Train` on the one-word document `a` can
return nil and leave a rate that is not `Initlr`, from which the next `Train` starts (`LexObjTrain` reads it). -/
theorem C88_refuted (lib : LibM) (r : σ → F64 × σ) (s : σ) : ∃ (o : LexvecOptions F64) (menv : MemEnv F64) (x : ModelObj F64),
    LexCalls lib menv id id r o (ModelObj.new o.initlr) ⟨"a".toList, false⟩ x (.ok ()) ∧ x.lr ≠ o.initlr := by
  let _ := lib.math
  let o : LexvecOptions F64 := { LexvecOptions.default 1 with docInMemory := true, updateLRBatch := 1, minCount := 0, iter := 1 }
  let menv : MemEnv F64 := MemEnv.sc (fun _ => True) (fun _ q => q = [])
  have hrd : Readable ⟨"a".toList, false⟩ ["a".toList] := ⟨isWords_fields "a".toList, rfl, by decide⟩
  have hw : 1 ≤ o.window := by show (1 : Int) ≤ 5; omega
  obtain ⟨M, s', docs, W, hM, hbe, hs, hok1, hok2⟩ := lex_facts id id (fun _ => List.Perm.refl _) r o (by show (0 : Int) ≤ 10; omega)
    (by show KnownRelation "ppmi".toList; unfold KnownRelation; decide) hw (by show (5 : Int) < 2 ^ 63; norm_num) (by show (1 : Int) ≠ 0; omega) (.inl rfl) _ _ hrd (by simp)
    (by decide) (by show (1 : Int) ≤ 1; omega) (by show (1 : Int) + 1 ≤ 2 ^ 53; norm_num) menv s
  obtain ⟨f1, f2, f3, -⟩ := lexSetup_facts id id r o 10 rfl (.inl rfl) _ _ hrd s s' M hM
  have hn : (docs.map List.length).sum = 1 := by
    have hs' := hs
    unfold workerDocs at hs'
    simp only [show o.docInMemory = true from rfl, if_true, f3 rfl, Res.ok_bind] at hs'
    obtain ⟨v, ps, e1, e2, e3, e4⟩ := C25_slices_partition (trainSeq o.maxCount o.minCount (["a".toList].map (o.corpus id).norm)) 1 (by omega) (by decide)
    rw [show o.goroutines = ((1 : Nat) : Int) from rfl, e1, Res.ok_bind, Int.toNat_natCast, e2] at hs'
    cases hs'
    rw [← List.length_flatten, e4]
    decide
  rw [← lexSetupObj_res (x := ModelObj.new o.initlr)] at hM
  obtain ⟨m1, h1⟩ := pool_exists (env := menv) (MemEnv.sc_total ⟨fzero, trivial⟩ (fun _ => [])) (g := o.goroutines.toNat) (by show 1 ≤ 1; omega)
    ((M.mem o 0).set .lr (ModelObj.new o.initlr).lr) [(lexRound M o docs).1] (lexRound M o docs).2 (fun t ht => (hok2 t ht).mono (fun _ _ => trivial) (fun _ _ => trivial))
  have hob : (lexRound M o docs).1 = .load .lr (fun lr => .store .lr (newLr (M.lrCfg o) 1 lr) (.ret ())) := by
    show observerP (M.lrCfg o) (docs.map List.length).sum = _
    rw [hn, observerP_one (M.lrCfg o) rfl]
  have h2 : Pool.Reach menv o.goroutines.toNat ⟨(M.mem o 0).set .lr (ModelObj.new o.initlr).lr, [(lexRound M o docs).1], (lexRound M o docs).2, []⟩
      ⟨m1.set .lr (newLr (M.lrCfg o) 1 (m1.cell .lr)), [.ret ()], [], []⟩ := by
    refine .step _ _ (.step _ _ h1 (.observe m1 m1 _ [.store .lr (newLr (M.lrCfg o) 1 (m1.cell .lr)) (.ret ())] [] [] ?_)) (.observe _ _ _ _ [] [] ?_)
    · rw [hob]; exact Sys.Step.load m1 [] [] .lr _ _ rfl
    · exact Sys.Step.store m1 [] [] .lr _ _
  have hi : Pool.Iters menv o.goroutines.toNat ((M.mem o 0).set .lr (ModelObj.new o.initlr).lr) [] (List.replicate o.iter.toNat (lexRound M o docs))
      (m1.set .lr (newLr (M.lrCfg o) 1 (m1.cell .lr))) := Pool.Iters.cons _ _ _ _ _ _ _ [] h2 (.nil _ _)
  have ht := LexObjTrain.done (env := menv) (lower := id) (enum := id) (r := r) (o := o) (late := []) (x := ModelObj.new o.initlr) (p := ⟨"a".toList, false⟩) (s := s) (next := 0)
    M s' docs _ hM hbe hs hi (.inr (.inr (by decide)))
  refine ⟨o, menv, _, ⟨[], s, 0, by simp, ht⟩, ?_⟩
  show (if Loc.lr = Loc.lr then newLr (M.lrCfg o) 1 (m1.cell .lr) else m1.cell .lr) ≠ o.initlr
  rw [if_pos rfl]
  have hlen : M.corpus.maxLen = 1 := by
    have hM' := hM
    rw [lexSetupObj_res] at hM'
    unfold lexSetup at hM'
    rw [Res.bind_eq_ok] at hM'
    obtain ⟨c, hc, hM'⟩ := hM'
    rw [Res.bind_eq_ok] at hM'
    obtain ⟨ps, -, hM'⟩ := hM'
    rw [Res.bind_eq_ok] at hM'
    obtain ⟨sm, -, hM'⟩ := hM'
    have hMc : M.corpus = c := by
      split at hM'
      · cases hM'
      · rw [Res.bind_eq_ok] at hM'
        obtain ⟨it, -, hM'⟩ := hM'
        cases hM'; rfl
    rw [hMc]
    exact (C11_memory_corpus_with (o.corpus id) _ _ hrd _ c hc).1
  unfold newLr
  split
  · show (LexvecOptions.default 1 : LexvecOptions F64).minLR ≠ (LexvecOptions.default 1 : LexvecOptions F64).initlr
    decide +kernel
  · show o.initlr *. (GoFloat.ofRat 1 -. GoFloat.ofRat ((1 : Nat) : ℚ) /. GoFloat.ofRat ((M.corpus.maxLen : Nat) : ℚ)) ≠ o.initlr
    rw [hlen]
    decide +kernel

/-- a table of sampling values in which no value is above `u` -/
theorem worker_skips [GoFloat F] (sh : W2VShared F) (skip : Bool) (optim : OptimP F) (u : F) (path : Nat → List Nat → Prop) (z : F) (hs : sh.samples = [z])
    (hz : GoFloat.lt u z = false) (d : List Nat) (hd : d = [] ∨ d = [0]) :
    (w2vWorkerP sh skip optim d).Ok (MemEnv.sc (fun v => v = u) path) (fun _ => True) (fun _ => False) (fun _ => True) := by
  rcases hd with rfl | rfl
  · exact trivial
  · show ∀ v, v = u → _
    rintro v rfl
    have : trial sh.samples ((0 : Nat) : Int) v = .ok false := by rw [hs, ← hz]; rfl
    show (Prog.bind (Prog.bind (Prog.ofRes (trial sh.samples ((0 : Nat) : Int) v)) _) _).Ok _ _ _ _
    rw [this]
    exact trivial

/-- **C88 (refuted, word2vec).** word2vec with the default options, except `UpdateLRBatch` 1, `MinCount` 0, `Iter` 1 and an in-memory document: `Train` on the one-word
document `a` can return nil and leave a rate that is not `Initlr`, from which the next `Train` starts. -/
theorem C88_refuted_word2vec (lib : LibM) (r : σ → F64 × σ) (s : σ) : ∃ (o : W2VOptions F64) (menv : MemEnv F64) (x : ModelObj F64),
    W2VCalls lib menv id r o (ModelObj.new o.initlr) ⟨"a".toList, false⟩ x (.ok ()) ∧ x.lr ≠ o.initlr := by
  let _ := lib.math
  let o : W2VOptions F64 := { W2VOptions.default 1 with docInMemory := true, updateLRBatch := 1, minCount := 0, iter := 1 }
  let menv : MemEnv F64 := MemEnv.sc (fun v => v = GoFloat.ofRat (99 / 100)) (fun _ q => q = [])
  have hrd : Readable ⟨"a".toList, false⟩ ["a".toList] := ⟨isWords_fields "a".toList, rfl, by decide⟩
  obtain ⟨M, s', hM, _⟩ := C72_word2vec_starts id r o 10 rfl (by show (0 : Int) ≤ 1; omega) (.inr rfl) (.inl rfl) _ _ hrd s
  obtain ⟨f1, f2, f3, ⟨f4, _⟩, f5, f6, f7⟩ := w2vSetup_facts id r o 10 rfl _ _ hrd s s' M hM
  obtain ⟨docs, hs⟩ := workerDocs_ok o.docInMemory (o.corpus id) M.corpus ⟨"a".toList, false⟩ ["a".toList] o.maxCount o.minCount f3 o.goroutines o.batchSize
    (by show (1 : Int) ≤ 1; omega) (by show (1 : Int) + 1 ≤ 2 ^ 53; norm_num)
  have hfl : docs.flatten = [0] := by
    have hs' := hs
    unfold workerDocs at hs'
    simp only [show o.docInMemory = true from rfl, if_true, f3 rfl, Res.ok_bind] at hs'
    obtain ⟨v, ps, e1, e2, e3, e4⟩ := C25_slices_partition (trainSeq o.maxCount o.minCount (["a".toList].map (o.corpus id).norm)) 1 (by omega) (by decide)
    rw [show o.goroutines = ((1 : Nat) : Int) from rfl, e1, Res.ok_bind, Int.toNat_natCast, e2] at hs'
    cases hs'
    rw [e4]
    decide
  have hn : (docs.map List.length).sum = 1 := by rw [← List.length_flatten, hfl]; rfl
  have hdd : ∀ d ∈ docs, d = [] ∨ d = [0] := by
    intro d hd
    have := List.sublist_flatten_of_mem hd
    rw [hfl] at this
    rcases List.sublist_singleton.1 this with h | h
    · exact .inl h
    · exact .inr h
  have hcs : ∃ c : CorpusState F64, memLoad (o.corpus id) ⟨"a".toList, false⟩ none = .ok c ∧ M.corpus = c ∧ subsamples c.dic o.subsampleThreshold = .ok M.samples := by
    have hM' := hM
    unfold w2vSetup at hM'
    rw [Res.bind_eq_ok] at hM'
    obtain ⟨c, hc, hM'⟩ := hM'
    rw [Res.bind_eq_ok] at hM'
    obtain ⟨ps, -, hM'⟩ := hM'
    rw [Res.bind_eq_ok] at hM'
    obtain ⟨sm, hsm, hM'⟩ := hM'
    rw [Res.bind_eq_ok] at hM'
    obtain ⟨sg, -, hM'⟩ := hM'
    rw [if_pos (show o.optimizerType = "ns".toList from rfl), Res.bind_eq_ok] at hM'
    obtain ⟨cs, -, hM'⟩ := hM'
    generalize (sigTable : List F64) = tb at hM'
    cases hM'
    exact ⟨c, hc, rfl, hsm⟩
  obtain ⟨c, hc, hMc, hsm⟩ := hcs
  have hlen : M.corpus.maxLen = 1 := by
    obtain ⟨c', h1, h2, -⟩ := C11_memory_corpus (F := F64) (o.corpus id) _ _ hrd
    rw [hc] at h1
    cases h1
    rw [hMc]; exact h2
  have hsam : ∃ z, M.samples = [z] ∧ GoFloat.lt (GoFloat.ofRat (99 / 100) : F64) z = false := by
    rw [hMc] at f1
    have hdec : (match addCalls [["a".toList]] with
      | .ok d => (match subsamples d (GoFloat.ofRat (1 / 1000) : F64) with
        | .ok [z] => !(GoFloat.lt (GoFloat.ofRat (99 / 100) : F64) z)
        | _ => false)
      | _ => false) = true := by decide +kernel
    have f1' : addCalls [["a".toList]] = .ok c.dic := f1
    have hsm' : subsamples c.dic (GoFloat.ofRat (1 / 1000) : F64) = .ok M.samples := hsm
    rw [f1'] at hdec
    simp only at hdec
    rw [hsm'] at hdec
    rcases hl : M.samples with _ | ⟨z, _ | ⟨y, l⟩⟩
    · rw [hl] at hdec; cases hdec
    · rw [hl] at hdec
      exact ⟨z, rfl, by simpa using hdec⟩
    · rw [hl] at hdec; cases hdec
  obtain ⟨z, hz1, hz2⟩ := hsam
  rw [← w2vSetupObj_res (x := ModelObj.new o.initlr)] at hM
  obtain ⟨m1, h1⟩ := pool_exists (env := menv) (MemEnv.sc_total (rand := fun v => v = (GoFloat.ofRat (99 / 100) : F64)) ⟨_, rfl⟩ (fun _ => [])) (g := o.goroutines.toNat) (by show 1 ≤ 1; omega)
    ((M.mem o 0).set .lr (ModelObj.new o.initlr).lr) [(w2vRound M o docs).1] (w2vRound M o docs).2 (by
      intro t ht
      obtain ⟨d, hd, rfl⟩ := List.mem_map.1 ht
      exact (worker_skips (M.shared o M.table) M.skipGram _ _ _ z hz1 hz2 d (hdd d hd)).mono (fun _ _ => trivial) (fun _ _ => trivial))
  have hob : (w2vRound M o docs).1 = .load .lr (fun lr => .store .lr (newLr (M.lrCfg o) 1 lr) (.ret ())) := by
    show observerP (M.lrCfg o) (docs.map List.length).sum = _
    rw [hn, observerP_one (M.lrCfg o) rfl]
  have h2 : Pool.Reach menv o.goroutines.toNat ⟨(M.mem o 0).set .lr (ModelObj.new o.initlr).lr, [(w2vRound M o docs).1], (w2vRound M o docs).2, []⟩
      ⟨m1.set .lr (newLr (M.lrCfg o) 1 (m1.cell .lr)), [.ret ()], [], []⟩ := by
    refine .step _ _ (.step _ _ h1 (.observe m1 m1 _ [.store .lr (newLr (M.lrCfg o) 1 (m1.cell .lr)) (.ret ())] [] [] ?_)) (.observe _ _ _ _ [] [] ?_)
    · rw [hob]; exact Sys.Step.load m1 [] [] .lr _ _ rfl
    · exact Sys.Step.store m1 [] [] .lr _ _
  have hi : Pool.Iters menv o.goroutines.toNat ((M.mem o 0).set .lr (ModelObj.new o.initlr).lr) [] (List.replicate o.iter.toNat (w2vRound M o docs))
      (m1.set .lr (newLr (M.lrCfg o) 1 (m1.cell .lr))) := Pool.Iters.cons _ _ _ _ _ _ _ [] h2 (.nil _ _)
  have ht := W2VObjTrain.done (env := menv) (lower := id) (r := r) (o := o) (late := []) (x := ModelObj.new o.initlr) (p := ⟨"a".toList, false⟩) (s := s) (next := 0)
    M s' docs _ hM (.inl rfl) hs hi
  refine ⟨o, menv, _, ⟨[], s, 0, by simp, ht⟩, ?_⟩
  show (if Loc.lr = Loc.lr then newLr (M.lrCfg o) 1 (m1.cell .lr) else m1.cell .lr) ≠ o.initlr
  rw [if_pos rfl]
  unfold newLr
  split
  · show (W2VOptions.default 1 : W2VOptions F64).minLR ≠ (W2VOptions.default 1 : W2VOptions F64).initlr
    decide +kernel
  · show o.initlr *. (GoFloat.ofRat 1 -. GoFloat.ofRat ((1 : Nat) : ℚ) /. GoFloat.ofRat ((M.corpus.maxLen : Nat) : ℚ)) ≠ o.initlr
    rw [hlen]
    decide +kernel

end Wego.Props
