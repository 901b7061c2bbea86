import Verif.Spec.Pieces
import Verif.Props.BadOptions
import Verif.Props.OneGoroutine

/-! # C76 for the whole `Train`; how the document is cut -/

namespace Wego.Props
open Wego Wego.Matrix Wego.Prog Spec
variable {F : Type} {σ : Type}

theorem sentBatches_eq (full : List (List Nat)) (last : List Nat) : sentBatches (full.map ChanEv.send ++ [.send last, .close]) = full ++ [last] := by
  induction full with
  | nil => rfl
  | cons a l ih => simpa [sentBatches] using ih

/-- the documents of the workers -/
theorem workerDocs_pieces [GoFloat F] (im : Bool) (cfg : CorpusCfg) (c : CorpusState F) (p : Pass) (ws : List Word) (h : Readable p ws)
    (hadd : addCalls [ws.map cfg.norm] = .ok c.dic) (hdoc : im = true → memIndexedDoc cfg c = .ok (trainSeq cfg.maxCount cfg.minCount (ws.map cfg.norm)))
    (goroutines batchSize : Int) (hg : 1 ≤ goroutines) (hb : (ws.length : Int) + goroutines ≤ 2 ^ 53) (hbs : im = true ∨ 1 ≤ batchSize) :
    ∃ docs, workerDocs im cfg c p goroutines batchSize = .ok docs ∧ Pieces im goroutines batchSize (trainSeq cfg.maxCount cfg.minCount (ws.map cfg.norm)) docs := by
  obtain ⟨g, rfl⟩ := Int.eq_ofNat_of_zero_le (by omega : 0 ≤ goroutines)
  unfold workerDocs
  cases im with
  | false =>
    simp only [Bool.false_eq_true, if_false, false_or] at hbs ⊢
    obtain ⟨b, rfl⟩ := Int.eq_ofNat_of_zero_le (by omega : 0 ≤ batchSize)
    obtain ⟨full, last, e, h1, h2, hf⟩ := C12_batches cfg p ws h c.dic hadd b (by omega)
    refine ⟨_, rfl, ?_⟩
    rw [e, ← hf]
    simp only [sentBatches_eq]
    exact ⟨by simp, by simp, fun _ => ⟨full, last, rfl, fun d hd => by rw [h1 d hd], by exact_mod_cast h2⟩⟩
  | true =>
    simp only [if_true]
    rw [hdoc rfl, Res.ok_bind]
    have hl : (trainSeq cfg.maxCount cfg.minCount (ws.map cfg.norm)).length + g ≤ 2 ^ 53 := by
      have : (trainSeq cfg.maxCount cfg.minCount (ws.map cfg.norm)).length ≤ ws.length := by
        unfold trainSeq
        rw [List.length_map]
        exact (List.length_filter_le _ _).trans (by simp)
      omega
    obtain ⟨v, ps, e1, e2, e4, e3, e5⟩ := C25_slices_balanced (trainSeq cfg.maxCount cfg.minCount (ws.map cfg.norm)) g (by omega) hl
    exact ⟨ps, by rw [e1, Res.ok_bind, Int.toNat_natCast, e2], e3, fun _ => ⟨by exact_mod_cast e4, by rw [e4]; exact e5⟩, by simp⟩

section lexvec
variable [GoMath F] (lower : Word → Word) (enum : GoMap (BitVec 64) F → List (BitVec 64 × F)) (henum : ∀ m, (enum m).Perm m) (r : σ → F × σ)
  (o : LexvecOptions F) (hdim : 0 ≤ o.dim) (hrel : KnownRelation o.relationType) (hw1 : 1 ≤ o.window) (hw2 : o.window < 2 ^ 62)
  (hu : o.updateLRBatch ≠ 0) (hbs : o.docInMemory = true ∨ 1 ≤ o.batchSize) (p : Pass) (ws : List Word) (h : Readable p ws) (hne : ws ≠ [])
  (hdic : (ws.map (o.corpus lower).norm).dedup.length ≤ 2 ^ 32) (hg : o.goroutines = 1) (hb : (ws.length : Int) + o.goroutines ≤ 2 ^ 53)
  (s : σ) (next : UInt64) (rand : F → Prop) (hv : ∃ v, rand v) (path : Nat → List Nat)
include henum hdim hrel hw1 hw2 hu hbs h hne hdic hg hb hv

/-- **C76 (LexVec, the whole `Train`).** With `Goroutines(1)` every execution of `Train` on a readable document returns a model whose parameters are what the sequential
algorithm computes from the initial ones in exactly `Iter` passes over the training sequence (cut into batches, in some order in each pass, when the corpus is
file-backed; as a whole when it is in memory), for some random numbers and admissible learning rates. Nothing else of the model changes. -/
theorem C76_train_lexvec : ∃ M s' docs, lexSetup lower enum r o p p s = .ok (M, s') ∧
    Pieces o.docInMemory o.goroutines o.batchSize (trainSeq o.maxCount o.minCount (ws.map (o.corpus lower).norm)) docs ∧
    (∀ res, LexTrain (MemEnv.sc rand (fun id q => q = path id)) lower enum r o p s next res →
      ∃ (orders : List (List (List Nat))) (rands lrs : Nat → F), orders.length = o.iter.toNat ∧ (∀ d ∈ orders, d.Perm docs) ∧ (∀ k, rand (rands k)) ∧
        (∀ k, PossibleLr (M.lrCfg o) (docs.map List.length).sum (lrs k)) ∧
        ∃ t k, lexSeq (lexCfg M o lrs) M.items M.samples rands orders.flatten (⟨M.param, next, 0⟩, 0) = .ok (t, k) ∧ res = .ok { M with param := t.param }) ∧
    ∃ res, LexTrain (MemEnv.sc rand (fun id q => q = path id)) lower enum r o p s next res := by
  have hall := C84_lexvec_train lower enum henum r o hdim hrel hw1 (by omega) hu hbs p ws h hne hdic (by omega) hb (MemEnv.sc rand (fun id q => q = path id)) s next
  obtain ⟨M, s', docs', _, hM, -⟩ := lex_facts lower enum henum r o hdim hrel hw1 (by omega) hu hbs p ws h hne hdic (by omega) hb (MemEnv.sc rand (fun id q => q = path id)) s
  obtain ⟨dim, hd⟩ := Int.eq_ofNat_of_zero_le hdim
  obtain ⟨f1, f2, f3, f4, f5⟩ := lexSetup_facts lower enum r o dim hd (Or.inr hw1) p ws h s s' M hM
  obtain ⟨docs, hdocs, hpc⟩ := workerDocs_pieces o.docInMemory (o.corpus lower) M.corpus p ws h f1 f3 o.goroutines o.batchSize (by omega) hb hbs
  refine ⟨M, s', docs, hM, hpc, ?_, ?_⟩
  · intro res ht
    obtain ⟨N, rfl⟩ := hall.1 res ht
    cases ht with
    | done M' s'' sl mem h' hp hd' hi =>
      rw [hM] at h'; cases h'
      rw [hdocs] at hd'; cases hd'
      obtain ⟨orders, rands, lrs, e1, e2, e3, e4, t, k, e5, e6⟩ := (C76_lexvec lower enum r o dim hd hw1 hw2 p ws h (by omega) s s' M hM hbs docs hdocs hg rand hv path next
        o.iter.toNat).1 mem hi
      refine ⟨orders, rands, lrs, e1, e2, e3, e4, t, k, e5, ?_⟩
      rw [← e6]; rfl
  · obtain ⟨N, hN⟩ := hall.2 (MemEnv.sc_total hv path)
    exact ⟨_, hN⟩

end lexvec

section word2vec
variable [GoMath F] (lower : Word → Word) (r : σ → F × σ)
    (o : W2VOptions F) (hdim : 0 ≤ o.dim) (hw1 : 1 ≤ o.window) (hw2 : o.window < 2 ^ 62)
    (p : Pass) (ws : List Word) (h : Readable p ws) (hdic : (ws.map (o.corpus lower).norm).dedup.length < 2 ^ 62)
    (s s' : σ) (M : W2VModel F) (hM : w2vSetup lower r o p p s = .ok (M, s'))
    (hbs : o.docInMemory = true ∨ 1 ≤ o.batchSize) (hg : o.goroutines = 1) (hb : (ws.length : Int) + o.goroutines ≤ 2 ^ 53)
    (rand : F → Prop) (hv : ∃ v, rand v) (path : Nat → List Nat) (next : UInt64)
include hdim hw1 hw2 h hdic hM hbs hg hb hv

/-- **C76 (word2vec with negative sampling, the whole `Train`).** With `Goroutines(1)` every model that `Train` on a readable document returns has as word matrix and as
context matrix what the sequential algorithm computes from the initial ones in exactly `Iter` passes over the training sequence (cut into batches, in some order in each
pass, when the corpus is file-backed; as a whole when it is in memory), for some random numbers and admissible learning rates. Nothing else of the model changes. -/
theorem C76_train_word2vec_ns (ng : NegSampling F) (hopt : M.opt = .ns ng) : ∃ docs,
    Pieces o.docInMemory o.goroutines o.batchSize (trainSeq o.maxCount o.minCount (ws.map (o.corpus lower).norm)) docs ∧
    ∀ N, W2VTrain (MemEnv.sc rand (fun id q => q = path id)) lower r o p s next (.ok N) →
      ∃ (orders : List (List (List Nat))) (rands lrs : Nat → F), orders.length = o.iter.toNat ∧ (∀ d ∈ orders, d.Perm docs) ∧ (∀ k, rand (rands k)) ∧
        (∀ k, PossibleLr (M.lrCfg o) (docs.map List.length).sum (lrs k)) ∧
        ∃ t, w2vSeq M.skipGram NegSampling.optim o.window o.dim.toNat M.samples rands lrs orders.flatten ⟨M.param, ng, next, 0, 0⟩ = .ok t ∧
          N = { M with param := t.param, opt := .ns t.opt } := by
  obtain ⟨dim, hd⟩ := Int.eq_ofNat_of_zero_le hdim
  obtain ⟨f1, f2, f3, f4, f5, f6, _⟩ := w2vSetup_facts lower r o dim hd p ws h s s' M hM
  obtain ⟨docs, hdocs, hpc⟩ := workerDocs_pieces o.docInMemory (o.corpus lower) M.corpus p ws h f1 f3 o.goroutines o.batchSize (by omega) hb hbs
  refine ⟨docs, hpc, fun N ht => ?_⟩
  cases ht with
  | done M' s'' sl mem h' hp hd' hi =>
    rw [hM] at h'; cases h'
    rw [hdocs] at hd'; cases hd'
    obtain ⟨orders, rands, lrs, e1, e2, e3, e4, t, e5, e6, e7⟩ := (C76_word2vec_negative_sampling lower r o dim hd hw1 hw2 p ws h hdic s s' M hM hbs docs hdocs hg rand hv path next
      o.iter.toNat ng hopt).1 mem hi
    refine ⟨orders, rands, lrs, e1, e2, e3, e4, t, by rw [hd, Int.toNat_natCast]; exact e5, ?_⟩
    rw [← e6, ← e7]; rfl

omit hdic in
/-- **C76 (word2vec with hierarchical softmax, the whole `Train`).** The same with `MaxDepth >= 0`; `path id` is what `GetPath` returns for the word `id` on the fresh tree. -/
theorem C76_train_word2vec_hs (hs : HierSoftmax F) (hopt : M.opt = .hs hs) (hdep : 0 ≤ o.maxDepth)
    (hpath : ∀ id < M.corpus.dic.len, ∃ a, getPath hs.arena id hs.maxDepth = some (.ok (a, path id))) : ∃ docs,
    Pieces o.docInMemory o.goroutines o.batchSize (trainSeq o.maxCount o.minCount (ws.map (o.corpus lower).norm)) docs ∧
    ∀ N, W2VTrain (MemEnv.sc rand (fun id q => q = path id)) lower r o p s next (.ok N) →
      ∃ (orders : List (List (List Nat))) (rands lrs : Nat → F), orders.length = o.iter.toNat ∧ (∀ d ∈ orders, d.Perm docs) ∧ (∀ k, rand (rands k)) ∧
        (∀ k, PossibleLr (M.lrCfg o) (docs.map List.length).sum (lrs k)) ∧
        ∃ t, w2vSeq M.skipGram HierSoftmax.optim o.window o.dim.toNat M.samples rands lrs orders.flatten ⟨M.param, hs, next, 0, 0⟩ = .ok t ∧
          N = { M with param := t.param } := by
  obtain ⟨dim, hd⟩ := Int.eq_ofNat_of_zero_le hdim
  obtain ⟨f1, f2, f3, f4, f5, f6, _⟩ := w2vSetup_facts lower r o dim hd p ws h s s' M hM
  obtain ⟨docs, hdocs, hpc⟩ := workerDocs_pieces o.docInMemory (o.corpus lower) M.corpus p ws h f1 f3 o.goroutines o.batchSize (by omega) hb hbs
  refine ⟨docs, hpc, fun N ht => ?_⟩
  cases ht with
  | done M' s'' sl mem h' hp hd' hi =>
    rw [hM] at h'; cases h'
    rw [hdocs] at hd'; cases hd'
    obtain ⟨orders, rands, lrs, e1, e2, e3, e4, t, e5, e6⟩ := (C76_word2vec_hierarchical_softmax lower r o dim hd hw1 hw2 p ws h s s' M hM hbs docs hdocs hg rand hv path next
      o.iter.toNat hs hopt hdep hpath).1 mem hi
    refine ⟨orders, rands, lrs, e1, e2, e3, e4, t, by rw [hd, Int.toNat_natCast]; exact e5, ?_⟩
    rw [← e6]
    simp only [W2VModel.after, hopt]


end word2vec

end Wego.Props
