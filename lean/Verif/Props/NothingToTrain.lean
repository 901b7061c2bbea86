import Verif.Props.BadOptions
import Verif.Props.InitVectors
import Verif.Props.CmdFails
import Verif.Props.Query
import Verif.Proofs.Halted

/-! # C99: documents in which there is nothing to train on -/

namespace Wego.Props
open Wego Wego.Spec Wego.Matrix Wego.Prog
variable {F : Type} {σ : Type}

/-- no word of the document is inside the count limits (in particular: there is no word) -/
def NothingToTrain (max min : Int) (us : List Word) : Prop := ∀ w ∈ us, outside max min (us.count w)

theorem trainSeq_nil {max min : Int} {us : List Word} (h : NothingToTrain max min us) : trainSeq max min us = [] := by
  unfold trainSeq
  rw [List.map_eq_nil_iff, List.filter_eq_nil_iff]
  intro w hw
  simpa using h w hw

theorem docs_nil {docs : List (List Nat)} (h : docs.flatten = []) : (∀ d ∈ docs, d = []) ∧ (docs.map List.length).sum = 0 := by
  refine ⟨List.flatten_eq_nil_iff.1 h, ?_⟩
  rw [← List.length_flatten, h]; rfl

section
variable [GoFloat F]

theorem mem_matrix_cellAt {m : Mem F} {loc : Nat → Nat → Loc} {M : Matrix F} {r c : Nat} (h : Shaped M r c) (hc : ∀ i j, m.cell (loc i j) = M.cellAt i j) :
    m.matrix loc r c = M :=
  MatAt.matrix ⟨h, fun i hi j hj => by rw [hc, cellAt_eq h hi hj]⟩

end

section word2vec
variable [GoMath F] (menv : MemEnv F) (lower : Word → Word) (r : σ → F × σ) (o : W2VOptions F) (hdim : 0 ≤ o.dim) (hg : 1 ≤ o.goroutines)
  (hm : o.modelType = "skipgram".toList ∨ o.modelType = "cbow".toList) (ho : o.optimizerType = "ns".toList ∨ o.optimizerType = "hs".toList)
  (hbs : o.docInMemory = true ∨ 1 ≤ o.batchSize) (p : Pass) (ws : List Word) (h : Readable p ws) (hb : (ws.length : Int) + o.goroutines ≤ 2 ^ 53)
  (hno : NothingToTrain o.maxCount o.minCount (ws.map (o.corpus lower).norm)) (s : σ) (next : UInt64)
include hdim hg hm ho hbs h hb hno

/-- **C99 (word2vec).** On a document in which no word is inside the count limits, in every schedule, whatever loads and
stores do and whatever the number of iterations, window and learning rate options: `Train` returns nil, and the model is the
one it started training with, with the initial parameters of C78. Holds for float64. -/
theorem C99_word2vec : ∃ M s', w2vSetup lower r o p p s = .ok (M, s') ∧ addCalls [ws.map (o.corpus lower).norm] = .ok M.corpus.dic ∧
    (∀ res, W2VTrain menv lower r o p s next res ↔ res = .ok M) ∧
    M.param.array = (List.range (M.corpus.dic.len * o.dim.toNat)).map (fun k => centred o.dim.toNat (drawn r s k)) := by
  obtain ⟨dim, hd⟩ := Int.eq_ofNat_of_zero_le hdim
  have hcol : o.dim.toNat = dim := by rw [hd]; simp
  obtain ⟨M, s', hM, _⟩ := C72_word2vec_starts lower r o dim hd (by omega) hm ho p ws h s
  obtain ⟨f1, f2, f3, ⟨f4, f4'⟩, _⟩ := w2vSetup_facts lower r o dim hd p ws h s s' M hM
  obtain ⟨docs, hdocs, hfl⟩ := workerDocs_flatten o.docInMemory (o.corpus lower) M.corpus p ws h f1 f3 o.goroutines o.batchSize hg hb hbs
  have hbe := batches_end (o.corpus lower) p ws h _ f1 o.docInMemory o.iter o.batchSize hbs
  obtain ⟨hnil, hsum⟩ := docs_nil (hfl.trans (trainSeq_nil hno))
  have hrounds : ∀ q ∈ List.replicate o.iter.toNat (w2vRound M o docs), q.1 = .ret () ∧ ∀ x ∈ q.2, x = .ret () := by
    intro q hq
    rw [List.eq_of_mem_replicate hq]
    unfold w2vRound
    rw [hsum]
    refine ⟨rfl, fun x hx => ?_⟩
    obtain ⟨d, hd, rfl⟩ := List.mem_map.1 hx
    rw [hnil d hd]; rfl
  have hafter : M.after o (M.mem o next) = M := by
    have e1 : (M.mem o next).matrix .param M.corpus.dic.len o.dim.toNat = M.param := mem_matrix_cellAt (by rw [hcol]; exact f4) (fun _ _ => rfl)
    unfold W2VModel.after
    rw [e1]
    obtain ⟨c, pm, sa, sg, op⟩ := M
    cases op with
    | hs t => rfl
    | ns ng =>
      have e2 : (W2VModel.mem ⟨c, pm, sa, sg, .ns ng⟩ o next).matrix .ctx c.dic.len o.dim.toNat = ng.ctx :=
        mem_matrix_cellAt (by rw [hcol]; exact f4' ng rfl) (fun _ _ => rfl)
      dsimp only
      rw [e2]
  refine ⟨M, s', hM, f1, fun res => ⟨fun ht => ?_, ?_⟩, ?_⟩
  · cases ht with
    | setupErr e h => rw [hM] at h; cases h
    | setupPanic x h => rw [hM] at h; cases h
    | slicePanic M' s'' x h hd => rw [hM] at h; cases h; rw [hdocs] at hd; cases hd
    | panics M' s'' sl x h hd hi =>
      rw [hM] at h; cases h; rw [hdocs] at hd; cases hd
      exact absurd hi (Pool.idle_no_panic _ _ hrounds)
    | producerPanic M' s'' b x h hm hi hp =>
      rw [hM] at h; cases h
      rw [hm, hp] at hbe
      rcases hbe with h | h | h
      · cases h
      · omega
      · cases h
    | done M' s'' sl mem h hp hd hi =>
      rw [hM] at h; cases h; rw [hdocs] at hd; cases hd
      rw [(Pool.idle_iters (by omega) _ _ [] _ (by simp) hrounds).1 hi, hafter]
  · rintro rfl
    have := W2VTrain.done (env := menv) (lower := lower) (r := r) (o := o) (p := p) (s := s) (next := next) M s' docs (M.mem o next) hM hbe hdocs
      ((Pool.idle_iters (by omega) _ _ [] _ (by simp) hrounds).2 rfl)
    rwa [hafter] at this
  · rw [hcol]
    exact (C78_word2vec lower r o dim hd p ws h s s' M hM).1

end word2vec

/-! ## A document without words -/

/-- Loading a document without words: the dictionary is empty; in memory no pair is counted, the file-backed corpus counts
the pair of word 0 with itself. -/
theorem load_empty [GoFloat F] (im : Bool) (cfg : CorpusCfg) (p : Pass) (h : Readable p []) (n : Int) (hn : im = true ∨ 1 ≤ n) :
    ∃ (c : CorpusState F) (co : Cooccurrence F), loadCorpus im cfg p p (some ⟨"inc", n⟩) = .ok c ∧ c.cooc = some co ∧ c.dic.len = 0 ∧
      (∀ e ∈ co.encodedMatrix, e.1 = pairKey (0, 0)) ∧ (co.encodedMatrix = [] ↔ im = true) ∧ co.encodedMatrix.length ≤ 1 := by
  unfold loadCorpus
  cases im with
  | true =>
    obtain ⟨c, _, h2, _, _, h5, h6⟩ := memLoad_readable (F := F) cfg h
    have h7 := h6 (some ⟨"inc", n⟩)
    dsimp only at h7
    rw [new_inc, Res.ok_bind, show windowPairs n.toNat c.idoc = [] by rw [h5]; simp [idsOf, windowPairs]] at h7
    rw [if_pos rfl]
    exact ⟨_, _, h7, rfl, by rw [show ({c with cooc := some (⟨countInc, GoMap.empty⟩ : Cooccurrence F)} : CorpusState F).dic.len = c.dic.len from rfl, h2.len_eq]; rfl,
      by simp [Cooccurrence.encodedMatrix, GoMap.empty], by simp [Cooccurrence.encodedMatrix, GoMap.empty], by simp [Cooccurrence.encodedMatrix, GoMap.empty]⟩
  | false =>
    simp only [Bool.false_eq_true, false_or] at hn
    obtain ⟨k, rfl⟩ := Int.eq_ofNat_of_zero_le (by omega : 0 ≤ n)
    have hn : 1 ≤ k := by omega
    obtain ⟨c0, h1, h2, h3, _, _, _, h6⟩ := fsLoad_readable (F := F) cfg h
    have h7 := h6 "inc" k hn
    rw [new_inc, Res.ok_bind] at h7
    obtain ⟨co, a1, _, a3, _⟩ := addPairs_inc (F := F) ((fwdCalls k []).map (fun q => (c0.dic.idOrZero q.1, c0.dic.idOrZero q.2)))
      ⟨countInc, GoMap.empty⟩ rfl
    obtain ⟨hwf, hkeys⟩ := addPairs_keys _ _ co a1 GoMap.wf_empty
    simp only [GoMap.empty, List.map_nil, List.not_mem_nil, false_or] at hkeys
    have hlen : c0.dic.len = 0 := by rw [h2.len_eq]; rfl
    have hid : c0.dic.idOrZero [] = 0 := by rw [h2.idOrZero_eq]; simp
    rw [a1, Res.ok_bind] at h7
    have hall : ∀ e ∈ co.encodedMatrix, e.1 = pairKey (0, 0) := by
      intro e he
      obtain ⟨q, hq, e1⟩ := (hkeys e.1).1 (List.mem_map.2 ⟨e, he, rfl⟩)
      obtain ⟨x, hx, rfl⟩ := List.mem_map.1 hq
      have : x = ([], []) := List.eq_of_mem_replicate hx
      rw [this, hid] at e1
      exact e1.symm
    rw [if_neg (by simp)]
    refine ⟨_, co, h7, rfl, hlen, hall, ?_, ?_⟩
    · simp only [Bool.false_eq_true, iff_false]
      intro hnil
      have : pairKey (0, 0) ∈ co.ma.map Prod.fst := by
        rw [hkeys]
        refine ⟨(0, 0), List.mem_map.2 ⟨([], []), ?_, by rw [hid]⟩, rfl⟩
        exact List.mem_replicate.2 ⟨by omega, rfl⟩
      rw [Cooccurrence.encodedMatrix] at hnil
      rw [hnil] at this
      simp at this
    · have hnd : (co.ma.map Prod.fst).Nodup := hwf
      by_contra hc
      rw [Cooccurrence.encodedMatrix] at hc hall
      match hl : co.ma with
      | [] => rw [hl] at hc; simp at hc
      | [_] => rw [hl] at hc; simp at hc
      | a :: b :: l =>
        rw [hl] at hnd hall
        have := hall a (by simp)
        have := hall b (by simp)
        simp_all

theorem relation_empty [GoMath F] (dic : Dictionary) (hd : dic.len = 0) (smooth : F) (typ : String)
    (htyp : typ = "ppmi" ∨ typ = "pmi" ∨ typ = "co" ∨ typ = "logco") (co lt : F) : ∃ v, calculateRelation dic smooth typ 0 0 co lt = .ok v := by
  have hf : dic.idFreq 0 = .ok 0 := by
    unfold Dictionary.idFreq
    rw [if_pos (by have : dic.maxid = 0 := hd; omega)]
  unfold calculateRelation
  rw [hf]
  rcases htyp with rfl | rfl | rfl | rfl
  · rw [if_pos rfl]; split <;> exact ⟨_, rfl⟩
  · rw [if_neg (by decide), if_pos rfl]; split <;> exact ⟨_, rfl⟩
  · rw [if_neg (by decide), if_neg (by decide), if_pos rfl]; exact ⟨_, rfl⟩
  · rw [if_neg (by decide), if_neg (by decide), if_neg (by decide), if_pos rfl]; exact ⟨_, rfl⟩

/-- the set-up of LexVec on a document without words -/
theorem lex_starts_empty [GoMath F] (lower : Word → Word) (enum : GoMap (BitVec 64) F → List (BitVec 64 × F)) (henum : ∀ m, (enum m).Perm m)
    (r : σ → F × σ) (o : LexvecOptions F) (dim : Nat) (hdim : o.dim = dim)
    (hw : o.docInMemory = true ∨ 1 ≤ o.window) (hrel : KnownRelation o.relationType) (p : Pass) (h : Readable p []) (s : σ) :
    ∃ M s', lexSetup lower enum r o p p s = .ok (M, s') := by
  obtain ⟨c, co, e, hco, hlen, hk, _⟩ := load_empty (F := F) o.docInMemory (o.corpus lower) p h o.window hw
  obtain ⟨_, hr⟩ := load_cooc_readable o.docInMemory (o.corpus lower) _ _ hw p [] h c e
  obtain ⟨m, s1, e1, q1⟩ := randMatrix_ok r (initValue (F := F) o.dim) (c.dic.len * 2) dim s
  push_cast at e1
  rw [← hdim] at e1
  have hit : ∃ items, lexItems c.dic c.maxLen o.smooth (String.ofList o.relationType) (enum co.encodedMatrix) = .ok items := by
    unfold lexItems
    dsimp only
    obtain ⟨s, e, _⟩ := forEach_inv (fun _ : GoMap (BitVec 64) F => True) (enum co.encodedMatrix) GoMap.empty (fun e res =>
      calculateRelation c.dic o.smooth (String.ofList o.relationType) (decodeBigram e.1).1.toInt (decodeBigram e.1).2.toInt e.2
        (GoMath.log (GoMath.pow (GoFloat.ofRat (c.maxLen : ℚ)) o.smooth)) >>= fun v => .ok (res.set e.1 v)) trivial (by
      intro x hx res _
      have hd := decode_pairKey (a := 0) (b := 0) (by norm_num) (by norm_num)
      rw [hk x ((henum _).mem_iff.1 hx)]
      rw [show (decodeBigram (pairKey (0, 0))).1.toInt = 0 from hd.1, show (decodeBigram (pairKey (0, 0))).2.toInt = 0 from hd.2]
      obtain ⟨v, hv⟩ := relation_empty c.dic hlen o.smooth (String.ofList o.relationType) (by
        rcases hrel with e | e | e | e <;> rw [e] <;> simp) x.2 (GoMath.log (GoMath.pow (GoFloat.ofRat (c.maxLen : ℚ)) o.smooth))
      rw [hv]; exact ⟨_, rfl, trivial⟩)
    exact ⟨s, e⟩
  obtain ⟨items, hit⟩ := hit
  unfold lexSetup
  rw [show (countInc : String) = "inc" from rfl, e, Res.ok_bind, e1, Res.ok_bind, subsamples_eq c.dic _ hr, Res.ok_bind, hco]
  dsimp only
  rw [hit, Res.ok_bind]
  exact ⟨_, _, rfl⟩

section lexvec
variable [GoMath F] (menv : MemEnv F) (lower : Word → Word) (enum : GoMap (BitVec 64) F → List (BitVec 64 × F)) (henum : ∀ m, (enum m).Perm m) (r : σ → F × σ)
  (o : LexvecOptions F) (hdim : 0 ≤ o.dim) (hg : 1 ≤ o.goroutines) (hrel : KnownRelation o.relationType) (hw : o.docInMemory = true ∨ 1 ≤ o.window)
  (hbs : o.docInMemory = true ∨ 1 ≤ o.batchSize) (p : Pass) (ws : List Word) (h : Readable p ws) (hb : (ws.length : Int) + o.goroutines ≤ 2 ^ 53)
  (hdic : (ws.map (o.corpus lower).norm).dedup.length ≤ 2 ^ 32)
  (hno : NothingToTrain o.maxCount o.minCount (ws.map (o.corpus lower).norm)) (s : σ) (next : UInt64)
include henum hdim hg hrel hw hbs h hb hdic hno

/-- **C99 (LexVec).** Likewise, for either corpus and every order of the map, also for a document without words. -/
theorem C99_lexvec : ∃ M s', lexSetup lower enum r o p p s = .ok (M, s') ∧ addCalls [ws.map (o.corpus lower).norm] = .ok M.corpus.dic ∧
    (∀ res, LexTrain menv lower enum r o p s next res ↔ res = .ok M) ∧
    M.param.array = (List.range (M.corpus.dic.len * 2 * o.dim.toNat)).map (fun k => centred o.dim.toNat (drawn r s k)) := by
  obtain ⟨dim, hd⟩ := Int.eq_ofNat_of_zero_le hdim
  have hcol : o.dim.toNat = dim := by rw [hd]; simp
  have hst : ∃ M s', lexSetup lower enum r o p p s = .ok (M, s') := by
    by_cases hne : ws = []
    · subst hne; exact lex_starts_empty lower enum henum r o dim hd hw hrel p h s
    · obtain ⟨M, s', e, _⟩ := C72_lexvec_starts lower enum henum r o dim hd hw hrel p ws h hne hdic s
      exact ⟨M, s', e⟩
  obtain ⟨M, s', hM⟩ := hst
  obtain ⟨f1, f2, f3, f4, _⟩ := lexSetup_facts lower enum r o dim hd hw p ws h s s' M hM
  obtain ⟨docs, hdocs, hfl⟩ := workerDocs_flatten o.docInMemory (o.corpus lower) M.corpus p ws h f1 f3 o.goroutines o.batchSize hg hb hbs
  have hbe := batches_end (o.corpus lower) p ws h _ f1 o.docInMemory o.iter o.batchSize hbs
  obtain ⟨hnil, hsum⟩ := docs_nil (hfl.trans (trainSeq_nil hno))
  have hrounds : ∀ q ∈ List.replicate o.iter.toNat (lexRound M o docs), q.1 = .ret () ∧ ∀ x ∈ q.2, x = .ret () := by
    intro q hq
    rw [List.eq_of_mem_replicate hq]
    unfold lexRound
    rw [hsum]
    refine ⟨rfl, fun x hx => ?_⟩
    obtain ⟨d, hd, rfl⟩ := List.mem_map.1 hx
    rw [hnil d hd]; rfl
  have hafter : M.after o (M.mem o next) = M := by
    have e1 : (M.mem o next).matrix .param (M.corpus.dic.len * 2) o.dim.toNat = M.param := mem_matrix_cellAt (by rw [hcol]; exact f4) (fun _ _ => rfl)
    unfold LexModel.after
    rw [e1]
  refine ⟨M, s', hM, f1, fun res => ⟨fun ht => ?_, ?_⟩, ?_⟩
  · cases ht with
    | setupErr e h => rw [hM] at h; cases h
    | setupPanic x h => rw [hM] at h; cases h
    | slicePanic M' s'' x h hd => rw [hM] at h; cases h; rw [hdocs] at hd; cases hd
    | panics M' s'' sl x h hd hi =>
      rw [hM] at h; cases h; rw [hdocs] at hd; cases hd
      exact absurd hi (Pool.idle_no_panic _ _ hrounds)
    | chanPanic M' s'' h hm hi hg' => omega
    | producerPanic M' s'' b x h hm hi hp =>
      rw [hM] at h; cases h
      rw [hm, hp] at hbe
      rcases hbe with h | h | h
      · cases h
      · omega
      · cases h
    | done M' s'' sl mem h hp hd hi =>
      rw [hM] at h; cases h; rw [hdocs] at hd; cases hd
      rw [(Pool.idle_iters (by omega) _ _ [] _ (by simp) hrounds).1 hi, hafter]
  · rintro rfl
    have := LexTrain.done (env := menv) (lower := lower) (enum := enum) (r := r) (o := o) (p := p) (s := s) (next := next) M s' docs (M.mem o next) hM hbe hdocs
      ((Pool.idle_iters (by omega) _ _ [] _ (by simp) hrounds).2 rfl) (by omega)
    rwa [hafter] at this
  · rw [hcol]
    exact C78_lexvec lower enum r o dim hd p p s s' M hM

end lexvec

section glove
variable [GoMath F] (menv : MemEnv F) (lower : Word → Word) (enum : GoMap (BitVec 64) F → List (BitVec 64 × F)) (henum : ∀ m, (enum m).Perm m) (r : σ → F × σ)
  (o : GloveOptions F) (hdim : 0 ≤ o.dim) (hct : o.countType = "inc".toList) (hso : o.solverType = "sgd".toList ∨ o.solverType = "adagrad".toList)
  (p : Pass) (h : Readable p []) (hg : 1 ≤ o.goroutines) (hb : o.goroutines < 2 ^ 53) (s : σ) (next : UInt64)
include henum hdim hct hso h hg hb

theorem glove_empty_setup (hw : o.docInMemory = true ∨ 1 ≤ o.window) : ∃ M s' slices, gloveSetup lower r o p p s = .ok (M, s') ∧ gloveSlices M o enum = .ok slices ∧
    M.corpus.dic.len = 0 ∧ (o.docInMemory = true → slices.flatten = []) ∧ (o.docInMemory = false → slices.flatten ≠ []) ∧ ∀ it ∈ slices.flatten, it.l1 = 0 ∧ it.l2 = 0 := by
  obtain ⟨M, s', hM⟩ := C72_glove_starts lower r o hdim hct hso hw p [] h s
  obtain ⟨c, co, e, hco, hlen, hk, hempty, hle⟩ := load_empty (F := F) o.docInMemory (o.corpus lower) p h o.window hw
  have hM' := hM
  unfold gloveSetup at hM'
  rw [hct, show String.ofList "inc".toList = "inc" by simp, e, Res.ok_bind, Res.bind_eq_ok] at hM'
  obtain ⟨ps, _, hM'⟩ := hM'
  have hMc : M.corpus = c := by
    split at hM'
    · cases hM'; rfl
    · split at hM'
      · rw [Res.bind_eq_ok] at hM'
        obtain ⟨g, _, hM'⟩ := hM'
        cases hM'; rfl
      · cases hM'
  obtain ⟨g, hgg⟩ := Int.eq_ofNat_of_zero_le (by omega : 0 ≤ o.goroutines)
  have hl : (gloveItems o.xmax o.alpha (enum co.encodedMatrix)).length = co.encodedMatrix.length := by
    unfold gloveItems
    rw [List.length_map, (henum _).length_eq]
  obtain ⟨v, sl, e1, e2, _, e3⟩ := C25_slices_partition (gloveItems o.xmax o.alpha (enum co.encodedMatrix)) g (by omega) (by omega)
  refine ⟨M, s', sl, hM, ?_, by rw [hMc]; exact hlen, ?_, ?_, ?_⟩
  · unfold gloveSlices
    rw [hMc, hco]
    dsimp only
    rw [hgg, e1, Res.ok_bind, Int.toNat_natCast, e2]
  · intro hd
    rw [e3, List.eq_nil_iff_length_eq_zero, hl, hempty.2 hd]; rfl
  · intro hd
    rw [e3, ne_eq, List.eq_nil_iff_length_eq_zero, hl, ← List.eq_nil_iff_length_eq_zero, hempty, hd]; simp
  · intro it hit
    rw [e3] at hit
    obtain ⟨e, he, rfl⟩ := List.mem_map.1 hit
    have hd := decode_pairKey (a := 0) (b := 0) (by norm_num) (by norm_num)
    simp only [gloveItem, hk e ((henum _).mem_iff.1 he)]
    exact hd

/-- **C99 (GloVe, in memory, no words).** `Train` returns nil with an empty dictionary and no parameters. -/
theorem C99_glove_memory (hm : o.docInMemory = true) : ∃ M s', gloveSetup lower r o p p s = .ok (M, s') ∧ M.corpus.dic.len = 0 ∧
    (∀ res, GloveTrain menv lower enum r o p s next res ↔ res = .ok M) := by
  obtain ⟨M, s', slices, hM, hs, hlen, hnil, _, _⟩ := glove_empty_setup lower enum henum r o hdim hct hso p h hg hb s (.inl hm)
  obtain ⟨dim, hd⟩ := Int.eq_ofNat_of_zero_le hdim
  have hcol : o.dim.toNat = dim := by rw [hd]; simp
  obtain ⟨_, f4, _⟩ := C72_glove_shapes lower r o dim hd (.inl hm) p [] h s s' M hM
  have hrounds : ∀ q ∈ List.replicate o.iter.toNat (gloveIter M o slices), q.1 = .ret () ∧ ∀ x ∈ q.2, x = .ret () := by
    intro q hq
    rw [List.eq_of_mem_replicate hq]
    refine ⟨rfl, fun x hx => ?_⟩
    obtain ⟨d, hd, rfl⟩ := List.mem_map.1 hx
    rw [List.flatten_eq_nil_iff.1 (hnil hm) d hd]; rfl
  have hafter : M.after o (M.mem next) = M := by
    have e1 : (M.mem next).matrix .param (M.corpus.dic.len * 2) (o.dim.toNat + 1) = M.param := mem_matrix_cellAt (by rw [hcol]; exact f4) (fun _ _ => rfl)
    unfold GloveModel.after
    rw [e1]
  refine ⟨M, s', hM, hlen, fun res => ⟨fun ht => ?_, ?_⟩⟩
  · cases ht with
    | setupErr e h => rw [hM] at h; cases h
    | setupPanic x h => rw [hM] at h; cases h
    | slicePanic M' s'' x h hd => rw [hM] at h; cases h; rw [hs] at hd; cases hd
    | panics M' s'' sl x h hd hi =>
      rw [hM] at h; cases h; rw [hs] at hd; cases hd
      exact absurd hi (Pool.idle_no_panic _ _ hrounds)
    | done M' s'' sl mem h hd hi =>
      rw [hM] at h; cases h; rw [hs] at hd; cases hd
      rw [(Pool.idle_iters (by omega) _ _ [] _ (by simp) hrounds).1 hi, hafter]
  · rintro rfl
    have := GloveTrain.done (env := menv) (lower := lower) (enum := enum) (r := r) (o := o) (p := p) (s := s) (next := next) M s' slices (M.mem next) hM hs
      ((Pool.idle_iters (by omega) _ _ [] _ (by simp) hrounds).2 rfl)
    rwa [hafter] at this

/-- **C99 (GloVe, file-backed, no words).** With `Window >= 1` and `Iter >= 1`, every execution of `Train` panics. -/
theorem C99_glove_file_panics (hm : o.docInMemory = false) (hw : 1 ≤ o.window) (hi : 1 ≤ o.iter) (res : Res (GloveModel F)) :
    GloveTrain menv lower enum r o p s next res ↔ res = .panic .sliceBounds := by
  obtain ⟨M, s', slices, hM, hs, hlen, _, hne, hits⟩ := glove_empty_setup lower enum henum r o hdim hct hso p h hg hb s (.inr hw)
  have hstep : ∀ f coef, M.step o 0 0 f coef = .panic .sliceBounds := by
    intro f coef
    have : (sliceP (0 * 2) (o.dim.toNat + 1) 0 : Prog F Nat) = .panic .sliceBounds := by
      unfold sliceP
      rw [if_neg (by push_cast; omega)]
    unfold GloveModel.step
    rw [hlen]
    split
    · unfold sgdP; rw [this]; rfl
    · unfold adaP; rw [this]; rfl
  have hwk : ∀ sl : List (GItem F), (∀ it ∈ sl, it.l1 = 0 ∧ it.l2 = 0) → gloveWorkerP (M.step o) M.corpus.dic.len sl = if sl = [] then .ret () else .panic .sliceBounds := by
    intro sl hsl
    cases sl with
    | nil => rfl
    | cons it sl =>
      obtain ⟨h1, h2⟩ := hsl it (by simp)
      rw [if_neg (by simp)]
      unfold gloveWorkerP forP
      rw [List.length_cons]
      unfold forFromP
      show (((M.step o it.l1 (it.l2 + (M.corpus.dic.len : Int)) it.f it.coef).bind _).bind _) = _
      rw [h1, h2, hlen, show (0 : Int) + ((0 : Nat) : Int) = 0 by simp, hstep]
      rfl
  have hws : ∀ t ∈ slices.map (gloveWorkerP (M.step o) M.corpus.dic.len), t = .ret () ∨ t = .panic .sliceBounds := by
    intro t ht
    obtain ⟨sl, hsl, rfl⟩ := List.mem_map.1 ht
    rw [hwk sl (fun it hit => hits it (List.mem_flatten.2 ⟨sl, hsl, hit⟩))]
    split
    · exact .inl rfl
    · exact .inr rfl
  have hx : .panic .sliceBounds ∈ slices.map (gloveWorkerP (M.step o) M.corpus.dic.len) := by
    have := hne hm
    rw [ne_eq, List.flatten_eq_nil_iff] at this
    push Not at this
    obtain ⟨sl, hsl, hne⟩ := this
    refine List.mem_map.2 ⟨sl, hsl, ?_⟩
    rw [hwk sl (fun it hit => hits it (List.mem_flatten.2 ⟨sl, hsl, hit⟩)), if_neg hne]
  obtain ⟨k, hk⟩ := Nat.exists_eq_add_of_le' (by omega : 1 ≤ o.iter.toNat)
  obtain ⟨d1, d2⟩ := Pool.dead_iters (env := menv) (g := o.goroutines.toNat) (by omega) (M.mem next) (.ret ()) (slices.map (gloveWorkerP (M.step o) M.corpus.dic.len))
    (List.replicate k (gloveIter M o slices)) rfl hws hx
  have hrep : List.replicate o.iter.toNat (gloveIter M o slices) = (.ret (), slices.map (gloveWorkerP (M.step o) M.corpus.dic.len)) :: List.replicate k (gloveIter M o slices) := by
    rw [hk, List.replicate_succ]; rfl
  constructor
  · intro ht
    cases ht with
    | setupErr e h => rw [hM] at h; cases h
    | setupPanic x h => rw [hM] at h; cases h
    | slicePanic M' s'' x h hd => rw [hM] at h; cases h; rw [hs] at hd; cases hd
    | panics M' s'' sl x h hd hi =>
      rw [hM] at h; cases h; rw [hs] at hd; cases hd
      rw [hrep] at hi
      rw [(d2 x).1 hi]
    | done M' s'' sl mem h hd hi =>
      rw [hM] at h; cases h; rw [hs] at hd; cases hd
      rw [hrep] at hi
      exact absurd hi (d1 _)
  · rintro rfl
    refine .panics M s' slices _ hM hs ?_
    rw [hrep]
    exact (d2 _).2 rfl

end glove


/-! ## The commands on an input without words -/

/-- saving a model without words writes the empty file -/
theorem saveOutcome_empty (dic : Dictionary) (hd : addCalls [[]] = .ok dic) (dim : Nat) (t : Trained) (h : t.OK dic.len dim) (typ : Word)
    (v : Bool) (lb : Int) (hv : v = false ∨ lb ≠ 0) : saveOutcome dic (t.wordVector dic.len dim typ) v lb = .saved [] (.ok ()) := by
  obtain ⟨d, hd', hr⟩ := addCalls_rep [[]]
  rw [hd] at hd'; obtain rfl := Res.ok.inj hd'
  have hl : dic.len = 0 := by rw [hr.len_eq]; rfl
  have key : ∃ m, t.wordVector dic.len dim typ = .ok m ∧ Matrix.Shaped m dic.len dim := by
    have : ∃ m, t.wordVector dic.len dim typ = .ok m ∧ m.row = dic.len ∧ m.col = dim ∧ m.array.length = dic.len * dim := by
      cases t with
      | w2v p o => exact C43_word2vec_shape _ _ p o h typ
      | glove p => exact C43_glove_shape _ _ p h typ
      | lexvec p => exact C43_lexvec_shape _ _ p h typ
    obtain ⟨m, e, a, b, c⟩ := this
    exact ⟨m, e, ⟨a, b, c⟩⟩
  obtain ⟨m, e, hm⟩ := key
  unfold saveOutcome
  rw [hl] at hm
  rw [e, Res.ok_bind, saveText_eq hr (c := dim) (by simpa [firstOcc] using hm) v lb (by rintro ⟨h1, h2⟩; rcases hv with h | h <;> simp_all)]
  rfl

/-- the command returns nil and leaves the empty file -/
def LeavesEmpty (env : Env) (input output : Path) (run : List Char → TrainOutcome) (fs : FS) : Prop :=
  (execute env false input output run fs).2 = .ok () ∧ (execute env false input output run fs).1 output = some (.file [])

theorem leavesEmpty_of (env : Env) (input output : Path) (run : List Char → TrainOutcome) (fs : FS) (hin : fs input ≠ none) (hout : fs output = none)
    (h1 : env.mkdirFails = false) (h2 : env.createFails = false) (h3 : env.openFails = false)
    (hr : run (fs.read input) = .saved [] (.ok ())) : LeavesEmpty env input output run fs := by
  have h := command_succeeds env input output run fs hin hout h1 h2 h3 [] hr
  obtain ⟨_, _, content, e1, e2⟩ := C64_success env input output run fs h
  rw [hr] at e1
  cases e1
  exact ⟨h, e2⟩

section commands
variable (lib : LibM) (menv : MemEnv F64) (env : Env) (lower : Word → Word) (enum : GoMap (BitVec 64) F64 → List (BitVec 64 × F64)) (henum : ∀ m, (enum m).Perm m)
  (r : σ → F64 × σ) (s : σ) (next : UInt64) (typ : Word) (input output : Path) (fs : FS) (hin : fs input ≠ none) (hout : fs output = none)
  (henv : env.mkdirFails = false ∧ env.createFails = false ∧ env.openFails = false) (hr : Readable ⟨fs.read input, false⟩ [])
  (run : List Char → TrainOutcome)
include hin hout henv hr

/-- **C99 (word2vec command).** On an input without words, in every schedule, in float64: the command returns nil and leaves an empty output file. -/
theorem C99_word2vec_command (o : W2VOptions F64) (hdim : 0 ≤ o.dim) (hg : 1 ≤ o.goroutines) (hb : o.goroutines < 2 ^ 53)
    (hm : o.modelType = "skipgram".toList ∨ o.modelType = "cbow".toList) (ho : o.optimizerType = "ns".toList ∨ o.optimizerType = "hs".toList)
    (hbs : o.docInMemory = true ∨ 1 ≤ o.batchSize) (hv : o.verbose = false ∨ o.logBatch ≠ 0)
    (hrun : RunsW2V lib menv lower r o s next typ run (fs.read input)) : LeavesEmpty env input output run fs := by
  let _ := lib.math
  obtain ⟨res, ht, e⟩ := hrun
  obtain ⟨dim, hd⟩ := Int.eq_ofNat_of_zero_le hdim
  obtain ⟨M, s', hM, hadd, hall, _⟩ := C99_word2vec menv lower r o hdim hg hm ho hbs _ [] hr (by simp; omega) (by intro w hw; simp at hw) s next
  obtain rfl := (hall res).1 ht
  obtain ⟨_, _, _, hsh, _⟩ := w2vSetup_facts lower r o dim hd _ [] hr s s' M hM
  refine leavesEmpty_of env input output run fs hin hout henv.1 henv.2.1 henv.2.2 ?_
  have := saveOutcome_empty M.corpus.dic hadd dim (.w2v M.param M.opt) hsh typ o.verbose o.logBatch hv
  rw [e, ← this, ← hd]; rfl

include henum in
/-- **C99 (LexVec command).** -/
theorem C99_lexvec_command (o : LexvecOptions F64) (hdim : 0 ≤ o.dim) (hg : 1 ≤ o.goroutines) (hb : o.goroutines < 2 ^ 53)
    (hrel : KnownRelation o.relationType) (hw : o.docInMemory = true ∨ 1 ≤ o.window)
    (hbs : o.docInMemory = true ∨ 1 ≤ o.batchSize) (hv : o.verbose = false ∨ o.logBatch ≠ 0)
    (hrun : RunsLex lib menv lower enum r o s next typ run (fs.read input)) : LeavesEmpty env input output run fs := by
  let _ := lib.math
  obtain ⟨res, ht, e⟩ := hrun
  obtain ⟨dim, hd⟩ := Int.eq_ofNat_of_zero_le hdim
  obtain ⟨M, s', hM, hadd, hall, _⟩ := C99_lexvec menv lower enum henum r o hdim hg hrel hw hbs _ [] hr (by simp; omega) (by simp) (by intro w hw; simp at hw) s next
  obtain rfl := (hall res).1 ht
  obtain ⟨_, _, _, hsh, _⟩ := lexSetup_facts lower enum r o dim hd hw _ [] hr s s' M hM
  refine leavesEmpty_of env input output run fs hin hout henv.1 henv.2.1 henv.2.2 ?_
  have := saveOutcome_empty M.corpus.dic hadd dim (.lexvec M.param) hsh typ o.verbose o.logBatch hv
  rw [e, ← this, ← hd]; rfl

include henum in
/-- **C99 (GloVe command).** In memory likewise; file-backed (the default) the command panics. -/
theorem C99_glove_command (o : GloveOptions F64) (hdim : 0 ≤ o.dim) (hg : 1 ≤ o.goroutines) (hb : o.goroutines < 2 ^ 53)
    (hct : o.countType = "inc".toList) (hso : o.solverType = "sgd".toList ∨ o.solverType = "adagrad".toList) (hv : o.verbose = false ∨ o.logBatch ≠ 0)
    (hrun : RunsGlove lib menv lower enum r o s next typ run (fs.read input)) :
    (o.docInMemory = true → LeavesEmpty env input output run fs) ∧
    (o.docInMemory = false → 1 ≤ o.window → 1 ≤ o.iter → FailsWith env input output run fs (.panic .sliceBounds)) := by
  let _ := lib.math
  obtain ⟨res, ht, e⟩ := hrun
  obtain ⟨dim, hd⟩ := Int.eq_ofNat_of_zero_le hdim
  constructor
  · intro hm
    obtain ⟨M, s', hM, hlen, hall⟩ := C99_glove_memory menv lower enum henum r o hdim hct hso _ hr hg hb s next hm
    obtain rfl := (hall res).1 ht
    obtain ⟨hadd, hsh, _⟩ := C72_glove_shapes lower r o dim hd (.inl hm) _ [] hr s s' M hM
    refine leavesEmpty_of env input output run fs hin hout henv.1 henv.2.1 henv.2.2 ?_
    have := saveOutcome_empty M.corpus.dic hadd dim (.glove M.param) hsh typ o.verbose o.logBatch hv
    rw [e, ← this, ← hd]; rfl
  · intro hm hw hi
    obtain rfl := (C99_glove_file_panics menv lower enum henum r o hdim hct hso _ hr hg hb s next hm hw hi res).1 ht
    exact (command_fails env input output run fs hin hout henv.1 henv.2.1 henv.2.2).2 _ (by rw [e]; rfl)

end commands

/-- **C99 (reading the empty file).** Every query and the console fail on it with an error, not a panic. -/
theorem C99_empty_file (other : Word → Option F64) (fs : FS) (input : Path) (h : fs input = some (.file [])) (args : List Word) (k : Int) (hk : 1 ≤ k) :
    (∃ e, queryExecute other fs false false input args k = .err e) ∧ ∃ e, consoleExecute other fs false false input k = .err e := by
  have hload : load other ⟨fs.read input, false⟩ = .ok [] := by
    have : fs.read input = [] := by unfold FS.read; rw [h]
    rw [this]; rfl
  constructor
  · refine (C79_query_fails_iff other fs false false input args k hk).2.2 ?_
    by_cases ha : args.length = 1
    · obtain ⟨w, rfl⟩ := List.length_eq_one_iff.1 ha
      exact .inr (.inr (.inr (.inr ⟨[], hload, .inr ⟨w, rfl, by simp⟩⟩)))
    · exact .inr (.inl ha)
  · have hc := C79_console_starts_iff other fs false false input k
    cases hx : consoleExecute other fs false false input k with
    | err e => exact ⟨e, rfl⟩
    | panic p => exact absurd hx (hc.1 p)
    | ok cons =>
      obtain ⟨_, _, e, embs, hl, _⟩ := (hc.2 cons).1 hx
      rw [hload] at hl; cases hl

/-! ## Witnesses -/

def emptyFS : FS := fun p => if p = ['i', 'n'] then some (.file [' ', '\n']) else none

theorem emptyFS_readable : Readable ⟨emptyFS.read ['i', 'n'], false⟩ [] := ⟨isWords_fields [' ', '\n'], rfl, by decide⟩

/-- the default options and an input of a blank and a newline: word2vec and LexVec leave the empty file, whatever the schedule and the random numbers -/
example (lib : LibM) (menv : MemEnv F64) (r : σ → F64 × σ) (s : σ) (next : UInt64) (run : List Char → TrainOutcome)
    (hrun : RunsW2V lib menv id r (W2VOptions.default 1) s next [] run (emptyFS.read ['i', 'n'])) : LeavesEmpty exampleEnv ['i', 'n'] ['o'] run emptyFS :=
  C99_word2vec_command lib menv exampleEnv id r s next [] ['i', 'n'] ['o'] emptyFS (by decide) rfl ⟨rfl, rfl, rfl⟩ emptyFS_readable run (W2VOptions.default 1)
    (by show (0 : Int) ≤ 10; omega) (le_refl 1) (by show (1 : Int) < 2 ^ 53; norm_num) (Or.inr rfl) (Or.inl rfl) (.inr (by show (1 : Int) ≤ 10000; omega)) (.inl rfl) hrun

example (lib : LibM) (menv : MemEnv F64) (r : σ → F64 × σ) (s : σ) (next : UInt64) (run : List Char → TrainOutcome)
    (hrun : RunsLex lib menv id id r (LexvecOptions.default 1) s next [] run (emptyFS.read ['i', 'n'])) : LeavesEmpty exampleEnv ['i', 'n'] ['o'] run emptyFS :=
  C99_lexvec_command lib menv exampleEnv id id (fun _ => List.Perm.refl _) r s next [] ['i', 'n'] ['o'] emptyFS (by decide) rfl ⟨rfl, rfl, rfl⟩ emptyFS_readable run (LexvecOptions.default 1)
    (by show (0 : Int) ≤ 10; omega) (le_refl 1) (by show (1 : Int) < 2 ^ 53; norm_num) (Or.inl rfl) (.inr (by show (1 : Int) ≤ 5; omega)) (.inr (by show (1 : Int) ≤ 10000; omega)) (.inl rfl) hrun

/-- GloVe with the default options panics on it, and such an execution exists -/
example (lib : LibM) (menv : MemEnv F64) (r : σ → F64 × σ) (s : σ) (next : UInt64) :
    ∃ run, RunsGlove lib menv id id r (GloveOptions.default 1) s next [] run (emptyFS.read ['i', 'n']) ∧ FailsWith exampleEnv ['i', 'n'] ['o'] run emptyFS (.panic .sliceBounds) := by
  let _ := lib.math
  have ht := (C99_glove_file_panics (F := F64) menv id id (fun _ => List.Perm.refl _) r (GloveOptions.default 1) (by show (0 : Int) ≤ 10; omega) rfl (.inl rfl) _ emptyFS_readable
    (le_refl 1) (by show (1 : Int) < 2 ^ 53; norm_num) s next rfl (by show (1 : Int) ≤ 5; omega) (by show (1 : Int) ≤ 15; omega) _).2 rfl
  have hrun : RunsGlove lib menv id id r (GloveOptions.default 1) s next [] (fun _ => .trainPanic .sliceBounds) (emptyFS.read ['i', 'n']) := ⟨_, ht, rfl⟩
  exact ⟨_, hrun, (C99_glove_command lib menv exampleEnv id id (fun _ => List.Perm.refl _) r s next [] ['i', 'n'] ['o'] emptyFS (by decide) rfl ⟨rfl, rfl, rfl⟩ emptyFS_readable _ (GloveOptions.default 1)
    (by show (0 : Int) ≤ 10; omega) (le_refl 1) (by show (1 : Int) < 2 ^ 53; norm_num) rfl (.inl rfl) (.inl rfl) hrun).2 rfl (by show (1 : Int) ≤ 5; omega) (by show (1 : Int) ≤ 15; omega)⟩

/-- a document with words, all rarer than `MinCount`: `a b` with `MinCount(2)` -/
example : NothingToTrain (-1) 2 [['a'], ['b']] := by unfold NothingToTrain; decide

example [GoMath F] (menv : MemEnv F) (r : σ → F × σ) (s : σ) (next : UInt64) :=
  C99_word2vec menv id r { W2VOptions.default (F := F) 1 with minCount := 2 } (by show (0 : Int) ≤ 10; omega) (le_refl 1) (Or.inr rfl) (Or.inl rfl) (.inr (by show (1 : Int) ≤ 10000; omega))
    ⟨['a', ' ', 'b'], false⟩ [['a'], ['b']] ⟨isWords_fields ['a', ' ', 'b'], rfl, by decide⟩ (by show (2 : Int) + 1 ≤ 2 ^ 53; norm_num)
    (show NothingToTrain (-1) 2 [['a'], ['b']] by unfold NothingToTrain; decide) s next

end Wego.Props
