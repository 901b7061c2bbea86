import Verif.Proofs.Cutting
import Verif.Props.WholeTrain

/-! # C92: how the document is cut into pieces (`Goroutines`, `BatchSize`, `DocInMemory`) -/

namespace Wego.Props
open Wego Wego.Matrix Wego.Prog Spec
variable {F : Type} {σ : Type}

section lexvec
variable [GoMath F] (lower : Word → Word) (enum : GoMap (BitVec 64) F → List (BitVec 64 × F)) (r : σ → F × σ)
  (o : LexvecOptions F) (hdim : 0 ≤ o.dim) (hw1 : 1 ≤ o.window) (hbs : o.docInMemory = true ∨ 1 ≤ o.batchSize) (p : Pass) (ws : List Word) (h : Readable p ws)
  (hg : 1 ≤ o.goroutines) (hb : (ws.length : Int) + o.goroutines ≤ 2 ^ 53) (env : MemEnv F) (s : σ) (next : UInt64)
include hdim hw1 hbs h hg hb

/-- **C92 (refuted, LexVec).** With a file-backed corpus and `BatchSize(1)`, or an in-memory corpus and more goroutines than words inside the count limits, training changes
nothing at all, whatever the document, the number of iterations, the schedule and the memory model: every model that `Train` returns is the initial one. -/
theorem C92_refuted_lexvec (hcut : if o.docInMemory then ((trainSeq o.maxCount o.minCount (ws.map (o.corpus lower).norm)).length : Int) < o.goroutines else o.batchSize = 1)
    (N : LexModel F) (hN : LexTrain env lower enum r o p s next (.ok N)) : ∃ s', lexSetup lower enum r o p p s = .ok (N, s') := by
  cases hN with
  | done M s' docs mem hM hp hd hi =>
    obtain ⟨dim, hdm⟩ := Int.eq_ofNat_of_zero_le hdim
    obtain ⟨f1, f2, f3, f4, f5⟩ := lexSetup_facts lower enum r o dim hdm (Or.inr hw1) p ws h s s' M hM
    obtain ⟨docs', hd', hpc⟩ := workerDocs_pieces o.docInMemory (o.corpus lower) M.corpus p ws h f1 f3 o.goroutines o.batchSize (by omega) hb hbs
    rw [hd] at hd'; obtain rfl := Res.ok.inj hd'
    have hsm := hpc.small hcut
    have hfr := Pool.iters_frame (W := fun l => l = .lr) (np := fun _ => True) hi (by simp) (by
      intro q hq
      rw [List.eq_of_mem_replicate hq]
      refine ⟨observerP_ok (W := fun l => l = .lr) _ (.inl fun _ => trivial) rfl _, fun t ht => ?_⟩
      obtain ⟨d, hdd, rfl⟩ := List.mem_map.1 ht
      exact lexWorkerP_small _ d (hsm d hdd))
    have hcol : o.dim.toNat = dim := by rw [hdm]; simp
    have : MatAt .param mem M.param (M.corpus.dic.len * 2) dim := ⟨f4, fun i hi j hj => by
      rw [hfr _ (by simp)]; simp only [LexModel.mem]; exact cellAt_eq f4 hi hj⟩
    refine ⟨s', ?_⟩
    rw [hM]
    simp only [LexModel.after, hcol, this.matrix]

end lexvec

section word2vec
variable [GoMath F] (lower : Word → Word) (r : σ → F × σ)
  (o : W2VOptions F) (hdim : 0 ≤ o.dim) (hbs : o.docInMemory = true ∨ 1 ≤ o.batchSize) (p : Pass) (ws : List Word) (h : Readable p ws)
  (hg : 1 ≤ o.goroutines) (hb : (ws.length : Int) + o.goroutines ≤ 2 ^ 53) (env : MemEnv F) (s : σ) (next : UInt64)
include hdim hbs h hg hb

/-- **C92 (refuted, word2vec).** The same for word2vec: the word vectors of every model that `Train` returns are the initial ones; with skip-gram the context vectors too. -/
theorem C92_refuted_word2vec (hcut : if o.docInMemory then ((trainSeq o.maxCount o.minCount (ws.map (o.corpus lower).norm)).length : Int) < o.goroutines else o.batchSize = 1)
    (N : W2VModel F) (hN : W2VTrain env lower r o p s next (.ok N)) :
    ∃ M s', w2vSetup lower r o p p s = .ok (M, s') ∧ N.param = M.param ∧ (M.skipGram = true → N = M) := by
  cases hN with
  | done M s' docs mem hM hp hd hi =>
    obtain ⟨dim, hdm⟩ := Int.eq_ofNat_of_zero_le hdim
    obtain ⟨f1, f2, f3, ⟨f4, f4'⟩, f5, f6, f7⟩ := w2vSetup_facts lower r o dim hdm p ws h s s' M hM
    obtain ⟨docs', hd', hpc⟩ := workerDocs_pieces o.docInMemory (o.corpus lower) M.corpus p ws h f1 f3 o.goroutines o.batchSize (by omega) hb hbs
    rw [hd] at hd'; obtain rfl := Res.ok.inj hd'
    have hsm := hpc.small hcut
    have hcol : o.dim.toNat = dim := by rw [hdm]; simp
    have hmem := workerDocs_mem o.docInMemory (o.corpus lower) M.corpus p ws h f2 f1 f3 _ _ hbs docs hd
    have hlen : M.corpus.dic.len = (ws.map (o.corpus lower).norm).dedup.length := f2.len_eq
    have hlen' : (M.shared o M.table).dim = dim := by simp [W2VModel.shared, hdm]
    have hopt : OptimOk env (fun l => ∀ r c, l ≠ .param r c) (fun _ => True) (M.shared o M.table).dim M.corpus.dic.len (M.kind.prog (M.shared o M.table)) := by
      unfold W2VModel.kind
      cases hopt : M.opt with
      | ns ng => exact nsOptimP_ok (M.shared o M.table) (.inl trivial) (.inl fun _ => trivial) (by simp) _
      | hs h =>
        obtain ⟨h1, h2⟩ := f7 h hopt
        have := hsOptimP_ok (env := env) (W := fun l => ∀ r c, l ≠ .param r c) (np := fun _ => True) (M.shared o M.table) (treeShape h) (.inl trivial) (by
          intro n
          rw [hlen']
          simp only [treeShape]
          cases hn : h.arena[n]? with
          | none => simp
          | some x => simpa using h1 x (List.mem_of_getElem? hn)) (by simp)
        rw [show (treeShape h).words = M.corpus.dic.len from h2] at this
        exact this
    have hP : ∀ W : Loc → Prop, W .lr → (∀ d ∈ docs, (w2vWorkerP (M.shared o M.table) M.skipGram (M.kind.prog (M.shared o M.table)) d).Ok env W (fun _ => True) (fun _ => True)) →
        ∀ l, ¬ W l → mem.cell l = (M.mem o next).cell l := by
      intro W hW hall
      refine Pool.iters_frame (W := W) (np := fun _ => True) hi (by simp) ?_
      intro q hq
      rw [List.eq_of_mem_replicate hq]
      refine ⟨observerP_ok _ (.inl fun _ => trivial) hW _, fun t ht => ?_⟩
      obtain ⟨d, hdd, rfl⟩ := List.mem_map.1 ht
      exact hall d hdd
    have hfr := hP (fun l => ∀ r c, l ≠ .param r c) (by simp) (by
      intro d hdd
      cases M.skipGram with
      | true => exact w2vWorkerP_small _ _ d (hsm d hdd)
      | false => exact w2vWorkerP_small_cbow _ _ d (hsm d hdd) (fun id hid => by rw [hlen]; exact mem_trainSeq_lt _ _ _ id (hmem d hdd id hid)) hopt)
    have hmat : MatAt .param mem M.param M.corpus.dic.len dim := ⟨f4, fun i hi j hj => by
      rw [hfr _ (by simp)]; simp only [W2VModel.mem]; exact cellAt_eq f4 hi hj⟩
    refine ⟨M, s', hM, by simp only [W2VModel.after, hcol, hmat.matrix], fun hsg => ?_⟩
    have hfr2 := hP (fun l => l = .lr) rfl (fun d hdd => by rw [hsg]; exact w2vWorkerP_small _ _ d (hsm d hdd))
    simp only [W2VModel.after, hcol, hmat.matrix]
    rcases M with ⟨c, P, sam, sg, opt⟩
    cases opt with
    | hs h => rfl
    | ns ng =>
      have hc : Shaped ng.ctx c.dic.len dim := f4' ng rfl
      have : MatAt .ctx mem ng.ctx c.dic.len dim := ⟨hc, fun i hi j hj => by
        rw [hfr2 _ (by simp)]; simp only [W2VModel.mem]; exact cellAt_eq hc hi hj⟩
      simp only [this.matrix]

end word2vec

/-! ## one piece: both corpora give the same results -/

/-- the model that is trained does not depend on the kind of corpus -/
theorem w2vSetup_corpora [GoMath F] (lower : Word → Word) (r : σ → F × σ) (o : W2VOptions F) (p : Pass) (ws : List Word) (h : Readable p ws) (s : σ) :
    ∃ cm cf : CorpusState F, cm.dic = cf.dic ∧ cm.maxLen = cf.maxLen ∧
      (∀ M s', w2vSetup lower r { o with docInMemory := true } p p s = .ok (M, s') →
        M.corpus = cm ∧ w2vSetup lower r { o with docInMemory := false } p p s = .ok ({ M with corpus := cf }, s')) ∧
      (∀ M s', w2vSetup lower r { o with docInMemory := false } p p s = .ok (M, s') →
        M.corpus = cf ∧ w2vSetup lower r { o with docInMemory := true } p p s = .ok ({ M with corpus := cm }, s')) := by
  obtain ⟨cm, cf, h1, h2, h3, h4, _⟩ := C13_corpora_agree (F := F) (o.corpus lower) p ws h 1 (le_refl _)
  refine ⟨cm, cf, h3, h4, ?_, ?_⟩
  · intro M s' hM
    unfold w2vSetup at hM ⊢
    generalize (sigTable : List F) = tb at hM ⊢
    have e1 : loadCorpus (F := F) true (o.corpus lower) p p none = .ok cm := h1
    have e2 : loadCorpus (F := F) false (o.corpus lower) p p none = .ok cf := h2
    simp only [W2VOptions.corpus] at e1 e2 hM ⊢
    rw [e1, Res.ok_bind] at hM
    rw [e2, Res.ok_bind, ← h3]
    rw [Res.bind_eq_ok] at hM
    obtain ⟨ps, h5, hM⟩ := hM
    rw [Res.bind_eq_ok] at hM
    obtain ⟨sm, h6, hM⟩ := hM
    rw [Res.bind_eq_ok] at hM
    obtain ⟨sg, h7, hM⟩ := hM
    rw [h5, Res.ok_bind, h6, Res.ok_bind, h7, Res.ok_bind]
    split at hM
    · next hns =>
      rw [Res.bind_eq_ok] at hM
      obtain ⟨cs, h8, hM⟩ := hM
      cases hM
      exact ⟨rfl, by rw [if_pos hns, h8, Res.ok_bind]⟩
    · next hns =>
      split at hM
      · next hhs =>
        rw [Res.bind_eq_ok] at hM
        obtain ⟨t, h8, hM⟩ := hM
        cases hM
        exact ⟨rfl, by rw [if_neg hns, if_pos hhs, h8, Res.ok_bind]⟩
      · cases hM
  · intro M s' hM
    unfold w2vSetup at hM ⊢
    generalize (sigTable : List F) = tb at hM ⊢
    have e1 : loadCorpus (F := F) true (o.corpus lower) p p none = .ok cm := h1
    have e2 : loadCorpus (F := F) false (o.corpus lower) p p none = .ok cf := h2
    simp only [W2VOptions.corpus] at e1 e2 hM ⊢
    rw [e2, Res.ok_bind] at hM
    rw [e1, Res.ok_bind, h3]
    rw [Res.bind_eq_ok] at hM
    obtain ⟨ps, h5, hM⟩ := hM
    rw [Res.bind_eq_ok] at hM
    obtain ⟨sm, h6, hM⟩ := hM
    rw [Res.bind_eq_ok] at hM
    obtain ⟨sg, h7, hM⟩ := hM
    rw [h5, Res.ok_bind, h6, Res.ok_bind, h7, Res.ok_bind]
    split at hM
    · next hns =>
      rw [Res.bind_eq_ok] at hM
      obtain ⟨cs, h8, hM⟩ := hM
      cases hM
      exact ⟨rfl, by rw [if_pos hns, h8, Res.ok_bind]⟩
    · next hns =>
      split at hM
      · next hhs =>
        rw [Res.bind_eq_ok] at hM
        obtain ⟨t, h8, hM⟩ := hM
        cases hM
        exact ⟨rfl, by rw [if_neg hns, if_pos hhs, h8, Res.ok_bind]⟩
      · cases hM

section
variable [GoMath F] (lower : Word → Word) (r : σ → F × σ)
  (o : W2VOptions F) (hdim : 0 ≤ o.dim) (p : Pass) (ws : List Word) (h : Readable p ws)
  (hg : o.goroutines = 1) (hlen : (ws.length : Int) < 2 ^ 53)
  (hbs : ((trainSeq o.maxCount o.minCount (ws.map (o.corpus lower).norm)).length : Int) < o.batchSize)
  (env : MemEnv F) (s : σ) (next : UInt64)
include hdim h hg hlen hbs

/-- **C92 (partial, word2vec).** With `Goroutines(1)` and a `BatchSize` above the number of words inside the count limits the choice of the corpus makes no difference: the in-memory
and the file-backed `Train` have the same possible results (word matrix, optimizer with context matrix, dictionary). Missing: documents cut into several pieces, where the
results do differ (see the refutations), and GloVe and LexVec, whose two corpora count co-occurrences differently (C15). -/
theorem C92_word2vec_partial (P : Matrix F) (opt : W2VOptimizer F) (dic : Dictionary) :
    (∃ N, W2VTrain env lower r { o with docInMemory := true } p s next (.ok N) ∧ N.param = P ∧ N.opt = opt ∧ N.corpus.dic = dic) ↔
    (∃ N, W2VTrain env lower r { o with docInMemory := false } p s next (.ok N) ∧ N.param = P ∧ N.opt = opt ∧ N.corpus.dic = dic) := by
  obtain ⟨cm, cf, c1, c2, c3, c4⟩ := w2vSetup_corpora lower r o p ws h s
  obtain ⟨dim, hdm⟩ := Int.eq_ofNat_of_zero_le hdim
  set seq := trainSeq o.maxCount o.minCount (ws.map (o.corpus lower).norm) with hseq
  have hmem : ∀ M s', w2vSetup lower r { o with docInMemory := true } p p s = .ok (M, s') →
      workerDocs true (o.corpus lower) M.corpus p o.goroutines o.batchSize = .ok [seq] := by
    intro M s' hM
    obtain ⟨f1, f2, f3, -⟩ := w2vSetup_facts lower r { o with docInMemory := true } dim hdm p ws h s s' M hM
    obtain ⟨docs, hd, hpc⟩ := workerDocs_pieces true (o.corpus lower) M.corpus p ws h f1 f3 o.goroutines o.batchSize (by omega) (by omega) (.inl rfl)
    rw [hg] at hpc
    rw [hd, hpc.one]; rfl
  have hfile : ∀ M s', w2vSetup lower r { o with docInMemory := false } p p s = .ok (M, s') →
      workerDocs false (o.corpus lower) M.corpus p o.goroutines o.batchSize = .ok [seq] ∧ (fsBatchWords (o.corpus lower) M.corpus.dic p o.batchSize).2 = .next := by
    intro M s' hM
    obtain ⟨f1, f2, f3, -⟩ := w2vSetup_facts lower r { o with docInMemory := false } dim hdm p ws h s s' M hM
    obtain ⟨docs, hd, hpc⟩ := workerDocs_pieces false (o.corpus lower) M.corpus p ws h f1 (by simp) o.goroutines o.batchSize (by omega) (by omega) (.inr (by omega))
    refine ⟨by rw [hd, hpc.batch hbs]; rfl, ?_⟩
    obtain ⟨b, hb⟩ := Int.eq_ofNat_of_zero_le (by omega : 0 ≤ o.batchSize)
    obtain ⟨full, last, e, _⟩ := C12_batches (o.corpus lower) p ws h M.corpus.dic f1 b (by omega)
    rw [hb, e]
  have key : ∀ (M : W2VModel F) (c c' : CorpusState F) (b b' : Bool) (docs : List (List Nat)), c.dic = c'.dic → c.maxLen = c'.maxLen →
      w2vRound { M with corpus := c } { o with docInMemory := b } docs = w2vRound { M with corpus := c' } { o with docInMemory := b' } docs := by
    intro M c c' b b' docs e1 e2
    simp only [w2vRound, W2VModel.lrCfg, W2VModel.shared, W2VModel.table, W2VModel.kind, e1, e2]
  constructor
  · rintro ⟨N, hN, rfl, rfl, rfl⟩
    cases hN with
    | done M s' docs mem hM hp hd hi =>
      obtain ⟨e1, e2⟩ := c3 M s' hM
      obtain rfl : docs = [seq] := by
        have := hmem M s' hM
        have hd' : workerDocs true (o.corpus lower) M.corpus p o.goroutines o.batchSize = .ok docs := hd
        rw [hd'] at this
        exact Res.ok.inj this
      obtain ⟨g1, g2⟩ := hfile _ _ e2
      refine ⟨_, .done _ s' [seq] mem e2 (.inr (.inr g2)) g1 ?_, ?_⟩
      · have hround : w2vRound { M with corpus := cf } { o with docInMemory := false } [seq] = w2vRound M { o with docInMemory := true } [seq] := by
          have := key M cf cm false true [seq] c1.symm c2.symm
          rw [this, ← e1]
        rw [hround]; exact hi
      · simp only [W2VModel.after, ← c1, ← e1]
        exact ⟨trivial, trivial, trivial⟩
  · rintro ⟨N, hN, rfl, rfl, rfl⟩
    cases hN with
    | done M s' docs mem hM hp hd hi =>
      obtain ⟨e1, e2⟩ := c4 M s' hM
      obtain rfl : docs = [seq] := by
        have := (hfile M s' hM).1
        have hd' : workerDocs false (o.corpus lower) M.corpus p o.goroutines o.batchSize = .ok docs := hd
        rw [hd'] at this
        exact Res.ok.inj this
      refine ⟨_, .done _ s' [seq] mem e2 (.inl rfl) (hmem _ _ e2) ?_, ?_⟩
      · have hround : w2vRound { M with corpus := cm } { o with docInMemory := true } [seq] = w2vRound M { o with docInMemory := false } [seq] := by
          have := key M cm cf true false [seq] c1 c2
          rw [this, ← e1]
        rw [hround]; exact hi
      · simp only [W2VModel.after, c1, ← e1]
        exact ⟨trivial, trivial, trivial⟩

end

/-! ## the document `a b` with one goroutine and with three -/

/-- LexVec with one component per vector, window 1, no negative samples, the co-occurrence count as relation -/
def cutOptions (g : Int) : LexvecOptions F64 :=
  { LexvecOptions.default g with
    dim := 1, iter := 1, initlr := GoFloat.ofRat (1 / 4), minLR := GoFloat.ofRat (1 / 4), negativeSampleSize := 0, window := 1, docInMemory := true,
    relationType := "co".toList, minCount := 1 }

/-- `rand.Float64()` returns 0 -/
def cutRand (n : Nat) : F64 × Nat := (GoFloat.ofRat 0, n + 1)

/-- the document -/
def cutPass : Pass := ⟨['a', ' ', 'b'], false⟩

theorem cut_readable : Readable cutPass [['a'], ['b']] := ⟨isWords_fields ['a', ' ', 'b'], rfl, by decide⟩

/-- the relation `co` needs no mathematical library -/
theorem lexItems_co (lib lib' : LibM) (dic : Dictionary) (total : Nat) (smooth : F64) (em : List (BitVec 64 × F64)) :
    (letI := lib.math; lexItems dic total smooth "co" em) = (letI := lib'.math; lexItems dic total smooth "co" em) := rfl

def noLib : LibM := ⟨id, id, fun x _ => x⟩

/-- one pass of the sequential algorithm moves the vectors -/
def cutChk : Res (LexModel F64 × Nat) → Bool
  | .ok (M, _) => match lexSeq (lexCfg M (cutOptions 1) (fun _ => GoFloat.ofRat (1 / 4))) M.items M.samples (fun _ => GoFloat.ofRat 0) [[0, 1]] (⟨M.param, 0, 0⟩, 0) with
    | .ok (t, _) => decide (t.param ≠ M.param)
    | _ => false
  | _ => false

theorem cutChk_ok : (letI := noLib.math; cutChk (lexSetup id id cutRand (cutOptions 1) cutPass cutPass 0)) = true := by decide +kernel

theorem lexSetup_goroutines [GoMath F] (lower : Word → Word) (enum : GoMap (BitVec 64) F → List (BitVec 64 × F)) (r : σ → F × σ) (o : LexvecOptions F) (g : Int)
    (p1 p2 : Pass) (s : σ) : lexSetup lower enum r { o with goroutines := g } p1 p2 s = lexSetup lower enum r o p1 p2 s := rfl

theorem lexSetup_co (lib lib' : LibM) (lower : Word → Word) (enum : GoMap (BitVec 64) F64 → List (BitVec 64 × F64)) (r : σ → F64 × σ) (o : LexvecOptions F64)
    (ho : String.ofList o.relationType = "co") (p1 p2 : Pass) (s : σ) : (letI := lib.math; lexSetup lower enum r o p1 p2 s) = (letI := lib'.math; lexSetup lower enum r o p1 p2 s) := by
  unfold lexSetup
  rw [ho]
  simp only [lexItems_co lib lib']

theorem cut_setup (lib : LibM) (g : Int) : (letI := lib.math; lexSetup id id cutRand (cutOptions g) cutPass cutPass 0) =
    (letI := noLib.math; lexSetup id id cutRand (cutOptions 1) cutPass cutPass 0) :=
  Eq.trans (@lexSetup_goroutines _ _ lib.math id id cutRand (cutOptions 1) g cutPass cutPass 0)
    (lexSetup_co lib noLib id id cutRand (cutOptions 1) (by simp [cutOptions]) cutPass cutPass 0)

theorem cut_valid (lib : LibM) (g : Int) (h1 : 1 ≤ g) (h2 : g ≤ 3) : letI := lib.math
    let o := cutOptions g
    0 ≤ o.dim ∧ KnownRelation o.relationType ∧ 1 ≤ o.window ∧ o.window < 2 ^ 62 ∧ o.updateLRBatch ≠ 0 ∧ (o.docInMemory = true ∨ 1 ≤ o.batchSize) ∧
      ([['a'], ['b']].map (o.corpus id).norm).dedup.length ≤ 2 ^ 32 ∧ 1 ≤ o.goroutines ∧ ((([['a'], ['b']] : List Word).length : Int)) + o.goroutines ≤ 2 ^ 53 := by
  refine ⟨by show (0 : Int) ≤ 1; omega, by show KnownRelation "co".toList; unfold KnownRelation; decide, by show (1 : Int) ≤ 1; omega, by show (1 : Int) < 2 ^ 62; omega,
    by show (100000 : Int) ≠ 0; omega, .inl rfl, ?_, h1, by show (2 : Int) + g ≤ 2 ^ 53; omega⟩
  rw [show ([['a'], ['b']].map ((cutOptions g).corpus id).norm).dedup.length = 2 from (by decide : ([['a'], ['b']].map id).dedup.length = 2)]
  omega

/-- **C92 (refuted).** The document `a b` in memory, float64, whatever the mathematical library: with `Goroutines(1)` every execution of `Train` moves the vectors, with
`Goroutines(3)` none does, all other options being equal. -/
theorem C92_refuted (lib : LibM) : letI := lib.math
    let env : MemEnv F64 := MemEnv.sc (fun v => v = GoFloat.ofRat 0) (fun _ q => q = [])
    ∃ (M : LexModel F64) (s' : Nat), (∀ g, lexSetup id id cutRand (cutOptions g) cutPass cutPass 0 = .ok (M, s')) ∧
      (∀ N, LexTrain env id id cutRand (cutOptions 1) cutPass 0 0 (.ok N) → N.param ≠ M.param) ∧
      (∀ N, LexTrain env id id cutRand (cutOptions 3) cutPass 0 0 (.ok N) → N.param = M.param) ∧
      (∃ N, LexTrain env id id cutRand (cutOptions 1) cutPass 0 0 (.ok N)) ∧ ∃ N, LexTrain env id id cutRand (cutOptions 3) cutPass 0 0 (.ok N) := by
  let _ := lib.math
  intro env
  have htot : env.Total := MemEnv.sc_total (rand := fun v => v = GoFloat.ofRat 0) ⟨GoFloat.ofRat 0, rfl⟩ (fun _ => [])
  obtain ⟨v1, v2, v3, v4, v5, v6, v7, v8, v9⟩ := cut_valid lib 1 (by omega) (by omega)
  obtain ⟨u1, u2, u3, u4, u5, u6, u7, u8, u9⟩ := cut_valid lib 3 (by omega) (by omega)
  obtain ⟨M, s', docs, hM, hpc, hall, _⟩ := C76_train_lexvec id id (fun _ => List.Perm.refl _) cutRand (cutOptions 1) v1 v2 v3 v4 v5 v6 cutPass _ cut_readable (by simp) v7 rfl v9
    0 0 (fun v => v = GoFloat.ofRat 0) ⟨_, rfl⟩ (fun _ => [])
  have hdocs : docs = [[0, 1]] := by
    have : trainSeq (cutOptions 1).maxCount (cutOptions 1).minCount ([['a'], ['b']].map ((cutOptions 1).corpus id).norm) = [0, 1] := by decide
    rw [this] at hpc
    exact Pieces.one hpc
  have hchk : cutChk (.ok (M, s')) = true := by
    have := cutChk_ok
    rw [← cut_setup lib 1, hM] at this
    exact this
  refine ⟨M, s', fun g => (cut_setup lib g).trans ((cut_setup lib 1).symm.trans hM), ?_, ?_, ?_, ?_⟩
  · intro N hN
    obtain ⟨orders, rands, lrs, e1, e2, e3, e4, t, k, e5, e6⟩ := hall _ hN
    obtain rfl : N = { M with param := t.param } := Res.ok.inj e6
    obtain rfl : rands = fun _ => GoFloat.ofRat 0 := funext e3
    obtain rfl : lrs = fun _ => GoFloat.ofRat (1 / 4) := by
      funext n
      rcases e4 n with h | h | ⟨cnt, c1, c2, c3, -⟩
      · exact h
      · exact h
      · exfalso
        subst hdocs
        have c2 : cnt ≤ 2 := c2
        have c3 : (cnt : Int).tmod 100000 = 0 := c3
        rw [Int.tmod_eq_of_lt (by omega) (by omega)] at c3
        omega
    obtain ⟨d, rfl⟩ := List.length_eq_one_iff.1 (show orders.length = 1 from e1)
    have hd : d = [[0, 1]] := by
      have := e2 d (by simp)
      rw [hdocs] at this
      exact List.perm_singleton.1 this
    subst hd
    unfold cutChk at hchk
    dsimp only at hchk
    rw [show ([[[0, 1]]] : List (List (List Nat))).flatten = [[0, 1]] from rfl] at e5
    rw [e5] at hchk
    exact of_decide_eq_true hchk
  · intro N hN
    obtain ⟨s'', e⟩ := C92_refuted_lexvec id id cutRand (cutOptions 3) u1 u3 u6 cutPass _ cut_readable u8 u9 env 0 0 (by
      show ((trainSeq (cutOptions 3).maxCount (cutOptions 3).minCount ([['a'], ['b']].map ((cutOptions 3).corpus id).norm)).length : Int) < 3
      have : trainSeq (cutOptions 3).maxCount (cutOptions 3).minCount ([['a'], ['b']].map ((cutOptions 3).corpus id).norm) = [0, 1] := by decide
      rw [this]; decide) N hN
    rw [(cut_setup lib 3).trans ((cut_setup lib 1).symm.trans hM)] at e
    cases e; rfl
  · exact (C84_lexvec_train id id (fun _ => List.Perm.refl _) cutRand (cutOptions 1) v1 v2 v3 (by omega) v5 v6 cutPass _ cut_readable (by simp) v7 v8 v9 env 0 0).2 htot
  · exact (C84_lexvec_train id id (fun _ => List.Perm.refl _) cutRand (cutOptions 3) u1 u2 u3 (by omega) u5 u6 cutPass _ cut_readable (by simp) u7 u8 u9 env 0 0).2 htot

/-- The hypotheses are met for word2vec: `a b a` with four goroutines in memory, or with batches of one word; such runs exist. -/
example (im sg ns : Bool) (r : σ → ℝ × σ) (s : σ) (next : UInt64) :
    let o : W2VOptions ℝ := { W2VOptions.default 4 with docInMemory := im, minCount := 1, batchSize := 1, modelType := if sg then "skipgram".toList else "cbow".toList,
                                                        optimizerType := if ns then "ns".toList else "hs".toList }
    let p : Pass := ⟨['a', ' ', 'b', ' ', 'a'], false⟩
    let env : MemEnv ℝ := MemEnv.sc (fun _ => True) (fun _ q => q = [])
    (if o.docInMemory then ((trainSeq o.maxCount o.minCount ([['a'], ['b'], ['a']].map (o.corpus id).norm)).length : Int) < o.goroutines else o.batchSize = 1) ∧
      Readable p [['a'], ['b'], ['a']] ∧ ∃ N M s', W2VTrain env id r o p s next (.ok N) ∧ w2vSetup id r o p p s = .ok (M, s') ∧ N.param = M.param := by
  intro o p env
  have hp : Readable p [['a'], ['b'], ['a']] := ⟨isWords_fields ['a', ' ', 'b', ' ', 'a'], rfl, by decide⟩
  have hcut : if o.docInMemory then ((trainSeq o.maxCount o.minCount ([['a'], ['b'], ['a']].map (o.corpus id).norm)).length : Int) < o.goroutines else o.batchSize = 1 := by
    have : ((trainSeq o.maxCount o.minCount ([['a'], ['b'], ['a']].map (o.corpus id).norm)).length : Int) ≤ 3 := by
      unfold trainSeq
      rw [List.length_map]
      have h1 := List.length_filter_le (fun w => decide ¬ outside o.maxCount o.minCount (([['a'], ['b'], ['a']].map (o.corpus id).norm).count w)) ([['a'], ['b'], ['a']].map (o.corpus id).norm)
      have h2 : ([['a'], ['b'], ['a']].map (o.corpus id).norm).length = 3 := by simp
      rw [h2] at h1
      exact_mod_cast h1
    split
    · exact lt_of_le_of_lt this (by show (3 : Int) < 4; omega)
    · rfl
  have hbs : o.docInMemory = true ∨ 1 ≤ o.batchSize := .inr (by show (1 : Int) ≤ 1; omega)
  have hb : ((([['a'], ['b'], ['a']] : List Word).length : Int)) + o.goroutines ≤ 2 ^ 53 := by show (3 : Int) + 4 ≤ 2 ^ 53; norm_num
  obtain ⟨N, hN⟩ := (C84_word2vec_train id r o (by show (0 : Int) ≤ 10; omega) (by cases sg <;> simp [o]) (by cases ns <;> simp [o]) (by show (1 : Int) ≤ 5; omega)
    (by show (5 : Int) < 2 ^ 63; omega) (by show (100000 : Int) ≠ 0; omega) hbs p _ hp (by
      rw [show ([['a'], ['b'], ['a']].map (o.corpus id).norm).dedup.length = 2 from (by decide : ([['a'], ['b'], ['a']].map id).dedup.length = 2)]; omega)
    (by show (1 : Int) ≤ 4; omega) hb env s next).2 (MemEnv.sc_total ⟨0, trivial⟩ (fun _ => []))
  obtain ⟨M, s', e1, e2, _⟩ := C92_refuted_word2vec id r o (by show (0 : Int) ≤ 10; omega) hbs p _ hp (by show (1 : Int) ≤ 4; omega) hb env s next hcut N hN
  exact ⟨hcut, hp, N, M, s', hN, e1, e2⟩

/-- The hypotheses of the partial theorem are met by the default batch size. -/
example : ((trainSeq (W2VOptions.default (F := ℝ) 1).maxCount (W2VOptions.default (F := ℝ) 1).minCount
    ([['a'], ['b'], ['a']].map ((W2VOptions.default (F := ℝ) 1).corpus id).norm)).length : Int) < (W2VOptions.default (F := ℝ) 1).batchSize := by
  have := List.length_filter_le (fun w => decide ¬ outside (W2VOptions.default (F := ℝ) 1).maxCount (W2VOptions.default (F := ℝ) 1).minCount
    (([['a'], ['b'], ['a']].map ((W2VOptions.default (F := ℝ) 1).corpus id).norm).count w)) ([['a'], ['b'], ['a']].map ((W2VOptions.default (F := ℝ) 1).corpus id).norm)
  unfold trainSeq
  rw [List.length_map]
  rw [List.length_map] at this
  have h2 : (W2VOptions.default (F := ℝ) 1).batchSize = 10000 := rfl
  rw [h2]
  have h3 : ([['a'], ['b'], ['a']] : List Word).length = 3 := rfl
  rw [h3] at this
  omega

end Wego.Props
