import Verif.Props.ParallelRace
import Verif.Props.TrainOk

/-! # C95: options without effect -/

namespace Wego.Props
open Wego Wego.Matrix Wego.Prog Spec
variable {F : Type} {σ : Type}

section
variable [GoMath F]

theorem load_counts (cfg : CorpusCfg) (a b : Int) (im : Bool) (p1 p2 : Pass) (w : Option WithCooccurrence) :
    (loadCorpus im { cfg with maxCount := a, minCount := b } p1 p2 w : Res (CorpusState F)) = loadCorpus im cfg p1 p2 w := rfl

theorem gloveSetup_ignored (lower : Word → Word) (r : σ → F × σ) (o : GloveOptions F) (a b c : Int) (t : F) (p1 p2 : Pass) (s : σ) :
    gloveSetup lower r { o with maxCount := a, minCount := b, batchSize := c, subsampleThreshold := t } p1 p2 s = gloveSetup lower r o p1 p2 s := rfl

/-- **C95 (GloVe).** `MaxCount`, `MinCount`, `BatchSize` and `SubsampleThreshold` change nothing: for every document and
under every memory model, `Train` can end in the same ways whatever their values; in particular words outside the count
limits are trained like all others. -/
theorem C95_glove (env : MemEnv F) (lower : Word → Word) (enum : GoMap (BitVec 64) F → List (BitVec 64 × F)) (r : σ → F × σ) (o : GloveOptions F)
    (p : Pass) (s : σ) (next : UInt64) (maxCount minCount batchSize : Int) (threshold : F) (res : Res (GloveModel F)) :
    GloveTrain env lower enum r { o with maxCount := maxCount, minCount := minCount, batchSize := batchSize, subsampleThreshold := threshold } p s next res ↔
      GloveTrain env lower enum r o p s next res := by
  constructor
  · intro h
    cases h with
    | setupErr e h => exact .setupErr e h
    | setupPanic x h => exact .setupPanic x h
    | slicePanic M s' x h hd => exact .slicePanic M s' x h hd
    | panics M s' sl x h hd hi => exact .panics M s' sl x h hd hi
    | done M s' sl mem h hd hi => exact .done (o := o) M s' sl mem h hd hi
  · intro h
    cases h with
    | setupErr e h => exact .setupErr e h
    | setupPanic x h => exact .setupPanic x h
    | slicePanic M s' x h hd => exact .slicePanic M s' x h hd
    | panics M s' sl x h hd hi => exact .panics M s' sl x h hd hi
    | done M s' sl mem h hd hi =>
      exact GloveTrain.done (o := { o with maxCount := maxCount, minCount := minCount, batchSize := batchSize, subsampleThreshold := threshold }) M s' sl mem h hd hi

theorem w2v_same {env : MemEnv F} {lower : Word → Word} {r : σ → F × σ} {o o' : W2VOptions F} {p : Pass} {s : σ} {next : UInt64}
    (h1 : w2vSetup lower r o' p p s = w2vSetup lower r o p p s) (hm : o'.docInMemory = o.docInMemory) (hc : o'.corpus lower = o.corpus lower)
    (hg : o'.goroutines = o.goroutines) (hb : o.docInMemory = true ∨ o'.batchSize = o.batchSize) (hi : o'.iter = o.iter)
    (hmem : ∀ M : W2VModel F, M.mem o' next = M.mem o next) (hr : ∀ (M : W2VModel F) docs, w2vRound M o' docs = w2vRound M o docs)
    (ha : ∀ (M : W2VModel F) mem, M.after o' mem = M.after o mem) (res : Res (W2VModel F)) (h : W2VTrain env lower r o p s next res) :
    W2VTrain env lower r o' p s next res := by
  have hd : ∀ M : W2VModel F, workerDocs o'.docInMemory (o'.corpus lower) M.corpus p o'.goroutines o'.batchSize =
      workerDocs o.docInMemory (o.corpus lower) M.corpus p o.goroutines o.batchSize := by
    intro M
    rw [hm, hc, hg]
    rcases hb with hb | hb
    · rw [hb]; rfl
    · rw [hb]
  have hp : ∀ M : W2VModel F, o.docInMemory = false →
      fsBatchWords (o'.corpus lower) M.corpus.dic p o'.batchSize = fsBatchWords (o.corpus lower) M.corpus.dic p o.batchSize := by
    intro M hf
    rcases hb with hb | hb
    · rw [hb] at hf; cases hf
    · rw [hc, hb]
  cases h with
  | setupErr e h => exact .setupErr e (h1.trans h)
  | setupPanic x h => exact .setupPanic x (h1.trans h)
  | slicePanic M s' x h hs => exact .slicePanic M s' x (h1.trans h) ((hd M).trans hs)
  | panics M s' docs x h hs hit => exact .panics M s' docs x (h1.trans h) ((hd M).trans hs) (by rw [hg, hmem, hi, hr]; exact hit)
  | producerPanic M s' b x h hf hit hx => exact .producerPanic M s' b x (h1.trans h) (hm.trans hf) (by rw [hi]; exact hit) ((hp M hf).trans hx)
  | done M s' docs mem h hx hs hit =>
    rw [← ha]
    refine .done M s' docs mem (h1.trans h) ?_ ((hd M).trans hs) (by rw [hg, hmem, hi, hr]; exact hit)
    cases hf : o.docInMemory with
    | true => exact .inl (hm.trans hf)
    | false =>
      rw [hm, hi, hp M hf]
      exact hx

/-- **C95 (word2vec).** With negative sampling `MaxDepth` changes nothing, with hierarchical softmax `NegativeSampleSize` changes nothing, and in memory
`BatchSize` changes nothing. -/
theorem C95_word2vec (env : MemEnv F) (lower : Word → Word) (r : σ → F × σ) (o : W2VOptions F) (p : Pass) (s : σ) (next : UInt64)
    (x : Int) (res : Res (W2VModel F)) :
    (o.optimizerType = "ns".toList → (W2VTrain env lower r { o with maxDepth := x } p s next res ↔ W2VTrain env lower r o p s next res)) ∧
    (o.optimizerType = "hs".toList → (W2VTrain env lower r { o with negativeSampleSize := x } p s next res ↔ W2VTrain env lower r o p s next res)) ∧
    (o.docInMemory = true → (W2VTrain env lower r { o with batchSize := x } p s next res ↔ W2VTrain env lower r o p s next res)) := by
  have hne : "hs".toList ≠ "ns".toList := by decide
  refine ⟨fun ho => ?_, fun ho => ?_, fun hm => ?_⟩
  · have e : w2vSetup lower r { o with maxDepth := x } p p s = w2vSetup lower r o p p s := by
      unfold w2vSetup
      dsimp only
      simp only [ho, if_true]
      rfl
    exact ⟨w2v_same e.symm rfl rfl rfl (.inr rfl) rfl (fun _ => rfl) (fun _ _ => rfl) (fun _ _ => rfl) res,
      w2v_same e rfl rfl rfl (.inr rfl) rfl (fun _ => rfl) (fun _ _ => rfl) (fun _ _ => rfl) res⟩
  · have e : w2vSetup lower r { o with negativeSampleSize := x } p p s = w2vSetup lower r o p p s := by
      unfold w2vSetup
      dsimp only
      simp only [ho, if_neg hne]
      rfl
    exact ⟨w2v_same e.symm rfl rfl rfl (.inr rfl) rfl (fun _ => rfl) (fun _ _ => rfl) (fun _ _ => rfl) res,
      w2v_same e rfl rfl rfl (.inr rfl) rfl (fun _ => rfl) (fun _ _ => rfl) (fun _ _ => rfl) res⟩
  · exact ⟨w2v_same (o := { o with batchSize := x }) (o' := o) rfl rfl rfl rfl (.inl hm) rfl (fun _ => rfl) (fun _ _ => rfl) (fun _ _ => rfl) res,
      w2v_same (o := o) (o' := { o with batchSize := x }) rfl rfl rfl rfl (.inl hm) rfl (fun _ => rfl) (fun _ _ => rfl) (fun _ _ => rfl) res⟩

/-- **C95 (LexVec).** In memory `BatchSize` changes nothing. -/
theorem C95_lexvec (env : MemEnv F) (lower : Word → Word) (enum : GoMap (BitVec 64) F → List (BitVec 64 × F)) (r : σ → F × σ) (o : LexvecOptions F)
    (p : Pass) (s : σ) (next : UInt64) (x : Int) (hm : o.docInMemory = true) (res : Res (LexModel F)) :
    LexTrain env lower enum r { o with batchSize := x } p s next res ↔ LexTrain env lower enum r o p s next res := by
  have key : ∀ o o' : LexvecOptions F, o.docInMemory = true → o'.docInMemory = true → (∃ x, o' = { o with batchSize := x }) →
      LexTrain env lower enum r o p s next res → LexTrain env lower enum r o' p s next res := by
    rintro o o' hm hm' ⟨x, rfl⟩ h
    have hd : ∀ M : LexModel F, workerDocs o.docInMemory (o.corpus lower) M.corpus p o.goroutines x =
        workerDocs o.docInMemory (o.corpus lower) M.corpus p o.goroutines o.batchSize := by intro M; rw [hm]; rfl
    cases h with
    | setupErr e h => exact .setupErr e h
    | setupPanic y h => exact .setupPanic y h
    | slicePanic M s' y h hs => exact .slicePanic M s' y h ((hd M).trans hs)
    | panics M s' docs y h hs hit hc => exact .panics M s' docs y h ((hd M).trans hs) hit (.inl hm)
    | chanPanic M s' h hf => rw [hm] at hf; cases hf
    | producerPanic M s' b y h hf => rw [hm] at hf; cases hf
    | done M s' docs mem h hx hs hit => exact LexTrain.done (o := { o with batchSize := x }) M s' docs mem h (.inl hm) ((hd M).trans hs) hit (.inl hm)
  exact ⟨key _ o hm hm ⟨o.batchSize, rfl⟩, key o _ hm hm ⟨x, rfl⟩⟩

end

/-! ## A word outside the limits that GloVe trains: the corpus `a b`, `MinCount(5)` -/

theorem single_reach {rand : F → Prop} {path : Nat → List Nat → Prop} (n : Nat) (x : Prog F Unit) (m m' : Mem F) (h : stepN n x m = some (.ret (), m'))
    (obs : List (Prog F Unit)) : Pool.Reach (MemEnv.sc rand path) 1 ⟨m, obs, [x], []⟩ ⟨m', obs, [], []⟩ := by
  refine Pool.Reach.trans (.one (.acquire m obs [] [] [] x (by simp))) ?_
  refine Pool.Reach.trans (stepN_reach n x (.ret ()) m m' h [] [] 1 obs []) ?_
  exact .one (.release m' obs [] [] [])

/-- the options -/
def rareOptions : GloveOptions F64 :=
  { GloveOptions.default 1 with dim := 1, iter := 1, initlr := GoFloat.ofRat (1 / 4), xmax := 1, window := 1, docInMemory := true, solverType := "sgd".toList, minCount := 5 }

/-- `rand.Float64()` always returns 1/2 -/
def rareRand (n : Nat) : F64 × Nat := (GoFloat.ofRat (1 / 2), n + 1)

/-- the document `a b` -/
def rarePass : Pass := ⟨['a', ' ', 'b'], false⟩

/-- all parameters 1/2 -/
def rareParam : Matrix F64 := ⟨List.replicate 8 (GoFloat.ofRat (1 / 2)), 4, 2⟩

def rareMem : Mem F64 :=
  { cell := fun l => match l with
      | .param r c => rareParam.cellAt r c
      | _ => fzero
    next := 0 }

def rareItem : GItem F64 := ⟨0, 1, fzero, GoFloat.ofRat 1⟩

def rareWorker : Prog F64 Unit := gloveWorkerP (sgdP rareOptions.initlr 4 1) 2 [rareItem]

def rareChk : Res (GloveModel F64 × Nat) → Bool
  | .ok (M, _) => decide (M.param = rareParam ∧ M.gradsq = none ∧ M.corpus.dic.len = 2 ∧
      M.corpus.cooc.map (·.encodedMatrix) = some [(encodeBigram 0 1, GoFloat.ofRat 1)])
  | _ => false

theorem rareChk_ok : rareChk (gloveSetup id rareRand rareOptions rarePass rarePass 0) = true := by decide +kernel

theorem rare_steps : (stepN 28 rareWorker rareMem).map (fun r => (match r.1 with | .ret () => true | _ => false) &&
    decide (r.2.cell (.param 1 0) ≠ GoFloat.ofRat (1 / 2))) = some true := by
  decide +kernel

/-- **C95 (filtered words are trained).** The corpus `a b` with `MinCount(5)`: both words are outside the limits, and GloVe's `Train` has an execution that
changes the vector of `b` (float64, any mathematical library with `Log(1) = 0`). -/
theorem C95_glove_trains_filtered (lib : LibM) (hlog : lib.log (GoFloat.ofRat 1) = fzero) : letI := lib.math
    ∃ (o : GloveOptions F64) (r : Nat → F64 × Nat) (p : Pass) (M N : GloveModel F64) (s' : Nat), Readable p [['a'], ['b']] ∧
      outside o.maxCount o.minCount ([['a'], ['b']].count ['b']) ∧ gloveSetup id r o p p 0 = .ok (M, s') ∧
      GloveTrain (MemEnv.sc (fun _ => True) (fun _ q => q = [])) id id r o p 0 0 (.ok N) ∧
      ∃ x y, M.param.getAt 1 0 = .ok x ∧ N.param.getAt 1 0 = .ok y ∧ x ≠ y := by
  let _ := lib.math
  have h := rareChk_ok
  unfold rareChk at h
  split at h
  swap
  · cases h
  next M s' hM =>
  obtain ⟨h1, h2, h3, h4⟩ := of_decide_eq_true h
  obtain ⟨co, hco⟩ : ∃ co, M.corpus.cooc = some co := by
    cases hc : M.corpus.cooc with
    | none => rw [hc] at h4; cases h4
    | some co => exact ⟨co, rfl⟩
  rw [hco] at h4
  have h4 : co.encodedMatrix = [(encodeBigram 0 1, GoFloat.ofRat 1)] := Option.some.inj h4
  have hitems : gloveItems rareOptions.xmax rareOptions.alpha co.encodedMatrix = [rareItem] := by
    rw [h4]
    unfold gloveItems gloveItem
    have hl : GoFloat.lt (GoFloat.ofRat 1 : F64) (GoFloat.ofRat ((rareOptions.xmax : Int) : ℚ)) = false := by decide +kernel
    simp only [List.map_cons, List.map_nil, hl, Bool.false_eq_true, if_false]
    have d1 : (decodeBigram (encodeBigram 0 1)).1.toInt = 0 ∧ (decodeBigram (encodeBigram 0 1)).2.toInt = 1 := by decide
    have hlog' : GoMath.log (GoFloat.ofRat 1 : F64) = fzero := hlog
    rw [d1.1, d1.2, hlog']
    rfl
  have hs : gloveSlices M rareOptions id = .ok [[rareItem]] := by
    unfold gloveSlices
    rw [hco]
    dsimp only [id]
    rw [hitems]
    have hi : indexPerThread rareOptions.goroutines [rareItem].length = .ok [0, 1] := by decide +kernel
    rw [hi, Res.ok_bind]
    rfl
  have hmem : M.mem 0 = rareMem := by
    unfold GloveModel.mem rareMem
    congr 1
    funext l
    cases l with
    | gradsq a b => rw [h2]
    | _ => rw [h1]
  have hwk : (gloveIter M rareOptions [[rareItem]]) = (.ret (), [rareWorker]) := by
    unfold gloveIter GloveModel.step rareWorker
    rw [h2, h3]
    rfl
  have hsc := rare_steps
  obtain ⟨mem, hsched, hcell⟩ : ∃ mem, stepN 28 rareWorker rareMem = some (.ret (), mem) ∧ mem.cell (.param 1 0) ≠ GoFloat.ofRat (1 / 2) := by
    cases hc : stepN 28 rareWorker rareMem with
    | none => rw [hc] at hsc; cases hsc
    | some q =>
      obtain ⟨q, mem⟩ := q
      rw [hc] at hsc
      have hsc := Option.some.inj hsc
      rw [Bool.and_eq_true] at hsc
      dsimp only at hsc
      cases q with
      | ret u => exact ⟨mem, rfl, of_decide_eq_true hsc.2⟩
      | _ => cases hsc.1
  refine ⟨rareOptions, rareRand, rarePass, M, M.after rareOptions mem, s', ?_, ?_, hM, .done M s' _ mem hM hs ?_, ?_⟩
  · exact ⟨isWords_fields ['a', ' ', 'b'], rfl, by decide⟩
  · right; decide
  · show Pool.Iters _ 1 (M.mem 0) [] [gloveIter M rareOptions [[rareItem]]] mem
    rw [hwk, hmem]
    exact .cons _ _ _ _ _ _ _ _ (single_reach 28 _ _ _ hsched _) (.nil _ _)
  · have hsh := matrix_shaped mem .param (M.corpus.dic.len * 2) (rareOptions.dim.toNat + 1)
    have hv := hsh.getAt_val (i := 1) (j := 0) (by rw [h3]; omega) (by show 0 < 1 + 1; omega)
    rw [matrix_val mem .param (by rw [h3]; omega) (by show 0 < 1 + 1; omega)] at hv
    refine ⟨GoFloat.ofRat (1 / 2), _, ?_, hv, fun he => hcell he.symm⟩
    rw [h1]
    decide +kernel

end Wego.Props
