import Verif.Proofs.Train
import Verif.Props.WordVector
import Verif.Props.Corpus

/-! # C36: invalid types are rejected; C39 (loading); C72: valid options start training

`Train` is the sequential set-up (`w2vSetup`, `gloveSetup`, `lexSetup`) followed by the training loop, here any function
`loop` of the model the set-up built: an error of the set-up is the result of `Train` and the loop does not run. -/

namespace Wego.Props
open Wego Wego.Spec Wego.Matrix

variable {F : Type} {σ : Type}

/-- `Train`: the set-up, then the training loop. -/
def trainWith {M : Type} (setup : Res (M × σ)) (loop : M × σ → Res Unit) : Res Unit := setup >>= loop

/-- word2vec up to the choice of the model -/
theorem w2v_prefix [GoMath F] (lower : Word → Word) (r : σ → F × σ) (o : W2VOptions F) (hdim : 0 ≤ o.dim) (p1 p2 : Pass) (s : σ) :
    (∃ (ws : List Word) (c : CorpusState F) (m : Matrix F) (s' : σ), loadCorpus o.docInMemory (o.corpus lower) p1 p2 none = .ok c ∧
      c.dic.Rep (ws.map (o.corpus lower).norm) ∧ c.maxLen = ws.length ∧
      randMatrix r (initValue o.dim) c.dic.len o.dim s = .ok (m, s') ∧ Shaped m c.dic.len o.dim.toNat) ∨
    ∃ e, (loadCorpus o.docInMemory (o.corpus lower) p1 p2 none : Res (CorpusState F)) = .err e := by
  rcases loadCorpus_cases (F := F) o.docInMemory (o.corpus lower) p1 p2 none (by intro _ _ h; cases h) with ⟨ws, c, e, h1, h2, _⟩ | h
  · left
    obtain ⟨d, hd⟩ := Int.eq_ofNat_of_zero_le hdim
    obtain ⟨m, s', e1, e2⟩ := randMatrix_ok r (initValue (F := F) o.dim) c.dic.len d s
    refine ⟨ws, c, m, s', e, h1, h2, ?_, ?_⟩
    · rw [hd] at e1 ⊢; exact e1
    · rw [hd, Int.toNat_natCast]; exact e2
  · exact Or.inr h

theorem newBuffers_ok {g d : Int} (hg : 0 ≤ g) (hd : 0 ≤ d) : newBuffers g d = .ok () := by
  unfold newBuffers
  rw [if_neg (by omega), if_neg (by omega)]

/-- **C36 (word2vec).** For every reader (also failing ones), options with `Dim >= 0` and `Goroutines >= 0`, and training loop:
with an unknown model or optimizer type `Train` returns an error and the loop does not run. -/
theorem C36_word2vec [GoMath F] (lower : Word → Word) (r : σ → F × σ) (o : W2VOptions F) (hdim : 0 ≤ o.dim) (hg : 0 ≤ o.goroutines)
    (h : (o.modelType ≠ "skipgram".toList ∧ o.modelType ≠ "cbow".toList) ∨
      (o.optimizerType ≠ "ns".toList ∧ o.optimizerType ≠ "hs".toList))
    (p1 p2 : Pass) (s : σ) (loop : W2VModel F × σ → Res Unit) :
    ∃ e, trainWith (w2vSetup lower r o p1 p2 s) loop = .err e ∧
      (∀ c, (loadCorpus o.docInMemory (o.corpus lower) p1 p2 none : Res (CorpusState F)) = .ok c → e = .invalidModel ∨ e = .invalidOptimizer) := by
  unfold trainWith w2vSetup
  rcases w2v_prefix lower r o hdim p1 p2 s with ⟨ws, c, m, s', e1, e2, _, e3, _⟩ | ⟨e, he⟩
  · rw [e1, Res.ok_bind, e3, Res.ok_bind, subsamples_eq c.dic _ e2, Res.ok_bind, newBuffers_ok hg hdim]
    by_cases hm : o.modelType = "skipgram".toList
    · rcases h with h | h
      · exact absurd hm h.1
      · rw [if_pos hm, Res.ok_bind, Res.ok_bind, if_neg h.1, if_neg h.2]
        exact ⟨_, rfl, fun _ _ => Or.inr rfl⟩
    · rw [if_neg hm]
      by_cases hm2 : o.modelType = "cbow".toList
      · rcases h with h | h
        · exact absurd hm2 h.2
        · rw [if_pos hm2, Res.ok_bind, Res.ok_bind, if_neg h.1, if_neg h.2]
          exact ⟨_, rfl, fun _ _ => Or.inr rfl⟩
      · rw [if_neg hm2]
        exact ⟨_, rfl, fun _ _ => Or.inl rfl⟩
  · rw [he]
    exact ⟨e, rfl, fun c hc => by cases hc⟩

/-- **C36 (GloVe).** For every reader, `Dim >= 0` (and, for the file-backed corpus with a known count type, window `>= 1`): with an unknown
count type or solver `Train` returns an error and the loop does not run. -/
theorem C36_glove [GoFloat F] (lower : Word → Word) (r : σ → F × σ) (o : GloveOptions F) (hdim : 0 ≤ o.dim)
    (h : (o.countType ≠ "inc".toList ∧ o.countType ≠ "prox".toList) ∨
      ((o.docInMemory = true ∨ 1 ≤ o.window) ∧ o.solverType ≠ "sgd".toList ∧ o.solverType ≠ "adagrad".toList))
    (p1 p2 : Pass) (s : σ) (loop : GloveModel F × σ → Res Unit) :
    ∃ e, trainWith (gloveSetup lower r o p1 p2 s) loop = .err e := by
  unfold trainWith gloveSetup
  rcases h with ⟨h1, h2⟩ | ⟨hw, h1, h2⟩
  · obtain ⟨e, he⟩ := loadCorpus_countType (F := F) o.docInMemory (o.corpus lower) p1 p2 (String.ofList o.countType) o.window
      (by intro e; apply h1; rw [← e]; simp) (by intro e; apply h2; rw [← e]; simp)
    rw [he]; exact ⟨e, rfl⟩
  · rcases loadCorpus_cases (F := F) o.docInMemory (o.corpus lower) p1 p2 (some ⟨String.ofList o.countType, o.window⟩) (by
      intro hm w' hw'; cases hw'; rcases hw with hw | hw
      · rw [hm] at hw; cases hw
      · exact hw) with ⟨ws, c, e, _⟩ | ⟨e, he⟩
    · obtain ⟨d, hd⟩ := Int.eq_ofNat_of_zero_le hdim
      obtain ⟨m, s', e1, _⟩ := randMatrix_ok r (fun x : F => x /. GoFloat.ofRat (o.dim : ℚ)) (c.dic.len * 2) (d + 1) s
      push_cast at e1
      rw [hd] at e1 ⊢
      rw [e, Res.ok_bind, e1, Res.ok_bind, if_neg h1, if_neg h2]
      exact ⟨_, rfl⟩
    · rw [he]; exact ⟨e, rfl⟩

/-- A known relation type is one of the four documented strings. -/
def KnownRelation (t : Word) : Prop := t = "ppmi".toList ∨ t = "pmi".toList ∨ t = "co".toList ∨ t = "logco".toList

/-- **C36 (LexVec).** For every reader, `Dim >= 0`, window `>= 1` for the file-backed corpus, any order of map enumeration: with an unknown relation type
`Train` returns an error and the loop does not run, unless the corpus loads with an empty co-occurrence matrix. -/
theorem C36_lexvec [GoMath F] (lower : Word → Word) (enum : GoMap (BitVec 64) F → List (BitVec 64 × F)) (henum : ∀ m, (enum m).Perm m)
    (r : σ → F × σ) (o : LexvecOptions F) (hdim : 0 ≤ o.dim) (hw : o.docInMemory = true ∨ 1 ≤ o.window)
    (h : ¬ KnownRelation o.relationType) (p1 p2 : Pass) (s : σ) (loop : LexModel F × σ → Res Unit) :
    (∃ e, trainWith (lexSetup lower enum r o p1 p2 s) loop = .err e) ∨
    ∃ (c : CorpusState F) (co : Cooccurrence F), loadCorpus o.docInMemory (o.corpus lower) p1 p2 (some ⟨"inc", o.window⟩) = .ok c ∧
      c.cooc = some co ∧ co.encodedMatrix = GoMap.empty := by
  unfold trainWith lexSetup
  rcases loadCorpus_cases (F := F) o.docInMemory (o.corpus lower) p1 p2 (some ⟨countInc, o.window⟩) (by
      intro hm w' hw'; cases hw'; rcases hw with hw | hw
      · rw [hm] at hw; cases hw
      · exact hw) with ⟨ws, c, e, hr, _, hco⟩ | ⟨e, he⟩
  · obtain ⟨d, hd⟩ := Int.eq_ofNat_of_zero_le hdim
    obtain ⟨m, s', e1, _⟩ := randMatrix_ok r (initValue (F := F) o.dim) (c.dic.len * 2) d s
    push_cast at e1
    obtain ⟨co, hco⟩ := hco rfl
    by_cases hem : co.encodedMatrix = GoMap.empty
    · exact Or.inr ⟨c, co, e, hco, hem⟩
    · left
      rw [e, Res.ok_bind, hd] at *
      rw [e1, Res.ok_bind, subsamples_eq c.dic _ hr, Res.ok_bind, hco]
      dsimp only
      have hne : enum co.encodedMatrix ≠ [] := by
        intro hn
        have := henum co.encodedMatrix
        rw [hn] at this
        exact hem (List.nil_perm.1 this)
      obtain ⟨x, l, hx⟩ := List.exists_cons_of_ne_nil hne
      have hrel : ∀ l1 l2 v t, calculateRelation c.dic o.smooth (String.ofList o.relationType) l1 l2 v t = .err .invalidRelation := by
        intro l1 l2 v t
        have hk : ∀ k : String, String.ofList o.relationType = k → o.relationType = k.toList := by
          intro k e; rw [← e]; simp
        unfold calculateRelation
        rw [if_neg (fun e => h (Or.inl (hk _ e))), if_neg (fun e => h (Or.inr (Or.inl (hk _ e)))),
          if_neg (fun e => h (Or.inr (Or.inr (Or.inl (hk _ e))))), if_neg (fun e => h (Or.inr (Or.inr (Or.inr (hk _ e)))))]
      have hit : lexItems c.dic c.maxLen o.smooth (String.ofList o.relationType) (enum co.encodedMatrix) = .err .invalidRelation := by
        unfold lexItems
        rw [hx, forEach_cons]
        simp only [hrel]
        rfl
      rw [hit]
      exact ⟨_, rfl⟩
  · rw [he]; exact Or.inl ⟨e, rfl⟩

/-- The hypotheses are met by a document and an option string that is one of the documented type names misspelt. -/
example : ¬ KnownRelation "PPMI".toList := by unfold KnownRelation; decide

/-! ## C39 -/

/-- **C39 (loading).** When the reader fails while the corpus is loaded — in its only pass (word2vec, in memory), or in either of the two
passes of the file-backed GloVe and LexVec corpora — `Train` does not run the training loop and returns an error (GloVe and LexVec
file-backed: window `>= 1`). -/
theorem C39_load_error_partial [GoMath F] (lower : Word → Word) (r : σ → F × σ) (s : σ) (p1 p2 : Pass) :
    (∀ (o : W2VOptions F) (loop : W2VModel F × σ → Res Unit), p1.fails = true →
      ∃ e, trainWith (w2vSetup lower r o p1 p2 s) loop = .err e) ∧
    (∀ (o : GloveOptions F) (loop : GloveModel F × σ → Res Unit), (o.docInMemory = true ∨ 1 ≤ o.window) →
      (p1.fails = true ∨ (o.docInMemory = false ∧ p2.fails = true)) →
      ∃ e, trainWith (gloveSetup lower r o p1 p2 s) loop = .err e) ∧
    (∀ (o : LexvecOptions F) (enum : GoMap (BitVec 64) F → List (BitVec 64 × F)) (loop : LexModel F × σ → Res Unit),
      (o.docInMemory = true ∨ 1 ≤ o.window) → (p1.fails = true ∨ (o.docInMemory = false ∧ p2.fails = true)) →
      ∃ e, trainWith (lexSetup lower enum r o p1 p2 s) loop = .err e) := by
  have key : ∀ (im : Bool) (cfg : CorpusCfg) (w : Option WithCooccurrence), (im = true ∨ ∀ w', w = some w' → 1 ≤ w'.window) →
      (p1.fails = true ∨ (im = false ∧ w ≠ none ∧ p2.fails = true)) → ∃ e, (loadCorpus im cfg p1 p2 w : Res (CorpusState F)) = .err e := by
    intro im cfg w hw hf
    rcases loadCorpus_cases (F := F) im cfg p1 p2 w (by
      intro hm w' hw'; rcases hw with hw | hw
      · rw [hm] at hw; cases hw
      · exact hw w' hw') with ⟨ws, c, e, _⟩ | h
    · exfalso
      refine loadCorpus_read_error im cfg p1 p2 w ?_ c e
      rcases hf with hf | ⟨h1, h2, h3⟩
      · exact Or.inl (scanWords_fails hf)
      · exact Or.inr ⟨h1, h2, scanWords_fails h3⟩
    · exact h
  refine ⟨?_, ?_, ?_⟩
  · intro o loop hf
    obtain ⟨e, he⟩ := key o.docInMemory (o.corpus lower) none (Or.inr (by simp)) (Or.inl hf)
    exact ⟨e, by unfold trainWith w2vSetup; rw [he]; rfl⟩
  · intro o loop hw hf
    obtain ⟨e, he⟩ := key o.docInMemory (o.corpus lower) (some ⟨String.ofList o.countType, o.window⟩)
      (hw.imp id (fun h w' hw' => by cases hw'; exact h)) (hf.imp id (fun h => ⟨h.1, by simp, h.2⟩))
    exact ⟨e, by unfold trainWith gloveSetup; rw [he]; rfl⟩
  · intro o enum loop hw hf
    obtain ⟨e, he⟩ := key o.docInMemory (o.corpus lower) (some ⟨countInc, o.window⟩)
      (hw.imp id (fun h w' hw' => by cases hw'; exact h)) (hf.imp id (fun h => ⟨h.1, by simp, h.2⟩))
    exact ⟨e, by unfold trainWith lexSetup; rw [he]; rfl⟩

/-- such a reader: some text, then an error -/
example : ({ text := "a b".toList, fails := true } : Pass).fails = true := rfl

/-! ## C72: valid options -/

/-- **C72 (word2vec).** For every readable document and valid options (`Dim >= 0`, `Goroutines >= 0`, known types), either corpus:
the set-up succeeds; the dictionary is that of the normalised words of the document, the word matrix (and with negative sampling the
context matrix) has one row of `Dim` values per word, the sampling table one entry per word. -/
theorem C72_word2vec_starts [GoMath F] (lower : Word → Word) (r : σ → F × σ) (o : W2VOptions F) (dim : Nat) (hdim : o.dim = dim)
    (hg : 0 ≤ o.goroutines) (hm : o.modelType = "skipgram".toList ∨ o.modelType = "cbow".toList)
    (ho : o.optimizerType = "ns".toList ∨ o.optimizerType = "hs".toList) (p : Pass) (ws : List Word) (h : Readable p ws) (s : σ) :
    ∃ M s', w2vSetup lower r o p p s = .ok (M, s') ∧ addCalls [ws.map (o.corpus lower).norm] = .ok M.corpus.dic ∧
      W2VShaped M.corpus.dic.len dim M.param M.opt ∧ M.samples.length = M.corpus.dic.len ∧
      (M.skipGram = true ↔ o.modelType = "skipgram".toList) := by
  have hload : ∃ c : CorpusState F, loadCorpus o.docInMemory (o.corpus lower) p p none = .ok c ∧
      Dictionary.new.add (ws.map (o.corpus lower).norm) = .ok c.dic ∧ c.dic.Rep (ws.map (o.corpus lower).norm) := by
    unfold loadCorpus
    cases o.docInMemory with
    | true => obtain ⟨c, h1, h2, _, _, _, h6⟩ := memLoad_readable (F := F) (o.corpus lower) h; exact ⟨c, h6 none, h1, h2⟩
    | false => obtain ⟨c, h1, h2, _, _, _, h6, _⟩ := fsLoad_readable (F := F) (o.corpus lower) h; exact ⟨c, h6, h1, h2⟩
  obtain ⟨c, e, hadd, hr⟩ := hload
  obtain ⟨m, s1, e1, q1⟩ := randMatrix_ok r (initValue (F := F) o.dim) c.dic.len dim s
  rw [← hdim] at e1
  have hsam := subsamples_eq c.dic _ hr o.subsampleThreshold
  have hlen : ((firstOcc (ws.map (o.corpus lower).norm)).map (fun w => sampleValue o.subsampleThreshold ((ws.map (o.corpus lower).norm).count w))).length = c.dic.len := by
    rw [List.length_map]; exact hr.maxid.symm
  have hmod : ∃ b : Bool, (b = true ↔ o.modelType = "skipgram".toList) ∧
      (if o.modelType = "skipgram".toList then newBuffers o.goroutines o.dim >>= fun _ => .ok true
       else if o.modelType = "cbow".toList then newBuffers o.goroutines o.dim >>= fun _ => .ok false
       else .err .invalidModel : Res Bool) = .ok b := by
    rw [newBuffers_ok hg (by omega)]
    rcases hm with hm | hm
    · exact ⟨true, by simp [hm], by rw [if_pos hm]; rfl⟩
    · refine ⟨false, ?_, ?_⟩
      · rw [hm]; decide
      · rw [if_neg (by rw [hm]; decide), if_pos hm]; rfl
  obtain ⟨b, hb, hmod⟩ := hmod
  unfold w2vSetup
  rw [e, Res.ok_bind, e1, Res.ok_bind, hsam, Res.ok_bind, hmod, Res.ok_bind]
  rcases ho with ho | ho
  · obtain ⟨m2, s2, e2, q2⟩ := randMatrix_ok r (initValue (F := F) o.dim) c.dic.len dim s1
    rw [← hdim] at e2
    rw [if_pos ho, e2, Res.ok_bind]
    exact ⟨_, _, rfl, by rw [addCalls_one]; exact hadd, ⟨q1, by rintro _ ⟨⟩; exact q2⟩, hlen, hb⟩
  · obtain ⟨t, ht⟩ := huffmanTree_total (F := F) c.dic _ hr o.dim (by omega)
    rw [if_neg (by rw [ho]; decide), if_pos ho, ht, Res.ok_bind]
    exact ⟨_, _, rfl, by rw [addCalls_one]; exact hadd, ⟨q1, by rintro _ ⟨⟩⟩, hlen, hb⟩

theorem load_cooc_readable [GoFloat F] (im : Bool) (cfg : CorpusCfg) (t : String) (n : Int) (hn : im = true ∨ 1 ≤ n) (p : Pass) (ws : List Word)
    (h : Readable p ws) (c : CorpusState F) (hc : loadCorpus im cfg p p (some ⟨t, n⟩) = .ok c) :
    addCalls [ws.map cfg.norm] = .ok c.dic ∧ c.dic.Rep (ws.map cfg.norm) := by
  unfold loadCorpus at hc
  cases im with
  | true =>
    simp only [if_true] at hc
    obtain ⟨_, h2, _⟩ := C11_memory_corpus_with cfg p ws h ⟨t, n⟩ c hc
    obtain ⟨co, _, h3, _⟩ := memLoad_cooc cfg h ⟨t, n⟩ c hc
    exact ⟨h2, h3⟩
  | false =>
    simp only [Bool.false_eq_true, if_false, false_or] at hc hn
    obtain ⟨k, rfl⟩ := Int.eq_ofNat_of_zero_le (by omega : 0 ≤ n)
    obtain ⟨c0, a1, a2, _, _, _, _, a6⟩ := fsLoad_readable (F := F) cfg h
    rw [a6 t k (by omega), Res.bind_eq_ok] at hc
    obtain ⟨co, _, hc⟩ := hc
    rw [Res.bind_eq_ok] at hc
    obtain ⟨co', _, hc⟩ := hc
    cases hc
    exact ⟨by rw [addCalls_one]; exact a1, a2⟩

/-- **C72 (GloVe, whatever the count type).** If the set-up succeeds on a readable document, the dictionary is that of its normalised words
and the parameters (and AdaGrad's accumulators) have two rows of `Dim+1` values per word. -/
theorem C72_glove_shapes [GoFloat F] (lower : Word → Word) (r : σ → F × σ) (o : GloveOptions F) (dim : Nat) (hdim : o.dim = dim)
    (hw : o.docInMemory = true ∨ 1 ≤ o.window) (p : Pass) (ws : List Word) (h : Readable p ws) (s s' : σ) (M : GloveModel F)
    (hM : gloveSetup lower r o p p s = .ok (M, s')) :
    addCalls [ws.map (o.corpus lower).norm] = .ok M.corpus.dic ∧ Shaped M.param (M.corpus.dic.len * 2) (dim + 1) ∧
      ∀ g, M.gradsq = some g → Shaped g (M.corpus.dic.len * 2) (dim + 1) := by
  unfold gloveSetup at hM
  rw [Res.bind_eq_ok] at hM
  obtain ⟨c, hc, hM⟩ := hM
  obtain ⟨h1, h2⟩ := load_cooc_readable o.docInMemory (o.corpus lower) _ _ hw p ws h c hc
  obtain ⟨m, s1, e1, q1⟩ := randMatrix_ok r (fun x : F => x /. GoFloat.ofRat (o.dim : ℚ)) (c.dic.len * 2) (dim + 1) s
  push_cast at e1
  rw [← hdim] at e1
  rw [e1, Res.ok_bind] at hM
  split at hM
  · cases hM; exact ⟨h1, q1, by simp⟩
  · split at hM
    · obtain ⟨g, e2, q2⟩ := adaGradsq_ok (F := F) c.dic.len dim
      rw [hdim, e2, Res.ok_bind] at hM
      cases hM
      exact ⟨h1, q1, by rintro g' hg'; cases hg'; exact q2⟩
    · cases hM

/-- **C72 (GloVe).** With count type `inc` and valid options the set-up succeeds on every readable document. -/
theorem C72_glove_starts [GoFloat F] (lower : Word → Word) (r : σ → F × σ) (o : GloveOptions F) (hdim : 0 ≤ o.dim)
    (hct : o.countType = "inc".toList) (hso : o.solverType = "sgd".toList ∨ o.solverType = "adagrad".toList)
    (hw : o.docInMemory = true ∨ 1 ≤ o.window) (p : Pass) (ws : List Word) (h : Readable p ws) (s : σ) :
    ∃ M s', gloveSetup lower r o p p s = .ok (M, s') := by
  obtain ⟨dim, hd⟩ := Int.eq_ofNat_of_zero_le hdim
  have hload : ∃ c : CorpusState F, loadCorpus o.docInMemory (o.corpus lower) p p (some ⟨String.ofList o.countType, o.window⟩) = .ok c := by
    rw [hct, show String.ofList "inc".toList = countInc by simp [countInc]]
    exact load_inc_ok o.docInMemory (o.corpus lower) o.window hw p ws h
  obtain ⟨c, hc⟩ := hload
  obtain ⟨m, s1, e1, q1⟩ := randMatrix_ok r (fun x : F => x /. GoFloat.ofRat (o.dim : ℚ)) (c.dic.len * 2) (dim + 1) s
  push_cast at e1
  unfold gloveSetup
  rw [hd] at e1 ⊢
  rw [hc, Res.ok_bind, e1, Res.ok_bind]
  rcases hso with hs | hs
  · rw [if_pos hs]; exact ⟨_, _, rfl⟩
  · obtain ⟨g, e2, _⟩ := adaGradsq_ok (F := F) c.dic.len dim
    rw [if_neg (by rw [hs]; decide), if_pos hs, e2]; exact ⟨_, _, rfl⟩

/-- **C72 (LexVec).** For every non-empty readable document and valid options (known relation), either corpus, any enumeration order:
the set-up succeeds; the dictionary is that of the normalised words, the parameters have two rows of `Dim` values per word. -/
theorem C72_lexvec_starts [GoMath F] (lower : Word → Word) (enum : GoMap (BitVec 64) F → List (BitVec 64 × F)) (henum : ∀ m, (enum m).Perm m)
    (r : σ → F × σ) (o : LexvecOptions F) (dim : Nat) (hdim : o.dim = dim)
    (hw : o.docInMemory = true ∨ 1 ≤ o.window) (hrel : KnownRelation o.relationType) (p : Pass) (ws : List Word) (h : Readable p ws)
    (hne : ws ≠ []) (hdic : (ws.map (o.corpus lower).norm).dedup.length ≤ 2 ^ 32) (s : σ) :
    ∃ M s', lexSetup lower enum r o p p s = .ok (M, s') ∧ addCalls [ws.map (o.corpus lower).norm] = .ok M.corpus.dic ∧
      Shaped M.param (M.corpus.dic.len * 2) dim ∧ M.samples.length = M.corpus.dic.len := by
  obtain ⟨c, hc⟩ := load_inc_ok (F := F) o.docInMemory (o.corpus lower) o.window hw p ws h
  obtain ⟨h1, hr⟩ := load_cooc_readable o.docInMemory (o.corpus lower) _ _ hw p ws h c hc
  obtain ⟨m, s1, e1, q1⟩ := randMatrix_ok r (initValue (F := F) o.dim) (c.dic.len * 2) dim s
  push_cast at e1
  rw [← hdim] at e1
  have hco : ∃ co calls, c.cooc = some co ∧ cooCalls countInc calls = .ok co ∧ ∀ q ∈ calls, q.1 < c.dic.len ∧ q.2 < c.dic.len := by
    unfold loadCorpus at hc
    rcases hb : o.docInMemory with _ | _
    · rw [hb] at hc hw
      simp only [Bool.false_eq_true, if_false, false_or] at hc hw
      obtain ⟨k, hk⟩ := Int.eq_ofNat_of_zero_le (by omega : 0 ≤ o.window)
      rw [hk] at hc
      obtain ⟨co, calls, a, _, b, d⟩ := fsLoad_cooc (o.corpus lower) h countInc k (by omega) hne c hc
      exact ⟨co, calls, a, b, d⟩
    · rw [hb] at hc
      simp only [if_true] at hc
      obtain ⟨co, a, _, b, d⟩ := memLoad_cooc (o.corpus lower) h ⟨countInc, o.window⟩ c hc
      exact ⟨co, _, a, b, d⟩
  obtain ⟨co, calls, hco, hcc, hlt⟩ := hco
  obtain ⟨items, hit⟩ := lexItems_total c.dic _ hr c.maxLen o.smooth (String.ofList o.relationType) (by
      rcases hrel with e | e | e | e <;> rw [e] <;> simp) calls (by rw [hr.len_eq]; exact hdic) hlt co hcc (enum co.encodedMatrix) (henum _)
  refine ⟨⟨c, m, (firstOcc (ws.map (o.corpus lower).norm)).map (fun w => sampleValue o.subsampleThreshold ((ws.map (o.corpus lower).norm).count w)), items⟩,
    s1, ?_, h1, q1, ?_⟩
  · unfold lexSetup
    rw [hc, Res.ok_bind, e1, Res.ok_bind, subsamples_eq c.dic _ hr, Res.ok_bind, hco]
    dsimp only
    rw [hit, Res.ok_bind]
  · rw [List.length_map, show c.dic.len = _ from hr.maxid]

/-- The hypotheses are met by the default options of every model (on any machine) and a small document. -/
example (n : Nat) : (W2VOptions.default (F := F64) n).dim = (10 : Nat) ∧ 0 ≤ (W2VOptions.default (F := F64) n).goroutines ∧
    (W2VOptions.default (F := F64) n).modelType = "cbow".toList ∧ (W2VOptions.default (F := F64) n).optimizerType = "ns".toList ∧
    (GloveOptions.default (F := F64) n).countType = "inc".toList ∧ (GloveOptions.default (F := F64) n).solverType = "sgd".toList ∧
    1 ≤ (GloveOptions.default (F := F64) n).window ∧ KnownRelation (LexvecOptions.default (F := F64) n).relationType ∧
    1 ≤ (LexvecOptions.default (F := F64) n).window ∧ Readable ⟨['a', ' ', 'b', ' ', 'a'], false⟩ [['a'], ['b'], ['a']] :=
  ⟨rfl, by simp [W2VOptions.default], rfl, rfl, rfl, rfl, by simp [GloveOptions.default], Or.inl rfl, by simp [LexvecOptions.default],
    ⟨isWords_fields ['a',' ','b',' ','a'], rfl, by decide⟩⟩

end Wego.Props
