import Verif.Spec.Rename
import Verif.Props.OnlyWords
import Verif.Props.SearchRemove
import Verif.Props.JoinFiles
import Verif.Props.Query

/-! # C114: training does not look at the words, only at which of them are equal -/

namespace Wego.Props
open Wego Spec

theorem onOk_bind {α β γ : Type} (g : β → γ) (x : Res α) (k : α → Res β) : (x >>= k).onOk g = x >>= fun a => (k a).onOk g := by
  cases x <;> rfl

theorem bind_onOk {α β γ : Type} (g : α → β) (x : Res α) (k : β → Res γ) : (x.onOk g) >>= k = x >>= fun a => k (g a) := by
  cases x <;> rfl

/-! ## dictionaries -/

section
variable {f : Word → Word} (hinj : ∀ v w, f v = f w → v = w)
include hinj

theorem get?_renamed {V : Type} (m : GoMap Word V) (w : Word) : GoMap.get? (m.map (fun e => (f e.1, e.2))) (f w) = GoMap.get? m w := by
  induction m with
  | nil => rfl
  | cons e m ih =>
    obtain ⟨k, v⟩ := e
    simp only [List.map_cons, GoMap.get?, ih]
    by_cases h : k = w
    · simp [h]
    · rw [if_neg h, if_neg (fun h2 => h (hinj _ _ h2))]

theorem set_renamed {V : Type} (m : GoMap Word V) (w : Word) (v : V) :
    GoMap.set (m.map (fun e => (f e.1, e.2))) (f w) v = (GoMap.set m w v).map (fun e => (f e.1, e.2)) := by
  induction m with
  | nil => rfl
  | cons e m ih =>
    obtain ⟨k, v'⟩ := e
    simp only [List.map_cons, GoMap.set, ih]
    by_cases h : k = w
    · simp [h]
    · rw [if_neg h, if_neg (fun h2 => h (hinj _ _ h2))]; rfl

theorem idOrZero_renamed (d : Dictionary) (w : Word) : (d.renamed f).idOrZero (f w) = d.idOrZero w := by
  unfold Dictionary.idOrZero Dictionary.id? Dictionary.renamed
  rw [get?_renamed hinj]

theorem add1_renamed (d : Dictionary) (w : Word) : (d.renamed f).add1 (f w) = (d.add1 w).onOk (Dictionary.renamed f) := by
  unfold Dictionary.add1
  have e : (d.renamed f).word2id.get? (f w) = d.word2id.get? w := get?_renamed hinj _ _
  rw [e]
  cases d.word2id.get? w with
  | none =>
    simp only [Res.onOk, Dictionary.renamed, set_renamed hinj, List.map_append, List.map_cons, List.map_nil]
  | some id =>
    simp only [onOk_bind]
    rfl

theorem add_renamed (d : Dictionary) (w : Word) : (d.renamed f).add [f w] = (d.add [w]).onOk (Dictionary.renamed f) := by
  unfold Dictionary.add
  rw [forEach_cons, forEach_cons, add1_renamed hinj]
  cases d.add1 w <;> rfl

end

theorem filters_renamed (f : Word → Word) (cfg : CorpusCfg) (id : Nat) (d : Dictionary) :
    filtersAny cfg.filters id (d.renamed f) = filtersAny cfg.filters id d := rfl

/-! ## reading -/

theorem callEach_hom {α β σ τ : Type} (f : α → β) (g : σ → τ) (fn : α → σ → σ × Ctl) (fn' : β → τ → τ × Ctl)
    (h : ∀ a s, fn' (f a) (g s) = (g (fn a s).1, (fn a s).2)) (l : List α) (s : σ) :
    callEach fn' (l.map f) (g s) = (g (callEach fn l s).1, (callEach fn l s).2) := by
  induction l generalizing s with
  | nil => rfl
  | cons a l ih =>
    simp only [List.map_cons, callEach]
    rw [h]
    rcases fn a s with ⟨s', c⟩
    cases c <;> simp [thenDo, ih]

theorem renamed_scan {f : Word → Word} {p q : Pass} (h : Renamed f p q) :
    (scanWords q).toks = (scanWords p).toks.map f ∧ (scanWords q).err = (scanWords p).err :=
  Lowered.scan ⟨h.words, h.fails⟩

section
variable {f : Word → Word} {p q : Pass} (h : Renamed f p q)
include h

theorem readWord_hom {σ τ : Type} (g : σ → τ) (fn : Word → σ → σ × Ctl) (fn' : Word → τ → τ × Ctl)
    (hf : ∀ a s, fn' (f a) (g s) = (g (fn a s).1, (fn a s).2)) (s : σ) :
    readWord q fn' (g s) = (g (readWord p fn s).1, (readWord p fn s).2) := by
  simp only [readWord, (renamed_scan h).1, (renamed_scan h).2]
  rw [callEach_hom f g fn fn' hf]
  rcases callEach fn (scanWords p).toks s with ⟨s', c⟩
  cases c with
  | next => cases (scanWords p).err <;> rfl
  | fail e => rfl
  | crash x => rfl

theorem fwdLoop_renamed {σ : Type} (n : Nat) (fn fn' : Word → Word → σ → σ × Ctl) (hf : ∀ a b s, fn' (f a) (f b) s = fn a b s)
    (axis : Word) (ws toks : List Word) (s : σ) :
    fwdLoop n fn' (f axis) (ws.map f) (toks.map f) s = fwdLoop n fn axis ws toks s := by
  have hp : ∀ axis ws s, postFn fn' (f axis) (ws.map f) s = postFn fn axis ws s := by
    intro axis ws s
    unfold postFn
    have := callEach_hom f id (fn axis) (fn' (f axis)) (fun a s => by simp [hf]) ws s
    simpa using this
  induction hlen : toks.length using Nat.strong_induction_on generalizing axis ws toks s with
  | _ m ih =>
    rw [fwdLoop.eq_def, fwdLoop.eq_def n fn]
    by_cases ha : axis = []
    · subst ha
      rw [if_pos h.empty, if_pos rfl]
      cases toks with
      | nil => exact hp _ _ _
      | cons a toks =>
        simp only [List.map_cons]
        have hfill : fillWs n (ws.map f) (toks.map f) = ((fillWs n ws toks).1.map f, (fillWs n ws toks).2.map f) := by
          simp [fillWs, List.map_take, List.map_drop]
        rw [hfill]
        simp only [hp]
        congr 1
        funext s'
        exact ih (fillWs n ws toks).2.length (by subst hlen; simp [fillWs]) a _ _ s' rfl
    · rw [if_neg (fun h2 => ha (h.inj _ _ (h2.trans h.empty.symm))), if_neg ha]
      cases ws with
      | nil => rfl
      | cons w0 ws =>
        cases toks with
        | nil => exact hp _ _ _
        | cons t toks =>
          simp only [List.map_cons]
          have hm : ws.map f ++ [f t] = (ws ++ [t]).map f := by simp
          rw [hm, hp]
          congr 1
          funext s'
          exact ih toks.length (by subst hlen; simp) w0 _ _ s' rfl

theorem fwd_renamed {σ : Type} (n : Int) (fn fn' : Word → Word → σ → σ × Ctl) (hf : ∀ a b s, fn' (f a) (f b) s = fn a b s) (s : σ) :
    readWordWithForwardContext q n fn' s = readWordWithForwardContext p n fn s := by
  unfold readWordWithForwardContext
  split
  · rfl
  · dsimp only
    have hr : List.replicate n.toNat ([] : Word) = (List.replicate n.toNat []).map f := by rw [List.map_replicate, h.empty]
    have := fwdLoop_renamed h n.toNat fn fn' hf [] (List.replicate n.toNat []) (scanWords p).toks s
    rw [h.empty, List.map_replicate, h.empty] at this
    rw [(renamed_scan h).1, (renamed_scan h).2, this]

end

/-- the words are lower-cased, if at all, before or after the replacement with the same result -/
def Commutes (f : Word → Word) (cfg : CorpusCfg) : Prop := ∀ w, cfg.norm (f w) = f (cfg.norm w)

section
variable {F : Type} [GoMath F] {σ : Type} {f : Word → Word} {p q : Pass} (h : Renamed f p q) (cfg : CorpusCfg) (hcfg : Commutes f cfg)
include h hcfg

omit [GoMath F] h hcfg in
theorem ctlRes_hom {τ υ : Type} (g : τ → υ) (x : τ × Ctl) : ctlRes (g x.1, x.2) = (ctlRes x).onOk g := by
  rcases x with ⟨s, c⟩
  cases c <;> rfl

omit [GoMath F] in
theorem memReadCb_renamed (w : Word) (c : CorpusState F) :
    memReadCb cfg (f w) (c.renamed f) = (memReadCb cfg w c).onOk (CorpusState.renamed f) := by
  unfold memReadCb
  dsimp only
  rw [hcfg w]
  have e : (c.renamed f).dic.add [f (cfg.norm w)] = (c.dic.add [cfg.norm w]).onOk (Dictionary.renamed f) := add_renamed h.inj c.dic _
  rw [e, bind_onOk, onOk_bind]
  cases c.dic.add [cfg.norm w] with
  | ok d => simp only [Res.ok_bind, Res.onOk, idOrZero_renamed h.inj]; rfl
  | err e => rfl
  | panic x => rfl

omit [GoMath F] in
theorem fsReadCb_renamed (w : Word) (c : CorpusState F) :
    fsReadCb cfg (f w) (c.renamed f) = (fsReadCb cfg w c).onOk (CorpusState.renamed f) := by
  unfold fsReadCb
  rw [hcfg w]
  have e : (c.renamed f).dic.add [f (cfg.norm w)] = (c.dic.add [cfg.norm w]).onOk (Dictionary.renamed f) := add_renamed h.inj c.dic _
  rw [e, bind_onOk, onOk_bind]
  rfl

omit h hcfg in
theorem liftCtl_hom {τ υ : Type} (g : τ → υ) (s : τ) (x : Res τ) : liftCtl (g s) (x.onOk g) = (g (liftCtl s x).1, (liftCtl s x).2) := by
  cases x <;> rfl

theorem memLoad_renamed (w : Option WithCooccurrence) :
    memLoad (F := F) cfg q w = (memLoad cfg p w).onOk (CorpusState.renamed f) := by
  unfold memLoad
  have e := readWord_hom h (CorpusState.renamed (F := F) f) (fun word c => liftCtl c (memReadCb cfg word c))
    (fun word c => liftCtl c (memReadCb cfg word c)) (fun a s => by
      rw [memReadCb_renamed h cfg hcfg, liftCtl_hom]) CorpusState.init
  have hi : CorpusState.renamed (F := F) f CorpusState.init = CorpusState.init := rfl
  rw [hi] at e
  rw [e, ctlRes_hom, bind_onOk, onOk_bind]
  congr 1
  funext c
  cases w with
  | none => rfl
  | some w =>
    simp only [onOk_bind]
    rfl

theorem fsLoad_renamed (w : Option WithCooccurrence) :
    fsLoad (F := F) cfg q q w = (fsLoad cfg p p w).onOk (CorpusState.renamed f) := by
  unfold fsLoad
  have e := readWord_hom h (CorpusState.renamed (F := F) f) (fun word c => liftCtl c (fsReadCb cfg word c))
    (fun word c => liftCtl c (fsReadCb cfg word c)) (fun a s => by
      rw [fsReadCb_renamed h cfg hcfg, liftCtl_hom]) CorpusState.init
  have hi : CorpusState.renamed (F := F) f CorpusState.init = CorpusState.init := rfl
  rw [hi] at e
  rw [e, ctlRes_hom, bind_onOk, onOk_bind]
  congr 1
  funext c
  cases w with
  | none => rfl
  | some w =>
    simp only [onOk_bind]
    congr 1
    funext co
    have e2 : readWordWithForwardContext q w.window (fsPairCb (c.renamed f).dic) co =
        readWordWithForwardContext p w.window (fsPairCb c.dic) co := by
      apply fwd_renamed h
      intro a b s
      unfold fsPairCb
      have i : ∀ v, (c.renamed f).dic.idOrZero (f v) = c.dic.idOrZero v := idOrZero_renamed h.inj c.dic
      rw [i, i]
    rw [e2]
    rfl

theorem load_renamed (im : Bool) (w : Option WithCooccurrence) :
    loadCorpus (F := F) im cfg q q w = (loadCorpus im cfg p p w).onOk (CorpusState.renamed f) := by
  unfold loadCorpus
  split
  · exact memLoad_renamed h cfg hcfg w
  · exact fsLoad_renamed h cfg hcfg w

omit [GoMath F] in
theorem batch_renamed (d : Dictionary) (b : Int) : fsBatchWords cfg (d.renamed f) q b = fsBatchWords cfg d p b := by
  unfold fsBatchWords
  dsimp only
  split
  · rfl
  · have e := readWord_hom h id (fun word b' => liftCtl b' (batchCb cfg d b.toNat word b'))
      (fun word b' => liftCtl b' (batchCb cfg (d.renamed f) b.toNat word b')) (fun a s => by
        have hb : batchCb cfg (d.renamed f) b.toNat (f a) s = batchCb cfg d b.toNat a s := by
          unfold batchCb
          dsimp only
          rw [hcfg a, idOrZero_renamed h.inj]
          rfl
        simp [hb]) ⟨[], []⟩
    simp only [id] at e
    rw [e]

omit [GoMath F] in
theorem docs_renamed (im : Bool) (c : CorpusState F) (g b : Int) :
    workerDocs im cfg (c.renamed f) q g b = workerDocs im cfg c p g b := by
  unfold workerDocs
  split
  · rfl
  · have : (c.renamed f).dic = c.dic.renamed f := rfl
    rw [this, batch_renamed h cfg hcfg]

end

/-! ## whole calls of `Train` -/

section
variable {F : Type} [GoMath F] {σ : Type} {f : Word → Word} {p q : Pass} (h : Renamed f p q)
include h

theorem w2vSetup_renamed (lower : Word → Word) (r : σ → F × σ) (o : W2VOptions F) (hc : Commutes f (o.corpus lower)) (s : σ) :
    w2vSetup lower r o q q s = (w2vSetup lower r o p p s).onOk (fun x => (x.1.renamed f, x.2)) := by
  unfold w2vSetup
  rw [load_renamed h _ hc, bind_onOk, onOk_bind]
  congr 1
  funext c
  have e1 : (c.renamed f).dic.len = c.dic.len := rfl
  have e2 : subsamples (c.renamed f).dic o.subsampleThreshold = subsamples c.dic o.subsampleThreshold := rfl
  have e3 : huffmanTree (F := F) (c.renamed f).dic o.dim = huffmanTree c.dic o.dim := rfl
  rw [e1, e2, e3, onOk_bind]
  congr 1
  funext ps
  rw [onOk_bind]
  congr 1
  funext samples
  rw [onOk_bind]
  congr 1
  funext sg
  split
  · rw [onOk_bind]; rfl
  · split
    · rw [onOk_bind]; rfl
    · rfl

theorem lexSetup_renamed (lower : Word → Word) (enum : GoMap (BitVec 64) F → List (BitVec 64 × F)) (r : σ → F × σ) (o : LexvecOptions F)
    (hc : Commutes f (o.corpus lower)) (s : σ) :
    lexSetup lower enum r o q q s = (lexSetup lower enum r o p p s).onOk (fun x => (x.1.renamed f, x.2)) := by
  unfold lexSetup
  rw [load_renamed h _ hc, bind_onOk, onOk_bind]
  congr 1
  funext c
  have e1 : (c.renamed f).dic.len = c.dic.len := rfl
  have e2 : subsamples (c.renamed f).dic o.subsampleThreshold = subsamples c.dic o.subsampleThreshold := rfl
  have e3 : (c.renamed f).cooc = c.cooc := rfl
  rw [e1, e2, e3, onOk_bind]
  congr 1
  funext ps
  rw [onOk_bind]
  congr 1
  funext samples
  cases c.cooc with
  | none => rfl
  | some co =>
    dsimp only
    rw [onOk_bind]
    rfl

theorem gloveSetup_renamed (lower : Word → Word) (r : σ → F × σ) (o : GloveOptions F) (hc : Commutes f (o.corpus lower)) (s : σ) :
    gloveSetup lower r o q q s = (gloveSetup lower r o p p s).onOk (fun x => (x.1.renamed f, x.2)) := by
  unfold gloveSetup
  rw [load_renamed h _ hc, bind_onOk, onOk_bind]
  congr 1
  funext c
  have e1 : (c.renamed f).dic.len = c.dic.len := rfl
  rw [e1, onOk_bind]
  congr 1
  funext ps
  split
  · rfl
  · split
    · rw [onOk_bind]; rfl
    · rfl

omit h in
theorem onOk_err {α β : Type} {g : α → β} {x : Res α} {e : Err} : x.onOk g = .err e ↔ x = .err e := by cases x <;> simp [Res.onOk]
omit h in
theorem onOk_panic {α β : Type} {g : α → β} {x : Res α} {e : Panic} : x.onOk g = .panic e ↔ x = .panic e := by cases x <;> simp [Res.onOk]
omit h in
theorem onOk_ok {α β : Type} {g : α → β} {x : Res α} {b : β} : x.onOk g = .ok b ↔ ∃ a, x = .ok a ∧ b = g a := by
  cases x <;> simp [Res.onOk, eq_comm]

/-- **C114 (word2vec).** If every word of the document is replaced by another one, different words by different words, then `Train` can end in
exactly the ways it can end on the original document, with the words replaced in the model: the same vectors, errors and panics. -/
theorem C114_word2vec (env : MemEnv F) (lower : Word → Word) (r : σ → F × σ) (o : W2VOptions F) (hc : Commutes f (o.corpus lower)) (s : σ) (next : UInt64)
    (res : Res (W2VModel F)) :
    W2VTrain env lower r o q s next res ↔ ∃ res0, W2VTrain env lower r o p s next res0 ∧ res = res0.onOk (W2VModel.renamed f) := by
  have e := w2vSetup_renamed h lower r o hc s
  have d : ∀ M : W2VModel F, workerDocs o.docInMemory (o.corpus lower) (M.renamed f).corpus q o.goroutines o.batchSize
      = workerDocs o.docInMemory (o.corpus lower) M.corpus p o.goroutines o.batchSize := fun M => docs_renamed h _ hc _ M.corpus _ _
  have b : ∀ M : W2VModel F, fsBatchWords (o.corpus lower) (M.renamed f).corpus.dic q o.batchSize = fsBatchWords (o.corpus lower) M.corpus.dic p o.batchSize :=
    fun M => batch_renamed h _ hc M.corpus.dic _
  have up : ∀ (M : W2VModel F) (s' : σ), w2vSetup lower r o p p s = .ok (M, s') → w2vSetup lower r o q q s = .ok (M.renamed f, s') := by
    intro M s' h1; rw [e, h1]; rfl
  have down : ∀ (M : W2VModel F) (s' : σ), w2vSetup lower r o q q s = .ok (M, s') → ∃ M0, w2vSetup lower r o p p s = .ok (M0, s') ∧ M = M0.renamed f := by
    intro M s' h1
    rw [e, onOk_ok] at h1
    obtain ⟨⟨M0, s0⟩, h2, h3⟩ := h1
    simp only [Prod.mk.injEq] at h3
    exact ⟨M0, by rw [h3.2]; exact h2, h3.1⟩
  constructor
  · intro ht
    cases ht with
    | setupErr e' h1 => rw [e, onOk_err] at h1; exact ⟨_, .setupErr e' h1, rfl⟩
    | setupPanic x h1 => rw [e, onOk_panic] at h1; exact ⟨_, .setupPanic x h1, rfl⟩
    | slicePanic M s' x h1 h2 =>
      obtain ⟨M0, h3, rfl⟩ := down M s' h1
      exact ⟨_, .slicePanic M0 s' x h3 ((d M0).symm.trans h2), rfl⟩
    | panics M s' docs x h1 h2 h3 =>
      obtain ⟨M0, h4, rfl⟩ := down M s' h1
      exact ⟨_, .panics M0 s' docs x h4 ((d M0).symm.trans h2) h3, rfl⟩
    | producerPanic M s' b' x h1 h2 h3 h4 =>
      obtain ⟨M0, h5, rfl⟩ := down M s' h1
      exact ⟨_, .producerPanic M0 s' b' x h5 h2 h3 ((b M0).symm.trans h4), rfl⟩
    | done M s' docs mem h1 h2 h3 h4 =>
      obtain ⟨M0, h5, rfl⟩ := down M s' h1
      exact ⟨_, .done M0 s' docs mem h5 (by rw [← b M0]; exact h2) ((d M0).symm.trans h3) h4, rfl⟩
  · rintro ⟨res0, ht, rfl⟩
    cases ht with
    | setupErr e' h1 => exact .setupErr e' (by rw [e, h1]; rfl)
    | setupPanic x h1 => exact .setupPanic x (by rw [e, h1]; rfl)
    | slicePanic M s' x h1 h2 => exact .slicePanic (M.renamed f) s' x (up M s' h1) ((d M).trans h2)
    | panics M s' docs x h1 h2 h3 => exact .panics (M.renamed f) s' docs x (up M s' h1) ((d M).trans h2) h3
    | producerPanic M s' b' x h1 h2 h3 h4 => exact .producerPanic (M.renamed f) s' b' x (up M s' h1) h2 h3 ((b M).trans h4)
    | done M s' docs mem h1 h2 h3 h4 =>
      exact .done (M.renamed f) s' docs mem (up M s' h1) (by rw [b M]; exact h2) ((d M).trans h3) h4

/-- **C114 (LexVec).** -/
theorem C114_lexvec (env : MemEnv F) (lower : Word → Word) (enum : GoMap (BitVec 64) F → List (BitVec 64 × F)) (r : σ → F × σ) (o : LexvecOptions F)
    (hc : Commutes f (o.corpus lower)) (s : σ) (next : UInt64) (res : Res (LexModel F)) :
    LexTrain env lower enum r o q s next res ↔ ∃ res0, LexTrain env lower enum r o p s next res0 ∧ res = res0.onOk (LexModel.renamed f) := by
  have e := lexSetup_renamed h lower enum r o hc s
  have d : ∀ M : LexModel F, workerDocs o.docInMemory (o.corpus lower) (M.renamed f).corpus q o.goroutines o.batchSize
      = workerDocs o.docInMemory (o.corpus lower) M.corpus p o.goroutines o.batchSize := fun M => docs_renamed h _ hc _ M.corpus _ _
  have b : ∀ M : LexModel F, fsBatchWords (o.corpus lower) (M.renamed f).corpus.dic q o.batchSize = fsBatchWords (o.corpus lower) M.corpus.dic p o.batchSize :=
    fun M => batch_renamed h _ hc M.corpus.dic _
  have up : ∀ (M : LexModel F) (s' : σ), lexSetup lower enum r o p p s = .ok (M, s') → lexSetup lower enum r o q q s = .ok (M.renamed f, s') := by
    intro M s' h1; rw [e, h1]; rfl
  have down : ∀ (M : LexModel F) (s' : σ), lexSetup lower enum r o q q s = .ok (M, s') → ∃ M0, lexSetup lower enum r o p p s = .ok (M0, s') ∧ M = M0.renamed f := by
    intro M s' h1
    rw [e, onOk_ok] at h1
    obtain ⟨⟨M0, s0⟩, h2, h3⟩ := h1
    simp only [Prod.mk.injEq] at h3
    exact ⟨M0, by rw [h3.2]; exact h2, h3.1⟩
  constructor
  · intro ht
    cases ht with
    | setupErr e' h1 => rw [e, onOk_err] at h1; exact ⟨_, .setupErr e' h1, rfl⟩
    | setupPanic x h1 => rw [e, onOk_panic] at h1; exact ⟨_, .setupPanic x h1, rfl⟩
    | slicePanic M s' x h1 h2 =>
      obtain ⟨M0, h3, rfl⟩ := down M s' h1
      exact ⟨_, .slicePanic M0 s' x h3 ((d M0).symm.trans h2), rfl⟩
    | panics M s' docs x h1 h2 h3 h3' =>
      obtain ⟨M0, h4, rfl⟩ := down M s' h1
      exact ⟨_, .panics M0 s' docs x h4 ((d M0).symm.trans h2) h3 h3', rfl⟩
    | chanPanic M s' h1 h2 h3 h4 =>
      obtain ⟨M0, h5, rfl⟩ := down M s' h1
      exact ⟨_, .chanPanic M0 s' h5 h2 h3 h4, rfl⟩
    | producerPanic M s' b' x h1 h2 h3 h4 h4' =>
      obtain ⟨M0, h5, rfl⟩ := down M s' h1
      exact ⟨_, .producerPanic M0 s' b' x h5 h2 h3 ((b M0).symm.trans h4) h4', rfl⟩
    | done M s' docs mem h1 h2 h3 h4 h4' =>
      obtain ⟨M0, h5, rfl⟩ := down M s' h1
      exact ⟨_, .done M0 s' docs mem h5 (by rw [← b M0]; exact h2) ((d M0).symm.trans h3) h4 h4', rfl⟩
  · rintro ⟨res0, ht, rfl⟩
    cases ht with
    | setupErr e' h1 => exact .setupErr e' (by rw [e, h1]; rfl)
    | setupPanic x h1 => exact .setupPanic x (by rw [e, h1]; rfl)
    | slicePanic M s' x h1 h2 => exact .slicePanic (M.renamed f) s' x (up M s' h1) ((d M).trans h2)
    | panics M s' docs x h1 h2 h3 h3' => exact .panics (M.renamed f) s' docs x (up M s' h1) ((d M).trans h2) h3 h3'
    | chanPanic M s' h1 h2 h3 h4 => exact .chanPanic (M.renamed f) s' (up M s' h1) h2 h3 h4
    | producerPanic M s' b' x h1 h2 h3 h4 h4' => exact .producerPanic (M.renamed f) s' b' x (up M s' h1) h2 h3 ((b M).trans h4) h4'
    | done M s' docs mem h1 h2 h3 h4 h4' =>
      exact .done (M.renamed f) s' docs mem (up M s' h1) (by rw [b M]; exact h2) ((d M).trans h3) h4 h4'

/-- **C114 (GloVe).** -/
theorem C114_glove (env : MemEnv F) (lower : Word → Word) (enum : GoMap (BitVec 64) F → List (BitVec 64 × F)) (r : σ → F × σ) (o : GloveOptions F)
    (hc : Commutes f (o.corpus lower)) (s : σ) (next : UInt64) (res : Res (GloveModel F)) :
    GloveTrain env lower enum r o q s next res ↔ ∃ res0, GloveTrain env lower enum r o p s next res0 ∧ res = res0.onOk (GloveModel.renamed f) := by
  have e := gloveSetup_renamed h lower r o hc s
  have up : ∀ (M : GloveModel F) (s' : σ), gloveSetup lower r o p p s = .ok (M, s') → gloveSetup lower r o q q s = .ok (M.renamed f, s') := by
    intro M s' h1; rw [e, h1]; rfl
  have down : ∀ (M : GloveModel F) (s' : σ), gloveSetup lower r o q q s = .ok (M, s') → ∃ M0, gloveSetup lower r o p p s = .ok (M0, s') ∧ M = M0.renamed f := by
    intro M s' h1
    rw [e, onOk_ok] at h1
    obtain ⟨⟨M0, s0⟩, h2, h3⟩ := h1
    simp only [Prod.mk.injEq] at h3
    exact ⟨M0, by rw [h3.2]; exact h2, h3.1⟩
  constructor
  · intro ht
    cases ht with
    | setupErr e' h1 => rw [e, onOk_err] at h1; exact ⟨_, .setupErr e' h1, rfl⟩
    | setupPanic x h1 => rw [e, onOk_panic] at h1; exact ⟨_, .setupPanic x h1, rfl⟩
    | slicePanic M s' x h1 h2 =>
      obtain ⟨M0, h3, rfl⟩ := down M s' h1
      exact ⟨_, .slicePanic M0 s' x h3 h2, rfl⟩
    | panics M s' slices x h1 h2 h3 =>
      obtain ⟨M0, h4, rfl⟩ := down M s' h1
      exact ⟨_, .panics M0 s' slices x h4 h2 h3, rfl⟩
    | done M s' slices mem h1 h2 h3 =>
      obtain ⟨M0, h5, rfl⟩ := down M s' h1
      exact ⟨_, .done M0 s' slices mem h5 h2 h3, rfl⟩
  · rintro ⟨res0, ht, rfl⟩
    cases ht with
    | setupErr e' h1 => exact .setupErr e' (by rw [e, h1]; rfl)
    | setupPanic x h1 => exact .setupPanic x (by rw [e, h1]; rfl)
    | slicePanic M s' x h1 h2 => exact .slicePanic (M.renamed f) s' x (up M s' h1) h2
    | panics M s' slices x h1 h2 h3 => exact .panics (M.renamed f) s' slices x (up M s' h1) h2 h3
    | done M s' slices mem h1 h2 h3 => exact .done (M.renamed f) s' slices mem (up M s' h1) h2 h3

end

/-! ## searching -/

section
variable {F : Type} [GoFloat F] {f : Word → Word}

theorem bubble_renamed (i : Nat) (t : Neighbor F) (ns : List (Neighbor F)) :
    bubble i (t.renamed f) (ns.map (Neighbor.renamed f)) = ((bubble i t ns).1.map (Neighbor.renamed f), (bubble i t ns).2.renamed f) := by
  induction ns generalizing i t with
  | nil => rfl
  | cons n ns ih =>
    rw [List.map_cons, bubble.eq_def, bubble.eq_def (i := i) (temp := t)]
    simp only [ih]
    have e1 : (n.renamed f).sim = n.sim := rfl
    have e2 : (t.renamed f).sim = t.sim := rfl
    rw [e1, e2]
    split <;> rfl

variable (hinj : ∀ v w, f v = f w → v = w) (hempty : f [] = [])
include hinj hempty

theorem guardK_renamed (i : Nat) (k : Int) (ns : List (Neighbor F)) : guardK i k (ns.map (Neighbor.renamed f)) = guardK i k ns := by
  induction ns generalizing i k with
  | nil => rfl
  | cons n ns ih =>
    have e : ((n.renamed f).word = []) ↔ (n.word = []) := by
      constructor
      · intro h; exact hinj _ _ (h.trans hempty.symm)
      · intro h; show f n.word = []; rw [h, hempty]
    simp only [List.map_cons, guardK, ih, e]

/-- **C114 (searching).** Replacing every word, different words by different words, replaces the words in the lists of neighbours and changes nothing
else: not the order, the ranks, the similarities, nor whether and how the search fails. -/
theorem C114_search (items : List (Embedding F)) (q : Embedding F) (k : Int) (ignore : List Word) :
    (Searcher.mk (items.map (Embedding.renamed f))).search (q.renamed f) k (ignore.map f) =
      ((Searcher.mk items).search q k ignore).onOk (List.map (Neighbor.renamed f)) := by
  let g : SearchSt F → SearchSt F := fun st => { st with neighbors := st.neighbors.map (Neighbor.renamed f) }
  have step : ∀ it st, searchStep (q.renamed f) ((ignore.map f).foldl (fun m w => GoMap.set m w ()) GoMap.empty) (it.renamed f) (g st) =
      (searchStep q (ignore.foldl (fun m w => GoMap.set m w ()) GoMap.empty) it st).onOk g := by
    intro it st
    unfold searchStep
    have hm : f it.word ∈ ignore.map f ↔ it.word ∈ ignore := by
      rw [List.mem_map]
      constructor
      · rintro ⟨w, h1, h2⟩; rw [← hinj _ _ h2]; exact h1
      · intro h; exact ⟨_, h, rfl⟩
    by_cases hig : it.word ∈ ignore
    · rw [if_pos (by rw [ignore_get]; exact Or.inl (hm.2 hig)), if_pos (by rw [ignore_get]; exact Or.inl hig)]
      rfl
    · rw [if_neg (by rw [ignore_get]; rintro (h | h); exacts [hig (hm.1 h), absurd h (by simp [GoMap.empty, GoMap.get?])]),
        if_neg (by rw [ignore_get]; simp [hig])]
      have e : cosine (q.renamed f).vector (it.renamed f).vector (q.renamed f).norm (it.renamed f).norm = cosine q.vector it.vector q.norm it.norm := rfl
      rw [e, onOk_bind]
      congr 1
      funext score
      have e2 : (g st).low = st.low := rfl
      rw [e2]
      split
      · have e3 := bubble_renamed (f := f) 0 { word := it.word, rank := 0, sim := score } st.neighbors
        have e4 : bubble 0 { word := (it.renamed f).word, rank := 0, sim := score } (g st).neighbors =
            bubble 0 (Neighbor.renamed f { word := it.word, rank := 0, sim := score }) (st.neighbors.map (Neighbor.renamed f)) := rfl
        dsimp only
        rw [e4, e3]
        dsimp only
        rw [List.length_map, onOk_bind]
        unfold idxI idx
        split
        · rfl
        · rw [List.getElem?_map]
          cases (bubble 0 { word := it.word, rank := 0, sim := score } st.neighbors).1[((bubble 0 { word := it.word, rank := 0, sim := score } st.neighbors).1.length - 1 : Int).toNat]? <;> rfl
      · rfl
  have loop : ∀ st, forEach (items.map (Embedding.renamed f)) (g st) (searchStep (q.renamed f) ((ignore.map f).foldl (fun m w => GoMap.set m w ()) GoMap.empty)) =
      (forEach items st (searchStep q (ignore.foldl (fun m w => GoMap.set m w ()) GoMap.empty))).onOk g := by
    induction items with
    | nil => intro st; rfl
    | cons it items ih =>
      intro st
      rw [List.map_cons, forEach_cons, forEach_cons, step]
      cases searchStep q (ignore.foldl (fun m w => GoMap.set m w ()) GoMap.empty) it st with
      | ok st' => exact ih st'
      | err e => rfl
      | panic p => rfl
  unfold Searcher.search
  split
  · rfl
  · dsimp only
    have hi : (⟨List.replicate k.toNat Neighbor.blank, fzero⟩ : SearchSt F) = g ⟨List.replicate k.toNat Neighbor.blank, fzero⟩ := by
      show _ = (⟨(List.replicate k.toNat Neighbor.blank).map (Neighbor.renamed f), fzero⟩ : SearchSt F)
      rw [List.map_replicate]
      congr 2
      unfold Neighbor.renamed Neighbor.blank
      rw [hempty]
    have l0 := loop ⟨List.replicate k.toNat Neighbor.blank, fzero⟩
    rw [← hi] at l0
    rw [l0, bind_onOk, onOk_bind]
    congr 1
    funext st
    have e1 : (g st).neighbors = st.neighbors.map (Neighbor.renamed f) := rfl
    rw [e1, guardK_renamed hinj hempty, List.length_map]
    split
    · rfl
    · rw [List.map_take.symm]; rfl

/-- **C114 (`SearchInternal`).** -/
theorem C114_search_internal (items : List (Embedding F)) (w : Word) (k : Int) :
    (Searcher.mk (items.map (Embedding.renamed f))).searchInternal (f w) k =
      ((Searcher.mk items).searchInternal w k).onOk (List.map (Neighbor.renamed f)) := by
  unfold Searcher.searchInternal
  have hfind : (items.map (Embedding.renamed f)).find? (fun item => decide (item.word = f w)) =
      (items.find? (fun item => decide (item.word = w))).map (Embedding.renamed f) := by
    rw [List.find?_map]
    congr 2
    funext it
    have : (f it.word = f w) ↔ it.word = w := ⟨hinj _ _, fun h => by rw [h]⟩
    simp [Function.comp, Embedding.renamed, this]
  dsimp only
  rw [hfind]
  cases items.find? (fun item => decide (item.word = w)) with
  | none => simp [Embedding.zero, Res.onOk]
  | some q =>
    dsimp only [Option.map]
    have e : ((q.renamed f).word = []) ↔ (q.word = []) := by
      constructor
      · intro h; exact hinj _ _ (h.trans hempty.symm)
      · intro h; show f q.word = []; rw [h, hempty]
    simp only [e]
    split
    · rfl
    · exact C114_search hinj hempty items q k [w]

end

/-! ## saving -/

section
variable {f : Word → Word} (hinj : ∀ v w, f v = f w → v = w)
include hinj

theorem addCalls_renamed (calls : List (List Word)) (dic : Dictionary) (hd : addCalls calls = .ok dic) :
    addCalls (calls.map (List.map f)) = .ok (dic.renamed f) := by
  have addl : ∀ (ws : List Word) (d : Dictionary), (d.renamed f).add (ws.map f) = (d.add ws).onOk (Dictionary.renamed f) := by
    intro ws
    induction ws with
    | nil => intro d; rfl
    | cons w ws ih =>
      intro d
      unfold Dictionary.add at ih ⊢
      rw [List.map_cons, forEach_cons, forEach_cons, add1_renamed hinj]
      cases d.add1 w with
      | ok d' => exact ih d'
      | err e => rfl
      | panic x => rfl
  have main : ∀ (calls : List (List Word)) (d : Dictionary), forEach (calls.map (List.map f)) (d.renamed f) (fun ws d => d.add ws) =
      (forEach calls d (fun ws d => d.add ws)).onOk (Dictionary.renamed f) := by
    intro calls
    induction calls with
    | nil => intro d; rfl
    | cons ws calls ih =>
      intro d
      rw [List.map_cons, forEach_cons, forEach_cons, addl]
      cases d.add ws with
      | ok d' => exact ih d'
      | err e => rfl
      | panic x => rfl
  have h := main calls Dictionary.new
  unfold addCalls at hd ⊢
  rw [hd] at h
  exact h

/-- **C114 (saving).** Saving the model with the other words succeeds when saving the model does, and writes the same file with the other words. -/
theorem C114_save (calls : List (List Word)) (dic : Dictionary) (hd : addCalls calls = .ok dic) (mat : Matrix F64) (c : Nat)
    (hm : mat.Shaped calls.flatten.dedup.length c) (v : Bool) (lb : Int) (hv : ¬ (v = true ∧ lb = 0)) :
    ∃ text text' rows, saveText dic mat v lb = .ok text ∧ saveText (dic.renamed f) mat v lb = .ok text' ∧
      IsSavedFile (firstOcc calls.flatten) rows text ∧ IsSavedFile ((firstOcc calls.flatten).map f) rows text' := by
  obtain ⟨d, hd1, hr⟩ := addCalls_rep calls
  rw [hd] at hd1; obtain rfl := Res.ok.inj hd1
  obtain ⟨d2, hd2, hr2⟩ := addCalls_rep (calls.map (List.map f))
  rw [addCalls_renamed hinj calls dic hd] at hd2; obtain rfl := Res.ok.inj hd2
  have hlen2 : calls.flatten.dedup.length = (firstOcc calls.flatten).length := by
    rw [← hr.len_eq]; exact hr.maxid
  have hfo : firstOcc (calls.map (List.map f)).flatten = (firstOcc calls.flatten).map f := by
    rw [← hr2.id2word, ← hr.id2word]; rfl
  have hl : (firstOcc (calls.map (List.map f)).flatten).length = (firstOcc calls.flatten).length := by rw [hfo, List.length_map]
  rw [hlen2] at hm
  refine ⟨_, _, rowsOf mat (firstOcc calls.flatten).length, saveText_eq hr hm v lb hv, saveText_eq hr2 (by rw [hl]; exact hm) v lb hv,
    isSavedFile_fileText _ _ (by simp [rowsOf]), ?_⟩
  rw [hl, hfo]
  exact isSavedFile_fileText _ _ (by simp [rowsOf])

end

/-! ## vector files -/

/-- `m` is the line `l` of a vector file with its word replaced: the same fields but for the first, and a comment if `l` is one. -/
def RenamedLine (f : Word → Word) (l m : List Char) : Prop :=
  ((stripCR l).head? = some ' ' ↔ (stripCR m).head? = some ' ') ∧
    ∃ w ws, IsWords (stripCR l) (w :: ws) ∧ (IsWords (stripCR m) (f w :: ws))

/-- **C114 (vector files).** If a vector file loads, the file with other words loads as well, and gives the same vectors with the other words. -/
theorem C114_file (f : Word → Word) (other : Word → Option F64) (p q : Pass) (ls ms : List (List Char)) (hp : RawLines p.text ls)
    (hq : RawLines q.text ms) (h : List.Forall₂ (RenamedLine f) ls ms) (hm : ∀ m ∈ ms, utf8Len m < 65536) (hf : p.fails = q.fails)
    (embs : List (Embedding F64)) (hl : load other p = .ok embs) :
    load other q = .ok (embs.map (Embedding.renamed f)) := by
  obtain ⟨h1, ns, h2, -, h4⟩ := (C52_load_iff other p embs).1 hl
  obtain rfl := rawLines_unique hp h2
  refine (C52_load_iff other q _).2 ⟨hf ▸ h1, _, hq, hm, ?_⟩
  clear hp hq hm hf hl h1 h2
  induction h generalizing embs with
  | nil => cases h4; exact .nil
  | @cons l m ls ms h1 h2 ih =>
    obtain ⟨e1, w, ws, w1, w2⟩ := h1
    rw [List.map_cons] at h4 ⊢
    by_cases hc : (stripCR l).head? = some ' '
    · rw [List.filter_cons_of_neg (by simpa using hc)] at h4
      rw [List.filter_cons_of_neg (by simpa using e1.1 hc)]
      exact ih embs h4
    · rw [List.filter_cons_of_pos (by simpa using hc)] at h4
      rw [List.filter_cons_of_pos (by simpa using fun h => hc (e1.2 h))]
      cases h4 with
      | @cons _ e _ embs k1 k2 =>
        refine .cons ?_ (ih _ k2)
        obtain ⟨toks, q1, q2, q3⟩ := k1
        have := q2.eq_fields.trans w1.eq_fields.symm
        have hw : e.word = w ∧ toks = ws := by simpa using this
        obtain ⟨rfl, rfl⟩ := hw
        exact ⟨toks, q1, w2, q3⟩

theorem validateLoop_renamed (f : Word → Word) (d : Int) (embs : List (Embedding F64)) :
    Embedding.validateLoop d (embs.map (Embedding.renamed f)) = Embedding.validateLoop d embs := by
  induction embs with
  | nil => rfl
  | cons e embs ih =>
    rw [List.map_cons, Embedding.validateLoop, Embedding.validateLoop, ih]
    rfl

/-- **C114 (the `query` command).** A query for the other word on the file with the other words prints the same table with the other words. -/
theorem C114_query (f : Word → Word) (hinj : ∀ v w, f v = f w → v = w) (hempty : f [] = []) (other : Word → Option F64) (fs fs' : FS)
    (input input' : Path) (ls ms : List (List Char)) (hp : RawLines (fs.read input) ls) (hq : RawLines (fs'.read input') ms)
    (h : List.Forall₂ (RenamedLine f) ls ms) (hm : ∀ m ∈ ms, utf8Len m < 65536) (hex : fs'.exists input' = true) (w : Word) (k : Int)
    (res : List (Neighbor F64)) (hres : queryExecute other fs false false input [w] k = .ok res) :
    queryExecute other fs' false false input' [f w] k = .ok (res.map (Neighbor.renamed f)) ∧
    describe (res.map (Neighbor.renamed f)) = List.zipWith (fun n row => row.set 1 (f n.word)) res (describe res) := by
  constructor
  · unfold queryExecute at hres ⊢
    split at hres
    · cases hres
    rw [if_neg (by simp [hex])]
    simp only [Bool.false_eq_true, if_false] at hres ⊢
    obtain ⟨embs, hl, hres⟩ := Res.bind_eq_ok.1 hres
    obtain ⟨s, hs, hres⟩ := Res.bind_eq_ok.1 hres
    rw [C114_file f other ⟨fs.read input, false⟩ ⟨fs'.read input', false⟩ ls ms hp hq h hm rfl embs hl, Res.ok_bind]
    have hn : Searcher.new (embs.map (Embedding.renamed f)) = .ok ⟨embs.map (Embedding.renamed f)⟩ ∧ s = ⟨embs⟩ := by
      unfold Searcher.new at hs ⊢
      obtain ⟨u, hu, hs⟩ := Res.bind_eq_ok.1 hs
      refine ⟨?_, (Res.ok.inj hs).symm⟩
      have : Embedding.validateAll (embs.map (Embedding.renamed f)) = Embedding.validateAll embs := by
        cases embs with
        | nil => rfl
        | cons e es => exact validateLoop_renamed f e.dim (e :: es)
      rw [this, hu]
      rfl
    rw [hn.1, Res.ok_bind, C114_search_internal hinj hempty]
    rw [hn.2] at hres
    rw [hres]
    rfl
  · unfold describe
    rw [List.map_map, List.zipWith_map_right, List.zipWith_self]
    rfl

/-- `Commutes` holds when `ToLower` is off. -/
theorem commutes_off (f lower : Word → Word) (hi lo : Int) : Commutes f ⟨false, lower, hi, lo⟩ := fun _ => rfl

/-- the renaming that exchanges `a` and `b` -/
def swapAB (w : Word) : Word := if w = ['a'] then ['b'] else if w = ['b'] then ['a'] else w

theorem swapAB_inj : ∀ v w, swapAB v = swapAB w → v = w := by
  intro v w hvw
  unfold swapAB at hvw
  split at hvw <;> split at hvw <;> (try split at hvw) <;> (try split at hvw) <;> simp_all

/-- A case: `a b a` and `b a b`. -/
theorem renamed_aba : Renamed swapAB ⟨"a b a".toList, false⟩ ⟨"b a b".toList, false⟩ := by
  refine ⟨?_, by decide, ⟨[['a'], ['b'], ['a']], ?_, ?_, by decide⟩, rfl⟩
  · exact swapAB_inj
  · have := isWords_fields "a b a".toList
    exact this
  · have := isWords_fields "b a b".toList
    exact this

/-- `C114_word2vec` on it. -/
example {F : Type} [GoMath F] {σ : Type} (env : MemEnv F) (lower : Word → Word) (r : σ → F × σ) (o : W2VOptions F) (ho : o.toLower = false) (s : σ) (next : UInt64)
    (res : Res (W2VModel F)) :
    W2VTrain env lower r o ⟨"b a b".toList, false⟩ s next res ↔
      ∃ res0, W2VTrain env lower r o ⟨"a b a".toList, false⟩ s next res0 ∧ res = res0.onOk (W2VModel.renamed swapAB) :=
  C114_word2vec renamed_aba env lower r o (by
    have : o.corpus lower = ⟨false, lower, o.maxCount, o.minCount⟩ := by unfold W2VOptions.corpus; rw [ho]
    rw [this]; exact commutes_off _ _ _ _) s next res

/-- `C114_search_internal` on vectors for `a`, `b` and `c`: whatever they are, the neighbours of `b` after the exchange are those of `a` before it, exchanged. -/
example {F : Type} [GoFloat F] (u v w : List F) (x y z : F) (k : Int) :
    (Searcher.mk [⟨['b'], 1, u, x⟩, ⟨['a'], 1, v, y⟩, ⟨['c'], 1, w, z⟩]).searchInternal ['b'] k =
      ((Searcher.mk [⟨['a'], 1, u, x⟩, ⟨['b'], 1, v, y⟩, ⟨['c'], 1, w, z⟩]).searchInternal ['a'] k).onOk (List.map (Neighbor.renamed swapAB)) :=
  C114_search_internal swapAB_inj (by decide) [⟨['a'], 1, u, x⟩, ⟨['b'], 1, v, y⟩, ⟨['c'], 1, w, z⟩] ['a'] k

/-- `C114_file`: the same vectors for `a` and for `b` written with a tab. -/
example : RenamedLine swapAB "a 1.5 2".toList "b\t1.5 2".toList :=
  ⟨by decide, ['a'], ["1.5".toList, "2".toList], isWords_fields "a 1.5 2".toList, isWords_fields "b\t1.5 2".toList⟩

/-- `C114_query` on a file with the vectors of `a`, `b` and `c`: the neighbours of `a` are `c` and `b`; in the file where `a` and `b` are exchanged those of `b`
are `c` and `a`. -/
example : (match queryExecute (fun _ => none)
    (fun p => if p = "v".toList then some (.file "b 1.0 0.0\na 0.0 1.0\nc 2.0 1.0\n".toList) else none) false false "v".toList ["b".toList] 1 with
    | .ok ns => ns.map (·.word)
    | _ => []) = [['c']] := by
  have h : (match queryExecute (fun _ => none)
    (fun p => if p = "v".toList then some (.file "a 1.0 0.0\nb 0.0 1.0\nc 2.0 1.0\n".toList) else none) false false "v".toList ["a".toList] 1 with
    | .ok ns => decide (ns.map (·.word) = [['c']])
    | _ => false) = true := by decide +kernel
  split at h
  · rename_i ns hns
    have line : ∀ (w v : Word) (t : List Char), swapAB w = v → (stripCR (w ++ t)).head? ≠ some ' ' → (stripCR (v ++ t)).head? ≠ some ' ' →
        fields (stripCR (w ++ t)) = w :: fields t → fields (stripCR (v ++ t)) = v :: fields t → RenamedLine swapAB (w ++ t) (v ++ t) := by
      intro w v t e h1 h2 h3 h4
      refine ⟨by simp [h1, h2], w, fields t, ?_, ?_⟩
      · rw [← h3]; exact isWords_fields _
      · rw [e, ← h4]; exact isWords_fields _
    obtain ⟨h1, -⟩ := C114_query swapAB swapAB_inj (by decide) (fun _ => none)
      (fun p => if p = "v".toList then some (.file "a 1.0 0.0\nb 0.0 1.0\nc 2.0 1.0\n".toList) else none)
      (fun p => if p = "v".toList then some (.file "b 1.0 0.0\na 0.0 1.0\nc 2.0 1.0\n".toList) else none) "v".toList "v".toList
      ["a 1.0 0.0".toList, "b 0.0 1.0".toList, "c 2.0 1.0".toList] ["b 1.0 0.0".toList, "a 0.0 1.0".toList, "c 2.0 1.0".toList]
      (by exact .cons "a 1.0 0.0".toList _ _ (by decide) (.cons "b 0.0 1.0".toList _ _ (by decide) (.cons "c 2.0 1.0".toList [] _ (by decide) .nil)))
      (by exact .cons "b 1.0 0.0".toList _ _ (by decide) (.cons "a 0.0 1.0".toList _ _ (by decide) (.cons "c 2.0 1.0".toList [] _ (by decide) .nil)))
      (.cons (line ['a'] ['b'] " 1.0 0.0".toList (by decide) (by decide) (by decide) (by decide) (by decide))
        (.cons (line ['b'] ['a'] " 0.0 1.0".toList (by decide) (by decide) (by decide) (by decide) (by decide))
          (.cons (line ['c'] ['c'] " 2.0 1.0".toList (by decide) (by decide) (by decide) (by decide) (by decide)) .nil)))
      (by decide) (by decide) ['a'] 1 ns hns
    have e : swapAB ['a'] = "b".toList := by decide
    rw [e] at h1
    rw [h1]
    rw [decide_eq_true_eq] at h
    show (ns.map (Neighbor.renamed swapAB)).map (·.word) = _
    rw [List.map_map]
    have : ((fun n : Neighbor F64 => n.word) ∘ Neighbor.renamed swapAB) = swapAB ∘ (fun n => n.word) := rfl
    rw [this, ← List.map_map, h]
    decide
  · simp at h

/-- `C114_save` on the model of C48: the file with `a` and `b` exchanged. -/
example : ∃ text text' rows, saveText slDic slMat false 0 = .ok text ∧ saveText (slDic.renamed swapAB) slMat false 0 = .ok text' ∧
    IsSavedFile (firstOcc slCalls.flatten) rows text ∧ IsSavedFile ((firstOcc slCalls.flatten).map swapAB) rows text' :=
  C114_save swapAB_inj slCalls slDic sl_dic slMat 2 ⟨rfl, rfl, rfl⟩ false 0 (by simp)

end Wego.Props
