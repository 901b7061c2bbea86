import Verif.Model.TrainSys
import Verif.Proofs.TrainProg
import Verif.Props.Train
import Verif.Props.Glove

/-! # From the set-up to the worker goroutines -/

namespace Wego
open Prog Props Matrix Spec Dictionary
variable {F : Type}

section
variable [GoFloat F]

theorem parts_mem {α : Type} (l : List α) (v : List Int) (t : Nat) (ps : List (List α)) (h : parts l v t = .ok ps) :
    ∀ d ∈ ps, ∀ x ∈ d, x ∈ l := by
  have := forFrom_inv_partial (fun acc : List (List α) => ∀ d ∈ acc, ∀ x ∈ d, x ∈ l) 0 t [] ps
    (fun i acc =>
    idx v i >>= fun a => idx v (i + 1) >>= fun b =>
    if 0 ≤ a ∧ a ≤ b ∧ b ≤ l.length then .ok (acc ++ [(l.take b.toNat).drop a.toNat])
    else .panic .sliceBounds) (by simp) (by
      intro i s s' _ _ hs hf
      rw [Res.bind_eq_ok] at hf
      obtain ⟨a, _, hf⟩ := hf
      rw [Res.bind_eq_ok] at hf
      obtain ⟨b, _, hf⟩ := hf
      split at hf
      · cases hf
        intro d hd x hx
        rcases List.mem_append.1 hd with hd | hd
        · exact hs d hd x hx
        · simp only [List.mem_singleton] at hd
          subst hd
          exact List.mem_of_mem_take (List.mem_of_mem_drop hx)
      · cases hf) h
  exact this

/-- the documents of the workers contain only ids of the training sequence -/
theorem workerDocs_mem (im : Bool) (cfg : CorpusCfg) (c : CorpusState F) (p : Pass) (ws : List Word) (h : Readable p ws)
    (hr : c.dic.Rep (ws.map cfg.norm)) (hadd : addCalls [ws.map cfg.norm] = .ok c.dic)
    (hidoc : im = true → memIndexedDoc cfg c = .ok (trainSeq cfg.maxCount cfg.minCount (ws.map cfg.norm)))
    (g bs : Int) (hbs : im = true ∨ 1 ≤ bs) (docs : List (List Nat)) (hd : workerDocs im cfg c p g bs = .ok docs) :
    ∀ d ∈ docs, ∀ id ∈ d, id ∈ trainSeq cfg.maxCount cfg.minCount (ws.map cfg.norm) := by
  unfold workerDocs at hd
  cases im with
  | true =>
    simp only [if_true, hidoc rfl, Res.ok_bind] at hd
    rw [Res.bind_eq_ok] at hd
    obtain ⟨v, _, hd⟩ := hd
    exact parts_mem _ _ _ _ hd
  | false =>
    simp only [Bool.false_eq_true, if_false, false_or] at hd hbs
    obtain ⟨b, rfl⟩ := Int.eq_ofNat_of_zero_le (by omega : 0 ≤ bs)
    obtain ⟨full, last, e, _, _, e2⟩ := C12_batches cfg p ws h c.dic hadd b (by omega)
    rw [e] at hd
    cases hd
    intro d hd id hid
    rw [← e2]
    simp only [sentBatches, List.mem_filterMap, List.mem_append, List.mem_map, List.mem_cons, List.not_mem_nil, or_false] at hd
    obtain ⟨ev, hev, hd⟩ := hd
    rcases hev with ⟨x, hx, rfl⟩ | rfl | rfl
    · cases hd
      exact List.mem_append_left _ (List.mem_flatten.2 ⟨_, hx, hid⟩)
    · cases hd
      exact List.mem_append_right _ hid
    · cases hd

theorem mem_trainSeq_lt (max min : Int) (us : List Word) (id : Nat) (h : id ∈ trainSeq max min us) : id < us.dedup.length := by
  unfold trainSeq at h
  obtain ⟨w, hw, rfl⟩ := List.mem_map.1 h
  have hw' : w ∈ us := (List.mem_filter.1 hw).1
  rw [← idxOf_firstOcc us w hw', ← length_firstOcc]
  exact List.idxOf_lt_length_iff.2 (by simpa using hw')

/-- an id of a word outside the count limits is not in the training sequence -/
theorem not_mem_trainSeq (max min : Int) (us : List Word) (w : Word) (hw : w ∈ us) (ho : outside max min (us.count w)) :
    distinctBefore us w ∉ trainSeq max min us := by
  intro h
  unfold trainSeq at h
  obtain ⟨w', hw', e⟩ := List.mem_map.1 h
  obtain ⟨h1, h2⟩ := List.mem_filter.1 hw'
  rw [← idxOf_firstOcc us w hw, ← idxOf_firstOcc us w' h1] at e
  have : w' = w := (List.idxOf_inj (by simpa using h1)).1 e
  subst this
  exact absurd ho (by simpa using h2)

/-- the nodes of the tree have no vector or one of `dim` values -/
theorem huffLoop_vlen (dim : Int) (fuel : Nat) (arena : List (HNode F)) (nodes : List Nat) (r : List (HNode F) × List Nat)
    (h : huffLoop dim fuel arena nodes = .ok r) (ha : ∀ n ∈ arena, (n.vector.getD []).length ≤ dim.toNat) :
    ∀ n ∈ r.1, (n.vector.getD []).length ≤ dim.toNat := by
  induction fuel generalizing arena nodes with
  | zero => cases h; exact ha
  | succ fuel ih =>
    match nodes with
    | [] => cases h; exact ha
    | [a] => cases h; exact ha
    | a :: b :: l =>
      rw [huffLoop] at h
      split at h
      · cases h
      · refine ih _ _ h ?_
        have hlink : ∀ (ar : List (HNode F)) i p c, (∀ n ∈ ar, (n.vector.getD []).length ≤ dim.toNat) →
            ∀ n ∈ linkTo ar i p c, (n.vector.getD []).length ≤ dim.toNat := by
          intro ar i p c har n hn
          unfold linkTo at hn
          obtain ⟨k, hk, rfl⟩ := List.mem_iff_getElem.1 hn
          rw [List.getElem_modify]
          split
          · exact har (ar[k]'(by simpa using hk)) (List.getElem_mem _)
          · exact har (ar[k]'(by simpa using hk)) (List.getElem_mem _)
        intro n hn
        unfold huffMerge at hn
        dsimp only at hn
        rcases List.mem_append.1 hn with hn | hn
        · exact hlink _ _ _ _ (hlink _ _ _ _ ha) n hn
        · simp only [List.mem_singleton] at hn
          subst hn
          simp

theorem huffmanTree_vlen (d : Dictionary) (ws : List Word) (hr : d.Rep ws) (dim : Int) (t : List (HNode F) × List Nat)
    (h : huffmanTree d dim = .ok t) : (∀ n ∈ t.1, (n.vector.getD []).length ≤ dim.toNat) ∧ t.2.length = d.len := by
  unfold huffmanTree at h
  rw [huffLeaves_eq d ws hr, Res.ok_bind] at h
  dsimp only at h
  rw [Res.bind_eq_ok] at h
  obtain ⟨r, h1, h2⟩ := h
  cases h2
  refine ⟨huffLoop_vlen dim _ _ _ r h1 ?_, by simp [Dictionary.len]⟩
  intro n hn
  obtain ⟨v, _, rfl⟩ := List.mem_map.1 hn
  simp

end

/-- What the set-up of word2vec gives on a readable document. -/
theorem w2vSetup_facts [GoMath F] {σ : Type} (lower : Word → Word) (r : σ → F × σ) (o : W2VOptions F) (dim : Nat) (hdim : o.dim = dim)
    (p : Pass) (ws : List Word) (h : Readable p ws) (s s' : σ) (M : W2VModel F) (hM : w2vSetup lower r o p p s = .ok (M, s')) :
    addCalls [ws.map (o.corpus lower).norm] = .ok M.corpus.dic ∧ M.corpus.dic.Rep (ws.map (o.corpus lower).norm) ∧
      (o.docInMemory = true → memIndexedDoc (o.corpus lower) M.corpus = .ok (trainSeq o.maxCount o.minCount (ws.map (o.corpus lower).norm))) ∧
      W2VShaped M.corpus.dic.len dim M.param M.opt ∧ M.samples.length = M.corpus.dic.len ∧ M.table = sigTable ∧
      (∀ hs, M.opt = .hs hs → (∀ n ∈ hs.arena, (n.vector.getD []).length ≤ dim) ∧ hs.nodeset.length = M.corpus.dic.len) := by
  unfold w2vSetup at hM
  generalize (sigTable : List F) = tb at hM ⊢
  rw [Res.bind_eq_ok] at hM
  obtain ⟨c, hc, hM⟩ := hM
  have hload : addCalls [ws.map (o.corpus lower).norm] = .ok c.dic ∧ c.dic.Rep (ws.map (o.corpus lower).norm) ∧
      (o.docInMemory = true → memIndexedDoc (o.corpus lower) c = .ok (trainSeq o.maxCount o.minCount (ws.map (o.corpus lower).norm))) := by
    unfold loadCorpus at hc
    cases hb : o.docInMemory with
    | true =>
      rw [hb] at hc; simp only [if_true] at hc
      obtain ⟨c0, h1, h2, _, _, _, h6⟩ := memLoad_readable (F := F) (o.corpus lower) h
      obtain ⟨c1, g1, _, _, g4⟩ := C11_memory_corpus (F := F) (o.corpus lower) p ws h
      rw [hc] at g1
      cases g1
      have := h6 none; rw [hc] at this; cases this
      exact ⟨by rw [addCalls_one]; exact h1, h2, fun _ => g4⟩
    | false =>
      rw [hb] at hc; simp only [Bool.false_eq_true, if_false] at hc
      obtain ⟨c0, h1, h2, _, _, _, h6, _⟩ := fsLoad_readable (F := F) (o.corpus lower) h
      rw [hc] at h6; cases h6
      exact ⟨by rw [addCalls_one]; exact h1, h2, by simp⟩
  obtain ⟨hadd, hr, hidx⟩ := hload
  obtain ⟨m, s1, e1, q1⟩ := randMatrix_ok r (initValue (F := F) o.dim) c.dic.len dim s
  rw [← hdim] at e1
  rw [e1, Res.ok_bind, subsamples_eq c.dic _ hr, Res.ok_bind, Res.bind_eq_ok] at hM
  obtain ⟨b, _, hM⟩ := hM
  have hlen : ((firstOcc (ws.map (o.corpus lower).norm)).map (fun w => sampleValue o.subsampleThreshold ((ws.map (o.corpus lower).norm).count w))).length = c.dic.len := by
    rw [List.length_map]; exact hr.maxid.symm
  split at hM
  · obtain ⟨m2, s2, e2, q2⟩ := randMatrix_ok r (initValue (F := F) o.dim) c.dic.len dim s1
    rw [← hdim] at e2
    rw [e2, Res.ok_bind] at hM
    cases hM
    exact ⟨hadd, hr, hidx, ⟨q1, by rintro _ ⟨⟩; exact q2⟩, hlen, rfl, by rintro _ ⟨⟩⟩
  · split at hM
    · rw [Res.bind_eq_ok] at hM
      obtain ⟨t, ht, hM⟩ := hM
      cases hM
      refine ⟨hadd, hr, hidx, ⟨q1, by rintro _ ⟨⟩⟩, hlen, rfl, ?_⟩
      rintro hs ⟨⟩
      have := huffmanTree_vlen c.dic _ hr o.dim t ht
      rw [hdim, Int.toNat_natCast] at this
      exact this
    · cases hM

section
variable [GoFloat F]

theorem cellAt_eq {m : Matrix F} {r c : Nat} (h : Shaped m r c) {i j : Nat} (hi : i < r) (hj : j < c) : m.cellAt i j = m.val i j := by
  unfold Matrix.cellAt
  rw [h.getAt_val hi hj]

theorem flatMap_range_getElem {α : Type} (g : Nat → Nat → α) (rows cols i j : Nat) (hi : i < rows) (hj : j < cols) :
    ((List.range rows).flatMap (fun r => (List.range cols).map (g r)))[i * cols + j]? = some (g i j) := by
  induction rows generalizing g i with
  | zero => omega
  | succ n ih =>
    rw [List.range_succ_eq_map, List.flatMap_cons, List.flatMap_map]
    cases i with
    | zero =>
      rw [List.getElem?_append_left (by simpa using hj)]
      simp [hj]
    | succ i =>
      rw [List.getElem?_append_right (by simp; nlinarith)]
      have := ih (fun r => g (r + 1)) i (by omega)
      simp only [List.length_map, List.length_range]
      rw [show (i + 1) * cols + j - cols = i * cols + j by rw [add_mul]; omega]
      exact this

omit [GoFloat F] in
theorem matrix_shaped (m : Mem F) (loc : Nat → Nat → Loc) (rows cols : Nat) : Shaped (m.matrix loc rows cols) rows cols := by
  refine ⟨rfl, rfl, ?_⟩
  simp only [Mem.matrix, List.length_flatMap, List.length_map, List.length_range, List.map_const', List.sum_replicate, smul_eq_mul]

theorem matrix_val (m : Mem F) (loc : Nat → Nat → Loc) {rows cols i j : Nat} (hi : i < rows) (hj : j < cols) :
    (m.matrix loc rows cols).val i j = m.cell (loc i j) := by
  unfold Matrix.val
  rw [(matrix_shaped m loc rows cols).getElem?_rowOf i j hj]
  simp only [Mem.matrix]
  rw [flatMap_range_getElem (fun r c => m.cell (loc r c)) rows cols i j hi hj]
  rfl


/-- locations the word2vec goroutines may store to: everything but the rows of words in no document -/
def w2vW (iters : List (List (List Nat))) : Loc → Prop
  | .param r _ => ∃ docs ∈ iters, ∃ d ∈ docs, r ∈ d
  | _ => True

/-- locations the LexVec goroutines may store to: everything but the word rows of words in no document -/
def lexW (neg : Int) (len : Nat) (iters : List (List (List Nat))) : Loc → Prop
  | .param r _ => (∃ docs ∈ iters, ∃ d ∈ docs, r ∈ d) ∨ (0 < neg ∧ len ≤ r)
  | _ => True

theorem w2v_threads_ok (M : W2VModel F) (o : W2VOptions F) (dim : Nat) (hdim : o.dim = dim) (next : UInt64) (iters : List (List (List Nat)))
    (env : MemEnv F) (np : Panic → Prop) (hsam : M.samples.length = M.corpus.dic.len)
    (hhs : ∀ hs, M.opt = .hs hs → (∀ n ∈ hs.arena, (n.vector.getD []).length ≤ dim) ∧ hs.nodeset.length = M.corpus.dic.len)
    (hdocs : ∀ docs ∈ iters, ∀ d ∈ docs, ∀ id ∈ d, id < M.corpus.dic.len)
    (hw : (∀ p, np p) ∨ (1 ≤ o.window ∧ o.window < 2 ^ 63)) (hs : np .indexOutOfRange ∨ SigSafe M.table) (hr : (∀ p, np p) ∨ M.corpus.dic.len < 2 ^ 63)
    (hu : (∀ p, np p) ∨ o.updateLRBatch ≠ 0) :
    ∀ t ∈ (M.sys o next iters).threads, t.Ok env (w2vW iters) np (fun _ => True) := by
  intro t ht
  simp only [W2VModel.sys, List.mem_flatMap, List.mem_cons, List.mem_map] at ht
  obtain ⟨docs, hd, rfl | ⟨d, hdd, rfl⟩⟩ := ht
  · exact observerP_ok _ hu trivial _
  · have hlen : (M.shared o M.table).dim = dim := by simp [W2VModel.shared, hdim]
    refine w2vWorkerP_ok (M.shared o M.table) (optim := M.kind.prog (M.shared o M.table)) M.skipGram hw (words := M.corpus.dic.len) ?_
      (le_refl _) hsam (hdocs docs hd d hdd) (fun id hid c => ⟨docs, hd, d, hdd, hid⟩)
    unfold W2VModel.kind
    cases hopt : M.opt with
    | ns ng => exact nsOptimP_ok (M.shared o M.table) hs hr (fun _ _ => trivial) _
    | hs h =>
      obtain ⟨h1, h2⟩ := hhs h hopt
      have := hsOptimP_ok (env := env) (W := w2vW iters) (np := np) (M.shared o M.table) (treeShape h) hs (by
        intro n
        rw [hlen]
        simp only [treeShape]
        cases hn : h.arena[n]? with
        | none => simp
        | some x => simpa using h1 x (List.mem_of_getElem? hn)) (fun _ _ => trivial)
      rw [show (treeShape h).words = M.corpus.dic.len from h2] at this
      exact this

theorem lex_threads_ok (M : LexModel F) (o : LexvecOptions F) (next : UInt64) (iters : List (List (List Nat)))
    (env : MemEnv F) (np : Panic → Prop) (hsam : M.samples.length = M.corpus.dic.len)
    (hdocs : ∀ docs ∈ iters, ∀ d ∈ docs, ∀ id ∈ d, id < M.corpus.dic.len)
    (hw : (∀ p, np p) ∨ (1 ≤ o.window ∧ o.window < 2 ^ 63)) (hr : M.corpus.dic.len < 2 ^ 63)
    (hu : (∀ p, np p) ∨ o.updateLRBatch ≠ 0) :
    ∀ t ∈ (M.sys o next iters).threads, t.Ok env (lexW o.negativeSampleSize M.corpus.dic.len iters) np (fun _ => True) := by
  intro t ht
  simp only [LexModel.sys, List.mem_flatMap, List.mem_cons, List.mem_map] at ht
  obtain ⟨docs, hd, rfl | ⟨d, hdd, rfl⟩⟩ := ht
  · exact observerP_ok _ hu trivial _
  · refine lexWorkerP_ok (M.shared o) hw hr hsam (hdocs docs hd d hdd) (fun r c hrc => ?_)
    rcases hrc with hrc | hrc
    · exact Or.inl ⟨docs, hd, d, hdd, hrc⟩
    · exact Or.inr ⟨hrc.1, hrc.2.1⟩

theorem glove_threads_ok (M : GloveModel F) (o : GloveOptions F) (next : UInt64) (iters : List (List (List (GItem F))))
    (env : MemEnv F) (np : Panic → Prop)
    (hit : ∀ sl ∈ iters, ∀ s ∈ sl, ∀ it ∈ s, ItemOK M.corpus.dic.len it) :
    ∀ t ∈ (M.sys o next iters).threads, t.Ok env (fun _ => True) np (fun _ => True) := by
  intro t ht
  simp only [GloveModel.sys, List.mem_flatMap, List.mem_map] at ht
  obtain ⟨sl, hsl, s, hs, rfl⟩ := ht
  refine gloveWorkerP_ok ?_ ?_
  · intro it hi
    obtain ⟨a, b, e1, e2, l1, l2⟩ := hit sl hsl s hs it hi
    rw [e1, e2]
    exact ⟨⟨by omega, by omega⟩, by omega, by omega⟩
  · intro l1 l2 f c a b c' d
    unfold GloveModel.step
    cases M.gradsq with
    | none => exact sgdP_ok _ ⟨a, b⟩ ⟨c', d⟩ _ _ (fun _ => trivial) (fun _ => trivial)
    | some g => exact adaP_ok _ ⟨a, b⟩ ⟨c', d⟩ _ _ (fun _ => trivial) (fun _ => trivial) (fun _ => trivial) (fun _ => trivial)

end

/-- the co-occurrence counter of a loaded corpus comes from `Add` calls on ids of dictionary words -/
theorem load_cooc_calls [GoFloat F] (im : Bool) (cfg : CorpusCfg) (t : String) (n : Int) (hn : im = true ∨ 1 ≤ n) (p : Pass) (ws : List Word)
    (h : Readable p ws) (hne : im = true ∨ ws ≠ []) (c : CorpusState F) (hc : loadCorpus im cfg p p (some ⟨t, n⟩) = .ok c) :
    ∃ co calls, c.cooc = some co ∧ cooCalls t calls = .ok co ∧ ∀ q ∈ calls, q.1 < c.dic.len ∧ q.2 < c.dic.len := by
  unfold loadCorpus at hc
  cases im with
  | false =>
    simp only [Bool.false_eq_true, if_false, false_or] at hc hn hne
    obtain ⟨k, rfl⟩ := Int.eq_ofNat_of_zero_le (by omega : 0 ≤ n)
    obtain ⟨co, calls, a, _, b, d⟩ := fsLoad_cooc cfg h t k (by omega) hne c hc
    exact ⟨co, calls, a, b, d⟩
  | true =>
    simp only [if_true] at hc
    obtain ⟨co, a, _, b, d⟩ := memLoad_cooc cfg h ⟨t, n⟩ c hc
    exact ⟨co, _, a, b, d⟩

/-- What the set-up of LexVec gives on a readable document. -/
theorem lexSetup_facts [GoMath F] {σ : Type} (lower : Word → Word) (enum : GoMap (BitVec 64) F → List (BitVec 64 × F)) (r : σ → F × σ)
    (o : LexvecOptions F) (dim : Nat) (hdim : o.dim = dim) (hw : o.docInMemory = true ∨ 1 ≤ o.window)
    (p : Pass) (ws : List Word) (h : Readable p ws) (s s' : σ) (M : LexModel F) (hM : lexSetup lower enum r o p p s = .ok (M, s')) :
    addCalls [ws.map (o.corpus lower).norm] = .ok M.corpus.dic ∧ M.corpus.dic.Rep (ws.map (o.corpus lower).norm) ∧
      (o.docInMemory = true → memIndexedDoc (o.corpus lower) M.corpus = .ok (trainSeq o.maxCount o.minCount (ws.map (o.corpus lower).norm))) ∧
      Shaped M.param (M.corpus.dic.len * 2) dim ∧ M.samples.length = M.corpus.dic.len := by
  unfold lexSetup at hM
  rw [Res.bind_eq_ok] at hM
  obtain ⟨c, hc, hM⟩ := hM
  obtain ⟨h1, hr⟩ := load_cooc_readable o.docInMemory (o.corpus lower) _ _ hw p ws h c hc
  have hidx : o.docInMemory = true → memIndexedDoc (o.corpus lower) c = .ok (trainSeq o.maxCount o.minCount (ws.map (o.corpus lower).norm)) := by
    intro hb
    unfold loadCorpus at hc
    rw [hb] at hc
    simp only [if_true] at hc
    exact (C11_memory_corpus_with (o.corpus lower) p ws h _ c hc).2.2
  obtain ⟨m, s1, e1, q1⟩ := randMatrix_ok r (initValue (F := F) o.dim) (c.dic.len * 2) dim s
  push_cast at e1
  rw [← hdim] at e1
  rw [e1, Res.ok_bind, subsamples_eq c.dic _ hr, Res.ok_bind] at hM
  cases hco : c.cooc with
  | none => rw [hco] at hM; cases hM
  | some co =>
    rw [hco] at hM
    dsimp only at hM
    rw [Res.bind_eq_ok] at hM
    obtain ⟨items, _, hM⟩ := hM
    cases hM
    exact ⟨h1, hr, hidx, q1, by rw [List.length_map]; exact hr.maxid.symm⟩

/-- The slices of the items given to the GloVe workers contain only items addressing dictionary words. -/
theorem gloveSlices_ok [GoMath F] {σ : Type} (lower : Word → Word) (r : σ → F × σ) (o : GloveOptions F)
    (hw : o.docInMemory = true ∨ 1 ≤ o.window) (p : Pass) (ws : List Word) (h : Readable p ws) (hne : o.docInMemory = true ∨ ws ≠ [])
    (hdic : (ws.map (o.corpus lower).norm).dedup.length ≤ 2 ^ 32) (s s' : σ) (M : GloveModel F)
    (hM : gloveSetup lower r o p p s = .ok (M, s')) (enum : GoMap (BitVec 64) F → List (BitVec 64 × F)) (henum : ∀ m, (enum m).Perm m)
    (slices : List (List (GItem F))) (hs : gloveSlices M o enum = .ok slices) :
    ∀ sl ∈ slices, ∀ it ∈ sl, ItemOK M.corpus.dic.len it := by
  unfold gloveSetup at hM
  rw [Res.bind_eq_ok] at hM
  obtain ⟨c, hc, hM⟩ := hM
  rw [Res.bind_eq_ok] at hM
  obtain ⟨ps, _, hM⟩ := hM
  have hMc : M.corpus = c := by
    split at hM
    · cases hM; rfl
    · split at hM
      · rw [Res.bind_eq_ok] at hM
        obtain ⟨g, _, hM⟩ := hM
        cases hM; rfl
      · cases hM
  obtain ⟨h1, hr⟩ := load_cooc_readable o.docInMemory (o.corpus lower) _ _ hw p ws h c hc
  obtain ⟨co, calls, a, b, d⟩ := load_cooc_calls o.docInMemory (o.corpus lower) _ _ hw p ws h hne c hc
  unfold gloveSlices at hs
  rw [hMc, a] at hs
  dsimp only at hs
  rw [Res.bind_eq_ok] at hs
  obtain ⟨v, _, hs⟩ := hs
  intro sl hsl it hit
  rw [hMc]
  exact items_ok _ calls c.dic.len (by rw [hr.len_eq]; exact hdic) d co b _ (henum _) _ _ it (parts_mem _ _ _ _ hs sl hsl it hit)

end Wego
