import Verif.Proofs.RefineLex
import Verif.Proofs.RefineHs
import Verif.Proofs.RefineBack
import Verif.Props.Interleave
import Verif.Props.Sequential

/-! # C76: word2vec and LexVec with `Goroutines(1)` are the sequential algorithms, up to the learning rate

`Pool.Iters env g m obs rounds m'` (`Verif/Model/Prog.lean`): the iterations; each starts an observer and its workers, at most `g` workers hold the
semaphore at a time, their single loads and stores interleave in any way with those of each other and of all observers, the next iteration starts when
all workers have returned. `lexSeq`, `w2vSeq` (`Verif/Model/TrainSeq.lean`) are the sequential algorithms. -/

namespace Wego.Props
open Wego Wego.Matrix Wego.Prog Spec
variable {F : Type} {σ : Type}

/-- permutations of mapped lists -/
theorem perm_map_exists {α β : Type} (f : α → β) {l : List β} {d : List α} (h : l.Perm (d.map f)) : ∃ d' : List α, d'.Perm d ∧ d'.map f = l := by
  generalize e : d.map f = k at h
  induction h generalizing d with
  | nil => exact ⟨[], by simpa using e, rfl⟩
  | cons x _ ih =>
    cases d with
    | nil => simp at e
    | cons a d =>
      simp only [List.map_cons, List.cons.injEq] at e
      obtain ⟨d', h1, h2⟩ := ih e.2
      exact ⟨a :: d', h1.cons a, by simp [h2, e.1]⟩
  | swap x y l =>
    rcases d with _ | ⟨a, _ | ⟨b, d⟩⟩
    · simp at e
    · simp at e
    · simp only [List.map_cons, List.cons.injEq] at e
      exact ⟨b :: a :: d, .swap a b d, by simp [e.1, e.2.1, e.2.2]⟩
  | trans _ _ ih1 ih2 =>
    obtain ⟨d1, h1, h2⟩ := ih2 e
    obtain ⟨d2, h3, h4⟩ := ih1 h2
    exact ⟨d2, h3.trans h1, h4⟩

theorem orders_exist {α β : Type} (f : β → Prog F Unit) (ob : α) (docs : List β) (n : Nat) (orders : List (List (Prog F Unit)))
    (h : List.Forall₂ (fun a (b : α × List (Prog F Unit)) => a.Perm b.2) orders (List.replicate n (ob, docs.map f))) :
    ∃ ds : List (List β), ds.length = n ∧ (∀ d ∈ ds, d.Perm docs) ∧ ds.flatten.map f = orders.flatten := by
  induction n generalizing orders with
  | zero => cases h; exact ⟨[], rfl, by simp, rfl⟩
  | succ n ih =>
    rw [List.replicate_succ] at h
    cases h with
    | cons h1 h2 =>
      obtain ⟨ds, e1, e2, e3⟩ := ih _ h2
      obtain ⟨d, e4, e5⟩ := perm_map_exists f h1
      refine ⟨d :: ds, by simp [e1], ?_, by simp [e3, e5]⟩
      intro x hx
      rcases List.mem_cons.1 hx with rfl | hx
      · exact e4
      · exact e2 x hx

/-- what the steps of LexVec read, with the learning rates `lrs` -/
def lexCfg [GoFloat F] (M : LexModel F) (o : LexvecOptions F) (lrs : Nat → F) : LexCfg F :=
  ⟨o.dim, o.window, o.negativeSampleSize, M.corpus.dic.len, lrs⟩

/-- **C76 (LexVec).** For every readable document, valid options with `Goroutines(1)`, either corpus, any number `n` of iterations: in every complete
execution the parameters end up being what the sequential algorithm computes - documents (in memory: the one document; file-backed: the batches, in
some order in each iteration) one after the other, training steps indivisible - for some results of `rand.Float64()` and some learning rates, each of them the initial
rate, the minimal rate or the scheduled rate for a number of words counted. And complete executions exist. -/
theorem C76_lexvec [GoMath F] (lower : Word → Word) (enum : GoMap (BitVec 64) F → List (BitVec 64 × F)) (r : σ → F × σ)
    (o : LexvecOptions F) (dim : Nat) (hdim : o.dim = dim) (hw1 : 1 ≤ o.window) (hw2 : o.window < 2 ^ 62)
    (p : Pass) (ws : List Word) (h : Readable p ws) (hdic : (ws.map (o.corpus lower).norm).dedup.length < 2 ^ 62)
    (s s' : σ) (M : LexModel F) (hM : lexSetup lower enum r o p p s = .ok (M, s'))
    (hbs : o.docInMemory = true ∨ 1 ≤ o.batchSize) (docs : List (List Nat))
    (hd : workerDocs o.docInMemory (o.corpus lower) M.corpus p o.goroutines o.batchSize = .ok docs) (hg : o.goroutines = 1)
    (rand : F → Prop) (hv : ∃ v, rand v) (path : Nat → List Nat) (next : UInt64) (n : Nat) :
    (∀ mem', Pool.Iters (MemEnv.sc rand (fun id q => q = path id)) o.goroutines.toNat (M.mem o next) [] (List.replicate n (lexRound M o docs)) mem' →
      ∃ (orders : List (List (List Nat))) (rands lrs : Nat → F), orders.length = n ∧ (∀ d ∈ orders, d.Perm docs) ∧ (∀ k, rand (rands k)) ∧
        (∀ k, PossibleLr (M.lrCfg o) (docs.map List.length).sum (lrs k)) ∧
        ∃ t k, lexSeq (lexCfg M o lrs) M.items M.samples rands orders.flatten (⟨M.param, next, 0⟩, 0) = .ok (t, k) ∧ (M.after o mem').param = t.param) ∧
    ∃ mem', Pool.Iters (MemEnv.sc rand (fun id q => q = path id)) o.goroutines.toNat (M.mem o next) [] (List.replicate n (lexRound M o docs)) mem' := by
  obtain ⟨f1, f2, f3, f4, f5⟩ := lexSetup_facts lower enum r o dim hdim (Or.inr hw1) p ws h s s' M hM
  have hmem := workerDocs_mem o.docInMemory (o.corpus lower) M.corpus p ws h f2 f1 f3 _ _ hbs docs hd
  have hlen : M.corpus.dic.len = (ws.map (o.corpus lower).norm).dedup.length := f2.len_eq
  have hdoc : ∀ d ∈ docs, ∀ id ∈ d, id < M.corpus.dic.len := by
    intro d hdd id hid
    rw [hlen]
    exact mem_trainSeq_lt _ _ _ id (hmem d hdd id hid)
  have hcol : o.dim.toNat = dim := by rw [hdim]; simp
  have hok : ∀ (env : MemEnv F), ∀ t ∈ docs.map (lexWorkerP (M.shared o)), t.Ok env (fun l => l ≠ .lr) (fun _ => False) (fun _ => True) := by
    intro env t ht
    obtain ⟨d, hdd, rfl⟩ := List.mem_map.1 ht
    exact lexWorkerP_ok (M.shared o) (Or.inr ⟨hw1, by show o.window < 2 ^ 63; omega⟩) (by show M.corpus.dic.len < 2 ^ 63; omega) f5 (hdoc d hdd) (fun _ _ _ => by simp)
  rw [hg]
  constructor
  · intro mem' hit
    obtain ⟨orders, h1, m1, h2, h3⟩ := iters_seq (P := PossibleLr (M.lrCfg o) (docs.map List.length).sum) (m0 := M.mem o next) hit
      ⟨fun _ _ => rfl, rfl⟩ (by simp) (by
        intro q hq
        rw [List.eq_of_mem_replicate hq]
        exact ⟨observerP_lrOnly _ _, fun t ht => NoLr_of_ok (M.mem o next) (hok _ t ht)⟩) (Or.inl rfl)
    obtain ⟨ds, e1, e2, e3⟩ := orders_exist (lexWorkerP (M.shared o)) _ docs n orders h1
    obtain ⟨v, hv⟩ := hv
    obtain ⟨o0, i0, e4⟩ := h3 ⟨fun _ => v, fun _ => o.initlr⟩ ⟨fun _ => hv, fun _ => Or.inl rfl⟩
    refine ⟨ds, o0.rand, o0.lr, e1, e2, i0.1, i0.2, ?_⟩
    have hsh : (M.shared o).Is (lexCfg M o o0.lr) dim M.items M.samples := ⟨rfl, hcol, hdim, rfl, rfl, rfl, rfl⟩
    obtain ⟨t, k, e5, m2, us2, e6, e7⟩ := lexSeq_runs (path := path) (rands := o0.rand) (s := ⟨M.param, next, 0⟩) (k := 0) (m := M.mem o next) (us := o0) hsh hw1 hw2
      (by show M.corpus.dic.len < 2 ^ 62; omega) f5 ds.flatten (by
        intro d hdf
        obtain ⟨x, hx, hdx⟩ := List.mem_flatten.1 hdf
        exact hdoc d ((e2 x hx).subset hdx))
      ⟨⟨f4, fun i hi j hj => by simp only [LexModel.mem]; exact cellAt_eq f4 hi hj⟩, rfl, fun n => by simp [lexCfg], fun n => by simp⟩
    refine ⟨t, k, e5, ?_⟩
    rw [e3, e4] at e6
    have : m1 = m2 := (Prod.mk.inj (Res.ok.inj e6)).1
    subst this
    have h6 := (e7.mat.eqLr (by simp) h2).matrix
    simp only [LexModel.after, hcol]
    exact h6
  · refine iters_exist (MemEnv.sc_total hv path) (by simp) _ _ _ ?_
    intro q hq t ht
    rw [List.eq_of_mem_replicate hq] at ht
    exact (hok _ t ht).mono (fun _ _ => trivial) (fun _ h => h)

/-! ### word2vec -/

section
variable {O : Type} [GoFloat F]

/-- a sequential step never panics when the optimizer does not -/
theorem w2vOne_total {optim : Optim O F} {Inv : O → Prop} {n c : Nat} (ho : OptimOK optim Inv n c) (skip : Bool) {window : Int} (hw1 : 1 ≤ window) (hw2 : window < 2 ^ 62)
    {doc : List Nat} {pos : Nat} (hpos : pos < doc.length) (hdoc : ∀ id ∈ doc, id < n) (lr : F) (s : W2VSeqSt O F) (hs : Shaped s.param n c ∧ Inv s.opt) :
    ∃ s', w2vOne skip optim window c doc pos lr s = .ok s' ∧ Shaped s'.param n c ∧ Inv s'.opt := by
  unfold w2vOne
  dsimp only
  cases skip with
  | true =>
    obtain ⟨t, e, h1, h2, _⟩ := C29_step_total optim Inv window hw1 hw2 doc pos hpos lr ⟨s.param, s.opt, s.rnd, List.replicate c fzero⟩ n c hs.1 hdoc ho hs.2 (by simp)
    simp only [if_true]
    rw [e]
    exact ⟨_, rfl, h1, h2⟩
  | false =>
    obtain ⟨_, t, _, _, _, _, _, e, _, h1, h2, _⟩ := C30_cbow_step_partial optim Inv window hw1 hw2 doc pos hpos lr
      ⟨s.param, s.opt, s.rnd, List.replicate c fzero, List.replicate c fzero⟩ n c hs.1 hdoc ho hs.2 (by simp) (by simp)
    simp only [Bool.false_eq_true, if_false]
    rw [e]
    exact ⟨_, rfl, h1, h2⟩

theorem w2vSeq_total {optim : Optim O F} {Inv : O → Prop} {n c : Nat} (ho : OptimOK optim Inv n c) (skip : Bool) {window : Int} (hw1 : 1 ≤ window) (hw2 : window < 2 ^ 62)
    {samples : List F} (hsam : samples.length = n) (rands lrs : Nat → F) (docs : List (List Nat)) (hdoc : ∀ d ∈ docs, ∀ id ∈ d, id < n) (s : W2VSeqSt O F)
    (hs : Shaped s.param n c ∧ Inv s.opt) : ∃ s', w2vSeq skip optim window c samples rands lrs docs s = .ok s' ∧ Shaped s'.param n c ∧ Inv s'.opt := by
  unfold w2vSeq
  refine forEach_inv (fun (s : W2VSeqSt O F) => Shaped s.param n c ∧ Inv s.opt) _ _ _ hs fun d hd s hs => ?_
  unfold w2vDoc
  refine forN_inv (fun _ (s : W2VSeqSt O F) => Shaped s.param n c ∧ Inv s.opt) _ _ _ hs fun pos s hpos hs => ?_
  have hid : d[pos] < samples.length := by rw [hsam]; exact hdoc d hd _ (List.getElem_mem _)
  rw [idx_of_lt _ _ hpos, Res.ok_bind]
  have : ∃ b, trial samples d[pos] (rands s.nrand) = .ok b := by
    unfold trial idxI
    rw [if_neg (by omega), Int.toNat_natCast, idx_of_lt _ _ hid]
    exact ⟨_, rfl⟩
  obtain ⟨b, e⟩ := this
  rw [e, Res.ok_bind]
  cases b with
  | false => exact ⟨_, rfl, hs⟩
  | true => exact w2vOne_total ho skip hw1 hw2 hpos (hdoc d hd) _ _ hs

/-- with no words every document is empty -/
theorem w2vSeq_empty (skip : Bool) (optim : Optim O F) (window : Int) (c : Nat) (samples : List F) (rands lrs : Nat → F) (docs : List (List Nat))
    (hdoc : ∀ d ∈ docs, ∀ id ∈ d, id < 0) (s : W2VSeqSt O F) : w2vSeq skip optim window c samples rands lrs docs s = .ok s := by
  induction docs generalizing s with
  | nil => rfl
  | cons d l ih =>
    have : d = [] := by
      cases d with
      | nil => rfl
      | cons a d => exact absurd (hdoc (a :: d) (by simp) a (by simp)) (by omega)
    subst this
    have := ih (fun d hd => hdoc d (by simp [hd])) s
    unfold w2vSeq at this ⊢
    rw [forEach_cons]
    exact this

/-- the executions with one goroutine, for any optimizer -/
theorem w2v_iters {sh : W2VShared F} {skip : Bool} {RO : Mem F → O → Prop} (hst : ROStable RO) {optimP : OptimP F} {optim : Optim O F} {path : Nat → List Nat}
    (hw : 1 ≤ sh.window ∧ sh.window < 2 ^ 62) (hsam : sh.samples.length = sh.rows)
    (hsim : OptimSim path sh.dim sh.rows RO optimP optim) (hback : OptimBack path sh.dim sh.rows RO optimP optim) {docs : List (List Nat)} (hdoc : ∀ d ∈ docs, ∀ id ∈ d, id < sh.rows)
    (hno : ∀ d ∈ docs, (w2vWorkerP sh skip optimP d).NoLr) {rand : F → Prop} (hv : ∃ v, rand v) (cfg : LrCfg F) {mem mem' : Mem F} {p0 : Matrix F} {o0 : O}
    (hat : StepAt sh RO mem p0 o0 mem.next) (hlr : mem.cell .lr = cfg.initlr) (n : Nat)
    (hit : Pool.Iters (MemEnv.sc rand (fun id q => q = path id)) 1 mem []
      (List.replicate n (observerP cfg (docs.map List.length).sum, docs.map (w2vWorkerP sh skip optimP))) mem') :
    ∃ (orders : List (List (List Nat))) (rands lrs : Nat → F), orders.length = n ∧ (∀ d ∈ orders, d.Perm docs) ∧ (∀ k, rand (rands k)) ∧
      (∀ k, PossibleLr cfg (docs.map List.length).sum (lrs k)) ∧
      ∃ t, w2vSeq skip optim sh.window sh.dim sh.samples rands lrs orders.flatten ⟨p0, o0, mem.next, 0, 0⟩ = .ok t ∧
        ∃ m1, m1.EqLr mem' ∧ StepAt sh RO m1 t.param t.opt t.rnd := by
  obtain ⟨orders, h1, m1, h2, h3⟩ := iters_seq (P := PossibleLr cfg (docs.map List.length).sum) (m0 := mem) hit
    ⟨fun _ _ => rfl, rfl⟩ (by simp) (by
      intro q hq
      rw [List.eq_of_mem_replicate hq]
      refine ⟨observerP_lrOnly _ _, fun t ht => ?_⟩
      obtain ⟨d, hd, rfl⟩ := List.mem_map.1 ht
      exact hno d hd) (Or.inl hlr)
  obtain ⟨ds, e1, e2, e3⟩ := orders_exist (w2vWorkerP sh skip optimP) _ docs n orders h1
  obtain ⟨v, hv⟩ := hv
  obtain ⟨o1, i0, e4⟩ := h3 ⟨fun _ => v, fun _ => cfg.initlr⟩ ⟨fun _ => hv, fun _ => Or.inl rfl⟩
  have hfl : ∀ d ∈ ds.flatten, ∀ id ∈ d, id < sh.rows := by
    intro d hdf
    obtain ⟨x, hx, hdx⟩ := List.mem_flatten.1 hdf
    exact hdoc d ((e2 x hx).subset hdx)
  have hrel : W2VRel sh RO o1.rand o1.lr mem o1 ⟨p0, o0, mem.next, 0, 0⟩ := ⟨hat, fun n => by simp, fun n => by simp⟩
  obtain ⟨t, ht⟩ := w2vSeq_back hw hst hsim hback hsam ds.flatten hfl hrel ⟨_, by rw [e3]; exact e4⟩
  refine ⟨ds, o1.rand, o1.lr, e1, e2, i0.1, i0.2, t, ht, m1, h2, ?_⟩
  obtain ⟨m2, us2, e6, e7⟩ := w2vSeq_runs (path := path) (us := o1) hst hsim ds.flatten hfl hrel ht
  rw [e3, e4] at e6
  have : m1 = m2 := (Prod.mk.inj (Res.ok.inj e6)).1
  subst this
  exact e7.at'

end

/-- the tree that the set-up of hierarchical softmax builds -/
theorem w2vSetup_hs [GoMath F] (lower : Word → Word) (r : σ → F × σ) (o : W2VOptions F) (p1 p2 : Pass) (s s' : σ) (M : W2VModel F)
    (hM : w2vSetup lower r o p1 p2 s = .ok (M, s')) (hs : HierSoftmax F) (hopt : M.opt = .hs hs) :
    huffmanTree M.corpus.dic o.dim = .ok (hs.arena, hs.nodeset) ∧ hs.maxDepth = o.maxDepth := by
  unfold w2vSetup at hM
  generalize (sigTable : List F) = tb at hM ⊢
  rw [Res.bind_eq_ok] at hM
  obtain ⟨c, hc, hM⟩ := hM
  rw [Res.bind_eq_ok] at hM
  obtain ⟨ps, _, hM⟩ := hM
  rw [Res.bind_eq_ok] at hM
  obtain ⟨sm, _, hM⟩ := hM
  rw [Res.bind_eq_ok] at hM
  obtain ⟨sg, _, hM⟩ := hM
  split at hM
  · rw [Res.bind_eq_ok] at hM
    obtain ⟨cs, _, hM⟩ := hM
    cases hM
    cases hopt
  · split at hM
    · rw [Res.bind_eq_ok] at hM
      obtain ⟨t, ht, hM⟩ := hM
      cases hM
      cases hopt
      exact ⟨ht, rfl⟩
    · cases hM

section
variable [GoMath F] (lower : Word → Word) (r : σ → F × σ)
    (o : W2VOptions F) (dim : Nat) (hdim : o.dim = dim) (hw1 : 1 ≤ o.window) (hw2 : o.window < 2 ^ 62)
    (p : Pass) (ws : List Word) (h : Readable p ws) (hdic : (ws.map (o.corpus lower).norm).dedup.length < 2 ^ 62)
    (s s' : σ) (M : W2VModel F) (hM : w2vSetup lower r o p p s = .ok (M, s'))
    (hbs : o.docInMemory = true ∨ 1 ≤ o.batchSize) (docs : List (List Nat))
    (hd : workerDocs o.docInMemory (o.corpus lower) M.corpus p o.goroutines o.batchSize = .ok docs) (hg : o.goroutines = 1)
    (rand : F → Prop) (hv : ∃ v, rand v) (path : Nat → List Nat) (next : UInt64) (n : Nat)
include hdim hw1 hw2 h hdic hM hbs hd hg hv

/-- **C76 (word2vec, negative sampling).** For every readable document, valid options with `Goroutines(1)`, skip-gram or CBOW, either corpus, any number
`n` of iterations: for every complete execution there are an order of the documents in each iteration, results of `rand.Float64()` and learning rates
(each of them the initial one, the minimal one or a scheduled one) such that word matrix and context matrix end up being what the sequential algorithm
computes with them. When the sigmoid table covers every score in (-6, 6) (it does in real arithmetic), complete executions exist. -/
theorem C76_word2vec_negative_sampling (ng : NegSampling F) (hopt : M.opt = .ns ng) :
    (∀ mem', Pool.Iters (MemEnv.sc rand (fun id q => q = path id)) o.goroutines.toNat (M.mem o next) [] (List.replicate n (w2vRound M o docs)) mem' →
      ∃ (orders : List (List (List Nat))) (rands lrs : Nat → F), orders.length = n ∧ (∀ d ∈ orders, d.Perm docs) ∧ (∀ k, rand (rands k)) ∧
        (∀ k, PossibleLr (M.lrCfg o) (docs.map List.length).sum (lrs k)) ∧
        ∃ t, w2vSeq M.skipGram NegSampling.optim o.window dim M.samples rands lrs orders.flatten ⟨M.param, ng, next, 0, 0⟩ = .ok t ∧
          (M.after o mem').param = t.param ∧ (M.after o mem').opt = .ns t.opt) ∧
    (SigSafe (sigTable : List F) →
      ∃ mem', Pool.Iters (MemEnv.sc rand (fun id q => q = path id)) o.goroutines.toNat (M.mem o next) [] (List.replicate n (w2vRound M o docs)) mem') := by
  obtain ⟨f1, f2, f3, f4, f5, f6, _⟩ := w2vSetup_facts lower r o dim hdim p ws h s s' M hM
  generalize (sigTable : List F) = tb at f6 ⊢
  have hmem := workerDocs_mem o.docInMemory (o.corpus lower) M.corpus p ws h f2 f1 f3 _ _ hbs docs hd
  have hlen : M.corpus.dic.len = (ws.map (o.corpus lower).norm).dedup.length := f2.len_eq
  have hdoc : ∀ d ∈ docs, ∀ id ∈ d, id < M.corpus.dic.len := by
    intro d hdd id hid
    rw [hlen]
    exact mem_trainSeq_lt _ _ _ id (hmem d hdd id hid)
  have hcol : o.dim.toNat = dim := by rw [hdim]; simp
  have htab : ng.table = tb := by rw [← f6]; simp only [W2VModel.table, hopt]
  have hctx : Shaped ng.ctx M.corpus.dic.len dim := f4.2 ng hopt
  have hk : M.kind.prog (M.shared o M.table) = nsOptimP (M.shared o M.table) ng.sampleSize := by simp only [W2VModel.kind, hopt]; rfl
  have hok : ∀ (env : MemEnv F) (np : Panic → Prop), np .indexOutOfRange ∨ SigSafe tb → ∀ d ∈ docs,
      (w2vWorkerP (M.shared o M.table) M.skipGram (nsOptimP (M.shared o M.table) ng.sampleSize) d).Ok env (fun l => l ≠ .lr) np (fun _ => True) := by
    intro env np hnp d hdd
    refine w2vWorkerP_ok (M.shared o M.table) M.skipGram (Or.inr ⟨hw1, by show o.window < 2 ^ 63; omega⟩) (words := M.corpus.dic.len) ?_ (le_refl _) f5 (hdoc d hdd)
      (fun _ _ _ => by simp)
    refine nsOptimP_ok (M.shared o M.table) ?_ (Or.inr (by show M.corpus.dic.len < 2 ^ 63; omega)) (fun _ _ => by simp) _
    show np .indexOutOfRange ∨ SigSafe M.table
    rw [f6]; exact hnp
  have hround : w2vRound M o docs = (observerP (M.lrCfg o) (docs.map List.length).sum,
      docs.map (w2vWorkerP (M.shared o M.table) M.skipGram (nsOptimP (M.shared o M.table) ng.sampleSize))) := by unfold w2vRound; rw [hk]
  rw [hg, hround]
  constructor
  · intro mem' hit
    obtain ⟨orders, rands, lrs, e1, e2, e3, e4, t, e5, m1, k1, k2⟩ := w2v_iters (nsAt_stable (M.shared o M.table) ng.sampleSize) ⟨hw1, hw2⟩ f5
      (nsOptim_sim (M.shared o M.table) (by show M.corpus.dic.len < 2 ^ 63; omega) ng.sampleSize)
      (nsOptim_back (M.shared o M.table) (by show M.corpus.dic.len < 2 ^ 63; omega) ng.sampleSize) hdoc
      (fun d hdd => NoLr_of_ok (M.mem o next) (hok _ (fun _ => True) (Or.inl trivial) d hdd)) hv (M.lrCfg o) (mem := M.mem o next) (p0 := M.param) (o0 := ng)
      ⟨⟨by show Shaped _ _ o.dim.toNat; rw [hcol]; exact f4.1, fun i hi j hj => by
          simp only [W2VModel.mem]; exact cellAt_eq f4.1 hi (by rw [← hcol]; exact hj)⟩,
        ⟨⟨by show Shaped _ _ o.dim.toNat; rw [hcol]; exact hctx, fun i hi j hj => by
          simp only [W2VModel.mem, hopt]; exact cellAt_eq hctx hi (by rw [← hcol]; exact hj)⟩, by show ng.table = M.table; rw [f6]; exact htab, rfl⟩, rfl⟩ rfl n hit
    simp only [W2VModel.shared, hcol] at e5
    refine ⟨orders, rands, lrs, e1, e2, e3, e4, t, e5, ?_⟩
    · have k3 := (k2.mat.eqLr (by simp) k1).matrix
      obtain ⟨k4, k6⟩ := k2.opt
      have k7 := (k4.eqLr (by simp) k1).matrix
      simp only [W2VModel.shared, hcol] at k3 k7
      simp only [W2VModel.after, hopt, hcol]
      refine ⟨k3, ?_⟩
      rw [k7]
      obtain ⟨k8, k9⟩ := k6
      congr 1
      rcases ng with ⟨a, b, c⟩
      rcases hto : t.opt with ⟨a', b', c'⟩
      rw [hto] at k8 k9
      simp only [NegSampling.mk.injEq, true_and]
      dsimp only at k8 k9 htab
      exact ⟨by rw [htab, ← f6, k8]; rfl, k9.symm⟩
  · intro hsafe
    refine iters_exist (MemEnv.sc_total hv path) (by simp) _ _ _ ?_
    intro q hq t ht
    rw [List.eq_of_mem_replicate hq] at ht
    obtain ⟨d, hdd, rfl⟩ := List.mem_map.1 ht
    exact (hok _ (fun _ => False) (Or.inr hsafe) d hdd).mono (fun _ _ => trivial) (fun _ h => h)

omit hdic in
/-- **C76 (word2vec, hierarchical softmax).** The same for hierarchical softmax with `MaxDepth >= 0`; `path id` is what `GetPath` returns for word `id` on
the fresh tree. -/
theorem C76_word2vec_hierarchical_softmax (hs : HierSoftmax F) (hopt : M.opt = .hs hs) (hdep : 0 ≤ o.maxDepth)
    (hpath : ∀ id < M.corpus.dic.len, ∃ a, getPath hs.arena id hs.maxDepth = some (.ok (a, path id))) :
    (∀ mem', Pool.Iters (MemEnv.sc rand (fun id q => q = path id)) o.goroutines.toNat (M.mem o next) [] (List.replicate n (w2vRound M o docs)) mem' →
      ∃ (orders : List (List (List Nat))) (rands lrs : Nat → F), orders.length = n ∧ (∀ d ∈ orders, d.Perm docs) ∧ (∀ k, rand (rands k)) ∧
        (∀ k, PossibleLr (M.lrCfg o) (docs.map List.length).sum (lrs k)) ∧
        ∃ t, w2vSeq M.skipGram HierSoftmax.optim o.window dim M.samples rands lrs orders.flatten ⟨M.param, hs, next, 0, 0⟩ = .ok t ∧
          (M.after o mem').param = t.param) ∧
    (SigSafe (sigTable : List F) →
      ∃ mem', Pool.Iters (MemEnv.sc rand (fun id q => q = path id)) o.goroutines.toNat (M.mem o next) [] (List.replicate n (w2vRound M o docs)) mem') := by
  obtain ⟨f1, f2, f3, f4, f5, f6, f7⟩ := w2vSetup_facts lower r o dim hdim p ws h s s' M hM
  obtain ⟨f7, f8⟩ := f7 hs hopt
  obtain ⟨g1, g2⟩ := w2vSetup_hs lower r o p p s s' M hM hs hopt
  generalize (sigTable : List F) = tb at f6 ⊢
  have hmem := workerDocs_mem o.docInMemory (o.corpus lower) M.corpus p ws h f2 f1 f3 _ _ hbs docs hd
  have hlen : M.corpus.dic.len = (ws.map (o.corpus lower).norm).dedup.length := f2.len_eq
  have hdoc : ∀ d ∈ docs, ∀ id ∈ d, id < M.corpus.dic.len := by
    intro d hdd id hid
    rw [hlen]
    exact mem_trainSeq_lt _ _ _ id (hmem d hdd id hid)
  have hcol : o.dim.toNat = dim := by rw [hdim]; simp
  have htab : hs.table = tb := by rw [← f6]; simp only [W2VModel.table, hopt]
  have hk : M.kind.prog (M.shared o M.table) = hsOptimP (M.shared o M.table) (treeShape hs) := by simp only [W2VModel.kind, hopt]; rfl
  have hvl : ∀ j, (vecOf hs.arena j).length ≤ dim := by
    intro j
    unfold vecOf
    cases hn : hs.arena[j]? with
    | none => simp
    | some x => simpa using f7 x (List.mem_of_getElem? hn)
  have hwords : (treeShape hs).words = M.corpus.dic.len := f8
  -- the paths of the fresh tree
  have hnodeset : hs.nodeset = List.range M.corpus.dic.len := by
    unfold huffmanTree at g1
    rw [Res.bind_eq_ok] at g1
    obtain ⟨ar, _, g1⟩ := g1
    dsimp only at g1
    rw [Res.bind_eq_ok] at g1
    obtain ⟨rr, _, g1⟩ := g1
    exact (Prod.mk.inj (Res.ok.inj g1)).2.symm
  obtain ⟨full, hfull, hflt, hcache⟩ : ∃ full : Nat → List Nat, (∀ i < M.corpus.dic.len, followParents hs.arena (hs.arena.length + 1) (some i) = some (full i).reverse) ∧
      (∀ i < M.corpus.dic.len, ∀ q ∈ full i, q < hs.arena.length) ∧ (∀ i < M.corpus.dic.len, hs.arena[i]?.bind HNode.cache = none) := by
    by_cases hne : ws.map (o.corpus lower).norm = []
    · have : M.corpus.dic.len = 0 := by rw [hlen, hne]; rfl
      exact ⟨fun _ => [], fun i hi => by omega, fun i hi => by omega, fun i hi => by omega⟩
    · obtain ⟨d, arena, T, P, hdic', _, _, ht, hS, _, hP2, hmemP, hlv, _, _⟩ := huff_core (F := F) [ws.map (o.corpus lower).norm] (by simpa using hne) dim
      rw [f1] at hdic'
      obtain rfl := Res.ok.inj hdic'
      rw [← hdim, g1] at ht
      obtain ⟨rfl, -⟩ := Prod.mk.inj (Res.ok.inj ht)
      have hids : T.ids.Perm (List.range hs.arena.length) := by simpa using hS.perm
      refine ⟨fun i => (P i).path, fun i hi => ?_, fun i hi q hq => ?_, fun i hi => ?_⟩
      · obtain ⟨_, _, _, hf, hl⟩ := rootPath_of_sim hS (P i) (hmemP i hi)
        have := hf (hs.arena.length + 1) (by omega)
        rwa [hP2 i hi] at this
      · simpa using hids.mem_iff.1 ((walks_path_sublist T (P i) (hmemP i hi)).subset hq)
      · exact (hS.shape T (by simp)).inner_vec.2.2 i (T.ids_perm.mem_iff.2 (List.mem_append_left _ (hlv.mem_iff.2 (by simpa using hi))))
  have htree : HsTree hs.arena tb M.corpus.dic.len o.maxDepth full hs := ⟨htab, hnodeset, g2, rfl, fun _ => rfl, fun i hi => Or.inl (hcache i hi)⟩
  have hpath' : ∀ i < M.corpus.dic.len, path i = (full i).take o.maxDepth.toNat := by
    intro i hi
    obtain ⟨a, e⟩ := hpath i hi
    obtain ⟨a1, e1, _⟩ := htree.getPath hdep hfull hi
    rw [g2, e1, Option.some.injEq] at e
    exact (Prod.mk.inj (Res.ok.inj e)).2.symm
  have hok : ∀ (env : MemEnv F) (np : Panic → Prop), np .indexOutOfRange ∨ SigSafe tb → ∀ d ∈ docs,
      (w2vWorkerP (M.shared o M.table) M.skipGram (hsOptimP (M.shared o M.table) (treeShape hs)) d).Ok env (fun l => l ≠ .lr) np (fun _ => True) := by
    intro env np hnp d hdd
    refine w2vWorkerP_ok (M.shared o M.table) M.skipGram (Or.inr ⟨hw1, by show o.window < 2 ^ 63; omega⟩) (words := M.corpus.dic.len) ?_ (le_refl _) f5 (hdoc d hdd)
      (fun _ _ _ => by simp)
    rw [← hwords]
    refine hsOptimP_ok (M.shared o M.table) (treeShape hs) ?_ ?_ (fun _ _ => by simp)
    · show np .indexOutOfRange ∨ SigSafe M.table
      rw [f6]; exact hnp
    · intro j
      show (vecOf hs.arena j).length ≤ o.dim.toNat
      rw [hcol]; exact hvl j
  have hround : w2vRound M o docs = (observerP (M.lrCfg o) (docs.map List.length).sum,
      docs.map (w2vWorkerP (M.shared o M.table) M.skipGram (hsOptimP (M.shared o M.table) (treeShape hs)))) := by unfold w2vRound; rw [hk]
  rw [hg, hround]
  constructor
  · intro mem' hit
    have hsim := hsOptim_sim (path := path) hs.arena (M.shared o M.table) (treeShape hs) o.maxDepth hdep full (by rw [hwords]; exact hfull) (by rw [hwords]; exact hpath')
    have hback := hsOptim_back (path := path) hs.arena (M.shared o M.table) (treeShape hs) o.maxDepth hdep full (by rw [hwords]; exact hfull)
      (by rw [hwords]; exact hflt) (fun j => by show (vecOf hs.arena j).length ≤ o.dim.toNat; rw [hcol]; exact hvl j) (by rw [hwords]; exact hpath')
    rw [hwords] at hsim hback
    obtain ⟨orders, rands, lrs, e1, e2, e3, e4, t, e5, m1, k1, k2⟩ := w2v_iters (hsAt_stable hs.arena (M.shared o M.table) (treeShape hs) o.maxDepth full) ⟨hw1, hw2⟩ f5
      hsim hback hdoc (fun d hdd => NoLr_of_ok (M.mem o next) (hok _ (fun _ => True) (Or.inl trivial) d hdd)) hv (M.lrCfg o) (mem := M.mem o next) (p0 := M.param) (o0 := hs)
      ⟨⟨by show Shaped _ _ o.dim.toNat; rw [hcol]; exact f4.1, fun i hi j hj => by
          simp only [W2VModel.mem]; exact cellAt_eq f4.1 hi (by rw [← hcol]; exact hj)⟩,
        ⟨by show HsTree _ M.table _ _ _ _; rw [f6, hwords]; exact htree, fun _ => rfl, fun _ => rfl, fun n j hj => by
          simp only [W2VModel.mem, hopt]
          show ((vecOf hs.arena n)[j]?).getD fzero = _
          rw [List.getElem?_eq_getElem hj]; rfl⟩, rfl⟩ rfl n hit
    simp only [W2VModel.shared, hcol] at e5
    refine ⟨orders, rands, lrs, e1, e2, e3, e4, t, e5, ?_⟩
    · have k3 := (k2.mat.eqLr (by simp) k1).matrix
      simp only [W2VModel.shared, hcol] at k3
      simp only [W2VModel.after, hcol]
      exact k3
  · intro hsafe
    refine iters_exist (MemEnv.sc_total hv path) (by simp) _ _ _ ?_
    intro q hq t ht
    rw [List.eq_of_mem_replicate hq] at ht
    obtain ⟨d, hdd, rfl⟩ := List.mem_map.1 ht
    exact (hok _ (fun _ => False) (Or.inr hsafe) d hdd).mono (fun _ _ => trivial) (fun _ h => h)

end

/-- The hypotheses are met: `a b a`, one goroutine, either corpus, skip-gram or CBOW, negative sampling or hierarchical softmax. -/
example (im sg ns : Bool) (r : σ → ℝ × σ) (s : σ) :
    let o : W2VOptions ℝ := { W2VOptions.default 1 with docInMemory := im, minCount := 1, modelType := if sg then "skipgram".toList else "cbow".toList,
                                                        optimizerType := if ns then "ns".toList else "hs".toList }
    let p : Pass := ⟨['a', ' ', 'b', ' ', 'a'], false⟩
    ∃ M s' docs, Readable p [['a'], ['b'], ['a']] ∧ w2vSetup id r o p p s = .ok (M, s') ∧
      workerDocs o.docInMemory (o.corpus id) M.corpus p o.goroutines o.batchSize = .ok docs ∧ o.goroutines = 1 ∧ SigSafe (sigTable : List ℝ) ∧
      ((∃ ng, M.opt = .ns ng) ∨
        ∃ (hs : HierSoftmax ℝ) (path : Nat → List Nat), M.opt = .hs hs ∧ 0 ≤ o.maxDepth ∧ ∀ id < M.corpus.dic.len, ∃ a, getPath hs.arena id hs.maxDepth = some (.ok (a, path id))) := by
  intro o p
  have hp : Readable p [['a'], ['b'], ['a']] := ⟨isWords_fields ['a',' ','b',' ','a'], rfl, by decide⟩
  obtain ⟨M, s', e, hadd, _⟩ := C72_word2vec_starts (F := ℝ) id r o 10 rfl (by show (0 : Int) ≤ 1; omega) (by cases sg <;> simp [o]) (by cases ns <;> simp [o]) p _ hp s
  obtain ⟨docs, hd⟩ := workerDocs_exist id r o 10 rfl p _ hp s s' M e 1 rfl (by omega) (by norm_num)
  refine ⟨M, s', docs, hp, e, hd, rfl, sigSafe_real, ?_⟩
  cases hopt : M.opt with
  | ns ng => exact Or.inl ⟨ng, rfl⟩
  | hs hs =>
    obtain ⟨g1, g2⟩ := w2vSetup_hs id r o p p s s' M e hs hopt
    obtain ⟨d, nodes, path, h1, h2, h3⟩ := C20_full_path_partial (F := ℝ) [[['a'], ['b'], ['a']].map (o.corpus id).norm] (by simp) 10
    rw [hadd] at h1
    obtain rfl := Res.ok.inj h1
    rw [show ((10 : Nat) : Int) = o.dim from rfl, g1] at h2
    obtain ⟨rfl, -⟩ := Prod.mk.inj (Res.ok.inj h2)
    refine Or.inr ⟨hs, path, rfl, by show (0 : Int) ≤ 100; omega, fun i hi => (h3 i hi).2.2.1 _ ?_⟩
    obtain ⟨_, f2, _⟩ := w2vSetup_facts id r o 10 rfl p _ hp s s' M e
    rw [g2, f2.len_eq, show ([['a'], ['b'], ['a']].map (o.corpus id).norm).dedup.length = 2 from by
      show ([['a'], ['b'], ['a']].map id).dedup.length = 2
      decide]
    show ((2 : Nat) : Int) ≤ 100
    omega

/-- The hypotheses are met for LexVec: `a b a`, one goroutine, the document in memory. -/
example (r : σ → ℝ × σ) (s : σ) :
    let o : LexvecOptions ℝ := { LexvecOptions.default 1 with docInMemory := true, minCount := 1 }
    let p : Pass := ⟨['a', ' ', 'b', ' ', 'a'], false⟩
    ∃ M s' docs, Readable p [['a'], ['b'], ['a']] ∧ lexSetup id id r o p p s = .ok (M, s') ∧
      workerDocs o.docInMemory (o.corpus id) M.corpus p o.goroutines o.batchSize = .ok docs ∧ o.goroutines = 1 ∧ docs ≠ [] := by
  intro o p
  have hp : Readable p [['a'], ['b'], ['a']] := ⟨isWords_fields ['a',' ','b',' ','a'], rfl, by decide⟩
  obtain ⟨M, s', e, hadd, _⟩ := C72_lexvec_starts (F := ℝ) id id (fun m => List.Perm.refl m) r o 10 rfl (Or.inl rfl) (by show KnownRelation "ppmi".toList; unfold KnownRelation; decide) p _ hp (by simp) (by
    rw [show ([['a'], ['b'], ['a']].map (o.corpus id).norm).dedup.length = 2 from by
      show ([['a'], ['b'], ['a']].map id).dedup.length = 2
      decide]
    omega) s
  obtain ⟨_, _, f3, _⟩ := lexSetup_facts id id r o 10 rfl (Or.inl rfl) p _ hp s s' M e
  refine ⟨M, s', [trainSeq o.maxCount o.minCount ([['a'], ['b'], ['a']].map (o.corpus id).norm)], hp, e, ?_, rfl, by simp⟩
  unfold workerDocs
  rw [if_pos rfl, f3 rfl, Res.ok_bind]
  exact parts_one _

end Wego.Props
