import Verif.Props.Object

/-! # C86, continued: with valid options every later `Train` succeeds, whatever happened to the object before -/

namespace Wego.Props
open Wego Wego.Spec Wego.Matrix
variable {F : Type} {σ : Type}

/-- an observer left over from an earlier call cannot panic -/
theorem late_ok {np : Panic → Prop} {t : Prog F Unit} (h : t.Late) (env : MemEnv F) : t.Ok env (fun _ => True) np (fun _ => True) := by
  induction t with
  | ret a => trivial
  | panic p => exact h.elim
  | load l k ih => exact fun m v _ => ih v (h.2 v)
  | store l v k ih => exact ⟨trivial, ih h.2⟩
  | getNext k ih => exact h.elim
  | setNext v k ih => exact h.elim
  | rand k ih => exact h.elim
  | path id k ih => exact h.elim

theorem Late.bind {t : Prog F Unit} {k : Unit → Prog F Unit} (h : t.Late) (hk : ∀ u, (k u).Late) : (t >>= k).Late := by
  rw [Prog.bind_eq]
  induction t with
  | ret a => exact hk a
  | panic p => exact h.elim
  | load l k' ih => exact ⟨h.1, fun v => ih v (h.2 v)⟩
  | store l v k' ih => exact ⟨h.1, ih h.2⟩
  | getNext k ih => exact h.elim
  | setNext v k ih => exact h.elim
  | rand k ih => exact h.elim
  | path id k ih => exact h.elim

/-- Observers of earlier calls are such programs: every observer is one when `UpdateLRBatch` is not 0 ... -/
theorem observer_late [GoFloat F] (cfg : LrCfg F) (hu : cfg.updateLRBatch ≠ 0) (n : Nat) : (observerP cfg n).Late := by
  unfold observerP Prog.forP
  generalize 0 = lo
  induction n generalizing lo with
  | zero => trivial
  | succ n ih =>
    refine Late.bind ?_ fun _ => ih (lo + 1)
    unfold lrDue
    dsimp only
    rw [if_neg hu]
    generalize (((lo + 1 : Nat) : Int).tmod cfg.updateLRBatch == 0) = b
    cases b
    · exact trivial
    · exact ⟨rfl, fun v => ⟨rfl, trivial⟩⟩

/-- ... and stays one, whatever it has already done. -/
theorem late_step {env : MemEnv F} {m m' : Mem F} {ts ts' : List (Prog F Unit)} (h : ∀ t ∈ ts, t.Late) (hs : Sys.Step env ⟨m, ts⟩ ⟨m', ts'⟩) : ∀ t ∈ ts', t.Late := by
  have rep : ∀ {l r : List (Prog F Unit)} {x y : Prog F Unit}, (∀ t ∈ l ++ x :: r, t.Late) → (x.Late → y.Late) → ∀ t ∈ l ++ y :: r, t.Late := by
    intro l r x y h hxy t ht
    simp only [List.mem_append, List.mem_cons] at ht h
    rcases ht with ht | rfl | ht
    · exact h t (.inl ht)
    · exact hxy (h x (.inr (.inl rfl)))
    · exact h t (.inr (.inr ht))
  generalize e : (⟨m, ts⟩ : Sys F) = s at hs
  generalize e' : (⟨m', ts'⟩ : Sys F) = s' at hs
  cases hs <;> cases e <;> cases e'
  · exact rep h fun hx => hx.2 _
  · exact rep h fun hx => hx.2
  · exact rep h fun hx => hx.elim
  · exact rep h fun hx => hx.elim
  · exact rep h fun hx => hx.elim
  · exact rep h fun hx => hx.elim

section glove
variable [GoMath F] (lower : Word → Word) (enum : GoMap (BitVec 64) F → List (BitVec 64 × F)) (henum : ∀ m, (enum m).Perm m) (r : σ → F × σ)
  (o : GloveOptions F) (hdim : 0 ≤ o.dim) (hct : o.countType = "inc".toList) (hso : o.solverType = "sgd".toList ∨ o.solverType = "adagrad".toList)
  (hwin : o.docInMemory = true ∨ 1 ≤ o.window) (p : Pass) (ws : List Word) (h : Readable p ws) (hne : o.docInMemory = true ∨ ws ≠ [])
  (hg : 1 ≤ o.goroutines)
  (hb : ((ws.map (o.corpus lower).norm).dedup.length : Int) * (ws.map (o.corpus lower).norm).dedup.length + o.goroutines ≤ 2 ^ 53)
  (menv : MemEnv F) (s : σ) (next : UInt64) (x : ModelObj F)
include henum hdim hct hso hwin h hne hg hb

/-- **C86 (GloVe, every later `Train` succeeds).** On an object in any state: with valid options and a readable document every execution of `Train` that ends returns nil,
and one exists. -/
theorem C86_glove_any_state : (∀ x' res, GloveObjTrain menv lower enum r o x p s next x' res → res = .ok ()) ∧
    (menv.Total → ∃ x', GloveObjTrain menv lower enum r o x p s next x' (.ok ())) := by
  obtain ⟨M, s', slices, hM, hs, hok⟩ := glove_facts lower enum henum r o hdim hct hso hwin p ws h hne hg hb menv s
  rw [← gloveSetupObj_res (x := x)] at hM
  have hrounds : ∀ q ∈ List.replicate o.iter.toNat (gloveIter M o slices), q.1.Ok menv (fun _ => True) (fun _ => False) (fun _ => True) ∧
      ∀ t ∈ q.2, t.Ok menv (fun _ => True) (fun _ => False) (fun _ => True) := by
    intro q hq
    rw [List.eq_of_mem_replicate hq]
    exact ⟨trivial, hok⟩
  constructor
  · intro x' res ht
    cases ht with
    | setupErr e h => rw [hM] at h; cases h
    | setupPanic x h => rw [hM] at h; cases h
    | slicePanic M' s'' x h hd => rw [hM] at h; cases h; rw [hs] at hd; cases hd
    | panics M' s'' sl x h hd hi =>
      rw [hM] at h; cases h; rw [hs] at hd; cases hd
      exact absurd hi (Pool.no_panic (by simp) hrounds)
    | done M' s'' sl mem h hd hi => rfl
  · intro he
    obtain ⟨mem, hm⟩ := iters_exist he (g := o.goroutines.toNat) (by omega) (M.mem next) [] (List.replicate o.iter.toNat (gloveIter M o slices)) (fun q hq => (hrounds q hq).2)
    exact ⟨_, .done M s' slices mem hM hs hm⟩

end glove

section lexvec
variable [GoMath F] (lower : Word → Word) (enum : GoMap (BitVec 64) F → List (BitVec 64 × F)) (henum : ∀ m, (enum m).Perm m) (r : σ → F × σ)
  (o : LexvecOptions F) (hdim : 0 ≤ o.dim) (hrel : KnownRelation o.relationType) (hw1 : 1 ≤ o.window) (hw2 : o.window < 2 ^ 63)
  (hu : o.updateLRBatch ≠ 0) (hbs : o.docInMemory = true ∨ 1 ≤ o.batchSize) (p : Pass) (ws : List Word) (h : Readable p ws) (hne : ws ≠ [])
  (hdic : (ws.map (o.corpus lower).norm).dedup.length ≤ 2 ^ 32) (hg : 1 ≤ o.goroutines) (hb : (ws.length : Int) + o.goroutines ≤ 2 ^ 53)
  (menv : MemEnv F) (s : σ) (next : UInt64) (late : List (Prog F Unit)) (hlate : ∀ t ∈ late, t.Late) (x : ModelObj F)
include henum hdim hrel hw1 hw2 hu hbs h hne hdic hg hb hlate

/-- **C86 (LexVec, every later `Train` succeeds).** Also while observers of earlier calls still run. -/
theorem C86_lexvec_any_state : (∀ x' res, LexObjTrain menv lower enum r o late x p s next x' res → res = .ok ()) ∧
    (menv.Total → ∃ x', LexObjTrain menv lower enum r o late x p s next x' (.ok ())) := by
  obtain ⟨M, s', docs, W, hM, hbe, hs, hok1, hok2⟩ := lex_facts lower enum henum r o hdim hrel hw1 hw2 hu hbs p ws h hne hdic hg hb menv s
  rw [← lexSetupObj_res (x := x)] at hM
  have hrounds : ∀ q ∈ List.replicate o.iter.toNat (lexRound M o docs), q.1.Ok menv (fun _ => True) (fun _ => False) (fun _ => True) ∧
      ∀ t ∈ q.2, t.Ok menv (fun _ => True) (fun _ => False) (fun _ => True) := by
    intro q hq
    rw [List.eq_of_mem_replicate hq]
    exact ⟨hok1.mono (fun _ _ => trivial) (fun _ h => h), fun t ht => (hok2 t ht).mono (fun _ _ => trivial) (fun _ h => h)⟩
  constructor
  · intro x' res ht
    cases ht with
    | setupErr e h => rw [hM] at h; cases h
    | setupPanic x h => rw [hM] at h; cases h
    | slicePanic M' s'' x h hd => rw [hM] at h; cases h; rw [hs] at hd; cases hd
    | panics M' s'' sl x h hd hi =>
      rw [hM] at h; cases h; rw [hs] at hd; cases hd
      exact absurd hi (Pool.no_panic (fun t ht => late_ok (hlate t ht) menv) hrounds)
    | chanPanic M' s'' h hm hi hg' => omega
    | producerPanic M' s'' b x h hm hi hp =>
      rw [hM] at h; cases h
      rw [hm, hp] at hbe
      rcases hbe with h | h | h
      · cases h
      · omega
      · cases h
    | done M' s'' sl mem h hp hd hi => rfl
  · intro he
    obtain ⟨mem, hm⟩ := iters_exist he (g := o.goroutines.toNat) (by omega) ((M.mem o next).set .lr x.lr) late (List.replicate o.iter.toNat (lexRound M o docs))
      (fun q hq t ht => (hrounds q hq).2 t ht)
    exact ⟨_, .done M s' docs mem hM hbe hs hm (by omega)⟩

end lexvec

section word2vec
variable (lower : Word → Word) (r : σ → ℝ × σ)
  (o : W2VOptions ℝ) (hdim : 0 ≤ o.dim) (hm : o.modelType = "skipgram".toList ∨ o.modelType = "cbow".toList)
  (ho : o.optimizerType = "ns".toList ∨ o.optimizerType = "hs".toList) (hw1 : 1 ≤ o.window) (hw2 : o.window < 2 ^ 63)
  (hu : o.updateLRBatch ≠ 0) (hbs : o.docInMemory = true ∨ 1 ≤ o.batchSize) (p : Pass) (ws : List Word) (h : Readable p ws)
  (hdic : (ws.map (o.corpus lower).norm).dedup.length < 2 ^ 63) (hg : 1 ≤ o.goroutines) (hb : (ws.length : Int) + o.goroutines ≤ 2 ^ 53)
  (menv : MemEnv ℝ) (s : σ) (next : UInt64) (late : List (Prog ℝ Unit)) (hlate : ∀ t ∈ late, t.Late) (x : ModelObj ℝ)
include hdim hm ho hw1 hw2 hu hbs h hdic hg hb hlate

/-- **C86 (word2vec, every later `Train` succeeds).** In real arithmetic (see C84). -/
theorem C86_word2vec_any_state : (∀ x' res, W2VObjTrain menv lower r o late x p s next x' res → res = .ok ()) ∧
    (menv.Total → ∃ x', W2VObjTrain menv lower r o late x p s next x' (.ok ())) := by
  obtain ⟨dim, hd⟩ := Int.eq_ofNat_of_zero_le hdim
  obtain ⟨M, s', hM, _⟩ := C72_word2vec_starts lower r o dim hd (by omega) hm ho p ws h s
  obtain ⟨f1, f2, f3, ⟨f4, _⟩, f5, f6, f7⟩ := w2vSetup_facts lower r o dim hd p ws h s s' M hM
  obtain ⟨docs, hdocs⟩ := workerDocs_ok o.docInMemory (o.corpus lower) M.corpus p ws o.maxCount o.minCount f3 o.goroutines o.batchSize hg hb
  have hbe := batches_end (o.corpus lower) p ws h _ f1 o.docInMemory o.iter o.batchSize hbs
  have hmem := workerDocs_mem o.docInMemory (o.corpus lower) M.corpus p ws h f2 f1 f3 _ _ hbs docs hdocs
  have hlen : M.corpus.dic.len = (ws.map (o.corpus lower).norm).dedup.length := f2.len_eq
  have hsafe : SigSafe M.table := by
    have := sigSafe_real
    generalize (sigTable : List ℝ) = tb at f6 this
    rw [f6]; exact this
  have hthr := w2v_threads_ok M o dim hd 0 [docs] menv (fun _ => False) f5 f7 (by
    intro ds hds d hdd id hid
    rw [List.mem_singleton.1 hds] at hdd
    rw [hlen]
    exact mem_trainSeq_lt _ _ _ _ (hmem d hdd id hid)) (.inr ⟨hw1, hw2⟩) (.inr hsafe) (.inr (by rw [hlen]; exact hdic)) (.inr hu)
  simp only [W2VModel.sys, List.flatMap_cons, List.flatMap_nil, List.append_nil, List.mem_cons, forall_eq_or_imp] at hthr
  have hrounds : ∀ q ∈ List.replicate o.iter.toNat (w2vRound M o docs), q.1.Ok menv (fun _ => True) (fun _ => False) (fun _ => True) ∧
      ∀ t ∈ q.2, t.Ok menv (fun _ => True) (fun _ => False) (fun _ => True) := by
    intro q hq
    rw [List.eq_of_mem_replicate hq]
    exact ⟨hthr.1.mono (fun _ _ => trivial) (fun _ h => h), fun t ht => (hthr.2 t ht).mono (fun _ _ => trivial) (fun _ h => h)⟩
  rw [← w2vSetupObj_res (x := x)] at hM
  constructor
  · intro x' res ht
    cases ht with
    | setupErr e h => rw [hM] at h; cases h
    | setupPanic x h => rw [hM] at h; cases h
    | slicePanic M' s'' x h hd => rw [hM] at h; cases h; rw [hdocs] at hd; cases hd
    | panics M' s'' sl x h hd hi =>
      rw [hM] at h; cases h; rw [hdocs] at hd; cases hd
      exact absurd hi (Pool.no_panic (fun t ht => late_ok (hlate t ht) menv) hrounds)
    | producerPanic M' s'' b x h hm hi hp =>
      rw [hM] at h; cases h
      rw [hm, hp] at hbe
      rcases hbe with h | h | h
      · cases h
      · omega
      · cases h
    | done M' s'' sl mem h hp hd hi => rfl
  · intro he
    obtain ⟨mem, hm⟩ := iters_exist he (g := o.goroutines.toNat) (by omega) ((M.mem o next).set .lr x.lr) late (List.replicate o.iter.toNat (w2vRound M o docs))
      (fun q hq t ht => (hrounds q hq).2 t ht)
    exact ⟨_, .done M s' docs mem hM hbe hdocs hm⟩

end word2vec

/-! ## The hypotheses are met -/

/-- LexVec: a first `Train` over `a b a`, then one over the same document while an observer of the first call still runs; both return nil. -/
example (lib : LibM) (r : σ → F64 × σ) (s : σ) :
    let o : LexvecOptions F64 := LexvecOptions.default 1
    let menv : MemEnv F64 := MemEnv.sc (fun _ => True) (fun _ q => q = [])
    ∃ x x', History (LexCalls lib menv id id r o) (ModelObj.new o.initlr)
        [(⟨exampleFS.read ['i', 'n'], false⟩, .ok ()), (⟨exampleFS.read ['i', 'n'], false⟩, .ok ())] x' ∧
      LexCalls lib menv id id r o x ⟨exampleFS.read ['i', 'n'], false⟩ x' (.ok ()) ∧
      Holds [['a'], ['b'], ['a']] 10 x' (objVector o.dim x') o.verbose o.logBatch := by
  intro o menv
  let _ := lib.math
  have go : ∀ (late : List (Prog F64 Unit)) (_ : ∀ t ∈ late, t.Late) (x : ModelObj F64), ∃ x',
      TrainsLex lib menv id id r o late x ⟨exampleFS.read ['i', 'n'], false⟩ s 0 x' (.ok ()) := fun late hl x =>
    (C86_lexvec_any_state id id (fun _ => List.Perm.refl _) r o (by show (0 : Int) ≤ 10; omega) (.inl rfl) (by show (1 : Int) ≤ 5; omega) (by show (5 : Int) < 2 ^ 63; omega)
      (by show (100000 : Int) ≠ 0; omega) (.inr (by show (1 : Int) ≤ 10000; omega)) _ _ example_readable (by simp)
      (by rw [show ([['a'], ['b'], ['a']].map (o.corpus id).norm).dedup.length = 2 from (by decide : ([['a'], ['b'], ['a']].map id).dedup.length = 2)]; omega)
      (by show (1 : Int) ≤ 1; omega) (by show (3 : Int) + 1 ≤ 2 ^ 53; norm_num) menv s 0 late hl x).2 (MemEnv.sc_total ⟨fzero, trivial⟩ (fun _ => []))
  obtain ⟨x1, h1⟩ := go [] (by simp) (ModelObj.new o.initlr)
  have hl : ∀ t ∈ [observerP (⟨o.initlr, o.minLR, o.updateLRBatch, 3⟩ : LrCfg F64) 3], t.Late := by
    intro t ht
    rw [List.mem_singleton.1 ht]
    exact observer_late _ (by show (100000 : Int) ≠ 0; omega) 3
  obtain ⟨x2, h2⟩ := go _ hl x1
  have c2 : LexCalls lib menv id id r o x1 ⟨exampleFS.read ['i', 'n'], false⟩ x2 (.ok ()) := ⟨_, s, 0, hl, h2⟩
  refine ⟨x1, x2, .call _ _ _ _ _ (.call [] _ _ _ _ .new ⟨[], s, 0, by simp, h1⟩ (by simp)) c2 (by simp), c2, ?_⟩
  exact C86_lexvec lib menv id id r 10 o rfl (.inr (by show (1 : Int) ≤ 5; omega)) (.inl rfl) _ x1 x2 _ _ example_readable s 0 h2

end Wego.Props
