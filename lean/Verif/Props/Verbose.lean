import Verif.Proofs.Verbose
import Verif.Props.Corpus

/-! # C80: verbose output is exactly the documented progress lines and changes nothing else -/

namespace Wego.Props
open Wego
variable {F : Type}

/-- the lines that report progress up to `n` in steps of `batch`: one for every multiple of `batch` from 1 to `n` -/
def progress (mk : Nat → LogLine) (batch : Int) (n : Nat) : List LogLine := ((List.range' 1 n).filter fun (k : Nat) => batch ∣ (k : Int)).map mk

/-- progress lines, then the final count -/
def report (mk : Nat → LogLine) (batch : Int) (n : Nat) : List LogLine := progress mk batch n ++ [mk n]

/-- the number of pairs of positions `i < j <= i + window` in a document of `len` words -/
def tupleCount (len : Nat) (window : Int) : Nat := ((List.range len).map fun i => min (len - 1 - i) window.toNat).sum

theorem progress_zero (mk : Nat → LogLine) (batch : Int) : progress mk batch 0 = [] := rfl

theorem progress_succ (mk : Nat → LogLine) (batch : Int) (n : Nat) :
    progress mk batch (n + 1) = progress mk batch n ++ if batch ∣ ((n + 1 : Nat) : Int) then [mk (n + 1)] else [] := by
  unfold progress
  rw [List.range'_1_concat, List.filter_append, List.map_append]
  congr 1
  rw [Nat.add_comm 1 n]
  by_cases h : batch ∣ ((n + 1 : Nat) : Int) <;> simp only [h, if_true, if_false, List.filter_cons, List.filter_nil, decide_true, decide_false, List.map_cons, List.map_nil, Bool.false_eq_true]

theorem logTick_on {batch : Int} (hb : batch ≠ 0) (mk : Nat → LogLine) (n : Nat) (pre : List LogLine) :
    logTick true batch mk (n + 1) (pre ++ progress mk batch n) = .ok (pre ++ progress mk batch (n + 1)) := by
  unfold logTick verboseDo
  rw [if_pos rfl]
  dsimp only
  rw [if_neg hb, progress_succ]
  by_cases h : batch ∣ ((n + 1 : Nat) : Int)
  · rw [if_pos (Int.dvd_iff_tmod_eq_zero.1 h), if_pos h, List.append_assoc]
  · rw [if_neg (fun h' => h (Int.dvd_iff_tmod_eq_zero.2 h')), if_neg h, List.append_nil]

theorem logTick_off (batch : Int) (mk : Nat → LogLine) (n : Nat) (log : List LogLine) : logTick false batch mk n log = .ok log := rfl

/-- both cases: `log` is what has been printed -/
theorem logTick_step {flag : Bool} {batch : Int} (hb : flag = true → batch ≠ 0) (mk : Nat → LogLine) (n : Nat) (pre : List LogLine) :
    logTick flag batch mk (n + 1) (pre ++ if flag then progress mk batch n else []) = .ok (pre ++ if flag then progress mk batch (n + 1) else []) := by
  cases flag with
  | false => rfl
  | true => exact logTick_on (hb rfl) mk n pre

theorem logEnd_report (flag : Bool) (batch : Int) (mk : Nat → LogLine) (n : Nat) (pre : List LogLine) :
    logEnd flag (mk n) (pre ++ if flag then progress mk batch n else []) = pre ++ if flag then report mk batch n else [] := by
  cases flag with
  | false => rfl
  | true => simp [logEnd, report]

section
variable [GoFloat F]

/-- what is printed by loading a corpus of `words` words: the words, and with co-occurrence counting the tuples -/
def loadReport (flag : Bool) (batch : Int) (words : Nat) (tuples : Option Nat) : List LogLine :=
  if flag then report .words batch words ++ match tuples with
    | none => []
    | some n => report .tuples batch n
  else []

omit [GoFloat F] in
theorem add_maxLen_mem {cfg : CorpusCfg} {w : Word} {c c' : CorpusState F} (h : memReadCb cfg w c = .ok c') : c'.maxLen = c.maxLen + 1 := by
  unfold memReadCb at h
  dsimp only at h
  rw [Res.bind_eq_ok] at h
  obtain ⟨d, _, h⟩ := h
  cases h
  rfl

omit [GoFloat F] in
theorem add_maxLen_fs {cfg : CorpusCfg} {w : Word} {c c' : CorpusState F} (h : fsReadCb cfg w c = .ok c') : c'.maxLen = c.maxLen + 1 := by
  unfold fsReadCb at h
  rw [Res.bind_eq_ok] at h
  obtain ⟨d, _, h⟩ := h
  cases h
  rfl

theorem readV_rel {flag : Bool} {batch : Int} (hb : flag = true → batch ≠ 0) (p : Pass) (f : Word → CorpusState F → Res (CorpusState F))
    (fv : Word → CorpusState F × List LogLine → Res (CorpusState F × List LogLine)) (hf : ∀ w c c', f w c = .ok c' → c'.maxLen = c.maxLen + 1)
    (hv : ∀ w c, fv w c = f w c.1 >>= fun c' => logTick flag batch .words c'.maxLen c.2 >>= fun log => .ok (c', log)) :
    ResRel (fun (c : CorpusState F) r => r = (c, if flag then progress .words batch c.maxLen else []))
      (ctlRes (readWord p (fun word c => liftCtl c (f word c)) CorpusState.init))
      (ctlRes (readWord p (fun word c => liftCtl c (fv word c)) (CorpusState.init, []))) := by
  refine ctlRes_rel (readWord_rel p ?_ (by cases flag <;> rfl))
  rintro w c _ rfl
  refine liftCtl_rel rfl ?_
  rw [hv]
  dsimp only
  cases h : f w c with
  | ok c' =>
    have e := hf w c c' h
    have := logTick_step hb .words c.maxLen []
    simp only [List.nil_append] at this
    rw [Res.ok_bind, e, this, Res.ok_bind]
    show _ = _
    rw [e]
  | err e => rfl
  | panic p => rfl

theorem memPairsV_rel {flag : Bool} {batch : Int} (hb : flag = true → batch ≠ 0) (idoc : List Nat) (window : Int) (co : Cooccurrence F) (pre : List LogLine) :
    ResRel (fun (c : Cooccurrence F) r => r = (c, tupleCount idoc.length window, pre ++ if flag then progress .tuples batch (tupleCount idoc.length window) else []))
      (memPairs idoc window co) (memPairsV idoc window flag batch (co, 0, pre)) := by
  let N : Nat → Nat := fun i => ((List.range i).map fun i => min (idoc.length - 1 - i) window.toNat).sum
  have hN : ∀ i, N (i + 1) = N i + min (idoc.length - 1 - i) window.toNat := by
    intro i
    simp only [N, List.range_succ, List.map_append, List.sum_append, List.map_cons, List.map_nil, List.sum_cons, List.sum_nil, Nat.add_zero]
  have key := forFrom_rel (Q := fun i (c : Cooccurrence F) r => r = (c, N i, pre ++ if flag then progress .tuples batch (N i) else []))
    (f := fun i co => forFrom (i+1) (min idoc.length (i + window.toNat + 1) - (i+1)) co (fun j co => idx idoc i >>= fun a => idx idoc j >>= fun b => co.add a b))
    (g := fun i st => forFrom (i+1) (min idoc.length (i + window.toNat + 1) - (i+1)) st (fun j st =>
      idx idoc i >>= fun a => idx idoc j >>= fun b => st.1.add a b >>= fun co =>
      logTick flag batch .tuples (st.2.1 + 1) st.2.2 >>= fun log => .ok (co, st.2.1 + 1, log))) 0 idoc.length ?_ (s := co) (t := (co, 0, pre)) ?_
  · rw [Nat.zero_add] at key
    exact key
  · rintro i c _ _ hi rfl
    have hc : min idoc.length (i + window.toNat + 1) - (i + 1) = min (idoc.length - 1 - i) window.toNat := by omega
    have k2 := forFrom_rel (Q := fun j (c : Cooccurrence F) r => r = (c, N i + (j - (i + 1)), pre ++ if flag then progress .tuples batch (N i + (j - (i + 1))) else []))
      (f := fun j co => idx idoc i >>= fun a => idx idoc j >>= fun b => co.add a b)
      (g := fun j st => idx idoc i >>= fun a => idx idoc j >>= fun b => st.1.add a b >>= fun co =>
        logTick flag batch .tuples (st.2.1 + 1) st.2.2 >>= fun log => .ok (co, st.2.1 + 1, log)) (i + 1) (min idoc.length (i + window.toNat + 1) - (i+1)) ?_
        (s := c) (t := (c, N i, pre ++ if flag then progress .tuples batch (N i) else [])) (by simp)
    · rw [show i + 1 + (min idoc.length (i + window.toNat + 1) - (i + 1)) - (i + 1) = min (idoc.length - 1 - i) window.toNat by omega, ← hN] at k2
      exact k2
    · rintro j x _ hj _ rfl
      refine (ResRel.refl_of rfl).bind fun a _ ha => ?_
      subst ha
      refine (ResRel.refl_of rfl).bind fun b _ hb' => ?_
      subst hb'
      dsimp only
      cases hadd : x.add a b with
      | ok c' =>
        rw [Res.ok_bind, logTick_step hb, Res.ok_bind]
        show _ = _
        rw [show j + 1 - (i + 1) = j - (i + 1) + 1 by omega]
        rfl
      | err e => rfl
      | panic p => rfl
  · cases flag <;> simp [N, progress]

/-- **C80 (in-memory corpus).** `Load` with verbose output gives the result of `Load` without; the lines printed are the multiples of `logBatch` among the word counts, then the
number of words, then the same for the tuples. -/
theorem C80_memory_load (cfg : CorpusCfg) (p : Pass) (w : Option WithCooccurrence) (flag : Bool) (batch : Int) (hb : flag = true → batch ≠ 0) :
    (memLoadV cfg p w flag batch : Res (CorpusState F × List LogLine)) =
      memLoad cfg p w >>= fun c => .ok (c, loadReport flag batch c.maxLen (w.map fun w => tupleCount c.idoc.length w.window)) := by
  refine ResRel.eq_map ?_
  unfold memLoadV memLoad
  refine (readV_rel hb p (memReadCb cfg) (memReadCbV cfg flag batch) (fun _ _ _ => add_maxLen_mem) (fun _ _ => rfl)).bind ?_
  rintro c _ rfl
  have e := logEnd_report flag batch .words c.maxLen []
  simp only [List.nil_append] at e
  dsimp only
  rw [e]
  cases w with
  | none =>
    show _ = _
    cases flag <;> simp [loadReport]
  | some w =>
    refine (ResRel.refl_of rfl).bind fun co _ hco => ?_
    subst hco
    refine (memPairsV_rel hb c.idoc w.window co _).bind ?_
    rintro co' _ rfl
    show _ = _
    dsimp only
    rw [logEnd_report]
    cases flag <;> simp [loadReport]

/-- **C80 (file corpus).** The same; the number of tuples is the number of calls of the forward-context reader's callback (described by C09). -/
theorem C80_file_load (cfg : CorpusCfg) (p1 p2 : Pass) (w : Option WithCooccurrence) (flag : Bool) (batch : Int) (hb : flag = true → batch ≠ 0) :
    (fsLoadV cfg p1 p2 w flag batch : Res (CorpusState F × List LogLine)) =
      fsLoad cfg p1 p2 w >>= fun c => .ok (c, loadReport flag batch c.maxLen (w.map fun w => forwardCalls p2 w.window)) := by
  refine ResRel.eq_map ?_
  unfold fsLoadV fsLoad
  refine (readV_rel hb p1 (fsReadCb cfg) (fsReadCbV cfg flag batch) (fun _ _ _ => add_maxLen_fs) (fun _ _ => rfl)).bind ?_
  rintro c _ rfl
  have e := logEnd_report flag batch .words c.maxLen []
  simp only [List.nil_append] at e
  dsimp only
  rw [e]
  cases w with
  | none =>
    show _ = _
    cases flag <;> simp [loadReport]
  | some w =>
    refine (ResRel.refl_of rfl).bind fun co _ hco => ?_
    subst hco
    dsimp only
    generalize hpre : (if flag = true then report LogLine.words batch c.maxLen else []) = pre
    have h1 := forwardContext_rel p2 w.window (fn := fsPairCb c.dic) (fn' := fsPairCbV c.dic flag batch)
      (R := fun (co : Cooccurrence F) st => st.1 = co ∧ st.2.2 = pre ++ if flag then progress .tuples batch st.2.1 else []) (by
        rintro a b s ⟨x, k, l⟩ ⟨g1, g2⟩
        dsimp only at g1 g2
        subst g1 g2
        refine liftCtl_rel ⟨rfl, rfl⟩ ?_
        dsimp only
        cases hadd : x.add (c.dic.idOrZero a) (c.dic.idOrZero b) with
        | ok c' =>
          rw [Res.ok_bind, logTick_step hb, Res.ok_bind]
          exact ⟨rfl, rfl⟩
        | err e => rfl
        | panic p => rfl) (s := co) (t := (co, 0, pre)) ⟨rfl, by cases flag <;> simp [progress]⟩
    have h2 := forwardContext_sim p2 w.window (fn := fsPairCbV c.dic flag batch) (fn' := fun _ _ (k : Nat) => (k + 1, Ctl.next))
      (R := fun (st : Cooccurrence F × Nat × List LogLine) k => st.2.1 = k) (by
        rintro a b ⟨x, k, l⟩ _ rfl hnext
        refine ⟨rfl, ?_⟩
        unfold fsPairCbV liftCtl at hnext ⊢
        dsimp only at hnext ⊢
        cases hadd : x.add (c.dic.idOrZero a) (c.dic.idOrZero b) with
        | ok c' =>
          rw [hadd, Res.ok_bind] at hnext
          rw [Res.ok_bind]
          cases hl : logTick flag batch .tuples (k + 1) l with
          | ok l' => rfl
          | err e => rw [hl] at hnext; cases hnext
          | panic p => rw [hl] at hnext; cases hnext
        | err e => rw [hadd] at hnext; cases hnext
        | panic p => rw [hadd] at hnext; cases hnext) (s := (co, 0, pre)) (t := 0) rfl
    generalize readWordWithForwardContext p2 w.window (fsPairCbV c.dic flag batch) (co, 0, pre) = rv at h1 h2
    generalize readWordWithForwardContext p2 w.window (fsPairCb c.dic) co = r at h1
    rcases rv with ⟨⟨co', k, l⟩, cv⟩
    rcases r with ⟨s, cr⟩
    obtain ⟨h3, h4, h5⟩ := h1
    dsimp only at h3 h4 h5
    subst h3 h4 h5
    cases cr with
    | next =>
      obtain ⟨_, h6⟩ := h2 rfl
      dsimp only at h6
      show _ = _
      simp only [ctlRes]
      rw [logEnd_report]
      show _ = (_, loadReport flag batch c.maxLen (some (forwardCalls p2 w.window)))
      rw [show forwardCalls p2 w.window = k from h6.symm, ← hpre]
      cases flag <;> simp [loadReport]
    | fail e => rfl
    | crash p => rfl

/-- **C80 (corpora).** Both corpora without verbose output: nothing is printed, whatever `logBatch` is. -/
theorem C80_silent_load (im : Bool) (cfg : CorpusCfg) (p1 p2 : Pass) (w : Option WithCooccurrence) (batch : Int) :
    (loadCorpusV im cfg p1 p2 w false batch : Res (CorpusState F × List LogLine)) = loadCorpus im cfg p1 p2 w >>= fun c => .ok (c, []) := by
  unfold loadCorpusV loadCorpus
  cases im with
  | true => simp only [if_true]; rw [C80_memory_load _ _ _ _ _ (by simp)]; rfl
  | false => simp only [Bool.false_eq_true, if_false]; rw [C80_file_load _ _ _ _ _ _ (by simp)]; rfl

/-- **C80 (zero).** With verbose output and `logBatch = 0`, loading any document with at least one word panics (division by zero). For LexVec `logBatch` is `BatchSize`. -/
theorem C80_zero_batch_panics (im : Bool) (cfg : CorpusCfg) (p1 p2 : Pass) (ws : List Word) (hr : Readable p1 ws) (hne : ws ≠ []) (w : Option WithCooccurrence) :
    (loadCorpusV im cfg p1 p2 w true 0 : Res (CorpusState F × List LogLine)) = .panic .divByZero := by
  have key : ∀ (f : Word → CorpusState F → Res (CorpusState F)) (fv : Word → CorpusState F × List LogLine → Res (CorpusState F × List LogLine))
      (hv : ∀ w c, fv w c = f w c.1 >>= fun c' => logTick true 0 .words c'.maxLen c.2 >>= fun log => .ok (c', log))
      (hf : ∀ w, ∃ c', f w CorpusState.init = .ok c'),
      ctlRes (readWord p1 (fun word c => liftCtl c (fv word c)) (CorpusState.init, [])) = .panic .divByZero := by
    intro f fv hv hf
    rw [readWord_lift hr]
    cases ws with
    | nil => exact absurd rfl hne
    | cons a ws =>
      obtain ⟨c', hc⟩ := hf a
      rw [forEach_cons, hv, hc]
      rfl
  unfold loadCorpusV
  cases im with
  | true =>
    simp only [if_true, memLoadV]
    rw [key (memReadCb cfg) (memReadCbV cfg true 0) (fun _ _ => rfl) (fun w => ?_)]
    · rfl
    · unfold memReadCb
      exact ⟨_, rfl⟩
  | false =>
    simp only [Bool.false_eq_true, if_false, fsLoadV]
    rw [key (fsReadCb cfg) (fsReadCbV cfg true 0) (fun _ _ => rfl) (fun w => ?_)]
    · rfl
    · unfold fsReadCb
      exact ⟨_, rfl⟩

/-- **C80 (observers of word2vec and LexVec).** Receiving `n` words: the same counter and learning rate as without output, and the report on `n` words. -/
theorem C80_observer (cfg : LrCfg F) (flag : Bool) (batch : Int) (hb : flag = true → batch ≠ 0) (n : Nat) (lr : F) :
    observeV cfg flag batch n (0, lr, []) = observeAlone cfg n (0, lr) >>= fun st => .ok (st.1, st.2, if flag then report .trained batch n else []) := by
  suffices h : ∀ n k lr, observeV cfg flag batch n (k, lr, if flag then progress .trained batch k else []) =
      observeAlone cfg n (k, lr) >>= fun st => .ok (st.1, st.2, if flag then report .trained batch (k + n) else []) by
    have := h n 0 lr
    rw [Nat.zero_add] at this
    rw [← this]
    cases flag <;> simp [progress]
  intro n
  induction n with
  | zero =>
    intro k lr
    have := logEnd_report flag batch .trained k []
    simp only [List.nil_append] at this
    simp only [observeV, observeAlone, Res.ok_bind, Nat.add_zero, this]
  | succ n ih =>
    intro k lr
    simp only [observeV, observeAlone]
    unfold observeOne
    cases lrDue cfg (k + 1) with
    | ok b =>
      have := logTick_step hb .trained k []
      simp only [List.nil_append] at this
      simp only [Res.ok_bind, this, ih]
      rw [show k + 1 + n = k + (n + 1) by omega]
    | err e => rfl
    | panic p => rfl

omit [GoFloat F] in
/-- **C80 (observer of GloVe).** -/
theorem C80_glove_observer (flag : Bool) (batch : Int) (hb : flag = true → batch ≠ 0) (n : Nat) :
    gloveObserveV flag batch n (0, []) = .ok (if flag then n else 0, if flag then report .trained batch n else []) := by
  cases flag with
  | false =>
    suffices h : ∀ n, gloveObserveV false batch n (0, []) = .ok (0, []) from h n
    intro n
    induction n with
    | zero => rfl
    | succ n ih => exact ih
  | true =>
    suffices h : ∀ n k, gloveObserveV true batch n (k, progress .trained batch k) = .ok (k + n, report .trained batch (k + n)) by
      have := h n 0
      rw [Nat.zero_add] at this
      exact this
    intro n
    induction n with
    | zero => intro k; rfl
    | succ n ih =>
      intro k
      have := logTick_on (hb rfl) .trained k []
      simp only [List.nil_append] at this
      simp only [gloveObserveV, if_true, this, Res.ok_bind, ih]
      rw [show k + 1 + n = k + (n + 1) by omega]

end

section
variable [GoMath F]

/-- **C80 (items of GloVe).** The same items, and the report on their number. -/
theorem C80_glove_items (xmax : Int) (alpha : F) (em : List (BitVec 64 × F)) (flag : Bool) (batch : Int) (hb : flag = true → batch ≠ 0) :
    gloveItemsV xmax alpha em flag batch [] = .ok (gloveItems xmax alpha em, if flag then report .items batch em.length else []) := by
  unfold gloveItemsV gloveItems
  suffices h : ∀ (l pre : List (BitVec 64 × F)), forEach l (pre.map (gloveItem xmax alpha), if flag then progress .items batch pre.length else []) (fun e st =>
      let acc := st.1 ++ [gloveItem xmax alpha e]
      logTick flag batch .items acc.length st.2 >>= fun log => .ok (acc, log)) =
        .ok ((pre ++ l).map (gloveItem xmax alpha), if flag then progress .items batch (pre ++ l).length else []) by
    have h0 := h em []
    have e0 : (if flag = true then progress .items batch ([] : List (BitVec 64 × F)).length else []) = [] := by cases flag <;> rfl
    rw [e0] at h0
    simp only [List.map_nil, List.nil_append] at h0
    rw [h0, Res.ok_bind]
    have := logEnd_report flag batch .items em.length []
    simp only [List.nil_append] at this
    simp only [List.length_map, this]
  intro l
  induction l with
  | nil => intro pre; simp
  | cons a l ih =>
    intro pre
    have := logTick_step hb .items pre.length []
    simp only [List.nil_append] at this
    simp only [forEach_cons, List.length_append, List.length_map, List.length_cons, List.length_nil, Nat.zero_add, this, Res.ok_bind]
    have h2 := ih (pre ++ [a])
    simp only [List.map_append, List.map_cons, List.map_nil, List.length_append, List.length_cons, List.length_nil, Nat.zero_add, List.append_assoc, List.singleton_append] at h2
    rw [h2]
    simp [Nat.add_comm, Nat.add_left_comm]

/-- **C80 (items of LexVec).** The same items or the same error, and the report on the number of pairs. -/
theorem C80_lexvec_items (dic : Dictionary) (total : Nat) (smooth : F) (typ : String) (em : List (BitVec 64 × F)) (flag : Bool) (batch : Int) (hb : flag = true → batch ≠ 0) :
    lexItemsV dic total smooth typ em flag batch [] = lexItems dic total smooth typ em >>= fun m => .ok (m, if flag then report .items batch em.length else []) := by
  refine ResRel.eq_map ?_
  unfold lexItemsV
  dsimp only
  rw [show lexItems dic total smooth typ em = lexItems dic total smooth typ em >>= fun m => .ok m by cases lexItems dic total smooth typ em <;> rfl]
  unfold lexItems
  dsimp only
  refine ResRel.bind (R := fun (m : GoMap (BitVec 64) F) st => st = (m, em.length, if flag then progress .items batch em.length else [])) ?_ ?_
  · have := forEach_rel (Q := fun l (m : GoMap (BitVec 64) F) st => st = (m, l.length, if flag then progress .items batch l.length else []))
      (f := fun e res => calculateRelation dic smooth typ (decodeBigram e.1).1.toInt (decodeBigram e.1).2.toInt e.2 (GoMath.log (GoMath.pow (GoFloat.ofRat (total : ℚ)) smooth)) >>= fun v => .ok (res.set e.1 v))
      (g := fun e st => calculateRelation dic smooth typ (decodeBigram e.1).1.toInt (decodeBigram e.1).2.toInt e.2 (GoMath.log (GoMath.pow (GoFloat.ofRat (total : ℚ)) smooth)) >>= fun v =>
        logTick flag batch .items (st.2.1 + 1) st.2.2 >>= fun log => .ok (st.1.set e.1 v, st.2.1 + 1, log)) em ?_ (pre := []) (s := GoMap.empty)
      (t := (GoMap.empty, 0, [])) (by cases flag <;> rfl)
    · simpa using this
    · rintro e l m _ rfl
      refine (ResRel.refl_of rfl).bind fun v _ hv => ?_
      subst hv
      have := logTick_step hb .items l.length []
      simp only [List.nil_append] at this
      dsimp only
      rw [this, Res.ok_bind]
      show _ = _
      simp
  · rintro m _ rfl
    have := logEnd_report flag batch .items em.length []
    simp only [List.nil_append] at this
    show _ = _
    dsimp only
    rw [this]

end

/-- `a b a`, window 1, a line for every second word: `read 2 words`, `read 3 words`, `read 2 tuples` twice. -/
example : loadReport true 2 3 (some (tupleCount 3 1)) = [.words 2, .words 3, .tuples 2, .tuples 2] := by decide

/-- the document `a b a` meets the hypotheses of `C80_zero_batch_panics` -/
example : Readable ⟨['a', ' ', 'b', ' ', 'a'], false⟩ [['a'], ['b'], ['a']] := ⟨isWords_fields ['a',' ','b',' ','a'], rfl, by decide⟩

end Wego.Props
