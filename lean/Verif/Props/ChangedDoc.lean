import Verif.Props.Interleave

/-! # C110: a file that changes while training reads it

With a file-backed corpus every iteration reads the file again. The words of the first reading make the dictionary. -/

namespace Wego.Spec

/-- What a word of a later reading counts as when `first` are the words of the first reading: itself if it was there, otherwise the first word that was. -/
def countsAs (first : List Word) (w : Word) : Word :=
  if w ∈ first then w else first.headD w

end Wego.Spec

namespace Wego.Props
open Wego Spec

theorem rep_countsAs {d : Dictionary} {us : List Word} (hr : d.Rep us) (w : Word) :
    d.idOrZero w = distinctBefore us (countsAs us w) ∧ d.idFreq (d.idOrZero w) = .ok (us.count (countsAs us w)) := by
  unfold countsAs
  by_cases hw : w ∈ us
  · rw [if_pos hw, hr.idOrZero_eq, if_pos hw]
    exact ⟨idxOf_firstOcc us w hw, hr.idFreq_id w hw⟩
  · rw [if_neg hw, hr.idOrZero_eq, if_neg hw]
    cases us with
    | nil =>
      refine ⟨by simp [distinctBefore], ?_⟩
      have := hr.idFreq_nat 0
      simpa [firstOcc] using this
    | cons u us =>
      have h0 : (firstOcc (u :: us)).idxOf u = 0 := by
        rw [idxOf_firstOcc _ u (by simp)]; simp [distinctBefore]
      refine ⟨by simp [distinctBefore], ?_⟩
      have := hr.idFreq_id u (by simp)
      rw [h0] at this
      exact this

/-- `BatchWords` on a document that need not be the one the dictionary was made from. -/
theorem batch_changed (cfg : CorpusCfg) (dic : Dictionary) (us : List Word) (hr : dic.Rep us) (bs : Nat) (hbs : 1 ≤ bs) (ws : List Word) :
    ∃ (sends : List (List Nat)) (rest : List Nat),
      forEach ws { out := [], ids := [] } (batchCb cfg dic bs) = .ok ⟨sends.map .send, rest⟩ ∧
      (∀ b ∈ sends, b.length = bs) ∧ rest.length < bs ∧
      sends.flatten ++ rest = ((ws.map (fun w => countsAs us (cfg.norm w))).filter
        (fun w => ¬ outside cfg.maxCount cfg.minCount (us.count w))).map (distinctBefore us) := by
  induction ws using List.reverseRecOn with
  | nil => exact ⟨[], [], rfl, by simp, by simp; omega, by simp⟩
  | append_singleton ws w ih =>
    obtain ⟨sends, rest, h1, h2, h3, h4⟩ := ih
    obtain ⟨hid, hfr⟩ := rep_countsAs hr (cfg.norm w)
    rw [forEach_append, h1]
    simp only [Res.ok_bind, forEach_cons, forEach_nil]
    unfold batchCb
    simp only [filtersAny_eq cfg dic _ _ hfr, Res.ok_bind]
    by_cases hd : outside cfg.maxCount cfg.minCount (us.count (countsAs us (cfg.norm w)))
    · refine ⟨sends, rest, by simp [dropped, hd], h2, h3, ?_⟩
      rw [h4]; simp [hd]
    · simp only [dropped, hd, decide_false, Bool.false_eq_true, if_false, h3, if_true]
      by_cases hl : (rest ++ [dic.idOrZero (cfg.norm w)]).length = bs
      · refine ⟨sends ++ [rest ++ [dic.idOrZero (cfg.norm w)]], [], ?_, ?_, by simp; omega, ?_⟩
        · simp at hl; simp [hl]
        · intro b hb
          rcases List.mem_append.1 hb with hb | hb
          · exact h2 b hb
          · simp at hb; subst hb; exact hl
        · simp only [List.flatten_append, List.flatten_cons, List.flatten_nil, List.append_nil,
            List.map_append, List.map_cons, List.map_nil, List.filter_append]
          rw [← List.append_assoc, h4, hid]; simp [hd]
      · refine ⟨sends, rest ++ [dic.idOrZero (cfg.norm w)], ?_, h2, ?_, ?_⟩
        · simp at hl; simp [hl]
        · simp at hl ⊢; omega
        · rw [← List.append_assoc, h4, hid]; simp [hd]

/-- **C110 (what is trained).** `BatchWords` on a file whose content is no longer what `Load` read: the words of the new content are sent, in order; one that was not in the old content
counts as the first word of the old content (its id, and its frequency for the count limits; of frequency 0 with id 0 if the old content was empty). -/
theorem C110_batches (cfg : CorpusCfg) (us : List Word) (d : Dictionary) (hd : addCalls [us] = .ok d) (p : Pass) (ws : List Word) (h : Readable p ws)
    (batchSize : Nat) (hb : 1 ≤ batchSize) :
    ∃ (full : List (List Nat)) (last : List Nat),
      fsBatchWords cfg d p batchSize = (⟨full.map .send ++ [.send last, .close], []⟩, .next) ∧
      (∀ b ∈ full, b.length = batchSize) ∧ last.length < batchSize ∧
      full.flatten ++ last = ((ws.map (fun w => countsAs us (cfg.norm w))).filter
        (fun w => ¬ outside cfg.maxCount cfg.minCount (us.count w))).map (distinctBefore us) := by
  obtain ⟨d', h1, hr⟩ := addCalls_rep [us]
  rw [hd] at h1; simp only [Res.ok.injEq] at h1; subst h1
  simp only [List.flatten_cons, List.flatten_nil, List.append_nil] at hr
  obtain ⟨full, last, h1, h2, h3, h4⟩ := batch_changed cfg d us hr batchSize hb ws
  refine ⟨full, last, ?_, h2, h3, h4⟩
  unfold fsBatchWords
  simp only [Int.toNat_natCast]
  rw [if_neg (by omega), readWord_readable h]
  have hl := ctlRes_callEach_lift ws (batchCb cfg d batchSize) ⟨[], []⟩
  rw [h1] at hl
  rcases hcall : callEach (fun word (b : BatchState) => liftCtl b (batchCb cfg d batchSize word b)) ws ⟨[], []⟩ with ⟨s, ct⟩
  rw [hcall] at hl
  cases ct <;> simp_all [ctlRes]

/-- `C110_batches`: `Load` read `a b a`, now the file holds `c b a`: the word `c` is trained as `a`. -/
example : ∃ d, addCalls [[['a'], ['b'], ['a']]] = .ok d ∧ ∃ (full : List (List Nat)) (last : List Nat),
    fsBatchWords plainCfg d ⟨['c', ' ', 'b', ' ', 'a'], false⟩ (2 : Nat) = (⟨full.map .send ++ [.send last, .close], []⟩, .next) ∧ full.flatten ++ last = [0, 1, 0] := by
  obtain ⟨d, hd, _⟩ := C01_dictionary_ids [[['a'], ['b'], ['a']]]
  obtain ⟨full, last, h1, _, _, h2⟩ := C110_batches plainCfg [['a'], ['b'], ['a']] d hd ⟨['c', ' ', 'b', ' ', 'a'], false⟩ [['c'], ['b'], ['a']]
    ⟨isWords_fields ['c', ' ', 'b', ' ', 'a'], rfl, by decide⟩ 2 (by decide)
  exact ⟨d, hd, full, last, h1, h2.trans (by decide)⟩

/-- the batches of a later reading hold ids of the dictionary -/
theorem batches_lt (cfg : CorpusCfg) (us : List Word) (hus : us ≠ []) (d : Dictionary) (hd : addCalls [us] = .ok d) (p : Pass) (ws : List Word) (h : Readable p ws)
    (bs : Int) (hb : 1 ≤ bs) : ∀ b ∈ sentBatches (fsBatchWords cfg d p bs).1.out, ∀ id ∈ b, id < us.dedup.length := by
  obtain ⟨n, rfl⟩ := Int.eq_ofNat_of_zero_le (by omega : 0 ≤ bs)
  obtain ⟨full, last, e, -, -, e2⟩ := C110_batches cfg us d hd p ws h n (by omega)
  have hall : ∀ id ∈ full.flatten ++ last, id < us.dedup.length := by
    intro id hid
    rw [e2] at hid
    obtain ⟨w, hw, rfl⟩ := List.mem_map.1 hid
    obtain ⟨v, -, rfl⟩ := List.mem_map.1 (List.mem_filter.1 hw).1
    have hm : countsAs us (cfg.norm v) ∈ us := by
      unfold countsAs
      split
      · assumption
      · cases us with
        | nil => exact absurd rfl hus
        | cons u us => simp
    rw [← idxOf_firstOcc us _ hm, ← length_firstOcc]
    exact List.idxOf_lt_length_iff.2 (by simpa using hm)
  rw [e]
  intro b hb' id hid
  simp only [sentBatches, List.mem_filterMap, List.mem_append, List.mem_map, List.mem_cons, List.not_mem_nil, or_false] at hb'
  obtain ⟨ev, hev, hd'⟩ := hb'
  rcases hev with ⟨x, hx, rfl⟩ | rfl | rfl
  · cases hd'
    exact hall id (List.mem_append_left _ (List.mem_flatten.2 ⟨_, hx, hid⟩))
  · cases hd'
    exact hall id (List.mem_append_right _ hid)
  · cases hd'

variable {σ : Type}

/-- The batches of the iterations, one reading of the file for each. -/
def readings (cfg : CorpusCfg) (d : Dictionary) (bs : Int) (qs : List Pass) : List (List (List Nat)) := qs.map (fun q => sentBatches (fsBatchWords cfg d q bs).1.out)

/-- **C110 (word2vec).** If every later reading of the file succeeds, whatever it holds, no interleaving of the goroutines makes training panic (in real arithmetic, see C33 and C73),
provided the first reading found a word. -/
theorem C110_word2vec_no_panic (lower : Word → Word) (r : σ → ℝ × σ) (o : W2VOptions ℝ) (dim : Nat) (hdim : o.dim = dim)
    (hw1 : 1 ≤ o.window) (hw2 : o.window < 2 ^ 63) (hu : o.updateLRBatch ≠ 0)
    (p : Pass) (ws : List Word) (h : Readable p ws) (hne : ws ≠ []) (hdic : (ws.map (o.corpus lower).norm).dedup.length < 2 ^ 63)
    (s s' : σ) (M : W2VModel ℝ) (hM : w2vSetup lower r o p p s = .ok (M, s')) (hbs : 1 ≤ o.batchSize)
    (qs : List Pass) (hq : ∀ q ∈ qs, ∃ vs, Readable q vs)
    (env : MemEnv ℝ) (next : UInt64) (st : Sys ℝ) (hst : Sys.Reach env (M.sys o next (readings (o.corpus lower) M.corpus.dic o.batchSize qs)) st) :
    ¬ st.Crashed := by
  obtain ⟨f1, f2, f3, ⟨f4, _⟩, f5, f6, f7⟩ := w2vSetup_facts lower r o dim hdim p ws h s s' M hM
  have hlen : M.corpus.dic.len = (ws.map (o.corpus lower).norm).dedup.length := f2.len_eq
  have hsafe : SigSafe M.table := by
    have := sigSafe_real
    generalize (sigTable : List ℝ) = tb at f6 this
    rw [f6]; exact this
  exact Sys.reach_no_crash (w2v_threads_ok M o dim hdim next _ env (fun _ => False) f5 f7 (by
    intro ds hds d hdd id hid
    obtain ⟨q, hq', rfl⟩ := List.mem_map.1 hds
    obtain ⟨vs, hv⟩ := hq q hq'
    rw [hlen]
    exact batches_lt (o.corpus lower) _ (by simpa using hne) _ f1 q vs hv _ hbs d hdd id hid) (Or.inr ⟨hw1, hw2⟩) (Or.inr hsafe) (Or.inr (by rw [hlen]; exact hdic)) (Or.inr hu)) hst

/-- **C110 (LexVec).** The same for LexVec in any arithmetic (`Load` reads the file twice; both readings found `ws`). -/
theorem C110_lexvec_no_panic {F : Type} [GoMath F] (lower : Word → Word) (enum : GoMap (BitVec 64) F → List (BitVec 64 × F)) (r : σ → F × σ)
    (o : LexvecOptions F) (dim : Nat) (hdim : o.dim = dim) (hw1 : 1 ≤ o.window) (hw2 : o.window < 2 ^ 63) (hu : o.updateLRBatch ≠ 0)
    (p : Pass) (ws : List Word) (h : Readable p ws) (hne : ws ≠ []) (hdic : (ws.map (o.corpus lower).norm).dedup.length < 2 ^ 63)
    (s s' : σ) (M : LexModel F) (hM : lexSetup lower enum r o p p s = .ok (M, s')) (hbs : 1 ≤ o.batchSize)
    (qs : List Pass) (hq : ∀ q ∈ qs, ∃ vs, Readable q vs)
    (env : MemEnv F) (next : UInt64) (st : Sys F) (hst : Sys.Reach env (M.sys o next (readings (o.corpus lower) M.corpus.dic o.batchSize qs)) st) :
    ¬ st.Crashed := by
  obtain ⟨f1, f2, f3, f4, f5⟩ := lexSetup_facts lower enum r o dim hdim (Or.inr hw1) p ws h s s' M hM
  have hlen : M.corpus.dic.len = (ws.map (o.corpus lower).norm).dedup.length := f2.len_eq
  exact Sys.reach_no_crash (lex_threads_ok M o next _ env (fun _ => False) f5 (by
    intro ds hds d hdd id hid
    obtain ⟨q, hq', rfl⟩ := List.mem_map.1 hds
    obtain ⟨vs, hv⟩ := hq q hq'
    rw [hlen]
    exact batches_lt (o.corpus lower) _ (by simpa using hne) _ f1 q vs hv _ hbs d hdd id hid) (Or.inr ⟨hw1, hw2⟩) (by rw [hlen]; exact hdic) (Or.inr hu)) hst

/-- Non-vacuity: `Load` reads `a b a`; later readings find `c b a`, then nothing. -/
example (r : σ → ℝ × σ) (s : σ) :
    let o : W2VOptions ℝ := { W2VOptions.default 4 with docInMemory := false, minCount := 0 }
    let p : Pass := ⟨['a', ' ', 'b', ' ', 'a'], false⟩
    ∃ M s', w2vSetup id r o p p s = .ok (M, s') ∧ o.dim = (10 : Nat) ∧ 1 ≤ o.window ∧ o.window < 2 ^ 63 ∧ o.updateLRBatch ≠ 0 ∧ 1 ≤ o.batchSize ∧
      ∀ q ∈ [(⟨['c', ' ', 'b', ' ', 'a'], false⟩ : Pass), ⟨[], false⟩], ∃ vs, Readable q vs := by
  intro o p
  have hp : Readable p [['a'], ['b'], ['a']] := ⟨isWords_fields ['a',' ','b',' ','a'], rfl, by decide⟩
  have hgor : o.goroutines = (4 : Nat) := rfl
  obtain ⟨M, s', e, _⟩ := C72_word2vec_starts (F := ℝ) id r o 10 rfl (by rw [hgor]; omega) (Or.inr rfl) (Or.inl rfl) p _ hp s
  refine ⟨M, s', e, rfl, ?_, ?_, ?_, ?_, ?_⟩
  · show (1 : Int) ≤ 5; omega
  · show (5 : Int) < 2 ^ 63; omega
  · show (100000 : Int) ≠ 0; omega
  · show (1 : Int) ≤ 10000; omega
  · intro q hq
    simp only [List.mem_cons, List.not_mem_nil, or_false] at hq
    rcases hq with rfl | rfl
    · exact ⟨[['c'], ['b'], ['a']], isWords_fields ['c', ' ', 'b', ' ', 'a'], rfl, by decide⟩
    · exact ⟨[], isWords_fields [], rfl, by decide⟩

end Wego.Props
