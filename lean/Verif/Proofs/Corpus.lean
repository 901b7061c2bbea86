import Verif.Proofs.Cooccurrence
import Verif.Proofs.Dictionary
import Verif.Proofs.Forward
import Verif.Props.Dictionary
import Verif.Props.Forward

/-! Lemmas about the two corpora. -/

namespace Wego
open Spec Props

variable {F : Type} [GoFloat F]

/-! ### filters -/

/-- A word with frequency `f` is dropped by the limits. -/
def dropped (cfg : CorpusCfg) (f : Nat) : Bool := decide (outside cfg.maxCount cfg.minCount f)

theorem filtersAny_eq (cfg : CorpusCfg) (dic : Dictionary) (id f : Nat) (hf : dic.idFreq id = .ok f) :
    filtersAny cfg.filters id dic = .ok (dropped cfg f) := by
  unfold filtersAny CorpusCfg.filters dropped outside
  simp only [forEach_cons, forEach_nil, maxCount, minCount, hf]
  by_cases h1 : 0 < cfg.maxCount <;> by_cases h2 : 0 ≤ cfg.minCount <;>
    by_cases h3 : cfg.maxCount < (f : Int) <;> by_cases h4 : (f : Int) < cfg.minCount <;>
    simp [h1, h2, h3, h4]

/-! ### ids are stable while reading -/

theorem idxOf_firstOcc_append (l₁ l₂ : List Word) (w : Word) (h : w ∈ l₁) :
    (firstOcc (l₁ ++ l₂)).idxOf w = (firstOcc l₁).idxOf w := by
  rw [firstOcc_append, List.idxOf_append_of_mem (by simpa using h)]

/-- ids of a word sequence -/
def idsOf (all ws : List Word) : List Nat := ws.map (fun w => (firstOcc all).idxOf w)

omit [GoFloat F] in
theorem memRead_forEach (cfg : CorpusCfg) (ws : List Word) :
    ∃ c : CorpusState F, forEach ws CorpusState.init (memReadCb cfg) = .ok c ∧
      Dictionary.new.add (ws.map cfg.norm) = .ok c.dic ∧
      c.dic.Rep (ws.map cfg.norm) ∧ c.maxLen = ws.length ∧ c.cooc = none ∧
      c.idoc = idsOf (ws.map cfg.norm) (ws.map cfg.norm) := by
  induction ws using List.reverseRecOn with
  | nil =>
    exact ⟨CorpusState.init, rfl, rfl, Dictionary.rep_new, rfl, rfl, rfl⟩
  | append_singleton ws w ih =>
    obtain ⟨c, h1, ha, h2, h3, h4, h5⟩ := ih
    obtain ⟨d, hd, hr⟩ := Dictionary.add_rep h2 [cfg.norm w]
    refine ⟨{ c with dic := d, maxLen := c.maxLen + 1, idoc := c.idoc ++ [d.idOrZero (cfg.norm w)] },
      ?_, ?_, ?_, ?_, h4, ?_⟩
    · rw [forEach_append, h1]
      simp [memReadCb, hd]
    · simp only [List.map_append, List.map_cons, List.map_nil]
      unfold Dictionary.add at ha ⊢
      rw [forEach_append, ha]
      simpa [Dictionary.add] using hd
    · simpa using hr
    · simp [h3]
    · simp only [List.map_append, List.map_cons, List.map_nil, idsOf]
      rw [hr.idOrZero_eq, if_pos (by simp), h5, idsOf]
      congr 1
      apply List.map_congr_left
      intro u hu
      rw [idxOf_firstOcc_append _ _ _ hu]

omit [GoFloat F] in
theorem fsRead_forEach (cfg : CorpusCfg) (ws : List Word) :
    ∃ c : CorpusState F, forEach ws CorpusState.init (fsReadCb cfg) = .ok c ∧
      Dictionary.new.add (ws.map cfg.norm) = .ok c.dic ∧
      c.dic.Rep (ws.map cfg.norm) ∧ c.maxLen = ws.length ∧ c.cooc = none ∧ c.idoc = [] := by
  induction ws using List.reverseRecOn with
  | nil =>
    exact ⟨CorpusState.init, rfl, rfl, Dictionary.rep_new, rfl, rfl, rfl⟩
  | append_singleton ws w ih =>
    obtain ⟨c, h1, ha, h2, h3, h4, h5⟩ := ih
    obtain ⟨d, hd, hr⟩ := Dictionary.add_rep h2 [cfg.norm w]
    refine ⟨{ c with dic := d, maxLen := c.maxLen + 1 }, ?_, ?_, ?_, ?_, h4, h5⟩
    · rw [forEach_append, h1]
      simp [fsReadCb, hd]
    · simp only [List.map_append, List.map_cons, List.map_nil]
      unfold Dictionary.add at ha ⊢
      rw [forEach_append, ha]
      simpa [Dictionary.add] using hd
    · simpa using hr
    · simp [h3]

theorem readWord_readable {σ : Type} {p : Pass} {ws : List Word} (h : Readable p ws)
    (fn : Word → σ → σ × Ctl) (s : σ) : readWord p fn s = callEach fn ws s := by
  unfold readWord
  rw [h.scan]
  have : scanEnd (σ := σ) none = fun s => (s, Ctl.next) := rfl
  simp only [this, thenDo_id]

theorem readWord_lift {σ : Type} {p : Pass} {ws : List Word} (h : Readable p ws)
    (f : Word → σ → Res σ) (s : σ) :
    ctlRes (readWord p (fun w s => liftCtl s (f w s)) s) = forEach ws s f := by
  rw [readWord_readable h, ctlRes_callEach_lift]

/-! ### the in-memory pair loops -/

omit [GoFloat F] in
theorem inner_loop {σ : Type} (f : Nat → σ → Res σ) (pre l : List Nat) (n : Nat) (s : σ) :
    forFrom pre.length (min l.length n) s (fun j s => idx (pre ++ l) j >>= fun b => f b s)
      = forEach (l.take n) s f := by
  induction l generalizing pre n s with
  | nil => simp
  | cons a l ih =>
    cases n with
    | zero => simp
    | succ n =>
      have e : min (a :: l).length (n + 1) = min l.length n + 1 := by simp [Nat.succ_min_succ]
      rw [e, forFrom_succ]
      have h1 : idx (pre ++ a :: l) pre.length = .ok a := by
        rw [idx_of_lt _ _ (by simp)]; simp
      rw [h1]
      simp only [Res.ok_bind, List.take_succ_cons, forEach_cons]
      congr 1; funext s'
      have := ih (pre ++ [a]) n s'
      simpa using this

omit [GoFloat F] in
theorem forEach_map' {α β σ : Type} (g : α → β) (l : List α) (s : σ) (f : β → σ → Res σ) :
    forEach (l.map g) s f = forEach l s (fun a s => f (g a) s) := by
  induction l generalizing s with
  | nil => rfl
  | cons a l ih => simp only [List.map_cons, forEach_cons, ih]

theorem memPairs_eq (idoc : List Nat) (window : Int) (co : Cooccurrence F) :
    memPairs idoc window co = addPairs (windowPairs window.toNat idoc) co := by
  unfold memPairs addPairs forN
  suffices H : ∀ (pre l : List Nat) (co : Cooccurrence F),
      forFrom pre.length l.length co (fun i co =>
        forFrom (i+1) (min (pre ++ l).length (i + window.toNat + 1) - (i+1)) co (fun j co =>
          idx (pre ++ l) i >>= fun a => idx (pre ++ l) j >>= fun b => co.add a b))
      = forEach (windowPairs window.toNat l) co (fun q co => co.add q.1 q.2) by
    simpa using H [] idoc co
  intro pre l
  induction l generalizing pre with
  | nil => intro co; rfl
  | cons a l ih =>
    intro co
    rw [List.length_cons, forFrom_succ]
    simp only [windowPairs]
    rw [forEach_append, forEach_map']
    have h1 : idx (pre ++ a :: l) pre.length = .ok a := by
      rw [idx_of_lt _ _ (by simp)]; simp
    have h2 : min (pre ++ a :: l).length (pre.length + window.toNat + 1) - (pre.length + 1)
        = min l.length window.toNat := by simp; omega
    rw [h1, h2]
    simp only [Res.ok_bind]
    have h3 := inner_loop (fun b (co : Cooccurrence F) => co.add a b) (pre ++ [a]) l window.toNat co
    simp only [List.length_append, List.length_cons, List.length_nil, List.append_assoc,
      List.cons_append, List.nil_append] at h3
    rw [h3]
    congr 1; funext co'
    have := ih (pre ++ [a]) co'
    simpa using this

/-- `Load` of the in-memory corpus on a readable document. -/
theorem memLoad_readable (cfg : CorpusCfg) {p : Pass} {ws : List Word} (h : Readable p ws) :
    ∃ c : CorpusState F, Dictionary.new.add (ws.map cfg.norm) = .ok c.dic ∧
      c.dic.Rep (ws.map cfg.norm) ∧ c.maxLen = ws.length ∧ c.cooc = none ∧
      c.idoc = idsOf (ws.map cfg.norm) (ws.map cfg.norm) ∧
      ∀ w, memLoad cfg p w = (match w with
        | none => .ok c
        | some w => Cooccurrence.new w.countType >>= fun co =>
            addPairs (windowPairs w.window.toNat c.idoc) co >>= fun co =>
            .ok { c with cooc := some co }) := by
  obtain ⟨c, h1, h2, h3, h4, h5, h6⟩ := memRead_forEach (F := F) cfg ws
  refine ⟨c, h2, h3, h4, h5, h6, ?_⟩
  intro w
  unfold memLoad
  rw [readWord_lift h, h1]
  cases w with
  | none => rfl
  | some w => simp only [Res.ok_bind, memPairs_eq]

theorem fwd_readable {σ : Type} {p : Pass} {ws : List Word} (h : Readable p ws) (n : Nat) (hn : 1 ≤ n)
    (fn : Word → Word → σ → σ × Ctl) (s : σ) :
    readWordWithForwardContext p n fn s = callEach (fun q : Word × Word => fn q.1 q.2) (fwdCalls n ws) s := by
  rw [fwd_unfold h]
  cases ws with
  | nil => rw [fwdLoop_empty]; rfl
  | cons w ws => rw [fwdLoop_start n fn w ws s hn h.ne_nil]; rfl

/-- `Load` of the file corpus on a document that is readable in both passes. -/
theorem fsLoad_readable (cfg : CorpusCfg) {p : Pass} {ws : List Word} (h : Readable p ws) :
    ∃ c : CorpusState F, Dictionary.new.add (ws.map cfg.norm) = .ok c.dic ∧
      c.dic.Rep (ws.map cfg.norm) ∧ c.maxLen = ws.length ∧ c.cooc = none ∧ c.idoc = [] ∧
      fsLoad cfg p p none = .ok c ∧
      ∀ t (n : Nat), 1 ≤ n → fsLoad cfg p p (some ⟨t, n⟩) =
        (Cooccurrence.new (F := F) t >>= fun co =>
            addPairs ((fwdCalls n ws).map (fun q => (c.dic.idOrZero q.1, c.dic.idOrZero q.2))) co >>= fun co =>
            .ok { c with cooc := some co }) := by
  obtain ⟨c, h1, h2, h3, h4, h5, h6⟩ := fsRead_forEach (F := F) cfg ws
  refine ⟨c, h2, h3, h4, h5, h6, ?_, ?_⟩
  · unfold fsLoad
    rw [readWord_lift h, h1]; rfl
  · intro t n hn
    unfold fsLoad
    rw [readWord_lift h, h1]
    simp only [Res.ok_bind]
    congr 1; funext co
    rw [fwd_readable h n hn]
    unfold fsPairCb addPairs
    rw [forEach_map', ← ctlRes_callEach_lift]

/-! ### training sequence -/

omit [GoFloat F] in
theorem memIndexedDoc_eq (cfg : CorpusCfg) (c : CorpusState F) (us : List Word) (hr : c.dic.Rep us)
    (hi : c.idoc = idsOf us us) :
    memIndexedDoc cfg c = .ok (trainSeq cfg.maxCount cfg.minCount us) := by
  unfold memIndexedDoc
  rw [hi]
  unfold idsOf
  rw [forEach_map']
  rw [forEach_ok _ _ _ (fun res w => if dropped cfg (us.count w) then res
    else res ++ [(firstOcc us).idxOf w])]
  · congr 1
    suffices H : ∀ (l : List Word) (acc : List Nat), (∀ w ∈ l, w ∈ us) →
        l.foldl (fun res w => if dropped cfg (us.count w) then res else res ++ [(firstOcc us).idxOf w]) acc
        = acc ++ (l.filter (fun w => ¬ outside cfg.maxCount cfg.minCount (us.count w))).map (distinctBefore us) by
      simpa [trainSeq] using H us [] (fun _ h => h)
    intro l
    induction l with
    | nil => simp
    | cons w l ih =>
      intro acc hl
      simp only [List.foldl_cons]
      rw [ih _ (fun w hw => hl w (by simp [hw]))]
      by_cases hd : outside cfg.maxCount cfg.minCount (us.count w)
      · simp [dropped, hd]
      · simp [dropped, hd, idxOf_firstOcc us w (hl w (by simp))]
  · intro w hw res
    rw [filtersAny_eq cfg c.dic _ _ (hr.idFreq_id w hw)]
    simp only [Res.ok_bind]

/-- `BatchWords` on a readable document. -/
theorem batch_forEach (cfg : CorpusCfg) (dic : Dictionary) (us : List Word) (hr : dic.Rep us)
    (bs : Nat) (hbs : 1 ≤ bs) (ws : List Word) (hws : ∀ w ∈ ws, cfg.norm w ∈ us) :
    ∃ (sends : List (List Nat)) (rest : List Nat),
      forEach ws { out := [], ids := [] } (batchCb cfg dic bs) = .ok ⟨sends.map .send, rest⟩ ∧
      (∀ b ∈ sends, b.length = bs) ∧ rest.length < bs ∧
      sends.flatten ++ rest = ((ws.map cfg.norm).filter
        (fun w => ¬ outside cfg.maxCount cfg.minCount (us.count w))).map (distinctBefore us) := by
  induction ws using List.reverseRecOn with
  | nil => exact ⟨[], [], rfl, by simp, by simp; omega, by simp⟩
  | append_singleton ws w ih =>
    obtain ⟨sends, rest, h1, h2, h3, h4⟩ := ih (fun w hw => hws w (by simp [hw]))
    have hw : cfg.norm w ∈ us := hws w (by simp)
    rw [forEach_append, h1]
    simp only [Res.ok_bind, forEach_cons, forEach_nil]
    have hid : dic.idOrZero (cfg.norm w) = distinctBefore us (cfg.norm w) := by
      rw [hr.idOrZero_eq, if_pos hw, idxOf_firstOcc us _ hw]
    have hfr : dic.idFreq (dic.idOrZero (cfg.norm w)) = .ok (us.count (cfg.norm w)) := by
      rw [hr.idOrZero_eq, if_pos hw]; exact hr.idFreq_id _ hw
    unfold batchCb
    simp only [filtersAny_eq cfg dic _ _ hfr, Res.ok_bind]
    by_cases hd : outside cfg.maxCount cfg.minCount (us.count (cfg.norm w))
    · refine ⟨sends, rest, by simp [dropped, hd], h2, h3, ?_⟩
      rw [h4]; simp [hd]
    · simp only [dropped, hd, decide_false, Bool.false_eq_true, if_false, h3, if_true]
      by_cases hl : (rest ++ [dic.idOrZero (cfg.norm w)]).length = bs
      · refine ⟨sends ++ [rest ++ [dic.idOrZero (cfg.norm w)]], [], ?_, ?_, by simp; omega, ?_⟩
        · simp at hl; simp [hl]
        · intro b hb
          rcases List.mem_append.1 hb with hb | hb
          · exact h2 b hb
          · simp at hb; subst hb; exact hl
        · simp only [List.flatten_append, List.flatten_cons, List.flatten_nil, List.append_nil,
            List.map_append, List.map_cons, List.map_nil, List.filter_append]
          rw [← List.append_assoc, h4, hid]; simp [hd]
      · refine ⟨sends, rest ++ [dic.idOrZero (cfg.norm w)], ?_, h2, ?_, ?_⟩
        · simp at hl; simp [hl]
        · simp at hl ⊢; omega
        · rw [← List.append_assoc, h4, hid]; simp [hd]

end Wego
