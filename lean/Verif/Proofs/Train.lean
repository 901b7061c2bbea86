import Verif.Model.Train
import Verif.Proofs.Corpus
import Verif.Props.Subsample
import Verif.Props.Matrix
import Verif.Props.Glove
import Verif.Proofs.Huffman

/-! `Train` before the first iteration: what loading and initialising return, for every reader. -/

namespace Wego
open Spec Props Matrix
variable {F : Type} {σ : Type}

/-! ### loading any reader -/

def NoCrash (c : Ctl) : Prop := ∀ p, c ≠ .crash p

theorem thenDo_noCrash {τ : Type} {r : τ × Ctl} {k : τ → τ × Ctl} (h1 : NoCrash r.2) (h2 : ∀ s, NoCrash (k s).2) : NoCrash (thenDo r k).2 := by
  rcases r with ⟨s, c⟩
  cases c with
  | next => exact h2 s
  | fail e => exact h1
  | crash p => exact h1

theorem callEach_noCrash {α τ : Type} (fn : α → τ → τ × Ctl) (h : ∀ a s, NoCrash (fn a s).2) (l : List α) (s : τ) :
    NoCrash (callEach fn l s).2 := by
  induction l generalizing s with
  | nil => intro p; simp [callEach]
  | cons a l ih => exact thenDo_noCrash (h a s) ih

theorem fwdLoop_noCrash {τ : Type} (n : Nat) (hn : 1 ≤ n) (fn : Word → Word → τ → τ × Ctl) (h : ∀ a b s, NoCrash (fn a b s).2)
    (k : Nat) : ∀ (axis : Word) (ws toks : List Word) (s : τ), toks.length ≤ k → ws.length = n → NoCrash (fwdLoop n fn axis ws toks s).2 := by
  have hpost : ∀ axis ws (s : τ), NoCrash (postFn fn axis ws s).2 := fun axis ws s => callEach_noCrash (fn axis) (h axis) ws s
  induction k with
  | zero =>
    intro axis ws toks s hk hw
    have : toks = [] := List.eq_nil_of_length_eq_zero (by omega)
    subst this
    rw [fwdLoop.eq_def]
    split
    · exact hpost _ _ _
    · cases ws with
      | nil => simp at hw; omega
      | cons w ws => exact hpost _ _ _
  | succ k ih =>
    intro axis ws toks s hk hw
    rw [fwdLoop.eq_def]
    split
    · cases toks with
      | nil => exact hpost _ _ _
      | cons a toks =>
        refine thenDo_noCrash (hpost _ _ _) (fun s => ih _ _ _ _ ?_ ?_)
        · simp [fillWs] at hk ⊢; omega
        · simp [fillWs]; omega
    · cases ws with
      | nil => simp at hw; omega
      | cons w ws =>
        cases toks with
        | nil => exact hpost _ _ _
        | cons a toks =>
          refine thenDo_noCrash (hpost _ _ _) (fun s => ih _ _ _ _ ?_ ?_)
          · simp at hk; omega
          · simp at hw ⊢; omega

theorem scanEnd_noCrash {τ : Type} (e : Option Err) (s : τ) : NoCrash (scanEnd e s).2 := by
  cases e <;> intro p <;> simp [scanEnd]

theorem ctlRes_noCrash {τ : Type} {r : τ × Ctl} (h : NoCrash r.2) : (∃ s, ctlRes r = .ok s) ∨ ∃ e, ctlRes r = .err e := by
  rcases r with ⟨s, c⟩
  cases c with
  | next => exact Or.inl ⟨s, rfl⟩
  | fail e => exact Or.inr ⟨e, rfl⟩
  | crash p => exact absurd rfl (h p)

/-- reading with a callback that never fails: all delivered words are processed, then the scanner's error counts -/
theorem readWord_any {τ : Type} (p : Pass) (f : Word → τ → Res τ) (s s' : τ) (h : forEach (scanWords p).toks s f = .ok s') :
    ctlRes (readWord p (fun w s => liftCtl s (f w s)) s) = .ok s' ∨ ∃ e, ctlRes (readWord p (fun w s => liftCtl s (f w s)) s) = .err e := by
  have h2 := ctlRes_callEach_lift (scanWords p).toks f s
  rw [h] at h2
  unfold readWord
  dsimp only
  rcases hc : callEach (fun a s => liftCtl s (f a s)) (scanWords p).toks s with ⟨t, c⟩
  rw [hc] at h2
  cases c with
  | next =>
    simp only [ctlRes, Res.ok.injEq] at h2
    subst h2
    simp only [thenDo]
    cases he : (scanWords p).err with
    | none => exact Or.inl rfl
    | some e => exact Or.inr ⟨e, rfl⟩
  | fail e => simp [ctlRes] at h2
  | crash q => simp [ctlRes] at h2

section
variable [GoFloat F]

theorem add_noPanic (co : Cooccurrence F) (a b : Nat) : (∃ c, co.add a b = .ok c) ∨ ∃ e, co.add a b = .err e := by
  unfold Cooccurrence.add
  dsimp only
  split
  · exact Or.inl ⟨_, rfl⟩
  · split
    · split
      · exact Or.inr ⟨_, rfl⟩
      · exact Or.inl ⟨_, rfl⟩
    · exact Or.inr ⟨_, rfl⟩

theorem new_noPanic (t : String) : (∃ c : Cooccurrence F, Cooccurrence.new t = .ok c) ∨ ∃ e, (Cooccurrence.new t : Res (Cooccurrence F)) = .err e := by
  unfold Cooccurrence.new
  split
  · exact Or.inr ⟨_, rfl⟩
  · exact Or.inl ⟨_, rfl⟩

theorem addPairs_noPanic (l : List (Nat × Nat)) (co : Cooccurrence F) : (∃ c, addPairs l co = .ok c) ∨ ∃ e, addPairs l co = .err e := by
  unfold addPairs
  induction l generalizing co with
  | nil => exact Or.inl ⟨co, rfl⟩
  | cons a l ih =>
    rw [forEach_cons]
    rcases add_noPanic co a.1 a.2 with ⟨c, e⟩ | ⟨e', e⟩
    · rw [e, Res.ok_bind]; exact ih c
    · rw [e]; exact Or.inr ⟨e', rfl⟩

/-- **Loading never panics** (file-backed co-occurrence counting needs a window of at least 1, or an unknown count type). -/
theorem loadCorpus_cases (inMemory : Bool) (cfg : CorpusCfg) (p1 p2 : Pass) (w : Option WithCooccurrence)
    (hw : inMemory = false → ∀ w', w = some w' → 1 ≤ w'.window) :
    (∃ (ws : List Word) (c : CorpusState F), loadCorpus inMemory cfg p1 p2 w = .ok c ∧ c.dic.Rep (ws.map cfg.norm) ∧ c.maxLen = ws.length ∧
      (w.isSome → ∃ co, c.cooc = some co)) ∨
    ∃ e, (loadCorpus inMemory cfg p1 p2 w : Res (CorpusState F)) = .err e := by
  unfold loadCorpus
  cases inMemory with
  | true =>
    simp only [if_true]
    obtain ⟨c, h1, _, h3, h4, _, _⟩ := memRead_forEach (F := F) cfg (scanWords p1).toks
    unfold memLoad
    rcases readWord_any p1 (memReadCb cfg) CorpusState.init c h1 with e | ⟨e', e⟩
    · rw [e, Res.ok_bind]
      cases w with
      | none => exact Or.inl ⟨_, c, rfl, h3, h4, by simp⟩
      | some w =>
        dsimp only
        rcases new_noPanic (F := F) w.countType with ⟨co, e1⟩ | ⟨e', e1⟩
        · rw [e1, Res.ok_bind, memPairs_eq]
          rcases addPairs_noPanic (windowPairs w.window.toNat c.idoc) co with ⟨co', e2⟩ | ⟨e', e2⟩
          · rw [e2]; exact Or.inl ⟨_, { c with cooc := some co' }, rfl, h3, h4, fun _ => ⟨co', rfl⟩⟩
          · rw [e2]; exact Or.inr ⟨e', rfl⟩
        · rw [e1]; exact Or.inr ⟨e', rfl⟩
    · rw [e]; exact Or.inr ⟨e', rfl⟩
  | false =>
    simp only [Bool.false_eq_true, if_false]
    obtain ⟨c, h1, _, h3, h4, _, _⟩ := fsRead_forEach (F := F) cfg (scanWords p1).toks
    unfold fsLoad
    rcases readWord_any p1 (fsReadCb cfg) CorpusState.init c h1 with e | ⟨e', e⟩
    · rw [e, Res.ok_bind]
      cases w with
      | none => exact Or.inl ⟨_, c, rfl, h3, h4, by simp⟩
      | some w =>
        dsimp only
        have hwin := hw rfl w rfl
        rcases new_noPanic (F := F) w.countType with ⟨co, e1⟩ | ⟨e', e1⟩
        · rw [e1, Res.ok_bind]
          have hnc : NoCrash (readWordWithForwardContext p2 w.window (fsPairCb c.dic) co).2 := by
            unfold readWordWithForwardContext
            rw [if_neg (by omega)]
            refine thenDo_noCrash (fwdLoop_noCrash _ (by omega) _ ?_ _ _ _ _ _ (le_refl _) (by simp)) (scanEnd_noCrash _)
            intro a b s
            unfold fsPairCb
            rcases add_noPanic s (c.dic.idOrZero a) (c.dic.idOrZero b) with ⟨c', e⟩ | ⟨e', e⟩ <;> rw [e] <;> intro p <;> simp [liftCtl]
          rcases ctlRes_noCrash hnc with ⟨co', e2⟩ | ⟨e', e2⟩
          · rw [e2]; exact Or.inl ⟨_, { c with cooc := some co' }, rfl, h3, h4, fun _ => ⟨co', rfl⟩⟩
          · rw [e2]; exact Or.inr ⟨e', rfl⟩
        · rw [e1]; exact Or.inr ⟨e', rfl⟩
    · rw [e]; exact Or.inr ⟨e', rfl⟩

/-- an unknown count type makes loading fail, whatever the reader and window -/
theorem loadCorpus_countType (inMemory : Bool) (cfg : CorpusCfg) (p1 p2 : Pass) (t : String) (n : Int) (h1 : t ≠ "inc") (h2 : t ≠ "prox") :
    ∃ e, (loadCorpus inMemory cfg p1 p2 (some ⟨t, n⟩) : Res (CorpusState F)) = .err e := by
  have hnew : (Cooccurrence.new t : Res (Cooccurrence F)) = .err .invalidCountType := by
    unfold Cooccurrence.new; rw [if_pos ⟨h1, h2⟩]
  unfold loadCorpus
  cases inMemory with
  | true =>
    simp only [if_true]
    obtain ⟨c, h1, _⟩ := memRead_forEach (F := F) cfg (scanWords p1).toks
    unfold memLoad
    rcases readWord_any p1 (memReadCb cfg) CorpusState.init c h1 with e | ⟨e', e⟩
    · rw [e, Res.ok_bind]; dsimp only; rw [hnew]; exact ⟨_, rfl⟩
    · rw [e]; exact ⟨e', rfl⟩
  | false =>
    simp only [Bool.false_eq_true, if_false]
    obtain ⟨c, h1, _⟩ := fsRead_forEach (F := F) cfg (scanWords p1).toks
    unfold fsLoad
    rcases readWord_any p1 (fsReadCb cfg) CorpusState.init c h1 with e | ⟨e', e⟩
    · rw [e, Res.ok_bind]; dsimp only; rw [hnew]; exact ⟨_, rfl⟩
    · rw [e]; exact ⟨e', rfl⟩

/-! ### initialisation -/

omit [GoFloat F] in
theorem length_randFill (r : σ → F × σ) (f : F → F) (n : Nat) (s : σ) : (randFill r f n s).1.length = n := by
  induction n generalizing s with
  | zero => rfl
  | succ n ih => simp [randFill, ih]

theorem randMatrix_ok (r : σ → F × σ) (f : F → F) (rows col : Nat) (s : σ) :
    ∃ m s', randMatrix r f rows col s = .ok (m, s') ∧ Shaped m rows col := by
  obtain ⟨m, h1, h2, _⟩ := new_rows rows col (fun _ _ s => randFill r f col s) s (fun _ _ s _ => length_randFill r f col s)
  exact ⟨m, _, by unfold randMatrix; rw [Int.toNat_natCast]; exact h1, h2⟩

end
end Wego

namespace Wego
open Spec Props Matrix
variable {F : Type} {σ : Type}

theorem thenDo_snd_ne {τ : Type} {r : τ × Ctl} {k : τ → τ × Ctl} (h : ∀ s, (k s).2 ≠ .next) : (thenDo r k).2 ≠ .next := by
  rcases r with ⟨s, c⟩
  cases c <;> simp [thenDo, h]

theorem ctlRes_ne {τ : Type} {r : τ × Ctl} (h : r.2 ≠ .next) (s : τ) : ctlRes r ≠ .ok s := by
  rcases r with ⟨t, c⟩
  cases c <;> simp_all [ctlRes]

theorem scanEnd_ne {τ : Type} {e : Option Err} (h : e ≠ none) (s : τ) : (scanEnd e s).2 ≠ .next := by
  cases e with
  | none => exact absurd rfl h
  | some e => simp [scanEnd]

theorem scanWords_fails {p : Pass} (h : p.fails = true) : (scanWords p).err ≠ none := by
  unfold scanWords
  dsimp only
  split <;> simp_all

section
variable [GoFloat F]

/-- a reading pass that ends with an error makes loading fail -/
theorem loadCorpus_read_error (inMemory : Bool) (cfg : CorpusCfg) (p1 p2 : Pass) (w : Option WithCooccurrence)
    (h : (scanWords p1).err ≠ none ∨ (inMemory = false ∧ w ≠ none ∧ (scanWords p2).err ≠ none)) (c : CorpusState F) :
    loadCorpus inMemory cfg p1 p2 w ≠ .ok c := by
  have key : ∀ (p : Pass), (scanWords p).err ≠ none → ∀ (fn : Word → CorpusState F → CorpusState F × Ctl) (s s' : CorpusState F),
      ctlRes (readWord p fn s) ≠ .ok s' := by
    intro p hp fn s s'
    exact ctlRes_ne (thenDo_snd_ne (fun s => scanEnd_ne hp s)) s'
  intro hc
  unfold loadCorpus at hc
  cases inMemory with
  | true =>
    simp only [if_true] at hc
    rcases h with h | h
    · unfold memLoad at hc
      rw [Res.bind_eq_ok] at hc
      obtain ⟨c', h1, _⟩ := hc
      exact key p1 h _ _ _ h1
    · exact absurd h.1 (by simp)
  | false =>
    simp only [Bool.false_eq_true, if_false] at hc
    unfold fsLoad at hc
    rw [Res.bind_eq_ok] at hc
    obtain ⟨c', h1, hc⟩ := hc
    rcases h with h | ⟨_, hw, h⟩
    · exact key p1 h _ _ _ h1
    · cases w with
      | none => exact hw rfl
      | some w =>
        dsimp only at hc
        rw [Res.bind_eq_ok] at hc
        obtain ⟨co, _, hc⟩ := hc
        rw [Res.bind_eq_ok] at hc
        obtain ⟨co', h3, _⟩ := hc
        unfold readWordWithForwardContext at h3
        split at h3
        · simp [ctlRes] at h3
        · exact ctlRes_ne (thenDo_snd_ne (fun s => scanEnd_ne h s)) co' h3

theorem huffLoop_total (dim : Int) (h : 0 ≤ dim) (fuel : Nat) (arena : List (HNode F)) (nodes : List Nat) :
    ∃ r, huffLoop dim fuel arena nodes = .ok r := by
  induction fuel generalizing arena nodes with
  | zero => exact ⟨_, rfl⟩
  | succ fuel ih =>
    match nodes with
    | [] => exact ⟨_, rfl⟩
    | [a] => exact ⟨_, rfl⟩
    | a :: b :: l => rw [huffLoop, if_neg (by omega)]; exact ih _ _

theorem huffmanTree_total (d : Dictionary) (ws : List Word) (hr : d.Rep ws) (dim : Int) (h : 0 ≤ dim) :
    ∃ t, (huffmanTree d dim : Res (List (HNode F) × List Nat)) = .ok t := by
  have h1 : ∃ a, (huffLeaves d : Res (List (HNode F))) = .ok a := ⟨_, huffLeaves_eq d ws hr⟩
  obtain ⟨a, ha⟩ := h1
  obtain ⟨r, hr'⟩ := huffLoop_total dim h d.maxid a (sortByVal a (List.range d.maxid))
  exact ⟨_, by unfold huffmanTree; rw [ha, Res.ok_bind]; dsimp only; rw [hr', Res.ok_bind]⟩

theorem adaGradsq_ok (len dim : Nat) : ∃ g : Matrix F, adaGradsq len dim = .ok g ∧ Shaped g (len * 2) (dim + 1) := by
  obtain ⟨m, h1, h2, _⟩ := new_rows (F := F) (len * 2) (dim + 1) (fun _ _ (s : Unit) => (List.replicate (dim + 1) (GoFloat.ofRat 1), s)) ()
    (fun _ _ _ _ => by simp)
  refine ⟨m, ?_, h2⟩
  unfold adaGradsq
  push_cast at h1
  rw [show ((dim : Int) + 1).toNat = dim + 1 by omega, h1]; rfl


/-- counting with `inc` never fails on a readable document -/
theorem load_inc_ok (im : Bool) (cfg : CorpusCfg) (n : Int) (hn : im = true ∨ 1 ≤ n) (p : Pass) (ws : List Word)
    (h : Readable p ws) : ∃ c : CorpusState F, loadCorpus im cfg p p (some ⟨countInc, n⟩) = .ok c := by
  have hnew : (Cooccurrence.new countInc : Res (Cooccurrence F)) = .ok ⟨countInc, GoMap.empty⟩ := by
    unfold Cooccurrence.new; rw [if_neg (by simp)]
  unfold loadCorpus
  cases im with
  | true =>
    obtain ⟨c, _, _, _, _, _, h6⟩ := memLoad_readable (F := F) cfg h
    obtain ⟨co, e, _⟩ := addPairs_inc (windowPairs n.toNat c.idoc) (⟨countInc, GoMap.empty⟩ : Cooccurrence F) rfl
    rw [if_pos rfl, h6 (some ⟨countInc, n⟩)]
    dsimp only
    rw [hnew, Res.ok_bind, e]; exact ⟨_, rfl⟩
  | false =>
    simp only [Bool.false_eq_true, false_or] at hn
    obtain ⟨k, rfl⟩ := Int.eq_ofNat_of_zero_le (by omega : 0 ≤ n)
    obtain ⟨c, _, _, _, _, _, _, h6⟩ := fsLoad_readable (F := F) cfg h
    obtain ⟨co, e, _⟩ := addPairs_inc ((fwdCalls k ws).map (fun q => (c.dic.idOrZero q.1, c.dic.idOrZero q.2))) (⟨countInc, GoMap.empty⟩ : Cooccurrence F) rfl
    rw [if_neg (by simp), h6 countInc k (by omega), hnew, Res.ok_bind, e]; exact ⟨_, rfl⟩

end

/-- `makeItems` succeeds when every counted pair is of dictionary words and the relation is known -/
theorem lexItems_total [GoMath F] (dic : Dictionary) (ws : List Word) (hr : dic.Rep ws) (total : Nat) (smooth : F) (typ : String)
    (htyp : typ = "ppmi" ∨ typ = "pmi" ∨ typ = "co" ∨ typ = "logco") (calls : List (Nat × Nat)) (hN : dic.len ≤ 2 ^ 32)
    (hc : ∀ q ∈ calls, q.1 < dic.len ∧ q.2 < dic.len) (co : Cooccurrence F) (hco : cooCalls countInc calls = .ok co)
    (em : List (BitVec 64 × F)) (hem : em.Perm co.encodedMatrix) :
    ∃ items, lexItems dic total smooth typ em = .ok items := by
  have hids := items_ok countInc calls dic.len hN hc co hco em hem 0 (GoFloat.ofRat 0)
  have hfreq : ∀ i : Nat, i < dic.len → ∃ f, dic.idFreq i = .ok f := by
    intro i hi
    have hi' : i < (firstOcc ws).length := by rw [← hr.maxid]; exact hi
    rw [hr.idFreq_nat]; simp only [hi', List.getElem?_eq_getElem]; exact ⟨_, rfl⟩
  unfold lexItems
  dsimp only
  obtain ⟨s, e, _⟩ := forEach_inv (fun _ : GoMap (BitVec 64) F => True) em GoMap.empty (fun e res =>
    calculateRelation dic smooth typ (decodeBigram e.1).1.toInt (decodeBigram e.1).2.toInt e.2
      (GoMath.log (GoMath.pow (GoFloat.ofRat (total : ℚ)) smooth)) >>= fun v => .ok (res.set e.1 v)) trivial (by
    intro x hx res _
    obtain ⟨a, b, h1, h2, h3, h4⟩ := hids (gloveItem 0 (GoFloat.ofRat 0) x) (List.mem_map_of_mem hx)
    simp only [gloveItem] at h1 h2
    rw [h1, h2]
    obtain ⟨f1, e1⟩ := hfreq a h3
    obtain ⟨f2, e2⟩ := hfreq b h4
    have : ∃ v, calculateRelation dic smooth typ a b x.2 (GoMath.log (GoMath.pow (GoFloat.ofRat (total : ℚ)) smooth)) = .ok v := by
      unfold calculateRelation
      rw [e1, e2]
      rcases htyp with rfl | rfl | rfl | rfl
      · rw [if_pos rfl]; split <;> exact ⟨_, rfl⟩
      · rw [if_neg (by decide), if_pos rfl]; split <;> exact ⟨_, rfl⟩
      · rw [if_neg (by decide), if_neg (by decide), if_pos rfl]; exact ⟨_, rfl⟩
      · rw [if_neg (by decide), if_neg (by decide), if_neg (by decide), if_pos rfl]; exact ⟨_, rfl⟩
    obtain ⟨v, hv⟩ := this
    rw [hv]; exact ⟨_, rfl, trivial⟩)
  exact ⟨s, e⟩

end Wego
