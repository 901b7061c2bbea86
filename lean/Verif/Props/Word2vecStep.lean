import Verif.Proofs.Window
import Verif.Props.NegSampling

/-! # C28, C29, C30: one training step of word2vec -/

namespace Wego.Props
open Wego Wego.Spec Wego.Matrix

variable {F : Type} [GoFloat F] {O : Type} {σ : Type}

/-- The random shrink `del` drawn at generator state `s` for a window. -/
def shrink (s : UInt64) (window : Int) : Int := (((rndStep s).toNat % window.toNat : Nat) : Int)

theorem shrink_spec (s : UInt64) (window : Int) (h : 1 ≤ window) (h2 : window < 2 ^ 62) :
    nextRandom s window = .ok (rndStep s, shrink s window) ∧ 0 ≤ shrink s window ∧ shrink s window < window := by
  refine ⟨nextRandom_eq s window (by omega) (by omega), ?_, ?_⟩
  · unfold shrink; omega
  · have : (rndStep s).toNat % window.toNat < window.toNat := Nat.mod_lt _ (by omega)
    unfold shrink; omega

/-- **C28.** For every document length, position, window `>= 1`
and shrink `0 <= del < window`, the loop runs its body exactly for the positions other than `pos`
at distance at most `window - del` inside the document, in increasing order, whatever the body does. -/
theorem C28_window_positions (window del : Int) (pos len : Nat) (h0 : 0 ≤ del) (h1 : del < window) (s : σ)
    (body : Nat → σ → Res σ) :
    windowLoop window del pos len s body = forEach (contextPositions (window - del) pos len) s body ∧
    windowLoop window del pos len ([] : List Nat) (fun c seen => .ok (seen ++ [c])) =
      .ok (contextPositions (window - del) pos len) := by
  refine ⟨windowLoop_eq _ _ _ _ _ _ h0 h1, ?_⟩
  rw [windowLoop_eq _ _ _ _ _ _ h0 h1,
    forEach_ok _ _ _ (fun seen c => seen ++ [c]) (fun _ _ _ => rfl)]
  congr 1
  generalize contextPositions (window - del) pos len = l
  have : ∀ acc : List Nat, l.foldl (fun seen c => seen ++ [c]) acc = acc ++ l := by
    induction l with
    | nil => intro acc; simp
    | cons a l ih => intro acc; rw [List.foldl_cons, ih]; simp
  simpa using this []

/-- `C28_window_positions`: window 3 shrunk by 1, position 2 of 4. -/
example := C28_window_positions (σ := Nat) 3 1 2 4 (by decide) (by decide) 0 (fun c n => .ok (n + c))

/-- **C28 (skip-gram).** A skip-gram step draws `del` once, with `0 <= del < window`, never panicking, and does its work
for the positions of `C28_window_positions`, in that order; all are valid document positions other than `pos`.
(For CBOW see `C30_cbow_step_partial`: both of its loops visit such a window.) -/
theorem C28_skipgram (optim : Optim O F) (window : Int) (h1 : 1 ≤ window) (h2 : window < 2 ^ 62) (doc : List Nat) (pos : Nat)
    (lr : F) (st : StepSt O F) :
    (0 ≤ shrink st.rnd window ∧ shrink st.rnd window < window ∧
      skipGramOne optim window doc pos lr st =
        forEach (contextPositions (window - shrink st.rnd window) pos doc.length) { st with rnd := rndStep st.rnd }
          (skipGramBody optim doc pos lr)) ∧
    ∀ r c, c ∈ contextPositions r pos doc.length → c < doc.length ∧ c ≠ pos := by
  obtain ⟨e1, a1, b1⟩ := shrink_spec st.rnd window h1 h2
  refine ⟨⟨a1, b1, ?_⟩, ?_⟩
  · unfold skipGramOne
    rw [e1, Res.ok_bind]
    exact windowLoop_eq _ _ _ _ _ _ a1 b1
  · intro r c hc
    simp only [contextPositions, List.mem_filter, List.mem_range, decide_eq_true_eq] at hc
    exact ⟨hc.1, hc.2.1⟩

/-- window 3, shrink 1, position 2 of a document of 4 words: positions 0, 1, 3 -/
example : contextPositions (3 - 1) 2 4 = [0, 1, 3] := by decide

/-- The words at the given positions of a document. -/
def wordsAt (doc : List Nat) (positions : List Nat) : List Nat := positions.filterMap (doc[·]?)

/-- What the training loop needs of an optimizer: on ids below `n` and vectors of `c` elements it returns
normally, keeps its invariant and the length of the buffer. -/
def OptimOK (optim : Optim O F) (Inv : O → Prop) (n c : Nat) : Prop :=
  ∀ o rnd (id : Nat) lr ctx tmp, Inv o → id < n → ctx.length = c → tmp.length = c →
    ∃ r, optim o rnd id lr ctx tmp = .ok r ∧ Inv r.opt ∧ r.tmp.length = c

/-- **C29 (frame).** Whatever the optimizer does with its own parameters: after a skip-gram step that returns,
the matrix has its shape and every row of a word that is not in the context window is unchanged. -/
theorem C29_only_context_rows_change (optim : Optim O F) (window : Int) (h1 : 1 ≤ window) (h2 : window < 2 ^ 62)
    (doc : List Nat) (pos : Nat) (lr : F) (st st' : StepSt O F) (n c : Nat) (hm : Shaped st.param n c)
    (hdoc : ∀ id ∈ doc, id < n) (hr : skipGramOne optim window doc pos lr st = .ok st') :
    Shaped st'.param n c ∧
    ∀ k < n, k ∉ wordsAt doc (contextPositions (window - shrink st.rnd window) pos doc.length) →
      st'.param.getRow k = st.param.getRow k := by
  obtain ⟨⟨_, _, e⟩, _⟩ := C28_skipgram optim window h1 h2 doc pos lr st
  rw [e] at hr
  set P := contextPositions (window - shrink st.rnd window) pos doc.length with hP
  have hinv := forEach_inv_partial
    (fun (s : StepSt O F) => Shaped s.param n c ∧ ∀ k, k ∉ wordsAt doc P → s.param.rowOf k = st.param.rowOf k) P
    { st with rnd := rndStep st.rnd } st' (skipGramBody optim doc pos lr) ⟨hm, fun _ _ => rfl⟩ (by
      rintro p hp s s' ⟨hs, hk⟩ hb
      unfold skipGramBody at hb
      dsimp only at hb
      rw [Res.bind_eq_ok] at hb
      obtain ⟨ctxID, hid, hb⟩ := hb
      rw [idx_eq_ok] at hid
      have hmem : ctxID ∈ wordsAt doc P := List.mem_filterMap.2 ⟨p, hp, hid⟩
      have hlt : ctxID < n := hdoc _ (List.mem_of_getElem? hid)
      rw [hs.getRow hlt, Res.ok_bind, Res.bind_eq_ok] at hb
      obtain ⟨id, _, hb⟩ := hb
      rw [Res.bind_eq_ok] at hb
      obtain ⟨r, _, hb⟩ := hb
      split at hb
      · simp at hb
      · next hlen =>
        have hl := hs.length_rowOf hlt
        obtain ⟨m', e', q1, q2, q3⟩ := hs.setRow hlt (addF r.tmp (s.param.rowOf ctxID)) (by rw [length_addF]; omega)
        rw [e', Res.ok_bind] at hb
        injection hb with hb
        subst hb
        refine ⟨q1, fun k hkn => ?_⟩
        simp only
        rw [q3 k (fun e => hkn (e ▸ hmem)), hk k hkn]) hr
  refine ⟨hinv.1, fun k hk hkn => ?_⟩
  rw [hinv.1.getRow hk, hm.getRow hk, hinv.2 k hkn]

/-- **C29 (no panic).** With an optimizer meeting its contract, a skip-gram step over a document of valid ids
always returns normally; shapes and the optimizer's invariant are kept. -/
theorem C29_step_total (optim : Optim O F) (Inv : O → Prop) (window : Int) (h1 : 1 ≤ window) (h2 : window < 2 ^ 62)
    (doc : List Nat) (pos : Nat) (hpos : pos < doc.length) (lr : F) (st : StepSt O F) (n c : Nat) (hm : Shaped st.param n c)
    (hdoc : ∀ id ∈ doc, id < n) (ho : OptimOK optim Inv n c) (hi : Inv st.opt) (ht : st.tmp.length = c) :
    ∃ st', skipGramOne optim window doc pos lr st = .ok st' ∧ Shaped st'.param n c ∧ Inv st'.opt ∧ st'.tmp.length = c := by
  obtain ⟨⟨_, _, e⟩, hlt⟩ := C28_skipgram optim window h1 h2 doc pos lr st
  rw [e]
  refine forEach_inv (fun (s : StepSt O F) => Shaped s.param n c ∧ Inv s.opt ∧ s.tmp.length = c) _ _ _ ⟨hm, hi, ht⟩ ?_
  rintro p hp s ⟨hs, hI, hl⟩
  obtain ⟨hp', _⟩ := hlt _ _ hp
  have hid : doc[p] < n := hdoc _ (List.getElem_mem hp')
  have hid' : doc[pos] < n := hdoc _ (List.getElem_mem hpos)
  have hrl := hs.length_rowOf hid
  unfold skipGramBody
  dsimp only
  rw [idx_of_lt _ _ hp', Res.ok_bind, hs.getRow hid, Res.ok_bind, idx_of_lt _ _ hpos, Res.ok_bind]
  obtain ⟨r, er, i1, l1⟩ := ho s.opt s.rnd doc[pos] lr (s.param.rowOf doc[p]) (s.tmp.map (fun _ => fzero)) hI hid' hrl (by simpa using hl)
  rw [er, Res.ok_bind, if_neg (by omega)]
  obtain ⟨m', e', q1, _⟩ := hs.setRow hid (addF r.tmp (s.param.rowOf doc[p])) (by rw [length_addF]; omega)
  rw [e']
  exact ⟨_, rfl, q1, i1, l1⟩

/-- Negative sampling meets the optimizer contract wherever the sigmoid lookup never panics. -/
theorem ns_contract (table : List F) (ht : SigSafe table) (size : Int) (n c : Nat) (hn : 0 < n) (hn2 : n < 2 ^ 63) :
    OptimOK (NegSampling.optim (F := F)) (fun o => Shaped o.ctx n c ∧ o.table = table ∧ o.sampleSize = size) n c := by
  rintro o rnd id lr ctx tmp ⟨h1, h2, h3⟩ hid hc htmp
  obtain ⟨r, e, a, b, d, l, _⟩ := ns_optim_ok o n c hn hn2 (h2 ▸ ht) h1 rnd id hid lr ctx tmp hc htmp
  exact ⟨r, e, ⟨a, b.trans h2, d.trans h3⟩, l⟩

/-- **C29 for skip-gram with negative sampling.** In real arithmetic no step over a document of dictionary ids ever
panics; the word matrix and the output matrix keep their shapes. -/
theorem C29_skipgram_negative_sampling (window : Int) (h1 : 1 ≤ window) (h2 : window < 2 ^ 62)
    (doc : List Nat) (pos : Nat) (hpos : pos < doc.length) (lr : ℝ) (st : StepSt (NegSampling ℝ) ℝ) (n c : Nat) (hn2 : n < 2 ^ 63)
    (hm : Shaped st.param n c) (hc : Shaped st.opt.ctx n c) (htab : st.opt.table = sigTable) (htmp : st.tmp.length = c)
    (hdoc : ∀ id ∈ doc, id < n) :
    ∃ st', skipGramOne NegSampling.optim window doc pos lr st = .ok st' ∧ Shaped st'.param n c ∧ Shaped st'.opt.ctx n c := by
  have hn : 0 < n := by have := hdoc _ (List.getElem_mem hpos); omega
  obtain ⟨st', e, a, b, _⟩ := C29_step_total NegSampling.optim _ window h1 h2 doc pos hpos lr st n c hm hdoc
    (ns_contract sigTable sigSafe_real st.opt.sampleSize n c hn hn2) ⟨hc, htab, rfl⟩ htmp
  exact ⟨st', e, a, b.1⟩

/-- A state for the concrete cases: three words, vectors of size 2, sample size 5. -/
noncomputable def exStep (t : List ℝ) : StepSt (NegSampling ℝ) ℝ :=
  { param := ⟨[1, 2, 3, 4, 5, 6], 3, 2⟩, opt := ⟨⟨[1, 2, 3, 4, 5, 6], 3, 2⟩, t, 5⟩, rnd := 1, tmp := [0, 0] }

/-- `C29_step_total`, and with the state it returns `C29_only_context_rows_change`: window 2, the document `0 1 2 1`, position 1,
with the sigmoid table of the code. -/
example := (fun (t : List ℝ) (ht : SigSafe t) => (by
  obtain ⟨st', h, _⟩ := C29_step_total NegSampling.optim _ 2 (by decide) (by decide) [0, 1, 2, 1] 1 (by decide) (1/10 : ℝ) (exStep t)
    3 2 ⟨rfl, rfl, rfl⟩ (by decide) (ns_contract _ ht 5 3 2 (by decide) (by decide)) ⟨⟨rfl, rfl, rfl⟩, rfl, rfl⟩ rfl
  exact ⟨st', h, (C29_only_context_rows_change NegSampling.optim 2 (by decide) (by decide) [0, 1, 2, 1] 1 (1/10 : ℝ) (exStep t) st'
    3 2 ⟨rfl, rfl, rfl⟩ (by decide) h).1⟩ :
  ∃ st', skipGramOne NegSampling.optim 2 [0, 1, 2, 1] 1 (1/10 : ℝ) (exStep t) = .ok st' ∧ Shaped st'.param 3 2)) sigTable sigSafe_real

/-- `C29_skipgram_negative_sampling` there. -/
example : ∃ st' t, t = sigTable ∧ skipGramOne NegSampling.optim 2 [0, 1, 2, 1] 1 (1/10 : ℝ) (exStep t) = .ok st' := by
  have H : ∀ t : List ℝ, t = sigTable → ∃ st', skipGramOne NegSampling.optim 2 [0, 1, 2, 1] 1 (1/10 : ℝ) (exStep t) = .ok st' := by
    intro t ht
    obtain ⟨st', h, _⟩ := C29_skipgram_negative_sampling 2 (by decide) (by decide) [0, 1, 2, 1] 1 (by decide) (1/10) (exStep t) 3 2
      (by decide) ⟨rfl, rfl, rfl⟩ ⟨rfl, rfl, rfl⟩ ht rfl (by decide)
    exact ⟨st', h⟩
  obtain ⟨st', h⟩ := H sigTable rfl
  exact ⟨st', sigTable, rfl, h⟩

/-! ### C30 -/

/-- Sum of the rows of the listed words, in order, from the zero vector. -/
def sumRows (m : Matrix F) (ids : List Nat) (c : Nat) : List F :=
  ids.foldl (fun acc k => addF (m.rowOf k) acc) (List.replicate c fzero)

theorem cbowAggregate_ok (window : Int) (h1 : 1 ≤ window) (h2 : window < 2 ^ 62) (doc : List Nat) (pos : Nat)
    (st : CbowSt O F) (n c : Nat) (hm : Shaped st.param n c) (hdoc : ∀ id ∈ doc, id < n) (ha : st.agg.length = c) :
    cbowAggregate window doc pos st = .ok { st with
      rnd := rndStep st.rnd
      agg := (wordsAt doc (contextPositions (window - shrink st.rnd window) pos doc.length)).foldl
        (fun acc k => addF (st.param.rowOf k) acc) st.agg } := by
  obtain ⟨e2, a2, b2⟩ := shrink_spec st.rnd window h1 h2
  unfold cbowAggregate
  rw [e2, Res.ok_bind]
  dsimp only
  rw [windowLoop_eq _ _ _ _ _ _ a2 b2]
  have hP : ∀ p ∈ contextPositions (window - shrink st.rnd window) pos doc.length, p < doc.length := by
    intro p hp
    simp only [contextPositions, List.mem_filter, List.mem_range] at hp
    exact hp.1
  generalize contextPositions (window - shrink st.rnd window) pos doc.length = P at hP
  generalize rndStep st.rnd = rn
  obtain ⟨param, opt, rnd, agg, tmp⟩ := st
  simp only at hm ha ⊢
  clear e2 a2 b2
  induction P generalizing agg with
  | nil => rfl
  | cons p P ih =>
    have hp := hP p (by simp)
    have hid : doc[p] < n := hdoc _ (List.getElem_mem hp)
    have hrl := hm.length_rowOf hid
    have hw : wordsAt doc (p :: P) = doc[p] :: wordsAt doc P := by simp [wordsAt, hp]
    rw [forEach_cons, hw, List.foldl_cons]
    simp only [idx_of_lt _ _ hp, Res.ok_bind, hm.getRow hid]
    rw [if_neg (by omega), Res.ok_bind]
    rw [ih (fun q hq => hP q (by simp [hq])) (addF (param.rowOf doc[p]) agg) (by rw [length_addF]; omega)]

theorem cbowUpdate_ok (window : Int) (h1 : 1 ≤ window) (h2 : window < 2 ^ 62) (doc : List Nat) (pos : Nat)
    (st : CbowSt O F) (n c : Nat) (hm : Shaped st.param n c) (hdoc : ∀ id ∈ doc, id < n) (ht : st.tmp.length = c) :
    ∃ param', cbowUpdate window doc pos st = .ok { st with rnd := rndStep st.rnd, param := param' } ∧ Shaped param' n c ∧
      ∀ k < n, param'.rowOf k = (addF st.tmp)^[(wordsAt doc (contextPositions (window - shrink st.rnd window) pos doc.length)).count k]
        (st.param.rowOf k) := by
  obtain ⟨e2, a2, b2⟩ := shrink_spec st.rnd window h1 h2
  unfold cbowUpdate
  rw [e2, Res.ok_bind]
  dsimp only
  rw [windowLoop_eq _ _ _ _ _ _ a2 b2]
  have hP : ∀ p ∈ contextPositions (window - shrink st.rnd window) pos doc.length, p < doc.length := by
    intro p hp
    simp only [contextPositions, List.mem_filter, List.mem_range] at hp
    exact hp.1
  generalize contextPositions (window - shrink st.rnd window) pos doc.length = P at hP
  generalize rndStep st.rnd = rn
  obtain ⟨param, opt, rnd, agg, tmp⟩ := st
  simp only at hm ht ⊢
  clear e2 a2 b2
  induction P generalizing param with
  | nil => exact ⟨param, rfl, hm, fun k _ => rfl⟩
  | cons p P ih =>
    have hp := hP p (by simp)
    have hid : doc[p] < n := hdoc _ (List.getElem_mem hp)
    have hrl := hm.length_rowOf hid
    have hw : wordsAt doc (p :: P) = doc[p] :: wordsAt doc P := by simp [wordsAt, hp]
    obtain ⟨m', e', q1, q2, q3⟩ := hm.setRow hid (addF tmp (param.rowOf doc[p])) (by rw [length_addF]; omega)
    obtain ⟨m'', e'', r1, r2⟩ := ih (fun q hq => hP q (by simp [hq])) m' q1
    refine ⟨m'', ?_, r1, ?_⟩
    · rw [forEach_cons]
      simp only [idx_of_lt _ _ hp, Res.ok_bind, hm.getRow hid]
      rw [if_neg (by omega), e', Res.ok_bind, Res.ok_bind, e'']
    · intro k hk
      rw [r2 k hk, hw, List.count_cons]
      by_cases hkd : doc[p] = k
      · subst hkd
        simp only [beq_self_eq_true, if_true, q2]
        rw [← Function.iterate_succ_apply]
      · have : (doc[p] == k) = false := by simpa using hkd
        rw [this, q3 k (fun e => hkd e.symm)]
        simp

/-- **C30, what a CBOW step does (proved in place of C30).** The step returns normally. It sums the rows of the words at
the positions of a first window (shrink drawn first), hands that sum to the optimizer, and then adds the optimizer's
buffer to the row of every word at the positions of a *second* window, whose shrink is drawn after the optimizer ran:
once per occurrence. If the two shrinks are equal, the updated words are exactly the summed ones. -/
theorem C30_cbow_step_partial (optim : Optim O F) (Inv : O → Prop) (window : Int) (h1 : 1 ≤ window) (h2 : window < 2 ^ 62)
    (doc : List Nat) (pos : Nat) (hpos : pos < doc.length) (lr : F) (st : CbowSt O F) (n c : Nat) (hm : Shaped st.param n c)
    (hdoc : ∀ id ∈ doc, id < n) (ho : OptimOK optim Inv n c) (hi : Inv st.opt) (ha : st.agg.length = c) (ht : st.tmp.length = c) :
    ∃ (r : OptRes O F) (st' : CbowSt O F) (A U : List Nat),
      A = wordsAt doc (contextPositions (window - shrink st.rnd window) pos doc.length) ∧
      U = wordsAt doc (contextPositions (window - shrink r.rnd window) pos doc.length) ∧
      optim st.opt (rndStep st.rnd) doc[pos] lr (sumRows st.param A c) (List.replicate c fzero) = .ok r ∧
      cbowOne optim window doc pos lr st = .ok st' ∧
      st'.opt = r.opt ∧ Shaped st'.param n c ∧ Inv st'.opt ∧ st'.rnd = rndStep r.rnd ∧
      (∀ k < n, st'.param.getRow k = .ok ((addF r.tmp)^[U.count k] (st.param.rowOf k))) ∧
      (shrink r.rnd window = shrink st.rnd window → A = U) := by
  have hA : ∀ ids : List Nat, (∀ k ∈ ids, k < n) → ∀ acc : List F, acc.length = c →
      (ids.foldl (fun acc k => addF (st.param.rowOf k) acc) acc).length = c := by
    intro ids
    induction ids with
    | nil => intro _ acc h; exact h
    | cons k ids ih =>
      intro hk acc hl
      rw [List.foldl_cons]
      refine ih (fun j hj => hk j (by simp [hj])) _ ?_
      rw [length_addF, hm.length_rowOf (hk k (by simp))]; omega
  have hz1 : st.agg.map (fun _ => (fzero : F)) = List.replicate c fzero := by rw [List.map_const', ha]
  have hz2 : st.tmp.map (fun _ => (fzero : F)) = List.replicate c fzero := by rw [List.map_const', ht]
  have hid : doc[pos] < n := hdoc _ (List.getElem_mem hpos)
  set A := wordsAt doc (contextPositions (window - shrink st.rnd window) pos doc.length) with hAdef
  have hAn : ∀ k ∈ A, k < n := by
    intro k hk
    obtain ⟨p, _, hp⟩ := List.mem_filterMap.1 hk
    exact hdoc _ (List.mem_of_getElem? hp)
  have hsum : (sumRows st.param A c).length = c := hA A hAn _ (by simp)
  obtain ⟨r, er, i1, l1⟩ := ho st.opt (rndStep st.rnd) doc[pos] lr (sumRows st.param A c) (List.replicate c fzero) hi hid hsum (by simp)
  obtain ⟨param', eu, s1, s2⟩ := cbowUpdate_ok window h1 h2 doc pos
    ({ param := st.param, opt := r.opt, rnd := r.rnd, agg := sumRows st.param A c, tmp := r.tmp } : CbowSt O F) n c hm hdoc l1
  refine ⟨r, { param := param', opt := r.opt, rnd := rndStep r.rnd, agg := sumRows st.param A c, tmp := r.tmp },
    A, _, rfl, rfl, er, ?_, ?_⟩
  rotate_left
  · refine ⟨rfl, s1, i1, rfl, ?_, ?_⟩
    · intro k hk
      simp only
      rw [s1.getRow hk, s2 k hk]
    · intro e; rw [hAdef, e]
  · unfold cbowOne
    dsimp only
    rw [hz1, hz2, cbowAggregate_ok window h1 h2 doc pos _ n c (by exact hm) hdoc (by simp)]
    simp only [Res.ok_bind, idx_of_lt _ _ hpos]
    have e3 : (A.foldl (fun acc k => addF (st.param.rowOf k) acc) (List.replicate c fzero)) = sumRows st.param A c := rfl
    rw [← hAdef, e3, er]
    simp only [Res.ok_bind]
    exact eu

theorem contextPositions_length (r : Nat) (pos len : Nat) (h1 : r ≤ pos) (h2 : pos + r < len) :
    (contextPositions r pos len).contains (pos - r) = decide (0 < r) := by
  rw [Bool.eq_iff_iff]
  simp only [contextPositions, List.contains_iff_mem, List.mem_filter, List.mem_range, decide_eq_true_eq, abs_le]
  omega

/-- **C30 is false.** For every even window, every position at least `window` away from both ends of the document, every
generator state and every optimizer that consumes an even number of random numbers (hierarchical softmax: none;
negative sampling with an even sample size), the positions averaged and the positions updated are *different* sets. -/
theorem C30_false (optim : Optim O F) (window : Int) (h1 : 1 ≤ window) (h2 : window < 2 ^ 62) (hev : 2 ∣ window)
    (doc : List Nat) (pos : Nat) (hl : window.toNat ≤ pos) (hr : pos + window.toNat < doc.length)
    (s : UInt64) (o : O) (id : Nat) (lr : F) (ctx tmp : List F) (m : Nat) (r : OptRes O F)
    (_he : optim o (rndStep s) id lr ctx tmp = .ok r) (hm : r.rnd = rndStep^[2 * m] (rndStep s)) :
    ¬ (∀ p, p ∈ contextPositions (window - shrink s window) pos doc.length ↔
        p ∈ contextPositions (window - shrink r.rnd window) pos doc.length) := by
  have hpar : ∀ t : UInt64, (rndStep t).toNat % 2 = (t.toNat + 1) % 2 := by
    intro t
    rw [rndStep_toNat, Nat.mod_mod_of_dvd _ (by norm_num : 2 ∣ 2 ^ 64)]
    simp only [lcgA]; omega
  have hpar2 : ∀ k : Nat, (rndStep^[2 * k] (rndStep s)).toNat % 2 = (rndStep s).toNat % 2 := by
    intro k
    induction k with
    | zero => rfl
    | succ k ih =>
      rw [show 2 * (k + 1) = 2 * k + 1 + 1 by ring, Function.iterate_succ_apply', Function.iterate_succ_apply', hpar, Nat.add_mod, hpar]
      omega
  obtain ⟨_, a1, b1⟩ := shrink_spec s window h1 h2
  obtain ⟨_, a2, b2⟩ := shrink_spec r.rnd window h1 h2
  have hne : shrink s window ≠ shrink r.rnd window := by
    intro e
    unfold shrink at e
    have hw : window.toNat % 2 = 0 := by omega
    obtain ⟨q, hq⟩ : ∃ q, window.toNat = 2 * q := ⟨window.toNat / 2, by omega⟩
    have e' : (rndStep s).toNat % window.toNat = (rndStep r.rnd).toNat % window.toNat := by exact_mod_cast e
    have e2 : (rndStep s).toNat % window.toNat % 2 = (rndStep r.rnd).toNat % window.toNat % 2 := by rw [e']
    rw [hq, Nat.mod_mul_right_mod, Nat.mod_mul_right_mod, hpar r.rnd, hm, Nat.add_mod, hpar2 m] at e2
    omega
  intro H
  obtain ⟨x, hx⟩ := Int.eq_ofNat_of_zero_le (a := window - shrink s window) (by omega)
  obtain ⟨y, hy⟩ := Int.eq_ofNat_of_zero_le (a := window - shrink r.rnd window) (by omega)
  rw [hx, hy] at H
  have hxy : x ≠ y := by omega
  have key : ∀ a b : Nat, a < b → b ≤ window.toNat →
      ¬ (∀ p, p ∈ contextPositions (a : Int) pos doc.length ↔ p ∈ contextPositions (b : Int) pos doc.length) := by
    intro a b hab hb H
    have := (H (pos - b)).2 (by
      simp only [contextPositions, List.mem_filter, List.mem_range, decide_eq_true_eq, abs_le]; omega)
    simp only [contextPositions, List.mem_filter, List.mem_range, decide_eq_true_eq, abs_le] at this
    omega
  rcases Nat.lt_or_gt_of_ne hxy with h | h
  · exact key x y h (by omega) H
  · exact key y x h (by omega) (fun p => (H p).symm)

/-- **C30 is false, end to end.** CBOW with negative sampling, an even window and an even sample size, on a document of
distinct words, at a position at least `window` away from both ends: whatever the parameters and the generator state, the
step sums the rows of the words `A` and adds its update to the rows of the words `U`, and these are different sets. -/
theorem C30_false_negative_sampling (table : List F) (hsig : SigSafe table) (window : Int) (h1 : 1 ≤ window) (h2 : window < 2 ^ 62)
    (hev : 2 ∣ window) (doc : List Nat) (hnd : doc.Nodup) (pos : Nat) (hl : window.toNat ≤ pos)
    (hr : pos + window.toNat < doc.length) (lr : F) (st : CbowSt (NegSampling F) F) (n c : Nat) (hn2 : n < 2 ^ 63)
    (hm : Shaped st.param n c) (hc : Shaped st.opt.ctx n c) (htab : st.opt.table = table) (m : Nat)
    (hsz : st.opt.sampleSize = 2 * m) (hdoc : ∀ id ∈ doc, id < n) (ha : st.agg.length = c) (ht : st.tmp.length = c) :
    ∃ (r : OptRes (NegSampling F) F) (st' : CbowSt (NegSampling F) F) (A U : List Nat),
      st.opt.optim (rndStep st.rnd) (doc[pos]'(by omega)) lr (sumRows st.param A c) (List.replicate c fzero) = .ok r ∧
      cbowOne NegSampling.optim window doc pos lr st = .ok st' ∧
      (∀ k < n, st'.param.getRow k = .ok ((addF r.tmp)^[U.count k] (st.param.rowOf k))) ∧
      ¬ (∀ id, id ∈ A ↔ id ∈ U) := by
  have hn : 0 < n := lt_of_le_of_lt (Nat.zero_le _) (hdoc (doc[pos]'(by omega)) (List.getElem_mem _))
  have hpos : pos < doc.length := by omega
  have ho := ns_contract (F := F) table hsig st.opt.sampleSize n c hn hn2
  obtain ⟨r, st', A, U, hA, hU, e, hstep, _, _, _, _, hrows, _⟩ := C30_cbow_step_partial NegSampling.optim _ window h1 h2 doc pos
    hpos lr st n c hm hdoc ho ⟨hc, htab, rfl⟩ ha ht
  refine ⟨r, st', A, U, e, hstep, hrows, ?_⟩
  have hctxlen : (sumRows st.param A c).length = c := by
    have key : ∀ (l : List Nat) (acc : List F), acc.length = c → (∀ k ∈ l, k < n) →
        (l.foldl (fun acc k => addF (st.param.rowOf k) acc) acc).length = c := by
      intro l
      induction l with
      | nil => intro acc h _; exact h
      | cons k l ih =>
        intro acc h hk
        refine ih _ ?_ (fun k hk' => hk k (by simp [hk']))
        rw [length_addF, h, hm.length_rowOf (hk k (by simp))]; simp
    refine key A _ (by simp) ?_
    intro k hk
    rw [hA, wordsAt, List.mem_filterMap] at hk
    obtain ⟨p, _, hp⟩ := hk
    exact hdoc k (List.mem_of_getElem? hp)
  obtain ⟨r', e', _, _, _, _, hrnd⟩ := ns_optim_ok st.opt n c hn hn2 (htab ▸ hsig) hc (rndStep st.rnd) (doc[pos]'hpos)
    (hdoc _ (List.getElem_mem _)) lr (sumRows st.param A c) (List.replicate c fzero) hctxlen (by simp)
  have hrr : r' = r := by
    have : (Res.ok r' : Res _) = .ok r := e'.symm.trans e
    exact Res.ok.inj this
  subst hrr
  have hmm : r'.rnd = rndStep^[2 * m] (rndStep st.rnd) := by
    rw [hrnd, hsz]; congr 1
  have hdiff := C30_false NegSampling.optim window h1 h2 hev doc pos hl hr st.rnd st.opt _ lr _ _ m r' e hmm
  intro hall
  apply hdiff
  have hmem : ∀ (P : List Nat) (p : Nat) (hp : p < doc.length), p ∈ P ↔ doc[p] ∈ wordsAt doc P := by
    intro P p hp
    rw [wordsAt, List.mem_filterMap]
    constructor
    · intro h; exact ⟨p, h, List.getElem?_eq_getElem hp⟩
    · rintro ⟨q, hq, e⟩
      have hq' : q < doc.length := by
        by_contra h; rw [List.getElem?_eq_none (by omega)] at e; simp at e
      rw [List.getElem?_eq_getElem hq', Option.some.injEq] at e
      rw [(List.Nodup.getElem_inj_iff hnd).1 e] at hq
      exact hq
  have hlt : ∀ rad p, p ∈ contextPositions rad pos doc.length → p < doc.length := by
    intro rad p hp
    simp only [contextPositions, List.mem_filter, List.mem_range] at hp
    exact hp.1
  intro p
  constructor
  · intro hp
    have hlt' := hlt _ _ hp
    rw [hmem _ p hlt', ← hU, ← hall, hA, ← hmem _ p hlt']; exact hp
  · intro hp
    have hlt' := hlt _ _ hp
    rw [hmem _ p hlt', ← hA, hall, hU, ← hmem _ p hlt']; exact hp

/-- A state for the concrete cases: five words, vectors of size 1, sample size 2. -/
noncomputable def exCbow (t : List ℝ) : CbowSt (NegSampling ℝ) ℝ :=
  { param := ⟨[1, 2, 3, 4, 5], 5, 1⟩, opt := ⟨⟨[1, 2, 3, 4, 5], 5, 1⟩, t, 2⟩, rnd := 1, agg := [0], tmp := [0] }

/-- `C30_cbow_step_partial` and `C30_false_negative_sampling` (and so `C30_false`): the document `0 1 2 3 4`, window 2, at the
middle position, with the sigmoid table of the code (`sigSafe_real`). -/
example := (fun (t : List ℝ) (ht : SigSafe t) => C30_cbow_step_partial NegSampling.optim _ 2 (by decide) (by decide) [0, 1, 2, 3, 4]
  2 (by decide) (1/10 : ℝ) (exCbow t) 5 1 ⟨rfl, rfl, rfl⟩ (by decide) (ns_contract _ ht 2 5 1 (by decide) (by decide))
  ⟨⟨rfl, rfl, rfl⟩, rfl, rfl⟩ rfl rfl) sigTable sigSafe_real

example := (fun (t : List ℝ) (ht : SigSafe t) => C30_false_negative_sampling t ht 2 (by decide) (by decide) (by decide)
  [0, 1, 2, 3, 4] (by decide) 2 (by decide) (by decide) (1/10 : ℝ) (exCbow t) 5 1 (by decide) ⟨rfl, rfl, rfl⟩ ⟨rfl, rfl, rfl⟩ rfl
  1 rfl (by decide) rfl rfl) sigTable sigSafe_real

end Wego.Props
