import Verif.Proofs.PoolSeq
import Verif.Model.TrainSeq
import Verif.Model.TrainSys
import Verif.Props.Lexvec

/-! # LexVec: a worker that runs alone computes the sequential algorithm -/

namespace Wego
open Prog Matrix
variable {F : Type} [GoFloat F] {path : Nat → List Nat} {m : Mem F} {us : Ora F}

/-- `lexUpdateP` alone computes `lexUpdate` with the next learning rate -/
theorem lexUpdateP_runs {M M' : Matrix F} {r dim a b : Nat} (h : MatAt .param m M r dim) (ha : a < r) (hb : b < r) {f : F}
    (hM : lexUpdate dim (us.lr 0) a b f M = .ok M') :
    (lexUpdateP r dim a b f).Runs path m us (fun _ m' us' => MatAt .param m' M' r dim ∧ m'.next = m.next ∧ us' = us.dropLr) := by
  unfold lexUpdate at hM
  rw [Int.toNat_natCast, Res.bind_eq_ok] at hM
  obtain ⟨d, h1, h2⟩ := hM
  unfold pairDot at h1
  unfold lexUpdateP
  refine Runs.bind (Q := fun d' m' us' => d' = d ∧ m' = m ∧ us' = us) ((Runs.forP_sim (fun _ (acc t : F) m' us' => t = acc ∧ m' = m ∧ us' = us) h1 ⟨rfl, rfl, rfl⟩ ?_)) ?_
  · rintro i s t m' us' s1 hi ⟨rfl, rfl, rfl⟩ hs
    rw [h.shaped.getAt_val ha hi, Res.ok_bind, h.shaped.getAt_val hb hi, Res.ok_bind] at hs
    cases hs
    exact Runs.sliceP_bind ha (Runs.ld_bind (h.cell a ha i hi) (Runs.sliceP_bind hb (Runs.ld_bind (h.cell b hb i hi) (Runs.ret ⟨rfl, rfl, rfl⟩))))
  · rintro _ m1 us1 ⟨rfl, rfl, rfl⟩
    refine Runs.lr_bind ?_
    dsimp only at h2 ⊢
    refine (Runs.forP_sim (fun _ M' (_ : Unit) m' us' => MatAt .param m' M' r dim ∧ m'.next = m1.next ∧ us' = us1.dropLr) h2 ⟨h, rfl, rfl⟩ ?_)
    rintro i s t m' us' s1 hi ⟨hm, hn, rfl⟩ hs
    exact Runs.sliceP_bind hb (Runs.ld_bind rfl (Runs.sliceP_bind ha (Runs.ld_bind rfl (Runs.ld_bind rfl (Runs.st_bind (Runs.ld_bind rfl
      (Runs.st ⟨pairSub_runs hm ha hb hi hs, hn, rfl⟩)))))))

/-- the memory and the inputs that are left hold the state of the sequential algorithm -/
structure LexRel (cfg : LexCfg F) (dim : Nat) (rands : Nat → F) (m : Mem F) (o : Ora F) (s : LexState F) (k : Nat) : Prop where
  mat : MatAt .param m s.param (cfg.len * 2) dim
  next : m.next = s.rnd
  lr : ∀ n, o.lr n = cfg.lrs (s.upd + n)
  rand : ∀ n, o.rand n = rands (k + n)

variable {cfg : LexCfg F} {dim : Nat} {rands : Nat → F} {s s' : LexState F} {k : Nat}

theorem lexUpd_runs (hdim : cfg.dim = dim) (h : LexRel cfg dim rands m us s k) {a b : Nat} (ha : a < cfg.len * 2) (hb : b < cfg.len * 2) {f : F}
    (hs : lexUpd cfg a b f s = .ok s') :
    (lexUpdateP (cfg.len * 2) dim a b f).Runs path m us (fun _ m' us' => LexRel cfg dim rands m' us' s' k) := by
  unfold lexUpd at hs
  rw [Res.bind_eq_ok] at hs
  obtain ⟨M, h1, h2⟩ := hs
  cases h2
  rw [hdim, show cfg.lrs s.upd = us.lr 0 from (h.lr 0).symm] at h1
  refine (lexUpdateP_runs h.mat ha hb h1).mono ?_
  rintro _ m' us' ⟨e1, e2, rfl⟩
  exact ⟨e1, e2.trans h.next, fun n => by show us.lr (n + 1) = _; rw [h.lr]; congr 1; dsimp only; omega, h.rand⟩

/-- a draw of the generator, in the program and in the sequential algorithm -/
theorem LexRel.draw (h : LexRel cfg dim rands m us s k) (t : UInt64) : LexRel cfg dim rands { m with next := t } us { s with rnd := t } k :=
  ⟨h.mat.next t, rfl, h.lr, h.rand⟩

omit [GoFloat F] in
theorem windowLoopP_sim {σ τ : Type} (R : σ → τ → Mem F → Ora F → Prop) {window del : Int} {pos len : Nat} {s s' : σ} {t : τ} {body : Nat → σ → Res σ}
    {bodyP : Nat → τ → Prog F τ} (h0 : R s t m us) (hs : windowLoop window del pos len s body = .ok s')
    (hb : ∀ c s t m us s1, c < len → R s t m us → body c s = .ok s1 → (bodyP c t).Runs path m us (R s1)) :
    (windowLoopP window del pos len t bodyP).Runs path m us (R s') := by
  unfold windowLoop at hs
  refine Runs.forP_sim (fun _ s t m us => R s t m us) hs h0 ?_
  intro i s t m us s1 _ hr hs1
  dsimp only at hs1 ⊢
  split
  · rename_i hw
    rw [if_pos hw] at hs1; cases hs1; exact Runs.ret hr
  · rename_i hw
    rw [if_neg hw] at hs1
    split
    · rename_i hc
      rw [if_pos hc] at hs1; cases hs1; exact Runs.ret hr
    · rename_i hc
      rw [if_neg hc] at hs1
      exact hb _ s t m us s1 (by push Not at hc; omega) hr hs1

/-- what a worker reads is the configuration of the sequential algorithm -/
structure LexShared.Is (sh : LexShared F) (cfg : LexCfg F) (dim : Nat) (items : GoMap (BitVec 64) F) (samples : List F) : Prop where
  len : sh.len = cfg.len
  dim' : sh.dim = dim
  cdim : cfg.dim = dim
  window : sh.window = cfg.window
  negative : sh.negative = cfg.negative
  items' : sh.items = items
  samples' : sh.samples = samples

variable {sh : LexShared F} {items : GoMap (BitVec 64) F} {samples : List F} {doc : List Nat}

theorem lexPair_runs (hsh : sh.Is cfg dim items samples) (hl : cfg.len < 2 ^ 62) (h : LexRel cfg dim rands m us s k) {a b : Nat} (ha : a < cfg.len) (hb : b < cfg.len)
    (hs : lexPair cfg items a b s = .ok s') :
    (lexUpdateP (sh.len * 2) sh.dim a b (lexItem sh.items a b) >>= fun _ =>
      forP sh.negative.toNat () (fun _ _ =>
        nextRandomP sh.len >>= fun sample =>
        lexUpdateP (sh.len * 2) sh.dim a (sample + sh.len) (lexItem sh.items a sample.toNat))).Runs path m us (fun _ m' us' => LexRel cfg dim rands m' us' s' k) := by
  unfold lexPair at hs
  rw [Res.bind_eq_ok] at hs
  obtain ⟨s1, h1, h2⟩ := hs
  rw [hsh.len, hsh.dim', hsh.negative, hsh.items']
  refine Runs.bind (lexUpd_runs hsh.cdim h (by omega) (by omega) h1) ?_
  intro _ m1 us1 hr1
  refine Runs.forP_sim (fun _ s (_ : Unit) m' us' => LexRel cfg dim rands m' us' s k) h2 hr1 ?_
  intro i x t mx ux x1 _ hx hx1
  rw [nextRandom_eq x.rnd cfg.len (by omega) (by omega), Res.ok_bind] at hx1
  have hm : (rndStep x.rnd).toNat % ((cfg.len : Int).toNat) < cfg.len := by
    rw [Int.toNat_natCast]; exact Nat.mod_lt _ (by omega)
  have hnx : nextRandom mx.next cfg.len = .ok (rndStep x.rnd, (((rndStep x.rnd).toNat % ((cfg.len : Int).toNat) : Nat) : Int)) := by
    rw [hx.next, nextRandom_eq x.rnd cfg.len (by omega) (by omega)]
  refine Runs.nextRandomP_bind hnx ?_
  generalize (rndStep x.rnd).toNat % ((cfg.len : Int).toNat) = q at hx1 hm
  generalize rndStep x.rnd = t at hx1
  dsimp only at hx1
  rw [show ((q : Int) + (cfg.len : Int)) = ((q + cfg.len : Nat) : Int) by push_cast; rfl, Int.toNat_natCast] at hx1 ⊢
  exact lexUpd_runs hsh.cdim (hx.draw t) (by omega) (by omega) hx1

theorem lexTrainOne_runs (hsh : sh.Is cfg dim items samples) (hl : cfg.len < 2 ^ 62) (hdoc : ∀ id ∈ doc, id < cfg.len) {pos : Nat} (hpos : pos < doc.length)
    (h : LexRel cfg dim rands m us s k) (hs : lexTrainOne cfg items doc pos s = .ok s') :
    (lexTrainOneP sh doc pos).Runs path m us (fun _ m' us' => LexRel cfg dim rands m' us' s' k) := by
  unfold lexTrainOne at hs
  rw [Res.bind_eq_ok] at hs
  obtain ⟨⟨t, d⟩, h1, h2⟩ := hs
  unfold lexTrainOneP
  refine Runs.nextRandomP_bind (s := t) (d := d) (by rw [h.next, hsh.window]; exact h1) ?_
  rw [hsh.window]
  refine (windowLoopP_sim (fun s (_ : Unit) m us => LexRel cfg dim rands m us s k) (h.draw t) h2 ?_)
  intro c x _ mx ux x1 hc hx hx1
  rw [idx_of_lt _ _ hpos, Res.ok_bind, idx_of_lt _ _ hc, Res.ok_bind] at hx1
  exact Runs.ofRes_bind (idx_of_lt _ _ hpos) (Runs.ofRes_bind (idx_of_lt _ _ hc)
    (lexPair_runs hsh hl hx (hdoc _ (List.getElem_mem _)) (hdoc _ (List.getElem_mem _)) hx1))

/-- a worker of LexVec, running alone, computes `lexDoc` -/
theorem lexWorker_runs (hsh : sh.Is cfg dim items samples) (hl : cfg.len < 2 ^ 62) (hdoc : ∀ id ∈ doc, id < cfg.len) {k' : Nat}
    (h : LexRel cfg dim rands m us s k) (hs : lexDoc cfg items samples rands doc (s, k) = .ok (s', k')) :
    (lexWorkerP sh doc).Runs path m us (fun _ m' us' => LexRel cfg dim rands m' us' s' k') := by
  unfold lexDoc at hs
  unfold lexWorkerP
  refine Runs.forP_sim (fun _ (x : LexState F × Nat) (_ : Unit) m' us' => LexRel cfg dim rands m' us' x.1 x.2) hs h ?_
  rintro pos ⟨x, j⟩ _ mx ux x1 hpos hx hx1
  dsimp only at hx hx1
  rw [idx_of_lt _ _ hpos, Res.ok_bind, Res.bind_eq_ok] at hx1
  obtain ⟨ok, e1, e2⟩ := hx1
  refine Runs.ofRes_bind (idx_of_lt _ _ hpos) ?_
  have hr : LexRel cfg dim rands mx ux.dropRand x (j + 1) :=
    ⟨hx.mat, hx.next, hx.lr, fun n => by show ux.rand (n + 1) = _; rw [hx.rand]; congr 1; omega⟩
  refine Runs.bind (Q := fun b m' us' => b = ok ∧ m' = mx ∧ us' = ux.dropRand) ?_ ?_
  · unfold trialP
    refine Runs.rand_bind (Runs.ofRes ?_ ⟨rfl, rfl, rfl⟩)
    rw [hsh.samples', show ux.rand 0 = rands j from hx.rand 0]; exact e1
  · rintro b _ _ ⟨rfl, rfl, rfl⟩
    cases b with
    | false => cases e2; exact Runs.ret hr
    | true =>
      simp only [if_true] at e2 ⊢
      rw [Res.bind_eq_ok] at e2
      obtain ⟨y, e3, e4⟩ := e2
      cases e4
      exact lexTrainOne_runs hsh hl hdoc hpos hr e3

/-- the sequential algorithm never panics -/
theorem lexDoc_total (hsh : sh.Is cfg dim items samples) (hw1 : 1 ≤ cfg.window) (hw2 : cfg.window < 2 ^ 62) (hl : cfg.len < 2 ^ 62) (hsam : samples.length = cfg.len)
    (hdoc : ∀ id ∈ doc, id < cfg.len) (hs : Shaped s.param (cfg.len * 2) dim) :
    ∃ s' k', lexDoc cfg items samples rands doc (s, k) = .ok (s', k') ∧ Shaped s'.param (cfg.len * 2) dim := by
  obtain ⟨⟨s', k'⟩, e, h⟩ := forN_inv (fun _ (x : LexState F × Nat) => Shaped x.1.param (cfg.len * 2) dim) doc.length (s, k) (fun pos s =>
    idx doc pos >>= fun id =>
    trial samples id (rands s.2) >>= fun ok =>
    if ok then lexTrainOne cfg items doc pos s.1 >>= fun s' => .ok (s', s.2 + 1) else .ok (s.1, s.2 + 1)) hs (by
      rintro pos ⟨x, j⟩ hpos hx
      dsimp only at hx ⊢
      rw [idx_of_lt _ _ hpos, Res.ok_bind]
      have hid : doc[pos] < cfg.len := hdoc _ (List.getElem_mem _)
      unfold trial idxI
      rw [if_neg (by omega), Int.toNat_natCast, idx_of_lt _ _ (by omega), Res.ok_bind, Res.ok_bind]
      split
      · obtain ⟨y, e1, e2, _⟩ := Props.C47_train_one cfg dim hsh.cdim hw1 hw2 hl items doc hdoc pos hpos x hx
        rw [e1, Res.ok_bind]; exact ⟨_, rfl, e2⟩
      · exact ⟨_, rfl, hx⟩)
  exact ⟨s', k', e, h⟩

/-- documents one after the other -/
theorem lexSeq_runs (hsh : sh.Is cfg dim items samples) (hw1 : 1 ≤ cfg.window) (hw2 : cfg.window < 2 ^ 62) (hl : cfg.len < 2 ^ 62) (hsam : samples.length = cfg.len)
    (docs : List (List Nat)) (hdoc : ∀ d ∈ docs, ∀ id ∈ d, id < cfg.len) (h : LexRel cfg dim rands m us s k) :
    ∃ s' k', lexSeq cfg items samples rands docs (s, k) = .ok (s', k') ∧
      ∃ m' us', seqRun path (docs.map (lexWorkerP sh)) m us = .ok (m', us') ∧ LexRel cfg dim rands m' us' s' k' := by
  induction docs generalizing m us s k with
  | nil => exact ⟨s, k, rfl, m, us, rfl, h⟩
  | cons d docs ih =>
    obtain ⟨s1, k1, e1, _⟩ := lexDoc_total (rands := rands) (k := k) hsh hw1 hw2 hl hsam (hdoc d (by simp)) h.mat.shaped
    obtain ⟨_, m1, us1, e2, h2⟩ := lexWorker_runs (path := path) hsh hl (hdoc d (by simp)) h e1
    obtain ⟨s', k', e3, m', us', e4, h4⟩ := ih (fun d hd => hdoc d (by simp [hd])) h2
    refine ⟨s', k', ?_, m', us', ?_, h4⟩
    · unfold lexSeq at e3 ⊢
      rw [forEach_cons, e1, Res.ok_bind]; exact e3
    · simp only [List.map_cons, seqRun]
      rw [e2, Res.ok_bind]; exact e4

end Wego
