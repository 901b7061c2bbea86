import Verif.Proofs.RefineW2V
import Verif.Props.Word2vecStep

/-! # word2vec: workers that run alone compute the sequential algorithm -/

namespace Wego
open Prog Matrix
variable {F : Type} [GoFloat F] {path : Nat → List Nat} {m m' : Mem F} {us : Ora F} {O : Type}

/-- `addRowP` alone adds a buffer to a row -/
theorem addRow_runs {M M' : Matrix F} {rows dim r : Nat} (h : MatAt .param m M rows dim) (hr : r < rows) {tmp : List F} (ht : tmp.length = dim)
    (hM : M.setRow r (addF tmp (M.rowOf r)) = .ok M') :
    (addRowP dim r tmp).Runs path m us (fun _ m' us' => MatAt .param m' M' rows dim ∧ m'.next = m.next ∧ us' = us ∧
      ∀ l, (∀ i j, l ≠ .param i j) → m'.cell l = m.cell l) := by
  have hrl := h.shaped.length_rowOf hr
  have hal : (addF tmp (M.rowOf r)).length = dim := by unfold addF; rw [List.length_zipWith]; omega
  unfold addRowP
  refine (Runs.forP_inv (fun i (_ : Unit) m' us' =>
      (∀ j (hj : j < dim), m'.cell (.param r j) = if j < i then (addF tmp (M.rowOf r))[j]'(by omega) else (M.rowOf r)[j]'(by omega)) ∧
      (∀ l, (∀ j < dim, l ≠ .param r j) → m'.cell l = m.cell l) ∧ m'.next = m.next ∧ us' = us) ?_ ?_).mono ?_
  · refine ⟨fun j hj => ?_, fun _ _ => rfl, rfl, rfl⟩
    rw [if_neg (by omega)]; exact h.rowCell hr (by omega)
  · rintro i _ m1 us1 hi ⟨e1, e2, e3, rfl⟩
    refine Runs.ld_bind rfl (Runs.ofRes_bind (idx_of_lt _ _ (by omega)) (Runs.st ?_))
    refine ⟨fun j hj => ?_, fun l hl => ?_, e3, rfl⟩
    · rw [Mem.set_cell]
      by_cases hij : j = i
      · subst hij
        rw [if_pos rfl, if_pos (by omega), e1 j hj, if_neg (by omega)]
        simp [addF]
      · rw [if_neg (fun e => hij (by cases e; rfl)), e1 j hj]
        by_cases hj2 : j < i
        · rw [if_pos hj2, if_pos (by omega)]
        · rw [if_neg hj2, if_neg (by omega)]
    · rw [Mem.set_cell, if_neg (hl i hi)]; exact e2 l hl
  · rintro _ m1 us1 ⟨e1, e2, e3, rfl⟩
    refine ⟨h.rowSet locInj_param hr hal hM ⟨fun i hi => ?_, fun l hl => e2 l (fun j hj => hl j (by omega)), e3⟩, e3, rfl, fun l hl => e2 l (fun j _ => hl r j)⟩
    rw [e1 i (by omega), if_pos (by omega)]

/-- the memory holds the word matrix, the optimizer's state and the generator -/
structure StepAt (sh : W2VShared F) (RO : Mem F → O → Prop) (m : Mem F) (p : Matrix F) (o : O) (rnd : UInt64) : Prop where
  mat : MatAt .param m p sh.rows sh.dim
  opt : RO m o
  next : m.next = rnd

variable {sh : W2VShared F} {RO : Mem F → O → Prop} {optimP : OptimP F} {optim : Optim O F} {doc : List Nat} {pos : Nat} {lr : F}

omit [GoFloat F] in
theorem ROStable.next (hst : ROStable RO) {o : O} (h : RO m o) (s : UInt64) : RO { m with next := s } o := hst m _ o (fun _ _ _ => rfl) h

theorem StepAt.draw (hst : ROStable RO) {p : Matrix F} {o : O} {rnd : UInt64} (h : StepAt sh RO m p o rnd) (s : UInt64) :
    StepAt sh RO { m with next := s } p o s := ⟨h.mat.next s, hst.next h.opt s, rfl⟩

theorem skipGramBody_runs (hst : ROStable RO) (hsim : OptimSim path sh.dim sh.rows RO optimP optim) (hdoc : ∀ id ∈ doc, id < sh.rows) (hpos : pos < doc.length)
    {c : Nat} (hc : c < doc.length) {st st' : StepSt O F} (h : StepAt sh RO m st.param st.opt st.rnd) (ht : st.tmp.length = sh.dim)
    (hs : skipGramBody optim doc pos lr c st = .ok st') :
    (ofRes (idx doc c) >>= fun ctxID =>
      sliceP sh.rows sh.dim ctxID >>= fun r =>
      ofRes (idx doc pos) >>= fun id =>
      optimP id lr (.row r) (st.tmp.map (fun _ => fzero)) >>= fun tmp =>
      addRowP sh.dim r tmp >>= fun _ => .ret tmp : Prog F (List F)).Runs path m us
      (fun t m' us' => t = st'.tmp ∧ t.length = sh.dim ∧ StepAt sh RO m' st'.param st'.opt st'.rnd ∧ us' = us) := by
  have hid : doc[pos] < sh.rows := hdoc _ (List.getElem_mem _)
  have hctx : doc[c] < sh.rows := hdoc _ (List.getElem_mem _)
  unfold skipGramBody at hs
  dsimp only at hs
  rw [idx_of_lt _ _ hc, Res.ok_bind, h.mat.shaped.getRow hctx, Res.ok_bind, idx_of_lt _ _ hpos, Res.ok_bind, Res.bind_eq_ok] at hs
  obtain ⟨r, h1, h2⟩ := hs
  have hrl := h.mat.shaped.length_rowOf hctx
  refine Runs.ofRes_bind (idx_of_lt _ _ hc) (Runs.sliceP_bind hctx (Runs.ofRes_bind (idx_of_lt _ _ hpos) ?_))
  have hsrc : SrcAt sh.dim m (.row doc[c]) (st.param.rowOf doc[c]) :=
    ⟨hrl, fun i hi => by rw [h.mat.rowCell hctx (by omega), List.getElem?_eq_getElem]⟩
  rw [← h.next] at h1
  refine Runs.bind (hsim m us st.opt doc[pos] lr _ _ _ r hid h.opt hsrc (by simpa using ht) h1) ?_
  rintro t m1 us1 ⟨rfl, e2, e3, e4, rfl, e6⟩
  rw [if_neg (by omega), Res.bind_eq_ok] at h2
  obtain ⟨p', h3, h4⟩ := h2
  obtain rfl := Res.ok.inj h4
  have hmat1 : MatAt .param m1 st.param sh.rows sh.dim := ⟨h.mat.shaped, fun i hi j hj => by rw [e6]; exact h.mat.cell i hi j hj⟩
  refine Runs.bind (addRow_runs hmat1 hctx e2 h3) ?_
  rintro _ m2 us2 ⟨g1, g2, rfl, g4⟩
  exact Runs.ret ⟨rfl, e2, ⟨g1, hst _ _ _ (fun l hl _ => g4 l hl) e3, g2.trans e4⟩, rfl⟩

/-- skip-gram's step, running alone -/
theorem skipGram_runs (hst : ROStable RO) (hsim : OptimSim path sh.dim sh.rows RO optimP optim) (hdoc : ∀ id ∈ doc, id < sh.rows) (hpos : pos < doc.length)
    {st st' : StepSt O F} (h : StepAt sh RO m st.param st.opt st.rnd) (ht : st.tmp.length = sh.dim)
    (hs : skipGramOne optim sh.window doc pos lr st = .ok st') :
    (skipGramP sh optimP doc pos lr st.tmp).Runs path m us (fun _ m' us' => StepAt sh RO m' st'.param st'.opt st'.rnd ∧ us' = us) := by
  unfold skipGramOne at hs
  rw [Res.bind_eq_ok] at hs
  obtain ⟨⟨t, d⟩, h1, h2⟩ := hs
  dsimp only at h2
  unfold skipGramP
  refine Runs.nextRandomP_bind (s := t) (d := d) (by rw [h.next]; exact h1) ?_
  refine (windowLoopP_sim (s := (⟨st.param, st.opt, t, st.tmp⟩ : StepSt O F)) (fun (s : StepSt O F) (x : List F) m us' => x = s.tmp ∧ x.length = sh.dim ∧ StepAt sh RO m s.param s.opt s.rnd ∧ us' = us)
    ⟨rfl, ht, h.draw hst t, rfl⟩ h2 ?_).mono ?_
  · rintro c s x mx ux s1 hc ⟨rfl, e2, e3, rfl⟩ hs1
    exact skipGramBody_runs hst hsim hdoc hpos hc e3 e2 hs1
  · rintro x mx ux ⟨-, -, e3, e4⟩
    exact ⟨e3, e4⟩

theorem aggRow_runs {M : Matrix F} {r : Nat} (h : MatAt .param m M sh.rows sh.dim) (hr : r < sh.rows) {agg : List F} (ha : agg.length = sh.dim) :
    (forP sh.dim agg (fun i agg =>
      ofRes (idx agg i) >>= fun a => ld (.param r i) >>= fun x => ofRes (setIdx agg i (a +. x)))).Runs path m us
      (fun t m' us' => t = addF (M.rowOf r) agg ∧ t.length = sh.dim ∧ m' = m ∧ us' = us) := by
  have hrl := h.shaped.length_rowOf hr
  refine (Runs.forP_inv (fun i (t : List F) m' us' => t.length = sh.dim ∧
      (∀ j (hj : j < t.length), t[j] = if h : j < i ∧ j < sh.dim then agg[j]'(by omega) +. (M.rowOf r)[j]'(by omega) else agg[j]?.getD fzero) ∧ m' = m ∧ us' = us) ?_ ?_).mono ?_
  · refine ⟨ha, fun j hj => ?_, rfl, rfl⟩
    rw [dif_neg (by omega), List.getElem?_eq_getElem hj]; rfl
  · rintro i t m1 us1 hi ⟨e1, e2, rfl, rfl⟩
    refine Runs.ofRes_bind (idx_of_lt _ _ (by omega)) (Runs.ld_bind (h.rowCell hr (by omega)) (Runs.ofRes (setIdx_of_lt _ _ _ (by omega)) ⟨by simp [e1], ?_, rfl, rfl⟩))
    intro j hj
    rw [List.length_set] at hj
    rw [List.getElem_set]
    by_cases hij : i = j
    · subst hij
      rw [if_pos rfl, dif_pos ⟨by omega, hi⟩, e2 i hj, dif_neg (by omega), List.getElem?_eq_getElem (by omega)]; rfl
    · rw [if_neg hij, e2 j hj]
      by_cases hj2 : j < i ∧ j < sh.dim
      · rw [dif_pos hj2, dif_pos ⟨by omega, hj2.2⟩]
      · rw [dif_neg hj2, dif_neg (by omega)]
  · rintro t m1 us1 ⟨e1, e2, rfl, rfl⟩
    refine ⟨?_, e1, rfl, rfl⟩
    apply List.ext_getElem
    · unfold addF; rw [List.length_zipWith]; omega
    · intro j h1 h2
      rw [e2 j h1, dif_pos ⟨by omega, by omega⟩]
      simp [addF]

theorem cbowAgg_runs (hst : ROStable RO) (hdoc : ∀ id ∈ doc, id < sh.rows)
    {st s1 : CbowSt O F} (h : StepAt sh RO m st.param st.opt st.rnd) (ha : st.agg.length = sh.dim)
    (h1 : cbowAggregate sh.window doc pos { st with agg := st.agg.map (fun _ => fzero), tmp := st.tmp.map (fun _ => fzero) } = .ok s1) :
    (cbowAggregateP sh doc pos (st.agg.map (fun _ => fzero))).Runs path m us
      (fun x m' us' => x = s1.agg ∧ x.length = sh.dim ∧ s1.tmp = st.tmp.map (fun _ => fzero) ∧ StepAt sh RO m' s1.param s1.opt s1.rnd ∧ us' = us) := by
  unfold cbowAggregate at h1
  rw [Res.bind_eq_ok] at h1
  obtain ⟨⟨t, d⟩, h4, h5⟩ := h1
  dsimp only at h4 h5
  unfold cbowAggregateP
  refine Runs.nextRandomP_bind (s := t) (d := d) (by rw [h.next]; exact h4) ?_
  refine (windowLoopP_sim (fun (s : CbowSt O F) (x : List F) m us' => x = s.agg ∧ x.length = sh.dim ∧ s.tmp = st.tmp.map (fun _ => fzero) ∧ StepAt sh RO m s.param s.opt s.rnd ∧ us' = us)
    ⟨rfl, by simpa using ha, rfl, h.draw hst t, rfl⟩ h5 ?_)
  rintro c s x mx ux s2 hc ⟨rfl, e2, e3, e4, rfl⟩ hs2
  have hctx : doc[c] < sh.rows := hdoc _ (List.getElem_mem _)
  rw [idx_of_lt _ _ hc, Res.ok_bind, e4.mat.shaped.getRow hctx, Res.ok_bind, if_neg (by rw [e4.mat.shaped.length_rowOf hctx]; omega)] at hs2
  obtain rfl := Res.ok.inj hs2
  refine Runs.ofRes_bind (idx_of_lt _ _ hc) (Runs.sliceP_bind hctx ((aggRow_runs e4.mat hctx e2).mono ?_))
  rintro y my uy ⟨rfl, g2, rfl, rfl⟩
  exact ⟨rfl, g2, e3, e4, rfl⟩

/-- CBOW's step, running alone -/
theorem cbow_runs (hst : ROStable RO) (hsim : OptimSim path sh.dim sh.rows RO optimP optim) (hdoc : ∀ id ∈ doc, id < sh.rows) (hpos : pos < doc.length)
    {st st' : CbowSt O F} (h : StepAt sh RO m st.param st.opt st.rnd) (ha : st.agg.length = sh.dim) (ht : st.tmp.length = sh.dim)
    (hs : cbowOne optim sh.window doc pos lr st = .ok st') :
    (cbowP sh optimP doc pos lr st.agg st.tmp).Runs path m us (fun _ m' us' => StepAt sh RO m' st'.param st'.opt st'.rnd ∧ us' = us) := by
  have hid : doc[pos] < sh.rows := hdoc _ (List.getElem_mem _)
  unfold cbowOne at hs
  dsimp only at hs
  rw [Res.bind_eq_ok] at hs
  obtain ⟨s1, h1, hs⟩ := hs
  rw [idx_of_lt _ _ hpos, Res.ok_bind, Res.bind_eq_ok] at hs
  obtain ⟨r, h2, h3⟩ := hs
  unfold cbowP
  refine Runs.bind (Q := fun x m' us' => x = s1.agg ∧ x.length = sh.dim ∧ s1.tmp = st.tmp.map (fun _ => fzero) ∧ StepAt sh RO m' s1.param s1.opt s1.rnd ∧ us' = us) ?_ ?_
  · exact cbowAgg_runs hst hdoc h ha h1
  · rintro _ m1 us1 ⟨rfl, e2, e3, e4, rfl⟩
    refine Runs.ofRes_bind (idx_of_lt _ _ hpos) ?_
    rw [← e4.next, e3] at h2
    refine Runs.bind (hsim m1 us1 s1.opt doc[pos] lr (Src.buf s1.agg) s1.agg _ r hid e4.opt ⟨e2, rfl⟩ (by simpa using ht) h2) ?_
    rintro _ m2 us2 ⟨rfl, g2, g3, g4, rfl, g6⟩
    have hmat2 : MatAt .param m2 s1.param sh.rows sh.dim := ⟨e4.mat.shaped, fun i hi j hj => by rw [g6]; exact e4.mat.cell i hi j hj⟩
    have hst2 : StepAt sh RO m2 s1.param r.opt r.rnd := ⟨hmat2, g3, g4⟩
    unfold cbowUpdate at h3
    rw [Res.bind_eq_ok] at h3
    obtain ⟨⟨t', d'⟩, h6, h7⟩ := h3
    dsimp only at h6 h7
    refine Runs.bind (Q := fun _ m' us' => StepAt sh RO m' st'.param st'.opt st'.rnd ∧ us' = us2) ?_ ?_
    · unfold cbowUpdateP
      refine Runs.nextRandomP_bind (s := t') (d := d') (by rw [g4]; exact h6) ?_
      refine (windowLoopP_sim (fun (s : CbowSt O F) (_ : Unit) m us' => s.tmp = r.tmp ∧ StepAt sh RO m s.param s.opt s.rnd ∧ us' = us2)
        ⟨rfl, hst2.draw hst t', rfl⟩ h7 ?_).mono ?_
      · rintro c s x mx ux s3 hc ⟨k1, k2, rfl⟩ hs3
        have hctx : doc[c] < sh.rows := hdoc _ (List.getElem_mem _)
        rw [idx_of_lt _ _ hc, Res.ok_bind, k2.mat.shaped.getRow hctx, Res.ok_bind, k1, if_neg (by rw [k2.mat.shaped.length_rowOf hctx]; omega), Res.bind_eq_ok] at hs3
        obtain ⟨p', k3, k4⟩ := hs3
        obtain rfl := Res.ok.inj k4
        refine Runs.ofRes_bind (idx_of_lt _ _ hc) (Runs.sliceP_bind hctx ((addRow_runs k2.mat hctx g2 k3).mono ?_))
        rintro _ my uy ⟨l1, l2, rfl, l4⟩
        exact ⟨rfl, ⟨l1, hst _ _ _ (fun l hl _ => l4 l hl) k2.opt, l2.trans k2.next⟩, rfl⟩
      · rintro _ mx ux ⟨-, k2, k3⟩
        exact ⟨k2, k3⟩
    · rintro _ m3 us3 ⟨k1, k2⟩
      exact Runs.ret ⟨k1, k2⟩

/-- the memory and the inputs that are left hold the state of the sequential algorithm -/
structure W2VRel (sh : W2VShared F) (RO : Mem F → O → Prop) (rands lrs : Nat → F) (m : Mem F) (o : Ora F) (s : W2VSeqSt O F) : Prop where
  at' : StepAt sh RO m s.param s.opt s.rnd
  lr : ∀ n, o.lr n = lrs (s.nlr + n)
  rand : ∀ n, o.rand n = rands (s.nrand + n)

variable {rands lrs : Nat → F} {skip : Bool} {s s' : W2VSeqSt O F}

theorem w2vOne_runs (hst : ROStable RO) (hsim : OptimSim path sh.dim sh.rows RO optimP optim) (hdoc : ∀ id ∈ doc, id < sh.rows) (hpos : pos < doc.length)
    (h : W2VRel sh RO rands lrs m us s) (hs : w2vOne skip optim sh.window sh.dim doc pos lr s = .ok s') :
    (w2vTrainOneP sh skip optimP doc pos lr).Runs path m us (fun _ m' us' => W2VRel sh RO rands lrs m' us' s') := by
  unfold w2vOne at hs
  unfold w2vTrainOneP
  dsimp only at hs
  cases skip with
  | true =>
    simp only [if_true] at hs ⊢
    rw [Res.bind_eq_ok] at hs
    obtain ⟨t, h1, h2⟩ := hs
    obtain rfl := Res.ok.inj h2
    refine Runs.bind (skipGram_runs hst hsim hdoc hpos (st := ⟨s.param, s.opt, s.rnd, List.replicate sh.dim fzero⟩) h.at' (by simp) h1) ?_
    rintro _ m1 us1 ⟨e1, rfl⟩
    exact Runs.ret ⟨e1, h.lr, h.rand⟩
  | false =>
    simp only [Bool.false_eq_true, if_false] at hs ⊢
    rw [Res.bind_eq_ok] at hs
    obtain ⟨t, h1, h2⟩ := hs
    obtain rfl := Res.ok.inj h2
    refine Runs.bind (cbow_runs hst hsim hdoc hpos (st := ⟨s.param, s.opt, s.rnd, List.replicate sh.dim fzero, List.replicate sh.dim fzero⟩) h.at' (by simp) (by simp) h1) ?_
    rintro _ m1 us1 ⟨e1, rfl⟩
    exact Runs.ret ⟨e1, h.lr, h.rand⟩

/-- one position of a document -/
theorem w2vPos_runs (hst : ROStable RO) (hsim : OptimSim path sh.dim sh.rows RO optimP optim) (hdoc : ∀ id ∈ doc, id < sh.rows) {p : Nat} (hp : p < doc.length)
    {mx : Mem F} {ux : Ora F} {x x1 : W2VSeqSt O F} (hx : W2VRel sh RO rands lrs mx ux x)
    (hx1 : (idx doc p >>= fun id => trial sh.samples id (rands x.nrand) >>= fun ok =>
      if ok then w2vOne skip optim sh.window sh.dim doc p (lrs x.nlr) { x with nrand := x.nrand + 1, nlr := x.nlr + 1 }
      else .ok { x with nrand := x.nrand + 1 }) = .ok x1) :
    (ofRes (idx doc p) >>= fun id => trialP sh.samples id >>= fun ok =>
      if ok then ld .lr >>= fun lr => w2vTrainOneP sh skip optimP doc p lr else .ret () : Prog F Unit).Runs path mx ux
      (fun _ m' us' => W2VRel sh RO rands lrs m' us' x1) := by
  rw [idx_of_lt _ _ hp, Res.ok_bind, Res.bind_eq_ok] at hx1
  obtain ⟨ok, e1, e2⟩ := hx1
  refine Runs.ofRes_bind (idx_of_lt _ _ hp) ?_
  refine Runs.bind (Q := fun b m' us' => b = ok ∧ m' = mx ∧ us' = ux.dropRand) ?_ ?_
  · unfold trialP
    refine Runs.rand_bind (Runs.ofRes ?_ ⟨rfl, rfl, rfl⟩)
    rw [show ux.rand 0 = rands x.nrand from hx.rand 0]; exact e1
  · rintro b _ _ ⟨rfl, rfl, rfl⟩
    have hr : ∀ n, ux.dropRand.rand n = rands (x.nrand + 1 + n) := fun n => by show ux.rand (n + 1) = _; rw [hx.rand]; congr 1; omega
    cases b with
    | false => obtain rfl := Res.ok.inj e2; exact Runs.ret ⟨hx.at', hx.lr, hr⟩
    | true =>
      simp only [if_true] at e2 ⊢
      refine Runs.lr_bind ?_
      rw [show ux.dropRand.lr 0 = lrs x.nlr from hx.lr 0]
      refine w2vOne_runs hst hsim hdoc hp (s := { x with nrand := x.nrand + 1, nlr := x.nlr + 1 }) ⟨hx.at', fun n => ?_, hr⟩ e2
      show ux.lr (n + 1) = _
      rw [hx.lr]; congr 1; dsimp only; omega

/-- a worker of word2vec, running alone, computes `w2vDoc` -/
theorem w2vWorker_runs (hst : ROStable RO) (hsim : OptimSim path sh.dim sh.rows RO optimP optim) (hdoc : ∀ id ∈ doc, id < sh.rows)
    (h : W2VRel sh RO rands lrs m us s) (hs : w2vDoc skip optim sh.window sh.dim sh.samples rands lrs doc s = .ok s') :
    (w2vWorkerP sh skip optimP doc).Runs path m us (fun _ m' us' => W2VRel sh RO rands lrs m' us' s') := by
  unfold w2vDoc at hs
  unfold w2vWorkerP
  refine Runs.forP_sim (fun _ (x : W2VSeqSt O F) (_ : Unit) m' us' => W2VRel sh RO rands lrs m' us' x) hs h ?_
  rintro p x _ mx ux x1 hp hx hx1
  exact w2vPos_runs hst hsim hdoc hp hx hx1

/-- documents one after the other, when the sequential algorithm does not panic -/
theorem w2vSeq_runs (hst : ROStable RO) (hsim : OptimSim path sh.dim sh.rows RO optimP optim) (docs : List (List Nat)) (hdoc : ∀ d ∈ docs, ∀ id ∈ d, id < sh.rows)
    (h : W2VRel sh RO rands lrs m us s) (hs : w2vSeq skip optim sh.window sh.dim sh.samples rands lrs docs s = .ok s') :
    ∃ m' us', seqRun path (docs.map (w2vWorkerP sh skip optimP)) m us = .ok (m', us') ∧ W2VRel sh RO rands lrs m' us' s' := by
  induction docs generalizing m us s with
  | nil => unfold w2vSeq at hs; rw [forEach_nil] at hs; cases hs; exact ⟨m, us, rfl, h⟩
  | cons d docs ih =>
    unfold w2vSeq at hs
    rw [forEach_cons, Res.bind_eq_ok] at hs
    obtain ⟨s1, e1, e2⟩ := hs
    obtain ⟨_, m1, us1, e3, h3⟩ := w2vWorker_runs hst hsim (hdoc d (by simp)) h e1
    obtain ⟨m', us', e4, h4⟩ := ih (fun d hd => hdoc d (by simp [hd])) h3 e2
    refine ⟨m', us', ?_, h4⟩
    simp only [List.map_cons, seqRun]
    rw [e3, Res.ok_bind]; exact e4

end Wego
