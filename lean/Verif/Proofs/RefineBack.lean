import Verif.Proofs.RefineHs

/-! # When a worker that runs alone returns, the sequential algorithm does not panic

The converse of `Verif/Proofs/RefineStep.lean`: the only thing that can go wrong in a training step is a lookup in the sigmoid table, and it goes wrong in the
program exactly when it goes wrong in the sequential algorithm. -/

namespace Wego
open Prog Matrix
variable {F : Type} [GoFloat F] {path : Nat → List Nat} {m m' : Mem F} {us : Ora F} {α β : Type}

/-- the program, running alone, returns -/
def Prog.Ends (path : Nat → List Nat) (x : Prog F α) (m : Mem F) (us : Ora F) : Prop := ∃ r, x.run path m us = .ok r

namespace Prog.Ends

omit [GoFloat F] in
theorem bind' {x : Prog F α} {f : α → Prog F β} (h : (x >>= f).Ends path m us) :
    ∃ a m' us', x.run path m us = .ok (a, m', us') ∧ (f a).Ends path m' us' := by
  obtain ⟨r, h⟩ := h
  rw [run_bind, Res.bind_eq_ok] at h
  obtain ⟨⟨a, m', us'⟩, h1, h2⟩ := h
  exact ⟨a, m', us', h1, r, h2⟩

omit [GoFloat F] in
theorem left {x : Prog F α} {f : α → Prog F β} (h : (x >>= f).Ends path m us) : x.Ends path m us := by
  obtain ⟨a, m', us', h1, _⟩ := h.bind'
  exact ⟨_, h1⟩

omit [GoFloat F] in
theorem after {x : Prog F α} {f : α → Prog F β} {Q : α → Mem F → Ora F → Prop} (h : (x >>= f).Ends path m us) (hx : x.Runs path m us Q) :
    ∃ a m' us', Q a m' us' ∧ (f a).Ends path m' us' := by
  obtain ⟨a, m', us', h1, h2⟩ := h.bind'
  obtain ⟨b, m2, us2, h3, h4⟩ := hx
  rw [h1] at h3
  obtain ⟨rfl, h5⟩ := Prod.mk.inj (Res.ok.inj h3)
  obtain ⟨rfl, rfl⟩ := Prod.mk.inj h5
  exact ⟨a, m', us', h4, h2⟩

omit [GoFloat F] in
theorem ofRes' {x : Res α} (h : (Prog.ofRes x : Prog F α).Ends path m us) : ∃ a, x = .ok a := by
  obtain ⟨r, h⟩ := h
  cases x with
  | ok a => exact ⟨a, rfl⟩
  | err e => simp [Prog.ofRes, Prog.run] at h
  | panic p => simp [Prog.ofRes, Prog.run] at h

omit [GoFloat F] in
theorem ofRes_bind {x : Res α} {f : α → Prog F β} (h : (Prog.ofRes x >>= f).Ends path m us) : ∃ a, x = .ok a ∧ (f a).Ends path m us := by
  obtain ⟨a, rfl⟩ := h.left.ofRes'
  exact ⟨a, rfl, h⟩

omit [GoFloat F] in
theorem ofRes_ok {x : Res α} {a : α} {f : α → Prog F β} (h : (Prog.ofRes x >>= f).Ends path m us) (hx : x = .ok a) : (f a).Ends path m us := by
  subst hx; exact h

omit [GoFloat F] in
theorem sliceP_bind {rows dim id : Nat} (h : id < rows) {f : Nat → Prog F β} (hf : (sliceP rows dim id >>= f).Ends path m us) : (f id).Ends path m us := by
  have : sliceP (F := F) rows dim id = .ret id := by
    unfold sliceP
    have := row_bound (c := dim) h
    rw [if_pos ⟨by positivity, by push_cast; exact_mod_cast this⟩]; simp
  rw [this] at hf
  exact hf

theorem nextRandomP_bind {v : Int} {s : UInt64} {d : Int} (h : nextRandom m.next v = .ok (s, d)) {f : Int → Prog F β}
    (hf : (nextRandomP v >>= f).Ends path m us) : (f d).Ends path { m with next := s } us := by
  obtain ⟨a, m', us', ⟨rfl, rfl, rfl⟩, h2⟩ := hf.after (Q := fun b m' us' => b = d ∧ m' = { m with next := s } ∧ us' = us) (by
    obtain ⟨h0, h1, h2⟩ := nextRandom_ok h
    refine ⟨d, { m with next := s }, us, ?_, rfl, rfl, rfl⟩
    unfold nextRandomP
    rw [run_rnd rndStep _ _ h0, h1, h2])
  exact h2

omit [GoFloat F] in
theorem forFromP {σ τ : Type} (R : Nat → σ → τ → Mem F → Ora F → Prop) {g : Nat → τ → Prog F τ} {f : Nat → σ → Res σ} {n : Nat} {lo : Nat} {s : σ} {t : τ} (h0 : R lo s t m us)
    (hs : ∀ i s t m us s1, lo ≤ i → i < lo + n → R i s t m us → f i s = .ok s1 → (g i t).Runs path m us (fun t' m' us' => R (i + 1) s1 t' m' us'))
    (hb : ∀ i s t m us, lo ≤ i → i < lo + n → R i s t m us → (g i t).Ends path m us → ∃ s1, f i s = .ok s1)
    (h : (forFromP lo n t g).Ends path m us) : ∃ s', forFrom lo n s f = .ok s' := by
  induction n generalizing lo s t m us with
  | zero => exact ⟨s, rfl⟩
  | succ n ih =>
    unfold Wego.Prog.forFromP at h
    obtain ⟨s1, e1⟩ := hb lo s t m us (le_refl _) (by omega) h0 h.left
    obtain ⟨t', m', us', h1, h2⟩ := h.after (hs lo s t m us s1 (le_refl _) (by omega) h0 e1)
    rw [forFrom_succ, e1, Res.ok_bind]
    exact ih h1 (fun i s t m us s1 a b => hs i s t m us s1 (by omega) (by omega)) (fun i s t m us a b => hb i s t m us (by omega) (by omega)) h2

omit [GoFloat F] in
/-- a loop in lock-step with a loop of the sequential algorithm -/
theorem forP {σ τ : Type} (R : Nat → σ → τ → Mem F → Ora F → Prop) {g : Nat → τ → Prog F τ} {f : Nat → σ → Res σ} {n : Nat} {s : σ} {t : τ} (h0 : R 0 s t m us)
    (hs : ∀ i s t m us s1, i < n → R i s t m us → f i s = .ok s1 → (g i t).Runs path m us (fun t' m' us' => R (i + 1) s1 t' m' us'))
    (hb : ∀ i s t m us, i < n → R i s t m us → (g i t).Ends path m us → ∃ s1, f i s = .ok s1)
    (h : (forP n t g).Ends path m us) : ∃ s', forN n s f = .ok s' :=
  forFromP R h0 (fun i s t m us s1 _ b => hs i s t m us s1 (by omega)) (fun i s t m us _ b => hb i s t m us (by omega)) h

omit [GoFloat F] in
theorem windowLoopP {σ τ : Type} (R : σ → τ → Mem F → Ora F → Prop) {window del : Int} {pos len : Nat} {s : σ} {t : τ} {body : Nat → σ → Res σ}
    {bodyP : Nat → τ → Prog F τ} (h0 : R s t m us)
    (hs : ∀ c s t m us s1, c < len → R s t m us → body c s = .ok s1 → (bodyP c t).Runs path m us (R s1))
    (hb : ∀ c s t m us, c < len → R s t m us → (bodyP c t).Ends path m us → ∃ s1, body c s = .ok s1)
    (h : (windowLoopP window del pos len t bodyP).Ends path m us) : ∃ s', windowLoop window del pos len s body = .ok s' := by
  unfold windowLoop
  refine forP (fun _ s t m us => R s t m us) h0 ?_ ?_ h
  · intro i s t m us s1 _ hr hs1
    dsimp only at hs1 ⊢
    split
    · rename_i hw
      rw [if_pos hw] at hs1; cases hs1; exact Runs.ret hr
    · rename_i hw
      rw [if_neg hw] at hs1
      split
      · rename_i hc
        rw [if_pos hc] at hs1; cases hs1; exact Runs.ret hr
      · rename_i hc
        rw [if_neg hc] at hs1
        exact hs _ s t m us s1 (by push Not at hc; omega) hr hs1
  · intro i s t m us _ hr he
    dsimp only at he ⊢
    split
    · exact ⟨_, rfl⟩
    · rename_i hw
      rw [if_neg hw] at he
      split
      · exact ⟨_, rfl⟩
      · rename_i hc
        rw [if_neg hc] at he
        exact hb _ s t m us (by push Not at hc; omega) hr he

end Prog.Ends

/-! ## Optimizers -/

/-- when `optimP`, running alone, returns, `optim` does not panic -/
def OptimBack {O : Type} (path : Nat → List Nat) (dim words : Nat) (RO : Mem F → O → Prop) (optimP : OptimP F) (optim : Optim O F) : Prop :=
  ∀ (m : Mem F) (us : Ora F) (o : O) (id : Nat) (lr : F) (src : Src F) (ctx tmp : List F), id < words → RO m o → SrcAt dim m src ctx → tmp.length = dim →
    (optimP id lr src tmp).Ends path m us → ∃ r, optim o m.next id lr ctx tmp = .ok r

theorem nsPick_back (sh : W2VShared F) {M : Matrix F} (h : MatAt .ctx m M sh.rows sh.dim) {label : Int} {picked : Nat} (hp : picked < sh.rows) {lr : F} {src : Src F}
    {ctx tmp : List F} (hsrc : SrcAt sh.dim m src ctx) (ht : tmp.length = sh.dim) (he : (nsPickP sh label picked lr src tmp).Ends path m us) :
    ∃ r, nsPick sh.table label picked lr ctx M tmp = .ok r := by
  have hrl := h.shaped.length_rowOf hp
  unfold nsPickP at he
  obtain ⟨d, m1, us1, ⟨rfl, rfl, rfl⟩, h1⟩ := (he.sliceP_bind hp).after (dot_runs (x := M.rowOf picked) (y := ctx) hrl.ge hsrc.1.ge (Or.inl hrl.le) (by
    intro i h1 h2 f R hf
    exact Runs.ld_bind (h.rowCell hp h1) (hsrc.read h2 hf)))
  obtain ⟨g, hg, _⟩ := h1.ofRes_bind
  unfold nsPick
  rw [h.shaped.getRow hp, Res.ok_bind, if_neg (by rw [hrl, hsrc.1, ht]; simp), hg, Res.ok_bind]
  have hax : (axpyF g ctx (M.rowOf picked)).length = sh.dim := by unfold axpyF; rw [List.length_zipWith, hrl, hsrc.1]; simp
  obtain ⟨M2, e, _⟩ := h.shaped.setRow hp _ hax
  rw [e, Res.ok_bind]
  exact ⟨_, rfl⟩

theorem nsOptim_back (sh : W2VShared F) (hrows : sh.rows < 2 ^ 63) (size : Int) : OptimBack path sh.dim sh.rows (NsAt sh size) (nsOptimP sh size) NegSampling.optim := by
  intro m us o id lr src ctx tmp hid hro hsrc ht he
  obtain ⟨hmat, htab, hsize⟩ := hro
  unfold nsOptimP at he
  unfold NegSampling.optim
  rw [hsize]
  suffices key : ∃ s', forN (size + 1).toNat (o.ctx, m.next, tmp) (nsIter o.table id lr ctx) = .ok s' by
    obtain ⟨s', e⟩ := key
    rw [e, Res.ok_bind]; exact ⟨_, rfl⟩
  refine Prog.Ends.forP (fun _ (x : Matrix F × UInt64 × List F) t m' us' => t = x.2.2 ∧ t.length = sh.dim ∧ MatAt .ctx m' x.1 sh.rows sh.dim ∧ m'.next = x.2.1 ∧ us' = us ∧
      ∀ i j, m'.cell (.param i j) = m.cell (.param i j)) ⟨rfl, ht, hmat, rfl, rfl, fun _ _ => rfl⟩ ?_ ?_ he
  · rintro n ⟨M1, r1, t1⟩ t m1 us1 ⟨M2, r2, t2⟩ hn ⟨e1, e2, e3, e4, rfl, e6⟩ hs
    dsimp only at e1 e3 e4 ⊢
    subst e1
    have hs1 : SrcAt sh.dim m1 src ctx := hsrc.mono e6
    exact nsIter_runs sh hrows htab hid e2 e3 e4 hs1 e6 hs
  · rintro n ⟨M1, r1, t1⟩ t m1 us1 hn ⟨e1, e2, e3, e4, rfl, e6⟩ he
    dsimp only at e1 e3 e4 ⊢
    subst e1
    have hs1 : SrcAt sh.dim m1 src ctx := hsrc.mono e6
    unfold nsIter
    dsimp only
    by_cases h0 : n = 0
    · rw [if_pos h0] at he ⊢
      obtain ⟨r, e⟩ := nsPick_back sh e3 hid hs1 e2 he
      rw [htab, e, Res.ok_bind]
      exact ⟨_, rfl⟩
    · rw [if_neg h0] at he ⊢
      have hpos : 0 < sh.rows := by omega
      rw [e3.shaped.row, nextRandom_eq r1 sh.rows (by omega) (by omega), Res.ok_bind]
      have hm : (rndStep r1).toNat % ((sh.rows : Int).toNat) < sh.rows := by
        rw [Int.toNat_natCast]; exact Nat.mod_lt _ hpos
      have hnx : nextRandom m1.next sh.rows = .ok (rndStep r1, (((rndStep r1).toNat % ((sh.rows : Int).toNat) : Nat) : Int)) := by
        rw [e4, nextRandom_eq r1 sh.rows (by omega) (by omega)]
      have he := he.nextRandomP_bind hnx
      generalize (rndStep r1).toNat % ((sh.rows : Int).toNat) = q at he hm ⊢
      generalize rndStep r1 = rr at he ⊢
      dsimp only at he ⊢
      by_cases hq : (id : Int) = q
      · rw [if_pos hq]; exact ⟨_, rfl⟩
      · rw [if_neg hq] at he ⊢
        obtain ⟨r, e⟩ := nsPick_back sh (e3.next rr) hm (hs1.mono fun _ _ => rfl) e2 he
        rw [htab, e, Res.ok_bind]
        exact ⟨_, rfl⟩

theorem hsLoop_back (sh : W2VShared F) (t : TreeShape) (lr : F) {src : Src F} {ctx : List F} (L : List Nat) :
    ∀ {m : Mem F} {a : List (HNode F)} {tmp : List F}, ArenaAt t m a → SrcAt sh.dim m src ctx → tmp.length = sh.dim → (∀ p ∈ L, p < a.length) →
      (∀ j, t.vlen j ≤ sh.dim) → (hsLoopP sh t lr src L tmp).Ends path m us → ∃ r, hsLoop sh.table lr ctx L a tmp = .ok r := by
  induction L with
  | nil => intro m a tmp _ _ _ _ _ _; rw [hsLoop]; exact ⟨_, rfl⟩; all_goals simp
  | cons p L ih =>
    intro m a tmp ha hsrc ht hL hv he
    cases L with
    | nil => rw [hsLoop]; exact ⟨_, rfl⟩; all_goals simp
    | cons q L =>
      have hp := hL p (by simp)
      have hq := hL q (by simp)
      have hnp : a[p]? = some a[p] := List.getElem?_eq_getElem hp
      have hvec : (a[p]).vector.getD [] = vecOf a p := by unfold vecOf; rw [hnp]; rfl
      have hcode : (a[q]).code = t.code q := by rw [← ha.code q, List.getElem?_eq_getElem hq]; rfl
      have hlc : (vecOf a p).length ≤ ctx.length := by rw [hsrc.1, ha.vlen]; exact hv p
      have hlt : (vecOf a p).length ≤ tmp.length := by rw [ht, ha.vlen]; exact hv p
      rw [hsLoop, idx_of_lt _ _ hp, Res.ok_bind, idx_of_lt _ _ hq, Res.ok_bind]
      dsimp only
      rw [hvec, if_neg (by omega)]
      unfold hsLoopP at he
      rw [← ha.vlen p] at he
      obtain ⟨d, m1, us1, ⟨rfl, rfl, rfl⟩, he2⟩ := he.after (dot_runs (x := ctx) (y := vecOf a p) hlc (le_refl _) (Or.inr (le_refl _)) (by
        intro i h1 h2 f R hf
        exact hsrc.read h1 (Runs.ld_bind (ha.cell p i h2) hf)))
      split
      · exact ⟨_, rfl⟩
      · next hclip =>
        rw [if_neg hclip] at he2
        obtain ⟨s, hs, he3⟩ := he2.ofRes_bind
        rw [hs, Res.ok_bind, hcode]
        dsimp only at he3 ⊢
        generalize (GoFloat.ofRat 1 -. GoFloat.ofRat (t.code q : ℚ) -. s) *. lr = g at he3 ⊢
        obtain ⟨x, m2, us2, ⟨rfl, e2, rfl⟩, he4⟩ := he3.after (axpy_runs (loc := .node p) (fun i j e => by cases e; rfl) (by simp) (by simp) g hsrc (vec := vecOf a p) (tmp := tmp)
          (fun i hi => ha.cell p i hi) hlc hlt)
        obtain ⟨ha2, hvo, hpar⟩ := arena_update ha hnp g ctx hlc e2
        refine ih ha2 (hsrc.mono hpar) ?_ (fun r hr => by rw [hvo.length]; exact hL r (by simp [hr])) hv he4
        rw [List.length_append, List.length_drop]; unfold axpyF; rw [List.length_zipWith, List.length_take]; omega

theorem hsOptim_back (a0 : List (HNode F)) (sh : W2VShared F) (t : TreeShape) (depth : Int) (hd : 0 ≤ depth) (full : Nat → List Nat)
    (hfull : ∀ i < t.words, followParents a0 (a0.length + 1) (some i) = some (full i).reverse)
    (hflt : ∀ i < t.words, ∀ p ∈ full i, p < a0.length) (hv : ∀ j, t.vlen j ≤ sh.dim)
    (hpath : ∀ i < t.words, path i = (full i).take depth.toNat) :
    OptimBack path sh.dim t.words (HsAt a0 sh t depth full) (hsOptimP sh t) HierSoftmax.optim := by
  rintro m us o id lr src ctx tmp hid ⟨h1, h2⟩ hsrc ht he
  obtain ⟨a1, e1, h3, e2, e3⟩ := h1.getPath hd hfull hid
  have ha1 : ArenaAt t m a1 := ⟨fun n => by rw [e2]; exact h2.vlen n, fun n => by rw [e3]; exact h2.code n, fun n j hj => by
    have := e2 n
    have hj' : j < (vecOf o.arena n).length := by rw [← this]; exact hj
    rw [h2.cell n j hj']
    simp only [this]⟩
  unfold hsOptimP at he
  rw [if_pos ⟨by omega, by omega⟩] at he
  have he' : (hsLoopP sh t lr src ((full id).take depth.toNat) tmp).Ends path m us := by
    obtain ⟨r, he⟩ := he
    rw [Prog.run, Int.toNat_natCast, hpath id hid] at he
    exact ⟨r, he⟩
  obtain ⟨r, e⟩ := hsLoop_back sh t lr _ ha1 hsrc ht (fun p hp => by
    rw [show a1.length = a0.length from h3.length]; exact hflt id hid p (List.mem_of_mem_take hp)) hv he'
  unfold HierSoftmax.optim idxI
  have hi : idx (List.range t.words) ((id : Int)).toNat = .ok id := by rw [idx_eq_ok]; simp [hid]
  rw [if_neg (by omega), h1.nodeset, hi, Res.ok_bind, h1.depth, e1]
  dsimp only
  rw [Res.ok_bind, h1.table, e]
  exact ⟨_, rfl⟩

/-! ## Training steps -/

variable {O : Type} {sh : W2VShared F} {RO : Mem F → O → Prop} {optimP : OptimP F} {optim : Optim O F} {doc : List Nat} {pos : Nat} {lr : F}

theorem skipGramBody_back (hsim : OptimSim path sh.dim sh.rows RO optimP optim) (hback : OptimBack path sh.dim sh.rows RO optimP optim)
    (hdoc : ∀ id ∈ doc, id < sh.rows) (hpos : pos < doc.length)
    {c : Nat} (hc : c < doc.length) {st : StepSt O F} (h : StepAt sh RO m st.param st.opt st.rnd) (ht : st.tmp.length = sh.dim)
    (he : (ofRes (idx doc c) >>= fun ctxID =>
      sliceP sh.rows sh.dim ctxID >>= fun r =>
      ofRes (idx doc pos) >>= fun id =>
      optimP id lr (.row r) (st.tmp.map (fun _ => fzero)) >>= fun tmp =>
      addRowP sh.dim r tmp >>= fun _ => .ret tmp : Prog F (List F)).Ends path m us) :
    ∃ st', skipGramBody optim doc pos lr c st = .ok st' := by
  have hid : doc[pos] < sh.rows := hdoc _ (List.getElem_mem _)
  have hctx : doc[c] < sh.rows := hdoc _ (List.getElem_mem _)
  have hrl := h.mat.shaped.length_rowOf hctx
  have hsrc : SrcAt sh.dim m (.row doc[c]) (st.param.rowOf doc[c]) :=
    ⟨hrl, fun i hi => by rw [h.mat.rowCell hctx (by omega), List.getElem?_eq_getElem]⟩
  have he := ((he.ofRes_ok (idx_of_lt _ _ hc)).sliceP_bind hctx).ofRes_ok (idx_of_lt _ _ hpos)
  obtain ⟨r, e⟩ := hback m us st.opt doc[pos] lr _ _ _ hid h.opt hsrc (by simpa using ht) he.left
  obtain ⟨x, _, _, _, e1, e2, _⟩ := hsim m us st.opt doc[pos] lr _ _ _ r hid h.opt hsrc (by simpa using ht) e
  unfold skipGramBody
  dsimp only
  rw [idx_of_lt _ _ hc, Res.ok_bind, h.mat.shaped.getRow hctx, Res.ok_bind, idx_of_lt _ _ hpos, Res.ok_bind, ← h.next, e, Res.ok_bind]
  have hrt : r.tmp.length = sh.dim := by
    rw [← e1]; exact e2
  rw [if_neg (by omega)]
  obtain ⟨M2, e3, _⟩ := h.mat.shaped.setRow hctx (addF r.tmp (st.param.rowOf doc[c])) (by unfold addF; rw [List.length_zipWith]; omega)
  rw [e3]
  exact ⟨_, rfl⟩

theorem skipGram_back (hw : 1 ≤ sh.window ∧ sh.window < 2 ^ 62) (hst : ROStable RO) (hsim : OptimSim path sh.dim sh.rows RO optimP optim)
    (hback : OptimBack path sh.dim sh.rows RO optimP optim) (hdoc : ∀ id ∈ doc, id < sh.rows) (hpos : pos < doc.length)
    {st : StepSt O F} (h : StepAt sh RO m st.param st.opt st.rnd) (ht : st.tmp.length = sh.dim)
    (he : (skipGramP sh optimP doc pos lr st.tmp).Ends path m us) : ∃ st', skipGramOne optim sh.window doc pos lr st = .ok st' := by
  unfold skipGramP at he
  unfold skipGramOne
  have hn : ∃ x, nextRandom st.rnd sh.window = .ok x := by rw [nextRandom_eq _ _ (by omega) (by omega)]; exact ⟨_, rfl⟩
  obtain ⟨⟨t, d⟩, hn⟩ := hn
  rw [hn, Res.ok_bind]
  refine Prog.Ends.windowLoopP (s := (⟨st.param, st.opt, t, st.tmp⟩ : StepSt O F)) (fun (s : StepSt O F) (x : List F) m us' => x = s.tmp ∧ x.length = sh.dim ∧ StepAt sh RO m s.param s.opt s.rnd ∧ us' = us)
    ⟨rfl, ht, h.draw hst t, rfl⟩ ?_ ?_ (he.nextRandomP_bind (by rw [h.next]; exact hn))
  · rintro c s x mx ux s1 hc ⟨rfl, e2, e3, rfl⟩ hs1
    exact skipGramBody_runs hst hsim hdoc hpos hc e3 e2 hs1
  · rintro c s x mx ux hc ⟨rfl, e2, e3, rfl⟩ he
    exact skipGramBody_back hsim hback hdoc hpos hc e3 e2 he

theorem cbow_back (hw : 1 ≤ sh.window ∧ sh.window < 2 ^ 62) (hst : ROStable RO) (hsim : OptimSim path sh.dim sh.rows RO optimP optim)
    (hback : OptimBack path sh.dim sh.rows RO optimP optim) (hdoc : ∀ id ∈ doc, id < sh.rows) (hpos : pos < doc.length)
    {st : CbowSt O F} (h : StepAt sh RO m st.param st.opt st.rnd) (ha : st.agg.length = sh.dim) (ht : st.tmp.length = sh.dim)
    (he : (cbowP sh optimP doc pos lr st.agg st.tmp).Ends path m us) : ∃ st', cbowOne optim sh.window doc pos lr st = .ok st' := by
  have hid : doc[pos] < sh.rows := hdoc _ (List.getElem_mem _)
  have draw : ∀ rnd : UInt64, ∃ t d, nextRandom rnd sh.window = .ok (t, d) := by
    intro rnd; rw [nextRandom_eq _ _ (by omega) (by omega)]; exact ⟨_, _, rfl⟩
  unfold cbowP at he
  unfold cbowOne
  dsimp only
  -- the aggregation
  obtain ⟨t, d, hn⟩ := draw st.rnd
  have hagg : ∃ s1, cbowAggregate sh.window doc pos { st with agg := st.agg.map (fun _ => fzero), tmp := st.tmp.map (fun _ => fzero) } = .ok s1 := by
    have he1 := he.left
    unfold cbowAggregateP at he1
    unfold cbowAggregate
    dsimp only
    rw [hn, Res.ok_bind]
    refine Prog.Ends.windowLoopP (fun (s : CbowSt O F) (x : List F) m us' => x = s.agg ∧ x.length = sh.dim ∧ StepAt sh RO m s.param s.opt s.rnd ∧ us' = us)
      ⟨rfl, by simpa using ha, h.draw hst t, rfl⟩ ?_ ?_ (he1.nextRandomP_bind (by rw [h.next]; exact hn))
    · rintro c s x mx ux s2 hc ⟨rfl, e2, e4, rfl⟩ hs2
      have hctx : doc[c] < sh.rows := hdoc _ (List.getElem_mem _)
      rw [idx_of_lt _ _ hc, Res.ok_bind, e4.mat.shaped.getRow hctx, Res.ok_bind, if_neg (by rw [e4.mat.shaped.length_rowOf hctx]; omega)] at hs2
      obtain rfl := Res.ok.inj hs2
      refine Runs.ofRes_bind (idx_of_lt _ _ hc) (Runs.sliceP_bind hctx ((aggRow_runs e4.mat hctx e2).mono ?_))
      rintro y my uy ⟨rfl, g2, rfl, rfl⟩
      exact ⟨rfl, g2, e4, rfl⟩
    · rintro c s x mx ux hc ⟨rfl, e2, e4, rfl⟩ _
      have hctx : doc[c] < sh.rows := hdoc _ (List.getElem_mem _)
      rw [idx_of_lt _ _ hc, Res.ok_bind, e4.mat.shaped.getRow hctx, Res.ok_bind, if_neg (by rw [e4.mat.shaped.length_rowOf hctx]; omega)]
      exact ⟨_, rfl⟩
  obtain ⟨s1, h1⟩ := hagg
  rw [h1, Res.ok_bind, idx_of_lt _ _ hpos, Res.ok_bind]
  obtain ⟨_, m1, us1, ⟨rfl, e2, e3, e4, rfl⟩, he1⟩ := he.after (cbowAgg_runs hst hdoc h ha h1)
  have he2 := he1.ofRes_ok (idx_of_lt _ _ hpos)
  obtain ⟨r, e5⟩ := hback m1 us1 s1.opt doc[pos] lr (Src.buf s1.agg) s1.agg _ hid e4.opt ⟨e2, rfl⟩ (by simpa using ht) he2.left
  rw [← e4.next, e3, e5, Res.ok_bind]
  obtain ⟨_, m2, us2, ⟨rfl, g2, g3, g4, rfl, g6⟩, he3⟩ := he2.after (hsim m1 us1 s1.opt doc[pos] lr (Src.buf s1.agg) s1.agg _ r hid e4.opt ⟨e2, rfl⟩ (by simpa using ht) e5)
  have hmat2 : MatAt .param m2 s1.param sh.rows sh.dim := ⟨e4.mat.shaped, fun i hi j hj => by rw [g6]; exact e4.mat.cell i hi j hj⟩
  have hst2 : StepAt sh RO m2 s1.param r.opt r.rnd := ⟨hmat2, g3, g4⟩
  obtain ⟨t', d', hn'⟩ := draw r.rnd
  unfold cbowUpdate
  dsimp only
  rw [hn', Res.ok_bind]
  have he4 := he3.left
  unfold cbowUpdateP at he4
  refine Prog.Ends.windowLoopP (fun (s : CbowSt O F) (_ : Unit) m us' => s.tmp = r.tmp ∧ StepAt sh RO m s.param s.opt s.rnd ∧ us' = us2)
    ⟨rfl, hst2.draw hst t', rfl⟩ ?_ ?_ (he4.nextRandomP_bind (by rw [g4]; exact hn'))
  · rintro c s x mx ux s3 hc ⟨k1, k2, rfl⟩ hs3
    have hctx : doc[c] < sh.rows := hdoc _ (List.getElem_mem _)
    rw [idx_of_lt _ _ hc, Res.ok_bind, k2.mat.shaped.getRow hctx, Res.ok_bind, k1, if_neg (by rw [k2.mat.shaped.length_rowOf hctx]; omega), Res.bind_eq_ok] at hs3
    obtain ⟨p', k3, k4⟩ := hs3
    obtain rfl := Res.ok.inj k4
    refine Runs.ofRes_bind (idx_of_lt _ _ hc) (Runs.sliceP_bind hctx ((addRow_runs k2.mat hctx g2 k3).mono ?_))
    rintro _ my uy ⟨l1, l2, rfl, l4⟩
    exact ⟨rfl, ⟨l1, hst _ _ _ (fun l hl _ => l4 l hl) k2.opt, l2.trans k2.next⟩, rfl⟩
  · rintro c s x mx ux hc ⟨k1, k2, rfl⟩ _
    have hctx : doc[c] < sh.rows := hdoc _ (List.getElem_mem _)
    have hrl := k2.mat.shaped.length_rowOf hctx
    rw [idx_of_lt _ _ hc, Res.ok_bind, k2.mat.shaped.getRow hctx, Res.ok_bind, k1, if_neg (by omega)]
    obtain ⟨M2, e3, _⟩ := k2.mat.shaped.setRow hctx (addF r.tmp (s.param.rowOf doc[c])) (by unfold addF; rw [List.length_zipWith]; omega)
    rw [e3]
    exact ⟨_, rfl⟩

variable {rands lrs : Nat → F} {skip : Bool} {s : W2VSeqSt O F}

theorem w2vOne_back (hw : 1 ≤ sh.window ∧ sh.window < 2 ^ 62) (hst : ROStable RO) (hsim : OptimSim path sh.dim sh.rows RO optimP optim)
    (hback : OptimBack path sh.dim sh.rows RO optimP optim) (hdoc : ∀ id ∈ doc, id < sh.rows) (hpos : pos < doc.length)
    (h : W2VRel sh RO rands lrs m us s) (he : (w2vTrainOneP sh skip optimP doc pos lr).Ends path m us) :
    ∃ s', w2vOne skip optim sh.window sh.dim doc pos lr s = .ok s' := by
  unfold w2vOne
  unfold w2vTrainOneP at he
  dsimp only
  cases skip with
  | true =>
    simp only [if_true] at he ⊢
    obtain ⟨t, e⟩ := skipGram_back hw hst hsim hback hdoc hpos (st := ⟨s.param, s.opt, s.rnd, List.replicate sh.dim fzero⟩) h.at' (by simp) he.left
    rw [e]; exact ⟨_, rfl⟩
  | false =>
    simp only [Bool.false_eq_true, if_false] at he ⊢
    obtain ⟨t, e⟩ := cbow_back hw hst hsim hback hdoc hpos (st := ⟨s.param, s.opt, s.rnd, List.replicate sh.dim fzero, List.replicate sh.dim fzero⟩) h.at' (by simp) (by simp) he.left
    rw [e]; exact ⟨_, rfl⟩

theorem w2vWorker_back (hw : 1 ≤ sh.window ∧ sh.window < 2 ^ 62) (hst : ROStable RO) (hsim : OptimSim path sh.dim sh.rows RO optimP optim)
    (hback : OptimBack path sh.dim sh.rows RO optimP optim) (hsam : sh.samples.length = sh.rows) (hdoc : ∀ id ∈ doc, id < sh.rows)
    (h : W2VRel sh RO rands lrs m us s) (he : (w2vWorkerP sh skip optimP doc).Ends path m us) :
    ∃ s', w2vDoc skip optim sh.window sh.dim sh.samples rands lrs doc s = .ok s' := by
  unfold w2vDoc
  unfold w2vWorkerP at he
  refine Prog.Ends.forP (fun _ (x : W2VSeqSt O F) (_ : Unit) m' us' => W2VRel sh RO rands lrs m' us' x) h ?_ ?_ he
  · rintro p x _ mx ux x1 hp hx hx1
    exact w2vPos_runs hst hsim hdoc hp hx hx1
  · rintro p x _ mx ux hp hx he
    have he1 := he.ofRes_ok (idx_of_lt _ _ hp)
    have hid : doc[p] < sh.samples.length := by rw [hsam]; exact hdoc _ (List.getElem_mem _)
    obtain ⟨b, hb⟩ : ∃ b, trial sh.samples doc[p] (rands x.nrand) = .ok b := by
      unfold trial idxI
      rw [if_neg (by omega), Int.toNat_natCast, idx_of_lt _ _ hid]
      exact ⟨_, rfl⟩
    rw [idx_of_lt _ _ hp, Res.ok_bind, hb, Res.ok_bind]
    obtain ⟨b', m', us', ⟨hb', hm', hu'⟩, he2⟩ := he1.after (Q := fun b' m' us' => b' = b ∧ m' = mx ∧ us' = ux.dropRand) (by
      unfold trialP
      refine Runs.rand_bind (Runs.ofRes ?_ ⟨rfl, rfl, rfl⟩)
      rw [show ux.rand 0 = rands x.nrand from hx.rand 0]; exact hb)
    rw [hb', hm', hu'] at he2
    clear hb' hb hm' hu'
    cases b with
    | false => exact ⟨_, rfl⟩
    | true =>
      simp only [if_true] at he2 ⊢
      have hr : ∀ n, ux.dropRand.rand n = rands (x.nrand + 1 + n) := fun n => by show ux.rand (n + 1) = _; rw [hx.rand]; congr 1; omega
      obtain ⟨b', m', us', ⟨hb', hm', hu'⟩, he3⟩ := he2.after (Q := fun b' m' us' => b' = ux.dropRand.lr 0 ∧ m' = mx ∧ us' = ux.dropRand.dropLr)
        ⟨_, mx, _, by simp only [ld, Prog.run, if_true], rfl, rfl, rfl⟩
      rw [hb', hm', hu', show ux.dropRand.lr 0 = lrs x.nlr from hx.lr 0] at he3
      refine w2vOne_back hw hst hsim hback hdoc hp (lrs := lrs) (us := ux.dropRand.dropLr) (s := { x with nrand := x.nrand + 1, nlr := x.nlr + 1 }) ⟨hx.at', fun n => ?_, fun n => hr n⟩ he3
      show ux.lr (n + 1) = _
      rw [hx.lr]; congr 1; dsimp only; omega

theorem w2vSeq_back (hw : 1 ≤ sh.window ∧ sh.window < 2 ^ 62) (hst : ROStable RO) (hsim : OptimSim path sh.dim sh.rows RO optimP optim)
    (hback : OptimBack path sh.dim sh.rows RO optimP optim) (hsam : sh.samples.length = sh.rows) (docs : List (List Nat)) (hdoc : ∀ d ∈ docs, ∀ id ∈ d, id < sh.rows)
    (h : W2VRel sh RO rands lrs m us s) (he : ∃ r, seqRun path (docs.map (w2vWorkerP sh skip optimP)) m us = .ok r) :
    ∃ s', w2vSeq skip optim sh.window sh.dim sh.samples rands lrs docs s = .ok s' := by
  induction docs generalizing m us s with
  | nil => exact ⟨s, rfl⟩
  | cons d docs ih =>
    simp only [List.map_cons, seqRun] at he
    obtain ⟨r, he⟩ := he
    rw [Res.bind_eq_ok] at he
    obtain ⟨⟨_, m1, us1⟩, he1, he2⟩ := he
    obtain ⟨s1, e1⟩ := w2vWorker_back hw hst hsim hback hsam (hdoc d (by simp)) h ⟨_, he1⟩
    obtain ⟨_, m2, us2, e3, h3⟩ := w2vWorker_runs hst hsim (hdoc d (by simp)) h e1
    rw [he1] at e3
    obtain ⟨-, e4⟩ := Prod.mk.inj (Res.ok.inj e3)
    obtain ⟨rfl, rfl⟩ := Prod.mk.inj e4
    unfold w2vSeq
    rw [forEach_cons, e1, Res.ok_bind]
    exact ih (fun d hd => hdoc d (by simp [hd])) h3 ⟨_, he2⟩

end Wego
