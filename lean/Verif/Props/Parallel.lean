import Verif.Proofs.Disjoint
import Verif.Props.OneGoroutine
import Verif.Props.TrainOk

/-! # C91: parallel GloVe training and the sequential algorithm

`GloveTrain (MemEnv.sc ..)` quantifies over all schedules of single loads and stores. With one goroutine every one of them gives the result of the sequential
algorithm: all the items one after the other, each of their two steps indivisible (`C75_train_*`). With several goroutines the result need not be that of any order of the
steps (`C91_refuted` in `Verif/Props/ParallelRace.lean`), but it is that of some order of the slices whenever goroutines that run at the same time have no common
variables (`C91_*_partial`). -/

namespace Wego.Props
open Wego Wego.Matrix Wego.Prog Spec
variable {F : Type} {σ S : Type} {path : Nat → List Nat}

theorem workers_seq [GoFloat F] (Rel : Mem F → S → Prop) (stepP : Int → Int → F → F → Prog F Unit) (step : Int → Int → S → F → F → Res S) (len : Nat)
    (hstep : ∀ (a b : Nat) (m : Mem F) us s s' f coef, a < len * 2 → b < len * 2 → Rel m s → step a b s f coef = .ok s' →
      (stepP a b f coef).Runs path m us (fun _ m' us' => Rel m' s' ∧ us' = us))
    (slices : List (List (GItem F))) (hit : ∀ sl ∈ slices, ∀ it ∈ sl, ItemOK len it) {m : Mem F} {s s' : S} (h : Rel m s)
    (hs : forEach slices.flatten s (fun it s => gloveTurn step len it s) = .ok s') (o : Ora F) :
    ∃ m', seqRun path (slices.map (gloveWorkerP stepP len)) m o = .ok (m', o) ∧ Rel m' s' := by
  induction slices generalizing m s with
  | nil => cases hs; exact ⟨m, rfl, h⟩
  | cons sl slices ih =>
    rw [List.flatten_cons, forEach_append, Res.bind_eq_ok] at hs
    obtain ⟨s1, e1, e2⟩ := hs
    obtain ⟨_, m1, o1, r1, hm1, ho1⟩ := gloveWorker_runs (us := o) Rel stepP step len hstep sl (hit sl (by simp)) h e1
    obtain ⟨m2, r2, h2⟩ := ih (fun sl hsl => hit sl (by simp [hsl])) hm1 e2
    rw [ho1] at r1
    refine ⟨m2, ?_, h2⟩
    rw [List.map_cons, seqRun, r1, Res.ok_bind]
    exact r2

theorem rounds_seq (Rel : Mem F → S → Prop) (f : S → Res S) (xs : List (Prog F Unit))
    (hx : ∀ m s s', Rel m s → f s = .ok s' → ∀ o : Ora F, ∃ m', seqRun path xs m o = .ok (m', o) ∧ Rel m' s') (n : Nat) {m : Mem F} {s s' : S}
    (h : Rel m s) (hs : forN n s (fun _ s => f s) = .ok s') (o : Ora F) :
    ∃ m', seqRun path (List.replicate n xs).flatten m o = .ok (m', o) ∧ Rel m' s' := by
  unfold forN at hs
  generalize 0 = lo at hs
  induction n generalizing m s lo with
  | zero => cases hs; exact ⟨m, rfl, h⟩
  | succ n ih =>
    rw [forFrom_succ, Res.bind_eq_ok] at hs
    obtain ⟨s1, e1, e2⟩ := hs
    obtain ⟨m1, r1, h1⟩ := hx m s s1 h e1 o
    obtain ⟨m2, r2, h2⟩ := ih h1 (lo + 1) e2
    refine ⟨m2, ?_, h2⟩
    rw [List.replicate_succ, List.flatten_cons, seqRun_append, r1, Res.ok_bind]
    exact r2

section
variable [GoMath F] (lower : Word → Word) (enum : GoMap (BitVec 64) F → List (BitVec 64 × F)) (henum : ∀ m, (enum m).Perm m)
  (r : σ → F × σ) (o : GloveOptions F) (hdim : 0 ≤ o.dim) (hwin : o.docInMemory = true ∨ 1 ≤ o.window)
  (p : Pass) (ws : List Word) (h : Readable p ws) (hne : o.docInMemory = true ∨ ws ≠ [])
  (hdic : (ws.map (o.corpus lower).norm).dedup.length ≤ 2 ^ 32) (hg : 1 ≤ o.goroutines)
  (s s' : σ) (M : GloveModel F) (hM : gloveSetup lower r o p p s = .ok (M, s'))
  (slices : List (List (GItem F))) (hs : gloveSlices M o enum = .ok slices) (hd : slices.Pairwise NoSharedWord)
  (rand : F → Prop) (hv : ∃ v, rand v) (next : UInt64)
include henum hwin h hne hdic hg hM hs hd hv

/-- the common part: any state `S` related to the memory -/
theorem glove_disjoint (Rel : Mem F → S → Prop) (step : Int → Int → S → F → F → Res S)
    (hstep : ∀ (a b : Nat) (m : Mem F) us s s' f coef, a < M.corpus.dic.len * 2 → b < M.corpus.dic.len * 2 → Rel m s → step a b s f coef = .ok s' →
      (M.step o a b f coef).Runs path m us (fun _ m' us' => Rel m' s' ∧ us' = us))
    {a a' : S} (ha : Rel (M.mem next) a)
    (hf : forN o.iter.toNat a (fun _ a => forEach slices.flatten a (fun it a => gloveTurn step M.corpus.dic.len it a)) = .ok a') :
    (∃ mem, Pool.Iters (MemEnv.sc rand (fun id q => q = path id)) o.goroutines.toNat (M.mem next) [] (List.replicate o.iter.toNat (gloveIter M o slices)) mem) ∧
    (∀ res, GloveTrain (MemEnv.sc rand (fun id q => q = path id)) lower enum r o p s next res ↔
      ∃ mem, res = .ok (M.after o mem) ∧ Rel mem a' ∧
        Pool.Iters (MemEnv.sc rand (fun id q => q = path id)) o.goroutines.toNat (M.mem next) [] (List.replicate o.iter.toNat (gloveIter M o slices)) mem) := by
  have hit := gloveSlices_ok lower r o hwin p ws h hne hdic s s' M hM enum henum slices hs
  have hok := gloveRound_ok M o slices hit (MemEnv.sc rand (fun id q => q = path id))
  have hrounds : ∀ q ∈ List.replicate o.iter.toNat (gloveIter M o slices), q.1.Ok (MemEnv.sc rand (fun id q => q = path id)) (fun _ => True) (fun _ => False) (fun _ => True) ∧
      ∀ t ∈ q.2, t.Ok (MemEnv.sc rand (fun id q => q = path id)) (fun _ => True) (fun _ => False) (fun _ => True) := by
    intro q hq
    rw [List.eq_of_mem_replicate hq]
    exact ⟨trivial, fun t ht => (hok t ht).mono (fun _ _ => trivial) (fun _ h => h)⟩
  have hdj := gloveWorkers_disj M o slices hit hd
  have final : ∀ mem, Pool.Iters (MemEnv.sc rand (fun id q => q = path id)) o.goroutines.toNat (M.mem next) [] (List.replicate o.iter.toNat (gloveIter M o slices)) mem →
      Rel mem a' := by
    intro mem hi
    obtain ⟨v, _⟩ := hv
    have e1 := iters_disj hi (by simp) (by
      intro q hq
      rw [List.eq_of_mem_replicate hq]
      exact ⟨rfl, hdj⟩) ⟨fun _ => v, fun _ => v⟩
    obtain ⟨m2, e2, h2⟩ := rounds_seq (path := path) Rel _ (slices.map (gloveWorkerP (M.step o) M.corpus.dic.len))
      (fun m s s' hr hf o => workers_seq Rel _ step M.corpus.dic.len hstep slices hit hr hf o) o.iter.toNat ha hf ⟨fun _ => v, fun _ => v⟩
    rw [List.map_replicate] at e1
    unfold gloveIter at e1
    rw [e1] at e2
    have := Res.ok.inj e2
    simp only [Prod.mk.injEq, and_true] at this
    rw [this]
    exact h2
  refine ⟨iters_exist (MemEnv.sc_total hv path) (by omega) _ _ _ (fun q hq => (hrounds q hq).2), fun res => ⟨?_, ?_⟩⟩
  · intro ht
    cases ht with
    | setupErr e h => rw [hM] at h; cases h
    | setupPanic x h => rw [hM] at h; cases h
    | slicePanic M' s'' x h hd => rw [hM] at h; cases h; rw [hs] at hd; cases hd
    | panics M' s'' sl x h hd hi =>
      rw [hM] at h; cases h; rw [hs] at hd; cases hd
      exact absurd hi (Pool.no_panic (by simp) hrounds)
    | done M' s'' sl mem h hd hi =>
      rw [hM] at h; cases h; rw [hs] at hd; cases hd
      exact ⟨mem, rfl, final mem hi, hi⟩
  · rintro ⟨mem, rfl, _, hi⟩
    exact .done M s' slices mem hM hs hi

include hdim

/-- If no two goroutines have a word in common, then - whatever the schedule - `Train` gives exactly the result of the sequential algorithm
(`Iter` times: every item in order, both steps, each indivisible), and no other result. -/
theorem glove_disjoint_sgd (hgr : M.gradsq = none) :
    ∃ m', forN o.iter.toNat M.param (fun _ m => sgdTrain o.initlr M.corpus.dic.len slices.flatten m) = .ok m' ∧
      ∀ res, GloveTrain (MemEnv.sc rand (fun id q => q = path id)) lower enum r o p s next res ↔ res = .ok { M with param := m' } := by
  obtain ⟨dim, hdim⟩ := Int.eq_ofNat_of_zero_le hdim
  obtain ⟨_, hp, _⟩ := C72_glove_shapes lower r o dim hdim hwin p ws h s s' M hM
  have hit := gloveSlices_ok lower r o hwin p ws h hne hdic s s' M hM enum henum slices hs
  have hit' : ∀ it ∈ slices.flatten, ItemOK M.corpus.dic.len it := by
    intro it hi
    obtain ⟨sl, h1, h2⟩ := List.mem_flatten.1 hi
    exact hit sl h1 it h2
  obtain ⟨m', e, hp'⟩ := forN_inv (fun _ m => Shaped m (M.corpus.dic.len * 2) (dim + 1)) o.iter.toNat M.param
    (fun _ m => sgdTrain o.initlr M.corpus.dic.len slices.flatten m) hp (fun _ m _ hm => sgd_safe _ _ _ _ hit' m hm)
  have hcol : o.dim.toNat = dim := by rw [hdim]; simp
  obtain ⟨⟨mem0, h0⟩, key⟩ := glove_disjoint lower enum henum r o hwin p ws h hne hdic hg s s' M hM slices hs hd rand hv next (path := path)
    (fun mem m => MatAt .param mem m (M.corpus.dic.len * 2) (dim + 1)) (fun a b m f coef => sgdOne o.initlr a b m f coef) (by
      intro a b mem us m m1 f coef ha hb hm he
      simp only [GloveModel.step, hgr, hcol]
      exact sgdP_runs o.initlr hm ha hb he) (gloveMem_at M next _ _ hp) e
  have fin : ∀ mem, MatAt .param mem m' (M.corpus.dic.len * 2) (dim + 1) → M.after o mem = { M with param := m' } := by
    intro mem hm
    have := hm.matrix
    unfold GloveModel.after
    rw [hcol, this]
  refine ⟨m', e, fun res => ?_⟩
  rw [key res]
  constructor
  · rintro ⟨mem, rfl, hm, _⟩
    rw [fin mem hm]
  · rintro rfl
    have hm := ((key (.ok (M.after o mem0))).1 (.done M s' slices mem0 hM hs h0))
    obtain ⟨mem, _, h2, h3⟩ := hm
    exact ⟨mem, by rw [fin mem h2], h2, h3⟩

/-- The same for AdaGrad, whose accumulators are shared too. -/
theorem glove_disjoint_adagrad (g : Matrix F) (hgr : M.gradsq = some g) :
    ∃ a', forN o.iter.toNat ⟨M.param, g⟩ (fun _ a => adaTrain o.initlr M.corpus.dic.len slices.flatten a) = .ok a' ∧
      ∀ res, GloveTrain (MemEnv.sc rand (fun id q => q = path id)) lower enum r o p s next res ↔ res = .ok { M with param := a'.param } := by
  obtain ⟨dim, hdim⟩ := Int.eq_ofNat_of_zero_le hdim
  obtain ⟨_, hp, hgs⟩ := C72_glove_shapes lower r o dim hdim hwin p ws h s s' M hM
  have hgs := hgs g hgr
  have hit := gloveSlices_ok lower r o hwin p ws h hne hdic s s' M hM enum henum slices hs
  have hit' : ∀ it ∈ slices.flatten, ItemOK M.corpus.dic.len it := by
    intro it hi
    obtain ⟨sl, h1, h2⟩ := List.mem_flatten.1 hi
    exact hit sl h1 it h2
  obtain ⟨a', e, hp'⟩ := forN_inv (fun _ (a : Ada F) => Shaped a.param (M.corpus.dic.len * 2) (dim + 1) ∧ Shaped a.gradsq (M.corpus.dic.len * 2) (dim + 1)) o.iter.toNat
    ⟨M.param, g⟩ (fun _ a => adaTrain o.initlr M.corpus.dic.len slices.flatten a) ⟨hp, hgs⟩ (fun _ a _ ha => ada_safe _ _ _ _ hit' a ha.1 ha.2)
  have hcol : o.dim.toNat = dim := by rw [hdim]; simp
  obtain ⟨⟨mem0, h0⟩, key⟩ := glove_disjoint lower enum henum r o hwin p ws h hne hdic hg s s' M hM slices hs hd rand hv next (path := path)
    (fun mem a => AdaAt mem a (M.corpus.dic.len * 2) (dim + 1)) (fun a b m f coef => adaOne o.initlr a b m f coef) (by
      intro a b mem us m m1 f coef ha hb hm he
      simp only [GloveModel.step, hgr, hcol]
      exact adaP_runs o.initlr hm ha hb he) ⟨gloveMem_at M next _ _ hp, gloveMem_gradsq M next _ _ g hgr hgs⟩ e
  have fin : ∀ mem, AdaAt mem a' (M.corpus.dic.len * 2) (dim + 1) → M.after o mem = { M with param := a'.param } := by
    intro mem hm
    have := hm.1.matrix
    unfold GloveModel.after
    rw [hcol, this]
  refine ⟨a', e, fun res => ?_⟩
  rw [key res]
  constructor
  · rintro ⟨mem, rfl, hm, _⟩
    rw [fin mem hm]
  · rintro rfl
    have hm := ((key (.ok (M.after o mem0))).1 (.done M s' slices mem0 hM hs h0))
    obtain ⟨mem, _, h2, h3⟩ := hm
    exact ⟨mem, by rw [fin mem h2], h2, h3⟩

omit hd hg henum hdim hwin h hne hdic hM hv in
/-- with one goroutine there is one slice: all items, in the order of the enumeration -/
theorem one_slice (hg : o.goroutines = 1) : ∃ co, M.corpus.cooc = some co ∧ slices = [gloveItems o.xmax o.alpha (enum co.encodedMatrix)] := by
  unfold gloveSlices at hs
  cases hco : M.corpus.cooc with
  | none => rw [hco] at hs; cases hs
  | some co =>
    rw [hco] at hs
    dsimp only at hs
    rw [hg, show ((1 : Int).toNat) = 1 from rfl, parts_one] at hs
    exact ⟨co, rfl, (Res.ok.inj hs).symm⟩

omit hd hg in
/-- **C75 (whole `Train`, SGD).** With `Goroutines(1)` every execution of `Train` gives one and the same result: that of `Iter` passes of the sequential algorithm over all the
items, in the order in which Go enumerated the co-occurrence map. -/
theorem C75_train_sgd (hg : o.goroutines = 1) (hgr : M.gradsq = none) :
    ∃ co m', M.corpus.cooc = some co ∧
      forN o.iter.toNat M.param (fun _ m => sgdTrain o.initlr M.corpus.dic.len (gloveItems o.xmax o.alpha (enum co.encodedMatrix)) m) = .ok m' ∧
      ∀ res, GloveTrain (MemEnv.sc rand (fun id q => q = path id)) lower enum r o p s next res ↔ res = .ok { M with param := m' } := by
  obtain ⟨co, e1, rfl⟩ := one_slice enum o M slices hs hg
  obtain ⟨m', e2, e3⟩ := glove_disjoint_sgd lower enum henum r o hdim hwin p ws h hne hdic (by omega) s s' M hM _ hs (by simp) rand hv next (path := path) hgr
  exact ⟨co, m', e1, by simpa using e2, e3⟩

omit hd hg in
/-- **C75 (whole `Train`, AdaGrad).** -/
theorem C75_train_adagrad (hg : o.goroutines = 1) (g : Matrix F) (hgr : M.gradsq = some g) :
    ∃ co a', M.corpus.cooc = some co ∧
      forN o.iter.toNat ⟨M.param, g⟩ (fun _ a => adaTrain o.initlr M.corpus.dic.len (gloveItems o.xmax o.alpha (enum co.encodedMatrix)) a) = .ok a' ∧
      ∀ res, GloveTrain (MemEnv.sc rand (fun id q => q = path id)) lower enum r o p s next res ↔ res = .ok { M with param := a'.param } := by
  obtain ⟨co, e1, rfl⟩ := one_slice enum o M slices hs hg
  obtain ⟨a', e2, e3⟩ := glove_disjoint_adagrad lower enum henum r o hdim hwin p ws h hne hdic (by omega) s s' M hM _ hs (by simp) rand hv next (path := path) g hgr
  exact ⟨co, a', e1, by simpa using e2, e3⟩

omit hd hdim in
/-- the order in which the goroutines were started, for any state `S` related to the memory -/
theorem glove_apart (Rel : Mem F → S → Prop) (step : Int → Int → S → F → F → Res S)
    (hstep : ∀ (a b : Nat) (m : Mem F) us s s' f coef, a < M.corpus.dic.len * 2 → b < M.corpus.dic.len * 2 → Rel m s → step a b s f coef = .ok s' →
      (M.step o a b f coef).Runs path m us (fun _ m' us' => Rel m' s' ∧ us' = us))
    (P : S → Prop) (hsafe : ∀ items, (∀ it ∈ items, ItemOK M.corpus.dic.len it) → ∀ a, P a → ∃ a', forEach items a (fun it a => gloveTurn step M.corpus.dic.len it a) = .ok a' ∧ P a')
    {a : S} (ha : Rel (M.mem next) a) (hP : P a) {mem : Mem F}
    (hi : Pool.ItersApart (MemEnv.sc rand (fun id q => q = path id)) o.goroutines.toNat (M.mem next) [] (List.replicate o.iter.toNat (gloveIter M o slices)) mem) :
    ∃ orders : List (List (List (GItem F))), orders.length = o.iter.toNat ∧ (∀ ord ∈ orders, ord.Perm slices) ∧
      ∃ a', forEach orders.flatten.flatten a (fun it a => gloveTurn step M.corpus.dic.len it a) = .ok a' ∧ Rel mem a' := by
  have hit := gloveSlices_ok lower r o hwin p ws h hne hdic s s' M hM enum henum slices hs
  obtain ⟨v, _⟩ := hv
  obtain ⟨orders, h1, h2⟩ := iters_apart (path := path) hi (by simp) (by
    intro q hq
    rw [List.eq_of_mem_replicate hq]
    refine ⟨rfl, fun x hx => ?_⟩
    obtain ⟨sl, hsl, rfl⟩ := List.mem_map.1 hx
    exact ⟨_, gloveWorkerP_within M o sl (hit sl hsl)⟩) ⟨fun _ => v, fun _ => v⟩
  obtain ⟨ds, e1, e2, e3⟩ := orders_exist (gloveWorkerP (M.step o) M.corpus.dic.len) _ slices o.iter.toNat orders h1
  have hit' : ∀ sl ∈ ds.flatten, ∀ it ∈ sl, ItemOK M.corpus.dic.len it := by
    intro sl hsl
    obtain ⟨d, hd, hsd⟩ := List.mem_flatten.1 hsl
    exact hit sl ((e2 d hd).subset hsd)
  obtain ⟨a', e4, _⟩ := hsafe ds.flatten.flatten (by
    intro it hi
    obtain ⟨sl, hsl, hi⟩ := List.mem_flatten.1 hi
    exact hit' sl hsl it hi) a hP
  obtain ⟨m2, e5, e6⟩ := workers_seq Rel _ step M.corpus.dic.len hstep ds.flatten hit' ha e4 ⟨fun _ => v, fun _ => v⟩
  rw [e3, h2] at e5
  have := (Prod.mk.inj (Res.ok.inj e5)).1
  subst this
  exact ⟨ds, e1, e2, a', e4, e6⟩

omit hd in
/-- **C91 (SGD), proved part.** In every execution in which goroutines that run at the same time have no variable in common, the result of `Train` is that of the sequential
algorithm - every step indivisible - for some order of the goroutines' slices in every iteration. Missing: goroutines that share a word at the same time; then the
statement is false (`C91_refuted`). -/
theorem C91_sgd_partial (hgr : M.gradsq = none) (mem : Mem F)
    (hi : Pool.ItersApart (MemEnv.sc rand (fun id q => q = path id)) o.goroutines.toNat (M.mem next) [] (List.replicate o.iter.toNat (gloveIter M o slices)) mem) :
    GloveTrain (MemEnv.sc rand (fun id q => q = path id)) lower enum r o p s next (.ok (M.after o mem)) ∧
    ∃ orders : List (List (List (GItem F))), orders.length = o.iter.toNat ∧ (∀ ord ∈ orders, ord.Perm slices) ∧
      sgdTrain o.initlr M.corpus.dic.len orders.flatten.flatten M.param = .ok (M.after o mem).param := by
  obtain ⟨dim, hdim⟩ := Int.eq_ofNat_of_zero_le hdim
  obtain ⟨_, hp, _⟩ := C72_glove_shapes lower r o dim hdim hwin p ws h s s' M hM
  have hcol : o.dim.toNat = dim := by rw [hdim]; simp
  obtain ⟨orders, e1, e2, a', e3, e4⟩ := glove_apart lower enum henum r o hwin p ws h hne hdic hg s s' M hM slices hs rand hv next (path := path)
    (fun mem m => MatAt .param mem m (M.corpus.dic.len * 2) (dim + 1)) (fun a b m f coef => sgdOne o.initlr a b m f coef) (by
      intro a b mem us m m1 f coef ha hb hm he
      simp only [GloveModel.step, hgr, hcol]
      exact sgdP_runs o.initlr hm ha hb he) (fun m => Shaped m (M.corpus.dic.len * 2) (dim + 1)) (fun items hit a ha => sgd_safe _ _ _ _ hit a ha)
    (gloveMem_at M next _ _ hp) hp hi
  refine ⟨.done M s' slices mem hM hs hi.iters, orders, e1, e2, ?_⟩
  rw [show (M.after o mem).param = a' by unfold GloveModel.after; rw [hcol]; exact e4.matrix]
  exact e3

omit hd in
/-- **C91 (AdaGrad), proved part.** -/
theorem C91_adagrad_partial (g : Matrix F) (hgr : M.gradsq = some g) (mem : Mem F)
    (hi : Pool.ItersApart (MemEnv.sc rand (fun id q => q = path id)) o.goroutines.toNat (M.mem next) [] (List.replicate o.iter.toNat (gloveIter M o slices)) mem) :
    GloveTrain (MemEnv.sc rand (fun id q => q = path id)) lower enum r o p s next (.ok (M.after o mem)) ∧
    ∃ (orders : List (List (List (GItem F)))) (a' : Ada F), orders.length = o.iter.toNat ∧ (∀ ord ∈ orders, ord.Perm slices) ∧
      adaTrain o.initlr M.corpus.dic.len orders.flatten.flatten ⟨M.param, g⟩ = .ok a' ∧ a'.param = (M.after o mem).param := by
  obtain ⟨dim, hdim⟩ := Int.eq_ofNat_of_zero_le hdim
  obtain ⟨_, hp, hgs⟩ := C72_glove_shapes lower r o dim hdim hwin p ws h s s' M hM
  have hgs := hgs g hgr
  have hcol : o.dim.toNat = dim := by rw [hdim]; simp
  obtain ⟨orders, e1, e2, a', e3, e4⟩ := glove_apart lower enum henum r o hwin p ws h hne hdic hg s s' M hM slices hs rand hv next (path := path) (a := (⟨M.param, g⟩ : Ada F))
    (fun mem a => AdaAt mem a (M.corpus.dic.len * 2) (dim + 1)) (fun a b m f coef => adaOne o.initlr a b m f coef) (by
      intro a b mem us m m1 f coef ha hb hm he
      simp only [GloveModel.step, hgr, hcol]
      exact adaP_runs o.initlr hm ha hb he) (fun a => Shaped a.param (M.corpus.dic.len * 2) (dim + 1) ∧ Shaped a.gradsq (M.corpus.dic.len * 2) (dim + 1))
    (fun items hit a ha => ada_safe _ _ _ _ hit a ha.1 ha.2) ⟨gloveMem_at M next _ _ hp, gloveMem_gradsq M next _ _ g hgr hgs⟩ ⟨hp, hgs⟩ hi
  refine ⟨.done M s' slices mem hM hs hi.iters, orders, a', e1, e2, e3, ?_⟩
  unfold GloveModel.after
  rw [hcol]
  exact e4.1.matrix.symm

omit hd hdim hv in
/-- the hypothesis of `C91_sgd_partial` and `C91_adagrad_partial` can always be met: goroutines that run one after the other have no variable in common -/
theorem glove_apart_exists : ∃ mem,
    Pool.ItersApart (MemEnv.sc rand (fun id q => q = path id)) o.goroutines.toNat (M.mem next) [] (List.replicate o.iter.toNat (gloveIter M o slices)) mem := by
  have hit := gloveSlices_ok lower r o hwin p ws h hne hdic s s' M hM enum henum slices hs
  refine itersApart_exists (by omega) _ _ _ (fun q hq x hx => ?_)
  rw [List.eq_of_mem_replicate hq] at hx
  obtain ⟨sl, hsl, rfl⟩ := List.mem_map.1 hx
  exact ⟨_, gloveWorkerP_within M o sl (hit sl hsl)⟩

end

/-- `C91_sgd_partial` on the corpus `a b a` with four goroutines and the default options: such an execution of `Train` exists. -/
example [GoMath F] (r : σ → F × σ) (s : σ) (next : UInt64) (v : F) :
    let o : GloveOptions F := GloveOptions.default 4
    let p : Pass := ⟨['a', ' ', 'b', ' ', 'a'], false⟩
    ∃ M s' slices mem, gloveSetup id r o p p s = .ok (M, s') ∧ gloveSlices M o id = .ok slices ∧
      GloveTrain (MemEnv.sc (fun _ => True) (fun id q => q = path id)) id id r o p s next (.ok (M.after o mem)) ∧
      ∃ orders : List (List (List (GItem F))), orders.length = 15 ∧ (∀ ord ∈ orders, ord.Perm slices) ∧
        sgdTrain o.initlr M.corpus.dic.len orders.flatten.flatten M.param = .ok (M.after o mem).param := by
  intro o p
  have hp : Readable p [['a'], ['b'], ['a']] := ⟨isWords_fields ['a',' ','b',' ','a'], rfl, by decide⟩
  have hw : o.docInMemory = true ∨ 1 ≤ o.window := Or.inr (by show (1 : Int) ≤ 5; omega)
  have hdic : ([['a'], ['b'], ['a']].map (o.corpus id).norm).dedup.length ≤ 2 ^ 32 := by
    rw [show ([['a'], ['b'], ['a']].map (o.corpus id).norm).dedup.length = 2 from (by decide : ([['a'], ['b'], ['a']].map id).dedup.length = 2)]; omega
  obtain ⟨M, s', slices, hM, hs, hg⟩ : ∃ M s' slices, gloveSetup id r o p p s = .ok (M, s') ∧ gloveSlices M o id = .ok slices ∧ M.gradsq = none := by
    obtain ⟨M, s', slices, e1, e2, -⟩ := glove_facts (F := F) id id (fun _ => List.Perm.refl _) r o (by show (0 : Int) ≤ 10; omega) rfl (.inl rfl) hw p _ hp
      (.inr (by simp)) (by show (1 : Int) ≤ 4; omega) (by
        rw [show ([['a'], ['b'], ['a']].map (o.corpus id).norm).dedup.length = 2 from (by decide : ([['a'], ['b'], ['a']].map id).dedup.length = 2)]
        show (2 : Int) * 2 + 4 ≤ 2 ^ 53
        norm_num) (MemEnv.sc (fun _ => True) (fun id q => q = path id)) s
    exact ⟨M, s', slices, e1, e2, (gloveSetup_solver id id r o hw p _ hp (.inr (by simp)) s s' M e1).1.2 rfl⟩
  obtain ⟨mem, hi⟩ := glove_apart_exists id id (fun _ => List.Perm.refl _) r o hw p _ hp (.inr (by simp)) hdic (by show (1 : Int) ≤ 4; omega) s s' M hM slices hs
    (fun _ => True) next (path := path)
  exact ⟨M, s', slices, mem, hM, hs, C91_sgd_partial id id (fun _ => List.Perm.refl _) r o (by show (0 : Int) ≤ 10; omega) hw p _ hp (.inr (by simp)) hdic
    (by show (1 : Int) ≤ 4; omega) s s' M hM slices hs (fun _ => True) ⟨v, trivial⟩ next hg mem hi⟩

end Wego.Props
