import Verif.Proofs.RefineSys
import Verif.Props.Interleave

/-! # C75: GloVe with one goroutine is the sequential algorithm

`Sys.Rounds env m tss m'` (`Verif/Model/Prog.lean`): the goroutines of each iteration interleave their single loads and stores in any way, the
next iteration starts when all have returned (`wg.Wait()`). -/

namespace Wego.Props
open Wego Wego.Matrix Wego.Prog Spec
variable {F : Type} {σ : Type}

/-- with one goroutine there is one slice: all the items -/
theorem parts_one {α : Type} (l : List α) : (indexPerThread 1 l.length >>= fun v => parts l v 1) = .ok [l] := by
  have h1 : indexPerThread 1 l.length = .ok [0, (l.length : Int)] := rfl
  rw [h1, Res.ok_bind]
  simp [parts, forN, forFrom, idx]

/-- the memory of a GloVe model holds its matrices -/
theorem gloveMem_at [GoFloat F] (M : GloveModel F) (next : UInt64) (r c : Nat) (hp : Shaped M.param r c) : MatAt .param (M.mem next) M.param r c :=
  ⟨hp, fun i hi j hj => by simp only [GloveModel.mem]; exact cellAt_eq hp hi hj⟩

theorem gloveMem_gradsq [GoFloat F] (M : GloveModel F) (next : UInt64) (r c : Nat) (g : Matrix F) (hg : M.gradsq = some g) (hp : Shaped g r c) :
    MatAt .gradsq (M.mem next) g r c :=
  ⟨hp, fun i hi j hj => by simp only [GloveModel.mem, hg]; exact cellAt_eq hp hi hj⟩

/-- the goroutines of one iteration of GloVe -/
def gloveRound [GoFloat F] (M : GloveModel F) (o : GloveOptions F) (slices : List (List (GItem F))) : List (Prog F Unit) :=
  slices.map (gloveWorkerP (M.step o) M.corpus.dic.len)

/-- the goroutines of GloVe are safe and never touch the learning rate -/
theorem gloveRound_ok [GoFloat F] (M : GloveModel F) (o : GloveOptions F) (slices : List (List (GItem F)))
    (hit : ∀ s ∈ slices, ∀ it ∈ s, ItemOK M.corpus.dic.len it) (env : MemEnv F) :
    ∀ t ∈ gloveRound M o slices, t.Ok env (fun l => l ≠ .lr) (fun _ => False) (fun _ => True) := by
  intro t ht
  simp only [gloveRound, List.mem_map] at ht
  obtain ⟨s, hs, rfl⟩ := ht
  refine gloveWorkerP_ok ?_ ?_
  · intro it hi
    obtain ⟨a, b, e1, e2, l1, l2⟩ := hit s hs it hi
    rw [e1, e2]
    exact ⟨⟨by omega, by omega⟩, by omega, by omega⟩
  · intro l1 l2 f c a b c' d
    unfold GloveModel.step
    cases M.gradsq with
    | none => exact sgdP_ok _ ⟨a, b⟩ ⟨c', d⟩ _ _ (fun _ => by simp) (fun _ => by simp)
    | some g => exact adaP_ok _ ⟨a, b⟩ ⟨c', d⟩ _ _ (fun _ => by simp) (fun _ => by simp) (fun _ => by simp) (fun _ => by simp)

section
variable [GoMath F] (lower : Word → Word) (enum : GoMap (BitVec 64) F → List (BitVec 64 × F)) (henum : ∀ m, (enum m).Perm m)
  (r : σ → F × σ) (o : GloveOptions F) (dim : Nat) (hdim : o.dim = dim) (hwin : o.docInMemory = true ∨ 1 ≤ o.window)
  (p : Pass) (ws : List Word) (h : Readable p ws) (hne : o.docInMemory = true ∨ ws ≠ [])
  (hdic : (ws.map (o.corpus lower).norm).dedup.length ≤ 2 ^ 32)
  (s s' : σ) (M : GloveModel F) (hM : gloveSetup lower r o p p s = .ok (M, s')) (hg : o.goroutines = 1)
  (slices : List (List (GItem F))) (hs : gloveSlices M o enum = .ok slices)
  (rand : F → Prop) (hv : ∃ v, rand v) (path : Nat → List Nat) (next : UInt64) (n : Nat)
include hv hdim hwin h hne hdic hM hg hs henum

/-- **C75 (SGD).** For every readable document, valid options with `Goroutines(1)` and the SGD solver, any enumeration order of the co-occurrence map,
any number `n` of iterations: the sequential algorithm (`n` times: both steps of every item, in order, each step indivisible) succeeds; whatever the
schedule, the parameters at the end are exactly its result; and some schedule gets to the end. -/
theorem C75_sgd (hgr : M.gradsq = none) :
    ∃ items m', slices = [items] ∧ forN n M.param (fun _ m => sgdTrain o.initlr M.corpus.dic.len items m) = .ok m' ∧
      (∀ mem', Sys.Rounds (MemEnv.sc rand (fun id q => q = path id)) (M.mem next) (List.replicate n (gloveRound M o slices)) mem' →
        (M.after o mem').param = m') ∧
      (∃ mem', Sys.Rounds (MemEnv.sc rand (fun id q => q = path id)) (M.mem next) (List.replicate n (gloveRound M o slices)) mem') := by
  obtain ⟨_, hp, _⟩ := C72_glove_shapes lower r o dim hdim hwin p ws h s s' M hM
  have hit := gloveSlices_ok lower r o hwin p ws h hne hdic s s' M hM enum henum slices hs
  obtain ⟨items, rfl⟩ : ∃ items, slices = [items] := by
    unfold gloveSlices at hs
    cases hco : M.corpus.cooc with
    | none => rw [hco] at hs; cases hs
    | some co =>
      rw [hco] at hs
      dsimp only at hs
      rw [hg, show ((1 : Int).toNat) = 1 from rfl, parts_one] at hs
      exact ⟨_, (Res.ok.inj hs).symm⟩
  have hit' := hit items (by simp)
  obtain ⟨m', e, hp'⟩ := forN_inv (fun _ m => Shaped m (M.corpus.dic.len * 2) (dim + 1)) n M.param
    (fun _ m => sgdTrain o.initlr M.corpus.dic.len items m) hp (fun _ m _ hm => sgd_safe _ _ _ _ hit' m hm)
  have hcol : o.dim.toNat = dim := by rw [hdim]; simp
  have hok := fun env => gloveRound_ok M o [items] hit env
  have key := fun mem' => rounds_single (rand := rand) (path := path) (m' := mem')
    (fun mem m => MatAt .param mem m (M.corpus.dic.len * 2) (dim + 1)) (fun m m' s he h => h.eqLr (by simp) he) (gloveWorkerP (M.step o) M.corpus.dic.len items)
    (fun m => sgdTrain o.initlr M.corpus.dic.len items m) (by
      intro mem us m m1 hm he
      refine gloveWorker_runs (fun mem m => MatAt .param mem m (M.corpus.dic.len * 2) (dim + 1)) (M.step o)
        (fun a b m f coef => sgdOne o.initlr a b m f coef) M.corpus.dic.len ?_ items hit' hm he
      intro a b mem us m m1 f coef ha hb hm he
      simp only [GloveModel.step, hgr, hcol]
      exact sgdP_runs o.initlr hm ha hb he) (NoLr_of_ok (M.mem next) (hok _ _ (by simp [gloveRound]))) n (gloveMem_at M next _ _ hp) e
  refine ⟨items, m', rfl, e, ?_, ?_⟩
  · intro mem' hr
    have := (key mem' hr hv).matrix
    simp only [GloveModel.after, hcol]
    exact this
  · refine rounds_exist (MemEnv.sc_total hv path) _ _ fun ts hts t ht => ?_
    rw [List.eq_of_mem_replicate hts] at ht
    exact (hok _ t ht).mono (fun _ _ => trivial) (fun _ h => h)

/-- **C75 (AdaGrad).** The same for AdaGrad, whose accumulators are shared too. -/
theorem C75_adagrad (g : Matrix F) (hgr : M.gradsq = some g) :
    ∃ items a', slices = [items] ∧ forN n ⟨M.param, g⟩ (fun _ a => adaTrain o.initlr M.corpus.dic.len items a) = .ok a' ∧
      (∀ mem', Sys.Rounds (MemEnv.sc rand (fun id q => q = path id)) (M.mem next) (List.replicate n (gloveRound M o slices)) mem' →
        (M.after o mem').param = a'.param) ∧
      (∃ mem', Sys.Rounds (MemEnv.sc rand (fun id q => q = path id)) (M.mem next) (List.replicate n (gloveRound M o slices)) mem') := by
  obtain ⟨_, hp, hgs⟩ := C72_glove_shapes lower r o dim hdim hwin p ws h s s' M hM
  have hgs := hgs g hgr
  have hit := gloveSlices_ok lower r o hwin p ws h hne hdic s s' M hM enum henum slices hs
  obtain ⟨items, rfl⟩ : ∃ items, slices = [items] := by
    unfold gloveSlices at hs
    cases hco : M.corpus.cooc with
    | none => rw [hco] at hs; cases hs
    | some co =>
      rw [hco] at hs
      dsimp only at hs
      rw [hg, show ((1 : Int).toNat) = 1 from rfl, parts_one] at hs
      exact ⟨_, (Res.ok.inj hs).symm⟩
  have hit' := hit items (by simp)
  obtain ⟨a', e, hp'⟩ := forN_inv (fun _ (a : Ada F) => Shaped a.param (M.corpus.dic.len * 2) (dim + 1) ∧ Shaped a.gradsq (M.corpus.dic.len * 2) (dim + 1)) n
    ⟨M.param, g⟩ (fun _ a => adaTrain o.initlr M.corpus.dic.len items a) ⟨hp, hgs⟩ (fun _ a _ ha => ada_safe _ _ _ _ hit' a ha.1 ha.2)
  have hcol : o.dim.toNat = dim := by rw [hdim]; simp
  have hok := fun env => gloveRound_ok M o [items] hit env
  have key := fun mem' => rounds_single (rand := rand) (path := path) (m' := mem')
    (fun mem a => AdaAt mem a (M.corpus.dic.len * 2) (dim + 1)) (fun m m' s he h => ⟨h.1.eqLr (by simp) he, h.2.eqLr (by simp) he⟩) (gloveWorkerP (M.step o) M.corpus.dic.len items)
    (fun a => adaTrain o.initlr M.corpus.dic.len items a) (by
      intro mem us m m1 hm he
      refine gloveWorker_runs (fun mem a => AdaAt mem a (M.corpus.dic.len * 2) (dim + 1)) (M.step o)
        (fun a b s f coef => adaOne o.initlr a b s f coef) M.corpus.dic.len ?_ items hit' hm he
      intro a b mem us m m1 f coef ha hb hm he
      simp only [GloveModel.step, hgr, hcol]
      exact adaP_runs o.initlr hm ha hb he) (NoLr_of_ok (M.mem next) (hok _ _ (by simp [gloveRound]))) n ⟨gloveMem_at M next _ _ hp, gloveMem_gradsq M next _ _ g hgr hgs⟩ e
  refine ⟨items, a', rfl, e, ?_, ?_⟩
  · intro mem' hr
    have := (key mem' hr hv).1.matrix
    simp only [GloveModel.after, hcol]
    exact this
  · refine rounds_exist (MemEnv.sc_total hv path) _ _ fun ts hts t ht => ?_
    rw [List.eq_of_mem_replicate hts] at ht
    exact (hok _ t ht).mono (fun _ _ => trivial) (fun _ h => h)

end

/-- **C75 (iterations).** The executions with `wg.Wait()` between iterations are among the schedules over which C67 and C73 quantify (which let
even goroutines of different iterations overlap): the parameters they end with are those of a reachable state. -/
theorem C75_barrier_is_schedule [GoFloat F] (M : GloveModel F) (o : GloveOptions F) (next : UInt64) (iters : List (List (List (GItem F))))
    (env : MemEnv F) (mem' : Mem F) (h : Sys.Rounds env (M.mem next) (iters.map (gloveRound M o)) mem') :
    ∃ st, Sys.Reach env (M.sys o next iters) st ∧ st.mem = mem' := by
  obtain ⟨ts, hr⟩ := Sys.Rounds.reach h []
  refine ⟨⟨mem', ts⟩, ?_, rfl⟩
  · rw [List.nil_append] at hr
    exact hr

/-- With one goroutine the slices exist, and the accumulators exist exactly for AdaGrad. -/
theorem gloveSetup_solver [GoMath F] (lower : Word → Word) (enum : GoMap (BitVec 64) F → List (BitVec 64 × F))
    (r : σ → F × σ) (o : GloveOptions F) (hwin : o.docInMemory = true ∨ 1 ≤ o.window)
    (p : Pass) (ws : List Word) (h : Readable p ws) (hne : o.docInMemory = true ∨ ws ≠ [])
    (s s' : σ) (M : GloveModel F) (hM : gloveSetup lower r o p p s = .ok (M, s')) :
    (M.gradsq = none ↔ o.solverType = "sgd".toList) ∧ (o.goroutines = 1 → ∃ slices, gloveSlices M o enum = .ok slices) := by
  unfold gloveSetup at hM
  rw [Res.bind_eq_ok] at hM
  obtain ⟨c, hc, hM⟩ := hM
  rw [Res.bind_eq_ok] at hM
  obtain ⟨ps, _, hM⟩ := hM
  obtain ⟨co, calls, a, _⟩ := load_cooc_calls o.docInMemory (o.corpus lower) _ _ hwin p ws h hne c hc
  have key : M.corpus = c ∧ (M.gradsq = none ↔ o.solverType = "sgd".toList) := by
    split at hM
    · next hs => cases hM; exact ⟨rfl, by simp [hs]⟩
    · next hs =>
      split at hM
      · rw [Res.bind_eq_ok] at hM
        obtain ⟨g, _, hM⟩ := hM
        cases hM; exact ⟨rfl, ⟨fun e => by simp at e, fun e => absurd e hs⟩⟩
      · cases hM
  refine ⟨key.2, fun hg => ?_⟩
  unfold gloveSlices
  rw [key.1, a]
  dsimp only
  rw [hg, show ((1 : Int).toNat) = 1 from rfl, parts_one]
  exact ⟨_, rfl⟩

/-- The hypotheses are met: `a b a` with default options (AdaGrad or SGD), one goroutine. -/
example (sgd : Bool) (r : σ → ℝ × σ) (s : σ) :
    let o : GloveOptions ℝ := { GloveOptions.default 1 with solverType := if sgd then "sgd".toList else "adagrad".toList }
    let p : Pass := ⟨['a', ' ', 'b', ' ', 'a'], false⟩
    ∃ M s' slices, Readable p [['a'], ['b'], ['a']] ∧ gloveSetup id r o p p s = .ok (M, s') ∧ gloveSlices M o id = .ok slices ∧
      o.goroutines = 1 ∧ o.dim = (10 : Nat) ∧ 1 ≤ o.window ∧ (M.gradsq = none ↔ sgd = true) ∧
      ([['a'], ['b'], ['a']].map (o.corpus id).norm).dedup.length ≤ 2 ^ 32 := by
  intro o p
  have hp : Readable p [['a'], ['b'], ['a']] := ⟨isWords_fields ['a',' ','b',' ','a'], rfl, by decide⟩
  have hw : o.docInMemory = true ∨ 1 ≤ o.window := Or.inr (by show (1 : Int) ≤ 5; omega)
  obtain ⟨M, s', e⟩ := C72_glove_starts (F := ℝ) id r o (by show (0 : Int) ≤ 10; omega) (by rfl) (by cases sgd <;> simp [o]) hw p _ hp s
  obtain ⟨h1, h3⟩ := gloveSetup_solver id id r o hw p _ hp (Or.inr (by simp)) s s' M e
  obtain ⟨slices, h2⟩ := h3 rfl
  refine ⟨M, s', slices, hp, e, h2, rfl, rfl, (by show (1 : Int) ≤ 5; omega), ?_, ?_⟩
  · rw [h1]; cases sgd <;> simp [o]
  · show ([['a'], ['b'], ['a']].map id).dedup.length ≤ 2 ^ 32
    rw [show ([['a'], ['b'], ['a']].map id).dedup.length = 2 by decide]; omega

end Wego.Props
