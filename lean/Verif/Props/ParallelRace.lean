import Verif.Props.Parallel

/-! # C91: two goroutines that share a word can lose an update -/

namespace Wego.Props
open Wego Wego.Matrix Wego.Prog Spec
variable {F : Type}

/-- one step of a goroutine that only loads and stores, under sequential consistency -/
def stepOnce : Prog F Unit → Mem F → Option (Prog F Unit × Mem F)
  | .load l k, m => some (k (m.cell l), m)
  | .store l v k, m => some (k, m.set l v)
  | _, _ => none

/-- `n` such steps -/
def stepN : Nat → Prog F Unit → Mem F → Option (Prog F Unit × Mem F)
  | 0, x, m => some (x, m)
  | n + 1, x, m => (stepOnce x m).bind fun r => stepN n r.1 r.2

theorem stepN_reach {rand : F → Prop} {path : Nat → List Nat → Prop} (n : Nat) (x y : Prog F Unit) (m m' : Mem F) (h : stepN n x m = some (y, m'))
    (l r : List (Prog F Unit)) (g : Nat) (obs wait : List (Prog F Unit)) :
    Pool.Reach (MemEnv.sc rand path) g ⟨m, obs, wait, l ++ x :: r⟩ ⟨m', obs, wait, l ++ y :: r⟩ := by
  induction n generalizing x m with
  | zero => cases h; exact .refl
  | succ n ih =>
    unfold stepN at h
    cases x with
    | load a k => exact Pool.Reach.trans (.one (.work _ _ _ _ _ _ (.load m l r a k _ rfl))) (ih _ _ h)
    | store a v k => exact Pool.Reach.trans (.one (.work _ _ _ _ _ _ (.store m l r a v k))) (ih _ _ h)
    | ret a => cases h
    | panic p => cases h
    | getNext k => cases h
    | setNext v k => cases h
    | rand k => cases h
    | path id k => cases h

/-- The schedule: `x` makes `i` steps, `y` makes `j`, `x` makes `k`; the memory if both have then returned. -/
def schedule (i j k : Nat) (x y : Prog F Unit) (m : Mem F) : Option (Mem F) :=
  match stepN i x m with
  | none => none
  | some (x', m1) =>
    match stepN j y m1 with
    | some (.ret (), m2) =>
      match stepN k x' m2 with
      | some (.ret (), m3) => some m3
      | _ => none
    | _ => none

theorem schedule_reach {rand : F → Prop} {path : Nat → List Nat → Prop} {i j k : Nat} {x y : Prog F Unit} {m m3 : Mem F} (h : schedule i j k x y m = some m3)
    (obs : List (Prog F Unit)) : Pool.Reach (MemEnv.sc rand path) 2 ⟨m, obs, [x, y], []⟩ ⟨m3, obs, [], []⟩ := by
  unfold schedule at h
  split at h
  · cases h
  · next x' m1 h1 =>
    split at h
    · next m2 h2 =>
      split at h
      · next m3' h3 =>
        cases h
        refine Pool.Reach.trans (.one (.acquire m obs [x] [] [] y (by simp))) ?_
        refine Pool.Reach.trans (.one (.acquire m obs [] [] [y] x (by simp))) ?_
        refine Pool.Reach.trans (stepN_reach i x x' m m1 h1 [] [y] 2 obs []) ?_
        refine Pool.Reach.trans (stepN_reach j y (.ret ()) m1 m2 h2 [x'] [] 2 obs []) ?_
        refine Pool.Reach.trans (stepN_reach k x' (.ret ()) m2 m3 h3 [] [.ret ()] 2 obs []) ?_
        exact Pool.Reach.trans (.one (.release m3 obs [] [] [.ret ()])) (.one (.release m3 obs [] [] []))
      · cases h
    · cases h

/-- The training steps of an iteration of GloVe: for every item two steps, each on two rows. -/
def gloveSteps (len : Nat) (items : List (GItem F)) : List (Int × Int × F × F) :=
  items.flatMap fun it => [(it.l1, it.l2 + len, it.f, it.coef), (it.l1 + len, it.l2, it.f, it.coef)]

/-- the steps one after the other, each indivisible, with SGD -/
def sgdSteps [GoFloat F] (lr : F) (steps : List (Int × Int × F × F)) (m : Matrix F) : Res (Matrix F) :=
  forEach steps m fun t m => sgdOne lr t.1 t.2.1 m t.2.2.1 t.2.2.2

/-- the sequential algorithm is one such order -/
theorem sgdTrain_steps [GoMath F] (lr : F) (len : Nat) (items : List (GItem F)) (m : Matrix F) :
    sgdTrain lr len items m = sgdSteps lr (gloveSteps len items) m := by
  unfold sgdTrain sgdSteps gloveSteps
  induction items generalizing m with
  | nil => rfl
  | cons it items ih =>
    rw [List.flatMap_cons, forEach_append, forEach_cons]
    simp only [gloveTurn, forEach_cons, forEach_nil]
    cases sgdOne lr it.l1 (it.l2 + len) m it.f it.coef with
    | ok m1 =>
      rw [Res.ok_bind, Res.ok_bind]
      cases sgdOne lr (it.l1 + len) it.l2 m1 it.f it.coef with
      | ok m2 => exact ih m2
      | err e => rfl
      | panic x => rfl
    | err e => rfl
    | panic x => rfl

/-! ## The corpus `a b c`, window 1, one component per vector, two goroutines -/

/-- the options -/
def raceOptions : GloveOptions F64 :=
  { GloveOptions.default 2 with dim := 1, iter := 1, initlr := GoFloat.ofRat (1 / 4), xmax := 1, window := 1, docInMemory := true, solverType := "sgd".toList }

/-- `rand.Float64()` returns 0 and 1/2 in turn -/
def raceRand (n : Nat) : F64 × Nat := (if n % 2 = 0 then GoFloat.ofRat 0 else GoFloat.ofRat (1 / 2), n + 1)

/-- the document `a b c` -/
def racePass : Pass := ⟨['a', ' ', 'b', ' ', 'c'], false⟩

/-- the matrix with bias 1/2 and vectors 0 -/
def raceParam : Matrix F64 :=
  ⟨[GoFloat.ofRat 0, GoFloat.ofRat (1 / 2), GoFloat.ofRat 0, GoFloat.ofRat (1 / 2), GoFloat.ofRat 0, GoFloat.ofRat (1 / 2),
    GoFloat.ofRat 0, GoFloat.ofRat (1 / 2), GoFloat.ofRat 0, GoFloat.ofRat (1 / 2), GoFloat.ofRat 0, GoFloat.ofRat (1 / 2)], 6, 2⟩

def raceMem : Mem F64 :=
  { cell := fun l => match l with
      | .param r c => raceParam.cellAt r c
      | _ => fzero
    next := 0 }

def raceItem (i : Int) : GItem F64 := ⟨i, i + 1, fzero, GoFloat.ofRat 1⟩

def raceWorker (i : Int) : Prog F64 Unit := gloveWorkerP (sgdP raceOptions.initlr 6 1) 3 [raceItem i]

/-- the set-up -/
def raceChk : Res (GloveModel F64 × Nat) → Bool
  | .ok (M, _) => decide (M.param = raceParam ∧ M.gradsq = none ∧ M.corpus.dic.len = 3 ∧
      M.corpus.cooc.map (·.encodedMatrix) = some [(encodeBigram 0 1, GoFloat.ofRat 1), (encodeBigram 1 2, GoFloat.ofRat 1)])
  | _ => false

theorem raceChk_ok : raceChk (gloveSetup id raceRand raceOptions racePass racePass 0) = true := by decide +kernel

/-- the first goroutine makes all its loads and stores but the last store, the second one runs, the first one makes its last store -/
theorem race_schedule : (schedule 27 28 1 (raceWorker 0) (raceWorker 1) raceMem).map (fun m => decide (m.cell (.param 1 1) = GoFloat.ofRat (1 / 4))) = some true := by
  decide +kernel

/-- every sequential order of the four steps leaves 1/16 -/
theorem race_orders : ∀ order ∈ (gloveSteps 3 [raceItem 0, raceItem 1]).permutations',
    (match sgdSteps raceOptions.initlr order raceParam with
      | .ok m => decide (m.getAt 1 1 = .ok (GoFloat.ofRat (1 / 16)))
      | _ => false) = true := by
  decide +kernel

/-- **C91 (refuted).** The corpus `a b c` with window 1, `Dim` 1, SGD, `Goroutines(2)`, one iteration (float64, any mathematical library with `Log(1) = 0`): there is a
sequentially consistent execution of `Train` that succeeds, but whose result is not that of any sequential order of the four training steps: two goroutines update the
bias of `b`, and one update is lost. -/
theorem C91_refuted (lib : LibM) (hlog : lib.log (GoFloat.ofRat 1) = fzero) : letI := lib.math
    ∃ (o : GloveOptions F64) (r : Nat → F64 × Nat) (p : Pass) (M N : GloveModel F64) (s' : Nat) (slices : List (List (GItem F64))),
      gloveSetup id r o p p 0 = .ok (M, s') ∧ M.gradsq = none ∧ gloveSlices M o id = .ok slices ∧ o.iter = 1 ∧
      GloveTrain (MemEnv.sc (fun _ => True) (fun _ q => q = [])) id id r o p 0 0 (.ok N) ∧
      ∀ order, order.Perm (gloveSteps M.corpus.dic.len slices.flatten) → sgdSteps o.initlr order M.param ≠ .ok N.param := by
  let _ := lib.math
  have h := raceChk_ok
  unfold raceChk at h
  split at h
  swap
  · cases h
  next M s' hM =>
  obtain ⟨h1, h2, h3, h4⟩ := of_decide_eq_true h
  obtain ⟨co, hco⟩ : ∃ co, M.corpus.cooc = some co := by
    cases hc : M.corpus.cooc with
    | none => rw [hc] at h4; cases h4
    | some co => exact ⟨co, rfl⟩
  rw [hco] at h4
  have h4 : co.encodedMatrix = [(encodeBigram 0 1, GoFloat.ofRat 1), (encodeBigram 1 2, GoFloat.ofRat 1)] := Option.some.inj h4
  have hitems : gloveItems raceOptions.xmax raceOptions.alpha co.encodedMatrix = [raceItem 0, raceItem 1] := by
    rw [h4]
    unfold gloveItems gloveItem
    have hl : GoFloat.lt (GoFloat.ofRat 1 : F64) (GoFloat.ofRat ((raceOptions.xmax : Int) : ℚ)) = false := by decide +kernel
    simp only [List.map_cons, List.map_nil, hl, Bool.false_eq_true, if_false]
    have d1 : (decodeBigram (encodeBigram 0 1)).1.toInt = 0 ∧ (decodeBigram (encodeBigram 0 1)).2.toInt = 1 := by decide
    have d2 : (decodeBigram (encodeBigram 1 2)).1.toInt = 1 ∧ (decodeBigram (encodeBigram 1 2)).2.toInt = 2 := by decide
    have hlog' : GoMath.log (GoFloat.ofRat 1 : F64) = fzero := hlog
    rw [d1.1, d1.2, d2.1, d2.2, hlog']
    rfl
  have hs : gloveSlices M raceOptions id = .ok [[raceItem 0], [raceItem 1]] := by
    unfold gloveSlices
    rw [hco]
    dsimp only [id]
    rw [hitems]
    have hi : indexPerThread raceOptions.goroutines [raceItem 0, raceItem 1].length = .ok [0, 1, 2] := by decide +kernel
    rw [hi, Res.ok_bind]
    rfl
  have hmem : M.mem 0 = raceMem := by
    unfold GloveModel.mem raceMem
    congr 1
    funext l
    cases l with
    | gradsq a b => rw [h2]
    | _ => rw [h1]
  have hwk : (gloveIter M raceOptions [[raceItem 0], [raceItem 1]]) = (.ret (), [raceWorker 0, raceWorker 1]) := by
    unfold gloveIter GloveModel.step raceWorker
    rw [h2, h3]
    rfl
  have hsc := race_schedule
  obtain ⟨mem, hsched, hcell⟩ : ∃ mem, schedule 27 28 1 (raceWorker 0) (raceWorker 1) raceMem = some mem ∧ mem.cell (.param 1 1) = GoFloat.ofRat (1 / 4) := by
    cases hc : schedule 27 28 1 (raceWorker 0) (raceWorker 1) raceMem with
    | none => rw [hc] at hsc; cases hsc
    | some mem => rw [hc] at hsc; exact ⟨mem, rfl, of_decide_eq_true (Option.some.inj hsc)⟩
  refine ⟨raceOptions, raceRand, racePass, M, M.after raceOptions mem, s', _, hM, h2, hs, rfl, .done M s' _ mem hM hs ?_, ?_⟩
  · show Pool.Iters _ 2 (M.mem 0) [] [gloveIter M raceOptions [[raceItem 0], [raceItem 1]]] mem
    rw [hwk, hmem]
    exact .cons _ _ _ _ _ _ _ _ (schedule_reach hsched _) (.nil _ _)
  · intro order hp he
    rw [h3] at hp
    have hk := race_orders order (List.mem_permutations'.2 hp)
    rw [h1] at he
    rw [he] at hk
    have hk := of_decide_eq_true hk
    have hsh := matrix_shaped mem .param (M.corpus.dic.len * 2) (raceOptions.dim.toNat + 1)
    have hv := hsh.getAt_val (i := 1) (j := 1) (by rw [h3]; omega) (by show 1 < 1 + 1; omega)
    unfold GloveModel.after at hk
    dsimp only at hk
    have hne : (GoFloat.ofRat (1 / 4) : F64) ≠ GoFloat.ofRat (1 / 16) := by decide +kernel
    rw [show ((1 : Int)) = ((1 : Nat) : Int) from rfl, hv] at hk
    rw [matrix_val mem .param (by rw [h3]; omega) (by show 1 < 1 + 1; omega), hcell] at hk
    exact hne (Res.ok.inj hk)

/-! ## The hypotheses of the proved part, met with goroutines that overlap

The corpus `a b c d`, `Goroutines(3)`: one pair per goroutine. Those of `a b` and `c d` run at the same time, that of `b c` afterwards. -/

def apartOptions : GloveOptions F64 := { raceOptions with goroutines := 3 }

def apartPass : Pass := ⟨['a', ' ', 'b', ' ', 'c', ' ', 'd'], false⟩

def apartChk : Res (GloveModel F64 × Nat) → Bool
  | .ok (M, _) => decide (M.gradsq = none ∧ M.corpus.dic.len = 4 ∧ M.corpus.cooc.map (·.encodedMatrix) =
      some [(encodeBigram 0 1, GoFloat.ofRat 1), (encodeBigram 1 2, GoFloat.ofRat 1), (encodeBigram 2 3, GoFloat.ofRat 1)])
  | _ => false

theorem apartChk_ok : apartChk (gloveSetup id raceRand apartOptions apartPass apartPass 0) = true := by decide +kernel

example (lib : LibM) : letI := lib.math
    ∃ (M : GloveModel F64) (s' : Nat) (a b c : List (GItem F64)) (mem : Mem F64), gloveSetup id raceRand apartOptions apartPass apartPass 0 = .ok (M, s') ∧ M.gradsq = none ∧
      gloveSlices M apartOptions id = .ok [a, b, c] ∧
      Pool.ReachApart (MemEnv.sc (fun _ => True) (fun _ q => q = [])) 3 ⟨M.mem 0, [.ret ()], (gloveIter M apartOptions [a, b, c]).2, []⟩
        ⟨M.mem 0, [.ret ()], [gloveWorkerP (M.step apartOptions) M.corpus.dic.len b],
          [gloveWorkerP (M.step apartOptions) M.corpus.dic.len a, gloveWorkerP (M.step apartOptions) M.corpus.dic.len c]⟩ ∧
      Pool.ItersApart (MemEnv.sc (fun _ => True) (fun _ q => q = [])) 3 (M.mem 0) [] (List.replicate apartOptions.iter.toNat (gloveIter M apartOptions [a, b, c])) mem := by
  let _ := lib.math
  have h := apartChk_ok
  unfold apartChk at h
  split at h
  swap
  · cases h
  next M s' hM =>
  obtain ⟨h2, h3, h4⟩ := of_decide_eq_true h
  obtain ⟨co, hco⟩ : ∃ co, M.corpus.cooc = some co := by
    cases hc : M.corpus.cooc with
    | none => rw [hc] at h4; cases h4
    | some co => exact ⟨co, rfl⟩
  rw [hco] at h4
  have h4 : co.encodedMatrix = [(encodeBigram 0 1, GoFloat.ofRat 1), (encodeBigram 1 2, GoFloat.ofRat 1), (encodeBigram 2 3, GoFloat.ofRat 1)] := Option.some.inj h4
  have hitem : ∀ i : Nat, i ≤ 2 → ∃ it : GItem F64, gloveItem apartOptions.xmax apartOptions.alpha (encodeBigram (BitVec.ofNat 64 i) (BitVec.ofNat 64 (i + 1)), GoFloat.ofRat 1) = it ∧
      it.l1 = i ∧ it.l2 = i + 1 := by
    intro i hi
    refine ⟨_, rfl, ?_⟩
    unfold gloveItem
    dsimp only
    interval_cases i <;> decide
  obtain ⟨a, ea, a1, a2⟩ := hitem 0 (by omega)
  obtain ⟨b, eb, b1, b2⟩ := hitem 1 (by omega)
  obtain ⟨c, ec, c1, c2⟩ := hitem 2 (by omega)
  have hs : gloveSlices M apartOptions id = .ok [[a], [b], [c]] := by
    unfold gloveSlices
    rw [hco]
    dsimp only [id]
    have e : gloveItems apartOptions.xmax apartOptions.alpha co.encodedMatrix = [a, b, c] := by
      rw [h4, ← ea, ← eb, ← ec]
      rfl
    rw [e]
    have hi : indexPerThread apartOptions.goroutines 3 = .ok [0, 1, 2, 3] := by decide +kernel
    show (indexPerThread apartOptions.goroutines 3 >>= _) = _
    rw [hi, Res.ok_bind]
    rfl
  have ok : ∀ it ∈ [a, b, c], ItemOK M.corpus.dic.len it := by
    intro it hi
    rw [h3]
    simp only [List.mem_cons, List.not_mem_nil, or_false] at hi
    rcases hi with rfl | rfl | rfl
    · exact ⟨0, 1, by simpa using a1, by simpa using a2, by omega, by omega⟩
    · exact ⟨1, 2, by simpa using b1, by simpa using b2, by omega, by omega⟩
    · exact ⟨2, 3, by simpa using c1, by simpa using c2, by omega, by omega⟩
  have dac : AllDisj ([[a], [c]].map (gloveWorkerP (M.step apartOptions) M.corpus.dic.len)) := by
    refine gloveWorkers_disj M apartOptions [[a], [c]] ?_ ?_
    · intro sl hsl it hi
      refine ok it ?_
      simp only [List.mem_cons, List.not_mem_nil, or_false] at hsl
      rcases hsl with rfl | rfl <;> simp only [List.mem_cons, List.not_mem_nil, or_false] at hi <;> simp [hi]
    · simp only [List.pairwise_cons, List.mem_cons, List.not_mem_nil, or_false, forall_eq, NoSharedWord, IsEmpty.forall_iff, implies_true, List.Pairwise.nil, and_true]
      rw [a1, a2, c1, c2]
      norm_num
  have db : AllDisj ([[b]].map (gloveWorkerP (M.step apartOptions) M.corpus.dic.len)) :=
    gloveWorkers_disj M apartOptions [[b]] (by
      intro sl hsl it hi
      refine ok it ?_
      simp only [List.mem_cons, List.not_mem_nil, or_false] at hsl
      subst hsl
      simp only [List.mem_cons, List.not_mem_nil, or_false] at hi
      simp [hi]) (by simp)
  simp only [List.map_cons, List.map_nil] at dac db
  have dc : [gloveWorkerP (M.step apartOptions) M.corpus.dic.len [c]].Pairwise Disj := by simp
  let env : MemEnv F64 := MemEnv.sc (fun _ => True) (fun _ q => q = [])
  have r1 : Pool.ReachApart env 3 ⟨M.mem 0, [.ret ()], (gloveIter M apartOptions [[a], [b], [c]]).2, []⟩
        ⟨M.mem 0, [.ret ()], [gloveWorkerP (M.step apartOptions) M.corpus.dic.len [b]],
          [gloveWorkerP (M.step apartOptions) M.corpus.dic.len [a], gloveWorkerP (M.step apartOptions) M.corpus.dic.len [c]]⟩ := by
    refine .step _ _ (.step _ _ .refl (.acquire (M.mem 0) [.ret ()] [gloveWorkerP (M.step apartOptions) M.corpus.dic.len [a], gloveWorkerP (M.step apartOptions) M.corpus.dic.len [b]]
      [] [] (gloveWorkerP (M.step apartOptions) M.corpus.dic.len [c]) (by simp)) dc) (.acquire (M.mem 0) [.ret ()] [] [gloveWorkerP (M.step apartOptions) M.corpus.dic.len [b]]
      _ (gloveWorkerP (M.step apartOptions) M.corpus.dic.len [a]) (by simp)) dac.disj
  obtain ⟨m1, r2⟩ := apart_finish (rand := fun _ => True) (path := fun _ q => q = []) (g := 3) [.ret ()] [gloveWorkerP (M.step apartOptions) M.corpus.dic.len [b]] _ (M.mem 0) dac
  obtain ⟨m2, r3⟩ := apart_finish (rand := fun _ => True) (path := fun _ q => q = []) (g := 3) [.ret ()] [] _ m1 db
  refine ⟨M, s', [a], [b], [c], m2, hM, h2, hs, r1, ?_⟩
  show Pool.ItersApart env 3 (M.mem 0) [] [gloveIter M apartOptions [[a], [b], [c]]] m2
  refine .cons _ _ _ _ _ _ _ _ (Pool.ReachApart.trans r1 (Pool.ReachApart.trans r2 (Pool.ReachApart.trans (.step _ _ .refl
    (.acquire m1 [.ret ()] [] [] [] (gloveWorkerP (M.step apartOptions) M.corpus.dic.len [b]) (by simp)) db.disj) r3))) (.nil _ _)

end Wego.Props
