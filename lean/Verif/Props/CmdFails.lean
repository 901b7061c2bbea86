import Verif.Props.TrainOk

/-! # C89: how a training command reports a training that fails -/

namespace Wego.Props
open Wego Wego.Spec
variable {σ : Type}

/-- the command's result is `out` (an error or a panic) and the output file it has created is empty -/
def FailsWith (env : Env) (input output : Path) (run : List Char → TrainOutcome) (fs : FS) (out : Res Unit) : Prop :=
  (execute env false input output run fs).2 = out ∧ (execute env false input output run fs).1 output = some (.file [])

theorem command_fails (env : Env) (input output : Path) (run : List Char → TrainOutcome) (fs : FS) (hin : fs input ≠ none) (hout : fs output = none)
    (h1 : env.mkdirFails = false) (h2 : env.createFails = false) (h3 : env.openFails = false) :
    (∀ e, run (fs.read input) = .trainErr e → FailsWith env input output run fs (.err e)) ∧
    ∀ x, run (fs.read input) = .trainPanic x → FailsWith env input output run fs (.panic x) := by
  have hne : input ≠ output := by rintro rfl; exact hin hout
  have hread : ((fs.mkdirAll env.mkdirs).put output (.file [])).read input = fs.read input := by
    unfold FS.read
    rw [put_other _ _ _ _ hne]
    cases hf : fs input with
    | none => exact absurd hf hin
    | some n => simp [FS.mkdirAll, hf]
  have a : fs.exists output = false := by simp [FS.exists, hout]
  have b : fs.exists input = true := by
    cases hf : fs input with
    | none => exact absurd hf hin
    | some n => simp [FS.exists, hf]
  constructor
  · intro e hr
    unfold FailsWith execute executeMain
    simp [a, b, h1, h2, h3, hread, hr, FS.put]
  · intro e hr
    unfold FailsWith execute executeMain
    simp [a, b, h1, h2, h3, hread, hr, FS.put]

variable (lib : LibM) (menv : MemEnv F64) (env : Env) (lower : Word → Word) (enum : GoMap (BitVec 64) F64 → List (BitVec 64 × F64)) (henum : ∀ m, (enum m).Perm m)
  (r : σ → F64 × σ) (s : σ) (next : UInt64) (typ : Word) (input output : Path) (fs : FS) (hin : fs input ≠ none) (hout : fs output = none)
  (henv : env.mkdirFails = false ∧ env.createFails = false ∧ env.openFails = false) (run : List Char → TrainOutcome)
include hin hout henv

/-- **C89 (word2vec).** If the execution of `Train` that the command made returned the error `e`, so does the command; if it panicked, so does the command. -/
theorem C89_word2vec (o : W2VOptions F64) (res : Res (W2VModel F64)) (_ht : letI := lib.math; W2VTrain menv lower r o ⟨fs.read input, false⟩ s next res)
    (hrun : run (fs.read input) = w2vOutcome o typ res) :
    (∀ e, res = .err e → FailsWith env input output run fs (.err e)) ∧ ∀ x, res = .panic x → FailsWith env input output run fs (.panic x) := by
  obtain ⟨f, g⟩ := command_fails env input output run fs hin hout henv.1 henv.2.1 henv.2.2
  exact ⟨fun e he => f e (by rw [hrun, he]; rfl), fun x hx => g x (by rw [hrun, hx]; rfl)⟩

/-- **C89 (GloVe).** -/
theorem C89_glove (o : GloveOptions F64) (res : Res (GloveModel F64)) (_ht : letI := lib.math; GloveTrain menv lower enum r o ⟨fs.read input, false⟩ s next res)
    (hrun : run (fs.read input) = gloveOutcome o typ res) :
    (∀ e, res = .err e → FailsWith env input output run fs (.err e)) ∧ ∀ x, res = .panic x → FailsWith env input output run fs (.panic x) := by
  obtain ⟨f, g⟩ := command_fails env input output run fs hin hout henv.1 henv.2.1 henv.2.2
  exact ⟨fun e he => f e (by rw [hrun, he]; rfl), fun x hx => g x (by rw [hrun, hx]; rfl)⟩

/-- **C89 (LexVec).** -/
theorem C89_lexvec (o : LexvecOptions F64) (res : Res (LexModel F64)) (_ht : letI := lib.math; LexTrain menv lower enum r o ⟨fs.read input, false⟩ s next res)
    (hrun : run (fs.read input) = lexOutcome o typ res) :
    (∀ e, res = .err e → FailsWith env input output run fs (.err e)) ∧ ∀ x, res = .panic x → FailsWith env input output run fs (.panic x) := by
  obtain ⟨f, g⟩ := command_fails env input output run fs hin hout henv.1 henv.2.1 henv.2.2
  exact ⟨fun e he => f e (by rw [hrun, he]; rfl), fun x hx => g x (by rw [hrun, hx]; rfl)⟩

/-- **C89 (word2vec, unknown types).** With an unknown model or optimizer type the command returns an error for every input, whatever the schedule. -/
theorem C89_word2vec_unknown (o : W2VOptions F64) (hdim : 0 ≤ o.dim) (hg : 0 ≤ o.goroutines)
    (h : (o.modelType ≠ "skipgram".toList ∧ o.modelType ≠ "cbow".toList) ∨ (o.optimizerType ≠ "ns".toList ∧ o.optimizerType ≠ "hs".toList))
    (hrun : RunsW2V lib menv lower r o s next typ run (fs.read input)) : ∃ e, FailsWith env input output run fs (.err e) := by
  let _ := lib.math
  obtain ⟨res, ht, e⟩ := hrun
  obtain ⟨x, hx, _⟩ := C36_word2vec (F := F64) lower r o hdim hg h ⟨fs.read input, false⟩ ⟨fs.read input, false⟩ s (fun _ => .ok ())
  have hs : w2vSetup lower r o ⟨fs.read input, false⟩ ⟨fs.read input, false⟩ s = .err x := by
    unfold trainWith at hx
    revert hx
    generalize w2vSetup lower r o ⟨fs.read input, false⟩ ⟨fs.read input, false⟩ s = q
    cases q <;> intro hx <;> cases hx
    rfl
  refine ⟨x, (C89_word2vec lib menv env lower r s next typ input output fs hin hout henv run o res ht e).1 x ?_⟩
  cases ht with
  | setupErr e h => rw [hs] at h; cases h; rfl
  | setupPanic x h => rw [hs] at h; cases h
  | slicePanic M s' x h hd => rw [hs] at h; cases h
  | panics M s' docs x h hd hi => rw [hs] at h; cases h
  | producerPanic M s' b x h hm hi hp => rw [hs] at h; cases h
  | done M s' docs mem h hp hd hi => rw [hs] at h; cases h

/-- **C89 (GloVe, unknown types).** -/
theorem C89_glove_unknown (o : GloveOptions F64) (hdim : 0 ≤ o.dim)
    (h : (o.countType ≠ "inc".toList ∧ o.countType ≠ "prox".toList) ∨
      ((o.docInMemory = true ∨ 1 ≤ o.window) ∧ o.solverType ≠ "sgd".toList ∧ o.solverType ≠ "adagrad".toList))
    (hrun : RunsGlove lib menv lower enum r o s next typ run (fs.read input)) : ∃ e, FailsWith env input output run fs (.err e) := by
  let _ := lib.math
  obtain ⟨res, ht, e⟩ := hrun
  obtain ⟨x, hx⟩ := C36_glove (F := F64) lower r o hdim h ⟨fs.read input, false⟩ ⟨fs.read input, false⟩ s (fun _ => .ok ())
  have hs : gloveSetup lower r o ⟨fs.read input, false⟩ ⟨fs.read input, false⟩ s = .err x := by
    unfold trainWith at hx
    revert hx
    generalize gloveSetup lower r o ⟨fs.read input, false⟩ ⟨fs.read input, false⟩ s = q
    cases q <;> intro hx <;> cases hx
    rfl
  refine ⟨x, (C89_glove lib menv env lower enum r s next typ input output fs hin hout henv run o res ht e).1 x ?_⟩
  cases ht with
  | setupErr e h => rw [hs] at h; cases h; rfl
  | setupPanic x h => rw [hs] at h; cases h
  | slicePanic M s' x h hd => rw [hs] at h; cases h
  | panics M s' docs x h hd hi => rw [hs] at h; cases h
  | done M s' docs mem h hd hi => rw [hs] at h; cases h

omit hin hout henv in
/-- Non-vacuity: the GloVe command with solver `x` on the corpus `a b a`: the execution exists, the command fails with an error and leaves an empty output. -/
example : ∃ run, RunsGlove lib menv lower enum r { GloveOptions.default (F := F64) 1 with solverType := ['x'] } s next typ run (exampleFS.read ['i', 'n']) ∧
    ∃ e, FailsWith exampleEnv ['i', 'n'] ['o'] run exampleFS (.err e) := by
  let _ := lib.math
  let o : GloveOptions F64 := { GloveOptions.default (F := F64) 1 with solverType := ['x'] }
  have hu : (o.countType ≠ "inc".toList ∧ o.countType ≠ "prox".toList) ∨
      ((o.docInMemory = true ∨ 1 ≤ o.window) ∧ o.solverType ≠ "sgd".toList ∧ o.solverType ≠ "adagrad".toList) :=
    .inr ⟨.inr (by show (1 : Int) ≤ 5; omega), (by decide : ['x'] ≠ "sgd".toList), (by decide : ['x'] ≠ "adagrad".toList)⟩
  obtain ⟨x, hx⟩ := C36_glove (F := F64) lower r o (by show (0 : Int) ≤ 10; omega) hu ⟨exampleFS.read ['i', 'n'], false⟩ ⟨exampleFS.read ['i', 'n'], false⟩ s (fun _ => .ok ())
  have hs : gloveSetup lower r o ⟨exampleFS.read ['i', 'n'], false⟩ ⟨exampleFS.read ['i', 'n'], false⟩ s = .err x := by
    unfold trainWith at hx
    revert hx
    generalize gloveSetup lower r o ⟨exampleFS.read ['i', 'n'], false⟩ ⟨exampleFS.read ['i', 'n'], false⟩ s = q
    cases q <;> intro hx <;> cases hx
    rfl
  have hr : RunsGlove lib menv lower enum r o s next typ (fun _ => gloveOutcome o typ (.err x)) (exampleFS.read ['i', 'n']) := ⟨.err x, .setupErr x hs, rfl⟩
  exact ⟨_, hr, C89_glove_unknown lib menv exampleEnv lower enum r s next typ ['i', 'n'] ['o'] exampleFS (by simp [exampleFS]) (by simp [exampleFS]) ⟨rfl, rfl, rfl⟩ _ o
    (by show (0 : Int) ≤ 10; omega) hu hr⟩

omit hin hout henv in
/-- `C89_word2vec_unknown` (and with it `C89_word2vec`) on the corpus `a b a` with model type `x`: the execution exists and the command fails. -/
example : ∃ run, RunsW2V lib menv lower r { W2VOptions.default (F := F64) 1 with modelType := ['x'] } s next typ run (exampleFS.read ['i', 'n']) ∧
    ∃ e, FailsWith exampleEnv ['i', 'n'] ['o'] run exampleFS (.err e) := by
  let _ := lib.math
  let o : W2VOptions F64 := { W2VOptions.default (F := F64) 1 with modelType := ['x'] }
  have hu : (o.modelType ≠ "skipgram".toList ∧ o.modelType ≠ "cbow".toList) ∨ (o.optimizerType ≠ "ns".toList ∧ o.optimizerType ≠ "hs".toList) :=
    .inl ⟨(by decide : ['x'] ≠ "skipgram".toList), (by decide : ['x'] ≠ "cbow".toList)⟩
  obtain ⟨x, hx, _⟩ := C36_word2vec (F := F64) lower r o (by show (0 : Int) ≤ 10; omega) (by show (0 : Int) ≤ 1; omega) hu
    ⟨exampleFS.read ['i', 'n'], false⟩ ⟨exampleFS.read ['i', 'n'], false⟩ s (fun _ => .ok ())
  have hs : w2vSetup lower r o ⟨exampleFS.read ['i', 'n'], false⟩ ⟨exampleFS.read ['i', 'n'], false⟩ s = .err x := by
    unfold trainWith at hx
    revert hx
    generalize w2vSetup lower r o ⟨exampleFS.read ['i', 'n'], false⟩ ⟨exampleFS.read ['i', 'n'], false⟩ s = q
    cases q <;> intro hx <;> cases hx
    rfl
  have hr : RunsW2V lib menv lower r o s next typ (fun _ => w2vOutcome o typ (.err x)) (exampleFS.read ['i', 'n']) := ⟨.err x, .setupErr x hs, rfl⟩
  exact ⟨_, hr, C89_word2vec_unknown lib menv exampleEnv lower r s next typ ['i', 'n'] ['o'] exampleFS (by simp [exampleFS]) (by simp [exampleFS]) ⟨rfl, rfl, rfl⟩ _ o
    (by show (0 : Int) ≤ 10; omega) (by show (0 : Int) ≤ 1; omega) hu hr⟩

end Wego.Props
