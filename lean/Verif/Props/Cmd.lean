import Verif.Model.Cmd

/-! # C64, C65: the training commands -/

namespace Wego.Props
open Wego

theorem mkdirAll_same (fs : FS) (ps : List Path) (p : Path) (h : fs p ≠ none) : fs.mkdirAll ps p = fs p := by
  unfold FS.mkdirAll
  cases hp : fs p with
  | none => exact absurd hp h
  | some n => rfl

theorem put_other (fs : FS) (p q : Path) (n : Node) (h : q ≠ p) : fs.put p n q = fs q := by
  simp [FS.put, h]

theorem executeMain_frame (env : Env) (input output : Path) (run : List Char → TrainOutcome) (fs : FS) (p : Path)
    (h : fs p ≠ none) : (executeMain env input output run fs).1 p = fs p := by
  unfold executeMain
  split
  · rfl
  · next hout =>
    have hpo : p ≠ output := by
      rintro rfl
      simp only [FS.exists, Bool.not_eq_true, Option.isSome_eq_false_iff, Option.isNone_iff_eq_none] at hout
      exact h hout
    split
    · rfl
    · dsimp only
      split
      · exact mkdirAll_same _ _ _ h
      · split
        · exact mkdirAll_same _ _ _ h
        · split
          · refine (put_other _ _ _ _ hpo).trans ?_; exact mkdirAll_same _ _ _ h
          · split
            · refine (put_other _ _ _ _ hpo).trans ?_; exact mkdirAll_same _ _ _ h
            · refine (put_other _ _ _ _ hpo).trans ?_; exact mkdirAll_same _ _ _ h
            · refine (put_other _ _ _ _ hpo).trans ?_; refine (put_other _ _ _ _ hpo).trans ?_; exact mkdirAll_same _ _ _ h

/-- **C64 (nothing is overwritten).** Whatever the system calls and the training do, everything that existed
before the command is the same afterwards, except `cpu.prof` when profiling is on. -/
theorem C64_nothing_overwritten (env : Env) (prof : Bool) (input output : Path) (run : List Char → TrainOutcome)
    (fs : FS) (p : Path) (h : fs p ≠ none) (hp : prof = true → p ≠ cpuProf) :
    (execute env prof input output run fs).1 p = fs p := by
  unfold execute
  split
  · next h1 =>
    split
    · rfl
    · have h2 := hp h1
      rw [executeMain_frame _ _ _ _ _ _ (by rw [put_other _ _ _ _ h2]; exact h), put_other _ _ _ _ h2]
  · exact executeMain_frame _ _ _ _ _ _ h

/-- A file system with the one file `in`, holding `a b`. -/
def cmdFS : FS := fun p => if p = "in".toList then some (.file "a b".toList) else none
/-- Nothing fails. -/
def cmdEnv : Env := ⟨[], false, false, false, false⟩

/-- `C64_nothing_overwritten`: `in` survives a run that writes to `out`. -/
example (run : List Char → TrainOutcome) :=
  C64_nothing_overwritten cmdEnv true "in".toList "out".toList run cmdFS "in".toList (by decide) (fun _ => by decide)

/-- **C64 (refusals).** An existing output makes the command fail, and a missing input makes it fail; in both
cases it changes nothing at all (apart from creating `cpu.prof` when profiling is on). -/
theorem C64_refusals (env : Env) (prof : Bool) (input output : Path) (run : List Char → TrainOutcome) (fs : FS)
    (hpf : prof = true → output ≠ cpuProf ∧ input ≠ cpuProf)
    (h : fs output ≠ none ∨ fs input = none) :
    (∃ e, (execute env prof input output run fs).2 = .err e) ∧
    ∀ p, (prof = true → p ≠ cpuProf) → (execute env prof input output run fs).1 p = fs p := by
  have main : ∀ fs : FS, (fs output ≠ none ∨ fs input = none) →
      (∃ e, (executeMain env input output run fs).2 = .err e) ∧ (executeMain env input output run fs).1 = fs := by
    intro fs h
    unfold executeMain
    by_cases ho : fs.exists output = true
    · rw [if_pos ho]; exact ⟨⟨_, rfl⟩, rfl⟩
    · rw [if_neg ho]
      have hi : fs input = none := by
        rcases h with h | h
        · simp only [FS.exists, Bool.not_eq_true, Option.isSome_eq_false_iff, Option.isNone_iff_eq_none] at ho
          exact absurd ho h
        · exact h
      rw [if_pos (by simp [FS.exists, hi])]
      exact ⟨⟨_, rfl⟩, rfl⟩
  unfold execute
  split
  · next h1 =>
    obtain ⟨h2, h3⟩ := hpf h1
    split
    · exact ⟨⟨_, rfl⟩, fun _ _ => rfl⟩
    · obtain ⟨he, hs⟩ := main (fs.put cpuProf (.file [])) (by rw [put_other _ _ _ _ h2, put_other _ _ _ _ h3]; exact h)
      refine ⟨he, ?_⟩
      intro p hp
      rw [hs]; exact put_other _ _ _ _ (hp h1)
  · obtain ⟨he, hs⟩ := main fs h
    exact ⟨he, fun p _ => by rw [hs]⟩

/-- `C64_refusals`: the output file `in` exists; the input file `none` does not. -/
example (run : List Char → TrainOutcome) :=
  C64_refusals cmdEnv true "in".toList "in".toList run cmdFS (fun _ => by decide) (.inl (by decide))
example (run : List Char → TrainOutcome) :=
  C64_refusals cmdEnv false "none".toList "out".toList run cmdFS (by decide) (.inr (by decide))

/-- The excluded case is real: profiling with output `cpu.prof` empties an existing file of that name. -/
theorem C64_prof_corner (env : Env) (hp : env.profFails = false) (input : Path) (run : List Char → TrainOutcome)
    (fs : FS) : execute env true input cpuProf run fs = (fs.put cpuProf (.file []), .err .outputExists) := by
  simp [execute, hp, executeMain, FS.exists, FS.put]

/-- `C64_prof_corner` on `cmdFS`. -/
example (run : List Char → TrainOutcome) := C64_prof_corner cmdEnv rfl "in".toList run cmdFS

/-- **C64 (success).** The command succeeds only if the output did not exist and the input did, and then the
output holds exactly what `Save` wrote. -/
theorem C64_success (env : Env) (input output : Path) (run : List Char → TrainOutcome) (fs : FS)
    (h : (execute env false input output run fs).2 = .ok ()) :
    fs output = none ∧ fs input ≠ none ∧
      ∃ content, run (fs.read input) = .saved content (.ok ()) ∧
        (execute env false input output run fs).1 output = some (.file content) := by
  unfold execute executeMain at *
  simp only [Bool.false_eq_true, if_false] at *
  by_cases ho : fs.exists output = true
  · rw [if_pos ho] at h; simp at h
  rw [if_neg ho] at h ⊢
  by_cases hi : (!fs.exists input) = true
  · rw [if_pos hi] at h; simp at h
  rw [if_neg hi] at h ⊢
  have hon : fs output = none := by simpa [FS.exists] using ho
  have hin : fs input ≠ none := by
    intro h2; apply hi; simp [FS.exists, h2]
  have hio : input ≠ output := by rintro rfl; exact hin hon
  refine ⟨hon, hin, ?_⟩
  by_cases h1 : env.mkdirFails = true
  · rw [if_pos h1] at h; simp at h
  rw [if_neg h1] at h ⊢
  by_cases h2 : env.createFails = true
  · rw [if_pos h2] at h; simp at h
  rw [if_neg h2] at h ⊢
  by_cases h3 : env.openFails = true
  · rw [if_pos h3] at h; simp at h
  rw [if_neg h3] at h ⊢
  have hread : ((fs.mkdirAll env.mkdirs).put output (.file [])).read input = fs.read input := by
    unfold FS.read
    rw [put_other _ _ _ _ hio, mkdirAll_same _ _ _ hin]
  rw [hread] at h ⊢
  cases hr : run (fs.read input) with
  | trainErr e => rw [hr] at h; simp at h
  | trainPanic p => rw [hr] at h; simp at h
  | saved content res =>
    rw [hr] at h
    simp only at h
    subst h
    exact ⟨content, rfl, by simp [FS.put]⟩

/-- `C64_success`: training and saving succeed, with file content `a 1`. -/
example := C64_success cmdEnv "in".toList "out".toList (fun _ => .saved "a 1".toList (.ok ())) cmdFS (by decide)

/-- **C65 is false of the code.** Whenever the command gets as far as creating the output and then the input
cannot be opened or training fails, an empty output file is left behind, and every later run of the command
(whatever the system does) fails because the output exists. -/
theorem C65_false (env env' : Env) (input output : Path) (run : List Char → TrainOutcome) (fs : FS)
    (ho : fs output = none) (hi : fs input ≠ none) (h1 : env.mkdirFails = false) (h2 : env.createFails = false)
    (h3 : env.openFails = true ∨ ∃ e, run (fs.read input) = .trainErr e) :
    (∃ e, (execute env false input output run fs).2 = .err e) ∧
    (execute env false input output run fs).1 output = some (.file []) ∧
    (execute env' false input output run (execute env false input output run fs).1).2 = .err .outputExists := by
  have hio : input ≠ output := by rintro rfl; exact hi ho
  have hread : ((fs.mkdirAll env.mkdirs).put output (.file [])).read input = fs.read input := by
    unfold FS.read
    rw [put_other _ _ _ _ hio, mkdirAll_same _ _ _ hi]
  have hex : fs.exists output = false := by simp [FS.exists, ho]
  have hexi : fs.exists input = true := by
    cases h : fs input with
    | none => exact absurd h hi
    | some n => simp [FS.exists, h]
  have key : ∃ e, execute env false input output run fs = ((fs.mkdirAll env.mkdirs).put output (.file []), .err e) := by
    unfold execute executeMain
    simp only [Bool.false_eq_true, if_false, hex, hexi, h1, h2, Bool.not_true]
    by_cases hof : env.openFails = true
    · rw [if_pos hof]; exact ⟨_, rfl⟩
    · rw [if_neg hof]
      rcases h3 with h3 | ⟨e, h3⟩
      · exact absurd h3 hof
      · rw [hread, h3]; exact ⟨_, rfl⟩
  obtain ⟨e, he⟩ := key
  rw [he]
  refine ⟨⟨e, rfl⟩, by simp [FS.put], ?_⟩
  simp [execute, executeMain, FS.exists, FS.put]

/-- `C65_false`: training fails on the one input file. -/
example (e : Err) := C65_false cmdEnv cmdEnv "in".toList "out".toList (fun _ => .trainErr e) cmdFS (by decide) (by decide) rfl rfl
  (.inr ⟨e, rfl⟩)

/-- **C65 (what holds).** A failure before the output is created (output exists, input missing, the directory or
the output cannot be created) leaves no output file that was not there before. -/
theorem C65_early_failure_partial (env : Env) (input output : Path) (run : List Char → TrainOutcome) (fs : FS)
    (ho : fs output = none) (hd : output ∉ env.mkdirs)
    (h : fs input = none ∨ env.mkdirFails = true ∨ env.createFails = true) :
    (∃ e, (execute env false input output run fs).2 = .err e) ∧
    (execute env false input output run fs).1 output = none := by
  have hex : fs.exists output = false := by simp [FS.exists, ho]
  have hm : fs.mkdirAll env.mkdirs output = none := by simp [FS.mkdirAll, ho, hd]
  unfold execute executeMain
  simp only [Bool.false_eq_true, if_false, hex]
  by_cases hi : (!fs.exists input) = true
  · rw [if_pos hi]; exact ⟨⟨_, rfl⟩, ho⟩
  · rw [if_neg hi]
    by_cases h1 : env.mkdirFails = true
    · rw [if_pos h1]; exact ⟨⟨_, rfl⟩, hm⟩
    · rw [if_neg h1]
      have h2 : env.createFails = true := by
        rcases h with h | h | h
        · simp [FS.exists, h] at hi
        · exact absurd h h1
        · exact h
      rw [if_pos h2]; exact ⟨⟨_, rfl⟩, hm⟩

/-- `C65_early_failure_partial`: the input file is missing. -/
example (run : List Char → TrainOutcome) := C65_early_failure_partial cmdEnv "none".toList "out".toList run cmdFS (by decide) (by decide)
  (.inl (by decide))

/-- A file system with an input and no output meets the hypotheses of C64 (success) and C65. -/
example : ∃ fs : FS, fs "out".toList = none ∧ fs "in".toList ≠ none :=
  ⟨fun p => if p = "in".toList then some (.file "a b".toList) else none, by decide, by decide⟩

end Wego.Props
