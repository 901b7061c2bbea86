import Verif.Props.ObjectStale

/-! # C87, continued: a `Train` that fails after it read the document leaves untrained vectors that `Save` accepts -/

namespace Wego.Props
open Wego Wego.Spec Wego.Matrix
variable {F : Type} {σ : Type}

section
variable [GoFloat F]

/-- the fields after a set-up that failed although the corpus was loaded -/
theorem gloveSetupObj_late_err (lower : Word → Word) (r : σ → F × σ) (o : GloveOptions F) (dim : Nat) (hdim : o.dim = dim) (p1 p2 : Pass) (s : σ) (x : ModelObj F)
    (c : CorpusState F) (hc : loadCorpus o.docInMemory (o.corpus lower) p1 p2 (some ⟨String.ofList o.countType, o.window⟩) = .ok c) :
    ∃ P, Shaped P (c.dic.len * 2) (dim + 1) ∧ (gloveSetupObj lower r o p1 p2 s x).1 = { x with corpus := some c, param := some P } := by
  rw [← loadState_res] at hc
  unfold gloveSetupObj
  dsimp only
  rw [hc, ctlRes_ok hc]
  obtain ⟨m, s1, e1, q1⟩ := randMatrix_ok r (fun x : F => x /. GoFloat.ofRat (o.dim : ℚ)) (c.dic.len * 2) (dim + 1) s
  push_cast at e1
  rw [hdim] at e1 ⊢
  dsimp only
  rw [e1]
  exact ⟨m, q1, rfl⟩

end

section
variable [GoMath F]

theorem lexSetupObj_late_err (lower : Word → Word) (enum : GoMap (BitVec 64) F → List (BitVec 64 × F)) (r : σ → F × σ) (o : LexvecOptions F) (dim : Nat) (hdim : o.dim = dim)
    (p1 p2 : Pass) (s : σ) (x : ModelObj F)
    (c : CorpusState F) (hc : loadCorpus o.docInMemory (o.corpus lower) p1 p2 (some ⟨countInc, o.window⟩) = .ok c) :
    ∃ P, Shaped P (c.dic.len * 2) dim ∧ (lexSetupObj lower enum r o p1 p2 s x).1 = { x with corpus := some c, param := some P } := by
  rw [← loadState_res] at hc
  unfold lexSetupObj
  dsimp only
  rw [hc, ctlRes_ok hc]
  obtain ⟨m, s1, e1, q1⟩ := randMatrix_ok r (initValue (F := F) o.dim) (c.dic.len * 2) dim s
  push_cast at e1
  rw [hdim] at e1 ⊢
  dsimp only
  rw [e1]
  exact ⟨m, q1, rfl⟩

theorem w2vSetupObj_late_err (lower : Word → Word) (r : σ → F × σ) (o : W2VOptions F) (dim : Nat) (hdim : o.dim = dim) (p1 p2 : Pass) (s : σ) (x : ModelObj F)
    (c : CorpusState F) (hc : loadCorpus o.docInMemory (o.corpus lower) p1 p2 none = .ok c) (e : Err) (he : (w2vSetupObj lower r o p1 p2 s x).2 = .err e) :
    ∃ P, Shaped P c.dic.len dim ∧ (w2vSetupObj lower r o p1 p2 s x).1 = { x with corpus := some c, param := some P } := by
  rw [← loadState_res] at hc
  unfold w2vSetupObj at he ⊢
  generalize (sigTable : List F) = tb at he ⊢
  dsimp only at he ⊢
  rw [hc] at he ⊢
  rw [ctlRes_ok hc]
  obtain ⟨m, s1, e1, q1⟩ := randMatrix_ok r (initValue (F := F) o.dim) c.dic.len dim s
  rw [hdim] at e1 he ⊢
  dsimp only at he ⊢
  rw [e1] at he ⊢
  dsimp only at he ⊢
  split at he
  · exact ⟨m, q1, rfl⟩
  · cases he
  · cases he

theorem w2v_load_readable (im : Bool) (cfg : CorpusCfg) (p : Pass) (ws : List Word) (h : Readable p ws) :
    ∃ c : CorpusState F, loadCorpus im cfg p p none = .ok c ∧ addCalls [ws.map cfg.norm] = .ok c.dic := by
  unfold loadCorpus
  cases im with
  | true => obtain ⟨c, h1, h2, _, _, _, h6⟩ := memLoad_readable (F := F) cfg h; exact ⟨c, h6 none, by simp [addCalls, h1]⟩
  | false => obtain ⟨c, h1, h2, _, _, _, h6, _⟩ := fsLoad_readable (F := F) cfg h; exact ⟨c, h6, by simp [addCalls, h1]⟩

end

variable (lib : LibM) (menv : MemEnv F64) (lower : Word → Word) (enum : GoMap (BitVec 64) F64 → List (BitVec 64 × F64)) (r : σ → F64 × σ) (dim : Nat)
  (x x' : ModelObj F64) (p : Pass) (ws : List Word) (h : Readable p ws)
include h

/-- **C87 (word2vec, invalid options).** When `Train` returns an error although the reader delivered the whole document (an unknown model or optimizer), `Save` nevertheless
returns nil and writes a vector - never trained - for every word, in place of the vectors there were. -/
theorem C87_word2vec_untrained (o : W2VOptions F64) (hdim : o.dim = dim) (hv : o.verbose = false ∨ o.logBatch ≠ 0) (hopt : x.opt = none)
    (e : Err) (ht : W2VCalls lib menv lower r o x p x' (.err e)) :
    Holds (ws.map (o.corpus lower).norm) dim x' (w2vObjVector o.dim x') o.verbose o.logBatch := by
  let _ := lib.math
  obtain ⟨late, s, next, -, ht⟩ := ht
  obtain ⟨c, hc, hd⟩ := w2v_load_readable (F := F64) o.docInMemory (o.corpus lower) p ws h
  cases ht with
  | setupErr _ he =>
    obtain ⟨P, hP, e1⟩ := w2vSetupObj_late_err lower r o dim hdim p p s x c hc e he
    rw [e1]
    refine holds_core hd dim _ rfl _ (fun typ => ?_) _ _ hv
    obtain ⟨m, q1, q2, _⟩ := newRes_copy hP (le_refl c.dic.len) (le_refl dim)
    refine ⟨m, ?_, q2.row, q2.col, q2.len⟩
    unfold w2vObjVector
    dsimp only
    rw [hopt, hdim]
    exact q1

/-- **C87 (LexVec, invalid options).** An unknown relation. -/
theorem C87_lexvec_untrained (o : LexvecOptions F64) (hdim : o.dim = dim) (hwin : o.docInMemory = true ∨ 1 ≤ o.window) (hv : o.verbose = false ∨ o.logBatch ≠ 0)
    (e : Err) (ht : LexCalls lib menv lower enum r o x p x' (.err e)) :
    Holds (ws.map (o.corpus lower).norm) dim x' (objVector o.dim x') o.verbose o.logBatch := by
  let _ := lib.math
  obtain ⟨late, s, next, -, ht⟩ := ht
  obtain ⟨c, hc⟩ := load_inc_ok (F := F64) o.docInMemory (o.corpus lower) o.window hwin p ws h
  obtain ⟨hd, _⟩ := load_cooc_readable o.docInMemory (o.corpus lower) _ _ hwin p ws h c hc
  cases ht with
  | setupErr _ he =>
    obtain ⟨P, hP, e1⟩ := lexSetupObj_late_err lower enum r o dim hdim p p s x c hc
    rw [e1]
    refine holds_core hd dim _ rfl _ (fun typ => ?_) _ _ hv
    rw [objVector_lex, hdim]
    exact C43_lexvec_shape _ _ P hP typ

/-- **C87 (GloVe, invalid options).** An unknown solver. -/
theorem C87_glove_untrained (o : GloveOptions F64) (hdim : o.dim = dim) (hwin : o.docInMemory = true ∨ 1 ≤ o.window) (hct : o.countType = "inc".toList)
    (hv : o.verbose = false ∨ o.logBatch ≠ 0) (e : Err) (ht : GloveCalls lib menv lower enum r o x p x' (.err e)) :
    Holds (ws.map (o.corpus lower).norm) dim x' (objVector o.dim x') o.verbose o.logBatch := by
  let _ := lib.math
  obtain ⟨s, next, ht⟩ := ht
  have hload : ∃ c : CorpusState F64, loadCorpus o.docInMemory (o.corpus lower) p p (some ⟨String.ofList o.countType, o.window⟩) = .ok c := by
    rw [hct, show String.ofList "inc".toList = countInc by simp [countInc]]
    exact load_inc_ok o.docInMemory (o.corpus lower) o.window hwin p ws h
  obtain ⟨c, hc⟩ := hload
  obtain ⟨hd, _⟩ := load_cooc_readable o.docInMemory (o.corpus lower) _ _ hwin p ws h c hc
  cases ht with
  | setupErr _ he =>
    obtain ⟨P, hP, e1⟩ := gloveSetupObj_late_err lower r o dim hdim p p s x c hc
    rw [e1]
    refine holds_core hd dim _ rfl _ (fun typ => ?_) _ _ hv
    rw [objVector_glove, hdim]
    exact C43_glove_shape _ _ P hP typ

omit h in
/-- The hypotheses are met: GloVe with the solver `adam` on `a b a`. -/
example (r : σ → F64 × σ) (s : σ) : ∃ x' e,
    GloveCalls lib menv id id r { GloveOptions.default 1 with solverType := "adam".toList } (ModelObj.new (GoFloat.ofRat 0)) ⟨"a b a".toList, false⟩ x' (.err e) := by
  let _ := lib.math
  let o : GloveOptions F64 := { GloveOptions.default 1 with solverType := "adam".toList }
  have hrd : Readable ⟨"a b a".toList, false⟩ ["a".toList, "b".toList, "a".toList] := ⟨isWords_fields "a b a".toList, rfl, by decide⟩
  obtain ⟨c, hc⟩ := load_inc_ok (F := F64) o.docInMemory (o.corpus id) o.window (.inr (by show (1 : Int) ≤ 5; omega)) _ _ hrd
  obtain ⟨m, s1, e1, q1⟩ := randMatrix_ok r (fun x : F64 => x /. GoFloat.ofRat (10 : ℚ)) (c.dic.len * 2) (10 + 1) s
  refine ⟨_, .invalidSolver, s, 0, .setupErr _ ?_⟩
  rw [gloveSetupObj_res]
  unfold gloveSetup
  have hct : String.ofList (GloveOptions.default 1 : GloveOptions F64).countType = countInc := rfl
  dsimp only
  rw [hct]
  rw [show loadCorpus o.docInMemory (o.corpus id) _ _ (some ⟨countInc, o.window⟩) = .ok c from hc, Res.ok_bind]
  push_cast at e1
  have e2 : randMatrix r (fun x : F64 => x /. GoFloat.ofRat (((GloveOptions.default 1 : GloveOptions F64).dim : Int) : ℚ)) ((c.dic.len : Int) * 2)
      ((GloveOptions.default 1 : GloveOptions F64).dim + 1) s = .ok (m, s1) := by
    have hd : (GloveOptions.default 1 : GloveOptions F64).dim = 10 := rfl
    rw [hd]
    push_cast
    exact e1
  rw [e2, Res.ok_bind]
  rfl

end Wego.Props
