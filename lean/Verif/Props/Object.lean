import Verif.Proofs.Object
import Verif.Props.TrainOk

/-! # C85-C88: histories of calls on one model object -/

namespace Wego.Props
open Wego Wego.Spec Wego.Matrix
variable {F : Type} {σ : Type}

/-! ## Readers that fail -/

/-- The reader delivers the words `ws` and then fails: with an error of its own, or because the next word has 64 KiB or more. -/
def BreaksAfter (p : Pass) (ws : List Word) : Prop :=
  (∀ w ∈ ws, utf8Len w ≤ 65533) ∧
    ((IsWords p.text ws ∧ p.fails = true) ∨ ∃ w post, IsWords p.text (ws ++ w :: post) ∧ 65536 ≤ utf8Len w)

theorem BreaksAfter.scan {p : Pass} {ws : List Word} (h : BreaksAfter p ws) : ∃ e, scanWords p = ⟨ws, some e⟩ := by
  obtain ⟨hs, ⟨hw, hf⟩ | ⟨w, post, hw, hl⟩⟩ := h
  · exact ⟨_, by rw [scanWords_ok 3 (by omega) p (fun c _ => space_utf8Size c) ws hw (fun w h => by have := hs w h; simp [maxTok]; omega), hf]; rfl⟩
  · exact ⟨_, scanWords_err 3 p (fun c _ => space_utf8Size c) ws post w hw (fun w h => by have := hs w h; simp [maxTok]; omega) hl⟩

section
variable [GoFloat F]

/-- `Load` on such a reader returns the error and leaves a corpus with the words read so far -/
theorem loadState_breaks (im : Bool) (cfg : CorpusCfg) (p1 p2 : Pass) (w : Option WithCooccurrence) {ws : List Word} (h : BreaksAfter p1 ws) :
    ∃ (c : CorpusState F) (e : Err), loadState im cfg p1 p2 w = (c, .fail e) ∧ addCalls [ws.map cfg.norm] = .ok c.dic := by
  obtain ⟨e, he⟩ := h.scan
  have key : ∀ cb : Word → CorpusState F → Res (CorpusState F), ∀ c, forEach ws CorpusState.init cb = .ok c →
      readWord p1 (fun word c => liftCtl c (cb word c)) CorpusState.init = (c, .fail e) := by
    intro cb c hc
    unfold readWord
    rw [he]
    have hl := ctlRes_callEach_lift ws cb CorpusState.init
    rw [hc] at hl
    rcases hcall : callEach (fun word c => liftCtl c (cb word c)) ws CorpusState.init with ⟨s, ct⟩
    rw [hcall] at hl
    cases ct <;> cases hl
    simp only [hcall]
    rfl
  have add1 : ∀ d, Dictionary.new.add (ws.map cfg.norm) = .ok d → addCalls [ws.map cfg.norm] = .ok d := by
    intro d hd
    simp [addCalls, hd]
  unfold loadState
  cases im with
  | true =>
    obtain ⟨c, h1, h2, -⟩ := memRead_forEach (F := F) cfg ws
    refine ⟨c, e, ?_, add1 _ h2⟩
    simp only [if_true]
    unfold memLoadState
    rw [key _ c h1]
    rfl
  | false =>
    obtain ⟨c, h1, h2, -⟩ := fsRead_forEach (F := F) cfg ws
    refine ⟨c, e, ?_, add1 _ h2⟩
    simp only [Bool.false_eq_true, if_false]
    unfold fsLoadState
    rw [key _ c h1]
    rfl

theorem w2vObjVector_ready (dim : Int) (c : CorpusState F) (P : Matrix F) (Q : W2VOptimizer F) (lr : F) (typ : Word) :
    w2vObjVector dim ⟨some c, some P, some Q, lr⟩ typ = w2vWordVector c.dic.len dim P Q typ := by
  cases Q <;> rfl

theorem objVector_glove (dim : Int) (c : CorpusState F) (P : Matrix F) (q : Option (W2VOptimizer F)) (lr : F) (typ : Word) :
    objVector dim ⟨some c, some P, q, lr⟩ typ = gloveWordVector c.dic.len dim P typ := rfl

theorem objVector_lex (dim : Int) (c : CorpusState F) (P : Matrix F) (q : Option (W2VOptimizer F)) (lr : F) (typ : Word) :
    objVector dim ⟨some c, some P, q, lr⟩ typ = lexWordVector c.dic.len dim P typ := rfl

end

/-- `Save` of a matrix with one row per word -/
theorem save_shaped (us : List Word) (dic : Dictionary) (hd : addCalls [us] = .ok dic) (dim : Nat) (m : Matrix F64) (hm : Shaped m dic.len dim) (v : Bool) (lb : Int)
    (hv : v = false ∨ lb ≠ 0) : ∃ text, saveText dic m v lb = .ok text ∧ ListsVocabulary us m text := by
  obtain ⟨d, hd', hr⟩ := addCalls_rep [us]
  rw [hd] at hd'; obtain rfl := Res.ok.inj hd'
  have hfl : [us].flatten = us := by simp
  rw [hfl] at hr
  have hl : dic.len = (firstOcc us).length := by rw [hr.len_eq, length_firstOcc]
  refine ⟨_, saveText_eq hr (by rw [← hl]; exact hm) v lb (by rintro ⟨h1, h2⟩; rcases hv with h | h <;> simp_all), by rw [hm.row, hl], ?_⟩
  exact isSavedFile_fileText _ _ (by simp [rowsOf])

theorem len_firstOcc {us : List Word} {dic : Dictionary} (hd : addCalls [us] = .ok dic) : dic.len = (firstOcc us).length := by
  obtain ⟨d, hd', hr⟩ := addCalls_rep [us]
  rw [hd] at hd'; obtain rfl := Res.ok.inj hd'
  have hfl : [us].flatten = us := by simp
  rw [hfl] at hr
  rw [hr.len_eq, length_firstOcc]

/-! ## C85: before a `Train` that returned nil -/

/-- **C85.** On a model that was never trained, `WordVector` and `Save` panic, for every model, every option and every vector type. -/
theorem C85_new_object (dim : Int) (initlr : F64) (typ : Word) (v : Bool) (lb : Int) :
    w2vObjVector dim (ModelObj.new initlr) typ = .panic .nilDeref ∧ objVector dim (ModelObj.new initlr) typ = .panic .nilDeref ∧
    (∀ wv, objSave (ModelObj.new initlr) wv v lb = .panic .nilDeref) := ⟨rfl, rfl, fun _ => rfl⟩

section
variable [GoFloat F]

/-- building vectors without parameters -/
theorem vector_nil (len dim : Nat) (g : Option (Matrix F) → Nat → Nat → Res F) (hg : ∀ i j, g none i j = .panic .nilDeref) :
    (1 ≤ len → 1 ≤ dim → Matrix.newRes len dim (fun row vec => fillRow dim (g none row) vec) = .panic .nilDeref) ∧
    (len = 0 → ∃ m, Matrix.newRes len dim (fun row vec => fillRow dim (g none row) vec) = .ok m ∧ Shaped m 0 dim) := by
  constructor
  · intro h1 h2
    exact newRes_panic len dim _ (fun _ _ => fzero) 0 (by omega) _ (by intro i hi; omega) (fun v _ => fillRow_panic dim h2 _ _ (hg 0 0) v)
  · rintro rfl
    obtain ⟨m, e, hm, _⟩ := newRes_ok 0 dim (fun row vec => fillRow dim (g none row) vec) (fun _ _ => fzero) (by intro i hi; omega)
    exact ⟨m, by simpa using e, hm⟩

end

/-! ### what a `Train` whose reader fails does to the object -/

theorem w2v_breaks [GoMath F] {menv : MemEnv F} {lower : Word → Word} {r : σ → F × σ} {o : W2VOptions F} {late : List (Prog F Unit)} {x x' : ModelObj F} {p : Pass} {s : σ}
    {next : UInt64} {res : Res Unit} {ws : List Word} (hb : BreaksAfter p ws) (ht : W2VObjTrain menv lower r o late x p s next x' res) :
    ∃ c e, res = .err e ∧ x' = { x with corpus := some c } ∧ addCalls [ws.map (o.corpus lower).norm] = .ok c.dic := by
  obtain ⟨c, e, hl, hd⟩ := loadState_breaks (F := F) o.docInMemory (o.corpus lower) p p none hb
  have hs := w2vSetupObj_load_err lower r o p p s x c e hl
  refine ⟨c, e, ?_, ?_, hd⟩
  all_goals cases ht <;> simp_all

theorem lex_breaks [GoMath F] {menv : MemEnv F} {lower : Word → Word} {enum : GoMap (BitVec 64) F → List (BitVec 64 × F)} {r : σ → F × σ} {o : LexvecOptions F}
    {late : List (Prog F Unit)} {x x' : ModelObj F} {p : Pass} {s : σ}
    {next : UInt64} {res : Res Unit} {ws : List Word} (hb : BreaksAfter p ws) (ht : LexObjTrain menv lower enum r o late x p s next x' res) :
    ∃ c e, res = .err e ∧ x' = { x with corpus := some c } ∧ addCalls [ws.map (o.corpus lower).norm] = .ok c.dic := by
  obtain ⟨c, e, hl, hd⟩ := loadState_breaks (F := F) o.docInMemory (o.corpus lower) p p (some ⟨countInc, o.window⟩) hb
  have hs := lexSetupObj_load_err lower enum r o p p s x c e hl
  refine ⟨c, e, ?_, ?_, hd⟩
  all_goals cases ht <;> simp_all

theorem glove_breaks [GoMath F] {menv : MemEnv F} {lower : Word → Word} {enum : GoMap (BitVec 64) F → List (BitVec 64 × F)} {r : σ → F × σ} {o : GloveOptions F}
    {x x' : ModelObj F} {p : Pass} {s : σ}
    {next : UInt64} {res : Res Unit} {ws : List Word} (hb : BreaksAfter p ws) (ht : GloveObjTrain menv lower enum r o x p s next x' res) :
    ∃ c e, res = .err e ∧ x' = { x with corpus := some c } ∧ addCalls [ws.map (o.corpus lower).norm] = .ok c.dic := by
  obtain ⟨c, e, hl, hd⟩ := loadState_breaks (F := F) o.docInMemory (o.corpus lower) p p (some ⟨String.ofList o.countType, o.window⟩) hb
  have hs := gloveSetupObj_load_err lower r o p p s x c e hl
  refine ⟨c, e, ?_, ?_, hd⟩
  all_goals cases ht <;> simp_all

/-- `Train` on the object `x` of a word2vec model with options `o`, from a reader that delivers `p`, can leave `x'` and return `res`. -/
def TrainsW2V (lib : LibM) (menv : MemEnv F64) (lower : Word → Word) (r : σ → F64 × σ) (o : W2VOptions F64) (late : List (Prog F64 Unit)) (x : ModelObj F64) (p : Pass) (s : σ)
    (next : UInt64) (x' : ModelObj F64) (res : Res Unit) : Prop :=
  letI := lib.math
  W2VObjTrain menv lower r o late x p s next x' res

/-- the same for LexVec -/
def TrainsLex (lib : LibM) (menv : MemEnv F64) (lower : Word → Word) (enum : GoMap (BitVec 64) F64 → List (BitVec 64 × F64)) (r : σ → F64 × σ) (o : LexvecOptions F64)
    (late : List (Prog F64 Unit)) (x : ModelObj F64) (p : Pass) (s : σ) (next : UInt64) (x' : ModelObj F64) (res : Res Unit) : Prop :=
  letI := lib.math
  LexObjTrain menv lower enum r o late x p s next x' res

/-- the same for GloVe -/
def TrainsGlove (lib : LibM) (menv : MemEnv F64) (lower : Word → Word) (enum : GoMap (BitVec 64) F64 → List (BitVec 64 × F64)) (r : σ → F64 × σ) (o : GloveOptions F64)
    (x : ModelObj F64) (p : Pass) (s : σ) (next : UInt64) (x' : ModelObj F64) (res : Res Unit) : Prop :=
  letI := lib.math
  GloveObjTrain menv lower enum r o x p s next x' res

/-- The `Train` calls on one word2vec model: any random state, any value of the generator variable, any observers of earlier calls. -/
def W2VCalls (lib : LibM) (menv : MemEnv F64) (lower : Word → Word) (r : σ → F64 × σ) (o : W2VOptions F64) (x : ModelObj F64) (p : Pass) (x' : ModelObj F64)
    (res : Res Unit) : Prop :=
  ∃ late s next, (∀ t ∈ late, t.Late) ∧ TrainsW2V lib menv lower r o late x p s next x' res

/-- the same for LexVec -/
def LexCalls (lib : LibM) (menv : MemEnv F64) (lower : Word → Word) (enum : GoMap (BitVec 64) F64 → List (BitVec 64 × F64)) (r : σ → F64 × σ) (o : LexvecOptions F64)
    (x : ModelObj F64) (p : Pass) (x' : ModelObj F64) (res : Res Unit) : Prop :=
  ∃ late s next, (∀ t ∈ late, t.Late) ∧ TrainsLex lib menv lower enum r o late x p s next x' res

/-- the same for GloVe -/
def GloveCalls (lib : LibM) (menv : MemEnv F64) (lower : Word → Word) (enum : GoMap (BitVec 64) F64 → List (BitVec 64 × F64)) (r : σ → F64 × σ) (o : GloveOptions F64)
    (x : ModelObj F64) (p : Pass) (x' : ModelObj F64) (res : Res Unit) : Prop :=
  ∃ s next, TrainsGlove lib menv lower enum r o x p s next x' res

/-- calls that replace only the corpus leave the other fields of a new object nil -/
theorem history_untrained {train : ModelObj F64 → Pass → ModelObj F64 → Res Unit → Prop} {P : Pass → Prop} {lr : F64}
    (hstep : ∀ x p x' res, P p → train x p x' res → ∃ c, x' = { x with corpus := some c }) {calls : List (Pass × Res Unit)} {x : ModelObj F64}
    (hall : ∀ c ∈ calls, P c.1) (h : History train (ModelObj.new lr) calls x) : x.param = none ∧ x.opt = none := by
  induction h with
  | new => exact ⟨rfl, rfl⟩
  | call calls x x' p res h ht hp ih =>
    obtain ⟨c, rfl⟩ := hstep x p x' res (hall (p, res) (by simp)) ht
    exact ih (fun c hc => hall c (by simp [hc]))

/-- `WordVector` and `Save` of an object whose first `Train` failed after the words `us` -/
def UselessAfter (us : List Word) (dim : Nat) (x : ModelObj F64) (vec : Word → Res (Matrix F64)) (v : Bool) (lb : Int) : Prop :=
  (us ≠ [] → 1 ≤ dim → ∀ typ, vec typ = .panic .nilDeref ∧ objSave x (vec typ) v lb = .panic .nilDeref) ∧
  (us = [] → ∀ typ, objSave x (vec typ) v lb = .ok [])

theorem useless {us : List Word} {c : CorpusState F64} (hd : addCalls [us] = .ok c.dic) (dim : Nat) (x : ModelObj F64) (hx : x.corpus = some c)
    (vec : Word → Res (Matrix F64)) (g : Word → Option (Matrix F64) → Nat → Nat → Res F64) (hg : ∀ typ i j, g typ none i j = .panic .nilDeref)
    (hvec : ∀ typ, vec typ = Matrix.newRes c.dic.len dim (fun row vec => fillRow dim (g typ none row) vec)) (v : Bool) (lb : Int) :
    UselessAfter us dim x vec v lb := by
  have hl := len_firstOcc hd
  constructor
  · intro hne h1 typ
    have h2 : 1 ≤ c.dic.len := by
      rw [hl]
      cases us with
      | nil => exact absurd rfl hne
      | cons a t => exact List.length_pos_of_mem ((mem_firstOcc _ _).2 List.mem_cons_self)
    have h3 : vec typ = .panic .nilDeref := by rw [hvec]; exact (vector_nil c.dic.len dim (g typ) (hg typ)).1 h2 h1
    refine ⟨h3, ?_⟩
    unfold objSave
    rw [hx, h3]
    rfl
  · rintro rfl typ
    have h0 : c.dic.len = 0 := by rw [hl]; rfl
    obtain ⟨m, e, hm⟩ := (vector_nil c.dic.len dim (g typ) (hg typ)).2 h0
    unfold objSave
    rw [hx, hvec, e]
    show saveText c.dic m v lb = .ok []
    unfold saveText
    rw [hm.row, h0]
    rfl

variable (lib : LibM) (menv : MemEnv F64) (lower : Word → Word) (enum : GoMap (BitVec 64) F64 → List (BitVec 64 × F64)) (r : σ → F64 × σ) (dim : Nat)

/-- **C85 (word2vec, no `Train` has succeeded).** In every history of one or more `Train` calls whose readers all failed, every call returned an error; and if the last reader
failed after the words `ws`, `WordVector` and `Save` panic, except that with no word at all `Save` returns nil and writes an empty file. -/
theorem C85_word2vec_failed (o : W2VOptions F64) (hdim : o.dim = dim) (calls : List (Pass × Res Unit)) (p : Pass) (res : Res Unit) (x : ModelObj F64)
    (h : History (W2VCalls lib menv lower r o) (ModelObj.new o.initlr) ((p, res) :: calls) x) (hall : ∀ c ∈ calls, ∃ ws, BreaksAfter c.1 ws)
    (ws : List Word) (hb : BreaksAfter p ws) :
    (∃ e, res = .err e) ∧ UselessAfter (ws.map (o.corpus lower).norm) dim x (w2vObjVector o.dim x) o.verbose o.logBatch := by
  let _ := lib.math
  cases h with
  | call _ x0 _ _ _ h ht hp =>
    obtain ⟨late, s, next, -, ht⟩ := ht
    obtain ⟨hp0, ho0⟩ := history_untrained (P := fun p => ∃ ws, BreaksAfter p ws) (by
      rintro x p x' res ⟨ws, hb⟩ ⟨late, s, next, -, ht⟩
      obtain ⟨c, e, h1, h2, h3⟩ := w2v_breaks hb ht
      exact ⟨c, h2⟩) hall h
    obtain ⟨c, e, h1, h2, h3⟩ := w2v_breaks hb ht
    subst h2
    refine ⟨⟨e, h1⟩, useless h3 dim _ rfl _ (fun _ m i j => optAt m i j) (fun _ _ _ => rfl) (fun typ => ?_) _ _⟩
    rw [hdim]
    unfold w2vObjVector
    dsimp only
    rw [hp0, ho0]

/-- **C85 (LexVec).** -/
theorem C85_lexvec_failed (o : LexvecOptions F64) (hdim : o.dim = dim) (calls : List (Pass × Res Unit)) (p : Pass) (res : Res Unit) (x : ModelObj F64)
    (h : History (LexCalls lib menv lower enum r o) (ModelObj.new o.initlr) ((p, res) :: calls) x) (hall : ∀ c ∈ calls, ∃ ws, BreaksAfter c.1 ws)
    (ws : List Word) (hb : BreaksAfter p ws) :
    (∃ e, res = .err e) ∧ UselessAfter (ws.map (o.corpus lower).norm) dim x (objVector o.dim x) o.verbose o.logBatch := by
  let _ := lib.math
  cases h with
  | call _ x0 _ _ _ h ht hp =>
    obtain ⟨late, s, next, -, ht⟩ := ht
    obtain ⟨hp0, ho0⟩ := history_untrained (P := fun p => ∃ ws, BreaksAfter p ws) (by
      rintro x p x' res ⟨ws, hb⟩ ⟨late, s, next, -, ht⟩
      obtain ⟨c, e, h1, h2, h3⟩ := lex_breaks hb ht
      exact ⟨c, h2⟩) hall h
    obtain ⟨c, e, h1, h2, h3⟩ := lex_breaks hb ht
    subst h2
    refine ⟨⟨e, h1⟩, useless h3 dim _ rfl _ (fun typ m i j => if typ = vecAgg then optAt m i j else
        optAt m i j >>= fun a => optAt m (i + c.dic.len : Int) j >>= fun b => .ok (a +. b)) (fun typ i j => by split <;> rfl) (fun typ => ?_) _ _⟩
    rw [hdim]
    unfold objVector
    dsimp only
    rw [hp0]
    split <;> rfl

/-- **C85 (GloVe).** -/
theorem C85_glove_failed (o : GloveOptions F64) (hdim : o.dim = dim) (lr : F64) (calls : List (Pass × Res Unit)) (p : Pass) (res : Res Unit) (x : ModelObj F64)
    (h : History (GloveCalls lib menv lower enum r o) (ModelObj.new lr) ((p, res) :: calls) x) (hall : ∀ c ∈ calls, ∃ ws, BreaksAfter c.1 ws)
    (ws : List Word) (hb : BreaksAfter p ws) :
    (∃ e, res = .err e) ∧ UselessAfter (ws.map (o.corpus lower).norm) dim x (objVector o.dim x) o.verbose o.logBatch := by
  let _ := lib.math
  cases h with
  | call _ x0 _ _ _ h ht hp =>
    obtain ⟨s, next, ht⟩ := ht
    obtain ⟨hp0, ho0⟩ := history_untrained (P := fun p => ∃ ws, BreaksAfter p ws) (by
      rintro x p x' res ⟨ws, hb⟩ ⟨s, next, ht⟩
      obtain ⟨c, e, h1, h2, h3⟩ := glove_breaks hb ht
      exact ⟨c, h2⟩) hall h
    obtain ⟨c, e, h1, h2, h3⟩ := glove_breaks hb ht
    subst h2
    refine ⟨⟨e, h1⟩, useless h3 dim _ rfl _ (fun typ m i j => if typ = vecAgg then optAt m i j else
        optAt m i j >>= fun a => optAt m (i + c.dic.len : Int) j >>= fun b => .ok (a +. b)) (fun typ i j => by split <;> rfl) (fun typ => ?_) _ _⟩
    rw [hdim]
    unfold objVector
    dsimp only
    rw [hp0]
    split <;> rfl

/-- A reader that delivers `a b` and then fails. -/
theorem example_breaks : BreaksAfter ⟨['a', ' ', 'b'], true⟩ [['a'], ['b']] :=
  ⟨by decide, .inl ⟨isWords_fields ['a', ' ', 'b'], rfl⟩⟩

/-- A history of two calls with that reader exists: the calls return errors, and `Save` then panics. -/
example (lib : LibM) (menv : MemEnv F64) (r : σ → F64 × σ) (s : σ) :
    let o : W2VOptions F64 := W2VOptions.default 1
    ∃ x res res', History (W2VCalls lib menv id r o) (ModelObj.new o.initlr) [(⟨['a', ' ', 'b'], true⟩, res), (⟨['a', ' ', 'b'], true⟩, res')] x ∧
      ∀ typ, objSave x (w2vObjVector o.dim x typ) o.verbose o.logBatch = .panic .nilDeref := by
  intro o
  let _ := lib.math
  have go : ∀ x : ModelObj F64, ∃ x' e, W2VCalls lib menv id r o x ⟨['a', ' ', 'b'], true⟩ x' (.err e) := by
    intro x
    obtain ⟨c, e, hl, hd⟩ := loadState_breaks (F := F64) o.docInMemory (o.corpus id) _ ⟨['a', ' ', 'b'], true⟩ none example_breaks
    have hs := w2vSetupObj_load_err id r o _ _ s x c e hl
    exact ⟨_, e, [], s, 0, by simp, .setupErr e (by rw [hs])⟩
  obtain ⟨x1, e1, h1⟩ := go (ModelObj.new o.initlr)
  obtain ⟨x2, e2, h2⟩ := go x1
  have hh := History.call _ _ _ _ _ (History.call [] _ _ _ _ .new h1 (by simp)) h2 (by simp)
  refine ⟨x2, _, _, hh, fun typ => ?_⟩
  have := C85_word2vec_failed lib menv id r 10 o rfl _ _ _ _ hh (by
    intro c hc
    rw [List.mem_singleton.1 hc]
    exact ⟨_, example_breaks⟩) _ example_breaks
  exact (this.2.1 (by simp) (by omega) typ).2

/-! ## C86: a `Train` that returns nil replaces everything -/

section trained
variable [GoMath F] {env : MemEnv F} {low : Word → Word} {en : GoMap (BitVec 64) F → List (BitVec 64 × F)} {rn : σ → F × σ} {late : List (Prog F Unit)} {x x' : ModelObj F}
  {p : Pass} {s : σ} {next : UInt64} {ws : List Word} {d : Nat}

theorem w2v_trained {o : W2VOptions F} (hdim : o.dim = d) (h : Readable p ws) (ht : W2VObjTrain env low rn o late x p s next x' (.ok ())) :
    ∃ c P Q lr, x' = ⟨some c, some P, some Q, lr⟩ ∧ addCalls [ws.map (o.corpus low).norm] = .ok c.dic ∧ W2VShaped c.dic.len d P Q := by
  have hcol : o.dim.toNat = d := by rw [hdim]; simp
  cases ht with
  | done M s' docs mem hM hp hd hi =>
    have e := w2vSetupObj_ok low rn o p p s s' x M hM
    rw [e]
    rw [w2vSetupObj_res] at hM
    obtain ⟨f1, _⟩ := w2vSetup_facts low rn o d hdim p ws h s s' M hM
    refine ⟨_, _, _, _, rfl, f1, ?_, ?_⟩
    · rw [show (M.after o mem).param = mem.matrix .param M.corpus.dic.len d by simp only [W2VModel.after, hcol]]
      exact matrix_shaped _ _ _ _
    · intro ng hng
      simp only [W2VModel.after] at hng
      split at hng
      · cases hng
        dsimp only
        rw [hcol]
        exact matrix_shaped _ _ _ _
      · cases hng

theorem lex_trained {o : LexvecOptions F} (hdim : o.dim = d) (hwin : o.docInMemory = true ∨ 1 ≤ o.window) (h : Readable p ws)
    (ht : LexObjTrain env low en rn o late x p s next x' (.ok ())) :
    ∃ c P lr, x' = ⟨some c, some P, x.opt, lr⟩ ∧ addCalls [ws.map (o.corpus low).norm] = .ok c.dic ∧ Shaped P (c.dic.len * 2) d := by
  have hcol : o.dim.toNat = d := by rw [hdim]; simp
  cases ht with
  | done M s' docs mem hM hp hd hi =>
    have e := lexSetupObj_ok low en rn o p p s s' x M hM
    rw [e]
    rw [lexSetupObj_res] at hM
    obtain ⟨f1, _⟩ := lexSetup_facts low en rn o d hdim hwin p ws h s s' M hM
    refine ⟨_, _, _, rfl, f1, ?_⟩
    dsimp only [LexModel.after]
    rw [hcol]
    exact matrix_shaped _ _ _ _

theorem glove_trained {o : GloveOptions F} (hdim : o.dim = d) (hwin : o.docInMemory = true ∨ 1 ≤ o.window) (h : Readable p ws)
    (ht : GloveObjTrain env low en rn o x p s next x' (.ok ())) :
    ∃ c P, x' = ⟨some c, some P, x.opt, x.lr⟩ ∧ addCalls [ws.map (o.corpus low).norm] = .ok c.dic ∧ Shaped P (c.dic.len * 2) (d + 1) := by
  have hcol : o.dim.toNat = d := by rw [hdim]; simp
  cases ht with
  | done M s' docs mem hM hd hi =>
    have e := gloveSetupObj_ok low rn o p p s s' x M hM
    rw [e]
    rw [gloveSetupObj_res] at hM
    obtain ⟨f1, _⟩ := C72_glove_shapes low rn o d hdim hwin p ws h s s' M hM
    refine ⟨_, _, rfl, f1, ?_⟩
    dsimp only [GloveModel.after]
    rw [hcol]
    exact matrix_shaped _ _ _ _

end trained

/-- `WordVector` returns `dim` values for each distinct word of `us`, and `Save` returns nil and writes them. -/
def Holds (us : List Word) (dim : Nat) (x : ModelObj F64) (vec : Word → Res (Matrix F64)) (v : Bool) (lb : Int) : Prop :=
  ∀ typ, ∃ m text, vec typ = .ok m ∧ m.col = dim ∧ objSave x (vec typ) v lb = .ok text ∧ ListsVocabulary us m text

theorem holds_core {us : List Word} {c : CorpusState F64} (hd : addCalls [us] = .ok c.dic) (dim : Nat) (x : ModelObj F64) (hx : x.corpus = some c)
    (vec : Word → Res (Matrix F64)) (hvec : ∀ typ, ∃ m, vec typ = .ok m ∧ m.row = c.dic.len ∧ m.col = dim ∧ m.array.length = c.dic.len * dim) (v : Bool) (lb : Int)
    (hv : v = false ∨ lb ≠ 0) : Holds us dim x vec v lb := by
  intro typ
  obtain ⟨m, e, h1, h2, h3⟩ := hvec typ
  obtain ⟨text, e1, e2⟩ := save_shaped us c.dic hd dim m ⟨h1, h2, h3⟩ v lb hv
  exact ⟨m, text, e, h2, by unfold objSave; rw [hx, e]; exact e1, e2⟩

/-- **C86 (word2vec).** After a `Train` that returned nil, whatever the object went through before (`x` is any object, `late` any observers still running): `WordVector` and
`Save` work and describe exactly the words of the last document. -/
theorem C86_word2vec (o : W2VOptions F64) (hdim : o.dim = dim) (hv : o.verbose = false ∨ o.logBatch ≠ 0) (late : List (Prog F64 Unit)) (x x' : ModelObj F64) (p : Pass)
    (ws : List Word) (h : Readable p ws) (s : σ) (next : UInt64) (ht : TrainsW2V lib menv lower r o late x p s next x' (.ok ())) :
    Holds (ws.map (o.corpus lower).norm) dim x' (w2vObjVector o.dim x') o.verbose o.logBatch := by
  let _ := lib.math
  obtain ⟨c, P, Q, lr, rfl, h1, h2⟩ := w2v_trained hdim h ht
  refine holds_core h1 dim _ rfl _ (fun typ => ?_) _ _ hv
  rw [w2vObjVector_ready, hdim]
  exact C43_word2vec_shape _ _ P Q h2 typ

/-- **C86 (LexVec).** -/
theorem C86_lexvec (o : LexvecOptions F64) (hdim : o.dim = dim) (hwin : o.docInMemory = true ∨ 1 ≤ o.window) (hv : o.verbose = false ∨ o.logBatch ≠ 0)
    (late : List (Prog F64 Unit)) (x x' : ModelObj F64) (p : Pass)
    (ws : List Word) (h : Readable p ws) (s : σ) (next : UInt64) (ht : TrainsLex lib menv lower enum r o late x p s next x' (.ok ())) :
    Holds (ws.map (o.corpus lower).norm) dim x' (objVector o.dim x') o.verbose o.logBatch := by
  let _ := lib.math
  obtain ⟨c, P, lr, rfl, h1, h2⟩ := lex_trained hdim hwin h ht
  refine holds_core h1 dim _ rfl _ (fun typ => ?_) _ _ hv
  rw [objVector_lex, hdim]
  exact C43_lexvec_shape _ _ P h2 typ

/-- **C86 (GloVe).** -/
theorem C86_glove (o : GloveOptions F64) (hdim : o.dim = dim) (hwin : o.docInMemory = true ∨ 1 ≤ o.window) (hv : o.verbose = false ∨ o.logBatch ≠ 0)
    (x x' : ModelObj F64) (p : Pass)
    (ws : List Word) (h : Readable p ws) (s : σ) (next : UInt64) (ht : TrainsGlove lib menv lower enum r o x p s next x' (.ok ())) :
    Holds (ws.map (o.corpus lower).norm) dim x' (objVector o.dim x') o.verbose o.logBatch := by
  let _ := lib.math
  obtain ⟨c, P, rfl, h1, h2⟩ := glove_trained hdim hwin h ht
  refine holds_core h1 dim _ rfl _ (fun typ => ?_) _ _ hv
  rw [objVector_glove, hdim]
  exact C43_glove_shape _ _ P h2 typ

section scratch
variable [GoMath F] (env : MemEnv F) (low : Word → Word) (en : GoMap (BitVec 64) F → List (BitVec 64 × F)) (rn : σ → F × σ) (late : List (Prog F Unit))
  (x y x' : ModelObj F) (p : Pass) (s : σ) (next : UInt64)

/-- **C86 (word2vec, nothing is kept but the learning rate).** What `Train` can leave in an object depends on the object it started from only through its current learning
rate (and the observers still running): a used object and a new one with the same rate have the same possible results. -/
theorem C86_word2vec_from_scratch (o : W2VOptions F) (hlr : x.lr = y.lr) (ht : W2VObjTrain env low rn o late x p s next x' (.ok ())) :
    W2VObjTrain env low rn o late y p s next x' (.ok ()) := by
  cases ht with
  | done M s' docs mem hM hp hd hi =>
    have hM' : (w2vSetupObj low rn o p p s y).2 = .ok (M, s') := by rw [w2vSetupObj_res] at hM ⊢; exact hM
    have := W2VObjTrain.done (env := env) (late := late) (next := next) M s' docs mem hM' hp hd (by rw [← hlr]; exact hi)
    rw [w2vSetupObj_ok low rn o p p s s' x M hM]
    rw [w2vSetupObj_ok low rn o p p s s' y M hM'] at this
    exact this

/-- **C86 (LexVec, nothing is kept but the learning rate).** -/
theorem C86_lexvec_from_scratch (o : LexvecOptions F) (hlr : x.lr = y.lr) (ht : LexObjTrain env low en rn o late x p s next x' (.ok ())) :
    ∃ y', LexObjTrain env low en rn o late y p s next y' (.ok ()) ∧ y'.corpus = x'.corpus ∧ y'.param = x'.param ∧ y'.lr = x'.lr := by
  cases ht with
  | done M s' docs mem hM hp hd hi hc =>
    have hM' : (lexSetupObj low en rn o p p s y).2 = .ok (M, s') := by rw [lexSetupObj_res] at hM ⊢; exact hM
    have := LexObjTrain.done (env := env) (late := late) (next := next) M s' docs mem hM' hp hd (by rw [← hlr]; exact hi) hc
    rw [lexSetupObj_ok low en rn o p p s s' x M hM]
    rw [lexSetupObj_ok low en rn o p p s s' y M hM'] at this
    exact ⟨_, this, rfl, rfl, rfl⟩

/-- **C86 (GloVe, nothing is kept).** -/
theorem C86_glove_from_scratch (o : GloveOptions F) (ht : GloveObjTrain env low en rn o x p s next x' (.ok ())) :
    ∃ y', GloveObjTrain env low en rn o y p s next y' (.ok ()) ∧ y'.corpus = x'.corpus ∧ y'.param = x'.param := by
  cases ht with
  | done M s' docs mem hM hd hi =>
    have hM' : (gloveSetupObj low rn o p p s y).2 = .ok (M, s') := by rw [gloveSetupObj_res] at hM ⊢; exact hM
    have := GloveObjTrain.done (env := env) (next := next) M s' docs mem hM' hd hi
    rw [gloveSetupObj_ok low rn o p p s s' x M hM]
    rw [gloveSetupObj_ok low rn o p p s s' y M hM'] at this
    exact ⟨_, this, rfl, rfl⟩

end scratch

end Wego.Props
