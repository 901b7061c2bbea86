import Verif.Proofs.Prog
import Verif.Props.Modelutil
import Verif.Proofs.Logistic

/-! # The training programs are `Ok` -/

namespace Wego
open Prog Props
variable {F : Type} {env : MemEnv F} {W : Loc → Prop} {np : Panic → Prop}

theorem nextRandomP_ok {value : Int} (h : (∀ p, np p) ∨ (1 ≤ value ∧ value < 2 ^ 63)) :
    (nextRandomP value : Prog F Int).Ok env W np (fun d => 1 ≤ value → value < 2 ^ 63 → 0 ≤ d ∧ d < value) := by
  intro _ s _ _ s' _
  split
  · rename_i h0
    rcases h with h | ⟨h1, h2⟩
    · exact h _
    · exfalso
      have h3 := uint64OfInt_pos value (by omega) h2
      rw [h0] at h3; simp at h3; omega
  · intro h1 h2
    have h3 := uint64OfInt_pos value (by omega) h2
    simp only [int64OfUInt64, UInt64.toNat_mod, h3]
    have : s'.toNat % value.toNat < value.toNat := Nat.mod_lt _ (by omega)
    rw [if_pos (by omega)]
    omega

theorem sliceP_ok {rows dim : Nat} {id : Int} (h : (∀ p, np p) ∨ (0 ≤ id ∧ id < rows)) :
    (sliceP rows dim id : Prog F Nat).Ok env W np (fun r => r = id.toNat) := by
  unfold sliceP
  split
  · rfl
  · rename_i h0
    rcases h with h | ⟨h1, h2⟩
    · exact h _
    · exfalso; apply h0
      refine ⟨by positivity, ?_⟩
      have : (id + 1) * dim ≤ (rows : Int) * dim := Int.mul_le_mul_of_nonneg_right (by omega) (by omega)
      push_cast; rw [add_mul, one_mul] at this; exact this

theorem idx_ok_of_lt {α : Type} {Q : α → Prop} {l : List α} {i : Nat} (h : i < l.length) (hQ : ∀ a, a ∈ l → Q a) :
    (ofRes (idx l i) : Prog F α).Ok env W np Q :=
  Ok.ofRes (Or.inl ⟨_, idx_of_lt _ _ h, hQ _ (List.getElem_mem h)⟩)

theorem setIdx_ok {α : Type} {l : List α} {i : Nat} {v : α} (h : i < l.length) :
    (ofRes (setIdx l i v) : Prog F (List α)).Ok env W np (fun l' => l'.length = l.length) :=
  Ok.ofRes (Or.inl ⟨_, setIdx_of_lt _ _ _ h, by simp⟩)

/-- the vector an optimizer reads has at least `dim` elements -/
def Src.Long (dim : Nat) : Src F → Prop
  | .row _ => True
  | .buf l => l.length = dim

theorem Src.read_ok {dim : Nat} {s : Src F} (h : s.Long dim) {i : Nat} (hi : i < dim) {Q : F → Prop} (hQ : ∀ v, Q v) :
    (s.read i).Ok env W np Q := by
  cases s with
  | row r => exact Ok.ld hQ
  | buf l => exact idx_ok_of_lt (by rw [show l.length = dim from h]; exact hi) (fun a _ => hQ a)

section
variable [GoFloat F]

/-- the only way a table lookup can fail -/
theorem sigmoidAt_panic {table : List F} {x : F} {p : Panic} (h : sigmoidAt table x = .panic p) : p = .indexOutOfRange := by
  unfold sigmoidAt idxI at h
  split at h
  · cases h; rfl
  · unfold idx at h
    split at h <;> cases h
    rfl

theorem sigmoidAt_err {table : List F} {x : F} (e : Err) : sigmoidAt table x ≠ .err e := by
  unfold sigmoidAt idxI
  split
  · simp
  · unfold idx
    split <;> simp

theorem nsCoef_panic {table : List F} {label : Int} {lr x : F} {p : Panic} (h : nsCoef table label lr x = .panic p) : p = .indexOutOfRange := by
  unfold nsCoef at h
  split at h
  · cases h
  · split at h
    · cases h
    · cases hs : sigmoidAt table x with
      | ok a => rw [hs] at h; cases h
      | err e => exact absurd hs (sigmoidAt_err e)
      | panic q => rw [hs] at h; cases h; exact sigmoidAt_panic hs

theorem nsCoef_err {table : List F} {label : Int} {lr x : F} (e : Err) : nsCoef table label lr x ≠ .err e := by
  unfold nsCoef
  split
  · simp
  · split
    · simp
    · cases hs : sigmoidAt table x with
      | ok a => simp
      | err e => exact absurd hs (sigmoidAt_err e)
      | panic q => simp

/-- an optimizer program: keeps the buffer's length, stores only in `W` -/
def OptimOk (env : MemEnv F) (W : Loc → Prop) (np : Panic → Prop) (dim words : Nat) (o : OptimP F) : Prop :=
  ∀ (id : Nat) (lr : F) (ctx : Src F) (tmp : List F), id < words → ctx.Long dim → tmp.length = dim →
    (o id lr ctx tmp).Ok env W np (fun t => t.length = dim)

theorem nsPickP_ok (sh : W2VShared F) (hs : np .indexOutOfRange ∨ SigSafe sh.table) {picked : Int} (hp : (∀ p, np p) ∨ (0 ≤ picked ∧ picked < sh.rows))
    (hW : ∀ r c, W (.ctx r c)) (label : Int) (lr : F) {ctx : Src F} (hc : ctx.Long sh.dim) {tmp : List F} (ht : tmp.length = sh.dim) :
    (nsPickP sh label picked lr ctx tmp).Ok env W np (fun t => t.length = sh.dim) := by
  unfold nsPickP
  refine Ok.bind (sliceP_ok hp) fun r _ => ?_
  refine Ok.bind (Q := fun _ => True) (Ok.forP (fun _ _ => True) trivial fun i _ hi _ => ?_) fun inner _ => ?_
  · refine Ok.bind (Q := fun _ => True) (Ok.ld fun _ => trivial) fun x _ => ?_
    exact Ok.bind (Q := fun _ => True) (Src.read_ok hc hi fun _ => trivial) fun y _ => Ok.ret trivial
  · refine Ok.bind (Q := fun _ => True) (Ok.ofRes ?_) fun g _ => ?_
    · rcases hs with hs | hs
      · exact Or.inr (Or.inr ⟨fun p e => by rw [nsCoef_panic e]; exact hs, nsCoef_err, fun _ _ => trivial⟩)
      · left
        unfold nsCoef
        split
        · exact ⟨_, rfl, trivial⟩
        · split
          · exact ⟨_, rfl, trivial⟩
          · rename_i h1 h2
            obtain ⟨s, e⟩ := hs inner (by simpa using h1) (by simpa using h2)
            rw [e]; exact ⟨_, rfl, trivial⟩
    · refine Ok.forP (fun _ (t : List F) => t.length = sh.dim) ht fun i t hi htl => ?_
      refine Ok.bind (Q := fun _ => True) (idx_ok_of_lt (by omega) fun _ _ => trivial) fun _ _ => ?_
      refine Ok.bind (Q := fun _ => True) (Ok.ld fun _ => trivial) fun x _ => ?_
      refine Ok.bind (setIdx_ok (by omega)) fun t' ht' => ?_
      refine Ok.bind (Q := fun _ => True) (Ok.ld fun _ => trivial) fun x _ => ?_
      refine Ok.bind (Q := fun _ => True) (Src.read_ok hc hi fun _ => trivial) fun y _ => ?_
      exact Ok.bind (Q := fun _ => True) (Ok.st (hW _ _) trivial) fun _ _ => Ok.ret (by omega)

theorem nsOptimP_ok (sh : W2VShared F) (hs : np .indexOutOfRange ∨ SigSafe sh.table) (hr : (∀ p, np p) ∨ sh.rows < 2 ^ 63) (hW : ∀ r c, W (.ctx r c)) (n : Int) :
    OptimOk env W np sh.dim sh.rows (nsOptimP sh n) := by
  intro id lr ctx tmp hid hc ht
  unfold nsOptimP
  refine Ok.forP (fun _ (t : List F) => t.length = sh.dim) ht fun i t hi htl => ?_
  split
  · exact nsPickP_ok sh hs (Or.inr ⟨by omega, by omega⟩) hW 1 lr hc htl
  · refine Ok.bind (nextRandomP_ok (hr.imp (fun h => h) fun h => ⟨by omega, by omega⟩)) fun d hd => ?_
    split
    · exact Ok.ret htl
    · refine nsPickP_ok sh hs ?_ hW 0 lr hc htl
      exact hr.imp (fun h => h) fun h => hd (by omega) (by omega)

theorem hsLoopP_ok (sh : W2VShared F) (t : TreeShape) (hs : np .indexOutOfRange ∨ SigSafe sh.table) (hv : ∀ n, t.vlen n ≤ sh.dim)
    (hW : ∀ r c, W (.node r c)) (lr : F) {ctx : Src F} (hc : ctx.Long sh.dim) (path : List Nat) {tmp : List F} (ht : tmp.length = sh.dim) :
    (hsLoopP sh t lr ctx path tmp).Ok env W np (fun t => t.length = sh.dim) := by
  induction path generalizing tmp with
  | nil => exact ht
  | cons p l ih =>
    cases l with
    | nil => exact ht
    | cons q l =>
      unfold hsLoopP
      refine Ok.bind (Q := fun _ => True) (Ok.forP (fun _ _ => True) trivial fun i _ hi _ => ?_) fun inner _ => ?_
      · refine Ok.bind (Q := fun _ => True) (Src.read_ok hc (by have := hv p; omega) fun _ => trivial) fun x _ => ?_
        exact Ok.bind (Q := fun _ => True) (Ok.ld fun _ => trivial) fun y _ => Ok.ret trivial
      · split
        · exact Ok.ret ht
        · rename_i hin
          refine Ok.bind (Q := fun _ => True) (Ok.ofRes ?_) fun s _ => ?_
          · rcases hs with hs | hs
            · exact Or.inr (Or.inr ⟨fun p e => by rw [sigmoidAt_panic e]; exact hs, sigmoidAt_err, fun _ _ => trivial⟩)
            · left
              simp only [Bool.or_eq_true, not_or, Bool.not_eq_true] at hin
              obtain ⟨s, e⟩ := hs inner hin.1 hin.2
              exact ⟨s, e, trivial⟩
          · dsimp only
            refine Ok.bind (Q := fun t : List F => t.length = sh.dim)
              (Ok.forP (fun _ (t : List F) => t.length = sh.dim) ht fun i t' hi htl => ?_) fun t' ht' => ih ht'
            have := hv p
            refine Ok.bind (Q := fun _ => True) (idx_ok_of_lt (by omega) fun _ _ => trivial) fun _ _ => ?_
            refine Ok.bind (Q := fun _ => True) (Ok.ld fun _ => trivial) fun x _ => ?_
            refine Ok.bind (setIdx_ok (by omega)) fun t' ht' => ?_
            refine Ok.bind (Q := fun _ => True) (Ok.ld fun _ => trivial) fun x _ => ?_
            refine Ok.bind (Q := fun _ => True) (Src.read_ok hc (by omega) fun _ => trivial) fun y _ => ?_
            exact Ok.bind (Q := fun _ => True) (Ok.st (hW _ _) trivial) fun _ _ => Ok.ret (by omega)

theorem hsOptimP_ok (sh : W2VShared F) (t : TreeShape) (hs : np .indexOutOfRange ∨ SigSafe sh.table) (hv : ∀ n, t.vlen n ≤ sh.dim)
    (hW : ∀ r c, W (.node r c)) : OptimOk env W np sh.dim t.words (hsOptimP sh t) := by
  intro id lr ctx tmp hid hc ht
  unfold hsOptimP
  rw [if_pos ⟨by omega, by omega⟩]
  intro p _
  exact hsLoopP_ok sh t hs hv hW lr hc p ht

omit [GoFloat F] in
theorem windowLoopP_ok {σ : Type} (I : σ → Prop) {window del : Int} {pos len : Nat} {s : σ} {body : Nat → σ → Prog F σ}
    (h0 : I s) (hb : ∀ c s, c < len → I s → (body c s).Ok env W np I) :
    (windowLoopP window del pos len s body).Ok env W np I := by
  unfold windowLoopP
  refine Ok.forP (fun _ => I) h0 fun i s _ hs => ?_
  dsimp only
  split
  · exact hs
  · split
    · exact hs
    · rename_i h
      simp only [ge_iff_le, not_or, not_lt, not_le] at h
      exact hb _ s (by omega) hs

theorem addRowP_ok {dim r : Nat} {tmp : List F} (ht : tmp.length = dim) (hW : ∀ c, W (.param r c)) :
    (addRowP dim r tmp).Ok env W np (fun _ => True) := by
  unfold addRowP
  refine Ok.forP (fun _ _ => True) trivial fun i _ hi _ => ?_
  refine Ok.bind (Q := fun _ => True) (Ok.ld fun _ => trivial) fun x _ => ?_
  refine Ok.bind (Q := fun _ => True) (idx_ok_of_lt (by omega) fun _ _ => trivial) fun t _ => ?_
  exact Ok.st (hW i) trivial

variable (sh : W2VShared F) {optim : OptimP F} {doc : List Nat}

theorem skipGramP_ok (hw : (∀ p, np p) ∨ (1 ≤ sh.window ∧ sh.window < 2 ^ 63)) {words : Nat} (ho : OptimOk env W np sh.dim words optim)
    (hwords : sh.rows ≤ words) (hdoc : ∀ id ∈ doc, id < sh.rows) (hW : ∀ id ∈ doc, ∀ c, W (.param id c)) {pos : Nat} (hpos : pos < doc.length) (lr : F)
    {tmp : List F} (ht : tmp.length = sh.dim) : (skipGramP sh optim doc pos lr tmp).Ok env W np (fun t => t.length = sh.dim) := by
  unfold skipGramP
  refine Ok.bind (nextRandomP_ok hw) fun del _ => ?_
  refine windowLoopP_ok (fun t : List F => t.length = sh.dim) ht fun c t hc htl => ?_
  dsimp only
  refine Ok.bind (Q := fun a => a ∈ doc) (idx_ok_of_lt hc fun a ha => ha) fun ctxID hctx => ?_
  refine Ok.bind (sliceP_ok (Or.inr ⟨by omega, by have := hdoc _ hctx; omega⟩)) fun r hr => ?_
  refine Ok.bind (Q := fun a => a ∈ doc) (idx_ok_of_lt hpos fun a ha => ha) fun id hid => ?_
  refine Ok.bind (ho id lr (.row r) _ (by have := hdoc _ hid; omega) trivial (by simpa using htl)) fun t' ht' => ?_
  refine Ok.bind (addRowP_ok ht' fun c => ?_) fun _ _ => Ok.ret ht'
  rw [hr, Int.toNat_natCast]
  exact hW _ hctx c

theorem cbowP_ok (hw : (∀ p, np p) ∨ (1 ≤ sh.window ∧ sh.window < 2 ^ 63)) {words : Nat} (ho : OptimOk env W np sh.dim words optim)
    (hwords : sh.rows ≤ words) (hdoc : ∀ id ∈ doc, id < sh.rows) (hW : ∀ id ∈ doc, ∀ c, W (.param id c)) {pos : Nat} (hpos : pos < doc.length) (lr : F)
    {agg tmp : List F} (ha : agg.length = sh.dim) (ht : tmp.length = sh.dim) :
    (cbowP sh optim doc pos lr agg tmp).Ok env W np (fun _ => True) := by
  unfold cbowP
  refine Ok.bind (Q := fun a : List F => a.length = sh.dim) ?_ fun agg' hagg' => ?_
  · unfold cbowAggregateP
    refine Ok.bind (nextRandomP_ok hw) fun del _ => ?_
    refine windowLoopP_ok (fun t : List F => t.length = sh.dim) (by simpa using ha) fun c t hc htl => ?_
    refine Ok.bind (Q := fun a => a ∈ doc) (idx_ok_of_lt hc fun a ha => ha) fun ctxID hctx => ?_
    refine Ok.bind (sliceP_ok (Or.inr ⟨by omega, by have := hdoc _ hctx; omega⟩)) fun r hr => ?_
    refine Ok.forP (fun _ (t : List F) => t.length = sh.dim) htl fun i t hi htl => ?_
    refine Ok.bind (Q := fun _ => True) (idx_ok_of_lt (by omega) fun _ _ => trivial) fun _ _ => ?_
    refine Ok.bind (Q := fun _ => True) (Ok.ld fun _ => trivial) fun x _ => ?_
    exact Ok.mono (setIdx_ok (by omega)) (fun _ h => h) (fun a h => by omega)
  · refine Ok.bind (Q := fun a => a ∈ doc) (idx_ok_of_lt hpos fun a ha => ha) fun id hid => ?_
    refine Ok.bind (ho id lr (.buf agg') _ (by have := hdoc _ hid; omega) hagg' (by simpa using ht)) fun t' ht' => ?_
    refine Ok.bind (Q := fun _ => True) ?_ fun _ _ => Ok.ret trivial
    unfold cbowUpdateP
    refine Ok.bind (nextRandomP_ok hw) fun del _ => ?_
    refine windowLoopP_ok (fun _ => True) trivial fun c t hc _ => ?_
    refine Ok.bind (Q := fun a => a ∈ doc) (idx_ok_of_lt hc fun a ha => ha) fun ctxID hctx => ?_
    refine Ok.bind (sliceP_ok (Or.inr ⟨by omega, by have := hdoc _ hctx; omega⟩)) fun r hr => ?_
    refine addRowP_ok ht' fun c => ?_
    rw [hr, Int.toNat_natCast]
    exact hW _ hctx c

theorem trialP_ok {samples : List F} {id : Nat} (h : id < samples.length) :
    (trialP samples id).Ok env W np (fun _ => True) := by
  intro u _
  refine Ok.ofRes (Or.inl ?_)
  unfold trial idxI
  rw [if_neg (by omega), Int.toNat_natCast, idx_of_lt _ _ h]
  exact ⟨_, rfl, trivial⟩

theorem w2vWorkerP_ok (skip : Bool) (hw : (∀ p, np p) ∨ (1 ≤ sh.window ∧ sh.window < 2 ^ 63)) {words : Nat} (ho : OptimOk env W np sh.dim words optim)
    (hwords : sh.rows ≤ words) (hsam : sh.samples.length = sh.rows) (hdoc : ∀ id ∈ doc, id < sh.rows) (hW : ∀ id ∈ doc, ∀ c, W (.param id c)) :
    (w2vWorkerP sh skip optim doc).Ok env W np (fun _ => True) := by
  unfold w2vWorkerP
  refine Ok.forP (fun _ _ => True) trivial fun pos _ hpos _ => ?_
  refine Ok.bind (Q := fun a => a ∈ doc) (idx_ok_of_lt hpos fun a ha => ha) fun id hid => ?_
  refine Ok.bind (trialP_ok (by rw [hsam]; exact hdoc _ hid)) fun ok _ => ?_
  split
  · refine Ok.bind (Q := fun _ => True) (Ok.ld fun _ => trivial) fun lr _ => ?_
    unfold w2vTrainOneP
    split
    · exact Ok.bind (skipGramP_ok sh hw ho hwords hdoc hW hpos lr (by simp)) fun _ _ => Ok.ret trivial
    · exact Ok.bind (cbowP_ok sh hw ho hwords hdoc hW hpos lr (by simp) (by simp)) fun _ _ => Ok.ret trivial
  · exact Ok.ret trivial

/-! ## LexVec and GloVe -/

theorem lexUpdateP_ok {rows dim : Nat} {l1 l2 : Int} (h1 : 0 ≤ l1 ∧ l1 < rows) (h2 : 0 ≤ l2 ∧ l2 < rows) (f : F)
    (hW1 : ∀ c, W (.param l1.toNat c)) (hW2 : ∀ c, W (.param l2.toNat c)) : (lexUpdateP rows dim l1 l2 f).Ok env W np (fun _ => True) := by
  unfold lexUpdateP
  refine Ok.bind (Q := fun _ => True) (Ok.forP (fun _ _ => True) trivial fun i _ hi _ => ?_) fun d _ => ?_
  · refine Ok.bind (sliceP_ok (Or.inr h1)) fun a _ => ?_
    refine Ok.bind (Q := fun _ => True) (Ok.ld fun _ => trivial) fun x _ => ?_
    refine Ok.bind (sliceP_ok (Or.inr h2)) fun b _ => ?_
    exact Ok.bind (Q := fun _ => True) (Ok.ld fun _ => trivial) fun y _ => Ok.ret trivial
  · refine Ok.bind (Q := fun _ => True) (Ok.ld fun _ => trivial) fun lr _ => ?_
    dsimp only
    refine Ok.forP (fun _ _ => True) trivial fun i _ hi _ => ?_
    refine Ok.bind (sliceP_ok (Or.inr h2)) fun b hb => ?_
    refine Ok.bind (Q := fun _ => True) (Ok.ld fun _ => trivial) fun y _ => ?_
    refine Ok.bind (sliceP_ok (Or.inr h1)) fun a ha => ?_
    refine Ok.bind (Q := fun _ => True) (Ok.ld fun _ => trivial) fun x _ => ?_
    refine Ok.bind (Q := fun _ => True) (Ok.ld fun _ => trivial) fun x _ => ?_
    refine Ok.bind (Q := fun _ => True) (Ok.st (ha ▸ hW1 i) trivial) fun _ _ => ?_
    refine Ok.bind (Q := fun _ => True) (Ok.ld fun _ => trivial) fun y _ => ?_
    exact Ok.st (hb ▸ hW2 i) trivial

theorem lexTrainOneP_ok (sh : LexShared F) (hw : (∀ p, np p) ∨ (1 ≤ sh.window ∧ sh.window < 2 ^ 63)) (hl : sh.len < 2 ^ 63)
    (hdoc : ∀ id ∈ doc, id < sh.len) (hW : ∀ r c, r ∈ doc ∨ (0 < sh.negative ∧ sh.len ≤ r ∧ r < sh.len * 2) → W (.param r c)) {pos : Nat} (hpos : pos < doc.length) :
    (lexTrainOneP sh doc pos).Ok env W np (fun _ => True) := by
  unfold lexTrainOneP
  refine Ok.bind (nextRandomP_ok hw) fun del _ => ?_
  refine windowLoopP_ok (fun _ => True) trivial fun c t hc _ => ?_
  refine Ok.bind (Q := fun a => a ∈ doc) (idx_ok_of_lt hpos fun a ha => ha) fun a ha => ?_
  refine Ok.bind (Q := fun a => a ∈ doc) (idx_ok_of_lt hc fun a ha => ha) fun b hb => ?_
  have h1 := hdoc a ha
  have h2 := hdoc b hb
  refine Ok.bind (lexUpdateP_ok ⟨by omega, by push_cast; omega⟩ ⟨by omega, by push_cast; omega⟩ _
    (fun c => by rw [Int.toNat_natCast]; exact hW a c (Or.inl ha)) (fun c => by rw [Int.toNat_natCast]; exact hW b c (Or.inl hb))) fun _ _ => ?_
  refine Ok.forP (fun _ _ => True) trivial fun i _ hi _ => ?_
  refine Ok.bind (nextRandomP_ok (Or.inr ⟨by omega, by omega⟩)) fun d hd => ?_
  obtain ⟨hd1, hd2⟩ := hd (by omega) (by omega)
  exact lexUpdateP_ok ⟨by omega, by push_cast; omega⟩ ⟨by omega, by push_cast; omega⟩ _
    (fun c => by rw [Int.toNat_natCast]; exact hW a c (Or.inl ha)) (fun c => hW _ c (Or.inr (by omega)))

theorem lexWorkerP_ok (sh : LexShared F) (hw : (∀ p, np p) ∨ (1 ≤ sh.window ∧ sh.window < 2 ^ 63)) (hl : sh.len < 2 ^ 63)
    (hsam : sh.samples.length = sh.len)
    (hdoc : ∀ id ∈ doc, id < sh.len) (hW : ∀ r c, r ∈ doc ∨ (0 < sh.negative ∧ sh.len ≤ r ∧ r < sh.len * 2) → W (.param r c)) :
    (lexWorkerP sh doc).Ok env W np (fun _ => True) := by
  unfold lexWorkerP
  refine Ok.forP (fun _ _ => True) trivial fun pos _ hpos _ => ?_
  refine Ok.bind (Q := fun a => a ∈ doc) (idx_ok_of_lt hpos fun a ha => ha) fun id hid => ?_
  refine Ok.bind (trialP_ok (by rw [hsam]; exact hdoc _ hid)) fun ok _ => ?_
  split
  · exact lexTrainOneP_ok sh hw hl hdoc hW hpos
  · exact Ok.ret trivial

theorem observerP_ok (cfg : LrCfg F) (h : (∀ p, np p) ∨ cfg.updateLRBatch ≠ 0) (hW : W .lr) (n : Nat) :
    (observerP cfg n).Ok env W np (fun _ => True) := by
  unfold observerP
  refine Ok.forP (fun _ _ => True) trivial fun i _ hi _ => ?_
  refine Ok.bind (Q := fun _ => True) (Ok.ofRes ?_) fun due _ => ?_
  · unfold lrDue
    split
    · rename_i h0
      exact Or.inr (Or.inl ⟨h.resolve_right (fun h => h h0), fun _ _ => trivial⟩)
    · exact Or.inl ⟨_, rfl, trivial⟩
  · split
    · exact Ok.bind (Q := fun _ => True) (Ok.ld fun _ => trivial) fun x _ => Ok.st hW trivial
    · exact Ok.ret trivial

theorem updP_ok {l : Loc} {g : F → F} (h : W l) : (updP l g).Ok env W np (fun _ => True) :=
  Ok.bind (Q := fun _ => True) (Ok.ld fun _ => trivial) fun _ _ => Ok.st h trivial

theorem gloveDiffP_ok (dim a b : Nat) (f coef initlr : F) : (gloveDiffP dim a b f coef initlr).Ok env W np (fun _ => True) := by
  unfold gloveDiffP
  refine Ok.bind (Q := fun _ => True) (Ok.forP (fun _ _ => True) trivial fun i _ hi _ => ?_) fun d _ => ?_
  · refine Ok.bind (Q := fun _ => True) (Ok.ld fun _ => trivial) fun x _ => ?_
    exact Ok.bind (Q := fun _ => True) (Ok.ld fun _ => trivial) fun y _ => Ok.ret trivial
  · refine Ok.bind (Q := fun _ => True) (Ok.ld fun _ => trivial) fun x _ => ?_
    exact Ok.bind (Q := fun _ => True) (Ok.ld fun _ => trivial) fun y _ => Ok.ret trivial

theorem sgdP_ok (initlr : F) {rows dim : Nat} {l1 l2 : Int} (h1 : 0 ≤ l1 ∧ l1 < rows) (h2 : 0 ≤ l2 ∧ l2 < rows) (f coef : F)
    (hW1 : ∀ c, W (.param l1.toNat c)) (hW2 : ∀ c, W (.param l2.toNat c)) : (sgdP initlr rows dim l1 l2 f coef).Ok env W np (fun _ => True) := by
  unfold sgdP
  refine Ok.bind (sliceP_ok (Or.inr h1)) fun a ha => ?_
  refine Ok.bind (sliceP_ok (Or.inr h2)) fun b hb => ?_
  refine Ok.bind (gloveDiffP_ok _ _ _ _ _ _) fun diff _ => ?_
  refine Ok.bind (Q := fun _ => True) (Ok.forP (fun _ _ => True) trivial fun i _ hi _ => ?_) fun d _ => ?_
  · refine Ok.bind (Q := fun _ => True) (Ok.ld fun _ => trivial) fun x _ => ?_
    refine Ok.bind (Q := fun _ => True) (Ok.ld fun _ => trivial) fun y _ => ?_
    exact Ok.bind (updP_ok (ha ▸ hW1 i)) fun _ _ => updP_ok (hb ▸ hW2 i)
  · exact Ok.bind (updP_ok (ha ▸ hW1 _)) fun _ _ => updP_ok (hb ▸ hW2 _)

theorem adaP_ok (initlr : F) {rows dim : Nat} {l1 l2 : Int} (h1 : 0 ≤ l1 ∧ l1 < rows) (h2 : 0 ≤ l2 ∧ l2 < rows) (f coef : F)
    (hW1 : ∀ c, W (.param l1.toNat c)) (hW2 : ∀ c, W (.param l2.toNat c))
    (hG1 : ∀ c, W (.gradsq l1.toNat c)) (hG2 : ∀ c, W (.gradsq l2.toNat c)) : (adaP initlr rows dim l1 l2 f coef).Ok env W np (fun _ => True) := by
  unfold adaP
  refine Ok.bind (sliceP_ok (Or.inr h1)) fun a ha => ?_
  refine Ok.bind (sliceP_ok (Or.inr h2)) fun b hb => ?_
  refine Ok.bind (gloveDiffP_ok _ _ _ _ _ _) fun diff _ => ?_
  refine Ok.bind (Q := fun _ => True) (Ok.forP (fun _ _ => True) trivial fun i _ hi _ => ?_) fun d _ => ?_
  · refine Ok.bind (Q := fun _ => True) (Ok.ld fun _ => trivial) fun x _ => ?_
    refine Ok.bind (Q := fun _ => True) (Ok.ld fun _ => trivial) fun y _ => ?_
    refine Ok.bind (updP_ok (ha ▸ hG1 i)) fun _ _ => ?_
    refine Ok.bind (updP_ok (hb ▸ hG2 i)) fun _ _ => ?_
    refine Ok.bind (Q := fun _ => True) (Ok.ld fun _ => trivial) fun x _ => ?_
    refine Ok.bind (Q := fun _ => True) (Ok.ld fun _ => trivial) fun y _ => ?_
    exact Ok.bind (updP_ok (ha ▸ hW1 i)) fun _ _ => updP_ok (hb ▸ hW2 i)
  · refine Ok.bind (Q := fun _ => True) (Ok.ld fun _ => trivial) fun x _ => ?_
    refine Ok.bind (updP_ok (ha ▸ hW1 _)) fun _ _ => ?_
    refine Ok.bind (Q := fun _ => True) (Ok.ld fun _ => trivial) fun x _ => ?_
    refine Ok.bind (updP_ok (hb ▸ hW2 _)) fun _ _ => ?_
    exact Ok.bind (updP_ok (ha ▸ hG1 _)) fun _ _ => updP_ok (hb ▸ hG2 _)

theorem gloveWorkerP_ok {step : Int → Int → F → F → Prog F Unit} {len : Nat} {items : List (GItem F)}
    (hi : ∀ it ∈ items, (0 ≤ it.l1 ∧ it.l1 < len) ∧ (0 ≤ it.l2 ∧ it.l2 < len))
    (hs : ∀ (l1 l2 : Int) f c, 0 ≤ l1 → l1 < (len * 2 : Nat) → 0 ≤ l2 → l2 < (len * 2 : Nat) → (step l1 l2 f c).Ok env W np (fun _ => True)) :
    (gloveWorkerP step len items).Ok env W np (fun _ => True) := by
  unfold gloveWorkerP
  refine Ok.forP (fun _ _ => True) trivial fun k _ hk _ => ?_
  refine Ok.bind (Q := fun a => a ∈ items) (idx_ok_of_lt hk fun a ha => ha) fun it hit => ?_
  obtain ⟨⟨a, b⟩, c, d⟩ := hi it hit
  have e : ((len * 2 : Nat) : Int) = len + len := by push_cast; ring
  refine Ok.bind (hs it.l1 (it.l2 + len) it.f it.coef a ?_ ?_ ?_) fun _ _ => hs (it.l1 + len) it.l2 it.f it.coef ?_ ?_ c ?_ <;> (try rw [e]) <;> omega

end
end Wego
