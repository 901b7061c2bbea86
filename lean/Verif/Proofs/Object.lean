import Verif.Model.Object
import Verif.Proofs.Pipeline

/-! # Lemmas on model objects -/

namespace Wego
open Props Spec Matrix
variable {F : Type} {σ : Type}

theorem ctlRes_thenDo {τ : Type} (r : τ × Ctl) (k : τ → τ × Ctl) : ctlRes (thenDo r k) = ctlRes r >>= fun s => ctlRes (k s) := by
  obtain ⟨s, c⟩ := r
  cases c <;> rfl

theorem ctlRes_liftCtl {τ : Type} (s : τ) (r : Res τ) : ctlRes (liftCtl s r) = r := by
  cases r <;> rfl

section
variable [GoFloat F]

/-- `Load` on the object returns what `Load` returns -/
theorem loadState_res (im : Bool) (cfg : CorpusCfg) (p1 p2 : Pass) (w : Option WithCooccurrence) :
    ctlRes (loadState (F := F) im cfg p1 p2 w) = loadCorpus im cfg p1 p2 w := by
  unfold loadState loadCorpus
  cases im with
  | true =>
    simp only [if_true]
    unfold memLoadState memLoad
    rw [ctlRes_thenDo]
    congr 1
    funext c
    cases w with
    | none => rfl
    | some w => exact ctlRes_liftCtl _ _
  | false =>
    simp only [Bool.false_eq_true, if_false]
    unfold fsLoadState fsLoad
    rw [ctlRes_thenDo]
    congr 1
    funext c
    cases w with
    | none => rfl
    | some w => exact ctlRes_liftCtl _ _

theorem ctlRes_ok {τ : Type} {r : τ × Ctl} {c : τ} (h : ctlRes r = .ok c) : r.1 = c := by
  obtain ⟨s, q⟩ := r
  cases q <;> cases h
  rfl

theorem gloveSetupObj_res (lower : Word → Word) (r : σ → F × σ) (o : GloveOptions F) (p1 p2 : Pass) (s : σ) (x : ModelObj F) :
    (gloveSetupObj lower r o p1 p2 s x).2 = gloveSetup lower r o p1 p2 s := by
  unfold gloveSetupObj gloveSetup
  rw [← loadState_res]
  dsimp only
  generalize loadState (F := F) o.docInMemory (o.corpus lower) p1 p2 _ = ld
  rcases h : ctlRes ld with c | e | q
  · dsimp only
    rw [Res.ok_bind]
    cases randMatrix r (fun x => x /. GoFloat.ofRat (o.dim : ℚ)) ((c.dic.len : Int) * 2) (o.dim + 1) s <;> rfl
  · rfl
  · rfl

/-- the fields after a set-up that succeeded -/
theorem gloveSetupObj_ok (lower : Word → Word) (r : σ → F × σ) (o : GloveOptions F) (p1 p2 : Pass) (s s' : σ) (x : ModelObj F) (M : GloveModel F)
    (h : (gloveSetupObj lower r o p1 p2 s x).2 = .ok (M, s')) :
    (gloveSetupObj lower r o p1 p2 s x).1 = { x with corpus := some M.corpus, param := some M.param } := by
  unfold gloveSetupObj at h ⊢
  dsimp only at h ⊢
  generalize loadState (F := F) o.docInMemory (o.corpus lower) p1 p2 _ = ld at h ⊢
  rcases hc : ctlRes ld with c | e | q
  · rw [hc] at h
    dsimp only at h ⊢
    rw [ctlRes_ok hc]
    cases hm : randMatrix r (fun x => x /. GoFloat.ofRat (o.dim : ℚ)) ((c.dic.len : Int) * 2) (o.dim + 1) s with
    | err e => rw [hm] at h; cases h
    | panic e => rw [hm] at h; cases h
    | ok ps =>
      rw [hm] at h
      dsimp only at h ⊢
      split at h
      · cases h; rfl
      · split at h
        · rw [Res.bind_eq_ok] at h
          obtain ⟨g, _, h⟩ := h
          cases h; rfl
        · cases h
  · rw [hc] at h; cases h
  · rw [hc] at h; cases h

end

section
variable [GoMath F]

theorem lexSetupObj_res (lower : Word → Word) (enum : GoMap (BitVec 64) F → List (BitVec 64 × F)) (r : σ → F × σ) (o : LexvecOptions F) (p1 p2 : Pass) (s : σ) (x : ModelObj F) :
    (lexSetupObj lower enum r o p1 p2 s x).2 = lexSetup lower enum r o p1 p2 s := by
  unfold lexSetupObj lexSetup
  rw [← loadState_res]
  dsimp only
  generalize loadState (F := F) o.docInMemory (o.corpus lower) p1 p2 _ = ld
  rcases h : ctlRes ld with c | e | q
  · dsimp only
    rw [Res.ok_bind]
    cases randMatrix r (initValue o.dim) ((c.dic.len : Int) * 2) o.dim s <;> rfl
  · rfl
  · rfl

theorem lexSetupObj_ok (lower : Word → Word) (enum : GoMap (BitVec 64) F → List (BitVec 64 × F)) (r : σ → F × σ) (o : LexvecOptions F) (p1 p2 : Pass) (s s' : σ)
    (x : ModelObj F) (M : LexModel F) (h : (lexSetupObj lower enum r o p1 p2 s x).2 = .ok (M, s')) :
    (lexSetupObj lower enum r o p1 p2 s x).1 = { x with corpus := some M.corpus, param := some M.param } := by
  unfold lexSetupObj at h ⊢
  dsimp only at h ⊢
  generalize loadState (F := F) o.docInMemory (o.corpus lower) p1 p2 _ = ld at h ⊢
  rcases hc : ctlRes ld with c | e | q
  · rw [hc] at h
    dsimp only at h ⊢
    rw [ctlRes_ok hc]
    cases hm : randMatrix r (initValue o.dim) ((c.dic.len : Int) * 2) o.dim s with
    | err e => rw [hm] at h; cases h
    | panic e => rw [hm] at h; cases h
    | ok ps =>
      rw [hm] at h
      dsimp only at h ⊢
      rw [Res.bind_eq_ok] at h
      obtain ⟨sm, _, h⟩ := h
      split at h
      · cases h
      · rw [Res.bind_eq_ok] at h
        obtain ⟨g, _, h⟩ := h
        cases h; rfl
  · rw [hc] at h; cases h
  · rw [hc] at h; cases h

theorem w2vSetupObj_res (lower : Word → Word) (r : σ → F × σ) (o : W2VOptions F) (p1 p2 : Pass) (s : σ) (x : ModelObj F) :
    (w2vSetupObj lower r o p1 p2 s x).2 = w2vSetup lower r o p1 p2 s := by
  unfold w2vSetupObj w2vSetup
  rw [← loadState_res]
  generalize (sigTable : List F) = tb
  dsimp only
  generalize loadState (F := F) o.docInMemory (o.corpus lower) p1 p2 _ = ld
  rcases h : ctlRes ld with c | e | q
  · dsimp only
    rw [Res.ok_bind]
    cases randMatrix r (initValue o.dim) c.dic.len o.dim s with
    | ok ps =>
      dsimp only
      rw [Res.ok_bind]
      split <;> rename_i h' <;> rw [h']
    | err e => rfl
    | panic q => rfl
  · rfl
  · rfl

theorem w2vSetupObj_ok (lower : Word → Word) (r : σ → F × σ) (o : W2VOptions F) (p1 p2 : Pass) (s s' : σ)
    (x : ModelObj F) (M : W2VModel F) (h : (w2vSetupObj lower r o p1 p2 s x).2 = .ok (M, s')) :
    (w2vSetupObj lower r o p1 p2 s x).1 = { x with corpus := some M.corpus, param := some M.param, opt := some M.opt } := by
  unfold w2vSetupObj at h ⊢
  generalize (sigTable : List F) = tb at h ⊢
  dsimp only at h ⊢
  generalize loadState (F := F) o.docInMemory (o.corpus lower) p1 p2 _ = ld at h ⊢
  rcases hc : ctlRes ld with c | e | q
  · rw [hc] at h
    dsimp only at h ⊢
    rw [ctlRes_ok hc]
    cases hm : randMatrix r (initValue o.dim) c.dic.len o.dim s with
    | err e => rw [hm] at h; cases h
    | panic e => rw [hm] at h; cases h
    | ok ps =>
      rw [hm] at h
      dsimp only at h ⊢
      split at h
      · cases h
      · cases h
      · rename_i N hN
        have e := Res.ok.inj h
        subst e
        dsimp only
        have : M.corpus = c ∧ M.param = ps.1 := by
          rw [Res.bind_eq_ok] at hN
          obtain ⟨sm, _, hN⟩ := hN
          rw [Res.bind_eq_ok] at hN
          obtain ⟨sg, _, hN⟩ := hN
          split at hN
          · rw [Res.bind_eq_ok] at hN
            obtain ⟨cs, _, hN⟩ := hN
            cases hN; exact ⟨rfl, rfl⟩
          · split at hN
            · rw [Res.bind_eq_ok] at hN
              obtain ⟨cs, _, hN⟩ := hN
              cases hN; exact ⟨rfl, rfl⟩
            · cases hN
        rw [this.1, this.2]
  · rw [hc] at h; cases h
  · rw [hc] at h; cases h

/-- a set-up that failed while the corpus was being loaded replaces only the corpus -/
theorem w2vSetupObj_load_err (lower : Word → Word) (r : σ → F × σ) (o : W2VOptions F) (p1 p2 : Pass) (s : σ) (x : ModelObj F) (c : CorpusState F) (e : Err)
    (h : loadState o.docInMemory (o.corpus lower) p1 p2 none = (c, .fail e)) :
    w2vSetupObj lower r o p1 p2 s x = ({ x with corpus := some c }, .err e) := by
  unfold w2vSetupObj
  generalize (sigTable : List F) = tb
  rw [h]
  rfl

theorem lexSetupObj_load_err (lower : Word → Word) (enum : GoMap (BitVec 64) F → List (BitVec 64 × F)) (r : σ → F × σ) (o : LexvecOptions F) (p1 p2 : Pass) (s : σ)
    (x : ModelObj F) (c : CorpusState F) (e : Err) (h : loadState o.docInMemory (o.corpus lower) p1 p2 (some ⟨countInc, o.window⟩) = (c, .fail e)) :
    lexSetupObj lower enum r o p1 p2 s x = ({ x with corpus := some c }, .err e) := by
  unfold lexSetupObj
  rw [h]
  rfl

end

section
variable [GoFloat F]

theorem gloveSetupObj_load_err (lower : Word → Word) (r : σ → F × σ) (o : GloveOptions F) (p1 p2 : Pass) (s : σ)
    (x : ModelObj F) (c : CorpusState F) (e : Err) (h : loadState o.docInMemory (o.corpus lower) p1 p2 (some ⟨String.ofList o.countType, o.window⟩) = (c, .fail e)) :
    gloveSetupObj lower r o p1 p2 s x = ({ x with corpus := some c }, .err e) := by
  unfold gloveSetupObj
  rw [h]
  rfl

end

/-- a loop whose round `k` panics after rounds that succeed -/
theorem forN_panic {τ : Type} (I : Nat → τ → Prop) (n k : Nat) (s : τ) (f : Nat → τ → Res τ) (q : Panic) (hk : k < n) (h0 : I 0 s)
    (hs : ∀ i s, i < k → I i s → ∃ s', f i s = .ok s' ∧ I (i + 1) s') (hp : ∀ s, I k s → f k s = .panic q) : forN n s f = .panic q := by
  have key : ∀ (d lo : Nat) (s : τ), lo + d = k → I lo s → forFrom lo (n - lo) s f = .panic q := by
    intro d
    induction d with
    | zero =>
      intro lo s e hi
      have : lo = k := by omega
      subst this
      obtain ⟨m, hm⟩ : ∃ m, n - lo = m + 1 := ⟨n - lo - 1, by omega⟩
      rw [hm, forFrom_succ, hp s hi]; rfl
    | succ d ih =>
      intro lo s e hi
      obtain ⟨m, hm⟩ : ∃ m, n - lo = m + 1 := ⟨n - lo - 1, by omega⟩
      obtain ⟨s', e1, e2⟩ := hs lo s (by omega) hi
      rw [hm, forFrom_succ, e1, Res.ok_bind]
      have := ih (lo + 1) s' (by omega) e2
      rwa [show n - (lo + 1) = m by omega] at this
  exact key k 0 s (by omega) h0

section
variable [GoFloat F]

omit [GoFloat F] in
theorem Matrix.Shaped.getAt_out {m : Matrix F} {r c : Nat} (h : Shaped m r c) (hc : 1 ≤ c) {i : Nat} (hi : r ≤ i) (j : Nat) :
    m.getAt i j = .panic .sliceBounds := by
  unfold Matrix.getAt Matrix.slice Matrix.startIndex
  have : ¬ (0 ≤ (i : Int) * m.col ∧ (i : Int) * m.col ≤ (i : Int) * m.col + m.col ∧ (i : Int) * m.col + m.col ≤ m.array.length) := by
    rw [h.col, h.len]
    rintro ⟨_, _, h3⟩
    have h4 : i * c + c ≤ r * c := by exact_mod_cast h3
    have h5 : r * c ≤ i * c := Nat.mul_le_mul_right c hi
    omega
  dsimp only
  rw [if_neg this]
  rfl

/-- building a matrix fails when the initialiser of some row panics -/
theorem newRes_panic (r c : Nat) (fn : Nat → List F → Res (List F)) (h : Nat → Nat → F) (k : Nat) (hk : k < r) (q : Panic)
    (hfn : ∀ i < k, ∀ v : List F, v.length = c → fn i v = .ok ((List.range c).map (h i))) (hp : ∀ v : List F, v.length = c → fn k v = .panic q) :
    Matrix.newRes r c fn = .panic q := by
  have hnn : ¬ ((r : Int) * (c : Int) < 0) := by
    have : (0:Int) ≤ (r : Int) * (c : Int) := by positivity
    omega
  have hlen : ((r : Int) * (c : Int)).toNat = r * c := by rw [← Nat.cast_mul, Int.toNat_natCast]
  unfold Matrix.newRes
  rw [if_neg hnn, Int.toNat_natCast]
  refine forN_panic (fun _ (m : Matrix F) => Shaped m r c) r k _ _ q hk ⟨rfl, rfl, by simp [hlen]⟩ ?_ ?_
  · intro i m hi hm
    have hrl := hm.length_rowOf (i := i) (by omega)
    obtain ⟨m', e1, e2, _⟩ := hm.setRow (i := i) (by omega) ((List.range c).map (h i)) (by simp)
    exact ⟨m', by rw [hm.getRow (by omega), Res.ok_bind, hfn i hi _ hrl, Res.ok_bind, e1], e2⟩
  · intro m hm
    rw [hm.getRow hk, Res.ok_bind, hp _ (hm.length_rowOf hk)]
    rfl

theorem fillRow_panic (c : Nat) (hc : 1 ≤ c) (g : Nat → Res F) (q : Panic) (hg : g 0 = .panic q) (vec : List F) : fillRow c g vec = .panic q := by
  unfold fillRow
  rw [Int.toNat_natCast]
  exact forN_panic (fun _ _ => True) c 0 vec _ q (by omega) trivial (by intro i s hi; omega) (fun s _ => by rw [hg]; rfl)

end
end Wego
