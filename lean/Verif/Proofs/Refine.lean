import Verif.Proofs.MatVal
import Verif.Proofs.Prog
import Verif.Proofs.TrainSys

/-! # A goroutine that runs alone computes the atomic step

`Prog.Runs path x m us Q`: `x`, running alone from memory `m` and input `us`, returns (no panic) with a result, memory
and input satisfying `Q`. The lemmas below relate the programs of single loads and stores (`Verif/Model/TrainProg.lean`) to the
functions on matrices (`Verif/Model/{Glove,Lexvec,Word2vec}.lean`). -/

namespace Wego
open Prog Matrix
variable {F α β σ τ : Type}

/-- see above -/
def Prog.Runs (path : Nat → List Nat) (x : Prog F α) (m : Mem F) (us : Ora F) (Q : α → Mem F → Ora F → Prop) : Prop :=
  ∃ a m' us', x.run path m us = .ok (a, m', us') ∧ Q a m' us'

variable {path : Nat → List Nat} {m : Mem F} {us : Ora F}

theorem Prog.run_bind (x : Prog F α) (f : α → Prog F β) (m : Mem F) (us : Ora F) :
    (x >>= f).run path m us = (x.run path m us >>= fun r => (f r.1).run path r.2.1 r.2.2) := by
  rw [Prog.bind_eq]
  induction x generalizing m us with
  | ret a => rfl
  | panic p => rfl
  | load l k ih =>
    simp only [Prog.bind, Prog.run]
    split
    · exact ih _ m _
    · exact ih _ m us
  | store l v k ih => exact ih _ us
  | getNext k ih => exact ih _ m us
  | setNext v k ih => exact ih _ us
  | rand k ih => exact ih _ m _
  | path id k ih => exact ih _ m us

namespace Prog

theorem Runs.bind {x : Prog F α} {f : α → Prog F β} {Q : α → Mem F → Ora F → Prop} {R : β → Mem F → Ora F → Prop}
    (hx : x.Runs path m us Q) (hf : ∀ a m' us', Q a m' us' → (f a).Runs path m' us' R) : (x >>= f).Runs path m us R := by
  obtain ⟨a, m', us', h1, h2⟩ := hx
  obtain ⟨b, m2, us2, h3, h4⟩ := hf a m' us' h2
  exact ⟨b, m2, us2, by rw [run_bind, h1, Res.ok_bind]; exact h3, h4⟩

theorem Runs.mono {x : Prog F α} {Q R : α → Mem F → Ora F → Prop} (hx : x.Runs path m us Q) (h : ∀ a m' us', Q a m' us' → R a m' us') :
    x.Runs path m us R := by
  obtain ⟨a, m', us', h1, h2⟩ := hx
  exact ⟨a, m', us', h1, h _ _ _ h2⟩

theorem Runs.ret {a : α} {Q : α → Mem F → Ora F → Prop} (h : Q a m us) : (Prog.ret a : Prog F α).Runs path m us Q := ⟨a, m, us, rfl, h⟩

theorem Runs.ofRes {x : Res α} {a : α} {Q : α → Mem F → Ora F → Prop} (hx : x = .ok a) (h : Q a m us) :
    (ofRes x : Prog F α).Runs path m us Q := by subst hx; exact ⟨a, m, us, rfl, h⟩

/-- a load followed by the rest -/
theorem Runs.ld_bind {l : Loc} {f : F → Prog F β} {R : β → Mem F → Ora F → Prop} {v : F} (hv : m.cell l = v)
    (h : (f v).Runs path m us R) (hl : l ≠ .lr := by simp) : (ld l >>= f).Runs path m us R := by
  subst hv
  exact Runs.bind (Q := fun a m' us' => a = m.cell l ∧ m' = m ∧ us' = us) ⟨_, m, us, by simp only [ld, Prog.run, if_neg hl], rfl, rfl, rfl⟩ (by
    rintro a m' us' ⟨rfl, rfl, rfl⟩; exact h)

/-- a load of the learning rate followed by the rest -/
theorem Runs.lr_bind {f : F → Prog F β} {R : β → Mem F → Ora F → Prop}
    (h : (f (us.lr 0)).Runs path m us.dropLr R) : (ld .lr >>= f).Runs path m us R :=
  Runs.bind (Q := fun a m' us' => a = us.lr 0 ∧ m' = m ∧ us' = us.dropLr) ⟨_, m, us.dropLr, by simp only [ld, Prog.run, if_true], rfl, rfl, rfl⟩ (by
    rintro a m' us' ⟨rfl, rfl, rfl⟩; exact h)

/-- a random number followed by the rest -/
theorem Runs.rand_bind {f : F → Prog F β} {R : β → Mem F → Ora F → Prop}
    (h : (f (us.rand 0)).Runs path m us.dropRand R) : (Prog.rand f).Runs path m us R := h

theorem Runs.st {l : Loc} {v : F} {Q : Unit → Mem F → Ora F → Prop} (h : Q () (m.set l v) us) : (st l v).Runs path m us Q := ⟨(), _, us, rfl, h⟩

theorem Runs.st_bind {l : Loc} {v : F} {f : Unit → Prog F β} {R : β → Mem F → Ora F → Prop} (h : (f ()).Runs path (m.set l v) us R) :
    (Wego.st l v >>= f).Runs path m us R :=
  Runs.bind (Q := fun _ m' us' => m' = m.set l v ∧ us' = us) (Runs.st ⟨rfl, rfl⟩) (by rintro _ m' us' ⟨rfl, rfl⟩; exact h)

theorem Runs.ofRes_bind {x : Res α} {a : α} {f : α → Prog F β} {R : β → Mem F → Ora F → Prop} (hx : x = .ok a)
    (h : (f a).Runs path m us R) : (Prog.ofRes x >>= f).Runs path m us R :=
  Runs.bind (Q := fun b m' us' => b = a ∧ m' = m ∧ us' = us) (Runs.ofRes hx ⟨rfl, rfl, rfl⟩) (by rintro b m' us' ⟨rfl, rfl, rfl⟩; exact h)

theorem Runs.updP_bind {l : Loc} {g : F → F} {f : Unit → Prog F β} {R : β → Mem F → Ora F → Prop}
    (h : (f ()).Runs path (m.set l (g (m.cell l))) us R) (hl : l ≠ .lr := by simp) : (updP l g >>= f).Runs path m us R :=
  Runs.bind (Q := fun _ m' us' => m' = m.set l (g (m.cell l)) ∧ us' = us) (Runs.ld_bind rfl (Runs.st ⟨rfl, rfl⟩) hl) (by
    rintro _ m' us' ⟨rfl, rfl⟩; exact h)

theorem Runs.updP {l : Loc} {g : F → F} {Q : Unit → Mem F → Ora F → Prop}
    (h : Q () (m.set l (g (m.cell l))) us) (hl : l ≠ .lr := by simp) : (updP l g).Runs path m us Q := Runs.ld_bind rfl (Runs.st h) hl

theorem Runs.sliceP_bind {rows dim : Nat} {id : Nat} (h : id < rows) {f : Nat → Prog F β} {R : β → Mem F → Ora F → Prop}
    (hf : (f id).Runs path m us R) : (sliceP rows dim id >>= f).Runs path m us R := by
  have : sliceP (F := F) rows dim id = .ret id := by
    unfold sliceP
    have := row_bound (c := dim) h
    rw [if_pos ⟨by positivity, by push_cast; exact_mod_cast this⟩]; simp
  rw [this]
  exact hf

theorem run_rnd (g : UInt64 → UInt64) (c : Prop) [Decidable c] (h : UInt64 → Int) (hc : ¬ c) :
    Prog.run path (.getNext fun s => .setNext (g s) (.getNext fun s' => if c then .panic .divByZero else .ret (h s'))) m us =
      .ok (h (g m.next), { m with next := g m.next }, us) := by
  simp only [Prog.run, if_neg hc]

theorem nextRandom_ok {s s' : UInt64} {v d : Int} (h : nextRandom s v = .ok (s', d)) :
    ¬ uint64OfInt v = 0 ∧ rndStep s = s' ∧ int64OfUInt64 (s' % uint64OfInt v) = d := by
  unfold nextRandom at h
  generalize rndStep s = t at h ⊢
  by_cases h0 : uint64OfInt v = 0
  · simp only [h0, if_true] at h; cases h
  · simp only [h0, if_false, Res.ok.injEq, Prod.mk.injEq] at h
    obtain ⟨rfl, h⟩ := h
    exact ⟨h0, rfl, h⟩

theorem Runs.nextRandomP_bind {v : Int} {s : UInt64} {d : Int} (h : nextRandom m.next v = .ok (s, d)) {f : Int → Prog F β}
    {R : β → Mem F → Ora F → Prop} (hf : (f d).Runs path { m with next := s } us R) : (nextRandomP v >>= f).Runs path m us R := by
  refine Runs.bind (Q := fun b m' us' => b = d ∧ m' = { m with next := s } ∧ us' = us) ?_ (by rintro b m' us' ⟨rfl, rfl, rfl⟩; exact hf)
  obtain ⟨h0, h1, h2⟩ := nextRandom_ok h
  refine ⟨d, { m with next := s }, us, ?_, rfl, rfl, rfl⟩
  unfold nextRandomP
  rw [run_rnd rndStep _ _ h0, h1, h2]

/-- a loop in lock-step with a loop of the atomic model that succeeds -/
theorem Runs.forFromP_sim (R : Nat → σ → τ → Mem F → Ora F → Prop) {g : Nat → τ → Prog F τ} {f : Nat → σ → Res σ} {n : Nat} {lo : Nat} {s s' : σ} {t : τ}
    (hf : forFrom lo n s f = .ok s') (h0 : R lo s t m us)
    (hs : ∀ i s t m us s1, lo ≤ i → i < lo + n → R i s t m us → f i s = .ok s1 → (g i t).Runs path m us (fun t' m' us' => R (i + 1) s1 t' m' us')) :
    (forFromP lo n t g).Runs path m us (fun t' m' us' => R (lo + n) s' t' m' us') := by
  induction n generalizing lo s t m us with
  | zero => cases hf; exact Runs.ret h0
  | succ n ih =>
    rw [forFrom_succ, Res.bind_eq_ok] at hf
    obtain ⟨s1, h1, h2⟩ := hf
    refine Runs.bind (hs lo s t m us s1 (le_refl _) (by omega) h0 h1) (fun t' m' us' h' => ?_)
    have := ih h2 h' (fun i s t m us s1 a b => hs i s t m us s1 (by omega) (by omega))
    rw [show lo + 1 + n = lo + (n + 1) by omega] at this
    exact this

theorem Runs.forP_sim (R : Nat → σ → τ → Mem F → Ora F → Prop) {g : Nat → τ → Prog F τ} {f : Nat → σ → Res σ} {n : Nat} {s s' : σ} {t : τ}
    (hf : forN n s f = .ok s') (h0 : R 0 s t m us)
    (hs : ∀ i s t m us s1, i < n → R i s t m us → f i s = .ok s1 → (g i t).Runs path m us (fun t' m' us' => R (i + 1) s1 t' m' us')) :
    (forP n t g).Runs path m us (fun t' m' us' => R n s' t' m' us') := by
  have := Runs.forFromP_sim R (lo := 0) hf h0 (fun i s t m us s1 _ h => hs i s t m us s1 (by omega))
  rwa [Nat.zero_add] at this

/-- a loop with an invariant -/
theorem Runs.forP_inv (I : Nat → τ → Mem F → Ora F → Prop) {g : Nat → τ → Prog F τ} {n : Nat} {t : τ} (h0 : I 0 t m us)
    (hs : ∀ i t m us, i < n → I i t m us → (g i t).Runs path m us (I (i + 1))) : (forP n t g).Runs path m us (I n) := by
  have hf : forN n () (fun _ _ => .ok ()) = .ok () := by
    obtain ⟨_, h, _⟩ := forN_inv (fun _ (_ : Unit) => True) n () (fun _ _ => .ok ()) trivial (fun _ _ _ _ => ⟨_, rfl, trivial⟩)
    exact h
  exact Runs.forP_sim (fun i (_ : Unit) t m us => I i t m us) hf h0 (fun i _ t m us _ hi h _ => hs i t m us hi h)

end Prog

/-! ## Matrices in the shared memory -/

section
variable [GoFloat F]

/-- the variables `loc i j` hold the `r` by `c` matrix `M` -/
structure MatAt (loc : Nat → Nat → Loc) (m : Mem F) (M : Matrix F) (r c : Nat) : Prop where
  shaped : Shaped M r c
  cell : ∀ i < r, ∀ j < c, m.cell (loc i j) = M.val i j

/-- different elements are different variables -/
def LocInj (loc : Nat → Nat → Loc) : Prop := ∀ i j i' j', loc i j = loc i' j' → i = i' ∧ j = j'

theorem locInj_param : LocInj .param := fun _ _ _ _ h => by cases h; exact ⟨rfl, rfl⟩
theorem locInj_gradsq : LocInj .gradsq := fun _ _ _ _ h => by cases h; exact ⟨rfl, rfl⟩
theorem locInj_ctx : LocInj .ctx := fun _ _ _ _ h => by cases h; exact ⟨rfl, rfl⟩

variable {loc : Nat → Nat → Loc} {M M' : Matrix F} {r c : Nat}

omit [GoFloat F] in
theorem Mem.set_cell (m : Mem F) (l l' : Loc) (v : F) : (m.set l v).cell l' = if l' = l then v else m.cell l' := rfl

theorem MatAt.matrix (h : MatAt loc m M r c) : m.matrix loc r c = M :=
  (matrix_shaped m loc r c).ext_val h.shaped (fun i hi j hj => by rw [matrix_val m loc hi hj, h.cell i hi j hj])

theorem MatAt.of_matrix (m : Mem F) (loc : Nat → Nat → Loc) (r c : Nat) : MatAt loc m (m.matrix loc r c) r c :=
  ⟨matrix_shaped m loc r c, fun i hi j hj => (matrix_val m loc hi hj).symm⟩

theorem MatAt.set (h : MatAt loc m M r c) (hl : LocInj loc) {i j : Nat} (hi : i < r) (hj : j < c) {v : F} (hM : M.setAt i j v = .ok M') :
    MatAt loc (m.set (loc i j) v) M' r c := by
  obtain ⟨M2, e, h1, h2⟩ := h.shaped.setAt_val hi hj v
  rw [hM] at e; obtain rfl := Res.ok.inj e
  refine ⟨h1, fun k hk l hl' => ?_⟩
  rw [Mem.set_cell, h2]
  by_cases hkl : k = i ∧ l = j
  · obtain ⟨rfl, rfl⟩ := hkl; simp
  · rw [if_neg hkl, if_neg (fun e => hkl (hl _ _ _ _ e)), h.cell k hk l hl']

theorem MatAt.set_other (h : MatAt loc m M r c) {l : Loc} (hl : ∀ i j, loc i j ≠ l) (v : F) : MatAt loc (m.set l v) M r c :=
  ⟨h.shaped, fun i hi j hj => by rw [Mem.set_cell, if_neg (hl i j), h.cell i hi j hj]⟩

theorem MatAt.next (h : MatAt loc m M r c) (s : UInt64) : MatAt loc { m with next := s } M r c := ⟨h.shaped, h.cell⟩

theorem MatAt.upd (h : MatAt loc m M r c) (hl : LocInj loc) {i j : Nat} (hi : i < r) (hj : j < c) {g : F → F} (hM : updAt M i j g = .ok M') :
    MatAt loc (m.set (loc i j) (g (m.cell (loc i j)))) M' r c := by
  unfold updAt at hM
  rw [h.shaped.getAt_val hi hj, Res.ok_bind, ← h.cell i hi j hj] at hM
  exact h.set hl hi hj hM

/-! ## GloVe and LexVec -/

variable {dim a b : Nat}

theorem pairDot_runs (h : MatAt .param m M r c) (ha : a < r) (hb : b < r) {n : Nat} (hn : n ≤ c) {d : F} (hd : pairDot M a b n = .ok d) :
    (forP n fzero (fun i diff => ld (.param a i) >>= fun x => ld (.param b i) >>= fun y => Prog.ret (diff +. x *. y))).Runs path m us
      (fun d' m' us' => d' = d ∧ m' = m ∧ us' = us) := by
  unfold pairDot at hd
  refine (Runs.forP_sim (fun _ (acc t : F) m' us' => t = acc ∧ m' = m ∧ us' = us) hd ⟨rfl, rfl, rfl⟩ ?_).mono (by rintro _ _ _ ⟨rfl, rfl, rfl⟩; exact ⟨rfl, rfl, rfl⟩)
  rintro i s t m' us' s1 hi ⟨rfl, rfl, rfl⟩ hs
  rw [h.shaped.getAt_val ha (by omega), Res.ok_bind, h.shaped.getAt_val hb (by omega), Res.ok_bind] at hs
  cases hs
  exact Runs.ld_bind (h.cell a ha i (by omega)) (Runs.ld_bind (h.cell b hb i (by omega)) (Runs.ret ⟨rfl, rfl, rfl⟩))

theorem gloveDiff_runs (h : MatAt .param m M r (dim + 1)) (ha : a < r) (hb : b < r) {f coef initlr d : F} (hd : gloveDiff M a b dim f coef initlr = .ok d) :
    (gloveDiffP dim a b f coef initlr).Runs path m us (fun d' m' us' => d' = d ∧ m' = m ∧ us' = us) := by
  unfold gloveDiff at hd
  rw [Res.bind_eq_ok] at hd
  obtain ⟨d0, h1, h2⟩ := hd
  rw [h.shaped.getAt_val ha (by omega), Res.ok_bind, h.shaped.getAt_val hb (by omega), Res.ok_bind] at h2
  cases h2
  refine Runs.bind (pairDot_runs h ha hb (Nat.le_succ dim) h1) ?_
  rintro _ _ _ ⟨rfl, rfl, rfl⟩
  exact Runs.ld_bind (h.cell a ha dim (by omega)) (Runs.ld_bind (h.cell b hb dim (by omega)) (Runs.ret ⟨rfl, rfl, rfl⟩))

/-- one coordinate of the simultaneous update, as loads and stores -/
theorem pairSub_runs (h : MatAt .param m M r c) (ha : a < r) (hb : b < r) {i : Nat} (hi : i < c) {diff : F} (hM : pairSub diff a b i M = .ok M') :
    MatAt .param ((m.set (.param a i) (m.cell (.param a i) -. diff *. m.cell (.param b i))).set (.param b i)
      ((m.set (.param a i) (m.cell (.param a i) -. diff *. m.cell (.param b i))).cell (.param b i) -. diff *. m.cell (.param a i))) M' r c := by
  unfold pairSub at hM
  rw [h.shaped.getAt_val hb hi, Res.ok_bind, h.shaped.getAt_val ha hi, Res.ok_bind] at hM
  dsimp only at hM
  rw [Res.ok_bind, Res.bind_eq_ok] at hM
  obtain ⟨M1, e1, e2⟩ := hM
  rw [← h.cell a ha i hi, ← h.cell b hb i hi] at e1
  have h1 := h.set locInj_param ha hi e1
  rw [h1.shaped.getAt_val hb hi, Res.ok_bind, ← h1.cell b hb i hi, ← h.cell a ha i hi] at e2
  exact h1.set locInj_param hb hi e2

/-- `sgdP` alone computes `sgdOne` -/
theorem sgdP_runs (initlr : F) (h : MatAt .param m M r (dim + 1)) (ha : a < r) (hb : b < r) {f coef : F} (hM : sgdOne initlr a b M f coef = .ok M') :
    (sgdP initlr r dim a b f coef).Runs path m us (fun _ m' us' => MatAt .param m' M' r (dim + 1) ∧ us' = us) := by
  unfold sgdOne at hM
  have hc : (M.col - 1).toNat = dim := by rw [h.shaped.col]; omega
  rw [hc] at hM
  dsimp only at hM
  rw [Res.bind_eq_ok] at hM
  obtain ⟨d, h1, hM⟩ := hM
  rw [Res.bind_eq_ok] at hM
  obtain ⟨M1, h2, hM⟩ := hM
  rw [Res.bind_eq_ok] at hM
  obtain ⟨M2, h3, h4⟩ := hM
  refine Runs.sliceP_bind ha (Runs.sliceP_bind hb (Runs.bind (gloveDiff_runs h ha hb h1) ?_))
  rintro _ m us ⟨rfl, rfl, rfl⟩
  refine Runs.bind (Runs.forP_sim (fun _ M' (_ : Unit) m' us' => MatAt .param m' M' r (dim + 1) ∧ us' = us) h2 ⟨h, rfl⟩ ?_) ?_
  · rintro i s t m' us' s1 hi ⟨hm, rfl⟩ hs
    refine Runs.ld_bind rfl (Runs.ld_bind rfl (Runs.updP_bind (Runs.updP ⟨pairSub_runs hm ha hb (by omega) hs, rfl⟩)))
  · rintro _ m' us' ⟨hm, rfl⟩
    have q := hm.upd locInj_param ha (Nat.lt_succ_self dim) h3
    exact Runs.updP_bind (Runs.updP ⟨q.upd locInj_param hb (Nat.lt_succ_self dim) h4, rfl⟩)

/-- the memory holds the parameters and accumulators of AdaGrad -/
def AdaAt (m : Mem F) (s : Ada F) (r c : Nat) : Prop := MatAt .param m s.param r c ∧ MatAt .gradsq m s.gradsq r c

/-- `adaP` alone computes `adaOne` -/
theorem adaP_runs (initlr : F) {s s' : Ada F} (h : AdaAt m s r (dim + 1)) (ha : a < r) (hb : b < r) {f coef : F} (hs : adaOne initlr a b s f coef = .ok s') :
    (adaP initlr r dim a b f coef).Runs path m us (fun _ m' us' => AdaAt m' s' r (dim + 1) ∧ us' = us) := by
  unfold adaOne at hs
  have hc : (s.param.col - 1).toNat = dim := by rw [h.1.shaped.col]; omega
  rw [hc] at hs
  dsimp only at hs
  rw [Res.bind_eq_ok] at hs
  obtain ⟨d, h1, hs⟩ := hs
  rw [Res.bind_eq_ok] at hs
  obtain ⟨s1, h2, hs⟩ := hs
  refine Runs.sliceP_bind ha (Runs.sliceP_bind hb (Runs.bind (gloveDiff_runs h.1 ha hb h1) ?_))
  rintro _ m us ⟨rfl, rfl, rfl⟩
  refine Runs.bind (Runs.forP_sim (fun _ s' (_ : Unit) m' us' => AdaAt m' s' r (dim + 1) ∧ us' = us) h2 ⟨h, rfl⟩ ?_) ?_
  · rintro i s t m' us' s1 hi ⟨⟨hp, hg⟩, rfl⟩ hs
    have hi' : i < dim + 1 := by omega
    unfold adaCoord at hs
    rw [hp.shaped.getAt_val hb hi', Res.ok_bind, hp.shaped.getAt_val ha hi', Res.ok_bind, ← hp.cell a ha i hi', ← hp.cell b hb i hi'] at hs
    dsimp only at hs
    rw [Res.bind_eq_ok] at hs
    obtain ⟨g1, k1, hs⟩ := hs
    rw [Res.bind_eq_ok] at hs
    obtain ⟨g2, k2, hs⟩ := hs
    have q1 := (hg.upd locInj_gradsq ha hi' k1).upd locInj_gradsq hb hi' k2
    refine Runs.ld_bind rfl (Runs.ld_bind rfl (Runs.updP_bind (Runs.updP_bind ?_)))
    have qp : ∀ v w, MatAt .param ((m'.set (.gradsq a i) v).set (.gradsq b i) w) s.param r (dim + 1) := fun v w =>
      (hp.set_other (by simp) v).set_other (by simp) w
    rw [q1.shaped.getAt_val ha hi', Res.ok_bind, q1.shaped.getAt_val hb hi', Res.ok_bind, ← q1.cell a ha i hi', ← q1.cell b hb i hi'] at hs
    rw [Res.bind_eq_ok] at hs
    obtain ⟨p1, k3, hs⟩ := hs
    rw [Res.bind_eq_ok] at hs
    obtain ⟨p2, k4, hs⟩ := hs
    cases hs
    refine Runs.ld_bind rfl (Runs.ld_bind rfl (Runs.updP_bind (Runs.updP ⟨⟨?_, ?_⟩, rfl⟩)))
    · exact ((qp _ _).upd locInj_param ha hi' k3).upd locInj_param hb hi' k4
    · exact (q1.set_other (by simp) _).set_other (by simp) _
  · rintro _ m' us' ⟨⟨hp, hg⟩, rfl⟩
    have hd : dim < dim + 1 := Nat.lt_succ_self dim
    rw [hg.shaped.getAt_val ha hd, Res.ok_bind, ← hg.cell a ha dim hd] at hs
    rw [Res.bind_eq_ok] at hs
    obtain ⟨p1, k1, hs⟩ := hs
    rw [hg.shaped.getAt_val hb hd, Res.ok_bind, ← hg.cell b hb dim hd] at hs
    rw [Res.bind_eq_ok] at hs
    obtain ⟨p2, k2, hs⟩ := hs
    rw [Res.bind_eq_ok] at hs
    obtain ⟨g1, k3, hs⟩ := hs
    rw [Res.bind_eq_ok] at hs
    obtain ⟨g2, k4, hs⟩ := hs
    cases hs
    have q1 := hp.upd locInj_param ha hd k1
    refine Runs.ld_bind rfl (Runs.updP_bind (Runs.ld_bind (v := m'.cell (.gradsq b dim)) rfl (Runs.updP_bind ?_)))
    have q2 := q1.upd locInj_param hb hd k2
    have e2 : ∀ v w, MatAt .gradsq ((m'.set (.param a dim) v).set (.param b dim) w) s1.gradsq r (dim + 1) := fun v w =>
      (hg.set_other (by simp) v).set_other (by simp) w
    refine Runs.updP_bind (Runs.updP ⟨⟨?_, ((e2 _ _).upd locInj_gradsq ha hd k3).upd locInj_gradsq hb hd k4⟩, rfl⟩)
    exact (q2.set_other (by simp) _).set_other (by simp) _

end
end Wego
