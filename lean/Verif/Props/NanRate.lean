import Verif.Props.Word2vecF64
import Verif.Props.OneGoroutine
import Verif.Props.BadOptions
import Verif.Props.WholeTrain
import Verif.Proofs.F64Near

/-! # The index panic of word2vec in float64 does happen (C84)

With a learning rate that is not a number (the flag parser accepts `NaN`) the first update of a row makes it NaN, and the next score computed from
that row panics. -/

namespace Wego.Props
open Wego Wego.F64 Wego.Matrix Wego.Spec
variable {σ F : Type}

/-- every element of a row is NaN -/
def AllNaN (l : List F64) : Prop := ∀ v ∈ l, v = .nan

theorem mul_nan (x : F64) : F64.mul x .nan = .nan := by cases x <;> rfl
theorem nan_mul (x : F64) : F64.mul .nan x = .nan := by cases x <;> rfl
theorem add_nan (x : F64) : F64.add x .nan = .nan := by cases x <;> rfl
theorem nan_add (x : F64) : F64.add .nan x = .nan := by cases x <;> rfl

theorem dotF_nan_acc (x y : List F64) : (List.zip x y).foldl (fun acc p => acc +. p.1 *. p.2) F64.nan = .nan := by
  induction x generalizing y with
  | nil => rfl
  | cons a x ih =>
    cases y with
    | nil => rfl
    | cons b y =>
      rw [List.zip_cons_cons, List.foldl_cons]
      have : F64.nan +. a *. b = F64.nan := nan_add _
      rw [this, ih]

theorem dotF_nan (x y : List F64) (hx : AllNaN x) (h0 : x ≠ []) (hl : x.length = y.length) : dotF x y = .nan := by
  cases x with
  | nil => exact absurd rfl h0
  | cons a x =>
    cases y with
    | nil => simp at hl
    | cons b y =>
      unfold dotF
      rw [List.zip_cons_cons, List.foldl_cons, hx a (by simp)]
      have : ∀ z : F64, z +. F64.nan *. b = F64.nan := fun z => by
        show F64.add z (F64.mul .nan b) = .nan
        rw [nan_mul, add_nan]
      rw [this, dotF_nan_acc]

theorem axpyF_nan (x y : List F64) : AllNaN (axpyF F64.nan x y) := by
  intro v hv
  unfold axpyF at hv
  obtain ⟨i, hi, rfl⟩ := List.mem_iff_getElem.1 hv
  rw [List.getElem_zipWith]
  show F64.add _ (F64.mul .nan _) = .nan
  rw [nan_mul, add_nan]

theorem nsCoef_nan (table : List F64) (label : Int) (x g : F64) (h : nsCoef table label F64.nan x = .ok g) : g = .nan := by
  unfold nsCoef at h
  split at h
  · injection h with h; rw [← h]; exact mul_nan _
  · split at h
    · injection h with h; rw [← h]; exact mul_nan _
    · rw [Res.bind_eq_ok] at h
      obtain ⟨s, _, h⟩ := h
      injection h with h; rw [← h]; exact mul_nan _

theorem nsCoef_of_nan (table : List F64) (ht : table.length = 1000) (label : Int) (lr : F64) : nsCoef table label lr F64.nan = .panic .indexOutOfRange := by
  unfold nsCoef
  have e1 : GoFloat.le F64.nan (GoFloat.ofRat (-6)) = false := rfl
  have e2 : GoFloat.le (maxExp : F64) F64.nan = false := by decide +kernel
  rw [e1, e2, (C33_false table ht).2.2.2]; rfl

/-- An update with a NaN rate makes the picked row NaN, and leaves the others as they were. -/
theorem nsPick_nan (table : List F64) (label : Int) (k n c : Nat) (hk : k < n) (ctx tmp : List F64) (mat mat' : Matrix F64) (tmp' : List F64)
    (hm : Shaped mat n c) (h : nsPick table label k F64.nan ctx mat tmp = .ok (mat', tmp')) :
    Shaped mat' n c ∧ AllNaN (mat'.rowOf k) ∧ (∀ j, j ≠ k → mat'.rowOf j = mat.rowOf j) ∧ tmp'.length = tmp.length := by
  unfold nsPick at h
  rw [hm.getRow hk, Res.ok_bind] at h
  split at h
  · cases h
  · rename_i hl
    rw [Res.bind_eq_ok] at h
    obtain ⟨g, hg, h⟩ := h
    have hl' := hm.length_rowOf hk
    obtain rfl := nsCoef_nan _ _ _ _ hg
    push Not at hl
    obtain ⟨m', e, q1, q2, q3⟩ := hm.setRow hk (axpyF F64.nan ctx (mat.rowOf k)) (by simp [axpyF]; omega)
    rw [e, Res.ok_bind] at h
    injection h with h
    injection h with h1 h2
    subst h1 h2
    exact ⟨q1, by rw [q2]; exact axpyF_nan _ _, q3, by simp [axpyF]; omega⟩

/-- A score from a NaN row panics. -/
theorem nsPick_of_nan (table : List F64) (ht : table.length = 1000) (label : Int) (k n c : Nat) (hk : k < n) (hc : 1 ≤ c) (lr : F64) (ctx tmp : List F64)
    (mat : Matrix F64) (hm : Shaped mat n c) (hn : AllNaN (mat.rowOf k)) : nsPick table label k lr ctx mat tmp = .panic .indexOutOfRange := by
  have hl := hm.length_rowOf hk
  unfold nsPick
  rw [hm.getRow hk, Res.ok_bind]
  split
  · rfl
  · rename_i h
    push Not at h
    rw [dotF_nan _ _ hn (by rw [← List.length_pos_iff]; omega) h.1, nsCoef_of_nan table ht]; rfl

theorem nsIter_nan (table : List F64) (id n c : Nat) (hid : id < n) (hn2 : n < 2 ^ 63) (ctx : List F64) (i : Nat)
    (st st' : Matrix F64 × UInt64 × List F64) (hm : Shaped st.1 n c) (h : nsIter table id F64.nan ctx i st = .ok st') :
    Shaped st'.1 n c ∧ (∀ j, AllNaN (st.1.rowOf j) → AllNaN (st'.1.rowOf j)) ∧ (i = 0 → AllNaN (st'.1.rowOf id)) := by
  unfold nsIter at h
  split at h
  · rw [Res.bind_eq_ok] at h
    obtain ⟨⟨m', t'⟩, h1, h⟩ := h
    injection h with h; subst h
    obtain ⟨a, b, d, _⟩ := nsPick_nan table 1 id n c hid ctx st.2.2 st.1 m' t' hm h1
    refine ⟨a, fun j hj => ?_, fun _ => b⟩
    by_cases e : j = id
    · rw [e]; exact b
    · show AllNaN (m'.rowOf j); rw [d j e]; exact hj
  · rename_i hi
    rw [Res.bind_eq_ok] at h
    obtain ⟨d, hd, h⟩ := h
    split at h
    · injection h with h; subst h
      exact ⟨hm, fun j hj => hj, fun h => absurd h hi⟩
    · rw [Res.bind_eq_ok] at h
      obtain ⟨⟨m', t'⟩, h1, h⟩ := h
      injection h with h; subst h
      have hrow : st.1.row = n := hm.row
      obtain ⟨k, hk, hkn⟩ : ∃ k : Nat, d.2 = k ∧ k < n := by
        rw [hrow, nextRandom_eq _ _ (by omega) (by exact_mod_cast hn2)] at hd
        injection hd with hd
        refine ⟨_, by rw [← hd], ?_⟩
        rw [Int.toNat_natCast]
        exact Nat.mod_lt _ (by omega)
      rw [hk] at h1
      obtain ⟨a, b, d, _⟩ := nsPick_nan table 0 k n c hkn ctx st.2.2 st.1 m' t' hm h1
      refine ⟨a, fun j hj => ?_, fun h => absurd h hi⟩
      by_cases e : j = k
      · rw [e]; exact b
      · show AllNaN (m'.rowOf j); rw [d j e]; exact hj

/-- After a call with a NaN rate that returned, the row of its word is NaN, and rows that were NaN still are. -/
theorem nsOptim_nan (o o' : NegSampling F64) (hs : 0 ≤ o.sampleSize) (rnd : UInt64) (id n c : Nat) (hid : id < n) (hn2 : n < 2 ^ 63) (ctx tmp : List F64)
    (hm : Shaped o.ctx n c) (rnd' : UInt64) (tmp' : List F64) (h : o.optim rnd id F64.nan ctx tmp = .ok ⟨o', rnd', tmp'⟩) :
    Shaped o'.ctx n c ∧ AllNaN (o'.ctx.rowOf id) ∧ o'.table = o.table ∧ o'.sampleSize = o.sampleSize := by
  unfold NegSampling.optim at h
  rw [Res.bind_eq_ok] at h
  obtain ⟨st, h1, h⟩ := h
  injection h with h
  injection h with h2 h3 h4
  subst h2
  obtain ⟨k, hk⟩ : ∃ k, (o.sampleSize + 1).toNat = k + 1 := ⟨o.sampleSize.toNat, by omega⟩
  rw [hk] at h1
  unfold forN at h1
  rw [forFrom_succ, Res.bind_eq_ok] at h1
  obtain ⟨st1, e1, h1⟩ := h1
  obtain ⟨a, _, b⟩ := nsIter_nan o.table id n c hid hn2 ctx 0 _ st1 hm e1
  have key : ∀ k lo (s s' : Matrix F64 × UInt64 × List F64), Shaped s.1 n c → AllNaN (s.1.rowOf id) →
      forFrom lo k s (nsIter o.table id F64.nan ctx) = .ok s' → Shaped s'.1 n c ∧ AllNaN (s'.1.rowOf id) := by
    intro k
    induction k with
    | zero => intro lo s s' h1 h2 h; injection h with h; subst h; exact ⟨h1, h2⟩
    | succ k ih =>
      intro lo s s' h1 h2 h
      rw [forFrom_succ, Res.bind_eq_ok] at h
      obtain ⟨t, e, h⟩ := h
      obtain ⟨a, b, _⟩ := nsIter_nan o.table id n c hid hn2 ctx lo s t h1 e
      exact ih _ _ _ a (b _ h2) h
  obtain ⟨x, y⟩ := key k 1 st1 st a (b rfl) h1
  exact ⟨x, y, rfl, rfl⟩

/-- A call for a word whose row is NaN panics. -/
theorem nsOptim_of_nan (o : NegSampling F64) (ht : o.table.length = 1000) (hs : 0 ≤ o.sampleSize) (rnd : UInt64) (id n c : Nat) (hid : id < n) (hc : 1 ≤ c)
    (lr : F64) (ctx tmp : List F64) (hm : Shaped o.ctx n c) (hn : AllNaN (o.ctx.rowOf id)) : o.optim rnd id lr ctx tmp = .panic .indexOutOfRange := by
  unfold NegSampling.optim
  obtain ⟨k, hk⟩ : ∃ k, (o.sampleSize + 1).toNat = k + 1 := ⟨o.sampleSize.toNat, by omega⟩
  rw [hk]
  unfold forN
  rw [forFrom_succ]
  have : nsIter o.table id lr ctx 0 (o.ctx, rnd, tmp) = .panic .indexOutOfRange := by
    unfold nsIter
    rw [if_pos rfl, nsPick_of_nan o.table ht 1 id n c hid hc lr ctx tmp o.ctx hm hn]; rfl
  rw [this]; rfl

/-- What the training loop keeps: shapes, the table of 1000 entries and the number of samples. -/
def NsShaped (n c : Nat) (o : NegSampling F64) : Prop := Shaped o.ctx n c ∧ o.table.length = 1000 ∧ 0 ≤ o.sampleSize

/-- One context position, if it returns: shapes are kept and the row of the word is NaN; it does not return if that row was NaN. -/
theorem skipGramBody_nan (doc : List Nat) (pos c' n c : Nat) (hpos : pos < doc.length) (hdoc : ∀ id ∈ doc, id < n) (hn2 : n < 2 ^ 63) (hc : 1 ≤ c)
    (st st' : StepSt (NegSampling F64) F64) (hp : Shaped st.param n c) (ho : NsShaped n c st.opt)
    (h : skipGramBody NegSampling.optim doc pos F64.nan c' st = .ok st') :
    Shaped st'.param n c ∧ NsShaped n c st'.opt ∧ AllNaN (st'.opt.ctx.rowOf doc[pos]) ∧ ¬ AllNaN (st.opt.ctx.rowOf doc[pos]) := by
  unfold skipGramBody at h
  dsimp only at h
  rw [Res.bind_eq_ok] at h
  obtain ⟨cid, e1, h⟩ := h
  have hcid : cid < n := hdoc _ (List.mem_of_getElem? (idx_eq_ok.1 e1))
  rw [hp.getRow hcid, Res.ok_bind, idx_of_lt _ _ hpos, Res.ok_bind, Res.bind_eq_ok] at h
  obtain ⟨r, e2, h⟩ := h
  have hid : doc[pos] < n := hdoc _ (List.getElem_mem hpos)
  have hnot : ¬ AllNaN (st.opt.ctx.rowOf doc[pos]) := by
    intro hn
    rw [nsOptim_of_nan st.opt ho.2.1 ho.2.2 _ _ n c hid hc _ _ _ ho.1 hn] at e2
    cases e2
  obtain ⟨a, b, d, e⟩ := nsOptim_nan st.opt r.opt ho.2.2 _ _ n c hid hn2 _ _ ho.1 r.rnd r.tmp e2
  split at h
  · cases h
  · rename_i hlen
    have hl := hp.length_rowOf hcid
    obtain ⟨m', e', q1, _⟩ := hp.setRow hcid (addF r.tmp (st.param.rowOf cid)) (by rw [length_addF]; omega)
    rw [e', Res.ok_bind] at h
    injection h with h
    subst h
    exact ⟨q1, ⟨a, by rw [d]; exact ho.2.1, by rw [e]; exact ho.2.2⟩, b, hnot⟩

/-- A skip-gram step with a NaN rate that returns keeps the shapes, and does not return at a position with two context words. -/
theorem skipGramOne_nan (window : Int) (h1 : 1 ≤ window) (h2 : window < 2 ^ 62) (doc : List Nat) (pos n c : Nat) (hpos : pos < doc.length)
    (hdoc : ∀ id ∈ doc, id < n) (hn2 : n < 2 ^ 63) (hc : 1 ≤ c) (st st' : StepSt (NegSampling F64) F64) (hp : Shaped st.param n c) (ho : NsShaped n c st.opt)
    (h : skipGramOne NegSampling.optim window doc pos F64.nan st = .ok st') :
    Shaped st'.param n c ∧ NsShaped n c st'.opt ∧ ¬ (1 ≤ pos ∧ pos + 1 < doc.length) := by
  obtain ⟨⟨a1, b1, e⟩, _⟩ := C28_skipgram NegSampling.optim window h1 h2 doc pos F64.nan st
  rw [e] at h
  refine ⟨?_, ?_, ?_⟩
  · exact (forEach_inv_partial (fun (s : StepSt (NegSampling F64) F64) => Shaped s.param n c ∧ NsShaped n c s.opt) _ { st with rnd := rndStep st.rnd } st' _ ⟨hp, ho⟩
      (fun a _ s s' hs hb => by
        obtain ⟨x, y, _⟩ := skipGramBody_nan doc pos a n c hpos hdoc hn2 hc s s' hs.1 hs.2 hb
        exact ⟨x, y⟩) h).1
  · exact (forEach_inv_partial (fun (s : StepSt (NegSampling F64) F64) => Shaped s.param n c ∧ NsShaped n c s.opt) _ { st with rnd := rndStep st.rnd } st' _ ⟨hp, ho⟩
      (fun a _ s s' hs hb => by
        obtain ⟨x, y, _⟩ := skipGramBody_nan doc pos a n c hpos hdoc hn2 hc s s' hs.1 hs.2 hb
        exact ⟨x, y⟩) h).2
  · rintro ⟨p1, p2⟩
    obtain ⟨c1, c2, l, hl⟩ : ∃ c1 c2 l, contextPositions (window - shrink st.rnd window) pos doc.length = c1 :: c2 :: l := by
      have m1 : pos - 1 ∈ contextPositions (window - shrink st.rnd window) pos doc.length := by
        simp only [contextPositions, List.mem_filter, List.mem_range, decide_eq_true_eq]
        refine ⟨by omega, by omega, ?_⟩
        rw [Nat.cast_sub p1, abs_le]
        constructor <;> push_cast <;> omega
      have m2 : pos + 1 ∈ contextPositions (window - shrink st.rnd window) pos doc.length := by
        simp only [contextPositions, List.mem_filter, List.mem_range, decide_eq_true_eq]
        refine ⟨by omega, by omega, ?_⟩
        rw [abs_le]
        constructor <;> push_cast <;> omega
      generalize contextPositions (window - shrink st.rnd window) pos doc.length = L at m1 m2
      match L with
      | [] => cases m1
      | [a] =>
        rw [List.mem_singleton] at m1 m2
        omega
      | a :: b :: l => exact ⟨a, b, l, rfl⟩
    rw [hl, forEach_cons, Res.bind_eq_ok] at h
    obtain ⟨s1, e1, h⟩ := h
    rw [forEach_cons, Res.bind_eq_ok] at h
    obtain ⟨s2, e2, h⟩ := h
    obtain ⟨x, y, z, _⟩ := skipGramBody_nan doc pos c1 n c hpos hdoc hn2 hc { st with rnd := rndStep st.rnd } s1 hp ho e1
    obtain ⟨_, _, _, w⟩ := skipGramBody_nan doc pos c2 n c hpos hdoc hn2 hc s1 s2 x y e2
    exact w z

/-- No document of at least three words is trained to the end. -/
theorem w2vDoc_nan (window : Int) (h1 : 1 ≤ window) (h2 : window < 2 ^ 62) (doc : List Nat) (n c : Nat) (hlen : 3 ≤ doc.length)
    (hdoc : ∀ id ∈ doc, id < n) (hn2 : n < 2 ^ 63) (hc : 1 ≤ c) (samples : List F64) (hsam : samples.length = n) (rands lrs : Nat → F64)
    (hr : ∀ k, ∀ v ∈ samples, GoFloat.lt (rands k) v = true) (hlr : ∀ k, lrs k = .nan)
    (st st' : W2VSeqSt (NegSampling F64) F64) (hp : Shaped st.param n c) (ho : NsShaped n c st.opt) :
    w2vDoc true NegSampling.optim window c samples rands lrs doc st ≠ .ok st' := by
  intro h
  have one : ∀ pos (s s' : W2VSeqSt (NegSampling F64) F64), pos < doc.length → Shaped s.param n c → NsShaped n c s.opt →
      (idx doc pos >>= fun id => trial samples id (rands s.nrand) >>= fun ok =>
        if ok then w2vOne true NegSampling.optim window c doc pos (lrs s.nlr) { s with nrand := s.nrand + 1, nlr := s.nlr + 1 }
        else .ok { s with nrand := s.nrand + 1 }) = .ok s' →
      Shaped s'.param n c ∧ NsShaped n c s'.opt ∧ ¬ (1 ≤ pos ∧ pos + 1 < doc.length) := by
    intro pos s s' hpos hp ho h
    have hid : doc[pos] < n := hdoc _ (List.getElem_mem hpos)
    have htr : trial samples (doc[pos] : Int) (rands s.nrand) = .ok true := by
      unfold trial idxI
      rw [if_neg (by omega), Int.toNat_natCast, idx_of_lt _ _ (by omega), Res.ok_bind, hr _ _ (List.getElem_mem _)]
    rw [idx_of_lt _ _ hpos, Res.ok_bind, htr, Res.ok_bind, if_pos rfl] at h
    unfold w2vOne at h
    dsimp only at h
    rw [if_pos rfl, Res.bind_eq_ok] at h
    obtain ⟨t, e, h⟩ := h
    injection h with h; subst h
    rw [hlr] at e
    exact skipGramOne_nan window h1 h2 doc pos n c hpos hdoc hn2 hc _ t hp ho e
  unfold w2vDoc forN at h
  obtain ⟨k, hk⟩ : ∃ k, doc.length = k + 2 := ⟨doc.length - 2, by omega⟩
  rw [hk, forFrom_succ, Res.bind_eq_ok] at h
  obtain ⟨s1, e1, h⟩ := h
  rw [forFrom_succ, Res.bind_eq_ok] at h
  obtain ⟨s2, e2, h⟩ := h
  obtain ⟨a, b, _⟩ := one 0 st s1 (by omega) hp ho e1
  exact (one 1 s1 s2 (by omega) a b e2).2.2 ⟨by omega, by omega⟩

/-- With threshold 0 every word is always trained on. -/
theorem sampleValue_zero (f : Nat) (h1 : 1 ≤ f) (h2 : f ≤ 2 ^ 53) : sampleValue (F64.round 0) f = F64.round 1 := by
  have e := round_int (f : Int) (by rw [Int.natAbs_natCast]; exact h2)
  push_cast at e
  obtain ⟨e1, e2⟩ := e
  have hd : F64.div (F64.round 0) (F64.round (f : ℚ)) = F64.round 0 := by
    have hz : F64.round 0 = F64.zero false := by decide +kernel
    have hf : (0 : ℝ) < f := by exact_mod_cast h1
    rw [hz]
    generalize F64.round (f : ℚ) = y at e1 e2
    obtain ⟨t, m, k, rfl⟩ := e1.cases
    rw [← e2] at hf
    unfold F64.zero F64.div
    dsimp only
    cases t with
    | true =>
      exfalso
      have hq : F64.toRat (.fin true m k) ≤ 0 := by
        have : (0 : ℚ) ≤ (m : ℚ) / (one1 : ℚ) := div_nonneg (Nat.cast_nonneg _) (Nat.cast_nonneg _)
        show (-1 : ℚ) * _ ≤ 0
        rw [neg_one_mul]
        exact neg_nonpos.2 this
      have : toReal (.fin true m k) ≤ 0 := by unfold toReal; exact_mod_cast hq
      linarith
    | false =>
      rw [if_neg (by rintro rfl; simp [toReal, F64.toRat] at hf)]
      have : F64.toRat (.fin false 0 F64.zero._proof_1) = 0 := by simp [F64.toRat]
      rw [this, zero_div]
      exact hz
  unfold sampleValue
  show (if GoFloat.lt (F64.sub (F64.round 1) (F64.sqrt (F64.div (F64.round 0) (F64.round (f : ℚ))))) (F64.round 0) = true then F64.round 0 else
    F64.sub (F64.round 1) (F64.sqrt (F64.div (F64.round 0) (F64.round (f : ℚ))))) = F64.round 1
  rw [hd]
  decide +kernel

/-- what `Train` sets up for skip-gram with negative sampling -/
theorem w2vSetup_sg_ns [GoMath F] (lower : Word → Word) (r : σ → F × σ) (o : W2VOptions F) (p1 p2 : Pass) (s s' : σ) (M : W2VModel F)
    (hm : o.modelType = "skipgram".toList) (ho : o.optimizerType = "ns".toList)
    (hM : w2vSetup lower r o p1 p2 s = .ok (M, s')) :
    M.skipGram = true ∧ subsamples M.corpus.dic o.subsampleThreshold = .ok M.samples ∧ ∃ ng, M.opt = .ns ng ∧ ng.sampleSize = o.negativeSampleSize := by
  unfold w2vSetup at hM
  generalize (sigTable : List F) = tb at hM
  rw [Res.bind_eq_ok] at hM
  obtain ⟨c, hc, hM⟩ := hM
  rw [Res.bind_eq_ok] at hM
  obtain ⟨ps, _, hM⟩ := hM
  rw [Res.bind_eq_ok] at hM
  obtain ⟨sm, hsm, hM⟩ := hM
  rw [if_pos hm, Res.bind_eq_ok] at hM
  obtain ⟨sg, hsg, hM⟩ := hM
  rw [if_pos ho] at hM
  rw [Res.bind_eq_ok] at hsg
  obtain ⟨_, _, hsg⟩ := hsg
  injection hsg with hsg
  rw [Res.bind_eq_ok] at hM
  obtain ⟨cs, _, hM⟩ := hM
  injection hM with hM
  injection hM with hM _
  subst hM
  exact ⟨hsg.symm, hsm, _, rfl, rfl⟩

/-- **C84 (word2vec, float64: the index panic happens).** With one goroutine, skip-gram, negative sampling, threshold 0, dimension at least 1, at least one
iteration and learning rates that are not numbers, on every readable document whose training sequence is in memory and has at least three words: whatever
the random numbers and the initial values, in every schedule `Train` panics with an index out of range (and it has an execution). -/
theorem C84_word2vec_nan_rate (lib : LibM) (lower : Word → Word) (r : σ → F64 × σ) (o : W2VOptions F64) (hdim : 1 ≤ o.dim)
    (hm : o.modelType = "skipgram".toList) (ho : o.optimizerType = "ns".toList) (hneg : 0 ≤ o.negativeSampleSize) (hw1 : 1 ≤ o.window) (hw2 : o.window < 2 ^ 62)
    (hu : o.updateLRBatch ≠ 0) (hmem : o.docInMemory = true) (hthr : o.subsampleThreshold = F64.round 0) (hlr : o.initlr = .nan) (hmin : o.minLR = .nan)
    (hiter : 1 ≤ o.iter) (hg : o.goroutines = 1) (p : Pass) (ws : List Word) (h : Readable p ws) (hb : (ws.length : Int) + 1 ≤ 2 ^ 53)
    (h3 : 3 ≤ (trainSeq o.maxCount o.minCount (ws.map (o.corpus lower).norm)).length)
    (rand : F64 → Prop) (hrand : ∀ v, rand v → GoFloat.lt v (F64.round 1) = true) (hv : ∃ v, rand v) (path : Nat → List Nat) (s : σ) (next : UInt64) :
    letI := lib.math
    (∀ res, W2VTrain (MemEnv.sc rand (fun id q => q = path id)) lower r o p s next res → res = .panic .indexOutOfRange) ∧
    ∃ res, W2VTrain (MemEnv.sc rand (fun id q => q = path id)) lower r o p s next res := by
  let _ := lib.math
  have hlen' : (ws.map (o.corpus lower).norm).dedup.length ≤ ws.length := by
    have := (List.dedup_sublist (ws.map (o.corpus lower).norm)).length_le
    rwa [List.length_map] at this
  have hdic : (ws.map (o.corpus lower).norm).dedup.length < 2 ^ 62 := by omega
  have hall := C84_word2vec_float64 lower r o (by omega) (.inl hm) (.inl ho) hw1 (by omega) hu (.inl hmem) p ws h (by omega) (by omega) (by rw [hg]; exact hb)
    (MemEnv.sc rand (fun id q => q = path id)) s next
  refine ⟨fun res ht => ?_, hall.2 (MemEnv.sc_total hv path)⟩
  rcases hall.1 res ht with ⟨N, rfl⟩ | h
  swap
  · exact h
  exfalso
  obtain ⟨dim, hd⟩ := Int.eq_ofNat_of_zero_le (by omega : 0 ≤ o.dim)
  cases ht with
  | done M s' docs mem hM hp hdocs hi =>
    obtain ⟨f1, f2, f3, f4, f5, f6, f7⟩ := w2vSetup_facts lower r o dim hd p ws h s s' M hM
    have hlenM : M.corpus.dic.len = (ws.map (o.corpus lower).norm).dedup.length := f2.len_eq
    obtain ⟨g1, g2, ng, hopt, g3⟩ := w2vSetup_sg_ns lower r o p p s s' M hm ho hM
    obtain ⟨docs', e', hpc⟩ := workerDocs_pieces o.docInMemory (o.corpus lower) M.corpus p ws h f1 f3 o.goroutines o.batchSize (by omega) (by rw [hg]; exact hb) (.inl hmem)
    rw [hdocs] at e'
    obtain rfl := Res.ok.inj e'
    have hpc' : Pieces true 1 o.batchSize (trainSeq o.maxCount o.minCount (ws.map (o.corpus lower).norm)) docs := by
      rw [hmem, hg] at hpc; exact hpc
    have hdoc1 := hpc'.one
    have hcov := (C76_word2vec_negative_sampling lower r o dim hd hw1 hw2 p ws h hdic s s' M hM (.inl hmem) docs hdocs hg rand hv path next o.iter.toNat ng hopt).1 mem hi
    obtain ⟨orders, rands, lrs, o1, o2, o3, o4, t, o5, _⟩ := hcov
    have hrate : ∀ k, lrs k = .nan := by
      intro k
      rcases o4 k with e | e | ⟨cnt, _, _, _, e⟩
      · rw [e]; exact hlr
      · rw [e]; exact hmin
      · rw [e]
        show F64.mul o.initlr _ = .nan
        rw [hlr, nan_mul]
    have hsam : ∀ v ∈ M.samples, v = F64.round 1 := by
      rw [subsamples_eq M.corpus.dic _ f2 o.subsampleThreshold] at g2
      intro v hv
      rw [← Res.ok.inj g2] at hv
      obtain ⟨w, hw, rfl⟩ := List.mem_map.1 hv
      rw [hthr]
      refine sampleValue_zero _ ?_ ?_
      · exact List.count_pos_iff.2 ((mem_firstOcc _ _).1 hw)
      · have := List.count_le_length (a := w) (l := ws.map (o.corpus lower).norm)
        rw [List.length_map] at this
        omega
    obtain ⟨d, rest, hord⟩ : ∃ d rest, orders.flatten = d :: rest ∧ d = trainSeq o.maxCount o.minCount (ws.map (o.corpus lower).norm) := by
      obtain ⟨k, hk⟩ : ∃ k, o.iter.toNat = k + 1 := ⟨o.iter.toNat - 1, by omega⟩
      rw [hk] at o1
      cases orders with
      | nil => simp at o1
      | cons x orders =>
        have hx := o2 x (by simp)
        rw [hdoc1, List.perm_singleton] at hx
        subst hx
        exact ⟨_, _, by rw [List.flatten_cons, List.singleton_append], rfl⟩
    unfold w2vSeq at o5
    rw [hord.1, forEach_cons, Res.bind_eq_ok, g1] at o5
    obtain ⟨t1, e1, _⟩ := o5
    refine w2vDoc_nan o.window hw1 hw2 d M.corpus.dic.len dim (by rw [hord.2]; exact h3) ?_ (by omega) (by omega) M.samples f5 rands lrs ?_ hrate _ t1 f4.1 ?_ e1
    · intro id hid
      rw [hlenM]
      rw [hord.2] at hid
      exact mem_trainSeq_lt _ _ _ id hid
    · intro k v hv
      rw [hsam v hv]
      exact hrand _ (o3 k)
    · refine ⟨f4.2 ng hopt, ?_, by rw [g3]; exact hneg⟩
      have : ng.table = M.table := by simp only [W2VModel.table, hopt]
      rw [this, f6]
      simp [sigTable, expTableSize]

/-- The hypotheses are met by `a b a` with `MinCount` 1: `Train` panics, although every option but the learning rate is an ordinary one. -/
example (lib : LibM) (r : σ → F64 × σ) (s : σ) (next : UInt64) :
    let o : W2VOptions F64 := { (W2VOptions.default 1 : W2VOptions F64) with
      docInMemory := true, minCount := 1, modelType := "skipgram".toList, optimizerType := "ns".toList,
      subsampleThreshold := F64.round 0, initlr := .nan, minLR := .nan }
    letI := lib.math
    W2VTrain (MemEnv.sc (fun v => v = F64.round 0) (fun _ q => q = [])) id r o ⟨['a', ' ', 'b', ' ', 'a'], false⟩ s next (.panic .indexOutOfRange) := by
  intro o
  have hp : Readable ⟨['a', ' ', 'b', ' ', 'a'], false⟩ [['a'], ['b'], ['a']] := ⟨isWords_fields ['a',' ','b',' ','a'], rfl, by decide⟩
  obtain ⟨h1, res, h2⟩ := C84_word2vec_nan_rate lib id r o (by show (1 : Int) ≤ 10; omega) rfl rfl (by show (0 : Int) ≤ 5; omega) (by show (1 : Int) ≤ 5; omega)
    (by show (5 : Int) < 2 ^ 62; omega) (by show (100000 : Int) ≠ 0; omega) rfl rfl rfl rfl (by show (1 : Int) ≤ 15; omega) rfl _ _ hp (by norm_num)
    (by show 3 ≤ (trainSeq (-1) 1 ([['a'], ['b'], ['a']].map id)).length; decide) (fun v => v = F64.round 0) (by rintro v rfl; decide +kernel) ⟨_, rfl⟩ (fun _ => []) s next
  rw [h1 res h2] at h2
  exact h2

end Wego.Props
