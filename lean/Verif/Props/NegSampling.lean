import Verif.Proofs.Logistic

/-! # C31: negative sampling -/

namespace Wego.Props
open Wego Wego.Spec Wego.Matrix

section
variable {F : Type} [GoFloat F]

/-- The state of the generator and the value of draw number `i` (from 0) below `n`. -/
theorem nsIter_draw (n : Nat) (hn : 0 < n) (hn2 : n < 2 ^ 63) (s : UInt64) :
    nextRandom s (n : Int) = .ok (rndStep s, (((rndStep s).toNat % n : Nat) : Int)) := by
  have := nextRandom_eq s (n : Int) (by omega) (by omega)
  simpa using this

theorem zipIdx_replicate (n : Nat) (s : UInt64) (f : UInt64 → UInt64) (k : Nat) :
    (List.replicate k (n : Int)).zipIdx.map (fun x : Int × Nat => (((f^[x.2 + 1] s).toNat % x.1.toNat : Nat) : Int)) =
      (List.range k).map (fun i => (((f^[i + 1] s).toNat % n : Nat) : Int)) := by
  apply List.ext_getElem
  · simp
  · intro i h1 h2
    rw [List.getElem_map, List.getElem_zipIdx, List.getElem_map, List.getElem_range, List.getElem_replicate]
    simp only [Nat.zero_add, Int.toNat_natCast]

theorem draws_replicate (n : Nat) (hn : 0 < n) (hn2 : n < 2 ^ 63) (k : Nat) (s : UInt64) :
    draws s (List.replicate k (n : Int)) =
      .ok ((List.range k).map (fun i => (((rndStep^[i + 1] s).toNat % n : Nat) : Int))) := by
  have hv : ∀ v ∈ List.replicate k (n : Int), 0 < v ∧ v < 2 ^ 63 := by
    intro v hv
    rw [List.eq_of_mem_replicate hv]
    exact ⟨by omega, by omega⟩
  exact (draws_eq s _ hv).trans (congrArg Res.ok (zipIdx_replicate n s rndStep k))

/-- State reached after `m` samples, and what is needed of it. -/
theorem ns_optim_ok (o : NegSampling F) (n c : Nat) (hn : 0 < n) (hn2 : n < 2 ^ 63) (ht : SigSafe o.table)
    (hm : Shaped o.ctx n c) (rnd : UInt64) (id : Nat) (hid : id < n) (lr : F) (ctx tmp : List F)
    (hc : ctx.length = c) (htmp : tmp.length = c) :
    ∃ r, o.optim rnd id lr ctx tmp = .ok r ∧ Shaped r.opt.ctx n c ∧ r.opt.table = o.table ∧
      r.opt.sampleSize = o.sampleSize ∧ r.tmp.length = c ∧ r.rnd = rndStep^[o.sampleSize.toNat] rnd := by
  obtain ⟨st, he, h1, h2, h3⟩ := forN_inv
    (fun i (st : Matrix F × UInt64 × List F) => Shaped st.1 n c ∧ st.2.2.length = c ∧ st.2.1 = rndStep^[i - 1] rnd)
    (o.sampleSize + 1).toNat (o.ctx, rnd, tmp) (nsIter o.table id lr ctx) ⟨hm, htmp, rfl⟩ (by
      rintro i ⟨mat, s, tm⟩ hi ⟨h1, h2, h3⟩
      simp only at h1 h2 h3
      unfold nsIter
      by_cases h0 : i = 0
      · subst h0
        obtain ⟨g, mat', _, e, hs, _⟩ := nsPick_ok o.table ht 1 id n c hid lr ctx mat tm h1 hc h2
        rw [if_pos rfl]
        simp only [e, Res.ok_bind]
        refine ⟨_, rfl, hs, ?_, h3⟩
        rw [length_axpyF _ _ _ (by rw [h1.length_rowOf hid, h2]), h2]
      · rw [if_neg h0]
        have hr : mat.row = (n : Int) := h1.row
        have hs : rndStep s = rndStep^[i + 1 - 1] rnd := by
          rw [h3, ← Function.iterate_succ_apply' rndStep]
          congr 1; omega
        simp only [hr, nsIter_draw n hn hn2, Res.ok_bind]
        split
        · exact ⟨_, rfl, h1, h2, hs⟩
        · obtain ⟨g, mat', _, e, hsh, _⟩ := nsPick_ok o.table ht 0 ((rndStep s).toNat % n) n c (Nat.mod_lt _ hn) lr ctx mat tm h1 hc h2
          simp only [e, Res.ok_bind]
          refine ⟨_, rfl, hsh, ?_, hs⟩
          rw [length_axpyF _ _ _ (by rw [h1.length_rowOf (Nat.mod_lt _ hn), h2]), h2])
  refine ⟨{ opt := { o with ctx := st.1 }, rnd := st.2.1, tmp := st.2.2 }, ?_, h1, rfl, rfl, h2, ?_⟩
  · unfold NegSampling.optim
    rw [he]; rfl
  · simp only
    rw [h3]
    congr 1
    omega
end

theorem LogRun.append {lr : ℝ} {ctx : List ℝ} {l1 l2 : List (Nat × ℝ)} {s s' s'' : LogState}
    (h1 : LogRun lr ctx l1 s s') (h2 : LogRun lr ctx l2 s' s'') : LogRun lr ctx (l1 ++ l2) s s'' := by
  induction h1 with
  | nil => exact h2
  | cons a _ ih => exact .cons a (ih h2)

theorem nsPick_logStep (label : Int) (k n c : Nat) (hk : k < n) (lr : ℝ) (ctx : List ℝ)
    (mat : Matrix ℝ) (tmp : List ℝ) (hm : Shaped mat n c) (hc : ctx.length = c) (htmp : tmp.length = c) :
    ∃ mat' tmp', nsPick sigTable label k lr ctx mat tmp = .ok (mat', tmp') ∧ Shaped mat' n c ∧ tmp'.length = c ∧
      LogStep lr ctx k label ⟨mat.rowOf, tmp⟩ ⟨mat'.rowOf, tmp'⟩ := by
  obtain ⟨g, mat', hg, e, h1, h2, h3⟩ := nsPick_ok sigTable sigSafe_real label k n c hk lr ctx mat tmp hm hc htmp
  obtain ⟨p, hp0, hp1, hp, hg'⟩ := nsCoef_real label lr (dotF (mat.rowOf k) ctx)
  rw [hg] at hg'
  injection hg' with hg'
  subst hg'
  refine ⟨mat', _, e, h1, ?_, p, hp0, hp1, ?_, h2, h3, rfl⟩
  · rw [length_axpyF _ _ _ (by rw [hm.length_rowOf hk, htmp]), htmp]
  · rw [dotF_real] at hp; exact hp

/-- **C31 (the update).** With `n` words and `Dim = c`, for every parameter matrix, learning rate, vector `ctx`,
generator state and target word: `optim` succeeds, draws `NegativeSampleSize` numbers below `n`, and performs
exactly one logistic-regression step towards 1 for the target word, then one towards 0 for every drawn word
other than the target, in this order. `ctx` is not written (it is an input only). -/
theorem C31_optim_is_logistic_regression (o : NegSampling ℝ) (n c : Nat) (hn : 0 < n) (hn2 : n < 2 ^ 63)
    (ht : o.table = sigTable) (hs : 0 ≤ o.sampleSize) (hm : Shaped o.ctx n c) (rnd : UInt64) (id : Nat) (hid : id < n)
    (lr : ℝ) (ctx tmp : List ℝ) (hc : ctx.length = c) (htmp : tmp.length = c) :
    ∃ (ds : List Nat) (r : OptRes (NegSampling ℝ) ℝ),
      draws rnd (List.replicate o.sampleSize.toNat (n : Int)) = .ok (ds.map (fun d : Nat => (d : Int))) ∧
      o.optim rnd id lr ctx tmp = .ok r ∧ Shaped r.opt.ctx n c ∧
      LogRun lr ctx ((id, 1) :: (ds.filter (· ≠ id)).map (fun d => (d, 0)))
        ⟨o.ctx.rowOf, tmp⟩ ⟨r.opt.ctx.rowOf, r.tmp⟩ := by
  set dr : Nat → Nat := fun i => (rndStep^[i + 1] rnd).toNat % n with hdr
  obtain ⟨st, he, h1, h2, h3, h4⟩ := forN_inv
    (fun i (st : Matrix ℝ × UInt64 × List ℝ) => Shaped st.1 n c ∧ st.2.2.length = c ∧ st.2.1 = rndStep^[i - 1] rnd ∧
      LogRun lr ctx (if i = 0 then [] else (id, 1) :: (((List.range (i - 1)).map dr).filter (· ≠ id)).map (fun d => (d, 0)))
        ⟨o.ctx.rowOf, tmp⟩ ⟨st.1.rowOf, st.2.2⟩)
    (o.sampleSize + 1).toNat (o.ctx, rnd, tmp) (nsIter o.table id lr ctx) ⟨hm, htmp, rfl, LogRun.nil _⟩ (by
      rintro i ⟨mat, s, tm⟩ hi ⟨h1, h2, h3, h4⟩
      simp only at h1 h2 h3 h4
      unfold nsIter
      rw [ht]
      by_cases h0 : i = 0
      · subst h0
        obtain ⟨mat', tm', e, hs1, hl, hst⟩ := nsPick_logStep 1 id n c hid lr ctx mat tm h1 hc h2
        rw [if_pos rfl]
        simp only [e, Res.ok_bind]
        refine ⟨_, rfl, hs1, hl, h3, ?_⟩
        simp only [if_true] at h4
        have hst' : LogRun lr ctx [(id, 1)] ⟨mat.rowOf, tm⟩ ⟨mat'.rowOf, tm'⟩ := by
          refine LogRun.cons ?_ (LogRun.nil _)
          simpa using hst
        have := LogRun.append h4 hst'
        simpa using this
      · rw [if_neg h0]
        have hr : mat.row = (n : Int) := h1.row
        have hs' : rndStep s = rndStep^[i] rnd := by
          rw [h3, ← Function.iterate_succ_apply' rndStep]
          congr 1; omega
        obtain ⟨i, rfl⟩ : ∃ j, i = j + 1 := ⟨i - 1, by omega⟩
        have hd : (rndStep s).toNat % n = dr i := by rw [hs', hdr]
        simp only [hr, nsIter_draw n hn hn2, Res.ok_bind]
        simp only [Nat.add_eq_zero_iff, one_ne_zero, and_false, if_false, Nat.add_sub_cancel] at h4 ⊢
        by_cases hne : id = dr i
        · rw [if_pos (by rw [hd, ← hne])]
          refine ⟨_, rfl, h1, h2, hs', ?_⟩
          rw [List.range_succ, List.map_append, List.filter_append, List.map_append]
          simpa [hne] using h4
        · rw [if_neg (by rw [hd]; exact_mod_cast hne)]
          have hlt : dr i < n := Nat.mod_lt _ hn
          obtain ⟨mat', tm', e, hs1, hl, hst⟩ := nsPick_logStep 0 (dr i) n c hlt lr ctx mat tm h1 hc h2
          rw [hd, e]
          refine ⟨_, rfl, hs1, hl, hs', ?_⟩
          have hst' : LogRun lr ctx [(dr i, 0)] ⟨mat.rowOf, tm⟩ ⟨mat'.rowOf, tm'⟩ := by
            refine LogRun.cons ?_ (LogRun.nil _)
            simpa using hst
          have := LogRun.append h4 hst'
          rw [List.range_succ, List.map_append, List.filter_append, List.map_append]
          simpa [Ne.symm hne] using this)
  refine ⟨(List.range o.sampleSize.toNat).map dr, { opt := { o with ctx := st.1 }, rnd := st.2.1, tmp := st.2.2 }, ?_, ?_, h1, ?_⟩
  · rw [draws_replicate n hn hn2, List.map_map]
    rfl
  · unfold NegSampling.optim
    rw [he]; rfl
  · have e1 : (o.sampleSize + 1).toNat = o.sampleSize.toNat + 1 := by omega
    rw [e1] at h4
    simpa using h4

/-- A run of logistic steps moves row `k` along `ctx` by the sum of its coefficients. -/
theorem logRun_coef {lr : ℝ} (hlr : 0 ≤ lr) {ctx : List ℝ} {l : List (Nat × ℝ)} {s s' : LogState} (h : LogRun lr ctx l s s')
    (hlen : ∀ k, (s.rows k).length ≤ ctx.length) :
    ∃ coef : Nat → ℝ, (∀ k, s'.rows k = Spec.axpy (coef k) ctx (s.rows k)) ∧
      ∀ k, -(((l.filter (fun x => x.1 = k)).map (fun x => (1 - x.2) * lr)).sum) ≤ coef k ∧
        coef k ≤ ((l.filter (fun x => x.1 = k)).map (fun x => x.2 * lr)).sum := by
  induction h with
  | nil s => exact ⟨fun _ => 0, fun k => (axpy_zero _ _ (hlen k)).symm, by simp⟩
  | @cons k label rest s s1 s2 hst _ ih =>
    obtain ⟨p, hp0, hp1, _, hk, hj, _⟩ := hst
    have hlen1 : ∀ j, (s1.rows j).length ≤ ctx.length := by
      intro j
      by_cases hjk : j = k
      · subst hjk; rw [hk]; simp [Spec.axpy]
      · rw [hj j hjk]; exact hlen j
    obtain ⟨coef, hc, hb⟩ := ih hlen1
    refine ⟨fun j => if j = k then (label - p) * lr + coef k else coef j, ?_, ?_⟩
    · intro j
      by_cases hjk : j = k
      · subst hjk
        simp only [if_true]
        rw [hc, hk, axpy_axpy]
      · simp only [hjk, if_false]
        rw [hc, hj j hjk]
    · intro j
      by_cases hjk : j = k
      · subst hjk
        have := hb j
        simp only [List.filter_cons, decide_true, if_true, List.map_cons, List.sum_cons]
        constructor
        · have : -((1 - label) * lr) ≤ (label - p) * lr := by nlinarith
          linarith [(hb j).1]
        · have : (label - p) * lr ≤ label * lr := by nlinarith
          linarith [(hb j).2]
      · have hkj : ¬ k = j := fun e => hjk e.symm
        simp only [hjk, if_false, List.filter_cons, hkj, decide_false]
        exact hb j

/-- **C31 (who moves, where, how far).** For a learning rate `>= 0`: every row `k` of the output matrix becomes
`row + coef k * ctx`, where `0 <= coef <= lr` for the target word, `-(times drawn) * lr <= coef <= 0` for any
other word; a word that is neither the target nor drawn does not change at all. -/
theorem C31_directions (o : NegSampling ℝ) (n c : Nat) (hn : 0 < n) (hn2 : n < 2 ^ 63)
    (ht : o.table = sigTable) (hs : 0 ≤ o.sampleSize) (hm : Shaped o.ctx n c) (rnd : UInt64) (id : Nat) (hid : id < n)
    (lr : ℝ) (hlr : 0 ≤ lr) (ctx tmp : List ℝ) (hc : ctx.length = c) (htmp : tmp.length = c) :
    ∃ (ds : List Nat) (r : OptRes (NegSampling ℝ) ℝ) (coef : Nat → ℝ),
      draws rnd (List.replicate o.sampleSize.toNat (n : Int)) = .ok (ds.map (fun d : Nat => (d : Int))) ∧
      o.optim rnd id lr ctx tmp = .ok r ∧
      (∀ k < n, r.opt.ctx.getRow k = .ok (Spec.axpy (coef k) ctx (o.ctx.rowOf k))) ∧
      (0 ≤ coef id ∧ coef id ≤ lr) ∧
      (∀ k, k ≠ id → -((ds.count k : ℝ) * lr) ≤ coef k ∧ coef k ≤ 0) ∧
      (∀ k < n, k ≠ id → k ∉ ds → r.opt.ctx.getRow k = o.ctx.getRow k) := by
  obtain ⟨ds, r, h1, h2, h3, h4⟩ := C31_optim_is_logistic_regression o n c hn hn2 ht hs hm rnd id hid lr ctx tmp hc htmp
  obtain ⟨coef, hcf, hb⟩ := logRun_coef hlr h4 (by
    intro k
    simp only [rowOf, hm.col, Int.toNat_natCast, hc, List.length_take]
    exact Nat.min_le_left _ _)
  simp only at hcf
  have hself : ((((id, (1 : ℝ)) :: (ds.filter (· ≠ id)).map (fun d => (d, (0 : ℝ)))).filter (fun x => x.1 = id))) = [(id, 1)] := by
    simp only [List.filter_cons, decide_true, if_true, List.cons.injEq, true_and, List.filter_map, List.map_eq_nil_iff,
      List.filter_filter, List.filter_eq_nil_iff]
    intro a _
    simp
  have hoth : ∀ k, k ≠ id → ((((id, (1 : ℝ)) :: (ds.filter (· ≠ id)).map (fun d => (d, (0 : ℝ)))).filter (fun x => x.1 = k)))
      = List.replicate (ds.count k) (k, 0) := by
    intro k hk
    have : ¬ id = k := fun e => hk e.symm
    rw [List.filter_cons, if_neg (by simpa using this), List.filter_map, List.filter_filter]
    rw [show (fun a => (((fun x : Nat × ℝ => decide (x.1 = k)) ∘ fun d => (d, (0 : ℝ))) a && decide (a ≠ id))) = (fun a => a == k) by
      funext a
      by_cases ha : a = k
      · subst ha; simp [hk]
      · simp [ha]]
    rw [List.filter_beq]
    simp
  refine ⟨ds, r, coef, h1, h2, ?_, ?_, ?_, ?_⟩
  · intro k hk
    rw [h3.getRow hk, hcf k]
  · have := hb id
    rw [hself] at this
    simpa using this
  · intro k hk
    have := hb k
    rw [hoth k hk] at this
    simpa using this
  · intro k hk hne hnd
    have := hb k
    rw [hoth k hne] at this
    have h0 : ds.count k = 0 := List.count_eq_zero.2 hnd
    rw [h0] at this
    simp only [List.replicate_zero, List.map_nil, List.sum_nil, neg_zero] at this
    have hz : coef k = 0 := le_antisymm this.2 this.1
    rw [h3.getRow hk, hcf k, hz, hm.getRow hk, axpy_zero _ _ (by rw [hm.length_rowOf hk, hc])]

/-- **C31 (negative sample size).** With a sample size below zero nothing is trained, not even the target. -/
theorem C31_negative_size {F : Type} [GoFloat F] (o : NegSampling F) (h : o.sampleSize < 0) (rnd : UInt64) (id : Int) (lr : F)
    (ctx tmp : List F) : o.optim rnd id lr ctx tmp = .ok { opt := o, rnd := rnd, tmp := tmp } := by
  unfold NegSampling.optim forN
  have : (o.sampleSize + 1).toNat = 0 := by omega
  rw [this]
  rfl

/-- `C31_optim_is_logistic_regression` and `C31_directions`: three words, vectors of size 2, sample size 5, target 1. -/
example := (fun (t : List ℝ) (ht : t = sigTable) => C31_optim_is_logistic_regression
  ⟨⟨[1, 2, 3, 4, 5, 6], 3, 2⟩, t, 5⟩ 3 2 (by decide) (by decide) ht (show (0 : Int) ≤ 5 by decide) ⟨rfl, rfl, rfl⟩ 1 1 (by decide)
  (1/10) [1, 2] [0, 0] rfl rfl) sigTable rfl

example := (fun (t : List ℝ) (ht : t = sigTable) => C31_directions
  ⟨⟨[1, 2, 3, 4, 5, 6], 3, 2⟩, t, 5⟩ 3 2 (by decide) (by decide) ht (show (0 : Int) ≤ 5 by decide) ⟨rfl, rfl, rfl⟩ 1 1 (by decide)
  (1/10) (by norm_num) [1, 2] [0, 0] rfl rfl) sigTable rfl

/-- `C31_negative_size`: sample size -1. -/
example := C31_negative_size (F := ℝ) ⟨⟨[1, 2], 2, 1⟩, [], -1⟩ (show (-1 : Int) < 0 by decide) 1 1 (1/10) [1] [0]

end Wego.Props
