import Verif.Spec.LogisticF64
import Verif.Props.SigmoidF64
import Verif.Props.NegSampling

/-! # C31 in float64 -/

namespace Wego.Props
open Wego Wego.F64 Wego.Matrix Wego.Spec

theorem dotF_64 (x : List F64) : ∀ (y : List F64) (acc : F64),
    (List.zip x y).foldl (fun acc p => acc +. p.1 *. p.2) acc = dot64 acc x y := by
  induction x with
  | nil => intro y acc; cases y <;> rfl
  | cons a x ih =>
    intro y acc
    cases y with
    | nil => rfl
    | cons b y => rw [List.zip_cons_cons, List.foldl_cons, ih]; rfl

theorem dotF_dot64 (x y : List F64) : dotF x y = dot64 zero64 x y := dotF_64 x y _

theorem axpyF_64 (g : F64) (x : List F64) : ∀ y : List F64, axpyF g x y = axpy64 g y x := by
  induction x with
  | nil => intro y; cases y <;> rfl
  | cons a x ih =>
    intro y
    cases y with
    | nil => rfl
    | cons b y =>
      have := ih y
      unfold axpyF at this ⊢
      rw [List.zipWith_cons_cons, this]; rfl

/-- The scores for which the table lookup panics (C33): NaN and the largest float64 below 6. -/
def BadScore (x : F64) : Prop := x = .nan ∨ x = lastBelow6

theorem six_fin : IsFin (F64.round 6) ∧ toReal (F64.round 6) = 6 := by
  have := near_nat 6 (by norm_num)
  have h := toReal_nat 6 (by norm_num)
  push_cast at this h
  exact ⟨this.1, h⟩

theorem msix_fin : IsFin (F64.round (-6)) ∧ toReal (F64.round (-6)) = -6 := by
  have e := round_int (-6) (by norm_num)
  push_cast at e
  exact e

theorem sub_lo (label : Int) (h : label = 0 ∨ label = 1) : F64.sub (F64.round (label : ℚ)) (F64.round 0) = F64.round (label : ℚ) := by
  rcases h with rfl | rfl <;> decide +kernel

theorem sub_hi (label : Int) (h : label = 0 ∨ label = 1) :
    F64.sub (F64.round (label : ℚ)) (F64.round 1) = F64.round ((label - 1 : Int) : ℚ) := by
  rcases h with rfl | rfl <;> decide +kernel

theorem zero_one_fin : (IsFin (F64.round 0) ∧ toReal (F64.round 0) = 0) ∧ IsFin (F64.round 1) ∧ toReal (F64.round 1) = 1 := by
  have a := round_int 0 (by norm_num)
  have b := round_int 1 (by norm_num)
  push_cast at a b
  exact ⟨a, b⟩

/-- The three branches of the code, by score. -/
theorem score_cases (x : F64) :
    x = .nan ∨
    (GoFloat.le x (GoFloat.ofRat (-6)) = true ∧ (x = .inf true ∨ (IsFin x ∧ toReal x ≤ -6))) ∨
    (GoFloat.le x (GoFloat.ofRat (-6)) = false ∧ GoFloat.le (maxExp : F64) x = true ∧ (x = .inf false ∨ (IsFin x ∧ 6 ≤ toReal x))) ∨
    (GoFloat.le x (GoFloat.ofRat (-6)) = false ∧ GoFloat.le (maxExp : F64) x = false ∧
      GoFloat.lt (GoFloat.ofRat (-6)) x = true ∧ GoFloat.lt x (GoFloat.ofRat 6) = true ∧ IsFin x) := by
  obtain ⟨p1, p2⟩ := six_fin
  obtain ⟨m1, m2⟩ := msix_fin
  show x = .nan ∨
    (GoFloat.le x (F64.round (-6)) = true ∧ (x = .inf true ∨ (IsFin x ∧ toReal x ≤ -6))) ∨
    (GoFloat.le x (F64.round (-6)) = false ∧ GoFloat.le (F64.round 6) x = true ∧ (x = .inf false ∨ (IsFin x ∧ 6 ≤ toReal x))) ∨
    (GoFloat.le x (F64.round (-6)) = false ∧ GoFloat.le (F64.round 6) x = false ∧
      GoFloat.lt (F64.round (-6)) x = true ∧ GoFloat.lt x (F64.round 6) = true ∧ IsFin x)
  generalize F64.round (-6) = m at *
  generalize F64.round 6 = p at *
  cases x with
  | nan => left; rfl
  | inf s =>
    right
    obtain ⟨s1, n1, r1, rfl⟩ := p1.cases
    obtain ⟨s2, n2, r2, rfl⟩ := m1.cases
    have := r1.2
    have := r2.2
    cases s
    · right; left
      refine ⟨?_, ?_, .inl rfl⟩
      · rw [← Bool.not_eq_true, F64.le_iff]
        rintro ⟨a, b, ha, hb, hab⟩
        cases s1 <;> cases s2 <;> simp [F64.key] at ha hb <;> omega
      · rw [F64.le_iff]
        cases s1 <;> cases s2 <;> simp only [F64.key, Option.some.injEq] <;>
          refine ⟨_, _, rfl, rfl, ?_⟩ <;> simp <;> omega
    · left
      refine ⟨?_, .inl rfl⟩
      rw [F64.le_iff]
      cases s1 <;> cases s2 <;> simp only [F64.key, Option.some.injEq] <;>
        refine ⟨_, _, rfl, rfl, ?_⟩ <;> simp <;> omega
  | fin s n h =>
    right
    generalize hx : F64.fin s n h = x
    have hf : IsFin x := by rw [← hx]; trivial
    have l1 := le_fin x m hf m1
    have l2 := le_fin p x p1 hf
    have t1 := lt_fin m x m1 hf
    have t2 := lt_fin x p hf p1
    rw [m2] at l1 t1
    rw [p2] at l2 t2
    by_cases c1 : toReal x ≤ -6
    · left; exact ⟨l1.2 c1, .inr ⟨hf, c1⟩⟩
    · have c1' : GoFloat.le x m = false := by rw [← Bool.not_eq_true, l1]; exact c1
      right
      by_cases c2 : 6 ≤ toReal x
      · left; exact ⟨c1', l2.2 c2, .inr ⟨hf, c2⟩⟩
      · right
        exact ⟨c1', by rw [← Bool.not_eq_true, l2]; exact c2, t1.2 (not_le.1 c1), t2.2 (not_le.1 c2), hf⟩

/-- The coefficient in float64: a panic for the two bad scores, and otherwise `(label - p) * lr`. -/
theorem nsCoef_f64 (lib : LibM) (hexp : ExpAccurate lib) (label : Int) (hl : label = 0 ∨ label = 1) (lr x : F64) :
    (BadScore x ∧ nsCoef (letI := lib.math; sigTable) label lr x = .panic .indexOutOfRange) ∨
    ∃ p, Prob x p ∧ nsCoef (letI := lib.math; sigTable) label lr x = .ok (F64.mul (F64.sub (F64.round (label : ℚ)) p) lr) := by
  have hlen : (letI := lib.math; sigTable : List F64).length = 1000 := by simp [sigTable, expTableSize]
  obtain ⟨⟨z1, z2⟩, o1, o2⟩ := zero_one_fin
  unfold nsCoef
  rcases score_cases x with hnan | ⟨c1, c2⟩ | ⟨c1, c2, c3⟩ | ⟨c1, c2, c3, c4, c5⟩
  · left
    subst hnan
    refine ⟨.inl rfl, ?_⟩
    have hp := (C33_false _ hlen).2.2.2
    have e1 : GoFloat.le F64.nan (GoFloat.ofRat (-6)) = false := rfl
    have e2 : GoFloat.le (maxExp : F64) F64.nan = false := by decide +kernel
    rw [e1, e2, hp]; rfl
  · right
    refine ⟨F64.round 0, ?_, ?_⟩
    · refine ⟨z1, by rw [z2], by rw [z2]; norm_num, ?_⟩
      rcases c2 with rfl | ⟨hf, hle⟩
      · exact z2
      · obtain ⟨s, n, h, rfl⟩ := hf.cases
        show |toReal (F64.round 0) - _| ≤ _
        rw [z2, zero_sub, abs_neg, abs_of_pos (by positivity)]
        exact le_trans (sigmoid_low _ hle) (by norm_num)
    · rw [sub_lo label hl, c1]; rfl
  · right
    refine ⟨F64.round 1, ?_, ?_⟩
    · refine ⟨o1, by rw [o2]; norm_num, by rw [o2], ?_⟩
      rcases c3 with rfl | ⟨hf, hle⟩
      · exact o2
      · obtain ⟨s, n, h, rfl⟩ := hf.cases
        show |toReal (F64.round 1) - _| ≤ _
        have hs1 : 1 / (1 + Real.exp (-(toReal (F64.fin s n h)))) ≤ 1 := by
          rw [div_le_one (by positivity)]; linarith [Real.exp_pos (-(toReal (F64.fin s n h)))]
        rw [o2, abs_of_nonneg (by linarith)]
        exact le_trans (sigmoid_high _ hle) (by norm_num)
    · rw [sub_hi label hl, c1, c2]; rfl
  · by_cases hb : x = lastBelow6
    · left
      subst hb
      refine ⟨.inr rfl, ?_⟩
      rw [c1, c2, (C33_false _ hlen).2.2.1]; rfl
    · right
      obtain ⟨v, hv, v1, v2, v3, v4, v5⟩ := C32_float64 lib hexp x c3 c4 hb
      refine ⟨v, ⟨v1, v2.le, v3.le, ?_⟩, ?_⟩
      · obtain ⟨s, n, h, rfl⟩ := c5.cases
        show |toReal v - _| ≤ _
        rw [abs_le]
        have d1 : (1 : ℝ) / 10 ^ 9 ≤ 1 / 1000000 := by norm_num
        generalize (1 : ℝ) / 10 ^ 9 = d at *
        constructor <;> norm_num at * <;> linarith
      · rw [c1, c2, hv]; rfl

/-- A loop with an invariant, each of whose rounds may also panic. -/
theorem forN_inv_or {σ : Type} (I : Nat → σ → Prop) (Q : Prop) (e : Panic) (n : Nat) (s : σ) (f : Nat → σ → Res σ)
    (h0 : I 0 s) (hs : ∀ i s, i < n → I i s → (∃ s', f i s = .ok s' ∧ I (i+1) s') ∨ (f i s = .panic e ∧ Q)) :
    (∃ s', forN n s f = .ok s' ∧ I n s') ∨ (forN n s f = .panic e ∧ Q) := by
  have key : ∀ n lo s, I lo s → (∀ i s, lo ≤ i → i < lo + n → I i s → (∃ s', f i s = .ok s' ∧ I (i+1) s') ∨ (f i s = .panic e ∧ Q)) →
      (∃ s', forFrom lo n s f = .ok s' ∧ I (lo + n) s') ∨ (forFrom lo n s f = .panic e ∧ Q) := by
    intro n
    induction n with
    | zero => intro lo s h _; exact .inl ⟨s, rfl, h⟩
    | succ n ih =>
      intro lo s h hs
      rw [forFrom_succ]
      rcases hs lo s (le_refl _) (by omega) h with ⟨s', e1, h1⟩ | ⟨e1, hq⟩
      · rw [e1, Res.ok_bind]
        have := ih (lo + 1) s' h1 (fun i s a b => hs i s (by omega) (by omega))
        rw [show lo + 1 + n = lo + (n + 1) by omega] at this
        exact this
      · rw [e1]; exact .inr ⟨rfl, hq⟩
  have := key n 0 s h0 (fun i s _ hi => hs i s (by omega))
  simpa [forN] using this

theorem nsPick_step64 (lib : LibM) (hexp : ExpAccurate lib) (label : Int) (hl : label = 0 ∨ label = 1) (k n c : Nat) (hk : k < n)
    (lr : F64) (ctx : List F64) (mat : Matrix F64) (tmp : List F64) (hm : Shaped mat n c) (hc : ctx.length = c)
    (htmp : tmp.length = c) :
    (BadScore (dot64 zero64 (mat.rowOf k) ctx) ∧
      nsPick (letI := lib.math; sigTable) label k lr ctx mat tmp = .panic .indexOutOfRange) ∨
    ∃ mat' tmp', nsPick (letI := lib.math; sigTable) label k lr ctx mat tmp = .ok (mat', tmp') ∧ Shaped mat' n c ∧ tmp'.length = c ∧
      LogStep64 lr ctx k label ⟨mat.rowOf, tmp⟩ ⟨mat'.rowOf, tmp'⟩ := by
  have hlr := hm.length_rowOf hk
  unfold nsPick
  rw [hm.getRow hk]
  simp only [Res.ok_bind, hlr, hc, htmp, ne_eq, not_true_eq_false, or_self, if_false]
  rcases nsCoef_f64 lib hexp label hl lr (dotF (mat.rowOf k) ctx) with ⟨hb, e⟩ | ⟨p, hp, e⟩
  · left
    rw [dotF_dot64] at hb e
    exact ⟨hb, by rw [dotF_dot64, e]; rfl⟩
  · right
    rw [e]
    generalize hg : F64.mul (F64.sub (F64.round (label : ℚ)) p) lr = g at *
    obtain ⟨mat', e', h1, h2, h3⟩ := hm.setRow hk (axpyF g ctx (mat.rowOf k)) (by rw [length_axpyF _ _ _ (by omega), hlr])
    refine ⟨mat', axpyF g (mat.rowOf k) tmp, ?_, h1, ?_, p, ?_, ?_, h3, ?_⟩
    · simp only [Res.ok_bind, e']
    · rw [length_axpyF _ _ _ (by rw [hlr, htmp]), htmp]
    · rw [dotF_dot64] at hp; exact hp
    · rw [hg, ← axpyF_64]; exact h2
    · rw [hg, ← axpyF_64]

theorem LogRun64.append {lr : F64} {ctx : List F64} {l1 l2 : List (Nat × Int)} {s s' s'' : LogState64}
    (h1 : LogRun64 lr ctx l1 s s') (h2 : LogRun64 lr ctx l2 s' s'') : LogRun64 lr ctx (l1 ++ l2) s s'' := by
  induction h1 with
  | nil => exact h2
  | cons a _ ih => exact .cons a (ih h2)

/-- **C31 in float64.** With any accurate `math.Exp`, `n` words and `Dim = c`, for every parameter matrix (NaN and
infinities included), learning rate, vector `ctx`, generator state and target word: `NegativeSampleSize` words are drawn,
and either `optim` succeeds and has performed exactly the float64 logistic-regression steps for the target word (towards 1)
and then for every drawn word other than the target (towards 0), in this order; or it panics with an index out of range,
and then it has performed the first of these steps and the score of the next one is NaN or the largest float64 below 6. -/
theorem C31_float64 (lib : LibM) (hexp : ExpAccurate lib) (o : NegSampling F64) (n c : Nat) (hn : 0 < n) (hn2 : n < 2 ^ 63)
    (ht : o.table = (letI := lib.math; sigTable)) (hs : 0 ≤ o.sampleSize) (hm : Shaped o.ctx n c) (rnd : UInt64) (id : Nat) (hid : id < n)
    (lr : F64) (ctx tmp : List F64) (hc : ctx.length = c) (htmp : tmp.length = c) :
    ∃ ds : List Nat,
      draws rnd (List.replicate o.sampleSize.toNat (n : Int)) = .ok (ds.map (fun d : Nat => (d : Int))) ∧
      ((∃ r, o.optim rnd id lr ctx tmp = .ok r ∧ Shaped r.opt.ctx n c ∧
          LogRun64 lr ctx ((id, 1) :: (ds.filter (· ≠ id)).map (fun d => (d, 0))) ⟨o.ctx.rowOf, tmp⟩ ⟨r.opt.ctx.rowOf, r.tmp⟩) ∨
       (o.optim rnd id lr ctx tmp = .panic .indexOutOfRange ∧
          ∃ done k label rest s, (id, 1) :: (ds.filter (· ≠ id)).map (fun d => (d, 0)) = done ++ (k, label) :: rest ∧
            LogRun64 lr ctx done ⟨o.ctx.rowOf, tmp⟩ s ∧ BadScore (dot64 zero64 (s.rows k) ctx))) := by
  set dr : Nat → Nat := fun i => (rndStep^[i + 1] rnd).toNat % n with hdr
  set todo : Nat → List (Nat × Int) := fun i => (id, 1) :: (((List.range i).map dr).filter (· ≠ id)).map (fun d => (d, 0)) with htodo
  have hpre : ∀ i j, i ≤ j → ∃ rest, todo j = todo i ++ rest := by
    intro i j hij
    obtain ⟨d, rfl⟩ := Nat.exists_eq_add_of_le hij
    simp only [htodo]
    rw [List.range_add, List.map_append, List.filter_append, List.map_append]
    exact ⟨_, by rw [List.cons_append]⟩
  have key := forN_inv_or
    (fun i (st : Matrix F64 × UInt64 × List F64) => Shaped st.1 n c ∧ st.2.2.length = c ∧ st.2.1 = rndStep^[i - 1] rnd ∧
      LogRun64 lr ctx (if i = 0 then [] else todo (i - 1)) ⟨o.ctx.rowOf, tmp⟩ ⟨st.1.rowOf, st.2.2⟩)
    (∃ done k label rest s, todo o.sampleSize.toNat = done ++ (k, label) :: rest ∧
            LogRun64 lr ctx done ⟨o.ctx.rowOf, tmp⟩ s ∧ BadScore (dot64 zero64 (s.rows k) ctx))
    .indexOutOfRange
    (o.sampleSize + 1).toNat (o.ctx, rnd, tmp) (nsIter o.table id lr ctx) ⟨hm, htmp, rfl, LogRun64.nil _⟩ (by
      rintro i ⟨mat, s, tm⟩ hi ⟨h1, h2, h3, h4⟩
      simp only at h1 h2 h3 h4
      unfold nsIter
      rw [ht]
      by_cases h0 : i = 0
      · subst h0
        simp only [if_true] at h4
        rcases nsPick_step64 lib hexp 1 (.inr rfl) id n c hid lr ctx mat tm h1 hc h2 with ⟨hb, e⟩ | ⟨mat', tm', e, hs1, hl, hst⟩
        · right
          rw [if_pos rfl]
          simp only [e]
          exact ⟨rfl, [], id, 1, _, _, rfl, h4, hb⟩
        · left
          rw [if_pos rfl]
          simp only [e, Res.ok_bind]
          refine ⟨_, rfl, hs1, hl, h3, ?_⟩
          exact LogRun64.append h4 (LogRun64.cons hst (LogRun64.nil _))
      · rw [if_neg h0]
        have hr : mat.row = (n : Int) := h1.row
        have hs' : rndStep s = rndStep^[i] rnd := by
          rw [h3, ← Function.iterate_succ_apply' rndStep]
          congr 1; omega
        obtain ⟨i, rfl⟩ : ∃ j, i = j + 1 := ⟨i - 1, by omega⟩
        have hd : (rndStep s).toNat % n = dr i := by rw [hs', hdr]
        have hlt : dr i < n := Nat.mod_lt _ hn
        simp only [hr, nsIter_draw n hn hn2, Res.ok_bind]
        simp only [Nat.add_eq_zero_iff, one_ne_zero, and_false, if_false, Nat.add_sub_cancel] at h4 ⊢
        by_cases hne : id = dr i
        · left
          rw [if_pos (by rw [hd, ← hne])]
          refine ⟨_, rfl, h1, h2, hs', ?_⟩
          have : todo (i + 1) = todo i := by
            simp only [htodo]
            rw [List.range_succ, List.map_append, List.filter_append, List.map_append]
            simp [hne]
          rw [this]; exact h4
        · have hsucc : todo (i + 1) = todo i ++ [(dr i, 0)] := by
            simp only [htodo]
            rw [List.range_succ, List.map_append, List.filter_append, List.map_append]
            simp [Ne.symm hne]
          rw [if_neg (by rw [hd]; exact_mod_cast hne), hd]
          rcases nsPick_step64 lib hexp 0 (.inl rfl) (dr i) n c hlt lr ctx mat tm h1 hc h2 with ⟨hb, e⟩ | ⟨mat', tm', e, hs1, hl, hst⟩
          · right
            rw [e]
            obtain ⟨rest, hrest⟩ := hpre (i + 1) o.sampleSize.toNat (by omega)
            refine ⟨rfl, todo i, dr i, 0, rest, ⟨mat.rowOf, tm⟩, ?_, h4, hb⟩
            rw [hrest, hsucc]; simp
          · left
            rw [e]
            refine ⟨_, rfl, hs1, hl, hs', ?_⟩
            rw [hsucc]
            exact LogRun64.append h4 (LogRun64.cons hst (LogRun64.nil _)))
  refine ⟨(List.range o.sampleSize.toNat).map dr, ?_, ?_⟩
  · rw [draws_replicate n hn hn2, List.map_map]
    rfl
  · rcases key with ⟨st, he, h1, h2, h3, h4⟩ | ⟨he, hq⟩
    · left
      refine ⟨{ opt := { o with ctx := st.1 }, rnd := st.2.1, tmp := st.2.2 }, ?_, h1, ?_⟩
      · unfold NegSampling.optim
        rw [he]; rfl
      · have e1 : (o.sampleSize + 1).toNat = o.sampleSize.toNat + 1 := by omega
        rw [e1, if_neg (by omega), Nat.add_sub_cancel] at h4
        exact h4
    · right
      refine ⟨?_, hq⟩
      unfold NegSampling.optim
      rw [he]; rfl

/-- `C31_float64`: three words, vectors of size 2, sample size 5, target 1. -/
example := (fun (t : List F64) (ht : t = (letI := goodLib.math; sigTable)) => C31_float64 goodLib goodLib_accurate
  ⟨⟨[1, 2, 3, 4, 5, 6].map F64.round, 3, 2⟩, t, 5⟩ 3 2 (by decide) (by decide) ht (show (0 : Int) ≤ 5 by decide) ⟨rfl, rfl, rfl⟩ 1 1 (by decide)
  (F64.round (1/10)) ([1, 2].map F64.round) ([0, 0].map F64.round) rfl rfl) _ rfl

end Wego.Props
