import Verif.Model.Lexvec
import Verif.Proofs.GloveStep
import Verif.Props.Modelutil
import Verif.Props.Word2vecStep

/-! # C46, C47: LexVec -/

namespace Wego.Props
open Wego Wego.Spec Wego.Matrix

/-- Pointwise mutual information with context smoothing: `log (co * total^s / (f1 * f2^s))`. -/
noncomputable def pmiSpec (s total f1 f2 co : ℝ) : ℝ := Real.log (co * total ^ s / (f1 * f2 ^ s))

/-- The four relations. -/
noncomputable def relSpec (typ : String) (s total f1 f2 co : ℝ) : Option ℝ :=
  match typ with
  | "ppmi" => some (max 0 (pmiSpec s total f1 f2 co))
  | "pmi" => some (pmiSpec s total f1 f2 co)
  | "co" => some co
  | "logco" => some (Real.log co)
  | _ => none

theorem pmiValue_real {s co total : ℝ} {f1 f2 : Nat} (hco : 0 < co) (ht : 0 < total) (h1 : 1 ≤ f1) (h2 : 1 ≤ f2) :
    pmiValue s f1 f2 co (Real.log (total ^ s)) = pmiSpec s total f1 f2 co := by
  have p1 : (0 : ℝ) < f1 := by exact_mod_cast h1
  have p2 : (0 : ℝ) < f2 := by exact_mod_cast h2
  have p3 : (0 : ℝ) < (f2 : ℝ) ^ s := Real.rpow_pos_of_pos p2 s
  have p4 : 0 < total ^ s := Real.rpow_pos_of_pos ht s
  unfold pmiValue pmiSpec
  rw [Real.log_div (by positivity) (by positivity), Real.log_mul (by positivity) (by positivity),
    Real.log_mul (by positivity) (by positivity)]
  simp
  ring

/-- **C46 (values).** For a pair of words of frequencies `f1`, `f2` and a positive count the relation value is the one of
`relSpec`; every other relation type is rejected. -/
theorem C46_relation (dic : Dictionary) (l1 l2 : Int) (f1 f2 : Nat) (h1 : dic.idFreq l1 = .ok f1) (h2 : dic.idFreq l2 = .ok f2)
    (g1 : 1 ≤ f1) (g2 : 1 ≤ f2) (s co total : ℝ) (hco : 0 < co) (ht : 0 < total) (typ : String) :
    calculateRelation dic s typ l1 l2 co (GoMath.log (GoMath.pow total s)) =
      match relSpec typ s total f1 f2 co with
      | some v => .ok v
      | none => .err .invalidRelation := by
  have hne : ¬ (GoFloat.eq co (fzero : ℝ) = true) := by simp [hco.ne']
  have hpv := pmiValue_real (s := s) hco ht g1 g2
  unfold calculateRelation
  by_cases t1 : typ = "ppmi"
  · subst t1
    rw [if_pos rfl, if_neg hne, h1, Res.ok_bind, h2, Res.ok_bind]
    show Res.ok _ = Res.ok (max 0 (pmiSpec s total f1 f2 co))
    congr 1
    simp only [real_log, real_pow, hpv, real_lt, real_fzero, decide_eq_true_eq]
    split
    · next h => rw [max_eq_left h.le]
    · next h => rw [max_eq_right (not_lt.1 h)]
  · by_cases t2 : typ = "pmi"
    · subst t2
      rw [if_neg t1, if_pos rfl, if_neg hne, h1, Res.ok_bind, h2, Res.ok_bind]
      show Res.ok _ = Res.ok (pmiSpec s total f1 f2 co)
      rw [real_log, real_pow, hpv]
    · by_cases t3 : typ = "co"
      · subst t3; rfl
      · by_cases t4 : typ = "logco"
        · subst t4; rfl
        · rw [if_neg t1, if_neg t2, if_neg t3, if_neg t4]
          have : relSpec typ s total f1 f2 co = none := by
            unfold relSpec; split <;> simp_all
          rw [this]

/-- `C46_relation` in the dictionary of `x y x`. -/
example (dic : Dictionary) (h : addCalls [[['x'], ['y'], ['x']]] = .ok dic) (typ : String) :=
  C46_relation dic 0 1 2 1 (by cases h; rfl) (by cases h; rfl) (by decide) (by decide) (3 / 4) 2 3 (by norm_num) (by norm_num) typ

/-- PPMI is PMI clipped at zero, and PMI is positive exactly when the pair occurs more often than (smoothed) chance. -/
theorem C46_ppmi_is_clipped (s total f1 f2 co : ℝ) (hco : 0 < co) (ht : 0 < total) (h1 : 0 < f1) (h2 : 0 < f2) :
    relSpec "ppmi" s total f1 f2 co = (relSpec "pmi" s total f1 f2 co).map (max 0) ∧
    (0 < pmiSpec s total f1 f2 co ↔ f1 * f2 ^ s < co * total ^ s) := by
  refine ⟨rfl, ?_⟩
  have p3 : (0 : ℝ) < f2 ^ s := Real.rpow_pos_of_pos h2 s
  have p4 : 0 < total ^ s := Real.rpow_pos_of_pos ht s
  unfold pmiSpec
  rw [Real.log_pos_iff (by positivity), one_lt_div (by positivity)]

/-- `C46_ppmi_is_clipped` for words that occur twice and once and meet twice. -/
example := C46_ppmi_is_clipped (3 / 4) 3 2 1 2 (by norm_num) (by norm_num) (by norm_num) (by norm_num)

/-- **C46 (table).** The table built by `makeItems`, for any enumeration order of the co-occurrence map: an unseen pair reads as 0,
a seen pair as its relation value with the frequencies of the smaller and of the larger id; the order of the two ids does not matter. -/
theorem C46_items (calls : List (Nat × Nat)) (N : Nat) (hN : N ≤ 2 ^ 32) (hc : ∀ q ∈ calls, q.1 < N ∧ q.2 < N)
    (co : Cooccurrence ℝ) (hco : cooCalls "inc" calls = .ok co) (em : List (BitVec 64 × ℝ)) (hem : em.Perm co.encodedMatrix)
    (dic : Dictionary) (freq : Nat → Nat) (hfreq : ∀ i < N, dic.idFreq i = .ok (freq i) ∧ 1 ≤ freq i)
    (s : ℝ) (total : Nat) (ht : 1 ≤ total) (typ : String) (htyp : typ ∈ ["ppmi", "pmi", "co", "logco"]) :
    ∃ items, lexItems dic total s typ em = .ok items ∧
      ∀ a b, a < 2 ^ 32 → b < 2 ^ 32 →
        lexItem items a b = lexItem items b a ∧
        (pairCount calls a b = 0 → lexItem items a b = 0) ∧
        (pairCount calls a b ≠ 0 →
          relSpec typ s total (freq (min a b)) (freq (max a b)) (pairCount calls a b) = some (lexItem items a b)) := by
  obtain ⟨co', hco', hentry⟩ := C04_inc_counts calls (fun q hq => ⟨by have := hc q hq; omega, by have := hc q hq; omega⟩)
  rw [hco] at hco'; cases hco'
  have hco0 := hco
  unfold cooCalls at hco
  rw [new_inc, Res.ok_bind] at hco
  obtain ⟨hwf, hkeys⟩ := addPairs_keys calls _ co hco GoMap.wf_empty
  simp only [GoMap.empty, List.map_nil, List.not_mem_nil, false_or] at hkeys
  have hpos := addPairs_pos calls _ co hco (by intro k v hv; simp at hv)
  have htr : (0 : ℝ) < (total : ℝ) := by exact_mod_cast ht
  -- the value of each entry of the map
  have hval : ∀ e ∈ em, ∃ a b : Nat, a < N ∧ b < N ∧ e.1 = pairKey (a, b) ∧ e.2 = pairCount calls a b ∧ ∃ v,
      relSpec typ s total (freq (min a b)) (freq (max a b)) e.2 = some v ∧
      calculateRelation dic s typ (decodeBigram e.1).1.toInt (decodeBigram e.1).2.toInt e.2
        (GoMath.log (GoMath.pow (GoFloat.ofRat (total : ℚ)) s)) = .ok v := by
    intro e he
    have he' : e ∈ co.ma := hem.mem_iff.1 he
    have hg := (GoMap.mem_iff_get? _ hwf e.1 e.2).1 he'
    obtain ⟨⟨a, b⟩, hq, e1⟩ := (hkeys e.1).1 (List.mem_map.2 ⟨e, he', rfl⟩)
    have hb := hc _ hq
    dsimp only at hb
    have hd := decode_pairKey (a := a) (b := b) (by omega) (by omega)
    have hcount : e.2 = pairCount calls a b := by
      have := hentry a b (by omega) (by omega)
      rw [entry, Cooccurrence.encodedMatrix] at this
      change co.ma.get? (pairKey (a, b)) = _ at this
      rw [e1, hg] at this
      split at this
      · cases this
      · exact Option.some.inj this
    obtain ⟨q1, q2⟩ := hfreq (min a b) (by omega)
    obtain ⟨q3, q4⟩ := hfreq (max a b) (by omega)
    have hrel := C46_relation dic (min a b : Nat) (max a b : Nat) _ _ q1 q3 q2 q4 s e.2 total (hpos _ _ hg) htr typ
    have hsome : ∃ v, relSpec typ s total (freq (min a b)) (freq (max a b)) e.2 = some v := by
      simp only [List.mem_cons, List.not_mem_nil, or_false] at htyp
      rcases htyp with rfl | rfl | rfl | rfl <;> exact ⟨_, rfl⟩
    obtain ⟨v, hv⟩ := hsome
    refine ⟨a, b, hb.1, hb.2, e1.symm, hcount, v, hv, ?_⟩
    rw [← e1, hd.1, hd.2]
    rw [hv] at hrel
    simpa using hrel
  -- the loop
  have hloop : ∀ (l : List (BitVec 64 × ℝ)) (acc : GoMap (BitVec 64) ℝ), (∀ e ∈ l, e ∈ em) → (l.map Prod.fst).Nodup →
      ∃ items, forEach l acc (fun e res =>
        calculateRelation dic s typ (decodeBigram e.1).1.toInt (decodeBigram e.1).2.toInt e.2
          (GoMath.log (GoMath.pow (GoFloat.ofRat (total : ℚ)) s)) >>= fun v => .ok (res.set e.1 v)) = .ok items ∧
        (∀ k, k ∉ l.map Prod.fst → items.get? k = acc.get? k) ∧
        (∀ e ∈ l, ∃ v, items.get? e.1 = some v ∧
          calculateRelation dic s typ (decodeBigram e.1).1.toInt (decodeBigram e.1).2.toInt e.2
            (GoMath.log (GoMath.pow (GoFloat.ofRat (total : ℚ)) s)) = .ok v) := by
    intro l
    induction l with
    | nil => intro acc _ _; exact ⟨acc, rfl, fun _ _ => rfl, by simp⟩
    | cons e l ih =>
      intro acc hsub hnd
      obtain ⟨_, _, _, _, _, _, v, _, hv⟩ := hval e (hsub e (by simp))
      rw [List.map_cons, List.nodup_cons] at hnd
      obtain ⟨items, i1, i2, i3⟩ := ih (acc.set e.1 v) (fun e he => hsub e (by simp [he])) hnd.2
      refine ⟨items, ?_, ?_, ?_⟩
      · rw [forEach_cons, hv, Res.ok_bind, Res.ok_bind]; exact i1
      · intro k hk
        rw [List.map_cons, List.mem_cons, not_or] at hk
        rw [i2 k hk.2, GoMap.get?_set, if_neg (Ne.symm hk.1)]
      · intro e' he'
        rcases List.mem_cons.1 he' with rfl | he'
        · exact ⟨v, by rw [i2 _ hnd.1, GoMap.get?_set_self], hv⟩
        · exact i3 e' he'
  obtain ⟨items, i1, i2, i3⟩ := hloop em GoMap.empty (fun _ h => h) ((hem.map Prod.fst).nodup_iff.2 hwf)
  have hmemkeys : ∀ k, k ∈ em.map Prod.fst ↔ ∃ q ∈ calls, pairKey q = k := by
    intro k; rw [← hkeys k]; exact (hem.map Prod.fst).mem_iff
  refine ⟨items, i1, fun a b ha hb => ⟨?_, ?_, ?_⟩⟩
  · unfold lexItem; rw [C03_encode_comm]
  · intro h0
    have : pairKey (a, b) ∉ em.map Prod.fst := by
      rw [hmemkeys]
      rintro ⟨q, hq, e⟩
      unfold pairCount at h0
      rw [List.countP_eq_zero] at h0
      have hb' := hc q hq
      have := (pairKey_eq_iff q (a, b) (by omega) (by omega) ha hb).1 e
      exact h0 q hq (by simpa using this)
    unfold lexItem
    change ((items.get? (pairKey (a, b))).getD fzero : ℝ) = 0
    rw [i2 _ this]; simp
  · intro hne
    have : pairKey (a, b) ∈ em.map Prod.fst := by
      rw [hmemkeys]
      unfold pairCount at hne
      rw [Ne, List.countP_eq_zero] at hne
      simp only [decide_eq_true_eq] at hne
      push Not at hne
      obtain ⟨q, hq, rfl | rfl⟩ := hne
      · exact ⟨_, hq, rfl⟩
      · exact ⟨_, hq, pairKey_comm _ _⟩
    obtain ⟨e, he, hek⟩ := List.mem_map.1 this
    obtain ⟨v, hv1, hv2⟩ := i3 e he
    obtain ⟨a', b', ha', hb', hk, hcnt, w, hw1, hw2⟩ := hval e he
    rw [hv2] at hw2; cases hw2
    have hlex : lexItem items a b = v := by
      unfold lexItem
      change ((items.get? (pairKey (a, b))).getD fzero : ℝ) = v
      rw [← hek, hv1]; rfl
    rw [hlex]
    rw [hk] at hek
    rw [hcnt] at hw1
    rcases (pairKey_eq_iff (a', b') (a, b) (by simp only; omega) (by simp only; omega) ha hb).1 hek with h | h
    · cases h; exact hw1
    · cases h
      have hpc : pairCount calls b a = pairCount calls a b := by
        unfold pairCount; congr 1; funext q; simp only [or_comm]
      rw [hpc, Nat.min_comm, Nat.max_comm] at hw1
      exact hw1

/-- `C46_items` in the dictionary of `x y x`. -/
example (dic : Dictionary) (h : addCalls [[['x'], ['y'], ['x']]] = .ok dic) (co : Cooccurrence ℝ) (hco : cooCalls "inc" [(0, 1), (0, 0), (1, 0)] = .ok co) :=
  C46_items [(0, 1), (0, 0), (1, 0)] 2 (by norm_num) (by decide) co hco _ (List.Perm.refl _) dic (fun i => [2, 1].getD i 0)
    (by cases h; intro i hi; match i, hi with
      | 0, _ => exact ⟨rfl, by decide⟩
      | 1, _ => exact ⟨rfl, by decide⟩) (3 / 4) 3 (by decide) "pmi" (by decide)

/-- The hypotheses are met by the dictionary of `x y x`, all pairs within window 2. -/
example : ∃ (dic : Dictionary) (co : Cooccurrence ℝ), addCalls [[['x'], ['y'], ['x']]] = .ok dic ∧
    cooCalls "inc" [(0, 1), (0, 0), (1, 0)] = .ok co ∧
    (∀ i < 2, dic.idFreq (i : Nat) = .ok ([2, 1].getD i 0) ∧ 1 ≤ [2, 1].getD i 0) := by
  obtain ⟨co, h, _⟩ := C04_inc_counts [(0, 1), (0, 0), (1, 0)] (by decide)
  refine ⟨_, co, rfl, h, ?_⟩
  intro i hi
  match i, hi with
  | 0, _ => exact ⟨rfl, by decide⟩
  | 1, _ => exact ⟨rfl, by decide⟩

/-- **C47 (two different rows).** -/
theorem C47_update {m : Matrix ℝ} {r dim : Nat} (h : Shaped m r dim) {a b : Nat} (ha : a < r) (hb : b < r) (hab : a ≠ b) (lr f : ℝ) :
    let d := lr * (∑ j ∈ Finset.range dim, m.val a j * m.val b j - f)
    ∃ m', lexUpdate dim lr a b f m = .ok m' ∧ Shaped m' r dim ∧
      (∀ j < dim, m'.val a j = m.val a j - d * m.val b j ∧ m'.val b j = m.val b j - d * m.val a j) ∧
      (∀ k, k ≠ a → k ≠ b → ∀ j, m'.val k j = m.val k j) := by
  intro d
  obtain ⟨m', h1, h2, h3⟩ := pairSubLoop_val h ha hb (le_refl dim) d
  refine ⟨m', ?_, h2, ?_, ?_⟩
  · unfold lexUpdate
    rw [Int.toNat_natCast, pairDot_real h ha hb (le_refl dim), Res.ok_bind, ← h1]
    simp only [real_sub, real_mul, d]
    rw [mul_comm]
  · intro j hj
    rw [h3, h3, if_pos hj, if_pos hj]
    simp [hab, Ne.symm hab]
  · intro k hka hkb j
    rw [h3]; simp [hka, hkb]

/-- `C47_update` on rows (1, 2) and (5, 6). -/
example := C47_update (m := ⟨[1, 2, 3, 4, 5, 6, 7, 8], 4, 2⟩) (r := 4) (dim := 2) ⟨rfl, rfl, rfl⟩ (a := 0) (b := 2) (by decide) (by decide) (by decide) (1 / 10) 3

/-- **C47 (a word in its own context).** When both rows are the same one it moves twice along its old value. -/
theorem C47_update_same {m : Matrix ℝ} {r dim : Nat} (h : Shaped m r dim) {a : Nat} (ha : a < r) (lr f : ℝ) :
    let d := lr * (∑ j ∈ Finset.range dim, m.val a j * m.val a j - f)
    ∃ m', lexUpdate dim lr a a f m = .ok m' ∧ Shaped m' r dim ∧
      (∀ j < dim, m'.val a j = m.val a j - 2 * d * m.val a j) ∧ (∀ k, k ≠ a → ∀ j, m'.val k j = m.val k j) := by
  intro d
  obtain ⟨m', h1, h2, h3⟩ := pairSubLoop_val h ha ha (le_refl dim) d
  refine ⟨m', ?_, h2, ?_, ?_⟩
  · unfold lexUpdate
    rw [Int.toNat_natCast, pairDot_real h ha ha (le_refl dim), Res.ok_bind, ← h1]
    simp only [real_sub, real_mul, d]
    rw [mul_comm]
  · intro j hj
    rw [h3, if_pos hj]
    simp; ring
  · intro k hka j
    rw [h3]; simp [hka]

/-- `C47_update_same` on row (3, 4). -/
example := C47_update_same (m := ⟨[1, 2, 3, 4, 5, 6, 7, 8], 4, 2⟩) (r := 4) (dim := 2) ⟨rfl, rfl, rfl⟩ (a := 1) (by decide) (1 / 10) 3

/-- **C47 (descent).** `E` is the error `v1.v2 - f` of the pair, `S` the sum of the squared lengths. For a rate `lr` with `lr|E| <= 1` and `3 lr S <= 4`
the step does not enlarge the error, and makes it smaller if neither it nor `lr`, `S` were 0 and `3 lr S < 4`. -/
theorem C47_descent {m : Matrix ℝ} {r dim : Nat} (h : Shaped m r dim) {a b : Nat} (ha : a < r) (hb : b < r) (hab : a ≠ b) (lr f : ℝ) (hlr : 0 ≤ lr) :
    let E := fun m : Matrix ℝ => ∑ j ∈ Finset.range dim, m.val a j * m.val b j - f
    let S := ∑ j ∈ Finset.range dim, (m.val a j ^ 2 + m.val b j ^ 2)
    lr * |E m| ≤ 1 → 3 * (lr * S) ≤ 4 →
    ∃ m', lexUpdate dim lr a b f m = .ok m' ∧ |E m'| ≤ |E m| ∧ (E m ≠ 0 → 0 < lr * S → 3 * (lr * S) < 4 → |E m'| < |E m|) := by
  intro E S h1 h2
  obtain ⟨m', k1, k2, k3, k4⟩ := C47_update h ha hb hab lr f
  refine ⟨m', k1, ?_⟩
  set D := ∑ j ∈ Finset.range dim, m.val a j * m.val b j with hD
  have hE : E m = D - f := rfl
  rw [← hE] at k3
  set R := E m with hR
  have hdot : ∑ j ∈ Finset.range dim, m'.val a j * m'.val b j = (1 + (lr * R) ^ 2) * D - lr * R * S := by
    simp only [hD, S]
    rw [Finset.mul_sum, Finset.mul_sum, ← Finset.sum_sub_distrib]
    apply Finset.sum_congr rfl
    intro j hj
    obtain ⟨e1, e2⟩ := k3 j (Finset.mem_range.1 hj)
    rw [e1, e2]; ring
  have hE' : E m' = R * (1 - lr * S + lr ^ 2 * R * D) := by
    show ∑ j ∈ Finset.range dim, m'.val a j * m'.val b j - f = _
    rw [hdot]
    have : D = R + f := by rw [hE]; ring
    rw [this]; ring
  have hS : 0 ≤ S := Finset.sum_nonneg fun j _ => by positivity
  have hDS : |D| ≤ S / 2 := by
    rw [hD]; simp only [S]; rw [Finset.sum_div]
    refine le_trans (Finset.abs_sum_le_sum_abs _ _) (Finset.sum_le_sum fun j _ => ?_)
    rw [abs_le]; constructor <;> nlinarith [sq_nonneg (m.val a j - m.val b j), sq_nonneg (m.val a j + m.val b j)]
  have hx : |lr ^ 2 * R * D| ≤ lr * S / 2 := by
    rw [show lr ^ 2 * R * D = (lr * R) * (lr * D) by ring, abs_mul, abs_mul, abs_mul, abs_of_nonneg hlr]
    calc lr * |R| * (lr * |D|) ≤ 1 * (lr * |D|) := mul_le_mul_of_nonneg_right h1 (by positivity)
      _ = lr * |D| := one_mul _
      _ ≤ lr * (S / 2) := mul_le_mul_of_nonneg_left hDS hlr
      _ = lr * S / 2 := by ring
  obtain ⟨x1, x2⟩ := abs_le.1 hx
  have hls : 0 ≤ lr * S := mul_nonneg hlr hS
  rw [hE', abs_mul]
  constructor
  · have : |1 - lr * S + lr ^ 2 * R * D| ≤ 1 := abs_le.2 ⟨by linarith, by linarith⟩
    calc |R| * _ ≤ |R| * 1 := mul_le_mul_of_nonneg_left this (abs_nonneg _)
      _ = |R| := mul_one _
  · intro hne hpos hlt
    have : |1 - lr * S + lr ^ 2 * R * D| < 1 := abs_lt.2 ⟨by linarith, by linarith⟩
    calc |R| * _ < |R| * 1 := mul_lt_mul_of_pos_left this (abs_pos.2 hne)
      _ = |R| := mul_one _

/-- `C47_descent`: rows (1) and (2), target 1, rate 1/10: the error 1 becomes smaller. -/
example : ∃ m', lexUpdate (1 : Nat) (1 / 10 : ℝ) (0 : Nat) (1 : Nat) 1 ⟨[1, 2], 2, 1⟩ = .ok m' ∧ |m'.val 0 0 * m'.val 1 0 - 1| < 1 := by
  have h := C47_descent (m := (⟨[1, 2], 2, 1⟩ : Matrix ℝ)) (r := 2) (dim := 1) ⟨rfl, rfl, rfl⟩ (a := 0) (b := 1) (by decide) (by decide) (by decide) (1 / 10) 1 (by norm_num)
  have e0 : (⟨[1, 2], 2, 1⟩ : Matrix ℝ).val 0 0 = 1 := by simp [Matrix.val, Matrix.rowOf]
  have e1 : (⟨[1, 2], 2, 1⟩ : Matrix ℝ).val 1 0 = 2 := by simp [Matrix.val, Matrix.rowOf]
  simp only [Finset.sum_range_one, e0, e1] at h
  norm_num at h
  obtain ⟨m', h1, _, h2⟩ := h
  exact ⟨m', by norm_num; exact h1, h2⟩

/-- **C47 (descent for a word in its own context).** The same when both rows are one row `v`, for `lr|E| <= 1` and `4 lr v.v <= 1`. -/
theorem C47_descent_same {m : Matrix ℝ} {r dim : Nat} (h : Shaped m r dim) {a : Nat} (ha : a < r) (lr f : ℝ) (hlr : 0 ≤ lr) :
    let D := fun m : Matrix ℝ => ∑ j ∈ Finset.range dim, m.val a j * m.val a j
    lr * |D m - f| ≤ 1 → 4 * (lr * D m) ≤ 1 →
    ∃ m', lexUpdate dim lr a a f m = .ok m' ∧ |D m' - f| ≤ |D m - f| := by
  intro D h1 h2
  obtain ⟨m', k1, k2, k3, k4⟩ := C47_update_same h ha lr f
  refine ⟨m', k1, ?_⟩
  have hdot : D m' = D m * (1 - 2 * (lr * (D m - f))) ^ 2 := by
    simp only [D]
    rw [Finset.sum_mul]
    apply Finset.sum_congr rfl
    intro j hj
    rw [k3 j (Finset.mem_range.1 hj)]
    ring
  have h0 : 0 ≤ D m := Finset.sum_nonneg fun j _ => mul_self_nonneg _
  set R := D m - f with hR
  have hE : D m' - f = R * (1 - 4 * (lr * D m) + 4 * ((lr * R) * (lr * D m))) := by
    rw [hdot]
    have : f = D m - R := by rw [hR]; ring
    rw [this]; ring
  have hq : 0 ≤ lr * D m := mul_nonneg hlr h0
  have hR1 : |lr * R| ≤ 1 := by rw [abs_mul, abs_of_nonneg hlr]; exact h1
  obtain ⟨y1, y2⟩ := abs_le.1 hR1
  have : |1 - 4 * (lr * D m) + 4 * ((lr * R) * (lr * D m))| ≤ 1 := abs_le.2 ⟨by nlinarith, by nlinarith⟩
  rw [hE, abs_mul]
  calc |R| * _ ≤ |R| * 1 := mul_le_mul_of_nonneg_left this (abs_nonneg _)
    _ = |R| := mul_one _

/-- `C47_descent_same` on a row (1), target 0, rate 1/10. -/
example := C47_descent_same (m := (⟨[1], 1, 1⟩ : Matrix ℝ)) (r := 1) (dim := 1) ⟨rfl, rfl, rfl⟩ (a := 0) (by decide) (1 / 10) 0 (by norm_num)
  (by simp [Matrix.val, Matrix.rowOf]; norm_num) (by simp [Matrix.val, Matrix.rowOf]; norm_num)

/-- A perfect prediction is left alone. -/
theorem C47_fixed_point {m : Matrix ℝ} {r dim : Nat} (h : Shaped m r dim) {a b : Nat} (ha : a < r) (hb : b < r) (lr f : ℝ)
    (hf : ∑ j ∈ Finset.range dim, m.val a j * m.val b j = f) : lexUpdate dim lr a b f m = .ok m := by
  obtain ⟨m', h1, h2, h3⟩ := pairSubLoop_val h ha hb (le_refl dim) 0
  have : lexUpdate dim lr a b f m = .ok m' := by
    unfold lexUpdate
    rw [Int.toNat_natCast, pairDot_real h ha hb (le_refl dim), Res.ok_bind, ← h1, hf]
    simp
  rw [this]; congr 1
  refine h2.ext_val h fun k _ j hj => ?_
  rw [h3, if_pos hj]
  by_cases hkb : k = b
  · subst hkb; by_cases hka : k = a
    · subst hka; simp
    · simp [hka]
  · by_cases hka : k = a
    · subst hka; simp [hkb]
    · simp [hka, hkb]

/-- `C47_fixed_point`: 1 · 5 + 2 · 6 = 17. -/
example := C47_fixed_point (m := ⟨[1, 2, 3, 4, 5, 6, 7, 8], 4, 2⟩) (r := 4) (dim := 2) ⟨rfl, rfl, rfl⟩ (a := 0) (b := 2) (by decide) (by decide) (1 / 10) 17
  (by simp [Finset.sum_range_succ, Matrix.val, Matrix.rowOf]; norm_num)

section any
variable {F : Type} [GoFloat F]

theorem lexUpd_frame (cfg : LexCfg F) {r dim : Nat} (hdim : cfg.dim = dim) {s : LexState F} (h : Shaped s.param r dim) {a b : Nat}
    (ha : a < r) (hb : b < r) (f : F) :
    ∃ s', lexUpd cfg a b f s = .ok s' ∧ Shaped s'.param r dim ∧ s'.rnd = s.rnd ∧
      ∀ k, k ≠ a → k ≠ b → ∀ j, s'.param.val k j = s.param.val k j := by
  obtain ⟨d, hd⟩ := pairDot_total h ha hb (le_refl dim)
  obtain ⟨m', h1, h2, h3⟩ := pairSubLoop_val h ha hb (le_refl dim) ((d -. f) *. cfg.lrs s.upd)
  refine ⟨{ s with param := m', upd := s.upd + 1 }, ?_, h2, rfl, ?_⟩
  · unfold lexUpd lexUpdate
    rw [hdim, Int.toNat_natCast, hd, Res.ok_bind, h1, Res.ok_bind]
  · intro k hka hkb j
    show m'.val k j = _
    rw [h3]; simp [hka, hkb]

/-- Changes made by one training step: only the row of the centre word, the rows of its context words, and context rows (`>= len`). -/
def LexFrame (len : Nat) (touched : List Nat) (m m' : Matrix F) : Prop :=
  ∀ k < len, k ∉ touched → ∀ j, m'.val k j = m.val k j

/-- **C47 (training step).** For every document of known ids, every position, every state of the random generator and every
sequence of learning rates, any arithmetic: the step never panics, keeps the shape, and among the word rows changes only those of the centre
word and of the words at the context positions. -/
theorem C47_train_one (cfg : LexCfg F) (dim : Nat) (hdim : cfg.dim = dim) (h1 : 1 ≤ cfg.window) (h2 : cfg.window < 2 ^ 62)
    (hlen : cfg.len < 2 ^ 62) (items : GoMap (BitVec 64) F) (doc : List Nat) (hdoc : ∀ id ∈ doc, id < cfg.len) (pos : Nat) (hpos : pos < doc.length)
    (s : LexState F) (hs : Shaped s.param (cfg.len * 2) dim) :
    ∃ s', lexTrainOne cfg items doc pos s = .ok s' ∧ Shaped s'.param (cfg.len * 2) dim ∧
      LexFrame cfg.len (doc[pos] :: wordsAt doc (contextPositions (cfg.window - shrink s.rnd cfg.window) pos doc.length)) s.param s'.param := by
  obtain ⟨e1, a1, b1⟩ := shrink_spec s.rnd cfg.window h1 h2
  unfold lexTrainOne
  rw [e1, Res.ok_bind]
  dsimp only
  rw [windowLoop_eq _ _ _ _ _ _ a1 b1]
  set P := contextPositions (cfg.window - shrink s.rnd cfg.window) pos doc.length with hP
  have ha : doc[pos] < cfg.len := hdoc _ (List.getElem_mem hpos)
  have hinv : ∀ (l : List Nat) (t : LexState F), (∀ c ∈ l, c ∈ P) → Shaped t.param (cfg.len * 2) dim →
      ∃ t', forEach l t (fun c s => idx doc pos >>= fun a => idx doc c >>= fun b => lexPair cfg items a b s) = .ok t' ∧
        Shaped t'.param (cfg.len * 2) dim ∧ LexFrame cfg.len (doc[pos] :: wordsAt doc P) t.param t'.param := by
    intro l
    induction l with
    | nil => intro t _ ht; exact ⟨t, rfl, ht, fun _ _ _ _ => rfl⟩
    | cons c l ih =>
      intro t hsub ht
      have hcP := hsub c (by simp)
      have hc : c < doc.length := by
        rw [hP] at hcP
        simp only [contextPositions, List.mem_filter, List.mem_range] at hcP
        exact hcP.1
      have hb : doc[c] < cfg.len := hdoc _ (List.getElem_mem hc)
      have hbm : doc[c] ∈ wordsAt doc P := List.mem_filterMap.2 ⟨c, hcP, List.getElem?_eq_getElem hc⟩
      obtain ⟨t1, u1, u2, _, u4⟩ := lexUpd_frame cfg hdim ht (a := doc[pos]) (b := doc[c]) (by omega) (by omega) (lexItem items doc[pos] doc[c])
      obtain ⟨t2, v1, v2, v3⟩ := forN_inv (fun _ (x : LexState F) => Shaped x.param (cfg.len * 2) dim ∧
          LexFrame cfg.len [doc[pos]] t1.param x.param) cfg.negative.toNat t1 (fun _ s =>
          nextRandom s.rnd cfg.len >>= fun d =>
          lexUpd cfg (doc[pos] : Nat) (d.2 + cfg.len) (lexItem items doc[pos] d.2.toNat) { s with rnd := d.1 })
        ⟨u2, fun _ _ _ _ => rfl⟩ (by
          rintro i x _ ⟨x1, x2⟩
          rw [nextRandom_eq x.rnd cfg.len (by omega) (by omega), Res.ok_bind]
          dsimp only
          have hm : (rndStep x.rnd).toNat % ((cfg.len : Int).toNat) < cfg.len := by
            rw [Int.toNat_natCast]; exact Nat.mod_lt _ (by omega)
          generalize hq : (rndStep x.rnd).toNat % ((cfg.len : Int).toNat) = q at hm
          have := lexUpd_frame cfg hdim (s := { x with rnd := rndStep x.rnd }) x1 (a := doc[pos]) (b := q + cfg.len) (by omega) (by omega)
            (lexItem items doc[pos] q)
          obtain ⟨x', w1, w2, _, w4⟩ := this
          push_cast at w1
          rw [Int.toNat_natCast]
          refine ⟨x', w1, w2, ?_⟩
          intro k hk hne j
          rw [List.mem_singleton] at hne
          rw [w4 k hne (by omega) j]
          exact x2 k hk (by simpa using hne) j)
      obtain ⟨t3, z1, z2, z3⟩ := ih t2 (fun c hc => hsub c (by simp [hc])) v2
      refine ⟨t3, ?_, z2, ?_⟩
      · have hp : (idx doc pos >>= fun a => idx doc c >>= fun b => lexPair cfg items a b t) = .ok t2 := by
          rw [idx_of_lt _ _ hpos, Res.ok_bind, idx_of_lt _ _ hc, Res.ok_bind]
          unfold lexPair
          rw [u1, Res.ok_bind, v1]
        rw [forEach_cons, hp, Res.ok_bind]
        exact z1
      · intro k hk hne j
        have hne' := hne
        rw [List.mem_cons, not_or] at hne'
        rw [z3 k hk hne j, v3 k hk (by simpa using hne'.1) j, u4 k hne'.1 (fun e => hne'.2 (e ▸ hbm)) j]
  exact hinv P { s with rnd := rndStep s.rnd } (fun _ h => h) hs

/-- `C47_train_one` on the document 0 1 0, position 1. -/
example (items : GoMap (BitVec 64) ℝ) := C47_train_one (⟨2, 5, 5, 2, fun _ => 1⟩ : LexCfg ℝ) 2 rfl (by decide) (by decide) (by decide) items [0, 1, 0] (by decide) 1
  (by decide) ⟨⟨[1, 2, 3, 4, 5, 6, 7, 8], 4, 2⟩, 1, 0⟩ ⟨rfl, rfl, rfl⟩

/-- A window of zero makes the step panic. -/
theorem C47_window_zero (cfg : LexCfg F) (hw : cfg.window = 0) (items : GoMap (BitVec 64) F) (doc : List Nat) (pos : Nat) (s : LexState F) :
    lexTrainOne cfg items doc pos s = .panic .divByZero := by
  unfold lexTrainOne
  rw [hw, show nextRandom s.rnd 0 = .panic .divByZero from rfl]; rfl

/-- `C47_window_zero` on the same document. -/
example (items : GoMap (BitVec 64) ℝ) := C47_window_zero (⟨2, 0, 5, 2, fun _ => 1⟩ : LexCfg ℝ) rfl items [0, 1, 0] 1 ⟨⟨[1, 2, 3, 4, 5, 6, 7, 8], 4, 2⟩, 1, 0⟩

/-- The hypotheses are met: 2 words, document `0 1 0`, 2 dimensions, 5 negative samples. -/
example : ∃ (cfg : LexCfg ℝ) (s : LexState ℝ), cfg.dim = (2 : Nat) ∧ 1 ≤ cfg.window ∧ cfg.window < 2 ^ 62 ∧ cfg.len = 2 ∧
    (∀ id ∈ [0, 1, 0], id < cfg.len) ∧ Shaped s.param (cfg.len * 2) 2 :=
  ⟨⟨2, 5, 5, 2, fun _ => 1⟩, ⟨⟨[1, 2, 3, 4, 5, 6, 7, 8], 4, 2⟩, 1, 0⟩, rfl, by decide, by decide, rfl, by decide, ⟨rfl, rfl, rfl⟩⟩

end any
end Wego.Props
