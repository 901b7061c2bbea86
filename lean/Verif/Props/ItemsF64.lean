import Verif.Props.CosineAccuracy
import Verif.Props.Glove
import Verif.Props.Lexvec
import Verif.Go.LibM

/-! # C40, C46 in any arithmetic and in float64: what the items of GloVe and LexVec hold -/

namespace Wego.Props
open Wego Wego.Spec F64
variable {F : Type}

/-- **C40 (any arithmetic).** After any sequence of `Add` calls on ids below the dictionary size `N` (either count type), for every order `em` in which Go
enumerates the map: one item per unordered pair that was added, smaller id first, with `math.Log` of its count and the weight
`math.Pow(count/Xmax, Alpha)` below `Xmax` and 1 from there on. -/
theorem C40_items_any [GoMath F] (typ : String) (calls : List (Nat × Nat)) (N : Nat) (hN : N ≤ 2 ^ 32)
    (hc : ∀ q ∈ calls, q.1 < N ∧ q.2 < N) (co : Cooccurrence F) (hco : cooCalls typ calls = .ok co)
    (em : List (BitVec 64 × F)) (hem : em.Perm co.encodedMatrix) (xmax : Int) (alpha : F) :
    ((gloveItems xmax alpha em).map (fun it => (it.l1, it.l2))).Nodup ∧
    (∀ a b : Nat, (∃ it ∈ gloveItems xmax alpha em, it.l1 = a ∧ it.l2 = b) ↔ a ≤ b ∧ pairCount calls a b ≠ 0) ∧
    (∀ it ∈ gloveItems xmax alpha em, ∃ (a b : Nat) (v : F), it.l1 = a ∧ it.l2 = b ∧ a ≤ b ∧ b < N ∧
      entry co a b = some v ∧ it.f = GoMath.log v ∧
      it.coef = if GoFloat.lt v (GoFloat.ofRat (xmax : ℚ)) then GoMath.pow (v /. GoFloat.ofRat (xmax : ℚ)) alpha else GoFloat.ofRat 1) := by
  unfold cooCalls at hco
  rw [Res.bind_eq_ok] at hco
  obtain ⟨c0, h0, hco⟩ := hco
  have hma : c0.ma = GoMap.empty := by
    unfold Cooccurrence.new at h0; split at h0
    · cases h0
    · cases h0; rfl
  obtain ⟨hwf, hkeys⟩ := addPairs_keys calls c0 co hco (by rw [hma]; exact GoMap.wf_empty)
  rw [hma] at hkeys
  simp only [GoMap.empty, List.map_nil, List.not_mem_nil, false_or] at hkeys
  have hmem : ∀ e ∈ em, ∃ q ∈ calls, e.1 = pairKey q ∧ co.ma.get? e.1 = some e.2 := by
    intro e he
    have he' : e ∈ co.ma := hem.mem_iff.1 he
    obtain ⟨q, hq, e1⟩ := (hkeys e.1).1 (List.mem_map.2 ⟨e, he', rfl⟩)
    exact ⟨q, hq, e1.symm, (GoMap.mem_iff_get? _ hwf e.1 e.2).1 he'⟩
  have hlab : ∀ e ∈ em, ∃ a b : Nat, a ≤ b ∧ b < N ∧ e.1 = pairKey (a, b) ∧
      (gloveItem xmax alpha e).l1 = a ∧ (gloveItem xmax alpha e).l2 = b ∧ pairCount calls a b ≠ 0 := by
    intro e he
    obtain ⟨⟨a, b⟩, hq, e1, _⟩ := hmem e he
    have hb := hc _ hq
    dsimp only at hb
    have hd := decode_pairKey (a := a) (b := b) (by omega) (by omega)
    refine ⟨min a b, max a b, by omega, by omega, by rw [e1, pairKey_min_max], ?_, ?_, ?_⟩
    · simp only [gloveItem, e1]; exact hd.1
    · simp only [gloveItem, e1]; exact hd.2
    · unfold pairCount
      rw [Ne, List.countP_eq_zero]
      intro hh
      have := hh _ hq
      rcases Nat.le_total a b with h | h
      · simp [Nat.min_eq_left h, Nat.max_eq_right h] at this
      · simp [Nat.min_eq_right h, Nat.max_eq_left h] at this
  refine ⟨?_, ?_, ?_⟩
  · rw [gloveItems, List.map_map]
    have hnd : (em.map Prod.fst).Nodup := (hem.map Prod.fst).nodup_iff.2 hwf
    have hinj : ∀ x ∈ em, ∀ y ∈ em, ((fun it : GItem F => (it.l1, it.l2)) ∘ gloveItem xmax alpha) x =
        ((fun it : GItem F => (it.l1, it.l2)) ∘ gloveItem xmax alpha) y → x.1 = y.1 := by
      intro x hx' y hy' hxy
      obtain ⟨a, b, _, _, k1, l1, l2, _⟩ := hlab x hx'
      obtain ⟨a', b', _, _, k1', l1', l2', _⟩ := hlab y hy'
      simp only [Function.comp_apply, Prod.mk.injEq] at hxy
      rw [l1, l2, l1', l2'] at hxy
      rw [k1, k1']
      have e1 : a = a' := by omega
      have e2 : b = b' := by omega
      rw [e1, e2]
    clear hem hmem hlab
    induction em with
    | nil => simp
    | cons e em ih =>
      simp only [List.map_cons, List.nodup_cons] at hnd ⊢
      refine ⟨?_, ih hnd.2 (fun x hx y hy => hinj x (by simp [hx]) y (by simp [hy]))⟩
      intro hin
      obtain ⟨y, hy, hye⟩ := List.mem_map.1 hin
      exact hnd.1 (List.mem_map.2 ⟨y, hy, hinj y (by simp [hy]) e (by simp) hye⟩)
  · intro a b
    constructor
    · rintro ⟨it, hit, e1, e2⟩
      obtain ⟨e, he, rfl⟩ := List.mem_map.1 hit
      obtain ⟨a', b', hle, _, _, l1, l2, hne⟩ := hlab e he
      have : a = a' := by omega
      have : b = b' := by omega
      subst a' b'
      exact ⟨hle, hne⟩
    · rintro ⟨hle, hne⟩
      have : ∃ q ∈ calls, pairKey q = pairKey (a, b) ∧ a < N ∧ b < N := by
        unfold pairCount at hne
        rw [Ne, List.countP_eq_zero] at hne
        simp only [decide_eq_true_eq] at hne
        push Not at hne
        obtain ⟨q, hq, rfl | rfl⟩ := hne
        · exact ⟨_, hq, rfl, hc _ hq⟩
        · exact ⟨_, hq, pairKey_comm _ _, (hc _ hq).2, (hc _ hq).1⟩
      obtain ⟨q, hq, e1, han, hbn⟩ := this
      obtain ⟨e, he, hek⟩ := List.mem_map.1 ((hkeys (pairKey (a, b))).2 ⟨q, hq, e1⟩)
      refine ⟨gloveItem xmax alpha e, List.mem_map.2 ⟨e, hem.mem_iff.2 he, rfl⟩, ?_⟩
      have hd := decode_pairKey (a := a) (b := b) (by omega) (by omega)
      rw [Nat.min_eq_left hle, Nat.max_eq_right hle] at hd
      simp only [gloveItem, hek]
      exact hd
  · intro it hit
    obtain ⟨e, he, rfl⟩ := List.mem_map.1 hit
    obtain ⟨_, _, _, hg⟩ := hmem e he
    obtain ⟨a, b, hle, hbN, hk, l1, l2, _⟩ := hlab e he
    exact ⟨a, b, e.2, l1, l2, hle, hbN, by rw [entry, Cooccurrence.encodedMatrix, ← hg, hk]; rfl, rfl, rfl⟩

/-- comparing two small integers as doubles -/
theorem lt_ints (a b : Int) (ha : a.natAbs ≤ 2 ^ 53) (hb : b.natAbs ≤ 2 ^ 53) :
    GoFloat.lt (F64.round (a : ℚ)) (F64.round (b : ℚ)) = true ↔ a < b := by
  obtain ⟨f1, v1⟩ := round_int a ha
  obtain ⟨f2, v2⟩ := round_int b hb
  rw [lt_fin _ _ f1 f2, v1, v2]
  exact_mod_cast Iff.rfl

theorem ofRat_nat_int (n : Nat) : (GoFloat.ofRat ((n : Nat) : ℚ) : F64) = F64.round (((n : Int) : ℚ)) := by
  show F64.round ((n : Nat) : ℚ) = _
  congr 1

theorem lt_congr {F : Type} [GoFloat F] {x x' y y' : F} (h1 : x = x') (h2 : y = y') : GoFloat.lt x y = GoFloat.lt x' y' := by rw [h1, h2]

/-- **C40 (float64).** Counted with `"inc"`, at most `2^53` times per pair, and `0 < Xmax <= 2^53`: the item of the pair `a <= b` that was added `n` times
has `f = math.Log(n)`, the weight 1 if `n >= Xmax` and else `math.Pow(n/Xmax, Alpha)` (with the float64 quotient, which is within a relative error of
about `2^-53` of the exact one), whatever functions `math.Log` and `math.Pow` are. -/
theorem C40_items_float64 (lib : LibM) (calls : List (Nat × Nat)) (N : Nat) (hN : N ≤ 2 ^ 32)
    (hc : ∀ q ∈ calls, q.1 < N ∧ q.2 < N) (hcount : ∀ a b, pairCount calls a b ≤ 2 ^ 53) (co : Cooccurrence F64)
    (hco : cooCalls "inc" calls = .ok co) (em : List (BitVec 64 × F64)) (hem : em.Perm co.encodedMatrix)
    (xmax : Int) (hx0 : 0 < xmax) (hx : xmax ≤ 2 ^ 53) (alpha : F64) :
    letI := lib.math
    ((gloveItems xmax alpha em).map (fun it => (it.l1, it.l2))).Nodup ∧
    (∀ a b : Nat, (∃ it ∈ gloveItems xmax alpha em, it.l1 = a ∧ it.l2 = b) ↔ a ≤ b ∧ pairCount calls a b ≠ 0) ∧
    (∀ it ∈ gloveItems xmax alpha em, ∃ (a b n : Nat) (v x : F64), it.l1 = a ∧ it.l2 = b ∧ a ≤ b ∧ b < N ∧ n = pairCount calls a b ∧
      F64.toRat v = n ∧ F64.toRat x = xmax ∧ it.f = lib.log v ∧
      ((n : Int) < xmax → it.coef = lib.pow (v /. x) alpha) ∧ (xmax ≤ n → it.coef = GoFloat.ofRat 1)) := by
  letI := lib.math
  obtain ⟨i1, i2, i3⟩ := C40_items_any (F := F64) "inc" calls N hN hc co hco em hem xmax alpha
  refine ⟨i1, i2, fun it hit => ?_⟩
  obtain ⟨a, b, v, l1, l2, hab, hb, he, hf, hcoef⟩ := i3 it hit
  obtain ⟨co', hco', hent⟩ := C04_inc_counts_f64 calls (fun q hq => ⟨by have := hc q hq; omega, by have := hc q hq; omega⟩)
  rw [hco] at hco'; cases hco'
  have hne : pairCount calls a b ≠ 0 := ((i2 a b).1 ⟨it, hit, l1, l2⟩).2
  obtain ⟨w, hw1, hw2, hw3⟩ := (hent a b (by omega) (by omega) (hcount a b)).2 hne
  rw [he] at hw1
  cases hw1
  have hxn : xmax.natAbs ≤ 2 ^ 53 := by omega
  refine ⟨a, b, pairCount calls a b, v, F64.round (xmax : ℚ), l1, l2, hab, hb, rfl, hw3, ?_, hf, ?_, ?_⟩
  · have := (round_int xmax hxn).2
    unfold toReal at this
    exact_mod_cast this
  · intro hlt
    have hcmp := (lt_ints (pairCount calls a b : Int) xmax (by simpa using hcount a b) hxn).2 hlt
    rw [hcoef, if_pos]
    · rfl
    · rw [← hcmp]
      exact lt_congr (hw2.trans (ofRat_nat_int _)) rfl
  · intro hle
    have hcmp : ¬ (GoFloat.lt (F64.round (((pairCount calls a b : Int)) : ℚ)) (F64.round (xmax : ℚ)) = true) := by
      rw [lt_ints _ _ (by simpa using hcount a b) hxn]; omega
    rw [hcoef, if_neg]
    intro h
    apply hcmp
    rw [← h]
    exact (lt_congr (hw2.trans (ofRat_nat_int _)) rfl).symm

/-- three recorded pairs, any `math.Log` and `math.Pow` -/
example (lib : LibM) (co : Cooccurrence F64) (h : cooCalls "inc" [(1, 0), (0, 1), (2, 2)] = .ok co) (alpha : F64) :=
  C40_items_float64 lib [(1, 0), (0, 1), (2, 2)] 3 (by norm_num) (by decide)
    (fun a b => le_trans List.countP_le_length (by norm_num)) co h _ (List.Perm.refl _) 100 (by norm_num) (by norm_num) alpha

example : ∃ co : Cooccurrence F64, cooCalls "inc" [(1, 0), (0, 1), (2, 2)] = .ok co := by
  obtain ⟨co, h, _⟩ := C04_inc_counts_f64 [(1, 0), (0, 1), (2, 2)] (by decide)
  exact ⟨co, h⟩

/-- the four relations, operation by operation, for a pair of words that occur `f1` and `f2` times in a corpus of `total` words and has the count `co` -/
def relAny [GoMath F] (typ : String) (s : F) (total f1 f2 : Nat) (co : F) : Option F :=
  let pmi := GoMath.log co -. GoMath.log (GoFloat.ofRat (f1 : ℚ)) -. GoMath.log (GoMath.pow (GoFloat.ofRat (f2 : ℚ)) s) +.
    GoMath.log (GoMath.pow (GoFloat.ofRat (total : ℚ)) s)
  match typ with
  | "ppmi" => some (if GoFloat.lt pmi fzero then fzero else pmi)
  | "pmi" => some pmi
  | "co" => some co
  | "logco" => some (GoMath.log co)
  | _ => none

theorem relation_any [GoMath F] (dic : Dictionary) (l1 l2 : Int) (f1 f2 : Nat) (h1 : dic.idFreq l1 = .ok f1) (h2 : dic.idFreq l2 = .ok f2)
    (s co : F) (total : Nat) (hco : GoFloat.eq co fzero = false) (typ : String) :
    calculateRelation dic s typ l1 l2 co (GoMath.log (GoMath.pow (GoFloat.ofRat (total : ℚ)) s)) =
      match relAny typ s total f1 f2 co with
      | some v => .ok v
      | none => .err .invalidRelation := by
  have hne : ¬ (GoFloat.eq co (fzero : F) = true) := by simp [hco]
  unfold calculateRelation
  by_cases t1 : typ = "ppmi"
  · subst t1
    rw [if_pos rfl, if_neg hne, h1, Res.ok_bind, h2, Res.ok_bind]
    rfl
  · by_cases t2 : typ = "pmi"
    · subst t2
      rw [if_neg t1, if_pos rfl, if_neg hne, h1, Res.ok_bind, h2, Res.ok_bind]
      rfl
    · by_cases t3 : typ = "co"
      · subst t3; rfl
      · by_cases t4 : typ = "logco"
        · subst t4; rfl
        · rw [if_neg t1, if_neg t2, if_neg t3, if_neg t4]
          have : relAny typ s total f1 f2 co = none := by
            unfold relAny; split <;> simp_all
          rw [this]

/-- **C46 (any arithmetic).** The table of relation values, for any enumeration order of the co-occurrence map in which no count equals 0: an unseen pair reads
as 0, a seen pair as its relation value, computed from its count and the frequencies of the smaller and of the larger id. -/
theorem C46_items_any [GoMath F] (typc : String) (calls : List (Nat × Nat)) (N : Nat) (hN : N ≤ 2 ^ 32) (hc : ∀ q ∈ calls, q.1 < N ∧ q.2 < N)
    (co : Cooccurrence F) (hco : cooCalls typc calls = .ok co) (hnz : ∀ k v, co.encodedMatrix.get? k = some v → GoFloat.eq v fzero = false)
    (em : List (BitVec 64 × F)) (hem : em.Perm co.encodedMatrix)
    (dic : Dictionary) (freq : Nat → Nat) (hfreq : ∀ i < N, dic.idFreq i = .ok (freq i))
    (s : F) (total : Nat) (typ : String) (htyp : typ ∈ ["ppmi", "pmi", "co", "logco"]) :
    ∃ items, lexItems dic total s typ em = .ok items ∧
      ∀ a b, a < 2 ^ 32 → b < 2 ^ 32 →
        lexItem items a b = lexItem items b a ∧
        (pairCount calls a b = 0 → lexItem items a b = fzero) ∧
        (pairCount calls a b ≠ 0 → ∃ v, entry co a b = some v ∧
          relAny typ s total (freq (min a b)) (freq (max a b)) v = some (lexItem items a b)) := by
  unfold cooCalls at hco
  rw [Res.bind_eq_ok] at hco
  obtain ⟨c0, h0, hco⟩ := hco
  have hma : c0.ma = GoMap.empty := by
    unfold Cooccurrence.new at h0; split at h0
    · cases h0
    · cases h0; rfl
  obtain ⟨hwf, hkeys⟩ := addPairs_keys calls c0 co hco (by rw [hma]; exact GoMap.wf_empty)
  rw [hma] at hkeys
  simp only [GoMap.empty, List.map_nil, List.not_mem_nil, false_or] at hkeys
  have hval : ∀ e ∈ em, ∃ a b : Nat, a < N ∧ b < N ∧ e.1 = pairKey (a, b) ∧ co.ma.get? e.1 = some e.2 ∧ ∃ v,
      relAny typ s total (freq (min a b)) (freq (max a b)) e.2 = some v ∧
      calculateRelation dic s typ (decodeBigram e.1).1.toInt (decodeBigram e.1).2.toInt e.2
        (GoMath.log (GoMath.pow (GoFloat.ofRat (total : ℚ)) s)) = .ok v := by
    intro e he
    have he' : e ∈ co.ma := hem.mem_iff.1 he
    have hg := (GoMap.mem_iff_get? _ hwf e.1 e.2).1 he'
    obtain ⟨⟨a, b⟩, hq, e1⟩ := (hkeys e.1).1 (List.mem_map.2 ⟨e, he', rfl⟩)
    have hb := hc _ hq
    dsimp only at hb
    have hd := decode_pairKey (a := a) (b := b) (by omega) (by omega)
    have q1 := hfreq (min a b) (by omega)
    have q3 := hfreq (max a b) (by omega)
    have hrel := relation_any dic (min a b : Nat) (max a b : Nat) _ _ q1 q3 s e.2 total (hnz _ _ hg) typ
    have hsome : ∃ v, relAny typ s total (freq (min a b)) (freq (max a b)) e.2 = some v := by
      simp only [List.mem_cons, List.not_mem_nil, or_false] at htyp
      rcases htyp with rfl | rfl | rfl | rfl <;> exact ⟨_, rfl⟩
    obtain ⟨v, hv⟩ := hsome
    refine ⟨a, b, hb.1, hb.2, e1.symm, hg, v, hv, ?_⟩
    rw [← e1, hd.1, hd.2]
    rw [hv] at hrel
    simpa using hrel
  -- the loop
  have hloop : ∀ (l : List (BitVec 64 × F)) (acc : GoMap (BitVec 64) F), (∀ e ∈ l, e ∈ em) → (l.map Prod.fst).Nodup →
      ∃ items, forEach l acc (fun e res =>
        calculateRelation dic s typ (decodeBigram e.1).1.toInt (decodeBigram e.1).2.toInt e.2
          (GoMath.log (GoMath.pow (GoFloat.ofRat (total : ℚ)) s)) >>= fun v => .ok (res.set e.1 v)) = .ok items ∧
        (∀ k, k ∉ l.map Prod.fst → items.get? k = acc.get? k) ∧
        (∀ e ∈ l, ∃ v, items.get? e.1 = some v ∧
          calculateRelation dic s typ (decodeBigram e.1).1.toInt (decodeBigram e.1).2.toInt e.2
            (GoMath.log (GoMath.pow (GoFloat.ofRat (total : ℚ)) s)) = .ok v) := by
    intro l
    induction l with
    | nil => intro acc _ _; exact ⟨acc, rfl, fun _ _ => rfl, by simp⟩
    | cons e l ih =>
      intro acc hsub hnd
      obtain ⟨_, _, _, _, _, _, v, _, hv⟩ := hval e (hsub e (by simp))
      rw [List.map_cons, List.nodup_cons] at hnd
      obtain ⟨items, i1, i2, i3⟩ := ih (acc.set e.1 v) (fun e he => hsub e (by simp [he])) hnd.2
      refine ⟨items, ?_, ?_, ?_⟩
      · rw [forEach_cons, hv, Res.ok_bind, Res.ok_bind]; exact i1
      · intro k hk
        rw [List.map_cons, List.mem_cons, not_or] at hk
        rw [i2 k hk.2, GoMap.get?_set, if_neg (Ne.symm hk.1)]
      · intro e' he'
        rcases List.mem_cons.1 he' with rfl | he'
        · exact ⟨v, by rw [i2 _ hnd.1, GoMap.get?_set_self], hv⟩
        · exact i3 e' he'
  obtain ⟨items, i1, i2, i3⟩ := hloop em GoMap.empty (fun _ h => h) ((hem.map Prod.fst).nodup_iff.2 hwf)
  have hmemkeys : ∀ k, k ∈ em.map Prod.fst ↔ ∃ q ∈ calls, pairKey q = k := by
    intro k; rw [← hkeys k]; exact (hem.map Prod.fst).mem_iff
  refine ⟨items, i1, fun a b ha hb => ⟨?_, ?_, ?_⟩⟩
  · unfold lexItem; rw [C03_encode_comm]
  · intro h0
    have : pairKey (a, b) ∉ em.map Prod.fst := by
      rw [hmemkeys]
      rintro ⟨q, hq, e⟩
      unfold pairCount at h0
      rw [List.countP_eq_zero] at h0
      have hb' := hc q hq
      have := (pairKey_eq_iff q (a, b) (by omega) (by omega) ha hb).1 e
      exact h0 q hq (by simpa using this)
    unfold lexItem
    change ((items.get? (pairKey (a, b))).getD fzero : F) = fzero
    rw [i2 _ this]; rfl
  · intro hne
    have : pairKey (a, b) ∈ em.map Prod.fst := by
      rw [hmemkeys]
      unfold pairCount at hne
      rw [Ne, List.countP_eq_zero] at hne
      simp only [decide_eq_true_eq] at hne
      push Not at hne
      obtain ⟨q, hq, rfl | rfl⟩ := hne
      · exact ⟨_, hq, rfl⟩
      · exact ⟨_, hq, pairKey_comm _ _⟩
    obtain ⟨e, he, hek⟩ := List.mem_map.1 this
    obtain ⟨v, hv1, hv2⟩ := i3 e he
    obtain ⟨a', b', ha', hb', hk, hg, w, hw1, hw2⟩ := hval e he
    rw [hv2] at hw2; cases hw2
    have hlex : lexItem items a b = v := by
      unfold lexItem
      change ((items.get? (pairKey (a, b))).getD fzero : F) = v
      rw [← hek, hv1]; rfl
    rw [hlex]
    refine ⟨e.2, by rw [entry, Cooccurrence.encodedMatrix, ← hg, hek]; rfl, ?_⟩
    rw [hk] at hek
    rcases (pairKey_eq_iff (a', b') (a, b) (by simp only; omega) (by simp only; omega) ha hb).1 hek with h | h
    · cases h; exact hw1
    · cases h
      rw [Nat.min_comm, Nat.max_comm] at hw1
      exact hw1

theorem eq_nat_zero (n : Nat) (h : n ≠ 0) (hn : n ≤ 2 ^ 53) (z : F64) (hz : F64.key z = some 0) : GoFloat.eq (F64.round ((n : Nat) : ℚ)) z = false := by
  rw [F64.round_nat n hn, Bool.eq_false_iff, Ne, F64.eq_iff, hz]
  rintro ⟨a, h1, h2⟩
  simp only [F64.key, Bool.false_eq_true, if_false, Option.some.injEq] at h1 h2
  have := Nat.mul_ne_zero h one1_pos.ne'
  omega

theorem key_fzero : F64.key (F64.round 0) = some 0 := by decide +kernel

theorem eq_congr {F : Type} [GoFloat F] {x x' y : F} (h1 : x = x') : GoFloat.eq x y = GoFloat.eq x' y := by rw [h1]

/-- **C46 (float64).** The values with the counts `n` exact (at most `2^53` per pair), whatever functions `math.Log` and `math.Pow` are. -/
theorem C46_items_float64 (lib : LibM) (calls : List (Nat × Nat)) (N : Nat) (hN : N ≤ 2 ^ 32) (hc : ∀ q ∈ calls, q.1 < N ∧ q.2 < N)
    (hcount : ∀ a b, pairCount calls a b ≤ 2 ^ 53) (co : Cooccurrence F64) (hco : cooCalls "inc" calls = .ok co)
    (em : List (BitVec 64 × F64)) (hem : em.Perm co.encodedMatrix)
    (dic : Dictionary) (freq : Nat → Nat) (hfreq : ∀ i < N, dic.idFreq i = .ok (freq i))
    (s : F64) (total : Nat) (typ : String) (htyp : typ ∈ ["ppmi", "pmi", "co", "logco"]) :
    letI := lib.math
    ∃ items, lexItems dic total s typ em = .ok items ∧
      ∀ a b, a < 2 ^ 32 → b < 2 ^ 32 →
        lexItem items a b = lexItem items b a ∧
        (pairCount calls a b = 0 → lexItem items a b = fzero) ∧
        (pairCount calls a b ≠ 0 → ∃ v, F64.toRat v = pairCount calls a b ∧
          relAny typ s total (freq (min a b)) (freq (max a b)) v = some (lexItem items a b)) := by
  letI := lib.math
  obtain ⟨co', hco', hent⟩ := C04_inc_counts_f64 calls (fun q hq => ⟨by have := hc q hq; omega, by have := hc q hq; omega⟩)
  rw [hco] at hco'; cases hco'
  have hco0 := hco
  unfold cooCalls at hco0
  rw [new_inc, Res.ok_bind] at hco0
  obtain ⟨hwf, hkeys⟩ := addPairs_keys calls _ co hco0 GoMap.wf_empty
  simp only [GoMap.empty, List.map_nil, List.not_mem_nil, false_or] at hkeys
  obtain ⟨items, h1, h2⟩ := C46_items_any (F := F64) "inc" calls N hN hc co hco (by
    intro k v hkv
    have hm : k ∈ co.ma.map Prod.fst := List.mem_map.2 ⟨(k, v), (GoMap.mem_iff_get? _ hwf k v).2 hkv, rfl⟩
    obtain ⟨⟨a, b⟩, hq, e1⟩ := (hkeys k).1 hm
    have hb := hc _ hq
    dsimp only at hb
    have hne : pairCount calls a b ≠ 0 := by
      unfold pairCount
      rw [Ne, List.countP_eq_zero]
      intro hh
      exact hh _ hq (by simp)
    obtain ⟨w, hw1, hw2, _⟩ := (hent a b (by omega) (by omega) (hcount a b)).2 hne
    have : v = w := by
      rw [entry] at hw1
      change co.encodedMatrix.get? (pairKey (a, b)) = _ at hw1
      rw [e1, hkv] at hw1
      exact Option.some.inj hw1
    rw [this, eq_congr hw2]
    exact eq_nat_zero _ hne (hcount a b) _ key_fzero) em hem dic freq hfreq s total typ htyp
  refine ⟨items, h1, fun a b ha hb => ⟨(h2 a b ha hb).1, (h2 a b ha hb).2.1, fun hne => ?_⟩⟩
  obtain ⟨v, hv1, hv2⟩ := (h2 a b ha hb).2.2 hne
  obtain ⟨w, hw1, _, hw3⟩ := (hent a b ha hb (hcount a b)).2 hne
  rw [hv1] at hw1; cases hw1
  exact ⟨v, hw3, hv2⟩

/-- the dictionary of `x y x`, any `math.Log` and `math.Pow` -/
example (lib : LibM) (dic : Dictionary) (h : addCalls [[['x'], ['y'], ['x']]] = .ok dic) (co : Cooccurrence F64)
    (hco : cooCalls "inc" [(0, 1), (0, 0), (1, 0)] = .ok co) (s : F64) :=
  C46_items_float64 lib [(0, 1), (0, 0), (1, 0)] 2 (by norm_num) (by decide) (fun a b => le_trans List.countP_le_length (by norm_num)) co hco _ (List.Perm.refl _)
    dic (fun i => [2, 1].getD i 0)
    (by cases h; intro i hi; match i, hi with
      | 0, _ => rfl
      | 1, _ => rfl) s 3 "pmi" (by decide)

end Wego.Props
