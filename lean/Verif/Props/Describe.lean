import Verif.Props.Query

/-! # C94: the table that a query prints; the six-decimal text of a number is unique -/

namespace Wego.Props
open Wego Wego.Spec Wego.F64

/-- Rounding to six decimals is monotone. -/
theorem nearest_mono {v v' : ℚ} {N N' : Nat} (h : NearestMillionth v N) (h' : NearestMillionth v' N') (hv : v ≤ v') : N ≤ N' := by
  by_contra hlt
  have hlt : N' + 1 ≤ N := by omega
  have hq : (N' : ℚ) + 1 ≤ N := by exact_mod_cast hlt
  obtain ⟨a1, a2⟩ := h
  obtain ⟨b1, b2⟩ := h'
  have c1 := abs_le.1 a1
  have c2 := abs_le.1 b1
  have e : (N' : ℚ) / 10 ^ 6 + 1 / 10 ^ 6 ≤ (N : ℚ) / 10 ^ 6 := by
    rw [← add_div]; exact div_le_div_of_nonneg_right hq (by positivity)
  have g : (1 : ℚ) / 2 / 10 ^ 6 + 1 / 2 / 10 ^ 6 = 1 / 10 ^ 6 := by norm_num
  have d1 : (N : ℚ) / 10 ^ 6 - v = 1 / 2 / 10 ^ 6 := by linarith [c1.2, c2.1]
  have d2 : (N' : ℚ) / 10 ^ 6 - v' = -(1 / 2 / 10 ^ 6) := by linarith [c1.2, c2.1]
  have e1 := a2 (by rw [d1, abs_of_nonneg (by norm_num)])
  have e2 := b2 (by rw [d2, abs_neg, abs_of_nonneg (by norm_num)])
  have : (N : ℚ) = N' + 1 := by
    have : (N : ℚ) / 10 ^ 6 = (N' + 1) / 10 ^ 6 := by rw [add_div]; linarith [c1.2, c2.1]
    field_simp at this
    linarith
  have : N = N' + 1 := by exact_mod_cast this
  omega

theorem digitsValue_lt (l : List Char) (h : AllDigits l) : digitsValue l < 10 ^ l.length := by
  induction l with
  | nil => simp [digitsValue]
  | cons c l ih =>
    have h1 := ih (fun c hc => h c (List.mem_cons_of_mem _ hc))
    have h2 := (h c (by simp)).2
    have h3 : c.toNat - '0'.toNat ≤ 9 := by
      have : '9'.toNat = '0'.toNat + 9 := by decide
      omega
    rw [digitsValue, List.length_cons, pow_succ]
    nlinarith

/-- Digit strings of the same length are determined by their value. -/
theorem digitsValue_inj (l l' : List Char) (h : AllDigits l) (h' : AllDigits l') (hl : l.length = l'.length)
    (hv : digitsValue l = digitsValue l') : l = l' := by
  induction l generalizing l' with
  | nil => cases l' with
    | nil => rfl
    | cons => simp at hl
  | cons c l ih => cases l' with
    | nil => simp at hl
    | cons c' l' =>
      have hl2 : l.length = l'.length := by simpa using hl
      clear hl
      have hl := hl2
      clear hl2
      have a := digitsValue_lt l (fun c hc => h c (List.mem_cons_of_mem _ hc))
      have b := digitsValue_lt l' (fun c hc => h' c (List.mem_cons_of_mem _ hc))
      rw [digitsValue, digitsValue, ← hl] at hv
      rw [← hl] at b
      have p : 0 < 10 ^ l.length := by positivity
      generalize 10 ^ l.length = P at *
      have e : c.toNat - '0'.toNat = c'.toNat - '0'.toNat := by
        have e1 : (digitsValue l + P * (c.toNat - '0'.toNat)) / P = c.toNat - '0'.toNat := by
          rw [Nat.add_mul_div_left _ _ p, Nat.div_eq_of_lt a, Nat.zero_add]
        have e2 : (digitsValue l' + P * (c'.toNat - '0'.toNat)) / P = c'.toNat - '0'.toNat := by
          rw [Nat.add_mul_div_left _ _ p, Nat.div_eq_of_lt b, Nat.zero_add]
        rw [← e1, ← e2]
        congr 1
        linarith
      have hc : c = c' := by
        apply Char.toNat_inj.1
        have := (h c (by simp)).1; have := (h' c' (by simp)).1
        omega
      subst hc
      rw [ih l' (fun c hc => h c (List.mem_cons_of_mem _ hc)) (fun c hc => h' c (List.mem_cons_of_mem _ hc)) hl (by omega)]

/-- a digit string without leading zeros is at least a power of ten -/
theorem digitsValue_ge (c : Char) (l : List Char) (h : AllDigits (c :: l)) (hc : c ≠ '0') : 10 ^ l.length ≤ digitsValue (c :: l) := by
  have h1 := (h c (by simp)).1
  have : c.toNat ≠ '0'.toNat := fun e => hc (Char.toNat_inj.1 e)
  rw [digitsValue]
  have : 1 ≤ c.toNat - '0'.toNat := by omega
  nlinarith [Nat.zero_le (digitsValue l), Nat.pos_of_ne_zero (n := 10 ^ l.length) (by positivity)]

theorem digits_same_length {ip fp ip' fp' : List Char} (h1 : AllDigits ip) (h2 : AllDigits fp) (h3 : AllDigits ip') (h4 : AllDigits fp')
    (l : fp.length = 6) (l' : fp'.length = 6) (n' : ip' ≠ [])
    (z' : ip'.head? = some '0' → ip' = ['0']) (hn : ip ≠ []) (hv : digitsValue (ip ++ fp) = digitsValue (ip' ++ fp')) : ip'.length ≤ ip.length := by
  by_contra hlt
  have hlt : ip.length + 1 ≤ ip'.length := by omega
  have a : digitsValue (ip ++ fp) < 10 ^ (ip ++ fp).length := digitsValue_lt _ (fun c hc => by
    rcases List.mem_append.1 hc with hc | hc
    · exact h1 c hc
    · exact h2 c hc)
  cases ip' with
  | nil => exact n' rfl
  | cons c t =>
    have hc : c ≠ '0' := by
      rintro rfl
      have := z' rfl
      have : t = [] := by simpa using this
      subst this
      have : 1 ≤ ip.length := List.length_pos_iff.2 hn
      simp only [List.length_singleton] at hlt; omega
    have b := digitsValue_ge c (t ++ fp') (fun d hd => by
      rcases List.mem_append.1 (show d ∈ (c :: t) ++ fp' from hd) with hd | hd
      · exact h3 d hd
      · exact h4 d hd) hc
    rw [← List.cons_append] at b
    rw [hv] at a
    have : 10 ^ (ip ++ fp).length ≤ 10 ^ (t ++ fp').length := Nat.pow_le_pow_right (by norm_num) (by
      simp only [List.length_append, List.length_cons] at *; omega)
    omega

/-- **C48 (the text is determined).** A number has only one text with six decimals; so what `Save` writes is determined
by the words and values. -/
theorem C48_text_unique (x : F64) (t t' : List Char) (h : IsSixDecimals x t) (h' : IsSixDecimals x t') : t = t' := by
  cases x with
  | nan => rw [IsSixDecimals] at h h'; rw [h, h']
  | inf s => cases s <;> (rw [IsSixDecimals] at h h'; rw [h, h'])
  | fin s n hr =>
    obtain ⟨ip, fp, rfl, a1, a2, a3, a4, a5, a6⟩ := h
    obtain ⟨ip', fp', rfl, b1, b2, b3, b4, b5, b6⟩ := h'
    have hv : digitsValue (ip ++ fp) = digitsValue (ip' ++ fp') :=
      le_antisymm (nearest_mono a6 b6 le_rfl) (nearest_mono b6 a6 le_rfl)
    have hl : ip.length = ip'.length := le_antisymm
      (digits_same_length b1 b2 a1 a2 b3 a3 a4 a5 b4 hv.symm) (digits_same_length a1 a2 b1 b2 a3 b3 b4 b5 a4 hv)
    have ha : ∀ {u v : List Char}, AllDigits u → AllDigits v → AllDigits (u ++ v) := fun hu hv c hc => by
      rcases List.mem_append.1 hc with hc | hc
      · exact hu c hc
      · exact hv c hc
    have e := digitsValue_inj _ _ (ha a1 a2) (ha b1 b2) (by simp only [List.length_append]; omega) hv
    obtain ⟨rfl, rfl⟩ := List.append_inj e hl
    rfl

/-- `C48_text_unique` on the value 0: its text is `0.000000`. -/
example (t : List Char) (h : IsSixDecimals (F64.zero false) t) : t = fmtF (F64.zero false) :=
  C48_text_unique _ _ _ h (fmtF_isSixDecimals _)

/-- **C48 (the file is determined).** -/
theorem C48_file_unique (words : List Word) (rows : List (List F64)) (text text' : List Char)
    (h : IsSavedFile words rows text) (h' : IsSavedFile words rows text') : text = text' := by
  induction h generalizing text' with
  | nil => cases h'; rfl
  | cons w row vals words rows rest hv hr ih =>
    cases h' with
    | cons _ _ vals' _ _ rest' hv' hr' =>
      rw [ih _ hr']
      congr 4
      clear ih hr hr'
      induction hv generalizing vals' with
      | nil => cases hv'; rfl
      | cons hx _ ih => cases hv' with
        | cons hx' hv' => rw [List.map_cons, List.map_cons, C48_text_unique _ _ _ hx hx', ih _ hv']

/-- `C48_file_unique` on two lines. -/
example (t : List Char) (h : IsSavedFile [['a'], ['b']] [[F64.zero false], [.nan]] t) :
    t = fileText [['a'], ['b']] [[F64.zero false], [.nan]] :=
  C48_file_unique _ _ _ _ h (isSavedFile_fileText _ _ rfl)

theorem printed_mono (x y : F64) (hy : GoFloat.lt fzero y = true) (hxy : GoFloat.le y x = true) (t u : List Char) (ht : IsSixDecimals x t)
    (hu : IsSixDecimals y u) : PrintedAtLeast t u := by
  have hz : key (fzero : F64) = some 0 := by decide +kernel
  obtain ⟨a, b, e1, e2, h1⟩ := (lt_iff _ _).1 hy
  obtain ⟨c, d, e3, e4, h2⟩ := (le_iff _ _).1 hxy
  rw [hz] at e1
  rw [e3] at e2
  obtain rfl := Option.some.inj e2
  obtain rfl := Option.some.inj e1
  cases x with
  | nan => simp [key] at e4
  | inf s =>
    cases s with
    | false => rw [IsSixDecimals] at ht; exact .inl ht
    | true =>
      have : (0 : Int) ≤ (ovf : Int) := Int.natCast_nonneg _
      simp only [key, if_true] at e4
      obtain rfl := Option.some.inj e4
      omega
  | fin s n hr =>
    have hs : s = false := by
      cases s with
      | false => rfl
      | true => simp only [key, if_true] at e4; obtain rfl := Option.some.inj e4; omega
    subst hs
    simp only [key, Bool.false_eq_true, if_false] at e4
    obtain rfl := Option.some.inj e4
    cases y with
    | nan => simp [key] at e3
    | inf s' =>
      exfalso
      have hlt : n < ovf := hr.2
      simp only [key] at e3
      obtain rfl := Option.some.inj e3
      cases s' with
      | false => simp only [Bool.false_eq_true, if_false] at h2; omega
      | true => simp only [if_true] at h1; omega
    | fin s' m hr' =>
      have hs : s' = false := by
        cases s' with
        | false => rfl
        | true => simp only [key, if_true] at e3; obtain rfl := Option.some.inj e3; omega
      subst hs
      simp only [key, Bool.false_eq_true, if_false] at e3
      obtain rfl := Option.some.inj e3
      obtain ⟨ip, fp, rfl, a1, a2, a3, a4, a5, a6⟩ := ht
      obtain ⟨ip', fp', rfl, b1, b2, b3, b4, b5, b6⟩ := hu
      refine .inr ⟨ip, fp, ip', fp', by simp, by simp, a1, a2, b1, b2, a3, b3, ?_⟩
      refine nearest_mono b6 a6 ?_
      rw [abs_toRat_fin, abs_toRat_fin]
      have h1 : (0 : ℚ) < (one1 : ℚ) := by exact_mod_cast one1_pos
      exact div_le_div_of_nonneg_right (by exact_mod_cast h2) h1.le

/-- **C94.** The table printed by a successful query with rank `k >= 1`, cell by cell. Row `j` (from 0) with a word has the
rank `j + 1` in decimal, a word other than the one asked for, of the loaded file, and its similarity (above zero) with six
decimals; the printed similarities never increase downwards. A row without a word comes after all rows with one and reads
`0`, nothing, `0.000000`. -/
theorem C94_query_table (other : Word → Option F64) (fs : FS) (openFails readFails : Bool) (input : Path) (args : List Word) (k : Int)
    (hk : 1 ≤ k) (ns : List (Neighbor F64)) (h : queryExecute other fs openFails readFails input args k = .ok ns) :
    ∃ embs w q, load other ⟨fs.read input, readFails⟩ = .ok embs ∧ args = [w] ∧ q ∈ embs ∧ q.word = w ∧ (describe ns).length ≤ k ∧
      (∀ j row, (describe ns)[j]? = some row → ∃ r v t, row = [r, v, t] ∧
        (v = [] → r = ['0'] ∧ t = ['0', '.', '0', '0', '0', '0', '0', '0']) ∧
        (v ≠ [] → v ≠ w ∧ AllDigits r ∧ digitsValue r = j + 1 ∧ r.head? ≠ some '0' ∧
          ∃ it ∈ embs, it.word = v ∧ ∃ sim, cosine q.vector it.vector q.norm it.norm = .ok sim ∧ GoFloat.lt fzero sim = true ∧
            IsSixDecimals sim t)) ∧
      (∀ (i j : Nat) r v t r' v' t', i < j → (describe ns)[i]? = some [r, v, t] → (describe ns)[j]? = some [r', v', t'] → v' ≠ [] →
        v ≠ [] ∧ PrintedAtLeast t t') := by
  unfold queryExecute at h
  split at h
  · simp at h
  split at h
  swap
  · simp at h
  rename_i w
  split at h
  · simp at h
  obtain ⟨embs, hl, h⟩ := Res.bind_eq_ok.1 h
  obtain ⟨s, hs, h⟩ := Res.bind_eq_ok.1 h
  have hv := C52_loaded_valid other _ embs hl
  have hdd : ∀ e ∈ embs, ∀ e' ∈ embs, e.dim = e'.dim := by
    rcases new_cases embs with ⟨-, hd⟩ | ⟨hn, -⟩
    · exact hd
    · rw [hn] at hs; cases hs
  rw [(C53_new embs).1.2 hdd] at hs
  obtain rfl := Res.ok.inj hs
  rcases internal_cases embs hv hdd w k hk with ⟨-, h2⟩ | ⟨pre, q, post, h1, h2, h3, res, h4, h5⟩
  · rw [h2] at h; cases h
  rw [h4] at h
  obtain rfl := Res.ok.inj h
  have hq : q ∈ embs := by rw [h1]; simp
  have hvl : ∀ it ∈ embs, q.vector.length ≤ it.vector.length := by
    intro it hit
    have a := (hv q hq).2.1; have b := (hv it hit).2.1; have := hdd q hq it hit; omega
  have hw : ∀ it ∈ embs, it.word ≠ [] := fun it hit => (hv it hit).1
  obtain ⟨n, rfl⟩ := Int.eq_ofNat_of_zero_le (by omega : 0 ≤ k)
  obtain ⟨res', g1, g2, g3⟩ := C57_result_size (⟨embs⟩ : Searcher F64) q n (by omega) [w] hw hvl
  rw [h5] at g1; obtain rfl := Res.ok.inj g1
  dsimp only at g2 g3
  obtain ⟨res', rest, g4, -, g5, -, -, -⟩ := C54_search_top_k (⟨embs⟩ : Searcher F64) q n hk [w] hw hvl
  rw [h5] at g4; obtain rfl := Res.ok.inj g4
  have hrank := C55_ranks (⟨embs⟩ : Searcher F64) q n hk [w] hw hvl res h5
  refine ⟨embs, w, q, hl, rfl, hq, h2, ?_, ?_, ?_⟩
  · simp only [describe, List.length_map]; split at g2 <;> omega
  · intro j row hrow
    simp only [describe, List.getElem?_map, Option.map_eq_some_iff] at hrow
    obtain ⟨x, hx, rfl⟩ := hrow
    refine ⟨_, _, _, rfl, ?_, ?_⟩
    · intro hb
      have : (candidates q [w] embs).length ≤ j := by
        by_contra hn
        exact (g3 j x hx).2 (by omega) hb
      rw [(g3 j x hx).1 this]
      exact ⟨by rw [natDigits.eq_def]; decide, by decide +kernel⟩
    · intro hb
      obtain ⟨r1, it, hit, r2, r3, r4, r5⟩ := hrank j x hx hb
      obtain ⟨d1, d2, d3, d4⟩ := natDigits_spec x.rank
      refine ⟨by rw [← r2]; simpa using r3, fun c hc => (isDig_iff c).1 (d1 c hc), by rw [digitsValue_eq, d2, r1], ?_, it, hit, r2, x.sim, r4, r5,
        fmtF_isSixDecimals _⟩
      intro h0
      have := d4 h0
      rw [this, r1] at d2
      have : decVal ['0'] = 0 := by decide
      omega
  · intro i j r v t r' v' t' hij hi hj hne
    simp only [describe, List.getElem?_map, Option.map_eq_some_iff] at hi hj
    obtain ⟨x, hx, ex⟩ := hi
    obtain ⟨y, hy, ey⟩ := hj
    simp only [List.cons.injEq, and_true] at ex ey
    obtain ⟨rfl, rfl, rfl⟩ := ex
    obtain ⟨rfl, rfl, rfl⟩ := ey
    have hj : j < (candidates q [w] embs).length := by
      by_contra hn
      exact hne (by rw [(g3 j y hy).1 (by omega)])
    have hxn := (g3 i x hx).2 (by show i < (candidates q [w] embs).length; omega)
    refine ⟨hxn, ?_⟩
    have hy0 := (hrank j y hy hne).2
    obtain ⟨it, hit, -, -, -, hpos⟩ := hy0
    refine printed_mono x.sim y.sim hpos ?_ _ _ (fmtF_isSixDecimals _) (fmtF_isSixDecimals _)
    -- the two rows in the filtered list
    obtain ⟨hjl, ejl⟩ := List.getElem?_eq_some_iff.1 hy
    obtain ⟨hil, eil⟩ := List.getElem?_eq_some_iff.1 hx
    have hp := List.pairwise_iff_getElem.1 (List.pairwise_filter.1 g5) i j hil hjl hij
    rw [eil, ejl] at hp
    exact hp (by simpa using hxn) (by simpa using hne)

/-- `C94_query_table` meets this: a file with three words; the query for `b` with rank 2 prints `c` and then `a`. -/
example : ∃ ns, queryExecute (fun _ => none)
    (fun p => if p = "v".toList then some (.file "b 1.0 0.0\na 1.0 1.0\nc 2.0 1.0\n".toList) else none) false false "v".toList ["b".toList] 2
      = .ok ns ∧ describe ns = ["1".toList :: "c".toList :: ["0.894427".toList], "2".toList :: "a".toList :: ["0.707107".toList]] := by
  have h : (match queryExecute (fun _ => none)
    (fun p => if p = "v".toList then some (.file "b 1.0 0.0\na 1.0 1.0\nc 2.0 1.0\n".toList) else none) false false "v".toList ["b".toList] 2 with
    | .ok ns => describe ns
    | _ => []) = ["1".toList :: "c".toList :: ["0.894427".toList], "2".toList :: "a".toList :: ["0.707107".toList]] := by decide +kernel
  split at h
  · rename_i ns hns; exact ⟨ns, hns, h⟩
  · simp at h

end Wego.Props
