import Verif.Model.Query
import Verif.Props.SaveLoad
import Verif.Props.Search
import Verif.Props.Cosine
import Verif.Props.Console

/-! # C77: similarities are true cosines; C79: the query and console commands -/

namespace Wego.Props
open Wego Wego.Spec

/-! ## C77 -/

/-- the cosine of the angle between two real vectors, 0 if one of them is zero -/
noncomputable def cosOf (a b : List ℝ) : ℝ :=
  if dot a a = 0 ∨ dot b b = 0 then 0 else dot a b / (Real.sqrt (dot a a) * Real.sqrt (dot b b))

/-- Every item has a non-empty word, a vector of the given length and, as `Load` computes it, the Euclidean norm of its
vector. -/
def TrueItems (n : Nat) (s : Searcher ℝ) : Prop :=
  ∀ it ∈ s.items, it.word ≠ [] ∧ it.vector.length = n ∧ it.norm = Real.sqrt (dot it.vector it.vector)

theorem cosine_cosOf (a b : List ℝ) (h : a.length ≤ b.length) :
    cosine a b (Real.sqrt (dot a a)) (Real.sqrt (dot b b)) = .ok (cosOf a b) := by
  have := cosine_real a b h
  rw [norm_real, norm_real] at this
  rw [this]
  unfold cosOf
  rw [div_div]

theorem candidates_cosOf (q : List ℝ) (ign : List Word) (w : Word) (d : Int) (s : Searcher ℝ) (hs : TrueItems q.length s) :
    candidates ⟨w, d, q, Real.sqrt (dot q q)⟩ ign s.items =
      ((s.items.filter (fun it => decide (it.word ∉ ign))).map (fun it => (it.word, cosOf q it.vector))).filter
        (fun x => decide (0 < x.2)) := by
  unfold candidates
  have hs' : ∀ it ∈ s.items, it.word ≠ [] ∧ it.vector.length = q.length ∧ it.norm = Real.sqrt (dot it.vector it.vector) := hs
  generalize s.items = items at hs' ⊢
  induction items with
  | nil => rfl
  | cons it items ih =>
    rw [List.filterMap_cons, ih (fun x hx => hs' x (by simp [hx]))]
    obtain ⟨-, h1, h2⟩ := hs' it (by simp)
    by_cases hi : it.word ∈ ign
    · simp [hi]
    · rw [if_neg hi]
      dsimp only
      rw [h2, cosine_cosOf q it.vector (by omega)]
      by_cases hp : 0 < cosOf q it.vector
      · simp [hi, hp]
      · simp [hi, hp]

/-- **C77 (SearchVector).** For `k >= 1` and a query of the searcher's dimension, the non-blank results of `SearchVector` and
some other items are all the items whose vector has a positive cosine with the query, each with that cosine; the results are
in descending order and nothing left out beats a result. -/
theorem C77_search_vector (s : Searcher ℝ) (q : List ℝ) (hs : TrueItems q.length s) (k : Int) (hk : 1 ≤ k) :
    ∃ res rest, s.searchVector q k = .ok res ∧
      let hits := res.filter (fun n => decide (n.word ≠ []))
      List.Perm (hits.map (fun n => (n.word, n.sim)) ++ rest)
        ((s.items.map (fun it => (it.word, cosOf q it.vector))).filter (fun x => decide (0 < x.2))) ∧
      hits.Pairwise (fun a b => b.sim ≤ a.sim) ∧
      (rest ≠ [] → (hits.length : Int) = k) ∧ (hits.length : Int) ≤ k ∧
      (∀ r ∈ rest, ∀ h ∈ hits, r.2 ≤ h.sim) := by
  obtain ⟨res, rest, h1, h2, h3, h4, h5, h6⟩ := C54_search_top_k s ⟨[], 0, q, Real.sqrt (dot q q)⟩ k hk []
    (fun it h => (hs it h).1) (fun it h => le_of_eq (hs it h).2.1.symm)
  refine ⟨res, rest, ?_, ?_, ?_, h4, h5, ?_⟩
  · unfold Searcher.searchVector; rw [norm_real]; exact h1
  · rw [candidates_cosOf q [] [] 0 s hs] at h2
    have : s.items.filter (fun it => decide (it.word ∉ ([] : List Word))) = s.items := by simp
    rwa [this] at h2
  · simpa using h3
  · simpa using h6

/-- Two words with plane vectors (3, 4) and (1, 0), for the examples below. -/
noncomputable def twoItems : Searcher ℝ := ⟨[⟨['a'], 2, [3, 4], 5⟩, ⟨['b'], 2, [1, 0], 1⟩]⟩

theorem two_true : TrueItems 2 twoItems := by
  have h : Real.sqrt (5 * 5) = 5 := Real.sqrt_mul_self (by norm_num)
  have h' : dot [3, 4] [3, 4] = (5 * 5 : ℝ) := by norm_num [dot]
  have h1 : dot [1, 0] [1, 0] = (1 : ℝ) := by norm_num [dot]
  intro it hi
  simp only [twoItems, List.mem_cons, List.not_mem_nil, or_false] at hi
  rcases hi with rfl | rfl
  · exact ⟨by decide, rfl, by rw [h', h]⟩
  · exact ⟨by decide, rfl, by rw [h1, Real.sqrt_one]⟩

/-- `C77_search_vector` with the query (1, 1). -/
example := C77_search_vector twoItems [1, 1] two_true 1 (by decide)

/-- **C77 (SearchInternal).** The same for the word of an item, which is itself left out. -/
theorem C77_search_internal (s : Searcher ℝ) (n : Nat) (hs : TrueItems n s) (pre post : List (Embedding ℝ)) (e : Embedding ℝ)
    (hsp : s.items = pre ++ e :: post) (hfirst : ∀ it ∈ pre, it.word ≠ e.word) (k : Int) (hk : 1 ≤ k) :
    ∃ res rest, s.searchInternal e.word k = .ok res ∧
      let hits := res.filter (fun n => decide (n.word ≠ []))
      List.Perm (hits.map (fun n => (n.word, n.sim)) ++ rest)
        (((s.items.filter (fun it => decide (it.word ≠ e.word))).map (fun it => (it.word, cosOf e.vector it.vector))).filter
          (fun x => decide (0 < x.2))) ∧
      hits.Pairwise (fun a b => b.sim ≤ a.sim) ∧
      (rest ≠ [] → (hits.length : Int) = k) ∧ (hits.length : Int) ≤ k ∧
      (∀ r ∈ rest, ∀ h ∈ hits, r.2 ≤ h.sim) := by
  have he : e ∈ s.items := by rw [hsp]; simp
  obtain ⟨g1, g2, g3⟩ := hs e he
  have hs' : TrueItems e.vector.length s := by rw [g2]; exact hs
  obtain ⟨res, rest, h1, h2, h3, h4, h5, h6⟩ := C54_search_top_k s e k hk [e.word]
    (fun it h => (hs it h).1) (fun it h => le_of_eq (hs' it h).2.1.symm)
  refine ⟨res, rest, ?_, ?_, ?_, h4, h5, ?_⟩
  · rw [(C58_search_internal s e.word k).2.2 pre e post hsp rfl hfirst g1]; exact h1
  · obtain ⟨w, d, v, nn⟩ := e
    dsimp only at g3 hs' h2 ⊢
    subst g3
    rw [candidates_cosOf v [w] w d s hs'] at h2
    have : ∀ it : Embedding ℝ, (it.word ∉ [w]) = (it.word ≠ w) := by intro it; simp
    simpa only [this] using h2
  · simpa using h3
  · simpa using h6

/-- `C77_search_internal` for the word `b`. -/
example := C77_search_internal twoItems 2 two_true [⟨['a'], 2, [3, 4], 5⟩] [] ⟨['b'], 2, [1, 0], 1⟩ rfl
  (by intro it hi; simp only [List.mem_singleton] at hi; subst hi; decide) 2 (by decide)

/-- Items that meet the hypothesis: `a = (1, 0)`, `b = (3, 4)`. -/
noncomputable example : TrueItems 2 ⟨[⟨['a'], 2, [1, 0], 1⟩, ⟨['b'], 2, [3, 4], 5⟩]⟩ ∧ cosOf [1, 0] [3, 4] = 3 / 5 := by
  have h25 : Real.sqrt 25 = 5 := by rw [show (25 : ℝ) = 5 ^ 2 by norm_num]; exact Real.sqrt_sq (by norm_num)
  constructor
  · intro it h
    simp only [List.mem_cons, List.not_mem_nil, or_false] at h
    rcases h with rfl | rfl
    · simp [dot]
    · refine ⟨by simp, by simp, ?_⟩
      norm_num [dot]; exact h25.symm
  · unfold cosOf
    norm_num [dot, h25]

/-! ## C79 -/

theorem new_cases (embs : List (Embedding F64)) :
    (Searcher.new embs = .ok ⟨embs⟩ ∧ ∀ e ∈ embs, ∀ e' ∈ embs, e.dim = e'.dim) ∨
    (Searcher.new embs = .err .dimNotSame ∧ ∃ e ∈ embs, ∃ e' ∈ embs, e.dim ≠ e'.dim) := by
  obtain ⟨h1, h2⟩ := C53_new embs
  by_cases h : ∀ e ∈ embs, ∀ e' ∈ embs, e.dim = e'.dim
  · exact .inl ⟨h1.2 h, h⟩
  · refine .inr ⟨h2.1 h, ?_⟩
    push Not at h
    exact h

/-- `SearchInternal` on loaded embeddings of one dimension, with `k >= 1`. -/
theorem internal_cases (embs : List (Embedding F64))
    (hv : ∀ e ∈ embs, e.word ≠ [] ∧ e.dim = e.vector.length ∧ 1 ≤ e.dim) (hd : ∀ e ∈ embs, ∀ e' ∈ embs, e.dim = e'.dim)
    (w : Word) (k : Int) (hk : 1 ≤ k) :
    ((∀ e ∈ embs, e.word ≠ w) ∧ (⟨embs⟩ : Searcher F64).searchInternal w k = .err .notFound) ∨
    (∃ pre q post, embs = pre ++ q :: post ∧ q.word = w ∧ (∀ e ∈ pre, e.word ≠ w) ∧
      ∃ res, (⟨embs⟩ : Searcher F64).searchInternal w k = .ok res ∧ (⟨embs⟩ : Searcher F64).search q k [w] = .ok res) := by
  by_cases hn : ∀ e ∈ embs, e.word ≠ w
  · exact .inl ⟨hn, ((C58_search_internal ⟨embs⟩ w k).1).1 (.inr hn)⟩
  · right
    push Not at hn
    obtain ⟨e0, h0, h1⟩ := hn
    have : ∃ q, embs.find? (fun e => decide (e.word = w)) = some q := by
      cases hf : embs.find? (fun e => decide (e.word = w)) with
      | some q => exact ⟨q, rfl⟩
      | none => rw [List.find?_eq_none] at hf; exact absurd h1 (by simpa using hf e0 h0)
    obtain ⟨q, hq⟩ := this
    obtain ⟨hqw, pre, post, hsp, hpre⟩ := List.find?_eq_some_iff_append.1 hq
    simp only [decide_eq_true_eq] at hqw
    have hpre : ∀ e ∈ pre, e.word ≠ w := by intro e he; simpa using hpre e he
    have hqm : q ∈ embs := by rw [hsp]; simp
    have hval : ∀ e ∈ embs, e.validate = .ok () := by
      intro e he
      obtain ⟨a, b, c⟩ := hv e he
      unfold Embedding.validate
      rw [if_neg a, if_neg (by omega), if_neg (by simpa using b)]
    obtain ⟨res, hres⟩ := C53_search_total embs ⟨embs⟩ ((C53_new embs).1.2 hd) hval q k hk [w] (by
      intro e he
      rw [← (hv q hqm).2.1, hd q hqm e he])
    refine ⟨pre, q, post, hsp, hqw, hpre, res, ?_, hres⟩
    rw [(C58_search_internal ⟨embs⟩ w k).2.2 pre q post hsp hqw hpre (hqw ▸ (hv q hqm).1)]
    exact hres

/-- **C79 (when it fails).** With a rank of at least 1 the query command never panics, and it fails exactly when the file does
not exist, there is not exactly one argument, the file cannot be opened or loaded, its vectors differ in dimension, or the
word is not in it. -/
theorem C79_query_fails_iff (other : Word → Option F64) (fs : FS) (openFails readFails : Bool) (input : Path) (args : List Word)
    (k : Int) (hk : 1 ≤ k) :
    (∀ p, queryExecute other fs openFails readFails input args k ≠ .panic p) ∧
    ((∃ e, queryExecute other fs openFails readFails input args k = .err e) ↔
      fs input = none ∨ args.length ≠ 1 ∨ openFails = true ∨
      (∀ embs, load other ⟨fs.read input, readFails⟩ ≠ .ok embs) ∨
      ∃ embs, load other ⟨fs.read input, readFails⟩ = .ok embs ∧
        ((∃ e ∈ embs, ∃ e' ∈ embs, e.dim ≠ e'.dim) ∨ ∃ w, args = [w] ∧ ∀ e ∈ embs, e.word ≠ w)) := by
  unfold queryExecute
  by_cases hex : fs input = none
  · have : (!fs.exists input) = true := by simp [FS.exists, hex]
    rw [if_pos this]; simp [hex]
  have hex' : ¬ (!fs.exists input) = true := by
    simp only [FS.exists, Bool.not_eq_true', Option.isSome_eq_false_iff, Option.isNone_iff_eq_none]
    exact hex
  rw [if_neg hex']
  match args with
  | [] => simp
  | _ :: _ :: _ => simp
  | [w] =>
    dsimp only
    cases openFails with
    | true => simp
    | false =>
      simp only [Bool.false_eq_true, if_false, hex, false_or, List.length_singleton, ne_eq, not_true_eq_false]
      rcases load_total other ⟨fs.read input, readFails⟩ with ⟨embs, hl⟩ | ⟨e, hl⟩
      · rw [hl]
        simp only [Res.ok_bind, Res.ok.injEq, exists_eq_left', List.cons.injEq, and_true, forall_eq', not_true_eq_false, false_or]
        have hv := C52_loaded_valid other _ embs hl
        rcases new_cases embs with ⟨hn, hd⟩ | ⟨hn, hd⟩
        · rw [hn, Res.ok_bind]
          rcases internal_cases embs hv hd w k hk with ⟨h1, h2⟩ | ⟨pre, q, post, h1, h2, _, res, h3, _⟩
          · rw [h2]
            refine ⟨by simp, ⟨fun _ => .inr h1, fun _ => ⟨_, rfl⟩⟩⟩
          · rw [h3]
            refine ⟨by simp, ⟨(fun ⟨_, h⟩ => by cases h), ?_⟩⟩
            rintro (⟨a, ha, b, hb, hab⟩ | hnw)
            · exact absurd (hd a ha b hb) hab
            · exact absurd h2 (hnw q (by rw [h1]; simp))
        · rw [hn]
          refine ⟨by simp, ⟨fun _ => .inl hd, fun _ => ⟨_, rfl⟩⟩⟩
      · rw [hl]; simp

/-- `C79_query_fails_iff`: an unknown word is an error, and so is an input file that does not exist. -/
example : ∃ e, queryExecute (fun _ => none) (fun p => if p = ['f'] then some (.file "a 1 2\n".toList) else none) false false ['f'] [['b']] 1 = .err e :=
  ((C79_query_fails_iff _ _ _ _ _ _ 1 (by decide)).2).2 (.inr (.inr (.inr (.inr ⟨
    (match load (fun _ => none) ⟨"a 1 2\n".toList, false⟩ with | .ok e => e | _ => []), by decide +kernel, .inr ⟨['b'], rfl, by decide +kernel⟩⟩))))
example : ∃ e, queryExecute (fun _ => none) (fun _ => none) false false ['f'] [['b']] 1 = .err e :=
  ((C79_query_fails_iff _ _ _ _ _ _ 1 (by decide)).2).2 (.inl rfl)

/-- **C79 (after Save).** For a file written by `Save` (see C49 for the hypotheses) and a word of the vocabulary, the query
command with rank `k >= 1` succeeds. It loads the vocabulary with the values that `ReadsBack` describes and reports, of the
other words of positive similarity to the word, `k` most similar ones (all if there are fewer than `k`), in descending order. -/
theorem C79_query_after_save (other : Word → Option F64) (calls : List (List Word)) (dic : Dictionary)
    (hd : addCalls calls = .ok dic) (hw : ∀ w ∈ calls.flatten, w ≠ [] ∧ ∀ c ∈ w, isSpace c = false)
    (mat : Matrix F64) (c : Nat) (hc : 1 ≤ c) (hm : mat.Shaped calls.flatten.dedup.length c) (text : List Char)
    (ht : saveText dic mat false 0 = .ok text)
    (hl : ∀ lines, RawLines text lines → ∀ l ∈ lines, utf8Len l < 65536)
    (fs : FS) (input : Path) (hfs : fs input = some (.file text)) (w : Word) (hwm : w ∈ calls.flatten) (k : Int) (hk : 1 ≤ k) :
    ∃ (embs : List (Embedding F64)) (q : Embedding F64) (res : List (Neighbor F64)) (rest : List (Word × F64)),
      embs.map (·.word) = firstOcc calls.flatten ∧
      List.Forall₂ (List.Forall₂ ReadsBack) ((List.range calls.flatten.dedup.length).map mat.rowOf) (embs.map (·.vector)) ∧
      q ∈ embs ∧ q.word = w ∧
      queryExecute other fs false false input [w] k = .ok res ∧
      let hits := res.filter (fun n => decide (n.word ≠ []))
      List.Perm (hits.map (fun n => (n.word, n.sim)) ++ rest) (candidates q [w] embs) ∧
      hits.Pairwise (fun a b => GoFloat.le b.sim a.sim = true) ∧
      (rest ≠ [] → (hits.length : Int) = k) ∧ (hits.length : Int) ≤ k ∧
      (∀ r ∈ rest, ∀ h ∈ hits, GoFloat.le r.2 h.sim = true) ∧
      (∀ n ∈ hits, n.word ∈ calls.flatten ∧ n.word ≠ w) := by
  obtain ⟨embs, hload, hwords, hdims, hread⟩ := C49_round_trip other calls dic hd hw mat c hc hm text ht hl
  have hv := C52_loaded_valid other _ embs hload
  have hdd : ∀ e ∈ embs, ∀ e' ∈ embs, e.dim = e'.dim := fun e he e' he' => by rw [hdims e he, hdims e' he']
  have hwe : ∃ e ∈ embs, e.word = w := by
    have : w ∈ embs.map (·.word) := by rw [hwords]; exact (mem_firstOcc _ _).2 hwm
    simpa using this
  rcases internal_cases embs hv hdd w k hk with ⟨h1, _⟩ | ⟨pre, q, post, h1, h2, h3, res, h4, h5⟩
  · obtain ⟨e, he, hew⟩ := hwe; exact absurd hew (h1 e he)
  have hq : q ∈ embs := by rw [h1]; simp
  have hvl : ∀ it ∈ embs, q.vector.length ≤ it.vector.length := by
    intro it hit
    have a := (hv q hq).2.1; have b := (hv it hit).2.1; have := hdd q hq it hit; omega
  obtain ⟨res', rest, g1, g2, g3, g4, g5, g6⟩ := C54_search_top_k (⟨embs⟩ : Searcher F64) q k hk [w]
    (fun it hit => (hv it hit).1) hvl
  rw [h5] at g1; cases g1
  refine ⟨embs, q, res, rest, hwords, hread, hq, h2, ?_, g2, g3, g4, g5, g6, ?_⟩
  · unfold queryExecute
    have : ¬ (!fs.exists input) = true := by simp [FS.exists, hfs]
    rw [if_neg this]
    have e : fs.read input = text := by simp [FS.read, hfs]
    simp only [e, Bool.false_eq_true, if_false]
    rw [hload, Res.ok_bind, (C53_new embs).1.2 hdd, Res.ok_bind]
    exact h4
  · intro n hn
    obtain ⟨hn1, hn2⟩ := List.mem_filter.1 hn
    obtain ⟨j, hj⟩ := List.mem_iff_getElem?.1 hn1
    obtain ⟨-, it, hit, e1, e2, -⟩ := C55_ranks (⟨embs⟩ : Searcher F64) q k hk [w] (fun it hit => (hv it hit).1) hvl res h5 j n hj (by simpa using hn2)
    have : it.word ∈ embs.map (·.word) := List.mem_map.2 ⟨it, hit, rfl⟩
    rw [hwords] at this
    rw [← e1]
    exact ⟨(mem_firstOcc _ _).1 this, by simpa using e2⟩

/-- `C79_query_after_save` on the file `slText` saved from `slCalls` and `slMat`, asking for the neighbours of `bc`. -/
example := C79_query_after_save (fun _ => none) slCalls slDic sl_dic sl_words slMat 2 (by decide) sl_shaped slText sl_text
  (fun lines h => by
    have e : lines = ["a 0.007812 -0.000000 ".toList, "bc -Inf -5.000000 ".toList] := rawLines_unique h sl_lines
    subst e; decide) (fun p => if p = ['f'] then some (.file slText) else none) ['f'] rfl ['b', 'c'] (by decide) 3 (by decide)

/-- **C79 (console).** The console command starts exactly when the file exists, opens and loads with at least one embedding
and one dimension. It then works on the loaded embeddings (see C60-C63). -/
theorem C79_console_starts_iff (other : Word → Option F64) (fs : FS) (openFails readFails : Bool) (input : Path) (k : Int) :
    (∀ p, consoleExecute other fs openFails readFails input k ≠ .panic p) ∧
    ∀ cons, consoleExecute other fs openFails readFails input k = .ok cons ↔
      (fs input ≠ none ∧ openFails = false ∧ ∃ e embs, load other ⟨fs.read input, readFails⟩ = .ok (e :: embs) ∧
        (∀ e' ∈ embs, e'.dim = e.dim) ∧
        cons = { searcher := ⟨e :: embs⟩, cursor := ⟨[], [], List.replicate e.dim.toNat fzero⟩, dim := e.dim, k := k }) := by
  unfold consoleExecute
  by_cases hex : fs input = none
  · have : (!fs.exists input) = true := by simp [FS.exists, hex]
    rw [if_pos this]; simp [hex]
  have hex' : ¬ (!fs.exists input) = true := by
    simp only [FS.exists, Bool.not_eq_true', Option.isSome_eq_false_iff, Option.isNone_iff_eq_none]
    exact hex
  rw [if_neg hex']
  cases openFails with
  | true => simp
  | false =>
    simp only [Bool.false_eq_true, if_false, hex, ne_eq, not_false_eq_true, true_and]
    rcases load_total other ⟨fs.read input, readFails⟩ with ⟨embs, hl⟩ | ⟨e, hl⟩
    · rw [hl]
      simp only [Res.ok_bind, Res.ok.injEq]
      have hv := C52_loaded_valid other _ embs hl
      rcases new_cases embs with ⟨hn, hd⟩ | ⟨hn, hd⟩
      · rw [hn, Res.ok_bind]
        cases embs with
        | nil => simp [Console.new]
        | cons e embs =>
          have h1 := (hv e (by simp)).2.2
          unfold Console.new
          simp only
          rw [if_neg (by omega)]
          refine ⟨by simp, fun cons => ⟨?_, ?_⟩⟩
          · intro h; cases h
            exact ⟨e, embs, rfl, fun e' he' => hd e' (by simp [he']) e (by simp), rfl⟩
          · rintro ⟨e2, embs2, h2, -, rfl⟩
            cases h2; rfl
      · rw [hn]
        refine ⟨by simp, fun cons => ⟨by simp, ?_⟩⟩
        rintro ⟨e2, embs2, h2, h3, -⟩
        subst h2
        obtain ⟨a, ha, b, hb, hab⟩ := hd
        have : ∀ x ∈ e2 :: embs2, x.dim = e2.dim := by
          intro x hx
          rcases List.mem_cons.1 hx with rfl | hx
          · rfl
          · exact h3 x hx
        exact absurd ((this a ha).trans (this b hb).symm) hab
    · rw [hl]; simp

/-- `C79_console_starts_iff`: the console starts on the file `slText`. -/
example : ∃ cons, consoleExecute (fun _ => none) (fun p => if p = ['f'] then some (.file slText) else none) false false ['f'] 3 = .ok cons := by
  have hl : load (fun _ => none) ⟨FS.read (fun p => if p = ['f'] then some (.file slText) else none) ['f'], false⟩ = .ok slEmbs := sl_embs
  have hd : ∀ e' ∈ slEmbs, e'.dim = 2 := by decide +kernel
  rcases he : slEmbs with _ | ⟨e, embs⟩
  · exact absurd (congrArg List.length he) (by decide +kernel)
  · rw [he] at hl hd
    exact ⟨_, ((C79_console_starts_iff _ _ _ _ _ 3).2 _).2 ⟨by simp, rfl, e, embs, hl,
      fun e' h => by rw [hd e' (by simp [h]), hd e (by simp)], rfl⟩⟩

/-- Non-vacuity: a file saved from two words, and a query for one of them. -/
example : ∃ dic text, addCalls [["a".toList, "bc".toList]] = .ok dic ∧
    saveText dic ⟨[F64.round (1 / 2), F64.round 1, F64.round 1, F64.round 1], 2, 2⟩ false 0 = .ok text ∧
    (match queryExecute (fun _ => none) (fun p => if p = ['f'] then some (.file text) else none) false false ['f'] ["a".toList] 1 with
      | .ok ns => ns.map (·.word) | _ => []) = ["bc".toList] := by
  refine ⟨_, "a 0.500000 1.000000 \nbc 1.000000 1.000000 \n".toList, rfl, ?_, ?_⟩
  · decide +kernel
  · decide +kernel

end Wego.Props
