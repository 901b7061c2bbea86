import Verif.Props.TypedLine
import Verif.Props.SearchRemove
import Verif.Props.SearchAngles
import Verif.Props.ZeroVectors

/-! # C118: the order of the words in a sum -/

namespace Wego.Props
open Wego Wego.Spec

/-- **C118 (the ignored words).** The order in which the words to ignore are given, and giving one twice, change nothing: only which
words are ignored matters. -/
theorem C118_ignore {F : Type} [GoFloat F] (s : Searcher F) (query : Embedding F) (k : Int) (ignore ignore' : List Word)
    (h : ∀ w, w ∈ ignore ↔ w ∈ ignore') : s.search query k ignore = s.search query k ignore' := by
  obtain ⟨items⟩ := s
  rw [C112_ignore, C112_ignore items query k ignore']
  have : (fun it : Embedding F => decide (it.word ∉ ignore)) = (fun it => decide (it.word ∉ ignore')) := by
    funext it
    simp [h]
  rw [this]

theorem zipWith_swap {A B : Type} (f : A → A → B) (hf : ∀ a b, f a b = f b a) (x y : List A) :
    List.zipWith f x y = List.zipWith f y x := by
  rw [List.zipWith_comm]
  congr 1
  funext a b
  exact hf _ _

/-- **C118 (sums).** On a valid searcher with `k ≥ 1`, in any arithmetic whose addition commutes: two lines that parse to `x + y`
and `y + x`, both words known, print the same table. -/
theorem C118_sum {F : Type} [GoFloat F] [LawfulCmp F] (hadd : ∀ a b : F, a +. b = b +. a)
    (parse : Word → Option Expr) (c : Console F) (hv : ValidSearcher c.searcher)
    (hk : 1 ≤ c.k) (l l' x y : Word) (ex ey : Embedding F)
    (hp : parse l = some (.binary (.ident x) .add (.ident y))) (hp' : parse l' = some (.binary (.ident y) .add (.ident x)))
    (hx : FirstNamed c.searcher x ex) (hy : FirstNamed c.searcher y ey) :
    (c.eval parse l).2 = (c.eval parse l').2 := by
  obtain ⟨ns, h1, h2, _⟩ := C60_arithmetic parse c hv hk l x y ex ey .add (Or.inl rfl) hp hx hy
  obtain ⟨ns', h1', h2', _⟩ := C60_arithmetic parse c hv hk l' y x ey ex .add (Or.inl rfl) hp' hy hx
  rw [h1, h1']
  simp only at h2 h2'
  rw [zipWith_swap _ hadd, C118_ignore _ _ _ [x, y] [y, x] (by intro w; simp [or_comm]), h2'] at h2
  cases h2
  rfl

theorem f64_add_comm (x y : F64) : F64.add x y = F64.add y x := by
  cases x with
  | nan => cases y <;> rfl
  | inf a =>
    cases y with
    | nan => rfl
    | inf b => cases a <;> cases b <;> rfl
    | fin t m k => rfl
  | fin s n h =>
    cases y with
    | nan => rfl
    | inf b => rfl
    | fin t m k => simp only [F64.add, Bool.and_comm, add_comm]

/-- **C118 (what is typed).** In float64, typing `x + y` and typing `y + x` (blanks are free) print the same table, for words of the
vocabulary that are identifiers and not reserved. -/
theorem C118_typed (S : GoSyntax) (c : Console F64) (hr : Ready c) (x y x' y' : Typed) (hx : x.OK S) (hy : y.OK S)
    (hx' : x'.OK S) (hy' : y'.OK S) (hxx : x'.word = x.word) (hyy : y'.word = y.word) (ex ey : Embedding F64)
    (h1 : FirstNamed c.searcher x.word ex) (h2 : FirstNamed c.searcher y.word ey) :
    (c.eval S.parseExpr (lineOf x [(false, y)])).2 = (c.eval S.parseExpr (lineOf y' [(false, x')])).2 := by
  have hp := parseExpr_line (S := S) x [(false, y)] hx (by simpa using hy)
  have hp' := parseExpr_line (S := S) y' [(false, x')] hy' (by simpa using hx')
  simp only [List.foldl_cons, List.foldl_nil, hxx, hyy] at hp hp'
  exact C118_sum f64_add_comm S.parseExpr c hr.valid hr.k _ _ x.word y.word ex ey hp hp' h1 h2

/-- **C118 is false of the code when one of the words is unknown.** With a known `x` and an unknown `y`, `y + x` prints nothing and
returns an error, but `x + y` prints a table of blank rows and returns no error. -/
theorem C118_false_unknown (S : GoSyntax) (c : Console F64) (hr : Ready c) (x y : Typed) (hx : x.OK S) (hy : y.OK S)
    (ex : Embedding F64) (h1 : FirstNamed c.searcher x.word ex) (h2 : Unknown c.searcher y.word) :
    (c.eval S.parseExpr (lineOf x [(false, y)])).2.res = .ok () ∧
      ((c.eval S.parseExpr (lineOf y [(false, x)])).2.out = [] ∧ ∃ e, (c.eval S.parseExpr (lineOf y [(false, x)])).2.res = .err e) := by
  have hp := parseExpr_line (S := S) x [(false, y)] hx (by simpa using hy)
  simp only [List.foldl_cons, List.foldl_nil] at hp
  refine ⟨?_, (C102_sum S c hr y x false hy hx).2 h2⟩
  rw [C62_false_unknown S.parseExpr c hr _ x.word y.word ex _ hp h1 h2]

theorem cosOf_neg (a b : List ℝ) : cosOf (a.map (-1 * ·)) b = - cosOf a b := by
  have e1 : dot (a.map (-1 * ·)) (a.map (-1 * ·)) = dot a a := by
    rw [dot_map_left, dot_comm, dot_map_left]; ring
  unfold cosOf
  rw [e1, dot_map_left]
  split
  · simp
  · ring

theorem sub_swap (x y : List ℝ) : List.zipWith (fun a b => b -. a) x y = (List.zipWith (fun a b => a -. b) x y).map (-1 * ·) := by
  induction x generalizing y with
  | nil => simp
  | cons a x ih =>
    cases y with
    | nil => simp
    | cons b y =>
      simp only [List.zipWith_cons_cons, List.map_cons, ih]
      congr 1
      show b - a = -1 * (a - b)
      ring

theorem found_cos {n : Nat} {s : Searcher ℝ} (hs : TrueItems n s) (v : List ℝ) (hv : v.length = n) (k : Int) (hk : 1 ≤ k) (ignore : List Word)
    (ns : List (Neighbor ℝ)) (h : s.search (vecQuery v) k ignore = .ok ns) (m : Neighbor ℝ) (hm : m ∈ ns) (hw : m.word ≠ []) :
    ∃ it ∈ s.items, it.word = m.word ∧ 0 < cosOf v it.vector := by
  obtain ⟨j, hj, hjm⟩ := List.mem_iff_getElem.1 hm
  obtain ⟨-, it, hit, h1, -, h2, h3⟩ := C55_ranks s (vecQuery v) k hk ignore (fun it hit => (hs it hit).1)
    (fun it hit => le_of_eq (by rw [(hs it hit).2.1]; exact hv)) ns h j m (by rw [List.getElem?_eq_getElem hj, hjm]) hw
  refine ⟨it, hit, h1, ?_⟩
  have h4 := cosine_true hs hit v hv (norm v) (norm_real v)
  rw [h4] at h2
  rw [Res.ok.injEq] at h2
  rw [← h2, real_lt, real_fzero] at h3
  simpa using h3

/-- **C118 (differences).** In exact arithmetic, on a valid searcher of different words with true norms: the tables that `x - y` and
`y - x` print have no word in common. -/
theorem C118_difference (parse : Word → Option Expr) (c : Console ℝ) (hv : ValidSearcher c.searcher) (n : Nat) (hs : TrueItems n c.searcher)
    (hd : (c.searcher.items.map (·.word)).Nodup)
    (hk : 1 ≤ c.k) (l l' x y : Word) (ex ey : Embedding ℝ)
    (hp : parse l = some (.binary (.ident x) .sub (.ident y))) (hp' : parse l' = some (.binary (.ident y) .sub (.ident x)))
    (hx : FirstNamed c.searcher x ex) (hy : FirstNamed c.searcher y ey) :
    ∃ ns ns', (c.eval parse l).2 = { out := [.table ns], res := .ok () } ∧ (c.eval parse l').2 = { out := [.table ns'], res := .ok () } ∧
      ∀ m ∈ ns, ∀ m' ∈ ns', m.word = m'.word → m.word = [] := by
  obtain ⟨ns, h1, h2, _⟩ := C60_arithmetic parse c hv hk l x y ex ey .sub (Or.inr rfl) hp hx hy
  obtain ⟨ns', h1', h2', _⟩ := C60_arithmetic parse c hv hk l' y x ey ex .sub (Or.inr rfl) hp' hy hx
  refine ⟨ns, ns', h1, h1', ?_⟩
  simp only at h2 h2'
  rw [List.zipWith_comm, sub_swap] at h2'
  intro m hm m' hm' hmm
  by_contra hne
  have lx := (hs ex (firstNamed_mem hx).1).2.1
  have ly := (hs ey (firstNamed_mem hy).1).2.1
  obtain ⟨it, hit, hw, hc⟩ := found_cos hs _ (by simp [lx, ly]) c.k hk _ ns h2 m hm hne
  obtain ⟨it', hit', hw', hc'⟩ := found_cos hs _ (by simp [lx, ly]) c.k hk _ ns' h2' m' hm' (by rw [← hmm]; exact hne)
  have : it = it' := List.inj_on_of_nodup_map hd hit hit' (by rw [hw, hw', hmm])
  subst this
  rw [cosOf_neg] at hc'
  linarith

theorem f64_sub_self (s : Bool) (n : Nat) (h : IsRep n) : F64.sub (.fin s n h) (.fin s n h) = (fzero : F64) := by
  have e : F64.toRat (.fin s n h) + F64.toRat (.fin (!s) n h) = 0 := by
    cases s <;> simp [F64.toRat]
  have e0 : F64.round 0 false = (fzero : F64) := by decide +kernel
  show F64.round (F64.toRat (.fin s n h) + F64.toRat (.fin (!s) n h)) (s && !s) = fzero
  rw [e, Bool.and_not_self, e0]

/-- **C118 (`x - x`).** In float64 a line that parses to `x - x`, for a known word whose values are neither infinite nor NaN, prints a
table without words. -/
theorem C118_minus_itself (parse : Word → Option Expr) (c : Console F64) (hv : ValidSearcher c.searcher) (hk : 1 ≤ c.k) (l x : Word)
    (ex : Embedding F64) (hp : parse l = some (.binary (.ident x) .sub (.ident x))) (hx : FirstNamed c.searcher x ex)
    (hfin : ∀ v ∈ ex.vector, ∃ s n h, v = .fin s n h) :
    ∃ ns, (c.eval parse l).2 = { out := [.table ns], res := .ok () } ∧ ∀ m ∈ ns, m.word = [] := by
  obtain ⟨ns, h1, h2, _⟩ := C60_arithmetic parse c hv hk l x x ex ex .sub (Or.inr rfl) hp hx hx
  simp only at h2
  have e : ∀ v : List F64, (∀ a ∈ v, ∃ s n h, a = .fin s n h) →
      List.zipWith (fun a b => a -. b) v v = List.replicate v.length (fzero : F64) := by
    intro v
    induction v with
    | nil => intro _; rfl
    | cons a v ih =>
      intro hf
      obtain ⟨s, n, h, rfl⟩ := hf a (by simp)
      rw [List.zipWith_cons_cons, ih (fun b hb => hf b (by simp [hb])), List.length_cons, List.replicate_succ]
      congr 1
      exact f64_sub_self s n h
  rw [e _ hfin] at h2
  obtain ⟨res, h3, h4⟩ := C116_query c.searcher (vecQuery (List.replicate ex.vector.length (fzero : F64)))
    (by simp only; rw [f64_norm_zeros]; decide +kernel) c.k hk [x, x] (fun it hit => (validate_ok (hv.valid it hit)).1)
    (fun it hit => by
      have := same_length hv (firstNamed_mem hx).1 hit
      simp only [List.length_replicate]
      omega)
  rw [h3] at h2
  cases h2
  exact ⟨ns, h1, h4⟩

/-- **C118 (`x + x`).** In exact arithmetic, with true norms, a line that parses to `x + x` prints the same table as the line `x`, for a known word. -/
theorem C118_twice (parse : Word → Option Expr) (c : Console ℝ) (hv : ValidSearcher c.searcher) (n : Nat) (hs : TrueItems n c.searcher)
    (hk : 1 ≤ c.k) (l l' x : Word) (ex : Embedding ℝ) (hp : parse l = some (.binary (.ident x) .add (.ident x)))
    (hp' : parse l' = some (.ident x)) (hx : FirstNamed c.searcher x ex) :
    (c.eval parse l).2 = (c.eval parse l').2 := by
  obtain ⟨ns, h1, h2, _⟩ := C60_arithmetic parse c hv hk l x x ex ex .add (Or.inl rfl) hp hx hx
  obtain ⟨ns', h1', h2', _⟩ := C60_single_word parse c hv hk l' x ex hp' hx
  obtain ⟨hmem, hword⟩ := firstNamed_mem hx
  obtain ⟨hxne, hlen, hnorm⟩ := hs ex hmem
  obtain ⟨pre, post, e1, e2, e3⟩ := hx
  rw [(C58_search_internal c.searcher x c.k).2.2 pre ex post e1 e2 e3 (by rw [← hword]; exact hxne)] at h2'
  simp only at h2
  have e : List.zipWith (fun a b => a +. b) ex.vector ex.vector = ex.vector.map ((2 : ℝ) * ·) := by
    have : ∀ v : List ℝ, List.zipWith (fun a b => a +. b) v v = v.map ((2 : ℝ) * ·) := by
      intro v
      induction v with
      | nil => rfl
      | cons a v ih =>
        rw [List.zipWith_cons_cons, ih, List.map_cons]
        congr 1
        show a + a = 2 * a
        ring
    exact this _
  rw [e, C118_ignore _ _ _ [x, x] [x] (by simp)] at h2
  have key : c.searcher.search (vecQuery (ex.vector.map ((2 : ℝ) * ·))) c.k [x] = c.searcher.search ex c.k [x] := by
    refine search_congr c.searcher.items c.searcher.items _ _ c.k [x] (List.forall₂_same.2 (fun it hit => ⟨rfl, ?_⟩))
    have a1 := cosine_true hs hit (ex.vector.map ((2 : ℝ) * ·)) (by simpa using hlen) _ (norm_real _)
    have a2 := cosine_true hs hit ex.vector hlen _ hnorm
    have a3 := cosOf_scale ex.vector it.vector 2 1 (by norm_num) (by norm_num)
    rw [show it.vector.map ((1 : ℝ) * ·) = it.vector by simp] at a3
    rw [a2, ← a3]
    exact a1
  rw [key, h2'] at h2
  cases h2
  rw [h1, h1']

/-- `C118_typed`: ` b+d ` and `d+ b`, and with the unknown word `z`: ` b+z`, `z+ b`. -/
example := C118_typed asciiSyntax exConsole ex_ready _ _ _ _ ex_tb ex_td ex_tb ex_td rfl rfl _ _ ex_b ex_d
example := C118_false_unknown asciiSyntax exConsole ex_ready _ _ ex_tb ex_tz _ ex_b ex_z

/-- `C118_difference` on the words `a = (3, 4)`, `b = (1, 0)`, `c = (0, 1)`, `d = (-1, 0)`: `a-b = (2, 4)` finds `c`, `b-a` finds `d`. -/
noncomputable def fourWords : Console ℝ :=
  { searcher := ⟨[⟨['a'], 2, [3, 4], 5⟩, ⟨['b'], 2, [1, 0], 1⟩, ⟨['c'], 2, [0, 1], 1⟩, ⟨['d'], 2, [-1, 0], 1⟩]⟩
    cursor := { w1 := [], w2 := [], vector := zeros 2 }, dim := 2, k := 2 }

theorem four_true : TrueItems 2 fourWords.searcher := by
  have h : Real.sqrt (5 * 5) = 5 := Real.sqrt_mul_self (by norm_num)
  have h' : dot [3, 4] [3, 4] = (5 * 5 : ℝ) := by norm_num [dot]
  have h1 : dot [1, 0] [1, 0] = (1 : ℝ) := by norm_num [dot]
  have h2 : dot [0, 1] [0, 1] = (1 : ℝ) := by norm_num [dot]
  have h3 : dot [-1, 0] [-1, 0] = (1 : ℝ) := by norm_num [dot]
  intro it hi
  simp only [fourWords, List.mem_cons, List.not_mem_nil, or_false] at hi
  rcases hi with rfl | rfl | rfl | rfl
  · exact ⟨by decide, rfl, by rw [h', h]⟩
  · exact ⟨by decide, rfl, by rw [h1, Real.sqrt_one]⟩
  · exact ⟨by decide, rfl, by rw [h2, Real.sqrt_one]⟩
  · exact ⟨by decide, rfl, by rw [h3, Real.sqrt_one]⟩

theorem four_valid : ValidSearcher fourWords.searcher where
  new := rfl
  valid := by
    intro it hi
    simp only [fourWords, List.mem_cons, List.not_mem_nil, or_false] at hi
    rcases hi with rfl | rfl | rfl | rfl <;> simp [Embedding.validate]

noncomputable example := C118_difference
  (fun l => if l = ['-'] then some (.binary (.ident ['a']) .sub (.ident ['b'])) else some (.binary (.ident ['b']) .sub (.ident ['a'])))
  fourWords four_valid 2 four_true (by simp [fourWords]) (by simp [fourWords]) ['-'] [] ['a'] ['b'] _ _ rfl rfl
  ⟨[], _, rfl, rfl, by simp⟩ ⟨[⟨['a'], 2, [3, 4], 5⟩], _, rfl, rfl, by simp⟩

/-- `C118_ignore`: `d`, `b` and `b`, `d`. -/
example := C118_ignore exSearcher (mkEmb "q" [1, 2]) 2 [['d'], ['b']] [['b'], ['d'], ['b']] (by intro w; simp [or_comm])

/-- `C118_sum`: `b+d` and `d+b`. -/
example := C118_sum f64_add_comm (fun l => if l = ['b', '+', 'd'] then some (.binary (.ident ['b']) .add (.ident ['d']))
    else some (.binary (.ident ['d']) .add (.ident ['b'])))
  exConsole ex_ready.valid (by decide) ['b', '+', 'd'] ['d', '+', 'b'] ['b'] ['d'] _ _ rfl rfl ex_b ex_d

/-- `C118_minus_itself`: `b-b`. -/
example := C118_minus_itself (fun _ => some (.binary (.ident ['b']) .sub (.ident ['b']))) exConsole ex_ready.valid (by decide) ['b', '-', 'b'] ['b'] _ rfl ex_b
  (by
    have h : ∀ v ∈ (mkEmb "b" [1, 1]).vector, (match v with | .fin _ _ _ => true | _ => false) = true := by decide +kernel
    intro v hv
    have := h v hv
    match v, this with
    | .fin s n h, _ => exact ⟨s, n, h, rfl⟩)

/-- `C118_twice`: `a+a` and `a`. -/
noncomputable example := C118_twice
  (fun l => if l = ['a'] then some (.ident ['a']) else some (.binary (.ident ['a']) .add (.ident ['a'])))
  fourWords four_valid 2 four_true (by simp [fourWords]) ['a', '+', 'a'] ['a'] ['a'] _ rfl rfl ⟨[], _, rfl, rfl, by simp⟩

end Wego.Props
