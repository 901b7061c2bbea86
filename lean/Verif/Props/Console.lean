import Verif.Model.Console
import Verif.Props.Search

/-! # C60-C63: the console -/

namespace Wego.Props
open Wego

section
variable {F : Type} [GoFloat F]

/-- A searcher as `Load` and `search.New` make it: items with non-empty words and non-empty vectors of one
common dimension. -/
structure ValidSearcher (s : Searcher F) : Prop where
  new : Searcher.new s.items = .ok s
  valid : ∀ e ∈ s.items, e.validate = .ok ()

/-- `e` is the first item named `w` -/
def FirstNamed (s : Searcher F) (w : Word) (e : Embedding F) : Prop :=
  ∃ pre post, s.items = pre ++ e :: post ∧ e.word = w ∧ ∀ it ∈ pre, it.word ≠ w

/-- no item is named `w` -/
def Unknown (s : Searcher F) (w : Word) : Prop := ∀ it ∈ s.items, it.word ≠ w

omit [GoFloat F] in
theorem validate_ok {e : Embedding F} (h : e.validate = .ok ()) :
    e.word ≠ [] ∧ e.dim = e.vector.length ∧ e.vector.length ≠ 0 := by
  unfold Embedding.validate at h
  split at h
  · simp at h
  · next h1 =>
    split at h
    · simp at h
    · next h2 =>
      split at h
      · simp at h
      · next h3 => exact ⟨h1, by simpa using h3, by simp only [not_or] at h2; exact h2.2⟩

omit [GoFloat F] in
theorem find_first {items : List (Embedding F)} {w : Word} {e : Embedding F} :
    Embedding.find items w = some e ↔
      ∃ pre post, items = pre ++ e :: post ∧ e.word = w ∧ ∀ it ∈ pre, it.word ≠ w := by
  induction items with
  | nil => simp [Embedding.find]
  | cons a items ih =>
    unfold Embedding.find
    split
    · next h =>
      simp only [Option.some.injEq]
      constructor
      · rintro rfl; exact ⟨[], items, rfl, h.symm, by simp⟩
      · rintro ⟨pre, post, h1, h2, h3⟩
        cases pre with
        | nil => simp at h1; exact h1.1
        | cons b pre =>
          simp at h1
          exact absurd h.symm (h1.1 ▸ h3 b (by simp))
    · next h =>
      rw [ih]
      constructor
      · rintro ⟨pre, post, h1, h2, h3⟩
        refine ⟨a :: pre, post, by simp [h1], h2, ?_⟩
        intro it hit
        rcases List.mem_cons.1 hit with rfl | hit
        · exact fun h4 => h h4.symm
        · exact h3 it hit
      · rintro ⟨pre, post, h1, h2, h3⟩
        cases pre with
        | nil => simp at h1; exact absurd (h1.1 ▸ h2).symm h
        | cons b pre =>
          simp at h1
          exact ⟨pre, post, h1.2, h2, fun it hit => h3 it (by simp [hit])⟩

omit [GoFloat F] in
theorem find_none {items : List (Embedding F)} {w : Word} :
    Embedding.find items w = none ↔ ∀ it ∈ items, it.word ≠ w := by
  induction items with
  | nil => simp [Embedding.find]
  | cons a items ih =>
    unfold Embedding.find
    split
    · next h => simp [h]
    · next h =>
      rw [ih]
      simp only [List.mem_cons, forall_eq_or_imp]
      constructor
      · exact fun h2 => ⟨fun h3 => h h3.symm, h2⟩
      · exact fun h2 => h2.2

omit [GoFloat F] in
theorem lookup_known {s : Searcher F} (hv : ValidSearcher s) {w : Word} {e : Embedding F}
    (h : FirstNamed s w e) : lookupIdent s.items (.ident w) = .ok e := by
  unfold lookupIdent
  simp only
  rw [find_first.2 h]
  obtain ⟨pre, post, h1, _, _⟩ := h
  simp only
  rw [hv.valid e (by rw [h1]; simp)]
  rfl

omit [GoFloat F] in
theorem same_dim {s : Searcher F} (hv : ValidSearcher s) :
    ∀ e ∈ s.items, ∀ e' ∈ s.items, e.dim = e'.dim := (C53_new s.items).1.1 hv.new

omit [GoFloat F] in
theorem firstNamed_mem {s : Searcher F} {w : Word} {e : Embedding F} (h : FirstNamed s w e) :
    e ∈ s.items ∧ e.word = w := by
  obtain ⟨pre, post, h1, h2, _⟩ := h
  exact ⟨by rw [h1]; simp, h2⟩

omit [GoFloat F] in
theorem same_length {s : Searcher F} (hv : ValidSearcher s) {e e' : Embedding F} (h : e ∈ s.items)
    (h' : e' ∈ s.items) : e.vector.length = e'.vector.length := by
  have h1 := (validate_ok (hv.valid e h)).2.1
  have h2 := (validate_ok (hv.valid e' h')).2.1
  have h3 := same_dim hv e h e' h'
  omega

/-- the query `Embedding{Vector: v, Norm: Norm(v)}` -/
abbrev vecQuery (v : List F) : Embedding F := { word := [], dim := 0, vector := v, norm := norm v }

/-- the element-wise sum or difference -/
def combine (op : Op) (a b : List F) : List F :=
  match op with
  | .sub => List.zipWith (fun x y => x -. y) a b
  | _ => List.zipWith (fun x y => x +. y) a b

theorem evalExpr_known {s : Searcher F} (hv : ValidSearcher s) {x y : Word} {ex ey : Embedding F}
    (hx : FirstNamed s x ex) (hy : FirstNamed s y ey) (op : Op) (hop : op = .add ∨ op = .sub) (c : Cursor F) :
    evalExpr s.items (.binary (.ident x) op (.ident y)) c =
      ({ w1 := x, w2 := y, vector := combine op ex.vector ey.vector }, .ok ()) := by
  have hl := same_length hv (firstNamed_mem hx).1 (firstNamed_mem hy).1
  have hn : ¬ (ex.vector.length ≠ ey.vector.length) := by simp [hl]
  simp only [evalExpr, Res.ok_bind, lookup_known hv hx, lookup_known hv hy]
  rcases hop with rfl | rfl <;>
    simp only [arithmetic, elementWise, if_neg hn, (firstNamed_mem hx).2, (firstNamed_mem hy).2, combine]

variable [LawfulCmp F]

/-- On a valid searcher with `k ≥ 1` a search with a query vector no longer than the items succeeds. -/
theorem valid_search {s : Searcher F} (hv : ValidSearcher s) (q : Embedding F) (k : Int) (hk : 1 ≤ k)
    (ig : List Word) (hq : ∀ e ∈ s.items, q.vector.length ≤ e.vector.length) :
    ∃ res, s.search q k ig = .ok res := by
  apply C53_search_total s.items s hv.new hv.valid q k hk ig
  intro e he
  have := (validate_ok (hv.valid e he)).2.1
  have := hq e he
  omega

/-- **C60 (arithmetic).** On a valid searcher, a line that parses to `x + y` or `x - y` with two known words
prints exactly one table, without error: the result of searching with the element-wise sum (difference) of the
vectors of the first items of these names, ignoring both words; neither word is in the table. -/
theorem C60_arithmetic (parse : Word → Option Expr) (c : Console F) (hv : ValidSearcher c.searcher)
    (hk : 1 ≤ c.k) (l x y : Word) (ex ey : Embedding F) (op : Op) (hop : op = .add ∨ op = .sub)
    (hp : parse l = some (.binary (.ident x) op (.ident y)))
    (hx : FirstNamed c.searcher x ex) (hy : FirstNamed c.searcher y ey) :
    ∃ ns, (c.eval parse l).2 = { out := [.table ns], res := .ok () } ∧
      c.searcher.search (vecQuery (match op with
          | .sub => List.zipWith (fun a b => a -. b) ex.vector ey.vector
          | _ => List.zipWith (fun a b => a +. b) ex.vector ey.vector)) c.k [x, y] = .ok ns ∧
      ∀ n ∈ ns, n.word ≠ x ∧ n.word ≠ y := by
  have hlen : ∀ e ∈ c.searcher.items, (combine op ex.vector ey.vector).length ≤ e.vector.length := by
    intro e he
    have h1 := same_length hv (firstNamed_mem hx).1 he
    rcases hop with rfl | rfl <;> simp [combine] <;> omega
  obtain ⟨ns, hns⟩ := valid_search hv
    { word := [], dim := 0, vector := combine op ex.vector ey.vector, norm := norm (combine op ex.vector ey.vector) }
    c.k hk [x, y] hlen
  refine ⟨ns, ?_, ?_, ?_⟩
  · unfold Console.eval
    rw [hp]
    simp only [Console.evalBody, evalExpr_known hv hx hy op hop, hns]
  · rcases hop with rfl | rfl <;> exact hns
  · intro n hn
    have hxne : x ≠ [] := (firstNamed_mem hx).2 ▸ (validate_ok (hv.valid ex (firstNamed_mem hx).1)).1
    have hyne : y ≠ [] := (firstNamed_mem hy).2 ▸ (validate_ok (hv.valid ey (firstNamed_mem hy).1)).1
    rcases search_words _ _ _ _ _ hns n hn with h | h
    · rw [h]; exact ⟨hxne.symm, hyne.symm⟩
    · simpa using h.1

/-- **C60 (single word).** A line that is one known word prints the table of `SearchInternal` for it. -/
theorem C60_single_word (parse : Word → Option Expr) (c : Console F) (hv : ValidSearcher c.searcher)
    (hk : 1 ≤ c.k) (l x : Word) (ex : Embedding F) (hp : parse l = some (.ident x))
    (hx : FirstNamed c.searcher x ex) :
    ∃ ns, (c.eval parse l).2 = { out := [.table ns], res := .ok () } ∧
      c.searcher.searchInternal x c.k = .ok ns ∧ ∀ n ∈ ns, n.word ≠ x := by
  have hxne : x ≠ [] := (firstNamed_mem hx).2 ▸ (validate_ok (hv.valid ex (firstNamed_mem hx).1)).1
  obtain ⟨_, h2, h3⟩ := C58_search_internal c.searcher x c.k
  obtain ⟨pre, post, e1, e2, e3⟩ := hx
  have h4 := h3 pre ex post e1 e2 e3 hxne
  obtain ⟨ns, hns⟩ := valid_search hv ex c.k hk [x]
    (fun e he => le_of_eq (same_length hv (by rw [e1]; simp) he))
  rw [hns] at h4
  refine ⟨ns, ?_, h4, h2 ns h4⟩
  unfold Console.eval
  rw [hp]
  simp only [Console.evalBody, h4]

/-! ### C61 -/

omit [LawfulCmp F] in
theorem eval_reset (parse : Word → Option Expr) (c : Console F) (l : Word) :
    (c.eval parse l).1 = { c with cursor := { w1 := [], w2 := [], vector := zeros c.dim } } := by
  unfold Console.eval
  cases parse l <;> rfl

omit [LawfulCmp F] in
/-- **C61.** Whatever lines were evaluated before (successful, failed or panicking), a line prints and returns
exactly what it does on the console as `New` made it. -/
theorem C61_lines_are_independent (parse : Word → Option Expr) (s : Searcher F) (k : Int) (c : Console F)
    (hc : Console.new s k = .ok c) (history : List Word) (l : Word) :
    ((history.foldl (fun c l => (c.eval parse l).1) c).eval parse l).2 = (c.eval parse l).2 := by
  have h0 : c = { c with cursor := { w1 := [], w2 := [], vector := zeros c.dim } } := by
    unfold Console.new at hc
    split at hc
    · simp at hc
    · split at hc
      · simp at hc
      · simp only [Res.ok.injEq] at hc; subst hc; rfl
  have h1 : ∀ (ls : List Word), ls.foldl (fun c l => (c.eval parse l).1) c = c := by
    intro ls
    induction ls with
    | nil => rfl
    | cons a ls ih => rw [List.foldl_cons, eval_reset, ← h0]; exact ih
  rw [h1]

/-! ### C62 -/

/-- the operand is an identifier naming an item -/
def KnownWord (s : Searcher F) (x : Expr) : Prop := ∃ w e, x = .ident w ∧ FirstNamed s w e

omit [GoFloat F] [LawfulCmp F] in
theorem known_or_unknown (s : Searcher F) (w : Word) : (∃ e, FirstNamed s w e) ∨ Unknown s w := by
  cases h : Embedding.find s.items w with
  | none => exact Or.inr (find_none.1 h)
  | some e => exact Or.inl ⟨e, find_first.1 h⟩

omit [GoFloat F] [LawfulCmp F] in
/-- looking up an operand succeeds exactly for known words, and never panics -/
theorem lookup_iff {s : Searcher F} (hv : ValidSearcher s) (x : Expr) :
    (KnownWord s x ∧ ∃ e ∈ s.items, lookupIdent s.items x = .ok e) ∨
      (¬ KnownWord s x ∧ ∃ e, lookupIdent s.items x = .err e) := by
  cases x with
  | ident w =>
    rcases known_or_unknown s w with ⟨e, he⟩ | h
    · exact Or.inl ⟨⟨w, e, rfl, he⟩, e, (firstNamed_mem he).1, lookup_known hv he⟩
    · right
      refine ⟨?_, .wordNotFound, ?_⟩
      · rintro ⟨w', e, hw, he⟩
        simp only [Expr.ident.injEq] at hw; subst hw
        exact h e (firstNamed_mem he).1 (firstNamed_mem he).2
      · unfold lookupIdent; simp only; rw [find_none.2 h]
  | binary x op y => exact Or.inr ⟨by rintro ⟨w, e, h, _⟩; simp at h, .failedToParse, rfl⟩
  | other => exact Or.inr ⟨by rintro ⟨w, e, h, _⟩; simp at h, .failedToParse, rfl⟩

omit [LawfulCmp F] in
/-- evaluating an operand succeeds exactly for known words -/
theorem operand_iff {s : Searcher F} (hv : ValidSearcher s) (x : Expr) (c : Cursor F)
    (hnp : ∀ p, (evalExpr s.items x c).2 ≠ .panic p) :
    (KnownWord s x ∧ ∃ e ∈ s.items, ((evalExpr s.items x c).2 >>= fun _ => lookupIdent s.items x) = .ok e) ∨
      (¬ KnownWord s x ∧ ∃ e, ((evalExpr s.items x c).2 >>= fun _ => lookupIdent s.items x) = .err e) := by
  rcases lookup_iff hv x with ⟨h1, e, he, h2⟩ | ⟨h1, e, h2⟩
  · left
    refine ⟨h1, e, he, ?_⟩
    obtain ⟨w, e', rfl, _⟩ := h1
    simp only [evalExpr, Res.ok_bind]; exact h2
  · right
    refine ⟨h1, ?_⟩
    cases h : (evalExpr s.items x c).2 with
    | ok u => exact ⟨e, by simpa using h2⟩
    | err e' => exact ⟨e', rfl⟩
    | panic p => exact absurd h (hnp p)

omit [LawfulCmp F] in
/-- `evalExpr` never panics on a valid searcher, and leaves a query vector no longer than the items. -/
theorem evalExpr_safe {s : Searcher F} (hv : ValidSearcher s) (x : Expr) (c : Cursor F)
    (hc : ∀ e ∈ s.items, c.vector.length ≤ e.vector.length) :
    (∀ p, (evalExpr s.items x c).2 ≠ .panic p) ∧
      ∀ e ∈ s.items, (evalExpr s.items x c).1.vector.length ≤ e.vector.length := by
  induction x generalizing c with
  | ident w => simpa [evalExpr] using hc
  | other => simpa [evalExpr] using hc
  | binary x op y ihx ihy =>
    obtain ⟨hx1, hx2⟩ := ihx c hc
    rw [evalExpr.eq_def]
    simp only
    rcases operand_iff hv x c hx1 with ⟨_, ex, hex, h1⟩ | ⟨_, e, h1⟩
    · rw [h1]
      simp only
      obtain ⟨hy1, hy2⟩ := ihy (evalExpr s.items x c).1 hx2
      rcases operand_iff hv y _ hy1 with ⟨_, ey, hey, h2⟩ | ⟨_, e, h2⟩
      · rw [h2]
        simp only
        cases ha : arithmetic ex.vector op ey.vector with
        | ok v =>
          refine ⟨by simp, ?_⟩
          intro e he
          have h3 := same_length hv hex he
          have h4 := same_length hv hey he
          have : v.length ≤ e.vector.length := by
            unfold arithmetic elementWise at ha
            cases op <;> simp only at ha
            · split at ha
              · simp at ha
              · simp only [Res.ok.injEq] at ha; rw [← ha]; simp; omega
            · split at ha
              · simp at ha
              · simp only [Res.ok.injEq] at ha; rw [← ha]; simp; omega
            · simp at ha
          exact this
        | err e => exact ⟨by simp, by simp⟩
        | panic p =>
          unfold arithmetic elementWise at ha
          cases op <;> simp only at ha
          · split at ha <;> simp at ha
          · split at ha <;> simp at ha
          · simp at ha
      · rw [h2]; exact ⟨by simp, hy2⟩
    · rw [h1]; exact ⟨by simp, hx2⟩

/-- the console as it is between lines -/
structure Ready (c : Console F) : Prop where
  valid : ValidSearcher c.searcher
  ne : c.searcher.items ≠ []
  k : 1 ≤ c.k
  dim : ∀ e ∈ c.searcher.items, e.dim = c.dim
  cursor : c.cursor = { w1 := [], w2 := [], vector := zeros c.dim }

omit [LawfulCmp F] in
theorem ready_new {s : Searcher F} (hv : ValidSearcher s) (hne : s.items ≠ []) {k : Int} (hk : 1 ≤ k) :
    ∃ c, Console.new s k = .ok c ∧ Ready c ∧ c.searcher = s ∧ c.k = k := by
  unfold Console.new
  cases h : s.items with
  | nil => exact absurd h hne
  | cons it items =>
    have h1 := (validate_ok (hv.valid it (by rw [h]; simp))).2.1
    simp only
    rw [if_neg (by omega)]
    refine ⟨_, rfl, ⟨hv, hne, hk, ?_, rfl⟩, rfl, rfl⟩
    intro e he
    exact same_dim hv e he it (by rw [h]; simp)

omit [LawfulCmp F] in
theorem ready_vector {c : Console F} (hr : Ready c) :
    ∀ e ∈ c.searcher.items, c.cursor.vector.length ≤ e.vector.length := by
  intro e he
  have h1 := hr.dim e he
  have h2 := (validate_ok (hr.valid.valid e he)).2.1
  rw [hr.cursor]; simp [zeros]; omega

/-- **C62 (what is reported).** On a console made by `New` from a valid searcher with `k ≥ 1`: a line returns an
error exactly when it does not parse, is neither a word nor a binary expression, is a binary expression whose left operand is
not a known word, or has two known words but an operator other than `+` and `-`. When it returns an error it
prints no table; otherwise it prints exactly one. It never panics. -/
theorem C62_reported_partial (parse : Word → Option Expr) (c : Console F) (hr : Ready c) (l : Word) :
    ((∃ e, (c.eval parse l).2.res = .err e) ↔
      (parse l = none ∨ parse l = some .other ∨
        ∃ x op y, parse l = some (.binary x op y) ∧
          (¬ KnownWord c.searcher x ∨ (KnownWord c.searcher x ∧ KnownWord c.searcher y ∧ op = .other)))) ∧
    (∀ e, (c.eval parse l).2.res = .err e → (c.eval parse l).2.out = []) ∧
    ((c.eval parse l).2.res = .ok () → ∃ ns, .table ns ∈ (c.eval parse l).2.out) ∧
    (∀ p, (c.eval parse l).2.res ≠ .panic p) := by
  have hv := hr.valid
  unfold Console.eval
  cases hp : parse l with
  | none => simp
  | some expr =>
    simp only
    cases expr with
    | other => simp [Console.evalBody]
    | ident w =>
      simp only [Console.evalBody]
      cases hs : c.searcher.searchInternal w c.k with
      | ok ns => simp
      | err e => simp
      | panic p =>
        exfalso
        rcases known_or_unknown c.searcher w with ⟨e, he⟩ | h
        · obtain ⟨ns, h1, h2, _⟩ := C60_single_word (fun _ => some (.ident w)) c hv hr.k [] w e rfl he
          rw [hs] at h2; simp at h2
        · rw [(C58_search_internal c.searcher w c.k).1.1 (Or.inr h)] at hs; simp at hs
    | binary x op y =>
      simp only [Console.evalBody]
      obtain ⟨hx1, hx2⟩ := evalExpr_safe hv x c.cursor (ready_vector hr)
      obtain ⟨hb1, hb2⟩ := evalExpr_safe hv (.binary x op y) c.cursor (ready_vector hr)
      have hsearch : ∃ ns, c.searcher.search (vecQuery (evalExpr c.searcher.items (.binary x op y) c.cursor).1.vector) c.k
          [(evalExpr c.searcher.items (.binary x op y) c.cursor).1.w1,
            (evalExpr c.searcher.items (.binary x op y) c.cursor).1.w2] = .ok ns :=
        valid_search hv _ c.k hr.k _ hb2
      obtain ⟨ns, hns⟩ := hsearch
      have herr : (∃ e, (evalExpr c.searcher.items (.binary x op y) c.cursor).2 = .err e) ↔
          (¬ KnownWord c.searcher x ∨ (KnownWord c.searcher x ∧ KnownWord c.searcher y ∧ op = .other)) := by
        rw [evalExpr.eq_def]
        simp only
        rcases operand_iff hv x c.cursor hx1 with ⟨hkx, ex, hex, h1⟩ | ⟨hkx, e, h1⟩
        · rw [h1]
          simp only [hkx, not_true_eq_false, false_or, true_and]
          obtain ⟨hy1, hy2⟩ := evalExpr_safe hv y (evalExpr c.searcher.items x c.cursor).1 hx2
          rcases operand_iff hv y _ hy1 with ⟨hky, ey, hey, h2⟩ | ⟨hky, e, h2⟩
          · rw [h2]
            simp only [hky, true_and]
            have hl := same_length hv hex hey
            cases op <;> simp [arithmetic, elementWise, hl]
          · rw [h2]; simp [hky]
        · rw [h1]; simp [hkx]
      cases hres : (evalExpr c.searcher.items (.binary x op y) c.cursor).2 with
      | panic p => exact absurd hres (hb1 p)
      | err e =>
        have := herr.1 ⟨e, hres⟩
        refine ⟨⟨fun _ => Or.inr (Or.inr ⟨x, op, y, rfl, this⟩), fun _ => ⟨e, rfl⟩⟩, by simp, by simp, by simp⟩
      | ok u =>
        rw [hns]
        have hn : ¬ _ := fun h => by
          obtain ⟨e, he⟩ := herr.2 h
          rw [hres] at he; simp at he
        refine ⟨⟨by simp, ?_⟩, by simp, by simp, by simp⟩
        rintro (h | h | ⟨x', op', y', h, h2⟩)
        · simp at h
        · simp at h
        · simp only [Option.some.injEq, Expr.binary.injEq] at h
          obtain ⟨rfl, rfl, rfl⟩ := h
          exact absurd h2 hn

/-- **C62 is false of the code (nested).** `x op (y ± z)` with known words, whatever the operator `op` (for
example the line `x == y + z`), is reported without error as the neighbours of `y ± z`. -/
theorem C62_false_nested (parse : Word → Option Expr) (c : Console F) (hr : Ready c) (l x y z : Word)
    (ex ey ez : Embedding F) (op op' : Op) (hop : op' = .add ∨ op' = .sub)
    (hp : parse l = some (.binary (.ident x) op (.binary (.ident y) op' (.ident z))))
    (hx : FirstNamed c.searcher x ex) (hy : FirstNamed c.searcher y ey) (hz : FirstNamed c.searcher z ez) :
    ∃ ns, (c.eval parse l).2 = { out := [.table ns], res := .ok () } ∧
      c.searcher.search (vecQuery (combine op' ey.vector ez.vector)) c.k [y, z] = .ok ns := by
  have hv := hr.valid
  have hlen : ∀ e ∈ c.searcher.items, (combine op' ey.vector ez.vector).length ≤ e.vector.length := by
    intro e he
    have h1 := same_length hv (firstNamed_mem hy).1 he
    rcases hop with rfl | rfl <;> simp [combine] <;> omega
  obtain ⟨ns, hns⟩ := valid_search hv
    { word := [], dim := 0, vector := combine op' ey.vector ez.vector, norm := norm (combine op' ey.vector ez.vector) }
    c.k hr.k [y, z] hlen
  refine ⟨ns, ?_, hns⟩
  have he : evalExpr c.searcher.items (.binary (.ident x) op (.binary (.ident y) op' (.ident z))) c.cursor =
      ({ w1 := y, w2 := z, vector := combine op' ey.vector ez.vector }, .ok ()) := by
    rw [evalExpr.eq_def]
    simp only
    have : (evalExpr c.searcher.items (.ident x) c.cursor) = (c.cursor, .ok ()) := rfl
    rw [this]
    simp only [Res.ok_bind, lookup_known hv hx, evalExpr_known hv hy hz op' hop]
    rfl
  unfold Console.eval
  rw [hp]
  simp only [Console.evalBody, he, hns]

/-! ### C63 -/

/-- **C63.** On a console made by `New` from a valid searcher with `k ≥ 1`: after `n` prompts `Run` has returned
exactly when one of them was `exit`, and otherwise it is still running (it never panics). So if no line is
`exit`, for example because the input ended and every further prompt returns the empty string, it never
returns. -/
theorem C63_run (parse : Word → Option Expr) (c : Console F) (hr : Ready c) (prompt : Nat → Prompted) (n : Nat) :
    ((∃ i < n, (prompt i).line = "exit".toList) → runTurns parse prompt c n = .returned) ∧
    ((∀ i < n, (prompt i).line ≠ "exit".toList) → runTurns parse prompt c n = .running c) := by
  induction n with
  | zero => exact ⟨by simp, fun _ => rfl⟩
  | succ n ih =>
    constructor
    · rintro ⟨i, hi, h⟩
      unfold runTurns
      by_cases hex : ∃ i < n, (prompt i).line = "exit".toList
      · rw [ih.1 hex]; rfl
      · push Not at hex
        rw [ih.2 hex]
        have : i = n := by
          rcases Nat.lt_or_ge i n with h1 | h1
          · exact absurd h (hex i h1)
          · omega
        subst this
        simp [runTurn, h]
    · intro h
      unfold runTurns
      rw [ih.2 (fun i hi => h i (by omega))]
      unfold runTurn
      simp only
      rw [if_neg (h n (by omega))]
      split
      · rfl
      · have h1 := (C62_reported_partial parse c hr (prompt n).line).2.2.2
        have h2 : (c.eval parse (prompt n).line).1 = c := by
          rw [eval_reset, ← hr.cursor]
        cases hres : (c.eval parse (prompt n).line).2.res with
        | panic p => exact absurd hres (h1 p)
        | ok u => simp [h2]
        | err e => simp [h2]

omit [LawfulCmp F] in
theorem runTurns_returned (parse : Word → Option Expr) (prompt : Nat → Prompted) (c : Console F) {m : Nat}
    (h : runTurns parse prompt c m = .returned) : ∀ n, m ≤ n → runTurns parse prompt c n = .returned ∧
      runOut parse prompt c n = runOut parse prompt c m := by
  intro n hn
  induction n, hn using Nat.le_induction with
  | base => exact ⟨h, rfl⟩
  | succ n hn ih => exact ⟨by rw [runTurns, ih.1]; rfl, by rw [runOut, ih.1, ih.2]; simp [turnOut]⟩

/-- What one prompt of a session shows: `error:` if the prompt failed, then, unless the line is empty or `exit`, what
the line prints and the error it ends with on a console that has seen no line before. -/
def lineShows (parse : Word → Option Expr) (c : Console F) (p : Prompted) : List (Shown F) :=
  (if p.failed = true then [.promptErr] else []) ++
  (if p.line = [] ∨ p.line = ['e', 'x', 'i', 't'] then []
  else (c.eval parse p.line).2.out.map .out ++
    (match (c.eval parse p.line).2.res with | .err e => [.evalErr e] | _ => []))

/-- **C93.** The output of a session on a console made by `New` from a valid searcher with `k ≥ 1`: while no line is
`exit`, after `n` prompts it is, for each prompt in order, what that prompt shows on a console that has seen no line
before; with the first `exit` the output is complete: nothing further is printed. -/
theorem C93_session_output (parse : Word → Option Expr) (c : Console F) (hr : Ready c) (prompt : Nat → Prompted) (n : Nat) :
    ((∀ i < n, (prompt i).line ≠ ['e', 'x', 'i', 't']) →
      runOut parse prompt c n = (List.range n).flatMap (fun i => lineShows parse c (prompt i)) ∧
      ((prompt n).line = ['e', 'x', 'i', 't'] → ∀ m > n, runOut parse prompt c m =
        (List.range (n + 1)).flatMap (fun i => lineShows parse c (prompt i)))) := by
  have hex : "exit".toList = ['e', 'x', 'i', 't'] := by decide
  have key : ∀ n, (∀ i < n, (prompt i).line ≠ ['e', 'x', 'i', 't']) →
      runOut parse prompt c n = (List.range n).flatMap (fun i => lineShows parse c (prompt i)) ∧
      turnOut parse (prompt n) (runTurns parse prompt c n) = lineShows parse c (prompt n) := by
    intro n
    have hturn : ∀ n, (∀ i < n, (prompt i).line ≠ ['e', 'x', 'i', 't']) →
        turnOut parse (prompt n) (runTurns parse prompt c n) = lineShows parse c (prompt n) := by
      intro n h
      rw [(C63_run parse c hr prompt n).2 (by rw [hex]; exact h)]
      unfold turnOut lineShows
      simp only [hex]
      congr 1
      by_cases h1 : (prompt n).line = []
      · simp [h1]
      · by_cases h2 : (prompt n).line = ['e', 'x', 'i', 't']
        · simp [h2]
        · rw [if_neg h2, if_neg h1, if_neg (by simp [h1, h2])]
          cases (c.eval parse (prompt n).line).2.res <;> rfl
    induction n with
    | zero => exact fun h => ⟨rfl, hturn 0 h⟩
    | succ n ih =>
      intro h
      obtain ⟨h1, h2⟩ := ih (fun i hi => h i (by omega))
      refine ⟨?_, hturn _ h⟩
      rw [runOut, h1, h2, List.range_succ, List.flatMap_append]
      simp
  intro h
  obtain ⟨h1, h2⟩ := key n h
  refine ⟨h1, fun he m hm => ?_⟩
  have hret := (C63_run parse c hr prompt (n + 1)).1 ⟨n, by omega, by rw [hex]; exact he⟩
  rw [(runTurns_returned parse prompt c hret m hm).2, runOut, h1, h2, List.range_succ, List.flatMap_append]
  simp

end

/-! ### C62 in float64: an unknown second word -/

theorem f64_norm_zeros (n : Nat) : norm (List.replicate n (fzero : F64)) = fzero := by
  have h1 : (fzero : F64) +. fzero *. fzero = fzero := by decide +kernel
  have h2 : ∀ n, (List.replicate n (fzero : F64)).foldl (fun n v => n +. v *. v) fzero = fzero := by
    intro n
    induction n with
    | zero => rfl
    | succ n ih => rw [List.replicate_succ, List.foldl_cons, h1]; exact ih
  unfold norm
  rw [h2]
  decide +kernel

theorem f64_cosine_zero (v : List F64) (a : List F64) (n : F64) : cosine a v (fzero : F64) n = .ok fzero := by
  unfold cosine
  have : GoFloat.eq (fzero : F64) fzero = true := by decide +kernel
  rw [if_pos (by simp [this])]

/-- **C62 is false of the code (unknown second word).** With a known word `x` and an unknown word `y`, the lines
`x + y`, `x - y`, and `x op y` for every operator return no error; a table of `k-1` blank rows is printed. -/
theorem C62_false_unknown (parse : Word → Option Expr) (c : Console F64) (hr : Ready c) (l x y : Word)
    (ex : Embedding F64) (op : Op) (hp : parse l = some (.binary (.ident x) op (.ident y)))
    (hx : FirstNamed c.searcher x ex) (hy : Unknown c.searcher y) :
    (c.eval parse l).2 =
      { out := [.table (List.replicate (c.k - 1).toNat { word := [], rank := 0, sim := fzero })], res := .ok () } := by
  have hv := hr.valid
  have he : evalExpr c.searcher.items (.binary (.ident x) op (.ident y)) c.cursor = (c.cursor, .ok ()) := by
    simp only [evalExpr, Res.ok_bind, lookup_known hv hx]
    have : lookupIdent c.searcher.items (.ident y) = .err .wordNotFound := by
      unfold lookupIdent; simp only; rw [find_none.2 hy]
    rw [this]
  have hcur : c.cursor.vector = List.replicate c.dim.toNat fzero := by rw [hr.cursor]; rfl
  have hcw : c.cursor.w1 = [] ∧ c.cursor.w2 = [] := by rw [hr.cursor]; exact ⟨rfl, rfl⟩
  have hk := hr.k
  obtain ⟨k, hkk⟩ := Int.eq_ofNat_of_zero_le (by omega : 0 ≤ c.k)
  set q : Embedding F64 := { word := [], dim := 0, vector := c.cursor.vector, norm := norm c.cursor.vector } with hq
  have hcand : candidates q [c.cursor.w1, c.cursor.w2] c.searcher.items = [] := by
    unfold candidates
    rw [List.filterMap_eq_nil_iff]
    intro it _
    have : q.norm = fzero := by rw [hq]; simp only; rw [hcur]; exact f64_norm_zeros _
    rw [this, f64_cosine_zero]
    have h0 : GoFloat.lt (fzero : F64) fzero = false := by decide +kernel
    simp [h0]
  obtain ⟨res, h1, h2, h3⟩ := C57_result_size c.searcher q k (by omega) [c.cursor.w1, c.cursor.w2]
    (fun it hit => (validate_ok (hv.valid it hit)).1) (ready_vector hr)
  rw [hcand] at h2 h3
  simp only [List.length_nil, Nat.le_zero] at h2
  have hres : res = List.replicate (c.k - 1).toNat { word := [], rank := 0, sim := fzero } := by
    rw [List.eq_replicate_iff]
    refine ⟨by rw [h2, if_neg (by omega)]; omega, ?_⟩
    intro b hb
    obtain ⟨j, hj, hjb⟩ := List.mem_iff_getElem.1 hb
    exact (h3 j b (by rw [List.getElem?_eq_getElem hj, hjb])).1 (by simp)
  unfold Console.eval
  rw [hp]
  simp only [Console.evalBody, he]
  rw [hkk] at *
  rw [h1, hres]

/-! ### Concrete cases -/

/-- The console on the four words of `exSearcher`, `k = 2`. -/
def exConsole : Console F64 := { searcher := exSearcher, cursor := { w1 := [], w2 := [], vector := zeros 2 }, dim := 2, k := 2 }

theorem ex_ready : Ready exConsole where
  valid := ⟨ex_new, ex_valid⟩
  ne := by simp [exConsole, exSearcher]
  k := by decide
  dim := by decide +kernel
  cursor := rfl

theorem ex_console_new : Console.new exSearcher 2 = .ok exConsole := rfl

theorem ex_b : FirstNamed exConsole.searcher ['b'] (mkEmb "b" [1, 1]) :=
  ⟨[mkEmb "a" [1, 0]], [mkEmb "c" [-1, 0], mkEmb "d" [4, 3]], rfl, rfl, by decide +kernel⟩

theorem ex_d : FirstNamed exConsole.searcher ['d'] (mkEmb "d" [4, 3]) :=
  ⟨[mkEmb "a" [1, 0], mkEmb "b" [1, 1], mkEmb "c" [-1, 0]], [], rfl, rfl, by decide +kernel⟩

theorem ex_z : Unknown exConsole.searcher ['z'] := by unfold Unknown; decide +kernel

/-- A parser (what `go/parser` does on these lines): `b`, `b+d`, `b+z` and `b==b+d`. -/
def exParse (l : Word) : Option Expr :=
  if l = ['b'] then some (.ident ['b'])
  else if l = ['b', '+', 'd'] then some (.binary (.ident ['b']) .add (.ident ['d']))
  else if l = ['b', '+', 'z'] then some (.binary (.ident ['b']) .add (.ident ['z']))
  else if l = ['b', '=', '=', 'b', '+', 'd'] then
    some (.binary (.ident ['b']) .other (.binary (.ident ['b']) .add (.ident ['d'])))
  else none

/-- `C60_arithmetic`: the line `b+d`. -/
example := C60_arithmetic exParse exConsole ex_ready.valid (by decide) ['b', '+', 'd'] ['b'] ['d'] _ _ .add (Or.inl rfl) rfl
  ex_b ex_d

/-- `C60_single_word`: the line `b`. -/
example := C60_single_word exParse exConsole ex_ready.valid (by decide) ['b'] ['b'] _ rfl ex_b

/-- `C61_lines_are_independent`: `b` after a line with an unknown word, a line that does not parse, and `b+d`. -/
example := C61_lines_are_independent exParse exSearcher 2 exConsole ex_console_new
  [['b', '+', 'z'], ['?'], ['b', '+', 'd']] ['b']

/-- `C62_reported_partial`: the line `?`, which does not parse, is reported. -/
example : ∃ e, (exConsole.eval exParse ['?']).2.res = .err e :=
  (C62_reported_partial exParse exConsole ex_ready ['?']).1.2 (Or.inl rfl)

/-- `C62_false_nested`: the line `b==b+d`. -/
example := C62_false_nested exParse exConsole ex_ready ['b', '=', '=', 'b', '+', 'd'] ['b'] ['b'] ['d'] _ _ _ .other .add
  (Or.inl rfl) rfl ex_b ex_b ex_d

/-- `C62_false_unknown`: the line `b+z`, where `z` is unknown: one blank neighbour and no error. -/
example : (exConsole.eval exParse ['b', '+', 'z']).2 =
    { out := [.table [{ word := [], rank := 0, sim := fzero }]], res := .ok () } :=
  C62_false_unknown exParse exConsole ex_ready ['b', '+', 'z'] ['b'] ['z'] _ .add rfl ex_b ex_z

/-- `C63_run`: a session with the lines `b`, `?`, `exit`. -/
example : runTurns exParse (fun i => ⟨if i = 0 then ['b'] else if i = 1 then ['?'] else "exit".toList, false⟩) exConsole 5 =
    .returned :=
  (C63_run exParse exConsole ex_ready _ 5).1 ⟨2, by decide, rfl⟩

/-- `C93_session_output`: the same session; after `exit` nothing more is written. -/
example := ((C93_session_output exParse exConsole ex_ready
  (fun i => ⟨if i = 0 then ['b'] else if i = 1 then ['?'] else ['e', 'x', 'i', 't'], false⟩) 2)
  (by decide)).2 rfl 7 (by decide)

end Wego.Props
