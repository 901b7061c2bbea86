import Verif.Props.HexNumber
import Verif.Props.SearchOrder

/-! # C109: joining, sorting and re-spacing vector files -/

namespace Wego.Props
open Wego Spec

theorem rawLines_append {t u : List Char} {ls ms : List (List Char)} (ht : RawLines t ls) (hn : t = [] ∨ t.getLast? = some '\n') (hu : RawLines u ms) :
    RawLines (t ++ u) (ls ++ ms) := by
  induction ht with
  | nil => exact hu
  | last l h1 h2 =>
    rcases hn with hn | hn
    · exact absurd hn h1
    · exact absurd (List.mem_of_getLast? hn) h2
  | cons l rest ls h1 h2 ih =>
    have hr : rest = [] ∨ rest.getLast? = some '\n' := by
      by_cases h0 : rest = []
      · exact .inl h0
      · right
        rcases hn with hn | hn
        · simp at hn
        · rw [List.getLast?_append_of_ne_nil _ (by simp), List.getLast?_cons] at hn
          rw [List.getLast?_eq_some_getLast h0] at hn ⊢
          simpa using hn
    have := RawLines.cons l (rest ++ u) (ls ++ ms) h1 (ih hr)
    simpa using this

theorem forall₂_append_left {α β : Type} {R : α → β → Prop} {l m : List α} {x : List β} (h : List.Forall₂ R (l ++ m) x) :
    ∃ a b, x = a ++ b ∧ List.Forall₂ R l a ∧ List.Forall₂ R m b := by
  induction l generalizing x with
  | nil => exact ⟨[], x, rfl, .nil, h⟩
  | cons y l ih =>
    cases h with
    | cons h1 h2 =>
      obtain ⟨a, b, rfl, h3, h4⟩ := ih h2
      exact ⟨_ :: a, b, rfl, .cons h1 h3, h4⟩

/-- **C109 (joining files).** If `t` is empty or ends with a line end, the text `t` followed by `u` loads exactly when both load, and holds the words of `t` followed by those of `u`. -/
theorem C109_join (other : Word → Option F64) (t u : List Char) (hn : t = [] ∨ t.getLast? = some '\n') (embs : List (Embedding F64)) :
    load other ⟨t ++ u, false⟩ = .ok embs ↔ ∃ a b, load other ⟨t, false⟩ = .ok a ∧ load other ⟨u, false⟩ = .ok b ∧ embs = a ++ b := by
  obtain ⟨ls, hls⟩ := rawLines_exists t
  obtain ⟨ms, hms⟩ := rawLines_exists u
  have hj := rawLines_append hls hn hms
  constructor
  · intro h
    obtain ⟨-, ns, h1, h2, h3⟩ := (C52_load_iff other _ embs).1 h
    obtain rfl := rawLines_unique hj h1
    rw [List.map_append, List.filter_append] at h3
    obtain ⟨a, b, rfl, h4, h5⟩ := forall₂_append_left h3
    exact ⟨a, b, (C52_load_iff other _ a).2 ⟨rfl, ls, hls, fun l hl => h2 l (by simp [hl]), h4⟩,
      (C52_load_iff other _ b).2 ⟨rfl, ms, hms, fun l hl => h2 l (by simp [hl]), h5⟩, rfl⟩
  · rintro ⟨a, b, h1, h2, rfl⟩
    obtain ⟨-, ls', k1, k2, k3⟩ := (C52_load_iff other _ a).1 h1
    obtain ⟨-, ms', k4, k5, k6⟩ := (C52_load_iff other _ b).1 h2
    obtain rfl := rawLines_unique hls k1
    obtain rfl := rawLines_unique hms k4
    refine (C52_load_iff other _ _).2 ⟨rfl, ls ++ ms, hj, ?_, ?_⟩
    · intro l hl
      rcases List.mem_append.1 hl with hl | hl
      · exact k2 l hl
      · exact k5 l hl
    · rw [List.map_append, List.filter_append]
      exact List.rel_append k3 k6

/-- What `Load` makes of a line: a comment if it begins with a blank, otherwise its fields. -/
def SameLine (l m : List Char) : Prop :=
  ((stripCR l).head? = some ' ' ↔ (stripCR m).head? = some ' ') ∧ ∃ ws, IsWords (stripCR l) ws ∧ IsWords (stripCR m) ws

theorem filter_sameLine {other : Word → Option F64} {ls ms : List (List Char)} (h : List.Forall₂ SameLine ls ms) (embs : List (Embedding F64))
    (hl : List.Forall₂ (IsLineEmb other) ((ls.map stripCR).filter (fun l => l.head? ≠ some ' ')) embs) :
    List.Forall₂ (IsLineEmb other) ((ms.map stripCR).filter (fun l => l.head? ≠ some ' ')) embs := by
  induction h generalizing embs with
  | nil => exact hl
  | @cons l m ls ms h1 h2 ih =>
    obtain ⟨e1, ws, w1, w2⟩ := h1
    rw [List.map_cons] at hl ⊢
    by_cases hc : (stripCR l).head? = some ' '
    · rw [List.filter_cons_of_neg (by simpa using hc)] at hl
      rw [List.filter_cons_of_neg (by simpa using e1.1 hc)]
      exact ih embs hl
    · rw [List.filter_cons_of_pos (by simpa using hc)] at hl
      rw [List.filter_cons_of_pos (by simpa using fun h => hc (e1.2 h))]
      cases hl with
      | cons k1 k2 =>
        refine .cons ?_ (ih _ k2)
        obtain ⟨toks, q1, q2, q3⟩ := k1
        refine ⟨toks, q1, ?_, q3⟩
        have := q2.eq_fields.trans w1.eq_fields.symm
        rw [this]; exact w2

/-- **C109 (spacing).** The blanks and tabs inside the lines, carriage returns before the line ends and the line end of the last line do not matter. -/
theorem C109_spacing (other : Word → Option F64) (p q : Pass) (ls ms : List (List Char)) (hp : RawLines p.text ls) (hq : RawLines q.text ms)
    (h : List.Forall₂ SameLine ls ms) (hl : ∀ l ∈ ls, utf8Len l < 65536) (hm : ∀ m ∈ ms, utf8Len m < 65536) (hf : p.fails = q.fails) (embs : List (Embedding F64)) :
    load other p = .ok embs ↔ load other q = .ok embs := by
  have sym : List.Forall₂ SameLine ms ls := by
    refine List.Forall₂.flip (h.imp ?_)
    rintro a b ⟨e, ws, w1, w2⟩
    exact ⟨e.symm, ws, w2, w1⟩
  rw [C52_load_iff, C52_load_iff]
  constructor
  · rintro ⟨h1, ns, h2, h3, h4⟩
    obtain rfl := rawLines_unique hp h2
    exact ⟨hf ▸ h1, ms, hq, hm, filter_sameLine h embs h4⟩
  · rintro ⟨h1, ns, h2, h3, h4⟩
    obtain rfl := rawLines_unique hq h2
    exact ⟨hf ▸ h1, ls, hp, hl, filter_sameLine sym embs h4⟩

theorem forall₂_perm {α β : Type} {R : α → β → Prop} {l m : List α} (h : l.Perm m) {x : List β} (hx : List.Forall₂ R l x) :
    ∃ y, x.Perm y ∧ List.Forall₂ R m y := by
  induction h generalizing x with
  | nil => cases hx; exact ⟨[], .refl _, .nil⟩
  | cons a _ ih =>
    cases hx with
    | cons h1 h2 =>
      obtain ⟨y, p, q⟩ := ih h2
      exact ⟨_ :: y, p.cons _, .cons h1 q⟩
  | swap a b l =>
    cases hx with
    | cons h1 h2 =>
      cases h2 with
      | cons h2 h3 => exact ⟨_, List.Perm.swap _ _ _, .cons h2 (.cons h1 h3)⟩
  | trans _ _ ih1 ih2 =>
    obtain ⟨y, p1, q1⟩ := ih1 hx
    obtain ⟨z, p2, q2⟩ := ih2 q1
    exact ⟨z, p1.trans p2, q2⟩

/-- **C109 (sorting).** Reordering the lines reorders what is loaded, and nothing else. -/
theorem C109_order (other : Word → Option F64) (p q : Pass) (ls ms : List (List Char)) (hp : RawLines p.text ls) (hq : RawLines q.text ms)
    (h : ls.Perm ms) (hf : p.fails = q.fails) (embs : List (Embedding F64)) (ho : load other p = .ok embs) :
    ∃ embs', load other q = .ok embs' ∧ embs.Perm embs' := by
  obtain ⟨h1, ns, h2, h3, h4⟩ := (C52_load_iff other p embs).1 ho
  obtain rfl := rawLines_unique hp h2
  obtain ⟨embs', k1, k2⟩ := forall₂_perm ((h.map stripCR).filter _) h4
  exact ⟨embs', (C52_load_iff other q embs').2 ⟨hf ▸ h1, ms, hq, fun m hm => h3 m (h.mem_iff.2 hm), k2⟩, k1⟩

/-- **C109 (joining files, searcher).** Two non-empty files that searchers can be made of join to one a searcher can be made of exactly when their vectors have the same dimension. -/
theorem C109_join_searcher (a b : List (Embedding F64)) (x y : Embedding F64) (hx : x ∈ a) (hy : y ∈ b)
    (ha : Searcher.new a = .ok ⟨a⟩) (hb : Searcher.new b = .ok ⟨b⟩) :
    (Searcher.new (a ++ b) = .ok ⟨a ++ b⟩ ↔ x.dim = y.dim) ∧ (Searcher.new (a ++ b) = .err .dimNotSame ↔ x.dim ≠ y.dim) := by
  have h1 := (C53_new a).1.1 ha
  have h2 := (C53_new b).1.1 hb
  have h3 : (∀ e ∈ a ++ b, ∀ e' ∈ a ++ b, e.dim = e'.dim) ↔ x.dim = y.dim := by
    constructor
    · intro h; exact h x (by simp [hx]) y (by simp [hy])
    · intro h
      have all : ∀ e ∈ a ++ b, e.dim = x.dim := by
        intro e he
        rcases List.mem_append.1 he with he | he
        · exact h1 e he x hx
        · exact (h2 e he y hy).trans h.symm
      intro e he e' he'
      rw [all e he, all e' he']
  exact ⟨(C53_new _).1.trans h3, (C53_new _).2.symm.trans (not_congr h3)⟩

/-- **C109 (joining files, words in both).** Of a word that is in both files the vector of the first file is used: a search for it is the search for that vector, and lists it neither
with the first nor with the second vector. -/
theorem C109_join_first (a b : List (Embedding F64)) (w : Word) (hw : w ≠ []) (x : Embedding F64) (pre post : List (Embedding F64)) (ha : a = pre ++ x :: post)
    (hx : x.word = w) (hp : ∀ e ∈ pre, e.word ≠ w) (k : Int) :
    (Searcher.mk (a ++ b)).searchInternal w k = (Searcher.mk (a ++ b)).search x k [w] ∧
    (∀ res, (Searcher.mk (a ++ b)).searchInternal w k = .ok res → ∀ n ∈ res, n.word ≠ w) ∧
    Embedding.find (a ++ b) w = some x := by
  obtain ⟨-, h2, h3⟩ := C58_search_internal (Searcher.mk (a ++ b)) w k
  refine ⟨h3 pre x (post ++ b) (by simp [ha]) hx hp hw, h2, ?_⟩
  subst ha
  clear h2 h3
  induction pre with
  | nil => simp [Embedding.find, hx]
  | cons e pre ih =>
    have := hp e (by simp)
    simp only [List.cons_append, Embedding.find, if_neg (Ne.symm this)]
    exact ih (fun e he => hp e (by simp [he]))

/-- `C109_join` on the file of `slText` and itself: it loads, with every word twice. -/
example : ∃ embs : List (Embedding F64), embs.map (·.word) = [['a'], ['b', 'c']] ∧ load (fun _ => none) ⟨slText, false⟩ = .ok embs ∧
    load (fun _ => none) ⟨slText ++ slText, false⟩ = .ok (embs ++ embs) ∧ Searcher.new embs = .ok ⟨embs⟩ := by
  have h : load (fun _ => none) ⟨slText, false⟩ = .ok
      (match load (fun _ => none) ⟨slText, false⟩ with | .ok e => e | _ => []) := by decide +kernel
  have hw : ((match load (fun _ => none) ⟨slText, false⟩ with | .ok e => e | _ => []) : List (Embedding F64)).map (·.word) = [['a'], ['b', 'c']] := by decide +kernel
  have hd : ∀ e ∈ ((match load (fun _ => none) ⟨slText, false⟩ with | .ok e => e | _ => []) : List (Embedding F64)), e.dim = 2 := by decide +kernel
  exact ⟨_, hw, h, (C109_join _ _ _ (Or.inr (by decide)) _).2 ⟨_, _, h, h, rfl⟩,
    (C53_new _).1.2 (fun e he e' he' => (hd e he).trans (hd e' he').symm)⟩

/-- `C109_spacing`: a tab, more blanks, a carriage return. -/
example : SameLine ['a', ' ', '1'] ['a', '\t', ' ', '1', ' ', '\r'] ∧ SameLine [' ', '#'] [' ', '#', '\r'] :=
  ⟨⟨by decide, [['a'], ['1']], isWords_fields ['a', ' ', '1'], isWords_fields ['a', '\t', ' ', '1', ' ']⟩,
   ⟨by decide, [['#']], isWords_fields [' ', '#'], isWords_fields [' ', '#']⟩⟩

end Wego.Props
