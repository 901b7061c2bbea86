import Verif.Props.Query
import Verif.Props.CosineF64

/-! # C113: a search sees only the angles between the vectors -/

namespace Wego.Props
open Wego

section
variable {F : Type} [GoFloat F]

theorem search_congr (items items' : List (Embedding F)) (q q' : Embedding F) (k : Int) (ignore : List Word)
    (h : List.Forall₂ (fun a b => a.word = b.word ∧ cosine q.vector a.vector q.norm a.norm = cosine q'.vector b.vector q'.norm b.norm)
      items items') :
    (Searcher.mk items).search q k ignore = (Searcher.mk items').search q' k ignore := by
  have key : ∀ (m : GoMap Word Unit) (st : SearchSt F),
      forEach items st (searchStep q m) = forEach items' st (searchStep q' m) := by
    intro m
    induction h with
    | nil => intro st; rfl
    | @cons a b as bs h1 _ ih =>
      intro st
      rw [forEach_cons, forEach_cons]
      have e : searchStep q m a st = searchStep q' m b st := by
        unfold searchStep
        rw [h1.1, h1.2]
      rw [e]
      cases searchStep q' m b st with
      | ok st' => exact ih st'
      | err e => rfl
      | panic p => rfl
  unfold Searcher.search
  dsimp only
  rw [key]

end

theorem cosine_true {n : Nat} {s : Searcher ℝ} (hs : TrueItems n s) {it : Embedding ℝ} (hit : it ∈ s.items) (q : List ℝ) (hq : q.length = n) (x : ℝ)
    (hx : x = Real.sqrt (dot q q)) :
    cosine q it.vector x it.norm = .ok (cosOf q it.vector) := by
  obtain ⟨-, h1, h2⟩ := hs it hit
  rw [hx, h2, cosine_cosOf q it.vector (by omega)]

theorem forall₂_mem {α β : Type} {R S : α → β → Prop} {l : List α} {m : List β} (h : List.Forall₂ R l m)
    (hi : ∀ a ∈ l, ∀ b ∈ m, R a b → S a b) : List.Forall₂ S l m := by
  induction h with
  | nil => exact .nil
  | cons h1 _ ih => exact .cons (hi _ (by simp) _ (by simp) h1) (ih (fun a ha b hb => hi a (by simp [ha]) b (by simp [hb])))

/-- **C113 (SearchVector).** In exact arithmetic: two searchers with the same words whose vectors have the same cosines with their
query - the vectors and the queries may have any sizes and any lengths - return exactly the same neighbours, ranks and similarities, for every `k`. -/
theorem C113_search_vector (s s' : Searcher ℝ) (q q' : List ℝ) (hs : TrueItems q.length s) (hs' : TrueItems q'.length s')
    (h : List.Forall₂ (fun a b => a.word = b.word ∧ cosOf q a.vector = cosOf q' b.vector) s.items s'.items) (k : Int) :
    s.searchVector q k = s'.searchVector q' k := by
  unfold Searcher.searchVector
  refine search_congr s.items s'.items _ _ k [] (forall₂_mem h ?_)
  rintro a ha b hb ⟨h1, h2⟩
  refine ⟨h1, ?_⟩
  dsimp only
  rw [cosine_true hs ha q rfl _ (norm_real q), cosine_true hs' hb q' rfl _ (norm_real q'), h2]

theorem find_forall₂ {α β : Type} {R : α → β → Prop} {p : α → Bool} {p' : β → Bool} {l : List α} {m : List β} (h : List.Forall₂ R l m)
    (hp : ∀ a b, R a b → p a = p' b) :
    (l.find? p = none ∧ m.find? p' = none) ∨ ∃ (i : Nat) (a : α) (b : β), l[i]? = some a ∧ m[i]? = some b ∧ l.find? p = some a ∧ m.find? p' = some b := by
  induction h with
  | nil => exact .inl ⟨rfl, rfl⟩
  | @cons a b l m h1 _ ih =>
    by_cases hc : p a = true
    · have hc' : p' b = true := by rw [← hp a b h1]; exact hc
      exact .inr ⟨0, a, b, rfl, rfl, by simp [hc], by simp [hc']⟩
    · have hc' : ¬ p' b = true := by rw [← hp a b h1]; exact hc
      rw [List.find?_cons_of_neg hc, List.find?_cons_of_neg hc']
      rcases ih with h | ⟨i, x, y, e1, e2, e3, e4⟩
      · exact .inl h
      · exact .inr ⟨i + 1, x, y, by simpa using e1, by simpa using e2, e3, e4⟩

/-- **C113 (SearchInternal).** In exact arithmetic: if two searchers have the same words in the same order and each pair of vectors has the
same cosine in both, then every word has exactly the same neighbours, with the same ranks and similarities, in both, for every `k`. -/
theorem C113_search_internal (s s' : Searcher ℝ) (n n' : Nat) (hs : TrueItems n s) (hs' : TrueItems n' s')
    (hw : s.items.map (·.word) = s'.items.map (·.word))
    (hcos : ∀ (i j : Nat) (a b a' b' : Embedding ℝ), s.items[i]? = some a → s.items[j]? = some b → s'.items[i]? = some a' → s'.items[j]? = some b' →
      cosOf a.vector b.vector = cosOf a'.vector b'.vector) (w : Word) (k : Int) :
    s.searchInternal w k = s'.searchInternal w k := by
  have hl : s.items.length = s'.items.length := by simpa using congrArg List.length hw
  have hww : List.Forall₂ (fun a b : Embedding ℝ => a.word = b.word) s.items s'.items := by
    rw [List.forall₂_iff_get]
    refine ⟨hl, fun i h1 h2 => ?_⟩
    have := congrArg (fun l => l[i]?) hw
    simp only [List.getElem?_map, List.getElem?_eq_getElem h1, List.getElem?_eq_getElem h2, Option.map_some, Option.some.injEq] at this
    exact this
  unfold Searcher.searchInternal
  rcases find_forall₂ (p := fun item : Embedding ℝ => decide (item.word = w)) (p' := fun item : Embedding ℝ => decide (item.word = w)) hww
    (fun a b h => by rw [h]) with ⟨h1, h2⟩ | ⟨i, q, q', e1, e2, e3, e4⟩
  · rw [h1, h2]
    simp [Embedding.zero]
  · rw [e3, e4]
    have f1 : q.word = w := by simpa using List.find?_some e3
    have f2 : q'.word = w := by simpa using List.find?_some e4
    dsimp only
    rw [f1, f2]
    split
    · rfl
    · have hq := List.mem_of_getElem? e1
      have hq' := List.mem_of_getElem? e2
      refine search_congr s.items s'.items q q' k [w] ?_
      rw [List.forall₂_iff_get] at hww ⊢
      refine ⟨hl, fun j h1 h2 => ⟨hww.2 j h1 h2, ?_⟩⟩
      simp only [List.get_eq_getElem]
      rw [cosine_true hs (List.getElem_mem h1) q.vector (hs q hq).2.1 _ (hs q hq).2.2,
        cosine_true hs' (List.getElem_mem h2) q'.vector (hs' q' hq').2.1 _ (hs' q' hq').2.2]
      exact congrArg Res.ok (hcos i j q _ q' _ e1 (List.getElem?_eq_getElem h1) e2 (List.getElem?_eq_getElem h2))

/-- the searcher whose vectors are replaced by `T` of them, with the norms of the new vectors -/
noncomputable def replaced (T : Embedding ℝ → List ℝ) (s : Searcher ℝ) : Searcher ℝ :=
  ⟨s.items.map (fun it => { word := it.word, dim := (T it).length, vector := T it, norm := norm (T it) })⟩

theorem replaced_cos (T : Embedding ℝ → List ℝ) (s : Searcher ℝ) (n m : Nat) (hs : TrueItems n s) (hT : ∀ it ∈ s.items, (T it).length = m)
    (hc : ∀ a ∈ s.items, ∀ b ∈ s.items, cosOf (T a) (T b) = cosOf a.vector b.vector) (w : Word) (k : Int) :
    (replaced T s).searchInternal w k = s.searchInternal w k := by
  refine (C113_search_internal s (replaced T s) n m hs ?_ ?_ ?_ w k).symm
  · intro it hit
    obtain ⟨it0, h0, rfl⟩ := List.mem_map.1 hit
    exact ⟨(hs it0 h0).1, hT it0 h0, norm_real _⟩
  · unfold replaced; rw [List.map_map]; rfl
  · intro i j a b a' b' h1 h2 h3 h4
    unfold replaced at h3 h4
    simp only [List.getElem?_map, h1, h2, Option.map_some, Option.some.injEq] at h3 h4
    subst h3 h4
    exact (hc a (List.mem_of_getElem? h1) b (List.mem_of_getElem? h2)).symm

theorem cosOf_scale (a b : List ℝ) (t u : ℝ) (ht : 0 < t) (hu : 0 < u) : cosOf (a.map (t * ·)) (b.map (u * ·)) = cosOf a b := by
  have e1 : ∀ (v : List ℝ) (c : ℝ), dot (v.map (c * ·)) (v.map (c * ·)) = c ^ 2 * dot v v := by
    intro v c; rw [dot_map_left, dot_comm, dot_map_left]; ring
  have e2 : dot (a.map (t * ·)) (b.map (u * ·)) = t * u * dot a b := by
    rw [dot_map_left, dot_comm, dot_map_left, dot_comm]; ring
  have z : ∀ (v : List ℝ) (c : ℝ), 0 < c → (c ^ 2 * dot v v = 0 ↔ dot v v = 0) := by
    intro v c hc
    constructor
    · intro h; rcases mul_eq_zero.1 h with h | h
      · exact absurd h (pow_pos hc 2).ne'
      · exact h
    · intro h; rw [h, mul_zero]
  unfold cosOf
  rw [e1, e1, e2]
  simp only [z a t ht, z b u hu]
  split
  · rfl
  · next hne =>
    push Not at hne
    rw [Real.sqrt_mul (pow_pos ht 2).le, Real.sqrt_mul (pow_pos hu 2).le, Real.sqrt_sq ht.le, Real.sqrt_sq hu.le]
    have ha : Real.sqrt (dot a a) ≠ 0 := by
      rw [Ne, Real.sqrt_eq_zero (dot_self_nonneg a)]; exact hne.1
    have hb : Real.sqrt (dot b b) ≠ 0 := by
      rw [Ne, Real.sqrt_eq_zero (dot_self_nonneg b)]; exact hne.2
    have ht' := ht.ne'
    have hu' := hu.ne'
    field_simp

/-- **C113 (rescaled vectors).** Stretching or shrinking every vector by a positive factor of its own - for example, to length 1 - changes
no neighbour, rank or similarity (exact arithmetic). -/
theorem C113_rescale (s : Searcher ℝ) (n : Nat) (hs : TrueItems n s) (t : Embedding ℝ → ℝ) (ht : ∀ it ∈ s.items, 0 < t it) (w : Word) (k : Int) :
    (replaced (fun it => it.vector.map (t it * ·)) s).searchInternal w k = s.searchInternal w k :=
  replaced_cos _ s n n hs (fun it hit => by rw [List.length_map]; exact (hs it hit).2.1)
    (fun a ha b hb => cosOf_scale _ _ _ _ (ht a ha) (ht b hb)) w k

/-- **C113 (rotated vectors).** Replacing every vector by its image under a map that keeps the inner products - a rotation, a reflection, a
permutation of the coordinates, additional zero coordinates - changes no neighbour, rank or similarity (exact arithmetic). -/
theorem C113_rotate (s : Searcher ℝ) (n m : Nat) (hs : TrueItems n s) (T : List ℝ → List ℝ) (hT : ∀ u : List ℝ, u.length = n → (T u).length = m)
    (hd : ∀ u v : List ℝ, u.length = n → v.length = n → dot (T u) (T v) = dot u v) (w : Word) (k : Int) :
    (replaced (fun it => T it.vector) s).searchInternal w k = s.searchInternal w k :=
  replaced_cos _ s n m hs (fun it hit => hT _ (hs it hit).2.1)
    (fun a ha b hb => by
      have h1 := (hs a ha).2.1
      have h2 := (hs b hb).2.1
      unfold cosOf
      rw [hd _ _ h1 h1, hd _ _ h1 h2, hd _ _ h2 h2]) w k

/-- **C113 is about exact arithmetic.** In float64 it is false: `x` and `y` with the vector `[1]` are neighbours; with `[10^200]` for `y`
(whose square overflows) `x` has none. -/
theorem C113_rescale_float64_false :
    (∃ n, (Searcher.mk [mkEmb "x" [1], mkEmb "y" [1]]).searchInternal ['x'] 1 = .ok [n] ∧ n.word = ['y']) ∧
    (Searcher.mk [mkEmb "x" [1], mkEmb "y" [10 ^ 200]]).searchInternal ['x'] 1 = .ok [] := by
  refine ⟨?_, by decide +kernel⟩
  have h : ((Searcher.mk [mkEmb "x" [1], mkEmb "y" [1]]).searchInternal ['x'] 1 >>= fun r => .ok (r.map (·.word))) = .ok [['y']] := by
    decide +kernel
  rw [Res.bind_eq_ok] at h
  obtain ⟨r, h1, h2⟩ := h
  simp only [Res.ok.injEq] at h2
  rcases r with _ | ⟨n, _ | ⟨n', r⟩⟩
  · simp at h2
  · exact ⟨n, h1, by simpa using h2⟩
  · simp at h2

/-- `C113_rescale` for `a = (3, 4)` and `b = (1, 0)`: all vectors divided by 5. -/
noncomputable example := C113_rescale twoItems 2 two_true (fun _ => 1 / 5) (fun _ _ => by norm_num)

/-- `C113_rotate`: the coordinates exchanged. -/
noncomputable example := C113_rotate twoItems 2 2 two_true List.reverse (by simp) (by
  intro u v hu hv
  match u, v, hu, hv with
  | [a, b], [c, d], _, _ => simp [dot]; ring)

/-- `C113_search_vector`: the query `(1, 1)` and the query `(2, 2)`. -/
noncomputable example := C113_search_vector twoItems twoItems [1, 1] [2, 2] two_true two_true (by
  have h : ∀ v : List ℝ, cosOf [2, 2] v = cosOf [1, 1] v := by
    intro v
    have := cosOf_scale [1, 1] v 2 1 (by norm_num) (by norm_num)
    have e : v.map ((1 : ℝ) * ·) = v := by simp
    rw [e] at this
    simpa using this
  refine List.forall₂_same.2 (fun a _ => ⟨rfl, (h a.vector).symm⟩))

end Wego.Props
