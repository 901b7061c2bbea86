import Verif.Props.CosineAccuracy
import Verif.Props.SaveLoad
import Verif.Props.Query

/-! # C100: similarities after saving and loading -/

namespace Wego.Props
open Wego Wego.Spec F64

/-! ### real vectors that differ a little in every coordinate -/

/-- the Euclidean length -/
noncomputable def len2 (a : List ℝ) : ℝ := Real.sqrt (dot a a)

/-- coordinate differences -/
def sub2 (a b : List ℝ) : List ℝ := List.zipWith (· - ·) a b

theorem dot_sub_left (a a' b : List ℝ) (h : a.length = a'.length) :
    dot (sub2 a a') b = dot a b - dot a' b := by
  induction a generalizing a' b with
  | nil => cases a' with
    | nil => simp [sub2, dot]
    | cons x a' => simp at h
  | cons x a ih =>
    cases a' with
    | nil => simp at h
    | cons y a' =>
      cases b with
      | nil => simp [dot]
      | cons z b =>
        have := ih a' b (by simpa using h)
        simp only [sub2] at this
        simp only [sub2, List.zipWith_cons_cons, dot]
        rw [this]; ring

theorem abs_dot_le (a b : List ℝ) : |dot a b| ≤ len2 a * len2 b := by
  unfold len2
  rw [← Real.sqrt_mul (dot_self_nonneg a)]
  exact Real.abs_le_sqrt (cauchy a b)

theorem len2_sub (a a' : List ℝ) (h : a.length = a'.length) : |len2 a - len2 a'| ≤ len2 (sub2 a a') := by
  apply Real.le_sqrt_of_sq_le
  rw [sq_abs, dot_sub_left a a' _ h, dot_comm a, dot_comm a', dot_sub_left a a' _ h, dot_sub_left a a' _ h]
  have h1 := (abs_le.1 (abs_dot_le a a')).2
  have e1 : len2 a ^ 2 = dot a a := Real.sq_sqrt (dot_self_nonneg a)
  have e2 : len2 a' ^ 2 = dot a' a' := Real.sq_sqrt (dot_self_nonneg a')
  have e3 := dot_comm a a'
  nlinarith

theorem trueCos_move (a a' b : List ℝ) (h : a.length = a'.length) (ha : 0 < len2 a) (ha' : 0 < len2 a') (hb : 0 < len2 b) :
    |trueCos a b - trueCos a' b| ≤ 2 * len2 (sub2 a a') / len2 a := by
  have e : trueCos a b - trueCos a' b =
      (dot (sub2 a a') b * len2 a' + dot a' b * (len2 a' - len2 a)) / (len2 a * len2 a' * len2 b) := by
    rw [dot_sub_left a a' b h]
    unfold trueCos
    change dot a b / (len2 a * len2 b) - dot a' b / (len2 a' * len2 b) = _
    field_simp; ring
  rw [e, abs_div, abs_of_pos (mul_pos (mul_pos ha ha') hb), div_le_div_iff₀ (mul_pos (mul_pos ha ha') hb) ha]
  have h1 := abs_dot_le (sub2 a a') b
  have h2 := abs_dot_le a' b
  have h3 := len2_sub a a' h
  rw [abs_sub_comm] at h3
  have h4 : |dot (sub2 a a') b * len2 a' + dot a' b * (len2 a' - len2 a)| ≤
      len2 (sub2 a a') * len2 b * len2 a' + len2 a' * len2 b * len2 (sub2 a a') := by
    refine le_trans (abs_add_le _ _) (add_le_add ?_ ?_)
    · rw [abs_mul, abs_of_pos ha']
      exact mul_le_mul_of_nonneg_right h1 (le_of_lt ha')
    · rw [abs_mul]
      exact mul_le_mul h2 h3 (abs_nonneg _) (by positivity)
  calc |dot (sub2 a a') b * len2 a' + dot a' b * (len2 a' - len2 a)| * len2 a ≤
        (len2 (sub2 a a') * len2 b * len2 a' + len2 a' * len2 b * len2 (sub2 a a')) * len2 a :=
        mul_le_mul_of_nonneg_right h4 (le_of_lt ha)
    _ = _ := by ring

theorem len2_sub_le (a a' : List ℝ) (hh : ℝ) (h : List.Forall₂ (fun x y => |y - x| ≤ hh) a a') (h0 : 0 ≤ hh) :
    len2 (sub2 a a') ≤ hh * Real.sqrt a.length := by
  have key : dot (sub2 a a') (sub2 a a') ≤ hh ^ 2 * a.length := by
    induction h with
    | nil => simp [sub2, dot]
    | cons hxy _ ih =>
      next x y a a' _ =>
      simp only [sub2] at ih
      simp only [sub2, List.zipWith_cons_cons, dot, List.length_cons]
      push_cast
      have : (x - y) * (x - y) ≤ hh ^ 2 := by
        rw [← pow_two, ← sq_abs, abs_sub_comm]
        exact pow_le_pow_left₀ (abs_nonneg _) hxy 2
      linarith
  unfold len2
  rw [show hh * Real.sqrt a.length = Real.sqrt (hh ^ 2 * a.length) by
    rw [Real.sqrt_mul (sq_nonneg hh), Real.sqrt_sq h0]]
  exact Real.sqrt_le_sqrt key

/-- Two vectors moved by at most `hh` in every coordinate. -/
theorem trueCos_close (a a' b b' : List ℝ) (hh : ℝ) (h0 : 0 ≤ hh)
    (ha : List.Forall₂ (fun x y => |y - x| ≤ hh) a a') (hb : List.Forall₂ (fun x y => |y - x| ≤ hh) b b')
    (pa : 0 < len2 a) (pa' : 0 < len2 a') (pb : 0 < len2 b) (pb' : 0 < len2 b') (hl : a.length = b.length) :
    |trueCos a' b' - trueCos a b| ≤ 2 * hh * Real.sqrt a.length * (1 / len2 a + 1 / len2 b) := by
  have h1 := trueCos_move a a' b ha.length_eq pa pa' pb
  have h2 := trueCos_move b b' a' hb.length_eq pb pb' pa'
  rw [trueCos_comm b a', trueCos_comm b' a'] at h2
  have d1 := len2_sub_le a a' hh ha h0
  have d2 := len2_sub_le b b' hh hb h0
  rw [← hl] at d2
  have i1 : 2 * len2 (sub2 a a') / len2 a ≤ 2 * hh * Real.sqrt a.length * (1 / len2 a) := by
    rw [mul_one_div, div_le_div_iff_of_pos_right pa]; linarith
  have i2 : 2 * len2 (sub2 b b') / len2 b ≤ 2 * hh * Real.sqrt a.length * (1 / len2 b) := by
    rw [mul_one_div, div_le_div_iff_of_pos_right pb]; linarith
  have e : trueCos a' b' - trueCos a b = -(trueCos a b - trueCos a' b) - (trueCos a' b - trueCos a' b') := by ring
  rw [e]
  refine le_trans (abs_sub _ _) ?_
  rw [abs_neg, mul_add]
  linarith

/-! ### what a saved vector is read back as -/

/-- A vector that six decimals can represent: components finite and at most `2^499` in magnitude, one of them at least
`2 · 10^-6`. -/
def Savable (v : List F64) : Prop :=
  (∀ x ∈ v, IsFin x ∧ |toReal x| ≤ 2 ^ 499) ∧ ∃ x ∈ v, (2 / 10 ^ 6 : ℝ) ≤ |toReal x|

theorem readsBack_close (x y : F64) (h : ReadsBack x y) (hx : IsFin x) :
    IsFin y ∧ |toReal y - toReal x| ≤ 1 / 10 ^ 6 := by
  have h1 := C49_error x y h hx.cases
  obtain ⟨s, n, k, rfl⟩ := hx.cases
  obtain ⟨m, k', N, rfl, -⟩ := h
  refine ⟨trivial, ?_⟩
  have h2 : ((|toRat (.fin s m k') - toRat (.fin s n k)| : ℚ) : ℝ) ≤ ((1 / 10 ^ 6 : ℚ) : ℝ) := by exact_mod_cast h1
  unfold toReal
  push_cast at h2
  exact h2

theorem readsBack_list (v v' : List F64) (h : List.Forall₂ ReadsBack v v') (hv : ∀ x ∈ v, IsFin x) :
    List.Forall₂ (fun x y => |y - x| ≤ (1 / 10 ^ 6 : ℝ)) (reals v) (reals v') := by
  unfold reals
  rw [List.forall₂_map_left_iff, List.forall₂_map_right_iff]
  induction h with
  | nil => exact .nil
  | cons hxy _ ih =>
    exact .cons (readsBack_close _ _ hxy (hv _ (by simp))).2 (ih (fun x hx => hv x (List.mem_cons_of_mem _ hx)))

theorem pow499 : (2 : ℝ) ^ 499 + 1 / 10 ^ 6 ≤ 2 ^ 500 := by
  have e : (2 : ℝ) ^ 500 = 2 ^ 499 * 2 := by rw [← pow_succ]
  have h : (1 : ℝ) ≤ 2 ^ 499 := one_le_pow₀ (by norm_num)
  rw [e]
  generalize (2 : ℝ) ^ 499 = z at h ⊢
  norm_num
  linarith

theorem inv400_small : (1 / 2 ^ 400 : ℝ) ≤ 1 / 10 ^ 6 := by
  apply one_div_le_one_div_of_le (by norm_num)
  exact le_trans (by norm_num : (10 : ℝ) ^ 6 ≤ 2 ^ 20) (pow_le_pow_right₀ (by norm_num) (by norm_num))

theorem loaded_ordinary (v v' : List F64) (hv : Savable v) (h : List.Forall₂ ReadsBack v v') : Ordinary v' := by
  obtain ⟨h1, x, hx, h2⟩ := hv
  constructor
  · intro y hy
    obtain ⟨x, hx, hxy⟩ := forall₂_mem_right h hy
    obtain ⟨a, b⟩ := readsBack_close x y hxy (h1 x hx).1
    refine ⟨a, ?_⟩
    have := abs_sub_abs_le_abs_sub (toReal y) (toReal x)
    have h3 := (h1 x hx).2
    refine le_trans ?_ pow499
    generalize (2 : ℝ) ^ 499 = z at *
    linarith
  · obtain ⟨y, hy, hxy⟩ := forall₂_mem_left h hx
    obtain ⟨a, b⟩ := readsBack_close x y hxy (h1 x hx).1
    refine ⟨y, hy, le_trans inv400_small ?_⟩
    have := abs_sub_abs_le_abs_sub (toReal x) (toReal y)
    rw [abs_sub_comm] at this
    have e : (2 / 10 ^ 6 : ℝ) = 1 / 10 ^ 6 + 1 / 10 ^ 6 := by ring
    linarith

theorem savable_len (v : List F64) (hv : Savable v) : 0 < len2 (reals v) := by
  obtain ⟨-, x, hx, h2⟩ := hv
  have hxm : toReal x ∈ reals v := List.mem_map_of_mem hx
  have h3 := le_dot_self _ _ hxm
  refine Real.sqrt_pos.2 (lt_of_lt_of_le ?_ h3)
  rw [← abs_mul_abs_self]
  have : (0 : ℝ) < |toReal x| := lt_of_lt_of_le (by positivity) h2
  positivity

/-- Similarity computed from the vectors read back. -/
theorem loaded_similarity (a a' b b' : List F64) (ha : Savable a) (hb : Savable b) (hl : a.length = b.length)
    (hn : a.length ≤ 2 ^ 20) (haa : List.Forall₂ ReadsBack a a') (hbb : List.Forall₂ ReadsBack b b') :
    ∃ c : F64, cosine a' b' (norm a') (norm b') = .ok c ∧ IsFin c ∧
      |toReal c - trueCos (reals a) (reals b)| ≤
        2 / 10 ^ 6 * Real.sqrt a.length * (1 / len2 (reals a) + 1 / len2 (reals b)) + eps a.length := by
  have oa := loaded_ordinary a a' ha haa
  have ob := loaded_ordinary b b' hb hbb
  have la : a'.length = a.length := haa.length_eq.symm
  have lb : b'.length = b.length := hbb.length_eq.symm
  obtain ⟨c, h1, h2, h3⟩ := C98_accuracy_partial a' b' oa ob (by rw [la, lb, hl]) (by rw [la]; exact hn)
  refine ⟨c, h1, h2, ?_⟩
  have hc := trueCos_close (reals a) (reals a') (reals b) (reals b') (1 / 10 ^ 6) (by positivity)
    (readsBack_list a a' haa (fun x hx => (ha.1 x hx).1)) (readsBack_list b b' hbb (fun x hx => (hb.1 x hx).1))
    (savable_len a ha) (Real.sqrt_pos.2 (ordinary_sq a' oa (by rw [la]; exact hn)).2.2.1)
    (savable_len b hb) (Real.sqrt_pos.2 (ordinary_sq b' ob (by rw [lb, ← hl]; exact hn)).2.2.1)
    (by simp [reals, hl])
  have e : (reals a).length = a.length := by simp [reals]
  rw [e] at hc
  rw [la] at h3
  have e2 : toReal c - trueCos (reals a) (reals b) =
      (toReal c - trueCos (reals a') (reals b')) + (trueCos (reals a') (reals b') - trueCos (reals a) (reals b)) := by ring
  rw [e2]
  refine le_trans (abs_add_le _ _) ?_
  have e3 : 2 * (1 / 10 ^ 6) * Real.sqrt a.length * (1 / len2 (reals a) + 1 / len2 (reals b)) =
      2 / 10 ^ 6 * Real.sqrt a.length * (1 / len2 (reals a) + 1 / len2 (reals b)) := by ring
  rw [e3] at hc
  unfold eps
  linarith

/-! ### the saved file, loaded -/

/-- The norm of a loaded embedding is `Norm` of its vector. -/
theorem loaded_norm (other : Word → Option F64) (p : Pass) (embs : List (Embedding F64))
    (h : load other p = .ok embs) : ∀ e ∈ embs, e.norm = norm e.vector := by
  obtain ⟨-, lines, -, -, h3⟩ := (C52_load_iff other p embs).1 h
  intro e he
  obtain ⟨l, -, hl⟩ := forall₂_mem_right h3 he
  obtain ⟨toks, -, -, -, -, h5⟩ := hl
  rw [h5]
  rfl

/-- What a file saved from a matrix is loaded as, by position. -/
theorem loaded_rows (other : Word → Option F64) (calls : List (List Word)) (dic : Dictionary)
    (hd : addCalls calls = .ok dic) (hw : ∀ w ∈ calls.flatten, w ≠ [] ∧ ∀ c ∈ w, isSpace c = false)
    (mat : Matrix F64) (c : Nat) (hc : 1 ≤ c) (hm : mat.Shaped calls.flatten.dedup.length c) (text : List Char)
    (ht : saveText dic mat false 0 = .ok text)
    (hl : ∀ lines, RawLines text lines → ∀ l ∈ lines, utf8Len l < 65536) :
    ∃ embs, load other ⟨text, false⟩ = .ok embs ∧ embs.map (·.word) = firstOcc calls.flatten ∧
      (∀ e ∈ embs, e.dim = c) ∧
      ∀ (i : Nat) (e : Embedding F64), embs[i]? = some e → e.norm = norm e.vector ∧
        (mat.rowOf i).length = c ∧ List.Forall₂ ReadsBack (mat.rowOf i) e.vector := by
  obtain ⟨embs, h1, h2, h3, h4⟩ := C49_round_trip other calls dic hd hw mat c hc hm text ht hl
  refine ⟨embs, h1, h2, h3, ?_⟩
  intro i e he
  refine ⟨loaded_norm other _ embs h1 e (List.mem_of_getElem? he), ?_⟩
  have hlen := h4.length_eq
  simp only [List.length_map, List.length_range] at hlen
  have hi : i < embs.length := (List.getElem?_eq_some_iff.1 he).1
  refine ⟨hm.length_rowOf (by omega), ?_⟩
  have := List.Forall₂.get h4 (i := i) (by simp; omega) (by simp; omega)
  simp only [List.get_eq_getElem, List.getElem_map, List.getElem_range] at this
  rw [(List.getElem?_eq_some_iff.1 he).2] at this
  exact this

/-- **C100 (what holds, one pair).** A file saved from `mat` and loaded again: for every two words whose trained
vectors have finite components up to `2^499` in magnitude, one of them at least `2 · 10^-6`, the similarity
computed from the loaded embeddings is finite and differs from the exact cosine of the *trained* vectors by at most
`2 · 10^-6 · √dim · (1/‖a‖ + 1/‖b‖)` and the rounding error of `C98_accuracy_partial`. -/
theorem C100_similarity_partial (other : Word → Option F64) (calls : List (List Word)) (dic : Dictionary)
    (hd : addCalls calls = .ok dic) (hw : ∀ w ∈ calls.flatten, w ≠ [] ∧ ∀ c ∈ w, isSpace c = false)
    (mat : Matrix F64) (c : Nat) (hc : 1 ≤ c) (hc2 : c ≤ 2 ^ 20) (hm : mat.Shaped calls.flatten.dedup.length c)
    (text : List Char) (ht : saveText dic mat false 0 = .ok text)
    (hl : ∀ lines, RawLines text lines → ∀ l ∈ lines, utf8Len l < 65536) :
    ∃ embs, load other ⟨text, false⟩ = .ok embs ∧ embs.map (·.word) = firstOcc calls.flatten ∧
      ∀ (i j : Nat) (a b : Embedding F64), embs[i]? = some a → embs[j]? = some b →
        Savable (mat.rowOf i) → Savable (mat.rowOf j) →
        ∃ sim : F64, cosine a.vector b.vector a.norm b.norm = .ok sim ∧ IsFin sim ∧
          |toReal sim - trueCos (reals (mat.rowOf i)) (reals (mat.rowOf j))| ≤
            2 / 10 ^ 6 * Real.sqrt c * (1 / len2 (reals (mat.rowOf i)) + 1 / len2 (reals (mat.rowOf j))) + eps c := by
  obtain ⟨embs, h1, h2, -, h4⟩ := loaded_rows other calls dic hd hw mat c hc hm text ht hl
  refine ⟨embs, h1, h2, ?_⟩
  intro i j a b hi hj si sj
  obtain ⟨na, la, ra⟩ := h4 i a hi
  obtain ⟨nb, lb, rb⟩ := h4 j b hj
  obtain ⟨s, e1, e2, e3⟩ := loaded_similarity _ _ _ _ si sj (by rw [la, lb]) (by rw [la]; exact hc2) ra rb
  rw [la] at e3
  exact ⟨s, by rw [na, nb]; exact e1, e2, e3⟩

/-- how far similarities may move when all trained vectors of size `c` are at least `r` long -/
noncomputable def tol (c : Nat) (r : ℝ) : ℝ := 4 / 10 ^ 6 * Real.sqrt c / r + eps c

/-- **C100 (what holds, the search).** Train, save, load and search, when every trained vector has finite
components up to `2^499` in magnitude, one of them at least `2 · 10^-6`, and length at least `r`: a search for the
`k ≥ 1` nearest neighbours of a word lists every similarity within `tol` of the exact cosine of the *trained*
vectors, orders words whose cosines differ by more than `2 tol` correctly, and leaves out a word with a cosine above
`tol` only if `k` words are listed, none with a cosine more than `2 tol` below. -/
theorem C100_search_partial (other : Word → Option F64) (calls : List (List Word)) (dic : Dictionary)
    (hd : addCalls calls = .ok dic) (hw : ∀ w ∈ calls.flatten, w ≠ [] ∧ ∀ c ∈ w, isSpace c = false)
    (mat : Matrix F64) (c : Nat) (hc : 1 ≤ c) (hc2 : c ≤ 2 ^ 20) (hm : mat.Shaped calls.flatten.dedup.length c)
    (text : List Char) (ht : saveText dic mat false 0 = .ok text)
    (hl : ∀ lines, RawLines text lines → ∀ l ∈ lines, utf8Len l < 65536) (r : ℝ) (hr : 0 < r)
    (hsav : ∀ i < calls.flatten.dedup.length, Savable (mat.rowOf i) ∧ r ≤ len2 (reals (mat.rowOf i))) :
    ∃ embs s, load other ⟨text, false⟩ = .ok embs ∧ Searcher.new embs = .ok s ∧
      ∀ (i : Nat) (w : Word), (firstOcc calls.flatten)[i]? = some w → ∀ (k : Int), 1 ≤ k →
        ∃ res, s.searchInternal w k = .ok res ∧
          let cos := fun j => trueCos (reals (mat.rowOf i)) (reals (mat.rowOf j))
          (∀ (j : Nat) (u : Word), (firstOcc calls.flatten)[j]? = some u → ∀ m ∈ res, m.word = u →
            IsFin m.sim ∧ |toReal m.sim - cos j| ≤ tol c r) ∧
          (∀ (j j' : Nat) (u u' : Word), (firstOcc calls.flatten)[j]? = some u → (firstOcc calls.flatten)[j']? = some u' →
            ∀ (p p' : Nat) (m m' : Neighbor F64), res[p]? = some m → res[p']? = some m' → m.word = u → m'.word = u' →
            cos j' + 2 * tol c r < cos j → p < p') ∧
          (∀ (j : Nat) (u : Word), (firstOcc calls.flatten)[j]? = some u → u ≠ w → tol c r < cos j →
            (∃ m ∈ res, m.word = u) ∨
            (((res.filter (fun m => decide (m.word ≠ []))).length : Int) = k ∧
              ∀ (j' : Nat) (u' : Word), (firstOcc calls.flatten)[j']? = some u' → ∀ m ∈ res, m.word = u' →
                cos j ≤ cos j' + 2 * tol c r)) := by
  obtain ⟨embs, h1, h2, h3, h4⟩ := loaded_rows other calls dic hd hw mat c hc hm text ht hl
  have hlen : embs.length = calls.flatten.dedup.length := by
    rw [← length_firstOcc, ← h2, List.length_map]
  have hnew : Searcher.new embs = .ok ⟨embs⟩ := (C53_new embs).1.2 (fun e he e' he' => by rw [h3 e he, h3 e' he'])
  refine ⟨embs, ⟨embs⟩, h1, hnew, ?_⟩
  have hget : ∀ (i : Nat) (w : Word), (firstOcc calls.flatten)[i]? = some w → ∃ e, embs[i]? = some e ∧ e.word = w := by
    intro i w hi
    rw [← h2, List.getElem?_map] at hi
    cases he : embs[i]? with
    | none => rw [he] at hi; simp at hi
    | some e => rw [he] at hi; exact ⟨e, rfl, by simpa using hi⟩
  have hne : ∀ e ∈ embs, e.word ≠ [] := fun e he => (C52_loaded_valid other _ embs h1 e he).1
  have hord : ∀ (i : Nat) (e : Embedding F64), embs[i]? = some e → OrdinaryEmb c e := by
    intro i e he
    obtain ⟨a1, a2, a3⟩ := h4 i e he
    have hi : i < calls.flatten.dedup.length := by rw [← hlen]; exact (List.getElem?_eq_some_iff.1 he).1
    exact ⟨loaded_ordinary _ _ (hsav i hi).1 a3, by rw [← a3.length_eq, a2], a1⟩
  have hexact : ∀ (i j : Nat) (a b : Embedding F64), embs[i]? = some a → embs[j]? = some b →
      |exactCos a b - trueCos (reals (mat.rowOf i)) (reals (mat.rowOf j))| ≤ 4 / 10 ^ 6 * Real.sqrt c / r := by
    intro i j a b hi hj
    obtain ⟨-, la, ra⟩ := h4 i a hi
    obtain ⟨-, lb, rb⟩ := h4 j b hj
    obtain ⟨oa, oal, -⟩ := hord i a hi
    obtain ⟨ob, obl, -⟩ := hord j b hj
    have hi' : i < calls.flatten.dedup.length := by rw [← hlen]; exact (List.getElem?_eq_some_iff.1 hi).1
    have hj' : j < calls.flatten.dedup.length := by rw [← hlen]; exact (List.getElem?_eq_some_iff.1 hj).1
    obtain ⟨si, ri⟩ := hsav i hi'
    obtain ⟨sj, rj⟩ := hsav j hj'
    have := trueCos_close _ _ _ _ (1 / 10 ^ 6) (by positivity)
      (readsBack_list _ _ ra (fun x hx => (si.1 x hx).1)) (readsBack_list _ _ rb (fun x hx => (sj.1 x hx).1))
      (savable_len _ si) (Real.sqrt_pos.2 (ordinary_sq _ oa (by rw [oal]; exact hc2)).2.2.1)
      (savable_len _ sj) (Real.sqrt_pos.2 (ordinary_sq _ ob (by rw [obl]; exact hc2)).2.2.1)
      (by simp [reals, la, lb])
    have e : (reals (mat.rowOf i)).length = c := by simp [reals, la]
    rw [e] at this
    refine le_trans this ?_
    have p1 : 1 / len2 (reals (mat.rowOf i)) ≤ 1 / r := one_div_le_one_div_of_le hr ri
    have p2 : 1 / len2 (reals (mat.rowOf j)) ≤ 1 / r := one_div_le_one_div_of_le hr rj
    calc 2 * (1 / 10 ^ 6) * Real.sqrt c * (1 / len2 (reals (mat.rowOf i)) + 1 / len2 (reals (mat.rowOf j)))
        ≤ 2 * (1 / 10 ^ 6) * Real.sqrt c * (1 / r + 1 / r) :=
          mul_le_mul_of_nonneg_left (add_le_add p1 p2) (by positivity)
      _ = _ := by ring
  have hnd : (embs.map (·.word)).Nodup := by rw [h2]; exact nodup_firstOcc _
  intro i w hi k hk
  obtain ⟨q, hq, hqw⟩ := hget i w hi
  have hqm := List.mem_of_getElem? hq
  have hint : (⟨embs⟩ : Searcher F64).searchInternal w k = (⟨embs⟩ : Searcher F64).search q k [w] := by
    obtain ⟨hil, hie⟩ := List.getElem?_eq_some_iff.1 hq
    refine (C58_search_internal ⟨embs⟩ w k).2.2 (embs.take i) q (embs.drop (i + 1)) ?_ hqw ?_ (hqw ▸ hne q hqm)
    · rw [← hie]; simp
    · intro it hit hiw
      obtain ⟨j, hj⟩ := List.getElem?_of_mem hit
      rw [List.getElem?_take] at hj
      split at hj
      · next hji =>
        obtain ⟨hjl, hje⟩ := List.getElem?_eq_some_iff.1 hj
        have := (List.nodup_iff_injective_getElem.1 hnd) (a₁ := ⟨i, by simpa using hil⟩) (a₂ := ⟨j, by simpa using hjl⟩)
          (by simp [hie, hje, hqw, hiw])
        simp only [Fin.mk.injEq] at this
        omega
      · simp at hj
  obtain ⟨res, r1, r2, r3, r4⟩ := C98_ranking_partial ⟨embs⟩ q k hk [w] c hc2 (hord i q hq)
    (fun it hit => by obtain ⟨j, hj⟩ := List.getElem?_of_mem hit; exact hord j it hj) hne hnd
  refine ⟨res, by rw [hint]; exact r1, ?_, ?_, ?_⟩
  · intro j u hj m hm hmu
    obtain ⟨e, he, hew⟩ := hget j u hj
    obtain ⟨f, g⟩ := r2 e (List.mem_of_getElem? he) m hm (by rw [hmu, hew])
    refine ⟨f, ?_⟩
    have := hexact i j q e hq he
    have e2 : toReal m.sim - trueCos (reals (mat.rowOf i)) (reals (mat.rowOf j)) =
      (toReal m.sim - exactCos q e) + (exactCos q e - trueCos (reals (mat.rowOf i)) (reals (mat.rowOf j))) := by ring
    rw [e2]
    refine le_trans (abs_add_le _ _) ?_
    unfold tol; linarith
  · intro j j' u u' hj hj' p p' m m' hp hp' hmu hmu' hlt
    obtain ⟨e, he, hew⟩ := hget j u hj
    obtain ⟨e', he', hew'⟩ := hget j' u' hj'
    refine r3 e (List.mem_of_getElem? he) e' (List.mem_of_getElem? he') p p' m m' hp hp' (by rw [hmu, hew]) (by rw [hmu', hew']) ?_
    have a1 := (abs_le.1 (hexact i j q e hq he)).1
    have a2 := (abs_le.1 (hexact i j' q e' hq he')).2
    unfold tol at hlt
    linarith
  · intro j u hj huw hpos
    obtain ⟨e, he, hew⟩ := hget j u hj
    have a1 := (abs_le.1 (hexact i j q e hq he)).1
    have a3 := (abs_le.1 (hexact i j q e hq he)).2
    rcases r4 e (List.mem_of_getElem? he) (by simp [hew, huw]) (by unfold tol at hpos; linarith) with ⟨m, hm, hmw⟩ | ⟨hf, hb⟩
    · exact .inl ⟨m, hm, by rw [hmw, hew]⟩
    · refine .inr ⟨hf, ?_⟩
      intro j' u' hj' m hm hmu
      obtain ⟨e', he', hew'⟩ := hget j' u' hj'
      have := hb e' (List.mem_of_getElem? he') m hm (by rw [hmu, hew'])
      have a2 := (abs_le.1 (hexact i j' q e' hq he')).2
      have : 0 ≤ eps c := by unfold eps; positivity
      unfold tol
      linarith

/-! ### vectors that six decimals cannot represent -/

theorem zero_mul_self (s : Bool) (k : IsRep 0) : F64.mul (.fin s 0 k) (.fin s 0 k) = fzero := by
  cases s <;> (revert k; decide +kernel)

theorem norm_zeros (v : List F64) (h : ∀ x ∈ v, ∃ s k, x = F64.fin s 0 k) : norm v = fzero := by
  have h2 : F64.add (fzero : F64) fzero = fzero := by decide +kernel
  have h3 : F64.sqrt (fzero : F64) = fzero := by decide +kernel
  have key : v.foldl (fun n v => F64.add n (F64.mul v v)) (fzero : F64) = fzero := by
    induction v with
    | nil => rfl
    | cons x v ih =>
      obtain ⟨s, k, rfl⟩ := h x (by simp)
      rw [List.foldl_cons, zero_mul_self, h2]
      exact ih (fun x hx => h x (List.mem_cons_of_mem _ hx))
  rw [← h3]
  exact congrArg F64.sqrt key

/-- A finite number of magnitude at most `5 · 10^-7` is read back as a zero. -/
theorem readsBack_zero (x y : F64) (h : ReadsBack x y) (hx : IsFin x) (hs : |toReal x| ≤ 1 / 2 / 10 ^ 6) :
    ∃ s k, y = F64.fin s 0 k := by
  obtain ⟨s, n, k, rfl⟩ := hx.cases
  obtain ⟨m, k', N, rfl, ⟨h1, h2⟩, h3⟩ := h
  have hs' : |toRat (.fin s n k)| ≤ 1 / 2 / 10 ^ 6 := by
    unfold toReal at hs
    have : ((|toRat (.fin s n k)| : ℚ) : ℝ) ≤ ((1 / 2 / 10 ^ 6 : ℚ) : ℝ) := by push_cast; exact hs
    exact_mod_cast this
  have hN : N = 0 := by
    have hb := (abs_le.1 h1).2
    have e : (1 : ℚ) / 2 / 10 ^ 6 + 1 / 2 / 10 ^ 6 = 1 / 10 ^ 6 := by norm_num
    have hle : (N : ℚ) / 10 ^ 6 ≤ 1 / 10 ^ 6 := by linarith
    rw [div_le_div_iff_of_pos_right (by norm_num)] at hle
    have hN1 : N ≤ 1 := by exact_mod_cast hle
    by_contra hne
    have hN : N = 1 := by omega
    subst hN
    have hv : |toRat (.fin s n k)| = 1 / 2 / 10 ^ 6 := by
      push_cast at hb; linarith
    have := h2 (by rw [hv]; norm_num)
    omega
  subst hN
  have := h3 0 (by decide +kernel)
  simp only [Nat.cast_zero, zero_div, sub_zero, toRat_abs] at this
  refine ⟨s, ?_⟩
  have hm0 : m = 0 := by
    have hp : (0 : ℚ) < one1 := by exact_mod_cast one1_pos
    rw [abs_zero, abs_of_nonneg (by positivity), div_le_iff₀ hp, zero_mul] at this
    exact_mod_cast le_antisymm this (by positivity)
  subst hm0
  exact ⟨k', rfl⟩

/-- `Cosine` is 0 as soon as one of the norms is 0. -/
theorem cosine_zero_norm (v1 v2 : List F64) (n1 n2 : F64) (h : n1 = fzero ∨ n2 = fzero) :
    cosine v1 v2 n1 n2 = .ok fzero := by
  have hz : GoFloat.eq (fzero : F64) fzero = true := by decide +kernel
  unfold cosine
  rw [if_pos]
  rcases h with rfl | rfl <;> simp [hz]

/-- **C100 (what goes wrong, for every file).** A trained vector all of whose components have magnitude at most
`5 · 10^-7` is saved as zeros, whatever its direction: after loading, its word has the zero vector and norm 0, no
search lists it, and a search for its nearest neighbours lists nothing. -/
theorem C100_small_vectors_lost (other : Word → Option F64) (calls : List (List Word)) (dic : Dictionary)
    (hd : addCalls calls = .ok dic) (hw : ∀ w ∈ calls.flatten, w ≠ [] ∧ ∀ c ∈ w, isSpace c = false)
    (mat : Matrix F64) (c : Nat) (hc : 1 ≤ c) (hm : mat.Shaped calls.flatten.dedup.length c)
    (text : List Char) (ht : saveText dic mat false 0 = .ok text)
    (hl : ∀ lines, RawLines text lines → ∀ l ∈ lines, utf8Len l < 65536) :
    ∃ embs s, load other ⟨text, false⟩ = .ok embs ∧ Searcher.new embs = .ok s ∧
      ∀ (i : Nat) (w : Word), (firstOcc calls.flatten)[i]? = some w →
        (∀ x ∈ mat.rowOf i, IsFin x ∧ |toReal x| ≤ 1 / 2 / 10 ^ 6) →
        (∃ e, embs[i]? = some e ∧ e.word = w ∧ e.norm = fzero ∧ ∀ x ∈ e.vector, toReal x = 0) ∧
        (∀ (u : Word) (k : Int), 1 ≤ k → ∀ res, s.searchInternal u k = .ok res → ∀ m ∈ res, m.word ≠ w) ∧
        (∀ (k : Int), 1 ≤ k → ∃ res, s.searchInternal w k = .ok res ∧ ∀ m ∈ res, m.word = []) := by
  obtain ⟨embs, h1, h2, h3, h4⟩ := loaded_rows other calls dic hd hw mat c hc hm text ht hl
  have hnew : Searcher.new embs = .ok ⟨embs⟩ := (C53_new embs).1.2 (fun e he e' he' => by rw [h3 e he, h3 e' he'])
  refine ⟨embs, ⟨embs⟩, h1, hnew, ?_⟩
  have hval := C52_loaded_valid other _ embs h1
  have hne : ∀ e ∈ embs, e.word ≠ [] := fun e he => (hval e he).1
  have hdim : ∀ e ∈ embs, ∀ e' ∈ embs, e.dim = e'.dim := fun e he e' he' => by rw [h3 e he, h3 e' he']
  have hlen : ∀ e ∈ embs, ∀ e' ∈ embs, e.vector.length ≤ e'.vector.length := by
    intro e he e' he'
    have a := (hval e he).2.1
    have b := (hval e' he').2.1
    have := hdim e he e' he'
    omega
  have hnd : (embs.map (·.word)).Nodup := by rw [h2]; exact nodup_firstOcc _
  intro i w hi hsmall
  rw [← h2, List.getElem?_map] at hi
  obtain ⟨e, he, hew⟩ : ∃ e, embs[i]? = some e ∧ e.word = w := by
    cases he : embs[i]? with
    | none => rw [he] at hi; simp at hi
    | some e => rw [he] at hi; exact ⟨e, rfl, by simpa using hi⟩
  have hem := List.mem_of_getElem? he
  obtain ⟨n1, n2, n3⟩ := h4 i e he
  have hzero : ∀ x ∈ e.vector, ∃ s k, x = F64.fin s 0 k := by
    intro y hy
    obtain ⟨x, hx, hxy⟩ := forall₂_mem_right n3 hy
    exact readsBack_zero x y hxy (hsmall x hx).1 (hsmall x hx).2
  have hnorm : e.norm = fzero := by rw [n1]; exact norm_zeros _ hzero
  have hflt : ¬ GoFloat.lt (fzero : F64) fzero = true := by decide +kernel
  have hsame : ∀ e' ∈ embs, e'.word = w → e' = e := by
    intro e' he' hw'
    exact List.inj_on_of_nodup_map hnd he' hem (by rw [hw', hew])
  refine ⟨⟨e, he, hew, hnorm, ?_⟩, ?_, ?_⟩
  · intro x hx
    obtain ⟨s, k, rfl⟩ := hzero x hx
    unfold toReal toRat; simp
  · intro u k hk res hres m hm' hmw
    rcases internal_cases embs hval hdim u k hk with ⟨-, hn⟩ | ⟨pre, q, post, hsp, hqu, -, res', hr1, hr2⟩
    · rw [hn] at hres; cases hres
    · rw [hres] at hr1
      simp only [Res.ok.injEq] at hr1
      subst hr1
      have hq : q ∈ embs := by rw [hsp]; simp
      obtain ⟨j, hj⟩ := List.getElem?_of_mem hm'
      have hwne : w ≠ [] := hew ▸ hne e hem
      obtain ⟨-, it, hit, e1, -, e2, e3⟩ := C55_ranks ⟨embs⟩ q k hk [u] hne (fun it hit => hlen q hq it hit) res hr2 j m hj
        (by rw [hmw]; exact hwne)
      have : it = e := hsame it hit (by rw [e1, hmw])
      subst this
      rw [cosine_zero_norm _ _ _ _ (.inr hnorm)] at e2
      simp only [Res.ok.injEq] at e2
      rw [← e2] at e3
      exact hflt e3
  · intro k hk
    rcases internal_cases embs hval hdim w k hk with ⟨hn, -⟩ | ⟨pre, q, post, hsp, hqu, -, res, hr1, hr2⟩
    · exact absurd hew (hn e hem)
    · refine ⟨res, hr1, ?_⟩
      have hq : q ∈ embs := by rw [hsp]; simp
      have : q = e := hsame q hq hqu
      subst this
      intro m hm'
      by_contra hmw
      obtain ⟨j, hj⟩ := List.getElem?_of_mem hm'
      obtain ⟨-, it, hit, e1, -, e2, e3⟩ := C55_ranks ⟨embs⟩ q k hk [w] hne (fun it hit => hlen q hq it hit) res hr2 j m hj hmw
      rw [cosine_zero_norm _ _ _ _ (.inl hnorm)] at e2
      simp only [Res.ok.injEq] at e2
      rw [← e2] at e3
      exact hflt e3

/-! ### cases -/

/-- two words and the trained vectors (1) and (10^-7) -/
def smCalls : List (List Word) := [[['x'], ['y']]]
/-- The dictionary of `smCalls`. -/
def smDic : Dictionary := match addCalls smCalls with | .ok d => d | _ => Dictionary.new
/-- See `smCalls`. -/
def smMat : Matrix F64 := ⟨[F64.round 1, F64.round (1 / 10 ^ 7)], 2, 1⟩
/-- The file saved from `smMat`. -/
def smText : List Char := "x 1.000000 \ny 0.000000 \n".toList

theorem sm_text : saveText smDic smMat false 0 = .ok smText := by decide +kernel

/-- **C100 is false of the code.** The trained vectors (1) of `x` and (10^-7) of `y` point the same way: searching
the trained vectors, `y` is the neighbour of `x` with similarity 1. Saved and loaded, `x` has no neighbour. -/
theorem C100_false :
    (∃ n, (Searcher.mk [mkEmb "x" [1], mkEmb "y" [1 / 10 ^ 7]]).searchInternal ['x'] 1 = .ok [n] ∧ n.word = ['y'] ∧
      n.sim = GoFloat.ofRat 1) ∧
    (mkEmb "x" [1]).vector = smMat.rowOf 0 ∧ (mkEmb "y" [1 / 10 ^ 7]).vector = smMat.rowOf 1 ∧
    saveText smDic smMat false 0 = .ok smText ∧
    ∃ embs s, load (fun _ => none) ⟨smText, false⟩ = .ok embs ∧ Searcher.new embs = .ok s ∧
      s.searchInternal ['x'] 1 = .ok [] := by
  refine ⟨?_, by decide +kernel, by decide +kernel, sm_text, ?_⟩
  · have h : ((Searcher.mk [mkEmb "x" [1], mkEmb "y" [1 / 10 ^ 7]]).searchInternal ['x'] 1 >>= fun r =>
        .ok (r.map (fun n => (n.word, decide (n.sim = GoFloat.ofRat 1))))) = .ok [(['y'], true)] := by decide +kernel
    rw [Res.bind_eq_ok] at h
    obtain ⟨r, h1, h2⟩ := h
    simp only [Res.ok.injEq] at h2
    rw [List.map_eq_singleton_iff] at h2
    obtain ⟨n, rfl, h3⟩ := h2
    simp only [Prod.mk.injEq, decide_eq_true_eq] at h3
    exact ⟨n, h1, h3.1, h3.2⟩
  · have h : (load (fun _ => none) ⟨smText, false⟩ >>= fun e => Searcher.new e >>= fun s => s.searchInternal ['x'] 1) =
        .ok [] := by decide +kernel
    rw [Res.bind_eq_ok] at h
    obtain ⟨e, h1, h⟩ := h
    rw [Res.bind_eq_ok] at h
    obtain ⟨s, h2, h⟩ := h
    exact ⟨e, s, h1, h2, h⟩

/-- `C100_small_vectors_lost` for the word `y` of `smMat`. -/
example := C100_small_vectors_lost (fun _ => none) smCalls smDic rfl (by decide) smMat 1 (by decide) ⟨rfl, rfl, rfl⟩ smText
  sm_text (fun lines h => by
    have e : lines = ["x 1.000000 ".toList, "y 0.000000 ".toList] := rawLines_unique h
      (.cons "x 1.000000 ".toList _ _ (by decide) (.cons "y 0.000000 ".toList [] [] (by decide) .nil))
    subst e; decide)

example : ∀ x ∈ smMat.rowOf 1, IsFin x ∧ |toReal x| ≤ 1 / 2 / 10 ^ 6 := by
  intro x hx
  have e : smMat.rowOf 1 = [F64.round (1 / 10 ^ 7)] := rfl
  rw [e, List.mem_singleton] at hx
  subst hx
  have h : |toRat (F64.round (1 / 10 ^ 7))| ≤ 1 / 2 / 10 ^ 6 := by decide +kernel
  have hf : (match F64.round (1 / 10 ^ 7) with | .fin _ _ _ => true | _ => false) = true := by decide +kernel
  refine ⟨by
    revert hf; generalize F64.round (1 / 10 ^ 7) = x; intro hf; cases x with
    | fin s n k => trivial
    | nan => simp at hf
    | inf => simp at hf, ?_⟩
  unfold toReal
  have : ((|toRat (F64.round (1 / 10 ^ 7))| : ℚ) : ℝ) ≤ ((1 / 2 / 10 ^ 6 : ℚ) : ℝ) := by exact_mod_cast h
  push_cast at this
  exact this

/-- two words with the trained vectors (1, 1) and (4, 3) -/
def okMat : Matrix F64 := ⟨[F64.round 1, F64.round 1, F64.round 4, F64.round 3], 2, 2⟩
/-- The file saved from `okMat`. -/
def okText : List Char := "x 1.000000 1.000000 \ny 4.000000 3.000000 \n".toList

theorem ok_text : saveText smDic okMat false 0 = .ok okText := by decide +kernel

theorem pow53_le' : (2 : ℝ) ^ 53 ≤ 2 ^ 499 := pow_le_pow_right₀ (by norm_num) (by norm_num)

theorem ints_savable (l : List Int) (h : ∀ k ∈ l, k.natAbs ≤ 2 ^ 53) (h0 : ∃ k ∈ l, k ≠ 0) :
    Savable (l.map (fun k : Int => F64.round (k : ℚ))) ∧ 1 ≤ len2 (reals (l.map (fun k : Int => F64.round (k : ℚ)))) := by
  obtain ⟨k, hk, hk0⟩ := h0
  have hk1 : (1 : ℝ) ≤ |toReal (F64.round (k : ℚ))| := by
    rw [(round_int k (h k hk)).2]
    have : (1 : Int) ≤ |k| := Int.one_le_abs hk0
    exact_mod_cast this
  refine ⟨⟨?_, F64.round (k : ℚ), List.mem_map_of_mem hk, ?_⟩, ?_⟩
  · intro x hx
    obtain ⟨j, hj, rfl⟩ := List.mem_map.1 hx
    obtain ⟨a, b⟩ := round_int j (h j hj)
    refine ⟨a, ?_⟩
    rw [b]
    refine le_trans ?_ pow53_le'
    have : |j| ≤ 2 ^ 53 := by
      rw [Int.abs_eq_natAbs]; exact_mod_cast h j hj
    exact_mod_cast this
  · exact le_trans (by norm_num) hk1
  · apply Real.le_sqrt_of_sq_le
    refine le_trans ?_ (le_dot_self _ (toReal (F64.round (k : ℚ))) (List.mem_map_of_mem (List.mem_map_of_mem hk)))
    rw [← abs_mul_abs_self]
    nlinarith

theorem ok_savable : ∀ i < smCalls.flatten.dedup.length, Savable (okMat.rowOf i) ∧ 1 ≤ len2 (reals (okMat.rowOf i)) := by
  intro i hi
  have hi : i < 2 := hi
  rcases (by omega : i = 0 ∨ i = 1) with rfl | rfl
  · have := ints_savable [1, 1] (by decide) ⟨1, by simp, by decide⟩
    have e : okMat.rowOf 0 = [1, 1].map (fun k : Int => F64.round (k : ℚ)) := by
      simp [okMat, Matrix.rowOf]
    rw [e]; exact this
  · have := ints_savable [4, 3] (by decide) ⟨4, by simp, by decide⟩
    have e : okMat.rowOf 1 = [4, 3].map (fun k : Int => F64.round (k : ℚ)) := by
      simp [okMat, Matrix.rowOf]
    rw [e]; exact this

theorem ok_lines : ∀ lines, RawLines okText lines → ∀ l ∈ lines, utf8Len l < 65536 := by
  intro lines h
  have e : lines = ["x 1.000000 1.000000 ".toList, "y 4.000000 3.000000 ".toList] := rawLines_unique h
      (.cons "x 1.000000 1.000000 ".toList _ _ (by decide) (.cons "y 4.000000 3.000000 ".toList [] [] (by decide) .nil))
  subst e; decide

/-- `C100_similarity_partial` and `C100_search_partial` for `okMat`. -/
example := C100_similarity_partial (fun _ => none) smCalls smDic rfl (by decide) okMat 2 (by decide) (by decide) ⟨rfl, rfl, rfl⟩
  okText ok_text ok_lines
example := C100_search_partial (fun _ => none) smCalls smDic rfl (by decide) okMat 2 (by decide) (by decide) ⟨rfl, rfl, rfl⟩
  okText ok_text ok_lines 1 one_pos ok_savable

end Wego.Props
