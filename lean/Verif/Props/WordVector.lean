import Verif.Proofs.WordVector
import Verif.Props.SaveLoad

/-! # C43, C44: `WordVector` -/

namespace Wego.Props
open Wego Wego.Matrix

section shape
variable {F : Type} [GoFloat F]

/-- The parameters of a word2vec model: one row of `Dim` values per word; with negative sampling also a
context matrix of the same shape. -/
def W2VShaped (len dim : Nat) (param : Matrix F) (opt : W2VOptimizer F) : Prop :=
  Shaped param len dim ∧ ∀ o, opt = .ns o → Shaped o.ctx len dim

/-- **C43 (word2vec).** -/
theorem C43_word2vec_shape (len dim : Nat) (param : Matrix F) (opt : W2VOptimizer F) (h : W2VShaped len dim param opt) (typ : Word) :
    ∃ m, w2vWordVector len dim param opt typ = .ok m ∧ m.row = len ∧ m.col = dim ∧ m.array.length = len * dim := by
  obtain ⟨hp, ho⟩ := h
  have hcopy := newRes_copy hp (le_refl len) (le_refl dim)
  cases opt with
  | hs o => obtain ⟨m, e, q, _⟩ := hcopy; exact ⟨m, e, q.row, q.col, q.len⟩
  | ns o =>
    unfold w2vWordVector
    dsimp only
    split
    · obtain ⟨m, e, q, _⟩ := newRes_sum hp (ho o rfl) (le_refl len) (le_refl dim) (off := 0) (by omega) (le_refl dim)
      simp only [Int.natCast_zero, Int.add_zero] at e
      exact ⟨m, e, q.row, q.col, q.len⟩
    · obtain ⟨m, e, q, _⟩ := hcopy; exact ⟨m, e, q.row, q.col, q.len⟩

/-- `C43_word2vec_shape` on two words of dimension 1, with negative sampling. -/
example (o : NegSampling F64) (h : Shaped o.ctx 2 1) (typ : Word) :=
  C43_word2vec_shape 2 1 (⟨[fzero, fzero], 2, 1⟩ : Matrix F64) (.ns o) ⟨⟨rfl, rfl, rfl⟩, by intro _ h'; cases h'; exact h⟩ typ

/-- **C43 (GloVe).** The parameters have `2*len` rows of `Dim+1` values. -/
theorem C43_glove_shape (len dim : Nat) (param : Matrix F) (h : Shaped param (len * 2) (dim + 1)) (typ : Word) :
    ∃ m, gloveWordVector len dim param typ = .ok m ∧ m.row = len ∧ m.col = dim ∧ m.array.length = len * dim := by
  unfold gloveWordVector
  split
  · obtain ⟨m, e, q, _⟩ := newRes_copy h (r := len) (c := dim) (by omega) (by omega)
    exact ⟨m, e, q.row, q.col, q.len⟩
  · obtain ⟨m, e, q, _⟩ := newRes_sum h h (r := len) (c := dim) (off := len) (by omega) (by omega) (by omega) (by omega)
    exact ⟨m, e, q.row, q.col, q.len⟩

/-- `C43_glove_shape` on two words of dimension 1. -/
example := C43_glove_shape 2 1 (⟨List.replicate 8 fzero, 4, 2⟩ : Matrix F64) ⟨rfl, rfl, rfl⟩ "agg".toList

/-- **C43 (LexVec).** The parameters have `2*len` rows of `Dim` values. -/
theorem C43_lexvec_shape (len dim : Nat) (param : Matrix F) (h : Shaped param (len * 2) dim) (typ : Word) :
    ∃ m, lexWordVector len dim param typ = .ok m ∧ m.row = len ∧ m.col = dim ∧ m.array.length = len * dim := by
  unfold lexWordVector
  split
  · obtain ⟨m, e, q, _⟩ := newRes_copy h (r := len) (c := dim) (by omega) (by omega)
    exact ⟨m, e, q.row, q.col, q.len⟩
  · obtain ⟨m, e, q, _⟩ := newRes_sum h h (r := len) (c := dim) (off := len) (by omega) (by omega) (by omega) (by omega)
    exact ⟨m, e, q.row, q.col, q.len⟩

/-- `C43_lexvec_shape` on two words of dimension 1. -/
example := C43_lexvec_shape 2 1 (⟨[fzero, .nan, fzero, fzero], 4, 1⟩ : Matrix F64) ⟨rfl, rfl, rfl⟩ "agg".toList

end shape

/-- The models. -/
inductive Trained where
  | w2v (param : Matrix F64) (opt : W2VOptimizer F64)
  | glove (param : Matrix F64)
  | lexvec (param : Matrix F64)

/-- `WordVector(typ)` of any model -/
def Trained.wordVector (len : Nat) (dim : Int) (typ : Word) : Trained → Res (Matrix F64)
  | .w2v param opt => w2vWordVector len dim param opt typ
  | .glove param => gloveWordVector len dim param typ
  | .lexvec param => lexWordVector len dim param typ

/-- The shapes of the parameters of any model. -/
def Trained.OK (len dim : Nat) : Trained → Prop
  | .w2v param opt => W2VShaped len dim param opt
  | .glove param => Shaped param (len * 2) (dim + 1)
  | .lexvec param => Shaped param (len * 2) dim

/-- **C43.** For every model whose dictionary is what any calls of `Add` gave, and every vector type string:
`WordVector` returns one row of `Dim` values per dictionary word, and saving it does not fail: a writer that takes everything
gets the file of those rows (`LogBatch` not 0, or not verbose). -/
theorem C43_save_word_vectors {σ : Type} (f : Sink σ) (hf : f.Complete) (direct : Bool) (calls : List (List Word)) (dic : Dictionary)
    (hd : addCalls calls = .ok dic) (dim : Nat) (t : Trained) (h : t.OK dic.len dim) (typ : Word) (v : Bool) (lb : Int)
    (hv : v = false ∨ lb ≠ 0) (s : σ) :
    ∃ m, t.wordVector dic.len dim typ = .ok m ∧ m.row = dic.len ∧ m.col = dim ∧
      ∃ s' text, Spec.IsSavedFile (Spec.firstOcc calls.flatten) ((List.range dic.len).map m.rowOf) text ∧
        save f direct dic m v lb s = .ok (s', utf8 text) := by
  have key : ∃ m, t.wordVector dic.len dim typ = .ok m ∧ m.row = dic.len ∧ m.col = dim ∧ m.array.length = dic.len * dim := by
    cases t with
    | w2v p o => exact C43_word2vec_shape _ _ p o h typ
    | glove p => exact C43_glove_shape _ _ p h typ
    | lexvec p => exact C43_lexvec_shape _ _ p h typ
  obtain ⟨m, e, a, b, c⟩ := key
  refine ⟨m, e, a, b, ?_⟩
  obtain ⟨d, hd', hr⟩ := addCalls_rep calls
  rw [hd] at hd'; obtain rfl := Res.ok.inj hd'
  exact (C48_save_format f hf direct calls dic hd m dic.len dim ⟨a, b, c⟩ v lb hv s).2 hr.len_eq

/-- `C43_save_word_vectors` on the two words of `Add("a", "b", "a")` and a GloVe table of dimension 1. -/
example (d : Dictionary) (hd : addCalls [[['a'], ['b'], ['a']]] = .ok d) :=
  C43_save_word_vectors (⟨fun (s : List UInt8) b => (s ++ b, b.length, false)⟩ : Sink (List UInt8)) (fun _ _ => rfl) false
    [[['a'], ['b'], ['a']]] d hd 1 (Trained.glove ⟨List.replicate 8 fzero, 4, 2⟩)
    (by cases hd; exact ⟨rfl, rfl, rfl⟩) "agg".toList false 0 (.inl rfl) []

/-- Concrete parameters for each model, two words in one dimension. -/
example (o : HierSoftmax F64) : (Trained.w2v ⟨[fzero, fzero], 2, 1⟩ (.hs o)).OK 2 1 ∧ (Trained.lexvec ⟨[fzero, fzero, fzero, fzero], 4, 1⟩).OK 2 1 ∧
    (Trained.glove ⟨List.replicate 8 fzero, 4, 2⟩).OK 2 1 :=
  ⟨⟨⟨rfl, rfl, rfl⟩, by intro _ h; cases h⟩, ⟨rfl, rfl, rfl⟩, ⟨rfl, rfl, rfl⟩⟩

/-! ## C44 -/

section values
variable {F : Type} [GoFloat F]

/-- Row `i` of the result is, element by element, the sum of row `i` of `p` and row `i + off` of `q`. -/
def IsSum (len dim : Nat) (p q : Matrix F) (off : Nat) (m : Matrix F) : Prop :=
  m.row = len ∧ m.col = dim ∧ ∀ i < len, ∀ j < dim, ∃ a b, p.getAt i j = .ok a ∧ q.getAt ((i + off : Nat) : Int) j = .ok b ∧ m.getAt i j = .ok (a +. b)

/-- The result is, element by element, row `i` of `p`. -/
def IsWord (len dim : Nat) (p : Matrix F) (m : Matrix F) : Prop :=
  m.row = len ∧ m.col = dim ∧ ∀ i < len, ∀ j < dim, ∃ a, p.getAt i j = .ok a ∧ m.getAt i j = .ok a

theorem copy_isWord {p : Matrix F} {rp cp : Nat} (hp : Shaped p rp cp) {r c : Nat} (hr : r ≤ rp) (hc : c ≤ cp) :
    ∃ m, Matrix.newRes r c (fun row vec => fillRow c (fun i => p.getAt row i) vec) = .ok m ∧ IsWord r c p m := by
  obtain ⟨m, e, q, h⟩ := newRes_copy hp hr hc
  refine ⟨m, e, q.row, q.col, fun i hi j hj => ⟨p.val i j, hp.getAt_val (by omega) (by omega), ?_⟩⟩
  rw [q.getAt_val hi hj, h i hi j hj]

theorem sum_isSum {p q : Matrix F} {rp cp rq cq : Nat} (hp : Shaped p rp cp) (hq : Shaped q rq cq) {r c off : Nat} (hr : r ≤ rp) (hc : c ≤ cp)
    (hr' : r + off ≤ rq) (hc' : c ≤ cq) :
    ∃ m, Matrix.newRes r c (fun row vec => fillRow c (fun i =>
        p.getAt row i >>= fun a => q.getAt (row + off : Int) i >>= fun b => .ok (a +. b)) vec) = .ok m ∧ IsSum r c p q off m := by
  obtain ⟨m, e, s, h⟩ := newRes_sum hp hq hr hc hr' hc'
  refine ⟨m, e, s.row, s.col, fun i hi j hj => ⟨p.val i j, q.val (i + off) j, hp.getAt_val (by omega) (by omega), hq.getAt_val (by omega) (by omega), ?_⟩⟩
  rw [s.getAt_val hi hj, h i hi j hj]

/-- **C44 (word2vec, negative sampling).** `agg` gives word plus context vectors, `single` (and any other string) the
word vectors. With hierarchical softmax there are no context vectors and every type gives the word vectors. -/
theorem C44_word2vec_partial (len dim : Nat) (param : Matrix F) (opt : W2VOptimizer F) (h : W2VShaped len dim param opt) :
    (∀ o, opt = .ns o → ∃ m, w2vWordVector len dim param opt "agg".toList = .ok m ∧ IsSum len dim param o.ctx 0 m) ∧
    (∀ typ, typ ≠ "agg".toList → ∃ m, w2vWordVector len dim param opt typ = .ok m ∧ IsWord len dim param m) ∧
    (∀ o, opt = .hs o → ∀ typ, ∃ m, w2vWordVector len dim param opt typ = .ok m ∧ IsWord len dim param m) := by
  obtain ⟨hp, ho⟩ := h
  refine ⟨?_, ?_, ?_⟩
  · rintro o rfl
    unfold w2vWordVector
    dsimp only
    rw [if_pos (show "agg".toList = vecAgg from rfl)]
    obtain ⟨m, e, s⟩ := sum_isSum hp (ho o rfl) (le_refl len) (le_refl dim) (off := 0) (by omega) (le_refl dim)
    simp only [Int.natCast_zero, Int.add_zero] at e
    exact ⟨m, e, s⟩
  · intro typ ht
    cases opt with
    | ns o =>
      unfold w2vWordVector
      dsimp only
      rw [if_neg (show ¬ typ = vecAgg from ht)]
      exact copy_isWord hp (le_refl _) (le_refl _)
    | hs o => exact copy_isWord hp (le_refl _) (le_refl _)
  · rintro o rfl typ
    exact copy_isWord hp (le_refl _) (le_refl _)

/-- `C44_word2vec_partial` on two words of dimension 1. -/
example (o : NegSampling ℝ) (h : Shaped o.ctx 2 1) :=
  C44_word2vec_partial 2 1 (⟨[1, 2], 2, 1⟩ : Matrix ℝ) (.ns o) ⟨⟨rfl, rfl, rfl⟩, by intro _ h'; cases h'; exact h⟩

/-- **C44 (exact behaviour of GloVe and LexVec).** The two types are swapped: `agg` gives the word vectors alone,
`single` (and any other string) word plus context vectors. -/
theorem C44_glove_lexvec_swapped (len dim : Nat) (g l : Matrix F) (hg : Shaped g (len * 2) (dim + 1)) (hl : Shaped l (len * 2) dim) :
    (∃ m, gloveWordVector len dim g "agg".toList = .ok m ∧ IsWord len dim g m) ∧
    (∀ typ, typ ≠ "agg".toList → ∃ m, gloveWordVector len dim g typ = .ok m ∧ IsSum len dim g g len m) ∧
    (∃ m, lexWordVector len dim l "agg".toList = .ok m ∧ IsWord len dim l m) ∧
    (∀ typ, typ ≠ "agg".toList → ∃ m, lexWordVector len dim l typ = .ok m ∧ IsSum len dim l l len m) := by
  refine ⟨?_, ?_, ?_, ?_⟩
  · unfold gloveWordVector; rw [if_pos (show "agg".toList = vecAgg from rfl)]; exact copy_isWord hg (by omega) (by omega)
  · intro typ ht
    unfold gloveWordVector; rw [if_neg (show ¬ typ = vecAgg from ht)]
    exact sum_isSum hg hg (by omega) (by omega) (by omega) (by omega)
  · unfold lexWordVector; rw [if_pos (show "agg".toList = vecAgg from rfl)]; exact copy_isWord hl (by omega) (by omega)
  · intro typ ht
    unfold lexWordVector; rw [if_neg (show ¬ typ = vecAgg from ht)]
    exact sum_isSum hl hl (by omega) (by omega) (by omega) (by omega)

/-- `C44_glove_lexvec_swapped` on one word of dimension 1. -/
example := C44_glove_lexvec_swapped 1 1 (⟨[1, 0, 2, 0], 2, 2⟩ : Matrix ℝ) ⟨[1, 2], 2, 1⟩ ⟨rfl, rfl, rfl⟩ ⟨rfl, rfl, rfl⟩

end values

/-- **C44 is false.** For every GloVe and LexVec state (real numbers) with some non-zero context value, `agg` is not the sum
and `single` is not the word vector. -/
theorem C44_refuted (len dim : Nat) (l : Matrix ℝ) (hl : Shaped l (len * 2) dim) (g : Matrix ℝ) (hg : Shaped g (len * 2) (dim + 1))
    (i j : Nat) (hi : i < len) (hj : j < dim) (hnz : l.val (i + len) j ≠ 0) (hnz' : g.val (i + len) j ≠ 0) :
    (∀ m, gloveWordVector len dim g "agg".toList = .ok m → ¬ IsSum len dim g g len m) ∧
    (∀ m, gloveWordVector len dim g "single".toList = .ok m → ¬ IsWord len dim g m) ∧
    (∀ m, lexWordVector len dim l "agg".toList = .ok m → ¬ IsSum len dim l l len m) ∧
    (∀ m, lexWordVector len dim l "single".toList = .ok m → ¬ IsWord len dim l m) := by
  have no : ∀ {c : Nat} (p : Matrix ℝ) (hp : Shaped p (len * 2) c) (hc : dim ≤ c) (hz : p.val (i + len) j ≠ 0) (m : Matrix ℝ),
      IsWord len dim p m → IsSum len dim p p len m → False := by
    intro c p hp hc hz m hw hs
    obtain ⟨_, _, hw⟩ := hw
    obtain ⟨_, _, hs⟩ := hs
    obtain ⟨a, ha, hma⟩ := hw i hi j hj
    obtain ⟨a', b, ha', hb, hmb⟩ := hs i hi j hj
    rw [ha] at ha'
    obtain rfl := Res.ok.inj ha'
    rw [hp.getAt_val (by omega) (by omega)] at hb
    obtain rfl := Res.ok.inj hb
    rw [hma] at hmb
    have := Res.ok.inj hmb
    have h2 : a = a + p.val (i + len) j := this
    exact hz (by linarith)
  obtain ⟨⟨m1, e1, w1⟩, s2, ⟨m3, e3, w3⟩, s4⟩ := C44_glove_lexvec_swapped len dim g l hg hl
  obtain ⟨m2, e2, w2⟩ := s2 "single".toList (by decide)
  obtain ⟨m4, e4, w4⟩ := s4 "single".toList (by decide)
  refine ⟨?_, ?_, ?_, ?_⟩
  · intro m hm hs; rw [e1] at hm; obtain rfl := Res.ok.inj hm; exact no g hg (by omega) hnz' _ w1 hs
  · intro m hm hs; rw [e2] at hm; obtain rfl := Res.ok.inj hm; exact no g hg (by omega) hnz' _ hs w2
  · intro m hm hs; rw [e3] at hm; obtain rfl := Res.ok.inj hm; exact no l hl (by omega) hnz _ w3 hs
  · intro m hm hs; rw [e4] at hm; obtain rfl := Res.ok.inj hm; exact no l hl (by omega) hnz _ hs w4

/-- `C44_refuted` on one word of dimension 1. -/
example := C44_refuted 1 1 ⟨[1, 2], 2, 1⟩ ⟨rfl, rfl, rfl⟩ ⟨[1, 0, 2, 0], 2, 2⟩ ⟨rfl, rfl, rfl⟩ 0 0 (by decide) (by decide)
  (by simp [Matrix.val, rowOf]) (by simp [Matrix.val, rowOf])

/-- Such states: one word, one dimension. -/
example : Shaped (⟨[1, 2], 2, 1⟩ : Matrix ℝ) (1 * 2) 1 ∧ (⟨[1, 2], 2, 1⟩ : Matrix ℝ).val (0 + 1) 0 ≠ 0 ∧
    Shaped (⟨[1, 0, 2, 0], 2, 2⟩ : Matrix ℝ) (1 * 2) (1 + 1) ∧ (⟨[1, 0, 2, 0], 2, 2⟩ : Matrix ℝ).val (0 + 1) 0 ≠ 0 := by
  refine ⟨⟨rfl, rfl, rfl⟩, ?_, ⟨rfl, rfl, rfl⟩, ?_⟩ <;> simp [Matrix.val, rowOf]

end Wego.Props
