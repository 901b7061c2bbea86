import Verif.Proofs.TrainSys
import Verif.Props.Huffman
import Mathlib.Tactic.Positivity

/-! # C78: the parameters when training starts -/

namespace Wego.Props
open Wego Wego.Spec Wego.Matrix Wego.Dictionary
variable {F : Type} {σ : Type}

/-- the generator after `k` calls -/
def genAfter (r : σ → F × σ) (s : σ) : Nat → σ
  | 0 => s
  | k + 1 => (r (genAfter r s k)).2

/-- what call number `k` (from 0) of `rand.Float64()` returns -/
def drawn (r : σ → F × σ) (s : σ) (k : Nat) : F := (r (genAfter r s k)).1

theorem genAfter_step (r : σ → F × σ) (s : σ) (k : Nat) : genAfter r (r s).2 k = genAfter r s (k + 1) := by
  induction k with
  | zero => rfl
  | succ k ih => rw [genAfter, ih]; rfl

theorem genAfter_add (r : σ → F × σ) (s : σ) (a b : Nat) : genAfter r (genAfter r s a) b = genAfter r s (a + b) := by
  induction b with
  | zero => rfl
  | succ b ih => rw [genAfter, ih]; rfl

theorem drawn_add (r : σ → F × σ) (s : σ) (a b : Nat) : drawn r (genAfter r s a) b = drawn r s (a + b) := by
  unfold drawn; rw [genAfter_add]

theorem randFill_eq (r : σ → F × σ) (f : F → F) (n : Nat) (s : σ) :
    randFill r f n s = ((List.range n).map (fun j => f (drawn r s j)), genAfter r s n) := by
  induction n generalizing s with
  | zero => rfl
  | succ n ih =>
    simp only [randFill, ih, genAfter_step]
    rw [List.range_succ_eq_map, List.map_cons, List.map_map]
    congr 2
    apply List.map_congr_left
    intro j _
    simp only [Function.comp, drawn, genAfter_step]

theorem initState_randFill [GoFloat F] (r : σ → F × σ) (f : F → F) (c : Nat) (s : σ) (i : Nat) :
    initState c (fun _ _ s => randFill r f c s) s i = genAfter r s (i * c) := by
  induction i with
  | zero => simp [initState, genAfter]
  | succ i ih =>
    rw [initState, ih, randFill_eq, genAfter_add]
    congr 1; ring

/-- `matrix.New` filled with random values: consecutive draws, row by row. -/
theorem randMatrix_array [GoFloat F] (r : σ → F × σ) (f : F → F) (rows col : Nat) (s : σ) :
    ∃ m, randMatrix r f rows col s = .ok (m, genAfter r s (rows * col)) ∧ Shaped m rows col ∧
      m.array = (List.range (rows * col)).map (fun k => f (drawn r s k)) := by
  obtain ⟨m, h1, h2, h3⟩ := new_rows rows col (fun _ _ s => randFill r f col s) s (fun _ _ s _ => length_randFill r f col s)
  rw [initState_randFill] at h1
  refine ⟨m, by unfold randMatrix; rw [Int.toNat_natCast]; exact h1, h2, ?_⟩
  apply List.ext_getElem?
  intro k
  by_cases hk : k < rows * col
  · have hc : 0 < col := by
      rcases Nat.eq_zero_or_pos col with h | h
      · subst h; simp at hk
      · exact h
    have hi : k / col < rows := Nat.div_lt_of_lt_mul (by rwa [Nat.mul_comm])
    have hj : k % col < col := Nat.mod_lt _ hc
    have hk' : k / col * col + k % col = k := by rw [Nat.mul_comm]; exact Nat.div_add_mod k col
    have e := h2.getElem?_rowOf (k / col) (k % col) hj
    rw [hk', h3 _ hi, initState_randFill, randFill_eq] at e
    rw [← e]
    simp only [List.getElem?_map, List.getElem?_range hj, List.getElem?_range hk, Option.map_some, drawn_add, hk']
  · rw [List.getElem?_eq_none (by rw [h2.len]; omega), List.getElem?_eq_none (by simp; omega)]

/-- the value a parameter of word2vec or LexVec starts with, from the random number `x` -/
def centred [GoFloat F] (dim : Nat) (x : F) : F := (x -. GoFloat.ofRat (1 / 2)) /. GoFloat.ofRat dim

/-- **C78 (word2vec).** When training starts, the word vectors, read row by row, are `(x - 0.5) / Dim` of the first `len * Dim`
results of `rand.Float64()`; with negative sampling the context vectors are the same function of the next ones, and with
hierarchical softmax every vector of the tree is zero. -/
theorem C78_word2vec [GoMath F] (lower : Word → Word) (r : σ → F × σ) (o : W2VOptions F) (dim : Nat) (hdim : o.dim = dim)
    (p : Pass) (ws : List Word) (h : Readable p ws) (s s' : σ) (M : W2VModel F) (hM : w2vSetup lower r o p p s = .ok (M, s')) :
    M.param.array = (List.range (M.corpus.dic.len * dim)).map (fun k => centred dim (drawn r s k)) ∧
    (∀ o, M.opt = .ns o →
      o.ctx.array = (List.range (M.corpus.dic.len * dim)).map (fun k => centred dim (drawn r s (M.corpus.dic.len * dim + k)))) ∧
    (∀ o, M.opt = .hs o → ∀ n ∈ o.arena, ∀ v, n.vector = some v → v = List.replicate dim fzero) := by
  obtain ⟨hadd, hr, -⟩ := w2vSetup_facts lower r o dim hdim p ws h s s' M hM
  unfold w2vSetup at hM
  generalize (sigTable : List F) = tb at hM
  rw [Res.bind_eq_ok] at hM
  obtain ⟨c, hc, hM⟩ := hM
  obtain ⟨m, e1, q1, a1⟩ := randMatrix_array r (initValue (F := F) o.dim) c.dic.len dim s
  rw [← hdim] at e1
  rw [e1, Res.ok_bind, Res.bind_eq_ok] at hM
  obtain ⟨sam, _, hM⟩ := hM
  rw [Res.bind_eq_ok] at hM
  obtain ⟨b, _, hM⟩ := hM
  have ec : (initValue (F := F) o.dim) = centred dim := by
    funext x; unfold initValue centred; rw [hdim]; simp
  rw [ec] at a1
  split at hM
  · obtain ⟨m2, e2, q2, a2⟩ := randMatrix_array r (initValue (F := F) o.dim) c.dic.len dim (genAfter r s (c.dic.len * dim))
    rw [← hdim] at e2
    rw [e2, Res.ok_bind] at hM
    cases hM
    refine ⟨a1, ?_, by rintro _ ⟨⟩⟩
    rintro _ ⟨⟩
    rw [ec] at a2
    simpa only [drawn_add] using a2
  · split at hM
    · rw [Res.bind_eq_ok] at hM
      obtain ⟨t, ht, hM⟩ := hM
      cases hM
      refine ⟨a1, by rintro _ ⟨⟩, ?_⟩
      rintro _ ⟨⟩ n hn v hv
      dsimp only at hn hadd hr
      rcases List.eq_nil_or_concat (ws.map (o.corpus lower).norm) with hnil | ⟨_, _, hcat⟩
      · exfalso
        rw [hnil] at hr
        have h0 : c.dic.maxid = 0 := by rw [hr.maxid]; rfl
        have : t.1 = [] := by
          unfold huffmanTree at ht
          rw [huffLeaves_eq c.dic _ hr] at ht
          simp only [Res.ok_bind, h0] at ht
          rw [Res.bind_eq_ok] at ht
          obtain ⟨x, hx, ht⟩ := ht
          cases ht
          simp [firstOcc] at hx
          rw [huffLoop.eq_def] at hx
          simp [sortByVal] at hx
          cases hx; rfl
        rw [this] at hn; cases hn
      · obtain ⟨d, arena, T, P, hd, -, -, ht', hS, -⟩ := huff_core (F := F) [ws.map (o.corpus lower).norm]
          (by rw [hcat]; simp) dim
        rw [hadd] at hd; cases hd
        rw [hdim, ht'] at ht; cases ht
        dsimp only at hn
        obtain ⟨j, hj⟩ := List.mem_iff_getElem?.1 hn
        have hjl : j < arena.length := by
          by_contra hc; rw [List.getElem?_eq_none (by omega)] at hj; simp at hj
        have hids : T.ids.Perm (List.range arena.length) := by simpa using hS.perm
        have hjm : j ∈ T.ids := hids.mem_iff.2 (by simpa using hjl)
        have hsh := (hS.shape T (by simp)).inner_vec
        rcases List.mem_append.1 (T.ids_perm.mem_iff.1 hjm) with h1 | h1
        · obtain ⟨x, hx, e⟩ := List.mem_map.1 h1
          obtain ⟨nd, e1, e2, _⟩ := hsh.2.1 x hx
          rw [e, hj] at e1; cases e1
          rw [hv] at e2; cases e2
        · have := hsh.1 j h1
          rw [hj] at this
          simp only [Option.bind_some] at this
          rw [hv] at this; exact Option.some.inj this
    · cases hM

/-- `C78_word2vec` on the corpus `a b a` with the default options and any random generator. -/
example [GoMath F] (r : σ → F × σ) (s : σ) : ∃ M s', w2vSetup id r (W2VOptions.default (F := F) 1) ⟨['a', ' ', 'b', ' ', 'a'], false⟩ ⟨['a', ' ', 'b', ' ', 'a'], false⟩ s = .ok (M, s') ∧
    M.param.array = (List.range (M.corpus.dic.len * 10)).map (fun k => centred 10 (drawn r s k)) := by
  have hp : Readable ⟨['a', ' ', 'b', ' ', 'a'], false⟩ [['a'], ['b'], ['a']] := ⟨isWords_fields ['a',' ','b',' ','a'], rfl, by decide⟩
  obtain ⟨M, s', e, -⟩ := C72_word2vec_starts (F := F) id r (W2VOptions.default 1) 10 rfl (by show (0 : Int) ≤ 1; omega) (Or.inr rfl) (Or.inl rfl) _ _ hp s
  exact ⟨M, s', e, (C78_word2vec id r _ 10 rfl _ _ hp s s' M e).1⟩

/-- **C78 (LexVec).** -/
theorem C78_lexvec [GoMath F] (lower : Word → Word) (enum : GoMap (BitVec 64) F → List (BitVec 64 × F)) (r : σ → F × σ)
    (o : LexvecOptions F) (dim : Nat) (hdim : o.dim = dim) (p1 p2 : Pass) (s s' : σ) (M : LexModel F)
    (hM : lexSetup lower enum r o p1 p2 s = .ok (M, s')) :
    M.param.array = (List.range (M.corpus.dic.len * 2 * dim)).map (fun k => centred dim (drawn r s k)) := by
  unfold lexSetup at hM
  rw [Res.bind_eq_ok] at hM
  obtain ⟨c, hc, hM⟩ := hM
  obtain ⟨m, e1, q1, a1⟩ := randMatrix_array r (initValue (F := F) o.dim) (c.dic.len * 2) dim s
  rw [← hdim] at e1
  push_cast at e1
  rw [e1, Res.ok_bind, Res.bind_eq_ok] at hM
  obtain ⟨sam, _, hM⟩ := hM
  have ec : (initValue (F := F) o.dim) = centred dim := by
    funext x; unfold initValue centred; rw [hdim]; simp
  rw [ec] at a1
  cases hco : c.cooc with
  | none => rw [hco] at hM; cases hM
  | some co =>
    rw [hco] at hM
    dsimp only at hM
    rw [Res.bind_eq_ok] at hM
    obtain ⟨items, _, hM⟩ := hM
    cases hM
    exact a1

/-- `C78_lexvec` on the corpus `a b a` with the default options and any random generator. -/
example [GoMath F] (r : σ → F × σ) (s : σ) : ∃ M s', lexSetup id id r (LexvecOptions.default (F := F) 1) ⟨['a', ' ', 'b', ' ', 'a'], false⟩ ⟨['a', ' ', 'b', ' ', 'a'], false⟩ s = .ok (M, s') ∧
    M.param.array = (List.range (M.corpus.dic.len * 2 * 10)).map (fun k => centred 10 (drawn r s k)) := by
  have hp : Readable ⟨['a', ' ', 'b', ' ', 'a'], false⟩ [['a'], ['b'], ['a']] := ⟨isWords_fields ['a',' ','b',' ','a'], rfl, by decide⟩
  obtain ⟨M, s', e, -⟩ := C72_lexvec_starts (F := F) id id (fun _ => List.Perm.refl _) r (LexvecOptions.default 1) 10 rfl (Or.inr (by show (1 : Int) ≤ 5; omega)) (Or.inl rfl) _ _ hp
    (by simp) (by rw [show ([['a'], ['b'], ['a']].map ((LexvecOptions.default (F := F) 1).corpus id).norm).dedup.length = 2 from
      (by decide : ([['a'], ['b'], ['a']].map id).dedup.length = 2)]; omega) s
  exact ⟨M, s', e, C78_lexvec id id r _ 10 rfl _ _ s s' M e⟩

/-- **C78 (GloVe).** All parameters, the biases included, are `x / Dim`; AdaGrad's accumulators are 1. -/
theorem C78_glove [GoFloat F] (lower : Word → Word) (r : σ → F × σ)
    (o : GloveOptions F) (dim : Nat) (hdim : o.dim = dim) (p1 p2 : Pass) (s s' : σ) (M : GloveModel F)
    (hM : gloveSetup lower r o p1 p2 s = .ok (M, s')) :
    M.param.array = (List.range (M.corpus.dic.len * 2 * (dim + 1))).map (fun k => drawn r s k /. GoFloat.ofRat dim) ∧
    ∀ g, M.gradsq = some g → ∀ x ∈ g.array, x = GoFloat.ofRat 1 := by
  unfold gloveSetup at hM
  rw [Res.bind_eq_ok] at hM
  obtain ⟨c, hc, hM⟩ := hM
  obtain ⟨m, e1, q1, a1⟩ := randMatrix_array r (fun x : F => x /. GoFloat.ofRat (o.dim : ℚ)) (c.dic.len * 2) (dim + 1) s
  push_cast at e1
  rw [← hdim] at e1
  have ec : ((o.dim : Int) : ℚ) = (dim : ℚ) := by rw [hdim]; simp
  rw [ec] at a1
  rw [e1, Res.ok_bind] at hM
  split at hM
  · cases hM; exact ⟨a1, by simp⟩
  · split at hM
    · rw [Res.bind_eq_ok] at hM
      obtain ⟨g, hg, hM⟩ := hM
      cases hM
      refine ⟨a1, ?_⟩
      rintro _ ⟨⟩ x hx
      obtain ⟨g', h1, h2, h3⟩ := new_rows (F := F) (c.dic.len * 2) (dim + 1)
        (fun _ _ (s : Unit) => (List.replicate ((dim : Int) + 1).toNat (GoFloat.ofRat 1), s)) () (by
          intro i v s hv; simp only [List.length_replicate]; omega)
      push_cast at h1
      unfold adaGradsq at hg
      rw [hdim, h1, Res.ok_bind] at hg
      cases hg
      obtain ⟨k, hk⟩ := List.mem_iff_getElem?.1 hx
      have hkl : k < c.dic.len * 2 * (dim + 1) := by
        rw [← h2.len]
        by_contra hc; dsimp only at hk; rw [List.getElem?_eq_none (by omega)] at hk; simp at hk
      have hi : k / (dim + 1) < c.dic.len * 2 := Nat.div_lt_of_lt_mul (by rwa [Nat.mul_comm])
      have hj : k % (dim + 1) < dim + 1 := Nat.mod_lt _ (by omega)
      have e := h2.getElem?_rowOf (k / (dim + 1)) (k % (dim + 1)) hj
      rw [h3 _ hi, show k / (dim + 1) * (dim + 1) + k % (dim + 1) = k by rw [Nat.mul_comm]; exact Nat.div_add_mod k _, hk] at e
      exact List.eq_of_mem_replicate (List.mem_of_getElem? e)
    · cases hM

/-- `C78_glove` on the corpus `a b a` with the default options and any random generator. -/
example [GoMath F] (r : σ → F × σ) (s : σ) : ∃ M s', gloveSetup id r (GloveOptions.default (F := F) 1) ⟨['a', ' ', 'b', ' ', 'a'], false⟩ ⟨['a', ' ', 'b', ' ', 'a'], false⟩ s = .ok (M, s') ∧
    M.param.array = (List.range (M.corpus.dic.len * 2 * 11)).map (fun k => drawn r s k /. GoFloat.ofRat ((10 : Nat) : ℚ)) := by
  have hp : Readable ⟨['a', ' ', 'b', ' ', 'a'], false⟩ [['a'], ['b'], ['a']] := ⟨isWords_fields ['a',' ','b',' ','a'], rfl, by decide⟩
  obtain ⟨M, s', e⟩ := C72_glove_starts (F := F) id r (GloveOptions.default 1) (by show (0 : Int) ≤ 10; omega) rfl (Or.inl rfl) (Or.inr (by show (1 : Int) ≤ 5; omega)) _ _ hp s
  exact ⟨M, s', e, (C78_glove id r _ 10 rfl _ _ s s' M e).1⟩

/-- **C78 (range).** In real arithmetic, with `rand.Float64()` in `[0, 1)` and `Dim >= 1`, the starting values of word2vec and
LexVec lie in `[-1/(2 Dim), 1/(2 Dim))` and those of GloVe in `[0, 1/Dim)`. -/
theorem C78_range (dim : Nat) (hd : 1 ≤ dim) (x : ℝ) (h0 : 0 ≤ x) (h1 : x < 1) :
    (-(1 / (2 * (dim : ℝ))) ≤ centred dim x ∧ centred dim x < 1 / (2 * (dim : ℝ))) ∧
    (0 ≤ x /. GoFloat.ofRat (dim : ℚ) ∧ x /. GoFloat.ofRat (dim : ℚ) < 1 / (dim : ℝ)) := by
  have hp : (0 : ℝ) < dim := by exact_mod_cast hd
  have e : centred dim x = (x - 1 / 2) / dim := by simp [centred]
  have e2 : (x /. GoFloat.ofRat (dim : ℚ) : ℝ) = x / dim := by simp
  rw [e, e2]
  refine ⟨⟨?_, ?_⟩, by positivity, ?_⟩
  · rw [le_div_iff₀ hp]; field_simp; linarith
  · rw [div_lt_iff₀ hp]; field_simp; linarith
  · exact div_lt_div_of_pos_right h1 hp

/-- `C78_range` for dimension 10 and a draw of 1/3. -/
example := C78_range 10 (by decide) (1 / 3) (by norm_num) (by norm_num)

end Wego.Props
