import Verif.Props.ObjectOk
import Verif.Props.InitVectors

/-! # C87: what a `Train` that fails leaves in an object that was trained before -/

namespace Wego.Props
open Wego Wego.Spec Wego.Matrix
variable {F : Type} {σ : Type}

section mat
variable [GoFloat F]

theorem rowOf_congr {m m' : Matrix F} {n n' d : Nat} (h : Shaped m n d) (h' : Shaped m' n' d) {i : Nat} (hi : i < n) (hi' : i < n')
    (he : ∀ j < d, m.val i j = m'.val i j) : m.rowOf i = m'.rowOf i := by
  rw [h.rowOf_eq hi, h'.rowOf_eq hi']
  exact List.map_congr_left fun j hj => he j (by simpa using hj)

/-- word2vec vectors with a smaller vocabulary -/
theorem w2v_fewer {n n' d : Nat} {P : Matrix F} {Q : W2VOptimizer F} (h : W2VShaped n d P Q) (hn : n' ≤ n) (typ : Word) :
    ∃ m0 m, w2vWordVector n d P Q typ = .ok m0 ∧ w2vWordVector n' d P Q typ = .ok m ∧ Shaped m0 n d ∧ Shaped m n' d ∧ ∀ i < n', m.rowOf i = m0.rowOf i := by
  obtain ⟨hp, ho⟩ := h
  have hcopy : ∃ m0 m, Matrix.newRes n d (fun row vec => fillRow d (fun i => P.getAt row i) vec) = .ok m0 ∧
      Matrix.newRes n' d (fun row vec => fillRow d (fun i => P.getAt row i) vec) = .ok m ∧ Shaped m0 n d ∧ Shaped m n' d ∧ ∀ i < n', m.rowOf i = m0.rowOf i := by
    obtain ⟨m0, e0, q0, v0⟩ := newRes_copy hp (le_refl n) (le_refl d)
    obtain ⟨m, e, q, v⟩ := newRes_copy hp hn (le_refl d)
    exact ⟨m0, m, e0, e, q0, q, fun i hi => rowOf_congr q q0 hi (by omega) fun j hj => by rw [v i hi j hj, v0 i (by omega) j hj]⟩
  cases Q with
  | hs o => exact hcopy
  | ns o =>
    unfold w2vWordVector
    dsimp only
    split
    · obtain ⟨m0, e0, q0, v0⟩ := newRes_sum hp (ho o rfl) (le_refl n) (le_refl d) (off := 0) (by omega) (le_refl d)
      obtain ⟨m, e, q, v⟩ := newRes_sum hp (ho o rfl) hn (le_refl d) (off := 0) (by omega) (le_refl d)
      simp only [Int.natCast_zero, Int.add_zero] at e e0
      exact ⟨m0, m, e0, e, q0, q, fun i hi => rowOf_congr q q0 hi (by omega) fun j hj => by rw [v i hi j hj, v0 i (by omega) j hj]⟩
    · exact hcopy

/-- copying more rows than there are -/
theorem copy_over {n n' c d : Nat} {P : Matrix F} (h : Shaped P n c) (hn : n < n') (hd : 1 ≤ d) (hc : d ≤ c) :
    Matrix.newRes n' d (fun row vec => fillRow d (fun i => P.getAt row i) vec) = .panic .sliceBounds :=
  newRes_panic n' d _ (fun i j => P.val i j) n hn _
    (fun i hi v hv => fillRow_ok d _ (fun j => P.val i j) (fun j hj => h.getAt_val (by omega) (by omega)) v hv)
    (fun v _ => fillRow_panic d hd _ _ (h.getAt_out (by omega) (le_refl n) 0) v)

/-- word2vec vectors with a larger vocabulary -/
theorem w2v_over {n n' d : Nat} {P : Matrix F} {Q : W2VOptimizer F} (h : W2VShaped n d P Q) (hn : n < n') (hd : 1 ≤ d) (typ : Word) :
    w2vWordVector n' d P Q typ = .panic .sliceBounds := by
  obtain ⟨hp, ho⟩ := h
  have hcopy := copy_over hp hn hd (le_refl d)
  cases Q with
  | hs o => exact hcopy
  | ns o =>
    unfold w2vWordVector
    dsimp only
    split
    · refine newRes_panic n' d _ (fun i j => P.val i j +. o.ctx.val i j) n hn _ (fun i hi v hv => fillRow_ok d _ _ (fun j hj => ?_) v hv) (fun v _ => fillRow_panic d hd _ _ ?_ v)
      · rw [hp.getAt_val hi hj, Res.ok_bind, (ho o rfl).getAt_val hi hj, Res.ok_bind]
      · rw [hp.getAt_out hd (le_refl n) 0]; rfl
    · exact hcopy

/-- GloVe and LexVec vectors of another vocabulary: the vector type `agg` -/
theorem obj_agg {n n' c d : Nat} {P : Matrix F} (h : Shaped P (n * 2) c) (hc : d ≤ c) :
    (n' ≤ n * 2 → ∃ m, gloveWordVector n' d P vecAgg = .ok m ∧ Shaped m n' d ∧ ∀ i < n', ∀ j < d, m.val i j = P.val i j) ∧
    (n * 2 < n' → 1 ≤ d → gloveWordVector n' d P vecAgg = .panic .sliceBounds) := by
  unfold gloveWordVector
  rw [if_pos rfl]
  exact ⟨fun hn => newRes_copy h hn hc, fun hn hd => copy_over h hn hd hc⟩

/-- ... and all the others -/
theorem obj_sum {n n' c d : Nat} {P : Matrix F} (h : Shaped P (n * 2) c) (hc : d ≤ c) (typ : Word) (ht : typ ≠ vecAgg) :
    (n' ≤ n → ∃ m, gloveWordVector n' d P typ = .ok m ∧ Shaped m n' d ∧ ∀ i < n', ∀ j < d, m.val i j = P.val i j +. P.val (i + n') j) ∧
    (n < n' → 1 ≤ d → gloveWordVector n' d P typ = .panic .sliceBounds) := by
  unfold gloveWordVector
  rw [if_neg ht]
  refine ⟨fun hn => newRes_sum h h (by omega) hc (by omega) hc, fun hn hd => ?_⟩
  refine newRes_panic n' d _ (fun i j => P.val i j +. P.val (i + n') j) (n * 2 - n') (by omega) _ (fun i hi v hv => fillRow_ok d _ _ (fun j hj => ?_) v hv)
    (fun v _ => fillRow_panic d hd _ _ ?_ v)
  · have := h.getAt_val (i := i + n') (j := j) (by omega) (by omega)
    push_cast at this
    rw [h.getAt_val (by omega) (by omega), Res.ok_bind, this, Res.ok_bind]
  · by_cases h0 : n * 2 - n' < n * 2
    · have := h.getAt_out (by omega) (i := n * 2 - n' + n') (by omega) 0
      push_cast at this
      rw [h.getAt_val h0 (by omega), Res.ok_bind, this]; rfl
    · rw [h.getAt_out (by omega) (by omega) 0]; rfl

end mat

/-- `Save` after the failed call returns nil and writes, for the words `us1`, the first rows of the vectors of the call before (`vec0`). -/
def Stale (us1 : List Word) (x' : ModelObj F64) (vec0 vec : Res (Matrix F64)) (v : Bool) (lb : Int) : Prop :=
  ∃ m0 m text, vec0 = .ok m0 ∧ vec = .ok m ∧ objSave x' vec v lb = .ok text ∧ ListsVocabulary us1 m text ∧ ∀ i < (firstOcc us1).length, m.rowOf i = m0.rowOf i

/-- `WordVector` and `Save` panic. -/
def Unsavable (x' : ModelObj F64) (vec : Res (Matrix F64)) (v : Bool) (lb : Int) : Prop :=
  vec = .panic .sliceBounds ∧ objSave x' vec v lb = .panic .sliceBounds

theorem stale_core {us1 : List Word} {c : CorpusState F64} (hd : addCalls [us1] = .ok c.dic) {x' : ModelObj F64} (hx : x'.corpus = some c) {vec0 vec : Res (Matrix F64)}
    {m0 m : Matrix F64} (e0 : vec0 = .ok m0) (e : vec = .ok m) {d : Nat} (hm : Shaped m c.dic.len d) (hr : ∀ i < c.dic.len, m.rowOf i = m0.rowOf i) {v : Bool} {lb : Int}
    (hv : v = false ∨ lb ≠ 0) : Stale us1 x' vec0 vec v lb := by
  obtain ⟨text, h1, h2⟩ := save_shaped us1 c.dic hd d m hm v lb hv
  exact ⟨m0, m, text, e0, e, by unfold objSave; rw [hx, e]; exact h1, h2, by rw [← len_firstOcc hd]; exact hr⟩

theorem unsavable_core {c : CorpusState F64} {x' : ModelObj F64} (hx : x'.corpus = some c) {vec : Res (Matrix F64)} (e : vec = .panic .sliceBounds) (v : Bool) (lb : Int) :
    Unsavable x' vec v lb := ⟨e, by unfold objSave; rw [hx, e]; rfl⟩

variable (lib : LibM) (menv : MemEnv F64) (lower : Word → Word) (enum : GoMap (BitVec 64) F64 → List (BitVec 64 × F64)) (r : σ → F64 × σ) (dim : Nat)
  (x0 x x' : ModelObj F64) (p p1 : Pass) (ws ws1 : List Word) (h : Readable p ws) (hb : BreaksAfter p1 ws1) (res : Res Unit)
include h hb

/-- **C87 (word2vec).** After a `Train` over `ws` that returned nil and then a `Train` whose reader fails after the words `ws1`: the second call returns an error; if `ws1` has
no more distinct words than `ws`, `Save` returns nil and gives the i-th distinct word of `ws1` the vector of the i-th distinct word of `ws`; if it has more, `WordVector` and
`Save` panic. -/
theorem C87_word2vec_stale (o : W2VOptions F64) (hdim : o.dim = dim) (hv : o.verbose = false ∨ o.logBatch ≠ 0) (ht : W2VCalls lib menv lower r o x0 p x (.ok ()))
    (ht' : W2VCalls lib menv lower r o x p1 x' res) (typ : Word) :
    (∃ e, res = .err e) ∧
    ((firstOcc (ws1.map (o.corpus lower).norm)).length ≤ (firstOcc (ws.map (o.corpus lower).norm)).length →
      Stale (ws1.map (o.corpus lower).norm) x' (w2vObjVector o.dim x typ) (w2vObjVector o.dim x' typ) o.verbose o.logBatch) ∧
    ((firstOcc (ws.map (o.corpus lower).norm)).length < (firstOcc (ws1.map (o.corpus lower).norm)).length → 1 ≤ dim →
      Unsavable x' (w2vObjVector o.dim x' typ) o.verbose o.logBatch) := by
  let _ := lib.math
  obtain ⟨late, s, next, -, ht⟩ := ht
  obtain ⟨late', s', next', -, ht'⟩ := ht'
  obtain ⟨c, P, Q, lr, rfl, h1, h2⟩ := w2v_trained hdim h ht
  obtain ⟨c', e, h3, rfl, h4⟩ := w2v_breaks hb ht'
  dsimp only
  rw [w2vObjVector_ready, w2vObjVector_ready, ← len_firstOcc h1, ← len_firstOcc h4, hdim]
  refine ⟨⟨e, h3⟩, fun hn => ?_, fun hn hd => ?_⟩
  · obtain ⟨m0, m, e0, e1, _, hm, hr⟩ := w2v_fewer h2 hn typ
    exact stale_core h4 rfl e0 e1 hm hr hv
  · exact unsavable_core rfl (w2v_over h2 hn hd typ) _ _

/-- **C87 (LexVec).** The same for the vectors of type `agg`; for the others the i-th word gets the sum of the i-th row and of the row that many words further, and the calls
panic as soon as there are more words than before. -/
theorem C87_lexvec_stale (o : LexvecOptions F64) (hdim : o.dim = dim) (hwin : o.docInMemory = true ∨ 1 ≤ o.window) (hv : o.verbose = false ∨ o.logBatch ≠ 0)
    (ht : LexCalls lib menv lower enum r o x0 p x (.ok ())) (ht' : LexCalls lib menv lower enum r o x p1 x' res) :
    let n := (firstOcc (ws.map (o.corpus lower).norm)).length
    let n1 := (firstOcc (ws1.map (o.corpus lower).norm)).length
    (∃ e, res = .err e) ∧
    (n1 ≤ n → Stale (ws1.map (o.corpus lower).norm) x' (objVector o.dim x vecAgg) (objVector o.dim x' vecAgg) o.verbose o.logBatch) ∧
    (n * 2 < n1 → 1 ≤ dim → Unsavable x' (objVector o.dim x' vecAgg) o.verbose o.logBatch) ∧
    ∀ typ, typ ≠ vecAgg → (n1 ≤ n → ∃ m text, objVector o.dim x' typ = .ok m ∧ objSave x' (objVector o.dim x' typ) o.verbose o.logBatch = .ok text ∧
        ListsVocabulary (ws1.map (o.corpus lower).norm) m text ∧
        ∃ P, x.param = some P ∧ ∀ i < n1, ∀ j < dim, m.val i j = P.val i j +. P.val (i + n1) j) ∧
      (n < n1 → 1 ≤ dim → Unsavable x' (objVector o.dim x' typ) o.verbose o.logBatch) := by
  let _ := lib.math
  obtain ⟨late, s, next, -, ht⟩ := ht
  obtain ⟨late', s', next', -, ht'⟩ := ht'
  obtain ⟨c, P, lr, rfl, h1, h2⟩ := lex_trained hdim hwin h ht
  obtain ⟨c', e, h3, rfl, h4⟩ := lex_breaks hb ht'
  dsimp only
  simp only [objVector_glove]
  rw [← len_firstOcc h1, ← len_firstOcc h4, hdim]
  refine ⟨⟨e, h3⟩, fun hn => ?_, fun hn hd => ?_, fun typ htyp => ⟨fun hn => ?_, fun hn hd => ?_⟩⟩
  · obtain ⟨m0, e0, hm0, hr0⟩ := (obj_agg (n' := c.dic.len) h2 (le_refl dim)).1 (by omega)
    obtain ⟨m, e1, hm, hr⟩ := (obj_agg (n' := c'.dic.len) h2 (le_refl dim)).1 (by omega)
    exact stale_core h4 rfl e0 e1 hm (fun i hi => rowOf_congr hm hm0 hi (by omega) fun j hj => by rw [hr i hi j hj, hr0 i (by omega) j hj]) hv
  · exact unsavable_core rfl ((obj_agg h2 (le_refl dim)).2 hn hd) _ _
  · obtain ⟨m, e1, hm, hr⟩ := (obj_sum (n' := c'.dic.len) h2 (le_refl dim) typ htyp).1 hn
    obtain ⟨text, g1, g2⟩ := save_shaped _ c'.dic h4 dim m hm o.verbose o.logBatch hv
    exact ⟨m, text, e1, by unfold objSave; rw [e1]; exact g1, g2, P, rfl, hr⟩
  · exact unsavable_core rfl ((obj_sum h2 (le_refl dim) typ htyp).2 hn hd) _ _

/-- **C87 (GloVe).** -/
theorem C87_glove_stale (o : GloveOptions F64) (hdim : o.dim = dim) (hwin : o.docInMemory = true ∨ 1 ≤ o.window) (hv : o.verbose = false ∨ o.logBatch ≠ 0)
    (ht : GloveCalls lib menv lower enum r o x0 p x (.ok ())) (ht' : GloveCalls lib menv lower enum r o x p1 x' res) :
    let n := (firstOcc (ws.map (o.corpus lower).norm)).length
    let n1 := (firstOcc (ws1.map (o.corpus lower).norm)).length
    (∃ e, res = .err e) ∧
    (n1 ≤ n → Stale (ws1.map (o.corpus lower).norm) x' (objVector o.dim x vecAgg) (objVector o.dim x' vecAgg) o.verbose o.logBatch) ∧
    (n * 2 < n1 → 1 ≤ dim → Unsavable x' (objVector o.dim x' vecAgg) o.verbose o.logBatch) ∧
    ∀ typ, typ ≠ vecAgg → (n1 ≤ n → ∃ m text, objVector o.dim x' typ = .ok m ∧ objSave x' (objVector o.dim x' typ) o.verbose o.logBatch = .ok text ∧
        ListsVocabulary (ws1.map (o.corpus lower).norm) m text ∧
        ∃ P, x.param = some P ∧ ∀ i < n1, ∀ j < dim, m.val i j = P.val i j +. P.val (i + n1) j) ∧
      (n < n1 → 1 ≤ dim → Unsavable x' (objVector o.dim x' typ) o.verbose o.logBatch) := by
  let _ := lib.math
  obtain ⟨s, next, ht⟩ := ht
  obtain ⟨s', next', ht'⟩ := ht'
  obtain ⟨c, P, rfl, h1, h2⟩ := glove_trained hdim hwin h ht
  obtain ⟨c', e, h3, rfl, h4⟩ := glove_breaks hb ht'
  dsimp only
  simp only [objVector_glove]
  rw [← len_firstOcc h1, ← len_firstOcc h4, hdim]
  refine ⟨⟨e, h3⟩, fun hn => ?_, fun hn hd => ?_, fun typ htyp => ⟨fun hn => ?_, fun hn hd => ?_⟩⟩
  · obtain ⟨m0, e0, hm0, hr0⟩ := (obj_agg (n' := c.dic.len) h2 (Nat.le_succ dim)).1 (by omega)
    obtain ⟨m, e1, hm, hr⟩ := (obj_agg (n' := c'.dic.len) h2 (Nat.le_succ dim)).1 (by omega)
    exact stale_core h4 rfl e0 e1 hm (fun i hi => rowOf_congr hm hm0 hi (by omega) fun j hj => by rw [hr i hi j hj, hr0 i (by omega) j hj]) hv
  · exact unsavable_core rfl ((obj_agg h2 (Nat.le_succ dim)).2 hn hd) _ _
  · obtain ⟨m, e1, hm, hr⟩ := (obj_sum (n' := c'.dic.len) h2 (Nat.le_succ dim) typ htyp).1 hn
    obtain ⟨text, g1, g2⟩ := save_shaped _ c'.dic h4 dim m hm o.verbose o.logBatch hv
    exact ⟨m, text, e1, by unfold objSave; rw [e1]; exact g1, g2, P, rfl, hr⟩
  · exact unsavable_core rfl ((obj_sum h2 (Nat.le_succ dim) typ htyp).2 hn hd) _ _

omit h hb
/-- Every word of both vocabularies has the same vector in `m0` and in `m`. -/
def KeepsVectors (us us1 : List Word) (vec0 vec : Res (Matrix F64)) : Prop :=
  ∃ m0 m, vec0 = .ok m0 ∧ vec = .ok m ∧ ∀ w i i1, (firstOcc us)[i]? = some w → (firstOcc us1)[i1]? = some w → m.rowOf i1 = m0.rowOf i

theorem keeps_of_stale {us us1 : List Word} {x' : ModelObj F64} {vec0 vec : Res (Matrix F64)} {v : Bool} {lb : Int} (hs : Stale us1 x' vec0 vec v lb)
    (hpre : firstOcc us1 <+: firstOcc us) : KeepsVectors us us1 vec0 vec := by
  obtain ⟨m0, m, text, e0, e, _, _, hr⟩ := hs
  refine ⟨m0, m, e0, e, fun w i i1 hi hi1 => ?_⟩
  obtain ⟨hlt, _⟩ := List.getElem?_eq_some_iff.1 hi1
  have h2 : (firstOcc us)[i1]? = some w := by
    obtain ⟨t, ht⟩ := hpre
    rw [← ht, List.getElem?_append_left hlt]
    exact hi1
  obtain ⟨hlt', e1⟩ := List.getElem?_eq_some_iff.1 h2
  obtain ⟨hlt'', e2⟩ := List.getElem?_eq_some_iff.1 hi
  have : i = i1 := (List.Nodup.getElem_inj_iff (nodup_firstOcc us)).1 (e2.trans e1.symm)
  subst this
  exact hr i hlt

include h hb

/-- **C87 (word2vec, partial).** If the distinct words read before the failure are, in order, the first distinct words of the document of the call before, every one of them
keeps its vector. Missing: for all other documents, words get each other's vectors (`C87_refuted`) or the calls panic (`C87_word2vec_stale`). -/
theorem C87_word2vec_partial (o : W2VOptions F64) (hdim : o.dim = dim) (hv : o.verbose = false ∨ o.logBatch ≠ 0) (ht : W2VCalls lib menv lower r o x0 p x (.ok ()))
    (ht' : W2VCalls lib menv lower r o x p1 x' res) (hpre : firstOcc (ws1.map (o.corpus lower).norm) <+: firstOcc (ws.map (o.corpus lower).norm)) (typ : Word) :
    KeepsVectors (ws.map (o.corpus lower).norm) (ws1.map (o.corpus lower).norm) (w2vObjVector o.dim x typ) (w2vObjVector o.dim x' typ) :=
  keeps_of_stale ((C87_word2vec_stale lib menv lower r dim x0 x x' p p1 ws ws1 h hb res o hdim hv ht ht' typ).2.1 hpre.length_le) hpre

/-- **C87 (LexVec, partial).** For the vectors of type `agg`. -/
theorem C87_lexvec_partial (o : LexvecOptions F64) (hdim : o.dim = dim) (hwin : o.docInMemory = true ∨ 1 ≤ o.window) (hv : o.verbose = false ∨ o.logBatch ≠ 0)
    (ht : LexCalls lib menv lower enum r o x0 p x (.ok ())) (ht' : LexCalls lib menv lower enum r o x p1 x' res)
    (hpre : firstOcc (ws1.map (o.corpus lower).norm) <+: firstOcc (ws.map (o.corpus lower).norm)) :
    KeepsVectors (ws.map (o.corpus lower).norm) (ws1.map (o.corpus lower).norm) (objVector o.dim x vecAgg) (objVector o.dim x' vecAgg) :=
  keeps_of_stale ((C87_lexvec_stale lib menv lower enum r dim x0 x x' p p1 ws ws1 h hb res o hdim hwin hv ht ht').2.1 hpre.length_le) hpre

/-- **C87 (GloVe, partial).** For the vectors of type `agg`. -/
theorem C87_glove_partial (o : GloveOptions F64) (hdim : o.dim = dim) (hwin : o.docInMemory = true ∨ 1 ≤ o.window) (hv : o.verbose = false ∨ o.logBatch ≠ 0)
    (ht : GloveCalls lib menv lower enum r o x0 p x (.ok ())) (ht' : GloveCalls lib menv lower enum r o x p1 x' res)
    (hpre : firstOcc (ws1.map (o.corpus lower).norm) <+: firstOcc (ws.map (o.corpus lower).norm)) :
    KeepsVectors (ws.map (o.corpus lower).norm) (ws1.map (o.corpus lower).norm) (objVector o.dim x vecAgg) (objVector o.dim x' vecAgg) :=
  keeps_of_stale ((C87_glove_stale lib menv lower enum r dim x0 x x' p p1 ws ws1 h hb res o hdim hwin hv ht ht').2.1 hpre.length_le) hpre

omit h hb

/-! ## The refutation -/

/-- `rand.Float64()` returning 0, 1/4, 1/4, 1/4, ... -/
def exampleRand (s : Nat) : F64 × Nat := (if s = 0 then GoFloat.ofRat 0 else GoFloat.ofRat (1 / 4), s + 1)

theorem drawn_exampleRand (n k : Nat) : drawn exampleRand n k = if n + k = 0 then GoFloat.ofRat 0 else GoFloat.ofRat (1 / 4) := by
  have : genAfter exampleRand n k = n + k := by
    induction k with
    | zero => rfl
    | succ k ih => rw [genAfter, ih]; rfl
  unfold drawn
  rw [this]
  rfl

/-- **C87 (refuted).** There is a history on which both `Save` calls succeed and a word changes its vector although the second `Train` returned an error: a word2vec model
trained on `a b a`, then `Train` with a reader that delivers `b` and fails. -/
theorem C87_refuted (lib : LibM) (menv : MemEnv F64) : ∃ (o : W2VOptions F64) (x x' : ModelObj F64) (e : Err),
    W2VCalls lib menv id exampleRand o (ModelObj.new o.initlr) ⟨"a b a".toList, false⟩ x (.ok ()) ∧
    W2VCalls lib menv id exampleRand o x ⟨"b".toList, true⟩ x' (.err e) ∧
    (∀ typ, ∃ text, objSave x' (w2vObjVector o.dim x' typ) o.verbose o.logBatch = .ok text) ∧
    ¬ KeepsVectors ["a".toList, "b".toList, "a".toList] ["b".toList] (w2vObjVector o.dim x "single".toList) (w2vObjVector o.dim x' "single".toList) := by
  let _ := lib.math
  let o : W2VOptions F64 := { W2VOptions.default 1 with iter := 0 }
  have hrd : Readable ⟨"a b a".toList, false⟩ ["a".toList, "b".toList, "a".toList] := ⟨isWords_fields "a b a".toList, rfl, by decide⟩
  have hbr : BreaksAfter ⟨"b".toList, true⟩ ["b".toList] := ⟨by decide, .inl ⟨isWords_fields "b".toList, rfl⟩⟩
  obtain ⟨M, s', e, _⟩ := C72_word2vec_starts (F := F64) id exampleRand o 10 rfl (by show (0 : Int) ≤ 1; omega) (Or.inr rfl) (Or.inl rfl) _ _ hrd 0
  obtain ⟨docs, hd⟩ := workerDocs_exist id exampleRand o 10 rfl _ _ hrd 0 s' M e 1 rfl (by omega) (by norm_num)
  obtain ⟨f1, -, -, ⟨f4, -⟩, -⟩ := w2vSetup_facts id exampleRand o 10 rfl _ _ hrd 0 s' M e
  have hlen : M.corpus.dic.len = 2 := by rw [len_firstOcc f1]; decide
  have harr := (C78_word2vec id exampleRand o 10 rfl _ _ hrd 0 s' M e).1
  rw [← w2vSetupObj_res (x := ModelObj.new o.initlr)] at e
  have ht : W2VCalls lib menv id exampleRand o (ModelObj.new o.initlr) ⟨"a b a".toList, false⟩ _ (.ok ()) :=
    ⟨[], 0, 0, by simp, .done M s' docs _ e (.inr (.inl (le_refl 0))) hd (.nil _ _)⟩
  rw [w2vSetupObj_ok _ _ _ _ _ _ _ _ M e] at ht
  dsimp only at ht
  obtain ⟨c, e1, hl, hd1⟩ := loadState_breaks (F := F64) o.docInMemory (o.corpus id) ⟨"b".toList, true⟩ ⟨"b".toList, true⟩ none hbr
  have ht' : ∀ x, W2VCalls lib menv id exampleRand o x ⟨"b".toList, true⟩ { x with corpus := some c } (.err e1) := fun x => by
    have hs := w2vSetupObj_load_err id exampleRand o ⟨"b".toList, true⟩ ⟨"b".toList, true⟩ 0 x c e1 hl
    have := W2VObjTrain.setupErr (env := menv) (late := []) (next := 0) (r := exampleRand) (lower := id) (o := o) (x := x) (p := ⟨"b".toList, true⟩) (s := 0) e1 (by rw [hs])
    rw [hs] at this
    exact ⟨[], 0, 0, by simp, this⟩
  have hst := fun typ => (C87_word2vec_stale lib menv id exampleRand 10 _ _ _ _ _ _ _ hrd hbr _ o rfl (.inl rfl) ht (ht' _) typ).2.1 (by decide)
  refine ⟨o, _, _, e1, ht, ht' _, fun typ => ?_, ?_⟩
  · obtain ⟨m0, m, text, -, -, h3, -⟩ := hst typ
    exact ⟨text, h3⟩
  · rintro ⟨m0, m, h1, h2, h3⟩
    obtain ⟨m0', m', text, g1, g2, -, -, g5⟩ := hst "single".toList
    rw [h1] at g1; rw [h2] at g2
    cases g1; cases g2
    have hrow : m0.rowOf 0 = m0.rowOf 1 := by
      rw [← g5 0 (by decide)]
      exact h3 "b".toList 1 0 (by decide) (by decide)
    rw [w2vObjVector_ready] at h1
    have hsh : Shaped (M.after o ((M.mem o 0).set .lr (ModelObj.new o.initlr).lr)).param 2 10 := by
      rw [← hlen]
      exact matrix_shaped _ _ _ _
    have hval : ∀ i < 2, ∀ j < 10, (M.after o ((M.mem o 0).set .lr (ModelObj.new o.initlr).lr)).param.val i j = M.param.val i j := by
      intro i hi j hj
      show (Mem.matrix _ Loc.param M.corpus.dic.len 10).val i j = _
      rw [matrix_val _ _ (by omega) hj]
      show M.param.cellAt i j = _
      exact cellAt_eq f4 (by omega) hj
    obtain ⟨m1, q1, q2, q3⟩ := newRes_copy hsh (le_refl 2) (le_refl 10)
    have hm : m0 = m1 := by
      have : w2vWordVector M.corpus.dic.len o.dim (M.after o ((M.mem o 0).set .lr (ModelObj.new o.initlr).lr)).param (M.after o ((M.mem o 0).set .lr (ModelObj.new o.initlr).lr)).opt
          "single".toList = Matrix.newRes (2 : Nat) (10 : Nat) (fun row vec => fillRow (10 : Nat) (fun i =>
            (M.after o ((M.mem o 0).set .lr (ModelObj.new o.initlr).lr)).param.getAt row i) vec) := by
        rw [hlen]
        cases (M.after o ((M.mem o 0).set .lr (ModelObj.new o.initlr).lr)).opt <;> rfl
      rw [this, q1] at h1
      exact (Res.ok.inj h1).symm
    subst hm
    rw [q2.rowOf_eq (by omega), q2.rowOf_eq (by omega)] at hrow
    have h00 : m0.val 0 0 = m0.val 1 0 := by
      have := congrArg (fun l => l[0]?) hrow
      simpa using this
    rw [q3 0 (by omega) 0 (by omega), q3 1 (by omega) 0 (by omega), hval 0 (by omega) 0 (by omega), hval 1 (by omega) 0 (by omega)] at h00
    have hv : ∀ i < 2, M.param.val i 0 = centred 10 (drawn exampleRand 0 (i * 10)) := by
      intro i hi
      unfold Matrix.val
      rw [f4.getElem?_rowOf i 0 (by omega), harr, hlen]
      rw [List.getElem?_map, List.getElem?_range (by omega)]
      rfl
    rw [hv 0 (by omega), hv 1 (by omega), drawn_exampleRand, drawn_exampleRand] at h00
    revert h00
    decide +kernel

end Wego.Props
