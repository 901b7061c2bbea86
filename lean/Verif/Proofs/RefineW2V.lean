import Verif.Proofs.RefineLex
import Verif.Proofs.Logistic

/-! # word2vec: the programs of a training step, running alone, compute the training step -/

namespace Wego
open Prog Matrix
variable {F : Type} [GoFloat F] {path : Nat → List Nat} {m m' : Mem F} {us : Ora F}

/-- the vector an optimizer reads is `v` -/
def SrcAt (dim : Nat) (m : Mem F) (s : Src F) (v : List F) : Prop :=
  v.length = dim ∧ match s with
  | .row r => ∀ i < dim, v[i]? = some (m.cell (.param r i))
  | .buf l => l = v

omit [GoFloat F] in
theorem SrcAt.mono {dim : Nat} {s : Src F} {v : List F} (h : SrcAt dim m s v) (hp : ∀ i j, m'.cell (.param i j) = m.cell (.param i j)) : SrcAt dim m' s v := by
  refine ⟨h.1, ?_⟩
  cases s with
  | row r => intro i hi; rw [hp]; exact h.2 i hi
  | buf l => exact h.2

omit [GoFloat F] in
theorem SrcAt.read {β : Type} {dim : Nat} {s : Src F} {v : List F} (h : SrcAt dim m s v) {i : Nat} (hi : i < v.length) {f : F → Prog F β} {R : β → Mem F → Ora F → Prop}
    (hf : (f v[i]).Runs path m us R) : (s.read i >>= f).Runs path m us R := by
  cases s with
  | row r =>
    have := h.2 i (h.1 ▸ hi)
    rw [List.getElem?_eq_getElem hi, Option.some.injEq] at this
    exact Runs.ld_bind this.symm hf
  | buf l =>
    have e : l = v := h.2
    subst e
    exact Runs.ofRes_bind (idx_of_lt _ _ hi) hf

theorem dotF_take_succ (x y : List F) {i : Nat} (hx : i < x.length) (hy : i < y.length) :
    ((List.zip x y).take (i + 1)).foldl (fun acc p => acc +. p.1 *. p.2) fzero =
      ((List.zip x y).take i).foldl (fun acc p => acc +. p.1 *. p.2) fzero +. x[i] *. y[i] := by
  have hz : i < (List.zip x y).length := by simp [hx, hy]
  rw [List.take_succ, List.getElem?_eq_getElem hz]
  simp

/-- the loop of a dot product -/
theorem dot_runs {a b : Nat → Prog F F} {x y : List F} {n : Nat} (hx : n ≤ x.length) (hy : n ≤ y.length) (hn : x.length ≤ n ∨ y.length ≤ n)
    (hab : ∀ i (h1 : i < x.length) (h2 : i < y.length) (f : F → F → Prog F F) (R : F → Mem F → Ora F → Prop), (f x[i] y[i]).Runs path m us R →
      (a i >>= fun u => b i >>= fun v => f u v).Runs path m us R) :
    (forP n fzero (fun i inner => a i >>= fun u => b i >>= fun v => Prog.ret (inner +. u *. v))).Runs path m us
      (fun d m' us' => d = dotF x y ∧ m' = m ∧ us' = us) := by
  refine (Runs.forP_inv (fun i d m' us' => d = ((List.zip x y).take i).foldl (fun acc p => acc +. p.1 *. p.2) fzero ∧ m' = m ∧ us' = us) ⟨rfl, rfl, rfl⟩ ?_).mono ?_
  · rintro i d m1 us1 hi ⟨rfl, rfl, rfl⟩
    refine hab i (by omega) (by omega) (fun u v => .ret (_ +. u *. v)) _ (Runs.ret ⟨?_, rfl, rfl⟩)
    rw [dotF_take_succ x y (by omega) (by omega)]
  · rintro d m1 us1 ⟨rfl, rfl, rfl⟩
    refine ⟨?_, rfl, rfl⟩
    rw [List.take_of_length_le (by rw [List.length_zip]; omega)]; rfl

/-- the memory changed only at `loc 0, ..., loc (n-1)`, where it now holds `w` -/
structure RowSet (loc : Nat → Loc) (m : Mem F) (w : List F) (m' : Mem F) : Prop where
  new : ∀ i (h : i < w.length), m'.cell (loc i) = w[i]
  old : ∀ l, (∀ i < w.length, l ≠ loc i) → m'.cell l = m.cell l
  next : m'.next = m.next

/-- the loop that updates `tmp` with the row and the row with `ctx` -/
theorem axpy_runs {loc : Nat → Loc} (hinj : ∀ i j, loc i = loc j → i = j) (hpar : ∀ k i j, loc k ≠ .param i j) (hlr : ∀ k, loc k ≠ .lr) {dim : Nat} {src : Src F} {ctx vec tmp : List F}
    (g : F) (hsrc : SrcAt dim m src ctx) (hvec : ∀ i (h : i < vec.length), m.cell (loc i) = vec[i]) (hl1 : vec.length ≤ ctx.length) (hl2 : vec.length ≤ tmp.length) :
    (forP vec.length tmp (fun i tmp =>
      Prog.ofRes (idx tmp i) >>= fun t => ld (loc i) >>= fun x =>
      Prog.ofRes (setIdx tmp i (t +. g *. x)) >>= fun tmp =>
      ld (loc i) >>= fun x => src.read i >>= fun y => st (loc i) (x +. g *. y) >>= fun _ => Prog.ret tmp)).Runs path m us
      (fun t m' us' => t = axpyF g vec (tmp.take vec.length) ++ tmp.drop vec.length ∧ RowSet loc m (axpyF g ctx vec) m' ∧ us' = us) := by
  have hax : (axpyF g ctx vec).length = vec.length := by unfold axpyF; rw [List.length_zipWith]; omega
  have haxi : ∀ i (h : i < (axpyF g ctx vec).length), (axpyF g ctx vec)[i] = vec[i]'(by omega) +. g *. ctx[i]'(by omega) := by
    intro i h; simp [axpyF]
  refine (Runs.forP_inv (fun i (t : List F) m' us' => t.length = tmp.length ∧
      (∀ j (h : j < t.length), t[j] = if hj : j < i ∧ j < vec.length then tmp[j]'(by omega) +. g *. vec[j]'(hj.2) else tmp[j]?.getD fzero) ∧
      (∀ j (h : j < vec.length), m'.cell (loc j) = if j < i then vec[j] +. g *. ctx[j]'(by omega) else vec[j]) ∧
      (∀ l, (∀ j < vec.length, l ≠ loc j) → m'.cell l = m.cell l) ∧ m'.next = m.next ∧ us' = us) ?_ ?_).mono ?_
  · refine ⟨rfl, ?_, ?_, fun _ _ => rfl, rfl, rfl⟩
    · intro j h; rw [dif_neg (by omega), List.getElem?_eq_getElem h]; rfl
    · intro j h; rw [if_neg (by omega)]; exact hvec j h
  · rintro i t m1 us1 hi ⟨e1, e2, e3, e4, e5, rfl⟩
    have hit : i < t.length := by omega
    have hc : m1.cell (loc i) = vec[i] := by rw [e3 i hi, if_neg (by omega)]
    have hs1 : SrcAt dim m1 src ctx := hsrc.mono fun a b => e4 _ (fun j _ e => hpar j a b e.symm)
    refine Runs.ofRes_bind (idx_of_lt _ _ hit) (Runs.ld_bind hc ?_ (hlr i))
    refine Runs.ofRes_bind (setIdx_of_lt _ _ _ hit) (Runs.ld_bind hc (hs1.read (by omega) (Runs.st_bind (Runs.ret ?_))) (hlr i))
    refine ⟨by simp [e1], ?_, ?_, ?_, e5, rfl⟩
    · intro j h
      rw [List.length_set] at h
      rw [List.getElem_set]
      by_cases hij : i = j
      · subst hij
        rw [if_pos rfl, dif_pos ⟨by omega, hi⟩, e2 i hit, dif_neg (by omega), List.getElem?_eq_getElem (by omega)]; rfl
      · rw [if_neg hij, e2 j h]
        by_cases hj : j < i ∧ j < vec.length
        · rw [dif_pos hj, dif_pos ⟨by omega, hj.2⟩]
        · rw [dif_neg hj, dif_neg (by omega)]
    · intro j h
      rw [Mem.set_cell]
      by_cases hij : j = i
      · subst hij; rw [if_pos rfl, if_pos (by omega)]
      · rw [if_neg (fun e => hij (hinj _ _ e)), e3 j h]
        by_cases hj : j < i
        · rw [if_pos hj, if_pos (by omega)]
        · rw [if_neg hj, if_neg (by omega)]
    · intro l hl
      rw [Mem.set_cell, if_neg (hl i hi)]; exact e4 l hl
  · rintro t m1 us1 ⟨e1, e2, e3, e4, e5, rfl⟩
    refine ⟨?_, ⟨?_, ?_, e5⟩, rfl⟩
    · apply List.ext_getElem
      · rw [e1, List.length_append, List.length_drop]; unfold axpyF; rw [List.length_zipWith, List.length_take]; omega
      · intro j h1 h2
        rw [e2 j h1]
        have hz : (axpyF g vec (tmp.take vec.length)).length = vec.length := by unfold axpyF; rw [List.length_zipWith, List.length_take]; omega
        by_cases hj : j < vec.length
        · rw [dif_pos ⟨hj, hj⟩, List.getElem_append_left (by omega)]
          simp [axpyF]
        · rw [dif_neg (by omega), List.getElem_append_right (by omega), List.getElem?_eq_getElem (by omega)]
          simp only [hz, List.getElem_drop, Option.getD_some]
          congr 1; omega
    · intro i h
      rw [e3 i (by omega), if_pos (by omega), haxi i h]
    · intro l hl
      rw [hax] at hl
      exact e4 l hl

/-- a row of a matrix in memory is replaced -/
theorem MatAt.rowSet {loc : Nat → Nat → Loc} {M M' : Matrix F} {r c i : Nat} (h : MatAt loc m M r c) (hl : LocInj loc) (hi : i < r) {w : List F} (hw : w.length = c)
    (hM : M.setRow i w = .ok M') (hm : RowSet (loc i) m w m') : MatAt loc m' M' r c := by
  obtain ⟨M2, e, h1, h2, h3⟩ := h.shaped.setRow hi w hw
  rw [hM] at e; obtain rfl := Res.ok.inj e
  refine ⟨h1, fun k hk j hj => ?_⟩
  by_cases hki : k = i
  · subst hki
    rw [hm.new j (by omega)]
    unfold val
    rw [h2, List.getElem?_eq_getElem (by omega)]; rfl
  · rw [hm.old _ (fun a _ e => hki (hl _ _ _ _ e).1), h.cell k hk j hj]
    unfold val; rw [h3 k hki]

/-- other matrices are not affected -/
theorem MatAt.rowSet_other {loc : Nat → Nat → Loc} {loc' : Nat → Loc} {M : Matrix F} {r c : Nat} (h : MatAt loc m M r c) (hl : ∀ i j k, loc i j ≠ loc' k) {w : List F}
    (hm : RowSet loc' m w m') : MatAt loc m' M r c :=
  ⟨h.shaped, fun i hi j hj => by rw [hm.old _ (fun a _ => hl i j a), h.cell i hi j hj]⟩

theorem MatAt.rowCell {loc : Nat → Nat → Loc} {M : Matrix F} {r c i : Nat} (h : MatAt loc m M r c) (hi : i < r) {j : Nat} (hj : j < (M.rowOf i).length) :
    m.cell (loc i j) = (M.rowOf i)[j] := by
  rw [h.cell i hi j (by rw [h.shaped.length_rowOf hi] at hj; exact hj)]
  unfold val; rw [List.getElem?_eq_getElem hj]; rfl

/-! ## Optimizers -/

/-- `optimP`, running alone, computes `optim`; `RO` says that the memory holds the optimizer's state -/
def OptimSim {O : Type} (path : Nat → List Nat) (dim words : Nat) (RO : Mem F → O → Prop) (optimP : OptimP F) (optim : Optim O F) : Prop :=
  ∀ (m : Mem F) (us : Ora F) (o : O) (id : Nat) (lr : F) (src : Src F) (ctx tmp : List F) (r : OptRes O F), id < words → RO m o → SrcAt dim m src ctx → tmp.length = dim →
    optim o m.next id lr ctx tmp = .ok r →
    (optimP id lr src tmp).Runs path m us (fun t m' us' => t = r.tmp ∧ t.length = dim ∧ RO m' r.opt ∧ m'.next = r.rnd ∧ us' = us ∧
      ∀ i j, m'.cell (.param i j) = m.cell (.param i j))

/-- the relation does not look at the word matrix, the generator and the learning rate -/
def ROStable {O : Type} (RO : Mem F → O → Prop) : Prop :=
  ∀ m m' o, (∀ l, (∀ i j, l ≠ .param i j) → l ≠ .lr → m'.cell l = m.cell l) → RO m o → RO m' o

/-- negative sampling: the context matrix is in memory -/
def NsAt (sh : W2VShared F) (size : Int) (m : Mem F) (o : NegSampling F) : Prop :=
  MatAt .ctx m o.ctx sh.rows sh.dim ∧ o.table = sh.table ∧ o.sampleSize = size

theorem nsAt_stable (sh : W2VShared F) (size : Int) : ROStable (NsAt sh size) := by
  rintro m m' o h ⟨⟨h1, h2⟩, h3⟩
  exact ⟨⟨h1, fun i hi j hj => by rw [h _ (by simp) (by simp)]; exact h2 i hi j hj⟩, h3⟩

theorem nsPick_runs (sh : W2VShared F) {M M' : Matrix F} (h : MatAt .ctx m M sh.rows sh.dim) {label : Int} {picked : Nat} (hp : picked < sh.rows) {lr : F} {src : Src F}
    {ctx tmp tmp' : List F} (hsrc : SrcAt sh.dim m src ctx) (ht : tmp.length = sh.dim) (hr : nsPick sh.table label picked lr ctx M tmp = .ok (M', tmp')) :
    (nsPickP sh label picked lr src tmp).Runs path m us (fun t m' us' => t = tmp' ∧ t.length = sh.dim ∧ MatAt .ctx m' M' sh.rows sh.dim ∧ m'.next = m.next ∧ us' = us ∧
      ∀ i j, m'.cell (.param i j) = m.cell (.param i j)) := by
  have hrl := h.shaped.length_rowOf hp
  unfold nsPick at hr
  rw [h.shaped.getRow hp, Res.ok_bind, if_neg (by rw [hrl, hsrc.1, ht]; simp), Res.bind_eq_ok] at hr
  obtain ⟨g, hg, hr⟩ := hr
  rw [Res.bind_eq_ok] at hr
  obtain ⟨M2, hM, hr⟩ := hr
  obtain ⟨rfl, rfl⟩ := Prod.mk.inj (Res.ok.inj hr)
  unfold nsPickP
  refine Runs.sliceP_bind hp ?_
  refine Runs.bind (dot_runs (x := M.rowOf picked) (y := ctx) hrl.ge hsrc.1.ge (Or.inl hrl.le) ?_) ?_
  · intro i h1 h2 f R hf
    exact Runs.ld_bind (h.rowCell hp h1) (hsrc.read h2 hf)
  · rintro d m1 us1 ⟨rfl, rfl, rfl⟩
    refine Runs.ofRes_bind hg ?_
    have := axpy_runs (path := path) (us := us1) (loc := .ctx picked) (m := m1) (fun i j e => by cases e; rfl) (by simp) (by simp) g hsrc (vec := M.rowOf picked) (tmp := tmp)
      (fun i hi => h.rowCell hp hi) (by rw [hsrc.1]; omega) (by omega)
    rw [hrl] at this
    refine this.mono ?_
    rintro t m2 us2 ⟨rfl, e2, rfl⟩
    have hax : (axpyF g ctx (M.rowOf picked)).length = sh.dim := by unfold axpyF; rw [List.length_zipWith, hrl, hsrc.1]; simp
    have htk : tmp.take sh.dim = tmp := List.take_of_length_le (by omega)
    refine ⟨by rw [htk, List.drop_eq_nil_of_le (by omega), List.append_nil], ?_, h.rowSet locInj_ctx hp hax hM e2, e2.next, rfl, fun i j => e2.old _ (by simp)⟩
    rw [List.length_append, List.length_drop]; unfold axpyF; rw [List.length_zipWith, List.length_take, hrl]; omega

theorem nsIter_runs (sh : W2VShared F) (hrows : sh.rows < 2 ^ 63) {table : List F} (htab : table = sh.table) {m0 m1 : Mem F} {us1 : Ora F} {id n : Nat} (hid : id < sh.rows) {lr : F} {src : Src F}
    {ctx t t2 : List F} {M1 M2 : Matrix F} {r1 r2 : UInt64} (e2 : t.length = sh.dim) (e3 : MatAt .ctx m1 M1 sh.rows sh.dim) (e4 : m1.next = r1) (hs1 : SrcAt sh.dim m1 src ctx)
    (e6 : ∀ i j, m1.cell (.param i j) = m0.cell (.param i j)) (hs : nsIter table id lr ctx n (M1, r1, t) = .ok (M2, r2, t2)) :
    (if n = 0 then nsPickP sh 1 id lr src t
      else nextRandomP sh.rows >>= fun picked => if (id : Int) = picked then .ret t else nsPickP sh 0 picked lr src t : Prog F (List F)).Runs path m1 us1
      (fun t m' us' => t = t2 ∧ t.length = sh.dim ∧ MatAt .ctx m' M2 sh.rows sh.dim ∧ m'.next = r2 ∧ us' = us1 ∧ ∀ i j, m'.cell (.param i j) = m0.cell (.param i j)) := by
  unfold nsIter at hs
  dsimp only at hs
  by_cases h0 : n = 0
  · rw [if_pos h0] at hs ⊢
    rw [Res.bind_eq_ok] at hs
    obtain ⟨⟨M3, t3⟩, k1, k2⟩ := hs
    obtain ⟨rfl, rfl, rfl⟩ : M3 = M2 ∧ r1 = r2 ∧ t3 = t2 := by
      have := Res.ok.inj k2; simp only [Prod.mk.injEq] at this; exact this
    rw [htab] at k1
    refine (nsPick_runs sh e3 hid hs1 e2 k1).mono ?_
    rintro t m' us' ⟨a1, a2, a3, a4, a5, a6⟩
    exact ⟨a1, a2, a3, a4.trans e4, a5, fun i j => (a6 i j).trans (e6 i j)⟩
  · rw [if_neg h0] at hs ⊢
    have hpos : 0 < sh.rows := by omega
    rw [e3.shaped.row, nextRandom_eq r1 sh.rows (by omega) (by omega), Res.ok_bind] at hs
    have hm : (rndStep r1).toNat % ((sh.rows : Int).toNat) < sh.rows := by
      rw [Int.toNat_natCast]; exact Nat.mod_lt _ hpos
    have hnx : nextRandom m1.next sh.rows = .ok (rndStep r1, (((rndStep r1).toNat % ((sh.rows : Int).toNat) : Nat) : Int)) := by
      rw [e4, nextRandom_eq r1 sh.rows (by omega) (by omega)]
    refine Runs.nextRandomP_bind hnx ?_
    generalize (rndStep r1).toNat % ((sh.rows : Int).toNat) = q at hs hm
    generalize rndStep r1 = rr at hs
    dsimp only at hs ⊢
    by_cases hq : (id : Int) = q
    · rw [if_pos hq] at hs ⊢
      cases hs
      exact Runs.ret ⟨rfl, e2, e3.next _, rfl, rfl, e6⟩
    · rw [if_neg hq] at hs ⊢
      rw [Res.bind_eq_ok] at hs
      obtain ⟨⟨M3, t3⟩, k1, k2⟩ := hs
      obtain ⟨rfl, rfl, rfl⟩ : M3 = M2 ∧ rr = r2 ∧ t3 = t2 := by
        have := Res.ok.inj k2; simp only [Prod.mk.injEq] at this; exact this
      rw [htab] at k1
      refine (nsPick_runs sh (e3.next rr) hm (hs1.mono fun _ _ => rfl) e2 k1).mono ?_
      rintro t m' us' ⟨a1, a2, a3, a4, a5, a6⟩
      exact ⟨a1, a2, a3, a4, a5, fun i j => (a6 i j).trans (e6 i j)⟩

theorem nsOptim_sim (sh : W2VShared F) (hrows : sh.rows < 2 ^ 63) (size : Int) : OptimSim path sh.dim sh.rows (NsAt sh size) (nsOptimP sh size) NegSampling.optim := by
  intro m us o id lr src ctx tmp r hid hro hsrc ht hr
  obtain ⟨hmat, htab, hsize⟩ := hro
  unfold NegSampling.optim at hr
  rw [Res.bind_eq_ok] at hr
  obtain ⟨⟨M', rn, tm⟩, hf, hr⟩ := hr
  obtain rfl := Res.ok.inj hr
  rw [hsize] at hf
  unfold nsOptimP
  refine (Runs.forP_sim (fun _ (x : Matrix F × UInt64 × List F) t m' us' => t = x.2.2 ∧ t.length = sh.dim ∧ MatAt .ctx m' x.1 sh.rows sh.dim ∧ m'.next = x.2.1 ∧ us' = us ∧
      ∀ i j, m'.cell (.param i j) = m.cell (.param i j)) hf ⟨rfl, ht, hmat, rfl, rfl, fun _ _ => rfl⟩ ?_).mono ?_
  · rintro n ⟨M1, r1, t1⟩ t m1 us1 ⟨M2, r2, t2⟩ hn ⟨e1, e2, e3, e4, rfl, e6⟩ hs
    dsimp only at e1 e3 e4 ⊢
    subst e1
    have hs1 : SrcAt sh.dim m1 src ctx := hsrc.mono e6
    exact nsIter_runs sh hrows htab hid e2 e3 e4 hs1 e6 hs
  · rintro t m' us' ⟨a1, a2, a3, a4, a5, a6⟩
    exact ⟨a1, a2, ⟨a3, htab, hsize⟩, a4, a5, a6⟩

end Wego
