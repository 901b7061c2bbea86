import Verif.Proofs.MatVal
import Verif.Proofs.Items
import Verif.Props.Corpus

/-! Element-wise effect of the two GloVe solvers, and what the loaded co-occurrence contains. -/

namespace Wego
open Matrix Spec Props

section any
variable {F : Type} [GoFloat F] {m : Matrix F} {r c : Nat}

theorem pairDot_total (h : Shaped m r c) {a b n : Nat} (ha : a < r) (hb : b < r) (hn : n ≤ c) :
    ∃ d, pairDot m a b n = .ok d := by
  obtain ⟨d, h1, _⟩ := forN_inv (fun _ (_ : F) => True) n fzero (fun i acc =>
    m.getAt (a : Int) i >>= fun x => m.getAt (b : Int) i >>= fun y => .ok (acc +. x *. y)) trivial (by
      intro i s hi _
      simp only [h.getAt_val ha (show i < c by omega), h.getAt_val hb (show i < c by omega), Res.ok_bind]
      exact ⟨_, rfl, trivial⟩)
  exact ⟨d, h1⟩

theorem gloveDiff_total {dim : Nat} (h : Shaped m r (dim + 1)) {a b : Nat} (ha : a < r) (hb : b < r) (f coef lr : F) :
    ∃ d, gloveDiff m a b dim f coef lr = .ok d := by
  obtain ⟨d, h1⟩ := pairDot_total h ha hb (Nat.le_succ dim)
  unfold gloveDiff
  rw [h1]
  simp only [Res.ok_bind, h.getAt_val ha (Nat.lt_succ_self dim), h.getAt_val hb (Nat.lt_succ_self dim)]
  exact ⟨_, rfl⟩

theorem col_sub_one {dim : Nat} (h : Shaped m r (dim + 1)) : (m.col - 1).toNat = dim := by
  rw [h.col]; omega

/-- the SGD step on two different rows -/
theorem sgdOne_val {dim : Nat} (h : Shaped m r (dim + 1)) {a b : Nat} (ha : a < r) (hb : b < r) (hab : a ≠ b) (f coef lr : F) :
    ∃ d m', gloveDiff m a b dim f coef lr = .ok d ∧ sgdOne lr a b m f coef = .ok m' ∧ Shaped m' r (dim + 1) ∧
      (∀ j < dim, m'.val a j = m.val a j -. d *. m.val b j ∧ m'.val b j = m.val b j -. d *. m.val a j) ∧
      m'.val a dim = m.val a dim -. d ∧ m'.val b dim = m.val b dim -. d ∧
      (∀ k, k ≠ a → k ≠ b → ∀ j, m'.val k j = m.val k j) := by
  obtain ⟨d, h1⟩ := gloveDiff_total h ha hb f coef lr
  obtain ⟨m1, k1, k2, k3⟩ := pairSubLoop_val h ha hb (Nat.le_succ dim) d
  obtain ⟨m2, l1, l2, l3⟩ := updAt_val k2 ha (Nat.lt_succ_self dim) (fun x => x -. d)
  obtain ⟨m3, n1, n2, n3⟩ := updAt_val l2 hb (Nat.lt_succ_self dim) (fun x => x -. d)
  refine ⟨d, m3, h1, ?_, n2, ?_, ?_, ?_, ?_⟩
  · unfold sgdOne
    simp only [col_sub_one h, h1, Res.ok_bind, k1, l1, n1]
  · intro j hj
    rw [n3, n3, if_neg (by omega), if_neg (by omega), l3, l3, if_neg (by omega), if_neg (by omega), k3, k3, if_pos hj, if_pos hj]
    simp [hab, Ne.symm hab]
  · rw [n3, if_neg (by omega), l3, if_pos ⟨rfl, rfl⟩, k3, if_neg (by omega)]
  · rw [n3, if_pos ⟨rfl, rfl⟩, l3, if_neg (by omega), k3, if_neg (by omega)]
  · intro k hka hkb j
    rw [n3, if_neg (by tauto), l3, if_neg (by tauto), k3]
    simp [hka, hkb]

/-- one AdaGrad coordinate on two different rows -/
theorem adaCoord_val {s : Ada F} (hp : Shaped s.param r c) (hg : Shaped s.gradsq r c) {a b j : Nat}
    (ha : a < r) (hb : b < r) (hab : a ≠ b) (hj : j < c) (d : F) :
    ∃ s', adaCoord d a b j s = .ok s' ∧ Shaped s'.param r c ∧ Shaped s'.gradsq r c ∧
      s'.gradsq.val a j = s.gradsq.val a j +. (d *. s.param.val b j) *. (d *. s.param.val b j) ∧
      s'.gradsq.val b j = s.gradsq.val b j +. (d *. s.param.val a j) *. (d *. s.param.val a j) ∧
      s'.param.val a j = s.param.val a j -. (d *. s.param.val b j) /. GoFloat.sqrt (s'.gradsq.val a j) ∧
      s'.param.val b j = s.param.val b j -. (d *. s.param.val a j) /. GoFloat.sqrt (s'.gradsq.val b j) ∧
      (∀ k l, ¬ (l = j ∧ (k = a ∨ k = b)) → s'.gradsq.val k l = s.gradsq.val k l ∧ s'.param.val k l = s.param.val k l) := by
  obtain ⟨g1, e1, e2, e3⟩ := updAt_val hg ha hj (fun x => x +. (d *. s.param.val b j) *. (d *. s.param.val b j))
  obtain ⟨g2, f1, f2, f3⟩ := updAt_val e2 hb hj (fun x => x +. (d *. s.param.val a j) *. (d *. s.param.val a j))
  obtain ⟨p1, i1, i2, i3⟩ := updAt_val hp ha hj (fun x => x -. (d *. s.param.val b j) /. GoFloat.sqrt (g2.val a j))
  obtain ⟨p2, j1, j2, j3⟩ := updAt_val i2 hb hj (fun x => x -. (d *. s.param.val a j) /. GoFloat.sqrt (g2.val b j))
  refine ⟨⟨p2, g2⟩, ?_, j2, f2, ?_, ?_, ?_, ?_, ?_⟩
  · unfold adaCoord
    simp only [hp.getAt_val ha hj, hp.getAt_val hb hj, Res.ok_bind, e1, f1, f2.getAt_val ha hj, f2.getAt_val hb hj, i1, j1]
  · show g2.val a j = _
    rw [f3, if_neg (fun e => hab e.1), e3, if_pos ⟨rfl, rfl⟩]
  · show g2.val b j = _
    rw [f3, if_pos ⟨rfl, rfl⟩, e3, if_neg (fun e => hab e.1.symm)]
  · show p2.val a j = _
    rw [j3, if_neg (fun e => hab e.1), i3, if_pos ⟨rfl, rfl⟩]
  · show p2.val b j = _
    rw [j3, if_pos ⟨rfl, rfl⟩, i3, if_neg (fun e => hab e.1.symm)]
  · intro k l hkl
    show g2.val k l = _ ∧ p2.val k l = _
    have n1 : ¬ (k = b ∧ l = j) := by tauto
    have n2 : ¬ (k = a ∧ l = j) := by tauto
    rw [f3, if_neg n1, e3, if_neg n2, j3, if_neg n1, i3, if_neg n2]
    exact ⟨rfl, rfl⟩

/-- the AdaGrad step on two different rows -/
theorem adaOne_val {s : Ada F} {dim : Nat} (hp : Shaped s.param r (dim + 1)) (hg : Shaped s.gradsq r (dim + 1)) {a b : Nat}
    (ha : a < r) (hb : b < r) (hab : a ≠ b) (f coef lr : F) :
    ∃ d s', gloveDiff s.param a b dim f coef lr = .ok d ∧ adaOne lr a b s f coef = .ok s' ∧
      Shaped s'.param r (dim + 1) ∧ Shaped s'.gradsq r (dim + 1) ∧
      (∀ j < dim,
        s'.gradsq.val a j = s.gradsq.val a j +. (d *. s.param.val b j) *. (d *. s.param.val b j) ∧
        s'.gradsq.val b j = s.gradsq.val b j +. (d *. s.param.val a j) *. (d *. s.param.val a j) ∧
        s'.param.val a j = s.param.val a j -. (d *. s.param.val b j) /. GoFloat.sqrt (s'.gradsq.val a j) ∧
        s'.param.val b j = s.param.val b j -. (d *. s.param.val a j) /. GoFloat.sqrt (s'.gradsq.val b j)) ∧
      s'.gradsq.val a dim = s.gradsq.val a dim +. d *. d ∧ s'.gradsq.val b dim = s.gradsq.val b dim +. d *. d ∧
      s'.param.val a dim = s.param.val a dim -. d /. GoFloat.sqrt (s.gradsq.val a dim) ∧
      s'.param.val b dim = s.param.val b dim -. d /. GoFloat.sqrt (s.gradsq.val b dim) ∧
      (∀ k, k ≠ a → k ≠ b → ∀ j, s'.param.val k j = s.param.val k j ∧ s'.gradsq.val k j = s.gradsq.val k j) := by
  obtain ⟨d, h1⟩ := gloveDiff_total hp ha hb f coef lr
  obtain ⟨s1, k1, k2, k3, k4, k5⟩ := forN_inv (fun i (s' : Ada F) => Shaped s'.param r (dim + 1) ∧ Shaped s'.gradsq r (dim + 1) ∧
      (∀ j < i,
        s'.gradsq.val a j = s.gradsq.val a j +. (d *. s.param.val b j) *. (d *. s.param.val b j) ∧
        s'.gradsq.val b j = s.gradsq.val b j +. (d *. s.param.val a j) *. (d *. s.param.val a j) ∧
        s'.param.val a j = s.param.val a j -. (d *. s.param.val b j) /. GoFloat.sqrt (s'.gradsq.val a j) ∧
        s'.param.val b j = s.param.val b j -. (d *. s.param.val a j) /. GoFloat.sqrt (s'.gradsq.val b j)) ∧
      (∀ k l, ¬ (l < i ∧ (k = a ∨ k = b)) → s'.gradsq.val k l = s.gradsq.val k l ∧ s'.param.val k l = s.param.val k l))
    dim s (fun i s => adaCoord d a b i s) ⟨hp, hg, by simp, by simp⟩ (by
      rintro i t hi ⟨t1, t2, t3, t4⟩
      obtain ⟨t', e1, e2, e3, e4, e5, e6, e7, e8⟩ := adaCoord_val t1 t2 ha hb hab (show i < dim + 1 by omega) d
      have q := fun k => t4 k i (by omega)
      rw [(q a).1, (q b).2] at e4
      rw [(q b).1, (q a).2] at e5
      rw [(q a).2, (q b).2] at e6
      rw [(q b).2, (q a).2] at e7
      refine ⟨t', e1, e2, e3, ?_, ?_⟩
      · intro j hj
        by_cases hji : j = i
        · subst hji
          exact ⟨e4, e5, e6, e7⟩
        · obtain ⟨x1, x2, x3, x4⟩ := t3 j (by omega)
          have ya := e8 a j (by omega)
          have yb := e8 b j (by omega)
          rw [ya.1, ya.2, yb.1, yb.2]
          exact ⟨x1, x2, x3, x4⟩
      · intro k l hkl
        have := e8 k l (by rintro ⟨rfl, h⟩; exact hkl ⟨Nat.lt_succ_self _, h⟩)
        rw [this.1, this.2]
        exact t4 k l (by rintro ⟨h, h'⟩; exact hkl ⟨by omega, h'⟩))
  have hd := Nat.lt_succ_self dim
  obtain ⟨p1, i1, i2, i3⟩ := updAt_val k2 ha hd (fun x => x -. d /. GoFloat.sqrt (s1.gradsq.val a dim))
  obtain ⟨p2, j1, j2, j3⟩ := updAt_val i2 hb hd (fun x => x -. d /. GoFloat.sqrt (s1.gradsq.val b dim))
  obtain ⟨g1, e1, e2, e3⟩ := updAt_val k3 ha hd (fun x => x +. d *. d)
  obtain ⟨g2, f1, f2, f3⟩ := updAt_val e2 hb hd (fun x => x +. d *. d)
  have old := fun k => k5 k dim (by omega)
  refine ⟨d, ⟨p2, g2⟩, h1, ?_, j2, f2, ?_, ?_, ?_, ?_, ?_, ?_⟩
  · unfold adaOne
    simp only [col_sub_one hp, h1, Res.ok_bind, k1, k3.getAt_val ha hd, i1, k3.getAt_val hb hd, j1, e1, f1]
  · intro j hj
    dsimp only
    rw [f3, f3, j3, j3, if_neg (by omega), if_neg (by omega), if_neg (by omega), if_neg (by omega),
      e3, e3, i3, i3, if_neg (by omega), if_neg (by omega), if_neg (by omega), if_neg (by omega)]
    exact k4 j hj
  · show g2.val a dim = _
    rw [f3, if_neg (fun e => hab e.1), e3, if_pos ⟨rfl, rfl⟩, (old a).1]
  · show g2.val b dim = _
    rw [f3, if_pos ⟨rfl, rfl⟩, e3, if_neg (fun e => hab e.1.symm), (old b).1]
  · show p2.val a dim = _
    rw [j3, if_neg (fun e => hab e.1), i3, if_pos ⟨rfl, rfl⟩, (old a).1, (old a).2]
  · show p2.val b dim = _
    rw [j3, if_pos ⟨rfl, rfl⟩, i3, if_neg (fun e => hab e.1.symm), (old b).1, (old b).2]
  · intro k hka hkb j
    dsimp only
    rw [j3, if_neg (fun e => hkb e.1), i3, if_neg (fun e => hka e.1), f3, if_neg (fun e => hkb e.1), e3, if_neg (fun e => hka e.1)]
    have := k5 k j (by tauto)
    exact ⟨this.2, this.1⟩

end any

/-! exact arithmetic -/

theorem pairDot_real {m : Matrix ℝ} {r c : Nat} (h : Shaped m r c) {a b n : Nat} (ha : a < r) (hb : b < r) (hn : n ≤ c) :
    pairDot m a b n = .ok (∑ j ∈ Finset.range n, m.val a j * m.val b j) := by
  obtain ⟨d, h1, h2⟩ := forN_inv (fun i (x : ℝ) => x = ∑ j ∈ Finset.range i, m.val a j * m.val b j) n (fzero : ℝ) (fun i acc =>
    m.getAt (a : Int) i >>= fun x => m.getAt (b : Int) i >>= fun y => .ok (acc +. x *. y)) (by simp) (by
      rintro i s hi rfl
      simp only [h.getAt_val ha (show i < c by omega), h.getAt_val hb (show i < c by omega), Res.ok_bind]
      exact ⟨_, rfl, by rw [Finset.sum_range_succ]; rfl⟩)
  rw [← h2]; exact h1

theorem gloveDiff_real {m : Matrix ℝ} {r dim : Nat} (h : Shaped m r (dim + 1)) {a b : Nat} (ha : a < r) (hb : b < r) (f coef lr : ℝ) :
    gloveDiff m a b dim f coef lr =
      .ok (lr * coef * (∑ j ∈ Finset.range dim, m.val a j * m.val b j + m.val a dim + m.val b dim - f)) := by
  unfold gloveDiff
  rw [pairDot_real h ha hb (Nat.le_succ dim)]
  simp only [Res.ok_bind, h.getAt_val ha (Nat.lt_succ_self dim), h.getAt_val hb (Nat.lt_succ_self dim)]
  simp only [real_add, real_sub, real_mul]
  congr 1; ring

/-! what a loaded corpus contains -/

section load
variable {F : Type} [GoFloat F]

theorem memLoad_cooc (cfg : CorpusCfg) {p : Pass} {ws : List Word} (h : Readable p ws) (w : WithCooccurrence)
    (c : CorpusState F) (hc : memLoad cfg p (some w) = .ok c) :
    ∃ co, c.cooc = some co ∧ c.dic.Rep (ws.map cfg.norm) ∧
      cooCalls w.countType (windowPairs w.window.toNat (docIds (ws.map cfg.norm))) = .ok co ∧
      ∀ q ∈ windowPairs w.window.toNat (docIds (ws.map cfg.norm)), q.1 < c.dic.len ∧ q.2 < c.dic.len := by
  obtain ⟨c0, h1, h2, h3, _, h5, h6⟩ := memLoad_readable (F := F) cfg h
  rw [← docIds_eq] at h5
  rw [h6 (some w)] at hc
  dsimp only at hc
  rw [Res.bind_eq_ok] at hc
  obtain ⟨co0, a1, hc⟩ := hc
  rw [Res.bind_eq_ok] at hc
  obtain ⟨co, a2, hc⟩ := hc
  cases hc
  refine ⟨co, rfl, h2, ?_, ?_⟩
  · unfold cooCalls
    rw [a1, Res.ok_bind, ← h5]; exact a2
  · intro q hq
    have := mem_windowPairs _ _ q hq
    have hlt : ∀ i ∈ docIds (ws.map cfg.norm), i < c0.dic.len := by
      intro i hi
      rw [docIds_eq] at hi
      obtain ⟨u, hu, rfl⟩ := List.mem_map.1 hi
      have : (firstOcc (ws.map cfg.norm)).idxOf u < (firstOcc (ws.map cfg.norm)).length := List.idxOf_lt_length_iff.2 (by simpa using hu)
      rw [Dictionary.len, h2.maxid]; exact this
    exact ⟨hlt _ this.1, hlt _ this.2⟩

theorem fsLoad_cooc (cfg : CorpusCfg) {p : Pass} {ws : List Word} (h : Readable p ws) (t : String) (n : Nat) (hn : 1 ≤ n)
    (hne : ws ≠ []) (c : CorpusState F) (hc : fsLoad cfg p p (some ⟨t, n⟩) = .ok c) :
    ∃ co calls, c.cooc = some co ∧ c.dic.Rep (ws.map cfg.norm) ∧ cooCalls t calls = .ok co ∧
      ∀ q ∈ calls, q.1 < c.dic.len ∧ q.2 < c.dic.len := by
  obtain ⟨c0, h1, h2, h3, _, _, _, h6⟩ := fsLoad_readable (F := F) cfg h
  rw [h6 t n hn] at hc
  rw [Res.bind_eq_ok] at hc
  obtain ⟨co0, a1, hc⟩ := hc
  rw [Res.bind_eq_ok] at hc
  obtain ⟨co, a2, hc⟩ := hc
  cases hc
  refine ⟨co, _, rfl, h2, by unfold cooCalls; rw [a1, Res.ok_bind]; exact a2, ?_⟩
  have hlen : 0 < c0.dic.len := by
    rw [h2.len_eq]
    obtain ⟨w, hw⟩ := List.exists_mem_of_ne_nil ws hne
    exact List.length_pos_of_mem (List.mem_dedup.2 (List.mem_map_of_mem hw))
  have hid : ∀ w, c0.dic.idOrZero w < c0.dic.len := by
    intro w
    rw [h2.idOrZero_eq]
    split
    · next hw =>
      rw [Dictionary.len, h2.maxid]
      first
      | exact List.idxOf_lt_length_iff.2 (by simpa using hw)
      | (rw [← idxOf_firstOcc _ _ hw]; exact List.idxOf_lt_length_iff.2 (by simpa using hw))
    · exact hlen
  intro q hq
  obtain ⟨x, _, rfl⟩ := List.mem_map.1 hq
  exact ⟨hid _, hid _⟩

end load
end Wego
