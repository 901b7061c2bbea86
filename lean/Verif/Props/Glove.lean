import Verif.Proofs.MatVal
import Verif.Proofs.Items
import Verif.Proofs.GloveStep
import Verif.Props.Corpus
import Verif.Props.Matrix
import Mathlib.Algebra.BigOperators.Field
import Mathlib.Analysis.SpecialFunctions.Pow.Real

/-! # C40, C41, C42, C45: GloVe -/

namespace Wego.Props
open Wego Wego.Spec Wego.Matrix

/-- The weight of an item: `min(1, (count/Xmax)^Alpha)`. -/
theorem gloveWeight {v x alpha : ℝ} (hv : 0 < v) (hx : 0 < x) (ha : 0 < alpha) :
    (if v < x then (v / x) ^ alpha else 1) = min 1 ((v / x) ^ alpha) ∧
    0 < min 1 ((v / x) ^ alpha) ∧ min 1 ((v / x) ^ alpha) ≤ 1 ∧ (min 1 ((v / x) ^ alpha) = 1 ↔ x ≤ v) := by
  have hpos : 0 < (v / x) ^ alpha := Real.rpow_pos_of_pos (div_pos hv hx) _
  have hiff : 1 ≤ (v / x) ^ alpha ↔ x ≤ v := by
    constructor
    · intro h
      by_contra hn
      have h1 : v / x < 1 := (div_lt_one hx).2 (not_le.1 hn)
      have := Real.rpow_lt_one (div_pos hv hx).le h1 ha
      linarith
    · intro h
      exact Real.one_le_rpow ((one_le_div hx).2 h) ha.le
  refine ⟨?_, lt_min one_pos hpos, min_le_left _ _, ?_⟩
  · split
    · next h => rw [min_eq_right]; exact le_of_lt (not_le.1 (fun hh => absurd (hiff.1 hh) (not_le.2 h)))
    · next h => rw [min_eq_left]; exact hiff.2 (not_lt.1 h)
  · rw [min_eq_left_iff]; exact hiff

/-- **C40.** After any sequence of `Add` calls on ids below the dictionary size `N` (either count type) and for
every order `em` in which Go enumerates the map: `makeItems` gives one item per unordered pair that was added, smaller id first,
with the logarithm of its count and the weight `min(1, (count/Xmax)^Alpha)`. -/
theorem C40_items (typ : String) (calls : List (Nat × Nat)) (N : Nat) (hN : N ≤ 2 ^ 32)
    (hc : ∀ q ∈ calls, q.1 < N ∧ q.2 < N) (co : Cooccurrence ℝ) (hco : cooCalls typ calls = .ok co)
    (em : List (BitVec 64 × ℝ)) (hem : em.Perm co.encodedMatrix)
    (xmax : Int) (hx : 0 < xmax) (alpha : ℝ) (ha : 0 < alpha) :
    ((gloveItems xmax alpha em).map (fun it => (it.l1, it.l2))).Nodup ∧
    (∀ a b : Nat, (∃ it ∈ gloveItems xmax alpha em, it.l1 = a ∧ it.l2 = b) ↔ a ≤ b ∧ pairCount calls a b ≠ 0) ∧
    (∀ it ∈ gloveItems xmax alpha em, ∃ (a b : Nat) (v : ℝ), it.l1 = a ∧ it.l2 = b ∧ a ≤ b ∧ b < N ∧
      entry co a b = some v ∧ 0 < v ∧ it.f = Real.log v ∧
      it.coef = min 1 ((v / xmax) ^ alpha) ∧ 0 < it.coef ∧ it.coef ≤ 1 ∧ (it.coef = 1 ↔ (xmax : ℝ) ≤ v)) := by
  unfold cooCalls at hco
  rw [Res.bind_eq_ok] at hco
  obtain ⟨c0, h0, hco⟩ := hco
  have hma : c0.ma = GoMap.empty := by
    unfold Cooccurrence.new at h0; split at h0
    · cases h0
    · cases h0; rfl
  obtain ⟨hwf, hkeys⟩ := addPairs_keys calls c0 co hco (by rw [hma]; exact GoMap.wf_empty)
  have hpos := addPairs_pos calls c0 co hco (by rw [hma]; intro k v hv; simp at hv)
  rw [hma] at hkeys
  simp only [GoMap.empty, List.map_nil, List.not_mem_nil, false_or] at hkeys
  have hmem : ∀ e ∈ em, ∃ q ∈ calls, e.1 = pairKey q ∧ co.ma.get? e.1 = some e.2 := by
    intro e he
    have he' : e ∈ co.ma := hem.mem_iff.1 he
    obtain ⟨q, hq, e1⟩ := (hkeys e.1).1 (List.mem_map.2 ⟨e, he', rfl⟩)
    exact ⟨q, hq, e1.symm, (GoMap.mem_iff_get? _ hwf e.1 e.2).1 he'⟩
  have hlab : ∀ e ∈ em, ∃ a b : Nat, a ≤ b ∧ b < N ∧ e.1 = pairKey (a, b) ∧
      (gloveItem xmax alpha e).l1 = a ∧ (gloveItem xmax alpha e).l2 = b ∧ pairCount calls a b ≠ 0 := by
    intro e he
    obtain ⟨⟨a, b⟩, hq, e1, _⟩ := hmem e he
    have hb := hc _ hq
    dsimp only at hb
    have hd := decode_pairKey (a := a) (b := b) (by omega) (by omega)
    refine ⟨min a b, max a b, by omega, by omega, by rw [e1, pairKey_min_max], ?_, ?_, ?_⟩
    · simp only [gloveItem, e1]; exact hd.1
    · simp only [gloveItem, e1]; exact hd.2
    · unfold pairCount
      rw [Ne, List.countP_eq_zero]
      intro hh
      have := hh _ hq
      rcases Nat.le_total a b with h | h
      · simp [Nat.min_eq_left h, Nat.max_eq_right h] at this
      · simp [Nat.min_eq_right h, Nat.max_eq_left h] at this
  refine ⟨?_, ?_, ?_⟩
  · rw [gloveItems, List.map_map]
    have hnd : (em.map Prod.fst).Nodup := (hem.map Prod.fst).nodup_iff.2 hwf
    have hinj : ∀ x ∈ em, ∀ y ∈ em, ((fun it : GItem ℝ => (it.l1, it.l2)) ∘ gloveItem xmax alpha) x =
        ((fun it : GItem ℝ => (it.l1, it.l2)) ∘ gloveItem xmax alpha) y → x.1 = y.1 := by
      intro x hx' y hy' hxy
      obtain ⟨a, b, _, _, k1, l1, l2, _⟩ := hlab x hx'
      obtain ⟨a', b', _, _, k1', l1', l2', _⟩ := hlab y hy'
      simp only [Function.comp_apply, Prod.mk.injEq] at hxy
      rw [l1, l2, l1', l2'] at hxy
      rw [k1, k1']
      have e1 : a = a' := by omega
      have e2 : b = b' := by omega
      rw [e1, e2]
    clear hem hmem hlab
    induction em with
    | nil => simp
    | cons e em ih =>
      simp only [List.map_cons, List.nodup_cons] at hnd ⊢
      refine ⟨?_, ih hnd.2 (fun x hx y hy => hinj x (by simp [hx]) y (by simp [hy]))⟩
      intro hin
      obtain ⟨y, hy, hye⟩ := List.mem_map.1 hin
      exact hnd.1 (List.mem_map.2 ⟨y, hy, hinj y (by simp [hy]) e (by simp) hye⟩)
  · intro a b
    constructor
    · rintro ⟨it, hit, e1, e2⟩
      obtain ⟨e, he, rfl⟩ := List.mem_map.1 hit
      obtain ⟨a', b', hle, _, _, l1, l2, hne⟩ := hlab e he
      have : a = a' := by omega
      have : b = b' := by omega
      subst a' b'
      exact ⟨hle, hne⟩
    · rintro ⟨hle, hne⟩
      have : ∃ q ∈ calls, pairKey q = pairKey (a, b) ∧ a < N ∧ b < N := by
        unfold pairCount at hne
        rw [Ne, List.countP_eq_zero] at hne
        simp only [decide_eq_true_eq] at hne
        push Not at hne
        obtain ⟨q, hq, rfl | rfl⟩ := hne
        · exact ⟨_, hq, rfl, hc _ hq⟩
        · exact ⟨_, hq, pairKey_comm _ _, (hc _ hq).2, (hc _ hq).1⟩
      obtain ⟨q, hq, e1, han, hbn⟩ := this
      obtain ⟨e, he, hek⟩ := List.mem_map.1 ((hkeys (pairKey (a, b))).2 ⟨q, hq, e1⟩)
      refine ⟨gloveItem xmax alpha e, List.mem_map.2 ⟨e, hem.mem_iff.2 he, rfl⟩, ?_⟩
      have hd := decode_pairKey (a := a) (b := b) (by omega) (by omega)
      rw [Nat.min_eq_left hle, Nat.max_eq_right hle] at hd
      simp only [gloveItem, hek]
      exact hd
  · intro it hit
    obtain ⟨e, he, rfl⟩ := List.mem_map.1 hit
    obtain ⟨_, _, _, hg⟩ := hmem e he
    obtain ⟨a, b, hle, hbN, hk, l1, l2, _⟩ := hlab e he
    have hv := hpos _ _ hg
    have hxr : (0 : ℝ) < xmax := by exact_mod_cast hx
    obtain ⟨w1, w2, w3, w4⟩ := gloveWeight hv hxr ha
    have hcoef : (gloveItem xmax alpha e).coef = min 1 ((e.2 / xmax) ^ alpha) := by
      rw [← w1]
      simp [gloveItem]
    refine ⟨a, b, e.2, l1, l2, hle, hbN, by rw [entry, Cooccurrence.encodedMatrix, ← hg, hk]; rfl, hv, rfl, hcoef, ?_, ?_, ?_⟩
    · rw [hcoef]; exact w2
    · rw [hcoef]; exact w3
    · rw [hcoef]; exact w4

/-- `C40_items` on three recorded pairs, enumerated in the order of the map. -/
example (co : Cooccurrence ℝ) (h : cooCalls "inc" [(1, 0), (0, 1), (2, 2)] = .ok co) :=
  C40_items "inc" [(1, 0), (0, 1), (2, 2)] 3 (by norm_num) (by decide) co h _ (List.Perm.refl _) 100 (by norm_num) (3 / 4) (by norm_num)

example : ∃ co : Cooccurrence ℝ, cooCalls "inc" [(1, 0), (0, 1), (2, 2)] = .ok co ∧
    (∀ q ∈ [((1 : Nat), (0 : Nat)), (0, 1), (2, 2)], q.1 < 3 ∧ q.2 < 3) ∧ pairCount [(1, 0), (0, 1), (2, 2)] 0 1 = 2 := by
  obtain ⟨co, h, _⟩ := C04_inc_counts [(1, 0), (0, 1), (2, 2)] (by decide)
  exact ⟨co, h, by decide, by decide⟩

/-- **C40 (document).** For an in-memory document counted with `"inc"`: one item for every unordered pair of ids that
occurs within the window, carrying the logarithm of the number of such position pairs. -/
theorem C40_items_of_document (cfg : CorpusCfg) (p : Pass) (ws : List Word) (h : Readable p ws) (window : Int)
    (hdic : (ws.map cfg.norm).dedup.length ≤ 2 ^ 32) (xmax : Int) (hx : 0 < xmax) (alpha : ℝ) (ha : 0 < alpha) :
    ∃ (c : CorpusState ℝ) (co : Cooccurrence ℝ), memLoad cfg p (some ⟨"inc", window⟩) = .ok c ∧ c.cooc = some co ∧
      ∀ em : List (BitVec 64 × ℝ), em.Perm co.encodedMatrix →
        let count := pairCount (windowPairs window.toNat (docIds (ws.map cfg.norm)))
        ((gloveItems xmax alpha em).map (fun it => (it.l1, it.l2))).Nodup ∧
        (∀ a b : Nat, (∃ it ∈ gloveItems xmax alpha em, it.l1 = a ∧ it.l2 = b) ↔ a ≤ b ∧ count a b ≠ 0) ∧
        (∀ it ∈ gloveItems xmax alpha em, ∃ a b : Nat, it.l1 = a ∧ it.l2 = b ∧ b < c.dic.len ∧
          it.f = Real.log (count a b) ∧ it.coef = min 1 ((count a b / xmax : ℝ) ^ alpha)) := by
  obtain ⟨c, co, h1, h2, h3⟩ := C14_memory_cooccurrence cfg p ws h window hdic
  refine ⟨c, co, h1, h2, fun em hem => ?_⟩
  obtain ⟨co', k1, k2, k3, k4⟩ := memLoad_cooc cfg h ⟨"inc", window⟩ c h1
  rw [h2] at k1; cases k1
  have hlen : c.dic.len ≤ 2 ^ 32 := by rw [k2.len_eq]; exact hdic
  obtain ⟨i1, i2, i3⟩ := C40_items "inc" _ c.dic.len hlen k4 co k3 em hem xmax hx alpha ha
  refine ⟨i1, i2, fun it hit => ?_⟩
  obtain ⟨a, b, v, l1, l2, hab, hb, he, _, hf, hcoef, _⟩ := i3 it hit
  have hv := h3 a b (by omega) (by omega)
  dsimp only at hv
  rw [he] at hv
  split at hv
  · cases hv
  · cases hv
    exact ⟨a, b, l1, l2, hb, hf, hcoef⟩

/-- `C40_items_of_document` on `a b a`. -/
example := C40_items_of_document ⟨false, id, -1, 0⟩ ⟨['a', ' ', 'b', ' ', 'a'], false⟩ [['a'], ['b'], ['a']] ⟨isWords_fields _, rfl, by decide⟩ 2
  (by rw [show ([['a'], ['b'], ['a']].map (CorpusCfg.norm ⟨false, id, -1, 0⟩)).dedup.length = 2 by decide]; norm_num) 100 (by norm_num) (3 / 4) (by norm_num)

/-- **C41.** The stochastic step on two different rows `a`, `b` of a parameter matrix with `dim` weights and a bias per row:
both rows move along the *old* other row, the biases move by `d`, no other row changes. -/
theorem C41_sgd_step {m : Matrix ℝ} {r dim : Nat} (h : Shaped m r (dim + 1)) {a b : Nat} (ha : a < r) (hb : b < r) (hab : a ≠ b)
    (f coef lr : ℝ) :
    let d := lr * coef * (∑ j ∈ Finset.range dim, m.val a j * m.val b j + m.val a dim + m.val b dim - f)
    ∃ m', sgdOne lr a b m f coef = .ok m' ∧ Shaped m' r (dim + 1) ∧
      (∀ j < dim, m'.val a j = m.val a j - d * m.val b j ∧ m'.val b j = m.val b j - d * m.val a j) ∧
      m'.val a dim = m.val a dim - d ∧ m'.val b dim = m.val b dim - d ∧
      (∀ k, k ≠ a → k ≠ b → ∀ j, m'.val k j = m.val k j) := by
  obtain ⟨d, m', h1, h2⟩ := sgdOne_val h ha hb hab f coef lr
  rw [gloveDiff_real h ha hb] at h1
  cases h1
  exact ⟨m', h2⟩

/-- `C41_sgd_step` on one word of dimension 1 (rows 0 and 1). -/
example := C41_sgd_step (m := ⟨[1 / 2, 0, 1, 0], 2, 2⟩) (r := 2) (dim := 1) ⟨rfl, rfl, rfl⟩ (a := 0) (b := 1) (by decide) (by decide) (by decide) 0 1 (1 / 10)

/-- **C41 (fixed points).** A step whose error or weight is zero changes nothing. -/
theorem C41_zero_step {m : Matrix ℝ} {r dim : Nat} (h : Shaped m r (dim + 1)) {a b : Nat} (ha : a < r) (hb : b < r) (hab : a ≠ b)
    (f coef lr : ℝ)
    (h0 : lr * coef * (∑ j ∈ Finset.range dim, m.val a j * m.val b j + m.val a dim + m.val b dim - f) = 0) :
    sgdOne lr a b m f coef = .ok m := by
  obtain ⟨m', h1, h2, h3, h4, h5, h6⟩ := C41_sgd_step h ha hb hab f coef lr
  rw [h0] at h3 h4 h5
  rw [h1]
  congr 1
  refine h2.ext_val h fun k hk j hj => ?_
  by_cases hka : k = a
  · subst hka
    rcases Nat.lt_or_ge j dim with hjd | hjd
    · rw [(h3 j hjd).1]; ring
    · obtain rfl : j = dim := by omega
      rw [h4]; ring
  · by_cases hkb : k = b
    · subst hkb
      rcases Nat.lt_or_ge j dim with hjd | hjd
      · rw [(h3 j hjd).2]; ring
      · obtain rfl : j = dim := by omega
        rw [h5]; ring
    · exact h6 k hka hkb j

/-- `C41_zero_step`: the residual 1/2 · 1 - 1/2 is 0. -/
example := C41_zero_step (m := ⟨[1 / 2, 0, 1, 0], 2, 2⟩) (r := 2) (dim := 1) ⟨rfl, rfl, rfl⟩ (a := 0) (b := 1) (by decide) (by decide) (by decide) (1 / 2) 1 (1 / 10)
  (by simp [val, rowOf])

/-- The residual of an item: how far the model's prediction is from `f`. -/
noncomputable def residual (m : Matrix ℝ) (dim a b : Nat) (f : ℝ) : ℝ :=
  ∑ j ∈ Finset.range dim, m.val a j * m.val b j + m.val a dim + m.val b dim - f

/-- The squared size of the two weight vectors. -/
noncomputable def sqSize (m : Matrix ℝ) (dim a b : Nat) : ℝ :=
  ∑ j ∈ Finset.range dim, (m.val a j ^ 2 + m.val b j ^ 2)

theorem descent_aux {R S D g : ℝ} (hg : 0 ≤ g) (hS : 0 ≤ S) (hD : |D| ≤ S / 2) (h1 : g * |R| ≤ 1) (h2 : g * (3 * S + 4) ≤ 4) :
    (R * (1 - g * (S + 2) + g ^ 2 * R * D)) ^ 2 ≤ R ^ 2 ∧
      (R ≠ 0 → 0 < g → g * (3 * S + 4) < 4 → (R * (1 - g * (S + 2) + g ^ 2 * R * D)) ^ 2 < R ^ 2) := by
  have hx : |g ^ 2 * R * D| ≤ g * (S / 2) := by
    rw [show g ^ 2 * R * D = (g * R) * (g * D) by ring, abs_mul, abs_mul, abs_mul, abs_of_nonneg hg]
    calc g * |R| * (g * |D|) ≤ 1 * (g * |D|) := by
          apply mul_le_mul_of_nonneg_right h1; positivity
      _ = g * |D| := one_mul _
      _ ≤ g * (S / 2) := mul_le_mul_of_nonneg_left hD hg
  have hx' := abs_le.1 hx
  have hgS : 0 ≤ g * S := mul_nonneg hg hS
  have up : 1 - g * (S + 2) + g ^ 2 * R * D ≤ 1 := by nlinarith
  have lo : -1 ≤ 1 - g * (S + 2) + g ^ 2 * R * D := by nlinarith
  refine ⟨?_, ?_⟩
  · rw [mul_pow]
    have : (1 - g * (S + 2) + g ^ 2 * R * D) ^ 2 ≤ 1 := by
      rw [sq_le_one_iff_abs_le_one, abs_le]; exact ⟨lo, up⟩
    nlinarith [sq_nonneg R]
  · intro hR hgp h2'
    have up' : 1 - g * (S + 2) + g ^ 2 * R * D < 1 := by nlinarith
    have lo' : -1 < 1 - g * (S + 2) + g ^ 2 * R * D := by nlinarith
    rw [mul_pow]
    have : (1 - g * (S + 2) + g ^ 2 * R * D) ^ 2 < 1 := by
      rw [sq_lt_one_iff_abs_lt_one, abs_lt]; exact ⟨lo', up'⟩
    have := mul_pos (sq_pos_of_ne_zero hR) (sub_pos.2 this)
    nlinarith

/-- **C41 (descent).** With a learning rate small enough for the current state (`g = lr*coef`), the squared residual of the item
does not grow, and shrinks if it was not zero. -/
theorem C41_descent {m : Matrix ℝ} {r dim : Nat} (h : Shaped m r (dim + 1)) {a b : Nat} (ha : a < r) (hb : b < r) (hab : a ≠ b)
    (f coef lr : ℝ) (hg : 0 ≤ lr * coef) (h1 : lr * coef * |residual m dim a b f| ≤ 1)
    (h2 : lr * coef * (3 * sqSize m dim a b + 4) ≤ 4) :
    ∃ m', sgdOne lr a b m f coef = .ok m' ∧ (residual m' dim a b f) ^ 2 ≤ (residual m dim a b f) ^ 2 ∧
      (residual m dim a b f ≠ 0 → 0 < lr * coef → lr * coef * (3 * sqSize m dim a b + 4) < 4 →
        (residual m' dim a b f) ^ 2 < (residual m dim a b f) ^ 2) := by
  obtain ⟨m', k1, k2, k3, k4, k5, k6⟩ := C41_sgd_step h ha hb hab f coef lr
  refine ⟨m', k1, ?_⟩
  set D := ∑ j ∈ Finset.range dim, m.val a j * m.val b j with hD
  set S := sqSize m dim a b with hS
  set R := residual m dim a b f with hR
  have hRe : R = D + m.val a dim + m.val b dim - f := rfl
  have hd : lr * coef * (D + m.val a dim + m.val b dim - f) = lr * coef * R := rfl
  rw [hd] at k3 k4 k5
  set g := lr * coef with hgdef
  have hdot : ∑ j ∈ Finset.range dim, m'.val a j * m'.val b j = (1 + (g * R) ^ 2) * D - g * R * S := by
    rw [hD, hS, sqSize, Finset.mul_sum, Finset.mul_sum, ← Finset.sum_sub_distrib]
    apply Finset.sum_congr rfl
    intro j hj
    obtain ⟨e1, e2⟩ := k3 j (Finset.mem_range.1 hj)
    rw [e1, e2]; ring
  have hR' : residual m' dim a b f = R * (1 - g * (S + 2) + g ^ 2 * R * D) := by
    unfold residual
    rw [hdot, k4, k5]
    linear_combination -hRe
  rw [hR']
  apply descent_aux hg
  · exact Finset.sum_nonneg fun j _ => by positivity
  · rw [hD, hS, sqSize, Finset.sum_div]
    refine le_trans (Finset.abs_sum_le_sum_abs _ _) (Finset.sum_le_sum fun j _ => ?_)
    rw [abs_le]; constructor <;> nlinarith [sq_nonneg (m.val a j - m.val b j), sq_nonneg (m.val a j + m.val b j)]
  · exact h1
  · exact h2

/-- A concrete state for the step theorems: two rows (0.5 | 0), (1 | 0), target 0, `lr*coef = 1/10`. -/
example : ∃ m : Matrix ℝ, Shaped m 2 (1 + 1) ∧ residual m 1 0 1 0 = 1 / 2 ∧ sqSize m 1 0 1 = 5 / 4 ∧
    (1 / 10 : ℝ) * |residual m 1 0 1 0| ≤ 1 ∧ (1 / 10 : ℝ) * (3 * sqSize m 1 0 1 + 4) < 4 := by
  refine ⟨⟨[1 / 2, 0, 1, 0], 2, 2⟩, ⟨rfl, rfl, rfl⟩, ?_⟩
  have h1 : residual ⟨[1 / 2, 0, 1, 0], 2, 2⟩ 1 0 1 0 = 1 / 2 := by simp [residual, val, rowOf]
  have h2 : sqSize ⟨[1 / 2, 0, 1, 0], 2, 2⟩ 1 0 1 = 5 / 4 := by simp [sqSize, val, rowOf]; norm_num
  rw [h1, h2]
  norm_num [abs_of_pos]

/-- Rows addressed by the two steps of an item: they exist and differ. -/
def ItemOK (len : Nat) (it : GItem F) : Prop := ∃ a b : Nat, it.l1 = a ∧ it.l2 = b ∧ a < len ∧ b < len

/-- **C41 (no aliasing).** For a dictionary of `N` words the two rows of either step of an item are never the same row. -/
theorem C41_rows_differ (typ : String) (calls : List (Nat × Nat)) (N : Nat) (hN : N ≤ 2 ^ 32)
    (hc : ∀ q ∈ calls, q.1 < N ∧ q.2 < N) (co : Cooccurrence ℝ) (hco : cooCalls typ calls = .ok co)
    (em : List (BitVec 64 × ℝ)) (hem : em.Perm co.encodedMatrix) (xmax : Int) (hx : 0 < xmax) (alpha : ℝ) (ha : 0 < alpha) :
    ∀ it ∈ gloveItems xmax alpha em, it.l1 ≠ it.l2 + N ∧ it.l1 + N ≠ it.l2 := by
  intro it hit
  obtain ⟨a, b, v, l1, l2, hab, hb, _⟩ := (C40_items typ calls N hN hc co hco em hem xmax hx alpha ha).2.2 it hit
  rw [l1, l2]; constructor <;> omega

/-- `C41_rows_differ` on three recorded pairs. -/
example (co : Cooccurrence ℝ) (h : cooCalls "inc" [(1, 0), (0, 1), (2, 2)] = .ok co) :=
  C41_rows_differ "inc" [(1, 0), (0, 1), (2, 2)] 3 (by norm_num) (by decide) co h _ (List.Perm.refl _) 100 (by norm_num) (3 / 4) (by norm_num)

/-- The state of AdaGrad is well-formed: shapes agree and every accumulator is at least 1. -/
structure AdaOK (s : Ada ℝ) (r dim : Nat) : Prop where
  param : Shaped s.param r (dim + 1)
  gradsq : Shaped s.gradsq r (dim + 1)
  ge_one : ∀ i < r, ∀ j < dim + 1, 1 ≤ s.gradsq.val i j

/-- **C42 (start).** The accumulators of a new AdaGrad solver are all 1. -/
theorem C42_start (len dim : Nat) :
    ∃ g : Matrix ℝ, adaGradsq len dim = .ok g ∧ Shaped g (len * 2) (dim + 1) ∧
      ∀ i < len * 2, ∀ j < dim + 1, g.val i j = 1 := by
  obtain ⟨m, h1, h2, h3⟩ := new_rows (F := ℝ) (len * 2) (dim + 1)
    (fun _ _ (s : Unit) => (List.replicate ((dim : Int) + 1).toNat (GoFloat.ofRat 1), s)) () (by
      intro i v s hv; simp only [List.length_replicate]; omega)
  refine ⟨m, ?_, h2, ?_⟩
  · unfold adaGradsq
    have : (((len * 2 : Nat) : Int)) = (len : Int) * 2 := by push_cast; rfl
    rw [this] at h1
    push_cast at h1
    rw [h1]; rfl
  · intro i hi j hj
    rw [val, h3 i hi]
    simp [hj]

/-- **C42.** Every AdaGrad step on two different rows keeps all accumulators at 1 or more (so every square root divided by
is at least 1), never decreases one, and moves every parameter by at most the amount of the plain SGD step. -/
theorem C42_step {s : Ada ℝ} {r dim : Nat} (h : AdaOK s r dim) {a b : Nat} (ha : a < r) (hb : b < r) (hab : a ≠ b) (f coef lr : ℝ) :
    ∃ s' m', adaOne lr a b s f coef = .ok s' ∧ AdaOK s' r dim ∧
      (∀ i < r, ∀ j < dim + 1, s.gradsq.val i j ≤ s'.gradsq.val i j ∧ 1 ≤ Real.sqrt (s'.gradsq.val i j)) ∧
      sgdOne lr a b s.param f coef = .ok m' ∧
      (∀ i < r, ∀ j < dim + 1, |s'.param.val i j - s.param.val i j| ≤ |m'.val i j - s.param.val i j| ∧
        0 ≤ (s'.param.val i j - s.param.val i j) * (m'.val i j - s.param.val i j)) := by
  obtain ⟨d, s', h1, h2, h3, h4, h5, h6, h7, h8, h9, h10⟩ := adaOne_val h.param h.gradsq ha hb hab f coef lr
  obtain ⟨d', m', k1, k2, k3, k4, k5, k6, k7⟩ := sgdOne_val h.param ha hb hab f coef lr
  rw [h1] at k1; cases k1
  simp only [real_add, real_sub, real_mul, real_div, real_sqrt] at h5 h6 h7 h8 h9 k4 k5 k6
  have hmono : ∀ i < r, ∀ j < dim + 1, s.gradsq.val i j ≤ s'.gradsq.val i j := by
    intro i _ j hj
    by_cases hia : i = a
    · subst hia
      rcases Nat.lt_or_ge j dim with hjd | hjd
      · rw [(h5 j hjd).1]; nlinarith [mul_self_nonneg (d * s.param.val b j)]
      · obtain rfl : j = dim := by omega
        rw [h6]; nlinarith [mul_self_nonneg d]
    · by_cases hib : i = b
      · subst hib
        rcases Nat.lt_or_ge j dim with hjd | hjd
        · rw [(h5 j hjd).2.1]; nlinarith [mul_self_nonneg (d * s.param.val a j)]
        · obtain rfl : j = dim := by omega
          rw [h7]; nlinarith [mul_self_nonneg d]
      · rw [(h10 i hia hib j).2]
  have hge : ∀ i < r, ∀ j < dim + 1, 1 ≤ s'.gradsq.val i j := fun i hi j hj => le_trans (h.ge_one i hi j hj) (hmono i hi j hj)
  have hsq : ∀ x : ℝ, 1 ≤ x → 1 ≤ Real.sqrt x := fun x hx => Real.one_le_sqrt.2 hx
  have hstep : ∀ (x t q : ℝ), 1 ≤ q → |x - t / q - x| ≤ |x - t - x| ∧ 0 ≤ (x - t / q - x) * (x - t - x) := by
    intro x t q hq
    have e1 : x - t / q - x = -(t / q) := by ring
    have e2 : x - t - x = -t := by ring
    rw [e1, e2, abs_neg, abs_neg, abs_div, abs_of_pos (by linarith : (0 : ℝ) < q)]
    refine ⟨div_le_self (abs_nonneg _) hq, ?_⟩
    rw [neg_mul_neg, div_mul_eq_mul_div]
    exact div_nonneg (mul_self_nonneg t) (by linarith)
  refine ⟨s', m', h2, ⟨h3, h4, hge⟩, fun i hi j hj => ⟨hmono i hi j hj, hsq _ (hge i hi j hj)⟩, k2, ?_⟩
  intro i hi j hj
  by_cases hia : i = a
  · subst hia
    rcases Nat.lt_or_ge j dim with hjd | hjd
    · rw [(h5 j hjd).2.2.1, (k4 j hjd).1]; exact hstep _ _ _ (hsq _ (hge _ hi _ hj))
    · obtain rfl : j = dim := by omega
      rw [h8, k5]; exact hstep _ _ _ (hsq _ (h.ge_one _ hi _ hj))
  · by_cases hib : i = b
    · subst hib
      rcases Nat.lt_or_ge j dim with hjd | hjd
      · rw [(h5 j hjd).2.2.2, (k4 j hjd).2]; exact hstep _ _ _ (hsq _ (hge _ hi _ hj))
      · obtain rfl : j = dim := by omega
        rw [h9, k6]; exact hstep _ _ _ (hsq _ (h.ge_one _ hi _ hj))
    · rw [(h10 i hia hib j).1, k7 i hia hib j]; simp

/-- Training on a list of items, one after the other, with AdaGrad. -/
def adaTrain {F : Type} [GoFloat F] (lr : F) (len : Nat) (its : List (GItem F)) (s : Ada F) : Res (Ada F) :=
  forEach its s (fun it s => gloveTurn (fun a b s f coef => adaOne lr a b s f coef) len it s)

/-- **C42 (histories).** Over any sequence of items on `len` words, from the initial accumulators: no step fails and the
accumulators stay at least 1 and never decrease. -/
theorem C42_history (lr : ℝ) (len dim : Nat) (its : List (GItem ℝ)) (hit : ∀ it ∈ its, ItemOK len it) (s : Ada ℝ)
    (h : AdaOK s (len * 2) dim) :
    ∃ s', adaTrain lr len its s = .ok s' ∧ AdaOK s' (len * 2) dim ∧
      ∀ i < len * 2, ∀ j < dim + 1, s.gradsq.val i j ≤ s'.gradsq.val i j := by
  induction its generalizing s with
  | nil => exact ⟨s, rfl, h, fun _ _ _ _ => le_refl _⟩
  | cons it its ih =>
    obtain ⟨a, b, l1, l2, ha, hb⟩ := hit it (by simp)
    obtain ⟨s1, _, e1, k1, k2, _⟩ := C42_step h (a := a) (b := b + len) (by omega) (by omega) (by omega) it.f it.coef lr
    obtain ⟨s2, _, e2, k3, k4, _⟩ := C42_step k1 (a := a + len) (b := b) (by omega) (by omega) (by omega) it.f it.coef lr
    obtain ⟨s3, e3, k5, k6⟩ := ih (fun it h => hit it (by simp [h])) s2 k3
    refine ⟨s3, ?_, k5, fun i hi j hj => le_trans (k2 i hi j hj).1 (le_trans (k4 i hi j hj).1 (k6 i hi j hj))⟩
    unfold adaTrain at e3 ⊢
    simp only [forEach_cons, gloveTurn, l1, l2]
    push_cast at e1 e2
    rw [e1, Res.ok_bind, e2, Res.ok_bind]
    exact e3

example : ∃ s : Ada ℝ, AdaOK s (1 * 2) 1 ∧ ItemOK 1 (⟨0, 0, 1, 1⟩ : GItem ℝ) := by
  obtain ⟨g, _, h2, h3⟩ := C42_start 1 1
  exact ⟨⟨g, g⟩, ⟨h2, h2, fun i hi j hj => by rw [h3 i hi j hj]⟩, 0, 0, rfl, rfl, by decide, by decide⟩

section safety
variable {F : Type} [GoMath F]

/-- Training on a list of items, one after the other, with SGD. -/
def sgdTrain (lr : F) (len : Nat) (its : List (GItem F)) (m : Matrix F) : Res (Matrix F) :=
  forEach its m (fun it m => gloveTurn (fun a b m f coef => sgdOne lr a b m f coef) len it m)

theorem sgd_safe (lr : F) (len dim : Nat) (its : List (GItem F)) (hit : ∀ it ∈ its, ItemOK len it) (m : Matrix F)
    (h : Shaped m (len * 2) (dim + 1)) : ∃ m', sgdTrain lr len its m = .ok m' ∧ Shaped m' (len * 2) (dim + 1) := by
  induction its generalizing m with
  | nil => exact ⟨m, rfl, h⟩
  | cons it its ih =>
    obtain ⟨a, b, l1, l2, ha, hb⟩ := hit it (by simp)
    obtain ⟨_, m1, _, e1, k1, _⟩ := sgdOne_val h (a := a) (b := b + len) (by omega) (by omega) (by omega) it.f it.coef lr
    obtain ⟨_, m2, _, e2, k2, _⟩ := sgdOne_val k1 (a := a + len) (b := b) (by omega) (by omega) (by omega) it.f it.coef lr
    obtain ⟨m3, e3, k3⟩ := ih (fun it h => hit it (by simp [h])) m2 k2
    refine ⟨m3, ?_, k3⟩
    unfold sgdTrain at e3 ⊢
    simp only [forEach_cons, gloveTurn, l1, l2]
    push_cast at e1 e2
    rw [e1, Res.ok_bind, e2, Res.ok_bind]
    exact e3

theorem ada_safe (lr : F) (len dim : Nat) (its : List (GItem F)) (hit : ∀ it ∈ its, ItemOK len it) (s : Ada F)
    (hp : Shaped s.param (len * 2) (dim + 1)) (hg : Shaped s.gradsq (len * 2) (dim + 1)) :
    ∃ s', adaTrain lr len its s = .ok s' ∧ Shaped s'.param (len * 2) (dim + 1) ∧ Shaped s'.gradsq (len * 2) (dim + 1) := by
  induction its generalizing s with
  | nil => exact ⟨s, rfl, hp, hg⟩
  | cons it its ih =>
    obtain ⟨a, b, l1, l2, ha, hb⟩ := hit it (by simp)
    obtain ⟨_, s1, _, e1, k1, k1', _⟩ := adaOne_val hp hg (a := a) (b := b + len) (by omega) (by omega) (by omega) it.f it.coef lr
    obtain ⟨_, s2, _, e2, k2, k2', _⟩ := adaOne_val k1 k1' (a := a + len) (b := b) (by omega) (by omega) (by omega) it.f it.coef lr
    obtain ⟨s3, e3, k3⟩ := ih (fun it h => hit it (by simp [h])) s2 k2 k2'
    refine ⟨s3, ?_, k3⟩
    unfold adaTrain at e3 ⊢
    simp only [forEach_cons, gloveTurn, l1, l2]
    push_cast at e1 e2
    rw [e1, Res.ok_bind, e2, Res.ok_bind]
    exact e3

/-- The items made from any successful sequence of `Add` calls on ids below `N` address existing words (any arithmetic). -/
theorem items_ok (typ : String) (calls : List (Nat × Nat)) (N : Nat) (hN : N ≤ 2 ^ 32)
    (hc : ∀ q ∈ calls, q.1 < N ∧ q.2 < N) (co : Cooccurrence F) (hco : cooCalls typ calls = .ok co)
    (em : List (BitVec 64 × F)) (hem : em.Perm co.encodedMatrix) (xmax : Int) (alpha : F) :
    ∀ it ∈ gloveItems xmax alpha em, ItemOK N it := by
  unfold cooCalls at hco
  rw [Res.bind_eq_ok] at hco
  obtain ⟨c0, h0, hco⟩ := hco
  have hma : c0.ma = GoMap.empty := by
    unfold Cooccurrence.new at h0; split at h0
    · cases h0
    · cases h0; rfl
  obtain ⟨_, hkeys⟩ := addPairs_keys calls c0 co hco (by rw [hma]; exact GoMap.wf_empty)
  rw [hma] at hkeys
  simp only [GoMap.empty, List.map_nil, List.not_mem_nil, false_or] at hkeys
  intro it hit
  obtain ⟨e, he, rfl⟩ := List.mem_map.1 hit
  obtain ⟨⟨a, b⟩, hq, e1⟩ := (hkeys e.1).1 (List.mem_map.2 ⟨e, hem.mem_iff.1 he, rfl⟩)
  have hb := hc _ hq
  dsimp only at hb
  have hd := decode_pairKey (a := a) (b := b) (by omega) (by omega)
  refine ⟨min a b, max a b, ?_, ?_, by omega, by omega⟩
  · simp only [gloveItem, ← e1]; exact hd.1
  · simp only [gloveItem, ← e1]; exact hd.2

/-- **C45.** For every non-empty readable document, either corpus implementation (window `>= 1`), either count type and either
solver: training on the items in any order, any number of times (`its` is any sequence of items of the matrix), any learning rate and any arithmetic, never
panics and keeps the shape of the parameters. -/
theorem C45_index_safe (cfg : CorpusCfg) (p : Pass) (ws : List Word) (h : Readable p ws) (hne : ws ≠ []) (t : String) (n : Nat) (hn : 1 ≤ n)
    (hdic : (ws.map cfg.norm).dedup.length ≤ 2 ^ 32) (c : CorpusState F) (co : Cooccurrence F)
    (hload : memLoad cfg p (some ⟨t, n⟩) = .ok c ∨ fsLoad cfg p p (some ⟨t, n⟩) = .ok c) (hco : c.cooc = some co)
    (em : List (BitVec 64 × F)) (hem : em.Perm co.encodedMatrix) (xmax : Int) (alpha lr : F) (dim : Nat)
    (its : List (GItem F)) (hits : ∀ it ∈ its, it ∈ gloveItems xmax alpha em) :
    (∀ m : Matrix F, Shaped m (c.dic.len * 2) (dim + 1) →
      ∃ m', sgdTrain lr c.dic.len its m = .ok m' ∧ Shaped m' (c.dic.len * 2) (dim + 1)) ∧
    (∀ s : Ada F, Shaped s.param (c.dic.len * 2) (dim + 1) → Shaped s.gradsq (c.dic.len * 2) (dim + 1) →
      ∃ s', adaTrain lr c.dic.len its s = .ok s' ∧ Shaped s'.param (c.dic.len * 2) (dim + 1) ∧
        Shaped s'.gradsq (c.dic.len * 2) (dim + 1)) := by
  have hok : ∀ it ∈ its, ItemOK c.dic.len it := by
    rcases hload with hl | hl
    · obtain ⟨co', e1, e2, e3, e4⟩ := memLoad_cooc cfg h ⟨t, n⟩ c hl
      rw [hco] at e1; cases e1
      exact fun it hi => items_ok t _ c.dic.len (by rw [e2.len_eq]; exact hdic) e4 co e3 em hem xmax alpha it (hits it hi)
    · obtain ⟨co', calls, e1, e2, e3, e4⟩ := fsLoad_cooc cfg h t n hn hne c hl
      rw [hco] at e1; cases e1
      exact fun it hi => items_ok t _ c.dic.len (by rw [e2.len_eq]; exact hdic) e4 co e3 em hem xmax alpha it (hits it hi)
  exact ⟨fun m hm => sgd_safe lr _ dim its hok m hm, fun s hp hg => ada_safe lr _ dim its hok s hp hg⟩

/-- `C45_index_safe` on `a b a`, loaded from memory: both solvers train all items, for any table of the right shape. -/
example (c : CorpusState F) (co : Cooccurrence F) (h : memLoad ⟨false, id, -1, 0⟩ ⟨['a', ' ', 'b', ' ', 'a'], false⟩ (some ⟨"inc", (2 : Nat)⟩) = .ok c)
    (hc : c.cooc = some co) (alpha lr : F) :=
  C45_index_safe ⟨false, id, -1, 0⟩ ⟨['a', ' ', 'b', ' ', 'a'], false⟩ [['a'], ['b'], ['a']] ⟨isWords_fields _, rfl, by decide⟩ (by decide) "inc" 2 (by decide)
    (by rw [show ([['a'], ['b'], ['a']].map (CorpusCfg.norm ⟨false, id, -1, 0⟩)).dedup.length = 2 by decide]; norm_num) c co (.inl h) hc _ (List.Perm.refl _)
    100 alpha lr 1 _ (fun _ h => h)

/-- **C45 (empty document).** On a document without words the file-backed corpus counts the pair `{0, 0}` of a word that does not
exist, and the first training step panics, for either solver, whatever the parameters. -/
theorem C45_empty_document_panics (cfg : CorpusCfg) (p : Pass) (h : Readable p []) (n : Nat) (hn : 1 ≤ n) (dim : Nat)
    (xmax : Int) (alpha lr : F) :
    ∃ (c : CorpusState F) (co : Cooccurrence F), fsLoad cfg p p (some ⟨"inc", n⟩) = .ok c ∧ c.cooc = some co ∧ c.dic.len = 0 ∧
      gloveItems xmax alpha co.encodedMatrix ≠ [] ∧
      ∀ it ∈ gloveItems xmax alpha co.encodedMatrix,
        (∀ m : Matrix F, Shaped m (c.dic.len * 2) (dim + 1) → sgdTrain lr c.dic.len [it] m = .panic .sliceBounds) ∧
        (∀ s : Ada F, Shaped s.param (c.dic.len * 2) (dim + 1) → adaTrain lr c.dic.len [it] s = .panic .sliceBounds) := by
  obtain ⟨c0, h1, h2, h3, _, _, _, h6⟩ := fsLoad_readable (F := F) cfg h
  have h7 := h6 "inc" n hn
  rw [new_inc, Res.ok_bind] at h7
  obtain ⟨co, a1, _, a3, _⟩ := addPairs_inc (F := F) ((fwdCalls n []).map (fun q => (c0.dic.idOrZero q.1, c0.dic.idOrZero q.2)))
    ⟨countInc, GoMap.empty⟩ rfl
  obtain ⟨_, hkeys⟩ := addPairs_keys _ _ co a1 GoMap.wf_empty
  simp only [GoMap.empty, List.map_nil, List.not_mem_nil, false_or] at hkeys
  have hlen : c0.dic.len = 0 := by rw [h2.len_eq]; rfl
  have hid : c0.dic.idOrZero [] = 0 := by rw [h2.idOrZero_eq]; simp
  have hcalls : ∀ q ∈ (fwdCalls n []).map (fun q => (c0.dic.idOrZero q.1, c0.dic.idOrZero q.2)), q = (0, 0) := by
    intro q hq
    obtain ⟨x, hx, rfl⟩ := List.mem_map.1 hq
    have : x = ([], []) := List.eq_of_mem_replicate hx
    rw [this, hid]
  rw [a1, Res.ok_bind] at h7
  refine ⟨_, co, h7, rfl, hlen, ?_, ?_⟩
  · intro hnil
    have : pairKey (0, 0) ∈ co.ma.map Prod.fst := by
      rw [hkeys]
      refine ⟨(0, 0), List.mem_map.2 ⟨([], []), ?_, by rw [hid]⟩, rfl⟩
      exact List.mem_replicate.2 ⟨by omega, rfl⟩
    rw [gloveItems, List.map_eq_nil_iff, Cooccurrence.encodedMatrix] at hnil
    rw [hnil] at this
    simp at this
  · intro it hit
    obtain ⟨e, he, rfl⟩ := List.mem_map.1 hit
    obtain ⟨q, hq, e1⟩ := (hkeys e.1).1 (List.mem_map.2 ⟨e, he, rfl⟩)
    rw [hcalls q hq] at e1
    have hd := decode_pairKey (a := 0) (b := 0) (by norm_num) (by norm_num)
    have l1 : (gloveItem xmax alpha e).l1 = 0 := by simp only [gloveItem, ← e1]; exact hd.1
    have l2 : (gloveItem xmax alpha e).l2 = 0 := by simp only [gloveItem, ← e1]; exact hd.2
    have hdiff : ∀ m : Matrix F, Shaped m (c0.dic.len * 2) (dim + 1) → ∀ f coef,
        gloveDiff m 0 0 dim f coef lr = .panic .sliceBounds := by
      intro m hm f coef
      rw [hlen] at hm
      have hget : ∀ j, m.getAt 0 j = .panic .sliceBounds := by
        intro j
        unfold getAt Matrix.slice startIndex
        simp only [hm.col, hm.len]
        rw [if_neg (by push_cast; omega)]; rfl
      unfold gloveDiff pairDot
      cases dim with
      | zero => simp [forN, hget]
      | succ d => simp [forN, forFrom, hget]
    refine ⟨fun m hm => ?_, fun s hs => ?_⟩
    · unfold sgdTrain
      simp only [forEach_cons, gloveTurn, l1, l2, hlen, Int.zero_add, Nat.cast_zero, sgdOne, col_sub_one hm, hdiff m hm, Res.panic_bind]
    · unfold adaTrain
      simp only [forEach_cons, gloveTurn, l1, l2, hlen, Int.zero_add, Nat.cast_zero, adaOne, col_sub_one hs, hdiff s.param hs, Res.panic_bind]

/-- `C45_empty_document_panics`: the empty file. -/
example (alpha lr : F) := C45_empty_document_panics ⟨false, id, -1, 0⟩ ⟨[], false⟩ ⟨isWords_fields [], rfl, by decide⟩ 5 (by decide) 10 100 alpha lr

example : Readable ⟨['a', ' ', 'b', ' ', 'a'], false⟩ [['a'], ['b'], ['a']] ∧ Readable ⟨[], false⟩ [] :=
  ⟨⟨isWords_fields _, rfl, by decide⟩, ⟨isWords_fields [], rfl, by decide⟩⟩

end safety

end Wego.Props
