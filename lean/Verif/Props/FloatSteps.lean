import Verif.Props.Glove
import Verif.Props.Lexvec
import Verif.Proofs.F64Mono

/-! C41, C42 and C47 in float64 (and any other arithmetic): the steps operation by operation, and what becomes of the
AdaGrad accumulators when every operation rounds. -/

namespace Wego.Props
open Wego Matrix Spec F64

section any
variable {F : Type} [GoFloat F]

/-- specification: `0 + x0*y0 + x1*y1 + ...`, added from the left, each operation in the arithmetic `F` -/
def dotLeft (x y : Nat → F) : Nat → F
  | 0 => GoFloat.ofRat 0
  | n + 1 => dotLeft x y n +. x n *. y n

theorem pairDot_left {m : Matrix F} {r c : Nat} (h : Shaped m r c) {a b n : Nat} (ha : a < r) (hb : b < r) (hn : n ≤ c) :
    pairDot m a b n = .ok (dotLeft (m.val a) (m.val b) n) := by
  obtain ⟨d, h1, h2⟩ := forN_inv (fun i (x : F) => x = dotLeft (m.val a) (m.val b) i) n (fzero : F) (fun i acc =>
    m.getAt (a : Int) i >>= fun x => m.getAt (b : Int) i >>= fun y => .ok (acc +. x *. y)) rfl (by
      rintro i s hi rfl
      simp only [h.getAt_val ha (show i < c by omega), h.getAt_val hb (show i < c by omega), Res.ok_bind]
      exact ⟨_, rfl, rfl⟩)
  rw [h2] at h1
  exact h1

/-- specification: the scaled error of a GloVe item, operation by operation -/
def gloveErr (m : Matrix F) (dim a b : Nat) (f coef lr : F) : F :=
  (dotLeft (m.val a) (m.val b) dim +. ((m.val a dim +. m.val b dim) -. f)) *. (coef *. lr)

theorem gloveDiff_left {m : Matrix F} {r dim : Nat} (h : Shaped m r (dim + 1)) {a b : Nat} (ha : a < r) (hb : b < r) (f coef lr : F) :
    gloveDiff m a b dim f coef lr = .ok (gloveErr m dim a b f coef lr) := by
  unfold gloveDiff
  rw [pairDot_left h ha hb (Nat.le_succ dim)]
  simp only [Res.ok_bind, h.getAt_val ha (Nat.lt_succ_self dim), h.getAt_val hb (Nat.lt_succ_self dim)]
  rfl

/-- **C41 (any arithmetic, float64 included).** The stochastic step on two different rows: every new value is computed from
the old ones by the very operations of the formula, each in the arithmetic `F`; no other row changes. -/
theorem C41_sgd_step_any {m : Matrix F} {r dim : Nat} (h : Shaped m r (dim + 1)) {a b : Nat} (ha : a < r) (hb : b < r)
    (hab : a ≠ b) (f coef lr : F) :
    let d := gloveErr m dim a b f coef lr
    ∃ m', sgdOne lr a b m f coef = .ok m' ∧ Shaped m' r (dim + 1) ∧
      (∀ j < dim, m'.val a j = m.val a j -. d *. m.val b j ∧ m'.val b j = m.val b j -. d *. m.val a j) ∧
      m'.val a dim = m.val a dim -. d ∧ m'.val b dim = m.val b dim -. d ∧
      (∀ k, k ≠ a → k ≠ b → ∀ j, m'.val k j = m.val k j) := by
  obtain ⟨d, m', h1, h2⟩ := sgdOne_val h ha hb hab f coef lr
  rw [gloveDiff_left h ha hb] at h1
  cases h1
  exact ⟨m', h2⟩

/-- in float64, one word of dimension 1 -/
example := C41_sgd_step_any (F := F64) (m := ⟨[GoFloat.ofRat (1 / 2), GoFloat.ofRat 0, GoFloat.ofRat 1, GoFloat.ofRat 0], 2, 2⟩)
  (r := 2) (dim := 1) ⟨rfl, rfl, rfl⟩ (a := 0) (b := 1) (by decide) (by decide) (by decide)
  (GoFloat.ofRat 0) (GoFloat.ofRat 1) (GoFloat.ofRat (1 / 10))

/-- **C42 (any arithmetic, float64 included).** The AdaGrad step: the accumulator of a weight grows by the square of its
gradient *before* the weight is moved by the gradient over the root of the new accumulator; the bias is moved by the error over the
root of the *old* accumulator, which then grows by the square of the error. -/
theorem C42_step_any {s : Ada F} {r dim : Nat} (hp : Shaped s.param r (dim + 1)) (hg : Shaped s.gradsq r (dim + 1)) {a b : Nat}
    (ha : a < r) (hb : b < r) (hab : a ≠ b) (f coef lr : F) :
    let d := gloveErr s.param dim a b f coef lr
    let t1 := fun j => d *. s.param.val b j
    let t2 := fun j => d *. s.param.val a j
    ∃ s', adaOne lr a b s f coef = .ok s' ∧ Shaped s'.param r (dim + 1) ∧ Shaped s'.gradsq r (dim + 1) ∧
      (∀ j < dim,
        s'.gradsq.val a j = s.gradsq.val a j +. t1 j *. t1 j ∧ s'.gradsq.val b j = s.gradsq.val b j +. t2 j *. t2 j ∧
        s'.param.val a j = s.param.val a j -. t1 j /. GoFloat.sqrt (s'.gradsq.val a j) ∧
        s'.param.val b j = s.param.val b j -. t2 j /. GoFloat.sqrt (s'.gradsq.val b j)) ∧
      s'.gradsq.val a dim = s.gradsq.val a dim +. d *. d ∧ s'.gradsq.val b dim = s.gradsq.val b dim +. d *. d ∧
      s'.param.val a dim = s.param.val a dim -. d /. GoFloat.sqrt (s.gradsq.val a dim) ∧
      s'.param.val b dim = s.param.val b dim -. d /. GoFloat.sqrt (s.gradsq.val b dim) ∧
      (∀ k, k ≠ a → k ≠ b → ∀ j, s'.param.val k j = s.param.val k j ∧ s'.gradsq.val k j = s.gradsq.val k j) := by
  obtain ⟨d, s', h1, h2⟩ := adaOne_val hp hg ha hb hab f coef lr
  rw [gloveDiff_left hp ha hb] at h1
  cases h1
  exact ⟨s', h2⟩

/-- **C47 (any arithmetic, float64 included).** The update of two rows, operation by operation; when both are the same row,
each value loses the same product twice, one subtraction after the other. -/
theorem C47_update_any {m : Matrix F} {r dim : Nat} (h : Shaped m r dim) {a b : Nat} (ha : a < r) (hb : b < r) (lr f : F) :
    let d := (dotLeft (m.val a) (m.val b) dim -. f) *. lr
    ∃ m', lexUpdate dim lr a b f m = .ok m' ∧ Shaped m' r dim ∧
      (a ≠ b → ∀ j < dim, m'.val a j = m.val a j -. d *. m.val b j ∧ m'.val b j = m.val b j -. d *. m.val a j) ∧
      (a = b → ∀ j < dim, m'.val a j = (m.val a j -. d *. m.val a j) -. d *. m.val a j) ∧
      (∀ k, k ≠ a → k ≠ b → ∀ j, m'.val k j = m.val k j) := by
  intro d
  obtain ⟨m', h1, h2, h3⟩ := pairSubLoop_val h ha hb (le_refl dim) d
  refine ⟨m', ?_, h2, ?_, ?_, ?_⟩
  · unfold lexUpdate
    rw [Int.toNat_natCast, pairDot_left h ha hb (le_refl dim), Res.ok_bind, ← h1]
  · intro hab j hj
    rw [h3, h3, if_pos hj, if_pos hj]
    simp [hab, Ne.symm hab]
  · rintro rfl j hj
    rw [h3, if_pos hj]
    simp
  · intro k hka hkb j
    rw [h3]; simp [hka, hkb]

/-- in float64, both cases -/
example := C47_update_any (F := F64) (m := ⟨[GoFloat.ofRat 1, GoFloat.ofRat 2], 2, 1⟩) (r := 2) (dim := 1) ⟨rfl, rfl, rfl⟩
  (a := 0) (b := 1) (by decide) (by decide) (GoFloat.ofRat (1 / 10)) (GoFloat.ofRat 3)

end any

/-- AdaGrad in float64: every accumulator is at least 1, or NaN. -/
structure AdaF64OK (s : Ada F64) (r dim : Nat) : Prop where
  param : Shaped s.param r (dim + 1)
  gradsq : Shaped s.gradsq r (dim + 1)
  one_le : ∀ i < r, ∀ j < dim + 1, s.gradsq.val i j = .nan ∨ GoFloat.le (GoFloat.ofRat 1) (s.gradsq.val i j) = true

/-- an accumulator that did not shrink: NaN, or at least its old value -/
def Grown (old new : F64) : Prop := new = .nan ∨ GoFloat.le old new = true

theorem grown_refl (x : F64) : Grown x x := by
  by_cases h : x = .nan
  · exact Or.inl h
  · obtain ⟨a, ha⟩ := (isNum_iff_key x).1 ((isNum_iff x).2 h)
    exact Or.inr ((le_iff _ _).2 ⟨a, a, ha, ha, le_refl _⟩)

/-- **C42 in float64.** Whatever is computed with rounding, overflow and NaN: every AdaGrad step on two different rows keeps
every accumulator at 1 or more (or it is NaN), and every accumulator is NaN or not smaller than before. NaN comes in only through a gradient that is NaN. -/
theorem C42_float64_step {s : Ada F64} {r dim : Nat} (h : AdaF64OK s r dim) {a b : Nat} (ha : a < r) (hb : b < r) (hab : a ≠ b)
    (f coef lr : F64) :
    ∃ s', adaOne lr a b s f coef = .ok s' ∧ AdaF64OK s' r dim ∧
      ∀ i < r, ∀ j < dim + 1, Grown (s.gradsq.val i j) (s'.gradsq.val i j) ∧
        (s'.gradsq.val i j = .nan → s.gradsq.val i j = .nan ∨
          gloveErr s.param dim a b f coef lr = .nan ∨
          gloveErr s.param dim a b f coef lr *. s.param.val (if i = a then b else a) j = .nan) := by
  obtain ⟨s', h1, h2, h3, h4, h5, h6, _, _, h9⟩ := C42_step_any h.param h.gradsq ha hb hab f coef lr
  set d := gloveErr s.param dim a b f coef lr with hd
  have key : ∀ i < r, ∀ j < dim + 1, (s'.gradsq.val i j = s.gradsq.val i j) ∨
      ∃ t, s'.gradsq.val i j = s.gradsq.val i j +. t *. t ∧ (t = .nan → d = .nan ∨ d *. s.param.val (if i = a then b else a) j = .nan) := by
    intro i hi j hj
    by_cases hia : i = a
    · subst hia
      rcases Nat.lt_or_ge j dim with hjd | hjd
      · exact Or.inr ⟨_, (h4 j hjd).1, fun e => Or.inr (by simpa using e)⟩
      · obtain rfl : j = dim := by omega
        exact Or.inr ⟨_, h5, fun e => Or.inl e⟩
    · by_cases hib : i = b
      · subst hib
        rcases Nat.lt_or_ge j dim with hjd | hjd
        · exact Or.inr ⟨_, (h4 j hjd).2.1, fun e => Or.inr (by simpa [hia] using e)⟩
        · obtain rfl : j = dim := by omega
          exact Or.inr ⟨_, h6, fun e => Or.inl e⟩
      · exact Or.inl (h9 i hia hib j).2
  refine ⟨s', h1, ⟨h2, h3, ?_⟩, ?_⟩
  · intro i hi j hj
    have o := h.one_le i hi j hj
    rcases key i hi j hj with e | ⟨t, e, _⟩
    · rw [e]; exact o
    · rw [e]; exact (acc_step _ t o).2.imp id And.right
  · intro i hi j hj
    have o := h.one_le i hi j hj
    rcases key i hi j hj with e | ⟨t, e, et⟩
    · rw [e]; exact ⟨grown_refl _, Or.inl⟩
    · rw [e]
      refine ⟨(acc_step _ t o).2.imp id And.left, fun hn => ?_⟩
      rcases (acc_step _ t o).1.1 hn with hn | hn
      · exact Or.inl hn
      · exact Or.inr (et hn)

/-- **C42 in float64 (the divisor).** So every root divided by is at least 1, division by zero never happens, and the quotient is
not larger in absolute value than the gradient (or NaN: infinity over infinity, or a NaN gradient). -/
theorem C42_float64_divisor (g t : F64) (h : GoFloat.le (GoFloat.ofRat 1) g = true) :
    GoFloat.le (GoFloat.ofRat 1) (GoFloat.sqrt g) = true ∧
    (t /. GoFloat.sqrt g = .nan ∨ GoFloat.le (GoFloat.abs (t /. GoFloat.sqrt g)) (GoFloat.abs t) = true) :=
  ⟨one_le_sqrt h, div_shrinks t _ (one_le_sqrt h)⟩

/-- the accumulators of a new solver meet the invariant -/
theorem ada_start_float64 (len dim : Nat) : ∃ g : Matrix F64, adaGradsq len dim = .ok g ∧ Shaped g (len * 2) (dim + 1) ∧
    ∀ i < len * 2, ∀ j < dim + 1, g.val i j = GoFloat.ofRat 1 := by
  obtain ⟨m, h1, h2, h3⟩ := new_rows (F := F64) (len * 2) (dim + 1)
    (fun _ _ (s : Unit) => (List.replicate ((dim : Int) + 1).toNat (GoFloat.ofRat 1), s)) () (by
      intro i v s hv; simp only [List.length_replicate]; omega)
  refine ⟨m, ?_, h2, ?_⟩
  · unfold adaGradsq
    have : (((len * 2 : Nat) : Int)) = (len : Int) * 2 := by push_cast; rfl
    rw [this] at h1
    push_cast at h1
    rw [h1]; rfl
  · intro i hi j hj
    rw [val, h3 i hi]
    simp [hj]

theorem one_le_one : GoFloat.le (GoFloat.ofRat 1 : F64) (GoFloat.ofRat 1) = true :=
  (le_iff _ _).2 ⟨_, _, key_one, key_one, le_refl _⟩

/-- a new solver in float64 meets the hypothesis of the theorems; one item on one word -/
example : ∃ s : Ada F64, AdaF64OK s (1 * 2) 1 ∧ ItemOK 1 (⟨0, 0, GoFloat.ofRat 1, GoFloat.ofRat 1⟩ : GItem F64) := by
  obtain ⟨g, _, h2, h3⟩ := ada_start_float64 1 1
  exact ⟨⟨g, g⟩, ⟨h2, h2, fun i hi j hj => by rw [h3 i hi j hj]; exact Or.inr one_le_one⟩, 0, 0, rfl, rfl, by decide, by decide⟩

theorem Grown.trans {x y z : F64} (h : Grown x y) (h' : Grown y z) : Grown x z := by
  rcases h' with h' | h'
  · exact Or.inl h'
  · rcases h with rfl | h
    · obtain ⟨a, b, h1, _⟩ := (le_iff _ _).1 h'
      simp [key] at h1
    · obtain ⟨a, b, h1, h2, h3⟩ := (le_iff _ _).1 h
      obtain ⟨b', c, h4, h5, h6⟩ := (le_iff _ _).1 h'
      rw [h2] at h4
      cases h4
      exact Or.inr ((le_iff _ _).2 ⟨a, c, h1, h5, h3.trans h6⟩)

/-- **C42 in float64 (histories).** Over any sequence of items on `len` words: no step fails, no accumulator falls below 1 or
below an earlier value of its own (NaN excepted). -/
theorem C42_float64_history (lr : F64) (len dim : Nat) (its : List (GItem F64)) (hit : ∀ it ∈ its, ItemOK len it) (s : Ada F64)
    (h : AdaF64OK s (len * 2) dim) :
    ∃ s', adaTrain lr len its s = .ok s' ∧ AdaF64OK s' (len * 2) dim ∧
      ∀ i < len * 2, ∀ j < dim + 1, Grown (s.gradsq.val i j) (s'.gradsq.val i j) := by
  induction its generalizing s with
  | nil => exact ⟨s, rfl, h, fun _ _ _ _ => grown_refl _⟩
  | cons it its ih =>
    obtain ⟨a, b, l1, l2, ha, hb⟩ := hit it (by simp)
    obtain ⟨s1, e1, k1, k2⟩ := C42_float64_step h (a := a) (b := b + len) (by omega) (by omega) (by omega) it.f it.coef lr
    obtain ⟨s2, e2, k3, k4⟩ := C42_float64_step k1 (a := a + len) (b := b) (by omega) (by omega) (by omega) it.f it.coef lr
    obtain ⟨s3, e3, k5, k6⟩ := ih (fun it h => hit it (by simp [h])) s2 k3
    refine ⟨s3, ?_, k5, fun i hi j hj => ((k2 i hi j hj).1.trans (k4 i hi j hj).1).trans (k6 i hi j hj)⟩
    unfold adaTrain at e3 ⊢
    simp only [forEach_cons, gloveTurn, l1, l2]
    push_cast at e1 e2
    rw [e1, Res.ok_bind, e2, Res.ok_bind]
    exact e3

end Wego.Props
