import Verif.Props.Search
import Verif.Proofs.F64
import Mathlib.Tactic.Ring

/-! # C98: `searchutil.Cosine` in float64 -/

namespace Wego.Props
open Wego

theorem f64_mul_comm (x y : F64) : F64.mul x y = F64.mul y x := by
  cases x with
  | nan => cases y <;> rfl
  | inf a =>
    cases y with
    | nan => rfl
    | inf b => simp only [F64.mul, Bool.xor_comm]
    | fin t m k => simp only [F64.mul, Bool.xor_comm]
  | fin s n h =>
    cases y with
    | nan => rfl
    | inf b => simp only [F64.mul, Bool.xor_comm]
    | fin t m k => simp only [F64.mul, Bool.xor_comm, mul_comm]

theorem dotFrom_comm (a : List F64) : ∀ (b pa pb : List F64) (acc : F64), a.length = b.length → pa.length = pb.length →
    dotFrom (pb ++ b) pb.length acc a = dotFrom (pa ++ a) pa.length acc b := by
  induction a with
  | nil => intro b pa pb acc h _; cases b with
    | nil => rfl
    | cons y b => simp at h
  | cons x a ih =>
    intro b pa pb acc h hp
    cases b with
    | nil => simp at h
    | cons y b =>
      rw [dotFrom.eq_def, dotFrom.eq_def _ _ _ (y :: b)]
      dsimp only
      have h1 : idx (pb ++ y :: b) pb.length = .ok y := by rw [idx_eq_ok]; simp
      have h2 : idx (pa ++ x :: a) pa.length = .ok x := by rw [idx_eq_ok]; simp
      rw [h1, h2, Res.ok_bind, Res.ok_bind]
      have := ih b (pa ++ [x]) (pb ++ [y]) (acc +. x *. y) (by simpa using h) (by simpa using hp)
      simp only [List.append_assoc, List.cons_append, List.nil_append, List.length_append,
        List.length_singleton] at this
      rw [this]
      have e : x *. y = y *. x := f64_mul_comm x y
      rw [e]

/-- **C98 (what holds, symmetry).** Two float64 vectors of equal length and equal norm have the same similarity
either way round. -/
theorem C98_symmetric_partial (a b : List F64) (n : F64) (h : a.length = b.length) :
    cosine a b n n = cosine b a n n := by
  unfold cosine
  have := dotFrom_comm a b [] [] fzero h rfl
  simp only [List.nil_append, List.length_nil] at this
  rw [this]

/-- `C98_symmetric_partial` for two vectors of size 2 and the norm 5. -/
example := C98_symmetric_partial [GoFloat.ofRat 3, GoFloat.ofRat 4] [GoFloat.ofRat 4, GoFloat.ofRat 3] (GoFloat.ofRat 5) rfl

/-- the norm is infinite or NaN, as `Norm` returns when a square overflows -/
def Overflowed : F64 → Prop
  | .fin _ _ _ => False
  | _ => True

theorem not_pos_div (d n1 n2 : F64) (h : Overflowed n1 ∨ Overflowed n2) :
    GoFloat.lt (fzero : F64) (F64.div (F64.div d n1) n2) = false := by
  have hz : ∀ s, GoFloat.lt (fzero : F64) (F64.zero s) = false := by decide +kernel
  have hzd : ∀ s (y : F64), GoFloat.lt (fzero : F64) (F64.div (F64.zero s) y) = false := by
    intro s y
    cases y with
    | nan => cases s <;> decide +kernel
    | inf b => exact hz _
    | fin t m k =>
      unfold F64.zero F64.div
      dsimp only
      split
      · simp only [if_true]; decide +kernel
      · have : F64.toRat (F64.fin s 0 (F64.zero s |> fun _ => ⟨by simp, by unfold ovf; exact Nat.two_pow_pos _⟩)) /
            F64.toRat (F64.fin t m k) = 0 := by simp [F64.toRat]
        rw [this]
        have hr : ∀ z, GoFloat.lt (fzero : F64) (F64.round 0 z) = false := by decide +kernel
        exact hr _
  have hnan : ∀ y, F64.div .nan y = .nan := by intro y; cases y <;> rfl
  have hnan2 : ∀ y, F64.div y .nan = .nan := by intro y; cases y <;> rfl
  have hln : GoFloat.lt (fzero : F64) F64.nan = false := by decide +kernel
  rcases h with h | h
  · cases n1 with
    | nan => rw [hnan2, hnan]; exact hln
    | inf b =>
      cases d with
      | nan => rw [hnan, hnan]; exact hln
      | inf a => rw [show F64.div (.inf a) (.inf b) = .nan from rfl, hnan]; exact hln
      | fin s n k => exact hzd _ n2
    | fin s n k => exact h.elim
  · cases n2 with
    | nan => rw [hnan2]; exact hln
    | inf b =>
      cases hd : F64.div d n1 with
      | nan => rw [hnan]; exact hln
      | inf a => exact hln
      | fin s n k => exact hz _
    | fin s n k => exact h.elim

/-- **C98 (overflow).** An item whose norm overflowed float64 (some coordinate beyond about 1.3e154) is never
found, whatever the query; and a query whose norm overflowed finds nothing. -/
theorem C98_overflow_never_found (query : Embedding F64) (ignore : List Word) (items : List (Embedding F64)) :
    (Overflowed query.norm → candidates query ignore items = []) ∧
    (∀ it : Embedding F64, Overflowed it.norm → candidates query ignore [it] = []) := by
  have key : ∀ it : Embedding F64, Overflowed query.norm ∨ Overflowed it.norm → candidates query ignore [it] = [] := by
    intro it h
    unfold candidates
    simp only [List.filterMap_cons, List.filterMap_nil]
    split
    · rfl
    · next o heq =>
      exfalso
      split at heq
      · simp at heq
      · split at heq
        · next c hc =>
          split at heq
          · next hlt =>
            unfold cosine at hc
            split at hc
            · simp only [Res.ok.injEq] at hc
              rw [← hc, flt_irrefl] at hlt
              exact absurd hlt (by simp)
            · rw [Res.bind_eq_ok] at hc
              obtain ⟨d, _, hd⟩ := hc
              simp only [Res.ok.injEq] at hd
              rw [← hd] at hlt
              have := not_pos_div d query.norm it.norm h
              rw [show (d /. query.norm /. it.norm) = F64.div (F64.div d query.norm) it.norm from rfl, this] at hlt
              exact absurd hlt (by simp)
          · simp at heq
        · simp at heq
  refine ⟨fun h => ?_, fun it h => key it (Or.inr h)⟩
  induction items with
  | nil => rfl
  | cons it items ih =>
    have e : candidates query ignore (it :: items) = candidates query ignore [it] ++ candidates query ignore items := by
      unfold candidates
      rw [← List.filterMap_append]; rfl
    rw [e, key it (Or.inl h), ih]; rfl

/-- two words with the same vector (1, 1, 1), and the pair (1, 1), (1, 2) -/
def equalItems : List (Embedding F64) := [mkEmb "x" [1, 1, 1], mkEmb "y" [1, 1, 1]]
def pairItems : List (Embedding F64) := [mkEmb "a" [1, 1], mkEmb "b" [1, 2]]
/-- the same direction twice: 1 and 10^200 -/
def hugeItems : List (Embedding F64) := [mkEmb "x" [1], mkEmb "y" [10 ^ 200]]

/-- `C98_overflow_never_found`: the norm of the vector `(10^200)` overflows. -/
example : Overflowed (mkEmb "y" [10 ^ 200]).norm := by
  have : (mkEmb "y" [10 ^ 200]).norm = F64.inf false := by decide +kernel
  rw [this]; trivial

/-- **C98 is false of the code** (float64): a search can report a similarity above 1 (`x` and `y` with equal
vectors); the similarity of `b` to `a` can differ from that of `a` to `b`; and multiplying a vector by a
positive factor (10^200) can make its word disappear from every result. -/
theorem C98_false :
    (∃ n, (Searcher.mk equalItems).searchInternal ['x'] 1 = .ok [n] ∧ n.word = ['y'] ∧
      GoFloat.lt (GoFloat.ofRat 1) n.sim = true) ∧
    (∃ n m, (Searcher.mk pairItems).searchInternal ['a'] 1 = .ok [n] ∧ n.word = ['b'] ∧
      (Searcher.mk pairItems).searchInternal ['b'] 1 = .ok [m] ∧ m.word = ['a'] ∧ n.sim ≠ m.sim) ∧
    (Searcher.mk hugeItems).searchInternal ['x'] 1 = .ok [] ∧
    (∀ it ∈ hugeItems, it.word = ['y'] → Overflowed it.norm) := by
  refine ⟨?_, ?_, by decide +kernel, ?_⟩
  · have h : ((Searcher.mk equalItems).searchInternal ['x'] 1 >>= fun r => .ok (r.map (fun n =>
        (n.word, GoFloat.lt (GoFloat.ofRat 1) n.sim)))) = .ok [(['y'], true)] := by decide +kernel
    rw [Res.bind_eq_ok] at h
    obtain ⟨r, h1, h2⟩ := h
    simp only [Res.ok.injEq] at h2
    rw [List.map_eq_singleton_iff] at h2
    obtain ⟨n, rfl, h3⟩ := h2
    simp only [Prod.mk.injEq] at h3
    exact ⟨n, h1, h3.1, h3.2⟩
  · have h : ((Searcher.mk pairItems).searchInternal ['a'] 1 >>= fun r =>
        (Searcher.mk pairItems).searchInternal ['b'] 1 >>= fun r' =>
        .ok (r.map (·.word), r'.map (·.word), decide (r.map (·.sim) = r'.map (·.sim)))) =
        .ok ([['b']], [['a']], false) := by decide +kernel
    rw [Res.bind_eq_ok] at h
    obtain ⟨r, h1, h⟩ := h
    rw [Res.bind_eq_ok] at h
    obtain ⟨r', h2, h⟩ := h
    simp only [Res.ok.injEq, Prod.mk.injEq] at h
    obtain ⟨ha, hb, hd⟩ := h
    rw [List.map_eq_singleton_iff] at ha hb
    obtain ⟨n, rfl, h3⟩ := ha
    obtain ⟨m, rfl, h4⟩ := hb
    refine ⟨n, m, h1, h3, h2, h4, ?_⟩
    simpa using hd
  · intro it hit hw
    have : it = mkEmb "y" [10 ^ 200] := by
      unfold hugeItems at hit
      simp only [List.mem_cons, List.not_mem_nil, or_false] at hit
      rcases hit with rfl | rfl
      · exact absurd hw (by decide +kernel)
      · rfl
    subst this
    have : (mkEmb "y" [10 ^ 200]).norm = F64.inf false := by decide +kernel
    rw [this]; trivial

end Wego.Props
