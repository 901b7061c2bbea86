import Verif.Proofs.Logistic
import Verif.Spec.Huffman
import Verif.Props.Huffman

/-! Hierarchical softmax: the loop over a path. -/

namespace Wego
open Spec

theorem dot_comm' (x y : List ℝ) : Spec.dot x y = Spec.dot y x := by
  induction x generalizing y with
  | nil => cases y <;> simp [Spec.dot]
  | cons a x ih => cases y with
    | nil => simp [Spec.dot]
    | cons b y =>
      have := ih y
      simp only [Spec.dot, List.zipWith_cons_cons, List.sum_cons] at this ⊢
      rw [this]; ring

/-- The vector of node `j` (empty for a node without vector). -/
def vecOf {F : Type} (arena : List (HNode F)) (j : Nat) : List F := (arena[j]?.bind HNode.vector).getD []

/-- `b` is `a` with other caches and vectors; vectors keep their length `c`, nil vectors stay nil. -/
def SameTree {F : Type} (c : Nat) (a b : List (HNode F)) : Prop :=
  ∀ j : Nat, ∃ (cache : Option (List Nat)) (vec : Option (List F)),
    b[j]? = a[j]?.map (fun nd => { nd with cache := cache, vector := vec }) ∧
    ∀ nd, a[j]? = some nd → (nd.vector = none → vec = none) ∧
      (∀ v, nd.vector = some v → v.length = c → ∃ v', vec = some v' ∧ v'.length = c)

namespace SameTree
variable {F : Type} {c : Nat} {a b d : List (HNode F)}

theorem refl (a : List (HNode F)) : SameTree c a a := by
  intro j
  cases h : a[j]? with
  | none => exact ⟨none, none, rfl, by simp⟩
  | some nd =>
    refine ⟨nd.cache, nd.vector, rfl, ?_⟩
    intro nd' e
    injection e with e
    subst e
    exact ⟨id, fun v h1 h2 => ⟨v, h1, h2⟩⟩

theorem trans (h1 : SameTree c a b) (h2 : SameTree c b d) : SameTree c a d := by
  intro j
  obtain ⟨c1, v1, e1, p1⟩ := h1 j
  obtain ⟨c2, v2, e2, p2⟩ := h2 j
  refine ⟨c2, v2, ?_, ?_⟩
  · rw [e2, e1]; cases a[j]? <;> rfl
  · intro nd hnd
    rw [hnd, Option.map_some] at e1
    obtain ⟨q1, q2⟩ := p1 nd hnd
    obtain ⟨r1, r2⟩ := p2 _ e1
    refine ⟨fun h => r1 (q1 h), fun v hv hl => ?_⟩
    obtain ⟨v', hv', hl'⟩ := q2 v hv hl
    exact r2 v' hv' hl'

theorem length (h : SameTree c a b) : b.length = a.length := by
  apply Nat.le_antisymm
  · by_contra hc
    obtain ⟨_, _, e, _⟩ := h a.length
    rw [List.getElem?_eq_getElem (by omega), List.getElem?_eq_none (le_refl _)] at e
    simp at e
  · by_contra hc
    obtain ⟨_, _, e, _⟩ := h b.length
    rw [List.getElem?_eq_none (le_refl _), List.getElem?_eq_getElem (by omega)] at e
    simp at e

theorem parent (h : SameTree c a b) (j : Nat) : b[j]?.bind HNode.parent = a[j]?.bind HNode.parent := by
  obtain ⟨_, _, e, _⟩ := h j
  rw [e]; cases a[j]? <;> rfl

theorem code (h : SameTree c a b) (j : Nat) : codeBit b j = codeBit a j := by
  obtain ⟨_, _, e, _⟩ := h j
  unfold codeBit
  rw [e]; cases a[j]? <;> rfl

end SameTree

theorem sameTree_cache {F : Type} (c : Nat) (a : List (HNode F)) (i : Nat) (p : Option (List Nat)) :
    SameTree c a (a.modify i (fun nd => { nd with cache := p })) := by
  intro j
  rw [List.getElem?_modify]
  cases h : a[j]? with
  | none => exact ⟨none, none, by simp, by simp⟩
  | some nd =>
    by_cases hij : i = j
    · refine ⟨p, nd.vector, by simp [hij], ?_⟩
      intro nd' e
      injection e with e
      subst e
      exact ⟨id, fun v h1 h2 => ⟨v, h1, h2⟩⟩
    · refine ⟨nd.cache, nd.vector, by simp [hij], ?_⟩
      intro nd' e
      injection e with e
      subst e
      exact ⟨id, fun v h1 h2 => ⟨v, h1, h2⟩⟩

theorem sameTree_vec {F : Type} (c : Nat) (a : List (HNode F)) (i : Nat) (v w : List F) (nd : HNode F)
    (hi : a[i]? = some nd) (hv : nd.vector = some v) (hw : w.length = c) :
    SameTree c a (a.modify i (fun nd => { nd with vector := some w })) := by
  intro j
  rw [List.getElem?_modify]
  cases h : a[j]? with
  | none => exact ⟨none, none, by simp, by simp⟩
  | some nd' =>
    by_cases hij : i = j
    · subst hij
      rw [hi] at h
      injection h with h
      subst h
      refine ⟨nd.cache, some w, by simp, ?_⟩
      intro nd' e
      injection e with e
      subst e
      exact ⟨fun h => by rw [hv] at h; simp at h, fun _ _ _ => ⟨w, rfl, hw⟩⟩
    · refine ⟨nd'.cache, nd'.vector, by simp [hij], ?_⟩
      intro nd'' e
      injection e with e
      subst e
      exact ⟨id, fun v h1 h2 => ⟨v, h1, h2⟩⟩

theorem getPath_gen {F : Type} (arena : List (HNode F)) (i : Nat) (p : List Nat) (depth : Int) (hd : 0 ≤ depth)
    (h : arena[i]?.bind HNode.cache = some p ∨
      (arena[i]?.bind HNode.cache = none ∧ followParents arena (arena.length + 1) (some i) = some p.reverse)) :
    getPath arena i depth = some (.ok (arena, p.take depth.toNat)) ∨
    getPath arena i depth = some (.ok (arena.modify i (fun nd => { nd with cache := some p }), p.take depth.toNat)) := by
  have htake : p.take (if depth > (p.length : Int) then (p.length : Int) else depth).toNat = p.take depth.toNat := by
    split
    · next hgt => rw [List.take_of_length_le (by omega), List.take_of_length_le (by omega)]
    · rfl
  have hnn : ¬ ((if depth > (p.length : Int) then (p.length : Int) else depth) < 0) := by
    split <;> omega
  rcases h with h | ⟨h1, h2⟩
  · left
    unfold getPath
    simp only [h, Option.map_some, hnn, if_false, htake]
  · right
    unfold getPath
    simp only [h1, h2, Option.map_some, List.reverse_reverse, hnn, if_false, htake]

/-- The loop changes no cache. -/
theorem hsLoop_cache {F : Type} [GoFloat F] (table : List F) (lr : F) (ctx : List F) (L : List Nat) :
    ∀ (arena : List (HNode F)) (tmp : List F) (arena' : List (HNode F)) (tmp' : List F),
      hsLoop table lr ctx L arena tmp = .ok (arena', tmp') → ∀ i : Nat, arena'[i]?.bind HNode.cache = arena[i]?.bind HNode.cache := by
  induction L with
  | nil =>
    intro arena tmp arena' tmp' h i
    simp only [hsLoop, Res.ok.injEq, Prod.mk.injEq] at h
    rw [h.1]
  | cons p L ih =>
    intro arena tmp arena' tmp' h i
    cases L with
    | nil =>
      simp only [hsLoop, Res.ok.injEq, Prod.mk.injEq] at h
      rw [h.1]
    | cons q L =>
      rw [hsLoop, Res.bind_eq_ok] at h
      obtain ⟨np, hnp, h⟩ := h
      rw [Res.bind_eq_ok] at h
      obtain ⟨nq, hnq, h⟩ := h
      dsimp only at h
      split at h
      · simp at h
      · split at h
        · simp only [Res.ok.injEq, Prod.mk.injEq] at h
          rw [h.1]
        · rw [Res.bind_eq_ok] at h
          obtain ⟨s, _, h⟩ := h
          rw [ih _ _ _ _ h i, List.getElem?_modify]
          cases arena[i]? with
          | none => rfl
          | some nd => by_cases hj : p = i <;> simp [hj]

/-- The steps hierarchical softmax does for a path: for each node but the last, label `1 - code(next)`. -/
def pathLabels {F : Type} (arena : List (HNode F)) (path : List Nat) : List (Nat × ℝ) :=
  (path.zip path.tail).map (fun pq => (pq.1, 1 - (codeBit arena pq.2 : ℝ)))

theorem hsLoop_real (lr : ℝ) (ctx : List ℝ) (c : Nat) (hc : ctx.length = c) (L : List Nat) :
    ∀ (arena : List (HNode ℝ)) (tmp : List ℝ), tmp.length = c → L.Nodup → (∀ p ∈ L, p < arena.length) →
      (∀ p ∈ L.dropLast, ∃ nd v, arena[p]? = some nd ∧ nd.vector = some v ∧ v.length = c) →
      ∃ arena' tmp' k, hsLoop sigTable lr ctx L arena tmp = .ok (arena', tmp') ∧ SameTree c arena arena' ∧ tmp'.length = c ∧
        k ≤ L.length - 1 ∧ LogRun lr ctx ((pathLabels arena L).take k) ⟨vecOf arena, tmp⟩ ⟨vecOf arena', tmp'⟩ ∧
        (∀ j, j ∉ L.take k → arena'[j]? = arena[j]?) ∧
        (k < L.length - 1 → ∃ p, L[k]? = some p ∧ 6 ≤ |Spec.dot (vecOf arena' p) ctx|) := by
  induction L with
  | nil =>
    intro arena tmp ht _ _ _
    exact ⟨arena, tmp, 0, by simp [hsLoop], SameTree.refl _, ht, Nat.zero_le _, LogRun.nil _, fun _ _ => rfl, by simp⟩
  | cons p L ih =>
    intro arena tmp ht hnd hlt hvec
    cases L with
    | nil => exact ⟨arena, tmp, 0, by simp [hsLoop], SameTree.refl _, ht, Nat.zero_le _, LogRun.nil _, fun _ _ => rfl, by simp⟩
    | cons q L =>
      obtain ⟨np, v, hnp, hv, hvl⟩ := hvec p (by simp)
      have hq := hlt q (by simp)
      have hpq : p ≠ q := by
        intro e; subst e; simp at hnd
      have hvo : vecOf arena p = v := by simp [vecOf, hnp, hv]
      have hidp : idx arena p = .ok np := idx_eq_ok.2 hnp
      have hcode : (codeBit arena q : ℝ) = (((arena[q]).code : ℚ) : ℝ) := by
        simp [codeBit, hq]
      rw [hsLoop]
      simp only [hidp, Res.ok_bind, idx_of_lt _ _ hq, hv, Option.getD_some, hvl, hc, ht, gt_iff_lt, lt_self_iff_false, or_self, if_false]
      by_cases hclip : (GoFloat.le (dotF ctx v) (GoFloat.ofRat (-6)) || GoFloat.le (maxExp : ℝ) (dotF ctx v)) = true
      · rw [if_pos hclip]
        refine ⟨arena, tmp, 0, rfl, SameTree.refl _, ht, Nat.zero_le _, LogRun.nil _, fun _ _ => rfl, fun _ => ⟨p, rfl, ?_⟩⟩
        simp only [real_le, real_ofRat, maxExp, Bool.or_eq_true, decide_eq_true_eq, dotF_real] at hclip
        rw [hvo, dot_comm', le_abs']
        push_cast at hclip
        exact hclip
      · rw [if_neg hclip]
        simp only [real_le, real_ofRat, maxExp, Bool.or_eq_true, decide_eq_true_eq, dotF_real, not_or, not_le] at hclip
        push_cast at hclip
        rw [dotF_real]
        obtain ⟨s, hs, s1, s2, s3, s4⟩ := Props.C32_sigmoid_accuracy (Spec.dot ctx v) hclip.1 hclip.2
        rw [hs, Res.ok_bind]
        simp only [real_ofRat, real_sub, real_mul, Option.map_some]
        set g := (((1 : ℚ) : ℝ) - (((arena[q]).code : ℚ) : ℝ) - s) * lr with hg
        have htk : tmp.take c = tmp := List.take_of_length_le (by omega)
        have hdr : tmp.drop c = [] := List.drop_eq_nil_of_le (by omega)
        rw [htk, hdr, List.append_nil]
        have ht1 : (axpyF g v tmp).length = c := by rw [length_axpyF _ _ _ (by omega), ht]
        have hw : (axpyF g ctx v).length = c := by rw [length_axpyF _ _ _ (by omega), hvl]
        set arena1 := arena.modify p (fun nd => { nd with vector := some (axpyF g ctx v) }) with ha1
        have hst1 : SameTree c arena arena1 := sameTree_vec c arena p v _ np hnp hv hw
        have hne : ∀ j, j ≠ p → arena1[j]? = arena[j]? := by
          intro j hj
          rw [ha1, List.getElem?_modify]; simp [Ne.symm hj]
        have hpn : arena1[p]? = some { np with vector := some (axpyF g ctx v) } := by
          rw [ha1, List.getElem?_modify]; simp [hnp]
        obtain ⟨arena', tmp', k, e, st2, l2, hk, hrun, hfr, hstop⟩ := ih arena1 (axpyF g v tmp) ht1 (List.nodup_cons.1 hnd).2
          (fun r hr => by rw [hst1.length]; exact hlt r (by simp [hr]))
          (by
            intro r hr
            have hrp : r ≠ p := by
              intro e; subst e
              exact (List.nodup_cons.1 hnd).1 (List.dropLast_subset _ hr)
            obtain ⟨nd, w, h1, h2, h3⟩ := hvec r (by
              rw [List.dropLast_cons_of_ne_nil (by simp)]; exact List.mem_cons_of_mem _ hr)
            exact ⟨nd, w, by rw [hne r hrp, h1], h2, h3⟩)
        refine ⟨arena', tmp', k + 1, e, hst1.trans st2, l2, by simp at hk ⊢; omega, ?_, ?_, ?_⟩
        · have hstep : LogStep lr ctx p (1 - (codeBit arena q : ℝ)) ⟨vecOf arena, tmp⟩ ⟨vecOf arena1, axpyF g v tmp⟩ := by
            refine ⟨s, le_of_lt s1, le_of_lt s2, ?_, ?_, ?_, ?_⟩
            · simp only [hvo]
              rw [dot_comm' v ctx, abs_sub_comm, abs_of_nonneg (by linarith)]
              linarith
            · simp only [hvo]
              rw [hcode]
              simp only [vecOf, hpn, Option.bind_some, Option.getD_some, axpyF_real, hg]
              push_cast; rfl
            · intro j hj
              simp only [vecOf, hne j hj]
            · simp only [hvo]
              rw [hcode, axpyF_real, hg]
              push_cast; rfl
          have hlab : (pathLabels arena (p :: q :: L)).take (k + 1) =
              (p, 1 - (codeBit arena q : ℝ)) :: (pathLabels arena1 (q :: L)).take k := by
            simp only [pathLabels, List.tail_cons, List.zip_cons_cons, List.map_cons, List.take_succ_cons, List.cons.injEq, true_and]
            congr 1
            apply List.map_congr_left
            intro pq _
            rw [hst1.code]
          rw [hlab]
          exact LogRun.cons hstep hrun
        · intro j hj
          simp only [List.take_succ_cons, List.mem_cons, not_or] at hj
          rw [hfr j hj.2, hne j hj.1]
        · intro hk2
          obtain ⟨r, hr, hr2⟩ := hstop (by simp at hk2 ⊢; omega)
          exact ⟨r, by simpa using hr, hr2⟩

end Wego
