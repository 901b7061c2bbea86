import Verif.Props.NegSamplingF64
import Verif.Props.HierSoftmax

/-! # C69, C70 in float64 -/

namespace Wego.Props
open Wego Wego.F64 Wego.Matrix Wego.Spec

theorem mul_comm64 (x y : F64) : F64.mul x y = F64.mul y x := by
  cases x <;> cases y <;> simp only [F64.mul, Bool.xor_comm]
  rw [mul_comm]

theorem dot64_comm (x : List F64) : ∀ (y : List F64) (acc : F64), dot64 acc x y = dot64 acc y x := by
  induction x with
  | nil => intro y acc; cases y <;> rfl
  | cons a x ih =>
    intro y acc
    cases y with
    | nil => rfl
    | cons b y => simp only [dot64]; rw [mul_comm64, ih]

/-- every code is 0 or 1 -/
theorem Shape.code_le {F : Type} [GoFloat F] {arena : List (HNode F)} {dim : Nat} :
    ∀ {t : HTree} {p : Option Nat} {c : Nat}, Wego.Shape arena dim p c t → c ≤ 1 → ∀ j ∈ HTree.ids t, codeBit arena j ≤ 1 := by
  intro t
  induction t with
  | leaf i w =>
    intro p c h hc j hj
    simp only [HTree.ids, List.mem_singleton] at hj
    subst hj
    simp only [Wego.Shape] at h
    simp [codeBit, h, hc]
  | node i l r ihl ihr =>
    intro p c h hc j hj
    simp only [HTree.ids, List.mem_cons, List.mem_append] at hj
    simp only [Wego.Shape] at h
    rcases hj with rfl | hj | hj
    · simp [codeBit, h.1, hc]
    · exact ihl h.2.1 (by omega) j hj
    · exact ihr h.2.2 (by omega) j hj

/-- The steps hierarchical softmax does for a path: for each node but the last, label `1 - code(next)`. -/
def pathLabels64 {F : Type} (arena : List (HNode F)) (path : List Nat) : List (Nat × Int) :=
  (path.zip path.tail).map (fun pq => (pq.1, 1 - (codeBit arena pq.2 : Int)))

/-- A score outside the open interval `(-6, 6)` (infinities included). -/
def FarScore (x : F64) : Prop := GoFloat.le x (F64.round (-6)) = true ∨ GoFloat.le (F64.round 6) x = true

theorem sub_code (k : Nat) (h : k ≤ 1) : F64.sub (F64.round 1) (F64.round (k : ℚ)) = F64.round ((1 - (k : Int) : Int) : ℚ) := by
  rcases (by omega : k = 0 ∨ k = 1) with rfl | rfl <;> decide +kernel

/-- The lookup in float64, for a score inside `(-6, 6)`. -/
theorem lookup_f64 (lib : LibM) (hexp : ExpAccurate lib) (x : F64) (hf : ¬ FarScore x) :
    (BadScore x ∧ sigmoidAt (letI := lib.math; sigTable) x = .panic .indexOutOfRange) ∨
    ∃ p, Prob x p ∧ sigmoidAt (letI := lib.math; sigTable) x = .ok p := by
  have hlen : (letI := lib.math; sigTable : List F64).length = 1000 := by simp [sigTable, expTableSize]
  rcases score_cases x with hnan | ⟨c1, c2⟩ | ⟨c1, c2, c3⟩ | ⟨c1, c2, c3, c4, c5⟩
  · left; subst hnan; exact ⟨.inl rfl, (C33_false _ hlen).2.2.2⟩
  · exact absurd (.inl c1) hf
  · exact absurd (.inr c2) hf
  · by_cases hb : x = lastBelow6
    · left; subst hb; exact ⟨.inr rfl, (C33_false _ hlen).2.2.1⟩
    · right
      obtain ⟨v, hv, v1, v2, v3, v4, v5⟩ := C32_float64 lib hexp x c3 c4 hb
      refine ⟨v, ⟨v1, v2.le, v3.le, ?_⟩, hv⟩
      obtain ⟨s, n, h, rfl⟩ := c5.cases
      show |toReal v - _| ≤ _
      rw [abs_le]
      have d1 : (1 : ℝ) / 10 ^ 9 ≤ 1 / 1000000 := by norm_num
      generalize (1 : ℝ) / 10 ^ 9 = d at *
      constructor <;> norm_num at * <;> linarith

theorem hsLoop_f64 (lib : LibM) (hexp : ExpAccurate lib) (lr : F64) (ctx : List F64) (c : Nat) (hc : ctx.length = c) (L : List Nat) :
    ∀ (arena : List (HNode F64)) (tmp : List F64), tmp.length = c → L.Nodup → (∀ p ∈ L, p < arena.length) →
      (∀ p ∈ L, codeBit arena p ≤ 1) →
      (∀ p ∈ L.dropLast, ∃ nd v, arena[p]? = some nd ∧ nd.vector = some v ∧ v.length = c) →
      (∃ arena' tmp' k, hsLoop (letI := lib.math; sigTable) lr ctx L arena tmp = .ok (arena', tmp') ∧ SameTree c arena arena' ∧ tmp'.length = c ∧
        k ≤ L.length - 1 ∧ LogRun64 lr ctx ((pathLabels64 arena L).take k) ⟨vecOf arena, tmp⟩ ⟨vecOf arena', tmp'⟩ ∧
        (∀ j, j ∉ L.take k → arena'[j]? = arena[j]?) ∧
        (k < L.length - 1 → ∃ p, L[k]? = some p ∧ FarScore (dot64 zero64 (vecOf arena' p) ctx))) ∨
      (hsLoop (letI := lib.math; sigTable) lr ctx L arena tmp = .panic .indexOutOfRange ∧
        ∃ k p s, k < L.length - 1 ∧ L[k]? = some p ∧ LogRun64 lr ctx ((pathLabels64 arena L).take k) ⟨vecOf arena, tmp⟩ s ∧
          BadScore (dot64 zero64 (s.rows p) ctx)) := by
  induction L with
  | nil =>
    intro arena tmp ht _ _ _ _
    exact .inl ⟨arena, tmp, 0, by simp [hsLoop], SameTree.refl _, ht, Nat.zero_le _, LogRun64.nil _, fun _ _ => rfl, by simp⟩
  | cons p L ih =>
    intro arena tmp ht hnd hlt hcode hvec
    cases L with
    | nil => exact .inl ⟨arena, tmp, 0, by simp [hsLoop], SameTree.refl _, ht, Nat.zero_le _, LogRun64.nil _, fun _ _ => rfl, by simp⟩
    | cons q L =>
      obtain ⟨np, v, hnp, hv, hvl⟩ := hvec p (by simp)
      have hq := hlt q (by simp)
      have hpq : p ≠ q := by
        intro e; subst e; simp at hnd
      have hvo : vecOf arena p = v := by simp [vecOf, hnp, hv]
      have hidp : idx arena p = .ok np := idx_eq_ok.2 hnp
      have hcq : codeBit arena q = (arena[q]).code := by simp [codeBit, hq]
      have hcq1 : (arena[q]).code ≤ 1 := by rw [← hcq]; exact hcode q (by simp)
      have hdot : dotF ctx v = dot64 zero64 v ctx := by rw [dotF_dot64, dot64_comm]
      rw [hsLoop]
      simp only [hidp, Res.ok_bind, idx_of_lt _ _ hq, hv, Option.getD_some, hvl, hc, ht, gt_iff_lt, lt_self_iff_false, or_self, if_false]
      by_cases hclip : FarScore (dotF ctx v)
      · left
        have hclip' : (GoFloat.le (dotF ctx v) (GoFloat.ofRat (-6)) || GoFloat.le (maxExp : F64) (dotF ctx v)) = true := by
          rw [Bool.or_eq_true]; exact hclip
        rw [if_pos hclip']
        refine ⟨arena, tmp, 0, rfl, SameTree.refl _, ht, Nat.zero_le _, LogRun64.nil _, fun _ _ => rfl, fun _ => ⟨p, rfl, ?_⟩⟩
        rw [hvo, ← hdot]; exact hclip
      · have hclip' : ¬ (GoFloat.le (dotF ctx v) (GoFloat.ofRat (-6)) || GoFloat.le (maxExp : F64) (dotF ctx v)) = true := by
          rw [Bool.or_eq_true]; exact hclip
        rw [if_neg hclip']
        rcases lookup_f64 lib hexp _ hclip with ⟨hb, e⟩ | ⟨s, hprob, e⟩
        · right
          rw [e]
          refine ⟨rfl, 0, p, ⟨vecOf arena, tmp⟩, by simp, rfl, LogRun64.nil _, ?_⟩
          simp only [hvo]; rw [← hdot]; exact hb
        · rw [e, Res.ok_bind]
          simp only [Option.map_some]
          have hg : (GoFloat.ofRat 1 -. GoFloat.ofRat (((arena[q]).code : Nat) : ℚ) -. s) *. lr =
              F64.mul (F64.sub (F64.round ((1 - ((codeBit arena q : Nat) : Int) : Int) : ℚ)) s) lr := by
            show F64.mul (F64.sub (F64.sub (F64.round 1) (F64.round (((arena[q]).code : Nat) : ℚ))) s) lr = _
            rw [sub_code _ hcq1, hcq]
          rw [hg]
          generalize hgd : F64.mul (F64.sub (F64.round ((1 - ((codeBit arena q : Nat) : Int) : Int) : ℚ)) s) lr = g
          have htk : tmp.take c = tmp := List.take_of_length_le (by omega)
          have hdr : tmp.drop c = [] := List.drop_eq_nil_of_le (by omega)
          rw [htk, hdr, List.append_nil]
          have ht1 : (axpyF g v tmp).length = c := by rw [length_axpyF _ _ _ (by omega), ht]
          have hw : (axpyF g ctx v).length = c := by rw [length_axpyF _ _ _ (by omega), hvl]
          set arena1 := arena.modify p (fun nd => { nd with vector := some (axpyF g ctx v) }) with ha1
          have hst1 : SameTree c arena arena1 := sameTree_vec c arena p v _ np hnp hv hw
          have hne : ∀ j, j ≠ p → arena1[j]? = arena[j]? := by
            intro j hj
            rw [ha1, List.getElem?_modify]; simp [Ne.symm hj]
          have hpn : arena1[p]? = some { np with vector := some (axpyF g ctx v) } := by
            rw [ha1, List.getElem?_modify]; simp [hnp]
          have hstep : LogStep64 lr ctx p (1 - (codeBit arena q : Int)) ⟨vecOf arena, tmp⟩ ⟨vecOf arena1, axpyF g v tmp⟩ := by
            refine ⟨s, ?_, ?_, ?_, ?_⟩
            · simp only [hvo]
              rw [← hdot]; exact hprob
            · simp only [hvo]
              rw [hgd, ← axpyF_64]
              simp only [vecOf, hpn, Option.bind_some, Option.getD_some]
            · intro j hj
              simp only [vecOf, hne j hj]
            · simp only [hvo]
              rw [hgd, ← axpyF_64]
          have hlab : ∀ k, (pathLabels64 arena (p :: q :: L)).take (k + 1) =
              (p, 1 - (codeBit arena q : Int)) :: (pathLabels64 arena1 (q :: L)).take k := by
            intro k
            simp only [pathLabels64, List.tail_cons, List.zip_cons_cons, List.map_cons, List.take_succ_cons, List.cons.injEq, true_and]
            congr 1
            apply List.map_congr_left
            intro pq _
            rw [hst1.code]
          rcases ih arena1 (axpyF g v tmp) ht1 (List.nodup_cons.1 hnd).2
            (fun r hr => by rw [hst1.length]; exact hlt r (by simp [hr]))
            (fun r hr => by rw [hst1.code]; exact hcode r (by simp [hr]))
            (by
              intro r hr
              have hrp : r ≠ p := by
                intro e; subst e
                exact (List.nodup_cons.1 hnd).1 (List.dropLast_subset _ hr)
              obtain ⟨nd, w, h1, h2, h3⟩ := hvec r (by
                rw [List.dropLast_cons_of_ne_nil (by simp)]; exact List.mem_cons_of_mem _ hr)
              exact ⟨nd, w, by rw [hne r hrp, h1], h2, h3⟩) with
            ⟨arena', tmp', k, e, st2, l2, hk, hrun, hfr, hstop⟩ | ⟨e, k, r, s', hk, hr, hrun, hbad⟩
          · left
            refine ⟨arena', tmp', k + 1, e, hst1.trans st2, l2, by simp at hk ⊢; omega, ?_, ?_, ?_⟩
            · rw [hlab]
              exact LogRun64.cons hstep hrun
            · intro j hj
              simp only [List.take_succ_cons, List.mem_cons, not_or] at hj
              rw [hfr j hj.2, hne j hj.1]
            · intro hk2
              obtain ⟨r, hr, hr2⟩ := hstop (by simp at hk2 ⊢; omega)
              exact ⟨r, by simpa using hr, hr2⟩
          · right
            refine ⟨e, k + 1, r, s', by simp at hk ⊢; omega, by simpa using hr, ?_, hbad⟩
            rw [hlab]
            exact LogRun64.cons hstep hrun

/-- What hierarchical softmax needs of its state: the tree is the built one up to caches and vectors. -/
structure HSReady64 (table : List F64) (nodes : List (HNode F64)) (path : Nat → List Nat) (n c : Nat) (depth : Int) (o : HierSoftmax F64) : Prop where
  table : o.table = table
  nodeset : o.nodeset = List.range n
  depth : o.maxDepth = depth
  tree : SameTree c nodes o.arena
  cache : ∀ i < n, o.arena[i]?.bind HNode.cache = none ∨ o.arena[i]?.bind HNode.cache = some (path i)

/-- **C69 in float64.** With any accurate `math.Exp`, for every non-empty corpus, vector size and `MaxDepth >= 0`: there is a
family of root-to-word paths in the built tree such that, after any number of `optim` calls from the fresh tree (invariant
`Inv`), a call for word `id` with any learning rate and any `ctx`, `tmp` (NaN and infinities included) either returns,
having done one float64 logistic step for each of the first `k` nodes of the (depth-limited) path, with label
`1 - code of the next node`, in order, and stopping early only at a node whose score is outside `(-6, 6)`; no other node
changes; or it panics with an index out of range after the first `k` of these steps, and the score of node `k` is NaN or
the largest float64 below 6. -/
theorem C69_float64 (lib : LibM) (hexp : ExpAccurate lib) (calls : List (List Word)) (hne : calls.flatten ≠ []) (c : Nat)
    (depth : Int) (hd : 0 ≤ depth) :
    ∃ (d : Dictionary) (nodes : List (HNode F64)) (path : Nat → List Nat) (Inv : HierSoftmax F64 → Prop),
      addCalls calls = .ok d ∧ huffmanTree d c = .ok (nodes, List.range d.len) ∧
      (∀ i < d.len, RootPath nodes i (path i)) ∧
      (∀ t, t = (letI := lib.math; sigTable) → Inv { table := t, arena := nodes, nodeset := List.range d.len, maxDepth := depth }) ∧
      ∀ o, Inv o → ∀ (rnd : UInt64) (id : Nat) (lr : F64) (ctx tmp : List F64), id < d.len → ctx.length = c → tmp.length = c →
        (∃ (r : OptRes (HierSoftmax F64) F64) (k : Nat),
          o.optim rnd id lr ctx tmp = .ok r ∧ Inv r.opt ∧ r.rnd = rnd ∧ r.tmp.length = c ∧
          k ≤ ((path id).take depth.toNat).length - 1 ∧
          LogRun64 lr ctx ((pathLabels64 nodes ((path id).take depth.toNat)).take k)
            ⟨vecOf o.arena, tmp⟩ ⟨vecOf r.opt.arena, r.tmp⟩ ∧
          (∀ j, j ∉ ((path id).take depth.toNat).take k → vecOf r.opt.arena j = vecOf o.arena j) ∧
          (k < ((path id).take depth.toNat).length - 1 →
            ∃ p, ((path id).take depth.toNat)[k]? = some p ∧ FarScore (dot64 zero64 (vecOf r.opt.arena p) ctx))) ∨
        (o.optim rnd id lr ctx tmp = .panic .indexOutOfRange ∧
          ∃ k p s, k < ((path id).take depth.toNat).length - 1 ∧ ((path id).take depth.toNat)[k]? = some p ∧
            LogRun64 lr ctx ((pathLabels64 nodes ((path id).take depth.toNat)).take k) ⟨vecOf o.arena, tmp⟩ s ∧
            BadScore (dot64 zero64 (s.rows p) ctx)) := by
  obtain ⟨d, arena, T, P, hdic, r, hpos, ht, hS, hP1, hP2, hmem, hlv, hfreq, hopt⟩ := huff_core (F := F64) calls hne c
  have hids : T.ids.Perm (List.range arena.length) := by simpa using hS.perm
  have hshape := hS.shape T (by simp)
  have hltn : ∀ i < d.len, i < arena.length := by
    intro i hi
    have : i ∈ T.ids := T.ids_perm.mem_iff.2 (List.mem_append_left _ (hlv.mem_iff.2 (by simpa using hi)))
    simpa using hids.mem_iff.1 this
  have hcodes : ∀ p < arena.length, codeBit arena p ≤ 1 := by
    intro p hp
    exact Shape.code_le hshape (by omega) p (hids.mem_iff.2 (by simpa using hp))
  have hpath : ∀ i < d.len, (P i).path.Nodup ∧ (∀ p ∈ (P i).path, p < arena.length) ∧
      (∀ p ∈ (P i).path.dropLast, ∃ nd v, arena[p]? = some nd ∧ nd.vector = some v ∧ v.length = c) := by
    intro i hi
    have hsub := walks_path_sublist T (P i) (hmem i hi)
    refine ⟨hsub.nodup (hids.nodup_iff.2 List.nodup_range), fun p hp => ?_, fun p hp => ?_⟩
    · simpa using hids.mem_iff.1 (hsub.subset hp)
    · have hv := hshape.inner_vec.1 p (walks_inner T _ (hmem i hi) p hp)
      cases hnd : arena[p]? with
      | none => rw [hnd] at hv; simp at hv
      | some nd =>
        rw [hnd, Option.bind_some] at hv
        exact ⟨nd, _, rfl, hv, by simp⟩
  have hroot : ∀ i < d.len, RootPath arena i (P i).path ∧
      followParents arena (arena.length + 1) (some i) = some (P i).path.reverse := by
    intro i hi
    obtain ⟨h1, _, _, hf, hl⟩ := rootPath_of_sim hS (P i) (hmem i hi)
    have := hf (arena.length + 1) (by omega)
    rw [hP2 i hi] at h1 this
    exact ⟨h1, this⟩
  refine ⟨d, arena, fun i => (P i).path, HSReady64 (letI := lib.math; sigTable) arena (fun i => (P i).path) d.len c depth, hdic, ht,
    fun i hi => (hroot i hi).1, ?_, ?_⟩
  · intro t ht
    refine ⟨ht, rfl, rfl, SameTree.refl _, fun i hi => Or.inl ?_⟩
    exact hshape.inner_vec.2.2 i (hids.mem_iff.2 (by simpa using hltn i hi))
  · intro o ho rnd id lr ctx tmp hid hc htmp
    obtain ⟨hnd, hpl, hpv⟩ := hpath id hid
    set L := (P id).path.take depth.toNat with hL
    have hgp := getPath_gen o.arena id (P id).path depth hd (by
      rcases ho.cache id hid with h | h
      · right
        refine ⟨h, ?_⟩
        rw [followParents_congr _ _ ho.tree.parent, ho.tree.length, (hroot id hid).2]
      · left; exact h)
    have key : ∀ a1, SameTree c o.arena a1 → (∀ j : Nat, vecOf a1 j = vecOf o.arena j) →
        (∀ i < d.len, a1[i]?.bind HNode.cache = none ∨ a1[i]?.bind HNode.cache = some (P i).path) →
        getPath o.arena id depth = some (.ok (a1, L)) →
        (∃ (r : OptRes (HierSoftmax F64) F64) (k : Nat),
          o.optim rnd id lr ctx tmp = .ok r ∧ HSReady64 (letI := lib.math; sigTable) arena (fun i => (P i).path) d.len c depth r.opt ∧ r.rnd = rnd ∧ r.tmp.length = c ∧
          k ≤ L.length - 1 ∧
          LogRun64 lr ctx ((pathLabels64 arena L).take k) ⟨vecOf o.arena, tmp⟩ ⟨vecOf r.opt.arena, r.tmp⟩ ∧
          (∀ j, j ∉ L.take k → vecOf r.opt.arena j = vecOf o.arena j) ∧
          (k < L.length - 1 → ∃ p, L[k]? = some p ∧ FarScore (dot64 zero64 (vecOf r.opt.arena p) ctx))) ∨
        (o.optim rnd id lr ctx tmp = .panic .indexOutOfRange ∧
          ∃ k p s, k < L.length - 1 ∧ L[k]? = some p ∧
            LogRun64 lr ctx ((pathLabels64 arena L).take k) ⟨vecOf o.arena, tmp⟩ s ∧ BadScore (dot64 zero64 (s.rows p) ctx)) := by
      intro a1 hst hvec hcache hg
      have hst' : SameTree c arena a1 := ho.tree.trans hst
      have hlab : pathLabels64 a1 L = pathLabels64 arena L := by
        unfold pathLabels64
        apply List.map_congr_left
        intro pq _
        rw [hst'.code]
      have hvf : vecOf a1 = vecOf o.arena := funext hvec
      have hi : idx (List.range d.len) ((id : Int)).toNat = .ok id := by
        rw [idx_eq_ok]; simp [hid]
      rcases hsLoop_f64 lib hexp lr ctx c hc L a1 tmp htmp
        ((List.take_sublist _ _).nodup hnd)
        (fun p hp => by rw [hst'.length]; exact hpl p (List.mem_of_mem_take hp))
        (fun p hp => by rw [hst'.code]; exact hcodes p (hpl p (List.mem_of_mem_take hp)))
        (by
          intro p hp
          obtain ⟨nd, v, h1, h2, h3⟩ := hpv p (dropLast_take_subset _ _ p hp)
          obtain ⟨c1, v1, e1, q1⟩ := hst' p
          obtain ⟨v', hv', hl'⟩ := (q1 nd h1).2 v h2 h3
          rw [h1, Option.map_some] at e1
          exact ⟨_, v', e1, hv', hl'⟩) with
        ⟨a2, tmp2, k, e, st2, l2, hk, hrun, hfr, hstop⟩ | ⟨e, k, p, s, hk, hp, hrun, hbad⟩
      · left
        refine ⟨{ opt := { o with arena := a2 }, rnd := rnd, tmp := tmp2 }, k, ?_, ⟨ho.table, ho.nodeset, ho.depth, hst'.trans st2, ?_⟩, rfl, l2, hk, ?_, ?_, hstop⟩
        · unfold HierSoftmax.optim idxI
          rw [ho.nodeset, ho.depth, ho.table, if_neg (by omega), hi, Res.ok_bind, hg]
          simp only [Res.ok_bind]
          rw [e]; rfl
        · intro i hi
          have hcase := hcache i hi
          have hc2 : a2[i]?.bind HNode.cache = a1[i]?.bind HNode.cache := hsLoop_cache _ _ _ _ _ _ _ _ e i
          simp only [hc2]; exact hcase
        · rw [hlab, hvf] at hrun
          exact hrun
        · intro j hj
          rw [← hvec j]
          simp only [vecOf, hfr j hj]
      · right
        rw [hlab, hvf] at hrun
        refine ⟨?_, k, p, s, hk, hp, hrun, hbad⟩
        unfold HierSoftmax.optim idxI
        rw [ho.nodeset, ho.depth, ho.table, if_neg (by omega), hi, Res.ok_bind, hg]
        simp only [Res.ok_bind]
        rw [e]; rfl
    rcases hgp with h | h
    · exact key o.arena (SameTree.refl _) (fun _ => rfl) ho.cache h
    · refine key _ (sameTree_cache c o.arena id _) ?_ ?_ h
      · intro j
        unfold vecOf
        rw [List.getElem?_modify]
        cases o.arena[j]? with
        | none => rfl
        | some nd => by_cases hj : id = j <;> simp [hj]
      · intro i hi
        rw [List.getElem?_modify]
        by_cases hij : id = i
        · subst hij
          have : id < o.arena.length := by rw [ho.tree.length]; exact hltn id hid
          right; simp [this]
        · simp only [hij, if_false]
          have := ho.cache i hi
          cases hoi : o.arena[i]? with
          | none => simp
          | some nd => rw [hoi] at this; simpa using this

/-- `C69_float64` for the words of `a b a c`, vectors of size 2, depth 40. -/
example := C69_float64 goodLib goodLib_accurate [["a".toList, "b".toList, "a".toList, "c".toList]] (by decide) 2 40 (by decide)

end Wego.Props
