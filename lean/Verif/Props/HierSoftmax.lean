import Verif.Proofs.HierSoftmax
import Verif.Props.Word2vecStep

/-! # C69: hierarchical softmax; C70: CBOW and skip-gram steps with both optimizers never panic (real arithmetic) -/

namespace Wego
open Spec HTree

theorem walks_inner (t : HTree) : ∀ x ∈ walks t, ∀ p ∈ x.path.dropLast, p ∈ HTree.inner t := by
  induction t with
  | leaf i w => intro x hx; simp only [walks, List.mem_singleton] at hx; subst hx; simp
  | node i l r ihl ihr =>
    intro x hx p hp
    simp only [walks, List.mem_append, List.mem_map] at hx
    have hne : ∀ (t : HTree) (y : Walk), y ∈ walks t → y.path ≠ [] := by
      intro t y hy e
      have := walks_head t y hy
      rw [e] at this; simp at this
    simp only [HTree.inner, List.mem_cons, List.mem_append]
    rcases hx with ⟨y, hy, rfl⟩ | ⟨y, hy, rfl⟩
    · simp only [Walk.down] at hp
      rw [List.dropLast_cons_of_ne_nil (hne l y hy), List.mem_cons] at hp
      rcases hp with rfl | hp
      · exact Or.inl rfl
      · exact Or.inr (Or.inl (ihl y hy p hp))
    · simp only [Walk.down] at hp
      rw [List.dropLast_cons_of_ne_nil (hne r y hy), List.mem_cons] at hp
      rcases hp with rfl | hp
      · exact Or.inl rfl
      · exact Or.inr (Or.inr (ihr y hy p hp))

end Wego

namespace Wego.Props
open Wego Wego.Spec Wego.Matrix

/-- What hierarchical softmax needs of its state: the tree is the built one up to caches and vectors. -/
structure HSReady (nodes : List (HNode ℝ)) (path : Nat → List Nat) (n c : Nat) (depth : Int) (o : HierSoftmax ℝ) : Prop where
  table : o.table = sigTable
  nodeset : o.nodeset = List.range n
  depth : o.maxDepth = depth
  tree : SameTree c nodes o.arena
  cache : ∀ i < n, o.arena[i]?.bind HNode.cache = none ∨ o.arena[i]?.bind HNode.cache = some (path i)

theorem hs_table (t : List ℝ) (a : List (HNode ℝ)) (ns : List Nat) (m : Int) :
    ({ table := t, arena := a, nodeset := ns, maxDepth := m } : HierSoftmax ℝ).table = t := rfl

theorem dropLast_take_subset (p : List Nat) (k : Nat) : ∀ x ∈ (p.take k).dropLast, x ∈ p.dropLast := by
  intro x hx
  rw [List.dropLast_eq_take] at hx ⊢
  rw [List.take_take, List.length_take] at hx
  refine List.mem_of_mem_take (i := min (min k p.length - 1) k) ?_ |> fun h => h
  rw [List.take_take]
  have : min (min (min k p.length - 1) k) (p.length - 1) = min (min k p.length - 1) k := by omega
  rw [this]; exact hx

/-- **C69.** For every non-empty corpus and vector size `c >= 0`, every `MaxDepth >= 0`: there is a family of root-to-word paths in
the built tree such that, after any number of `optim` calls from the fresh tree (invariant `Inv`), a call for word `id`
with any learning rate and any `ctx`, `tmp` of `c` elements returns normally, draws no random number, and performs one
logistic step for each of the first `k` nodes of the (depth-limited) path, with label `1 - code of the next node`, in order;
no other node changes, in particular no leaf; and it stops early only at a node whose score is outside `(-6, 6)`. -/
theorem C69_hierarchical_softmax (calls : List (List Word)) (hne : calls.flatten ≠ []) (c : Nat) (depth : Int) (hd : 0 ≤ depth) :
    ∃ (d : Dictionary) (nodes : List (HNode ℝ)) (path : Nat → List Nat) (Inv : HierSoftmax ℝ → Prop),
      addCalls calls = .ok d ∧ huffmanTree d c = .ok (nodes, List.range d.len) ∧
      (∀ i < d.len, RootPath nodes i (path i)) ∧
      Inv { table := sigTable, arena := nodes, nodeset := List.range d.len, maxDepth := depth } ∧
      ∀ o, Inv o → ∀ (rnd : UInt64) (id : Nat) (lr : ℝ) (ctx tmp : List ℝ), id < d.len → ctx.length = c → tmp.length = c →
        ∃ (r : OptRes (HierSoftmax ℝ) ℝ) (k : Nat),
          o.optim rnd id lr ctx tmp = .ok r ∧ Inv r.opt ∧ r.rnd = rnd ∧ r.tmp.length = c ∧
          k ≤ ((path id).take depth.toNat).length - 1 ∧
          LogRun lr ctx ((pathLabels nodes ((path id).take depth.toNat)).take k)
            ⟨vecOf o.arena, tmp⟩ ⟨vecOf r.opt.arena, r.tmp⟩ ∧
          (∀ j, j ∉ ((path id).take depth.toNat).take k → vecOf r.opt.arena j = vecOf o.arena j) ∧
          (k < ((path id).take depth.toNat).length - 1 →
            ∃ p, ((path id).take depth.toNat)[k]? = some p ∧ 6 ≤ |Spec.dot (vecOf r.opt.arena p) ctx|) := by
  obtain ⟨d, arena, T, P, hdic, r, hpos, ht, hS, hP1, hP2, hmem, hlv, hfreq, hopt⟩ := huff_core (F := ℝ) calls hne c
  have hids : T.ids.Perm (List.range arena.length) := by simpa using hS.perm
  have hshape := hS.shape T (by simp)
  have hltn : ∀ i < d.len, i < arena.length := by
    intro i hi
    have : i ∈ T.ids := T.ids_perm.mem_iff.2 (List.mem_append_left _ (hlv.mem_iff.2 (by simpa using hi)))
    simpa using hids.mem_iff.1 this
  have hpath : ∀ i < d.len, (P i).path.Nodup ∧ (∀ p ∈ (P i).path, p < arena.length) ∧
      (∀ p ∈ (P i).path.dropLast, ∃ nd v, arena[p]? = some nd ∧ nd.vector = some v ∧ v.length = c) := by
    intro i hi
    have hsub := walks_path_sublist T (P i) (hmem i hi)
    refine ⟨hsub.nodup (hids.nodup_iff.2 List.nodup_range), fun p hp => ?_, fun p hp => ?_⟩
    · simpa using hids.mem_iff.1 (hsub.subset hp)
    · have hv := hshape.inner_vec.1 p (walks_inner T _ (hmem i hi) p hp)
      cases hnd : arena[p]? with
      | none => rw [hnd] at hv; simp at hv
      | some nd =>
        rw [hnd, Option.bind_some] at hv
        exact ⟨nd, _, rfl, hv, by simp⟩
  have hroot : ∀ i < d.len, RootPath arena i (P i).path ∧
      followParents arena (arena.length + 1) (some i) = some (P i).path.reverse := by
    intro i hi
    obtain ⟨h1, _, _, hf, hl⟩ := rootPath_of_sim hS (P i) (hmem i hi)
    have := hf (arena.length + 1) (by omega)
    rw [hP2 i hi] at h1 this
    exact ⟨h1, this⟩
  refine ⟨d, arena, fun i => (P i).path, HSReady arena (fun i => (P i).path) d.len c depth, hdic, ht,
    fun i hi => (hroot i hi).1, ?_, ?_⟩
  · refine ⟨hs_table _ _ _ _, rfl, rfl, SameTree.refl _, fun i hi => Or.inl ?_⟩
    exact hshape.inner_vec.2.2 i (hids.mem_iff.2 (by simpa using hltn i hi))
  · intro o ho rnd id lr ctx tmp hid hc htmp
    obtain ⟨hnd, hpl, hpv⟩ := hpath id hid
    set L := (P id).path.take depth.toNat with hL
    have hgp := getPath_gen o.arena id (P id).path depth hd (by
      rcases ho.cache id hid with h | h
      · right
        refine ⟨h, ?_⟩
        rw [followParents_congr _ _ ho.tree.parent, ho.tree.length, (hroot id hid).2]
      · left; exact h)
    have key : ∀ a1, SameTree c o.arena a1 → (∀ j : Nat, vecOf a1 j = vecOf o.arena j) →
        (∀ i < d.len, a1[i]?.bind HNode.cache = none ∨ a1[i]?.bind HNode.cache = some (P i).path) →
        getPath o.arena id depth = some (.ok (a1, L)) →
        ∃ (r : OptRes (HierSoftmax ℝ) ℝ) (k : Nat),
          o.optim rnd id lr ctx tmp = .ok r ∧ HSReady arena (fun i => (P i).path) d.len c depth r.opt ∧ r.rnd = rnd ∧ r.tmp.length = c ∧
          k ≤ L.length - 1 ∧
          LogRun lr ctx ((pathLabels arena L).take k) ⟨vecOf o.arena, tmp⟩ ⟨vecOf r.opt.arena, r.tmp⟩ ∧
          (∀ j, j ∉ L.take k → vecOf r.opt.arena j = vecOf o.arena j) ∧
          (k < L.length - 1 → ∃ p, L[k]? = some p ∧ 6 ≤ |Spec.dot (vecOf r.opt.arena p) ctx|) := by
      intro a1 hst hvec hcache hg
      have hst' : SameTree c arena a1 := ho.tree.trans hst
      obtain ⟨a2, tmp2, k, e, st2, l2, hk, hrun, hfr, hstop⟩ := hsLoop_real lr ctx c hc L a1 tmp htmp
        ((List.take_sublist _ _).nodup hnd)
        (fun p hp => by rw [hst'.length]; exact hpl p (List.mem_of_mem_take hp))
        (by
          intro p hp
          obtain ⟨nd, v, h1, h2, h3⟩ := hpv p (dropLast_take_subset _ _ p hp)
          obtain ⟨c1, v1, e1, q1⟩ := hst' p
          obtain ⟨v', hv', hl'⟩ := (q1 nd h1).2 v h2 h3
          rw [h1, Option.map_some] at e1
          exact ⟨_, v', e1, hv', hl'⟩)
      refine ⟨{ opt := { o with arena := a2 }, rnd := rnd, tmp := tmp2 }, k, ?_, ⟨ho.table, ho.nodeset, ho.depth, hst'.trans st2, ?_⟩, rfl, l2, hk, ?_, ?_, hstop⟩
      · unfold HierSoftmax.optim idxI
        rw [ho.nodeset, ho.depth, ho.table, if_neg (by omega)]
        have hi : idx (List.range d.len) ((id : Int)).toNat = .ok id := by
          rw [idx_eq_ok]; simp [hid]
        rw [hi, Res.ok_bind, hg]
        simp only [Res.ok_bind]
        rw [e]; rfl
      · intro i hi
        have hcase := hcache i hi
        -- the loop changes vectors only
        have hc2 : a2[i]?.bind HNode.cache = a1[i]?.bind HNode.cache := hsLoop_cache _ _ _ _ _ _ _ _ e i
        simp only [hc2]; exact hcase
      · have hlab : pathLabels a1 L = pathLabels arena L := by
          unfold pathLabels
          apply List.map_congr_left
          intro pq _
          rw [hst'.code]
        rw [hlab] at hrun
        have : vecOf a1 = vecOf o.arena := funext hvec
        rw [this] at hrun
        exact hrun
      · intro j hj
        rw [← hvec j]
        simp only [vecOf, hfr j hj]
    rcases hgp with h | h
    · exact key o.arena (SameTree.refl _) (fun _ => rfl) ho.cache h
    · refine key _ (sameTree_cache c o.arena id _) ?_ ?_ h
      · intro j
        unfold vecOf
        rw [List.getElem?_modify]
        cases o.arena[j]? with
        | none => rfl
        | some nd => by_cases hj : id = j <;> simp [hj]
      · intro i hi
        rw [List.getElem?_modify]
        by_cases hij : id = i
        · subst hij
          have : id < o.arena.length := by rw [ho.tree.length]; exact hltn id hid
          right; simp [this]
        · simp only [hij, if_false]
          have := ho.cache i hi
          cases hoi : o.arena[i]? with
          | none => simp
          | some nd => rw [hoi] at this; simpa using this

/-- `C69_hierarchical_softmax` for the words of `a b a c`, vectors of size 2, depth 40. -/
example := C69_hierarchical_softmax [["a".toList, "b".toList, "a".toList, "c".toList]] (by decide) 2 40 (by decide)

/-- **C70 (hierarchical softmax).** For every corpus, `Dim`, `MaxDepth >= 0` and `1 <= Window`: starting from the fresh tree
(invariant `Inv`), every skip-gram and every CBOW step over any document of dictionary ids, at any position, learning rate and
generator state, returns normally and keeps the matrix shape and the invariant, hence so does every sequence of steps. -/
theorem C70_steps_hierarchical_softmax (calls : List (List Word)) (hne : calls.flatten ≠ []) (c : Nat) (depth : Int) (hd : 0 ≤ depth)
    (window : Int) (h1 : 1 ≤ window) (h2 : window < 2 ^ 62) :
    ∃ (d : Dictionary) (nodes : List (HNode ℝ)) (Inv : HierSoftmax ℝ → Prop),
      addCalls calls = .ok d ∧ huffmanTree d c = .ok (nodes, List.range d.len) ∧
      Inv { table := sigTable, arena := nodes, nodeset := List.range d.len, maxDepth := depth } ∧
      (∀ (doc : List Nat) (pos : Nat) (lr : ℝ) (st : StepSt (HierSoftmax ℝ) ℝ), (∀ id ∈ doc, id < d.len) → pos < doc.length →
        Inv st.opt → Shaped st.param d.len c → st.tmp.length = c →
        ∃ st', skipGramOne HierSoftmax.optim window doc pos lr st = .ok st' ∧ Inv st'.opt ∧ Shaped st'.param d.len c ∧
          st'.tmp.length = c) ∧
      (∀ (doc : List Nat) (pos : Nat) (lr : ℝ) (st : CbowSt (HierSoftmax ℝ) ℝ), (∀ id ∈ doc, id < d.len) → pos < doc.length →
        Inv st.opt → Shaped st.param d.len c → st.tmp.length = c → st.agg.length = c →
        ∃ st', cbowOne HierSoftmax.optim window doc pos lr st = .ok st' ∧ Inv st'.opt ∧ Shaped st'.param d.len c) := by
  obtain ⟨d, nodes, path, Inv, hdic, ht, _, hI, H⟩ := C69_hierarchical_softmax calls hne c depth hd
  have hok : OptimOK HierSoftmax.optim Inv d.len c := by
    intro o rnd id lr ctx tmp ho hid hc htmp
    obtain ⟨r, k, e, hi, _, hl, _⟩ := H o ho rnd id lr ctx tmp hid hc htmp
    exact ⟨r, e, hi, hl⟩
  refine ⟨d, nodes, Inv, hdic, ht, hI, ?_, ?_⟩
  · intro doc pos lr st hdoc hpos hi hm htmp
    obtain ⟨st', e, a, b, l⟩ := C29_step_total HierSoftmax.optim Inv window h1 h2 doc pos hpos lr st d.len c hm hdoc hok hi htmp
    exact ⟨st', e, b, a, l⟩
  · intro doc pos lr st hdoc hpos hi hm htmp hagg
    obtain ⟨r, st', A, U, _, _, _, e, _, a, b, _⟩ := C30_cbow_step_partial HierSoftmax.optim Inv window h1 h2 doc pos hpos lr st d.len c hm hdoc hok hi hagg htmp
    exact ⟨st', e, b, a⟩

/-- `C70_steps_hierarchical_softmax` for the words of `a b a c`, vectors of size 2, depth 40, window 5. -/
example := C70_steps_hierarchical_softmax [["a".toList, "b".toList, "a".toList, "c".toList]] (by decide) 2 40 (by decide) 5 (by decide)
  (by decide)

/-- **C70 (CBOW with negative sampling).** In real arithmetic no CBOW step over a document of dictionary ids panics. -/
theorem C70_cbow_negative_sampling (window : Int) (h1 : 1 ≤ window) (h2 : window < 2 ^ 62)
    (doc : List Nat) (pos : Nat) (hpos : pos < doc.length) (lr : ℝ) (st : CbowSt (NegSampling ℝ) ℝ) (n c : Nat) (hn2 : n < 2 ^ 63)
    (hm : Shaped st.param n c) (hc : Shaped st.opt.ctx n c) (htab : st.opt.table = sigTable) (htmp : st.tmp.length = c)
    (hagg : st.agg.length = c) (hdoc : ∀ id ∈ doc, id < n) :
    ∃ st', cbowOne NegSampling.optim window doc pos lr st = .ok st' ∧ Shaped st'.param n c ∧ Shaped st'.opt.ctx n c := by
  have hn : 0 < n := by have := hdoc _ (List.getElem_mem hpos); omega
  obtain ⟨r, st', A, U, _, _, _, e, _, a, b, _⟩ := C30_cbow_step_partial NegSampling.optim _ window h1 h2 doc pos hpos lr st n c hm hdoc
    (ns_contract sigTable sigSafe_real st.opt.sampleSize n c hn hn2) ⟨hc, htab, rfl⟩ hagg htmp
  exact ⟨st', e, a, b.1⟩

/-- `C70_cbow_negative_sampling`: five words, vectors of size 1, sample size 2, window 2. -/
example := (fun (t : List ℝ) (ht : t = sigTable) => C70_cbow_negative_sampling 2 (by decide) (by decide) [0, 1, 2, 3, 4] 2 (by decide)
  (1/10) (exCbow t) 5 1 (by decide) ⟨rfl, rfl, rfl⟩ ⟨rfl, rfl, rfl⟩ ht rfl rfl (by decide)) sigTable rfl

/-- **C70 (CBOW frame).** Whatever the optimizer: after a CBOW step that returns, the rows of words at distance more than
`window` from the position (or not in the document) are unchanged. -/
theorem C70_cbow_frame {F O : Type} [GoFloat F] (optim : Optim O F) (Inv : O → Prop) (window : Int) (h1 : 1 ≤ window) (h2 : window < 2 ^ 62)
    (doc : List Nat) (pos : Nat) (hpos : pos < doc.length) (lr : F) (st : CbowSt O F) (n c : Nat) (hm : Shaped st.param n c)
    (hdoc : ∀ id ∈ doc, id < n) (ho : OptimOK optim Inv n c) (hi : Inv st.opt) (ha : st.agg.length = c) (ht : st.tmp.length = c) :
    ∃ st', cbowOne optim window doc pos lr st = .ok st' ∧
      ∀ k < n, k ∉ wordsAt doc (contextPositions window pos doc.length) → st'.param.getRow k = st.param.getRow k := by
  obtain ⟨r, st', A, U, hA, hU, _, e, _, a, b, _, hrows, _⟩ :=
    C30_cbow_step_partial optim Inv window h1 h2 doc pos hpos lr st n c hm hdoc ho hi ha ht
  refine ⟨st', e, fun k hk hn => ?_⟩
  rw [hrows k hk, hm.getRow hk]
  have : U.count k = 0 := by
    rw [List.count_eq_zero]
    intro hmem
    apply hn
    rw [hU] at hmem
    obtain ⟨p, hp, hp2⟩ := List.mem_filterMap.1 hmem
    refine List.mem_filterMap.2 ⟨p, ?_, hp2⟩
    obtain ⟨_, s0, _⟩ := shrink_spec r.rnd window h1 h2
    simp only [contextPositions, List.mem_filter, List.mem_range, decide_eq_true_eq] at hp ⊢
    exact ⟨hp.1, hp.2.1, by omega⟩
  rw [this]; rfl

/-- `C70_cbow_frame` there. -/
example := (fun (t : List ℝ) (ht : SigSafe t) => C70_cbow_frame NegSampling.optim _ 2 (by decide) (by decide) [0, 1, 2, 3, 4]
  2 (by decide) (1/10 : ℝ) (exCbow t) 5 1 ⟨rfl, rfl, rfl⟩ (by decide) (ns_contract _ ht 2 5 1 (by decide) (by decide))
  ⟨⟨rfl, rfl, rfl⟩, rfl, rfl⟩ rfl rfl) sigTable sigSafe_real

end Wego.Props
