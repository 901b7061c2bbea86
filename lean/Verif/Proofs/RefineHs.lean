import Verif.Proofs.RefineStep
import Verif.Proofs.HierSoftmax

/-! # Hierarchical softmax: the program, running alone, computes `HierSoftmax.optim` -/

namespace Wego
open Prog Matrix
variable {F : Type} [GoFloat F] {path : Nat → List Nat} {m m' : Mem F} {us : Ora F}

/-- `b` is `a` with other vectors of the same lengths -/
def VecOnly (a b : List (HNode F)) : Prop :=
  ∀ j : Nat, (∃ v, b[j]? = a[j]?.map (fun nd => { nd with vector := v })) ∧ (vecOf b j).length = (vecOf a j).length

namespace VecOnly
omit [GoFloat F]
variable {a b c : List (HNode F)}

theorem refl (a : List (HNode F)) : VecOnly a a := by
  refine fun j => ⟨?_, rfl⟩
  cases h : a[j]? with
  | none => exact ⟨none, rfl⟩
  | some nd => exact ⟨nd.vector, rfl⟩

theorem trans (h1 : VecOnly a b) (h2 : VecOnly b c) : VecOnly a c := by
  intro j
  obtain ⟨⟨v, e1⟩, l1⟩ := h1 j
  obtain ⟨⟨w, e2⟩, l2⟩ := h2 j
  refine ⟨⟨w, ?_⟩, l2.trans l1⟩
  rw [e2, e1]; cases a[j]? <;> rfl

theorem parent (h : VecOnly a b) (j : Nat) : b[j]?.bind HNode.parent = a[j]?.bind HNode.parent := by
  obtain ⟨⟨v, e⟩, _⟩ := h j
  rw [e]; cases a[j]? <;> rfl

theorem cache (h : VecOnly a b) (j : Nat) : b[j]?.bind HNode.cache = a[j]?.bind HNode.cache := by
  obtain ⟨⟨v, e⟩, _⟩ := h j
  rw [e]; cases a[j]? <;> rfl

theorem code (h : VecOnly a b) (j : Nat) : b[j]?.map HNode.code = a[j]?.map HNode.code := by
  obtain ⟨⟨v, e⟩, _⟩ := h j
  rw [e]; cases a[j]? <;> rfl

theorem length (h : VecOnly a b) : b.length = a.length := by
  apply Nat.le_antisymm
  · by_contra hc
    obtain ⟨⟨_, e⟩, _⟩ := h a.length
    rw [List.getElem?_eq_getElem (by omega), List.getElem?_eq_none (le_refl _)] at e
    simp at e
  · by_contra hc
    obtain ⟨⟨_, e⟩, _⟩ := h b.length
    rw [List.getElem?_eq_none (le_refl _), List.getElem?_eq_getElem (by omega)] at e
    simp at e

end VecOnly

theorem vecOf_modify (a : List (HNode F)) (p : Nat) (nd : HNode F) (hp : a[p]? = some nd) (f : List F → List F) (j : Nat) :
    vecOf (a.modify p (fun x => { x with vector := nd.vector.map f })) j = if j = p then (nd.vector.map f).getD [] else vecOf a j := by
  unfold vecOf
  rw [List.getElem?_modify]
  by_cases h : p = j
  · subst h; simp [hp]
  · simp only [h, if_false, Ne.symm h]
    cases a[j]? <;> rfl

theorem vecOnly_modify (a : List (HNode F)) (p : Nat) (nd : HNode F) (hp : a[p]? = some nd) (f : List F → List F)
    (hf : ∀ v, nd.vector = some v → (f v).length = v.length) : VecOnly a (a.modify p (fun x => { x with vector := nd.vector.map f })) := by
  intro j
  constructor
  · rw [List.getElem?_modify]
    by_cases h : p = j
    · subst h; exact ⟨nd.vector.map f, by simp [hp]⟩
    · cases hj : a[j]? with
      | none => exact ⟨none, by simp⟩
      | some x => exact ⟨x.vector, by simp [h]⟩
  · rw [vecOf_modify a p nd hp]
    split
    · next h =>
      subst h
      unfold vecOf
      rw [hp]
      cases hv : nd.vector with
      | none => simp [hv]
      | some v => simpa [hv] using hf v hv
    · rfl

/-- the node vectors in memory are those of the arena; the arena has the shape `t` -/
structure ArenaAt (t : TreeShape) (m : Mem F) (a : List (HNode F)) : Prop where
  vlen : ∀ n, (vecOf a n).length = t.vlen n
  code : ∀ n, (a[n]?.map HNode.code).getD 0 = t.code n
  cell : ∀ n j (h : j < (vecOf a n).length), m.cell (.node n j) = (vecOf a n)[j]

/-- one vector of the tree is updated -/
theorem arena_update {t : TreeShape} {m1 m2 : Mem F} {a : List (HNode F)} (ha : ArenaAt t m1 a) {p : Nat} {np : HNode F} (hnp : a[p]? = some np) (g : F) (ctx : List F)
    (hlc : (vecOf a p).length ≤ ctx.length) (e2 : RowSet (.node p) m1 (axpyF g ctx (vecOf a p)) m2) :
    ArenaAt t m2 (a.modify p (fun x => { x with vector := np.vector.map (axpyF g ctx) })) ∧
      VecOnly a (a.modify p (fun x => { x with vector := np.vector.map (axpyF g ctx) })) ∧ ∀ i j, m2.cell (.param i j) = m1.cell (.param i j) := by
  have hax : (axpyF g ctx (vecOf a p)).length = (vecOf a p).length := by unfold axpyF; rw [List.length_zipWith]; omega
  have hvo : VecOnly a (a.modify p (fun x => { x with vector := np.vector.map (axpyF g ctx) })) := by
    refine vecOnly_modify a p np hnp _ fun v hv => ?_
    have : vecOf a p = v := by unfold vecOf; rw [hnp]; simp [hv]
    rw [this] at hax; exact hax
  have hvm : ∀ j, vecOf (a.modify p (fun x => { x with vector := np.vector.map (axpyF g ctx) })) j = if j = p then axpyF g ctx (vecOf a p) else vecOf a j := by
    intro j
    rw [vecOf_modify a p np hnp]
    split
    · cases hv : np.vector with
      | none =>
        have : vecOf a p = [] := by unfold vecOf; rw [hnp]; simp [hv]
        simp [this, axpyF]
      | some v =>
        have : vecOf a p = v := by unfold vecOf; rw [hnp]; simp [hv]
        simp [this]
    · rfl
  have ha2 : ArenaAt t m2 (a.modify p (fun x => { x with vector := np.vector.map (axpyF g ctx) })) := by
    refine ⟨fun n => (hvo n).2.trans (ha.vlen n), fun n => by rw [hvo.code n]; exact ha.code n, ?_⟩
    intro n j hj
    have hv := hvm n
    by_cases hn : n = p
    · subst hn
      rw [if_pos rfl] at hv
      have hj' : j < (axpyF g ctx (vecOf a n)).length := by rw [← hv]; exact hj
      rw [e2.new j hj']
      simp only [hv]
    · rw [if_neg hn] at hv
      have hj' : j < (vecOf a n).length := by rw [← hv]; exact hj
      rw [e2.old _ (by rintro k _ e; cases e; exact hn rfl), ha.cell n j hj']
      simp only [hv]
  have hpar : ∀ i j, m2.cell (.param i j) = m1.cell (.param i j) := fun i j => e2.old _ (by simp)
  exact ⟨ha2, hvo, hpar⟩

theorem hsLoop_runs (sh : W2VShared F) (t : TreeShape) (lr : F) {src : Src F} {ctx : List F} (L : List Nat) :
    ∀ {m : Mem F} {a a' : List (HNode F)} {tmp tmp' : List F}, ArenaAt t m a → SrcAt sh.dim m src ctx → tmp.length = sh.dim →
      hsLoop sh.table lr ctx L a tmp = .ok (a', tmp') →
      (hsLoopP sh t lr src L tmp).Runs path m us (fun x m' us' => x = tmp' ∧ x.length = sh.dim ∧ ArenaAt t m' a' ∧ VecOnly a a' ∧ m'.next = m.next ∧ us' = us ∧
        ∀ i j, m'.cell (.param i j) = m.cell (.param i j)) := by
  have done : ∀ {m : Mem F} {a a' : List (HNode F)} {tmp tmp' : List F}, ArenaAt t m a → tmp.length = sh.dim → Res.ok (a, tmp) = Res.ok (a', tmp') →
      (Prog.ret tmp : Prog F (List F)).Runs path m us (fun x m' us' => x = tmp' ∧ x.length = sh.dim ∧ ArenaAt t m' a' ∧ VecOnly a a' ∧ m'.next = m.next ∧ us' = us ∧
        ∀ i j, m'.cell (.param i j) = m.cell (.param i j)) := by
    intro m a a' tmp tmp' ha ht e
    obtain ⟨rfl, rfl⟩ := Prod.mk.inj (Res.ok.inj e)
    exact Runs.ret ⟨rfl, ht, ha, VecOnly.refl _, rfl, rfl, fun _ _ => rfl⟩
  induction L with
  | nil => intro m a a' tmp tmp' ha _ ht hr; rw [hsLoop] at hr; unfold hsLoopP; exact done ha ht hr; all_goals simp
  | cons p L ih =>
    intro m a a' tmp tmp' ha hsrc ht hr
    cases L with
    | nil => rw [hsLoop] at hr; unfold hsLoopP; exact done ha ht hr; all_goals simp
    | cons q L =>
      rw [hsLoop, Res.bind_eq_ok] at hr
      obtain ⟨np, hnp, hr⟩ := hr
      rw [Res.bind_eq_ok] at hr
      obtain ⟨nq, hnq, hr⟩ := hr
      rw [idx_eq_ok] at hnp hnq
      have hvec : np.vector.getD [] = vecOf a p := by unfold vecOf; rw [hnp]; rfl
      have hcode : nq.code = t.code q := by rw [← ha.code q, hnq]; rfl
      dsimp only at hr
      rw [hvec] at hr
      split at hr
      · cases hr
      · next hlen =>
        have hlc : (vecOf a p).length ≤ ctx.length := by omega
        have hlt : (vecOf a p).length ≤ tmp.length := by omega
        unfold hsLoopP
        rw [← ha.vlen p]
        refine Runs.bind (dot_runs (x := ctx) (y := vecOf a p) hlc (le_refl _) (Or.inr (le_refl _)) ?_) ?_
        · intro i h1 h2 f R hf
          exact hsrc.read h1 (Runs.ld_bind (ha.cell p i h2) hf)
        · rintro d m1 us1 ⟨rfl, rfl, rfl⟩
          split at hr
          · next hclip => rw [if_pos hclip]; exact done ha ht hr
          · next hclip =>
            rw [if_neg hclip]
            rw [Res.bind_eq_ok] at hr
            obtain ⟨s, hs, hr⟩ := hr
            refine Runs.ofRes_bind hs ?_
            rw [hcode] at hr
            dsimp only at hr ⊢
            generalize (GoFloat.ofRat 1 -. GoFloat.ofRat (t.code q : ℚ) -. s) *. lr = g at hr ⊢
            refine Runs.bind (axpy_runs (loc := .node p) (fun i j e => by cases e; rfl) (by simp) (by simp) g hsrc (vec := vecOf a p) (tmp := tmp)
              (fun i hi => ha.cell p i hi) hlc hlt) ?_
            rintro x m2 us2 ⟨rfl, e2, rfl⟩
            have hax : (axpyF g ctx (vecOf a p)).length = (vecOf a p).length := by unfold axpyF; rw [List.length_zipWith]; omega
            obtain ⟨ha2, hvo, hpar⟩ := arena_update ha hnp g ctx hlc e2
            have ht2 : (axpyF g (vecOf a p) (tmp.take (vecOf a p).length) ++ tmp.drop (vecOf a p).length).length = sh.dim := by
              rw [List.length_append, List.length_drop]; unfold axpyF; rw [List.length_zipWith, List.length_take]; omega
            refine (ih ha2 (hsrc.mono hpar) ht2 hr).mono ?_
            rintro x m3 us3 ⟨k1, k2, k3, k4, k5, k6, k7⟩
            exact ⟨k1, k2, k3, hvo.trans k4, k5.trans e2.next, k6, fun i j => (k7 i j).trans (hpar i j)⟩

/-- the tree: its links and paths are those of the fresh tree, caches hold full paths -/
structure HsTree (a0 : List (HNode F)) (table : List F) (words : Nat) (depth : Int) (full : Nat → List Nat) (o : HierSoftmax F) : Prop where
  table : o.table = table
  nodeset : o.nodeset = List.range words
  depth : o.maxDepth = depth
  length : o.arena.length = a0.length
  parent : ∀ j : Nat, o.arena[j]?.bind HNode.parent = a0[j]?.bind HNode.parent
  cache : ∀ i < words, o.arena[i]?.bind HNode.cache = none ∨ o.arena[i]?.bind HNode.cache = some (full i)

/-- hierarchical softmax: tree and vectors in memory -/
def HsAt (a0 : List (HNode F)) (sh : W2VShared F) (t : TreeShape) (depth : Int) (full : Nat → List Nat) (m : Mem F) (o : HierSoftmax F) : Prop :=
  HsTree a0 sh.table t.words depth full o ∧ ArenaAt t m o.arena

theorem hsAt_stable (a0 : List (HNode F)) (sh : W2VShared F) (t : TreeShape) (depth : Int) (full : Nat → List Nat) : ROStable (HsAt a0 sh t depth full) := by
  rintro m m' o h ⟨h1, h2⟩
  exact ⟨h1, h2.vlen, h2.code, fun n j hj => by rw [h _ (by simp) (by simp)]; exact h2.cell n j hj⟩

/-- `GetPath` on the tree -/
theorem HsTree.getPath {a0 : List (HNode F)} {table : List F} {words : Nat} {depth : Int} {full : Nat → List Nat} {o : HierSoftmax F} (h : HsTree a0 table words depth full o)
    (hd : 0 ≤ depth) (hfull : ∀ i < words, followParents a0 (a0.length + 1) (some i) = some (full i).reverse) {id : Nat} (hid : id < words) :
    ∃ a1, Wego.getPath o.arena id depth = some (.ok (a1, (full id).take depth.toNat)) ∧ HsTree a0 table words depth full { o with arena := a1 } ∧
      (∀ j, vecOf a1 j = vecOf o.arena j) ∧ (∀ j : Nat, a1[j]?.map HNode.code = o.arena[j]?.map HNode.code) := by
  have hgp := getPath_gen o.arena id (full id) depth hd (by
    rcases h.cache id hid with h' | h'
    · right
      refine ⟨h', ?_⟩
      rw [Props.followParents_congr _ _ h.parent, h.length, hfull id hid]
    · left; exact h')
  rcases hgp with e | e
  · exact ⟨_, e, h, fun _ => rfl, fun _ => rfl⟩
  · refine ⟨_, e, ⟨h.table, h.nodeset, h.depth, ?_, ?_, ?_⟩, ?_, ?_⟩
    · simpa using h.length
    · intro j
      rw [← h.parent j, List.getElem?_modify]
      cases o.arena[j]? with
      | none => rfl
      | some nd => by_cases hj : id = j <;> simp [hj]
    · intro i hi
      have := h.cache i hi
      dsimp only
      rw [List.getElem?_modify]
      cases ho : o.arena[i]? with
      | none => left; simp
      | some nd =>
        rw [ho] at this
        by_cases hj : id = i
        · right; simp [hj]
        · simpa [hj] using this
    · intro j
      unfold vecOf
      rw [List.getElem?_modify]
      cases o.arena[j]? with
      | none => rfl
      | some nd => by_cases hj : id = j <;> simp [hj]
    · intro j
      rw [List.getElem?_modify]
      cases o.arena[j]? with
      | none => rfl
      | some nd => by_cases hj : id = j <;> simp [hj]

theorem HsTree.vecOnly {a0 : List (HNode F)} {table : List F} {words : Nat} {depth : Int} {full : Nat → List Nat} {o : HierSoftmax F} (h : HsTree a0 table words depth full o)
    {a' : List (HNode F)} (hv : VecOnly o.arena a') : HsTree a0 table words depth full { o with arena := a' } :=
  ⟨h.table, h.nodeset, h.depth, hv.length.trans h.length, fun j => (hv.parent j).trans (h.parent j), fun i hi => by
    dsimp only; rw [hv.cache i]; exact h.cache i hi⟩

theorem hsOptim_sim (a0 : List (HNode F)) (sh : W2VShared F) (t : TreeShape) (depth : Int) (hd : 0 ≤ depth) (full : Nat → List Nat)
    (hfull : ∀ i < t.words, followParents a0 (a0.length + 1) (some i) = some (full i).reverse)
    (hpath : ∀ i < t.words, path i = (full i).take depth.toNat) :
    OptimSim path sh.dim t.words (HsAt a0 sh t depth full) (hsOptimP sh t) HierSoftmax.optim := by
  rintro m us o id lr src ctx tmp r hid ⟨h1, h2⟩ hsrc ht hr
  obtain ⟨a1, e1, h3, e2, e3⟩ := h1.getPath hd hfull hid
  unfold HierSoftmax.optim idxI at hr
  have hi : idx (List.range t.words) ((id : Int)).toNat = .ok id := by rw [idx_eq_ok]; simp [hid]
  rw [if_neg (by omega), h1.nodeset, hi, Res.ok_bind, h1.depth, e1] at hr
  dsimp only at hr
  rw [Res.ok_bind, Res.bind_eq_ok] at hr
  obtain ⟨⟨a2, t2⟩, e4, hr⟩ := hr
  obtain rfl := Res.ok.inj hr
  dsimp only at e4
  rw [h1.table] at e4
  unfold hsOptimP
  rw [if_pos ⟨by omega, by omega⟩]
  have ha1 : ArenaAt t m a1 := ⟨fun n => by rw [e2]; exact h2.vlen n, fun n => by rw [e3]; exact h2.code n, fun n j hj => by
    have := e2 n
    have hj' : j < (vecOf o.arena n).length := by rw [← this]; exact hj
    rw [h2.cell n j hj']
    simp only [this]⟩
  have key := hsLoop_runs (path := path) (us := us) sh t lr ((full id).take depth.toNat) ha1 hsrc ht e4
  obtain ⟨x, m', us', k0, k1, k2, k3, k4, k5, k6, k7⟩ := key
  have h4 := h3.vecOnly k4
  refine ⟨x, m', us', ?_, k1, k2, ⟨⟨h4.table, rfl, rfl, h4.length, h4.parent, h4.cache⟩, k3⟩, k5, k6, k7⟩
  rw [Prog.run, Int.toNat_natCast, hpath id hid]
  exact k0

theorem hsLoop_total (table : List F) (hs : SigSafe table) (lr : F) (ctx : List F) (c : Nat) (hc : ctx.length = c) (L : List Nat) :
    ∀ (a : List (HNode F)) (tmp : List F), tmp.length = c → (∀ p ∈ L, p < a.length) → (∀ j, (vecOf a j).length ≤ c) →
      ∃ a' tmp', hsLoop table lr ctx L a tmp = .ok (a', tmp') ∧ VecOnly a a' ∧ tmp'.length = c := by
  induction L with
  | nil => intro a tmp ht _ _; rw [hsLoop]; exact ⟨a, tmp, rfl, VecOnly.refl _, ht⟩; all_goals simp
  | cons p L ih =>
    intro a tmp ht hL hv
    cases L with
    | nil => rw [hsLoop]; exact ⟨a, tmp, rfl, VecOnly.refl _, ht⟩; all_goals simp
    | cons q L =>
      have hp := hL p (by simp)
      have hq := hL q (by simp)
      have hvec : (a[p]).vector.getD [] = vecOf a p := by unfold vecOf; rw [List.getElem?_eq_getElem hp]; rfl
      have hvl := hv p
      rw [hsLoop, idx_of_lt _ _ hp, Res.ok_bind, idx_of_lt _ _ hq, Res.ok_bind]
      dsimp only
      rw [hvec, if_neg (by omega)]
      split
      · exact ⟨a, tmp, rfl, VecOnly.refl _, ht⟩
      · next hclip =>
        rw [Bool.or_eq_true, not_or, Bool.not_eq_true, Bool.not_eq_true] at hclip
        obtain ⟨s, e⟩ := hs _ hclip.1 hclip.2
        rw [e, Res.ok_bind]
        generalize (GoFloat.ofRat 1 -. GoFloat.ofRat ((a[q]).code : ℚ) -. s) *. lr = g
        have hvo : VecOnly a (a.modify p (fun x => { x with vector := (a[p]).vector.map (axpyF g ctx) })) := by
          refine vecOnly_modify a p a[p] (List.getElem?_eq_getElem hp) _ fun v hv' => ?_
          rw [hv', Option.getD_some] at hvec
          rw [← hvec] at hvl
          unfold axpyF; rw [List.length_zipWith]; omega
        obtain ⟨a', t', e1, e2, e3⟩ := ih (a.modify p (fun x => { x with vector := (a[p]).vector.map (axpyF g ctx) }))
          (axpyF g (vecOf a p) (tmp.take (vecOf a p).length) ++ tmp.drop (vecOf a p).length) (by
            rw [List.length_append, List.length_drop]; unfold axpyF; rw [List.length_zipWith, List.length_take]; omega)
          (fun r hr => by rw [hvo.length]; exact hL r (by simp [hr])) (fun j => by rw [(hvo j).2]; exact hv j)
        exact ⟨a', t', e1, hvo.trans e2, e3⟩

/-- the optimizer never panics on a well-formed tree -/
theorem hs_contract (a0 : List (HNode F)) (table : List F) (hs : SigSafe table) (words c : Nat) (depth : Int) (hd : 0 ≤ depth) (full : Nat → List Nat)
    (hfull : ∀ i < words, followParents a0 (a0.length + 1) (some i) = some (full i).reverse)
    (hlt : ∀ i < words, ∀ p ∈ full i, p < a0.length) :
    Props.OptimOK (HierSoftmax.optim (F := F)) (fun o => HsTree a0 table words depth full o ∧ ∀ j, (vecOf o.arena j).length ≤ c) words c := by
  rintro o rnd id lr ctx tmp ⟨h1, h2⟩ hid hc ht
  obtain ⟨a1, e1, h3, e2, e3⟩ := h1.getPath hd hfull hid
  obtain ⟨a', t', k1, k2, k3⟩ := hsLoop_total table hs lr ctx c hc ((full id).take depth.toNat) a1 tmp ht
    (fun p hp => by rw [show a1.length = a0.length from h3.length]; exact hlt id hid p (List.mem_of_mem_take hp)) (fun j => by rw [e2]; exact h2 j)
  refine ⟨⟨{ o with arena := a' }, rnd, t'⟩, ?_, ⟨h3.vecOnly k2, fun j => by rw [(k2 j).2, e2]; exact h2 j⟩, k3⟩
  unfold HierSoftmax.optim idxI
  have hi : idx (List.range words) ((id : Int)).toNat = .ok id := by rw [idx_eq_ok]; simp [hid]
  rw [if_neg (by omega), h1.nodeset, hi, Res.ok_bind, h1.depth, e1]
  dsimp only
  rw [Res.ok_bind, h1.table, k1]; rfl

end Wego
