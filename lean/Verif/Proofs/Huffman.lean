import Mathlib.Data.List.Sort
import Mathlib.Data.List.Range
import Verif.Model.Huffman
import Verif.Proofs.HuffTree
import Verif.Proofs.Dictionary

/-! The arena of nodes built by the Huffman loop represents a forest of trees. -/

namespace Wego
open HTree

/-! ### `sort.Search` -/

theorem goSearchLoop_spec (f : Nat → Bool) (n : Nat)
    (hmono : ∀ i j, i ≤ j → j < n → f i = true → f j = true) :
    ∀ (d i j : Nat), j - i = d → i ≤ j → j ≤ n →
      (∀ k < i, f k = false) → (∀ k, j ≤ k → k < n → f k = true) →
      goSearchLoop f i j ≤ n ∧ (∀ k < goSearchLoop f i j, f k = false) ∧
      (∀ k, goSearchLoop f i j ≤ k → k < n → f k = true) := by
  intro d
  induction d using Nat.strongRecOn with
  | _ d ih =>
    intro i j hd hij hjn hlo hhi
    rw [goSearchLoop.eq_def]
    by_cases h : i < j
    · simp only [h, dif_pos]
      by_cases hf : f ((i + j) / 2) = true
      · simp only [hf, if_true]
        exact ih ((i+j)/2 - i) (by omega) i _ rfl (by omega) (by omega) hlo
          (fun k h1 h2 => hmono _ k h1 h2 hf)
      · simp only [hf, if_false, Bool.false_eq_true]
        refine ih (j - ((i+j)/2 + 1)) (by omega) _ j rfl (by omega) hjn ?_ hhi
        intro k hk
        by_contra hc
        exact hf (hmono k _ (by omega) (by omega) (by simpa using hc))
    · simp only [h, dif_neg, not_false_eq_true]
      have : i = j := by omega
      subst this
      exact ⟨hjn, hlo, hhi⟩

theorem goSearch_spec (f : Nat → Bool) (n : Nat)
    (hmono : ∀ i j, i ≤ j → j < n → f i = true → f j = true) :
    goSearch n f ≤ n ∧ (∀ k < goSearch n f, f k = false) ∧
      (∀ k, goSearch n f ≤ k → k < n → f k = true) :=
  goSearchLoop_spec f n hmono n 0 n (by omega) (by omega) (le_refl _) (by omega) (by omega)

section
variable {F : Type} [GoFloat F]

/-- The arena contains the tree `t`, whose root hangs below `p` with code `c`. -/
def Shape (arena : List (HNode F)) (dim : Nat) : Option Nat → Nat → HTree → Prop
  | p, c, .leaf i w => arena[i]? = some { parent := p, val := w, code := c }
  | p, c, .node i l r =>
    arena[i]? = some { parent := p, val := l.weight + r.weight, code := c,
                       vector := some (List.replicate dim fzero) } ∧
    Shape arena dim (some i) 0 l ∧ Shape arena dim (some i) 1 r

theorem Shape.congr {arena arena' : List (HNode F)} {dim : Nat} :
    ∀ {t : HTree} {p : Option Nat} {c : Nat}, Shape arena dim p c t →
      (∀ j ∈ ids t, arena'[j]? = arena[j]?) → Shape arena' dim p c t := by
  intro t
  induction t with
  | leaf i w => intro p c h e; simp only [Shape] at h ⊢; rw [e i (by simp [ids])]; exact h
  | node i l r ihl ihr =>
    intro p c h e
    simp only [Shape] at h ⊢
    refine ⟨by rw [e i (by simp [ids])]; exact h.1, ihl h.2.1 ?_, ihr h.2.2 ?_⟩
    · intro j hj; exact e j (by simp [ids, hj])
    · intro j hj; exact e j (by simp [ids, hj])

omit [GoFloat F] in
theorem linkTo_ne (arena : List (HNode F)) (i p c j : Nat) (h : j ≠ i) :
    (linkTo arena i p c)[j]? = arena[j]? := by
  simp [linkTo, Ne.symm h]

omit [GoFloat F] in
theorem linkTo_self (arena : List (HNode F)) (i p c : Nat) :
    (linkTo arena i p c)[i]? = arena[i]?.map (fun nd => { nd with parent := some p, code := c }) := by
  simp [linkTo]

theorem Shape.link {arena : List (HNode F)} {dim : Nat} {t : HTree} {p : Option Nat} {c : Nat}
    (h : Shape arena dim p c t) (hn : (ids t).Nodup) (m b : Nat) :
    Shape (linkTo arena t.root m b) dim (some m) b t := by
  cases t with
  | leaf i w =>
    simp only [Shape, root] at h ⊢
    rw [linkTo_self, h]; rfl
  | node i l r =>
    simp only [Shape, root] at h ⊢
    simp only [ids, List.nodup_cons, List.mem_append, not_or] at hn
    refine ⟨by rw [linkTo_self, h.1]; rfl, h.2.1.congr ?_, h.2.2.congr ?_⟩
    · intro j hj; exact linkTo_ne _ _ _ _ _ (fun e => hn.1.1 (e ▸ hj))
    · intro j hj; exact linkTo_ne _ _ _ _ _ (fun e => hn.1.2 (e ▸ hj))

theorem Shape.val {arena : List (HNode F)} {dim : Nat} {t : HTree} {p : Option Nat} {c : Nat}
    (h : Shape arena dim p c t) : nodeVal arena t.root = t.weight := by
  cases t with
  | leaf i w => simp only [Shape, root] at h ⊢; simp [nodeVal, h, weight]
  | node i l r => simp only [Shape, root] at h ⊢; simp [nodeVal, h.1, weight]

/-- The arena and the queue represent this forest. -/
structure Sim (arena : List (HNode F)) (dim : Nat) (forest : List HTree) : Prop where
  perm : (forest.flatMap ids).Perm (List.range arena.length)
  shape : ∀ t ∈ forest, Shape arena dim none 0 t
  sorted : forest.Pairwise (fun a b => a.weight ≤ b.weight)

theorem huffMerge_sim {arena : List (HNode F)} {dim : Nat} {l r : HTree} {rest : List HTree}
    (h : Sim arena dim (l :: r :: rest)) :
    ∃ k, k ≤ rest.length ∧
      (huffMerge arena dim l.root r.root (rest.map root)).2 =
        (rest.take k ++ .node arena.length l r :: rest.drop k).map root ∧
      Sim (huffMerge arena dim l.root r.root (rest.map root)).1 dim
        (rest.take k ++ .node arena.length l r :: rest.drop k) := by
  obtain ⟨hp, hs, hsort⟩ := h
  have hnd : ((l :: r :: rest).flatMap ids).Nodup := hp.nodup_iff.2 List.nodup_range
  have hlt : ∀ t ∈ l :: r :: rest, ∀ j ∈ ids t, j < arena.length := by
    intro t ht j hj
    have : j ∈ (l :: r :: rest).flatMap ids := List.mem_flatMap.2 ⟨t, ht, hj⟩
    have := hp.mem_iff.1 this
    simpa using this
  have hnd' := hnd
  simp only [List.flatMap_cons, List.nodup_append] at hnd
  obtain ⟨hnl, ⟨hnr, hnrest, hdr⟩, hdl⟩ := hnd
  set arena1 := linkTo (linkTo arena l.root arena.length 0) r.root arena.length 1 with ha1
  have hlen1 : arena1.length = arena.length := by simp [ha1, linkTo]
  set nd : HNode F := { val := nodeVal arena l.root + nodeVal arena r.root,
                        vector := some (List.replicate dim fzero) } with hndd
  have hsh_l : Shape (arena1 ++ [nd]) dim (some arena.length) 0 l := by
    refine ((hs l (by simp)).link hnl arena.length 0).congr ?_
    intro j hj
    rw [List.getElem?_append_left (by rw [hlen1]; exact hlt l (by simp) j hj)]
    exact linkTo_ne _ _ _ _ _ (fun e => hdl j hj r.root (by simp [root_mem]) e)
  have hsh_r : Shape (arena1 ++ [nd]) dim (some arena.length) 1 r := by
    have h0 : Shape (linkTo arena l.root arena.length 0) dim none 0 r := by
      refine (hs r (by simp)).congr ?_
      intro j hj
      exact linkTo_ne _ _ _ _ _ (fun e => hdl l.root (root_mem l) j (by simp [hj]) e.symm)
    refine (h0.link hnr arena.length 1).congr ?_
    intro j hj
    rw [List.getElem?_append_left (by rw [hlen1]; exact hlt r (by simp) j hj)]
  have hsh_t : ∀ t ∈ rest, Shape (arena1 ++ [nd]) dim none 0 t := by
    intro t ht
    refine (hs t (by simp [ht])).congr ?_
    intro j hj
    have hjr : j ∈ rest.flatMap ids := List.mem_flatMap.2 ⟨t, ht, hj⟩
    rw [List.getElem?_append_left (by rw [hlen1]; exact hlt t (by simp [ht]) j hj), ha1]
    rw [linkTo_ne _ _ _ _ _ (fun e => hdr r.root (root_mem r) j hjr e.symm)]
    exact linkTo_ne _ _ _ _ _ (fun e => hdl l.root (root_mem l) j (by simp only [List.mem_append]; exact Or.inr hjr) e.symm)
  have hvl : nodeVal arena l.root = l.weight := (hs l (by simp)).val
  have hvr : nodeVal arena r.root = r.weight := (hs r (by simp)).val
  have hsh_m : Shape (arena1 ++ [nd]) dim none 0 (.node arena.length l r) := by
    refine ⟨?_, hsh_l, hsh_r⟩
    rw [← hlen1]
    simp [hndd, hvl, hvr]
  set f : Nat → Bool := fun i =>
    decide (nodeVal arena l.root + nodeVal arena r.root ≤ nodeVal (arena1 ++ [nd]) ((rest.map root).getD i 0)) with hf
  have hfi : ∀ (i : Nat) (hi : i < rest.length), f i = decide (l.weight + r.weight ≤ (rest[i]).weight) := by
    intro i hi
    simp only [hf, hvl, hvr]
    have : (rest.map root).getD i 0 = (rest[i]).root := by simp [hi]
    rw [this, (hsh_t rest[i] (List.getElem_mem hi)).val]
  have hsr : rest.Pairwise (fun a b => a.weight ≤ b.weight) := by
    simp only [List.pairwise_cons] at hsort; exact hsort.2.2
  have hmono : ∀ i j, i ≤ j → j < rest.length → f i = true → f j = true := by
    intro i j hij hj hi
    rw [hfi i (by omega)] at hi
    rw [hfi j hj]
    simp only [decide_eq_true_eq] at hi ⊢
    rcases Nat.lt_or_eq_of_le hij with h | h
    · exact le_trans hi (List.pairwise_iff_getElem.1 hsr i j (by omega) hj h)
    · subst h; exact hi
  obtain ⟨hk1, hk2, hk3⟩ := goSearch_spec f rest.length hmono
  refine ⟨goSearch rest.length f, hk1, ?_, ?_, ?_, ?_⟩
  · show List.take (goSearch (rest.map root).length f) (rest.map root) ++ arena.length :: List.drop (goSearch (rest.map root).length f) (rest.map root) = _
    simp [List.map_take, List.map_drop, root]
  · show ((_ : List HTree).flatMap ids).Perm (List.range (arena1 ++ [nd]).length)
    rw [List.length_append, hlen1]
    simp only [List.length_cons, List.length_nil, List.range_succ]
    have h1 : ((rest.take (goSearch rest.length f) ++ .node arena.length l r :: rest.drop (goSearch rest.length f))).Perm
        (.node arena.length l r :: rest) := by
      refine List.perm_middle.trans ?_
      rw [List.take_append_drop]
    refine (h1.flatMap_right _).trans ?_
    simp only [List.flatMap_cons, ids, List.cons_append]
    refine List.Perm.trans ?_ (List.perm_append_comm)
    simp only [List.singleton_append]
    refine List.Perm.cons _ ?_
    simp only [List.flatMap_cons] at hp
    simpa using hp
  · intro t ht
    show Shape (arena1 ++ [nd]) dim none 0 t
    rcases List.mem_append.1 ht with h | h
    · exact hsh_t t (List.mem_of_mem_take h)
    · rcases List.mem_cons.1 h with rfl | h
      · exact hsh_m
      · exact hsh_t t (List.mem_of_mem_drop h)
  · rw [List.pairwise_append]
    have htake : ∀ x ∈ rest.take (goSearch rest.length f), x.weight ≤ l.weight + r.weight := by
      intro x hx
      obtain ⟨i, hi, rfl⟩ := List.getElem_of_mem hx
      simp only [List.length_take] at hi
      have h := hk2 i (by omega)
      rw [hfi i (by omega)] at h
      simp only [decide_eq_false_iff_not] at h
      rw [List.getElem_take]; omega
    have hdrop : ∀ x ∈ rest.drop (goSearch rest.length f), l.weight + r.weight ≤ x.weight := by
      intro x hx
      obtain ⟨i, hi, rfl⟩ := List.getElem_of_mem hx
      simp only [List.length_drop] at hi
      have h := hk3 (goSearch rest.length f + i) (by omega) (by omega)
      rw [hfi _ (by omega)] at h
      rw [List.getElem_drop]
      simpa using h
    refine ⟨hsr.sublist (List.take_sublist _ _), ?_, ?_⟩
    · rw [List.pairwise_cons]
      exact ⟨fun x hx => hdrop x hx, hsr.sublist (List.drop_sublist _ _)⟩
    · intro x hx y hy
      rcases List.mem_cons.1 hy with rfl | hy
      · exact htake x hx
      · exact le_trans (htake x hx) (hdrop y hy)

theorem huffLoop_sim (dim : Nat) : ∀ (fuel : Nat) (arena : List (HNode F)) (forest : List HTree),
    Sim arena dim forest → forest ≠ [] → forest.length ≤ fuel + 1 →
    ∃ arena' T, huffLoop (dim : Int) fuel arena (forest.map root) = .ok (arena', [T.root]) ∧
      Sim arena' dim [T] ∧ (leaves T).Perm (forest.flatMap leaves) ∧
      (∀ L : List (Nat × Nat), L.map Prod.fst = forest.map weight → kr L ≤ 1 →
        cost T ≤ (forest.map cost).sum + wcost L) := by
  intro fuel
  induction fuel with
  | zero =>
    intro arena forest h hne hl
    match forest, hne, hl with
    | [T], _, _ =>
      exact ⟨arena, T, rfl, h, by simp, fun L hL _ => by simp⟩
  | succ fuel ih =>
    intro arena forest h hne hl
    match forest, hne, hl, h with
    | [T], _, _, h => exact ⟨arena, T, rfl, h, by simp, fun L hL _ => by simp⟩
    | l :: r :: rest, _, hl, h =>
      obtain ⟨k, hk, hq, hsim⟩ := huffMerge_sim h
      obtain ⟨arena', T, he, hS, hlv, hopt⟩ := ih _ _ hsim (by simp) (by
        simp only [List.length_append, List.length_cons, List.length_take, List.length_drop] at hl ⊢; omega)
      have hperm : (rest.take k ++ HTree.node arena.length l r :: rest.drop k).Perm
          (.node arena.length l r :: rest) := by
        refine List.perm_middle.trans ?_
        rw [List.take_append_drop]
      refine ⟨arena', T, ?_, hS, ?_, ?_⟩
      · rw [← he, ← hq]
        simp only [List.map_cons, huffLoop]
        have : ¬ ((dim : Int) < 0) := by omega
        simp [this]
      · refine hlv.trans ((hperm.flatMap_right _).trans ?_)
        simp [leaves]
      · intro L hL hkr
        match L, hL with
        | (a, La) :: (b, Lb) :: L, hL =>
          simp only [List.map_cons, List.cons.injEq] at hL
          obtain ⟨rfl, rfl, hL⟩ := hL
          have hs := h.sorted
          simp only [List.pairwise_cons] at hs
          obtain ⟨m, R, hR, hkR, hcR⟩ := merge_lengths l.weight r.weight L La Lb (hs.1 r (by simp)) (by
            intro x hx
            have : x.1 ∈ rest.map weight := by rw [← hL]; exact List.mem_map_of_mem hx
            obtain ⟨t, ht, e⟩ := List.mem_map.1 this
            rw [← e]; exact hs.2.1 t ht) hkr
          have hLp : (R.take k ++ (l.weight + r.weight, m) :: R.drop k).Perm ((l.weight + r.weight, m) :: R) := by
            refine List.perm_middle.trans ?_
            rw [List.take_append_drop]
          have := hopt (R.take k ++ (l.weight + r.weight, m) :: R.drop k) (by
            simp only [List.map_append, List.map_cons, List.map_take, List.map_drop, hR, hL]
            rfl) (by
              rw [show kr (R.take k ++ (l.weight + r.weight, m) :: R.drop k) = kr ((l.weight + r.weight, m) :: R) from
                (hLp.map _).sum_eq]
              exact hkR)
          rw [show wcost (R.take k ++ (l.weight + r.weight, m) :: R.drop k) = wcost ((l.weight + r.weight, m) :: R) from
                (hLp.map _).sum_eq, (hperm.map cost).sum_eq] at this
          simp only [List.map_cons, List.sum_cons, cost] at this ⊢
          omega

/-! ### The initial forest -/

theorem huffLeaves_eq (d : Dictionary) (ws : List Word) (r : d.Rep ws) :
    huffLeaves (F := F) d = .ok (((Spec.firstOcc ws).map (fun w => ws.count w)).map (fun v => { val := v })) := by
  obtain ⟨s, h1, h2⟩ := forN_inv
    (fun i (s : List (HNode F)) => s = (((Spec.firstOcc ws).map (fun w => ws.count w)).take i).map (fun v => { val := v }))
    d.maxid [] (fun i arena => d.idFreq i >>= fun f => .ok (arena ++ [{ val := f }])) (by simp) (by
      intro i s hi hs
      rw [r.maxid] at hi
      rw [r.idFreq_nat]
      simp only [hi, List.getElem?_eq_getElem, Res.ok_bind]
      refine ⟨_, rfl, ?_⟩
      subst hs
      rw [List.take_add_one]
      simp [hi])
  unfold huffLeaves
  rw [h1, h2, r.maxid]
  rw [List.take_of_length_le (by simp)]

/-- The tree built from a list of frequencies. -/
theorem huffTree_sim (fs : List Nat) (hne : fs ≠ []) (dim : Nat) :
    ∃ (arena' : List (HNode F)) (T : HTree),
      huffLoop (dim : Int) fs.length (fs.map (fun v => ({ val := v } : HNode F)))
        (sortByVal (fs.map (fun v => ({ val := v } : HNode F))) (List.range fs.length)) = .ok (arena', [T.root]) ∧
      Sim arena' dim [T] ∧
      (leaves T).Perm (fs.zipIdx.map (fun x => (x.2, x.1))) ∧
      (∀ L : List (Nat × Nat), L.map Prod.fst = fs → kr L ≤ 1 → cost T ≤ wcost L) := by
  set arena : List (HNode F) := fs.map (fun v => { val := v }) with harena
  set q := sortByVal arena (List.range fs.length) with hq
  have hqp : q.Perm (List.range fs.length) := List.perm_insertionSort _ _
  have hval : ∀ i, nodeVal arena i = fs.getD i 0 := by
    intro i
    simp only [nodeVal, harena, List.getElem?_map, List.getD_eq_getElem?_getD]
    cases fs[i]? <;> rfl
  let forest := q.map (fun i => HTree.leaf i (fs.getD i 0))
  have hroot : forest.map root = q := by simp [forest, root, Function.comp_def]
  have hsim : Sim arena dim forest := by
    refine ⟨?_, ?_, ?_⟩
    · simp only [forest, List.flatMap_map, ids]
      rw [show (q.flatMap fun a => [a]) = q by simp]
      simpa [harena] using hqp
    · intro t ht
      obtain ⟨i, hi, rfl⟩ := List.mem_map.1 ht
      have : i < fs.length := by simpa using hqp.mem_iff.1 hi
      simp [Shape, harena, this]
    · simp only [forest, List.pairwise_map, weight]
      have : Std.Total (fun i j => nodeVal arena i ≤ nodeVal arena j) := ⟨fun a b => le_total _ _⟩
      have : IsTrans Nat (fun i j => nodeVal arena i ≤ nodeVal arena j) := ⟨fun a b c h1 h2 => le_trans h1 h2⟩
      have := List.pairwise_insertionSort (fun i j => nodeVal arena i ≤ nodeVal arena j) (List.range fs.length)
      exact this.imp (fun h => by rwa [hval, hval] at h)
  obtain ⟨arena', T, he, hS, hlv, hopt⟩ := huffLoop_sim dim fs.length arena forest hsim (by
      intro h
      have := congrArg List.length h
      simp only [forest, List.length_map, hqp.length_eq, List.length_range, List.length_nil] at this
      exact hne (List.length_eq_zero_iff.1 this))
      (by simp only [forest, List.length_map, hqp.length_eq, List.length_range]; omega)
  rw [hroot] at he
  refine ⟨arena', T, he, hS, ?_, ?_⟩
  · refine hlv.trans ?_
    simp only [forest, List.flatMap_map, leaves]
    rw [show (q.flatMap fun a => [(a, fs.getD a 0)]) = q.map (fun a => (a, fs.getD a 0)) by
      rw [List.map_eq_flatMap]]
    refine (hqp.map _).trans (List.Perm.of_eq ?_)
    apply List.ext_getElem
    · simp
    · intro i h1 h2
      simp at h1
      simp [h1]
  · intro L hL hk
    -- arrange the lengths in the order of the queue
    have hLq : (q.map (fun i => L.getD i (0,0))).Perm L := by
      refine (hqp.map _).trans (List.Perm.of_eq ?_)
      have hlen : L.length = fs.length := by rw [← hL]; simp
      apply List.ext_getElem
      · simp [hlen]
      · intro i h1 h2; simp [h2]
    have := hopt (q.map (fun i => L.getD i (0,0))) (by
      simp only [forest, List.map_map]
      refine List.map_congr_left ?_
      intro i hi
      have hi' : i < fs.length := by simpa using hqp.mem_iff.1 hi
      have hlen : L.length = fs.length := by rw [← hL]; simp
      simp only [Function.comp, weight]
      have : fs.getD i 0 = (L.map Prod.fst).getD i 0 := by rw [hL]
      rw [this]
      simp [hlen, hi']) (by
        rw [show kr (q.map (fun i => L.getD i (0,0))) = kr L from (hLq.map _).sum_eq]; exact hk)
    rw [show wcost (q.map (fun i => L.getD i (0,0))) = wcost L from (hLq.map _).sum_eq] at this
    have hc : (forest.map cost).sum = 0 := by
      apply List.sum_eq_zero
      intro x hx
      simp only [forest, List.map_map, List.mem_map, Function.comp, cost] at hx
      obtain ⟨_, _, rfl⟩ := hx; rfl
    omega

/-! ### Paths -/

theorem Shape.follow {arena : List (HNode F)} {dim : Nat} :
    ∀ {t : HTree} {p : Option Nat} {c : Nat}, Shape arena dim p c t → ∀ x ∈ walks t, ∀ k,
      followParents arena (k + x.path.length) (some x.leaf) =
        (followParents arena k p).map (x.path.reverse ++ ·) := by
  intro t
  induction t with
  | leaf i w =>
    intro p c h x hx k
    simp only [walks, List.mem_singleton] at hx
    subst hx
    simp only [Shape] at h
    simp [followParents, h]
  | node i l r ihl ihr =>
    intro p c h x hx k
    simp only [Shape] at h
    have key : ∀ (b : Nat) (y : Walk) (e : followParents arena ((k+1) + y.path.length) (some y.leaf) =
        (followParents arena (k+1) (some i)).map (y.path.reverse ++ ·)),
        followParents arena (k + (Walk.down i b y).path.length) (some (Walk.down i b y).leaf) =
        (followParents arena k p).map ((Walk.down i b y).path.reverse ++ ·) := by
      intro b y e
      simp only [Walk.down, List.length_cons]
      rw [show k + (y.path.length + 1) = (k + 1) + y.path.length by omega, e]
      simp only [followParents, h.1, Option.bind_some]
      cases followParents arena k p <;> simp
    simp only [walks, List.mem_append, List.mem_map] at hx
    rcases hx with ⟨y, hy, rfl⟩ | ⟨y, hy, rfl⟩
    · exact key 0 y (ihl h.2.1 y hy (k+1))
    · exact key 1 y (ihr h.2.2 y hy (k+1))

theorem walks_path_sublist (t : HTree) : ∀ x ∈ walks t, x.path.Sublist (ids t) := by
  induction t with
  | leaf i w => intro x hx; simp only [walks, List.mem_singleton] at hx; subst hx; simp [ids]
  | node i l r ihl ihr =>
    intro x hx
    simp only [walks, List.mem_append, List.mem_map] at hx
    rcases hx with ⟨y, hy, rfl⟩ | ⟨y, hy, rfl⟩
    · exact (((ihl y hy).trans (List.sublist_append_left _ _))).cons_cons i
    · exact (((ihr y hy).trans (List.sublist_append_right _ _))).cons_cons i

theorem walks_head (t : HTree) : ∀ x ∈ walks t, x.path.head? = some t.root := by
  cases t with
  | leaf i w => intro x hx; simp only [walks, List.mem_singleton] at hx; subst hx; simp [root]
  | node i l r =>
    intro x hx
    simp only [walks, List.mem_append, List.mem_map] at hx
    rcases hx with ⟨y, hy, rfl⟩ | ⟨y, hy, rfl⟩ <;> simp [Walk.down, root]

theorem walks_last (t : HTree) : ∀ x ∈ walks t, x.path.getLast? = some x.leaf := by
  induction t with
  | leaf i w => intro x hx; simp only [walks, List.mem_singleton] at hx; subst hx; simp
  | node i l r ihl ihr =>
    intro x hx
    simp only [walks, List.mem_append, List.mem_map] at hx
    rcases hx with ⟨y, hy, rfl⟩ | ⟨y, hy, rfl⟩
    · have := ihl y hy
      simp only [Walk.down]
      rw [List.getLast?_cons, this]; rfl
    · have := ihr y hy
      simp only [Walk.down]
      rw [List.getLast?_cons, this]; rfl

theorem Shape.chain {arena : List (HNode F)} {dim : Nat} :
    ∀ {t : HTree} {p : Option Nat} {c : Nat}, Shape arena dim p c t → ∀ x ∈ walks t,
      x.path.IsChain (fun a b => arena[b]?.bind HNode.parent = some a) ∧
      x.path.tail.map (fun j => (arena[j]?.map HNode.code).getD 0) = x.bits := by
  intro t
  induction t with
  | leaf i w => intro p c h x hx; simp only [walks, List.mem_singleton] at hx; subst hx; simp
  | node i l r ihl ihr =>
    intro p c h x hx
    simp only [Shape] at h
    have key : ∀ (b : Nat) (t : HTree) (y : Walk), y ∈ walks t → Shape arena dim (some i) b t →
        (y.path.IsChain (fun a b => arena[b]?.bind HNode.parent = some a) ∧
          y.path.tail.map (fun j => (arena[j]?.map HNode.code).getD 0) = y.bits) →
        ((Walk.down i b y).path.IsChain (fun a b => arena[b]?.bind HNode.parent = some a) ∧
          (Walk.down i b y).path.tail.map (fun j => (arena[j]?.map HNode.code).getD 0) = (Walk.down i b y).bits) := by
      intro b t y hy hS e
      have hh := walks_head t y hy
      have hr : arena[t.root]?.bind HNode.parent = some i ∧ (arena[t.root]?.map HNode.code).getD 0 = b := by
        cases t with
        | leaf j w => simp only [Shape] at hS; simp [root, hS]
        | node j l r => simp only [Shape] at hS; simp [root, hS.1]
      simp only [Walk.down, List.tail_cons]
      cases hp : y.path with
      | nil => rw [hp] at hh; simp at hh
      | cons j path =>
        rw [hp] at hh e
        simp only [List.head?_cons, Option.some.injEq] at hh
        subst hh
        refine ⟨?_, ?_⟩
        · rw [List.isChain_cons_cons]; exact ⟨hr.1, e.1⟩
        · simp only [List.map_cons, hr.2]
          simp only [List.tail_cons] at e
          rw [e.2]
    simp only [walks, List.mem_append, List.mem_map] at hx
    rcases hx with ⟨y, hy, rfl⟩ | ⟨y, hy, rfl⟩
    · exact key 0 l y hy h.2.1 (ihl h.2.1 y hy)
    · exact key 1 r y hy h.2.2 (ihr h.2.2 y hy)

theorem Shape.inner_vec {arena : List (HNode F)} {dim : Nat} :
    ∀ {t : HTree} {p : Option Nat} {c : Nat}, Shape arena dim p c t →
      (∀ i ∈ inner t, arena[i]?.bind HNode.vector = some (List.replicate dim fzero)) ∧
      (∀ x ∈ leaves t, ∃ nd, arena[x.1]? = some nd ∧ nd.vector = none ∧ nd.val = x.2) ∧
      (∀ i ∈ ids t, arena[i]?.bind HNode.cache = none) := by
  intro t
  induction t with
  | leaf i w => intro p c h; simp only [Shape] at h; simp [inner, leaves, ids, h]
  | node i l r ihl ihr =>
    intro p c h
    simp only [Shape] at h
    obtain ⟨l1, l2, l3⟩ := ihl h.2.1
    obtain ⟨r1, r2, r3⟩ := ihr h.2.2
    refine ⟨?_, ?_, ?_⟩
    · simp only [inner, List.mem_cons, List.mem_append]
      rintro j (rfl | hj | hj)
      · simp [h.1]
      · exact l1 j hj
      · exact r1 j hj
    · simp only [leaves, List.mem_append]
      rintro x (hx | hx)
      · exact l2 x hx
      · exact r2 x hx
    · simp only [ids, List.mem_cons, List.mem_append]
      rintro j (rfl | hj | hj)
      · simp [h.1]
      · exact l3 j hj
      · exact r3 j hj

end
end Wego
