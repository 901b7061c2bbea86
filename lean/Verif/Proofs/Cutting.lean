import Verif.Proofs.Pipeline
import Verif.Props.Corpus

/-! # Lemmas on how the document is cut into pieces -/

namespace Wego
open Prog Props Spec
variable {F : Type} {σ : Type}

/-! ## locations that no goroutine writes -/

theorem Pool.step_frame {env : MemEnv F} {g : Nat} {W : Loc → Prop} {np : Panic → Prop} {s t : Pool F} (h0 : ∀ x ∈ s.obs ++ s.wait ++ s.run, x.Ok env W np (fun _ => True))
    (h : Pool.Step env g s t) : (∀ x ∈ t.obs ++ t.wait ++ t.run, x.Ok env W np (fun _ => True)) ∧ ∀ l, ¬ W l → t.mem.cell l = s.mem.cell l := by
  cases h with
  | acquire m obs l r run x h =>
    refine ⟨fun t ht => h0 t ?_, fun _ _ => rfl⟩
    simp only [List.mem_append, List.mem_cons] at ht ⊢
    tauto
  | work m m' obs wait run run' h =>
    obtain ⟨h1, h2⟩ := Sys.reach_ok (s₀ := ⟨m, run⟩) (fun t ht => h0 t (by simp; tauto)) (.step _ _ .refl h)
    refine ⟨fun t ht => ?_, h2⟩
    simp only [List.mem_append] at ht h0
    rcases ht with ht | ht
    · exact h0 t (.inl ht)
    · exact h1 t ht
  | observe m m' obs obs' wait run h =>
    obtain ⟨h1, h2⟩ := Sys.reach_ok (s₀ := ⟨m, obs⟩) (fun t ht => h0 t (by simp; tauto)) (.step _ _ .refl h)
    refine ⟨fun t ht => ?_, h2⟩
    simp only [List.mem_append] at ht h0
    rcases ht with (ht | ht) | ht
    · exact h1 t ht
    · exact h0 t (.inl (.inr ht))
    · exact h0 t (.inr ht)
  | release m obs wait l r =>
    refine ⟨fun t ht => h0 t ?_, fun _ _ => rfl⟩
    simp only [List.mem_append, List.mem_cons] at ht ⊢
    tauto

theorem Pool.reach_frame {env : MemEnv F} {g : Nat} {W : Loc → Prop} {np : Panic → Prop} {s t : Pool F} (h0 : ∀ x ∈ s.obs ++ s.wait ++ s.run, x.Ok env W np (fun _ => True))
    (h : Pool.Reach env g s t) : (∀ x ∈ t.obs ++ t.wait ++ t.run, x.Ok env W np (fun _ => True)) ∧ ∀ l, ¬ W l → t.mem.cell l = s.mem.cell l := by
  induction h with
  | refl => exact ⟨h0, fun _ _ => rfl⟩
  | step s t _ hs ih =>
    obtain ⟨h1, h2⟩ := Pool.step_frame ih.1 hs
    exact ⟨h1, fun l hl => (h2 l hl).trans (ih.2 l hl)⟩

/-- variables that no goroutine of any iteration writes are unchanged at the end -/
theorem Pool.iters_frame {env : MemEnv F} {g : Nat} {W : Loc → Prop} {np : Panic → Prop} {m m' : Mem F} {obs : List (Prog F Unit)}
    {rounds : List (Prog F Unit × List (Prog F Unit))} (h : Pool.Iters env g m obs rounds m') (hobs : ∀ t ∈ obs, t.Ok env W np (fun _ => True))
    (hr : ∀ q ∈ rounds, q.1.Ok env W np (fun _ => True) ∧ ∀ t ∈ q.2, t.Ok env W np (fun _ => True)) : ∀ l, ¬ W l → m'.cell l = m.cell l := by
  induction h with
  | nil m obs => exact fun _ _ => rfl
  | cons m m1 m2 obs obs' ob ws rest h _ ih =>
    have hq := hr (ob, ws) (by simp)
    obtain ⟨h1, h2⟩ := Pool.reach_frame (W := W) (np := np) (by
      intro x hx
      simp only [List.append_nil, List.mem_append, List.mem_cons] at hx
      rcases hx with (rfl | hx) | hx
      · exact hq.1
      · exact hobs x hx
      · exact hq.2 x hx) h
    intro l hl
    rw [ih (fun t ht => h1 t (by simp [ht])) (fun q hq => hr q (by simp [hq])) l hl]
    exact h2 l hl

/-! ## pieces of at most one word -/

/-- a single word has no context -/
theorem windowLoopP_single {τ : Type} (window del : Int) (s : τ) (body : Nat → τ → Prog F τ) : windowLoopP window del ((0 : Nat) : Int) 1 s body = .ret s := by
  unfold windowLoopP Prog.forP
  generalize (window * 2 + 1 - del - del).toNat = n
  suffices ∀ lo, forFromP lo n s (fun n s =>
      let a := del + (n : Int)
      if a = window then .ret s
      else
        let c := ((0 : Nat) : Int) - window + a
        if c < 0 ∨ c ≥ ((1 : Nat) : Int) then .ret s else body c.toNat s) = (.ret s : Prog F τ) from this 0
  induction n with
  | zero => intro lo; rfl
  | succ n ih =>
    intro lo
    unfold forFromP
    have : (if del + (lo : Int) = window then (.ret s : Prog F τ)
        else if ((0 : Nat) : Int) - window + (del + lo) < 0 ∨ ((0 : Nat) : Int) - window + (del + lo) ≥ ((1 : Nat) : Int) then .ret s
          else body (((0 : Nat) : Int) - window + (del + lo)).toNat s) = .ret s := by
      split
      · rfl
      · rw [if_pos (by omega)]
    dsimp only
    rw [this]
    exact ih (lo + 1)

section
variable [GoFloat F] {env : MemEnv F} {W : Loc → Prop}

theorem Prog.Ok.any_bind {α β : Type} {Q : α → Prop} {R : β → Prop} {x : Prog F α} {f : α → Prog F β} (hx : x.Ok env W (fun _ => True) Q)
    (hf : ∀ a, (f a).Ok env W (fun _ => True) R) : (x >>= f).Ok env W (fun _ => True) R := hx.bind fun a _ => hf a

theorem nextRandomP_any (value : Int) : (nextRandomP value : Prog F Int).Ok env W (fun _ => True) (fun _ => True) := by
  refine (nextRandomP_ok (.inl fun _ => trivial)).mono (fun _ h => h) (fun _ _ => trivial)

theorem ofRes_any {α : Type} (x : Res α) : (ofRes x : Prog F α).Ok env W (fun _ => True) (fun _ => True) := Ok.ofRes (.inr (.inl ⟨fun _ => trivial, fun _ _ => trivial⟩))

theorem trialP_any (samples : List F) (id : Nat) : (trialP samples id).Ok env W (fun _ => True) (fun _ => True) := fun _ _ => ofRes_any _

/-- LexVec: a piece of at most one word writes nothing -/
theorem lexWorkerP_small (sh : LexShared F) (d : List Nat) (hd : d.length ≤ 1) : (lexWorkerP sh d).Ok env W (fun _ => True) (fun _ => True) := by
  unfold lexWorkerP
  refine Ok.forP (fun _ _ => True) trivial fun pos _ hpos _ => ?_
  have h1 : d.length = 1 := by omega
  obtain rfl : pos = 0 := by omega
  refine (ofRes_any _).bind fun id _ => (trialP_any _ _).bind fun ok _ => ?_
  split
  · unfold lexTrainOneP
    refine (nextRandomP_any _).bind fun del _ => ?_
    rw [h1, windowLoopP_single]
    trivial
  · trivial

/-- skip-gram: a piece of at most one word writes nothing -/
theorem w2vWorkerP_small (sh : W2VShared F) (optim : OptimP F) (d : List Nat) (hd : d.length ≤ 1) : (w2vWorkerP sh true optim d).Ok env W (fun _ => True) (fun _ => True) := by
  unfold w2vWorkerP
  refine Ok.forP (fun _ _ => True) trivial fun pos _ hpos _ => ?_
  have h1 : d.length = 1 := by omega
  obtain rfl : pos = 0 := by omega
  refine (ofRes_any _).bind fun id _ => (trialP_any _ _).bind fun ok _ => ?_
  split
  · refine Ok.bind (Q := fun _ => True) (Ok.ld fun _ => trivial) fun lr _ => ?_
    unfold w2vTrainOneP
    rw [if_pos rfl]
    refine Ok.bind (Q := fun _ => True) ?_ fun _ _ => trivial
    unfold skipGramP
    refine (nextRandomP_any _).bind fun del _ => ?_
    rw [h1, windowLoopP_single]
    trivial
  · trivial

/-- CBOW: a piece of at most one word writes what the optimizer writes -/
theorem w2vWorkerP_small_cbow (sh : W2VShared F) (optim : OptimP F) (d : List Nat) (hd : d.length ≤ 1) {words : Nat} (hdoc : ∀ id ∈ d, id < words)
    (ho : OptimOk env W (fun _ => True) sh.dim words optim) : (w2vWorkerP sh false optim d).Ok env W (fun _ => True) (fun _ => True) := by
  unfold w2vWorkerP
  refine Ok.forP (fun _ _ => True) trivial fun pos _ hpos _ => ?_
  have h1 : d.length = 1 := by omega
  obtain rfl : pos = 0 := by omega
  refine (ofRes_any _).bind fun id _ => (trialP_any _ _).bind fun ok _ => ?_
  split
  · refine Ok.bind (Q := fun _ => True) (Ok.ld fun _ => trivial) fun lr _ => ?_
    unfold w2vTrainOneP
    rw [if_neg (by simp)]
    refine Ok.bind (Q := fun _ => True) ?_ fun _ _ => trivial
    unfold cbowP cbowAggregateP cbowUpdateP
    refine Ok.bind (Q := fun a : List F => a.length = sh.dim) ?_ fun agg ha => ?_
    · refine (nextRandomP_any _).bind fun del _ => ?_
      rw [h1, windowLoopP_single]
      simp [Prog.Ok]
    · refine Ok.bind (Q := fun a => a ∈ d) (idx_ok_of_lt hpos fun a ha => ha) fun id hid => ?_
      refine (ho id lr (.buf agg) _ (hdoc id hid) ha (by simp)).bind fun tmp _ => ?_
      refine Ok.bind (Q := fun _ => True) ?_ fun _ _ => trivial
      refine (nextRandomP_any _).bind fun del _ => ?_
      rw [h1, windowLoopP_single]
      trivial
  · trivial

end
end Wego
