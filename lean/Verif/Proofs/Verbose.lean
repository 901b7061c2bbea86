import Verif.Model.Verbose
import Verif.Proofs.Text
import Mathlib.Tactic.Common
import Mathlib.Algebra.BigOperators.Group.List.Basic

/-! # Two runs of a reading function with related states -/

namespace Wego
variable {α σ τ : Type}

/-- the same ending, related states -/
def CtlRel (R : σ → τ → Prop) (r : σ × Ctl) (r' : τ × Ctl) : Prop := r.2 = r'.2 ∧ R r.1 r'.1

/-- the same outcome, related values -/
def ResRel (R : σ → τ → Prop) : Res σ → Res τ → Prop
  | .ok a, .ok b => R a b
  | .err e, .err e' => e = e'
  | .panic p, .panic p' => p = p'
  | _, _ => False

variable {R : σ → τ → Prop}

theorem ResRel.bind {σ' τ' : Type} {S : σ' → τ' → Prop} {x : Res σ} {y : Res τ} {f : σ → Res σ'} {g : τ → Res τ'} (h : ResRel R x y)
    (hf : ∀ a b, R a b → ResRel S (f a) (g b)) : ResRel S (x >>= f) (y >>= g) := by
  cases x <;> cases y <;> simp_all [ResRel]

theorem ResRel.refl_of {x : Res σ} {y : Res σ} (h : x = y) : ResRel Eq x y := by subst h; cases x <;> simp [ResRel]

theorem CtlRel.thenDo {r : σ × Ctl} {r' : τ × Ctl} {k : σ → σ × Ctl} {k' : τ → τ × Ctl} (h : CtlRel R r r') (hk : ∀ s t, R s t → CtlRel R (k s) (k' t)) :
    CtlRel R (Wego.thenDo r k) (Wego.thenDo r' k') := by
  rcases r with ⟨s, c⟩
  rcases r' with ⟨t, c'⟩
  obtain ⟨h1, h2⟩ := h
  dsimp only at h1 h2
  subst h1
  cases c with
  | next => exact hk s t h2
  | fail e => exact ⟨rfl, h2⟩
  | crash p => exact ⟨rfl, h2⟩

theorem callEach_rel {fn : α → σ → σ × Ctl} {fn' : α → τ → τ × Ctl} (h : ∀ a s t, R s t → CtlRel R (fn a s) (fn' a t)) (l : List α) {s : σ} {t : τ} (hs : R s t) :
    CtlRel R (callEach fn l s) (callEach fn' l t) := by
  induction l generalizing s t with
  | nil => exact ⟨rfl, hs⟩
  | cons a l ih => exact (h a s t hs).thenDo (fun s t hs => ih hs)

theorem scanEnd_rel (e : Option Err) {s : σ} {t : τ} (hs : R s t) : CtlRel R (scanEnd e s) (scanEnd e t) := by
  cases e <;> exact ⟨rfl, hs⟩

theorem readWord_rel (p : Pass) {fn : Word → σ → σ × Ctl} {fn' : Word → τ → τ × Ctl} (h : ∀ a s t, R s t → CtlRel R (fn a s) (fn' a t)) {s : σ} {t : τ} (hs : R s t) :
    CtlRel R (readWord p fn s) (readWord p fn' t) := (callEach_rel h _ hs).thenDo (fun _ _ h => scanEnd_rel _ h)

/-- related states as long as the first run goes on -/
def CtlSim (R : σ → τ → Prop) (r : σ × Ctl) (r' : τ × Ctl) : Prop := r.2 = .next → r'.2 = .next ∧ R r.1 r'.1

theorem CtlSim.thenDo {r : σ × Ctl} {r' : τ × Ctl} {k : σ → σ × Ctl} {k' : τ → τ × Ctl} (h : CtlSim R r r') (hk : ∀ s t, R s t → CtlSim R (k s) (k' t)) :
    CtlSim R (Wego.thenDo r k) (Wego.thenDo r' k') := by
  rcases r with ⟨s, c⟩
  rcases r' with ⟨t, c'⟩
  cases c with
  | next =>
    obtain ⟨h1, h2⟩ := h rfl
    dsimp only at h1 h2
    subst h1
    exact hk s t h2
  | fail e => intro h; cases h
  | crash p => intro h; cases h

theorem callEach_sim {fn : α → σ → σ × Ctl} {fn' : α → τ → τ × Ctl} (h : ∀ a s t, R s t → CtlSim R (fn a s) (fn' a t)) (l : List α) {s : σ} {t : τ} (hs : R s t) :
    CtlSim R (callEach fn l s) (callEach fn' l t) := by
  induction l generalizing s t with
  | nil => exact fun _ => ⟨rfl, hs⟩
  | cons a l ih => exact (h a s t hs).thenDo (fun s t hs => ih hs)

theorem fwdLoop_sim (n : Nat) {fn : Word → Word → σ → σ × Ctl} {fn' : Word → Word → τ → τ × Ctl} (h : ∀ a b s t, R s t → CtlSim R (fn a b s) (fn' a b t))
    (k : Nat) : ∀ (axis : Word) (ws toks : List Word) (s : σ) (t : τ), toks.length ≤ k → R s t → CtlSim R (fwdLoop n fn axis ws toks s) (fwdLoop n fn' axis ws toks t) := by
  have hpost : ∀ axis ws s t, R s t → CtlSim R (postFn fn axis ws s) (postFn fn' axis ws t) := fun axis ws s t hs => callEach_sim (h axis) ws hs
  induction k with
  | zero =>
    intro axis ws toks s t hk hs
    have : toks = [] := List.eq_nil_of_length_eq_zero (by omega)
    subst this
    rw [fwdLoop.eq_def, fwdLoop.eq_def]
    split
    · exact hpost _ _ _ _ hs
    · cases ws with
      | nil => intro h; cases h
      | cons w ws => exact hpost _ _ _ _ hs
  | succ k ih =>
    intro axis ws toks s t hk hs
    rw [fwdLoop.eq_def, fwdLoop.eq_def]
    split
    · cases toks with
      | nil => exact hpost _ _ _ _ hs
      | cons a toks =>
        refine (hpost _ _ _ _ hs).thenDo (fun s t hs => ih _ _ _ _ _ ?_ hs)
        simp [fillWs] at hk ⊢; omega
    · cases ws with
      | nil => intro h; cases h
      | cons w ws =>
        cases toks with
        | nil => exact hpost _ _ _ _ hs
        | cons a toks =>
          refine (hpost _ _ _ _ hs).thenDo (fun s t hs => ih _ _ _ _ _ ?_ hs)
          simp at hk; omega

theorem forwardContext_sim (p : Pass) (n : Int) {fn : Word → Word → σ → σ × Ctl} {fn' : Word → Word → τ → τ × Ctl}
    (h : ∀ a b s t, R s t → CtlSim R (fn a b s) (fn' a b t)) {s : σ} {t : τ} (hs : R s t) :
    CtlSim R (readWordWithForwardContext p n fn s) (readWordWithForwardContext p n fn' t) := by
  unfold readWordWithForwardContext
  split
  · intro h; cases h
  · refine (fwdLoop_sim n.toNat h _ _ _ _ _ _ le_rfl hs).thenDo (fun s t h => ?_)
    cases (scanWords p).err with
    | none => exact fun _ => ⟨rfl, h⟩
    | some e => intro h; cases h

theorem fwdLoop_rel (n : Nat) {fn : Word → Word → σ → σ × Ctl} {fn' : Word → Word → τ → τ × Ctl} (h : ∀ a b s t, R s t → CtlRel R (fn a b s) (fn' a b t))
    (k : Nat) : ∀ (axis : Word) (ws toks : List Word) (s : σ) (t : τ), toks.length ≤ k → R s t → CtlRel R (fwdLoop n fn axis ws toks s) (fwdLoop n fn' axis ws toks t) := by
  have hpost : ∀ axis ws s t, R s t → CtlRel R (postFn fn axis ws s) (postFn fn' axis ws t) := fun axis ws s t hs => callEach_rel (h axis) ws hs
  induction k with
  | zero =>
    intro axis ws toks s t hk hs
    have : toks = [] := List.eq_nil_of_length_eq_zero (by omega)
    subst this
    rw [fwdLoop.eq_def, fwdLoop.eq_def]
    split
    · exact hpost _ _ _ _ hs
    · cases ws with
      | nil => exact ⟨rfl, hs⟩
      | cons w ws => exact hpost _ _ _ _ hs
  | succ k ih =>
    intro axis ws toks s t hk hs
    rw [fwdLoop.eq_def, fwdLoop.eq_def]
    split
    · cases toks with
      | nil => exact hpost _ _ _ _ hs
      | cons a toks =>
        refine (hpost _ _ _ _ hs).thenDo (fun s t hs => ih _ _ _ _ _ ?_ hs)
        simp [fillWs] at hk ⊢; omega
    · cases ws with
      | nil => exact ⟨rfl, hs⟩
      | cons w ws =>
        cases toks with
        | nil => exact hpost _ _ _ _ hs
        | cons a toks =>
          refine (hpost _ _ _ _ hs).thenDo (fun s t hs => ih _ _ _ _ _ ?_ hs)
          simp at hk; omega

theorem forwardContext_rel (p : Pass) (n : Int) {fn : Word → Word → σ → σ × Ctl} {fn' : Word → Word → τ → τ × Ctl}
    (h : ∀ a b s t, R s t → CtlRel R (fn a b s) (fn' a b t)) {s : σ} {t : τ} (hs : R s t) :
    CtlRel R (readWordWithForwardContext p n fn s) (readWordWithForwardContext p n fn' t) := by
  unfold readWordWithForwardContext
  split
  · exact ⟨rfl, hs⟩
  · exact (fwdLoop_rel n.toNat h _ _ _ _ _ _ le_rfl hs).thenDo (fun _ _ h => scanEnd_rel _ h)

theorem liftCtl_rel {x : Res σ} {y : Res τ} {s : σ} {t : τ} (hs : R s t) (h : ResRel R x y) : CtlRel R (liftCtl s x) (liftCtl t y) := by
  cases x <;> cases y <;> simp_all [ResRel, liftCtl, CtlRel]

theorem ctlRes_rel {r : σ × Ctl} {r' : τ × Ctl} (h : CtlRel R r r') : ResRel R (ctlRes r) (ctlRes r') := by
  rcases r with ⟨s, c⟩
  rcases r' with ⟨t, c'⟩
  obtain ⟨h1, h2⟩ := h
  dsimp only at h1 h2
  subst h1
  cases c <;> simp_all [ctlRes, ResRel]

theorem forFrom_rel {Q : Nat → σ → τ → Prop} {f : Nat → σ → Res σ} {g : Nat → τ → Res τ} (lo n : Nat)
    (h : ∀ i s t, lo ≤ i → i < lo + n → Q i s t → ResRel (Q (i + 1)) (f i s) (g i t)) {s : σ} {t : τ} (hs : Q lo s t) :
    ResRel (Q (lo + n)) (forFrom lo n s f) (forFrom lo n t g) := by
  induction n generalizing lo s t with
  | zero => exact hs
  | succ n ih =>
    rw [forFrom_succ, forFrom_succ]
    refine (h lo s t le_rfl (by omega) hs).bind fun a b hab => ?_
    rw [show lo + (n + 1) = lo + 1 + n by omega]
    exact ih (lo + 1) (fun i s t h1 h2 => h i s t (by omega) (by omega)) hab

theorem forEach_rel {Q : List α → σ → τ → Prop} {f : α → σ → Res σ} {g : α → τ → Res τ} (l : List α)
    (h : ∀ a l' s t, Q l' s t → ResRel (Q (l' ++ [a])) (f a s) (g a t)) {pre : List α} {s : σ} {t : τ} (hs : Q pre s t) :
    ResRel (Q (pre ++ l)) (forEach l s f) (forEach l t g) := by
  induction l generalizing pre s t with
  | nil => simpa [ResRel] using hs
  | cons a l ih =>
    rw [forEach_cons, forEach_cons]
    refine (h a pre s t hs).bind fun x y hxy => ?_
    have := ih hxy
    simpa using this

theorem ResRel.eq_map {x : Res σ} {y : Res τ} {g : σ → τ} (h : ResRel (fun a b => b = g a) x y) : y = x >>= fun a => .ok (g a) := by
  cases x <;> cases y <;> simp_all [ResRel]

/-- the number of times a callback is called by `ReadWordWithForwardContext` -/
def forwardCalls (p : Pass) (n : Int) : Nat := (readWordWithForwardContext p n (fun _ _ (k : Nat) => (k + 1, Ctl.next)) 0).1

end Wego
