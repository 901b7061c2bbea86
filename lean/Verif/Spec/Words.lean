import Mathlib.Data.List.Dedup
import Verif.Go.Text

/-!
# Specification vocabulary: words, first occurrences, window pairs

Nothing here refers to the model of the code.
-/

namespace Wego.Spec

/-- The distinct elements of a list in order of first occurrence. -/
def firstOcc {α : Type} [DecidableEq α] : List α → List α
  | [] => []
  | a :: l => a :: (firstOcc l).filter (fun b => b ≠ a)

/-- Number of distinct words of `ws` that occur before the first occurrence of `w`. -/
def distinctBefore {α : Type} [DecidableEq α] (ws : List α) (w : α) : Nat :=
  (ws.takeWhile (fun x => x ≠ w)).dedup.length

/-- Every element paired with each of the `n` elements that follow it, in text order. -/
def windowPairs {α : Type} (n : Nat) : List α → List (α × α)
  | [] => []
  | a :: l => (l.take n).map (fun b => (a, b)) ++ windowPairs n l

/-- The same, but only for the first `m` elements as left member. -/
def windowPairsUpTo {α : Type} (n : Nat) : Nat → List α → List (α × α)
  | 0, _ => []
  | _, [] => []
  | m + 1, a :: l => (l.take n).map (fun b => (a, b)) ++ windowPairsUpTo n m l

/-- Padding of a short document with empty strings to one axis word and `n` context words. -/
def padTo (n : Nat) (ws : List Word) : List Word := ws ++ List.replicate (n + 1 - ws.length) []

/-- The pairs of words reported by the forward-context reader (window `n ≥ 1`) for a document with
words `ws`: each word with the `n` words after it for all words but the last `n - 1`, the document
being padded with empty strings to `n + 1` words; `n` pairs of empty strings for an empty document. -/
def fwdCalls (n : Nat) (ws : List Word) : List (Word × Word) :=
  match ws with
  | [] => List.replicate n ([], [])
  | w :: ws => windowPairsUpTo n ((padTo n (w :: ws)).length - n + 1) (padTo n (w :: ws))

/-- A word of frequency `f` lies outside the count limits (a limit `max <= 0` or `min < 0` is off). -/
def outside (max min : Int) (f : Nat) : Prop := (0 < max ∧ max < (f : Int)) ∨ (0 ≤ min ∧ (f : Int) < min)

instance (max min : Int) (f : Nat) : Decidable (outside max min f) := by unfold outside; infer_instance

/-- The training sequence of a document with (normalised) words `us`: the ids, by first occurrence, of
the words inside the count limits, in text order. -/
def trainSeq (max min : Int) (us : List Word) : List Nat :=
  (us.filter (fun w => ¬ outside max min (us.count w))).map (distinctBefore us)

/-- `IsWords text ws`: `ws` are the maximal runs of non-space characters of `text`, in order. -/
inductive IsWords : List Char → List Word → Prop
  | spaces (sp : List Char) (h : ∀ c ∈ sp, isSpace c = true) : IsWords sp []
  | last (sp w : List Char) (h : ∀ c ∈ sp, isSpace c = true) (hw : w ≠ [])
      (hn : ∀ c ∈ w, isSpace c = false) : IsWords (sp ++ w) [w]
  | cons (sp w : List Char) (c : Char) (rest : List Char) (ws : List Word)
      (h : ∀ c ∈ sp, isSpace c = true) (hw : w ≠ []) (hn : ∀ c ∈ w, isSpace c = false)
      (hc : isSpace c = true) (hr : IsWords rest ws) : IsWords (sp ++ w ++ c :: rest) (w :: ws)

/-- `Runs fn args s r`: calling `fn` on the elements of `args` one after the other from state `s`,
until a call does not return nil, ends with `r` (final state and the result of the last call). -/
inductive Runs {α σ : Type} (fn : α → σ → σ × Ctl) : List α → σ → σ × Ctl → Prop
  | done (s : σ) : Runs fn [] s (s, .next)
  | step {a : α} {l : List α} {s s' : σ} {r : σ × Ctl} :
      fn a s = (s', .next) → Runs fn l s' r → Runs fn (a :: l) s r
  | stop {a : α} {l : List α} {s s' : σ} {c : Ctl} :
      fn a s = (s', c) → c ≠ .next → Runs fn (a :: l) s (s', c)

end Wego.Spec
