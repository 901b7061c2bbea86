import Verif.Model.Options

/-! # C66: options (written by `tools/gen_options.py`) -/

namespace Wego.Props
open Wego
variable {F : Type}

theorem last_set {σ o α : Type} (apply : o → σ → σ) (f : σ → α) (sel : o → Option α)
    (h : ∀ x s, f (apply x s) = (sel x).getD (f s)) (l : List o) (s : σ) :
    f (l.foldl (fun s x => apply x s) s) = ((l.filterMap sel).getLast?).getD (f s) := by
  induction l generalizing s with
  | nil => rfl
  | cons x l ih =>
    rw [List.foldl_cons, ih, h]
    cases hx : sel x with
    | none => rw [List.filterMap_cons_none hx]; rfl
    | some v =>
      rw [List.filterMap_cons_some hx, List.getLast?_cons]
      simp

/-! ### word2vec -/

def W2V.batchSizeOf : W2VOpt F → Option Int
  | .batchSize v => some v
  | _ => none

def W2V.dimOf : W2VOpt F → Option Int
  | .dim v => some v
  | _ => none

def W2V.docInMemoryOf : W2VOpt F → Option Bool
  | .docInMemory => some true
  | _ => none

def W2V.goroutinesOf : W2VOpt F → Option Int
  | .goroutines v => some v
  | _ => none

def W2V.initlrOf : W2VOpt F → Option F
  | .initlr v => some v
  | _ => none

def W2V.iterOf : W2VOpt F → Option Int
  | .iter v => some v
  | _ => none

def W2V.logBatchOf : W2VOpt F → Option Int
  | .logBatch v => some v
  | _ => none

def W2V.maxCountOf : W2VOpt F → Option Int
  | .maxCount v => some v
  | _ => none

def W2V.maxDepthOf : W2VOpt F → Option Int
  | .maxDepth v => some v
  | _ => none

def W2V.minCountOf : W2VOpt F → Option Int
  | .minCount v => some v
  | _ => none

def W2V.minLROf : W2VOpt F → Option F
  | .minLR v => some v
  | _ => none

def W2V.modelTypeOf : W2VOpt F → Option Word
  | .modelType v => some v
  | _ => none

def W2V.negativeSampleSizeOf : W2VOpt F → Option Int
  | .negativeSampleSize v => some v
  | _ => none

def W2V.optimizerTypeOf : W2VOpt F → Option Word
  | .optimizerType v => some v
  | _ => none

def W2V.subsampleThresholdOf : W2VOpt F → Option F
  | .subsampleThreshold v => some v
  | _ => none

def W2V.toLowerOf : W2VOpt F → Option Bool
  | .toLower => some true
  | _ => none

def W2V.updateLRBatchOf : W2VOpt F → Option Int
  | .updateLRBatch v => some v
  | _ => none

def W2V.verboseOf : W2VOpt F → Option Bool
  | .verbose => some true
  | _ => none

def W2V.windowOf : W2VOpt F → Option Int
  | .window v => some v
  | _ => none

def W2V.batchSizeFlag : W2VFlag F → Option Int
  | .batchSize v => some v
  | _ => none

def W2V.dimFlag : W2VFlag F → Option Int
  | .dim v => some v
  | _ => none

def W2V.goroutinesFlag : W2VFlag F → Option Int
  | .goroutines v => some v
  | _ => none

def W2V.docInMemoryFlag : W2VFlag F → Option Bool
  | .docInMemory v => some v
  | _ => none

def W2V.initlrFlag : W2VFlag F → Option F
  | .initlr v => some v
  | _ => none

def W2V.iterFlag : W2VFlag F → Option Int
  | .iter v => some v
  | _ => none

def W2V.logBatchFlag : W2VFlag F → Option Int
  | .logBatch v => some v
  | _ => none

def W2V.maxCountFlag : W2VFlag F → Option Int
  | .maxCount v => some v
  | _ => none

def W2V.maxDepthFlag : W2VFlag F → Option Int
  | .maxDepth v => some v
  | _ => none

def W2V.minCountFlag : W2VFlag F → Option Int
  | .minCount v => some v
  | _ => none

def W2V.minLRFlag : W2VFlag F → Option F
  | .minLR v => some v
  | _ => none

def W2V.modelTypeFlag : W2VFlag F → Option Word
  | .modelType v => some v
  | _ => none

def W2V.negativeSampleSizeFlag : W2VFlag F → Option Int
  | .negativeSampleSize v => some v
  | _ => none

def W2V.optimizerTypeFlag : W2VFlag F → Option Word
  | .optimizerType v => some v
  | _ => none

def W2V.subsampleThresholdFlag : W2VFlag F → Option F
  | .subsampleThreshold v => some v
  | _ => none

def W2V.toLowerFlag : W2VFlag F → Option Bool
  | .toLower v => some v
  | _ => none

def W2V.updateLRBatchFlag : W2VFlag F → Option Int
  | .updateLRBatch v => some v
  | _ => none

def W2V.verboseFlag : W2VFlag F → Option Bool
  | .verbose v => some v
  | _ => none

def W2V.windowFlag : W2VFlag F → Option Int
  | .window v => some v
  | _ => none

/-- **C66 (word2vec, SDK).** Each field of the options `New` uses is the value of the last option in the list that
sets this field, and the default if there is none. -/
theorem C66_word2vec_options [GoFloat F] (ncpu : Int) (l : List (W2VOpt F)) :
    let o := W2VOptions.new ncpu l
    let d : W2VOptions F := W2VOptions.default ncpu
    o.batchSize = ((l.filterMap W2V.batchSizeOf).getLast?).getD d.batchSize ∧
    o.dim = ((l.filterMap W2V.dimOf).getLast?).getD d.dim ∧
    o.docInMemory = ((l.filterMap W2V.docInMemoryOf).getLast?).getD d.docInMemory ∧
    o.goroutines = ((l.filterMap W2V.goroutinesOf).getLast?).getD d.goroutines ∧
    o.initlr = ((l.filterMap W2V.initlrOf).getLast?).getD d.initlr ∧
    o.iter = ((l.filterMap W2V.iterOf).getLast?).getD d.iter ∧
    o.logBatch = ((l.filterMap W2V.logBatchOf).getLast?).getD d.logBatch ∧
    o.maxCount = ((l.filterMap W2V.maxCountOf).getLast?).getD d.maxCount ∧
    o.maxDepth = ((l.filterMap W2V.maxDepthOf).getLast?).getD d.maxDepth ∧
    o.minCount = ((l.filterMap W2V.minCountOf).getLast?).getD d.minCount ∧
    o.minLR = ((l.filterMap W2V.minLROf).getLast?).getD d.minLR ∧
    o.modelType = ((l.filterMap W2V.modelTypeOf).getLast?).getD d.modelType ∧
    o.negativeSampleSize = ((l.filterMap W2V.negativeSampleSizeOf).getLast?).getD d.negativeSampleSize ∧
    o.optimizerType = ((l.filterMap W2V.optimizerTypeOf).getLast?).getD d.optimizerType ∧
    o.subsampleThreshold = ((l.filterMap W2V.subsampleThresholdOf).getLast?).getD d.subsampleThreshold ∧
    o.toLower = ((l.filterMap W2V.toLowerOf).getLast?).getD d.toLower ∧
    o.updateLRBatch = ((l.filterMap W2V.updateLRBatchOf).getLast?).getD d.updateLRBatch ∧
    o.verbose = ((l.filterMap W2V.verboseOf).getLast?).getD d.verbose ∧
    o.window = ((l.filterMap W2V.windowOf).getLast?).getD d.window := by
  intro o d
  refine ⟨?_, ?_, ?_, ?_, ?_, ?_, ?_, ?_, ?_, ?_, ?_, ?_, ?_, ?_, ?_, ?_, ?_, ?_, ?_⟩
  · exact last_set W2VOpt.apply (fun o => o.batchSize) W2V.batchSizeOf (by intro x s; cases x <;> rfl) l d
  · exact last_set W2VOpt.apply (fun o => o.dim) W2V.dimOf (by intro x s; cases x <;> rfl) l d
  · exact last_set W2VOpt.apply (fun o => o.docInMemory) W2V.docInMemoryOf (by intro x s; cases x <;> rfl) l d
  · exact last_set W2VOpt.apply (fun o => o.goroutines) W2V.goroutinesOf (by intro x s; cases x <;> rfl) l d
  · exact last_set W2VOpt.apply (fun o => o.initlr) W2V.initlrOf (by intro x s; cases x <;> rfl) l d
  · exact last_set W2VOpt.apply (fun o => o.iter) W2V.iterOf (by intro x s; cases x <;> rfl) l d
  · exact last_set W2VOpt.apply (fun o => o.logBatch) W2V.logBatchOf (by intro x s; cases x <;> rfl) l d
  · exact last_set W2VOpt.apply (fun o => o.maxCount) W2V.maxCountOf (by intro x s; cases x <;> rfl) l d
  · exact last_set W2VOpt.apply (fun o => o.maxDepth) W2V.maxDepthOf (by intro x s; cases x <;> rfl) l d
  · exact last_set W2VOpt.apply (fun o => o.minCount) W2V.minCountOf (by intro x s; cases x <;> rfl) l d
  · exact last_set W2VOpt.apply (fun o => o.minLR) W2V.minLROf (by intro x s; cases x <;> rfl) l d
  · exact last_set W2VOpt.apply (fun o => o.modelType) W2V.modelTypeOf (by intro x s; cases x <;> rfl) l d
  · exact last_set W2VOpt.apply (fun o => o.negativeSampleSize) W2V.negativeSampleSizeOf (by intro x s; cases x <;> rfl) l d
  · exact last_set W2VOpt.apply (fun o => o.optimizerType) W2V.optimizerTypeOf (by intro x s; cases x <;> rfl) l d
  · exact last_set W2VOpt.apply (fun o => o.subsampleThreshold) W2V.subsampleThresholdOf (by intro x s; cases x <;> rfl) l d
  · exact last_set W2VOpt.apply (fun o => o.toLower) W2V.toLowerOf (by intro x s; cases x <;> rfl) l d
  · exact last_set W2VOpt.apply (fun o => o.updateLRBatch) W2V.updateLRBatchOf (by intro x s; cases x <;> rfl) l d
  · exact last_set W2VOpt.apply (fun o => o.verbose) W2V.verboseOf (by intro x s; cases x <;> rfl) l d
  · exact last_set W2VOpt.apply (fun o => o.window) W2V.windowOf (by intro x s; cases x <;> rfl) l d

/-- **C66 (word2vec, command line).** Each field a command runs with is the value of the last flag for it, and without
such a flag the value of `DefaultOptions()`. So a command without flags uses exactly `DefaultOptions()`. -/
theorem C66_word2vec_flags [GoFloat F] (ncpu : Int) (z : W2VOptions F) (l : List (W2VFlag F)) :
    let o := W2VOptions.fromFlags ncpu z l
    let d : W2VOptions F := W2VOptions.default ncpu
    (l = [] → o = d) ∧
    o.batchSize = ((l.filterMap W2V.batchSizeFlag).getLast?).getD d.batchSize ∧
    o.dim = ((l.filterMap W2V.dimFlag).getLast?).getD d.dim ∧
    o.docInMemory = ((l.filterMap W2V.docInMemoryFlag).getLast?).getD d.docInMemory ∧
    o.goroutines = ((l.filterMap W2V.goroutinesFlag).getLast?).getD d.goroutines ∧
    o.initlr = ((l.filterMap W2V.initlrFlag).getLast?).getD d.initlr ∧
    o.iter = ((l.filterMap W2V.iterFlag).getLast?).getD d.iter ∧
    o.logBatch = ((l.filterMap W2V.logBatchFlag).getLast?).getD d.logBatch ∧
    o.maxCount = ((l.filterMap W2V.maxCountFlag).getLast?).getD d.maxCount ∧
    o.maxDepth = ((l.filterMap W2V.maxDepthFlag).getLast?).getD d.maxDepth ∧
    o.minCount = ((l.filterMap W2V.minCountFlag).getLast?).getD d.minCount ∧
    o.minLR = ((l.filterMap W2V.minLRFlag).getLast?).getD d.minLR ∧
    o.modelType = ((l.filterMap W2V.modelTypeFlag).getLast?).getD d.modelType ∧
    o.negativeSampleSize = ((l.filterMap W2V.negativeSampleSizeFlag).getLast?).getD d.negativeSampleSize ∧
    o.optimizerType = ((l.filterMap W2V.optimizerTypeFlag).getLast?).getD d.optimizerType ∧
    o.subsampleThreshold = ((l.filterMap W2V.subsampleThresholdFlag).getLast?).getD d.subsampleThreshold ∧
    o.toLower = ((l.filterMap W2V.toLowerFlag).getLast?).getD d.toLower ∧
    o.updateLRBatch = ((l.filterMap W2V.updateLRBatchFlag).getLast?).getD d.updateLRBatch ∧
    o.verbose = ((l.filterMap W2V.verboseFlag).getLast?).getD d.verbose ∧
    o.window = ((l.filterMap W2V.windowFlag).getLast?).getD d.window := by
  intro o d
  refine ⟨fun h => by subst h; rfl, ?_, ?_, ?_, ?_, ?_, ?_, ?_, ?_, ?_, ?_, ?_, ?_, ?_, ?_, ?_, ?_, ?_, ?_, ?_⟩
  · exact last_set W2VFlag.set (fun o => o.batchSize) W2V.batchSizeFlag (by intro x s; cases x <;> rfl) l (z.loadForCmd ncpu)
  · exact last_set W2VFlag.set (fun o => o.dim) W2V.dimFlag (by intro x s; cases x <;> rfl) l (z.loadForCmd ncpu)
  · exact last_set W2VFlag.set (fun o => o.docInMemory) W2V.docInMemoryFlag (by intro x s; cases x <;> rfl) l (z.loadForCmd ncpu)
  · exact last_set W2VFlag.set (fun o => o.goroutines) W2V.goroutinesFlag (by intro x s; cases x <;> rfl) l (z.loadForCmd ncpu)
  · exact last_set W2VFlag.set (fun o => o.initlr) W2V.initlrFlag (by intro x s; cases x <;> rfl) l (z.loadForCmd ncpu)
  · exact last_set W2VFlag.set (fun o => o.iter) W2V.iterFlag (by intro x s; cases x <;> rfl) l (z.loadForCmd ncpu)
  · exact last_set W2VFlag.set (fun o => o.logBatch) W2V.logBatchFlag (by intro x s; cases x <;> rfl) l (z.loadForCmd ncpu)
  · exact last_set W2VFlag.set (fun o => o.maxCount) W2V.maxCountFlag (by intro x s; cases x <;> rfl) l (z.loadForCmd ncpu)
  · exact last_set W2VFlag.set (fun o => o.maxDepth) W2V.maxDepthFlag (by intro x s; cases x <;> rfl) l (z.loadForCmd ncpu)
  · exact last_set W2VFlag.set (fun o => o.minCount) W2V.minCountFlag (by intro x s; cases x <;> rfl) l (z.loadForCmd ncpu)
  · exact last_set W2VFlag.set (fun o => o.minLR) W2V.minLRFlag (by intro x s; cases x <;> rfl) l (z.loadForCmd ncpu)
  · exact last_set W2VFlag.set (fun o => o.modelType) W2V.modelTypeFlag (by intro x s; cases x <;> rfl) l (z.loadForCmd ncpu)
  · exact last_set W2VFlag.set (fun o => o.negativeSampleSize) W2V.negativeSampleSizeFlag (by intro x s; cases x <;> rfl) l (z.loadForCmd ncpu)
  · exact last_set W2VFlag.set (fun o => o.optimizerType) W2V.optimizerTypeFlag (by intro x s; cases x <;> rfl) l (z.loadForCmd ncpu)
  · exact last_set W2VFlag.set (fun o => o.subsampleThreshold) W2V.subsampleThresholdFlag (by intro x s; cases x <;> rfl) l (z.loadForCmd ncpu)
  · exact last_set W2VFlag.set (fun o => o.toLower) W2V.toLowerFlag (by intro x s; cases x <;> rfl) l (z.loadForCmd ncpu)
  · exact last_set W2VFlag.set (fun o => o.updateLRBatch) W2V.updateLRBatchFlag (by intro x s; cases x <;> rfl) l (z.loadForCmd ncpu)
  · exact last_set W2VFlag.set (fun o => o.verbose) W2V.verboseFlag (by intro x s; cases x <;> rfl) l (z.loadForCmd ncpu)
  · exact last_set W2VFlag.set (fun o => o.window) W2V.windowFlag (by intro x s; cases x <;> rfl) l (z.loadForCmd ncpu)

/-! ### glove -/

def Glove.alphaOf : GloveOpt F → Option F
  | .alpha v => some v
  | _ => none

def Glove.batchSizeOf : GloveOpt F → Option Int
  | .batchSize v => some v
  | _ => none

def Glove.dimOf : GloveOpt F → Option Int
  | .dim v => some v
  | _ => none

def Glove.docInMemoryOf : GloveOpt F → Option Bool
  | .docInMemory => some true
  | _ => none

def Glove.goroutinesOf : GloveOpt F → Option Int
  | .goroutines v => some v
  | _ => none

def Glove.initlrOf : GloveOpt F → Option F
  | .initlr v => some v
  | _ => none

def Glove.iterOf : GloveOpt F → Option Int
  | .iter v => some v
  | _ => none

def Glove.maxCountOf : GloveOpt F → Option Int
  | .maxCount v => some v
  | _ => none

def Glove.minCountOf : GloveOpt F → Option Int
  | .minCount v => some v
  | _ => none

def Glove.solverTypeOf : GloveOpt F → Option Word
  | .solverType v => some v
  | _ => none

def Glove.subsampleThresholdOf : GloveOpt F → Option F
  | .subsampleThreshold v => some v
  | _ => none

def Glove.toLowerOf : GloveOpt F → Option Bool
  | .toLower => some true
  | _ => none

def Glove.verboseOf : GloveOpt F → Option Bool
  | .verbose => some true
  | _ => none

def Glove.windowOf : GloveOpt F → Option Int
  | .window v => some v
  | _ => none

def Glove.xmaxOf : GloveOpt F → Option Int
  | .xmax v => some v
  | _ => none

def Glove.alphaFlag : GloveFlag F → Option F
  | .alpha v => some v
  | _ => none

def Glove.batchSizeFlag : GloveFlag F → Option Int
  | .batchSize v => some v
  | _ => none

def Glove.countTypeFlag : GloveFlag F → Option Word
  | .countType v => some v
  | _ => none

def Glove.dimFlag : GloveFlag F → Option Int
  | .dim v => some v
  | _ => none

def Glove.goroutinesFlag : GloveFlag F → Option Int
  | .goroutines v => some v
  | _ => none

def Glove.docInMemoryFlag : GloveFlag F → Option Bool
  | .docInMemory v => some v
  | _ => none

def Glove.initlrFlag : GloveFlag F → Option F
  | .initlr v => some v
  | _ => none

def Glove.iterFlag : GloveFlag F → Option Int
  | .iter v => some v
  | _ => none

def Glove.logBatchFlag : GloveFlag F → Option Int
  | .logBatch v => some v
  | _ => none

def Glove.maxCountFlag : GloveFlag F → Option Int
  | .maxCount v => some v
  | _ => none

def Glove.minCountFlag : GloveFlag F → Option Int
  | .minCount v => some v
  | _ => none

def Glove.solverTypeFlag : GloveFlag F → Option Word
  | .solverType v => some v
  | _ => none

def Glove.subsampleThresholdFlag : GloveFlag F → Option F
  | .subsampleThreshold v => some v
  | _ => none

def Glove.toLowerFlag : GloveFlag F → Option Bool
  | .toLower v => some v
  | _ => none

def Glove.verboseFlag : GloveFlag F → Option Bool
  | .verbose v => some v
  | _ => none

def Glove.windowFlag : GloveFlag F → Option Int
  | .window v => some v
  | _ => none

def Glove.xmaxFlag : GloveFlag F → Option Int
  | .xmax v => some v
  | _ => none

/-- **C66 (glove, SDK).** Each field of the options `New` uses is the value of the last option in the list that
sets this field, and the default if there is none. -/
theorem C66_glove_options [GoFloat F] (ncpu : Int) (l : List (GloveOpt F)) :
    let o := GloveOptions.new ncpu l
    let d : GloveOptions F := GloveOptions.default ncpu
    o.alpha = ((l.filterMap Glove.alphaOf).getLast?).getD d.alpha ∧
    o.batchSize = ((l.filterMap Glove.batchSizeOf).getLast?).getD d.batchSize ∧
    o.countType = d.countType ∧
    o.dim = ((l.filterMap Glove.dimOf).getLast?).getD d.dim ∧
    o.docInMemory = ((l.filterMap Glove.docInMemoryOf).getLast?).getD d.docInMemory ∧
    o.goroutines = ((l.filterMap Glove.goroutinesOf).getLast?).getD d.goroutines ∧
    o.initlr = ((l.filterMap Glove.initlrOf).getLast?).getD d.initlr ∧
    o.iter = ((l.filterMap Glove.iterOf).getLast?).getD d.iter ∧
    o.logBatch = d.logBatch ∧
    o.maxCount = ((l.filterMap Glove.maxCountOf).getLast?).getD d.maxCount ∧
    o.minCount = ((l.filterMap Glove.minCountOf).getLast?).getD d.minCount ∧
    o.solverType = ((l.filterMap Glove.solverTypeOf).getLast?).getD d.solverType ∧
    o.subsampleThreshold = ((l.filterMap Glove.subsampleThresholdOf).getLast?).getD d.subsampleThreshold ∧
    o.toLower = ((l.filterMap Glove.toLowerOf).getLast?).getD d.toLower ∧
    o.verbose = ((l.filterMap Glove.verboseOf).getLast?).getD d.verbose ∧
    o.window = ((l.filterMap Glove.windowOf).getLast?).getD d.window ∧
    o.xmax = ((l.filterMap Glove.xmaxOf).getLast?).getD d.xmax := by
  intro o d
  refine ⟨?_, ?_, ?_, ?_, ?_, ?_, ?_, ?_, ?_, ?_, ?_, ?_, ?_, ?_, ?_, ?_, ?_⟩
  · exact last_set GloveOpt.apply (fun o => o.alpha) Glove.alphaOf (by intro x s; cases x <;> rfl) l d
  · exact last_set GloveOpt.apply (fun o => o.batchSize) Glove.batchSizeOf (by intro x s; cases x <;> rfl) l d
  · exact (last_set GloveOpt.apply (fun o => o.countType) (fun _ => none) (by intro x s; cases x <;> rfl) l d).trans (by simp)
  · exact last_set GloveOpt.apply (fun o => o.dim) Glove.dimOf (by intro x s; cases x <;> rfl) l d
  · exact last_set GloveOpt.apply (fun o => o.docInMemory) Glove.docInMemoryOf (by intro x s; cases x <;> rfl) l d
  · exact last_set GloveOpt.apply (fun o => o.goroutines) Glove.goroutinesOf (by intro x s; cases x <;> rfl) l d
  · exact last_set GloveOpt.apply (fun o => o.initlr) Glove.initlrOf (by intro x s; cases x <;> rfl) l d
  · exact last_set GloveOpt.apply (fun o => o.iter) Glove.iterOf (by intro x s; cases x <;> rfl) l d
  · exact (last_set GloveOpt.apply (fun o => o.logBatch) (fun _ => none) (by intro x s; cases x <;> rfl) l d).trans (by simp)
  · exact last_set GloveOpt.apply (fun o => o.maxCount) Glove.maxCountOf (by intro x s; cases x <;> rfl) l d
  · exact last_set GloveOpt.apply (fun o => o.minCount) Glove.minCountOf (by intro x s; cases x <;> rfl) l d
  · exact last_set GloveOpt.apply (fun o => o.solverType) Glove.solverTypeOf (by intro x s; cases x <;> rfl) l d
  · exact last_set GloveOpt.apply (fun o => o.subsampleThreshold) Glove.subsampleThresholdOf (by intro x s; cases x <;> rfl) l d
  · exact last_set GloveOpt.apply (fun o => o.toLower) Glove.toLowerOf (by intro x s; cases x <;> rfl) l d
  · exact last_set GloveOpt.apply (fun o => o.verbose) Glove.verboseOf (by intro x s; cases x <;> rfl) l d
  · exact last_set GloveOpt.apply (fun o => o.window) Glove.windowOf (by intro x s; cases x <;> rfl) l d
  · exact last_set GloveOpt.apply (fun o => o.xmax) Glove.xmaxOf (by intro x s; cases x <;> rfl) l d

/-- **C66 (glove, command line).** Each field a command runs with is the value of the last flag for it, and without
such a flag the value of `DefaultOptions()`. So a command without flags uses exactly `DefaultOptions()`. -/
theorem C66_glove_flags [GoFloat F] (ncpu : Int) (z : GloveOptions F) (l : List (GloveFlag F)) :
    let o := GloveOptions.fromFlags ncpu z l
    let d : GloveOptions F := GloveOptions.default ncpu
    (l = [] → o = d) ∧
    o.alpha = ((l.filterMap Glove.alphaFlag).getLast?).getD d.alpha ∧
    o.batchSize = ((l.filterMap Glove.batchSizeFlag).getLast?).getD d.batchSize ∧
    o.countType = ((l.filterMap Glove.countTypeFlag).getLast?).getD d.countType ∧
    o.dim = ((l.filterMap Glove.dimFlag).getLast?).getD d.dim ∧
    o.docInMemory = ((l.filterMap Glove.docInMemoryFlag).getLast?).getD d.docInMemory ∧
    o.goroutines = ((l.filterMap Glove.goroutinesFlag).getLast?).getD d.goroutines ∧
    o.initlr = ((l.filterMap Glove.initlrFlag).getLast?).getD d.initlr ∧
    o.iter = ((l.filterMap Glove.iterFlag).getLast?).getD d.iter ∧
    o.logBatch = ((l.filterMap Glove.logBatchFlag).getLast?).getD d.logBatch ∧
    o.maxCount = ((l.filterMap Glove.maxCountFlag).getLast?).getD d.maxCount ∧
    o.minCount = ((l.filterMap Glove.minCountFlag).getLast?).getD d.minCount ∧
    o.solverType = ((l.filterMap Glove.solverTypeFlag).getLast?).getD d.solverType ∧
    o.subsampleThreshold = ((l.filterMap Glove.subsampleThresholdFlag).getLast?).getD d.subsampleThreshold ∧
    o.toLower = ((l.filterMap Glove.toLowerFlag).getLast?).getD d.toLower ∧
    o.verbose = ((l.filterMap Glove.verboseFlag).getLast?).getD d.verbose ∧
    o.window = ((l.filterMap Glove.windowFlag).getLast?).getD d.window ∧
    o.xmax = ((l.filterMap Glove.xmaxFlag).getLast?).getD d.xmax := by
  intro o d
  refine ⟨fun h => by subst h; rfl, ?_, ?_, ?_, ?_, ?_, ?_, ?_, ?_, ?_, ?_, ?_, ?_, ?_, ?_, ?_, ?_, ?_⟩
  · exact last_set GloveFlag.set (fun o => o.alpha) Glove.alphaFlag (by intro x s; cases x <;> rfl) l (z.loadForCmd ncpu)
  · exact last_set GloveFlag.set (fun o => o.batchSize) Glove.batchSizeFlag (by intro x s; cases x <;> rfl) l (z.loadForCmd ncpu)
  · exact last_set GloveFlag.set (fun o => o.countType) Glove.countTypeFlag (by intro x s; cases x <;> rfl) l (z.loadForCmd ncpu)
  · exact last_set GloveFlag.set (fun o => o.dim) Glove.dimFlag (by intro x s; cases x <;> rfl) l (z.loadForCmd ncpu)
  · exact last_set GloveFlag.set (fun o => o.docInMemory) Glove.docInMemoryFlag (by intro x s; cases x <;> rfl) l (z.loadForCmd ncpu)
  · exact last_set GloveFlag.set (fun o => o.goroutines) Glove.goroutinesFlag (by intro x s; cases x <;> rfl) l (z.loadForCmd ncpu)
  · exact last_set GloveFlag.set (fun o => o.initlr) Glove.initlrFlag (by intro x s; cases x <;> rfl) l (z.loadForCmd ncpu)
  · exact last_set GloveFlag.set (fun o => o.iter) Glove.iterFlag (by intro x s; cases x <;> rfl) l (z.loadForCmd ncpu)
  · exact last_set GloveFlag.set (fun o => o.logBatch) Glove.logBatchFlag (by intro x s; cases x <;> rfl) l (z.loadForCmd ncpu)
  · exact last_set GloveFlag.set (fun o => o.maxCount) Glove.maxCountFlag (by intro x s; cases x <;> rfl) l (z.loadForCmd ncpu)
  · exact last_set GloveFlag.set (fun o => o.minCount) Glove.minCountFlag (by intro x s; cases x <;> rfl) l (z.loadForCmd ncpu)
  · exact last_set GloveFlag.set (fun o => o.solverType) Glove.solverTypeFlag (by intro x s; cases x <;> rfl) l (z.loadForCmd ncpu)
  · exact last_set GloveFlag.set (fun o => o.subsampleThreshold) Glove.subsampleThresholdFlag (by intro x s; cases x <;> rfl) l (z.loadForCmd ncpu)
  · exact last_set GloveFlag.set (fun o => o.toLower) Glove.toLowerFlag (by intro x s; cases x <;> rfl) l (z.loadForCmd ncpu)
  · exact last_set GloveFlag.set (fun o => o.verbose) Glove.verboseFlag (by intro x s; cases x <;> rfl) l (z.loadForCmd ncpu)
  · exact last_set GloveFlag.set (fun o => o.window) Glove.windowFlag (by intro x s; cases x <;> rfl) l (z.loadForCmd ncpu)
  · exact last_set GloveFlag.set (fun o => o.xmax) Glove.xmaxFlag (by intro x s; cases x <;> rfl) l (z.loadForCmd ncpu)

/-! ### lexvec -/

def Lexvec.batchSizeOf : LexvecOpt F → Option Int
  | .batchSize v => some v
  | _ => none

def Lexvec.dimOf : LexvecOpt F → Option Int
  | .dim v => some v
  | _ => none

def Lexvec.docInMemoryOf : LexvecOpt F → Option Bool
  | .docInMemory => some true
  | _ => none

def Lexvec.goroutinesOf : LexvecOpt F → Option Int
  | .goroutines v => some v
  | _ => none

def Lexvec.initlrOf : LexvecOpt F → Option F
  | .initlr v => some v
  | _ => none

def Lexvec.iterOf : LexvecOpt F → Option Int
  | .iter v => some v
  | _ => none

def Lexvec.logBatchOf : LexvecOpt F → Option Int
  | .logBatch v => some v
  | _ => none

def Lexvec.maxCountOf : LexvecOpt F → Option Int
  | .maxCount v => some v
  | _ => none

def Lexvec.minCountOf : LexvecOpt F → Option Int
  | .minCount v => some v
  | _ => none

def Lexvec.minLROf : LexvecOpt F → Option F
  | .minLR v => some v
  | _ => none

def Lexvec.negativeSampleSizeOf : LexvecOpt F → Option Int
  | .negativeSampleSize v => some v
  | _ => none

def Lexvec.relationTypeOf : LexvecOpt F → Option Word
  | .relationType v => some v
  | _ => none

def Lexvec.smoothOf : LexvecOpt F → Option F
  | .smooth v => some v
  | _ => none

def Lexvec.subsampleThresholdOf : LexvecOpt F → Option F
  | .subsampleThreshold v => some v
  | _ => none

def Lexvec.toLowerOf : LexvecOpt F → Option Bool
  | .toLower => some true
  | _ => none

def Lexvec.updateLRBatchOf : LexvecOpt F → Option Int
  | .updateLRBatch v => some v
  | _ => none

def Lexvec.verboseOf : LexvecOpt F → Option Bool
  | .verbose => some true
  | _ => none

def Lexvec.windowOf : LexvecOpt F → Option Int
  | .window v => some v
  | _ => none

def Lexvec.batchSizeFlag : LexvecFlag F → Option Int
  | .batchSize v => some v
  | _ => none

def Lexvec.dimFlag : LexvecFlag F → Option Int
  | .dim v => some v
  | _ => none

def Lexvec.goroutinesFlag : LexvecFlag F → Option Int
  | .goroutines v => some v
  | _ => none

def Lexvec.docInMemoryFlag : LexvecFlag F → Option Bool
  | .docInMemory v => some v
  | _ => none

def Lexvec.initlrFlag : LexvecFlag F → Option F
  | .initlr v => some v
  | _ => none

def Lexvec.iterFlag : LexvecFlag F → Option Int
  | .iter v => some v
  | _ => none

def Lexvec.logBatchFlag : LexvecFlag F → Option Int
  | .logBatch v => some v
  | _ => none

def Lexvec.maxCountFlag : LexvecFlag F → Option Int
  | .maxCount v => some v
  | _ => none

def Lexvec.minCountFlag : LexvecFlag F → Option Int
  | .minCount v => some v
  | _ => none

def Lexvec.minLRFlag : LexvecFlag F → Option F
  | .minLR v => some v
  | _ => none

def Lexvec.negativeSampleSizeFlag : LexvecFlag F → Option Int
  | .negativeSampleSize v => some v
  | _ => none

def Lexvec.relationTypeFlag : LexvecFlag F → Option Word
  | .relationType v => some v
  | _ => none

def Lexvec.smoothFlag : LexvecFlag F → Option F
  | .smooth v => some v
  | _ => none

def Lexvec.subsampleThresholdFlag : LexvecFlag F → Option F
  | .subsampleThreshold v => some v
  | _ => none

def Lexvec.toLowerFlag : LexvecFlag F → Option Bool
  | .toLower v => some v
  | _ => none

def Lexvec.updateLRBatchFlag : LexvecFlag F → Option Int
  | .updateLRBatch v => some v
  | _ => none

def Lexvec.verboseFlag : LexvecFlag F → Option Bool
  | .verbose v => some v
  | _ => none

def Lexvec.windowFlag : LexvecFlag F → Option Int
  | .window v => some v
  | _ => none

/-- **C66 (lexvec, SDK).** Each field of the options `New` uses is the value of the last option in the list that
sets this field, and the default if there is none. -/
theorem C66_lexvec_options [GoFloat F] (ncpu : Int) (l : List (LexvecOpt F)) :
    let o := LexvecOptions.new ncpu l
    let d : LexvecOptions F := LexvecOptions.default ncpu
    o.batchSize = ((l.filterMap Lexvec.batchSizeOf).getLast?).getD d.batchSize ∧
    o.dim = ((l.filterMap Lexvec.dimOf).getLast?).getD d.dim ∧
    o.docInMemory = ((l.filterMap Lexvec.docInMemoryOf).getLast?).getD d.docInMemory ∧
    o.goroutines = ((l.filterMap Lexvec.goroutinesOf).getLast?).getD d.goroutines ∧
    o.initlr = ((l.filterMap Lexvec.initlrOf).getLast?).getD d.initlr ∧
    o.iter = ((l.filterMap Lexvec.iterOf).getLast?).getD d.iter ∧
    o.logBatch = ((l.filterMap Lexvec.logBatchOf).getLast?).getD d.logBatch ∧
    o.maxCount = ((l.filterMap Lexvec.maxCountOf).getLast?).getD d.maxCount ∧
    o.minCount = ((l.filterMap Lexvec.minCountOf).getLast?).getD d.minCount ∧
    o.minLR = ((l.filterMap Lexvec.minLROf).getLast?).getD d.minLR ∧
    o.negativeSampleSize = ((l.filterMap Lexvec.negativeSampleSizeOf).getLast?).getD d.negativeSampleSize ∧
    o.relationType = ((l.filterMap Lexvec.relationTypeOf).getLast?).getD d.relationType ∧
    o.smooth = ((l.filterMap Lexvec.smoothOf).getLast?).getD d.smooth ∧
    o.subsampleThreshold = ((l.filterMap Lexvec.subsampleThresholdOf).getLast?).getD d.subsampleThreshold ∧
    o.toLower = ((l.filterMap Lexvec.toLowerOf).getLast?).getD d.toLower ∧
    o.updateLRBatch = ((l.filterMap Lexvec.updateLRBatchOf).getLast?).getD d.updateLRBatch ∧
    o.verbose = ((l.filterMap Lexvec.verboseOf).getLast?).getD d.verbose ∧
    o.window = ((l.filterMap Lexvec.windowOf).getLast?).getD d.window := by
  intro o d
  refine ⟨?_, ?_, ?_, ?_, ?_, ?_, ?_, ?_, ?_, ?_, ?_, ?_, ?_, ?_, ?_, ?_, ?_, ?_⟩
  · exact last_set LexvecOpt.apply (fun o => o.batchSize) Lexvec.batchSizeOf (by intro x s; cases x <;> rfl) l d
  · exact last_set LexvecOpt.apply (fun o => o.dim) Lexvec.dimOf (by intro x s; cases x <;> rfl) l d
  · exact last_set LexvecOpt.apply (fun o => o.docInMemory) Lexvec.docInMemoryOf (by intro x s; cases x <;> rfl) l d
  · exact last_set LexvecOpt.apply (fun o => o.goroutines) Lexvec.goroutinesOf (by intro x s; cases x <;> rfl) l d
  · exact last_set LexvecOpt.apply (fun o => o.initlr) Lexvec.initlrOf (by intro x s; cases x <;> rfl) l d
  · exact last_set LexvecOpt.apply (fun o => o.iter) Lexvec.iterOf (by intro x s; cases x <;> rfl) l d
  · exact last_set LexvecOpt.apply (fun o => o.logBatch) Lexvec.logBatchOf (by intro x s; cases x <;> rfl) l d
  · exact last_set LexvecOpt.apply (fun o => o.maxCount) Lexvec.maxCountOf (by intro x s; cases x <;> rfl) l d
  · exact last_set LexvecOpt.apply (fun o => o.minCount) Lexvec.minCountOf (by intro x s; cases x <;> rfl) l d
  · exact last_set LexvecOpt.apply (fun o => o.minLR) Lexvec.minLROf (by intro x s; cases x <;> rfl) l d
  · exact last_set LexvecOpt.apply (fun o => o.negativeSampleSize) Lexvec.negativeSampleSizeOf (by intro x s; cases x <;> rfl) l d
  · exact last_set LexvecOpt.apply (fun o => o.relationType) Lexvec.relationTypeOf (by intro x s; cases x <;> rfl) l d
  · exact last_set LexvecOpt.apply (fun o => o.smooth) Lexvec.smoothOf (by intro x s; cases x <;> rfl) l d
  · exact last_set LexvecOpt.apply (fun o => o.subsampleThreshold) Lexvec.subsampleThresholdOf (by intro x s; cases x <;> rfl) l d
  · exact last_set LexvecOpt.apply (fun o => o.toLower) Lexvec.toLowerOf (by intro x s; cases x <;> rfl) l d
  · exact last_set LexvecOpt.apply (fun o => o.updateLRBatch) Lexvec.updateLRBatchOf (by intro x s; cases x <;> rfl) l d
  · exact last_set LexvecOpt.apply (fun o => o.verbose) Lexvec.verboseOf (by intro x s; cases x <;> rfl) l d
  · exact last_set LexvecOpt.apply (fun o => o.window) Lexvec.windowOf (by intro x s; cases x <;> rfl) l d

/-- **C66 (lexvec, command line).** Each field a command runs with is the value of the last flag for it, and without
such a flag the value of `DefaultOptions()`. So a command without flags uses exactly `DefaultOptions()`. -/
theorem C66_lexvec_flags [GoFloat F] (ncpu : Int) (z : LexvecOptions F) (l : List (LexvecFlag F)) :
    let o := LexvecOptions.fromFlags ncpu z l
    let d : LexvecOptions F := LexvecOptions.default ncpu
    (l = [] → o = d) ∧
    o.batchSize = ((l.filterMap Lexvec.batchSizeFlag).getLast?).getD d.batchSize ∧
    o.dim = ((l.filterMap Lexvec.dimFlag).getLast?).getD d.dim ∧
    o.docInMemory = ((l.filterMap Lexvec.docInMemoryFlag).getLast?).getD d.docInMemory ∧
    o.goroutines = ((l.filterMap Lexvec.goroutinesFlag).getLast?).getD d.goroutines ∧
    o.initlr = ((l.filterMap Lexvec.initlrFlag).getLast?).getD d.initlr ∧
    o.iter = ((l.filterMap Lexvec.iterFlag).getLast?).getD d.iter ∧
    o.logBatch = ((l.filterMap Lexvec.logBatchFlag).getLast?).getD d.logBatch ∧
    o.maxCount = ((l.filterMap Lexvec.maxCountFlag).getLast?).getD d.maxCount ∧
    o.minCount = ((l.filterMap Lexvec.minCountFlag).getLast?).getD d.minCount ∧
    o.minLR = ((l.filterMap Lexvec.minLRFlag).getLast?).getD d.minLR ∧
    o.negativeSampleSize = ((l.filterMap Lexvec.negativeSampleSizeFlag).getLast?).getD d.negativeSampleSize ∧
    o.relationType = ((l.filterMap Lexvec.relationTypeFlag).getLast?).getD d.relationType ∧
    o.smooth = ((l.filterMap Lexvec.smoothFlag).getLast?).getD d.smooth ∧
    o.subsampleThreshold = ((l.filterMap Lexvec.subsampleThresholdFlag).getLast?).getD d.subsampleThreshold ∧
    o.toLower = ((l.filterMap Lexvec.toLowerFlag).getLast?).getD d.toLower ∧
    o.updateLRBatch = ((l.filterMap Lexvec.updateLRBatchFlag).getLast?).getD d.updateLRBatch ∧
    o.verbose = ((l.filterMap Lexvec.verboseFlag).getLast?).getD d.verbose ∧
    o.window = ((l.filterMap Lexvec.windowFlag).getLast?).getD d.window := by
  intro o d
  refine ⟨fun h => by subst h; rfl, ?_, ?_, ?_, ?_, ?_, ?_, ?_, ?_, ?_, ?_, ?_, ?_, ?_, ?_, ?_, ?_, ?_, ?_⟩
  · exact last_set LexvecFlag.set (fun o => o.batchSize) Lexvec.batchSizeFlag (by intro x s; cases x <;> rfl) l (z.loadForCmd ncpu)
  · exact last_set LexvecFlag.set (fun o => o.dim) Lexvec.dimFlag (by intro x s; cases x <;> rfl) l (z.loadForCmd ncpu)
  · exact last_set LexvecFlag.set (fun o => o.docInMemory) Lexvec.docInMemoryFlag (by intro x s; cases x <;> rfl) l (z.loadForCmd ncpu)
  · exact last_set LexvecFlag.set (fun o => o.goroutines) Lexvec.goroutinesFlag (by intro x s; cases x <;> rfl) l (z.loadForCmd ncpu)
  · exact last_set LexvecFlag.set (fun o => o.initlr) Lexvec.initlrFlag (by intro x s; cases x <;> rfl) l (z.loadForCmd ncpu)
  · exact last_set LexvecFlag.set (fun o => o.iter) Lexvec.iterFlag (by intro x s; cases x <;> rfl) l (z.loadForCmd ncpu)
  · exact last_set LexvecFlag.set (fun o => o.logBatch) Lexvec.logBatchFlag (by intro x s; cases x <;> rfl) l (z.loadForCmd ncpu)
  · exact last_set LexvecFlag.set (fun o => o.maxCount) Lexvec.maxCountFlag (by intro x s; cases x <;> rfl) l (z.loadForCmd ncpu)
  · exact last_set LexvecFlag.set (fun o => o.minCount) Lexvec.minCountFlag (by intro x s; cases x <;> rfl) l (z.loadForCmd ncpu)
  · exact last_set LexvecFlag.set (fun o => o.minLR) Lexvec.minLRFlag (by intro x s; cases x <;> rfl) l (z.loadForCmd ncpu)
  · exact last_set LexvecFlag.set (fun o => o.negativeSampleSize) Lexvec.negativeSampleSizeFlag (by intro x s; cases x <;> rfl) l (z.loadForCmd ncpu)
  · exact last_set LexvecFlag.set (fun o => o.relationType) Lexvec.relationTypeFlag (by intro x s; cases x <;> rfl) l (z.loadForCmd ncpu)
  · exact last_set LexvecFlag.set (fun o => o.smooth) Lexvec.smoothFlag (by intro x s; cases x <;> rfl) l (z.loadForCmd ncpu)
  · exact last_set LexvecFlag.set (fun o => o.subsampleThreshold) Lexvec.subsampleThresholdFlag (by intro x s; cases x <;> rfl) l (z.loadForCmd ncpu)
  · exact last_set LexvecFlag.set (fun o => o.toLower) Lexvec.toLowerFlag (by intro x s; cases x <;> rfl) l (z.loadForCmd ncpu)
  · exact last_set LexvecFlag.set (fun o => o.updateLRBatch) Lexvec.updateLRBatchFlag (by intro x s; cases x <;> rfl) l (z.loadForCmd ncpu)
  · exact last_set LexvecFlag.set (fun o => o.verbose) Lexvec.verboseFlag (by intro x s; cases x <;> rfl) l (z.loadForCmd ncpu)
  · exact last_set LexvecFlag.set (fun o => o.window) Lexvec.windowFlag (by intro x s; cases x <;> rfl) l (z.loadForCmd ncpu)

/-- A list of options that sets a field twice: the second wins, the others keep their defaults. -/
example : (W2VOptions.new 8 [.dim 100, .iter 3, .dim 50, .docInMemory] : W2VOptions ℝ).dim = 50 ∧
    (W2VOptions.new 8 [.dim 100, .iter 3, .dim 50, .docInMemory] : W2VOptions ℝ).window = 5 := ⟨rfl, rfl⟩

end Wego.Props
