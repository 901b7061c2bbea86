# Formal model of ynqa/wego in Lean 4 — design

## 1. What is modelled and how

The model is written function by function; every definition cites the file and lines of `/repo` it models.
Layout of `/verif/lean/Verif`:

| directory | content |
|---|---|
| `Go/` | the Go runtime pieces the code uses: outcome monad `Res` (value / error / panic), the float64 interface `GoFloat`, an IEEE-754 binary64 model `F64`, white space, `bufio.Scanner`, `sort.Search`, `%f` and `ParseFloat` |
| `Model/` | the code of wego: one module per Go package |
| `Spec/` | small specifications the theorems refer to, written without the model's helpers |
| `Proofs/` | lemmas |
| `Props/` | the property theorems (one file per area) with satisfiability examples and counter-examples |

Conventions

* A Go call that may return an error or panic has a result in `Res α = ok a | err e | panic p`.
* A slice is a list; where two slices alias the same array (matrix rows) the array is explicit and rows are offsets.
* `int` is `Int` for values a caller chooses (k, window, batch size, depth, ...) and `Nat` for ids/lengths that the
  code itself produces. 64-bit wrap-around is modelled only where it matters (`EncodeBigram`, `NextRandom`: `BitVec 64`).
* `float64`: the code is written once over an interface `GoFloat F` and used at two instances: `ℝ` (properties about
  formulas) and `F64`, an IEEE-754 binary64 model with round-to-nearest-even, signed zero, infinities and NaN
  (properties about rounding, NaN, text round-trips, table index). `exp`, `log`, `pow` have no `F64` definition:
  theorems about them are over `ℝ`, or hold for every choice of these functions.
* `strings.ToLower` is an arbitrary function on words (parameter).
* `math/rand` and thread schedules are universally quantified (streams / step lists).
* Documents are lists of Unicode scalar values (valid UTF-8). Byte sizes are UTF-8 sizes.

## 2. Plan per property

| id | modelled | method |
|---|---|---|
| C01,C02 | `Dictionary` (map + slices), `Add` | invariant by induction over the added words; spec = count / first occurrence on the list |
| C03 | `EncodeBigram`, `DecodeBigram` on `BitVec 64` | bit-vector to Nat arithmetic; collision witness above 2^32 |
| C04,C05 | `Cooccurrence.Add` over `GoFloat`; `F64` instance for exactness | induction over Adds |
| C06,C07 | `bufio.Scanner`+`ScanWords`, `ReadWord` | induction over the text; spec = maximal non-space runs |
| C08,C09 | `ReadWordWithForwardContext` loop | induction; C08 false for n>=3: counterexample + partial |
| C10 | `Filters.Any`, `MaxCount`, `MinCount` | case analysis |
| C11-C16 | memory and fs corpora | induction over words, C15 false: counterexamples + partial |
| C17-C21 | Huffman arena with parent pointers, stable sort, binary search insertion, `GetPath` | refinement arena -> forest -> tree; optimality by the exchange argument on Kraft lengths; induction on trees |
| C22 | step machine of `GetPath` on a shared cache | counterexample schedule + partial (sequential / warmed cache) |
| C23,C24 | LCG on `BitVec 64` | Hull-Dobell by doubling; parity |
| C25 | `IndexPerThread` | floor-sum (Hermite) identity |
| C26 | `Matrix` | index arithmetic |
| C27 | `Subsampler` | real analysis + `F64` order facts |
| C28-C31 | word2vec skip-gram, CBOW, negative sampling | frame invariants; C30 false: counterexample + partial |
| C32,C33 | sigmoid table over `ℝ` and `F64` | Lipschitz bound; floor arithmetic on doubles with a rounding-error calculus (`F64Near`); C32 also in float64 for every `math.Exp` accurate to 2^-40; C33 false at one double: witness + partial |
| C31,C69 (float64) | the same optimisers over `F64` | small float64 spec `Spec/LogisticF64`: each pick is a rounded logistic step, or the call is the index panic of C33 |
| C34,C35 | `observe` state machine | invariant by induction; C34 false: witness + partial |
| C36 | `Train` of the three models | case analysis |
| C37-C39 | transition system of one training iteration | inductive invariant, progress, decreasing measure; C39 false: stuck-state theorem |
| C40-C42,C45 | GloVe items, solvers | real arithmetic, list invariants; C40 and C46 also for any arithmetic and for float64 |
| C43,C44 | `WordVector` of the three models | C44 false for glove/lexvec: witness + partial |
| C46,C47 | LexVec relation, update | real arithmetic with explicit aliasing |
| C48-C52 | `Save`, `Load`, `%f`, `ParseFloat`, `bufio.Writer` | text induction, `F64` rounding lemmas; C51 false |
| C53-C59 | `search.New`, `Search`, `SearchInternal`, `Cosine` | invariant of the bubble insertion over any NaN-aware order; Cauchy-Schwarz |
| C60-C63 | console evaluator and loop | case analysis, induction over histories; C62 false |
| C64,C65 | `execute` on an abstract file system | case analysis; C65 false |
| C66 | functional options | induction over option lists |
| C67,C68 | whole `Train`; training event histories | composition of the above |
| C69 | `HierSoftmax.optim` on the arena | invariant on the tree, logistic-loss gradient over `ℝ` |
| C70 | sequential training steps of the three models | totality by the shape invariants |
| C71 | `Save` with verbose output and `LogBatch` | case analysis on the remainder |
| C72 | set-up part of the three `Train` methods | composition of corpus, matrix and item theorems |
| C73,C74 | worker and observer goroutines as load/store programs (`Prog`), all interleavings, arbitrary load results | assertion `Prog.Ok` per goroutine, preserved by every step; size measure for termination |
| C75,C76 | the same programs under sequential consistency with the semaphore (`Pool.Iters`) against the sequential algorithms (`TrainSeq`) | simulation (`Runs`, `OptimSim`) in both directions (`Ends`, `OptimBack`) |
| C77 | `Search` on items with true norms | composition of C54 and the cosine over `ℝ` |
| C78 | initial parameters | formula per cell, ranges over `ℝ` |
| C79 | `query` and `console` commands | composition of `Load`, `New`, `SearchInternal` |
| C80 | verbose variants of `Load`, `makeItems` and the observers, with the printed lines as output (`Model/Verbose`) | relation between the silent and the verbose loop (`forFrom_rel`, `readWord_rel`) |
| C81 | the observer's updates over `ℝ` and `F64` (the rounded schedule is antitone) | closed form of the update recurrence by induction |
| C82 | workers and observer reduced to the operations on `currentlr` and `trained` (`Model/RateLag`) | inductive invariant: the rate is that after `sent` or `sent - 1` words |
| C83 | `Train` as the set of results of its schedules, `Save`, the commands on a file system (`Model/TrainCmd`, `Model/Cmd`, `Model/Query`) | composition of C64, C72, C43, C49 and C79 |
| C84 | the same | set-up succeeds (C72), slices exist (C25), every goroutine is `Ok` in every pool state, complete executions exist; word2vec in float64: `Ok` allows the index panic only, and NaN rates reach it |
| C85 | model objects with their fields before, between and after `Train` calls (`Model/Object`), histories of calls | induction over the history; the fields a failing set-up leaves |
| C86 | `Train` on an object in an arbitrary state | set-up overwrites every field but `currentlr`, then C72, C83, C84 |
| C87 | `WordVector`/`Save` after a failed second `Train` | refutation (stale vectors are served); proved for objects never trained |
| C88 | `currentlr` across `Train` calls | refutation (the rate is set only by the constructor); proved for the first call, and for GloVe always |
| C89 | `execute` of the three training commands composed with the results of `Train` | case analysis of `executeMain` for the outcomes error and panic |
| C90 | set-up, slicing, observer and batch producer with out-of-range numeric options | the panicking step is located in the set-up / slicing / observer; all other outcomes excluded by cases on `Train` |
| C91 | two goroutines of GloVe on shared rows, single loads and stores | refutation by a concrete schedule (evaluated by the kernel); proved part: serialisability by commuting steps of goroutines without common variables |
| C92 | the pieces a worker sees (`Spec/Pieces`) and the training programs on them | refuted for all documents: a window in a piece of one word is empty, so the program contains no store; proved part: one piece only, both corpora give the same word sequence (C13), so the same `Train` relation |
| C93 | `Run` with everything it prints (`turnOut`, `runOut`) | induction over the prompts with the reset of the cursor (C61, C63) |
| C94 | `Describe` (`describe`) after the query command | C54, C55, C57 and monotonicity of six-decimal rounding |
| C95 | whole `Train` of the three models with two option records | the set-up, the pieces and the rounds of both are equal; the executions are the same |
| C96 | `Search`, `SearchInternal` over permuted items | the hits are a prefix of a descending arrangement of the candidates; two such arrangements agree up to ties |
| C97 | `Search` | false: concrete items in float64; proved for k = 1 and for items in descending similarity by invariants of the loop |
| C98 | `Cosine`, `Norm` in float64 | false: concrete vectors; overflow and equal norms by case analysis of float64; accuracy: error bounds of each float64 operation (`Proofs/F64Err`), induction over the loops (`Proofs/CosErr`), then the ranking from C54/C55 |
| C99 | `Train` and the commands on documents without a trainable word | all goroutines return at once (or panic at once), so no schedule changes the memory; `Proofs/Halted.lean` |
| C100 | `Save`, `Load`, `Cosine`, `Search` composed, float64 | false: concrete file; small vectors by the rounding of C49; accuracy: perturbation bound of the cosine (Cauchy-Schwarz) + C49 + C98 |
| C101 | `bufio.Scanner` (Scan, ScanWords, ScanLines) and `utf8.DecodeRune` over bytes, a reader with arbitrary read sizes that reports its end alone or with the last bytes | invariant: the unread bytes `data ++ rest` determine what is still delivered; a split function never decides differently on a beginning of the input; UTF-8 decoding inverts encoding |
| C102 | the tokens and expressions of Go for lines of identifiers, integers, `+`, `-` and blanks; the rest of `go/parser` a parameter | induction on the line for the scanner (runs, blanks, longest match) and on the operands for the parser; then C60 and C62 |
| C103 | as C54 | the array of `Search` always holds the first `k` of an arrangement of all candidates that does not depend on `k` (`Spec/TieOrder`) |
| C104 | LexVec Train, load/store programs | frame: no worker without samples writes a row from `Len()` on; lifted to all schedules (`pool_frame`, `iters_frame`); also gives C68 for the whole of Train |
| C105 | goroutines as load/store programs; races as a predicate on reachable states (`Spec/Race`) | ⇐: programs that must come to a store (`Hits`) are driven there one after the other; ⇒: invariants (disjoint variables, at most `g` workers, observers only touch `currentlr`) |
| C106 | `Save`'s text, its initial parts, `Load`, `ParseFloat`, `search.New` | every initial part is the first m lines and a beginning of the next (induction); fields of such a beginning; a beginning of a printed number has a smaller value (rounding is monotone) |
| C107 | both corpora, the three `Train` functions | every reading function uses the document through its words only; all ways `Train` can end carry over |
| C108 | the same, `ToLower` | callbacks of word-by-word reading see lower-cased words; refuted for the second pass of the file corpus |
| C109 | `Load`, `search.New`, `SearchInternal` | the exact characterization of `Load` (C52) on joined, permuted and re-spaced lines |
| C110 | `BatchWords` on a dictionary made from another content; the goroutines of word2vec and LexVec | induction over the words of the new content; the index-safety of C73 for any batches of dictionary ids |
| C111 | `Train` with the readings of the input given one by one (`Model/Readings.lean`) | an iteration without words changes nothing (C99); set-up with two different readings; GloVe: frame of the workers, whose items all address the first word |
| C112 | `Search`, `SearchInternal`, `Load`, the `query` command | ignoring: induction over the items; removal: the arrangement of all candidates (C97) is the only sorted one without ties, filtering keeps it sorted; file: the line-wise description of `Load` (C52) |
| C113 | `SearchInternal`, `SearchVector` over the reals | the search reads the vectors only through `Cosine`, which is the cosine of the angle (C77) |
| C114 | `ReadWord`, dictionary, the three `Train`s, `Save`, `Load`, `Search`, `SearchInternal` | renaming is a homomorphism of the dictionary, of both corpora and of the search loop; `Train` reads documents only through word ids |
| C115 | `SearchInternal`, `SearchVector`, `Load` | both are the same search, the ignored word is removed by C112; the first place by C77 and Cauchy-Schwarz (C59) |
| C116 | `Search`, `Cosine`, `Norm`, `Load` | a zero norm gives similarity 0, which is no candidate (C54, C112); witness for the underflow by evaluation in the kernel |
| C117 | `SearchVector`, `Cosine` | the loop of `Cosine` leaves the second vector (induction); zeros add nothing to inner products |
| C118 | `Console.eval`, `Search` | C112 makes the ignored words a filter; commutativity of float64 addition by cases; the cosine of the negated query is the negated cosine |

## 3. Trusted base

**Checker.** Lean 4.33.0's kernel, Mathlib's definitions (`ℝ`, `exp`, `log`, `Finset.sum`, `List`, permutations) and this repository's definitions under
`Go/`, `Model/` and `Spec/`. No compiled evaluation is used: `decide +kernel` reduces in the kernel.

**Axioms.** Every theorem depends on a subset of Lean's three standard axioms `propext`, `Classical.choice`, `Quot.sound`. `AXIOMS.md` lists the exact set
for every theorem named in `MANIFEST.json` (generated by `tools/axioms.py` from `#print axioms`). No axiom is declared here.

**That the model is the code.** There is no translation from Go: each definition was written by reading the cited lines. What is and is not modelled:

| Go file | modelled by | simplified or left out |
|---|---|---|
| `pkg/corpus/dictionary/dictionary.go` | `Model/Dictionary` | a Go map is an association list with first-match lookup; no iteration order is used |
| `pkg/corpus/dictionary/huffman.go`, `node/node.go` | `Model/Huffman`, `Model/PathRace` | `sort.SliceStable` as a stable insertion sort, `sort.Search` literally; node pointers are arena indices; `GetPath` under concurrency is a step machine of its slice-header reads and writes |
| `pkg/corpus/cooccurrence`, `encode` | `Model/Cooccurrence` | map enumeration order is a parameter (`enum`, any permutation of the entries) |
| `pkg/corpus/cpsutil` | `Model/Cpsutil`, `Go/Text` | `bufio.Scanner` at token level with its 64 KiB limit, proved to be what the byte-level scanner of `Go/Scanner` delivers for every sequence of reads (C101); documents are valid UTF-8; the forward-context reader ignores that a word longer than the buffer is cut off mid-token before the error |
| `pkg/corpus/memory`, `pkg/corpus/fs`, `filter` | `Model/Corpus` | the two passes of the file corpus read two `Pass`es (contents and failure point); channels are the ordered list of their operations |
| `pkg/model/modelutil` | `Model/Modelutil`, `Model/Matrix`, `Model/Subsample`, `Model/Vector` | `rand.Float64` is an arbitrary function on an arbitrary state (in `Prog`: any value satisfying a predicate); `%f` and `bufio.Writer` as text functions with a failure point |
| `pkg/model/word2vec` | `Model/Word2vec`, `Model/Sigmoid`, `Model/LearningRate`, `Model/Train`, `Model/TrainProg`, `Model/TrainSeq`, `Model/WordVector` | the `sync.Pool`-like buffer channels of skip-gram and CBOW are values local to a step (a step holds its buffer from receive to send); window arithmetic on unbounded `Int` (theorems require `window < 2^62`) |
| `pkg/model/glove` | `Model/Glove`, `Model/Train`, `Model/TrainProg`, `Model/TrainSeq`, `Model/WordVector` | the verbose observer only counts |
| `pkg/model/lexvec` | `Model/Lexvec`, `Model/Train`, `Model/TrainProg`, `Model/TrainSeq`, `Model/WordVector` | sequential steps read the learning rate from a stream `lrs` |
| goroutines, channels, `WaitGroup`, semaphore of the three `train` methods | `Model/Concurrency` (control), `Model/Prog`, `Model/TrainSys` (data) | see below |
| `pkg/embedding` | `Model/Embedding` | `strconv.ParseFloat` is exact on plain decimals, NaN and signed infinities, an arbitrary function `other` on other spellings; `Model/ParseFloat` gives that function for exponents and every spelling of the special values, leaving hexadecimal numbers and underscores open; `Model/ParseHex` closes those |
| `pkg/search`, `searchutil`, `embutil` | `Model/Search` | - |
| `pkg/search/console` | `Model/Console` | `go/parser.ParseExpr` is a parameter returning a tree of the node kinds the evaluator inspects (written out in `Go/ParseExpr` for lines of words, integers, `+` and `-`, C102); terminal line editor and table drawing left out (rows are values) |
| `cmd/model/*`, `cmd/query/*`, `wego.go` | `Model/Cmd`, `Model/Query`, `Model/Options` | a file system maps paths to contents, with arbitrary outcomes for the calls that can fail; `os.Stat` is taken to fail only for paths that do not exist; cobra's flag parsing is a list of assignments; profiling is the file `cpu.prof` |
| `pkg/util/verbose`, progress printing | `Model/Verbose`, `Model/Vector` | a printed line is a kind and a count; the elapsed time is left out |
| `pkg/util/clock`, `test/`, `examples/` | not modelled | - |

**Floating point.** `Go/Float` is the interface; `Go/F64` is binary64 (round to nearest even, subnormals, signed zero, infinities, NaN) for `+ - * / sqrt`, comparisons,
conversions and decimal text. `exp`, `log`, `pow` on `F64` are arbitrary functions (`Go/LibM`); only C31, C32 and C69 in float64 assume something of one of them, that `math.Exp` is within 2^-40 relative of the exponential on [-7, 7] (`ExpAccurate`, a hypothesis of the theorem, not an axiom). FMA contraction, which Go permits on some architectures (not
amd64), is not modelled. Theorems stated over `ℝ` say nothing about rounding; each note in `MANIFEST.json` names the arithmetic.

**Concurrency.** Two models.
* `Model/Concurrency`: control. A labelled transition system of producer, dispatching loop, workers, semaphore, wait group and observer channel. `wg.Add(1)` and `go` are one step
  with taking the batch; the body of the observer is one step with its receive.
* `Model/Prog`, `Model/TrainProg`, `Model/TrainSys`: data. A goroutine is a tree of single loads and stores of `float64` cells, of the generator variable `next`, and of
  `rand.Float64` calls. `Sys.Step` interleaves them without any synchronisation (a superset of the real interleavings), and `MemEnv` says what a load may return: the theorems
  of C68, C73, C74 hold for every `MemEnv` (any weak memory, but `float64` stores are not torn), those of C75, C76 for sequential consistency. C105 shows which runs have data races; for those the Go memory model does not promise sequential consistency, so the results stated for a sequentially consistent memory describe such runs only on hardware and compilers that keep it. `GetPath` returns any node list allowed by
  the environment. `Pool.Iters` adds the semaphore (release and `wg.Done` are one step) and `wg.Wait`; the channel `trained` is left out, so observers may lag or run ahead arbitrarily, and old
  observers may still run in later iterations (a superset of the real executions).
* `Model/TrainCmd`: whole executions of `Train`: the set-up, then `Iter` rounds of a pool of goroutines with a semaphore of `Goroutines` permits; the reader gives the same text in every pass; `Save`'s writes succeed.
* `Model/Object`: the three model objects as records of their fields (vocabulary, parameters, `currentlr`), the constructors' values, one `Train` call as a relation from the fields before to the fields after (including the paths that return an error half-way), and histories of calls. A call that panics ends the history.
* `Model/Readings`: file-backed `Train` when the readings of the input need not find the same text (a pipe, a file that changes): two readings for `Load`, one for each iteration. Not modelled: a reading that fails in an iteration other than by never ending.
* `Model/RateLag` (C82 and one part of C105): one iteration with one observer, reduced to reading and storing `currentlr` and the rendezvous on `trained`.
* Vectors of the Huffman tree are part of the shared memory, but not read back into the model after training (`WordVector` does not use them).

**Outside the model.** Memory exhaustion, `int` overflow of lengths, wall-clock time, signals, contents of log lines, correctness of the Go compiler, runtime and standard library beyond the
models named above, and the quality of the trained vectors.

## 4. Testing the theorems

`seeded/LOG.jsonl` records edits of the model that imitate realistic bugs, which theorems stopped proving, and which theorems were tightened because they did not.
