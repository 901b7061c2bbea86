p("Hierarchical softmax update",
  "optim with hierarchical softmax makes one logistic-regression step (label 1-code of the next node) for each node of the depth-limited root-to-word path, in order, and stops early only at a node whose score is outside (-6,6); no leaf and no other node changes; it never panics and draws no random number.",
  "every corpus, Dim >= 0, MaxDepth >= 0, history of optim calls, learning rate and vectors (real arithmetic)", "all trees and histories", "pkg/model/word2vec/optimizer.go:hierarchicalSoftmax.optim", "pkg/corpus/dictionary/huffman.go:HuffnamTree")
p("Training steps never panic",
  "A skip-gram or CBOW step with either optimizer over any document of dictionary ids returns normally and keeps all shapes; a CBOW step changes only word rows within the window.",
  "every document of dictionary ids, position, window >= 1, generator state, learning rate (real arithmetic)", "all states and documents", "pkg/model/word2vec/model.go:skipGram.trainOne", "pkg/model/word2vec/model.go:cbow.trainOne")
p("Verbose output does not change Save",
  "With LogBatch not 0, Save writes and returns the same with and without verbose; verbose with LogBatch 0 panics on every non-empty dictionary.",
  "every writer, dictionary, matrix and LogBatch", "all inputs", "pkg/model/modelutil/vector/vector.go:Save")

p("Valid options start training",
  "With valid options Train's set-up succeeds on every readable document, with either corpus: the dictionary is the vocabulary of the normalised words and the parameters have one row (two for GloVe and LexVec) of the right width per word.",
  "every readable document, valid option values, random generator, map enumeration order", "all documents and options", "pkg/model/word2vec/word2vec.go:Train", "pkg/model/glove/glove.go:Train", "pkg/model/lexvec/lexvec.go:Train")

p("No interleaving of training goroutines panics",
  "With valid options (window >= 1, UpdateLRBatch not 0) no schedule of the loads and stores of the training goroutines of word2vec, LexVec or GloVe reaches an index, slice or division panic, whatever values racing loads return.",
  "every readable document, either corpus, every schedule, every memory model, every number of goroutines and iterations (word2vec: real arithmetic)", "all schedules and racy values", "pkg/model/word2vec/word2vec.go:trainPerThread", "pkg/model/lexvec/lexvec.go:trainPerThread", "pkg/model/glove/glove.go:trainPerThread")
p("Every schedule of training ends",
  "There is no infinite schedule of the training goroutines, and a state in which no goroutine can move is one where all have returned (or one has panicked).",
  "every system of training goroutines, schedule and memory model", "all schedules", "pkg/model/word2vec/word2vec.go:trainPerThread", "pkg/model/lexvec/lexvec.go:trainPerThread", "pkg/model/glove/glove.go:trainPerThread")
p("GloVe with one goroutine is deterministic",
  "With Goroutines(1), GloVe's parameters after training are exactly those of the sequential algorithm (for every iteration, both steps of every co-occurrence item in order, each step indivisible), whatever the schedule and the random source of rand.Float64 after initialisation.",
  "every readable document, valid options with Goroutines(1), either solver, every map enumeration order, number of iterations and schedule", "all schedules", "pkg/model/glove/glove.go:train", "pkg/model/glove/solver.go:trainOne")
p("word2vec and LexVec with one goroutine are sequential up to the learning rate",
  "With Goroutines(1), in every complete execution the parameters end up being what the sequential algorithm computes (documents one after the other, training steps indivisible; file-backed the batches of an iteration in some order) for some results of rand.Float64 and some learning rates, each of them the initial rate, the minimal rate or the scheduled rate for some number of counted words.",
  "every readable document, valid options with Goroutines(1), either corpus, number of iterations and schedule of workers and observers", "all schedules", "pkg/model/lexvec/lexvec.go:trainPerThread", "pkg/model/lexvec/lexvec.go:observe", "pkg/model/word2vec/word2vec.go:trainPerThread", "pkg/model/word2vec/word2vec.go:observe")

p("Search results carry true cosines",
  "SearchVector and SearchInternal report, for the k most similar items, exactly the cosine of the angle between the query and the item's vector; items of non-positive cosine never appear.",
  "every searcher whose items carry the Euclidean norm of their vectors, query of the same dimension, k >= 1 (real arithmetic)", "all vectors and item orders", "pkg/search/search.go:SearchVector", "pkg/search/search.go:SearchInternal", "pkg/search/searchutil/searchutil.go:Cosine")
p("Initial parameters",
  "When training starts, every word2vec and LexVec parameter is (x - 0.5)/Dim, and every GloVe parameter x/Dim, of its own result x of rand.Float64(), assigned row by row; tree vectors are 0 and AdaGrad accumulators 1. So the values lie in [-1/(2 Dim), 1/(2 Dim)) and [0, 1/Dim).",
  "every readable document, options and random generator (formulas in any arithmetic; ranges over the reals, and in float64 up to rounding of the bounds)", "all documents, dimensions and generators", "pkg/model/word2vec/word2vec.go:Train", "pkg/model/glove/glove.go:Train", "pkg/model/lexvec/lexvec.go:Train", "pkg/model/word2vec/optimizer.go:newNegativeSampling")
p("Query and console commands",
  "With rank >= 1 the query command never panics and fails exactly when the file is missing, unreadable or invalid, the argument count is not 1 or the word is unknown; on a file written by Save every vocabulary word can be queried and yields the most similar other words by read-back values. The console starts exactly on files with at least one vector, all of one dimension.",
  "every file system, file content, argument list, rank >= 1 and every saved vocabulary (float64)", "all files and words", "cmd/query/query.go:execute", "cmd/query/console/console.go:execute")

p("Verbose output changes nothing else",
  "With verbose set and LogBatch not 0 (for LexVec's corpus loading: BatchSize not 0), corpus loading, the observers and the building of training items give exactly the results of the silent run; what is printed is one progress line at every multiple of the batch, then the total. Silent runs print nothing. With batch 0, verbose loading of any non-empty document panics.",
  "every document, either corpus, batch and number of words", "all documents, batches and counts", "pkg/util/verbose/verbose.go:Do", "pkg/corpus/memory/memory.go:Load", "pkg/corpus/fs/fs.go:Load", "pkg/model/glove/item.go:makeItems", "pkg/model/lexvec/item.go:makeItems", "pkg/model/word2vec/word2vec.go:observe", "pkg/model/glove/glove.go:observe", "pkg/model/lexvec/lexvec.go:observe")
p("Exact learning-rate schedule",
  "Within one iteration the rate is the linear schedule at the last multiple of UpdateLRBatch while that is at least MinLR; from the first update below MinLR on, it alternates between the schedule value (below MinLR) and MinLR. The next iteration counts from 0 again, so the rate rises back to the start of the schedule: it is not monotone over a run.",
  "every Initlr >= MinLR >= 0, batch >= 1, corpus length and number of words (real arithmetic; and float64, Initlr finite, corpora of at most 2^53 words, where the scheduled rate is the rounded formula)", "all parameters and counts", "pkg/model/word2vec/word2vec.go:observe", "pkg/model/lexvec/lexvec.go:observe")
p("The learning rate lags by at most Goroutines words",
  "In every schedule of an iteration the rate used for the j-th word started is the rate of the schedule after c words with j - Goroutines <= c <= j. Even with one goroutine, whenever an update is due, there are schedules in which the next word uses the old rate and the new rate.",
  "every schedule of workers and observer, number of goroutines, batching (any arithmetic; one observer running)", "all schedules", "pkg/model/word2vec/word2vec.go:trainPerThread", "pkg/model/word2vec/word2vec.go:observe", "pkg/model/lexvec/lexvec.go:trainPerThread")
p("A successful training command can be queried",
  "If a training command (any model) succeeds, its output file lists exactly the distinct normalised words of the corpus, in order of first occurrence, each with Dim values; and the query command on that file succeeds exactly for those words, reporting only other words of the corpus (if a line is 64 KiB or longer the query fails for every word).",
  "every readable corpus, options, schedule of the goroutines, file system, vector type and rank >= 1 (float64, any mathematical library)", "all corpora, schedules and files", "cmd/model/word2vec/word2vec.go:execute", "cmd/model/glove/glove.go:execute", "cmd/model/lexvec/lexvec.go:execute", "cmd/query/query.go:execute")
p("Training with valid options cannot fail",
  "With valid options and a readable corpus, in every schedule Train returns no error and does not panic (word2vec: in real arithmetic; in float64 the only possible failure is an index panic of the sigmoid lookup), and for GloVe and LexVec the training command succeeds in float64 whenever the output does not exist, the input does and the system calls succeed.",
  "every readable corpus, valid options, schedule and outcome of racing memory operations", "all corpora and schedules", "pkg/model/word2vec/word2vec.go:Train", "pkg/model/glove/glove.go:Train", "pkg/model/lexvec/lexvec.go:Train", "cmd/model/glove/glove.go:execute", "cmd/model/lexvec/lexvec.go:execute")
p("Nothing can be read from a model that no Train filled",
  "WordVector and Save panic on a model on which Train was never called, and also after any number of Train calls whose readers failed (each of which returns an error), except that Save writes an empty file when the last reader failed before its first word.",
  "every history of Train calls with failing readers on a new model, every document prefix, vector type and options", "all histories and documents", "pkg/model/word2vec/word2vec.go:WordVector", "pkg/model/glove/glove.go:WordVector", "pkg/model/lexvec/lexvec.go:WordVector", "pkg/model/word2vec/word2vec.go:Save")
p("A successful Train replaces everything the model held",
  "After a Train that returned nil, WordVector and Save describe exactly the words of its document, whatever calls - successful or not - came before; what it can leave depends on the earlier history only through the current learning rate and observers still running (GloVe: not at all). With valid options and a readable document every such later Train succeeds, in every schedule.",
  "every object state, every schedule also with observers of earlier calls, document and vector type", "all histories and schedules", "pkg/model/word2vec/word2vec.go:Train", "pkg/model/glove/glove.go:Train", "pkg/model/lexvec/lexvec.go:Train")
p("A Train that fails leaves the model as it was",
  "After a Train that returned an error, every word that had a vector still has the same one, and nothing untrained can be saved.",
  "every trained model, every later document whose reader fails, every invalid option", "all histories and documents", "pkg/model/word2vec/word2vec.go:Train", "pkg/model/glove/glove.go:Train", "pkg/model/lexvec/lexvec.go:Train", "pkg/model/word2vec/word2vec.go:Save")
p("Every Train starts from the initial learning rate",
  "Each call of Train starts from Initlr, on a new model and on a used one.",
  "every object state, document and schedule", "all histories and schedules", "pkg/model/word2vec/word2vec.go:NewForOptions", "pkg/model/word2vec/word2vec.go:observe", "pkg/model/lexvec/lexvec.go:NewForOptions", "pkg/model/lexvec/lexvec.go:observe", "pkg/model/glove/glove.go:train")
p("A training command that fails reports it and leaves an empty output",
  "When Train returns an error or panics, the training command ends with exactly that error or panic; the output file, created before training, stays in place and is empty. With an unknown word2vec model or optimizer type, GloVe count type or solver this happens for every input and schedule.",
  "every input file, options, schedule, error and panic (float64, any mathematical library; creating and opening the files succeeds)", "all inputs, options and schedules", "cmd/model/word2vec/word2vec.go:execute", "cmd/model/glove/glove.go:execute", "cmd/model/lexvec/lexvec.go:execute")
p("Numeric options outside their range",
  "A negative Dim makes Train panic on every corpus with a word (GloVe: below -1); negative Goroutines make it panic (LexVec: in memory); UpdateLRBatch(0) makes some execution panic as soon as a word is trained; a negative BatchSize makes file-backed word2vec panic. None of these values is rejected with an error.",
  "every readable document, other options, schedule, random generator and arithmetic", "all documents and option values", "pkg/model/word2vec/word2vec.go:Train", "pkg/model/word2vec/word2vec.go:observe", "pkg/model/glove/glove.go:train", "pkg/model/lexvec/lexvec.go:train", "pkg/model/modelutil/matrix/matrix.go:New", "pkg/model/modelutil/modelutil.go:IndexPerThread", "pkg/corpus/fs/fs.go:BatchWords")
p("Parallel GloVe training is some sequential order of the training steps",
  "Whatever the schedule of the goroutines, the parameters GloVe's Train leaves are those of some sequential order of the training steps.",
  "every corpus, solver, number of goroutines and sequentially consistent schedule", "all schedules", "pkg/model/glove/glove.go:trainPerThread", "pkg/model/glove/solver.go:trainOne")
p("How the document is cut does not change what is trained",
  "The sequence of words that Train trains on - and so, with one goroutine, the vectors it leaves - does not depend on Goroutines, BatchSize or DocInMemory: these options only spread the work.",
  "every document, Goroutines, BatchSize, DocInMemory and schedule", "all documents, options and schedules", "pkg/model/word2vec/word2vec.go:batchTrain", "pkg/model/word2vec/word2vec.go:trainPerThread", "pkg/model/lexvec/lexvec.go:batchTrain", "pkg/model/lexvec/lexvec.go:trainPerThread", "pkg/model/modelutil/modelutil.go:IndexPerThread", "pkg/corpus/fs/fs.go:BatchWords")
p("A console session shows what its lines show alone",
  "What Run prints is, for each prompt in order, `error:` if the prompt failed and then what the line prints and the error it ends with on a console that has seen no line before (nothing for an empty line); with the first exit the output is complete.",
  "every stream of prompt results, every length of the session, every valid searcher and k >= 1", "all sessions", "pkg/search/console/console.go:Run", "pkg/search/console/console.go:eval")
p("The table a query prints",
  "The rows of the table printed by a successful query are ranked 1, 2, ... in decimal; each names another word of the file with its similarity to six decimals, and the printed similarities never increase downwards. Rows without a word (0, nothing, 0.000000) only come last.",
  "every file, word, rank >= 1 and failure of the system calls (float64)", "all files and ranks", "pkg/search/search.go:Describe", "cmd/query/query.go:execute")
p("Options that have no effect",
  "GloVe's Train does exactly the same whatever MaxCount, MinCount, BatchSize and SubsampleThreshold are - words outside the count limits are trained; word2vec ignores MaxDepth with negative sampling and NegativeSampleSize with hierarchical softmax; BatchSize is ignored by in-memory training. No combination is rejected.",
  "every document, other options, schedule, outcome of racing memory operations, arithmetic", "all documents, options and schedules", "pkg/model/glove/glove.go:Train", "pkg/model/glove/options.go:Options", "pkg/model/word2vec/word2vec.go:Train", "pkg/model/lexvec/lexvec.go:Train")
p("The order of the items only decides ties",
  "Searching the same items in another order (another order of the lines of the vector file) returns equally many entries, with the same similarities at the same ranks; if no two words tie, exactly the same result.",
  "every list of items and permutation of it, query, k >= 1, ignored words", "all items, orders and queries", "pkg/search/search.go:Search", "pkg/search/search.go:SearchInternal")
p("Ties are ranked in the order of the items",
  "Of equally similar words, those earlier in the searcher are ranked first and are the ones kept when only k fit.",
  "every list of items, query, k >= 1, ignored words", "all items and queries", "pkg/search/search.go:Search")
p("Similarities in float64 are cosines",
  "In float64, too, reported similarities are at most 1, the similarity of a to b is that of b to a, and multiplying a vector by a positive factor does not change which words are found.",
  "every pair of float64 vectors", "all vectors, where rounding and overflow matter", "pkg/search/searchutil/searchutil.go:Cosine", "pkg/embedding/embutil/embutil.go:Norm", "pkg/search/search.go:Search")
p("A document with nothing to train on",
  "If no word of the document is inside the count limits (or there is none), word2vec and LexVec Train returns nil and the model has exactly its initial vectors; for a document without words the command leaves an empty file, on which every query and the console report an error. GloVe in memory does the same, but file-backed GloVe panics in every execution on a document without words.",
  "every such document, every schedule, outcome of racing memory operations and valid options", "all schedules and documents", "pkg/model/word2vec/word2vec.go:Train", "pkg/model/lexvec/lexvec.go:Train", "pkg/model/glove/glove.go:Train", "pkg/corpus/cpsutil/cpsutil.go:ReadWordWithForwardContext", "pkg/model/glove/solver.go:trainOne", "cmd/query/query.go:execute")
p("Saved vectors keep their similarities",
  "Saving trained vectors and loading the file leaves the similarities - and so the neighbours a search lists - those of the trained vectors, up to the rounding of the six decimals.",
  "every dictionary, matrix of trained float64 vectors and word", "all trained vectors, also small ones", "pkg/model/modelutil/vector/vector.go:Save", "pkg/embedding/embedding.go:Load", "pkg/search/search.go:Search", "pkg/search/searchutil/searchutil.go:Cosine")
p("How the reader delivers the bytes does not matter",
  "The words ReadWord (and so Train) hands on and the vectors Load returns depend only on the bytes of the input and on how it ends, not on the sizes of the reads that deliver them: not on reads that cut a rune, a space or a line in two, nor on empty reads, nor on how the scanner's buffer grows, nor on whether the end comes together with the last bytes. The one exception is an input whose last 65536 bytes hold no white space (no newline for Load): a last word of exactly 65536 bytes is delivered by a reader that reports the end with it, and is ErrTooLong with any other.",
  "every byte string (for ReadWord and Load: every UTF-8 text), every sequence of read sizes without 101 empty reads in a row, every read error, readers that report the end in a read of its own or together with the last bytes", "all splits of all inputs into reads", "pkg/corpus/cpsutil/cpsutil.go:ReadWord", "pkg/corpus/cpsutil/cpsutil.go:scanner", "pkg/embedding/embedding.go:parse")
p("What can be typed at the console",
  "A line that is one word of the form of a Go identifier, not reserved, prints what SearchInternal finds for it; `x + y` and `x - y` print the neighbours of the sum and difference, with or without blanks. Three or more operands (king - man + woman), two words side by side (new york), doubled signs (c++), reserved words of Go, decimal numbers and signed words give an error, also when the vocabulary has the word, and a hyphenated word is read as a difference.",
  "every loaded vocabulary, every such line with any blanks, every classification of non-ASCII letters and digits", "all lines and vocabularies", "pkg/search/console/console.go:eval", "pkg/search/console/console.go:evalExpr", "pkg/search/console/op.go")
p("Asking for more neighbours only extends the list",
  "The entries a search with k lists are, with words, ranks and similarities, the first k of those it lists with any larger k; the same holds for the query command run with a higher rank on the same file.",
  "every list of items, query, ignored words and 1 <= k <= k'; every file, word and failure of the system calls", "all items, ties and pairs of k", "pkg/search/search.go:Search", "pkg/search/search.go:SearchInternal", "cmd/query/query.go:execute")
p("LexVec trains context vectors only by negative samples",
  "LexVec trains a word with its neighbours on their word vectors, and moves context vectors only through negative samples: with NegativeSampleSize(0) every context vector is after Train the one drawn at the start, and WordVector of type single is that of type agg plus this random vector.",
  "every readable document, either corpus, all options, schedules and memory models", "all documents and schedules", "pkg/model/lexvec/lexvec.go:trainOne", "pkg/model/lexvec/lexvec.go:update", "pkg/model/lexvec/lexvec.go:WordVector")
p("Which training runs have data races",
  "In an iteration of GloVe training a data race can happen exactly when Goroutines is at least 2 and the items of two goroutines share a word. In word2vec and LexVec two goroutines race on the random generator as soon as both have a word to train; with one goroutine the only race is on the learning rate, between the worker and observers, and it does happen whenever an update is due; observers never touch anything else.",
  "every readable document, slices, memory, schedule, solver and optimizer; races with whatever values racing loads return", "all schedules and documents", "pkg/model/glove/glove.go:trainPerThread", "pkg/model/glove/solver.go:trainOne", "pkg/model/word2vec/word2vec.go:trainPerThread", "pkg/model/word2vec/word2vec.go:observe", "pkg/model/lexvec/lexvec.go:trainPerThread", "pkg/model/lexvec/lexvec.go:observe", "pkg/model/modelutil/modelutil.go:NextRandom")
p("A vector file cut off at any point",
  "If a crash, a full disk or an interrupted copy leaves only the beginning of a saved vector file, Load either fails or returns the first words with exactly the vectors of the complete file, plus at most one word whose vector may be shorter and may differ in its last value only; that value keeps its sign and does not grow. Load fails when the cut is inside a word or inside a character, before the first value, or leaves no number; making a searcher fails when the cut word has fewer values than the words before it. In all other cases nothing is reported, even if a value was cut from -12.5 to -1.",
  "every trained vocabulary of words without white space, every matrix of at least one column, every cut between or inside characters, lines below 64 KiB", "all files and all cut points", "pkg/model/modelutil/vector/vector.go:Save", "pkg/embedding/embedding.go:Load", "pkg/embedding/embedding.go:parseLine", "pkg/search/search.go:New")
p("Only the sequence of words of the document matters",
  "Train on a document can end in exactly the ways Train on any other layout of the same words can - the same models, errors and panics: blanks, tabs, blank lines and line ends are all the same, so context windows reach across line ends, and a corpus with one sentence per line is trained like one long line.",
  "every pair of documents with the same words, either corpus, all options, schedules and memory models, word2vec, GloVe and LexVec; readers that fail after the words included", "all layouts of all documents and all schedules", "pkg/corpus/cpsutil/cpsutil.go:ReadWord", "pkg/corpus/cpsutil/cpsutil.go:ReadWordWithForwardContext", "pkg/model/word2vec/word2vec.go:Train", "pkg/model/glove/glove.go:Train", "pkg/model/lexvec/lexvec.go:Train")
p("ToLower is the same as lower-casing the document first",
  "Train with ToLower on a document can end in exactly the ways Train without it on the lower-cased document can.",
  "every document and lower-casing, all options, schedules and memory models, word2vec, GloVe and LexVec", "all documents and all schedules", "pkg/corpus/memory/memory.go:Load", "pkg/corpus/fs/fs.go:Load", "pkg/corpus/fs/fs.go:BatchWords")
p("Joining, sorting and re-spacing vector files",
  "A vector file that ends with a line end, followed by another, loads exactly when both load, and gives the words of the first followed by those of the second; a searcher can be made of it exactly when the dimensions agree; for a word in both files the first vector is used and neither is listed. Reordering the lines reorders what is loaded and nothing else. Blanks and tabs between the fields, carriage returns and a missing last line end change nothing.",
  "every pair of texts, all line orders and spacings, lines below 64 KiB", "all files", "pkg/embedding/embedding.go:Load", "pkg/embedding/embedding.go:parse", "pkg/search/search.go:New", "pkg/search/search.go:SearchInternal")
p("A file that changes while training reads it",
  "With a file-backed corpus every iteration reads the file again. If its content has changed since Load, the new words are trained in their order; a word that Load did not see is trained as the first word that Load saw, and with that word's frequency for the count limits. No later content makes word2vec or LexVec training panic, provided Load found a word and the readings succeed.",
  "every first content, every content at every later reading, count limits and batch sizes; every interleaving of goroutines and memory model", "all contents and all schedules", "pkg/corpus/fs/fs.go:BatchWords", "pkg/corpus/dictionary/dictionary.go:ID", "pkg/model/word2vec/word2vec.go:batchTrain", "pkg/model/lexvec/lexvec.go:batchTrain")
p("An input that can be read only once",
  "Every reading starts with a Seek whose error is ignored, so when the input cannot seek (a pipe) readings after the first find nothing. With a file-backed corpus word2vec and LexVec training then report success and hand out the random vectors they started with, and GloVe trains nothing but the first word of the document; only with DocInMemory, which reads once, is the document trained.",
  "every document, all options, schedules, memory models and numbers of iterations; any arithmetic, float64 included", "all documents and all schedules", "pkg/corpus/cpsutil/cpsutil.go:ReadWord", "pkg/corpus/cpsutil/cpsutil.go:ReadWordWithForwardContext", "pkg/corpus/fs/fs.go:Load", "pkg/model/word2vec/word2vec.go:batchTrain", "pkg/model/lexvec/lexvec.go:batchTrain")
p("Removing words from the vectors",
  "A search that ignores words returns exactly what it returns when these words are not in the vectors; words that are not similar to the query (similarity 0 or negative) do not influence the list; and, when no two words are equally similar to the query, removing words (their items, or their lines in the vector file) only strikes them out of the list: the others keep their order and similarities and move up. (With ties the order of the others can change.)",
  "every list of items or vector file, every set of removed words, every query, every k", "all vectors, subsets and queries", "pkg/search/search.go:Search", "pkg/search/search.go:SearchInternal", "pkg/embedding/embedding.go:Load", "cmd/query/query.go:execute")
p("A search sees only the angles between vectors",
  "In exact arithmetic the neighbours of a word, their ranks and similarities depend only on the words, their order and the cosines between their vectors: stretching each vector by its own positive factor (for example normalising all of them), rotating or reflecting all of them, permuting their coordinates or adding zero coordinates changes nothing; and queries that have the same cosines with all vectors get the same answer. (In float64 this is false: the square of a stretched vector can overflow.)",
  "every set of words and vectors of any size, every query, every k, all positive factors, all maps that keep inner products", "all real vectors", "pkg/search/search.go:SearchInternal", "pkg/search/search.go:SearchVector", "pkg/search/searchutil/searchutil.go:Cosine", "pkg/embedding/embutil/embutil.go:Norm")
p("Training and searching do not look at the words, only at which of them are equal",
  "Replace every word of the document by another word, different words by different words. Then Train can end in exactly the same ways, with the same errors, panics, ids, counts, vectors and all other numbers; only the words of the dictionary are replaced. The saved file is the same with the words replaced; replacing the words in a vector file replaces them in what is loaded, and replacing the words of a set of vectors replaces the words in the lists of neighbours and changes nothing else: not the order (ties included), the ranks or similarities. So no result depends on the alphabet, spelling, length or alphabetical order of the words.",
  "every document and injective replacement (words up to 65533 bytes), either corpus, all options, schedules and memory models, word2vec, GloVe and LexVec; every list of vectors, query and k", "all documents, replacements and schedules", "pkg/corpus/dictionary/dictionary.go:Add", "pkg/model/modelutil/vector/vector.go:Save", "pkg/embedding/embedding.go:Load", "pkg/model/word2vec/word2vec.go:Train", "pkg/model/glove/glove.go:Train", "pkg/model/lexvec/lexvec.go:Train", "pkg/search/search.go:Search", "pkg/search/search.go:SearchInternal")
p("Searching by a word and searching by its vector",
  "Searching for a word gives exactly what searching for its vector gives among the vectors of the other words. In exact arithmetic, searching for a non-zero vector of a stored word finds, at the first place and with similarity 1, a word whose vector points in exactly this direction, the word itself if there is only one; no other similarity exceeds 1.",
  "every list of items or loaded file, every word, every k", "all vectors and words", "pkg/search/search.go:SearchInternal", "pkg/search/search.go:SearchVector", "pkg/embedding/embedding.go:parseLine", "pkg/search/searchutil/searchutil.go:Cosine")
p("Words with zero vectors",
  "A query whose norm is zero finds no word; a stored word whose norm is zero is never found, and the other words are found as if it was not there. In exact arithmetic this concerns exactly the zero vectors; in float64 also small vectors whose squares underflow: two words with the same vector (1e-200) do not find each other.",
  "every list of items, every query, every k; any arithmetic with ordered comparisons, float64 included", "all vectors", "pkg/search/search.go:Search", "pkg/search/searchutil/searchutil.go:Cosine", "pkg/embedding/embutil/embutil.go:Norm")
p("Searching by a vector of another length",
  "SearchVector does not check the length of the vector. If it is longer than the stored vectors and not all norms are zero, the search panics; if it is shorter, the search is, in exact arithmetic, that for the vector filled up with zeros.",
  "every list of items, every query vector, every k >= 0; the panic in any arithmetic with ordered comparisons, float64 included", "all vectors of all lengths", "pkg/search/search.go:SearchVector", "pkg/search/search.go:Search", "pkg/search/searchutil/searchutil.go:Cosine")
p("The order of the words in a sum",
  "At the console x + y and y + x print the same table when both words are known, and the order (and repetition) of the ignored words never matters to a search. The tables of x - y and y - x have, in exact arithmetic, no word in common; x + x prints, in exact arithmetic, the same table as x; x - x prints a table without words, in float64 too. (With one unknown word the order matters: y + x is an error, x + y prints a blank table.)",
  "every vocabulary, pair of words, spacing and k >= 1; sums in float64 too", "all vectors and words", "pkg/search/console/console.go:eval", "pkg/search/console/console.go:evalExpr", "pkg/search/search.go:Search")
