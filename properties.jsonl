{"id": "C01", "title": "Dictionary ids are dense, ordered by first occurrence, and invertible", "statement": "After any sequence of Add calls, Len() is the number of distinct words added; ID(w) succeeds exactly for the words added and equals the number of distinct words that occurred before the first occurrence of w; Word(id) inverts ID for every id below Len() and reports not-found for every id at or above it.", "quantifier": "every finite sequence of words (any split into Add calls)", "why_tests_cant": "the law ranges over all word sequences, including all repetition patterns", "anchors": ["pkg/corpus/dictionary/dictionary.go:Add", "pkg/corpus/dictionary/dictionary.go:ID", "pkg/corpus/dictionary/dictionary.go:Word", "pkg/corpus/dictionary/dictionary.go:Len"]}
{"id": "C02", "title": "Dictionary frequencies are exact", "statement": "WordFreq(w) equals the number of times w was added (0 if never), IDFreq(ID(w)) equals WordFreq(w), IDFreq of an id at or above Len() is 0, every id below Len() has frequency at least 1, and the frequencies of all ids sum to the number of words added.", "quantifier": "every finite sequence of words, every word, every non-negative id", "why_tests_cant": "counting must be exact for every repetition pattern", "anchors": ["pkg/corpus/dictionary/dictionary.go:WordFreq", "pkg/corpus/dictionary/dictionary.go:IDFreq", "pkg/corpus/dictionary/dictionary.go:Add"]}
{"id": "C03", "title": "Bigram encoding is an order-insensitive bijection on 32-bit ids", "statement": "For ids below 2^32, DecodeBigram(EncodeBigram(a,b)) is (min(a,b), max(a,b)); EncodeBigram(a,b) = EncodeBigram(c,d) exactly when {a,b}={c,d} as unordered pairs. (Outside 32 bits collisions exist.)", "quantifier": "all pairs of uint64 ids below 2^32; collision witness above", "why_tests_cant": "2^64 pairs cannot be enumerated", "anchors": ["pkg/corpus/cooccurrence/encode/encode.go:EncodeBigram", "pkg/corpus/cooccurrence/encode/encode.go:DecodeBigram"]}
{"id": "C04", "title": "Increment co-occurrence counts are exact", "statement": "After any sequence of Add calls on an 'inc' co-occurrence, none of them fails, the entry of the unordered pair {a,b} is the number of Add(a,b)/Add(b,a) calls made, and pairs never added have no entry; in float64 arithmetic this is exact for every pair added at most 2^53 times.", "quantifier": "every sequence of Add calls with ids below 2^32", "why_tests_cant": "all call histories; float64 exactness at any count up to 2^53", "anchors": ["pkg/corpus/cooccurrence/cooccurrence.go:Add", "pkg/corpus/cooccurrence/cooccurrence.go:EncodedMatrix", "pkg/corpus/cooccurrence/cooccurrence.go:New"]}
{"id": "C05", "title": "Proximity co-occurrence: weight by id distance, equal ids rejected", "statement": "On a 'prox' co-occurrence Add(a,b) fails exactly when a = b and then changes nothing; otherwise it adds 1/|a-b| to the entry of {a,b} and to no other entry; after any sequence of Adds the entry is (#successful adds of the pair)/|a-b|. New accepts exactly the two count types.", "quantifier": "every sequence of Add calls, every count-type string", "why_tests_cant": "all call histories", "anchors": ["pkg/corpus/cooccurrence/cooccurrence.go:Add", "pkg/corpus/cooccurrence/cooccurrence.go:New"]}
{"id": "C06", "title": "ReadWord delivers exactly the whitespace-separated words, in order", "statement": "ReadWord calls the callback on exactly the maximal runs of non-space characters of the document, in order; it stops at the first callback error and returns that error; adding or changing white space between words changes nothing.", "quantifier": "every document text and every callback", "why_tests_cant": "all texts and white-space layouts", "anchors": ["pkg/corpus/cpsutil/cpsutil.go:ReadWord", "pkg/corpus/cpsutil/cpsutil.go:scanner"]}
{"id": "C07", "title": "Over-long tokens are reported, never silently split", "statement": "If every word of the text is shorter than 64 KiB (shorter by one character of white space when the text contains non-ASCII white space, which takes two or three bytes), ReadWord with a non-failing callback succeeds; if some word has 64 KiB or more it returns an error after delivering exactly the words that precede the first such word.", "quantifier": "every document text", "why_tests_cant": "sizes unbounded; boundary at 65536 bytes", "anchors": ["pkg/corpus/cpsutil/cpsutil.go:ReadWord", "bufio.Scanner (trusted semantics)"]}
{"id": "C08", "title": "Forward-context reading enumerates every in-window pair", "statement": "ReadWordWithForwardContext(r, n, fn) calls fn(w_i, w_j) exactly for i < j <= i+n, ordered by i then j.", "quantifier": "every document and every window n >= 1", "why_tests_cant": "fails only for windows >= 3 or documents not longer than the window: the existing test uses n = 2", "anchors": ["pkg/corpus/cpsutil/cpsutil.go:ReadWordWithForwardContext"]}
{"id": "C09", "title": "Exact behaviour of forward-context reading, including the missing tail and phantom words", "statement": "For a document longer than the window the calls are exactly those for i <= N-n (so the last n-2 axis words are skipped, for n>=3); for a shorter non-empty document the callback also receives the empty string; for an empty one it receives (\"\",\"\") n times; n = 0 on a non-empty document panics; a callback error stops the enumeration.", "quantifier": "every document and every n", "why_tests_cant": "all lengths and windows", "anchors": ["pkg/corpus/cpsutil/cpsutil.go:ReadWordWithForwardContext"]}
{"id": "C10", "title": "Count filters keep exactly the words inside the frequency limits", "statement": "A word id is dropped exactly when (max > 0 and freq > max) or (min >= 0 and freq < min); with max <= 0 and min <= 1 every dictionary word is kept.", "quantifier": "all dictionaries, ids, and integer limits (negative included)", "why_tests_cant": "unbounded limits and frequencies", "anchors": ["pkg/corpus/cpsutil/cpsutil.go:Filters.Any", "pkg/corpus/cpsutil/cpsutil.go:MaxCount", "pkg/corpus/cpsutil/cpsutil.go:MinCount", "pkg/corpus/filter/options.go:MaxCount"]}
{"id": "C11", "title": "In-memory corpus: indexed document is the filtered id sequence", "statement": "After Load, Len() is the number of words of the text, Dictionary() describes exactly the (optionally lower-cased) words, and IndexedDoc() is the sequence of ids of the kept words in text order.", "quantifier": "every text, lower-casing option and limits", "why_tests_cant": "all documents", "anchors": ["pkg/corpus/memory/memory.go:Load", "pkg/corpus/memory/memory.go:IndexedDoc"]}
{"id": "C12", "title": "File corpus: batches partition the filtered id sequence", "statement": "BatchWords sends batches whose concatenation is the sequence of ids of the kept words in text order; every batch but the last has exactly batchSize ids, the last has fewer (it is sent even when empty), and the channel is closed exactly once, after the last send.", "quantifier": "every text, every limits, every batchSize >= 1", "why_tests_cant": "all lengths modulo all batch sizes", "anchors": ["pkg/corpus/fs/fs.go:BatchWords"]}
{"id": "C13", "title": "File and in-memory corpora agree on dictionary, length and training sequence", "statement": "For the same document and options, both corpora yield the same dictionary, the same Len(), and the concatenation of the file corpus's batches equals the in-memory IndexedDoc().", "quantifier": "every document, option and batch size", "why_tests_cant": "relational property over two implementations", "anchors": ["pkg/corpus/fs/fs.go:Load", "pkg/corpus/fs/fs.go:BatchWords", "pkg/corpus/memory/memory.go:Load", "pkg/corpus/memory/memory.go:IndexedDoc"]}
{"id": "C14", "title": "In-memory co-occurrence counts every in-window pair once", "statement": "After Load with an 'inc' co-occurrence and window w the entry for {a,b} is the number of position pairs i < j <= i+w whose words have ids {a,b}.", "quantifier": "every document and window", "why_tests_cant": "all documents and windows", "anchors": ["pkg/corpus/memory/memory.go:Load", "pkg/corpus/cooccurrence/cooccurrence.go:Add"]}
{"id": "C15", "title": "File and in-memory corpora agree on co-occurrence", "statement": "For the same document, options and window both corpora build the same co-occurrence matrix.", "quantifier": "every document, window and lower-casing option", "why_tests_cant": "false for window >= 3, for short documents, and with lower-casing; no test exercises it", "anchors": ["pkg/corpus/fs/fs.go:Load", "pkg/corpus/memory/memory.go:Load", "pkg/corpus/cpsutil/cpsutil.go:ReadWordWithForwardContext"]}
{"id": "C16", "title": "Proximity counting rejects documents with a near repetition", "statement": "Load of an in-memory corpus with 'prox' counting fails exactly when some word re-occurs within the window. Load of a file corpus fails exactly when two words its reader reports together have the same id, where padding and words changed by lower-casing count as id 0: so it also fails for every file of at most as many words as the window, and when two neighbouring words both contain capitals and lower-casing is on.", "quantifier": "every document and window", "why_tests_cant": "all documents", "anchors": ["pkg/corpus/memory/memory.go:Load", "pkg/corpus/fs/fs.go:Load", "pkg/corpus/cooccurrence/cooccurrence.go:Add", "pkg/corpus/cpsutil/cpsutil.go:ReadWordWithForwardContext"]}
{"id": "C17", "title": "Huffman tree: every word gets a code; codes are prefix-free and complete", "statement": "For every dictionary with at least two words, following parents from each word reaches one common root, no word's code is a prefix of another's, the codes' Kraft sum is exactly 1, and there are exactly Len()-1 inner nodes, each carrying a vector of the requested dimension.", "quantifier": "every dictionary", "why_tests_cant": "all frequency vectors; structural induction over the merge loop", "anchors": ["pkg/corpus/dictionary/huffman.go:HuffnamTree", "pkg/corpus/dictionary/node/node.go:GetPath"]}
{"id": "C18", "title": "Huffman tree is optimal", "statement": "The total code length, weighted by word frequency, is minimal among all uniquely decodable binary codes (all length assignments satisfying Kraft's inequality).", "quantifier": "every dictionary with at least two words, every competing code", "why_tests_cant": "optimality over all codes", "anchors": ["pkg/corpus/dictionary/huffman.go:HuffnamTree"]}
{"id": "C19", "title": "GetPath returns the root-to-word path cut at the given depth", "statement": "GetPath(depth) returns the first min(depth, full length) nodes of the path from the root to the word, ending at the word when depth is large enough; calling it again with any depth gives the corresponding prefix of the same path.", "quantifier": "every dictionary, word, and sequence of depths >= 0", "why_tests_cant": "all trees and call histories (cache)", "anchors": ["pkg/corpus/dictionary/node/node.go:GetPath", "pkg/corpus/dictionary/huffman.go:HuffnamTree"]}
{"id": "C20", "title": "max-depth=0 tracks the full path", "statement": "As the --max-depth help text says, hierarchical softmax with max-depth 0 uses the full root-to-word path.", "quantifier": "every dictionary", "why_tests_cant": "documentation claim; false for the code at every dictionary", "anchors": ["pkg/corpus/dictionary/node/node.go:GetPath", "pkg/model/word2vec/optimizer.go:hierarchicalSoftmax.optim", "pkg/model/word2vec/options.go:LoadForCmd"]}
{"id": "C21", "title": "Hierarchical softmax defines a probability distribution", "statement": "For every assignment of inner products to inner nodes, the product of the branch probabilities (sigmoid for code 0, one minus sigmoid for code 1) along the word paths sums to 1 over all words.", "quantifier": "every dictionary with at least one word, every real-valued score per inner node", "why_tests_cant": "all trees and scores", "anchors": ["pkg/corpus/dictionary/huffman.go:HuffnamTree", "pkg/model/word2vec/optimizer.go:hierarchicalSoftmax.optim"]}
{"id": "C22", "title": "GetPath is safe under concurrent first use", "statement": "When several training goroutines ask for the path of the same word, each of them gets the full path, under every interleaving.", "quantifier": "every interleaving of two or more callers", "why_tests_cant": "data race on the cache; only some schedules fail", "anchors": ["pkg/corpus/dictionary/node/node.go:GetPath"]}
{"id": "C23", "title": "NextRandom is in range and reaches every value", "statement": "NextRandom(v) is in [0,v) for v>0; the generator has period exactly 2^64, so from any state every residue below v is eventually returned (every word can be drawn as a negative sample). The results in a fresh process depend on the arguments alone; NextRandom(0) panics, NextRandom(v) for v<0 does not.", "quantifier": "every generator state, every sequence of calls, every v in -2^63..2^63-1", "why_tests_cant": "2^64 states", "anchors": ["pkg/model/modelutil/modelutil.go:NextRandom"]}
{"id": "C24", "title": "NextRandom low-order bits are not random", "statement": "For every even v, consecutive results of NextRandom(v) alternate in parity, from every state (so e.g. with Window(2) the shrink of the window strictly alternates between 0 and 1).", "quantifier": "every generator state, every even v", "why_tests_cant": "statement over all states", "anchors": ["pkg/model/modelutil/modelutil.go:NextRandom", "pkg/model/word2vec/model.go:skipGram.trainOne"]}
{"id": "C25", "title": "IndexPerThread is a balanced partition", "statement": "IndexPerThread(t, n) has t+1 non-decreasing entries, first 0 and last n; consecutive differences are floor(n/t) or floor(n/t)+1; so slicing a sequence of length n at these indices never panics and the slices concatenate to the sequence.", "quantifier": "every t >= 1 and n >= 0 with n+t <= 2^53", "why_tests_cant": "all sizes; floor sums; float64 truncation", "anchors": ["pkg/model/modelutil/modelutil.go:IndexPerThread", "pkg/model/word2vec/word2vec.go:train", "pkg/model/glove/glove.go:train"]}
{"id": "C26", "title": "Matrix rows are disjoint views", "statement": "New(row, col, fn) calls fn once per row in order; Slice(i) for i < row has length col and never panics; writing an element of row i changes no element of another row; shape is unchanged by writes.", "quantifier": "all shapes, rows, indices and write sequences", "why_tests_cant": "all index arithmetic", "anchors": ["pkg/model/modelutil/matrix/matrix.go:New", "pkg/model/modelutil/matrix/matrix.go:Slice"]}
{"id": "C27", "title": "Subsampling probabilities", "statement": "The probability that Trial accepts a word is max(0, 1-sqrt(threshold/freq)), lies in [0,1], does not decrease with the word's frequency (contrary to frequent-word subsampling), is 1 for threshold 0 and 0 when threshold >= freq.", "quantifier": "every dictionary and non-negative threshold", "why_tests_cant": "all frequencies and thresholds", "anchors": ["pkg/model/modelutil/subsample/subsample.go:New", "pkg/model/modelutil/subsample/subsample.go:Trial"]}
{"id": "C28", "title": "Context window positions", "statement": "Training position pos of a document visits exactly the positions c != pos with |c-pos| <= window-del inside the document, in increasing order, each once, where del in [0,window) is the random shrink; never out of range.", "quantifier": "every document, position, window >= 1 and random state", "why_tests_cant": "all boundaries", "anchors": ["pkg/model/word2vec/model.go:skipGram.trainOne", "pkg/model/word2vec/model.go:cbow.dowith", "pkg/model/lexvec/lexvec.go:trainOne"]}
{"id": "C29", "title": "Skip-gram training touches only context rows", "statement": "One skip-gram step changes only the word-vector rows of the words in the context window (and the optimizer's own parameters); shapes never change and no index is out of range.", "quantifier": "every parameter state, document of dictionary ids, position, random state", "why_tests_cant": "frame condition over all states", "anchors": ["pkg/model/word2vec/model.go:skipGram.trainOne", "pkg/model/word2vec/optimizer.go:negativeSampling.optim"]}
{"id": "C30", "title": "CBOW updates exactly the context it averaged", "statement": "In a CBOW step the set of context rows that receive the gradient is the set of rows that were aggregated.", "quantifier": "every document, position, random state", "why_tests_cant": "holds for window 1 only; the two passes draw the window independently", "anchors": ["pkg/model/word2vec/model.go:cbow.trainOne", "pkg/model/word2vec/model.go:cbow.dowith"]}
{"id": "C31", "title": "Negative sampling update", "statement": "optim with negative sampling touches only the rows of the target word and of the sampled words, moves the target row along +ctx and the sampled rows along -ctx with coefficient at most the learning rate in absolute value, skips samples equal to the target, and never changes ctx.", "quantifier": "every parameter state, id, learning rate >= 0, random state (real arithmetic)", "why_tests_cant": "all states", "anchors": ["pkg/model/word2vec/optimizer.go:negativeSampling.optim"]}
{"id": "C32", "title": "Sigmoid table accuracy", "statement": "In real arithmetic, for every x with |x| < 6 the table lookup is in range and returns a value in (0,1) within 0.003 of the logistic function, never above it.", "quantifier": "every real x in (-6,6)", "why_tests_cant": "continuum of inputs", "anchors": ["pkg/model/word2vec/sigmoid_table.go:newSigmoidTable", "pkg/model/word2vec/sigmoid_table.go:sigmoid"]}
{"id": "C33", "title": "Sigmoid lookup never panics in float64", "statement": "For every float64 x with -6 < x < 6 the guard in optim lets through, sigmoid(x) does not index out of range.", "quantifier": "every float64 strictly between -6 and 6, and NaN", "why_tests_cant": "fails for exactly one of ~2^63 doubles (the one just below 6) and for NaN", "anchors": ["pkg/model/word2vec/sigmoid_table.go:sigmoid", "pkg/model/word2vec/optimizer.go:negativeSampling.optim", "pkg/model/word2vec/optimizer.go:hierarchicalSoftmax.optim"]}
{"id": "C34", "title": "Learning rate never falls below min-lr", "statement": "Once training starts, the learning rate used by word2vec and lexvec is never below MinLR ('lower limit of learning rate').", "quantifier": "every schedule of updates", "why_tests_cant": "depends on counter values; false between two updates", "anchors": ["pkg/model/word2vec/word2vec.go:observe", "pkg/model/lexvec/lexvec.go:observe"]}
{"id": "C35", "title": "Learning rate range", "statement": "With 0 <= MinLR <= Initlr the learning rate always stays in [0, Initlr], equals Initlr*(1-cnt/Len) or MinLR after each update, and is changed only at multiples of UpdateLRBatch.", "quantifier": "every number of observed words up to Len, over any number of iterations", "why_tests_cant": "all counts and iterations", "anchors": ["pkg/model/word2vec/word2vec.go:observe", "pkg/model/lexvec/lexvec.go:observe"]}
{"id": "C36", "title": "Invalid model, optimizer, solver, relation and count types are rejected with an error", "statement": "Train returns an error (does not panic, does not train) for every unknown model/optimizer type (word2vec), solver or count type (glove); lexvec rejects an unknown relation type whenever the co-occurrence matrix is not empty.", "quantifier": "every option string and document", "why_tests_cant": "all strings", "anchors": ["pkg/model/word2vec/word2vec.go:Train", "pkg/model/glove/glove.go:Train", "pkg/model/lexvec/item.go:calculateRelation", "pkg/corpus/cooccurrence/cooccurrence.go:New"]}
{"id": "C37", "title": "Parallel training terminates and counts every word exactly once", "statement": "For Goroutines >= 1, under every interleaving of producer, main loop, workers and observer, an iteration of Train never deadlocks, never sends on a closed channel, always terminates, trains every word of every batch exactly once, and the observer counts exactly the number of words; at most Goroutines workers train at the same time.", "quantifier": "every schedule, every list of batches, every goroutine count >= 1", "why_tests_cant": "schedules cannot be enumerated by tests", "anchors": ["pkg/model/word2vec/word2vec.go:batchTrain", "pkg/model/word2vec/word2vec.go:train", "pkg/model/word2vec/word2vec.go:trainPerThread", "pkg/model/lexvec/lexvec.go:batchTrain", "pkg/model/glove/glove.go:train"]}
{"id": "C38", "title": "Goroutines = 0", "statement": "With Goroutines(0) file-backed training never terminates (no schedule completes an iteration) while in-memory training finishes without training any word.", "quantifier": "every schedule", "why_tests_cant": "absence of a completing schedule", "anchors": ["pkg/model/word2vec/word2vec.go:batchTrain", "pkg/model/word2vec/word2vec.go:trainPerThread", "pkg/model/modelutil/modelutil.go:IndexPerThread"]}
{"id": "C39", "title": "A read error during batch training is reported", "statement": "If reading the corpus fails during a training pass, Train returns an error.", "quantifier": "every failing reader", "why_tests_cant": "the channel is never closed, the consumer blocks: a liveness failure", "anchors": ["pkg/corpus/fs/fs.go:BatchWords", "pkg/model/word2vec/word2vec.go:batchTrain"]}
{"id": "C40", "title": "GloVe items", "statement": "makeItems yields exactly one item per co-occurring unordered pair, with l1 <= l2 both valid ids, f = log(count), weight min(1,(count/Xmax)^Alpha) in (0,1], equal to 1 exactly when count >= Xmax (for Alpha > 0).", "quantifier": "every co-occurrence matrix and options Xmax > 0, Alpha > 0 (real arithmetic)", "why_tests_cant": "all matrices, map orders", "anchors": ["pkg/model/glove/item.go:makeItems"]}
{"id": "C41", "title": "GloVe SGD step", "statement": "A stochastic step reads both rows before writing: it subtracts d*v2(old) from v1 and d*v1(old) from v2 with d = lr*coef*(v1.v2+b1+b2-f), subtracts d from both biases, and touches no other row; the two rows of an item are never the same row. A step with d = 0 changes nothing, and for a small enough learning rate the squared residual does not increase.", "quantifier": "every parameter state and item (real arithmetic)", "why_tests_cant": "continuum of states", "anchors": ["pkg/model/glove/solver.go:stochastic.trainOne", "pkg/model/glove/glove.go:trainPerThread"]}
{"id": "C42", "title": "AdaGrad accumulators", "statement": "The AdaGrad accumulators start at 1, never decrease, hence no division by zero ever occurs, and every coordinate moves by at most the plain SGD amount.", "quantifier": "every sequence of steps (real arithmetic)", "why_tests_cant": "all histories", "anchors": ["pkg/model/glove/solver.go:newAdaGrad", "pkg/model/glove/solver.go:adaGrad.trainOne"]}
{"id": "C43", "title": "WordVector shape", "statement": "For every model and every vector type string, WordVector returns a matrix with one row per dictionary word, Dim columns and Save on it never fails for a length mismatch.", "quantifier": "every trained model state and type string", "why_tests_cant": "all shapes", "anchors": ["pkg/model/word2vec/word2vec.go:WordVector", "pkg/model/glove/glove.go:WordVector", "pkg/model/lexvec/lexvec.go:WordVector", "pkg/model/modelutil/vector/vector.go:Save"]}
{"id": "C44", "title": "Vector type 'agg' returns word plus context vectors, 'single' the word vector", "statement": "WordVector(agg) is the element-wise sum of word and context vectors and WordVector(single) the word vector, for all models.", "quantifier": "every trained model", "why_tests_cant": "holds for word2vec with negative sampling; glove and lexvec do the opposite", "anchors": ["pkg/model/word2vec/word2vec.go:WordVector", "pkg/model/glove/glove.go:WordVector", "pkg/model/lexvec/lexvec.go:WordVector"]}
{"id": "C45", "title": "GloVe training is index-safe on non-empty corpora", "statement": "For every non-empty document, window >= 1 and Dim >= 0, all rows addressed by a GloVe training pass exist; on an empty document the file-backed corpus makes it panic.", "quantifier": "every document and item order", "why_tests_cant": "all documents", "anchors": ["pkg/model/glove/glove.go:trainPerThread", "pkg/model/glove/item.go:makeItems", "pkg/corpus/fs/fs.go:Load"]}
{"id": "C46", "title": "LexVec relation values", "statement": "PPMI is max(0, PMI); PMI is log(co * total^s / (f1 * f2^s)); 'co' is the count and 'logco' its logarithm; an unseen pair is trained towards 0.", "quantifier": "every pair, counts and smoothing (real arithmetic)", "why_tests_cant": "continuum", "anchors": ["pkg/model/lexvec/item.go:calculateRelation", "pkg/model/lexvec/item.go:makeItems"]}
{"id": "C47", "title": "LexVec update", "statement": "update(l1,l2,f) subtracts d*v2(old) from v1 and d*v1(old) from v2 with d = lr*(v1.v2-f) when l1 != l2, subtracts 2*d*v(old) when l1 = l2, touches no other row, and every row index produced by trainOne exists. For a small enough learning rate the error |v1.v2-f| does not grow.", "quantifier": "every parameter state, document, random state (real arithmetic)", "why_tests_cant": "aliasing of rows", "anchors": ["pkg/model/lexvec/lexvec.go:update", "pkg/model/lexvec/lexvec.go:trainOne"]}
{"id": "C48", "title": "Save output format", "statement": "Save writes exactly one line per dictionary word in id order: the word, a space, then Dim values with six decimals each followed by a space; it fails exactly when the matrix has a different number of rows.", "quantifier": "every dictionary and matrix", "why_tests_cant": "all sizes and values", "anchors": ["pkg/model/modelutil/vector/vector.go:Save"]}
{"id": "C49", "title": "Save then Load round-trips words and dimensions, values to 6 decimals", "statement": "Loading a saved file yields the same words in the same order, the same dimension, and values equal to the float64 nearest to the 6-decimal rounding (absolute error at most 5e-7 plus half an ulp), provided Dim >= 1 and no line reaches 64 KiB; otherwise Load fails.", "quantifier": "every dictionary of space-free words and every matrix of float64 values (NaN and infinities included)", "why_tests_cant": "all float64 values, all texts", "anchors": ["pkg/model/modelutil/vector/vector.go:Save", "pkg/embedding/embedding.go:Load", "pkg/embedding/embedding.go:parseLine"]}
{"id": "C50", "title": "Save-Load-Save is idempotent", "statement": "Saving the embeddings loaded from a saved file reproduces the file byte for byte.", "quantifier": "every float64 matrix", "why_tests_cant": "decimal/binary double rounding for all 2^64 doubles", "anchors": ["pkg/model/modelutil/vector/vector.go:Save", "pkg/embedding/embedding.go:Load"]}
{"id": "C51", "title": "Save reports write failures", "statement": "If the writer fails to take all bytes, Save returns an error.", "quantifier": "every failing writer", "why_tests_cant": "error paths: bufio's error and Flush's error are dropped", "anchors": ["pkg/model/modelutil/vector/vector.go:Save"]}
{"id": "C52", "title": "Load validates everything or fails", "statement": "If Load succeeds, the result has one embedding per line not starting with a space, in order, each with a non-empty word, Dim = len(Vector) >= 1 and Norm the Euclidean norm; it fails if some such line has fewer than two fields or a non-number (in particular on every blank line).", "quantifier": "every input text", "why_tests_cant": "all texts", "anchors": ["pkg/embedding/embedding.go:Load", "pkg/embedding/embedding.go:parse", "pkg/embedding/embedding.go:parseLine"]}
{"id": "C53", "title": "search.New accepts exactly dimension-consistent embeddings", "statement": "New succeeds exactly when all embeddings have the same Dim; it keeps all items in order; searching embeddings obtained from Load never panics for k >= 1.", "quantifier": "every list of embeddings", "why_tests_cant": "all lists", "anchors": ["pkg/search/search.go:New", "pkg/embedding/embedding.go:Validate"]}
{"id": "C54", "title": "Search returns the k most similar items", "statement": "For k >= 1 the non-blank results are items that are not ignored and have similarity > 0, each item at most once, in descending similarity; whenever a qualifying item is missing, the result is full (k entries) and no result is less similar than that item.", "quantifier": "every item list, query, ignore set and k >= 1, for every NaN-aware comparison", "why_tests_cant": "all ties, orders, NaNs", "anchors": ["pkg/search/search.go:Search"]}
{"id": "C55", "title": "Search ranks", "statement": "The i-th returned neighbour (from 1) has Rank i, and the similarity reported is the cosine of that item with the query.", "quantifier": "every item list, query, k >= 1", "why_tests_cant": "all insertion orders", "anchors": ["pkg/search/search.go:Search"]}
{"id": "C56", "title": "Search never returns blank entries", "statement": "Every returned neighbour is a real item; if fewer than k items qualify, exactly those are returned.", "quantifier": "every item list and k", "why_tests_cant": "false when fewer than k-1 items qualify: the guard keeps the last blank index, not the first", "anchors": ["pkg/search/search.go:Search"]}
{"id": "C57", "title": "Exact size of search results", "statement": "If at least k items qualify, k neighbours are returned; otherwise exactly k-1 entries are returned, the qualifying ones first and blank entries after; k = 0 panics exactly when some item qualifies; k < 0 panics.", "quantifier": "every item list, query, k", "why_tests_cant": "all sizes", "anchors": ["pkg/search/search.go:Search"]}
{"id": "C58", "title": "SearchInternal excludes the query word and fails exactly when it is absent", "statement": "SearchInternal(w,k) fails exactly when w is empty or no item has the word w; otherwise it never returns w, and the query vector is the first item named w.", "quantifier": "every item list, word, k >= 1", "why_tests_cant": "all lists with duplicates", "anchors": ["pkg/search/search.go:SearchInternal"]}
{"id": "C59", "title": "Cosine similarity laws", "statement": "With norms computed by Norm: Cosine is symmetric, in [-1,1], 0 when a norm is 0, 1 for a vector with itself (non-zero), invariant under positive scaling, and negated by negation (real arithmetic).", "quantifier": "all real vectors of equal length", "why_tests_cant": "continuum", "anchors": ["pkg/search/searchutil/searchutil.go:Cosine", "pkg/embedding/embutil/embutil.go:Norm"]}
{"id": "C60", "title": "Console evaluates word arithmetic", "statement": "A line 'x + y' or 'x - y' with two known words searches with the element-wise sum or difference of the first embeddings of these names and excludes both words from the result; a single known word behaves like SearchInternal.", "quantifier": "every searcher and words", "why_tests_cant": "all searchers", "anchors": ["pkg/search/console/console.go:eval", "pkg/search/console/console.go:evalBinaryExpr", "pkg/search/console/op.go:elementWise"]}
{"id": "C61", "title": "Console lines are independent", "statement": "The outcome of a console line depends only on the searcher and the line, not on the lines evaluated before it (including failed ones).", "quantifier": "every history of lines", "why_tests_cant": "all histories", "anchors": ["pkg/search/console/console.go:eval"]}
{"id": "C62", "title": "Console reports every invalid expression", "statement": "A line whose expression cannot be evaluated (unknown word, nested expression, unsupported operator) yields an error and no result table.", "quantifier": "every expression tree", "why_tests_cant": "false: errors of the right operand are swallowed; 'a < b + c' even answers b + c", "anchors": ["pkg/search/console/console.go:evalBinaryExpr", "pkg/search/console/console.go:evalAsEmbedding"]}
{"id": "C63", "title": "Console run loop ends exactly on exit", "statement": "Run returns exactly at the first 'exit' line; on end of input (Ctrl-D) without it, the loop never ends.", "quantifier": "every input stream", "why_tests_cant": "non-termination", "anchors": ["pkg/search/console/console.go:Run"]}
{"id": "C64", "title": "Training commands never overwrite an existing output and need an existing input", "statement": "word2vec/glove/lexvec commands leave an existing output file unchanged and fail; they create nothing when the input is missing.", "quantifier": "every file system state, option and training outcome", "why_tests_cant": "all failure points", "anchors": ["cmd/model/word2vec/word2vec.go:execute", "cmd/model/glove/glove.go:execute", "cmd/model/lexvec/lexvec.go:execute"]}
{"id": "C65", "title": "A failed training command leaves no output file", "statement": "If Train or opening the input fails, no output file is left behind, so the command can be retried.", "quantifier": "every failure point", "why_tests_cant": "false: the empty output file stays and blocks the retry", "anchors": ["cmd/model/word2vec/word2vec.go:execute"]}
{"id": "C66", "title": "Options: last setting wins, other fields untouched, CLI defaults equal SDK defaults", "statement": "New applies options left to right on the defaults; each option changes only its field; a command run without flags uses exactly DefaultOptions().", "quantifier": "every option list", "why_tests_cant": "all lists of options", "anchors": ["pkg/model/word2vec/options.go", "pkg/model/glove/options.go", "pkg/model/lexvec/options.go"]}
{"id": "C67", "title": "The saved vocabulary is the whole corpus vocabulary", "statement": "After Train and Save, the file lists exactly the distinct (lower-cased) words of the corpus in first-occurrence order, whatever MinCount/MaxCount, model, iteration count or schedule; file-backed and in-memory runs list the same words.", "quantifier": "every document, option, schedule", "why_tests_cant": "all documents and schedules", "anchors": ["pkg/model/word2vec/word2vec.go:Train", "pkg/model/word2vec/word2vec.go:Save", "pkg/model/modelutil/vector/vector.go:Save", "pkg/model/glove/glove.go:Save", "pkg/model/lexvec/lexvec.go:Save"]}
{"id": "C68", "title": "Filtered words keep their initial vectors in word2vec", "statement": "For every interleaving of training steps, and so after every Train, the word-vector row of a word outside the count limits is unchanged from its random initialisation.", "quantifier": "every schedule of training steps over every document", "why_tests_cant": "invariant over all histories", "anchors": ["pkg/model/word2vec/word2vec.go:trainPerThread", "pkg/model/word2vec/model.go:skipGram.trainOne", "pkg/model/word2vec/model.go:cbow.trainOne"]}
{"id": "C69", "title": "Hierarchical softmax update", "statement": "optim with hierarchical softmax makes one logistic-regression step (label 1-code of the next node) for each node of the depth-limited root-to-word path, in order, and stops early only at a node whose score is outside (-6,6); no leaf and no other node changes; it never panics and draws no random number.", "quantifier": "every corpus, Dim >= 0, MaxDepth >= 0, history of optim calls, learning rate and vectors (real arithmetic)", "why_tests_cant": "all trees and histories", "anchors": ["pkg/model/word2vec/optimizer.go:hierarchicalSoftmax.optim", "pkg/corpus/dictionary/huffman.go:HuffnamTree"]}
{"id": "C70", "title": "Training steps never panic", "statement": "A skip-gram or CBOW step with either optimizer over any document of dictionary ids returns normally and keeps all shapes; a CBOW step changes only word rows within the window.", "quantifier": "every document of dictionary ids, position, window >= 1, generator state, learning rate (real arithmetic)", "why_tests_cant": "all states and documents", "anchors": ["pkg/model/word2vec/model.go:skipGram.trainOne", "pkg/model/word2vec/model.go:cbow.trainOne"]}
{"id": "C71", "title": "Verbose output does not change Save", "statement": "With LogBatch not 0, Save writes and returns the same with and without verbose; verbose with LogBatch 0 panics on every non-empty dictionary.", "quantifier": "every writer, dictionary, matrix and LogBatch", "why_tests_cant": "all inputs", "anchors": ["pkg/model/modelutil/vector/vector.go:Save"]}
{"id": "C72", "title": "Valid options start training", "statement": "With valid options Train's set-up succeeds on every readable document, with either corpus: the dictionary is the vocabulary of the normalised words and the parameters have one row (two for GloVe and LexVec) of the right width per word.", "quantifier": "every readable document, valid option values, random generator, map enumeration order", "why_tests_cant": "all documents and options", "anchors": ["pkg/model/word2vec/word2vec.go:Train", "pkg/model/glove/glove.go:Train", "pkg/model/lexvec/lexvec.go:Train"]}
{"id": "C73", "title": "No interleaving of training goroutines panics", "statement": "With valid options (window >= 1, UpdateLRBatch not 0) no schedule of the loads and stores of the training goroutines of word2vec, LexVec or GloVe reaches an index, slice or division panic, whatever values racing loads return.", "quantifier": "every readable document, either corpus, every schedule, every memory model, every number of goroutines and iterations (word2vec: real arithmetic)", "why_tests_cant": "all schedules and racy values", "anchors": ["pkg/model/word2vec/word2vec.go:trainPerThread", "pkg/model/lexvec/lexvec.go:trainPerThread", "pkg/model/glove/glove.go:trainPerThread"]}
{"id": "C74", "title": "Every schedule of training ends", "statement": "There is no infinite schedule of the training goroutines, and a state in which no goroutine can move is one where all have returned (or one has panicked).", "quantifier": "every system of training goroutines, schedule and memory model", "why_tests_cant": "all schedules", "anchors": ["pkg/model/word2vec/word2vec.go:trainPerThread", "pkg/model/lexvec/lexvec.go:trainPerThread", "pkg/model/glove/glove.go:trainPerThread"]}
{"id": "C75", "title": "GloVe with one goroutine is deterministic", "statement": "With Goroutines(1), GloVe's parameters after training are exactly those of the sequential algorithm (for every iteration, both steps of every co-occurrence item in order, each step indivisible), whatever the schedule and the random source of rand.Float64 after initialisation.", "quantifier": "every readable document, valid options with Goroutines(1), either solver, every map enumeration order, number of iterations and schedule", "why_tests_cant": "all schedules", "anchors": ["pkg/model/glove/glove.go:train", "pkg/model/glove/solver.go:trainOne"]}
{"id": "C76", "title": "word2vec and LexVec with one goroutine are sequential up to the learning rate", "statement": "With Goroutines(1), in every complete execution the parameters end up being what the sequential algorithm computes (documents one after the other, training steps indivisible; file-backed the batches of an iteration in some order) for some results of rand.Float64 and some learning rates, each of them the initial rate, the minimal rate or the scheduled rate for some number of counted words.", "quantifier": "every readable document, valid options with Goroutines(1), either corpus, number of iterations and schedule of workers and observers", "why_tests_cant": "all schedules", "anchors": ["pkg/model/lexvec/lexvec.go:trainPerThread", "pkg/model/lexvec/lexvec.go:observe", "pkg/model/word2vec/word2vec.go:trainPerThread", "pkg/model/word2vec/word2vec.go:observe"]}
{"id": "C77", "title": "Search results carry true cosines", "statement": "SearchVector and SearchInternal report, for the k most similar items, exactly the cosine of the angle between the query and the item's vector; items of non-positive cosine never appear.", "quantifier": "every searcher whose items carry the Euclidean norm of their vectors, query of the same dimension, k >= 1 (real arithmetic)", "why_tests_cant": "all vectors and item orders", "anchors": ["pkg/search/search.go:SearchVector", "pkg/search/search.go:SearchInternal", "pkg/search/searchutil/searchutil.go:Cosine"]}
{"id": "C78", "title": "Initial parameters", "statement": "When training starts, every word2vec and LexVec parameter is (x - 0.5)/Dim, and every GloVe parameter x/Dim, of its own result x of rand.Float64(), assigned row by row; tree vectors are 0 and AdaGrad accumulators 1. So the values lie in [-1/(2 Dim), 1/(2 Dim)) and [0, 1/Dim).", "quantifier": "every readable document, options and random generator (formulas in any arithmetic; ranges over the reals, and in float64 up to rounding of the bounds)", "why_tests_cant": "all documents, dimensions and generators", "anchors": ["pkg/model/word2vec/word2vec.go:Train", "pkg/model/glove/glove.go:Train", "pkg/model/lexvec/lexvec.go:Train", "pkg/model/word2vec/optimizer.go:newNegativeSampling"]}
{"id": "C79", "title": "Query and console commands", "statement": "With rank >= 1 the query command never panics and fails exactly when the file is missing, unreadable or invalid, the argument count is not 1 or the word is unknown; on a file written by Save every vocabulary word can be queried and yields the most similar other words by read-back values. The console starts exactly on files with at least one vector, all of one dimension.", "quantifier": "every file system, file content, argument list, rank >= 1 and every saved vocabulary (float64)", "why_tests_cant": "all files and words", "anchors": ["cmd/query/query.go:execute", "cmd/query/console/console.go:execute"]}
{"id": "C80", "title": "Verbose output changes nothing else", "statement": "With verbose set and LogBatch not 0 (for LexVec's corpus loading: BatchSize not 0), corpus loading, the observers and the building of training items give exactly the results of the silent run; what is printed is one progress line at every multiple of the batch, then the total. Silent runs print nothing. With batch 0, verbose loading of any non-empty document panics.", "quantifier": "every document, either corpus, batch and number of words", "why_tests_cant": "all documents, batches and counts", "anchors": ["pkg/util/verbose/verbose.go:Do", "pkg/corpus/memory/memory.go:Load", "pkg/corpus/fs/fs.go:Load", "pkg/model/glove/item.go:makeItems", "pkg/model/lexvec/item.go:makeItems", "pkg/model/word2vec/word2vec.go:observe", "pkg/model/glove/glove.go:observe", "pkg/model/lexvec/lexvec.go:observe"]}
{"id": "C81", "title": "Exact learning-rate schedule", "statement": "Within one iteration the rate is the linear schedule at the last multiple of UpdateLRBatch while that is at least MinLR; from the first update below MinLR on, it alternates between the schedule value (below MinLR) and MinLR. The next iteration counts from 0 again, so the rate rises back to the start of the schedule: it is not monotone over a run.", "quantifier": "every Initlr >= MinLR >= 0, batch >= 1, corpus length and number of words (real arithmetic; and float64, Initlr finite, corpora of at most 2^53 words, where the scheduled rate is the rounded formula)", "why_tests_cant": "all parameters and counts", "anchors": ["pkg/model/word2vec/word2vec.go:observe", "pkg/model/lexvec/lexvec.go:observe"]}
{"id": "C82", "title": "The learning rate lags by at most Goroutines words", "statement": "In every schedule of an iteration the rate used for the j-th word started is the rate of the schedule after c words with j - Goroutines <= c <= j. Even with one goroutine, whenever an update is due, there are schedules in which the next word uses the old rate and the new rate.", "quantifier": "every schedule of workers and observer, number of goroutines, batching (any arithmetic; one observer running)", "why_tests_cant": "all schedules", "anchors": ["pkg/model/word2vec/word2vec.go:trainPerThread", "pkg/model/word2vec/word2vec.go:observe", "pkg/model/lexvec/lexvec.go:trainPerThread"]}
{"id": "C83", "title": "A successful training command can be queried", "statement": "If a training command (any model) succeeds, its output file lists exactly the distinct normalised words of the corpus, in order of first occurrence, each with Dim values; and the query command on that file succeeds exactly for those words, reporting only other words of the corpus (if a line is 64 KiB or longer the query fails for every word).", "quantifier": "every readable corpus, options, schedule of the goroutines, file system, vector type and rank >= 1 (float64, any mathematical library)", "why_tests_cant": "all corpora, schedules and files", "anchors": ["cmd/model/word2vec/word2vec.go:execute", "cmd/model/glove/glove.go:execute", "cmd/model/lexvec/lexvec.go:execute", "cmd/query/query.go:execute"]}
{"id": "C84", "title": "Training with valid options cannot fail", "statement": "With valid options and a readable corpus, in every schedule Train returns no error and does not panic (word2vec: in real arithmetic; in float64 the only possible failure is an index panic of the sigmoid lookup), and for GloVe and LexVec the training command succeeds in float64 whenever the output does not exist, the input does and the system calls succeed.", "quantifier": "every readable corpus, valid options, schedule and outcome of racing memory operations", "why_tests_cant": "all corpora and schedules", "anchors": ["pkg/model/word2vec/word2vec.go:Train", "pkg/model/glove/glove.go:Train", "pkg/model/lexvec/lexvec.go:Train", "cmd/model/glove/glove.go:execute", "cmd/model/lexvec/lexvec.go:execute"]}
{"id": "C85", "title": "Nothing can be read from a model that no Train filled", "statement": "WordVector and Save panic on a model on which Train was never called, and also after any number of Train calls whose readers failed (each of which returns an error), except that Save writes an empty file when the last reader failed before its first word.", "quantifier": "every history of Train calls with failing readers on a new model, every document prefix, vector type and options", "why_tests_cant": "all histories and documents", "anchors": ["pkg/model/word2vec/word2vec.go:WordVector", "pkg/model/glove/glove.go:WordVector", "pkg/model/lexvec/lexvec.go:WordVector", "pkg/model/word2vec/word2vec.go:Save"]}
{"id": "C86", "title": "A successful Train replaces everything the model held", "statement": "After a Train that returned nil, WordVector and Save describe exactly the words of its document, whatever calls - successful or not - came before; what it can leave depends on the earlier history only through the current learning rate and observers still running (GloVe: not at all). With valid options and a readable document every such later Train succeeds, in every schedule.", "quantifier": "every object state, every schedule also with observers of earlier calls, document and vector type", "why_tests_cant": "all histories and schedules", "anchors": ["pkg/model/word2vec/word2vec.go:Train", "pkg/model/glove/glove.go:Train", "pkg/model/lexvec/lexvec.go:Train"]}
{"id": "C87", "title": "A Train that fails leaves the model as it was", "statement": "After a Train that returned an error, every word that had a vector still has the same one, and nothing untrained can be saved.", "quantifier": "every trained model, every later document whose reader fails, every invalid option", "why_tests_cant": "all histories and documents", "anchors": ["pkg/model/word2vec/word2vec.go:Train", "pkg/model/glove/glove.go:Train", "pkg/model/lexvec/lexvec.go:Train", "pkg/model/word2vec/word2vec.go:Save"]}
{"id": "C88", "title": "Every Train starts from the initial learning rate", "statement": "Each call of Train starts from Initlr, on a new model and on a used one.", "quantifier": "every object state, document and schedule", "why_tests_cant": "all histories and schedules", "anchors": ["pkg/model/word2vec/word2vec.go:NewForOptions", "pkg/model/word2vec/word2vec.go:observe", "pkg/model/lexvec/lexvec.go:NewForOptions", "pkg/model/lexvec/lexvec.go:observe", "pkg/model/glove/glove.go:train"]}
{"id": "C89", "title": "A training command that fails reports it and leaves an empty output", "statement": "When Train returns an error or panics, the training command ends with exactly that error or panic; the output file, created before training, stays in place and is empty. With an unknown word2vec model or optimizer type, GloVe count type or solver this happens for every input and schedule.", "quantifier": "every input file, options, schedule, error and panic (float64, any mathematical library; creating and opening the files succeeds)", "why_tests_cant": "all inputs, options and schedules", "anchors": ["cmd/model/word2vec/word2vec.go:execute", "cmd/model/glove/glove.go:execute", "cmd/model/lexvec/lexvec.go:execute"]}
{"id": "C90", "title": "Numeric options outside their range", "statement": "A negative Dim makes Train panic on every corpus with a word (GloVe: below -1); negative Goroutines make it panic (LexVec: in memory); UpdateLRBatch(0) makes some execution panic as soon as a word is trained; a negative BatchSize makes file-backed word2vec panic. None of these values is rejected with an error.", "quantifier": "every readable document, other options, schedule, random generator and arithmetic", "why_tests_cant": "all documents and option values", "anchors": ["pkg/model/word2vec/word2vec.go:Train", "pkg/model/word2vec/word2vec.go:observe", "pkg/model/glove/glove.go:train", "pkg/model/lexvec/lexvec.go:train", "pkg/model/modelutil/matrix/matrix.go:New", "pkg/model/modelutil/modelutil.go:IndexPerThread", "pkg/corpus/fs/fs.go:BatchWords"]}
{"id": "C91", "title": "Parallel GloVe training is some sequential order of the training steps", "statement": "Whatever the schedule of the goroutines, the parameters GloVe's Train leaves are those of some sequential order of the training steps.", "quantifier": "every corpus, solver, number of goroutines and sequentially consistent schedule", "why_tests_cant": "all schedules", "anchors": ["pkg/model/glove/glove.go:trainPerThread", "pkg/model/glove/solver.go:trainOne"]}
{"id": "C92", "title": "How the document is cut does not change what is trained", "statement": "The sequence of words that Train trains on - and so, with one goroutine, the vectors it leaves - does not depend on Goroutines, BatchSize or DocInMemory: these options only spread the work.", "quantifier": "every document, Goroutines, BatchSize, DocInMemory and schedule", "why_tests_cant": "all documents, options and schedules", "anchors": ["pkg/model/word2vec/word2vec.go:batchTrain", "pkg/model/word2vec/word2vec.go:trainPerThread", "pkg/model/lexvec/lexvec.go:batchTrain", "pkg/model/lexvec/lexvec.go:trainPerThread", "pkg/model/modelutil/modelutil.go:IndexPerThread", "pkg/corpus/fs/fs.go:BatchWords"]}
{"id": "C93", "title": "A console session shows what its lines show alone", "statement": "What Run prints is, for each prompt in order, `error:` if the prompt failed and then what the line prints and the error it ends with on a console that has seen no line before (nothing for an empty line); with the first exit the output is complete.", "quantifier": "every stream of prompt results, every length of the session, every valid searcher and k >= 1", "why_tests_cant": "all sessions", "anchors": ["pkg/search/console/console.go:Run", "pkg/search/console/console.go:eval"]}
{"id": "C94", "title": "The table a query prints", "statement": "The rows of the table printed by a successful query are ranked 1, 2, ... in decimal; each names another word of the file with its similarity to six decimals, and the printed similarities never increase downwards. Rows without a word (0, nothing, 0.000000) only come last.", "quantifier": "every file, word, rank >= 1 and failure of the system calls (float64)", "why_tests_cant": "all files and ranks", "anchors": ["pkg/search/search.go:Describe", "cmd/query/query.go:execute"]}
{"id": "C95", "title": "Options that have no effect", "statement": "GloVe's Train does exactly the same whatever MaxCount, MinCount, BatchSize and SubsampleThreshold are - words outside the count limits are trained; word2vec ignores MaxDepth with negative sampling and NegativeSampleSize with hierarchical softmax; BatchSize is ignored by in-memory training. No combination is rejected.", "quantifier": "every document, other options, schedule, outcome of racing memory operations, arithmetic", "why_tests_cant": "all documents, options and schedules", "anchors": ["pkg/model/glove/glove.go:Train", "pkg/model/glove/options.go:Options", "pkg/model/word2vec/word2vec.go:Train", "pkg/model/lexvec/lexvec.go:Train"]}
{"id": "C96", "title": "The order of the items only decides ties", "statement": "Searching the same items in another order (another order of the lines of the vector file) returns equally many entries, with the same similarities at the same ranks; if no two words tie, exactly the same result.", "quantifier": "every list of items and permutation of it, query, k >= 1, ignored words", "why_tests_cant": "all items, orders and queries", "anchors": ["pkg/search/search.go:Search", "pkg/search/search.go:SearchInternal"]}
{"id": "C97", "title": "Ties are ranked in the order of the items", "statement": "Of equally similar words, those earlier in the searcher are ranked first and are the ones kept when only k fit.", "quantifier": "every list of items, query, k >= 1, ignored words", "why_tests_cant": "all items and queries", "anchors": ["pkg/search/search.go:Search"]}
{"id": "C98", "title": "Similarities in float64 are cosines", "statement": "In float64, too, reported similarities are at most 1, the similarity of a to b is that of b to a, and multiplying a vector by a positive factor does not change which words are found.", "quantifier": "every pair of float64 vectors", "why_tests_cant": "all vectors, where rounding and overflow matter", "anchors": ["pkg/search/searchutil/searchutil.go:Cosine", "pkg/embedding/embutil/embutil.go:Norm", "pkg/search/search.go:Search"]}
{"id": "C99", "title": "A document with nothing to train on", "statement": "If no word of the document is inside the count limits (or there is none), word2vec and LexVec Train returns nil and the model has exactly its initial vectors; for a document without words the command leaves an empty file, on which every query and the console report an error. GloVe in memory does the same, but file-backed GloVe panics in every execution on a document without words.", "quantifier": "every such document, every schedule, outcome of racing memory operations and valid options", "why_tests_cant": "all schedules and documents", "anchors": ["pkg/model/word2vec/word2vec.go:Train", "pkg/model/lexvec/lexvec.go:Train", "pkg/model/glove/glove.go:Train", "pkg/corpus/cpsutil/cpsutil.go:ReadWordWithForwardContext", "pkg/model/glove/solver.go:trainOne", "cmd/query/query.go:execute"]}
{"id": "C100", "title": "Saved vectors keep their similarities", "statement": "Saving trained vectors and loading the file leaves the similarities - and so the neighbours a search lists - those of the trained vectors, up to the rounding of the six decimals.", "quantifier": "every dictionary, matrix of trained float64 vectors and word", "why_tests_cant": "all trained vectors, also small ones", "anchors": ["pkg/model/modelutil/vector/vector.go:Save", "pkg/embedding/embedding.go:Load", "pkg/search/search.go:Search", "pkg/search/searchutil/searchutil.go:Cosine"]}
{"id": "C101", "title": "How the reader delivers the bytes does not matter", "statement": "The words ReadWord (and so Train) hands on and the vectors Load returns depend only on the bytes of the input and on how it ends, not on the sizes of the reads that deliver them: not on reads that cut a rune, a space or a line in two, nor on empty reads, nor on how the scanner's buffer grows, nor on whether the end comes together with the last bytes. The one exception is an input whose last 65536 bytes hold no white space (no newline for Load): a last word of exactly 65536 bytes is delivered by a reader that reports the end with it, and is ErrTooLong with any other.", "quantifier": "every byte string (for ReadWord and Load: every UTF-8 text), every sequence of read sizes without 101 empty reads in a row, every read error, readers that report the end in a read of its own or together with the last bytes", "why_tests_cant": "all splits of all inputs into reads", "anchors": ["pkg/corpus/cpsutil/cpsutil.go:ReadWord", "pkg/corpus/cpsutil/cpsutil.go:scanner", "pkg/embedding/embedding.go:parse"]}
{"id": "C102", "title": "What can be typed at the console", "statement": "A line that is one word of the form of a Go identifier, not reserved, prints what SearchInternal finds for it; `x + y` and `x - y` print the neighbours of the sum and difference, with or without blanks. Three or more operands (king - man + woman), two words side by side (new york), doubled signs (c++), reserved words of Go, decimal numbers and signed words give an error, also when the vocabulary has the word, and a hyphenated word is read as a difference.", "quantifier": "every loaded vocabulary, every such line with any blanks, every classification of non-ASCII letters and digits", "why_tests_cant": "all lines and vocabularies", "anchors": ["pkg/search/console/console.go:eval", "pkg/search/console/console.go:evalExpr", "pkg/search/console/op.go"]}
{"id": "C103", "title": "Asking for more neighbours only extends the list", "statement": "The entries a search with k lists are, with words, ranks and similarities, the first k of those it lists with any larger k; the same holds for the query command run with a higher rank on the same file.", "quantifier": "every list of items, query, ignored words and 1 <= k <= k'; every file, word and failure of the system calls", "why_tests_cant": "all items, ties and pairs of k", "anchors": ["pkg/search/search.go:Search", "pkg/search/search.go:SearchInternal", "cmd/query/query.go:execute"]}
{"id": "C104", "title": "LexVec trains context vectors only by negative samples", "statement": "LexVec trains a word with its neighbours on their word vectors, and moves context vectors only through negative samples: with NegativeSampleSize(0) every context vector is after Train the one drawn at the start, and WordVector of type single is that of type agg plus this random vector.", "quantifier": "every readable document, either corpus, all options, schedules and memory models", "why_tests_cant": "all documents and schedules", "anchors": ["pkg/model/lexvec/lexvec.go:trainOne", "pkg/model/lexvec/lexvec.go:update", "pkg/model/lexvec/lexvec.go:WordVector"]}
{"id": "C105", "title": "Which training runs have data races", "statement": "In an iteration of GloVe training a data race can happen exactly when Goroutines is at least 2 and the items of two goroutines share a word. In word2vec and LexVec two goroutines race on the random generator as soon as both have a word to train; with one goroutine the only race is on the learning rate, between the worker and observers, and it does happen whenever an update is due; observers never touch anything else.", "quantifier": "every readable document, slices, memory, schedule, solver and optimizer; races with whatever values racing loads return", "why_tests_cant": "all schedules and documents", "anchors": ["pkg/model/glove/glove.go:trainPerThread", "pkg/model/glove/solver.go:trainOne", "pkg/model/word2vec/word2vec.go:trainPerThread", "pkg/model/word2vec/word2vec.go:observe", "pkg/model/lexvec/lexvec.go:trainPerThread", "pkg/model/lexvec/lexvec.go:observe", "pkg/model/modelutil/modelutil.go:NextRandom"]}
{"id": "C106", "title": "A vector file cut off at any point", "statement": "If a crash, a full disk or an interrupted copy leaves only the beginning of a saved vector file, Load either fails or returns the first words with exactly the vectors of the complete file, plus at most one word whose vector may be shorter and may differ in its last value only; that value keeps its sign and does not grow. Load fails when the cut is inside a word or inside a character, before the first value, or leaves no number; making a searcher fails when the cut word has fewer values than the words before it. In all other cases nothing is reported, even if a value was cut from -12.5 to -1.", "quantifier": "every trained vocabulary of words without white space, every matrix of at least one column, every cut between or inside characters, lines below 64 KiB", "why_tests_cant": "all files and all cut points", "anchors": ["pkg/model/modelutil/vector/vector.go:Save", "pkg/embedding/embedding.go:Load", "pkg/embedding/embedding.go:parseLine", "pkg/search/search.go:New"]}
{"id": "C107", "title": "Only the sequence of words of the document matters", "statement": "Train on a document can end in exactly the ways Train on any other layout of the same words can - the same models, errors and panics: blanks, tabs, blank lines and line ends are all the same, so context windows reach across line ends, and a corpus with one sentence per line is trained like one long line.", "quantifier": "every pair of documents with the same words, either corpus, all options, schedules and memory models, word2vec, GloVe and LexVec; readers that fail after the words included", "why_tests_cant": "all layouts of all documents and all schedules", "anchors": ["pkg/corpus/cpsutil/cpsutil.go:ReadWord", "pkg/corpus/cpsutil/cpsutil.go:ReadWordWithForwardContext", "pkg/model/word2vec/word2vec.go:Train", "pkg/model/glove/glove.go:Train", "pkg/model/lexvec/lexvec.go:Train"]}
{"id": "C108", "title": "ToLower is the same as lower-casing the document first", "statement": "Train with ToLower on a document can end in exactly the ways Train without it on the lower-cased document can.", "quantifier": "every document and lower-casing, all options, schedules and memory models, word2vec, GloVe and LexVec", "why_tests_cant": "all documents and all schedules", "anchors": ["pkg/corpus/memory/memory.go:Load", "pkg/corpus/fs/fs.go:Load", "pkg/corpus/fs/fs.go:BatchWords"]}
{"id": "C109", "title": "Joining, sorting and re-spacing vector files", "statement": "A vector file that ends with a line end, followed by another, loads exactly when both load, and gives the words of the first followed by those of the second; a searcher can be made of it exactly when the dimensions agree; for a word in both files the first vector is used and neither is listed. Reordering the lines reorders what is loaded and nothing else. Blanks and tabs between the fields, carriage returns and a missing last line end change nothing.", "quantifier": "every pair of texts, all line orders and spacings, lines below 64 KiB", "why_tests_cant": "all files", "anchors": ["pkg/embedding/embedding.go:Load", "pkg/embedding/embedding.go:parse", "pkg/search/search.go:New", "pkg/search/search.go:SearchInternal"]}
{"id": "C110", "title": "A file that changes while training reads it", "statement": "With a file-backed corpus every iteration reads the file again. If its content has changed since Load, the new words are trained in their order; a word that Load did not see is trained as the first word that Load saw, and with that word's frequency for the count limits. No later content makes word2vec or LexVec training panic, provided Load found a word and the readings succeed.", "quantifier": "every first content, every content at every later reading, count limits and batch sizes; every interleaving of goroutines and memory model", "why_tests_cant": "all contents and all schedules", "anchors": ["pkg/corpus/fs/fs.go:BatchWords", "pkg/corpus/dictionary/dictionary.go:ID", "pkg/model/word2vec/word2vec.go:batchTrain", "pkg/model/lexvec/lexvec.go:batchTrain"]}
{"id": "C111", "title": "An input that can be read only once", "statement": "Every reading starts with a Seek whose error is ignored, so when the input cannot seek (a pipe) readings after the first find nothing. With a file-backed corpus word2vec and LexVec training then report success and hand out the random vectors they started with, and GloVe trains nothing but the first word of the document; only with DocInMemory, which reads once, is the document trained.", "quantifier": "every document, all options, schedules, memory models and numbers of iterations; any arithmetic, float64 included", "why_tests_cant": "all documents and all schedules", "anchors": ["pkg/corpus/cpsutil/cpsutil.go:ReadWord", "pkg/corpus/cpsutil/cpsutil.go:ReadWordWithForwardContext", "pkg/corpus/fs/fs.go:Load", "pkg/model/word2vec/word2vec.go:batchTrain", "pkg/model/lexvec/lexvec.go:batchTrain"]}
{"id": "C112", "title": "Removing words from the vectors", "statement": "A search that ignores words returns exactly what it returns when these words are not in the vectors; words that are not similar to the query (similarity 0 or negative) do not influence the list; and, when no two words are equally similar to the query, removing words (their items, or their lines in the vector file) only strikes them out of the list: the others keep their order and similarities and move up. (With ties the order of the others can change.)", "quantifier": "every list of items or vector file, every set of removed words, every query, every k", "why_tests_cant": "all vectors, subsets and queries", "anchors": ["pkg/search/search.go:Search", "pkg/search/search.go:SearchInternal", "pkg/embedding/embedding.go:Load", "cmd/query/query.go:execute"]}
{"id": "C113", "title": "A search sees only the angles between vectors", "statement": "In exact arithmetic the neighbours of a word, their ranks and similarities depend only on the words, their order and the cosines between their vectors: stretching each vector by its own positive factor (for example normalising all of them), rotating or reflecting all of them, permuting their coordinates or adding zero coordinates changes nothing; and queries that have the same cosines with all vectors get the same answer. (In float64 this is false: the square of a stretched vector can overflow.)", "quantifier": "every set of words and vectors of any size, every query, every k, all positive factors, all maps that keep inner products", "why_tests_cant": "all real vectors", "anchors": ["pkg/search/search.go:SearchInternal", "pkg/search/search.go:SearchVector", "pkg/search/searchutil/searchutil.go:Cosine", "pkg/embedding/embutil/embutil.go:Norm"]}
{"id": "C114", "title": "Training and searching do not look at the words, only at which of them are equal", "statement": "Replace every word of the document by another word, different words by different words. Then Train can end in exactly the same ways, with the same errors, panics, ids, counts, vectors and all other numbers; only the words of the dictionary are replaced. The saved file is the same with the words replaced; replacing the words in a vector file replaces them in what is loaded, and replacing the words of a set of vectors replaces the words in the lists of neighbours and changes nothing else: not the order (ties included), the ranks or similarities. So no result depends on the alphabet, spelling, length or alphabetical order of the words.", "quantifier": "every document and injective replacement (words up to 65533 bytes), either corpus, all options, schedules and memory models, word2vec, GloVe and LexVec; every list of vectors, query and k", "why_tests_cant": "all documents, replacements and schedules", "anchors": ["pkg/corpus/dictionary/dictionary.go:Add", "pkg/model/modelutil/vector/vector.go:Save", "pkg/embedding/embedding.go:Load", "pkg/model/word2vec/word2vec.go:Train", "pkg/model/glove/glove.go:Train", "pkg/model/lexvec/lexvec.go:Train", "pkg/search/search.go:Search", "pkg/search/search.go:SearchInternal"]}
{"id": "C115", "title": "Searching by a word and searching by its vector", "statement": "Searching for a word gives exactly what searching for its vector gives among the vectors of the other words. In exact arithmetic, searching for a non-zero vector of a stored word finds, at the first place and with similarity 1, a word whose vector points in exactly this direction, the word itself if there is only one; no other similarity exceeds 1.", "quantifier": "every list of items or loaded file, every word, every k", "why_tests_cant": "all vectors and words", "anchors": ["pkg/search/search.go:SearchInternal", "pkg/search/search.go:SearchVector", "pkg/embedding/embedding.go:parseLine", "pkg/search/searchutil/searchutil.go:Cosine"]}
{"id": "C116", "title": "Words with zero vectors", "statement": "A query whose norm is zero finds no word; a stored word whose norm is zero is never found, and the other words are found as if it was not there. In exact arithmetic this concerns exactly the zero vectors; in float64 also small vectors whose squares underflow: two words with the same vector (1e-200) do not find each other.", "quantifier": "every list of items, every query, every k; any arithmetic with ordered comparisons, float64 included", "why_tests_cant": "all vectors", "anchors": ["pkg/search/search.go:Search", "pkg/search/searchutil/searchutil.go:Cosine", "pkg/embedding/embutil/embutil.go:Norm"]}
{"id": "C117", "title": "Searching by a vector of another length", "statement": "SearchVector does not check the length of the vector. If it is longer than the stored vectors and not all norms are zero, the search panics; if it is shorter, the search is, in exact arithmetic, that for the vector filled up with zeros.", "quantifier": "every list of items, every query vector, every k >= 0; the panic in any arithmetic with ordered comparisons, float64 included", "why_tests_cant": "all vectors of all lengths", "anchors": ["pkg/search/search.go:SearchVector", "pkg/search/search.go:Search", "pkg/search/searchutil/searchutil.go:Cosine"]}
{"id": "C118", "title": "The order of the words in a sum", "statement": "At the console x + y and y + x print the same table when both words are known, and the order (and repetition) of the ignored words never matters to a search. The tables of x - y and y - x have, in exact arithmetic, no word in common; x + x prints, in exact arithmetic, the same table as x; x - x prints a table without words, in float64 too. (With one unknown word the order matters: y + x is an error, x + y prints a blank table.)", "quantifier": "every vocabulary, pair of words, spacing and k >= 1; sums in float64 too", "why_tests_cant": "all vectors and words", "anchors": ["pkg/search/console/console.go:eval", "pkg/search/console/console.go:evalExpr", "pkg/search/search.go:Search"]}
