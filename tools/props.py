#!/usr/bin/env python3
"""Source of properties.jsonl (run from anywhere; rewrites /verif/properties.jsonl)."""
import json, os
P=[]
def p(title, statement, quantifier, why, *anchors):
    P.append(dict(id="C%02d"%(len(P)+1), title=title, statement=statement, quantifier=quantifier,
                  why_tests_cant=why, anchors=list(anchors)))
DIC="pkg/corpus/dictionary/dictionary.go"; HUF="pkg/corpus/dictionary/huffman.go"; NODE="pkg/corpus/dictionary/node/node.go"
CO="pkg/corpus/cooccurrence/cooccurrence.go"; ENC="pkg/corpus/cooccurrence/encode/encode.go"; CPS="pkg/corpus/cpsutil/cpsutil.go"
MEM="pkg/corpus/memory/memory.go"; FS="pkg/corpus/fs/fs.go"; MU="pkg/model/modelutil/modelutil.go"; MAT="pkg/model/modelutil/matrix/matrix.go"
SUB="pkg/model/modelutil/subsample/subsample.go"; VEC="pkg/model/modelutil/vector/vector.go"
WV="pkg/model/word2vec/word2vec.go"; WM="pkg/model/word2vec/model.go"; WO="pkg/model/word2vec/optimizer.go"; WS="pkg/model/word2vec/sigmoid_table.go"
GL="pkg/model/glove/glove.go"; GI="pkg/model/glove/item.go"; GS="pkg/model/glove/solver.go"
LX="pkg/model/lexvec/lexvec.go"; LI="pkg/model/lexvec/item.go"
EMB="pkg/embedding/embedding.go"; SE="pkg/search/search.go"; SU="pkg/search/searchutil/searchutil.go"; CON="pkg/search/console/console.go"; OP="pkg/search/console/op.go"

p("Dictionary ids are dense, ordered by first occurrence, and invertible",
  "After any sequence of Add calls, Len() is the number of distinct words added; ID(w) succeeds exactly for the words added and equals the number of distinct words that occurred before the first occurrence of w; Word(id) inverts ID for every id below Len() and reports not-found for every id at or above it.",
  "every finite sequence of words (any split into Add calls)", "the law ranges over all word sequences, including all repetition patterns", f"{DIC}:Add", f"{DIC}:ID", f"{DIC}:Word", f"{DIC}:Len")
p("Dictionary frequencies are exact",
  "WordFreq(w) equals the number of times w was added (0 if never), IDFreq(ID(w)) equals WordFreq(w), IDFreq of an id at or above Len() is 0, every id below Len() has frequency at least 1, and the frequencies of all ids sum to the number of words added.",
  "every finite sequence of words, every word, every non-negative id", "counting must be exact for every repetition pattern", f"{DIC}:WordFreq", f"{DIC}:IDFreq", f"{DIC}:Add")
p("Bigram encoding is an order-insensitive bijection on 32-bit ids",
  "For ids below 2^32, DecodeBigram(EncodeBigram(a,b)) is (min(a,b), max(a,b)); EncodeBigram(a,b) = EncodeBigram(c,d) exactly when {a,b}={c,d} as unordered pairs. (Outside 32 bits collisions exist.)",
  "all pairs of uint64 ids below 2^32; collision witness above", "2^64 pairs cannot be enumerated", f"{ENC}:EncodeBigram", f"{ENC}:DecodeBigram")
p("Increment co-occurrence counts are exact",
  "After any sequence of Add calls on an 'inc' co-occurrence, none of them fails, the entry of the unordered pair {a,b} is the number of Add(a,b)/Add(b,a) calls made, and pairs never added have no entry; in float64 arithmetic this is exact for every pair added at most 2^53 times.",
  "every sequence of Add calls with ids below 2^32", "all call histories; float64 exactness at any count up to 2^53", f"{CO}:Add", f"{CO}:EncodedMatrix", f"{CO}:New")
p("Proximity co-occurrence: weight by id distance, equal ids rejected",
  "On a 'prox' co-occurrence Add(a,b) fails exactly when a = b and then changes nothing; otherwise it adds 1/|a-b| to the entry of {a,b} and to no other entry; after any sequence of Adds the entry is (#successful adds of the pair)/|a-b|. New accepts exactly the two count types.",
  "every sequence of Add calls, every count-type string", "all call histories", f"{CO}:Add", f"{CO}:New")
p("ReadWord delivers exactly the whitespace-separated words, in order",
  "ReadWord calls the callback on exactly the maximal runs of non-space characters of the document, in order; it stops at the first callback error and returns that error; adding or changing white space between words changes nothing.",
  "every document text and every callback", "all texts and white-space layouts", f"{CPS}:ReadWord", f"{CPS}:scanner")
p("Over-long tokens are reported, never silently split",
  "If every word of the text is shorter than 64 KiB (shorter by one character of white space when the text contains non-ASCII white space, which takes two or three bytes), ReadWord with a non-failing callback succeeds; if some word has 64 KiB or more it returns an error after delivering exactly the words that precede the first such word.",
  "every document text", "sizes unbounded; boundary at 65536 bytes", f"{CPS}:ReadWord", "bufio.Scanner (trusted semantics)")
p("Forward-context reading enumerates every in-window pair",
  "ReadWordWithForwardContext(r, n, fn) calls fn(w_i, w_j) exactly for i < j <= i+n, ordered by i then j.",
  "every document and every window n >= 1", "fails only for windows >= 3 or documents not longer than the window: the existing test uses n = 2", f"{CPS}:ReadWordWithForwardContext")
p("Exact behaviour of forward-context reading, including the missing tail and phantom words",
  "For a document longer than the window the calls are exactly those for i <= N-n (so the last n-2 axis words are skipped, for n>=3); for a shorter non-empty document the callback also receives the empty string; for an empty one it receives (\"\",\"\") n times; n = 0 on a non-empty document panics; a callback error stops the enumeration.",
  "every document and every n", "all lengths and windows", f"{CPS}:ReadWordWithForwardContext")
p("Count filters keep exactly the words inside the frequency limits",
  "A word id is dropped exactly when (max > 0 and freq > max) or (min >= 0 and freq < min); with max <= 0 and min <= 1 every dictionary word is kept.",
  "all dictionaries, ids, and integer limits (negative included)", "unbounded limits and frequencies", f"{CPS}:Filters.Any", f"{CPS}:MaxCount", f"{CPS}:MinCount", "pkg/corpus/filter/options.go:MaxCount")
p("In-memory corpus: indexed document is the filtered id sequence",
  "After Load, Len() is the number of words of the text, Dictionary() describes exactly the (optionally lower-cased) words, and IndexedDoc() is the sequence of ids of the kept words in text order.",
  "every text, lower-casing option and limits", "all documents", f"{MEM}:Load", f"{MEM}:IndexedDoc")
p("File corpus: batches partition the filtered id sequence",
  "BatchWords sends batches whose concatenation is the sequence of ids of the kept words in text order; every batch but the last has exactly batchSize ids, the last has fewer (it is sent even when empty), and the channel is closed exactly once, after the last send.",
  "every text, every limits, every batchSize >= 1", "all lengths modulo all batch sizes", f"{FS}:BatchWords")
p("File and in-memory corpora agree on dictionary, length and training sequence",
  "For the same document and options, both corpora yield the same dictionary, the same Len(), and the concatenation of the file corpus's batches equals the in-memory IndexedDoc().",
  "every document, option and batch size", "relational property over two implementations", f"{FS}:Load", f"{FS}:BatchWords", f"{MEM}:Load", f"{MEM}:IndexedDoc")
p("In-memory co-occurrence counts every in-window pair once",
  "After Load with an 'inc' co-occurrence and window w the entry for {a,b} is the number of position pairs i < j <= i+w whose words have ids {a,b}.",
  "every document and window", "all documents and windows", f"{MEM}:Load", f"{CO}:Add")
p("File and in-memory corpora agree on co-occurrence",
  "For the same document, options and window both corpora build the same co-occurrence matrix.",
  "every document, window and lower-casing option", "false for window >= 3, for short documents, and with lower-casing; no test exercises it", f"{FS}:Load", f"{MEM}:Load", f"{CPS}:ReadWordWithForwardContext")
p("Proximity counting rejects documents with a near repetition",
  "Load of an in-memory corpus with 'prox' counting fails exactly when some word re-occurs within the window. Load of a file corpus fails exactly when two words its reader reports together have the same id, where padding and words changed by lower-casing count as id 0: so it also fails for every file of at most as many words as the window, and when two neighbouring words both contain capitals and lower-casing is on.",
  "every document and window", "all documents", f"{MEM}:Load", f"{FS}:Load", f"{CO}:Add", f"{CPS}:ReadWordWithForwardContext")
p("Huffman tree: every word gets a code; codes are prefix-free and complete",
  "For every dictionary with at least two words, following parents from each word reaches one common root, no word's code is a prefix of another's, the codes' Kraft sum is exactly 1, and there are exactly Len()-1 inner nodes, each carrying a vector of the requested dimension.",
  "every dictionary", "all frequency vectors; structural induction over the merge loop", f"{HUF}:HuffnamTree", f"{NODE}:GetPath")
p("Huffman tree is optimal",
  "The total code length, weighted by word frequency, is minimal among all uniquely decodable binary codes (all length assignments satisfying Kraft's inequality).",
  "every dictionary with at least two words, every competing code", "optimality over all codes", f"{HUF}:HuffnamTree")
p("GetPath returns the root-to-word path cut at the given depth",
  "GetPath(depth) returns the first min(depth, full length) nodes of the path from the root to the word, ending at the word when depth is large enough; calling it again with any depth gives the corresponding prefix of the same path.",
  "every dictionary, word, and sequence of depths >= 0", "all trees and call histories (cache)", f"{NODE}:GetPath", f"{HUF}:HuffnamTree")
p("max-depth=0 tracks the full path",
  "As the --max-depth help text says, hierarchical softmax with max-depth 0 uses the full root-to-word path.",
  "every dictionary", "documentation claim; false for the code at every dictionary", f"{NODE}:GetPath", f"{WO}:hierarchicalSoftmax.optim", "pkg/model/word2vec/options.go:LoadForCmd")
p("Hierarchical softmax defines a probability distribution",
  "For every assignment of inner products to inner nodes, the product of the branch probabilities (sigmoid for code 0, one minus sigmoid for code 1) along the word paths sums to 1 over all words.",
  "every dictionary with at least one word, every real-valued score per inner node", "all trees and scores", f"{HUF}:HuffnamTree", f"{WO}:hierarchicalSoftmax.optim")
p("GetPath is safe under concurrent first use",
  "When several training goroutines ask for the path of the same word, each of them gets the full path, under every interleaving.",
  "every interleaving of two or more callers", "data race on the cache; only some schedules fail", f"{NODE}:GetPath")
p("NextRandom is in range and reaches every value",
  "NextRandom(v) is in [0,v) for v>0; the generator has period exactly 2^64, so from any state every residue below v is eventually returned (every word can be drawn as a negative sample). The results in a fresh process depend on the arguments alone; NextRandom(0) panics, NextRandom(v) for v<0 does not.",
  "every generator state, every sequence of calls, every v in -2^63..2^63-1", "2^64 states", f"{MU}:NextRandom")
p("NextRandom low-order bits are not random",
  "For every even v, consecutive results of NextRandom(v) alternate in parity, from every state (so e.g. with Window(2) the shrink of the window strictly alternates between 0 and 1).",
  "every generator state, every even v", "statement over all states", f"{MU}:NextRandom", f"{WM}:skipGram.trainOne")
p("IndexPerThread is a balanced partition",
  "IndexPerThread(t, n) has t+1 non-decreasing entries, first 0 and last n; consecutive differences are floor(n/t) or floor(n/t)+1; so slicing a sequence of length n at these indices never panics and the slices concatenate to the sequence.",
  "every t >= 1 and n >= 0 with n+t <= 2^53", "all sizes; floor sums; float64 truncation", f"{MU}:IndexPerThread", f"{WV}:train", f"{GL}:train")
p("Matrix rows are disjoint views",
  "New(row, col, fn) calls fn once per row in order; Slice(i) for i < row has length col and never panics; writing an element of row i changes no element of another row; shape is unchanged by writes.",
  "all shapes, rows, indices and write sequences", "all index arithmetic", f"{MAT}:New", f"{MAT}:Slice")
p("Subsampling probabilities",
  "The probability that Trial accepts a word is max(0, 1-sqrt(threshold/freq)), lies in [0,1], does not decrease with the word's frequency (contrary to frequent-word subsampling), is 1 for threshold 0 and 0 when threshold >= freq.",
  "every dictionary and non-negative threshold", "all frequencies and thresholds", f"{SUB}:New", f"{SUB}:Trial")
p("Context window positions",
  "Training position pos of a document visits exactly the positions c != pos with |c-pos| <= window-del inside the document, in increasing order, each once, where del in [0,window) is the random shrink; never out of range.",
  "every document, position, window >= 1 and random state", "all boundaries", f"{WM}:skipGram.trainOne", f"{WM}:cbow.dowith", f"{LX}:trainOne")
p("Skip-gram training touches only context rows",
  "One skip-gram step changes only the word-vector rows of the words in the context window (and the optimizer's own parameters); shapes never change and no index is out of range.",
  "every parameter state, document of dictionary ids, position, random state", "frame condition over all states", f"{WM}:skipGram.trainOne", f"{WO}:negativeSampling.optim")
p("CBOW updates exactly the context it averaged",
  "In a CBOW step the set of context rows that receive the gradient is the set of rows that were aggregated.",
  "every document, position, random state", "holds for window 1 only; the two passes draw the window independently", f"{WM}:cbow.trainOne", f"{WM}:cbow.dowith")
p("Negative sampling update",
  "optim with negative sampling touches only the rows of the target word and of the sampled words, moves the target row along +ctx and the sampled rows along -ctx with coefficient at most the learning rate in absolute value, skips samples equal to the target, and never changes ctx.",
  "every parameter state, id, learning rate >= 0, random state (real arithmetic)", "all states", f"{WO}:negativeSampling.optim")
p("Sigmoid table accuracy",
  "In real arithmetic, for every x with |x| < 6 the table lookup is in range and returns a value in (0,1) within 0.003 of the logistic function, never above it.",
  "every real x in (-6,6)", "continuum of inputs", f"{WS}:newSigmoidTable", f"{WS}:sigmoid")
p("Sigmoid lookup never panics in float64",
  "For every float64 x with -6 < x < 6 the guard in optim lets through, sigmoid(x) does not index out of range.",
  "every float64 strictly between -6 and 6, and NaN", "fails for exactly one of ~2^63 doubles (the one just below 6) and for NaN", f"{WS}:sigmoid", f"{WO}:negativeSampling.optim", f"{WO}:hierarchicalSoftmax.optim")
p("Learning rate never falls below min-lr",
  "Once training starts, the learning rate used by word2vec and lexvec is never below MinLR ('lower limit of learning rate').",
  "every schedule of updates", "depends on counter values; false between two updates", f"{WV}:observe", f"{LX}:observe")
p("Learning rate range",
  "With 0 <= MinLR <= Initlr the learning rate always stays in [0, Initlr], equals Initlr*(1-cnt/Len) or MinLR after each update, and is changed only at multiples of UpdateLRBatch.",
  "every number of observed words up to Len, over any number of iterations", "all counts and iterations", f"{WV}:observe", f"{LX}:observe")
p("Invalid model, optimizer, solver, relation and count types are rejected with an error",
  "Train returns an error (does not panic, does not train) for every unknown model/optimizer type (word2vec), solver or count type (glove); lexvec rejects an unknown relation type whenever the co-occurrence matrix is not empty.",
  "every option string and document", "all strings", f"{WV}:Train", f"{GL}:Train", f"{LI}:calculateRelation", f"{CO}:New")
p("Parallel training terminates and counts every word exactly once",
  "For Goroutines >= 1, under every interleaving of producer, main loop, workers and observer, an iteration of Train never deadlocks, never sends on a closed channel, always terminates, trains every word of every batch exactly once, and the observer counts exactly the number of words; at most Goroutines workers train at the same time.",
  "every schedule, every list of batches, every goroutine count >= 1", "schedules cannot be enumerated by tests", f"{WV}:batchTrain", f"{WV}:train", f"{WV}:trainPerThread", f"{LX}:batchTrain", f"{GL}:train")
p("Goroutines = 0",
  "With Goroutines(0) file-backed training never terminates (no schedule completes an iteration) while in-memory training finishes without training any word.",
  "every schedule", "absence of a completing schedule", f"{WV}:batchTrain", f"{WV}:trainPerThread", f"{MU}:IndexPerThread")
p("A read error during batch training is reported",
  "If reading the corpus fails during a training pass, Train returns an error.",
  "every failing reader", "the channel is never closed, the consumer blocks: a liveness failure", f"{FS}:BatchWords", f"{WV}:batchTrain")
p("GloVe items",
  "makeItems yields exactly one item per co-occurring unordered pair, with l1 <= l2 both valid ids, f = log(count), weight min(1,(count/Xmax)^Alpha) in (0,1], equal to 1 exactly when count >= Xmax (for Alpha > 0).",
  "every co-occurrence matrix and options Xmax > 0, Alpha > 0 (real arithmetic)", "all matrices, map orders", f"{GI}:makeItems")
p("GloVe SGD step",
  "A stochastic step reads both rows before writing: it subtracts d*v2(old) from v1 and d*v1(old) from v2 with d = lr*coef*(v1.v2+b1+b2-f), subtracts d from both biases, and touches no other row; the two rows of an item are never the same row. A step with d = 0 changes nothing, and for a small enough learning rate the squared residual does not increase.",
  "every parameter state and item (real arithmetic)", "continuum of states", f"{GS}:stochastic.trainOne", f"{GL}:trainPerThread")
p("AdaGrad accumulators",
  "The AdaGrad accumulators start at 1, never decrease, hence no division by zero ever occurs, and every coordinate moves by at most the plain SGD amount.",
  "every sequence of steps (real arithmetic)", "all histories", f"{GS}:newAdaGrad", f"{GS}:adaGrad.trainOne")
p("WordVector shape",
  "For every model and every vector type string, WordVector returns a matrix with one row per dictionary word, Dim columns and Save on it never fails for a length mismatch.",
  "every trained model state and type string", "all shapes", f"{WV}:WordVector", f"{GL}:WordVector", f"{LX}:WordVector", f"{VEC}:Save")
p("Vector type 'agg' returns word plus context vectors, 'single' the word vector",
  "WordVector(agg) is the element-wise sum of word and context vectors and WordVector(single) the word vector, for all models.",
  "every trained model", "holds for word2vec with negative sampling; glove and lexvec do the opposite", f"{WV}:WordVector", f"{GL}:WordVector", f"{LX}:WordVector")
p("GloVe training is index-safe on non-empty corpora",
  "For every non-empty document, window >= 1 and Dim >= 0, all rows addressed by a GloVe training pass exist; on an empty document the file-backed corpus makes it panic.",
  "every document and item order", "all documents", f"{GL}:trainPerThread", f"{GI}:makeItems", f"{FS}:Load")
p("LexVec relation values",
  "PPMI is max(0, PMI); PMI is log(co * total^s / (f1 * f2^s)); 'co' is the count and 'logco' its logarithm; an unseen pair is trained towards 0.",
  "every pair, counts and smoothing (real arithmetic)", "continuum", f"{LI}:calculateRelation", f"{LI}:makeItems")
p("LexVec update",
  "update(l1,l2,f) subtracts d*v2(old) from v1 and d*v1(old) from v2 with d = lr*(v1.v2-f) when l1 != l2, subtracts 2*d*v(old) when l1 = l2, touches no other row, and every row index produced by trainOne exists. For a small enough learning rate the error |v1.v2-f| does not grow.",
  "every parameter state, document, random state (real arithmetic)", "aliasing of rows", f"{LX}:update", f"{LX}:trainOne")
p("Save output format",
  "Save writes exactly one line per dictionary word in id order: the word, a space, then Dim values with six decimals each followed by a space; it fails exactly when the matrix has a different number of rows.",
  "every dictionary and matrix", "all sizes and values", f"{VEC}:Save")
p("Save then Load round-trips words and dimensions, values to 6 decimals",
  "Loading a saved file yields the same words in the same order, the same dimension, and values equal to the float64 nearest to the 6-decimal rounding (absolute error at most 5e-7 plus half an ulp), provided Dim >= 1 and no line reaches 64 KiB; otherwise Load fails.",
  "every dictionary of space-free words and every matrix of float64 values (NaN and infinities included)", "all float64 values, all texts", f"{VEC}:Save", f"{EMB}:Load", f"{EMB}:parseLine")
p("Save-Load-Save is idempotent",
  "Saving the embeddings loaded from a saved file reproduces the file byte for byte.",
  "every float64 matrix", "decimal/binary double rounding for all 2^64 doubles", f"{VEC}:Save", f"{EMB}:Load")
p("Save reports write failures",
  "If the writer fails to take all bytes, Save returns an error.",
  "every failing writer", "error paths: bufio's error and Flush's error are dropped", f"{VEC}:Save")
p("Load validates everything or fails",
  "If Load succeeds, the result has one embedding per line not starting with a space, in order, each with a non-empty word, Dim = len(Vector) >= 1 and Norm the Euclidean norm; it fails if some such line has fewer than two fields or a non-number (in particular on every blank line).",
  "every input text", "all texts", f"{EMB}:Load", f"{EMB}:parse", f"{EMB}:parseLine")
p("search.New accepts exactly dimension-consistent embeddings",
  "New succeeds exactly when all embeddings have the same Dim; it keeps all items in order; searching embeddings obtained from Load never panics for k >= 1.",
  "every list of embeddings", "all lists", f"{SE}:New", f"{EMB}:Validate")
p("Search returns the k most similar items",
  "For k >= 1 the non-blank results are items that are not ignored and have similarity > 0, each item at most once, in descending similarity; whenever a qualifying item is missing, the result is full (k entries) and no result is less similar than that item.",
  "every item list, query, ignore set and k >= 1, for every NaN-aware comparison", "all ties, orders, NaNs", f"{SE}:Search")
p("Search ranks",
  "The i-th returned neighbour (from 1) has Rank i, and the similarity reported is the cosine of that item with the query.",
  "every item list, query, k >= 1", "all insertion orders", f"{SE}:Search")
p("Search never returns blank entries",
  "Every returned neighbour is a real item; if fewer than k items qualify, exactly those are returned.",
  "every item list and k", "false when fewer than k-1 items qualify: the guard keeps the last blank index, not the first", f"{SE}:Search")
p("Exact size of search results",
  "If at least k items qualify, k neighbours are returned; otherwise exactly k-1 entries are returned, the qualifying ones first and blank entries after; k = 0 panics exactly when some item qualifies; k < 0 panics.",
  "every item list, query, k", "all sizes", f"{SE}:Search")
p("SearchInternal excludes the query word and fails exactly when it is absent",
  "SearchInternal(w,k) fails exactly when w is empty or no item has the word w; otherwise it never returns w, and the query vector is the first item named w.",
  "every item list, word, k >= 1", "all lists with duplicates", f"{SE}:SearchInternal")
p("Cosine similarity laws",
  "With norms computed by Norm: Cosine is symmetric, in [-1,1], 0 when a norm is 0, 1 for a vector with itself (non-zero), invariant under positive scaling, and negated by negation (real arithmetic).",
  "all real vectors of equal length", "continuum", f"{SU}:Cosine", "pkg/embedding/embutil/embutil.go:Norm")
p("Console evaluates word arithmetic",
  "A line 'x + y' or 'x - y' with two known words searches with the element-wise sum or difference of the first embeddings of these names and excludes both words from the result; a single known word behaves like SearchInternal.",
  "every searcher and words", "all searchers", f"{CON}:eval", f"{CON}:evalBinaryExpr", f"{OP}:elementWise")
p("Console lines are independent",
  "The outcome of a console line depends only on the searcher and the line, not on the lines evaluated before it (including failed ones).",
  "every history of lines", "all histories", f"{CON}:eval")
p("Console reports every invalid expression",
  "A line whose expression cannot be evaluated (unknown word, nested expression, unsupported operator) yields an error and no result table.",
  "every expression tree", "false: errors of the right operand are swallowed; 'a < b + c' even answers b + c", f"{CON}:evalBinaryExpr", f"{CON}:evalAsEmbedding")
p("Console run loop ends exactly on exit",
  "Run returns exactly at the first 'exit' line; on end of input (Ctrl-D) without it, the loop never ends.",
  "every input stream", "non-termination", f"{CON}:Run")
p("Training commands never overwrite an existing output and need an existing input",
  "word2vec/glove/lexvec commands leave an existing output file unchanged and fail; they create nothing when the input is missing.",
  "every file system state, option and training outcome", "all failure points", "cmd/model/word2vec/word2vec.go:execute", "cmd/model/glove/glove.go:execute", "cmd/model/lexvec/lexvec.go:execute")
p("A failed training command leaves no output file",
  "If Train or opening the input fails, no output file is left behind, so the command can be retried.",
  "every failure point", "false: the empty output file stays and blocks the retry", "cmd/model/word2vec/word2vec.go:execute")
p("Options: last setting wins, other fields untouched, CLI defaults equal SDK defaults",
  "New applies options left to right on the defaults; each option changes only its field; a command run without flags uses exactly DefaultOptions().",
  "every option list", "all lists of options", "pkg/model/word2vec/options.go", "pkg/model/glove/options.go", "pkg/model/lexvec/options.go")
p("The saved vocabulary is the whole corpus vocabulary",
  "After Train and Save, the file lists exactly the distinct (lower-cased) words of the corpus in first-occurrence order, whatever MinCount/MaxCount, model, iteration count or schedule; file-backed and in-memory runs list the same words.",
  "every document, option, schedule", "all documents and schedules", f"{WV}:Train", f"{WV}:Save", f"{VEC}:Save", f"{GL}:Save", f"{LX}:Save")
p("Filtered words keep their initial vectors in word2vec",
  "For every interleaving of training steps, and so after every Train, the word-vector row of a word outside the count limits is unchanged from its random initialisation.",
  "every schedule of training steps over every document", "invariant over all histories", f"{WV}:trainPerThread", f"{WM}:skipGram.trainOne", f"{WM}:cbow.trainOne")
import sys
exec(open(os.path.join(os.path.dirname(os.path.abspath(__file__)),"props_more.py")).read()) if os.path.exists(os.path.join(os.path.dirname(os.path.abspath(__file__)),"props_more.py")) else None
with open("/verif/properties.jsonl","w") as f:
    for x in P: f.write(json.dumps(x,ensure_ascii=False)+"\n")
print(len(P))
