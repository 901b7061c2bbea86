# notes[id] = (status, note)
notes['C01'] = ('proved', 'Full statement over every sequence of Add calls; negative ids (never returned by the API) are shown to panic.')
notes['C02'] = ('proved', 'Full statement over every sequence of Add calls.')
notes['C03'] = ('proved', 'Full statement on uint64; the 2^32 bound is shown necessary by C03_collision.')
notes['C04'] = ('proved', 'Exact over the reals for every call sequence; in the binary64 model exact up to 2^53 calls per pair and shown to stay at 2^53 afterwards. Ids below 2^32 (C03).')
notes['C05'] = ('proved', 'Real arithmetic; the failure condition and key structure do not depend on the arithmetic.')
notes['C06'] = ('proved', 'For every callback and every readable document; bufio.Scanner is trusted library code, modelled at token level.')
notes['C07'] = ('proved', 'Exact 64 KiB limit for one-byte white space (k = 1); for multi-byte white space the separator counts too (k <= 3).')
notes['C08'] = ('partial', 'The property is FALSE of the code for every window >= 3 (C08_false_for_windows_from_3, all documents longer than the window) and for short documents; proved for windows 1 and 2 on longer documents.')
notes['C09'] = ('proved', 'Complete description of the calls for every window and every readable document.')
notes['C10'] = ('proved', 'Every dictionary, every word, every limit.')
notes['C11'] = ('proved', 'Every readable document and configuration; strings.ToLower is an arbitrary function.')
notes['C12'] = ('proved', 'Every readable document, batch size >= 1; channel operations in order. Read error: no close (used by C39).')
notes['C13'] = ('proved', '')
notes['C14'] = ('proved', 'Over the reals, and in binary64 up to 2^53 occurrences; dictionaries of at most 2^32 words.')
notes['C15'] = ('partial', 'The property is FALSE of the code: three counter-examples (window 3, one-word document, lower-casing). Proved for windows 1 and 2, document longer than the window, words unchanged by lower-casing.')
notes['C16'] = ('proved', 'Memory corpus, and file corpus for windows of at least 1. Lower-casing is any idempotent function that erases no word.')
notes['C17'] = ('proved', 'Every dictionary with at least two words, every vector size >= 0 (negative size panics in make).')
notes['C18'] = ('proved', 'Against all Kraft length assignments and, through Mathlib\'s Kraft-McMillan inequality, all uniquely decodable codes.')
notes['C19'] = ('proved', 'Every history of sequential GetPath calls on word nodes.')
notes['C20'] = ('partial', 'The documented behaviour is FALSE: depth 0 gives the empty path on every tree (C20_depth_zero_is_empty). Proved: any depth >= Len() gives the full path.')
notes['C21'] = ('proved', 'Over the reals, every score function.')
notes['C22'] = ('partial', 'FALSE of the code: a schedule returning the empty path for every chain, and a schedule that corrupts the cache for good. Proved for a warm cache, any number of callers and schedules, and for a lone caller.')
notes['C23'] = ('proved', 'Every state and every positive bound on uint64; full period 2^64 proved algebraically.')
notes['C24'] = ('proved', '')
notes['C25'] = ('proved', 'Every positive thread count and every length, on the exact integer arithmetic of the loop.')
notes['C26'] = ('proved', 'Every shape and every sequence of row writes.')
notes['C27'] = ('proved', 'Real arithmetic for the probability; monotonicity and the ranges also in the binary64 model (rounded sqrt and division).')
notes['C32'] = ('proved', 'Real arithmetic, every x in (-6,6); and float64 (C32_float64), every double strictly between -6 and 6 except the one C33 names, for every math.Exp that is accurate to 2^-40 relative on [-7, 7] (ExpAccurate; goodLib shows such a library exists).')
notes['C33'] = ('partial', 'FALSE of the code at exactly one float64 (the largest below 6) and at NaN: the index is 1000 and the lookup panics. Proved for every other float64 in (-6,6).')
notes['C53'] = ('proved', 'Every list of embeddings; no-panic for every validated list (which Load guarantees, C52).')
notes['C54'] = ('proved', 'For every arithmetic with a NaN-aware total preorder; instances for the reals and for binary64 with NaN. Items with non-empty words (Embedding.Validate).')
notes['C55'] = ('proved', '')
notes['C56'] = ('partial', 'FALSE of the code whenever at least two fewer than k items qualify (C56_false, every such input). Proved when at least k-1 items qualify.')
notes['C57'] = ('proved', 'Exact result size and content for every k.')
notes['C58'] = ('proved', 'Holds for all items, even of inconsistent dimensions.')
notes['C59'] = ('proved', 'Real arithmetic.')
notes['C60'] = ('proved', 'go/parser.ParseExpr is a parameter; the statement is about the parsed expression.')
notes['C61'] = ('proved', 'Every history, including failed and panicking lines; relies on the deferred reset.')
notes['C62'] = ('partial', 'FALSE of the code: x + unknown prints k-1 blank rows without error (C62_false_unknown, float64) and x == y + z prints the neighbours of y + z (C62_false_nested). Exact characterisation of the lines that do return an error proved.')
notes['C63'] = ('proved', 'Includes that Run never panics on a valid searcher with k >= 1 and never ends without an exit line.')
notes['C64'] = ('proved', 'Every file system, every outcome of system calls and training. With profiling the file cpu.prof is excepted (C64_prof_corner shows why).')
notes['C65'] = ('partial', 'FALSE of the code: every failure of Open or Train leaves an empty output file, and the retry fails (C65_false). Proved for failures before the output is created.')
notes['C66'] = ('proved', 'All fields of the three option records, every list of options and of flags.')
notes['C28'] = ('proved', 'Every window below 2^62 (no int overflow), every loop body.')
notes['C29'] = ('proved', 'Frame for every optimizer and arithmetic; totality for every optimizer meeting a contract that negative sampling meets over the reals (and wherever the sigmoid lookup is safe, see C33 for float64).')
notes['C30'] = ('partial', 'FALSE of the code: the window is drawn again for the update, so for every even window, interior position and even number of optimizer draws the two sets differ (C30_false). Proved: the exact step (which rows are summed, which are updated and how often) and equality when both draws agree.')
notes['C31'] = ('proved', 'Real arithmetic; each pick is a logistic-regression step with probability error at most 0.003. In float64 (C31_float64): for every accurate math.Exp the call performs one rounded logistic step per pick, or panics with index out of range at a pick whose score is NaN or the last double below 6 (C33).')
notes['C69'] = ('proved', 'Real arithmetic; Inv is established by the fresh tree and preserved by every call. In float64 (C69_float64): rounded logistic steps along the path, or the index panic of C33.')
notes['C70'] = ('proved', 'Real arithmetic. In float64 the only additional panic is the sigmoid lookup of C33.')
notes['C34'] = ('partial', 'FALSE of the code: the observer stores the uncorrected rate and only the next update corrects it, so workers read a rate below MinLR (C34_refuted over the reals, C34_refuted_float64 on binary64). Proved: the rate a worker sees is below MinLR only between one update and the next.')
notes['C35'] = ('proved', 'Every history of overlapping observers over the reals (reads and writes of the shared rate interleaved arbitrarily); the range also in binary64.')
notes['C37'] = ('proved', 'Labelled transition system of producer, main loop, workers, semaphore, wait group and observer channel; every schedule, every list of batches, every goroutine count >= 1. Sequentially consistent shared memory.')
notes['C38'] = ('proved', 'Every schedule.')
notes['C39'] = ('partial', 'FALSE of the code: a reader failing during a pass makes the producer send nothing more and the error is dropped (C39_refuted, C39_refuted_any_error).')
notes['C70'] = ('proved', 'Real arithmetic.')
notes['C40'] = ('proved', 'Real arithmetic, and any arithmetic with float64 as an instance (C40_items_any, C40_items_float64: exact counts up to 2^53, whatever math.Log and math.Pow return); every sequence of Add calls of either count type and every map enumeration order, and every in-memory document.')
notes['C41'] = ('proved', 'Real arithmetic. The learning-rate bound of the descent theorem is explicit (g|R| <= 1 and g(3S+4) <= 4).')
notes['C42'] = ('proved', 'Real arithmetic, every sequence of items.')
notes['C45'] = ('proved', 'Any arithmetic, both corpora, both solvers, any order and repetition of items; the empty document panics.')
notes['C46'] = ('proved', 'Real arithmetic, and any arithmetic with float64 as an instance (C46_items_any, C46_items_float64: exact counts up to 2^53, whatever math.Log and math.Pow return); every enumeration order. f1 belongs to the smaller id and f2 (the smoothed one) to the larger id, whichever of them is the context.')
notes['C47'] = ('proved', 'Real arithmetic for the values; totality and frame for any arithmetic, random state and learning-rate sequence.')
notes['C48'] = ('proved', 'Every complete writer, dictionary and float64 matrix (NaN, infinities, negative zero included); correct rounding of the text is part of the statement.')
notes['C49'] = ('proved', 'binary64, every matrix; ReadsBack says: a double with the same sign nearest to the six-decimal rounding. Loading fails for zero columns or lines of 64 KiB.')
notes['C50'] = ('proved', 'binary64; every saved file that loads.')
notes['C51'] = ('partial', 'FALSE of the code: the errors of WriteString and Flush are dropped (C51_refuted_errors_ignored for every writer). A disk with room for cap bytes keeps exactly the first cap bytes, Save returns nil (C51_refuted_full_disk), and for every m there is such a disk after which Load, too, succeeds with only the first m words (C51_refuted_words_lost). Proved: what was written is a prefix of the file, and nothing is written after a failed write.')
notes['C52'] = ('proved', 'Every text and reader; exact characterisation of success. The main theorems hold for every parser of the number forms other than plain decimals, NaN and signed Inf (parameter); C52_scientific, C52_nan, C52_infinity and C52_only_numbers instantiate it with exponents and all spellings of the special values (Model/ParseFloat); C52_hexadecimal, C52_underscores and C52_only_numbers_all close the remaining forms (Model/ParseHex), so that goFloat is strconv.ParseFloat on every string.')
notes['C71'] = ('proved', 'Save only; the corpora and observers compute the same remainder when verbose (not modelled there).')

notes['C36'] = ('proved', 'Set-up part of Train for every reader and random state, Dim >= 0, Goroutines >= 0, file-backed window >= 1. LexVec reports the relation type only when at least one pair was counted (stated in the theorem).')
notes['C39'] = ('partial', 'FALSE of the code: a reader failing during a training pass makes the producer send nothing more and the error is dropped (C39_refuted, C39_refuted_any_error). Proved: an error while loading the corpus is returned and the loop does not run.')
notes['C43'] = ('proved', 'Every trained state of the right shape, both vector types, all three models, any arithmetic.')
notes['C44'] = ('partial', 'FALSE of the code for GloVe and LexVec: single gives word plus context and agg gives the word vector alone (C44_refuted, C44_glove_lexvec_swapped). Proved for word2vec, exact behaviour of the others.')
notes['C72'] = ('proved', 'Both corpora, every readable document. GloVe with prox: the shapes whenever set-up succeeds (when it succeeds for prox is C16).')
notes['C67'] = ('proved', 'binary64, every schedule and memory model, both corpora, any writer that takes everything. The shape of the matrices is constant in the model (Go slices never change length here); the content of the rows is arbitrary.')
notes['C68'] = ('proved', 'Any arithmetic, every interleaving of single loads and stores, any values for racing loads; word2vec, and the word rows of LexVec.')
notes['C73'] = ('proved', 'GloVe and LexVec in any arithmetic; word2vec over the reals (in binary64 the sigmoid lookup can panic, C33). Loads return arbitrary values, GetPath an arbitrary node list.')
notes['C74'] = ('proved', 'Load/store programs without the channels and the semaphore; those are C37.')
notes['C75'] = ('proved', 'Sequential consistency; iterations separated by wg.Wait(). Any arithmetic.')
notes['C76'] = ('proved', 'Sequential consistency, semaphore and wg.Wait() modelled, observers not waited for. Any arithmetic.')
notes['C76'] = ('partial', 'LexVec proved; word2vec pending. Sequential consistency, semaphore and wg.Wait() modelled, observers not waited for. Any arithmetic.')
notes['C77'] = ('proved', 'Real arithmetic; items carry their true norms, as Load computes them.')
notes['C78'] = ('proved', 'Formulas in any arithmetic, ranges over the reals.')
notes['C79'] = ('proved', 'binary64; ParseFloat outside the %f subset is a parameter. Table printing is not modelled.')
notes['C76'] = ('proved', 'word2vec (negative sampling and hierarchical softmax) and LexVec. Sequential consistency, semaphore and wg.Wait() modelled, observers not waited for. Any arithmetic; that complete executions of word2vec exist is proved when the sigmoid table covers all scores (real arithmetic).')
notes['C80'] = ('proved', 'The clock value in a progress line is not modelled, only the counts. Any arithmetic.')
notes['C81'] = ('proved', 'Real arithmetic and float64.')
notes['C82'] = ('proved', 'Any arithmetic. C82_words is about the full channel/semaphore system; the rates are proved on a system reduced to the operations on currentlr and trained, with one observer.')
notes['C83'] = ('proved', 'float64; math.Exp etc. any functions; writes of the output file succeed (failing writes: C51). GloVe and LexVec on a file-backed corpus need window >= 1. Verbose printing itself is C80.')
notes['C84'] = ('proved', 'GloVe and LexVec in any arithmetic; word2vec in real arithmetic (the sigmoid lookup of a NaN panics in float64). Fewer than 2^53 items; not verbose or LogBatch not 0.')
notes['C71'] = ('proved', 'vector.Save. The verbose output of corpora, item building and observers is C80.')
notes['C74'] = ('proved', 'Any arithmetic, every memory model in which loads return something. C74_every_iteration_ends includes the semaphore.')
notes['C85'] = ('proved', 'All three models, over histories. A partly filled co-occurrence matrix after an error is not modelled (nothing reads it).')
notes['C86'] = ('proved', 'float64 for WordVector/Save; the independence of the history in any arithmetic; that word2vec cannot fail, in real arithmetic.')
notes['C87'] = ('partial', 'False of the code: Train replaces the corpus before it reads, so words get the rows of other words (C87_refuted) or WordVector/Save panic (C87_*_stale); an unknown solver, relation, model or optimizer leaves untrained vectors that Save accepts (C87_*_untrained). Proved: words keep their vectors when the words read form a prefix of the old vocabulary.')
notes['C88'] = ('partial', 'False of the code for word2vec and LexVec: currentlr is set only in NewForOptions (C88_refuted for LexVec, C88_refuted_word2vec). Proved: calls on an object whose rate is Initlr behave as on a new one; GloVe always does.')
notes['C89'] = ('proved', 'The outcome of Train comes from the model of Train under the arbitrary memory model; failing mkdir/create/open are C51 and the command properties.')
notes['C90'] = ('proved', 'Any arithmetic. UpdateLRBatch(0): existence of the panicking execution only (the observer may also not have run).')
notes['C91'] = ('partial', 'False of the code: goroutines update shared rows without locks, so updates are lost (C91_refuted: corpus a b c, two goroutines, float64; hypothesis Log(1) = 0). Proved, for both solvers and any arithmetic: if goroutines that run at the same time have no variable in common, the result is that of the sequential algorithm for some order of the slices.')
notes['C75'] = ('proved', 'Sequential consistency; iterations separated by wg.Wait(). Any arithmetic. C75_train_* are about the whole method Train.')
notes['C92'] = ('partial', 'False of the code: windows do not reach over the cuts, so pieces of at most one word train nothing: for every document, BatchSize(1) file-backed, or more goroutines than kept words in memory, word2vec and LexVec leave the initial vectors (C92_refuted_*; C92_refuted: the same LexVec corpus does train with one goroutine, float64). Proved: with one goroutine and a batch that holds the whole document, in-memory and file-backed word2vec have exactly the same results, in any arithmetic.')
notes['C76'] = ('proved', 'Worker level and whole method Train (C76_train_*): with Goroutines(1) the result of every schedule is that of the sequential algorithm with exactly Iter passes, for a rate the schedule can have.')
notes['C93'] = ('proved', 'go/parser is a parameter; any arithmetic with lawful comparisons. What the terminal echoes is not modelled.')
notes['C94'] = ('proved', 'The cells of the table; the layout by tablewriter is not modelled. That blank rows can occur at all is the defect C56.')
notes['C95'] = ('proved', 'Equality of the sets of possible outcomes of Train. C95_glove_trains_filtered: a word outside MinCount is moved by GloVe (float64, Log(1) = 0).')
notes['C96'] = ('proved', 'Equality of results without ties for any arithmetic with lawful comparisons, for Search and SearchInternal; same ranks and similarities with ties in float64.')
notes['C97'] = ('partial', 'False of the code: a better word pushes the first of a group of equally similar ones behind the others (C97_false, float64: items b, c tie, then t: the results are t, c and t, c, b). Proved: with k = 1 the first of the most similar words is returned; if no item is more similar than an earlier one (e.g. all tie) the results are the first k candidates in item order. C97_exact_order_partial gives the exact order for all items and k (Spec/TieOrder): each better word that arrives later moves the first of every lower group of equals behind its group.')
notes['C98'] = ('partial', 'False of the code: two equal vectors (1,1,1) have similarity above 1; (1,1) and (1,2) have different similarities the two ways round; a vector of length 10^200 is never found (C98_false). Proved: an item or query whose norm overflows is never found / finds nothing (all vectors); vectors of equal norm have the same similarity both ways. In real arithmetic all of it holds (C59).')
notes['C90'] = ('proved', 'Any arithmetic. UpdateLRBatch(0): existence of the panicking execution only (the observer may also not have run). BatchSize <= 0 file-backed: panics in some execution and returns in none. LexVec file-backed with negative Goroutines: the only outcome is the panic of make(chan).')
notes['C99'] = ('proved', 'Any arithmetic; the commands in float64 with any Log/Pow. The panic of file-backed GloVe (C99_glove_file_panics) is a defect: at the end of a text without words ReadWordWithForwardContext reports the pair ("", "").')
notes['C98'] = ('partial', 'False of the code: two equal vectors (1,1,1) have similarity above 1; (1,1) and (1,2) have different similarities the two ways round; a vector of length 10^200 is never found (C98_false). Proved instead: for all ordinary vectors (components finite and at most 2^500, one of them at least 2^-400) of length n up to 2^20, the similarity computed in float64 is within (n+2)/2^51 of the exact cosine (C98_accuracy_partial), so the laws hold up to that error (C98_laws_partial) and a search ranks by the exact cosine up to twice that error (C98_ranking_partial); an item or query whose norm overflows is never found / finds nothing; vectors of equal norm have the same similarity both ways. In real arithmetic all of it holds (C59).')
notes['C100'] = ('partial', 'False of the code: six decimals are absolute, not relative, so the direction of a short vector is lost; (1) and (10^-7) are neighbours with similarity 1 when trained and not neighbours when loaded (C100_false), and every vector with components up to 5e-7 vanishes from all searches (C100_small_vectors_lost). Proved instead: for trained vectors with finite components up to 2^499, one of them at least 2e-6, the loaded similarity is within 2e-6 sqrt(dim) (1/|a| + 1/|b|) + (dim+2)/2^51 of the exact cosine of the trained vectors, and searches rank accordingly. Any matrix that Save writes, lines shorter than 64 KiB.')
notes['C05'] = ('proved', 'Exact over the reals; in binary64 a finite double with relative error at most (n+2)*2^-52 for n <= 2^50 adds of the pair (C05_prox_float64). The failure condition and key structure do not depend on the arithmetic.')
notes['C41'] = ('proved', 'Values over the reals, and operation by operation in any arithmetic, float64 included (C41_sgd_step_any). The learning-rate bound of the descent theorem (real arithmetic) is explicit (g|R| <= 1 and g(3S+4) <= 4).')
notes['C42'] = ('proved', 'Real arithmetic, every sequence of items; in binary64 with rounding, overflow and NaN: every accumulator stays NaN or at least 1 and NaN or at least its old value, and dividing by its root never enlarges the gradient (C42_float64_*).')
notes['C47'] = ('proved', 'Values over the reals, and operation by operation in any arithmetic, float64 included (C47_update_any); totality and frame for any arithmetic, random state and learning-rate sequence.')

notes['C73'] = ('proved', 'GloVe and LexVec in any arithmetic; word2vec over the reals, and in any arithmetic (float64 included) C73_word2vec_float64: the only panic a goroutine can reach is an index out of range (the sigmoid lookup, C33). Loads return arbitrary values, GetPath an arbitrary node list.')
notes['C84'] = ('proved', 'GloVe and LexVec in any arithmetic; word2vec cannot fail in real arithmetic; in float64 (C84_word2vec_float64, C84_word2vec_command_float64) the one failure left is an index panic, and C84_word2vec_nan_rate shows that it happens: with a NaN learning rate every schedule of a one-goroutine skip-gram run ends in it. Fewer than 2^53 items; not verbose or LogBatch not 0.')
notes['C86'] = ('proved', 'float64 for WordVector/Save; the independence of the history in any arithmetic; that word2vec cannot fail, in real arithmetic, and in any arithmetic that it can only fail with an index panic (C86_word2vec_float64).')
notes['C30'] = (notes['C30'][0], notes['C30'][1].rstrip() + ' C30_false_negative_sampling is the refutation for the actual negative sampling optimizer.')
notes['C101'] = ('proved', 'bufio.Scanner.Scan, ScanWords, ScanLines and utf8.DecodeRune modelled over bytes (Go/Scanner) and proved to agree with the token-level description (Go/Text) that the other properties use. C101_words_of_bytes and C101_lines_of_bytes specify the tokens of arbitrary bytes, valid UTF-8 or not. Readers that return the last bytes together with io.EOF or an error are included; the exception named in the statement is real (C101_eager_corner).')
notes['C102'] = ('proved', 'go/scanner and go/parser.ParseExpr written out for lines of identifiers, decimal integers, +, - and blanks (Go/ParseExpr); unicode.IsLetter/IsDigit from 0x80 on and all other lines are arbitrary parameters. Lines mixing more token kinds (b + 10, b - -d, b--d) are covered by the model and C62, not by a C102 theorem of their own.')
notes['C103'] = ('proved', 'Entries with a word (C56: blank ones may follow). Proved from the exact order of C97_exact_order_partial, in which k does not occur.')
notes['C104'] = ('proved', 'Any arithmetic. C104_samples_move (float64) shows that a negative sample does move a context vector.')
notes['C68'] = ('proved', 'Any arithmetic, every interleaving of single loads and stores, any values for racing loads; word2vec, and the word rows of LexVec. C68_train_* are about the whole method Train.')
notes['C105'] = ('proved', 'A race is a reachable state in which two goroutines are about to access the same variable, one of them writing (Spec/Race). Sends on the channel `trained` are left out for worker-worker races (they only wait for the observer) and modelled for the learning-rate race (Model/RateLag). The lazily built Huffman paths are C22.')
notes['C106'] = ('proved', 'With the complete ParseFloat (goFloat) for the value of a cut number and for the searcher; C106_cut with any reading of unusual numbers. C106_inside_character: cuts inside the bytes of one character; the bytes that remain of it are represented by characters that are not white space (Go reads each as U+FFFD).')
notes['C107'] = ('proved', 'Words of at most 65533 bytes (C07 is about longer ones). Any arithmetic and reordering of memory the training model allows.')
notes['C108'] = ('partial', 'False of GloVe and LexVec on a file-backed corpus (C108_refuted: the second pass does not lower-case). Proved for word2vec with either corpus and for GloVe and LexVec in memory; strings.ToLower is an arbitrary function.')
notes['C109'] = ('proved', 'Load with any reading of unusual numbers. A first file without a final line end runs into the second (not covered here; see C106 and C52 for what Load does then).')
notes['C110'] = ('proved', 'word2vec in real arithmetic (in float64 the sigmoid lookup can panic, C33); LexVec and GloVe (counting with inc) in any arithmetic, also when the two readings of Load find different contents. A later reading that fails never ends (C39).')
notes['C111'] = ('proved', 'The readings of a file-backed corpus are given one by one (Model/Readings.lean). For a partly consumed pipe (bufio reads ahead) see C110: whatever a later reading finds.')
notes['C112'] = ('proved', 'C112_ignore: any arithmetic, no hypotheses at all. C112_remove* need that no two words are equally similar to the query; C112_remove_false shows that this is needed. Entries with a word (C56).')
notes['C113'] = ('proved', 'Real arithmetic; C113_rescale_float64_false shows that the restriction is needed (C98 bounds the difference for ordinary float64 vectors).')
notes['C114'] = ('proved', 'With ToLower on, the replacement must commute with lower-casing (otherwise words that were different can become equal, or the reverse); with it off there is no restriction. The replacement maps the empty word to itself, which no document contains.')
notes['C115'] = ('proved', 'C115_by_word and C115_loaded: any arithmetic, float64 included. C115_self: real arithmetic; in float64 the similarity of a vector with itself is 1 up to the bound of C98.')
notes['C116'] = ('proved', 'Results without blank entries (C56). C116_float64: a loaded file in which two words with equal non-zero vectors do not find each other.')
notes['C117'] = ('proved', 'C117_longer: if the norm of the query or all norms of the items are zero nothing is multiplied and C116 applies. C117_shorter: real arithmetic.')
notes['C118'] = ('proved', 'C118_sum: any arithmetic whose addition commutes (float64 does, f64_add_comm). C118_difference: real arithmetic, different words. C118_twice: real arithmetic. C118_minus_itself: float64, finite values. C118_false_unknown: the code with an unknown word (see C62).')
