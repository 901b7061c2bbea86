{
 "claims": [
  {
   "property": "C01",
   "status": "proved",
   "theorems": [
    "Wego.Props.C01_dictionary_ids",
    "Wego.Props.C01_negative_id_panics"
   ],
   "note": "Full statement over every sequence of Add calls; negative ids (never returned by the API) are shown to panic."
  },
  {
   "property": "C02",
   "status": "proved",
   "theorems": [
    "Wego.Props.C02_dictionary_freqs"
   ],
   "note": "Full statement over every sequence of Add calls."
  },
  {
   "property": "C03",
   "status": "proved",
   "theorems": [
    "Wego.Props.C03_decode_encode",
    "Wego.Props.C03_encode_eq_iff",
    "Wego.Props.C03_encode_comm",
    "Wego.Props.C03_collision"
   ],
   "note": "Full statement on uint64; the 2^32 bound is shown necessary by C03_collision."
  },
  {
   "property": "C04",
   "status": "proved",
   "theorems": [
    "Wego.Props.C04_inc_counts",
    "Wego.Props.C04_inc_counts_f64",
    "Wego.Props.C04_f64_saturates"
   ],
   "note": "Exact over the reals for every call sequence; in the binary64 model exact up to 2^53 calls per pair and shown to stay at 2^53 afterwards. Ids below 2^32 (C03)."
  },
  {
   "property": "C05",
   "status": "proved",
   "theorems": [
    "Wego.Props.C05_new",
    "Wego.Props.C05_new_invalid",
    "Wego.Props.C05_prox_add",
    "Wego.Props.C05_prox_counts",
    "Wego.Props.C05_prox_float64"
   ],
   "note": "Exact over the reals; in binary64 a finite double with relative error at most (n+2)*2^-52 for n <= 2^50 adds of the pair (C05_prox_float64). The failure condition and key structure do not depend on the arithmetic."
  },
  {
   "property": "C06",
   "status": "proved",
   "theorems": [
    "Wego.Props.C06_words_exist_unique",
    "Wego.Props.C06_readWord",
    "Wego.Props.C06_readWord_any_space",
    "Wego.Props.C06_runs_unique",
    "Wego.Props.C06_whitespace_irrelevant"
   ],
   "note": "For every callback and every readable document; bufio.Scanner is trusted library code, modelled at token level."
  },
  {
   "property": "C07",
   "status": "proved",
   "theorems": [
    "Wego.Props.C07_no_error",
    "Wego.Props.C07_too_long",
    "Wego.Props.C07_read_error"
   ],
   "note": "Exact 64 KiB limit for one-byte white space (k = 1); for multi-byte white space the separator counts too (k <= 3)."
  },
  {
   "property": "C08",
   "status": "partial",
   "theorems": [
    "Wego.Props.C08_all_pairs_partial",
    "Wego.Props.C08_false_for_windows_from_3",
    "Wego.Props.C08_false_for_short_documents"
   ],
   "note": "The property is FALSE of the code for every window >= 3 (C08_false_for_windows_from_3, all documents longer than the window) and for short documents; proved for windows 1 and 2 on longer documents."
  },
  {
   "property": "C09",
   "status": "proved",
   "theorems": [
    "Wego.Props.C09_long",
    "Wego.Props.C09_short",
    "Wego.Props.C09_empty",
    "Wego.Props.C09_window_zero",
    "Wego.Props.C09_window_negative"
   ],
   "note": "Complete description of the calls for every window and every readable document."
  },
  {
   "property": "C10",
   "status": "proved",
   "theorems": [
    "Wego.Props.C10_filters",
    "Wego.Props.C10_keep_all"
   ],
   "note": "Every dictionary, every word, every limit."
  },
  {
   "property": "C11",
   "status": "proved",
   "theorems": [
    "Wego.Props.C11_memory_corpus",
    "Wego.Props.C11_memory_corpus_with",
    "Wego.Props.C11_memory_read_error"
   ],
   "note": "Every readable document and configuration; strings.ToLower is an arbitrary function."
  },
  {
   "property": "C12",
   "status": "proved",
   "theorems": [
    "Wego.Props.C12_batches",
    "Wego.Props.C12_batch_size_zero",
    "Wego.Props.C12_batches_read_error"
   ],
   "note": "Every readable document, batch size >= 1; channel operations in order. Read error: no close (used by C39)."
  },
  {
   "property": "C13",
   "status": "proved",
   "theorems": [
    "Wego.Props.C13_corpora_agree"
   ],
   "note": ""
  },
  {
   "property": "C14",
   "status": "proved",
   "theorems": [
    "Wego.Props.C14_memory_cooccurrence",
    "Wego.Props.C14_memory_cooccurrence_f64"
   ],
   "note": "Over the reals, and in binary64 up to 2^53 occurrences; dictionaries of at most 2^32 words."
  },
  {
   "property": "C15",
   "status": "partial",
   "theorems": [
    "Wego.Props.C15_corpora_agree_partial",
    "Wego.Props.C15_fs_cooccurrence",
    "Wego.Props.C15_false_window_3",
    "Wego.Props.C15_false_short",
    "Wego.Props.C15_false_lower"
   ],
   "note": "The property is FALSE of the code: three counter-examples (window 3, one-word document, lower-casing). Proved for windows 1 and 2, document longer than the window, words unchanged by lower-casing."
  },
  {
   "property": "C16",
   "status": "proved",
   "theorems": [
    "Wego.Props.C16_prox_load",
    "Wego.Props.C16_file",
    "Wego.Props.C16_file_short",
    "Wego.Props.C16_file_lower"
   ],
   "note": "Memory corpus, and file corpus for windows of at least 1. Lower-casing is any idempotent function that erases no word."
  },
  {
   "property": "C17",
   "status": "proved",
   "theorems": [
    "Wego.Props.C17_huffman_complete_prefix_code"
   ],
   "note": "Every dictionary with at least two words, every vector size >= 0 (negative size panics in make)."
  },
  {
   "property": "C18",
   "status": "proved",
   "theorems": [
    "Wego.Props.C18_huffman_optimal_kraft",
    "Wego.Props.C18_huffman_optimal"
   ],
   "note": "Against all Kraft length assignments and, through Mathlib's Kraft-McMillan inequality, all uniquely decodable codes."
  },
  {
   "property": "C19",
   "status": "proved",
   "theorems": [
    "Wego.Props.C19_getPath",
    "Wego.Props.C19_negative_depth"
   ],
   "note": "Every history of sequential GetPath calls on word nodes."
  },
  {
   "property": "C20",
   "status": "partial",
   "theorems": [
    "Wego.Props.C20_depth_zero_is_empty",
    "Wego.Props.C20_full_path_partial"
   ],
   "note": "The documented behaviour is FALSE: depth 0 gives the empty path on every tree (C20_depth_zero_is_empty). Proved: any depth >= Len() gives the full path."
  },
  {
   "property": "C21",
   "status": "proved",
   "theorems": [
    "Wego.Props.C21_softmax_sums_to_one"
   ],
   "note": "Over the reals, every score function."
  },
  {
   "property": "C22",
   "status": "partial",
   "theorems": [
    "Wego.Props.C22_false_empty_path",
    "Wego.Props.C22_false_corrupted_cache",
    "Wego.Props.C22_warm_cache_partial",
    "Wego.Props.C22_alone_partial"
   ],
   "note": "FALSE of the code: a schedule returning the empty path for every chain, and a schedule that corrupts the cache for good. Proved for a warm cache, any number of callers and schedules, and for a lone caller."
  },
  {
   "property": "C23",
   "status": "proved",
   "theorems": [
    "Wego.Props.C23_nextRandom_range",
    "Wego.Props.C23_sequence",
    "Wego.Props.C23_not_positive",
    "Wego.Props.C23_period",
    "Wego.Props.C23_every_value_is_drawn"
   ],
   "note": "Every state and every positive bound on uint64; full period 2^64 proved algebraically."
  },
  {
   "property": "C24",
   "status": "proved",
   "theorems": [
    "Wego.Props.C24_parity_alternates",
    "Wego.Props.C24_low_bits_period"
   ],
   "note": ""
  },
  {
   "property": "C25",
   "status": "proved",
   "theorems": [
    "Wego.Props.C25_indexPerThread",
    "Wego.Props.C25_slices_balanced",
    "Wego.Props.C25_slices_partition"
   ],
   "note": "Every positive thread count and every length, on the exact integer arithmetic of the loop."
  },
  {
   "property": "C26",
   "status": "proved",
   "theorems": [
    "Wego.Props.C26_new",
    "Wego.Props.C26_rows_are_disjoint",
    "Wego.Props.C26_slice_bounds",
    "Wego.Props.C26_column_bounds"
   ],
   "note": "Every shape and every sequence of row writes."
  },
  {
   "property": "C27",
   "status": "proved",
   "theorems": [
    "Wego.Props.C27_accept_probability",
    "Wego.Props.C27_accept_shape",
    "Wego.Props.C27_float64",
    "Wego.Props.C27_float64_ends"
   ],
   "note": "Real arithmetic for the probability; monotonicity and the ranges also in the binary64 model (rounded sqrt and division)."
  },
  {
   "property": "C28",
   "status": "proved",
   "theorems": [
    "Wego.Props.C28_window_positions",
    "Wego.Props.C28_skipgram"
   ],
   "note": "Every window below 2^62 (no int overflow), every loop body."
  },
  {
   "property": "C29",
   "status": "proved",
   "theorems": [
    "Wego.Props.C29_only_context_rows_change",
    "Wego.Props.C29_step_total",
    "Wego.Props.C29_skipgram_negative_sampling"
   ],
   "note": "Frame for every optimizer and arithmetic; totality for every optimizer meeting a contract that negative sampling meets over the reals (and wherever the sigmoid lookup is safe, see C33 for float64)."
  },
  {
   "property": "C30",
   "status": "partial",
   "theorems": [
    "Wego.Props.C30_cbow_step_partial",
    "Wego.Props.C30_false",
    "Wego.Props.C30_false_negative_sampling"
   ],
   "note": "FALSE of the code: the window is drawn again for the update, so for every even window, interior position and even number of optimizer draws the two sets differ (C30_false). Proved: the exact step (which rows are summed, which are updated and how often) and equality when both draws agree. C30_false_negative_sampling is the refutation for the actual negative sampling optimizer."
  },
  {
   "property": "C31",
   "status": "proved",
   "theorems": [
    "Wego.Props.C31_optim_is_logistic_regression",
    "Wego.Props.C31_directions",
    "Wego.Props.C31_negative_size",
    "Wego.Props.C31_float64"
   ],
   "note": "Real arithmetic; each pick is a logistic-regression step with probability error at most 0.003. In float64 (C31_float64): for every accurate math.Exp the call performs one rounded logistic step per pick, or panics with index out of range at a pick whose score is NaN or the last double below 6 (C33)."
  },
  {
   "property": "C32",
   "status": "proved",
   "theorems": [
    "Wego.Props.C32_sigmoid_accuracy",
    "Wego.Props.C32_float64"
   ],
   "note": "Real arithmetic, every x in (-6,6); and float64 (C32_float64), every double strictly between -6 and 6 except the one C33 names, for every math.Exp that is accurate to 2^-40 relative on [-7, 7] (ExpAccurate; goodLib shows such a library exists)."
  },
  {
   "property": "C33",
   "status": "partial",
   "theorems": [
    "Wego.Props.C33_sigmoid_index",
    "Wego.Props.C33_lookup_partial",
    "Wego.Props.C33_false"
   ],
   "note": "FALSE of the code at exactly one float64 (the largest below 6) and at NaN: the index is 1000 and the lookup panics. Proved for every other float64 in (-6,6)."
  },
  {
   "property": "C34",
   "status": "partial",
   "theorems": [
    "Wego.Props.C34_corrected_at_next_update_partial",
    "Wego.Props.C34_refuted",
    "Wego.Props.C34_refuted_float64"
   ],
   "note": "FALSE of the code: the observer stores the uncorrected rate and only the next update corrects it, so workers read a rate below MinLR (C34_refuted over the reals, C34_refuted_float64 on binary64). Proved: the rate a worker sees is below MinLR only between one update and the next."
  },
  {
   "property": "C35",
   "status": "proved",
   "theorems": [
    "Wego.Props.C35_batch_zero_panics",
    "Wego.Props.C35_only_at_multiples",
    "Wego.Props.C35_rate_in_range",
    "Wego.Props.C35_rate_in_range_float64",
    "Wego.Props.C35_sequential_is_run"
   ],
   "note": "Every history of overlapping observers over the reals (reads and writes of the shared rate interleaved arbitrarily); the range also in binary64."
  },
  {
   "property": "C36",
   "status": "proved",
   "theorems": [
    "Wego.Props.C36_word2vec",
    "Wego.Props.C36_glove",
    "Wego.Props.C36_lexvec"
   ],
   "note": "Set-up part of Train for every reader and random state, Dim >= 0, Goroutines >= 0, file-backed window >= 1. LexVec reports the relation type only when at least one pair was counted (stated in the theorem)."
  },
  {
   "property": "C37",
   "status": "proved",
   "theorems": [
    "Wego.Props.C37_no_panic",
    "Wego.Props.C37_at_most_goroutines",
    "Wego.Props.C37_buffers_never_block",
    "Wego.Props.C37_gives_back",
    "Wego.Props.C37_no_deadlock",
    "Wego.Props.C37_terminates",
    "Wego.Props.C37_no_infinite_run",
    "Wego.Props.C37_maximal_run_completes",
    "Wego.Props.C37_can_complete",
    "Wego.Props.C37_every_word_once",
    "Wego.Props.C37_count_bound",
    "Wego.Props.C37_all_iterations",
    "Wego.Props.C37_file_backed",
    "Wego.Props.C37_in_memory"
   ],
   "note": "Labelled transition system of producer, main loop, workers, semaphore, wait group and observer channel; every schedule, every list of batches, every goroutine count >= 1. Sequentially consistent shared memory."
  },
  {
   "property": "C38",
   "status": "proved",
   "theorems": [
    "Wego.Props.C38_file_backed_never_returns",
    "Wego.Props.C38_standstill",
    "Wego.Props.C38_in_memory_trains_nothing"
   ],
   "note": "Every schedule."
  },
  {
   "property": "C39",
   "status": "partial",
   "theorems": [
    "Wego.Props.C39_load_error_partial",
    "Wego.Props.C39_refuted",
    "Wego.Props.C39_refuted_any_error"
   ],
   "note": "FALSE of the code: a reader failing during a training pass makes the producer send nothing more and the error is dropped (C39_refuted, C39_refuted_any_error). Proved: an error while loading the corpus is returned and the loop does not run."
  },
  {
   "property": "C40",
   "status": "proved",
   "theorems": [
    "Wego.Props.C40_items",
    "Wego.Props.C40_items_of_document",
    "Wego.Props.C40_items_any",
    "Wego.Props.C40_items_float64"
   ],
   "note": "Real arithmetic, and any arithmetic with float64 as an instance (C40_items_any, C40_items_float64: exact counts up to 2^53, whatever math.Log and math.Pow return); every sequence of Add calls of either count type and every map enumeration order, and every in-memory document."
  },
  {
   "property": "C41",
   "status": "proved",
   "theorems": [
    "Wego.Props.C41_sgd_step_any",
    "Wego.Props.C41_sgd_step",
    "Wego.Props.C41_zero_step",
    "Wego.Props.C41_descent",
    "Wego.Props.C41_rows_differ"
   ],
   "note": "Values over the reals, and operation by operation in any arithmetic, float64 included (C41_sgd_step_any). The learning-rate bound of the descent theorem (real arithmetic) is explicit (g|R| <= 1 and g(3S+4) <= 4)."
  },
  {
   "property": "C42",
   "status": "proved",
   "theorems": [
    "Wego.Props.C42_step_any",
    "Wego.Props.C42_float64_step",
    "Wego.Props.C42_float64_divisor",
    "Wego.Props.C42_float64_history",
    "Wego.Props.C42_start",
    "Wego.Props.C42_step",
    "Wego.Props.C42_history"
   ],
   "note": "Real arithmetic, every sequence of items; in binary64 with rounding, overflow and NaN: every accumulator stays NaN or at least 1 and NaN or at least its old value, and dividing by its root never enlarges the gradient (C42_float64_*)."
  },
  {
   "property": "C43",
   "status": "proved",
   "theorems": [
    "Wego.Props.C43_word2vec_shape",
    "Wego.Props.C43_glove_shape",
    "Wego.Props.C43_lexvec_shape",
    "Wego.Props.C43_save_word_vectors"
   ],
   "note": "Every trained state of the right shape, both vector types, all three models, any arithmetic."
  },
  {
   "property": "C44",
   "status": "partial",
   "theorems": [
    "Wego.Props.C44_word2vec_partial",
    "Wego.Props.C44_glove_lexvec_swapped",
    "Wego.Props.C44_refuted"
   ],
   "note": "FALSE of the code for GloVe and LexVec: single gives word plus context and agg gives the word vector alone (C44_refuted, C44_glove_lexvec_swapped). Proved for word2vec, exact behaviour of the others."
  },
  {
   "property": "C45",
   "status": "proved",
   "theorems": [
    "Wego.Props.C45_index_safe",
    "Wego.Props.C45_empty_document_panics"
   ],
   "note": "Any arithmetic, both corpora, both solvers, any order and repetition of items; the empty document panics."
  },
  {
   "property": "C46",
   "status": "proved",
   "theorems": [
    "Wego.Props.C46_items_any",
    "Wego.Props.C46_items_float64",
    "Wego.Props.C46_relation",
    "Wego.Props.C46_ppmi_is_clipped",
    "Wego.Props.C46_items"
   ],
   "note": "Real arithmetic, and any arithmetic with float64 as an instance (C46_items_any, C46_items_float64: exact counts up to 2^53, whatever math.Log and math.Pow return); every enumeration order. f1 belongs to the smaller id and f2 (the smoothed one) to the larger id, whichever of them is the context."
  },
  {
   "property": "C47",
   "status": "proved",
   "theorems": [
    "Wego.Props.C47_update_any",
    "Wego.Props.C47_update",
    "Wego.Props.C47_update_same",
    "Wego.Props.C47_descent",
    "Wego.Props.C47_descent_same",
    "Wego.Props.C47_fixed_point",
    "Wego.Props.C47_train_one",
    "Wego.Props.C47_window_zero"
   ],
   "note": "Values over the reals, and operation by operation in any arithmetic, float64 included (C47_update_any); totality and frame for any arithmetic, random state and learning-rate sequence."
  },
  {
   "property": "C48",
   "status": "proved",
   "theorems": [
    "Wego.Props.C48_text_unique",
    "Wego.Props.C48_file_unique",
    "Wego.Props.C48_save_format"
   ],
   "note": "Every complete writer, dictionary and float64 matrix (NaN, infinities, negative zero included); correct rounding of the text is part of the statement."
  },
  {
   "property": "C49",
   "status": "proved",
   "theorems": [
    "Wego.Props.C49_round_trip",
    "Wego.Props.C49_error",
    "Wego.Props.C49_otherwise_fails"
   ],
   "note": "binary64, every matrix; ReadsBack says: a double with the same sign nearest to the six-decimal rounding. Loading fails for zero columns or lines of 64 KiB."
  },
  {
   "property": "C50",
   "status": "proved",
   "theorems": [
    "Wego.Props.C50_idempotent"
   ],
   "note": "binary64; every saved file that loads."
  },
  {
   "property": "C51",
   "status": "partial",
   "theorems": [
    "Wego.Props.C51_refuted_full_disk",
    "Wego.Props.C51_refuted_words_lost",
    "Wego.Props.C51_refuted_errors_ignored",
    "Wego.Props.C51_refuted_example",
    "Wego.Props.C51_prefix_partial",
    "Wego.Props.C51_calls_partial"
   ],
   "note": "FALSE of the code: the errors of WriteString and Flush are dropped (C51_refuted_errors_ignored for every writer). A disk with room for cap bytes keeps exactly the first cap bytes, Save returns nil (C51_refuted_full_disk), and for every m there is such a disk after which Load, too, succeeds with only the first m words (C51_refuted_words_lost). Proved: what was written is a prefix of the file, and nothing is written after a failed write."
  },
  {
   "property": "C52",
   "status": "proved",
   "theorems": [
    "Wego.Props.C52_hexadecimal",
    "Wego.Props.C52_underscores",
    "Wego.Props.C52_only_numbers_all",
    "Wego.Props.C52_plain_number",
    "Wego.Props.C52_not_a_number",
    "Wego.Props.C52_needs_digit",
    "Wego.Props.C52_load_iff",
    "Wego.Props.C52_loaded_valid",
    "Wego.Props.C52_bad_line",
    "Wego.Props.C52_scientific",
    "Wego.Props.C52_nan",
    "Wego.Props.C52_infinity",
    "Wego.Props.C52_only_numbers"
   ],
   "note": "Every text and reader; exact characterisation of success. The main theorems hold for every parser of the number forms other than plain decimals, NaN and signed Inf (parameter); C52_scientific, C52_nan, C52_infinity and C52_only_numbers instantiate it with exponents and all spellings of the special values (Model/ParseFloat); C52_hexadecimal, C52_underscores and C52_only_numbers_all close the remaining forms (Model/ParseHex), so that goFloat is strconv.ParseFloat on every string."
  },
  {
   "property": "C53",
   "status": "proved",
   "theorems": [
    "Wego.Props.C53_new",
    "Wego.Props.C53_search_total"
   ],
   "note": "Every list of embeddings; no-panic for every validated list (which Load guarantees, C52)."
  },
  {
   "property": "C54",
   "status": "proved",
   "theorems": [
    "Wego.Props.C54_search_top_k"
   ],
   "note": "For every arithmetic with a NaN-aware total preorder; instances for the reals and for binary64 with NaN. Items with non-empty words (Embedding.Validate)."
  },
  {
   "property": "C55",
   "status": "proved",
   "theorems": [
    "Wego.Props.C55_ranks"
   ],
   "note": ""
  },
  {
   "property": "C56",
   "status": "partial",
   "theorems": [
    "Wego.Props.C56_false",
    "Wego.Props.C56_no_blank_partial"
   ],
   "note": "FALSE of the code whenever at least two fewer than k items qualify (C56_false, every such input). Proved when at least k-1 items qualify."
  },
  {
   "property": "C57",
   "status": "proved",
   "theorems": [
    "Wego.Props.C57_result_size",
    "Wego.Props.C57_k_zero"
   ],
   "note": "Exact result size and content for every k."
  },
  {
   "property": "C58",
   "status": "proved",
   "theorems": [
    "Wego.Props.C58_search_internal"
   ],
   "note": "Holds for all items, even of inconsistent dimensions."
  },
  {
   "property": "C59",
   "status": "proved",
   "theorems": [
    "Wego.Props.C59_cosine_laws"
   ],
   "note": "Real arithmetic."
  },
  {
   "property": "C60",
   "status": "proved",
   "theorems": [
    "Wego.Props.C60_arithmetic",
    "Wego.Props.C60_single_word"
   ],
   "note": "go/parser.ParseExpr is a parameter; the statement is about the parsed expression."
  },
  {
   "property": "C61",
   "status": "proved",
   "theorems": [
    "Wego.Props.C61_lines_are_independent"
   ],
   "note": "Every history, including failed and panicking lines; relies on the deferred reset."
  },
  {
   "property": "C62",
   "status": "partial",
   "theorems": [
    "Wego.Props.C62_reported_partial",
    "Wego.Props.C62_false_nested",
    "Wego.Props.C62_false_unknown"
   ],
   "note": "FALSE of the code: x + unknown prints k-1 blank rows without error (C62_false_unknown, float64) and x == y + z prints the neighbours of y + z (C62_false_nested). Exact characterisation of the lines that do return an error proved."
  },
  {
   "property": "C63",
   "status": "proved",
   "theorems": [
    "Wego.Props.C63_run"
   ],
   "note": "Includes that Run never panics on a valid searcher with k >= 1 and never ends without an exit line."
  },
  {
   "property": "C64",
   "status": "proved",
   "theorems": [
    "Wego.Props.C64_nothing_overwritten",
    "Wego.Props.C64_refusals",
    "Wego.Props.C64_prof_corner",
    "Wego.Props.C64_success"
   ],
   "note": "Every file system, every outcome of system calls and training. With profiling the file cpu.prof is excepted (C64_prof_corner shows why)."
  },
  {
   "property": "C65",
   "status": "partial",
   "theorems": [
    "Wego.Props.C65_false",
    "Wego.Props.C65_early_failure_partial"
   ],
   "note": "FALSE of the code: every failure of Open or Train leaves an empty output file, and the retry fails (C65_false). Proved for failures before the output is created."
  },
  {
   "property": "C66",
   "status": "proved",
   "theorems": [
    "Wego.Props.C66_word2vec_options",
    "Wego.Props.C66_word2vec_flags",
    "Wego.Props.C66_glove_options",
    "Wego.Props.C66_glove_flags",
    "Wego.Props.C66_lexvec_options",
    "Wego.Props.C66_lexvec_flags"
   ],
   "note": "All fields of the three option records, every list of options and of flags."
  },
  {
   "property": "C67",
   "status": "proved",
   "theorems": [
    "Wego.Props.C67_word2vec",
    "Wego.Props.C67_glove",
    "Wego.Props.C67_lexvec"
   ],
   "note": "binary64, every schedule and memory model, both corpora, any writer that takes everything. The shape of the matrices is constant in the model (Go slices never change length here); the content of the rows is arbitrary."
  },
  {
   "property": "C68",
   "status": "proved",
   "theorems": [
    "Wego.Props.C68_word2vec",
    "Wego.Props.C68_lexvec",
    "Wego.Props.C68_train_word2vec",
    "Wego.Props.C68_train_lexvec"
   ],
   "note": "Any arithmetic, every interleaving of single loads and stores, any values for racing loads; word2vec, and the word rows of LexVec. C68_train_* are about the whole method Train."
  },
  {
   "property": "C69",
   "status": "proved",
   "theorems": [
    "Wego.Props.C69_hierarchical_softmax",
    "Wego.Props.C69_float64"
   ],
   "note": "Real arithmetic; Inv is established by the fresh tree and preserved by every call. In float64 (C69_float64): rounded logistic steps along the path, or the index panic of C33."
  },
  {
   "property": "C70",
   "status": "proved",
   "theorems": [
    "Wego.Props.C70_steps_hierarchical_softmax",
    "Wego.Props.C70_cbow_negative_sampling",
    "Wego.Props.C70_cbow_frame"
   ],
   "note": "Real arithmetic."
  },
  {
   "property": "C71",
   "status": "proved",
   "theorems": [
    "Wego.Props.C71_verbose_same",
    "Wego.Props.C71_logbatch_zero"
   ],
   "note": "vector.Save. The verbose output of corpora, item building and observers is C80."
  },
  {
   "property": "C72",
   "status": "proved",
   "theorems": [
    "Wego.Props.C72_word2vec_starts",
    "Wego.Props.C72_glove_shapes",
    "Wego.Props.C72_glove_starts",
    "Wego.Props.C72_lexvec_starts"
   ],
   "note": "Both corpora, every readable document. GloVe with prox: the shapes whenever set-up succeeds (when it succeeds for prox is C16)."
  },
  {
   "property": "C73",
   "status": "proved",
   "theorems": [
    "Wego.Props.C73_word2vec_no_panic",
    "Wego.Props.C73_lexvec_no_panic",
    "Wego.Props.C73_glove_no_panic",
    "Wego.Props.C73_word2vec_float64"
   ],
   "note": "GloVe and LexVec in any arithmetic; word2vec over the reals, and in any arithmetic (float64 included) C73_word2vec_float64: the only panic a goroutine can reach is an index out of range (the sigmoid lookup, C33). Loads return arbitrary values, GetPath an arbitrary node list."
  },
  {
   "property": "C74",
   "status": "proved",
   "theorems": [
    "Wego.Props.C74_every_schedule_ends",
    "Wego.Props.C74_every_iteration_ends"
   ],
   "note": "Any arithmetic, every memory model in which loads return something. C74_every_iteration_ends includes the semaphore."
  },
  {
   "property": "C75",
   "status": "proved",
   "theorems": [
    "Wego.Props.C75_train_sgd",
    "Wego.Props.C75_train_adagrad",
    "Wego.Props.C75_sgd",
    "Wego.Props.C75_adagrad",
    "Wego.Props.C75_barrier_is_schedule"
   ],
   "note": "Sequential consistency; iterations separated by wg.Wait(). Any arithmetic. C75_train_* are about the whole method Train."
  },
  {
   "property": "C76",
   "status": "proved",
   "theorems": [
    "Wego.Props.C76_lexvec",
    "Wego.Props.C76_word2vec_negative_sampling",
    "Wego.Props.C76_word2vec_hierarchical_softmax",
    "Wego.Props.C76_train_lexvec",
    "Wego.Props.C76_train_word2vec_ns",
    "Wego.Props.C76_train_word2vec_hs"
   ],
   "note": "Worker level and whole method Train (C76_train_*): with Goroutines(1) the result of every schedule is that of the sequential algorithm with exactly Iter passes, for a rate the schedule can have."
  },
  {
   "property": "C77",
   "status": "proved",
   "theorems": [
    "Wego.Props.C77_search_vector",
    "Wego.Props.C77_search_internal"
   ],
   "note": "Real arithmetic; items carry their true norms, as Load computes them."
  },
  {
   "property": "C78",
   "status": "proved",
   "theorems": [
    "Wego.Props.C78_range_float64",
    "Wego.Props.C78_word2vec",
    "Wego.Props.C78_lexvec",
    "Wego.Props.C78_glove",
    "Wego.Props.C78_range"
   ],
   "note": "Formulas in any arithmetic, ranges over the reals."
  },
  {
   "property": "C79",
   "status": "proved",
   "theorems": [
    "Wego.Props.C79_query_fails_iff",
    "Wego.Props.C79_query_after_save",
    "Wego.Props.C79_console_starts_iff"
   ],
   "note": "binary64; ParseFloat outside the %f subset is a parameter. Table printing is not modelled."
  },
  {
   "property": "C80",
   "status": "proved",
   "theorems": [
    "Wego.Props.C80_memory_load",
    "Wego.Props.C80_file_load",
    "Wego.Props.C80_silent_load",
    "Wego.Props.C80_zero_batch_panics",
    "Wego.Props.C80_observer",
    "Wego.Props.C80_glove_observer",
    "Wego.Props.C80_glove_items",
    "Wego.Props.C80_lexvec_items"
   ],
   "note": "The clock value in a progress line is not modelled, only the counts. Any arithmetic."
  },
  {
   "property": "C81",
   "status": "proved",
   "theorems": [
    "Wego.Props.C81_linear",
    "Wego.Props.C81_alternates",
    "Wego.Props.C81_rises_again",
    "Wego.Props.C81_linear_float64",
    "Wego.Props.C81_alternates_float64",
    "Wego.Props.C81_rises_again_float64"
   ],
   "note": "Real arithmetic and float64."
  },
  {
   "property": "C82",
   "status": "proved",
   "theorems": [
    "Wego.Props.C82_words",
    "Wego.Props.C82_rate_lag",
    "Wego.Props.C82_one_goroutine",
    "Wego.Props.C82_schedule_decides"
   ],
   "note": "Any arithmetic. C82_words is about the full channel/semaphore system; the rates are proved on a system reduced to the operations on currentlr and trained, with one observer."
  },
  {
   "property": "C83",
   "status": "proved",
   "theorems": [
    "Wego.Props.C83_word2vec",
    "Wego.Props.C83_glove",
    "Wego.Props.C83_lexvec"
   ],
   "note": "float64; math.Exp etc. any functions; writes of the output file succeed (failing writes: C51). GloVe and LexVec on a file-backed corpus need window >= 1. Verbose printing itself is C80."
  },
  {
   "property": "C84",
   "status": "proved",
   "theorems": [
    "Wego.Props.C84_word2vec_nan_rate",
    "Wego.Props.C84_glove_train",
    "Wego.Props.C84_lexvec_train",
    "Wego.Props.C84_word2vec_train",
    "Wego.Props.C84_glove_command",
    "Wego.Props.C84_lexvec_command",
    "Wego.Props.C84_word2vec_float64",
    "Wego.Props.C84_word2vec_command_float64"
   ],
   "note": "GloVe and LexVec in any arithmetic; word2vec cannot fail in real arithmetic; in float64 (C84_word2vec_float64, C84_word2vec_command_float64) the one failure left is an index panic, and C84_word2vec_nan_rate shows that it happens: with a NaN learning rate every schedule of a one-goroutine skip-gram run ends in it. Fewer than 2^53 items; not verbose or LogBatch not 0."
  },
  {
   "property": "C85",
   "status": "proved",
   "theorems": [
    "Wego.Props.C85_new_object",
    "Wego.Props.C85_word2vec_failed",
    "Wego.Props.C85_lexvec_failed",
    "Wego.Props.C85_glove_failed"
   ],
   "note": "All three models, over histories. A partly filled co-occurrence matrix after an error is not modelled (nothing reads it)."
  },
  {
   "property": "C86",
   "status": "proved",
   "theorems": [
    "Wego.Props.C86_word2vec",
    "Wego.Props.C86_lexvec",
    "Wego.Props.C86_glove",
    "Wego.Props.C86_word2vec_from_scratch",
    "Wego.Props.C86_lexvec_from_scratch",
    "Wego.Props.C86_glove_from_scratch",
    "Wego.Props.C86_glove_any_state",
    "Wego.Props.C86_lexvec_any_state",
    "Wego.Props.C86_word2vec_any_state",
    "Wego.Props.C86_word2vec_float64"
   ],
   "note": "float64 for WordVector/Save; the independence of the history in any arithmetic; that word2vec cannot fail, in real arithmetic, and in any arithmetic that it can only fail with an index panic (C86_word2vec_float64)."
  },
  {
   "property": "C87",
   "status": "partial",
   "theorems": [
    "Wego.Props.C87_word2vec_stale",
    "Wego.Props.C87_lexvec_stale",
    "Wego.Props.C87_glove_stale",
    "Wego.Props.C87_word2vec_partial",
    "Wego.Props.C87_lexvec_partial",
    "Wego.Props.C87_glove_partial",
    "Wego.Props.C87_refuted",
    "Wego.Props.C87_word2vec_untrained",
    "Wego.Props.C87_lexvec_untrained",
    "Wego.Props.C87_glove_untrained"
   ],
   "note": "False of the code: Train replaces the corpus before it reads, so words get the rows of other words (C87_refuted) or WordVector/Save panic (C87_*_stale); an unknown solver, relation, model or optimizer leaves untrained vectors that Save accepts (C87_*_untrained). Proved: words keep their vectors when the words read form a prefix of the old vocabulary."
  },
  {
   "property": "C88",
   "status": "partial",
   "theorems": [
    "Wego.Props.C88_word2vec_partial",
    "Wego.Props.C88_lexvec_partial",
    "Wego.Props.C88_glove",
    "Wego.Props.C88_word2vec_failures_partial",
    "Wego.Props.C88_lexvec_failures_partial",
    "Wego.Props.C88_glove_failures",
    "Wego.Props.C88_refuted",
    "Wego.Props.C88_refuted_word2vec"
   ],
   "note": "False of the code for word2vec and LexVec: currentlr is set only in NewForOptions (C88_refuted for LexVec, C88_refuted_word2vec). Proved: calls on an object whose rate is Initlr behave as on a new one; GloVe always does."
  },
  {
   "property": "C89",
   "status": "proved",
   "theorems": [
    "Wego.Props.C89_word2vec",
    "Wego.Props.C89_glove",
    "Wego.Props.C89_lexvec",
    "Wego.Props.C89_word2vec_unknown",
    "Wego.Props.C89_glove_unknown"
   ],
   "note": "The outcome of Train comes from the model of Train under the arbitrary memory model; failing mkdir/create/open are C51 and the command properties."
  },
  {
   "property": "C90",
   "status": "proved",
   "theorems": [
    "Wego.Props.C90_word2vec_dim",
    "Wego.Props.C90_word2vec_goroutines",
    "Wego.Props.C90_word2vec_update_batch",
    "Wego.Props.C90_word2vec_batch_size",
    "Wego.Props.C90_lexvec_dim",
    "Wego.Props.C90_lexvec_goroutines",
    "Wego.Props.C90_lexvec_goroutines_file",
    "Wego.Props.C90_lexvec_update_batch",
    "Wego.Props.C90_lexvec_batch_size",
    "Wego.Props.C90_glove_dim",
    "Wego.Props.C90_glove_goroutines"
   ],
   "note": "Any arithmetic. UpdateLRBatch(0): existence of the panicking execution only (the observer may also not have run). BatchSize <= 0 file-backed: panics in some execution and returns in none. LexVec file-backed with negative Goroutines: the only outcome is the panic of make(chan)."
  },
  {
   "property": "C91",
   "status": "partial",
   "theorems": [
    "Wego.Props.C91_sgd_partial",
    "Wego.Props.C91_adagrad_partial",
    "Wego.Props.C91_refuted"
   ],
   "note": "False of the code: goroutines update shared rows without locks, so updates are lost (C91_refuted: corpus a b c, two goroutines, float64; hypothesis Log(1) = 0). Proved, for both solvers and any arithmetic: if goroutines that run at the same time have no variable in common, the result is that of the sequential algorithm for some order of the slices."
  },
  {
   "property": "C92",
   "status": "partial",
   "theorems": [
    "Wego.Props.C92_refuted_lexvec",
    "Wego.Props.C92_refuted_word2vec",
    "Wego.Props.C92_word2vec_partial",
    "Wego.Props.C92_refuted"
   ],
   "note": "False of the code: windows do not reach over the cuts, so pieces of at most one word train nothing: for every document, BatchSize(1) file-backed, or more goroutines than kept words in memory, word2vec and LexVec leave the initial vectors (C92_refuted_*; C92_refuted: the same LexVec corpus does train with one goroutine, float64). Proved: with one goroutine and a batch that holds the whole document, in-memory and file-backed word2vec have exactly the same results, in any arithmetic."
  },
  {
   "property": "C93",
   "status": "proved",
   "theorems": [
    "Wego.Props.C93_session_output"
   ],
   "note": "go/parser is a parameter; any arithmetic with lawful comparisons. What the terminal echoes is not modelled."
  },
  {
   "property": "C94",
   "status": "proved",
   "theorems": [
    "Wego.Props.C94_query_table"
   ],
   "note": "The cells of the table; the layout by tablewriter is not modelled. That blank rows can occur at all is the defect C56."
  },
  {
   "property": "C95",
   "status": "proved",
   "theorems": [
    "Wego.Props.C95_glove",
    "Wego.Props.C95_word2vec",
    "Wego.Props.C95_lexvec",
    "Wego.Props.C95_glove_trains_filtered"
   ],
   "note": "Equality of the sets of possible outcomes of Train. C95_glove_trains_filtered: a word outside MinCount is moved by GloVe (float64, Log(1) = 0)."
  },
  {
   "property": "C96",
   "status": "proved",
   "theorems": [
    "Wego.Props.C96_order_irrelevant",
    "Wego.Props.C96_internal_order_irrelevant",
    "Wego.Props.C96_same_similarities"
   ],
   "note": "Equality of results without ties for any arithmetic with lawful comparisons, for Search and SearchInternal; same ranks and similarities with ties in float64."
  },
  {
   "property": "C97",
   "status": "partial",
   "theorems": [
    "Wego.Props.C97_item_order_partial",
    "Wego.Props.C97_best_partial",
    "Wego.Props.C97_false",
    "Wego.Props.C97_exact_order_partial"
   ],
   "note": "False of the code: a better word pushes the first of a group of equally similar ones behind the others (C97_false, float64: items b, c tie, then t: the results are t, c and t, c, b). Proved: with k = 1 the first of the most similar words is returned; if no item is more similar than an earlier one (e.g. all tie) the results are the first k candidates in item order. C97_exact_order_partial gives the exact order for all items and k (Spec/TieOrder): each better word that arrives later moves the first of every lower group of equals behind its group."
  },
  {
   "property": "C98",
   "status": "partial",
   "theorems": [
    "Wego.Props.C98_accuracy_partial",
    "Wego.Props.C98_laws_partial",
    "Wego.Props.C98_ranking_partial",
    "Wego.Props.C98_symmetric_partial",
    "Wego.Props.C98_overflow_never_found",
    "Wego.Props.C98_false"
   ],
   "note": "False of the code: two equal vectors (1,1,1) have similarity above 1; (1,1) and (1,2) have different similarities the two ways round; a vector of length 10^200 is never found (C98_false). Proved instead: for all ordinary vectors (components finite and at most 2^500, one of them at least 2^-400) of length n up to 2^20, the similarity computed in float64 is within (n+2)/2^51 of the exact cosine (C98_accuracy_partial), so the laws hold up to that error (C98_laws_partial) and a search ranks by the exact cosine up to twice that error (C98_ranking_partial); an item or query whose norm overflows is never found / finds nothing; vectors of equal norm have the same similarity both ways. In real arithmetic all of it holds (C59)."
  },
  {
   "property": "C99",
   "status": "proved",
   "theorems": [
    "Wego.Props.C99_word2vec",
    "Wego.Props.C99_lexvec",
    "Wego.Props.C99_glove_memory",
    "Wego.Props.C99_glove_file_panics",
    "Wego.Props.C99_word2vec_command",
    "Wego.Props.C99_lexvec_command",
    "Wego.Props.C99_glove_command",
    "Wego.Props.C99_empty_file"
   ],
   "note": "Any arithmetic; the commands in float64 with any Log/Pow. The panic of file-backed GloVe (C99_glove_file_panics) is a defect: at the end of a text without words ReadWordWithForwardContext reports the pair (\"\", \"\")."
  },
  {
   "property": "C100",
   "status": "partial",
   "theorems": [
    "Wego.Props.C100_similarity_partial",
    "Wego.Props.C100_search_partial",
    "Wego.Props.C100_small_vectors_lost",
    "Wego.Props.C100_false"
   ],
   "note": "False of the code: six decimals are absolute, not relative, so the direction of a short vector is lost; (1) and (10^-7) are neighbours with similarity 1 when trained and not neighbours when loaded (C100_false), and every vector with components up to 5e-7 vanishes from all searches (C100_small_vectors_lost). Proved instead: for trained vectors with finite components up to 2^499, one of them at least 2e-6, the loaded similarity is within 2e-6 sqrt(dim) (1/|a| + 1/|b|) + (dim+2)/2^51 of the exact cosine of the trained vectors, and searches rank accordingly. Any matrix that Save writes, lines shorter than 64 KiB."
  },
  {
   "property": "C101",
   "status": "proved",
   "theorems": [
    "Wego.Props.C101_any_bytes",
    "Wego.Props.C101_words",
    "Wego.Props.C101_lines",
    "Wego.Props.C101_read_word",
    "Wego.Props.C101_load",
    "Wego.Props.C101_words_of_bytes",
    "Wego.Props.C101_lines_of_bytes",
    "Wego.Props.C101_eager_corner"
   ],
   "note": "bufio.Scanner.Scan, ScanWords, ScanLines and utf8.DecodeRune modelled over bytes (Go/Scanner) and proved to agree with the token-level description (Go/Text) that the other properties use. C101_words_of_bytes and C101_lines_of_bytes specify the tokens of arbitrary bytes, valid UTF-8 or not. Readers that return the last bytes together with io.EOF or an error are included; the exception named in the statement is real (C101_eager_corner)."
  },
  {
   "property": "C102",
   "status": "proved",
   "theorems": [
    "Wego.Props.C102_word",
    "Wego.Props.C102_sum",
    "Wego.Props.C102_longer_sum",
    "Wego.Props.C102_not_looked_up",
    "Wego.Props.C102_hyphen",
    "Wego.Props.C102_no_operator"
   ],
   "note": "go/scanner and go/parser.ParseExpr written out for lines of identifiers, decimal integers, +, - and blanks (Go/ParseExpr); unicode.IsLetter/IsDigit from 0x80 on and all other lines are arbitrary parameters. Lines mixing more token kinds (b + 10, b - -d, b--d) are covered by the model and C62, not by a C102 theorem of their own."
  },
  {
   "property": "C103",
   "status": "proved",
   "theorems": [
    "Wego.Props.C103_more_neighbours",
    "Wego.Props.C103_more_neighbours_of_word",
    "Wego.Props.C103_query"
   ],
   "note": "Entries with a word (C56: blank ones may follow). Proved from the exact order of C97_exact_order_partial, in which k does not occur."
  },
  {
   "property": "C104",
   "status": "proved",
   "theorems": [
    "Wego.Props.C104_no_samples",
    "Wego.Props.C104_vector_types",
    "Wego.Props.C104_samples_move"
   ],
   "note": "Any arithmetic. C104_samples_move (float64) shows that a negative sample does move a context vector."
  },
  {
   "property": "C105",
   "status": "proved",
   "theorems": [
    "Wego.Props.C105_glove",
    "Wego.Props.C105_word2vec_generator",
    "Wego.Props.C105_lexvec_generator",
    "Wego.Props.C105_word2vec_one_goroutine",
    "Wego.Props.C105_lexvec_one_goroutine",
    "Wego.Props.C105_rate_race"
   ],
   "note": "A race is a reachable state in which two goroutines are about to access the same variable, one of them writing (Spec/Race). Sends on the channel `trained` are left out for worker-worker races (they only wait for the observer) and modelled for the learning-rate race (Model/RateLag). The lazily built Huffman paths are C22."
  },
  {
   "property": "C106",
   "status": "proved",
   "theorems": [
    "Wego.Props.C106_inside_character",
    "Wego.Props.C106_cut",
    "Wego.Props.C106_number",
    "Wego.Props.C106_search",
    "Wego.Props.C106_silent_change"
   ],
   "note": "With the complete ParseFloat (goFloat) for the value of a cut number and for the searcher; C106_cut with any reading of unusual numbers. C106_inside_character: cuts inside the bytes of one character; the bytes that remain of it are represented by characters that are not white space (Go reads each as U+FFFD)."
  },
  {
   "property": "C107",
   "status": "proved",
   "theorems": [
    "Wego.Props.C107_word2vec",
    "Wego.Props.C107_lexvec",
    "Wego.Props.C107_glove"
   ],
   "note": "Words of at most 65533 bytes (C07 is about longer ones). Any arithmetic and reordering of memory the training model allows."
  },
  {
   "property": "C108",
   "status": "partial",
   "theorems": [
    "Wego.Props.C108_word2vec",
    "Wego.Props.C108_lexvec_partial",
    "Wego.Props.C108_glove_partial",
    "Wego.Props.C108_refuted"
   ],
   "note": "False of GloVe and LexVec on a file-backed corpus (C108_refuted: the second pass does not lower-case). Proved for word2vec with either corpus and for GloVe and LexVec in memory; strings.ToLower is an arbitrary function."
  },
  {
   "property": "C109",
   "status": "proved",
   "theorems": [
    "Wego.Props.C109_join",
    "Wego.Props.C109_spacing",
    "Wego.Props.C109_order",
    "Wego.Props.C109_join_searcher",
    "Wego.Props.C109_join_first"
   ],
   "note": "Load with any reading of unusual numbers. A first file without a final line end runs into the second (not covered here; see C106 and C52 for what Load does then)."
  },
  {
   "property": "C110",
   "status": "proved",
   "theorems": [
    "Wego.Props.C110_batches",
    "Wego.Props.C110_word2vec_no_panic",
    "Wego.Props.C110_lexvec_no_panic",
    "Wego.Props.C110_word2vec_same",
    "Wego.Props.C110_word2vec_train",
    "Wego.Props.C110_lexvec_train",
    "Wego.Props.C110_glove_train"
   ],
   "note": "word2vec in real arithmetic (in float64 the sigmoid lookup can panic, C33); LexVec and GloVe (counting with inc) in any arithmetic, also when the two readings of Load find different contents. A later reading that fails never ends (C39)."
  },
  {
   "property": "C111",
   "status": "proved",
   "theorems": [
    "Wego.Props.C111_word2vec",
    "Wego.Props.C111_lexvec",
    "Wego.Props.C111_glove",
    "Wego.Props.C111_memory"
   ],
   "note": "The readings of a file-backed corpus are given one by one (Model/Readings.lean). For a partly consumed pipe (bufio reads ahead) see C110: whatever a later reading finds."
  },
  {
   "property": "C112",
   "status": "proved",
   "theorems": [
    "Wego.Props.C112_ignore",
    "Wego.Props.C112_positive",
    "Wego.Props.C112_remove",
    "Wego.Props.C112_remove_of_word",
    "Wego.Props.C112_remove_false",
    "Wego.Props.C112_file",
    "Wego.Props.C112_query"
   ],
   "note": "C112_ignore: any arithmetic, no hypotheses at all. C112_remove* need that no two words are equally similar to the query; C112_remove_false shows that this is needed. Entries with a word (C56)."
  },
  {
   "property": "C113",
   "status": "proved",
   "theorems": [
    "Wego.Props.C113_search_vector",
    "Wego.Props.C113_search_internal",
    "Wego.Props.C113_rescale",
    "Wego.Props.C113_rotate",
    "Wego.Props.C113_rescale_float64_false"
   ],
   "note": "Real arithmetic; C113_rescale_float64_false shows that the restriction is needed (C98 bounds the difference for ordinary float64 vectors)."
  },
  {
   "property": "C114",
   "status": "proved",
   "theorems": [
    "Wego.Props.C114_word2vec",
    "Wego.Props.C114_lexvec",
    "Wego.Props.C114_glove",
    "Wego.Props.C114_search",
    "Wego.Props.C114_search_internal",
    "Wego.Props.C114_save",
    "Wego.Props.C114_file",
    "Wego.Props.C114_query"
   ],
   "note": "With ToLower on, the replacement must commute with lower-casing (otherwise words that were different can become equal, or the reverse); with it off there is no restriction. The replacement maps the empty word to itself, which no document contains."
  },
  {
   "property": "C115",
   "status": "proved",
   "theorems": [
    "Wego.Props.C115_by_word",
    "Wego.Props.C115_loaded",
    "Wego.Props.C115_self"
   ],
   "note": "C115_by_word and C115_loaded: any arithmetic, float64 included. C115_self: real arithmetic; in float64 the similarity of a vector with itself is 1 up to the bound of C98."
  },
  {
   "property": "C116",
   "status": "proved",
   "theorems": [
    "Wego.Props.C116_query",
    "Wego.Props.C116_item",
    "Wego.Props.C116_real",
    "Wego.Props.C116_float64"
   ],
   "note": "Results without blank entries (C56). C116_float64: a loaded file in which two words with equal non-zero vectors do not find each other."
  },
  {
   "property": "C117",
   "status": "proved",
   "theorems": [
    "Wego.Props.C117_longer",
    "Wego.Props.C117_shorter"
   ],
   "note": "C117_longer: if the norm of the query or all norms of the items are zero nothing is multiplied and C116 applies. C117_shorter: real arithmetic."
  },
  {
   "property": "C118",
   "status": "proved",
   "theorems": [
    "Wego.Props.C118_ignore",
    "Wego.Props.C118_sum",
    "Wego.Props.C118_typed",
    "Wego.Props.C118_false_unknown",
    "Wego.Props.C118_difference",
    "Wego.Props.C118_minus_itself",
    "Wego.Props.C118_twice"
   ],
   "note": "C118_sum: any arithmetic whose addition commutes (float64 does, f64_add_comm). C118_difference: real arithmetic, different words. C118_twice: real arithmetic. C118_minus_itself: float64, finite values. C118_false_unknown: the code with an unknown word (see C62)."
  }
 ]
}