# Axioms of the theorems named in MANIFEST.json

Generated by `tools/axioms.py` from `#print axioms`.

## Classical.choice, Quot.sound, propext (428 theorems)

* `Wego.Props.C01_dictionary_ids`
* `Wego.Props.C02_dictionary_freqs`
* `Wego.Props.C03_encode_eq_iff`
* `Wego.Props.C04_inc_counts`
* `Wego.Props.C04_inc_counts_f64`
* `Wego.Props.C04_f64_saturates`
* `Wego.Props.C05_new`
* `Wego.Props.C05_prox_add`
* `Wego.Props.C05_prox_counts`
* `Wego.Props.C05_prox_float64`
* `Wego.Props.C08_all_pairs_partial`
* `Wego.Props.C08_false_for_windows_from_3`
* `Wego.Props.C08_false_for_short_documents`
* `Wego.Props.C09_long`
* `Wego.Props.C09_short`
* `Wego.Props.C10_filters`
* `Wego.Props.C10_keep_all`
* `Wego.Props.C11_memory_corpus`
* `Wego.Props.C11_memory_corpus_with`
* `Wego.Props.C11_memory_read_error`
* `Wego.Props.C12_batches`
* `Wego.Props.C12_batch_size_zero`
* `Wego.Props.C12_batches_read_error`
* `Wego.Props.C13_corpora_agree`
* `Wego.Props.C14_memory_cooccurrence`
* `Wego.Props.C14_memory_cooccurrence_f64`
* `Wego.Props.C15_corpora_agree_partial`
* `Wego.Props.C15_fs_cooccurrence`
* `Wego.Props.C15_false_window_3`
* `Wego.Props.C15_false_short`
* `Wego.Props.C15_false_lower`
* `Wego.Props.C16_prox_load`
* `Wego.Props.C16_file`
* `Wego.Props.C16_file_short`
* `Wego.Props.C16_file_lower`
* `Wego.Props.C17_huffman_complete_prefix_code`
* `Wego.Props.C18_huffman_optimal_kraft`
* `Wego.Props.C18_huffman_optimal`
* `Wego.Props.C19_getPath`
* `Wego.Props.C19_negative_depth`
* `Wego.Props.C20_depth_zero_is_empty`
* `Wego.Props.C20_full_path_partial`
* `Wego.Props.C21_softmax_sums_to_one`
* `Wego.Props.C22_false_empty_path`
* `Wego.Props.C22_false_corrupted_cache`
* `Wego.Props.C22_alone_partial`
* `Wego.Props.C23_nextRandom_range`
* `Wego.Props.C23_period`
* `Wego.Props.C23_every_value_is_drawn`
* `Wego.Props.C24_low_bits_period`
* `Wego.Props.C25_indexPerThread`
* `Wego.Props.C25_slices_balanced`
* `Wego.Props.C25_slices_partition`
* `Wego.Props.C26_new`
* `Wego.Props.C26_rows_are_disjoint`
* `Wego.Props.C26_slice_bounds`
* `Wego.Props.C26_column_bounds`
* `Wego.Props.C27_accept_probability`
* `Wego.Props.C27_accept_shape`
* `Wego.Props.C27_float64`
* `Wego.Props.C27_float64_ends`
* `Wego.Props.C28_window_positions`
* `Wego.Props.C28_skipgram`
* `Wego.Props.C29_only_context_rows_change`
* `Wego.Props.C29_step_total`
* `Wego.Props.C29_skipgram_negative_sampling`
* `Wego.Props.C30_cbow_step_partial`
* `Wego.Props.C30_false`
* `Wego.Props.C30_false_negative_sampling`
* `Wego.Props.C31_optim_is_logistic_regression`
* `Wego.Props.C31_directions`
* `Wego.Props.C31_float64`
* `Wego.Props.C32_sigmoid_accuracy`
* `Wego.Props.C32_float64`
* `Wego.Props.C33_sigmoid_index`
* `Wego.Props.C33_lookup_partial`
* `Wego.Props.C33_false`
* `Wego.Props.C34_refuted`
* `Wego.Props.C34_refuted_float64`
* `Wego.Props.C35_batch_zero_panics`
* `Wego.Props.C35_only_at_multiples`
* `Wego.Props.C35_rate_in_range`
* `Wego.Props.C35_rate_in_range_float64`
* `Wego.Props.C35_sequential_is_run`
* `Wego.Props.C36_word2vec`
* `Wego.Props.C36_glove`
* `Wego.Props.C36_lexvec`
* `Wego.Props.C37_gives_back`
* `Wego.Props.C37_terminates`
* `Wego.Props.C37_no_infinite_run`
* `Wego.Props.C37_maximal_run_completes`
* `Wego.Props.C37_can_complete`
* `Wego.Props.C37_every_word_once`
* `Wego.Props.C37_all_iterations`
* `Wego.Props.C37_file_backed`
* `Wego.Props.C37_in_memory`
* `Wego.Props.C38_file_backed_never_returns`
* `Wego.Props.C38_in_memory_trains_nothing`
* `Wego.Props.C39_load_error_partial`
* `Wego.Props.C39_refuted`
* `Wego.Props.C39_refuted_any_error`
* `Wego.Props.C40_items`
* `Wego.Props.C40_items_of_document`
* `Wego.Props.C40_items_any`
* `Wego.Props.C40_items_float64`
* `Wego.Props.C41_sgd_step_any`
* `Wego.Props.C41_sgd_step`
* `Wego.Props.C41_zero_step`
* `Wego.Props.C41_descent`
* `Wego.Props.C41_rows_differ`
* `Wego.Props.C42_step_any`
* `Wego.Props.C42_float64_step`
* `Wego.Props.C42_float64_divisor`
* `Wego.Props.C42_float64_history`
* `Wego.Props.C42_start`
* `Wego.Props.C42_step`
* `Wego.Props.C42_history`
* `Wego.Props.C43_word2vec_shape`
* `Wego.Props.C43_glove_shape`
* `Wego.Props.C43_lexvec_shape`
* `Wego.Props.C43_save_word_vectors`
* `Wego.Props.C44_word2vec_partial`
* `Wego.Props.C44_glove_lexvec_swapped`
* `Wego.Props.C44_refuted`
* `Wego.Props.C45_index_safe`
* `Wego.Props.C45_empty_document_panics`
* `Wego.Props.C46_items_any`
* `Wego.Props.C46_items_float64`
* `Wego.Props.C46_relation`
* `Wego.Props.C46_ppmi_is_clipped`
* `Wego.Props.C46_items`
* `Wego.Props.C47_update_any`
* `Wego.Props.C47_update`
* `Wego.Props.C47_update_same`
* `Wego.Props.C47_descent`
* `Wego.Props.C47_descent_same`
* `Wego.Props.C47_fixed_point`
* `Wego.Props.C47_train_one`
* `Wego.Props.C48_text_unique`
* `Wego.Props.C48_file_unique`
* `Wego.Props.C48_save_format`
* `Wego.Props.C49_round_trip`
* `Wego.Props.C49_error`
* `Wego.Props.C49_otherwise_fails`
* `Wego.Props.C50_idempotent`
* `Wego.Props.C51_refuted_words_lost`
* `Wego.Props.C51_refuted_errors_ignored`
* `Wego.Props.C51_refuted_example`
* `Wego.Props.C52_hexadecimal`
* `Wego.Props.C52_underscores`
* `Wego.Props.C52_only_numbers_all`
* `Wego.Props.C52_plain_number`
* `Wego.Props.C52_not_a_number`
* `Wego.Props.C52_needs_digit`
* `Wego.Props.C52_load_iff`
* `Wego.Props.C52_loaded_valid`
* `Wego.Props.C52_bad_line`
* `Wego.Props.C52_scientific`
* `Wego.Props.C52_nan`
* `Wego.Props.C52_infinity`
* `Wego.Props.C52_only_numbers`
* `Wego.Props.C53_new`
* `Wego.Props.C53_search_total`
* `Wego.Props.C54_search_top_k`
* `Wego.Props.C55_ranks`
* `Wego.Props.C56_false`
* `Wego.Props.C56_no_blank_partial`
* `Wego.Props.C57_result_size`
* `Wego.Props.C57_k_zero`
* `Wego.Props.C58_search_internal`
* `Wego.Props.C59_cosine_laws`
* `Wego.Props.C60_arithmetic`
* `Wego.Props.C60_single_word`
* `Wego.Props.C62_reported_partial`
* `Wego.Props.C62_false_nested`
* `Wego.Props.C62_false_unknown`
* `Wego.Props.C63_run`
* `Wego.Props.C64_nothing_overwritten`
* `Wego.Props.C64_refusals`
* `Wego.Props.C64_prof_corner`
* `Wego.Props.C64_success`
* `Wego.Props.C65_false`
* `Wego.Props.C65_early_failure_partial`
* `Wego.Props.C66_word2vec_options`
* `Wego.Props.C66_word2vec_flags`
* `Wego.Props.C66_glove_options`
* `Wego.Props.C66_glove_flags`
* `Wego.Props.C66_lexvec_options`
* `Wego.Props.C66_lexvec_flags`
* `Wego.Props.C67_word2vec`
* `Wego.Props.C67_glove`
* `Wego.Props.C67_lexvec`
* `Wego.Props.C68_word2vec`
* `Wego.Props.C68_lexvec`
* `Wego.Props.C68_train_word2vec`
* `Wego.Props.C68_train_lexvec`
* `Wego.Props.C69_hierarchical_softmax`
* `Wego.Props.C69_float64`
* `Wego.Props.C70_steps_hierarchical_softmax`
* `Wego.Props.C70_cbow_negative_sampling`
* `Wego.Props.C70_cbow_frame`
* `Wego.Props.C71_logbatch_zero`
* `Wego.Props.C72_word2vec_starts`
* `Wego.Props.C72_glove_shapes`
* `Wego.Props.C72_glove_starts`
* `Wego.Props.C72_lexvec_starts`
* `Wego.Props.C73_word2vec_no_panic`
* `Wego.Props.C73_lexvec_no_panic`
* `Wego.Props.C73_glove_no_panic`
* `Wego.Props.C73_word2vec_float64`
* `Wego.Props.C74_every_schedule_ends`
* `Wego.Props.C74_every_iteration_ends`
* `Wego.Props.C75_train_sgd`
* `Wego.Props.C75_train_adagrad`
* `Wego.Props.C75_sgd`
* `Wego.Props.C75_adagrad`
* `Wego.Props.C76_lexvec`
* `Wego.Props.C76_word2vec_negative_sampling`
* `Wego.Props.C76_word2vec_hierarchical_softmax`
* `Wego.Props.C76_train_lexvec`
* `Wego.Props.C76_train_word2vec_ns`
* `Wego.Props.C76_train_word2vec_hs`
* `Wego.Props.C77_search_vector`
* `Wego.Props.C77_search_internal`
* `Wego.Props.C78_range_float64`
* `Wego.Props.C78_word2vec`
* `Wego.Props.C78_lexvec`
* `Wego.Props.C78_glove`
* `Wego.Props.C78_range`
* `Wego.Props.C79_query_fails_iff`
* `Wego.Props.C79_query_after_save`
* `Wego.Props.C79_console_starts_iff`
* `Wego.Props.C80_memory_load`
* `Wego.Props.C80_file_load`
* `Wego.Props.C80_silent_load`
* `Wego.Props.C80_observer`
* `Wego.Props.C80_glove_observer`
* `Wego.Props.C80_glove_items`
* `Wego.Props.C80_lexvec_items`
* `Wego.Props.C81_linear`
* `Wego.Props.C81_alternates`
* `Wego.Props.C81_rises_again`
* `Wego.Props.C81_linear_float64`
* `Wego.Props.C81_alternates_float64`
* `Wego.Props.C81_rises_again_float64`
* `Wego.Props.C82_words`
* `Wego.Props.C82_rate_lag`
* `Wego.Props.C82_one_goroutine`
* `Wego.Props.C82_schedule_decides`
* `Wego.Props.C83_word2vec`
* `Wego.Props.C83_glove`
* `Wego.Props.C83_lexvec`
* `Wego.Props.C84_word2vec_nan_rate`
* `Wego.Props.C84_glove_train`
* `Wego.Props.C84_lexvec_train`
* `Wego.Props.C84_word2vec_train`
* `Wego.Props.C84_glove_command`
* `Wego.Props.C84_lexvec_command`
* `Wego.Props.C84_word2vec_float64`
* `Wego.Props.C84_word2vec_command_float64`
* `Wego.Props.C85_new_object`
* `Wego.Props.C85_word2vec_failed`
* `Wego.Props.C85_lexvec_failed`
* `Wego.Props.C85_glove_failed`
* `Wego.Props.C86_word2vec`
* `Wego.Props.C86_lexvec`
* `Wego.Props.C86_glove`
* `Wego.Props.C86_word2vec_from_scratch`
* `Wego.Props.C86_lexvec_from_scratch`
* `Wego.Props.C86_glove_from_scratch`
* `Wego.Props.C86_glove_any_state`
* `Wego.Props.C86_lexvec_any_state`
* `Wego.Props.C86_word2vec_any_state`
* `Wego.Props.C86_word2vec_float64`
* `Wego.Props.C87_word2vec_stale`
* `Wego.Props.C87_lexvec_stale`
* `Wego.Props.C87_glove_stale`
* `Wego.Props.C87_word2vec_partial`
* `Wego.Props.C87_lexvec_partial`
* `Wego.Props.C87_glove_partial`
* `Wego.Props.C87_refuted`
* `Wego.Props.C87_word2vec_untrained`
* `Wego.Props.C87_lexvec_untrained`
* `Wego.Props.C87_glove_untrained`
* `Wego.Props.C88_word2vec_partial`
* `Wego.Props.C88_lexvec_partial`
* `Wego.Props.C88_glove`
* `Wego.Props.C88_word2vec_failures_partial`
* `Wego.Props.C88_lexvec_failures_partial`
* `Wego.Props.C88_glove_failures`
* `Wego.Props.C88_refuted`
* `Wego.Props.C88_refuted_word2vec`
* `Wego.Props.C89_word2vec`
* `Wego.Props.C89_glove`
* `Wego.Props.C89_lexvec`
* `Wego.Props.C89_word2vec_unknown`
* `Wego.Props.C89_glove_unknown`
* `Wego.Props.C90_word2vec_dim`
* `Wego.Props.C90_word2vec_goroutines`
* `Wego.Props.C90_word2vec_update_batch`
* `Wego.Props.C90_word2vec_batch_size`
* `Wego.Props.C90_lexvec_dim`
* `Wego.Props.C90_lexvec_goroutines`
* `Wego.Props.C90_lexvec_goroutines_file`
* `Wego.Props.C90_lexvec_update_batch`
* `Wego.Props.C90_lexvec_batch_size`
* `Wego.Props.C90_glove_dim`
* `Wego.Props.C90_glove_goroutines`
* `Wego.Props.C91_sgd_partial`
* `Wego.Props.C91_adagrad_partial`
* `Wego.Props.C91_refuted`
* `Wego.Props.C92_refuted_lexvec`
* `Wego.Props.C92_refuted_word2vec`
* `Wego.Props.C92_word2vec_partial`
* `Wego.Props.C92_refuted`
* `Wego.Props.C93_session_output`
* `Wego.Props.C94_query_table`
* `Wego.Props.C95_glove`
* `Wego.Props.C95_word2vec`
* `Wego.Props.C95_lexvec`
* `Wego.Props.C95_glove_trains_filtered`
* `Wego.Props.C96_order_irrelevant`
* `Wego.Props.C96_internal_order_irrelevant`
* `Wego.Props.C96_same_similarities`
* `Wego.Props.C97_item_order_partial`
* `Wego.Props.C97_best_partial`
* `Wego.Props.C97_false`
* `Wego.Props.C97_exact_order_partial`
* `Wego.Props.C98_accuracy_partial`
* `Wego.Props.C98_laws_partial`
* `Wego.Props.C98_ranking_partial`
* `Wego.Props.C98_symmetric_partial`
* `Wego.Props.C98_overflow_never_found`
* `Wego.Props.C98_false`
* `Wego.Props.C99_word2vec`
* `Wego.Props.C99_lexvec`
* `Wego.Props.C99_glove_memory`
* `Wego.Props.C99_glove_file_panics`
* `Wego.Props.C99_word2vec_command`
* `Wego.Props.C99_lexvec_command`
* `Wego.Props.C99_glove_command`
* `Wego.Props.C99_empty_file`
* `Wego.Props.C100_similarity_partial`
* `Wego.Props.C100_search_partial`
* `Wego.Props.C100_small_vectors_lost`
* `Wego.Props.C100_false`
* `Wego.Props.C101_any_bytes`
* `Wego.Props.C101_words`
* `Wego.Props.C101_lines`
* `Wego.Props.C101_read_word`
* `Wego.Props.C101_load`
* `Wego.Props.C101_words_of_bytes`
* `Wego.Props.C101_lines_of_bytes`
* `Wego.Props.C102_word`
* `Wego.Props.C102_sum`
* `Wego.Props.C102_longer_sum`
* `Wego.Props.C102_not_looked_up`
* `Wego.Props.C102_hyphen`
* `Wego.Props.C102_no_operator`
* `Wego.Props.C103_more_neighbours`
* `Wego.Props.C103_more_neighbours_of_word`
* `Wego.Props.C103_query`
* `Wego.Props.C104_no_samples`
* `Wego.Props.C104_vector_types`
* `Wego.Props.C104_samples_move`
* `Wego.Props.C105_glove`
* `Wego.Props.C105_word2vec_one_goroutine`
* `Wego.Props.C105_lexvec_one_goroutine`
* `Wego.Props.C105_rate_race`
* `Wego.Props.C106_inside_character`
* `Wego.Props.C106_cut`
* `Wego.Props.C106_number`
* `Wego.Props.C106_search`
* `Wego.Props.C106_silent_change`
* `Wego.Props.C107_word2vec`
* `Wego.Props.C107_lexvec`
* `Wego.Props.C107_glove`
* `Wego.Props.C108_word2vec`
* `Wego.Props.C108_lexvec_partial`
* `Wego.Props.C108_glove_partial`
* `Wego.Props.C108_refuted`
* `Wego.Props.C109_join`
* `Wego.Props.C109_spacing`
* `Wego.Props.C109_order`
* `Wego.Props.C109_join_searcher`
* `Wego.Props.C109_join_first`
* `Wego.Props.C110_batches`
* `Wego.Props.C110_word2vec_no_panic`
* `Wego.Props.C110_lexvec_no_panic`
* `Wego.Props.C110_word2vec_same`
* `Wego.Props.C110_word2vec_train`
* `Wego.Props.C110_lexvec_train`
* `Wego.Props.C110_glove_train`
* `Wego.Props.C111_word2vec`
* `Wego.Props.C111_lexvec`
* `Wego.Props.C111_glove`
* `Wego.Props.C111_memory`
* `Wego.Props.C112_positive`
* `Wego.Props.C112_remove`
* `Wego.Props.C112_remove_of_word`
* `Wego.Props.C112_remove_false`
* `Wego.Props.C112_file`
* `Wego.Props.C112_query`
* `Wego.Props.C113_search_vector`
* `Wego.Props.C113_search_internal`
* `Wego.Props.C113_rescale`
* `Wego.Props.C113_rotate`
* `Wego.Props.C113_rescale_float64_false`
* `Wego.Props.C114_word2vec`
* `Wego.Props.C114_lexvec`
* `Wego.Props.C114_glove`
* `Wego.Props.C114_save`
* `Wego.Props.C114_file`
* `Wego.Props.C114_query`
* `Wego.Props.C115_loaded`
* `Wego.Props.C115_self`
* `Wego.Props.C116_query`
* `Wego.Props.C116_item`
* `Wego.Props.C116_real`
* `Wego.Props.C116_float64`
* `Wego.Props.C117_longer`
* `Wego.Props.C117_shorter`
* `Wego.Props.C118_sum`
* `Wego.Props.C118_typed`
* `Wego.Props.C118_false_unknown`
* `Wego.Props.C118_difference`
* `Wego.Props.C118_minus_itself`
* `Wego.Props.C118_twice`

## Quot.sound, propext (42 theorems)

* `Wego.Props.C01_negative_id_panics`
* `Wego.Props.C03_decode_encode`
* `Wego.Props.C03_encode_comm`
* `Wego.Props.C03_collision`
* `Wego.Props.C06_words_exist_unique`
* `Wego.Props.C06_readWord`
* `Wego.Props.C06_readWord_any_space`
* `Wego.Props.C06_whitespace_irrelevant`
* `Wego.Props.C07_no_error`
* `Wego.Props.C07_too_long`
* `Wego.Props.C07_read_error`
* `Wego.Props.C09_empty`
* `Wego.Props.C09_window_zero`
* `Wego.Props.C09_window_negative`
* `Wego.Props.C22_warm_cache_partial`
* `Wego.Props.C23_sequence`
* `Wego.Props.C23_not_positive`
* `Wego.Props.C24_parity_alternates`
* `Wego.Props.C31_negative_size`
* `Wego.Props.C34_corrected_at_next_update_partial`
* `Wego.Props.C37_no_panic`
* `Wego.Props.C37_at_most_goroutines`
* `Wego.Props.C37_buffers_never_block`
* `Wego.Props.C37_no_deadlock`
* `Wego.Props.C37_count_bound`
* `Wego.Props.C38_standstill`
* `Wego.Props.C47_window_zero`
* `Wego.Props.C51_refuted_full_disk`
* `Wego.Props.C51_prefix_partial`
* `Wego.Props.C51_calls_partial`
* `Wego.Props.C61_lines_are_independent`
* `Wego.Props.C71_verbose_same`
* `Wego.Props.C75_barrier_is_schedule`
* `Wego.Props.C80_zero_batch_panics`
* `Wego.Props.C101_eager_corner`
* `Wego.Props.C105_word2vec_generator`
* `Wego.Props.C105_lexvec_generator`
* `Wego.Props.C112_ignore`
* `Wego.Props.C114_search`
* `Wego.Props.C114_search_internal`
* `Wego.Props.C115_by_word`
* `Wego.Props.C118_ignore`

## propext (2 theorems)

* `Wego.Props.C05_new_invalid`
* `Wego.Props.C06_runs_unique`
