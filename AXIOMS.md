# Axioms of every theorem of MANIFEST.json

Output of `#print axioms` (tools/axioms.py).

| Property | Theorem | Axioms |
|---|---|---|
| C01 | `C01_vuint32_roundtrip` | propext, Classical.choice, Quot.sound |
| C01 | `C01_vuint32_size` | propext, Classical.choice, Quot.sound |
| C01 | `C01_vuint32_format` | propext, Classical.choice, Quot.sound |
| C02 | `C02_readVUInt32_ok` | propext, Classical.choice, Quot.sound |
| C02 | `C02_readVUInt32_error` | propext, Classical.choice, Quot.sound |
| C02 | `C02_paths_agree` | propext, Classical.choice, Quot.sound |
| C03 | `C03_vb_roundtrip` | propext, Classical.choice, Quot.sound |
| C03 | `C03_vb_count` | propext, Classical.choice, Quot.sound |
| C03 | `C03_vb_prefix` | propext, Classical.choice, Quot.sound |
| C03 | `C03_longer_buffer_wrong` | propext, Classical.choice, Quot.sound |
| C03 | `C03_cut_value_silent` | propext, Classical.choice, Quot.sound |
| C04 | `C04_skipping_roundtrip` | propext, Classical.choice, Quot.sound |
| C04 | `C04_short_list_rejected` | propext, Quot.sound |
| C04 | `C04_gap_zero_diverges` | propext, Quot.sound |
| C04 | `C04_gap_negative_panics` | propext, Quot.sound |
| C05 | `C05_skipping_count_partial` | propext, Classical.choice, Quot.sound |
| C05 | `C05_count_wrong` | propext, Quot.sound |
| C06 | `C06_binary_roundtrip` | propext, Classical.choice, Quot.sound |
| C06 | `C06_binary_count` | propext, Quot.sound |
| C06 | `C06_longer_buffer_wrong` | propext, Classical.choice, Quot.sound |
| C07 | `C07_no_panic` | propext, Classical.choice, Quot.sound |
| C07 | `C07_data_unchanged_step` | propext |
| C07 | `C07_history` | propext, Classical.choice, Quot.sound |
| C07 | `C07_readUInt32` | propext, Quot.sound |
| C07 | `C07_readUInt16` | propext, Quot.sound |
| C07 | `C07_read` | propext, Quot.sound |
| C07 | `C07_readByte` | propext, Quot.sound |
| C07 | `C07_readAt` | propext, Quot.sound |
| C07 | `C07_seek` | propext, Quot.sound |
| C07 | `C07_slice` | propext, Classical.choice, Quot.sound |
| C07 | `C07_int64_agrees` | propext, Quot.sound |
| C07 | `C07_slice_int64_agrees` | propext, Classical.choice, Quot.sound |
| C07 | `C07_int64_overflow_panics` | propext, Quot.sound |
| C07 | `C07_slice_int64_overflow_panics` | propext, Quot.sound |
| C08 | `C08_vb_iterator` | propext, Classical.choice, Quot.sound |
| C08 | `C08_slice_iterator` | propext, Classical.choice, Quot.sound |
| C09 | `C09_skipping_iterator` | propext, Classical.choice, Quot.sound |
| C10 | `C10_bitmap_iterator` | propext, Classical.choice, Quot.sound |
| C10 | `C10_bitmap_iterator_dedup` | propext, Classical.choice, Quot.sound |
| C10 | `C10_contract_satisfiable` | propext, Classical.choice, Quot.sound |
| C11 | `C11_codec` | propext, Classical.choice, Quot.sound |
| C11 | `C11_codec_short` | propext, Classical.choice, Quot.sound |
| C12 | `C12_scanCount` | propext, Classical.choice, Quot.sound |
| C13 | `C13_cpMerge` | propext, Classical.choice, Quot.sound |
| C13 | `C13_threshold_zero_panics` | propext, Classical.choice, Quot.sound |
| C14 | `C14_mergeSkip` | propext, Classical.choice, Quot.sound |
| C14 | `C14_empty_list_wrong` | propext, Classical.choice, Quot.sound |
| C15 | `C15_divideSkip_partial` | propext, Classical.choice, Quot.sound |
| C15 | `C15_divideSkip_general_partial` | propext, Classical.choice, Quot.sound |
| C15 | `C15_singletons_wrong` | propext, Classical.choice, Quot.sound |
| C16 | `C16_intersect` | propext, Classical.choice, Quot.sound |
| C16 | `C16_empty_list` | propext |
| C17 | `C17_interchangeable` | propext, Classical.choice, Quot.sound |
| C17 | `C17_divideSkip` | propext, Classical.choice, Quot.sound |
| C17 | `C17_early_stop` | propext, Quot.sound |
| C18 | `C18_pack` | propext, Classical.choice, Quot.sound |
| C18 | `C18_increment` | propext, Classical.choice, Quot.sound |
| C18 | `C18_scanCount_overflow` | propext, Classical.choice, Quot.sound |
| C18 | `C18_cpMerge_overflow` | propext, Classical.choice, Quot.sound |
| C19 | `C19_commit_succeeds` | propext, Classical.choice, Quot.sound |
| C19 | `C19_read_back_fs` | propext, Classical.choice, Quot.sound |
| C19 | `C19_read_back_ram` | propext, Classical.choice, Quot.sound |
| C20 | `C20_order_irrelevant` | propext, Classical.choice, Quot.sound |
| C21 | `C21_crash_partial` | propext, Classical.choice, Quot.sound |
| C21 | `C21_stale_header_wrong` | propext, Classical.choice, Quot.sound |
| C22 | `C22_fs_rebuild_replaces_partial` | propext, Classical.choice, Quot.sound |
| C22 | `C22_ram_keeps_old` | propext, Classical.choice, Quot.sound |
| C23 | `C23_add_documents_partial` | propext, Quot.sound |
| C23 | `C23_empty_first_panics` | propext |
| C24 | `C24_search` | propext, Classical.choice, Quot.sound |
| C25 | `C25_keeps_best` | propext, Classical.choice, Quot.sound |
| C25 | `C25_observers` | propext, Classical.choice, Quot.sound |
| C25 | `C25_zero_capacity_panics` | propext, Quot.sound |
| C26 | `C26_sorted` | propext, Classical.choice, Quot.sound |
| C26 | `C26_non_destructive` | propext, Classical.choice, Quot.sound |
| C27 | `C27_merge` | propext, Classical.choice, Quot.sound |
| C28 | `C28_jaccard_partial` | propext, Classical.choice, Quot.sound |
| C28 | `C28_dice_partial` | propext, Classical.choice, Quot.sound |
| C28 | `C28_cosine_partial` | propext, Classical.choice, Quot.sound |
| C28 | `C28_overlap_partial` | propext, Classical.choice, Quot.sound |
| C28 | `C28_exact` | propext, Classical.choice, Quot.sound |
| C28 | `C28_overlap_misses_large` | propext, Classical.choice, Quot.sound |
| C28 | `C28_tiny_alpha_wrong` | propext, Classical.choice, Quot.sound |
| C29 | `C29_float_exact` | propext, Classical.choice, Quot.sound |
| C29 | `C29_suggest` | propext, Classical.choice, Quot.sound |
| C29 | `C29_exact` | propext, Classical.choice, Quot.sound |
| C30 | `C30_exact_metric` | propext, Classical.choice, Quot.sound |
| C30 | `C30_loop_ends` | propext, Classical.choice, Quot.sound |
| C30 | `C30_number_ends` | propext, Classical.choice, Quot.sound |
| C30 | `C30_nan_endless` | propext, Quot.sound |
| C30 | `C30_nan_zero` | propext, Classical.choice, Quot.sound |
| C30 | `C30_float_exact` | propext, Classical.choice, Quot.sound |
| C30 | `C30_terminates_partial` | propext, Classical.choice, Quot.sound |
| C30 | `C30_blocks` | propext, Classical.choice, Quot.sound |
| C30 | `C30_panics` | propext, Classical.choice, Quot.sound |
| C30 | `C30_float_terminates_partial` | propext, Classical.choice, Quot.sound |
| C31 | `C31_deterministic` | propext, Classical.choice, Quot.sound |
| C31 | `C31_float_schedule_dependent` | propext, Classical.choice, Quot.sound |
| C32 | `C32_search_config_partial` | propext, Classical.choice, Quot.sound |
| C32 | `C32_nan_accepted` | propext, Quot.sound |
| C33 | `C33_autocomplete` | propext, Classical.choice, Quot.sound |
| C33 | `C33_any_tokens` | propext, Classical.choice, Quot.sound |
| C33 | `C33_terminates` | propext, Classical.choice, Quot.sound |
| C33 | `C33_no_tokens` | propext, Classical.choice, Quot.sound |
| C33 | `C33_negative_limit_panics` | propext, Classical.choice, Quot.sound |
| C33 | `C33_no_tokens_answers` | propext, Classical.choice, Quot.sound |
| C34 | `C34_prefix_terms_partial` | propext, Classical.choice, Quot.sound |
| C34 | `C34_short_query_loses` | propext, Classical.choice, Quot.sound |
| C35 | `C35_published_together` | propext, Classical.choice, Quot.sound |
| C35 | `C35_same_build` | propext, Classical.choice, Quot.sound |
| C35 | `C35_since` | propext |
| C36 | `C36_failing_step` | propext |
| C36 | `C36_failed_not_published` | propext, Classical.choice, Quot.sound |
| C36 | `C36_success_published` | propext, Classical.choice, Quot.sound |
| C36 | `C36_outcome` | propext |
| C37 | `C37_ngrams` | propext, Classical.choice, Quot.sound |
| C37 | `C37_ngrams_mem` | propext, Classical.choice, Quot.sound |
| C37 | `C37_short_text` | propext, Classical.choice, Quot.sound |
| C37 | `C37_never_panics` | propext, Classical.choice, Quot.sound |
| C37 | `C37_zero_panics` | propext, Quot.sound |
| C37 | `C37_large_panics` | propext, Classical.choice, Quot.sound |
| C38 | `C38_words` | propext, Classical.choice, Quot.sound |
| C38 | `C38_lm_words` | propext, Classical.choice, Quot.sound |
| C38 | `C38_separators` | propext, Classical.choice, Quot.sound |
| C38 | `C38_any_bytes_partial` | propext, Classical.choice, Quot.sound |
| C38 | `C38_invalid_utf8_panics` | propext, Quot.sound |
| C39 | `C39_sequential` | propext, Classical.choice, Quot.sound |
| C39 | `C39_simple` | propext, Classical.choice, Quot.sound |
| C39 | `C39_composite` | propext, Quot.sound |
| C39 | `C39_named` | propext, Classical.choice, Quot.sound |
| C39 | `C39_create` | propext, Classical.choice, Quot.sound |
| C39 | `C39_russian_chars` | propext, Classical.choice, Quot.sound |
| C40 | `C40_distinct_partial` | propext, Classical.choice, Quot.sound |
| C40 | `C40_duplicates` | propext, Classical.choice, Quot.sound |
| C41 | `C41_walk` | propext, Classical.choice, Quot.sound |
| C41 | `C41_exact` | propext, Classical.choice, Quot.sound |
| C41 | `C41_any_walker` | propext, Classical.choice, Quot.sound |
| C41 | `C41_overflow` | propext |
| C42 | `C42_counts` | propext, Classical.choice, Quot.sound |
| C42 | `C42_terminates` | propext, Classical.choice, Quot.sound |
| C43 | `C43_lookup` | propext, Classical.choice, Quot.sound |
| C43 | `C43_model` | propext, Classical.choice, Quot.sound |
| C43 | `C43_unknown_prefix_merged` | propext, Quot.sound |
| C44 | `C44_score_partial` | propext, Classical.choice, Quot.sound |
| C44 | `C44_longer_partial` | propext, Classical.choice, Quot.sound |
| C44 | `C44_seen` | propext, Classical.choice, Quot.sound |
| C44 | `C44_backoff_wrong` | propext, Classical.choice, Quot.sound |
| C44 | `C44_unseen_word_wrong` | propext, Classical.choice, Quot.sound |
| C45 | `C45_recent_words_partial` | propext, Classical.choice, Quot.sound |
| C45 | `C45_equal_length_wrong` | propext, Quot.sound |
| C45 | `C45_equal_length_ignores_last` | propext, Classical.choice, Quot.sound |
| C45 | `C45_order_one` | propext, Quot.sound |
| C46 | `C46_get` | propext, Classical.choice, Quot.sound |
| C46 | `C46_minimal_perfect` | propext, Classical.choice, Quot.sound |
| C46 | `C46_total` | propext, Classical.choice, Quot.sound |
| C46 | `C46_duplicate_words_diverge` | propext, Classical.choice, Quot.sound |
| C46 | `C46_empty_panics` | propext |
| C47 | `C47_get` | propext, Classical.choice, Quot.sound |
| C47 | `C47_find_partial` | propext, Classical.choice, Quot.sound |
| C47 | `C47_nil_word_wrong` | propext |
| C48 | `C48_vector_roundtrip` | propext, Classical.choice, Quot.sound |
| C48 | `C48_model_roundtrip` | propext, Classical.choice, Quot.sound |
| C48 | `C48_binary_roundtrip` | propext, Classical.choice, Quot.sound |
| C48 | `C48_other_version_refused` | propext |
| C48 | `C48_stored_model_identical` | propext, Classical.choice, Quot.sound |
| C48 | `C48_stored_model_same` | propext, Classical.choice, Quot.sound |
| C48 | `C48_size_wraps` | propext, Classical.choice, Quot.sound |
| C48 | `C48_mph_roundtrip` | propext, Quot.sound |
| C48 | `C48_mph_built` | propext, Classical.choice, Quot.sound |
| C49 | `C49_roundtrip_partial` | propext, Classical.choice, Quot.sound |
| C49 | `C49_long_line_refused` | propext, Classical.choice, Quot.sound |
| C49 | `C49_read_error_refused` | propext, Classical.choice, Quot.sound |
| C49 | `C49_dictionary_line_without_tab` | propext, Classical.choice, Quot.sound |
| C49 | `C49_unclosed_wrong` | propext, Quot.sound |
| C50 | `C50_at_most_one_more_partial` | propext, Classical.choice, Quot.sound |
| C50 | `C50_one_more` | propext, Classical.choice, Quot.sound |
| C50 | `C50_wrong` | propext, Classical.choice, Quot.sound |
| C51 | `C51_ids` | propext, Classical.choice, Quot.sound |
| C51 | `C51_no_duplicates` | propext, Classical.choice, Quot.sound |
| C51 | `C51_duplicate_entries` | propext, Classical.choice, Quot.sound |
| C52 | `C52_by_score_partial` | propext, Classical.choice, Quot.sound |
| C52 | `C52_wrong_context` | propext, Classical.choice, Quot.sound |
| C52 | `C52_single_word` | propext, Classical.choice, Quot.sound |
| C52 | `C52_wrong` | propext, Classical.choice, Quot.sound |
| C53 | `C53_sentences_partial` | propext, Classical.choice, Quot.sound |
| C53 | `C53_always_partial` | propext, Classical.choice, Quot.sound |
| C53 | `C53_chunks_partial` | propext, Classical.choice, Quot.sound |
| C53 | `C53_long_sentence_wrong` | propext, Classical.choice, Quot.sound |
| C53 | `C53_replacement_char_wrong` | propext, Quot.sound |
| C54 | `C54_all_lines_partial` | propext, Classical.choice, Quot.sound |
| C54 | `C54_always_partial` | propext, Classical.choice, Quot.sound |
| C54 | `C54_long_line_wrong` | propext, Classical.choice, Quot.sound |
| C54 | `C54_read_error_wrong` | propext, Classical.choice, Quot.sound |
| C54 | `C54_get` | propext, Classical.choice, Quot.sound |
| C55 | `C55_topK` | propext, Classical.choice, Quot.sound |
| C55 | `C55_similarity` | propext, Classical.choice, Quot.sound |
| C55 | `C55_suggest_partial` | propext, Classical.choice, Quot.sound |
| C55 | `C55_metric_names` | propext |
| C55 | `C55_suggest_nan` | propext, Classical.choice, Quot.sound |
| C55 | `C55_autocomplete` | propext, Classical.choice, Quot.sound |
| C55 | `C55_predict_partial` | propext, Classical.choice, Quot.sound |
| C55 | `C55_predict_zero_topK` | propext, Classical.choice, Quot.sound |
| C55 | `C55_predict_bad_similarity` | propext, Classical.choice, Quot.sound |
| C55 | `C55_predict_zero_similarity` | propext, Classical.choice, Quot.sound |
| C55 | `C55_wrong` | propext, Classical.choice, Quot.sound |
| C56 | `C56_version_refused` | propext |
| C56 | `C56_opened_version` | propext, Quot.sound |
| C57 | `C57_jaccard_float_loses` | propext, Classical.choice, Quot.sound |
| C57 | `C57_dice_float_loses` | propext, Classical.choice, Quot.sound |
| C57 | `C57_jaccard_margin_partial` | propext, Classical.choice, Quot.sound |
| C57 | `C57_dice_margin_partial` | propext, Classical.choice, Quot.sound |
| C57 | `C57_cosine_margin_partial` | propext, Classical.choice, Quot.sound |
| C57 | `C57_overlap_margin_partial` | propext, Classical.choice, Quot.sound |
| C57 | `C57_float_errors_partial` | propext, Classical.choice, Quot.sound |
| C58 | `C58_no_race_partial` | propext, Classical.choice, Quot.sound |
| C58 | `C58_list_races` | propext |
| C59 | `C59_no_deadlock` | propext, Classical.choice, Quot.sound |
| C60 | `C60_values` | propext, Classical.choice, Quot.sound |
| C60 | `C60_unknown` | propext, Classical.choice, Quot.sound |
| C61 | `C61_sentence` | propext, Classical.choice, Quot.sound |
| C61 | `C61_short_sentence_zero` | propext, Quot.sound |
| C62 | `C62_corpus_counts` | propext, Classical.choice, Quot.sound |
| C62 | `C62_corpus_scores` | propext, Classical.choice, Quot.sound |
| C63 | `C63_dictionary` | propext, Classical.choice, Quot.sound |
| C63 | `C63_stored_language_model` | propext, Classical.choice, Quot.sound |
| C63 | `C63_two_lines_for_a_word_diverges` | propext, Classical.choice, Quot.sound |
| C63 | `C63_empty_corpus_panics` | propext, Quot.sound |
| C64 | `C64_power_of_two_diverges` | propext, Classical.choice, Quot.sound |
| C64 | `C64_two_words_diverge` | propext, Classical.choice, Quot.sound |
| C64 | `C64_terminates_partial` | propext |
| C64 | `C64_bounded_partial` | propext, Quot.sound |
| C64 | `C64_two_words_exact` | propext, Classical.choice, Quot.sound |
| C65 | `C65_exact` | propext, Classical.choice, Quot.sound |
| C65 | `C65_float_exact` | propext, Classical.choice, Quot.sound |
| C65 | `C65_no_words` | propext, Quot.sound |
| C65 | `C65_short_word` | propext, Classical.choice, Quot.sound |
| C65 | `C65_answers_partial` | propext, Classical.choice, Quot.sound |
| C65 | `C65_long_word_blocks` | propext, Classical.choice, Quot.sound |
| C65 | `C65_long_word_panics` | propext, Classical.choice, Quot.sound |
| C65 | `C65_zero_panics` | propext, Classical.choice, Quot.sound |
| C65 | `C65_wrong` | propext, Classical.choice, Quot.sound |
| C66 | `C66_float_suggest` | propext, Classical.choice, Quot.sound |
| C66 | `C66_float_misses` | propext, Classical.choice, Quot.sound |
| C67 | `C67_exact_words` | propext, Classical.choice, Quot.sound |
| C67 | `C67_exact_example` | propext, Classical.choice, Quot.sound |
| C67 | `C67_repeated_query` | propext, Classical.choice, Quot.sound |
| C67 | `C67_short_query` | propext, Classical.choice, Quot.sound |
| C67 | `C67_suggest_words` | propext, Classical.choice, Quot.sound |
| C67 | `C67_answers_partial` | propext, Classical.choice, Quot.sound |
| C67 | `C67_repeated_word` | propext, Classical.choice, Quot.sound |
| C67 | `C67_first_word_panics` | propext, Classical.choice, Quot.sound |
| C68 | `C68_faithful_answers` | propext, Classical.choice, Quot.sound |
| C68 | `C68_any_prefix` | propext, Classical.choice, Quot.sound |
| C68 | `C68_any_answers` | propext, Classical.choice, Quot.sound |
| C68 | `C68_short_prefix` | propext, Classical.choice, Quot.sound |
| C68 | `C68_autocomplete_words` | propext, Classical.choice, Quot.sound |
| C68 | `C68_prefixes_match` | propext, Quot.sound |
| C69 | `C69_completed` | propext, Quot.sound |
| C69 | `C69_mixture_published` | propext, Quot.sound |
| C69 | `C69_appended_partial` | propext, Classical.choice, Quot.sound |
| C69 | `C69_wrong_words` | propext, Classical.choice, Quot.sound |
| C70 | `C70_never_lost` | propext |
| C70 | `C70_serves_a_version` | propext |
| C70 | `C70_success_partial` | propext, Quot.sound |
| C70 | `C70_failure_partial` | propext, Quot.sound |
| C70 | `C70_bad_config` | propext |
| C70 | `C70_failed_reload_changes` | propext |
| C70 | `C70_overlapping_reloads_stale` | propext |
| C71 | `C71_trains` | propext, Classical.choice, Quot.sound |
| C71 | `C71_builds` | propext, Classical.choice, Quot.sound |
| C71 | `C71_corrections_partial` | propext, Classical.choice, Quot.sound |
| C71 | `C71_answers_partial` | propext, Classical.choice, Quot.sound |
| C72 | `C72_words_of_the_corpus_partial` | propext, Classical.choice, Quot.sound |
| C72 | `C72_symbol_offered` | propext, Classical.choice, Quot.sound |
| C73 | `C73_not_lost` | propext, Quot.sound |
| C73 | `C73_settles` | propext, Classical.choice, Quot.sound |
| C73 | `C73_reload_follows` | propext, Quot.sound |
| C73 | `C73_not_fatal_partial` | propext |
| C73 | `C73_early_signal_kills` | propext |
| C74 | `C74_terminates` | propext |
| C74 | `C74_accepts_nothing` | propext |
| C74 | `C74_requests_partial` | propext |
| C74 | `C74_requests_cut` | propext |
| C75 | `C75_dictionary` | propext, Quot.sound |
| C75 | `C75_dictionary_get` | propext, Classical.choice, Quot.sound |
| C75 | `C75_others_untouched` | propext, Quot.sound |
| C75 | `C75_success` | propext, Classical.choice, Quot.sound |
| C75 | `C75_ends` | propext, Classical.choice, Quot.sound |
| C75 | `C75_failure_partial` | propext, Classical.choice, Quot.sound |
| C75 | `C75_long_line_destroys` | propext, Classical.choice, Quot.sound |
| C75 | `C75_bad_first_line_wrong_words` | propext, Classical.choice, Quot.sound |
| C76 | `C76_ram_partial` | propext, Classical.choice, Quot.sound |
| C76 | `C76_disc` | propext, Classical.choice, Quot.sound |
| C76 | `C76_command_succeeds` | propext, Classical.choice, Quot.sound |
| C76 | `C76_suggest_lines` | propext, Classical.choice, Quot.sound |
| C76 | `C76_complete_lines` | propext, Classical.choice, Quot.sound |
| C77 | `C77_unchanged_partial` | propext, Quot.sound |
| C77 | `C77_reindex_kills` | propext, Classical.choice, Quot.sound |
| C77 | `C77_shorter_kills` | propext, Quot.sound |
| C77 | `C77_wrong_postings` | propext, Classical.choice, Quot.sound |
| C78 | `C78_suggest_safe` | propext, Classical.choice, Quot.sound |
| C78 | `C78_opening_safe` | propext, Classical.choice, Quot.sound |
| C78 | `C78_published_mapped` | propext, Classical.choice, Quot.sound |
| C78 | `C78_complete_partial` | propext, Classical.choice, Quot.sound |
| C78 | `C78_complete_unmapped` | propext |
| C79 | `C79_always_partial` | propext, Classical.choice, Quot.sound |
| C79 | `C79_sentences_partial` | propext, Classical.choice, Quot.sound |
| C79 | `C79_long_sentence_ignored` | propext, Classical.choice, Quot.sound |
| C79 | `C79_counts_partial` | propext, Classical.choice, Quot.sound |
| C79 | `C79_training` | propext, Classical.choice, Quot.sound |
| C79 | `C79_stored` | propext, Classical.choice, Quot.sound |
| C79 | `C79_long_sentence_loses_words` | propext, Classical.choice, Quot.sound |
| C80 | `C80_filter` | propext, Quot.sound |
| C80 | `C80_append` | propext, Quot.sound |
| C80 | `C80_english` | propext, Classical.choice, Quot.sound |
| C80 | `C80_russian` | propext, Classical.choice, Quot.sound |
| C80 | `C80_stop_words_pass` | propext, Classical.choice, Quot.sound |
| C81 | `C81_russian` | propext, Classical.choice, Quot.sound |
| C81 | `C81_prefix` | propext, Classical.choice, Quot.sound |
| C81 | `C81_through_first_vowel` | propext, Classical.choice, Quot.sound |
| C81 | `C81_no_vowel` | propext, Classical.choice, Quot.sound |
| C81 | `C81_not_empty` | propext, Classical.choice, Quot.sound |
| C81 | `C81_tables` | propext |
| C82 | `C82_english` | propext, Classical.choice, Quot.sound |
| C82 | `C82_not_longer` | propext, Classical.choice, Quot.sound |
| C82 | `C82_empty_iff` | propext, Classical.choice, Quot.sound |
| C82 | `C82_not_empty` | propext, Classical.choice, Quot.sound |
| C82 | `C82_empty_token` | propext, Classical.choice, Quot.sound |
| C82 | `C82_tables` | propext |
| C83 | `C83_reply_iff` | propext |
| C83 | `C83_success_partial` | propext, Classical.choice, Quot.sound |
| C83 | `C83_idle_noStale` | none |
| C83 | `C83_failure_reported` | propext |
| C83 | `C83_older_reload_wins` | propext |
| C83 | `C83_signal_says_nothing` | propext |
| C83 | `C83_unknown_dict` | propext, Quot.sound |
| C83 | `C83_unknown_not_sent` | propext |
| C83 | `C83_server_serves_source_partial` | propext, Classical.choice, Quot.sound |
| C84 | `C84_isolated` | propext, Classical.choice, Quot.sound |
| C84 | `C84_no_race` | propext, Classical.choice, Quot.sound |
| C84 | `C84_pools` | propext, Classical.choice, Quot.sound |
| C84 | `C84_ends` | propext, Classical.choice, Quot.sound |
| C84 | `C84_finite` | propext, Classical.choice, Quot.sound |
| C84 | `C84_answer` | propext, Classical.choice, Quot.sound |
| C85 | `C85_index_reported` | propext, Classical.choice, Quot.sound |
| C85 | `C85_index_success` | propext, Classical.choice, Quot.sound |
| C85 | `C85_binary_reported` | propext, Quot.sound |
| C85 | `C85_binary_success` | propext, Classical.choice, Quot.sound |
| C85 | `C85_ngrams_reported` | propext, Classical.choice, Quot.sound |
| C85 | `C85_encode_swallows_eof` | propext, Quot.sound |
| C85 | `C85_index_example` | propext, Classical.choice, Quot.sound |
| C86 | `C86_open_partial` | propext, Classical.choice, Quot.sound |
| C86 | `C86_open_panics` | propext, Classical.choice, Quot.sound |
| C86 | `C86_suggest_ends` | propext, Classical.choice, Quot.sound |
| C86 | `C86_suggest` | propext, Classical.choice, Quot.sound |
| C86 | `C86_autocomplete` | propext, Classical.choice, Quot.sound |
| C86 | `C86_lower_bound_ends` | propext, Classical.choice, Quot.sound |
| C86 | `C86_cut_docs` | propext, Classical.choice, Quot.sound |
| C86 | `C86_cut_header` | propext, Quot.sound |
| C86 | `C86_cut_suggest` | propext, Classical.choice, Quot.sound |
| C86 | `C86_cut_autocomplete` | propext, Classical.choice, Quot.sound |
| C86 | `C86_cut_autocomplete_exact` | propext, Classical.choice, Quot.sound |
| C86 | `C86_cut_suggest_exact` | propext, Classical.choice, Quot.sound |
| C86 | `C86_lm_prefix_refused_partial` | propext, Classical.choice, Quot.sound |
| C86 | `C86_lm_prefix_panics` | propext, Classical.choice, Quot.sound |
| C86 | `C86_lm_accepted_panics` | propext |
| C87 | `C87_frequencies` | propext, Classical.choice, Quot.sound |
| C87 | `C87_markers_partial` | propext, Classical.choice, Quot.sound |
| C87 | `C87_marker_wrong` | propext, Classical.choice, Quot.sound |
| C87 | `C87_absent_not_nil` | propext, Classical.choice, Quot.sound |
| C87 | `C87_walk` | propext, Classical.choice, Quot.sound |
| C87 | `C87_assignment` | propext, Classical.choice, Quot.sound |
| C87 | `C87_kept` | propext, Classical.choice, Quot.sound |
| C87 | `C87_prune` | propext, Classical.choice, Quot.sound |
| C87 | `C87_maximal` | propext, Classical.choice, Quot.sound |
| C87 | `C87_idempotent` | propext, Classical.choice, Quot.sound |
| C87 | `C87_total` | propext, Classical.choice, Quot.sound |
| C87 | `C87_prune_depends_on_order` | propext, Classical.choice, Quot.sound |
| C88 | `C88_exact` | propext, Classical.choice, Quot.sound |
| C88 | `C88_routes` | propext, Classical.choice, Quot.sound |
| C88 | `C88_routes_unclean` | propext, Quot.sound |
| C88 | `C88_request` | propext, Classical.choice, Quot.sound |
| C88 | `C88_request_only` | propext, Classical.choice, Quot.sound |
| C88 | `C88_cannot_ask` | propext, Classical.choice, Quot.sound |
| C88 | `C88_no_slash` | propext, Classical.choice, Quot.sound |
| C88 | `C88_form` | propext, Classical.choice, Quot.sound |
| C88 | `C88_json` | propext, Classical.choice, Quot.sound |
| C88 | `C88_json_unique` | propext, Classical.choice, Quot.sound |
| C88 | `C88_invalid_words` | propext, Classical.choice, Quot.sound |
| C88 | `C88_bad_parameters` | propext, Classical.choice, Quot.sound |
| C88 | `C88_unknown_dictionary` | propext, Classical.choice, Quot.sound |
| C88 | `C88_dict_list` | propext, Classical.choice, Quot.sound |
| C88 | `C88_suggest` | propext, Classical.choice, Quot.sound |
| C88 | `C88_suggest_answers_partial` | propext, Classical.choice, Quot.sound |
| C88 | `C88_autocomplete` | propext, Classical.choice, Quot.sound |
| C88 | `C88_autocomplete_answers` | propext, Classical.choice, Quot.sound |
| C89 | `C89_relative_source` | propext, Classical.choice, Quot.sound |
| C89 | `C89_relative_output` | propext, Classical.choice, Quot.sound |
| C89 | `C89_absolute` | none |
| C89 | `C89_index_files` | propext, Classical.choice, Quot.sound |
| C89 | `C89_lm_files` | propext, Classical.choice, Quot.sound |
| C89 | `C89_files_distinct` | propext, Classical.choice, Quot.sound |
| C89 | `C89_any_working_folder` | propext, Classical.choice, Quot.sound |
| C89 | `C89_lm_same_dictionary` | propext, Classical.choice, Quot.sound |
| C89 | `C89_lm_same_grams` | propext, Classical.choice, Quot.sound |
| C89 | `C89_slash_name_wrong` | propext, Classical.choice, Quot.sound |
| C90 | `C90_routes` | propext, Classical.choice, Quot.sound |
| C90 | `C90_routes_unclean` | propext, Quot.sound |
| C90 | `C90_request` | propext, Classical.choice, Quot.sound |
| C90 | `C90_request_only` | propext, Classical.choice, Quot.sound |
| C90 | `C90_no_slash` | propext, Classical.choice, Quot.sound |
| C90 | `C90_words_json` | propext, Classical.choice, Quot.sound |
| C90 | `C90_bad_parameters` | propext, Classical.choice, Quot.sound |
| C90 | `C90_corrections_partial` | propext, Classical.choice, Quot.sound |
| C90 | `C90_answers_partial` | propext, Classical.choice, Quot.sound |
| C91 | `C91_isolated_partial` | propext, Classical.choice, Quot.sound |
| C91 | `C91_caller_unchanged` | propext, Classical.choice, Quot.sound |
| C91 | `C91_scorer_stable` | propext, Classical.choice, Quot.sound |
| C91 | `C91_score_next` | propext, Classical.choice, Quot.sound |
| C91 | `C91_no_race` | propext, Classical.choice, Quot.sound |
| C91 | `C91_no_panic` | propext, Classical.choice, Quot.sound |
| C91 | `C91_spare_capacity` | propext, Classical.choice, Quot.sound |
| C91 | `C91_prefix_race` | propext, Quot.sound |
| C92 | `C92_read_at` | propext, Quot.sound |
| C92 | `C92_closed` | none |
| C92 | `C92_iterate_partial` | propext, Quot.sound |
| C92 | `C92_lines_partial` | propext, Quot.sound |
| C92 | `C92_empty_value_stops` | propext, Quot.sound |
| C92 | `C92_blank_line_stops` | propext, Quot.sound |
| C92 | `C92_empty_line_fails` | propext, Classical.choice, Quot.sound |
| C93 | `C93_trim` | propext, Classical.choice, Quot.sound |
| C93 | `C93_order` | propext, Classical.choice, Quot.sound |
| C93 | `C93_long_line` | propext, Classical.choice, Quot.sound |
| C93 | `C93_unknown_dictionary` | propext, Classical.choice, Quot.sound |
| C93 | `C93_bad_flags` | propext, Classical.choice, Quot.sound |
| C93 | `C93_suggest` | propext, Classical.choice, Quot.sound |
| C93 | `C93_suggest_answers_partial` | propext, Classical.choice, Quot.sound |
| C93 | `C93_lm` | propext, Classical.choice, Quot.sound |
| C93 | `C93_spellchecker_partial` | propext, Classical.choice, Quot.sound |
| C93 | `C93_spellchecker_answers_partial` | propext, Classical.choice, Quot.sound |
| C94 | `C94_complete_any` | propext, Classical.choice, Quot.sound |
| C94 | `C94_complete_fate` | propext, Classical.choice, Quot.sound |
| C94 | `C94_complete_fate_example` | propext, Classical.choice, Quot.sound |
| C94 | `C94_exact_fate` | propext, Classical.choice, Quot.sound |
| C94 | `C94_exact_example` | propext, Classical.choice, Quot.sound |
| C94 | `C94_suggest_memory_partial` | propext, Classical.choice, Quot.sound |
| C94 | `C94_huge_topK_kills` | propext, Classical.choice, Quot.sound |
| C94 | `C94_larger_topK_aborts` | propext, Classical.choice, Quot.sound |
| C94 | `C94_predict_memory_partial` | propext, Classical.choice, Quot.sound |
| C94 | `C94_predict_huge_topK_kills` | propext, Classical.choice, Quot.sound |
| C94 | `C94_memory_example` | propext, Classical.choice, Quot.sound |
| C94 | `C94_nan_hangs` | propext, Classical.choice, Quot.sound |
| C94 | `C94_predict_nan_hangs` | propext, Classical.choice, Quot.sound |
| C94 | `C94_nan_example` | propext, Classical.choice, Quot.sound |
| C94 | `C94_predict_fate` | propext, Classical.choice, Quot.sound |
| C94 | `C94_predict_fate_example` | propext, Classical.choice, Quot.sound |
| C94 | `C94_predict_no_words` | propext, Classical.choice, Quot.sound |
| C94 | `C94_predict_short_word` | propext, Classical.choice, Quot.sound |
| C94 | `C94_predict_short_word_nan` | propext, Classical.choice, Quot.sound |
| C94 | `C94_others_unaffected` | propext, Classical.choice, Quot.sound |
| C94 | `C94_still_answers` | propext |
| C94 | `C94_answers_last` | propext, Quot.sound |
| C94 | `C94_after_the_end` | propext, Quot.sound |
| C94 | `C94_own_answers` | propext, Quot.sound |
| C94 | `C94_suggest_survives_partial` | propext, Classical.choice, Quot.sound |
| C94 | `C94_list_kills` | propext, Classical.choice, Quot.sound |
| C94 | `C94_predict_survives_partial` | propext, Classical.choice, Quot.sound |
| C94 | `C94_topK_zero_kills` | propext, Classical.choice, Quot.sound |
| C94 | `C94_long_query_kills` | propext, Classical.choice, Quot.sound |
| C94 | `C94_long_query` | propext, Classical.choice, Quot.sound |
| C94 | `C94_long_query_example` | propext, Classical.choice, Quot.sound |
| C94 | `C94_suggest_fate` | propext, Classical.choice, Quot.sound |
| C94 | `C94_fate_example` | propext, Classical.choice, Quot.sound |
| C94 | `C94_complete_short` | propext, Classical.choice, Quot.sound |
| C94 | `C94_suggest_short` | propext, Classical.choice, Quot.sound |
| C94 | `C94_complete_short_example` | propext, Classical.choice, Quot.sound |
| C94 | `C94_suggest_short_example` | propext, Classical.choice, Quot.sound |
| C94 | `C94_suggest_short_nan` | propext, Classical.choice, Quot.sound |
| C95 | `C95_unambiguous` | propext, Classical.choice, Quot.sound |
| C95 | `C95_descriptions` | propext, Classical.choice, Quot.sound |
| C95 | `C95_model` | propext, Classical.choice, Quot.sound |
| C95 | `C95_accepted` | propext, Classical.choice, Quot.sound |
| C95 | `C95_model_accepted` | propext, Classical.choice, Quot.sound |
| C95 | `C95_truncated` | propext, Classical.choice, Quot.sound |
| C95 | `C95_model_truncated` | propext, Classical.choice, Quot.sound |
| C95 | `C95_unreadable` | propext, Quot.sound |
| C95 | `C95_no_size_panics` | propext, Classical.choice, Quot.sound |
| C95 | `C95_no_size_start` | propext, Classical.choice, Quot.sound |
| C95 | `C95_driver_partial` | propext, Classical.choice, Quot.sound |
| C95 | `C95_driver_wrong` | propext, Classical.choice, Quot.sound |
| C96 | `C96_starts_partial` | propext, Classical.choice, Quot.sound |
| C96 | `C96_suggest_partial` | propext, Classical.choice, Quot.sound |
| C96 | `C96_suggest_answers_partial` | propext, Classical.choice, Quot.sound |
| C96 | `C96_autocomplete_partial` | propext, Classical.choice, Quot.sound |
| C96 | `C96_names` | propext, Classical.choice, Quot.sound |
| C96 | `C96_no_start` | propext, Classical.choice, Quot.sound |
| C97 | `C97_grams_partial` | propext, Classical.choice, Quot.sound |
| C97 | `C97_short_sentences_wrong` | propext, Classical.choice, Quot.sound |
| C97 | `C97_shared_folder_wrong` | propext, Classical.choice, Quot.sound |
| C97 | `C97_failed_build_wrong` | propext, Classical.choice, Quot.sound |
| C97 | `C97_hanging_build_wrong` | propext, Classical.choice, Quot.sound |
| C97 | `C97_starts_partial` | propext, Classical.choice, Quot.sound |
| C97 | `C97_corrections_partial` | propext, Classical.choice, Quot.sound |
| C97 | `C97_answers_partial` | propext, Classical.choice, Quot.sound |
