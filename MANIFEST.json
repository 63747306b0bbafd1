{
 "claims": [
  {
   "property": "C01",
   "status": "proved",
   "theorems": [
    "Verif.Props.C01_vuint32_roundtrip",
    "Verif.Props.C01_vuint32_size",
    "Verif.Props.C01_vuint32_format"
   ],
   "note": ""
  },
  {
   "property": "C02",
   "status": "proved",
   "theorems": [
    "Verif.Props.C02_readVUInt32_ok",
    "Verif.Props.C02_readVUInt32_error",
    "Verif.Props.C02_paths_agree"
   ],
   "note": ""
  },
  {
   "property": "C03",
   "status": "proved",
   "theorems": [
    "Verif.Props.C03_vb_roundtrip",
    "Verif.Props.C03_vb_count",
    "Verif.Props.C03_vb_prefix",
    "Verif.Props.C03_longer_buffer_wrong",
    "Verif.Props.C03_cut_value_silent"
   ],
   "note": ""
  },
  {
   "property": "C04",
   "status": "proved",
   "theorems": [
    "Verif.Props.C04_skipping_roundtrip",
    "Verif.Props.C04_short_list_rejected",
    "Verif.Props.C04_gap_zero_diverges",
    "Verif.Props.C04_gap_negative_panics"
   ],
   "note": "Proved for every accepted gap >= 1; for the other gaps SkippingEncoder accepts (0 and negative) the code does not terminate / panics, shown by C04_gap_zero_diverges and C04_gap_negative_panics."
  },
  {
   "property": "C05",
   "status": "partial",
   "theorems": [
    "Verif.Props.C05_skipping_count_partial",
    "Verif.Props.C05_count_wrong"
   ],
   "note": "False in general: the skipping decoder does not count all block heads (C05_count_wrong). C05_skipping_count_partial gives the number it does return."
  },
  {
   "property": "C06",
   "status": "proved",
   "theorems": [
    "Verif.Props.C06_binary_roundtrip",
    "Verif.Props.C06_binary_count",
    "Verif.Props.C06_longer_buffer_wrong"
   ],
   "note": ""
  },
  {
   "property": "C07",
   "status": "proved",
   "theorems": [
    "Verif.Props.C07_no_panic",
    "Verif.Props.C07_data_unchanged_step",
    "Verif.Props.C07_history",
    "Verif.Props.C07_readUInt32",
    "Verif.Props.C07_readUInt16",
    "Verif.Props.C07_read",
    "Verif.Props.C07_readByte",
    "Verif.Props.C07_readAt",
    "Verif.Props.C07_seek",
    "Verif.Props.C07_slice",
    "Verif.Props.C07_int64_agrees",
    "Verif.Props.C07_slice_int64_agrees",
    "Verif.Props.C07_int64_overflow_panics",
    "Verif.Props.C07_slice_int64_overflow_panics"
   ],
   "note": "Proved for offsets that do not overflow int64; at int64 overflow the code panics (C07_int64_overflow_panics, C07_slice_int64_overflow_panics)."
  },
  {
   "property": "C08",
   "status": "proved",
   "theorems": [
    "Verif.Props.C08_vb_iterator",
    "Verif.Props.C08_slice_iterator"
   ],
   "note": ""
  },
  {
   "property": "C09",
   "status": "proved",
   "theorems": [
    "Verif.Props.C09_skipping_iterator"
   ],
   "note": ""
  },
  {
   "property": "C10",
   "status": "proved",
   "theorems": [
    "Verif.Props.C10_bitmap_iterator",
    "Verif.Props.C10_bitmap_iterator_dedup",
    "Verif.Props.C10_contract_satisfiable"
   ],
   "note": "Relative to the contract Roaring.Lawful of the third-party bitmap library; C10_contract_satisfiable shows the contract is consistent."
  },
  {
   "property": "C11",
   "status": "proved",
   "theorems": [
    "Verif.Props.C11_codec",
    "Verif.Props.C11_codec_short"
   ],
   "note": ""
  },
  {
   "property": "C12",
   "status": "proved",
   "theorems": [
    "Verif.Props.C12_scanCount"
   ],
   "note": "If T equals the number of lists the code switches to Intersect, which fails on an empty list (C16_empty_list)."
  },
  {
   "property": "C13",
   "status": "proved",
   "theorems": [
    "Verif.Props.C13_cpMerge",
    "Verif.Props.C13_threshold_zero_panics"
   ],
   "note": "T >= 1; for T = 0 the code panics (C13_threshold_zero_panics)."
  },
  {
   "property": "C14",
   "status": "proved",
   "theorems": [
    "Verif.Props.C14_mergeSkip",
    "Verif.Props.C14_empty_list_wrong"
   ],
   "note": "For nonempty lists; with an empty list the claim is false (C14_empty_list_wrong). The index never hands out empty lists."
  },
  {
   "property": "C15",
   "status": "partial",
   "theorems": [
    "Verif.Props.C15_divideSkip_partial",
    "Verif.Props.C15_divideSkip_general_partial",
    "Verif.Props.C15_singletons_wrong"
   ],
   "note": "Full claim false: C15_singletons_wrong. Proved when mu > 0 and some list has two elements, and whenever the number of long lists is below T. The number of long lists is computed over the reals."
  },
  {
   "property": "C16",
   "status": "proved",
   "theorems": [
    "Verif.Props.C16_intersect",
    "Verif.Props.C16_empty_list"
   ],
   "note": "For nonempty lists; an empty shortest list makes Intersect return an error (C16_empty_list)."
  },
  {
   "property": "C17",
   "status": "proved",
   "theorems": [
    "Verif.Props.C17_interchangeable",
    "Verif.Props.C17_divideSkip",
    "Verif.Props.C17_early_stop"
   ],
   "note": "ScanCount, CPMerge, MergeSkip unconditionally for nonempty lists and T >= 1; DivideSkip under the condition of C15."
  },
  {
   "property": "C18",
   "status": "proved",
   "theorems": [
    "Verif.Props.C18_pack",
    "Verif.Props.C18_increment",
    "Verif.Props.C18_scanCount_overflow",
    "Verif.Props.C18_cpMerge_overflow"
   ],
   "note": "C18_scanCount_overflow, C18_cpMerge_overflow: a position in more than 65535 of the lists makes the merge panic."
  },
  {
   "property": "C19",
   "status": "proved",
   "theorems": [
    "Verif.Props.C19_commit_succeeds",
    "Verif.Props.C19_read_back_fs",
    "Verif.Props.C19_read_back_ram"
   ],
   "note": "Relative to the contracts Roaring.Lawful and Gob.Lawful (both shown satisfiable); the first document must have a term (C23), the document list must be nonempty on a file system (mapping an empty file fails) and shorter than 4 GiB."
  },
  {
   "property": "C20",
   "status": "proved",
   "theorems": [
    "Verif.Props.C20_order_irrelevant"
   ],
   "note": "Stated for file system directories, from C19."
  },
  {
   "property": "C21",
   "status": "partial",
   "theorems": [
    "Verif.Props.C21_crash_partial",
    "Verif.Props.C21_stale_header_wrong"
   ],
   "note": "Full claim false: C21_stale_header_wrong. Proved if there was no header before or the new document list has at most 4096 bytes, for every crash point including torn writes."
  },
  {
   "property": "C22",
   "status": "partial",
   "theorems": [
    "Verif.Props.C22_fs_rebuild_replaces_partial",
    "Verif.Props.C22_ram_keeps_old"
   ],
   "note": "True for file system directories; false for RAM directories (C22_ram_keeps_old)."
  },
  {
   "property": "C23",
   "status": "partial",
   "theorems": [
    "Verif.Props.C23_add_documents_partial",
    "Verif.Props.C23_empty_first_panics"
   ],
   "note": "Full claim false: C23_empty_first_panics. Proved for all histories whose first document has a term."
  },
  {
   "property": "C24",
   "status": "proved",
   "theorems": [
    "Verif.Props.C24_search"
   ],
   "note": "For T >= 1, mergers ScanCount, CPMerge, MergeSkip; fewer than 2^31 query terms, of which at most 65535 occur in any one document (beyond, the 16-bit counter panics: C18_scanCount_overflow)."
  },
  {
   "property": "C25",
   "status": "proved",
   "theorems": [
    "Verif.Props.C25_keeps_best",
    "Verif.Props.C25_observers",
    "Verif.Props.C25_zero_capacity_panics"
   ],
   "note": ""
  },
  {
   "property": "C26",
   "status": "proved",
   "theorems": [
    "Verif.Props.C26_sorted",
    "Verif.Props.C26_non_destructive"
   ],
   "note": ""
  },
  {
   "property": "C27",
   "status": "proved",
   "theorems": [
    "Verif.Props.C27_merge"
   ],
   "note": ""
  },
  {
   "property": "C28",
   "status": "partial",
   "theorems": [
    "Verif.Props.C28_jaccard_partial",
    "Verif.Props.C28_dice_partial",
    "Verif.Props.C28_cosine_partial",
    "Verif.Props.C28_overlap_partial",
    "Verif.Props.C28_exact",
    "Verif.Props.C28_overlap_misses_large",
    "Verif.Props.C28_tiny_alpha_wrong"
   ],
   "note": "Exact real arithmetic. Jaccard/Dice/Cosine: proved when the upper bound fits int64 (false otherwise on amd64: C28_tiny_alpha_wrong); Overlap: documents with at most 32767 terms (false beyond: C28_overlap_misses_large); Exact proved."
  },
  {
   "property": "C29",
   "status": "proved",
   "theorems": [
    "Verif.Props.C29_float_exact",
    "Verif.Props.C29_suggest",
    "Verif.Props.C29_exact"
   ],
   "note": "Exact real arithmetic (RealMetric: no int64 overflow; Overlap with at most 32767 terms); query tokens pairwise distinct, at most 65535 of them in any one document. In float64 the claim fails at ties (C31_float_schedule_dependent). C29_float_exact: the metric Exact also in float64 arithmetic."
  },
  {
   "property": "C30",
   "status": "partial",
   "theorems": [
    "Verif.Props.C30_exact_metric",
    "Verif.Props.C30_loop_ends",
    "Verif.Props.C30_number_ends",
    "Verif.Props.C30_nan_endless",
    "Verif.Props.C30_nan_zero",
    "Verif.Props.C30_float_exact",
    "Verif.Props.C30_terminates_partial",
    "Verif.Props.C30_blocks",
    "Verif.Props.C30_panics",
    "Verif.Props.C30_float_terminates_partial"
   ],
   "note": "Full claim false: a search blocks forever (C30_blocks) or panics (C30_panics). C30_terminates_partial gives termination under every fair schedule on the remaining inputs. Also in float64: C30_float_terminates_partial, and exactly which of the three happens, independently of the schedule: C30_float_exact. With Go's 64-bit integers the loop over the lengths ends for every similarity that is a number (C30_loop_ends, C30_number_ends); for NaN, which is accepted (C32), it never ends where int(NaN) is -2^63 (C30_nan_endless). C30_exact_metric: the same trichotomy for the metric Exact."
  },
  {
   "property": "C31",
   "status": "partial",
   "theorems": [
    "Verif.Props.C31_deterministic",
    "Verif.Props.C31_float_schedule_dependent"
   ],
   "note": "Exact arithmetic: C31_deterministic. In float64 the answer depends on the schedule (C31_float_schedule_dependent)."
  },
  {
   "property": "C32",
   "status": "partial",
   "theorems": [
    "Verif.Props.C32_search_config_partial",
    "Verif.Props.C32_nan_accepted"
   ],
   "note": "NaN is accepted (C32_nan_accepted); proved for every non-NaN similarity."
  },
  {
   "property": "C33",
   "status": "proved",
   "theorems": [
    "Verif.Props.C33_autocomplete",
    "Verif.Props.C33_any_tokens",
    "Verif.Props.C33_terminates",
    "Verif.Props.C33_no_tokens",
    "Verif.Props.C33_negative_limit_panics",
    "Verif.Props.C33_no_tokens_answers"
   ],
   "note": "For a nonempty list of distinct tokens, and the exact answer if there are repetitions (C33_any_tokens); no tokens give no results (C33_no_tokens), a negative limit panics (C33_negative_limit_panics)."
  },
  {
   "property": "C34",
   "status": "partial",
   "theorems": [
    "Verif.Props.C34_prefix_terms_partial",
    "Verif.Props.C34_short_query_loses"
   ],
   "note": "False for queries with fewer than n characters but at least n bytes (C34_short_query_loses); proved for all other queries."
  },
  {
   "property": "C35",
   "status": "proved",
   "theorems": [
    "Verif.Props.C35_published_together",
    "Verif.Props.C35_same_build",
    "Verif.Props.C35_since"
   ],
   "note": "Go's RWMutex is modelled by its contract: a writer excludes everybody, readers exclude writers."
  },
  {
   "property": "C36",
   "status": "proved",
   "theorems": [
    "Verif.Props.C36_failing_step",
    "Verif.Props.C36_failed_not_published",
    "Verif.Props.C36_success_published",
    "Verif.Props.C36_outcome"
   ],
   "note": ""
  },
  {
   "property": "C37",
   "status": "proved",
   "theorems": [
    "Verif.Props.C37_ngrams",
    "Verif.Props.C37_ngrams_mem",
    "Verif.Props.C37_short_text",
    "Verif.Props.C37_never_panics",
    "Verif.Props.C37_zero_panics",
    "Verif.Props.C37_large_panics"
   ],
   "note": "n in 1..8; n = 0 and n > 8 panic (C37_zero_panics, C37_large_panics). A text with fewer than n characters but at least n bytes is its own token (C37_short_text)."
  },
  {
   "property": "C38",
   "status": "partial",
   "theorems": [
    "Verif.Props.C38_words",
    "Verif.Props.C38_lm_words",
    "Verif.Props.C38_separators",
    "Verif.Props.C38_any_bytes_partial",
    "Verif.Props.C38_invalid_utf8_panics"
   ],
   "note": "Proved for valid UTF-8 texts and any alphabet, and for arbitrary bytes if U+FFFD is not in the alphabet; false otherwise (C38_invalid_utf8_panics)."
  },
  {
   "property": "C39",
   "status": "proved",
   "theorems": [
    "Verif.Props.C39_sequential",
    "Verif.Props.C39_simple",
    "Verif.Props.C39_composite",
    "Verif.Props.C39_named",
    "Verif.Props.C39_create",
    "Verif.Props.C39_russian_chars"
   ],
   "note": "The Russian alphabet has the letter yo but does not list it in Chars (C39_russian_chars)."
  },
  {
   "property": "C40",
   "status": "partial",
   "theorems": [
    "Verif.Props.C40_distinct_partial",
    "Verif.Props.C40_duplicates"
   ],
   "note": "False in general (C40_duplicates); proved for texts whose characters are in the alphabet or equal to the pad."
  },
  {
   "property": "C41",
   "status": "proved",
   "theorems": [
    "Verif.Props.C41_walk",
    "Verif.Props.C41_exact",
    "Verif.Props.C41_any_walker",
    "Verif.Props.C41_overflow"
   ],
   "note": "Counts are uint32 (WordCount): sums are modulo 2^32 (C41_overflow shows the wrap)."
  },
  {
   "property": "C42",
   "status": "proved",
   "theorems": [
    "Verif.Props.C42_counts",
    "Verif.Props.C42_terminates"
   ],
   "note": ""
  },
  {
   "property": "C43",
   "status": "proved",
   "theorems": [
    "Verif.Props.C43_lookup",
    "Verif.Props.C43_model",
    "Verif.Props.C43_unknown_prefix_merged"
   ],
   "note": "For 32-bit contexts/words/counts and at most 2^32-3 entries per vector. An n-gram whose prefix has no line in the lower-order file is merged with the others of that kind (C43_unknown_prefix_merged)."
  },
  {
   "property": "C44",
   "status": "partial",
   "theorems": [
    "Verif.Props.C44_score_partial",
    "Verif.Props.C44_longer_partial",
    "Verif.Props.C44_seen",
    "Verif.Props.C44_backoff_wrong",
    "Verif.Props.C44_unseen_word_wrong"
   ],
   "note": "Full claim false: the code backs off by dropping the newest word (C44_backoff_wrong), and scores never-seen words (C44_unseen_word_wrong). C44_score_partial gives the exact formula; C44_seen: seen n-grams get the stupid back-off score."
  },
  {
   "property": "C45",
   "status": "partial",
   "theorems": [
    "Verif.Props.C45_recent_words_partial",
    "Verif.Props.C45_equal_length_wrong",
    "Verif.Props.C45_equal_length_ignores_last",
    "Verif.Props.C45_order_one"
   ],
   "note": "Full claim false for sequences of exactly `order` words (C45_equal_length_wrong); all other lengths proved for order >= 2; order 1 always fails (C45_order_one)."
  },
  {
   "property": "C46",
   "status": "proved",
   "theorems": [
    "Verif.Props.C46_get",
    "Verif.Props.C46_minimal_perfect",
    "Verif.Props.C46_total",
    "Verif.Props.C46_duplicate_words_diverge",
    "Verif.Props.C46_empty_panics"
   ],
   "note": "If Build finishes with fewer than 2^31-1 attempts per bucket. Build does not finish on a dictionary with a repeated word (C46_duplicate_words_diverge); Get on an empty table panics (C46_empty_panics). It does not finish on some dictionaries of distinct words either: see C64."
  },
  {
   "property": "C47",
   "status": "partial",
   "theorems": [
    "Verif.Props.C47_get",
    "Verif.Props.C47_find_partial",
    "Verif.Props.C47_nil_word_wrong"
   ],
   "note": "Get proved; Find is the inverse except for the word \"<nil/>\", which it reports as unknown (C47_nil_word_wrong)."
  },
  {
   "property": "C48",
   "status": "proved",
   "theorems": [
    "Verif.Props.C48_vector_roundtrip",
    "Verif.Props.C48_model_roundtrip",
    "Verif.Props.C48_binary_roundtrip",
    "Verif.Props.C48_other_version_refused",
    "Verif.Props.C48_stored_model_identical",
    "Verif.Props.C48_stored_model_same",
    "Verif.Props.C48_size_wraps",
    "Verif.Props.C48_mph_roundtrip",
    "Verif.Props.C48_mph_built"
   ],
   "note": "For structures whose sizes fit the format (less than 4 GiB per vector, at most 255 orders, 2^31 words); beyond 4 GiB a vector silently loses its values (C48_size_wraps). Of fmt.Fscanln only the syntax Store writes is modelled."
  },
  {
   "property": "C49",
   "status": "partial",
   "theorems": [
    "Verif.Props.C49_roundtrip_partial",
    "Verif.Props.C49_long_line_refused",
    "Verif.Props.C49_read_error_refused",
    "Verif.Props.C49_dictionary_line_without_tab",
    "Verif.Props.C49_unclosed_wrong"
   ],
   "note": "Proved for plain words, lines under 64 KiB and prefix-closed counts (which every built trie has). A longer line or a read error is reported, not lost (C49_long_line_refused, C49_read_error_refused); files that are not prefix-closed are read with wrong counts (C49_unclosed_wrong)."
  },
  {
   "property": "C50",
   "status": "partial",
   "theorems": [
    "Verif.Props.C50_at_most_one_more_partial",
    "Verif.Props.C50_one_more",
    "Verif.Props.C50_wrong"
   ],
   "note": "The property is false: topK+1 words are returned when more than topK are considered (C50_one_more, C50_wrong). Proved: at most topK+1."
  },
  {
   "property": "C51",
   "status": "proved",
   "theorems": [
    "Verif.Props.C51_ids",
    "Verif.Props.C51_no_duplicates",
    "Verif.Props.C51_duplicate_entries"
   ],
   "note": "For dictionaries without duplicate entries (otherwise false, C51_duplicate_entries); in exact arithmetic for the similarity, arbitrary numbers for the language model scores."
  },
  {
   "property": "C52",
   "status": "partial",
   "theorems": [
    "Verif.Props.C52_by_score_partial",
    "Verif.Props.C52_wrong_context",
    "Verif.Props.C52_single_word",
    "Verif.Props.C52_wrong"
   ],
   "note": "Proved unless the number of preceding words equals the order of the model; then the last preceding word is ignored and the order is wrong (C52_wrong_context, C52_wrong). A single-word query does not use the model (C52_single_word)."
  },
  {
   "property": "C53",
   "status": "partial",
   "theorems": [
    "Verif.Props.C53_sentences_partial",
    "Verif.Props.C53_always_partial",
    "Verif.Props.C53_chunks_partial",
    "Verif.Props.C53_long_sentence_wrong",
    "Verif.Props.C53_replacement_char_wrong"
   ],
   "note": "Proved for sentences under the 64 KiB scanner limit and separators other than U+FFFD; false beyond (C53_long_sentence_wrong: the rest of the text is silently dropped; C53_replacement_char_wrong: with U+FFFD as a separator the result depends on the chunks)."
  },
  {
   "property": "C54",
   "status": "partial",
   "theorems": [
    "Verif.Props.C54_all_lines_partial",
    "Verif.Props.C54_always_partial",
    "Verif.Props.C54_long_line_wrong",
    "Verif.Props.C54_read_error_wrong",
    "Verif.Props.C54_get"
   ],
   "note": "Proved when no line reaches 64 KiB and no read fails. Otherwise the dictionary is silently cut (C54_long_line_wrong, C54_read_error_wrong)."
  },
  {
   "property": "C55",
   "status": "partial",
   "theorems": [
    "Verif.Props.C55_topK",
    "Verif.Props.C55_similarity",
    "Verif.Props.C55_suggest_partial",
    "Verif.Props.C55_metric_names",
    "Verif.Props.C55_suggest_nan",
    "Verif.Props.C55_autocomplete",
    "Verif.Props.C55_predict_partial",
    "Verif.Props.C55_predict_zero_topK",
    "Verif.Props.C55_predict_bad_similarity",
    "Verif.Props.C55_predict_zero_similarity",
    "Verif.Props.C55_wrong"
   ],
   "note": "Exact sets of accepted parameters proved; the suggest handler passes only valid arguments except NaN, the autocomplete handler always. False for predict: topK=0 crashes the process, similarity 0 and NaN are passed on (C55_predict_zero_topK, C55_predict_bad_similarity, C55_predict_zero_similarity, C55_wrong). For memory limits (make with a huge topK) see C94."
  },
  {
   "property": "C56",
   "status": "proved",
   "theorems": [
    "Verif.Props.C56_version_refused",
    "Verif.Props.C56_opened_version"
   ],
   "note": ""
  },
  {
   "property": "C57",
   "status": "partial",
   "theorems": [
    "Verif.Props.C57_jaccard_float_loses",
    "Verif.Props.C57_dice_float_loses",
    "Verif.Props.C57_jaccard_margin_partial",
    "Verif.Props.C57_dice_margin_partial",
    "Verif.Props.C57_cosine_margin_partial",
    "Verif.Props.C57_overlap_margin_partial",
    "Verif.Props.C57_float_errors_partial"
   ],
   "note": "False at the boundary (C57_jaccard_float_loses, C57_dice_float_loses, float64 model with 53-bit rounding); proved with a relative margin of 2^-48 for Jaccard, Dice, Cosine, Overlap. C57_float_errors_partial: score error, soundness of the threshold."
  },
  {
   "property": "C58",
   "status": "partial",
   "theorems": [
    "Verif.Props.C58_no_race_partial",
    "Verif.Props.C58_list_races"
   ],
   "note": "False in general: GetDictionaries iterates over the dictionary map without a lock (C58_list_races). Proved for all calls that take the lock."
  },
  {
   "property": "C59",
   "status": "proved",
   "theorems": [
    "Verif.Props.C59_no_deadlock"
   ],
   "note": "Deadlock freedom only; fairness of the RWMutex (no starvation) is not modelled."
  },
  {
   "property": "C60",
   "status": "proved",
   "theorems": [
    "Verif.Props.C60_values",
    "Verif.Props.C60_unknown"
   ],
   "note": ""
  },
  {
   "property": "C61",
   "status": "proved",
   "theorems": [
    "Verif.Props.C61_sentence",
    "Verif.Props.C61_short_sentence_zero"
   ],
   "note": "Sentences with fewer than order-2 words have no window and score 0 (C61_short_sentence_zero)."
  },
  {
   "property": "C62",
   "status": "proved",
   "theorems": [
    "Verif.Props.C62_corpus_counts",
    "Verif.Props.C62_corpus_scores"
   ],
   "note": "For plain words, lines under 64 KiB, counts below 2^32."
  },
  {
   "property": "C63",
   "status": "proved",
   "theorems": [
    "Verif.Props.C63_dictionary",
    "Verif.Props.C63_stored_language_model",
    "Verif.Props.C63_two_lines_for_a_word_diverges",
    "Verif.Props.C63_empty_corpus_panics"
   ],
   "note": "For corpora within the same limits, if the perfect hash build ends (C64). Two 1-gm lines for a word make Build diverge (C63_two_lines_for_a_word_diverges); an empty corpus panics on retrieval (C63_empty_corpus_panics)."
  },
  {
   "property": "C64",
   "status": "partial",
   "theorems": [
    "Verif.Props.C64_power_of_two_diverges",
    "Verif.Props.C64_two_words_diverge",
    "Verif.Props.C64_terminates_partial",
    "Verif.Props.C64_bounded_partial",
    "Verif.Props.C64_two_words_exact"
   ],
   "note": "False in general: Build never ends on 2^k distinct words of which two agree in the k low bits of every byte (C64_power_of_two_diverges, C64_two_words_diverge). For two words exactly: Build ends iff the sums of the bytes differ in parity (C64_two_words_exact). In general a sufficient condition (C64_terminates_partial), and that Build ends within 2^32 attempts per bucket or never (C64_bounded_partial)."
  },
  {
   "property": "C65",
   "status": "partial",
   "theorems": [
    "Verif.Props.C65_exact",
    "Verif.Props.C65_float_exact",
    "Verif.Props.C65_no_words",
    "Verif.Props.C65_short_word",
    "Verif.Props.C65_answers_partial",
    "Verif.Props.C65_long_word_blocks",
    "Verif.Props.C65_long_word_panics",
    "Verif.Props.C65_zero_panics",
    "Verif.Props.C65_wrong"
   ],
   "note": "Proved for topK >= 1 and last words that are not too long; topK = 0 and long last words panic or block for ever (C65_zero_panics, C65_long_word_blocks, C65_long_word_panics, C65_wrong). C65_exact and C65_float_exact say exactly which calls return, hang or panic (topK >= 1). C65_no_words, C65_short_word: a query without words (for every topK) and a last word without n-grams always return, with the empty list resp. completions only."
  },
  {
   "property": "C66",
   "status": "proved",
   "theorems": [
    "Verif.Props.C66_float_suggest",
    "Verif.Props.C66_float_misses"
   ],
   "note": "IEEE double arithmetic (53-bit rounding after every operation; overflow and subnormals do not occur in this range). Without the margin false: C66_float_misses."
  },
  {
   "property": "C67",
   "status": "partial",
   "theorems": [
    "Verif.Props.C67_exact_words",
    "Verif.Props.C67_exact_example",
    "Verif.Props.C67_repeated_query",
    "Verif.Props.C67_short_query",
    "Verif.Props.C67_suggest_words",
    "Verif.Props.C67_answers_partial",
    "Verif.Props.C67_repeated_word",
    "Verif.Props.C67_first_word_panics"
   ],
   "note": "Correctness of every answer proved for dictionaries whose words' n-grams stay distinct when characters outside the alphabet are replaced (e.g. words of letters) and whose first word has an n-gram; and for queries likewise; otherwise false (C67_repeated_word: listed four times; C67_repeated_query: a word that shares one n-gram of four is reported with similarity 1; C67_first_word_panics). That there is an answer: under the condition of C30 (C67_answers_partial). C67_exact_words: the metric Exact finds the first K words with the same set of n-grams (C67_exact_example: not necessarily the same word). C67_short_query: a query without n-grams finds nothing."
  },
  {
   "property": "C68",
   "status": "proved",
   "theorems": [
    "Verif.Props.C68_faithful_answers",
    "Verif.Props.C68_any_prefix",
    "Verif.Props.C68_any_answers",
    "Verif.Props.C68_short_prefix",
    "Verif.Props.C68_autocomplete_words",
    "Verif.Props.C68_prefixes_match"
   ],
   "note": "For prefixes with at least one n-gram (others: C33), and under the same faithfulness condition on words as C67. For prefixes that are not faithful: C68_any_prefix, C68_any_answers (exact answer: words with fewer n-grams than the prefix has are left out). C68_short_prefix: a prefix without n-grams completes to nothing."
  },
  {
   "property": "C69",
   "status": "partial",
   "theorems": [
    "Verif.Props.C69_completed",
    "Verif.Props.C69_mixture_published",
    "Verif.Props.C69_appended_partial",
    "Verif.Props.C69_wrong_words"
   ],
   "note": "False: C69_wrong_words (new dictionary with old index is published: C69_mixture_published). Proved: completed run publishes new with new (C69_completed); harmless if words were only appended (C69_appended_partial). Interruptions within the writing of the index: C21. Interruptions within the cdb file not modelled."
  },
  {
   "property": "C70",
   "status": "partial",
   "theorems": [
    "Verif.Props.C70_never_lost",
    "Verif.Props.C70_serves_a_version",
    "Verif.Props.C70_success_partial",
    "Verif.Props.C70_failure_partial",
    "Verif.Props.C70_bad_config",
    "Verif.Props.C70_failed_reload_changes",
    "Verif.Props.C70_overlapping_reloads_stale"
   ],
   "note": "Proved: nothing is lost, every served content is one version, and an undisturbed reload that succeeds serves the current content. False: a failing reload has replaced the descriptions before the failing one (C70_failed_reload_changes); overlapping reloads can end with old content although the last one reported success (C70_overlapping_reloads_stale)."
  },
  {
   "property": "C71",
   "status": "partial",
   "theorems": [
    "Verif.Props.C71_trains",
    "Verif.Props.C71_builds",
    "Verif.Props.C71_corrections_partial",
    "Verif.Props.C71_answers_partial"
   ],
   "note": "Proved from the corpus to the answers: C71_trains (training and reading back), C71_builds (the spell checker starts), C71_corrections_partial (soundness, no repetition, order by the counts of the corpus, completeness) and C71_answers_partial (every execution ends, some execution exists). Missing, because false of the code: exactly `order` preceding words use the wrong context (C52), up to topK+1 words come back (C50), long last words block or panic (C65). The logarithm is a parameter accurate to 2^-34."
  },
  {
   "property": "C72",
   "status": "partial",
   "theorems": [
    "Verif.Props.C72_words_of_the_corpus_partial",
    "Verif.Props.C72_symbol_offered"
   ],
   "note": "Proved: every correction is a word of the corpus or one of the two markers. The property is false: with the command line's own configuration the query \"-s\" is answered with \"<S>\" (C72_symbol_offered)."
  },
  {
   "property": "C73",
   "status": "partial",
   "theorems": [
    "Verif.Props.C73_not_lost",
    "Verif.Props.C73_settles",
    "Verif.Props.C73_reload_follows",
    "Verif.Props.C73_not_fatal_partial",
    "Verif.Props.C73_early_signal_kills"
   ],
   "note": "Proved: a caught SIGHUP is not lost (C73_not_lost), the process comes to rest (C73_settles) and then a reload has begun after the signal (C73_reload_follows); once the channel is registered SIGHUP is not fatal (C73_not_fatal_partial). False: the PID file is written before the channel is registered, so an early SIGHUP kills the server (C73_early_signal_kills)."
  },
  {
   "property": "C74",
   "status": "partial",
   "theorems": [
    "Verif.Props.C74_terminates",
    "Verif.Props.C74_accepts_nothing",
    "Verif.Props.C74_requests_partial",
    "Verif.Props.C74_requests_cut"
   ],
   "note": "Proved: after SIGTERM the server ends with status 0 and accepts nothing more (C74_terminates, C74_accepts_nothing); requests are answered or in progress until the end (C74_requests_partial). False: Run returns as soon as Shutdown is called and does not wait for it, so requests in progress are cut (C74_requests_cut)."
  },
  {
   "property": "C75",
   "status": "partial",
   "theorems": [
    "Verif.Props.C75_dictionary",
    "Verif.Props.C75_dictionary_get",
    "Verif.Props.C75_others_untouched",
    "Verif.Props.C75_success",
    "Verif.Props.C75_ends",
    "Verif.Props.C75_failure_partial",
    "Verif.Props.C75_long_line_destroys",
    "Verif.Props.C75_bad_first_line_wrong_words"
   ],
   "note": "Proved: C75_ends, C75_success, C75_others_untouched, the cdb dictionary (C75_dictionary, C75_dictionary_get), and the failing case for descriptions before and behind the failing one (C75_failure_partial). False: a line over 64 KiB or a read error destroys the old dictionary (C75_long_line_destroys); an empty first line leaves the new dictionary with the old index, which answers with wrong words (C75_bad_first_line_wrong_words)."
  },
  {
   "property": "C76",
   "status": "partial",
   "theorems": [
    "Verif.Props.C76_ram_partial",
    "Verif.Props.C76_disc",
    "Verif.Props.C76_command_succeeds",
    "Verif.Props.C76_suggest_lines",
    "Verif.Props.C76_complete_lines"
   ],
   "note": "Proved for files without lines of 64 KiB or more (C76_ram_partial, C76_disc, C76_command_succeeds, C76_suggest_lines, C76_complete_lines). Missing: blank lines with the DISC driver (C92_empty_line_fails) and longer lines \u2014 the RAM driver silently drops them and everything behind (C54_long_line_wrong), the indexer fails (C75)."
  },
  {
   "property": "C77",
   "status": "partial",
   "theorems": [
    "Verif.Props.C77_unchanged_partial",
    "Verif.Props.C77_reindex_kills",
    "Verif.Props.C77_shorter_kills",
    "Verif.Props.C77_wrong_postings"
   ],
   "note": "Proved for unchanged files (C77_unchanged_partial). False otherwise: every run of the indexer truncates the mapped document list, a moment at which reading any posting list raises SIGBUS and ends the server (C77_reindex_kills); a shorter list stays unreadable (C77_shorter_kills); otherwise old positions are applied to new bytes (C77_wrong_postings)."
  },
  {
   "property": "C78",
   "status": "partial",
   "theorems": [
    "Verif.Props.C78_suggest_safe",
    "Verif.Props.C78_opening_safe",
    "Verif.Props.C78_published_mapped",
    "Verif.Props.C78_complete_partial",
    "Verif.Props.C78_complete_unmapped"
   ],
   "note": "Proved for fuzzy searches (C78_suggest_safe), for searches that are still opening posting lists (C78_opening_safe), for the published index (C78_published_mapped) and for prefix searches on an index that has not been replaced (C78_complete_partial). False for prefix searches running during a reload: the finalizer may unmap the file under them (C78_complete_unmapped). The collector is modelled by Go's documented guarantee only (an object may be finalized once no later use of it exists)."
  },
  {
   "property": "C79",
   "status": "partial",
   "theorems": [
    "Verif.Props.C79_always_partial",
    "Verif.Props.C79_sentences_partial",
    "Verif.Props.C79_long_sentence_ignored",
    "Verif.Props.C79_counts_partial",
    "Verif.Props.C79_training",
    "Verif.Props.C79_stored",
    "Verif.Props.C79_long_sentence_loses_words"
   ],
   "note": "Proved for any bytes (invalid UTF-8 included) within the limits of GoodText: C79_sentences_partial, C79_counts_partial, C79_training, C79_stored; for every file C79_always_partial (the first sentences are counted). False: from the first sentence of more than 64 KiB on everything is silently left out and the command succeeds (C79_long_sentence_ignored, C79_long_sentence_loses_words)."
  },
  {
   "property": "C80",
   "status": "proved",
   "theorems": [
    "Verif.Props.C80_filter",
    "Verif.Props.C80_append",
    "Verif.Props.C80_english",
    "Verif.Props.C80_russian",
    "Verif.Props.C80_stop_words_pass"
   ],
   "note": ""
  },
  {
   "property": "C81",
   "status": "proved",
   "theorems": [
    "Verif.Props.C81_russian",
    "Verif.Props.C81_prefix",
    "Verif.Props.C81_through_first_vowel",
    "Verif.Props.C81_no_vowel",
    "Verif.Props.C81_not_empty",
    "Verif.Props.C81_tables"
   ],
   "note": ""
  },
  {
   "property": "C82",
   "status": "proved",
   "theorems": [
    "Verif.Props.C82_english",
    "Verif.Props.C82_not_longer",
    "Verif.Props.C82_empty_iff",
    "Verif.Props.C82_not_empty",
    "Verif.Props.C82_empty_token",
    "Verif.Props.C82_tables"
   ],
   "note": "C82_english: refinement of the published algorithm; 'never empty' is false for exactly \"''s\" and \"''s'\" (C82_empty_iff, C82_empty_token) and proved otherwise (C82_not_empty). The Snowball library is taken by contract."
  },
  {
   "property": "C83",
   "status": "partial",
   "theorems": [
    "Verif.Props.C83_reply_iff",
    "Verif.Props.C83_success_partial",
    "Verif.Props.C83_idle_noStale",
    "Verif.Props.C83_failure_reported",
    "Verif.Props.C83_older_reload_wins",
    "Verif.Props.C83_signal_says_nothing",
    "Verif.Props.C83_unknown_dict",
    "Verif.Props.C83_unknown_not_sent",
    "Verif.Props.C83_server_serves_source_partial"
   ],
   "note": "Proved for every interleaving in which no reload is about to publish an older version when the files are complete (always so if no reload is running then). False otherwise: an older overlapping reload publishes over the new version (C83_older_reload_wins); with --pid alone success says nothing about the server (C83_signal_says_nothing); an unknown -d name is reported as success (C83_unknown_dict)."
  },
  {
   "property": "C84",
   "status": "proved",
   "theorems": [
    "Verif.Props.C84_isolated",
    "Verif.Props.C84_no_race",
    "Verif.Props.C84_pools",
    "Verif.Props.C84_ends",
    "Verif.Props.C84_finite",
    "Verif.Props.C84_answer"
   ],
   "note": ""
  },
  {
   "property": "C85",
   "status": "proved",
   "theorems": [
    "Verif.Props.C85_index_reported",
    "Verif.Props.C85_index_success",
    "Verif.Props.C85_binary_reported",
    "Verif.Props.C85_binary_success",
    "Verif.Props.C85_ngrams_reported",
    "Verif.Props.C85_encode_swallows_eof",
    "Verif.Props.C85_index_example"
   ],
   "note": "Also shown: the encoder of short posting lists swallows an end-of-file error of its output (C85_encode_swallows_eof); Commit still reports it, when it closes the output. Not covered: that bytes accepted by write(2) survive a power failure (the program does not call fsync)."
  },
  {
   "property": "C86",
   "status": "partial",
   "theorems": [
    "Verif.Props.C86_open_partial",
    "Verif.Props.C86_open_panics",
    "Verif.Props.C86_suggest_ends",
    "Verif.Props.C86_suggest",
    "Verif.Props.C86_autocomplete",
    "Verif.Props.C86_lower_bound_ends",
    "Verif.Props.C86_cut_docs",
    "Verif.Props.C86_cut_header",
    "Verif.Props.C86_cut_suggest",
    "Verif.Props.C86_cut_autocomplete",
    "Verif.Props.C86_cut_autocomplete_exact",
    "Verif.Props.C86_cut_suggest_exact",
    "Verif.Props.C86_lm_prefix_refused_partial",
    "Verif.Props.C86_lm_prefix_panics",
    "Verif.Props.C86_lm_accepted_panics"
   ],
   "note": "Proved: searches on arbitrary index contents always end with an answer or an ordinary error; opening arbitrary index files gives an index, an error, or (finding, C86_open_panics) a panic exactly when the header names a segment beyond those it announces; a cut dictionary never gives a wrong answer; every proper prefix of a language model file is refused. Findings: the refusal is a panic if the file ends inside the data of a vector (C86_lm_prefix_panics); an accepted 14-byte file makes every word lookup panic (C86_lm_accepted_panics). Assumed on arbitrary bytes: the bitmap library and encoding/gob return an error instead of panicking (Roaring.Robust, Gob.Robust). Suggest needs the smallest similar size to lie inside the index (otherwise C32's panic). Not covered: damage that changes bytes without shortening may change answers (there is no checksum); memory exhaustion by huge sizes in a damaged header; damage of the cdb word list."
  },
  {
   "property": "C87",
   "status": "partial",
   "theorems": [
    "Verif.Props.C87_frequencies",
    "Verif.Props.C87_markers_partial",
    "Verif.Props.C87_marker_wrong",
    "Verif.Props.C87_absent_not_nil",
    "Verif.Props.C87_walk",
    "Verif.Props.C87_assignment",
    "Verif.Props.C87_kept",
    "Verif.Props.C87_prune",
    "Verif.Props.C87_maximal",
    "Verif.Props.C87_idempotent",
    "Verif.Props.C87_total",
    "Verif.Props.C87_prune_depends_on_order"
   ],
   "note": "Proved for valid UTF-8 grams (fewer than 2^32, uint32 counters do not wrap): frequencies, walk, assignment, nothing lost, sum, bounds, maximality, idempotence. False: qMin is compared with byte positions, so non-ASCII grams shorter than qMin get markers (C87_marker_wrong; ASCII: C87_markers_partial); Find of an absent gram returns a non-nil Node whose methods panic (C87_absent_not_nil); which of two equally frequent grams survives a pruning depends on the map order (C87_prune_depends_on_order). gram_dictionary.go calls a function that does not exist in the repository and is not modelled; the package has the build tag ignore."
  },
  {
   "property": "C88",
   "status": "partial",
   "theorems": [
    "Verif.Props.C88_exact",
    "Verif.Props.C88_routes",
    "Verif.Props.C88_routes_unclean",
    "Verif.Props.C88_request",
    "Verif.Props.C88_request_only",
    "Verif.Props.C88_cannot_ask",
    "Verif.Props.C88_no_slash",
    "Verif.Props.C88_form",
    "Verif.Props.C88_json",
    "Verif.Props.C88_json_unique",
    "Verif.Props.C88_invalid_words",
    "Verif.Props.C88_bad_parameters",
    "Verif.Props.C88_unknown_dictionary",
    "Verif.Props.C88_dict_list",
    "Verif.Props.C88_suggest",
    "Verif.Props.C88_suggest_answers_partial",
    "Verif.Props.C88_autocomplete",
    "Verif.Props.C88_autocomplete_answers"
   ],
   "note": "Proved for every dictionary name and query that is nonempty, has no '/' and is not \".\" or \"..\" (C88_request, C88_form, C88_json, C88_suggest, C88_autocomplete, C88_bad_parameters, C88_unknown_dictionary, C88_dict_list). False beyond: such queries cannot be asked by any request, e.g. \"AC/DC\" (C88_cannot_ask, C88_request_only); words that are not valid UTF-8 are indistinguishable in the answer (C88_invalid_words). The existence of an answer to a fuzzy search needs a long enough word, as in C30 (C88_suggest_answers_partial). net/url, gorilla/mux and encoding/json are modelled from their documented behaviour; strconv.ParseFloat and the formatting of floats are parameters. C88_exact: the body for metric=Exact."
  },
  {
   "property": "C89",
   "status": "partial",
   "theorems": [
    "Verif.Props.C89_relative_source",
    "Verif.Props.C89_relative_output",
    "Verif.Props.C89_absolute",
    "Verif.Props.C89_index_files",
    "Verif.Props.C89_lm_files",
    "Verif.Props.C89_files_distinct",
    "Verif.Props.C89_any_working_folder",
    "Verif.Props.C89_lm_same_dictionary",
    "Verif.Props.C89_lm_same_grams",
    "Verif.Props.C89_slash_name_wrong"
   ],
   "note": "Proved: where relative and absolute paths lead (C89_relative_source, C89_relative_output, C89_absolute, C89_any_working_folder), where the files are (C89_index_files, C89_lm_files), and that two indices differing in name or output folder share no file (C89_files_distinct, names without '/'). False beyond: names with '/' (C89_slash_name_wrong), an index and a language model with the same name and folder share the dictionary file (C89_lm_same_dictionary), two language models in one folder share the n-gram files whatever their names (C89_lm_same_grams). Symbolic links and the JSON decoding are not modelled."
  },
  {
   "property": "C90",
   "status": "partial",
   "theorems": [
    "Verif.Props.C90_routes",
    "Verif.Props.C90_routes_unclean",
    "Verif.Props.C90_request",
    "Verif.Props.C90_request_only",
    "Verif.Props.C90_no_slash",
    "Verif.Props.C90_words_json",
    "Verif.Props.C90_bad_parameters",
    "Verif.Props.C90_corrections_partial",
    "Verif.Props.C90_answers_partial"
   ],
   "note": "The restrictions of C71: not exactly `order` preceding words (C52), up to K+1 words (C50), the last word fits the index description, a long enough known word exists (C65)."
  },
  {
   "property": "C91",
   "status": "partial",
   "theorems": [
    "Verif.Props.C91_isolated_partial",
    "Verif.Props.C91_caller_unchanged",
    "Verif.Props.C91_scorer_stable",
    "Verif.Props.C91_score_next",
    "Verif.Props.C91_no_race",
    "Verif.Props.C91_no_panic",
    "Verif.Props.C91_spare_capacity",
    "Verif.Props.C91_prefix_race"
   ],
   "note": "Slices given to ScoreWordIDs must have no spare capacity: otherwise append writes the end symbol into the caller's array (C91_spare_capacity: the score of another sentence is returned later; C91_prefix_race: data race). The vectors of the model and the word indexer are read-only values."
  },
  {
   "property": "C92",
   "status": "partial",
   "theorems": [
    "Verif.Props.C92_read_at",
    "Verif.Props.C92_closed",
    "Verif.Props.C92_iterate_partial",
    "Verif.Props.C92_lines_partial",
    "Verif.Props.C92_empty_value_stops",
    "Verif.Props.C92_blank_line_stops",
    "Verif.Props.C92_empty_line_fails"
   ],
   "note": "False for empty values: io.SectionReader reports io.EOF, so Iterate stops (C92_empty_value_stops, C92_blank_line_stops) and the indexer fails on a source with a blank line after replacing the dictionary; the old index is then served with the new words (C92_empty_line_fails). The cdb library is taken by contract: records in order, their readers are io.SectionReaders over the mapped file."
  },
  {
   "property": "C93",
   "status": "partial",
   "theorems": [
    "Verif.Props.C93_trim",
    "Verif.Props.C93_order",
    "Verif.Props.C93_long_line",
    "Verif.Props.C93_unknown_dictionary",
    "Verif.Props.C93_bad_flags",
    "Verif.Props.C93_suggest",
    "Verif.Props.C93_suggest_answers_partial",
    "Verif.Props.C93_lm",
    "Verif.Props.C93_spellchecker_partial",
    "Verif.Props.C93_spellchecker_answers_partial"
   ],
   "note": "C93_suggest, C93_lm, C93_order, C93_unknown_dictionary, C93_bad_flags, C93_long_line, C93_trim are complete (within the limits of C67/C71/C76). Partial: lines of spellchecker eval with exactly `order` words before the last (wrong context, C52); that searches answer at all needs a word with enough n-grams (C30). Formatting of numbers and the elapsed time are not modelled."
  },
  {
   "property": "C94",
   "status": "partial",
   "theorems": [
    "Verif.Props.C94_complete_any",
    "Verif.Props.C94_complete_fate",
    "Verif.Props.C94_complete_fate_example",
    "Verif.Props.C94_exact_fate",
    "Verif.Props.C94_exact_example",
    "Verif.Props.C94_suggest_memory_partial",
    "Verif.Props.C94_huge_topK_kills",
    "Verif.Props.C94_larger_topK_aborts",
    "Verif.Props.C94_predict_memory_partial",
    "Verif.Props.C94_predict_huge_topK_kills",
    "Verif.Props.C94_memory_example",
    "Verif.Props.C94_nan_hangs",
    "Verif.Props.C94_predict_nan_hangs",
    "Verif.Props.C94_nan_example",
    "Verif.Props.C94_predict_fate",
    "Verif.Props.C94_predict_fate_example",
    "Verif.Props.C94_predict_no_words",
    "Verif.Props.C94_predict_short_word",
    "Verif.Props.C94_predict_short_word_nan",
    "Verif.Props.C94_others_unaffected",
    "Verif.Props.C94_still_answers",
    "Verif.Props.C94_answers_last",
    "Verif.Props.C94_after_the_end",
    "Verif.Props.C94_own_answers",
    "Verif.Props.C94_suggest_survives_partial",
    "Verif.Props.C94_list_kills",
    "Verif.Props.C94_predict_survives_partial",
    "Verif.Props.C94_topK_zero_kills",
    "Verif.Props.C94_long_query_kills",
    "Verif.Props.C94_long_query",
    "Verif.Props.C94_long_query_example",
    "Verif.Props.C94_suggest_fate",
    "Verif.Props.C94_fate_example",
    "Verif.Props.C94_complete_short",
    "Verif.Props.C94_suggest_short",
    "Verif.Props.C94_complete_short_example",
    "Verif.Props.C94_suggest_short_example",
    "Verif.Props.C94_suggest_short_nan"
   ],
   "note": "C94_others_unaffected, C94_still_answers, C94_own_answers hold of both servers without conditions. The process keeps running (C94_suggest_survives_partial, C94_predict_survives_partial) for requests up to 65535 bytes, without topK=0 to the spell checker, and without requests for the list of dictionaries while reloading. It is false without these conditions: C94_long_query_kills (with a concrete query, C94_long_query, C94_long_query_example), C94_topK_zero_kills, C94_list_kills. net/http's recovery of panics and the runtime's check for concurrent map access by documentation. Exactly which requests for a search are answered, hang or are aborted: C94_suggest_fate (with a query of 10, 12, 13 letters: C94_fate_example). A request with similarity=NaN is never answered on amd64 (C94_nan_hangs, C94_predict_nan_hangs, C94_nan_example). On a machine with finite memory one request with a huge topK ends the process (C94_huge_topK_kills, C94_predict_huge_topK_kills), without such requests the process keeps running (C94_suggest_memory_partial, C94_predict_memory_partial). Not modelled: other memory use, unmapped files (C78), signals (C73, C74). C94_exact_fate: the fates for metric=Exact. C94_predict_fate: the same for the spell checker; C94_complete_any: a request for completions is always answered with the words of the independent specification WordConf.completions, for any prefix (C94_complete_fate, C94_complete_short are instances). C94_suggest_short: a query without n-grams is always answered with the empty list, although it may itself be a word; with similarity=NaN too (C94_suggest_short_nan). C94_predict_no_words: a /predict request without words is always answered [], with topK=0 and similarity=NaN too. C94_predict_short_word, C94_predict_short_word_nan: a last word too short for an n-gram is always answered with the same completions, with similarity=NaN too."
  },
  {
   "property": "C95",
   "status": "proved",
   "theorems": [
    "Verif.Props.C95_unambiguous",
    "Verif.Props.C95_descriptions",
    "Verif.Props.C95_model",
    "Verif.Props.C95_accepted",
    "Verif.Props.C95_model_accepted",
    "Verif.Props.C95_truncated",
    "Verif.Props.C95_model_truncated",
    "Verif.Props.C95_unreadable",
    "Verif.Props.C95_no_size_panics",
    "Verif.Props.C95_no_size_start",
    "Verif.Props.C95_driver_partial",
    "Verif.Props.C95_driver_wrong"
   ],
   "note": "C95_descriptions, C95_accepted, C95_truncated and their C95_model counterparts; the JSON grammar of the specification is unambiguous (C95_unambiguous). encoding/json is modelled from its documentation; values with null inside `wrap` are accepted (C95_accepted) but their values are not specified. What the programs do not check: a missing nGramSize panics when the index is built (C95_no_size_panics, C95_no_size_start), a driver other than RAM and DISC is skipped by the indexer but loaded from disc by the service (C95_driver_wrong; C95_driver_partial for the documented ones)."
  },
  {
   "property": "C96",
   "status": "partial",
   "theorems": [
    "Verif.Props.C96_starts_partial",
    "Verif.Props.C96_suggest_partial",
    "Verif.Props.C96_suggest_answers_partial",
    "Verif.Props.C96_autocomplete_partial",
    "Verif.Props.C96_names",
    "Verif.Props.C96_no_start"
   ],
   "note": "Under the conditions of C67/C76 on the lines (GoodSource: the first line has an n-gram, n-grams stay different after normalisation, lines below 64 KiB and 32768 n-grams, index below 4 GiB), which those findings show to be needed; descriptions sharing both folder and name are excluded (C89). C96_suggest_answers_partial also needs a line with enough n-grams (C67). C96_names and C96_no_start are without conditions."
  },
  {
   "property": "C97",
   "status": "partial",
   "theorems": [
    "Verif.Props.C97_grams_partial",
    "Verif.Props.C97_short_sentences_wrong",
    "Verif.Props.C97_shared_folder_wrong",
    "Verif.Props.C97_failed_build_wrong",
    "Verif.Props.C97_hanging_build_wrong",
    "Verif.Props.C97_starts_partial",
    "Verif.Props.C97_corrections_partial",
    "Verif.Props.C97_answers_partial"
   ],
   "note": "Under the conditions of C71, C79 and C90 on the text and the query, which those findings show to be needed. The claim as first meant fails for an order beyond the longest sentence (C97_short_sentences_wrong: the n-gram file is empty and cannot be mapped) and for two models in one output folder (C97_shared_folder_wrong). A build that fails for this reason has already replaced the dictionary, and leaves the old binary model (C97_failed_build_wrong). The build never ends for some small vocabularies, e.g. a text of the words \"a\" and \"e\" (C97_hanging_build_wrong). The cdb library by contract."
  }
 ]
}