{
 "claims": [
  {
   "property": "C01",
   "status": "proved",
   "theorems": [
    "Kul.C01_plain_text_preserved",
    "Kul.C01_parse_str",
    "Kul.C01_plain_text_preserved_provided"
   ],
   "note": ""
  },
  {
   "property": "C02",
   "status": "proved",
   "theorems": [
    "Kul.C02_accepted_is_written",
    "Kul.C02_C03_accepts_exactly_the_grammar",
    "Kul.C02_accepted_is_written_provided",
    "Kul.C02_C03_accepts_exactly_the_grammar_provided"
   ],
   "note": ""
  },
  {
   "property": "C03",
   "status": "proved",
   "theorems": [
    "Kul.C03_written_is_accepted",
    "Kul.C03_grammar_unambiguous",
    "Kul.C02_C03_accepts_exactly_the_grammar",
    "Kul.C02_C03_accepts_exactly_the_grammar_provided",
    "Kul.C03_written_is_accepted_provided"
   ],
   "note": ""
  },
  {
   "property": "C04",
   "status": "proved",
   "theorems": [
    "Kul.C04_write_then_parse",
    "Kul.C04_parsed_can_be_written",
    "Kul.C04_parse_str",
    "Kul.C04_parse_stream",
    "Kul.C04_write_then_parse_provided",
    "Kul.C04_parsed_can_be_written_provided"
   ],
   "note": ""
  },
  {
   "property": "C05",
   "status": "proved",
   "theorems": [
    "Kul.C05_no_error_iff_balanced",
    "Kul.C05_parse_str",
    "Kul.C05_parse_stream",
    "Kul.C05_no_error_iff_balanced_provided"
   ],
   "note": ""
  },
  {
   "property": "C06",
   "status": "proved",
   "theorems": [
    "Kul.C06_reported_is_unmatched",
    "Kul.C06_unmatched_is_reported",
    "Kul.C06_reported_is_unmatched_provided",
    "Kul.C06_unmatched_is_reported_provided"
   ],
   "note": ""
  },
  {
   "property": "C07",
   "status": "proved",
   "theorems": [
    "Kul.C07_reported_is_open",
    "Kul.C07_open_is_reported",
    "Kul.C07_reported_is_open_provided",
    "Kul.C07_open_is_reported_provided"
   ],
   "note": ""
  },
  {
   "property": "C08",
   "status": "proved",
   "theorems": [
    "Kul.C08_no_character_lost",
    "Kul.C08_no_character_lost_provided"
   ],
   "note": ""
  },
  {
   "property": "C09",
   "status": "proved",
   "theorems": [
    "Kul.C09_call_returns_and_progresses",
    "Kul.C09_parse_ends",
    "Kul.C09_history",
    "Kul.C09_parse_ends_provided",
    "Kul.C09_call_returns_and_progresses_provided",
    "Kul.C09_history_provided"
   ],
   "note": ""
  },
  {
   "property": "C10",
   "status": "proved",
   "theorems": [
    "Kul.C10_end_is_stable",
    "Kul.C10_end_is_stable_provided"
   ],
   "note": ""
  },
  {
   "property": "C11",
   "status": "proved",
   "theorems": [
    "Kul.C11_resumes_at_top_level",
    "Kul.C11_same_as_fresh",
    "Kul.C11_after_unbalanced",
    "Kul.C11_resumes_at_top_level_provided",
    "Kul.C11_same_as_fresh_provided",
    "Kul.C11_after_unbalanced_provided"
   ],
   "note": ""
  },
  {
   "property": "C12",
   "status": "proved",
   "theorems": [
    "Kul.C12_splitting_does_not_matter",
    "Kul.C12_two_splittings",
    "Kul.C12_stream_as_inmem",
    "Kul.C12_C13_C25_C47_provided",
    "Kul.C12_C13_C25_plain_provided"
   ],
   "note": ""
  },
  {
   "property": "C13",
   "status": "proved",
   "theorems": [
    "Kul.C13_char_iter_as_str",
    "Kul.C12_C13_C25_C47_provided",
    "Kul.C12_C13_C25_plain_provided"
   ],
   "note": ""
  },
  {
   "property": "C14",
   "status": "proved",
   "theorems": [
    "Kul.C14_only_consumed_and_next_matter",
    "Kul.C14_only_consumed_and_next_matter_provided"
   ],
   "note": ""
  },
  {
   "property": "C15",
   "status": "proved",
   "theorems": [
    "Kul.C15_no_panic",
    "Kul.C15_inmem",
    "Kul.C15_stream",
    "Kul.C15_core",
    "Kul.C15_char_iter",
    "Kul.C15_no_panic_provided"
   ],
   "note": ""
  },
  {
   "property": "C16",
   "status": "proved",
   "theorems": [
    "Kul.C16_C17_C18_meaning",
    "Kul.C16_C17_C18_total",
    "Kul.C16_C17_C18_exact",
    "Kul.C16_operative_call",
    "Kul.C16_operative_any_head",
    "Kul.C16_C17_C18_meaning_provided",
    "Kul.C16_C17_C18_total_provided",
    "Kul.C16_operative_call_provided"
   ],
   "note": ""
  },
  {
   "property": "C17",
   "status": "proved",
   "theorems": [
    "Kul.C16_C17_C18_meaning",
    "Kul.C16_C17_C18_total",
    "Kul.C16_C17_C18_exact",
    "Kul.C17_same_list",
    "Kul.C16_C17_C18_meaning_provided",
    "Kul.C16_C17_C18_total_provided"
   ],
   "note": ""
  },
  {
   "property": "C18",
   "status": "proved",
   "theorems": [
    "Kul.C16_C17_C18_meaning",
    "Kul.C16_C17_C18_total",
    "Kul.C16_C17_C18_exact",
    "Kul.C18_removed",
    "Kul.C16_C17_C18_meaning_provided",
    "Kul.C16_C17_C18_total_provided",
    "Kul.C18_removed_in_source",
    "Kul.C18_removed_operand",
    "Kul.C18_removed_head"
   ],
   "note": ""
  },
  {
   "property": "C19",
   "status": "proved",
   "theorems": [
    "Kul.C19_first_error",
    "Kul.C19_at_most_one_call_per_nest",
    "Kul.C19_at_most_one_call_per_nest_provided",
    "Kul.C19_first_error_provided",
    "Kul.C19_no_call_before_end",
    "Kul.C19_no_call_before_end_provided"
   ],
   "note": ""
  },
  {
   "property": "C20",
   "status": "proved",
   "theorems": [
    "Kul.C20_nothing_interpreted",
    "Kul.C20_nothing_interpreted_provided",
    "Kul.C02_accepted_is_written"
   ],
   "note": "C02_accepted_is_written gives the exact datum of each nest: EmptyNest without a head, else a Combination of head and operands."
  },
  {
   "property": "C21",
   "status": "proved",
   "theorems": [
    "Kul.C21_shape",
    "Kul.C21_shape_of_each",
    "Kul.C21_shape_provided",
    "Kul.C21_shape_of_each_provided"
   ],
   "note": ""
  },
  {
   "property": "C22",
   "status": "proved",
   "theorems": [
    "Kul.C22_whitespace_before_head",
    "Kul.C22_one_whitespace_after_head",
    "Kul.C22_further_whitespace_kept",
    "Kul.C22_one_whitespace_after_head_provided",
    "Kul.C22_further_whitespace_kept_provided",
    "Kul.C22_whitespace_before_head_provided"
   ],
   "note": ""
  },
  {
   "property": "C23",
   "status": "proved",
   "theorems": [
    "Kul.C23_escaped_text",
    "Kul.C23_escaped_head",
    "Kul.C23_any_text",
    "Kul.C23_dangling_escape",
    "Kul.C23_escaped_text_provided",
    "Kul.C23_escaped_head_provided",
    "Kul.C23_any_text_provided",
    "Kul.C23_dangling_escape_provided"
   ],
   "note": ""
  },
  {
   "property": "C24",
   "status": "proved",
   "theorems": [
    "Kul.C24_positions_exact",
    "Kul.C24_positions_exact_provided",
    "Kul.C24_positions_exact_with_bindings",
    "Kul.C24_char_index",
    "Kul.C24_from_str",
    "Kul.C24_from_str_shared"
   ],
   "note": ""
  },
  {
   "property": "C25",
   "status": "proved",
   "theorems": [
    "Kul.C25_texts_can_be_parsed",
    "Kul.C25_parsed_texts",
    "Kul.C12_C13_C25_C47_provided",
    "Kul.C12_C13_C25_plain_provided",
    "Kul.C25_parsed_texts_provided"
   ],
   "note": ""
  },
  {
   "property": "C26",
   "status": "proved",
   "theorems": [
    "Kul.C26_nothing_leaks",
    "Kul.C26_nothing_leaks_provided",
    "Kul.C26_any_classifier",
    "Kul.C26_any_classifier_provided"
   ],
   "note": "With bindings: C59_call."
  },
  {
   "property": "C27",
   "status": "proved",
   "theorems": [
    "Kul.C27_slots_used",
    "Kul.C27_enough_iff",
    "Kul.C27_core"
   ],
   "note": "For every chunk type, classifier and text; the allocator may have been used before."
  },
  {
   "property": "C28",
   "status": "proved",
   "theorems": [
    "Kul.C28_each_call",
    "Kul.C28_prefix",
    "Kul.C28_any_allocator",
    "Kul.C28_prefix_provided"
   ],
   "note": "C28_each_call and C28_prefix allow bindings that agree; C28_any_allocator is for arbitrary failure patterns without bindings."
  },
  {
   "property": "C29",
   "status": "proved",
   "theorems": [
    "Kul.C29_slots",
    "Kul.C29_not_overwritten",
    "Kul.C29_holds"
   ],
   "note": ""
  },
  {
   "property": "C30",
   "status": "proved",
   "theorems": [
    "Kul.C30_writable",
    "Kul.C30_box",
    "Kul.C30_rc",
    "Kul.C30_slice",
    "Kul.C30_writable_provided",
    "Kul.C30_box_provided",
    "Kul.C30_rc_provided",
    "Kul.C30_slice_provided"
   ],
   "note": ""
  },
  {
   "property": "C31",
   "status": "proved",
   "theorems": [
    "Kul.C31_text_eq",
    "Kul.C31_text_vec_eq",
    "Kul.C31_text_eq_iff",
    "Kul.C31_equivalence",
    "Kul.C31_text_eq_provided"
   ],
   "note": ""
  },
  {
   "property": "C32",
   "status": "proved",
   "theorems": [
    "Kul.C32_text_cmp",
    "Kul.C32_total_order",
    "Kul.C32_antisymmetric",
    "Kul.C32_text_cmp_provided"
   ],
   "note": ""
  },
  {
   "property": "C33",
   "status": "proved",
   "theorems": [
    "Kul.C33_text_hash",
    "Kul.C33_equal_texts_hash_equally",
    "Kul.C33_equal_datums_hash_equally",
    "Kul.C33_inmem",
    "Kul.C33_text_hash_provided",
    "Kul.C33_provided"
   ],
   "note": ""
  },
  {
   "property": "C34",
   "status": "proved",
   "theorems": [
    "Kul.C34_encode_utf8",
    "Kul.C34_ok_iff_fits",
    "Kul.C34_encode_utf8_provided"
   ],
   "note": ""
  },
  {
   "property": "C35",
   "status": "proved",
   "theorems": [
    "Kul.C35_is_empty",
    "Kul.C35_concat",
    "Kul.C35_empty",
    "Kul.C35_text_vec_provided"
   ],
   "note": ""
  },
  {
   "property": "C36",
   "status": "proved",
   "theorems": [
    "Kul.C36_concat",
    "Kul.C36_is_empty",
    "Kul.C36_concat_provided"
   ],
   "note": ""
  },
  {
   "property": "C37",
   "status": "proved",
   "theorems": [
    "Kul.C37_text_iter",
    "Kul.C37_str",
    "Kul.C37_strish_iter",
    "Kul.C37_strish_iter_datum_list",
    "Kul.C37_char_iter",
    "Kul.posStr_conf",
    "Kul.posStrish_conf",
    "Kul.C37_provided"
   ],
   "note": ""
  },
  {
   "property": "C38",
   "status": "proved",
   "theorems": [
    "Kul.C38_structural",
    "Kul.C38_equivalence",
    "Kul.C38_inmem",
    "Kul.C38_provided",
    "Kul.C38_equivalence_provided"
   ],
   "note": ""
  },
  {
   "property": "C39",
   "status": "proved",
   "theorems": [
    "Kul.C39_depth",
    "Kul.C39_long_lists",
    "Kul.C39_deep_heads",
    "Kul.C39_deep_elements"
   ],
   "note": ""
  },
  {
   "property": "C40",
   "status": "proved",
   "theorems": [
    "Kul.C40_pair_found",
    "Kul.C40_pair_not_found",
    "Kul.C40_hash_map",
    "Kul.C40_tables_agree",
    "Kul.C40_inmem",
    "Kul.C40_provided"
   ],
   "note": ""
  },
  {
   "property": "C41",
   "status": "proved",
   "theorems": [
    "Kul.Drop.C41_terminates",
    "Kul.Drop.C41_determined"
   ],
   "note": "For every adaptive oracle answering whether a datum can be taken out and whether a released reference is the last one; the number of loop iterations is at most n(n+2) for n branch datums."
  },
  {
   "property": "C42",
   "status": "proved",
   "theorems": [
    "Kul.Drop.C42_accounting",
    "Kul.Drop.C42_exactly_once",
    "Kul.RcHeap.C42_shared"
   ],
   "note": "Drop.*: trees, with any outcome of the attempts to take datums out. RcHeap.C42_shared: counted cells with any sharing (DatumRc): what is unreachable from the remaining references is freed exactly once, the rest is unchanged, counts stay right."
  },
  {
   "property": "C43",
   "status": "proved",
   "theorems": [
    "Kul.Drop.C43_no_recursion"
   ],
   "note": "Nested calls at most two deep."
  },
  {
   "property": "C44",
   "status": "partial",
   "theorems": [
    "Kul.Drop.C44_depth_partial",
    "Kul.Drop.C44_not_bounded",
    "Kul.Drop.C82_depth_is_number_shared",
    "Kul.RcHeap.C86_not_bounded"
   ],
   "note": "The claim does not hold of the code: C44_not_bounded proves that for lists of shared branch datums the nesting depth grows with the length of the list. C44_depth_partial proves that the depth is at most the number of references to shared branch datums plus two. C82 proves, for every tree, that the depth is that number up to two. C86_not_bounded proves the same negation with the actual reference counts of DatumRc; C84 and C86 have the bounds for these."
  },
  {
   "property": "C45",
   "status": "proved",
   "theorems": [
    "Kul.RcCell.C45_rc",
    "Kul.RcCell.C45_basic",
    "Kul.RcCell.C45_arc",
    "Kul.RcCell.C45_arc_sole",
    "Kul.RcCell.C45_get_mut"
   ],
   "note": "For every history of operations on counted references; for Arc with other threads doing anything between the operations."
  },
  {
   "property": "C46",
   "status": "partial",
   "theorems": [
    "Kul.C46_collects",
    "Kul.C46_parse_str",
    "Kul.C46_parse_stream",
    "Kul.C46_parse_text_with",
    "Kul.C46_one_more_call_partial",
    "Kul.C46_not_immediately",
    "Kul.C46_collects_provided",
    "Kul.C46_one_more_call_partial_provided"
   ],
   "note": "Proved: the returned items are the results up to and including the first error. The documented \"immediately\" is false: exactly one more result is computed after the error and dropped (C46_not_immediately is a witness in which a combiner is called after the error)."
  },
  {
   "property": "C47",
   "status": "proved",
   "theorems": [
    "Kul.C47_delimiters_do_not_matter",
    "Kul.C47_renaming",
    "Kul.C12_C13_C25_C47_provided"
   ],
   "note": ""
  },
  {
   "property": "C48",
   "status": "proved",
   "theorems": [
    "Kul.C48_disjoint",
    "Kul.C48_classes"
   ],
   "note": ""
  },
  {
   "property": "C49",
   "status": "proved",
   "theorems": [
    "Kul.C49_error_eq",
    "Kul.C49_equivalence"
   ],
   "note": ""
  },
  {
   "property": "C50",
   "status": "proved",
   "theorems": [
    "Kul.Mem.C50_heap_text",
    "Kul.Mem.C50_heap_stream",
    "Kul.Mem.C50_slice",
    "Kul.Mem.C50_inmem",
    "Kul.Mem.C50_stream",
    "Kul.Mem.C50_core",
    "Kul.Mem.C50_any",
    "Kul.Mem.C50_any_goes_on",
    "Kul.Mem.C50_chars"
   ],
   "note": "Texts stay by value (slots are used up for the nodes of text lists). Combiners must respect ownership, as Rust enforces for safe code (CombRel). Panics do not occur in the concrete parsers (GoesOn)."
  },
  {
   "property": "C51",
   "status": "proved",
   "theorems": [
    "Kul.Mem.C51_heap_text",
    "Kul.Mem.C51_heap_stream",
    "Kul.Mem.C51_all_dropped",
    "Kul.Mem.C51_inmem",
    "Kul.Mem.C51_stream",
    "Kul.Mem.C51_drop",
    "Kul.Mem.C51_any",
    "Kul.Mem.C51_chars"
   ],
   "note": "Weak references are left out here (see C45). For slices nothing is ever given back, by design (C29)."
  },
  {
   "property": "C52",
   "status": "proved",
   "theorems": [
    "Kul.C52_results",
    "Kul.C52_exact",
    "Kul.C52_plain_total_unique",
    "Kul.C52_plain",
    "Kul.C52_str_results",
    "Kul.C52_inmem",
    "Kul.C52_stream",
    "Kul.C52_char_iter",
    "Kul.C52_core",
    "Kul.C52_parse_str",
    "Kul.C52_parse_stream",
    "Kul.C52_inmem_bound",
    "Kul.C52_stream_bound",
    "Kul.C52_results_provided",
    "Kul.C52_plain_provided"
   ],
   "note": "C52_results: any conforming parser with any bindings and memory. C52_exact: exactly these results for the reference parser with any bindings. C52_plain(_total_unique): without bindings the rules give exactly one list of results per source and every parser yields it. C52_inmem, C52_stream, C52_char_iter, C52_core, C52_parse_str, C52_parse_stream: the same end to end for the provided parsers, from the string to the results."
  },
  {
   "property": "C53",
   "status": "proved",
   "theorems": [
    "Kul.C53_enough",
    "Kul.C53_core",
    "Kul.C53_optimal",
    "Kul.C53_enough_provided"
   ],
   "note": "The bound is exact for lengths 4k+3."
  },
  {
   "property": "C54",
   "status": "proved",
   "theorems": [
    "Kul.C54_iterator_that_ends",
    "Kul.C54_as_soon_as_given",
    "Kul.C54_only_taken_matter",
    "Kul.C54_never_ending",
    "Kul.C54_nothing_peeked_after_nest",
    "Kul.C54_none_is_final",
    "Kul.C54_nests_on_demand",
    "Kul.C54_numbered"
   ],
   "note": "Iterators are state machines (Model/Live.lean), not lists; Peekable and Enumerate are modelled operation by operation. The count `pulled` is Enumerate's own counter. Proof/Track.lean: two streams in step as long as the end of the known characters is not met."
  },
  {
   "property": "C55",
   "status": "proved",
   "theorems": [
    "Kul.C55_recorded",
    "Kul.C55_iterator_that_ends",
    "Kul.C55_only_asked_matter",
    "Kul.C55_on_demand",
    "Kul.C55_not_asked_after_nest",
    "Kul.C55_as_soon_as_given",
    "Kul.C55_nests_on_demand",
    "Kul.C55_none_is_final",
    "Kul.C55_none_not_final"
   ],
   "note": "Iterators are state machines (Model/LiveStrish.lean). What has been asked is a record of the iterator's answers kept outside the parser (`recorded`), shown to change nothing. That None is final holds for fused iterators only: C55_none_not_final is the counterexample for others."
  },
  {
   "property": "C56",
   "status": "proved",
   "theorems": [
    "Kul.C56_limits_only_abort",
    "Kul.C56_enough",
    "Kul.C56_enough_provided",
    "Kul.C56_whole_parse_provided",
    "Kul.C56_deep_sources_abort_provided",
    "Kul.C56_bound_exact_provided"
   ],
   "note": "Frames of parse_next, parse_nested, parse_all and parse_text are counted in a second version of the parser (Model/Stack.lean), which aborts when a limit is exceeded; C56_limits_only_abort relates it to the first. What the stream, text, allocator and combiners need on the stack is not counted."
  },
  {
   "property": "C57",
   "status": "proved",
   "theorems": [
    "Kul.C57_counting_changes_nothing",
    "Kul.C57_linear_work",
    "Kul.C57_linear_total",
    "Kul.C57_linear_work_provided",
    "Kul.C57_linear_total_provided"
   ],
   "note": "Counts calls of the stream's methods, each of which handles at most one character; work inside the stream, the text type's concat, the allocator and the combiners is not counted."
  },
  {
   "property": "C58",
   "status": "proved",
   "theorems": [
    "Kul.Drop.C58_linear_time",
    "Kul.Drop.C58_quadratic_when_shared"
   ],
   "note": "In the tree model of algo1 (Model/Drop.lean), whose oracle answers whether a datum can be taken out of a reference. The upper bound for arbitrary answers, quadratic, is C41_terminates."
  },
  {
   "property": "C59",
   "status": "proved",
   "theorems": [
    "Kul.C59_call",
    "Kul.C59_history",
    "Kul.C59_parse",
    "Kul.C59_call_provided",
    "Kul.C59_history_provided",
    "Kul.C59_parse_provided",
    "Kul.C24_positions_exact_with_bindings"
   ],
   "note": "For any classifier (also one with overlapping classes), any allocator (also one that fails), any bindings that keep the property."
  },
  {
   "property": "C60",
   "status": "proved",
   "theorems": [
    "Kul.C60_reference",
    "Kul.C60_append_provided",
    "Kul.C60_bindings_provided",
    "Kul.C60_str",
    "Kul.C60_stream",
    "Kul.C60_parse_str"
   ],
   "note": "With any bindings for the reference parser, exactly; for all parsers of the library with bindings that do not look at positions, up to positions and chunk boundaries; without bindings, errors included; strings, streams and parse_str. Examples show that both conditions are needed."
  },
  {
   "property": "C61",
   "status": "proved",
   "theorems": [
    "Kul.C61_shares",
    "Kul.C61_shares_text",
    "Kul.C61_lets_go",
    "Kul.C61_at_end"
   ],
   "note": "The strings are values of any type with contents. At the end of the source the stream refers to at most one string, with no characters after it (C61_at_end), and to strings of a text that was accumulated and not finished."
  },
  {
   "property": "C62",
   "status": "proved",
   "theorems": [
    "Kul.C62_vec",
    "Kul.C62_datum_list",
    "Kul.C62_chunks",
    "Kul.C62_stream",
    "Kul.C62_same_history",
    "Kul.C62_datum_list_panics"
   ],
   "note": "The loops that pass over chunks have a bound on their number; any that is larger than the number of chunks is enough."
  },
  {
   "property": "C63",
   "status": "proved",
   "theorems": [
    "Kul.C63_hash_depth",
    "Kul.C63_list_levels",
    "Kul.C63_flat_source",
    "Kul.Mem.C63_box",
    "Kul.Mem.C63_counted",
    "Kul.Mem.C63_dropped"
   ],
   "note": "Texts and extras are by value. That clones stay equal to their originals whatever else is done is also part of C50, whose histories have clones. The number of nested calls counts calls of the derived function of Datum, not those of the references in between."
  },
  {
   "property": "C64",
   "status": "proved",
   "theorems": [
    "Kul.ArcDrop.C64_no_failure",
    "Kul.ArcDrop.C64_ends",
    "Kul.ArcDrop.C64_ends_always",
    "Kul.ArcDrop.C64_undisturbed",
    "Kul.ArcDrop.C64_nothing_left",
    "Kul.ArcDrop.C64_leaves",
    "Kul.ArcDrop.C64_depth",
    "Kul.ArcDrop.C64_unshared_depth"
   ],
   "note": "Steps of all threads interleaved (sequential consistency); Arc operations are atomic steps."
  },
  {
   "property": "C65",
   "status": "proved",
   "theorems": [
    "Kul.C65_history",
    "Kul.C65_parse",
    "Kul.C65_fewest",
    "Kul.C65_string",
    "Kul.C65_chars",
    "Kul.C65_strings",
    "Kul.C65_chunks_count"
   ],
   "note": "Fewest: among texts whose chunks are each a slice of one piece of the source. A text without characters has at most one chunk."
  },
  {
   "property": "C66",
   "status": "proved",
   "theorems": [
    "Kul.C66_counting_changes_nothing",
    "Kul.C66_concats",
    "Kul.C66_looks",
    "Kul.C66_vec_moves",
    "Kul.C66_list_turns",
    "Kul.C66_list_quadratic",
    "Kul.C66_core_quadratic"
   ],
   "note": "Steps counted: concatenations, chunks looked at by is_empty, chunks put into or shifted in a Vec (its growing by reallocation, which is amortized, is not counted), turns of the loop of TextDatumList::concat. The quadratic bound is for sources whose items all differ, which those of a string and of iterators do."
  },
  {
   "property": "C67",
   "status": "proved",
   "theorems": [
    "Kul.C67_operand_text",
    "Kul.C67_same_meaning",
    "Kul.C67_call",
    "Kul.C67_meaning",
    "Kul.C67_meaning_provided",
    "Kul.C67_parsing_defers",
    "Kul.C67_exact",
    "Kul.C67_exists",
    "Kul.C67_recursive",
    "Kul.C67_not_with_escapes"
   ],
   "note": "For parses without error: after an error inside operands, the parser goes on at different places for applicatives and for operatives. Memory is not part of the observed state."
  },
  {
   "property": "C68",
   "status": "proved",
   "theorems": [
    "Kul.C68_call",
    "Kul.C68_depth",
    "Kul.C68_until_panic",
    "Kul.C68_returning",
    "Kul.C68_new_iterator",
    "Kul.C68_same_iterator",
    "Kul.C68_never_none",
    "Kul.C68_stuck",
    "Kul.C68_call_provided",
    "Kul.C68_after_panic_provided"
   ],
   "note": "Panics of combiners; panics of other user code (streams, allocators, classifiers) are in C78."
  },
  {
   "property": "C69",
   "status": "proved",
   "theorems": [
    "Kul.RcHeap.C69_agree",
    "Kul.RcHeap.C69_sole",
    "Kul.Mem.C69_parsed",
    "Kul.Mem.C69_inmem",
    "Kul.Mem.C69_any"
   ],
   "note": "Iterations and nesting of calls of the drop algorithm are counted; what dropping of texts takes is not."
  },
  {
   "property": "C70",
   "status": "proved",
   "theorems": [
    "Kul.C70_linear_size",
    "Kul.C70_linear_total",
    "Kul.C70_linear_size_provided",
    "Kul.C70_linear_total_provided",
    "Kul.Mem.C70_memory",
    "Kul.Mem.C70_memory_inmem",
    "Kul.Mem.C70_memory_stream",
    "Kul.Mem.C70_drop_inmem",
    "Kul.Mem.C70_memory_any",
    "Kul.Mem.C70_memory_chars",
    "Kul.Mem.C70_drop_any",
    "Kul.Mem.C70_drop_stream",
    "Kul.Mem.C70_drop_chars",
    "Kul.C70_optimal"
   ],
   "note": "The memory of texts is in C65 and C66."
  },
  {
   "property": "C71",
   "status": "proved",
   "theorems": [
    "Kul.Mem.C71_text",
    "Kul.Mem.C71_strings",
    "Kul.Mem.C71_inmem",
    "Kul.Mem.C71_stream",
    "Kul.Mem.C71_all_dropped",
    "Kul.Mem.C71_any"
   ],
   "note": "Operations on references are atomic (sequentially consistent)."
  },
  {
   "property": "C72",
   "status": "proved",
   "theorems": [
    "Kul.Mem.C72_heap",
    "Kul.Mem.C72_all_dropped",
    "Kul.Mem.C72_until_panic",
    "Kul.Mem.C72_text",
    "Kul.Mem.C72_strings",
    "Kul.Mem.C72_any",
    "Kul.Mem.C72_anywhere"
   ],
   "note": "Any user-supplied part may panic, at any point. Careful (Spec/MemUnwind.lean) is what is required of it: it respects ownership. C72_text and C72_strings are for the provided streams and allocators, where only combiners have to be careful; C72_anywhere is for any stream and texts, with panics of anything."
  },
  {
   "property": "C73",
   "status": "proved",
   "theorems": [
    "Kul.C73_replace_provided",
    "Kul.C73_reference",
    "Kul.C73_bindings_provided",
    "Kul.C73_str",
    "Kul.C73_parse_str",
    "Kul.C73_stream"
   ],
   "note": "ReplacedAt, ReplacedIn and Moved (Spec/Replace.lean) say that results differ in one place only. C73_reference and C73_bindings_provided are for applicative bindings."
  },
  {
   "property": "C74",
   "status": "proved",
   "theorems": [
    "Kul.C74_call",
    "Kul.C74_yields",
    "Kul.C74_parse_str"
   ],
   "note": "C74_call and C74_yields are for any parser, without any contract. That the hypotheses are needed (a bound operator; an unclosed nest around a bound one) is shown by examples. C74_parse_str is about what is returned, not about the state."
  },
  {
   "property": "C75",
   "status": "proved",
   "theorems": [
    "Kul.C75_call",
    "Kul.C75_only",
    "Kul.C75_provided",
    "Kul.C75_every",
    "Kul.C75_common"
   ],
   "note": "Release builds are modelled function by function in Model/Release.lean. A source stream for which peeking changes what is shown next (a user's) can give different results in the two builds; an example beside the theorems shows it."
  },
  {
   "property": "C76",
   "status": "proved",
   "theorems": [
    "Kul.C76_meaning",
    "Kul.C76_ends",
    "Kul.C76_no_panic",
    "Kul.C76_no_error_iff_balanced",
    "Kul.C76_total",
    "Kul.C76_first_error",
    "Kul.C76_results",
    "Kul.C76_results_provided",
    "Kul.C76_once_per_nest",
    "Kul.C76_meaning_provided",
    "Kul.C76_total_provided",
    "Kul.C76_no_panic_provided",
    "Kul.C76_first_error_provided",
    "Kul.C76_exact",
    "Kul.C76_fixed"
   ],
   "note": "For any conforming source stream, and for the library's; exact for the reference parser."
  },
  {
   "property": "C77",
   "status": "proved",
   "theorems": [
    "Kul.C77_meaning",
    "Kul.C77_ends",
    "Kul.C77_no_panic",
    "Kul.C77_first_error",
    "Kul.C77_results",
    "Kul.C77_meaning_provided",
    "Kul.C77_no_panic_provided",
    "Kul.C77_results_provided",
    "Kul.C77_first_error_provided",
    "Kul.C77_exact",
    "Kul.C77_fixed"
   ],
   "note": "For any conforming source stream, and for the library's; exact for the reference parser. The classifier is a function of the state (asking it changes nothing), and allocating alone does not change it."
  },
  {
   "property": "C78",
   "status": "proved",
   "theorems": [
    "Kul.C78_call",
    "Kul.C78_unique",
    "Kul.C78_returning",
    "Kul.C78_invariant",
    "Kul.C78_history",
    "Kul.C78_new_iterator",
    "Kul.C78_until_panic",
    "Kul.C78_provided"
   ],
   "note": "For any conforming source stream, and for the library's with streams that do not themselves panic. Classifier and bindings are fixed functions where they return; whether they panic may depend on the allocator's state. What the rest of the source means is stated for classifiers with disjoint classes."
  },
  {
   "property": "C79",
   "status": "proved",
   "theorems": [
    "Kul.Linked.C79_slice",
    "Kul.Linked.C79_core",
    "Kul.Linked.C79_strish",
    "Kul.Linked.C79_chars",
    "Kul.Linked.C79_chunks"
   ],
   "note": "A text refers to the rest of its chunks by a slot (Model/LinkText.lean). By value is the parser of the other properties, so everything proved of its results carries over. That the parser never fails to return is proved with the provided parser of kul_core and with both streams of kul; for other chunk types it is the by-value parser's."
  },
  {
   "property": "C80",
   "status": "proved",
   "theorems": [
    "Kul.C80_same",
    "Kul.C80_no_panic",
    "Kul.C80_all_counters",
    "Kul.C80_common",
    "Kul.C80_every_source"
   ],
   "note": "The streams are modelled again with every addition checked (Model/Counters.lean, Model/CountersShared.lean). The count of Enumerate in PosStr is taken to start at the chunk's own position, which is not less than where it does start."
  },
  {
   "property": "C81",
   "status": "proved",
   "theorems": [
    "Kul.AnyUser.C81_one_result",
    "Kul.AnyUser.C81_depth",
    "Kul.AnyUser.C81_world",
    "Kul.AnyUser.C81_errors",
    "Kul.AnyUser.C81_made",
    "Kul.AnyUser.C81_ends",
    "Kul.AnyUser.C81_progress",
    "Kul.AnyUser.C81_no_panic",
    "Kul.AnyUser.C81_hangs",
    "Kul.AnyUser.C81_wavering",
    "Kul.AnyUser.C81_panics_model",
    "Kul.AnyUser.C81_delims_model"
   ],
   "note": "Model/AnyUser.lean: every function of the user's reads and changes one world. Conditions are only in C81_ends/C81_progress (Finite, Steady) and C81_no_panic (Orderly, Calm); C81_hangs and C81_wavering show that they are needed. C81_made: what the datums are made of. C81_panics_model and C81_delims_model: the models of C78 and C77 are instances. References are by value; drops have no effect."
  },
  {
   "property": "C82",
   "status": "proved",
   "theorems": [
    "Kul.Drop.C82_depth_is_number_shared"
   ],
   "note": "For every tree of any shape and every pattern of sharing that others keep up during the drop. The nesting depth of drop calls lies between the number of references to shared branch datums and that number plus two."
  },
  {
   "property": "C83",
   "status": "proved",
   "theorems": [
    "Kul.Drop.C83_time_with_sharing"
   ],
   "note": "In the tree model of algo1, for every tree and every pattern of sharing that others keep up during the drop. Contains C58's bound as the case without sharing."
  },
  {
   "property": "C84",
   "status": "proved",
   "theorems": [
    "Kul.RcHeap.C84_depth"
   ],
   "note": "In the model with reference-counted cells. Both bounds are reached by the example beside the theorem (deepHeap)."
  },
  {
   "property": "C85",
   "status": "proved",
   "theorems": [
    "Kul.RcHeap.C85_time"
   ],
   "note": "In the model with reference-counted cells. That time can be quadratic in the number of branch datums is C58_quadratic_when_shared."
  },
  {
   "property": "C86",
   "status": "proved",
   "theorems": [
    "Kul.RcHeap.C86_shared_from_outside",
    "Kul.RcHeap.C86_not_bounded"
   ],
   "note": "With the reference counts of the heap model. C86_not_bounded shows that the claim of C44 does not hold for DatumRc either."
  },
  {
   "property": "C87",
   "status": "proved",
   "theorems": [
    "Kul.Mem.C87_among",
    "Kul.Mem.C87_all_dropped",
    "Kul.Mem.C87_anywhere",
    "Kul.Mem.C87_text",
    "Kul.Mem.C87_strings",
    "Kul.Mem.C72_until_panic"
   ],
   "note": "Operations on references are atomic (sequentially consistent), as in C71. C72_until_panic, which is about any memory, says that a call that does not panic is one of the parser of C71."
  },
  {
   "property": "C88",
   "status": "proved",
   "theorems": [
    "Kul.C88_one_result",
    "Kul.C88_same_parsed",
    "Kul.C88_normal_form",
    "Kul.C88_idempotent",
    "Kul.C88_length"
   ],
   "note": "The crate has no function that writes datums out; the writer is the specification writeSource (Spec/Shape.lean), as in C04."
  },
  {
   "property": "C89",
   "status": "proved",
   "theorems": [
    "Kul.C89_counting_changes_nothing",
    "Kul.C89_text",
    "Kul.C89_whole_text",
    "Kul.C89_end_is_sought_again",
    "Kul.C89_strings",
    "Kul.C89_chars"
   ],
   "note": "Steps counted: turns of the loops of text::Iter, strings asked for and strings looked into by StrishIterSourceStream, characters copied by CharIterSourceStream. They are counted by functions of the state (Spec/StreamWork.lean) defined along the loops. Together with C57 (calls) and C66 (concat) this bounds the parser's own work. Each step is a constant number of operations on a string's own iterator or a chunk. Growing of the accumulated String by reallocation is not counted."
  },
  {
   "property": "C90",
   "status": "proved",
   "theorems": [
    "Kul.C90_in_order",
    "Kul.C90_in_order_memory",
    "Kul.C90_turns",
    "Kul.C90_hash_writes",
    "Kul.C90_shared_exponential",
    "Kul.C90_text_eq",
    "Kul.C90_text_cmp",
    "Kul.C90_text_hash",
    "Kul.C90_text_encode",
    "Kul.C90_text_turns",
    "Kul.C90_parsed",
    "Kul.C90_parsed_inmem"
   ],
   "note": "Steps counted: turns of the loop of PartialEq::eq of datums (those of inner calls included), calls of the text iterators' next, turns of the loop in them, writes to the hasher. How many characters are asked for is stated with iterators that panic when asked more often. The derived Hash of references is that of the datum referred to, so hashing is stated on the tree that is read back."
  },
  {
   "property": "C91",
   "status": "proved",
   "theorems": [
    "Kul.C91_modular",
    "Kul.C91_call",
    "Kul.C91_only",
    "Kul.C91_provided",
    "Kul.C91_every",
    "Kul.C91_common",
    "Kul.C91_beyond"
   ],
   "note": "W = M + 1 is the number of values of usize. Model/Wrap.lean has the parser's counters and every addition and subtraction of the provided source streams modulo W; in C91_provided the limits are those of C80 (WithinLimit) and the number of start delimiters."
  },
  {
   "property": "C92",
   "status": "proved",
   "theorems": [
    "Kul.Drop.C92_exact",
    "Kul.Drop.C92_least",
    "Kul.Drop.C92_most",
    "Kul.Shapes.C92_fastest",
    "Kul.Shapes.C92_made",
    "Kul.Shapes.C92_fan",
    "Kul.Shapes.C92_fan_depth",
    "Kul.Shapes.C92_vee",
    "Kul.Shapes.C92_vee2r"
   ],
   "note": "Iterations are turns of the loop of algo1. Nothing shared: Oracle.Steady fun _ => false. The lists of tree_shapes.rs with additional strong references are in C93, those with weak references in C94."
  },
  {
   "property": "C93",
   "status": "proved",
   "theorems": [
    "Kul.Shapes.C93_made",
    "Kul.Shapes.C93_first",
    "Kul.Shapes.C93_rest",
    "Kul.Shapes.C93_test"
   ],
   "note": "In the model of DatumRc with counted cells (RcHeap). The bounds on n are bounds on the budget of the recursion. The same lists of DatumArc differ only in the reference type."
  },
  {
   "property": "C94",
   "status": "proved",
   "theorems": [
    "Kul.WeakDrop.C94_made",
    "Kul.WeakDrop.C94_drop",
    "Kul.WeakDrop.C94_outside",
    "Kul.WeakDrop.C94_allocates"
   ],
   "note": "The drop algorithm is modelled with cells that have strong and weak counts and with try_replace_optim (DatumRc) and try_replace (DatumArc) as they are (RcCell). The bounds on n are bounds on the budget of the recursion."
  },
  {
   "property": "C95",
   "status": "proved",
   "theorems": [
    "Kul.WeakDrop.C95_forget",
    "Kul.WeakDrop.C95_agree",
    "Kul.WeakDrop.C95_shared"
   ],
   "note": "The result `bad` of the model with weak counts (an access to what is not there, which Rust rules out) is excepted: that it does not occur is proved for the lists of C94, not for all heaps. DatumArc is used by one thread. Equality of events and the memory kept by weak references only are not part of it."
  }
 ]
}
