{
 "claims": [
  {
   "property": "C01",
   "status": "proved",
   "theorems": [
    "Aql.C01_parser_terminates",
    "Aql.C01_value_is_tree",
    "Aql.C01_accepted_from_grammar",
    "Aql.C01_parse_returns"
   ],
   "note": "On arbitrary bytes. Depth is the fuel bound of the interpreter (64 per character), shown sufficient; no visitors."
  },
  {
   "property": "C02",
   "status": "proved",
   "theorems": [
    "Aql.C02_sentence_is_accepted",
    "Aql.C02_unambiguous",
    "Aql.C02_tree_of_tokens",
    "Aql.C02_white_space_does_not_matter"
   ],
   "note": "Completeness for the language of Spec/Grammar, unambiguity, and the tree as a function of white-space-free tokens (Spec/Layout)."
  },
  {
   "property": "C03",
   "status": "proved",
   "theorems": [
    "Aql.C03_accepted_is_sentence",
    "Aql.C03_accepted_is_layout"
   ],
   "note": "Soundness for the language of Spec/Grammar."
  },
  {
   "property": "C04",
   "status": "proved",
   "theorems": [
    "Aql.C04_literal_value",
    "Aql.C04_literal_unique",
    "Aql.C04_accepted_iff_literal",
    "Aql.C04_integer_range",
    "Aql.C04_date_exists",
    "Aql.C04_octets"
   ],
   "note": "Values for every literal form, uniqueness of type and value, and exact acceptance conditions for integers, dates and dotted quads."
  },
  {
   "property": "C05",
   "status": "proved",
   "theorems": [
    "Aql.C05_positions_exact",
    "Aql.C05_first_character"
   ],
   "note": "Every comparison and value is tied to a piece of the text whose position it records."
  },
  {
   "property": "C06",
   "status": "partial",
   "theorems": [
    "Aql.C06_error_position_exact",
    "Aql.C06_error_position_partial",
    "Aql.C06_line_refuted"
   ],
   "note": "Offset always in the text; C06_error_position_exact gives line and column in every case; the true line and column except at a newline, where the code reports column 0 of the next line: refuted with a witness."
  },
  {
   "property": "C07",
   "status": "proved",
   "theorems": [
    "Aql.C07_accepted_is_utf8",
    "Aql.C07_undecodable_rejected"
   ],
   "note": "Against the UTF-8 encoder of Lean's library."
  },
  {
   "property": "C08",
   "status": "partial",
   "theorems": [
    "Aql.C08_nested_parentheses_cost",
    "Aql.C08_polynomial_refuted",
    "Aql.C08_cost_bound_partial",
    "Aql.C08_rate_exact",
    "Aql.C08_no_parentheses_partial"
   ],
   "note": "The claim is false of the code: proved that no polynomial bounds the evaluations, with the 4^n lower bound. Proved instead: at most 160000*(length+1)^3*4^(number of opening parentheses) evaluations, so cubic without parentheses; C08_rate_exact: with a polynomial beside it the factor per parenthesis can be b if and only if b is at least four."
  },
  {
   "property": "C09",
   "status": "proved",
   "theorems": [
    "Aql.C09_first_recorded_error_reported",
    "Aql.C09_recorded_error_rejects"
   ],
   "note": "For every run of the parser, whatever is recorded first is reported; any recorded error rejects."
  },
  {
   "property": "C10",
   "status": "proved",
   "theorems": [
    "Aql.C10_star_segments_transparent"
   ],
   "note": "Stated on texts through the grammar."
  },
  {
   "property": "C11",
   "status": "partial",
   "theorems": [
    "Aql.C11_regex_body_partial",
    "Aql.C11_leading_slash_refuted",
    "Aql.C11_source_exact",
    "Aql.C11_backslash_refuted"
   ],
   "note": "False for bodies with an escaped slash at either end or an escaped backslash at the end (witnesses). C11_source_exact: exact condition for all literals."
  },
  {
   "property": "C12",
   "status": "proved",
   "theorems": [
    "Aql.C12_validator_decides_typing"
   ],
   "note": "Exact decision: the validator accepts iff the separate typing rules hold."
  },
  {
   "property": "C13",
   "status": "partial",
   "theorems": [
    "Aql.C13_between_exact",
    "Aql.C13_between_one_kind_refuted",
    "Aql.C13_between_one_kind_partial"
   ],
   "note": "The general claim is false of the code (negative number, then a datetime). C13_between_exact: exactly which operand pairs are accepted."
  },
  {
   "property": "C14",
   "status": "proved",
   "theorems": [
    "Aql.C14_validation_covers_every_comparison",
    "Aql.C14_first_failing_comparison_reported"
   ],
   "note": "Acceptance iff every comparison passes, and the first failing comparison in preorder is the one reported."
  },
  {
   "property": "C15",
   "status": "proved",
   "theorems": [
    "Aql.C15_walk_is_preorder_run",
    "Aql.C15_recorder_sees_preorder"
   ],
   "note": "Walk equals a run over the explicit preorder list, for every visitor."
  },
  {
   "property": "C16",
   "status": "partial",
   "theorems": [
    "Aql.C16_tape_never_fails_parse_refuted",
    "Aql.C16_error_message_accepted"
   ],
   "note": "The documented behaviour is false of the code: proved that no tape operation ever fails the parse."
  },
  {
   "property": "C17",
   "status": "proved",
   "theorems": [
    "Aql.C17_messages_in_recording_order",
    "Aql.C17_message_visitor_transparent"
   ],
   "note": ""
  },
  {
   "property": "C18",
   "status": "proved",
   "theorems": [
    "Aql.C18_newMatcher_on_bytes",
    "Aql.C18_newMatcher_never_panics",
    "Aql.C18_string_regexp_valid"
   ],
   "note": "For every tree satisfying FromGrammar."
  },
  {
   "property": "C19",
   "status": "partial",
   "theorems": [
    "Aql.C19_match_panics_refuted",
    "Aql.C19_match_never_panics_partial",
    "Aql.C19_match_never_panics_any_document_partial",
    "Aql.C19_match_exact_any",
    "Aql.C19_match_exact",
    "Aql.C19_outcome_exists",
    "Aql.C19_no_panic_outcome"
   ],
   "note": "Refuted in general (field with only star segments); proved for queries whose fields have a named segment. C19_match_exact gives the exact condition on object documents (C19_match_exact_any on all documents, unless a field begins with an empty segment or `[`): Match panics iff left-to-right short-circuit evaluation reaches a comparison without a named segment. Missing: those fields on array documents, where the library's answer is a parameter."
  },
  {
   "property": "C20",
   "status": "proved",
   "theorems": [
    "Aql.C20_and",
    "Aql.C20_or",
    "Aql.C20_not",
    "Aql.C20_operands_compile",
    "Aql.C20_de_morgan",
    "Aql.C20_de_morgan_or",
    "Aql.C20_commutative",
    "Aql.C20_distributive",
    "Aql.C20_double_negation"
   ],
   "note": ""
  },
  {
   "property": "C21",
   "status": "proved",
   "theorems": [
    "Aql.C21_set_is_disjunction"
   ],
   "note": ""
  },
  {
   "property": "C22",
   "status": "proved",
   "theorems": [
    "Aql.C22_similar_is_equal",
    "Aql.C22_similar_accepted_as_equal"
   ],
   "note": ""
  },
  {
   "property": "C23",
   "status": "proved",
   "theorems": [
    "Aql.C23_field_resolution"
   ],
   "note": ""
  },
  {
   "property": "C24",
   "status": "proved",
   "theorems": [
    "Aql.C24_exists",
    "Aql.C24_text"
   ],
   "note": ""
  },
  {
   "property": "C25",
   "status": "proved",
   "theorems": [
    "Aql.C25_null"
   ],
   "note": ""
  },
  {
   "property": "C26",
   "status": "proved",
   "theorems": [
    "Aql.C26_comparison_implies_exists",
    "Aql.C26_null_excludes_values"
   ],
   "note": ""
  },
  {
   "property": "C27",
   "status": "proved",
   "theorems": [
    "Aql.C27_existential_over_scalars"
   ],
   "note": ""
  },
  {
   "property": "C28",
   "status": "proved",
   "theorems": [
    "Aql.C28_order",
    "Aql.C28_equal",
    "Aql.C28_between",
    "Aql.C28_reading",
    "Aql.C28_integer_literal",
    "Aql.C28_float_literal",
    "Aql.C28_not_a_number",
    "Aql.C28_text"
   ],
   "note": ""
  },
  {
   "property": "C29",
   "status": "partial",
   "theorems": [
    "Aql.C29_integer_equality_partial",
    "Aql.C29_integer_equality_exact",
    "Aql.C29_integer_equality_refuted",
    "Aql.C29_small_literal"
   ],
   "note": "Exact integer equality is refuted (2^53+1 against 2^53). C29_integer_equality_exact says exactly when the two count as equal; true equality below 2^53."
  },
  {
   "property": "C30",
   "status": "proved",
   "theorems": [
    "Aql.C30_monotone",
    "Aql.C30_integer_bounds",
    "Aql.C30_strict_implies_nonstrict",
    "Aql.C30_between_implies_bounds",
    "Aql.C30_trichotomy"
   ],
   "note": ""
  },
  {
   "property": "C31",
   "status": "proved",
   "theorems": [
    "Aql.C31_text",
    "Aql.C31_day",
    "Aql.C31_day_exact"
   ],
   "note": ""
  },
  {
   "property": "C32",
   "status": "partial",
   "theorems": [
    "Aql.C32_text_partial",
    "Aql.C32_order_partial",
    "Aql.C32_equal_partial",
    "Aql.C32_between_partial",
    "Aql.C32_chronological_refuted",
    "Aql.C32_order_exact",
    "Aql.C32_equal_exact",
    "Aql.C32_between_exact",
    "Aql.C32_one_span_partial",
    "Aql.C32_wrong_outside"
   ],
   "note": "Chronological order is refuted for instants outside the 64-bit nanosecond range; proved when all instants fit. C32_order_exact, C32_equal_exact and C32_between_exact give the exact result for all instants, C32_wrong_outside shows that every instant outside goes wrong with some operator."
  },
  {
   "property": "C33",
   "status": "proved",
   "theorems": [
    "Aql.C33_literal",
    "Aql.C33_calendar_order",
    "Aql.C33_consecutive_days"
   ],
   "note": ""
  },
  {
   "property": "C34",
   "status": "proved",
   "theorems": [
    "Aql.C34_network",
    "Aql.C34_literal",
    "Aql.C34_single_address",
    "Aql.C34_block_bits",
    "Aql.C34_text"
   ],
   "note": ""
  },
  {
   "property": "C35",
   "status": "proved",
   "theorems": [
    "Aql.C35_wildcards",
    "Aql.C35_wildcards_lowered",
    "Aql.C35_no_wildcards_unicode",
    "Aql.C35_wildcards_unicode",
    "Aql.C35_text"
   ],
   "note": "The Unicode variant assumes FoldsApart, a fact about Go's Unicode tables."
  },
  {
   "property": "C36",
   "status": "partial",
   "theorems": [
    "Aql.C36_self_match_exact",
    "Aql.C36_self_match_stars",
    "Aql.C36_meant_exact",
    "Aql.C36_escaped_never",
    "Aql.C36_self_match_unicode",
    "Aql.C36_self_match_refuted",
    "Aql.C36_self_match_partial"
   ],
   "note": "Refuted in general (\"(food)\"); exact for ASCII literals with any wildcards none of which is escaped: the text equal to the literal matches iff the literal without its stars begins and ends with a word character (C36_self_match_exact without wildcards, C36_self_match_stars with any). If all wildcards are escaped, the text equal to the literal never matches (C36_escaped_never), the text that is meant exactly if it begins and ends with a word character (C36_meant_exact). Outside ASCII with wildcards it always matches (C36_self_match_unicode). Missing: literals with escaped and other wildcards together, and literals outside ASCII whose lower-case form is ASCII; outside ASCII without wildcards the library's search is a parameter. FoldsApart is a hypothesis about Unicode case folding."
  },
  {
   "property": "C37",
   "status": "proved",
   "theorems": [
    "Aql.C37_booleans",
    "Aql.C37_boolean_literal",
    "Aql.C37_nulls",
    "Aql.C37_objects",
    "Aql.C37_bool_text"
   ],
   "note": ""
  },
  {
   "property": "C38",
   "status": "proved",
   "theorems": [
    "Aql.C38_similar_documents",
    "Aql.C38_unreferenced_member"
   ],
   "note": "Both the anywhere-in-the-document version (irrelevant names are no segment of any path) and the top-level version (name begins no path)."
  },
  {
   "property": "C39",
   "status": "proved",
   "theorems": [
    "Aql.C39_history",
    "Aql.C39_answers",
    "Aql.C39_invalid",
    "Aql.C39_query"
   ],
   "note": ""
  },
  {
   "property": "C40",
   "status": "proved",
   "theorems": [
    "Aql.C40_root_statistics",
    "Aql.C40_every_call_counts"
   ],
   "note": ""
  },
  {
   "property": "C41",
   "status": "proved",
   "theorems": [
    "Aql.C41_each_call",
    "Aql.C41_final_counters",
    "Aql.C41_progress"
   ],
   "note": "Small-step interleaving model; termination included (C41_progress)."
  },
  {
   "property": "C42",
   "status": "partial",
   "theorems": [
    "Aql.C42_snapshot_exact",
    "Aql.C42_stored",
    "Aql.C42_snapshot_refuted",
    "Aql.C42_snapshot_partial",
    "Aql.C42_sequential"
   ],
   "note": "Stored counters always satisfy it; the snapshot is refuted with a schedule; holds when no Match is in progress. C42_snapshot_exact gives the exact set of pairs Stats can show under concurrent Match calls."
  },
  {
   "property": "C43",
   "status": "partial",
   "theorems": [
    "Aql.C43_counters_exact",
    "Aql.C43_shown_exact",
    "Aql.C43_single_comparison_partial",
    "Aql.C43_children_refuted"
   ],
   "note": "Refuted: Children is always empty (C43_children_refuted), so Stats is complete exactly for single comparisons (C43_shown_exact, C43_single_comparison_partial). The counters kept for every part are exact (C43_counters_exact)."
  },
  {
   "property": "C44",
   "status": "proved",
   "theorems": [
    "Aql.C44_keys"
   ],
   "note": ""
  },
  {
   "property": "C45",
   "status": "partial",
   "theorems": [
    "Aql.C45_unlimited_refuted",
    "Aql.C45_unlimited_partial",
    "Aql.C45_unlimited_exact"
   ],
   "note": "Refuted for every negative depth; proved exactly when a depth is no limit for given documents."
  },
  {
   "property": "C46",
   "status": "partial",
   "theorems": [
    "Aql.C46_rejected_partial",
    "Aql.C46_error_refuted",
    "Aql.C46_panic_refuted",
    "Aql.C46_success_exact",
    "Aql.C46_history_exact"
   ],
   "note": "Refuted: an error inside a document poisons the sampler for good, also after Reset; rejected documents are harmless. C46_success_exact says when one call succeeds, C46_history_exact when a sampler is damaged after any sequence of calls."
  },
  {
   "property": "C47",
   "status": "partial",
   "theorems": [
    "Aql.C47_panics_refuted",
    "Aql.C47_panics_partial",
    "Aql.C47_panics_exact"
   ],
   "note": "Refuted for empty input and arrays with a scalar; C47_panics_exact: exactly which inputs panic while the sampler has its map (after an error it has none, see C46)."
  },
  {
   "property": "C48",
   "status": "partial",
   "theorems": [
    "Aql.C48_occurrences",
    "Aql.C48_threshold_refuted",
    "Aql.C48_threshold_partial",
    "Aql.C48_threshold_exact"
   ],
   "note": "Refuted with arrays; proved, in binary64 arithmetic, for documents without arrays, repeated keys and dots in keys, and exactly when the selection of a key is wrong."
  },
  {
   "property": "C49",
   "status": "proved",
   "theorems": [
    "Aql.C49_scanned",
    "Aql.C49_reset",
    "Aql.C49_reset_after"
   ],
   "note": ""
  },
  {
   "property": "C50",
   "status": "proved",
   "theorems": [
    "Aql.C50_queryable"
   ],
   "note": "At the level of paths; the text level is part of the grammar properties."
  },
  {
   "property": "C51",
   "status": "proved",
   "theorems": [
    "Aql.C51_reassemble",
    "Aql.C51_reassemble_truncated",
    "Aql.C51_no_position",
    "Aql.C51_pre_exact"
   ],
   "note": "Also with truncation when the token is short enough. ASCII text before the token."
  },
  {
   "property": "C52",
   "status": "proved",
   "theorems": [
    "Aql.C52_aligned",
    "Aql.C52_heading",
    "Aql.C52_bytes_refuted",
    "Aql.C52_aligned_exact"
   ],
   "note": "Exact terminal output for ASCII text before the token, also truncated; refuted for non-ASCII (C52_bytes_refuted)."
  },
  {
   "property": "C53",
   "status": "partial",
   "theorems": [
    "Aql.C53_window_partial",
    "Aql.C53_window_refuted",
    "Aql.C53_print_refuted",
    "Aql.C53_window_exact"
   ],
   "note": "Refuted for long tokens; C53_window_exact: exactly when the window is right."
  },
  {
   "property": "C54",
   "status": "proved",
   "theorems": [
    "Aql.C54_mirror",
    "Aql.C54_addresses"
   ],
   "note": ""
  },
  {
   "property": "C55",
   "status": "partial",
   "theorems": [
    "Aql.C55_last_ten_partial",
    "Aql.C55_get_exact",
    "Aql.C55_short_refuted"
   ],
   "note": "Refuted for fewer than ten examples; C55_get_exact says what is returned in every case."
  },
  {
   "property": "C56",
   "status": "proved",
   "theorems": [
    "Aql.C56_injective",
    "Aql.C56_empty_refuted"
   ],
   "note": ""
  },
  {
   "property": "C57",
   "status": "proved",
   "theorems": [
    "Aql.C57_messages_attached"
   ],
   "note": "Exact list of hints per tree."
  },
  {
   "property": "C58",
   "status": "partial",
   "theorems": [
    "Aql.C58_mark_partial",
    "Aql.C58_mark_refuted",
    "Aql.C58_mark_exact"
   ],
   "note": "Refuted at the 1000th sample; C58_mark_exact: exactly which sequences panic."
  },
  {
   "property": "C59",
   "status": "proved",
   "theorems": [
    "Aql.C59_matcher_means_text",
    "Aql.C59_who_gets_a_matcher",
    "Aql.C59_ready_of_text"
   ],
   "note": "End-to-end composition of the parser, validation, builder and matcher theorems on bytes."
  },
  {
   "property": "C60",
   "status": "proved",
   "theorems": [
    "Aql.C60_layout_irrelevant",
    "Aql.C60_same_answers"
   ],
   "note": "Equality of outcomes up to positions, hence of answers and counters on every document."
  },
  {
   "property": "C61",
   "status": "proved",
   "theorems": [
    "Aql.C61_validation_error_position",
    "Aql.C61_blame_is_unique"
   ],
   "note": "Position singled out by the separate relation Spec.Blames, shown to be unique."
  },
  {
   "property": "C62",
   "status": "proved",
   "theorems": [
    "Aql.C62_message_positions"
   ],
   "note": "Together with C57, which says which warnings there are."
  },
  {
   "property": "C63",
   "status": "proved",
   "theorems": [
    "Aql.C63_texts_compose"
   ],
   "note": "No restriction on the documents beyond both operands answering (not panicking)."
  },
  {
   "property": "C64",
   "status": "proved",
   "theorems": [
    "Aql.C64_no_recovered_panic",
    "Aql.C64_error_marks_text"
   ],
   "note": "Recorded errors and values of the grammar rules are typed; induction over interpreter runs."
  },
  {
   "property": "C65",
   "status": "partial",
   "theorems": [
    "Aql.C65_tree_or_error",
    "Aql.C65_messages_mark_pieces",
    "Aql.C65_typing_error_marks_piece",
    "Aql.C65_ascii_highlight",
    "Aql.C65_spans_inside_partial",
    "Aql.C65_empty_refuted",
    "Aql.C65_unterminated_refuted",
    "Aql.C65_highlight_refuted",
    "Aql.C65_highlight_exact"
   ],
   "note": "Tree-or-error and the pieces marked are proved for all inputs; spans inside the input for non-empty input without unterminated strings or patterns, exact highlighting for ASCII texts. The general claims are false: the empty input gives start -1, `a:\"x` gives a span behind the input, and after a non-ASCII character the highlighted slice is shifted (proved)."
  },
  {
   "property": "C66",
   "status": "partial",
   "theorems": [
    "Aql.C66_word_found_partial",
    "Aql.C66_occurrence_refuted"
   ],
   "note": "False for arbitrary occurrences (witness); proved for every occurrence that stands on its own. What is extracted is given exactly by C34_network."
  },
  {
   "property": "C67",
   "status": "partial",
   "theorems": [
    "Aql.C67_cells_partial",
    "Aql.C67_cells_exact",
    "Aql.C67_colours",
    "Aql.C67_label_refuted",
    "Aql.C67_value_refuted"
   ],
   "note": "False when a field or value contains < or & (witnesses). C67_cells_exact: the label shows the right cells if and only if no field or value contains < or &."
  },
  {
   "property": "C68",
   "status": "partial",
   "theorems": [
    "Aql.C68_name_partial",
    "Aql.C68_name_refuted",
    "Aql.C68_name_exact"
   ],
   "note": "False for names and values whose printed form is no literal of the language (four witnesses). C68_name_exact: for exactly which comparisons it holds; of the floats, exactly those that are not whole numbers."
  },
  {
   "property": "C69",
   "status": "proved",
   "theorems": [
    "Aql.C69_trees_of_queries",
    "Aql.C69_every_string",
    "Aql.C69_no_subdoc",
    "Aql.C69_every_double"
   ],
   "note": "Both directions, from the grammar's soundness and completeness."
  },
  {
   "property": "C70",
   "status": "proved",
   "theorems": [
    "Aql.C70_set_is_or"
   ],
   "note": "From text to answer, through parser, validation, builder and matcher."
  },
  {
   "property": "C71",
   "status": "partial",
   "theorems": [
    "Aql.C71_bounds_partial",
    "Aql.C71_bounds_exact",
    "Aql.C71_bounds_refuted"
   ],
   "note": "Same answer for at most one scalar, implication always; false for several scalars and for the README's strict wording (witnesses). C71_bounds_exact says exactly which documents separate the two queries."
  },
  {
   "property": "C72",
   "status": "proved",
   "theorems": [
    "Aql.C72_same_scalars",
    "Aql.C72_matching_paths_reported"
   ],
   "note": "The leaf paths of the sampler are the paths to scalars of the matcher's specification."
  },
  {
   "property": "C73",
   "status": "partial",
   "theorems": [
    "Aql.C73_key_text_partial",
    "Aql.C73_key_text_exact",
    "Aql.C73_key_text_refuted"
   ],
   "note": "False for names with dots, colons, empty names and * (witnesses); C73_key_text_exact says for exactly which names the text works."
  },
  {
   "property": "C74",
   "status": "partial",
   "theorems": [
    "Aql.C74_first_last",
    "Aql.C74_white_space_refuted",
    "Aql.C74_bracketed_partial",
    "Aql.C74_accepted_exact"
   ],
   "note": "False for white space around the document (all paddings). C74_accepted_exact: an object or array with white space around it is accepted exactly if there is none and its content is accepted as in C46; the errors are characterised."
  },
  {
   "property": "C75",
   "status": "partial",
   "theorems": [
    "Aql.C75_quoted_exact_partial",
    "Aql.C75_paths_example_refuted",
    "Aql.C75_readme_examples_partial",
    "Aql.C75_usage"
   ],
   "note": "Exact condition for self-match from text to answer; the README's \"here!\" example is false of the code (proved for every environment), the others are proved."
  },
  {
   "property": "C76",
   "status": "proved",
   "theorems": [
    "Aql.C76_stats_text",
    "Aql.C76_stats_unique"
   ],
   "note": ""
  },
  {
   "property": "C77",
   "status": "partial",
   "theorems": [
    "Aql.C77_tree_exact",
    "Aql.C77_tree_partial",
    "Aql.C77_tree_format",
    "Aql.C77_tree_refuted"
   ],
   "note": "Refuted by three queries shown alike; the exact relation (same printed tree iff same up to AND/OR and values) is proved for all trees."
  },
  {
   "property": "C78",
   "status": "proved",
   "theorems": [
    "Aql.C78_rejected",
    "Aql.C78_answered",
    "Aql.C78_ends"
   ],
   "note": "Texts of operating system errors and flushing are not modelled; documents with plain paths for the answer (C19 gives the panics)."
  },
  {
   "property": "C79",
   "status": "proved",
   "theorems": [
    "Aql.C79_query_is_no_file",
    "Aql.C79_argument_exact"
   ],
   "note": ""
  },
  {
   "property": "C80",
   "status": "proved",
   "theorems": [
    "Aql.C80_writes",
    "Aql.C80_default",
    "Aql.C80_ends"
   ],
   "note": ""
  },
  {
   "property": "C81",
   "status": "partial",
   "theorems": [
    "Aql.C81_tree_or_messages",
    "Aql.C81_errors",
    "Aql.C81_tree_exact",
    "Aql.C81_empty",
    "Aql.C81_spans_inside",
    "Aql.C81_tree_refuted"
   ],
   "note": "All parts proved except that every accepted query has its tree shown, which is refuted; the exact condition is proved."
  },
  {
   "property": "C82",
   "status": "partial",
   "theorems": [
    "Aql.C82_shown_exact",
    "Aql.C82_warning_refuted",
    "Aql.C82_markup_refuted"
   ],
   "note": "Refuted by two queries; exact condition for all messages. The reading of markup (Spec/HtmlText) does not distinguish elements whose content is not markup."
  },
  {
   "property": "C83",
   "status": "proved",
   "theorems": [
    "Aql.C83_served_exact",
    "Aql.C83_confined",
    "Aql.C83_reachable"
   ],
   "note": ""
  },
  {
   "property": "C84",
   "status": "partial",
   "theorems": [
    "Aql.C84_title_exact",
    "Aql.C84_title_refuted"
   ],
   "note": "Refuted; exact condition for all queries."
  },
  {
   "property": "C85",
   "status": "proved",
   "theorems": [
    "Aql.C85_message_true",
    "Aql.C85_expected_exact"
   ],
   "note": ""
  },
  {
   "property": "C86",
   "status": "proved",
   "theorems": [
    "Aql.C86_expectations_complete",
    "Aql.C86_marked_character_wrong"
   ],
   "note": ""
  },
  {
   "property": "C87",
   "status": "proved",
   "theorems": [
    "Aql.C87_visitor_errors_returned"
   ],
   "note": ""
  },
  {
   "property": "C88",
   "status": "proved",
   "theorems": [
    "Aql.C88_messages_exact"
   ],
   "note": ""
  },
  {
   "property": "C89",
   "status": "proved",
   "theorems": [
    "Aql.C89_comparison_exact",
    "Aql.C89_complaint_iff",
    "Aql.C89_rejected"
   ],
   "note": ""
  },
  {
   "property": "C90",
   "status": "partial",
   "theorems": [
    "Aql.C90_text_before_error_completable_partial",
    "Aql.C90_text_before_error_completable_exact",
    "Aql.C90_text_before_error_completable_refuted"
   ],
   "note": "Refuted by a:2021-13. Exactly (C90_text_before_error_completable_exact): the text before the place of the error can be completed if and only if it does not end within something that has the shape of a time or a network but is none (Misshapen)."
  },
  {
   "property": "C91",
   "status": "partial",
   "theorems": [
    "Aql.C91_text_before_error_completable_partial",
    "Aql.C91_text_before_error_completable_refuted",
    "Aql.C91_exact",
    "Aql.C91_suggestion_fits"
   ],
   "note": "Proved for all texts and environments: the suggestion for an unknown word; and C91_exact: what comes before any error other than a missing match can be completed, and if it ends within a string or a pattern that is not closed, exactly if the string or the pattern can. As first written the claim is false for these (refuted: a:\"\\ud800)."
  },
  {
   "property": "C92",
   "status": "partial",
   "theorems": [
    "Aql.C92_report_partial",
    "Aql.C92_new_exact",
    "Aql.C92_report_refuted"
   ],
   "note": "Refuted for statistics made by NewFieldStats (one null is enough; C92_new_exact: they can be reported exactly if no value was marked); proved for all samples if the example lists are there."
  },
  {
   "property": "C93",
   "status": "partial",
   "theorems": [
    "Aql.C93_scalar_example",
    "Aql.C93_object_exact",
    "Aql.C93_object_partial",
    "Aql.C93_object_refuted"
   ],
   "note": "Strings and numbers proved; the claim about objects is refuted (eleven keys; keys unescaped twice), C93_object_exact says what is named."
  },
  {
   "property": "C94",
   "status": "partial",
   "theorems": [
    "Aql.C94_truthy_partial",
    "Aql.C94_truthy_exact",
    "Aql.C94_truthy_refuted"
   ],
   "note": "Refuted by FALSE, faL\u017fe and 1e-400; C94_truthy_exact gives the exact conditions."
  },
  {
   "property": "C95",
   "status": "proved",
   "theorems": [
    "Aql.C95_lists"
   ],
   "note": ""
  },
  {
   "property": "C96",
   "status": "partial",
   "theorems": [
    "Aql.C96_expectations_can_be_met_partial",
    "Aql.C96_expectations_can_be_met_exact",
    "Aql.C96_expectations_can_be_met_refuted"
   ],
   "note": "Refuted: after a:1.2.3.30, itself a query, the list names [0-9]. Exactly (C96_expectations_can_be_met_exact): a listed expectation can be met if and only if it is not that of a character within something that has the shape of a time or a network, with which no literal goes on (Misled). That every query meets one of the expectations is proved without exception."
  },
  {
   "property": "C97",
   "status": "partial",
   "theorems": [
    "Aql.C97_printed_alike_partial",
    "Aql.C97_pattern_refuted",
    "Aql.C97_star_refuted",
    "Aql.C97_alike_exact"
   ],
   "note": "Refuted for patterns with slash and comma and for the path *. C97_alike_exact: for all pairs of queries in whose patterns no slash comes before ), a comma or ], the exact relation between trees printed alike (the path * counts as the path of the empty name); C97_printed_alike_partial adds that they build the same matcher if no path is empty."
  },
  {
   "property": "C98",
   "status": "proved",
   "theorems": [
    "Aql.C98_message_text",
    "Aql.C98_error_text",
    "Aql.C98_matcher_messages",
    "Aql.C98_message_json",
    "Aql.C98_message_json_unique"
   ],
   "note": ""
  },
  {
   "property": "C99",
   "status": "partial",
   "theorems": [
    "Aql.C99_drawing_exact",
    "Aql.C99_drawn_alike_partial",
    "Aql.C99_drawing_refuted"
   ],
   "note": "Refuted for names with dots (a.b:1 and \"a.b\":1 are drawn alike, C99_drawing_refuted) and paths of nothing but *; proved for all others (C99_drawn_alike_partial), with C99_drawing_exact for all queries."
  },
  {
   "property": "C100",
   "status": "proved",
   "theorems": [
    "Aql.C100_document_text",
    "Aql.C100_query_text",
    "Aql.C100_fewest_digits",
    "Aql.C100_reads_back",
    "Aql.C100_same_text"
   ],
   "note": ""
  },
  {
   "property": "C101",
   "status": "partial",
   "theorems": [
    "Aql.C101_sampler",
    "Aql.C101_spelling_partial",
    "Aql.C101_numbers_and_names",
    "Aql.C101_string_exact",
    "Aql.C101_spelling_refuted"
   ],
   "note": "Refuted for strings that are numbers in one spelling only (a digit written as an escape); proved for numbers, names and all other strings (C101_spelling_partial, C101_numbers_and_names). C101_string_exact: exactly which respellings of a string no query can see."
  },
  {
   "property": "C102",
   "status": "partial",
   "theorems": [
    "Aql.C102_growth_partial",
    "Aql.C102_growth_refuted"
   ],
   "note": "False in general (C102_growth_refuted); proved for queries of one sign without null."
  },
  {
   "property": "C103",
   "status": "partial",
   "theorems": [
    "Aql.C103_nested",
    "Aql.C103_elements_partial",
    "Aql.C103_null",
    "Aql.C103_elements_exact",
    "Aql.C103_elements_refuted",
    "Aql.C103_sampler"
   ],
   "note": "Proved for objects, null and the sampler; for arrays false in general (C103_elements_refuted), proved for disjunctions and in one direction for queries of one sign; C103_elements_exact says for every query what it asks of the elements together."
  },
  {
   "property": "C104",
   "status": "proved",
   "theorems": [
    "Aql.C104_renaming",
    "Aql.C104_renaming_objects",
    "Aql.C104_merge_refuted"
   ],
   "note": ""
  },
  {
   "property": "C105",
   "status": "partial",
   "theorems": [
    "Aql.C105_satisfiable",
    "Aql.C105_empty",
    "Aql.C105_mixed_refuted"
   ],
   "note": "Proved for queries of even sign without null; false for mixed signs (C105_mixed_refuted), for which C107 gives the exact condition."
  },
  {
   "property": "C106",
   "status": "partial",
   "theorems": [
    "Aql.C106_comparison",
    "Aql.C106_query",
    "Aql.C106_no_contradiction",
    "Aql.C106_days_refuted"
   ],
   "note": "Exact for every single comparison, and for queries of even sign without null; ranges of days can be empty (C106_days_refuted)."
  },
  {
   "property": "C107",
   "status": "proved",
   "theorems": [
    "Aql.C107_conflicts",
    "Aql.C107_contradictions"
   ],
   "note": "Exact for all queries whose fields have a named segment, in environments where every name can be spelled."
  },
  {
   "property": "C108",
   "status": "proved",
   "theorems": [
    "Aql.C108_narrower",
    "Aql.C108_matches_all",
    "Aql.C108_independent",
    "Aql.C108_unrelated"
   ],
   "note": "Exact for all pairs of queries, as C107."
  },
  {
   "property": "C109",
   "status": "partial",
   "theorems": [
    "Aql.C109_same_calls",
    "Aql.C109_recovered",
    "Aql.C109_history",
    "Aql.C109_counts_refuted",
    "Aql.C109_life_exact"
   ],
   "note": "The state after any sequence of calls and resets, with errors and recovered panics, is exact (C109_life_exact); that thresholds still mean a part of the scanned documents is refuted (C109_counts_refuted)."
  },
  {
   "property": "C110",
   "status": "partial",
   "theorems": [
    "Aql.C110_wider",
    "Aql.C110_case",
    "Aql.C110_star",
    "Aql.C110_question",
    "Aql.C110_contains_partial",
    "Aql.C110_contains_refuted",
    "Aql.C110_contains_exact"
   ],
   "note": "Widening, case, `*` and `?` alone are exact for all ASCII literals; that `*x*` finds x anywhere is proved for x with word characters at both ends and refuted without (C110_contains_refuted); C110_contains_exact says for every x what `*x*` matches."
  },
  {
   "property": "C111",
   "status": "proved",
   "theorems": [
    "Aql.C111_normal_form"
   ],
   "note": "For all accepted queries, on documents with plain paths (on others Match may panic, C19)."
  },
  {
   "property": "C112",
   "status": "proved",
   "theorems": [
    "Aql.C112_same_answer",
    "Aql.C112_tree",
    "Aql.C112_values",
    "Aql.C112_search",
    "Aql.C112_exact",
    "Aql.C112_match_cost",
    "Aql.C112_product_needed"
   ],
   "note": "The count is of a second model of the matcher (Model/MatchCost), proved to give the same answers; one call of jsonparser.Get counts as reading the members up to the one found. The work of the regular expression library per character is not counted."
  },
  {
   "property": "C113",
   "status": "proved",
   "theorems": [
    "Aql.C113_same_result",
    "Aql.C113_reads",
    "Aql.C113_exact",
    "Aql.C113_keys",
    "Aql.C113_reads_needed",
    "Aql.C113_keys_not_linear"
   ],
   "note": "The counts are those of a second model of sample (Model/SamplerCost), proved to give the same results; one call of ObjectEach or ArrayEach counts as reading its value once."
  },
  {
   "property": "C114",
   "status": "partial",
   "theorems": [
    "Aql.C114_messages_exact",
    "Aql.C114_tree_iff",
    "Aql.C114_time_warned",
    "Aql.C114_time_advice_refuted",
    "Aql.C114_short_date_refuted",
    "Aql.C114_same_times_partial",
    "Aql.C114_fuzzy_advice_refuted"
   ],
   "note": "The tree and the exact messages are proved for all inputs. The last sentence is false: the warning on datetimes recommends ':~', which no datetime may be compared with (C114_time_advice_refuted), it is given for short dates, which match the whole day (C114_short_date_refuted), and the fuzzy match recommended for patterns is itself warned about by the matcher (C114_fuzzy_advice_refuted). C114_same_times_partial says for which datetimes matcher and page agree; that ':~' and ':' match the same documents, as the messages on '~' imply, is C22."
  },
  {
   "property": "C115",
   "status": "proved",
   "theorems": [
    "Aql.C115_every_query_has_a_depth",
    "Aql.C115_depth_cost",
    "Aql.C115_scanned_depth",
    "Aql.C115_any_text",
    "Aql.C115_depth_rate_exact",
    "Aql.C115_groups_in_a_row"
   ],
   "note": ""
  },
  {
   "property": "C116",
   "status": "proved",
   "theorems": [
    "Aql.C116_within_the_maximum",
    "Aql.C116_beyond_the_maximum",
    "Aql.C116_accepts_iff",
    "Aql.C116_never_more",
    "Aql.C116_safe_maximum",
    "Aql.C116_no_safe_maximum"
   ],
   "note": "The run time with the options is a second model (Model/Options), related to the first by a simulation. No caller in the repository passes the option, so this is about what a caller could rely on."
  },
  {
   "property": "C117",
   "status": "proved",
   "theorems": [
    "Aql.C117_linear",
    "Aql.C117_instead_of_exponential",
    "Aql.C117_maximum_not_reached"
   ],
   "note": "About the model with the table of results (Model/Options). That the outcome is the same as without the table is C121. No caller in the repository passes the option."
  },
  {
   "property": "C118",
   "status": "proved",
   "theorems": [
    "Aql.C118_pattern",
    "Aql.C118_plain_pattern",
    "Aql.C118_word"
   ],
   "note": "The library is a parameter: hypotheses say that it compiles the pattern (reOk) and takes it apart for the messages (reSyntax). A pattern beginning with (?i) of the small language that the string matchers use is matched by the model's own matcher, so C118_pattern excludes it and C118_word covers words."
  },
  {
   "property": "C119",
   "status": "proved",
   "theorems": [
    "Aql.C119_rejected",
    "Aql.C119_exact",
    "Aql.C119_disjoint",
    "Aql.C119_rest"
   ],
   "note": "Spec/Wrong says what is wrong with a clause without any notion of a parser; the specification of lists has one negative condition (a parenthesis that begins no list, right or wrong, is taken for a word). Line and column follow from the place (C119_rejected). The messages of the libraries inside the texts (compilation of patterns, dates, addresses) are parameters."
  },
  {
   "property": "C120",
   "status": "proved",
   "theorems": [
    "Aql.C120_portions",
    "Aql.C120_failed",
    "Aql.C120_endless",
    "Aql.C120_position"
   ],
   "note": ""
  },
  {
   "property": "C121",
   "status": "proved",
   "theorems": [
    "Aql.C121_same_outcome",
    "Aql.C121_any_options",
    "Aql.C121_linear_maximum",
    "Aql.C121_accepts_iff",
    "Aql.C121_safe_maximum",
    "Aql.C121_no_more_work",
    "Aql.C121_same_maximum"
   ],
   "note": "About the value or the first error, as everywhere in the model of the parser; errors recorded after the first one may be fewer with the table. No caller in the repository passes the options."
  },
  {
   "property": "C122",
   "status": "proved",
   "theorems": [
    "Aql.C122_default",
    "Aql.C122_panics_iff",
    "Aql.C122_queries_safe",
    "Aql.C122_no_match_safe",
    "Aql.C122_clean_safe",
    "Aql.C122_reported",
    "Aql.C122_message",
    "Aql.C122_recover_needed"
   ],
   "note": "With Memoize the part about queries and texts that get a list of what was expected is proved (C122_queries_safe, C122_clean_safe); for other texts the two runs are compared up to the first error only (C121). No caller in the repository passes the option."
  },
  {
   "property": "C123",
   "status": "proved",
   "theorems": [
    "Aql.C123_same_run",
    "Aql.C123_longest_chain",
    "Aql.C123_bounded",
    "Aql.C123_flat",
    "Aql.C123_parentheses",
    "Aql.C123_maximum",
    "Aql.C123_tree_height",
    "Aql.C123_rates",
    "Aql.C123_unbounded"
   ],
   "note": ""
  },
  {
   "property": "C124",
   "status": "proved",
   "theorems": [
    "Aql.C124_command",
    "Aql.C124_command_invalid",
    "Aql.C124_document",
    "Aql.C124_invalid",
    "Aql.C124_unique",
    "Aql.C124_reached",
    "Aql.C124_blanks",
    "Aql.C124_same_document",
    "Aql.C124_layout",
    "Aql.C124_size",
    "Aql.C124_match_cost",
    "Aql.C124_answer",
    "Aql.C124_too_deep"
   ],
   "note": ""
  },
  {
   "property": "C125",
   "status": "proved",
   "theorems": [
    "Aql.C125_accepted",
    "Aql.C125_refused",
    "Aql.C125_panics",
    "Aql.C125_lost",
    "Aql.C125_keys",
    "Aql.C125_typed_back",
    "Aql.C125_name_not_decoded",
    "Aql.C125_too_deep"
   ],
   "note": ""
  },
  {
   "property": "C126",
   "status": "proved",
   "theorems": [
    "Aql.C126_text",
    "Aql.C126_layouts",
    "Aql.C126_reader",
    "Aql.C126_match",
    "Aql.C126_stats",
    "Aql.C126_tree",
    "Aql.C126_message",
    "Aql.C126_fields"
   ],
   "note": ""
  },
  {
   "property": "C127",
   "status": "proved",
   "theorems": [
    "Aql.C127_exists",
    "Aql.C127_null",
    "Aql.C127_string",
    "Aql.C127_number",
    "Aql.C127_stats"
   ],
   "note": ""
  },
  {
   "property": "C128",
   "status": "partial",
   "theorems": [
    "Aql.C128_group",
    "Aql.C128_leading_partial",
    "Aql.C128_trailing_partial",
    "Aql.C128_leading_exact",
    "Aql.C128_trailing_exact",
    "Aql.C128_leading_given",
    "Aql.C128_trailing_given",
    "Aql.C128_trailing_missed",
    "Aql.C128_documents",
    "Aql.C128_refuted",
    "Aql.C128_text_refuted",
    "Aql.C128_lazy"
   ],
   "note": "Refuted: the test is for the first of two parts, whatever the operation, so /.*|b/ gets the hint about a leading .*, and following it changes what is found. C128_group, C128_leading_partial and C128_trailing_partial: proved for groups and for sequences. C128_leading_exact and C128_trailing_exact: for alternatives nothing changes exactly if in every text one of the others is found. C128_leading_given and C128_trailing_given: these are all the patterns that get the hints. C128_trailing_missed: behind a single part the hint on the parsed pattern is not given, though it could be followed. The hint on the text of the pattern (lines 33-35) looks at characters and not at the tree: C128_text_refuted, /a\\.*/ gets it and without it there is no query; for which texts it can be followed is not proved, except for .*? in C128_lazy."
  },
  {
   "property": "C129",
   "status": "partial",
   "theorems": [
    "Aql.C129_hint",
    "Aql.C129_pattern",
    "Aql.C129_strings",
    "Aql.C129_narrower_partial",
    "Aql.C129_both_partial",
    "Aql.C129_same",
    "Aql.C129_refuted"
   ],
   "note": "Refuted both ways: /one|two/ is found in phone and (\"one\", \"two\") is not; the strings hold of ONE and the pattern does not. C129_pattern and C129_strings say exactly what each accepts, C129_hint that the hint is given; C129_narrower_partial: where case makes no difference the strings accept nothing more; C129_both_partial: where a word stands by itself both accept. C129_same: the patterns that the strings do replace are (?i)\\bword\\b."
  }
 ]
}