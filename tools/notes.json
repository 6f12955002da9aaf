{
 "C12": {
  "note": "Exact decision: the validator accepts iff the separate typing rules hold."
 },
 "C13": {
  "status": "partial",
  "note": "The general claim is false of the code (negative number, then a datetime). C13_between_exact: exactly which operand pairs are accepted."
 },
 "C14": {
  "note": "Acceptance iff every comparison passes, and the first failing comparison in preorder is the one reported."
 },
 "C15": {
  "note": "Walk equals a run over the explicit preorder list, for every visitor."
 },
 "C16": {
  "status": "partial",
  "note": "The documented behaviour is false of the code: proved that no tape operation ever fails the parse."
 },
 "C18": {
  "note": "For every tree satisfying FromGrammar."
 },
 "C19": {
  "status": "partial",
  "note": "Refuted in general (field with only star segments); proved for queries whose fields have a named segment. C19_match_exact gives the exact condition on object documents (C19_match_exact_any on all documents, unless a field begins with an empty segment or `[`): Match panics iff left-to-right short-circuit evaluation reaches a comparison without a named segment. Missing: those fields on array documents, where the library's answer is a parameter."
 },
 "C57": {
  "note": "Exact list of hints per tree."
 },
 "C29": {
  "status": "partial",
  "note": "Exact integer equality is refuted (2^53+1 against 2^53). C29_integer_equality_exact says exactly when the two count as equal; true equality below 2^53."
 },
 "C32": {
  "status": "partial",
  "note": "Chronological order is refuted for instants outside the 64-bit nanosecond range; proved when all instants fit. C32_order_exact, C32_equal_exact and C32_between_exact give the exact result for all instants, C32_wrong_outside shows that every instant outside goes wrong with some operator."
 },
 "C36": {
  "status": "partial",
  "note": "Refuted in general (\"(food)\"); exact for ASCII literals with any wildcards none of which is escaped: the text equal to the literal matches iff the literal without its stars begins and ends with a word character (C36_self_match_exact without wildcards, C36_self_match_stars with any). If all wildcards are escaped, the text equal to the literal never matches (C36_escaped_never), the text that is meant exactly if it begins and ends with a word character (C36_meant_exact). Outside ASCII with wildcards it always matches (C36_self_match_unicode). Missing: literals with escaped and other wildcards together, and literals outside ASCII whose lower-case form is ASCII; outside ASCII without wildcards the library's search is a parameter. FoldsApart is a hypothesis about Unicode case folding."
 },
 "C35": {
  "note": "The Unicode variant assumes FoldsApart, a fact about Go's Unicode tables."
 },
 "C38": {
  "note": "Both the anywhere-in-the-document version (irrelevant names are no segment of any path) and the top-level version (name begins no path)."
 },
 "C42": {
  "status": "partial",
  "note": "Stored counters always satisfy it; the snapshot is refuted with a schedule; holds when no Match is in progress. C42_snapshot_exact gives the exact set of pairs Stats can show under concurrent Match calls."
 },
 "C43": {
  "status": "partial",
  "note": "Refuted: Children is always empty (C43_children_refuted), so Stats is complete exactly for single comparisons (C43_shown_exact, C43_single_comparison_partial). The counters kept for every part are exact (C43_counters_exact)."
 },
 "C41": {
  "note": "Small-step interleaving model; termination included (C41_progress)."
 },
 "C45": {
  "status": "partial",
  "note": "Refuted for every negative depth; proved exactly when a depth is no limit for given documents."
 },
 "C46": {
  "status": "partial",
  "note": "Refuted: an error inside a document poisons the sampler for good, also after Reset; rejected documents are harmless. C46_success_exact says when one call succeeds, C46_history_exact when a sampler is damaged after any sequence of calls."
 },
 "C47": {
  "status": "partial",
  "note": "Refuted for empty input and arrays with a scalar; C47_panics_exact: exactly which inputs panic while the sampler has its map (after an error it has none, see C46)."
 },
 "C48": {
  "status": "partial",
  "note": "Refuted with arrays; proved, in binary64 arithmetic, for documents without arrays, repeated keys and dots in keys, and exactly when the selection of a key is wrong."
 },
 "C50": {
  "note": "At the level of paths; the text level is part of the grammar properties."
 },
 "C51": {
  "note": "Also with truncation when the token is short enough. ASCII text before the token."
 },
 "C52": {
  "note": "Exact terminal output for ASCII text before the token, also truncated; refuted for non-ASCII (C52_bytes_refuted)."
 },
 "C53": {
  "status": "partial",
  "note": "Refuted for long tokens; C53_window_exact: exactly when the window is right."
 },
 "C55": {
  "status": "partial",
  "note": "Refuted for fewer than ten examples; C55_get_exact says what is returned in every case."
 },
 "C58": {
  "status": "partial",
  "note": "Refuted at the 1000th sample; C58_mark_exact: exactly which sequences panic."
 },
 "C01": {
  "note": "On arbitrary bytes. Depth is the fuel bound of the interpreter (64 per character), shown sufficient; no visitors."
 },
 "C02": {
  "note": "Completeness for the language of Spec/Grammar, unambiguity, and the tree as a function of white-space-free tokens (Spec/Layout)."
 },
 "C03": {
  "note": "Soundness for the language of Spec/Grammar."
 },
 "C04": {
  "note": "Values for every literal form, uniqueness of type and value, and exact acceptance conditions for integers, dates and dotted quads."
 },
 "C05": {
  "note": "Every comparison and value is tied to a piece of the text whose position it records."
 },
 "C06": {
  "status": "partial",
  "note": "Offset always in the text; C06_error_position_exact gives line and column in every case; the true line and column except at a newline, where the code reports column 0 of the next line: refuted with a witness."
 },
 "C07": {
  "note": "Against the UTF-8 encoder of Lean's library."
 },
 "C08": {
  "status": "partial",
  "note": "The claim is false of the code: proved that no polynomial bounds the evaluations, with the 4^n lower bound. Proved instead: at most 160000*(length+1)^3*4^(number of opening parentheses) evaluations, so cubic without parentheses; C08_rate_exact: with a polynomial beside it the factor per parenthesis can be b if and only if b is at least four."
 },
 "C09": {
  "note": "For every run of the parser, whatever is recorded first is reported; any recorded error rejects."
 },
 "C10": {
  "note": "Stated on texts through the grammar."
 },
 "C11": {
  "status": "partial",
  "note": "False for bodies with an escaped slash at either end or an escaped backslash at the end (witnesses). C11_source_exact: exact condition for all literals."
 },
 "C59": {
  "note": "End-to-end composition of the parser, validation, builder and matcher theorems on bytes."
 },
 "C60": {
  "note": "Equality of outcomes up to positions, hence of answers and counters on every document."
 },
 "C61": {
  "note": "Position singled out by the separate relation Spec.Blames, shown to be unique."
 },
 "C62": {
  "note": "Together with C57, which says which warnings there are."
 },
 "C63": {
  "note": "No restriction on the documents beyond both operands answering (not panicking)."
 },
 "C64": {
  "note": "Recorded errors and values of the grammar rules are typed; induction over interpreter runs."
 },
 "C65": {
  "status": "partial",
  "note": "Tree-or-error and the pieces marked are proved for all inputs; spans inside the input for non-empty input without unterminated strings or patterns, exact highlighting for ASCII texts. The general claims are false: the empty input gives start -1, `a:\"x` gives a span behind the input, and after a non-ASCII character the highlighted slice is shifted (proved)."
 },
 "C66": {
  "status": "partial",
  "note": "False for arbitrary occurrences (witness); proved for every occurrence that stands on its own. What is extracted is given exactly by C34_network."
 },
 "C67": {
  "status": "partial",
  "note": "False when a field or value contains < or & (witnesses). C67_cells_exact: the label shows the right cells if and only if no field or value contains < or &."
 },
 "C68": {
  "status": "partial",
  "note": "False for names and values whose printed form is no literal of the language (four witnesses). C68_name_exact: for exactly which comparisons it holds; of the floats, exactly those that are not whole numbers."
 },
 "C69": {
  "status": "proved",
  "note": "Both directions, from the grammar's soundness and completeness."
 },
 "C70": {
  "status": "proved",
  "note": "From text to answer, through parser, validation, builder and matcher."
 },
 "C71": {
  "status": "partial",
  "note": "Same answer for at most one scalar, implication always; false for several scalars and for the README's strict wording (witnesses). C71_bounds_exact says exactly which documents separate the two queries."
 },
 "C72": {
  "status": "proved",
  "note": "The leaf paths of the sampler are the paths to scalars of the matcher's specification."
 },
 "C73": {
  "status": "partial",
  "note": "False for names with dots, colons, empty names and * (witnesses); C73_key_text_exact says for exactly which names the text works."
 },
 "C74": {
  "status": "partial",
  "note": "False for white space around the document (all paddings). C74_accepted_exact: an object or array with white space around it is accepted exactly if there is none and its content is accepted as in C46; the errors are characterised."
 },
 "C75": {
  "status": "partial",
  "note": "Exact condition for self-match from text to answer; the README's \"here!\" example is false of the code (proved for every environment), the others are proved."
 },
 "C77": {
  "status": "partial",
  "note": "Refuted by three queries shown alike; the exact relation (same printed tree iff same up to AND/OR and values) is proved for all trees."
 },
 "C78": {
  "status": "proved",
  "note": "Texts of operating system errors and flushing are not modelled; documents with plain paths for the answer (C19 gives the panics)."
 },
 "C81": {
  "status": "partial",
  "note": "All parts proved except that every accepted query has its tree shown, which is refuted; the exact condition is proved."
 },
 "C82": {
  "status": "partial",
  "note": "Refuted by two queries; exact condition for all messages. The reading of markup (Spec/HtmlText) does not distinguish elements whose content is not markup."
 },
 "C84": {
  "status": "partial",
  "note": "Refuted; exact condition for all queries."
 },
 "C90": {
  "status": "partial",
  "note": "Refuted by a:2021-13. Exactly (C90_text_before_error_completable_exact): the text before the place of the error can be completed if and only if it does not end within something that has the shape of a time or a network but is none (Misshapen)."
 },
 "C91": {
  "status": "partial",
  "note": "Proved for all texts and environments: the suggestion for an unknown word; and C91_exact: what comes before any error other than a missing match can be completed, and if it ends within a string or a pattern that is not closed, exactly if the string or the pattern can. As first written the claim is false for these (refuted: a:\"\\ud800)."
 },
 "C92": {
  "status": "partial",
  "note": "Refuted for statistics made by NewFieldStats (one null is enough; C92_new_exact: they can be reported exactly if no value was marked); proved for all samples if the example lists are there."
 },
 "C93": {
  "status": "partial",
  "note": "Strings and numbers proved; the claim about objects is refuted (eleven keys; keys unescaped twice), C93_object_exact says what is named."
 },
 "C94": {
  "status": "partial",
  "note": "Refuted by FALSE, faLſe and 1e-400; C94_truthy_exact gives the exact conditions."
 },
 "C96": {
  "status": "partial",
  "note": "Refuted: after a:1.2.3.30, itself a query, the list names [0-9]. Exactly (C96_expectations_can_be_met_exact): a listed expectation can be met if and only if it is not that of a character within something that has the shape of a time or a network, with which no literal goes on (Misled). That every query meets one of the expectations is proved without exception."
 },
 "C97": {
  "status": "partial",
  "note": "Refuted for patterns with slash and comma and for the path *. C97_alike_exact: for all pairs of queries in whose patterns no slash comes before ), a comma or ], the exact relation between trees printed alike (the path * counts as the path of the empty name); C97_printed_alike_partial adds that they build the same matcher if no path is empty."
 },
 "C99": {
  "status": "partial",
  "note": "Refuted for names with dots (a.b:1 and \"a.b\":1 are drawn alike, C99_drawing_refuted) and paths of nothing but *; proved for all others (C99_drawn_alike_partial), with C99_drawing_exact for all queries."
 },
 "C101": {
  "status": "partial",
  "note": "Refuted for strings that are numbers in one spelling only (a digit written as an escape); proved for numbers, names and all other strings (C101_spelling_partial, C101_numbers_and_names). C101_string_exact: exactly which respellings of a string no query can see."
 },
 "C102": {
  "status": "partial",
  "note": "False in general (C102_growth_refuted); proved for queries of one sign without null."
 },
 "C103": {
  "status": "partial",
  "note": "Proved for objects, null and the sampler; for arrays false in general (C103_elements_refuted), proved for disjunctions and in one direction for queries of one sign; C103_elements_exact says for every query what it asks of the elements together."
 },
 "C105": {
  "status": "partial",
  "note": "Proved for queries of even sign without null; false for mixed signs (C105_mixed_refuted), for which C107 gives the exact condition."
 },
 "C106": {
  "status": "partial",
  "note": "Exact for every single comparison, and for queries of even sign without null; ranges of days can be empty (C106_days_refuted)."
 },
 "C107": {
  "note": "Exact for all queries whose fields have a named segment, in environments where every name can be spelled."
 },
 "C108": {
  "note": "Exact for all pairs of queries, as C107."
 },
 "C109": {
  "status": "partial",
  "note": "The state after any sequence of calls and resets, with errors and recovered panics, is exact (C109_life_exact); that thresholds still mean a part of the scanned documents is refuted (C109_counts_refuted)."
 },
 "C110": {
  "status": "partial",
  "note": "Widening, case, `*` and `?` alone are exact for all ASCII literals; that `*x*` finds x anywhere is proved for x with word characters at both ends and refuted without (C110_contains_refuted); C110_contains_exact says for every x what `*x*` matches."
 },
 "C111": {
  "note": "For all accepted queries, on documents with plain paths (on others Match may panic, C19)."
 },
 "C112": {
  "note": "The count is of a second model of the matcher (Model/MatchCost), proved to give the same answers; one call of jsonparser.Get counts as reading the members up to the one found. The work of the regular expression library per character is not counted."
 },
 "C113": {
  "note": "The counts are those of a second model of sample (Model/SamplerCost), proved to give the same results; one call of ObjectEach or ArrayEach counts as reading its value once."
 },
 "C114": {
  "status": "partial",
  "note": "The tree and the exact messages are proved for all inputs. The last sentence is false: the warning on datetimes recommends ':~', which no datetime may be compared with (C114_time_advice_refuted), it is given for short dates, which match the whole day (C114_short_date_refuted), and the fuzzy match recommended for patterns is itself warned about by the matcher (C114_fuzzy_advice_refuted). C114_same_times_partial says for which datetimes matcher and page agree; that ':~' and ':' match the same documents, as the messages on '~' imply, is C22."
 },
 "C116": {
  "note": "The run time with the options is a second model (Model/Options), related to the first by a simulation. No caller in the repository passes the option, so this is about what a caller could rely on."
 },
 "C117": {
  "note": "About the model with the table of results (Model/Options). That the outcome is the same as without the table is C121. No caller in the repository passes the option."
 },
 "C118": {
  "note": "The library is a parameter: hypotheses say that it compiles the pattern (reOk) and takes it apart for the messages (reSyntax). A pattern beginning with (?i) of the small language that the string matchers use is matched by the model's own matcher, so C118_pattern excludes it and C118_word covers words."
 },
 "C119": {
  "note": "Spec/Wrong says what is wrong with a clause without any notion of a parser; the specification of lists has one negative condition (a parenthesis that begins no list, right or wrong, is taken for a word). Line and column follow from the place (C119_rejected). The messages of the libraries inside the texts (compilation of patterns, dates, addresses) are parameters."
 },
 "C121": {
  "note": "About the value or the first error, as everywhere in the model of the parser; errors recorded after the first one may be fewer with the table. No caller in the repository passes the options."
 },
 "C122": {
  "note": "With Memoize the part about queries and texts that get a list of what was expected is proved (C122_queries_safe, C122_clean_safe); for other texts the two runs are compared up to the first error only (C121). No caller in the repository passes the option."
 },
 "C128": {
  "status": "partial",
  "note": "Refuted: the test is for the first of two parts, whatever the operation, so /.*|b/ gets the hint about a leading .*, and following it changes what is found. C128_group, C128_leading_partial and C128_trailing_partial: proved for groups and for sequences. C128_leading_exact and C128_trailing_exact: for alternatives nothing changes exactly if in every text one of the others is found. C128_leading_given and C128_trailing_given: these are all the patterns that get the hints. C128_trailing_missed: behind a single part the hint on the parsed pattern is not given, though it could be followed. The hint on the text of the pattern (lines 33-35) looks at characters and not at the tree: C128_text_refuted, /a\\.*/ gets it and without it there is no query; for which texts it can be followed is not proved, except for .*? in C128_lazy."
 },
 "C129": {
  "status": "partial",
  "note": "Refuted both ways: /one|two/ is found in phone and (\"one\", \"two\") is not; the strings hold of ONE and the pattern does not. C129_pattern and C129_strings say exactly what each accepts, C129_hint that the hint is given; C129_narrower_partial: where case makes no difference the strings accept nothing more; C129_both_partial: where a word stands by itself both accept. C129_same: the patterns that the strings do replace are (?i)\\bword\\b."
 }
}