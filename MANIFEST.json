{
 "claims": [
  {
   "property": "C01",
   "status": "proved",
   "theorems": [
    "C01_history",
    "C01_setPos",
    "C01_only_setPos_panics"
   ],
   "note": "Every history of calls with recovered panics, any bytes."
  },
  {
   "property": "C02",
   "status": "proved",
   "theorems": [
    "C02_line_col"
   ],
   "note": "Any bytes, any offset inside the text."
  },
  {
   "property": "C03",
   "status": "proved",
   "theorems": [
    "C03_matchString"
   ],
   "note": ""
  },
  {
   "property": "C04",
   "status": "proved",
   "theorems": [
    "C04_matchRune",
    "C04_matchRune_utf8"
   ],
   "note": "Any bytes; second theorem restates it on code points."
  },
  {
   "property": "C05",
   "status": "proved",
   "theorems": [
    "C05_matchRegexp"
   ],
   "note": "The regular expression engine is a parameter with FindStringIndex bounds; C88 models the one of Go."
  },
  {
   "property": "C06",
   "status": "partial",
   "theorems": [
    "C06_getUntil_found",
    "C06_getUntil_absent",
    "C06_getUntil_absent_moves"
   ],
   "note": "Found case proved. The documented not-found behaviour is violated: exact behaviour and a counterexample are proved."
  },
  {
   "property": "C07",
   "status": "partial",
   "theorems": [
    "C07_peek_forward",
    "C07_peek_backward",
    "C07_peek_forward_total",
    "C07_peek_backward_replacement_char_panics"
   ],
   "note": "Forward proved for all valid UTF-8; backward needs no U+FFFD before the cursor, with it the call panics (counterexample proved)."
  },
  {
   "property": "C08",
   "status": "partial",
   "theorems": [
    "C08_peekLines_partial",
    "C08_peekLines_outside_panics",
    "C08_peekLines_before_first_is_wrong",
    "C08_peekLines_no_argument",
    "C08_tokens"
   ],
   "note": "Proved when the requested range meets the text; outside it the code panics or returns a wrong piece (proved)."
  },
  {
   "property": "C13",
   "status": "proved",
   "theorems": [
    "C13_bisect_boundary",
    "C13_bisect_count",
    "C13_insort",
    "C13_insort_position"
   ],
   "note": ""
  },
  {
   "property": "C14",
   "status": "proved",
   "theorems": [
    "C14_sliceString_js"
   ],
   "note": ""
  },
  {
   "property": "C15",
   "status": "proved",
   "theorems": [
    "C15_unescape_escape",
    "C15_escape_injective",
    "C15_escape_no_control"
   ],
   "note": ""
  },
  {
   "property": "C16",
   "status": "proved",
   "theorems": [
    "C16_lastNRunes",
    "C16_lastNRunesReversed",
    "C16_lastNRunes_ok_iff",
    "C16_lastNRunes_malformed_panics"
   ],
   "note": ""
  },
  {
   "property": "C17",
   "status": "partial",
   "theorems": [
    "C17_lazy_once",
    "C17_lazy_set",
    "C17_lazy_no_panic_partial",
    "C17_get_after_clear_panics"
   ],
   "note": "At most once, stability and override proved for all histories; Get after Clear crashes (counterexample proved)."
  },
  {
   "property": "C49",
   "status": "proved",
   "theorems": [
    "C49_pad",
    "C49_indent"
   ],
   "note": ""
  },
  {
   "property": "C25",
   "status": "partial",
   "theorems": [
    "C25_terminates_partial",
    "C25_nullable_repetition_diverges"
   ],
   "note": "Every guarded grammar terminates on every input (left recursion included). A repetition over something that can match nothing does not terminate (proved)."
  },
  {
   "property": "C26",
   "status": "proved",
   "theorems": [
    "C26_no_internal_panic",
    "C26_no_internal_panic_trees"
   ],
   "note": "Panics are only the documented ones: undefined reference, too deep a stack, callbacks, merge of unsuitable values, rendering."
  },
  {
   "property": "C27",
   "status": "proved",
   "theorems": [
    "C27_every_call_balanced",
    "C27_final_state"
   ],
   "note": "Each engine call checked at run time in the instrumented engine, which is proved equal to the engine."
  },
  {
   "property": "C28",
   "status": "proved",
   "theorems": [
    "C28_not",
    "C28_lookahead"
   ],
   "note": "For every node, state and callback-free predicate. A lookahead returns its operand's value (README says NativeUndefined)."
  },
  {
   "property": "C29",
   "status": "proved",
   "theorems": [
    "C29_choice"
   ],
   "note": ""
  },
  {
   "property": "C30",
   "status": "proved",
   "theorems": [
    "C30_sequence_matches",
    "C30_array",
    "C30_single",
    "C30_object",
    "C30_object_merge",
    "C30_merge_into_parser",
    "C30_label_left_to_sequence",
    "C30_label_elsewhere"
   ],
   "note": "For each representation; how the representation is computed from the rule texts is C53."
  },
  {
   "property": "C31",
   "status": "partial",
   "theorems": [
    "C31_repetition_partial",
    "C31_max_one_matches_two"
   ],
   "note": "Bounds proved with an effective maximum of at least 2; a maximum of 0 or 1 lets two through (proved)."
  },
  {
   "property": "C32",
   "status": "proved",
   "theorems": [
    "C32_optional"
   ],
   "note": ""
  },
  {
   "property": "C33",
   "status": "proved",
   "theorems": [
    "C33_seed_grows"
   ],
   "note": ""
  },
  {
   "property": "C35",
   "status": "partial",
   "theorems": [
    "C35_value_iff",
    "C35_error_iff_partial",
    "C35_nil_only_for_empty",
    "C35_empty_input_nil"
   ],
   "note": "A failing parse of an empty text returns nil (proved); otherwise value iff matched to the end."
  },
  {
   "property": "C36",
   "status": "proved",
   "theorems": [
    "C36_error_position",
    "C36_report_never_panics"
   ],
   "note": ""
  },
  {
   "property": "C37",
   "status": "partial",
   "theorems": [
    "C37_trace_restored_partial",
    "C37_history_independent_partial",
    "C37_trace_not_restored"
   ],
   "note": "With Debug, a panicking callback leaves the trace option set (proved)."
  },
  {
   "property": "C22",
   "status": "proved",
   "theorems": [
    "C22_engine_computes_peg",
    "C22_peg_or_stack_overflow",
    "C22_every_text"
   ],
   "note": "Refinement to big-step PEG rules stated as an inductive relation (Spec/Means.lean); rule nesting up to the 1024 frames of the stack, beyond it the same or a stack overflow. Callbacks pure, no tracing."
  },
  {
   "property": "C23",
   "status": "proved",
   "theorems": [
    "C23_cache_invisible"
   ],
   "note": "For every subset of rules skipping the cache."
  },
  {
   "property": "C24",
   "status": "proved",
   "theorems": [
    "C24_callback_once"
   ],
   "note": ""
  },
  {
   "property": "C45",
   "status": "partial",
   "theorems": [
    "C45_reached_panics",
    "C45_unreached_unaffected",
    "C45_only_undefined",
    "C45_spliced_in_optional_panics",
    "C45_unreached_panics"
   ],
   "note": "Proved for parses. Building a grammar can already panic, for a reference labelled @ in an optional, reached or not. The second holds for left recursive grammars, any callbacks and options too."
  },
  {
   "property": "C34",
   "status": "proved",
   "theorems": [
    "C34_left_associative",
    "C34_engine_computes_growth",
    "C34_growth_extends_peg",
    "C34_engine_computes_growth_ranks",
    "C34_ranks_extend_growth"
   ],
   "note": "Any operators and operands (they may contain the rule itself further right), any number of them. Also refinement of the whole engine to PEG with seed growing for direct left recursion. The same for left recursion through private rules, those called by a single rule where it begins, such as the alternatives of a rank. Left recursion through rules called from several places is outside the reference semantics; there the engine's answers depend on what is in the memo table (C48_stale_entry, C48_leftover_entry)."
  },
  {
   "property": "C48",
   "status": "partial",
   "theorems": [
    "C48_direct_partial",
    "C48_stale_entry",
    "C48_leftover_entry"
   ],
   "note": "Proved for direct left recursion; false when the recursion goes through other rules: two counterexamples, a missed parse and a spurious one."
  },
  {
   "property": "C39",
   "status": "partial",
   "theorems": [
    "C39_tracing_partial",
    "C39_tracing_invisible_partial",
    "C39_malformed_text_panics",
    "C39_skipCache_panics",
    "C39_loop_filter_panics"
   ],
   "note": "Traced and untraced parses agree on outcome, values and callbacks unless the tracing code panics; exactly when it can is proved, with a counterexample for each case. No panic for ASCII text, no SkipCache rule, no FilterLine with Loop."
  },
  {
   "property": "C50",
   "status": "partial",
   "theorems": [
    "C50_options_partial",
    "C50_options_untraced",
    "C50_skipCache_ignored"
   ],
   "note": "Options never change the outcome, except that Debug can make the tracing code panic (C39). SkipCache given to the call has no effect at all."
  },
  {
   "property": "C09",
   "status": "partial",
   "theorems": [
    "C09_position_partial",
    "C09_line_col",
    "C09_last_token",
    "C09_last_token_outside_text",
    "C09_inserted_space",
    "C09_no_tokens"
   ],
   "note": "True for every token but the last of two or more, where the offset is too large by the length of the previous token (proved for all streams, with a concrete witness). Tokens with an inserted space are off by one (witness)."
  },
  {
   "property": "C10",
   "status": "proved",
   "theorems": [
    "C10_contiguous",
    "C10_texts"
   ],
   "note": "For every scanner output; also which tokens get a space and that words are never glued together."
  },
  {
   "property": "C11",
   "status": "partial",
   "theorems": [
    "C11_first_call_partial",
    "C11_history_partial",
    "C11_scan_errors_ignored",
    "C11_later_call_panics",
    "C11_history_dependent"
   ],
   "note": "The scanner is a parameter. The claim is false: errors after the first character are dropped, and an error in the first character panics after any earlier error (both proved in general)."
  },
  {
   "property": "C12",
   "status": "proved",
   "theorems": [
    "C12_tokens_equal_text",
    "C12_same_matching",
    "C12_report_never_panics"
   ],
   "note": "For values that do not record line numbers, contiguous tokens with non negative offsets, no tracing."
  },
  {
   "property": "C38",
   "status": "partial",
   "theorems": [
    "C38_reparse_after_rewind_partial",
    "C38_second_parse_starts_at_end",
    "C38_second_parse_after_error",
    "C38_second_parse_differs"
   ],
   "note": "True after SetPos(0); otherwise the second parse starts at the end (proved, with witness)."
  },
  {
   "property": "C18",
   "status": "proved",
   "theorems": [
    "C18_get",
    "C18_exists",
    "C18_keys",
    "C18_history",
    "C18_getOrPanic",
    "C18_whichever",
    "C18_isUndefined"
   ],
   "note": "any history of Set calls on any map given to NewNativeMap; the caller changing that Go map afterwards, or the slice returned by Keys, is not modelled"
  },
  {
   "property": "C19",
   "status": "partial",
   "theorems": [
    "C19_isEmpty_inverted"
   ],
   "note": "the property is false: IsEmpty is true exactly when the map has an entry; the theorem states what the code does, for every history"
  },
  {
   "property": "C20",
   "status": "partial",
   "theorems": [
    "C20_array_partial",
    "C20_map_partial",
    "C20_panics_iff",
    "C20_map_in_array"
   ],
   "note": "false for a map inside an array: NativeArray.Concat then writes NativeMap.String(); proved otherwise, with the exact condition of the panic"
  },
  {
   "property": "C21",
   "status": "proved",
   "theorems": [
    "C21_round_trip",
    "C21_accepts",
    "C21_array",
    "C21_injective",
    "C21_getIntExists"
   ],
   "note": "strconv.Itoa and Atoi are modelled by their documented meaning on 64 bit"
  },
  {
   "property": "C40",
   "status": "partial",
   "theorems": [
    "C40_short_text_partial",
    "C40_deep_nesting_panics",
    "C40_limit"
   ],
   "note": "false as stated: nesting of 1024 rule frames panics (proved, with the exact limit of a sample grammar); a text with (length+1)*rules at most 1024 never overflows"
  },
  {
   "property": "C46",
   "status": "partial",
   "theorems": [
    "C46_accepts",
    "C46_every_value",
    "C46_left_to_right",
    "C46_default_ignored",
    "C46_default_not_used",
    "C46_default_options_muted"
   ],
   "note": "reading of TRACE proved for every value; the last part is false: TraceOptionsFromEnvironmentOrUse ignores its argument and gives the muted options"
  },
  {
   "property": "C41",
   "status": "partial",
   "theorems": [
    "C41_just_a_value",
    "C41_start_rules_partial",
    "C41_error_dropped",
    "C41_error_inside"
   ],
   "note": "False as stated: the engine never looks whether a callback's value is a ParseError. C41_just_a_value proves, for all grammars, texts and callbacks, that replacing every ParseError by a node of another type replaces it in the answer and changes nothing else. Witnesses where ParseString returns an ordinary value. The claim holds for callbacks of the start rules (C41_start_rules_partial, for texts with a PEG meaning)."
  },
  {
   "property": "C42",
   "status": "partial",
   "theorems": [
    "C42_values_keep_content_partial",
    "C42_same_as_immutable_partial",
    "C42_cached_value_changes",
    "C42_merge_extends_in_place",
    "C42_merge_into_nothing",
    "C42_cached_value_extended",
    "C42_rule_text_values_partial",
    "C42_rule_text_left_recursion_partial",
    "C42_or_stack_overflow",
    "C42_spliced_missing"
   ],
   "note": "With maps as mutable cells of a store. For grammars in which no sequence uses the label &, nor @ (or an optional group with labels) before a label of its own, and callbacks that do not change the maps they are given: every value keeps its content during any parse, the memo table included, and the outcome is that of immutable values. For such grammars written as rule texts the value read out of the maps is the one of C53 and C57. False with a leading @ or with &: witness in which a failed alternative changes the cached result that the next alternative returns. Origins are not stored in values in this model."
  },
  {
   "property": "C43",
   "status": "partial",
   "theorems": [
    "C43_walk_order",
    "C43_ids_dense_partial",
    "C43_duplicate_name",
    "C43_duplicate_name_panics",
    "C43_single_alternative_label",
    "C43_single_alternative_rule_lost",
    "built_of_lines"
   ],
   "note": "Rules are numbered in walk order for all lines; dense and unique ids unless a rank includes a name twice, for which it is false (witnesses). Rule texts compile to plain parsers (no single-alternative choices)."
  },
  {
   "property": "C44",
   "status": "proved",
   "theorems": [
    "C44_names",
    "C44_anonymous_different"
   ],
   "note": "Any rank, top or nested, of any lines whose parsers are plain."
  },
  {
   "property": "C47",
   "status": "partial",
   "theorems": [
    "C47_rule_text_compiles_partial",
    "C47_or_stack_overflow",
    "C47_unambiguous",
    "C47_every_text",
    "C47_tracing",
    "C47_code_panics",
    "C47_empty_panics"
   ],
   "note": "The grammar of joeson_handcompiled.go is built by the model of line.go and every text of the syntax (strings, regexes, classes, references with parameters, groups, labels, all decorations, ranges, sequences, choices, blanks) compiles to the parser it denotes if nested at most 72 deep; deeper texts do or exhaust the rule stack. Trees with the same text denote the same parser. Compiling any text whatsoever ends with one outcome. Items may be written against each other where they do not run together ([1-9][0-9]*). Compiling ASCII texts does not depend on tracing (C47_tracing). False for code after a group and for the empty text (witnesses)."
  },
  {
   "property": "C51",
   "status": "partial",
   "theorems": [
    "C51_rule_text_grammar_partial",
    "C51_grammar_parses_partial",
    "C51_outcome_unique",
    "C51_or_stack_overflow"
   ],
   "note": "End to end: lines with rule texts are compiled by the modelled grammar of rule texts, linked, and ParseString recognises the language of the parsing expressions (spec without positions, memo tables or rule numbers). Nested ranks, named and unnamed alternatives, included rules, callbacks that accept, labels. C51_or_stack_overflow has texts nested to any depth and any tracing: building then may exhaust the rule stack (not if nested at most 72 deep), and the tracing code may panic as said in C39. Restrictions: what @:name merges is a rule that is one text with labels, not (through such merges) itself, and not inside something optional (there building panics or loops: C45), names distinct and without '[', no left recursion (the specification has no outcome for it). Other possible outcomes, stated: stack overflow if rules nest deeper than 1024, and a panic of the map operations if labels are used."
  },
  {
   "property": "C52",
   "status": "partial",
   "theorems": [
    "C52_bootstrap_partial",
    "C52_short_texts",
    "C52_same_grammars"
   ],
   "note": "The lines of joeson_intention.go are compiled by the grammar of joeson_handcompiled.go to a grammar that compiles every text to the same outcome, builds the same grammars from any lines, and rebuilds itself. Exception, stated: texts for which one of the two exhausts the rule stack (none up to 28 bytes, none of the supported syntax nested at most 72 deep). The three regular expressions of the grammar are automata of the model (hypothesis RxJoeson on the regexp compiler)."
  },
  {
   "property": "C53",
   "status": "partial",
   "theorems": [
    "C53_rule_text_values_partial",
    "C53_values_seen_partial",
    "C53_traced_partial",
    "C53_grammar_values_partial",
    "C53_value_unique",
    "C53_or_stack_overflow"
   ],
   "note": "End to end like C51, with the exact value: compiled by the modelled grammar of rule texts, labels and captures and types of sequences computed by the modelled passes of postinit, memoised parse; callbacks may transform, reject or panic. Specification (Spec/Values) on the texts only. With any tracing and options if the rule texts are ASCII (C53_traced_partial: or the tracing code panics, as said in C39). C53_or_stack_overflow has all of it at once: texts nested to any depth, any tracing, values of any representation (with origins and stores), or building exhausts the rule stack. Other restrictions as in C51."
  },
  {
   "property": "C54",
   "status": "partial",
   "theorems": [
    "C54_unlabelled_sequence_partial",
    "C54_labelled_sequence_partial",
    "C54_optional_partial",
    "C54_group_label_is_lost",
    "C54_group_of_strings_is_captured",
    "C54_single_group_is_wrapped",
    "C54_optional_group_is_wrapped",
    "C54_choice_with_string_not_captured",
    "C54_any_sequence",
    "C54_merged_rules"
   ],
   "note": "The value of any sequence, with groups and merged rules, is determined (C54_any_sequence); what the property says of it is proved for sequences none of whose elements is a parenthesised sequence (or an optional one). False with groups: five witnesses, each a grammar of rule texts evaluated through the modelled library."
  },
  {
   "property": "C55",
   "status": "partial",
   "theorems": [
    "C55_stripAnsi_partial",
    "C55_colours",
    "C55_stripAnsi_plain",
    "C55_stripAnsi_again",
    "C55_stripAnsi_bell",
    "C55_stripAnsi_escape",
    "C55_source"
   ],
   "note": "The regular expression is matched by a backtracking matcher in the preference order of Go's regexp; C55_source: what is matched is what the expression text of the source compiles to (model of regexp of C88). Proved for all texts without ESC, U+009B and BEL; false for texts with them (witnesses)."
  },
  {
   "property": "C56",
   "status": "partial",
   "theorems": [
    "C56_print_compiles_partial",
    "C56_or_stack_overflow",
    "C56_print_injective",
    "C56_regex",
    "C56_quote",
    "C56_newline",
    "C56_label",
    "C56_operators",
    "C56_ambiguous",
    "C56_regex_text",
    "C56_regex_escaped_newline"
   ],
   "note": "Round trip through String, StripAnsi and the modelled grammar of rule texts, for parsers without regular expressions, whose strings have no quotes and control characters, and whose operands have neither label nor operator; nested at most 72 deep (deeper: or stack overflow). False for each of the excluded kinds (witnesses)."
  },
  {
   "property": "C57",
   "status": "partial",
   "theorems": [
    "C57_rule_text_left_recursion_partial",
    "C57_values_seen_partial",
    "C57_traced_partial",
    "C57_grammar_left_recursion_partial",
    "C57_value_unique",
    "C57_minus_is_left_associative",
    "C57_minus_longest",
    "C57_minus_only",
    "C57_or_stack_overflow"
   ],
   "note": "End to end like C53 for rules that call themselves at the place where they began, directly or through the alternatives of nested ranks that no text mentions by name (through another rule that is mentioned: C76). Left associativity of E '-' N | N proved for texts of any length. With any tracing: C57_traced_partial. Restrictions as in C53."
  },
  {
   "property": "C58",
   "status": "proved",
   "theorems": [
    "C58_last_option_counts",
    "C58_inner_options_lost",
    "C58_options_of_ranks_dropped",
    "C58_two_names_panic",
    "C58_include_needs_name"
   ],
   "note": "Options folded as in lineInit, and followed through getRule into the rule. SkipLog is read by nothing modelled. Options that make lineInit exit (a string or a list of lines as second argument) are not representable in the model's type of options."
  },
  {
   "property": "C59",
   "status": "proved",
   "theorems": [
    "C59_calculates",
    "C59_only_expressions",
    "C59_unambiguous",
    "C59_exact"
   ],
   "note": "Both directions, end to end from the rule texts through the modelled compiler, engine and callbacks. Up to 340 nested (resp. opening) parentheses, where the stack of 1024 frames suffices. Regexps enter as hypotheses on what they find, which C88 proves for a model of Go's regexp. Values of type int with 64 bits."
  },
  {
   "property": "C60",
   "status": "partial",
   "theorems": [
    "C60_origins_invisible",
    "C53_values_seen_partial",
    "C57_values_seen_partial",
    "C60_origin_of_failed_attempt"
   ],
   "note": "The second part is proved, for all grammars, texts, options and callbacks whose results do not depend on origins; and C53 and C57 hold for any representation of values, with stores and stateful callbacks. The first part is false: an attempt that fails later leaves its origin in a value that is remembered and returned (witness)."
  },
  {
   "property": "C61",
   "status": "partial",
   "theorems": [
    "C61_same_values",
    "C61_alternatives_as_lines_partial",
    "C61_precedence_same",
    "C61_unused_names",
    "C61_order",
    "C61_layout",
    "C61_readme_entry_rule",
    "C61_rejecting_callback_differs",
    "C61_or_stack_overflow"
   ],
   "note": "C61_same_values: the same meaning, in both directions, by induction over derivations. Lifted to the built grammars with C57, so with its restrictions. The pair of the example is an instance; so is every renaming of alternatives that are not mentioned, such as INPUT in README (C61_unused_names), every reordering of included rules (C61_order), every other layout of the texts (C61_layout). For a rejecting callback a counterexample. C61_or_stack_overflow: the same for texts nested to any depth, with any tracing, options and representation of values; a too deep nesting panics."
  },
  {
   "property": "C62",
   "status": "proved",
   "theorems": [
    "C62_left_associative",
    "C62_right_associative",
    "C62_nested_differently",
    "C62_left_longest",
    "C62_left_only",
    "C62_right_longest",
    "C62_right_only"
   ],
   "note": "End to end from the rule texts of the example through the modelled compiler, engine (growing included) and growMoss. Regexps enter as hypotheses on what they find."
  },
  {
   "property": "C63",
   "status": "proved",
   "theorems": [
    "C63_games",
    "C63_games5",
    "C63_games1",
    "C63_panics",
    "C63_one_never_panics",
    "C63_errors",
    "C63_well_formed",
    "C63_by_id",
    "C63_by_title",
    "C63_by_year",
    "C63_first_digit",
    "C63_readme_differs"
   ],
   "note": "Proved for the grammars as written, every database and every text, also texts that are no UTF-8: which texts give a game and which one, which panic, and that all others are parse errors. README presents example 1 as the same grammar, which is false for numbers: it looks up the first digit (witness 12 in C63_readme_differs)."
  },
  {
   "property": "C64",
   "status": "proved",
   "theorems": [
    "C64_repeats",
    "C64_nothing_else",
    "C64_readme_wrong",
    "C64_max_one"
   ],
   "note": "For the library end to end: the rule text is compiled by the modelled grammar of rule texts. What README says otherwise is disproved (C64_readme_wrong), and so is a maximum of one (C64_max_one); a maximum below 2 counts as 2 in the statement."
  },
  {
   "property": "C65",
   "status": "proved",
   "theorems": [
    "C65_two_levels",
    "C65_deep_levels",
    "C65_parentheses_panic",
    "C65_unary",
    "C65_right_recursion"
   ],
   "note": "End to end from the rule texts through the modelled compiler, engine and growMoss. The statement includes that operations in parentheses panic. Bounds on nesting are where the stack of 1024 frames suffices."
  },
  {
   "property": "C66",
   "status": "proved",
   "theorems": [
    "C66_reads",
    "C66_values",
    "C66_rest",
    "C66_unseparated",
    "C66_only",
    "C66_panics_only",
    "C66_unambiguous",
    "C66_exactly",
    "C66_line",
    "C66_line_list"
   ],
   "note": "End to end from the rule texts through the modelled compiler, engine and callbacks. The conversion to float64 is a parameter; nesting up to 500 is where the stack of 1024 frames suffices; that nothing else is read holds without it."
  },
  {
   "property": "C67",
   "status": "proved",
   "theorems": [
    "C67_arithmetic",
    "C67_text",
    "C67_if",
    "C67_cond",
    "C67_and_or",
    "C67_define",
    "C67_factorial",
    "C67_alias",
    "C67_aliases",
    "C67_fuel",
    "C67_nth",
    "C67_never_returns",
    "C67_undefined",
    "C67_itself",
    "C67_not",
    "C67_list",
    "C67_empty",
    "C67_wrong_number",
    "C67_no_arguments",
    "C67_string_names",
    "C67_redefined"
   ],
   "note": "Operations on float64 are a parameter; exactness of integers up to a bound is the hypothesis of C67_factorial. Where the comments of the code say otherwise, the statement says what the code does."
  },
  {
   "property": "C68",
   "status": "proved",
   "theorems": [
    "C68_outcome",
    "C68_answers",
    "C68_flat",
    "C68_values_only",
    "C68_panics_only",
    "C68_value_said",
    "C68_panic_said",
    "C68_lisp_well_formed",
    "C68_lisp",
    "C68_intention",
    "C68_intention_unique",
    "C68_or_stack_overflow"
   ],
   "note": "For the grammars of C53 (texts nested at most 72 deep, @:name only for labelled rules, distinct names). Existence by induction on the length of the text, the rank of the rule and the expression; uniqueness and the library from C53. The Lisp example and the grammar of rule texts itself (joeson_intention.go) are instances. C68_or_stack_overflow: the same for texts nested to any depth, with any tracing, options and representation of values; a too deep nesting panics."
  },
  {
   "property": "C69",
   "status": "proved",
   "theorems": [
    "C69_colors",
    "C69_panics",
    "C69_errors",
    "C69_no_zero",
    "C69_no_black",
    "C69_any_numbers",
    "C69_well_formed"
   ],
   "note": "If and only if, in both directions from the rule texts through the modelled compiler, engine and callbacks: C68 for the grammar, then inversion of derivations."
  },
  {
   "property": "C70",
   "status": "partial",
   "theorems": [
    "C70_parts_partial",
    "C70_runes",
    "C70_single_line",
    "C70_not_divided",
    "C70_non_ascii_shows_too_much"
   ],
   "note": "The division into consecutive pieces is false: OK and Unknown are whole lines (C70_not_divided; C70_single_line for every text of one line), and offsets in bytes are used as numbers of code points (C70_non_ascii_shows_too_much). C70_parts_partial says exactly what each piece is for ASCII texts, C70_runes for valid UTF-8."
  },
  {
   "property": "C71",
   "status": "proved",
   "theorems": [
    "C71_outcome",
    "C71_answers",
    "C71_value_said",
    "C71_panic_said",
    "C71_minus_well_formed",
    "C71_precedence_well_formed",
    "C71_or_stack_overflow"
   ],
   "note": "For the grammars of C57 (texts nested at most 72 deep, no label @, distinct names; no left recursion through another rule that is mentioned). Growing ends because each round leaves less of the text. Instances: E '-' N | N and the two grammars of examples/precedence. C71_or_stack_overflow: the same for texts nested to any depth, with any tracing, options and representation of values; a too deep nesting panics."
  },
  {
   "property": "C72",
   "status": "partial",
   "theorems": [
    "C72_evaluations_bounded",
    "C72_evaluations_partial",
    "C72_linear_without_left_recursion",
    "C72_evaluations_polynomial",
    "C72_polynomial_without_left_recursion",
    "C72_left_recursion_exponential"
   ],
   "note": "Proved when no left recursion is met: for any callbacks and tracing if no memo entry got a mask, for texts with a meaning (Means), for every text of a grammar without left recursion. The bound rules times positions is for grammars whose inner nodes have neither callback nor label of their own, as the counter counts these too; with such parts the bound is polynomial. False with left recursion: exponential, proved for a grammar of one rule."
  },
  {
   "property": "C73",
   "status": "partial",
   "theorems": [
    "C73_every_text_panics",
    "C73_witness",
    "C23_cache_invisible"
   ],
   "note": "False with left recursion: every text panics, for all grammars that begin with unmemoised rules that begin with each other. The part that holds is C23: texts with a PEG outcome."
  },
  {
   "property": "C74",
   "status": "proved",
   "theorems": [
    "C74_laws_hold",
    "C74_rewritten_grammar",
    "C74_rewritten_parsers_agree",
    "C74_star_then_same_never",
    "C74_not_laws",
    "C74_or_stack_overflow"
   ],
   "note": "For grammars without labels, rules nested at most 1024 deep. C74_or_stack_overflow: the same for texts nested to any depth, with any tracing, options and representation of values; a too deep nesting panics."
  },
  {
   "property": "C75",
   "status": "partial",
   "theorems": [
    "C75_visits_exact",
    "C75_library_visits",
    "C75_visits_bounds",
    "C75_exponential"
   ],
   "note": "False as stated: the exact number of visits is proved for all grammars of rule texts, and is exponential in the depth and linear otherwise."
  },
  {
   "property": "C76",
   "status": "partial",
   "theorems": [
    "C76_left_recursion_through_helpers_partial",
    "C76_traced_partial",
    "C76_value_unique",
    "C76_helpers_agree",
    "C76_minus_through_helper",
    "C76_or_stack_overflow"
   ],
   "note": "For helpers that one text mentions and that are called where the rule with that text began; helpers shared by several rules have no meaning here. Restrictions as in C57."
  },
  {
   "property": "C77",
   "status": "partial",
   "theorems": [
    "C77_reads_back_partial",
    "C77_numbers_are_not_read_back",
    "C77_number_alone",
    "C77_list_string",
    "C77_list_string_coloured",
    "C77_list_string_unreadable",
    "C77_list_string_read",
    "C77_printed_apart"
   ],
   "note": "False for numbers: no expression that contains one is read back. All others are."
  },
  {
   "property": "C78",
   "status": "partial",
   "theorems": [
    "C78_typed_lines_partial",
    "C78_rest_is_lost",
    "C78_at_most_reads",
    "C78_file_first_line_only",
    "C78_unterminated",
    "C78_session",
    "C78_values",
    "C78_fault_ends",
    "C78_wrong_goes_on"
   ],
   "note": "False as stated: lines are lost when a read goes past a newline. The rest holds for all inputs."
  },
  {
   "property": "C79",
   "status": "proved",
   "theorems": [
    "C79_table_read",
    "C79_row_read",
    "C79_labels_decide",
    "C79_prints",
    "C79_same_grammar",
    "C79_rule_texts_print",
    "C79_wide_name",
    "C79_printing_panics",
    "C79_type",
    "C79_rank",
    "C79_grammar_text",
    "C79_head"
   ],
   "note": "The parent of a rule and the text of the grammar itself are parameters. Ids below 1000."
  },
  {
   "property": "C80",
   "status": "partial",
   "theorems": [
    "C80_layout",
    "C80_tokens_readable_partial",
    "C80_different_tokens_partial",
    "C80_signs_run_together"
   ],
   "note": "The second half is false for adjacent operators (witness); proved if no two are adjacent and words are letters, digits and _."
  },
  {
   "property": "C81",
   "status": "partial",
   "theorems": [
    "C81_parts_partial",
    "C81_place_partial",
    "C81_last_token_place",
    "C81_char_is_not_in_the_text",
    "C81_last_token_wrong"
   ],
   "note": "The exact content of the message for ASCII tokens; false for the offset, for Parsing and Suspect, and in the last token (witnesses)."
  },
  {
   "property": "C82",
   "status": "partial",
   "theorems": [
    "C82_parseX_partial",
    "C82_octal",
    "C82_octal_errors",
    "C82_readme_rule_text",
    "C82_octal_is_read_as_decimal",
    "C82_byte_refused",
    "C82_readme_example"
   ],
   "note": "parseX with the restrictions of C76; the octal rule exactly, for every text. False for the README's rule: it does not compile, and reads octal digits as decimal ones (witnesses)."
  },
  {
   "property": "C83",
   "status": "partial",
   "theorems": [
    "C83_get_after_set_partial",
    "C83_rule_name_lost",
    "C83_natives_forget",
    "C83_no_attributes",
    "C83_nil_attr",
    "C83_with_attr"
   ],
   "note": "Exactly what is given back after any history of calls. False for the name of the rule, for start and end after SetLine, for native types and for attributes."
  },
  {
   "property": "C84",
   "status": "partial",
   "theorems": [
    "C84_counting_changes_nothing",
    "C84_work_bounded",
    "C84_polynomial",
    "C84_polynomial_without_left_recursion",
    "C84_linear_without_repetition",
    "C84_rule_text_cubic",
    "C84_quadratic"
   ],
   "note": "Linear only when no rule contains a repetition; polynomial otherwise, with a quadratic witness. Exponential with left recursion, see C72. The cost inside one call (regular expressions, copying masks) is not counted."
  },
  {
   "property": "C85",
   "status": "proved",
   "theorems": [
    "C85_same_parse",
    "C85_same_parse_of_tokens",
    "C85_unused_rules",
    "C85_unused_line",
    "C85_unused_text"
   ],
   "note": "On lines (C85_unused_line): both grammars must build. For values that do not depend on the name of the rule in their origin; for all values when names are kept."
  },
  {
   "property": "C86",
   "status": "partial",
   "theorems": [
    "C86_others_untouched",
    "C86_part_again_panics",
    "C86_grammar_as_parser_panics",
    "C86_shared_rule_changed"
   ],
   "note": "The first half is proved for grammars that share no parser, and false for a shared parser without parts: the rule of the first gets the name, callback and number of the second. The second half is false: a Grammar as a Parser always panics. Ranks of O lines with a Parser each."
  },
  {
   "property": "C87",
   "status": "proved",
   "theorems": [
    "C87_ready_until_bombed",
    "C87_bombed_parses_nothing",
    "C87_no_lines"
   ],
   "note": ""
  },
  {
   "property": "C88",
   "status": "proved",
   "theorems": [
    "C88_language",
    "C88_class",
    "C88_repeated_class",
    "C88_class_rule",
    "C88_joeson",
    "C88_examples",
    "C88_escapes",
    "C88_bad_escapes",
    "C88_counts",
    "C88_written",
    "C88_first_alternative",
    "C88_optional",
    "C88_first_part",
    "C88_greedy",
    "C88_regex_rule",
    "C88_brackets",
    "C88_refused"
   ],
   "note": "For the part of the syntax of Go's regexp that Model/Regexp covers. The engine of Go is modelled from its documentation and source; it is not part of the repository."
  },
  {
   "property": "C89",
   "status": "proved",
   "theorems": [
    "C89_same",
    "C89_value",
    "C89_one_trace",
    "C89_whole",
    "C89_nested",
    "C89_nothing",
    "C89_attempt",
    "C89_tokens",
    "C89_tokens_nested",
    "C89_tokens_value",
    "C89_filterLine_cuts"
   ],
   "note": "For parses that return; lines printed before a panic are not kept. A line is modelled as rule, cursor, depth and message; colours and words are left out, and String() of a value is a parameter. C89_filterLine_cuts: with FilterLine opening and closing lines may be separated."
  },
  {
   "property": "C90",
   "status": "partial",
   "theorems": [
    "C90_same_partial",
    "C90_same",
    "C90_same_tokens_partial",
    "C90_alone",
    "C90_nested",
    "C90_no_debug",
    "C90_stays_on",
    "C90_lazy_value",
    "C90_lazy_evals",
    "C90_lazy_later",
    "C90_panics_from_other",
    "C90_left_on",
    "C90_debug_lost",
    "C90_lazy_twice"
   ],
   "note": "Partial because the property fails: a call can panic in the tracing code because of another's Debug (C90_panics_from_other), and overlapping calls can leave tracing on (C90_left_on) or take it away (C90_debug_lost). Steps are taken to come one after the other in any order; the Go memory model is not modelled."
  },
  {
   "property": "C91",
   "status": "proved",
   "theorems": [
    "C91_from_position",
    "C91_rest_of_text"
   ],
   "note": "For values that do not record lines, tokens laid out without gaps, and no tracing. Callbacks are compared without the position of the rule they belong to, which C91_from_position has through what callbacks and values are given."
  },
  {
   "property": "C92",
   "status": "partial",
   "theorems": [
    "C92_lists_partial",
    "C92_growth",
    "C92_two_arrays",
    "C92_cut_and_append",
    "C92_write_through",
    "C92_depends_on_growth"
   ],
   "note": "Partial because it is false for programs that are not careful, which is proved with what happens instead. Memory is never reclaimed in the model, and slices of slices stay within the length."
  },
  {
   "property": "C93",
   "status": "partial",
   "theorems": [
    "C93_contents_partial",
    "C93_deleted",
    "C93_added",
    "C93_two_maps"
   ],
   "note": "Partial because it is false for programs that use a Go map after giving it to NewNativeMap, which is proved with what happens instead."
  },
  {
   "property": "C94",
   "status": "partial",
   "theorems": [
    "C94_rows_partial",
    "C94_distinct_partial",
    "C94_letter_o",
    "C94_blanks",
    "C94_panics"
   ],
   "note": "Partial because it is false for rule texts that begin with the letter o, which is proved with what they look like; texts that begin with a blank are left out as well."
  },
  {
   "property": "C95",
   "status": "partial",
   "theorems": [
    "C95_printed",
    "C95_map",
    "C95_compare_partial",
    "C95_ambiguous"
   ],
   "note": "Partial because it is false for strings that look like other values, which is proved; values of user types are printed by the user."
  },
  {
   "property": "C96",
   "status": "partial",
   "theorems": [
    "C96_text",
    "C96_tokens",
    "C96_debug"
   ],
   "note": "Partial because it is false for PrintDebug of a token stream; C96_debug proves for all streams what it prints instead. The rest is proved in full."
  },
  {
   "property": "C97",
   "status": "proved",
   "theorems": [
    "C97_sorted_keys",
    "C97_bool",
    "C97_origin",
    "C97_color"
   ],
   "note": "Numbers of 64 bits."
  }
 ]
}