{
 "claims": [
  {
   "property": "C01",
   "status": "proved",
   "theorems": [
    "Syntaxis.C01_vocabulary_lookups_inverse",
    "Syntaxis.C01_vocabulary_bijective"
   ],
   "note": ""
  },
  {
   "property": "C02",
   "status": "proved",
   "theorems": [
    "Syntaxis.C02_bindings_persist",
    "Syntaxis.C02_rejected_changes_nothing"
   ],
   "note": ""
  },
  {
   "property": "C03",
   "status": "proved",
   "theorems": [
    "Syntaxis.C03_add_succeeds_iff",
    "Syntaxis.C03_add_visible",
    "Syntaxis.C03_add_frame"
   ],
   "note": ""
  },
  {
   "property": "C04",
   "status": "proved",
   "theorems": [
    "Syntaxis.C04_terminal_name_total",
    "Syntaxis.C04_reserved",
    "Syntaxis.C04_nonterminal_default_name"
   ],
   "note": ""
  },
  {
   "property": "C05",
   "status": "proved",
   "theorems": [
    "Syntaxis.C05_first_set_returns"
   ],
   "note": ""
  },
  {
   "property": "C06",
   "status": "proved",
   "theorems": [
    "Syntaxis.C06_nullable_exact"
   ],
   "note": ""
  },
  {
   "property": "C07",
   "status": "proved",
   "theorems": [
    "Syntaxis.C07_first_exact",
    "Syntaxis.C07_first_keys"
   ],
   "note": ""
  },
  {
   "property": "C08",
   "status": "proved",
   "theorems": [
    "Syntaxis.C08_production_first_exact"
   ],
   "note": ""
  },
  {
   "property": "C09",
   "status": "proved",
   "theorems": [
    "Syntaxis.C09_first_order_independent",
    "Syntaxis.C09_follow_order_independent"
   ],
   "note": ""
  },
  {
   "property": "C10",
   "status": "proved",
   "theorems": [
    "Syntaxis.C10_follow_set_returns"
   ],
   "note": ""
  },
  {
   "property": "C11",
   "status": "proved",
   "theorems": [
    "Syntaxis.C11_follow_exact",
    "Syntaxis.C11_follow_keys"
   ],
   "note": ""
  },
  {
   "property": "C12",
   "status": "proved",
   "theorems": [
    "Syntaxis.C12_follow_textbook"
   ],
   "note": ""
  },
  {
   "property": "C13",
   "status": "proved",
   "theorems": [
    "Syntaxis.C13_ill_formed_fail_stop"
   ],
   "note": ""
  },
  {
   "property": "C14",
   "status": "proved",
   "theorems": [
    "Syntaxis.C14_table_returns",
    "Syntaxis.C14_table_sound"
   ],
   "note": ""
  },
  {
   "property": "C15",
   "status": "proved",
   "theorems": [
    "Syntaxis.C15_table_complete"
   ],
   "note": ""
  },
  {
   "property": "C16",
   "status": "proved",
   "theorems": [
    "Syntaxis.C16_conflict_iff_not_ll1",
    "Syntaxis.C16_textbook",
    "Syntaxis.C16_textbook_gap"
   ],
   "note": ""
  },
  {
   "property": "C17",
   "status": "proved",
   "theorems": [
    "Syntaxis.C17_table_order_independent",
    "Syntaxis.C17_last_iterated_wins",
    "Syntaxis.C17_conflict_order_dependent"
   ],
   "note": ""
  },
  {
   "property": "C18",
   "status": "proved",
   "theorems": [
    "Syntaxis.C18_leaves_are_consumed_tokens"
   ],
   "note": ""
  },
  {
   "property": "C19",
   "status": "proved",
   "theorems": [
    "Syntaxis.C19_parser_sound"
   ],
   "note": ""
  },
  {
   "property": "C20",
   "status": "proved",
   "theorems": [
    "Syntaxis.C20_parser_complete_follow",
    "Syntaxis.C20_parser_complete"
   ],
   "note": ""
  },
  {
   "property": "C21",
   "status": "proved",
   "theorems": [
    "Syntaxis.C21_parser_terminates"
   ],
   "note": ""
  },
  {
   "property": "C22",
   "status": "proved",
   "theorems": [
    "Syntaxis.C22_parser_decides"
   ],
   "note": ""
  },
  {
   "property": "C23",
   "status": "partial",
   "theorems": [
    "Syntaxis.C23_exact",
    "Syntaxis.C23_holds_iff",
    "Syntaxis.C23_trailing_input_accepted",
    "Syntaxis.C23_prefix_is_sentence_partial",
    "Syntaxis.C23_left_at_follow",
    "Syntaxis.C23_whole_input"
   ],
   "note": "False of the code: trailing input is ignored (C23_trailing_input_accepted). Partial: a prefix is a sentence. C23_exact says for tables without conflicts exactly which prefix of which input is accepted, C23_holds_iff for exactly which grammars the claim holds; C23_whole_input: it holds for start rules that end in a repetition that can only be left at the end token, as in the shipped grammar."
  },
  {
   "property": "C24",
   "status": "proved",
   "theorems": [
    "Syntaxis.C24_tree_conforms"
   ],
   "note": ""
  },
  {
   "property": "C25",
   "status": "proved",
   "theorems": [
    "Syntaxis.C25_unambiguous_follow",
    "Syntaxis.C25_unambiguous"
   ],
   "note": ""
  },
  {
   "property": "C26",
   "status": "partial",
   "theorems": [
    "Syntaxis.C26_plus_conflict",
    "Syntaxis.C26_plus_unusable",
    "Syntaxis.C26_plus_never_both",
    "Syntaxis.C26_plus_sound_partial"
   ],
   "note": "False of the code: X -> item X | item is never LL(1); whatever the hash order the parser never returns from X or accepts exactly one repetition. Partial: what is accepted is a nonempty sequence of items."
  },
  {
   "property": "C27",
   "status": "partial",
   "theorems": [
    "Syntaxis.C27_left_recursive_entry_diverges",
    "Syntaxis.C27_left_recursion_diverges",
    "Syntaxis.C27_left_recursion_reported",
    "Syntaxis.C27_terminates_without_conflict_partial"
   ],
   "note": "False of the code: divergence proved for all fuel. Partial: termination when no conflict is printed, and left recursion always prints one. C78 says exactly when the parser does not come back, and that it always does for grammars without left recursion."
  },
  {
   "property": "C28",
   "status": "proved",
   "theorems": [
    "Syntaxis.C28_longest_match",
    "Syntaxis.C28_deterministic"
   ],
   "note": ""
  },
  {
   "property": "C29",
   "status": "proved",
   "theorems": [
    "Syntaxis.C29_lossless",
    "Syntaxis.C29_offsets",
    "Syntaxis.C29_lossless_first_lexer"
   ],
   "note": ""
  },
  {
   "property": "C30",
   "status": "proved",
   "theorems": [
    "Syntaxis.C30_positions",
    "Syntaxis.C30_positions_first_lexer"
   ],
   "note": ""
  },
  {
   "property": "C31",
   "status": "proved",
   "theorems": [
    "Syntaxis.C31_end_token",
    "Syntaxis.C31_first_lexer_no_end_token"
   ],
   "note": ""
  },
  {
   "property": "C32",
   "status": "proved",
   "theorems": [
    "Syntaxis.C32_scan_all",
    "Syntaxis.C32_scan_all_first_lexer"
   ],
   "note": ""
  },
  {
   "property": "C33",
   "status": "proved",
   "theorems": [
    "Syntaxis.C33_error_keeps_state",
    "Syntaxis.C33_scan_never_panics"
   ],
   "note": ""
  },
  {
   "property": "C34",
   "status": "partial",
   "theorems": [
    "Syntaxis.C34_stop_token_outside",
    "Syntaxis.C34_empty_input",
    "Syntaxis.C34_offsets_inside_partial"
   ],
   "note": "False of the code: _STOP lies 10 bytes behind the end of the input (C34_stop_token_outside). Partial: every other token is in range."
  },
  {
   "property": "C35",
   "status": "partial",
   "theorems": [
    "Syntaxis.C35_epsilon_is_rule_ref",
    "Syntaxis.C35_one_letter_identifier_fails",
    "Syntaxis.C35_identifiers_partial"
   ],
   "note": "False of the code: 'epsilon' is always a RULE_REF, and one-letter identifiers are lexical errors. Partial: identifiers of two or more characters, and the letter ε."
  },
  {
   "property": "C36",
   "status": "proved",
   "theorems": [
    "Syntaxis.C36_lists",
    "Syntaxis.C36_indexed",
    "Syntaxis.C36_children"
   ],
   "note": ""
  },
  {
   "property": "C37",
   "status": "partial",
   "theorems": [
    "Syntaxis.C37_sound",
    "Syntaxis.C37_exact",
    "Syntaxis.C37_found_partial",
    "Syntaxis.C37_empty_child_hides",
    "Syntaxis.C37_start_token_lost",
    "Syntaxis.C37_parser_trees_partial"
   ],
   "note": "False of the code: an empty rule node as first (last) child hides the start (stop) token (C37_empty_child_hides, C37_start_token_lost). C37_exact says what is returned on every tree. Partial: trees without empty rule nodes, in particular parser output when no named rule is nullable."
  },
  {
   "property": "C38",
   "status": "partial",
   "theorems": [
    "Syntaxis.C38_get_text_partial",
    "Syntaxis.C38_stop_leaf_panics",
    "Syntaxis.C38_text_lost",
    "Syntaxis.C38_leaf_text_partial",
    "Syntaxis.C38_exact",
    "Syntaxis.C38_text_iff",
    "Syntaxis.C38_parsed"
   ],
   "note": "False of the code: a _STOP leaf makes get_text panic (C38_stop_leaf_panics) and an empty rule as first child makes the text empty (C38_text_lost). Partial: trees without empty rule nodes over scanned tokens. C38_leaf_text_partial: leaves. C38_exact: what is returned on every tree over scanned tokens, C38_parsed on every tree of the lexer and the parser; C38_text_iff: exactly for which trees the claim holds."
  },
  {
   "property": "C39",
   "status": "proved",
   "theorems": [
    "Syntaxis.C39_same_calls_for_every_listener",
    "Syntaxis.C39_walk_nested_in_order"
   ],
   "note": ""
  },
  {
   "property": "C40",
   "status": "proved",
   "theorems": [
    "Syntaxis.C40_override_hides_subtree",
    "Syntaxis.C40_leaves_once_in_order",
    "Syntaxis.C40_recursing_overrides_walk",
    "Syntaxis.C40_stop",
    "Syntaxis.C40_result_of_last_child"
   ],
   "note": ""
  },
  {
   "property": "C41",
   "status": "proved",
   "theorems": [
    "Syntaxis.C41_accepts_exactly_schema",
    "Syntaxis.C41_not_json",
    "Syntaxis.C41_unique"
   ],
   "note": ""
  },
  {
   "property": "C42",
   "status": "proved",
   "theorems": [
    "Syntaxis.C42_round_trip",
    "Syntaxis.C42_loaded_trees"
   ],
   "note": ""
  },
  {
   "property": "C43",
   "status": "proved",
   "theorems": [
    "Syntaxis.C43_token_numbering",
    "Syntaxis.C43_names_distinct",
    "Syntaxis.C43_dense",
    "Syntaxis.C43_generated_lexer_agrees"
   ],
   "note": ""
  },
  {
   "property": "C44",
   "status": "proved",
   "theorems": [
    "Syntaxis.C44_named_injective",
    "Syntaxis.C44_anonymous_fresh"
   ],
   "note": ""
  },
  {
   "property": "C45",
   "status": "proved",
   "theorems": [
    "Syntaxis.C45_closed",
    "Syntaxis.C45_wellFormed",
    "Syntaxis.C45_tables_computed"
   ],
   "note": ""
  },
  {
   "property": "C46",
   "status": "partial",
   "theorems": [
    "Syntaxis.C46_language_preserved_partial",
    "Syntaxis.C46_apart_partial",
    "Syntaxis.C46_separate_suffixes_partial",
    "Syntaxis.C46_cache_collision"
   ],
   "note": "False of the code: the caches of *, + and ? are keyed by the bare number, so a token and a rule with the same number are confused (C46_cache_collision). Partial: equality of languages when no suffix is applied to a token and a rule of the same number; in terms of the source and its vocabulary: C46_apart_partial; in particular when no suffix is applied both to tokens and to other elements (C46_separate_suffixes_partial)."
  },
  {
   "property": "C47",
   "status": "proved",
   "theorems": [
    "Syntaxis.C47_build_succeeds_iff",
    "Syntaxis.C47_fails_by_panic",
    "Syntaxis.C47_undefined_token_panics",
    "Syntaxis.C47_undefined_rule_panics",
    "Syntaxis.C47_literal_panics"
   ],
   "note": "The reserved names _START and _STOP count as defined."
  },
  {
   "property": "C48",
   "status": "partial",
   "theorems": [
    "Syntaxis.C48_roundtrip_iff",
    "Syntaxis.C48_text_partial",
    "Syntaxis.C48_substitution",
    "Syntaxis.C48_carriage_return",
    "Syntaxis.C48_script_end"
   ],
   "note": "False of the code: exactly the strings without carriage return and without '${' come back (C48_roundtrip_iff); '</script>' is not escaped (C48_script_end). Partial: those strings."
  },
  {
   "property": "C49",
   "status": "partial",
   "theorems": [
    "Syntaxis.C49_drawn_tree_partial",
    "Syntaxis.C49_faithful_partial",
    "Syntaxis.C49_substitution",
    "Syntaxis.C49_carriage_return",
    "Syntaxis.C49_exact",
    "Syntaxis.C49_drawn_iff",
    "Syntaxis.C49_alike_iff"
   ],
   "note": "False of the code: '${' in a text starts a substitution (C49_substitution), carriage returns are normalised (C49_carriage_return). Partial: trees whose names and texts contain neither. Exact for every tree: with '${' nothing is read back, otherwise the tree with its line ends normalised (C49_exact); so the partial's condition is necessary (C49_drawn_iff), and two trees draw alike exactly if they differ in line ends only (C49_alike_iff)."
  },
  {
   "property": "C50",
   "status": "proved",
   "theorems": [
    "Syntaxis.C50_regex_text",
    "Syntaxis.C50_lexer_rule_visitor",
    "Syntaxis.C50_symbol_visitor",
    "Syntaxis.C50_first_definition_wins"
   ],
   "note": ""
  },
  {
   "property": "C51",
   "status": "partial",
   "theorems": [
    "Syntaxis.Shipped.C51_accessors_v1_constants_partial",
    "Syntaxis.Shipped.C51_accessors_miss_tokens",
    "Syntaxis.Shipped.C51_accessors_disagree"
   ],
   "note": "False of the code: the traits used by the v1 parser read the token constants of the older lexer, so every token accessor misses (C51_accessors_miss_tokens, C51_accessors_disagree). Partial: with the v1 constants the accessors give exactly the children of every node."
  },
  {
   "property": "C52",
   "status": "proved",
   "theorems": [
    "Syntaxis.Shipped.C52_loaded",
    "Syntaxis.Shipped.C52_no_conflict",
    "Syntaxis.Shipped.C52_tables_returned",
    "Syntaxis.Shipped.C52_language",
    "Syntaxis.Shipped.C52_parser_accepts_iff"
   ],
   "note": ""
  },
  {
   "property": "C53",
   "status": "proved",
   "theorems": [
    "Syntaxis.C53_maximal_munch",
    "Syntaxis.C53_unique"
   ],
   "note": ""
  },
  {
   "property": "C54",
   "status": "proved",
   "theorems": [
    "Syntaxis.C54_literals_numbered"
   ],
   "note": ""
  },
  {
   "property": "C55",
   "status": "partial",
   "theorems": [
    "Syntaxis.C55_literal_regex_partial",
    "Syntaxis.C55_metacharacters",
    "Syntaxis.C55_backslash",
    "Syntaxis.C55_matcher_iff",
    "Syntaxis.C55_literal_matcher_partial",
    "Syntaxis.C55_metacharacters_match",
    "Syntaxis.C55_parenthesis"
   ],
   "note": "False of the code: metacharacters other than + and * are not escaped (C55_metacharacters, C55_metacharacters_match, C55_parenthesis) and the order of the replacements breaks an escaped backslash (C55_backslash). C55_matcher_iff: of the literals written with ordinary characters and the escapes \\n \\t \\r \\' \\a \\f \\v, exactly those without the metacharacters . ? ( ) | [ { ^ $ get a right matcher (] and } are harmless). Not covered by the equivalence: \\\\, \\d and \\u{...}."
  },
  {
   "property": "C56",
   "status": "proved",
   "theorems": [
    "Syntaxis.Shipped.C56_generated_lexer",
    "Syntaxis.Shipped.C56_same_patterns",
    "Syntaxis.Shipped.C56_same_tokens"
   ],
   "note": ""
  },
  {
   "property": "C57",
   "status": "proved",
   "theorems": [
    "Syntaxis.Shipped.C57_read_as_written"
   ],
   "note": ""
  },
  {
   "property": "C58",
   "status": "partial",
   "theorems": [
    "Syntaxis.Shipped.C58_pipeline_panics",
    "Syntaxis.Shipped.C58_pipeline_partial"
   ],
   "note": "False of the code: the visitors read the token constants of the older lexer, so the pipeline panics on every non-empty file (C58_pipeline_panics). Partial: with the v1 constants the pipeline is correct for complete files without string literals."
  },
  {
   "property": "C59",
   "status": "proved",
   "theorems": [
    "Syntaxis.C59_messages_repair"
   ],
   "note": ""
  },
  {
   "property": "C60",
   "status": "proved",
   "theorems": [
    "Syntaxis.C60_earliest_error"
   ],
   "note": ""
  },
  {
   "property": "C61",
   "status": "proved",
   "theorems": [
    "Syntaxis.C61_types_and_one_lookahead"
   ],
   "note": ""
  },
  {
   "property": "C62",
   "status": "proved",
   "theorems": [
    "Syntaxis.C62_depth_bound",
    "Syntaxis.C62_ll1_depth"
   ],
   "note": ""
  },
  {
   "property": "C63",
   "status": "proved",
   "theorems": [
    "Syntaxis.C63_white_space_insignificant",
    "Syntaxis.C63_same_tree"
   ],
   "note": ""
  },
  {
   "property": "C64",
   "status": "proved",
   "theorems": [
    "Syntaxis.C64_counted",
    "Syntaxis.C64_counted_found",
    "Syntaxis.C64_named_classes",
    "Syntaxis.C64_classes",
    "Syntaxis.C64_escapes",
    "Syntaxis.C64_rule_regex",
    "Syntaxis.RegexSyntax.C64_v1_patterns",
    "Syntaxis.RegexSyntax.C64_old_patterns",
    "Syntaxis.RegexSyntax.C64_fuel",
    "Syntaxis.RegexSyntax.C64_syntax",
    "Syntaxis.RegexSyntax.C64_pattern_syntax"
   ],
   "note": "Unbounded repetitions of regexes that match the empty string, numbers of more than three digits in counted repetitions, classes and set operations inside classes, the crate's limits on nesting and on the size of the compiled program, and the remaining syntax of the regex crate are outside the modelled fragment."
  },
  {
   "property": "C65",
   "status": "partial",
   "theorems": [
    "Syntaxis.C65_token_text_partial",
    "Syntaxis.C65_unbalanced",
    "Syntaxis.C65_unbalanced_not_matched"
   ],
   "note": "False of the code: the rule /a)|(b/ escapes the anchor (C65_unbalanced). Partial: rules whose text is a regex (of the modelled fragment) on its own."
  },
  {
   "property": "C66",
   "status": "partial",
   "theorems": [
    "Syntaxis.C66_source_partial",
    "Syntaxis.C66_vectors_partial",
    "Syntaxis.C66_regex_iff",
    "Syntaxis.C66_hashes",
    "Syntaxis.C66_carriage_return",
    "Syntaxis.C66_white_space",
    "Syntaxis.C66_shipped"
   ],
   "note": "False of the code: a regex with \"#### or a carriage return is not read back (C66_hashes, C66_carriage_return; C66_regex_iff says exactly when), and a grammar without WHITE_SPACE gives a source with an undeclared constant (C66_white_space). Partial: regexes without those."
  },
  {
   "property": "C67",
   "status": "partial",
   "theorems": [
    "Syntaxis.C67_line_comment_partial",
    "Syntaxis.C67_block_comment",
    "Syntaxis.C67_comment_at_end",
    "Syntaxis.C67_comments_skipped_partial"
   ],
   "note": "False of the code: a // comment that ends with the input is a lexical error (C67_comment_at_end). Partial: line comments that end with a line feed; block comments without restriction."
  },
  {
   "property": "C68",
   "status": "partial",
   "theorems": [
    "Syntaxis.C68_page_partial",
    "Syntaxis.C68_script_end",
    "Syntaxis.C68_title_end",
    "Syntaxis.C68_page_iff"
   ],
   "note": "False of the code: a text with </script> ends the script, a name with </title> the title (C68_script_end, C68_title_end), and C49. Partial: names and texts without these. C68_page_iff: these and the condition of C49 are the only ways it fails, for names without & and texts without <!-- (outside the HTML reader of the specification)."
  },
  {
   "property": "C69",
   "status": "proved",
   "theorems": [
    "Syntaxis.C69_generated_is_v1"
   ],
   "note": ""
  },
  {
   "property": "C70",
   "status": "proved",
   "theorems": [
    "Syntaxis.Main.C70_ends",
    "Syntaxis.Main.C70_drawn",
    "Syntaxis.Main.C70_silent_iff",
    "Syntaxis.Main.C70_stdout",
    "Syntaxis.Main.C70_program",
    "Syntaxis.Main.C70_same_language"
   ],
   "note": ""
  },
  {
   "property": "C71",
   "status": "proved",
   "theorems": [
    "Syntaxis.C71_tree_iff",
    "Syntaxis.C71_tree_words",
    "Syntaxis.C71_token_iff",
    "Syntaxis.C71_scanned_distinct"
   ],
   "note": ""
  },
  {
   "property": "C72",
   "status": "partial",
   "theorems": [
    "Syntaxis.C72_total",
    "Syntaxis.C72_lines",
    "Syntaxis.C72_determines_partial",
    "Syntaxis.C72_rules_glued",
    "Syntaxis.C72_exact"
   ],
   "note": "False of the code: no space is written before a rule name (C72_rules_glued). Partial: right sides with at most one rule, in front. C72_exact: only the boundaries of names inside a word (a token with the rules behind it) are lost."
  },
  {
   "property": "C73",
   "status": "proved",
   "theorems": [
    "Syntaxis.C73_page",
    "Syntaxis.C73_lexer",
    "Syntaxis.C73_first",
    "Syntaxis.C73_follow"
   ],
   "note": ""
  },
  {
   "property": "C74",
   "status": "proved",
   "theorems": [
    "Syntaxis.C74_first_rounds",
    "Syntaxis.C74_follow_rounds",
    "Syntaxis.C74_table_rounds",
    "Syntaxis.C74_rounds_needed"
   ],
   "note": ""
  },
  {
   "property": "C75",
   "status": "proved",
   "theorems": [
    "Syntaxis.C75_linear",
    "Syntaxis.C75_ll1_linear",
    "Syntaxis.C75_exponential_factor"
   ],
   "note": ""
  },
  {
   "property": "C76",
   "status": "proved",
   "theorems": [
    "Syntaxis.C76_reads_exactly",
    "Syntaxis.C76_loads_exactly",
    "Syntaxis.C76_round_trip",
    "Syntaxis.C76_loadable_trees",
    "Syntaxis.C76_shipped_text",
    "Syntaxis.C76_program"
   ],
   "note": ""
  },
  {
   "property": "C77",
   "status": "proved",
   "theorems": [
    "Syntaxis.C77_first_rule",
    "Syntaxis.C77_accepts_sentences",
    "Syntaxis.C77_accepts_exactly",
    "Syntaxis.C77_shipped"
   ],
   "note": ""
  },
  {
   "property": "C78",
   "status": "proved",
   "theorems": [
    "Syntaxis.C78_hangs_iff",
    "Syntaxis.C78_hang_is_left_recursion",
    "Syntaxis.C78_ends_without_left_recursion"
   ],
   "note": ""
  },
  {
   "property": "C79",
   "status": "proved",
   "theorems": [
    "Syntaxis.C79_exact",
    "Syntaxis.C79_genuine",
    "Syntaxis.C79_participants",
    "Syntaxis.C79_count",
    "Syntaxis.C79_count_independent",
    "Syntaxis.C79_readable"
   ],
   "note": ""
  },
  {
   "property": "C80",
   "status": "partial",
   "theorems": [
    "Syntaxis.C80_tokens_partial",
    "Syntaxis.C80_rules_silent"
   ],
   "note": "False of the code: rules are checked against the token names, so a rule defined again is never reported (C80_rules_silent). Partial: tokens."
  },
  {
   "property": "C81",
   "status": "partial",
   "theorems": [
    "Syntaxis.C81_repetitions_reported",
    "Syntaxis.C81_exact_partial",
    "Syntaxis.C81_silent_iff_partial",
    "Syntaxis.C81_collision_reported"
   ],
   "note": "False of the code: different alternatives that collide in a suffix cache are reported (C81_collision_reported). Partial: grammars where the numbers keep the suffixes of tokens apart from the others (a token and a rule with the same suffix have different numbers, and likewise for groups and repetitions); every repetition is reported without restriction (C81_repetitions_reported). For every file, also with collisions, C86_messages says exactly which messages are printed."
  },
  {
   "property": "C82",
   "status": "proved",
   "theorems": [
    "Syntaxis.C82_scan",
    "Syntaxis.C82_scan_all",
    "Syntaxis.C82_first_lexer",
    "Syntaxis.C82_parser",
    "Syntaxis.C82_builder",
    "Syntaxis.C82_load_ast",
    "Syntaxis.C82_lexer_rules",
    "Syntaxis.C82_string_literals"
   ],
   "note": ""
  },
  {
   "property": "C83",
   "status": "partial",
   "theorems": [
    "Syntaxis.C83_translation_partial",
    "Syntaxis.C83_collision"
   ],
   "note": "False of the code: a repetition of a token and one of a rule with the same number share their productions (C83_collision). Partial: grammars where the numbers keep the suffixes of tokens apart from the others (a token and a rule with the same suffix have different numbers, and likewise for groups and repetitions)."
  },
  {
   "property": "C84",
   "status": "partial",
   "theorems": [
    "Syntaxis.C84_tokens",
    "Syntaxis.C84_language_partial",
    "Syntaxis.C84_conflicts_partial",
    "Syntaxis.C84_parse_partial",
    "Syntaxis.C84_order_matters"
   ],
   "note": "False of the code: exchanging two rules can change which repetitions share their productions (C84_order_matters). Partial: grammars where the numbers keep the suffixes of tokens apart from the others (a token and a rule with the same suffix have different numbers, and likewise for groups and repetitions); the tokens without restriction (C84_tokens)."
  },
  {
   "property": "C85",
   "status": "partial",
   "theorems": [
    "Syntaxis.C85_tokens",
    "Syntaxis.C85_language_partial",
    "Syntaxis.C85_conflicts_partial",
    "Syntaxis.C85_parse_partial",
    "Syntaxis.C85_word_lost"
   ],
   "note": "False of the code: adding a rule can make two repetitions share their productions, which loses a word (C85_word_lost). Partial: larger files where the numbers keep the suffixes of tokens apart from the others (a token and a rule with the same suffix have different numbers, and likewise for groups and repetitions); the tokens without restriction (C85_tokens)."
  },
  {
   "property": "C86",
   "status": "proved",
   "theorems": [
    "Syntaxis.C86_translation",
    "Syntaxis.C86_first_wins",
    "Syntaxis.C86_messages"
   ],
   "note": ""
  },
  {
   "property": "C87",
   "status": "partial",
   "theorems": [
    "Syntaxis.C87_v1",
    "Syntaxis.C87_v1_whole",
    "Syntaxis.C87_old_partial",
    "Syntaxis.C87_question_name"
   ],
   "note": "False of the code: the first lexer names the question mark QUEStION (C87_question_name). Partial: for the first lexer, the name of the other kinds; the lexer in use (v1) is covered completely."
  },
  {
   "property": "C88",
   "status": "proved",
   "theorems": [
    "Syntaxis.C88_restart",
    "Syntaxis.C88_restart_first_lexer",
    "Syntaxis.C88_scan_all"
   ],
   "note": ""
  },
  {
   "property": "C89",
   "status": "proved",
   "theorems": [
    "Syntaxis.C89_first_to_v1",
    "Syntaxis.C89_v1_to_first",
    "Syntaxis.C89_next"
   ],
   "note": ""
  },
  {
   "property": "C90",
   "status": "proved",
   "theorems": [
    "Syntaxis.C90_lengths",
    "Syntaxis.C90_size"
   ],
   "note": ""
  },
  {
   "property": "C91",
   "status": "proved",
   "theorems": [
    "Syntaxis.Outline.C91_outline",
    "Syntaxis.Outline.C91_width"
   ],
   "note": ""
  },
  {
   "property": "C92",
   "status": "partial",
   "theorems": [
    "Syntaxis.Main.C92_empty_file",
    "Syntaxis.Outline.C92_tree_partial",
    "Syntaxis.Outline.C92_empty_rule"
   ],
   "note": "The last sentence is false of the code: a rule that matched the empty word has no children, and its label is then taken from the missing field `text` (ast.html:370), so that nothing is shown, and its tool tip is its name (C92_empty_rule, for every such node in every state). The partial theorem proves everything else, and the label and tool tip for all other nodes."
  },
  {
   "property": "C93",
   "status": "proved",
   "theorems": [
    "Syntaxis.Viewer.C93_zoom",
    "Syntaxis.Viewer.C93_wheel",
    "Syntaxis.Viewer.C93_shown",
    "Syntaxis.Viewer.C93_drag",
    "Syntaxis.Viewer.C93_hover",
    "Syntaxis.Viewer.C93_reset"
   ],
   "note": ""
  },
  {
   "property": "C94",
   "status": "proved",
   "theorems": [
    "Syntaxis.Viewer.C94_button",
    "Syntaxis.Viewer.C94_chosen",
    "Syntaxis.Viewer.C94_sliders",
    "Syntaxis.Viewer.C94_drawn"
   ],
   "note": ""
  },
  {
   "property": "C95",
   "status": "partial",
   "theorems": [
    "Syntaxis.C95_joined_partial",
    "Syntaxis.C95_files_partial",
    "Syntaxis.C95_swallowed"
   ],
   "note": "False for some texts (C95_swallowed): a literal that ends with an escaped slash is a literal only because no slash follows. C95_joined_partial is an equivalence: it says exactly for which pairs of texts the property holds."
  },
  {
   "property": "C96",
   "status": "partial",
   "theorems": [
    "Syntaxis.C96_sentences",
    "Syntaxis.C96_follow",
    "Syntaxis.C96_conflicts_partial",
    "Syntaxis.C96_parse_partial",
    "Syntaxis.C96_accepts_partial",
    "Syntaxis.C96_conflict_added",
    "Syntaxis.C96_sentence_lost",
    "Syntaxis.C96_panic_gone"
   ],
   "note": "False in general (C96_conflict_added, C96_sentence_lost, C96_panic_gone). Proved without restriction: sentences and textbook FOLLOW; the partial theorems state what holds of conflicts and parsing when the larger grammar prints no conflict."
  },
  {
   "property": "C97",
   "status": "proved",
   "theorems": [
    "Syntaxis.C97_boundaries",
    "Syntaxis.C97_names",
    "Syntaxis.C97_tie"
   ],
   "note": ""
  },
  {
   "property": "C98",
   "status": "proved",
   "theorems": [
    "Syntaxis.C98_same_parse",
    "Syntaxis.C98_earliest",
    "Syntaxis.C98_not_before",
    "Syntaxis.C98_no_wrong",
    "Syntaxis.C98_dead_end"
   ],
   "note": ""
  },
  {
   "property": "C99",
   "status": "proved",
   "theorems": [
    "Syntaxis.C99_language",
    "Syntaxis.C99_conflicts",
    "Syntaxis.C99_parse",
    "Syntaxis.C99_numbering",
    "Syntaxis.C99_text"
   ],
   "note": ""
  },
  {
   "property": "C100",
   "status": "partial",
   "theorems": [
    "Syntaxis.C100_tokens",
    "Syntaxis.C100_language_partial",
    "Syntaxis.C100_conflicts_partial",
    "Syntaxis.C100_parse_partial",
    "Syntaxis.C100_text_partial",
    "Syntaxis.C100_order_matters"
   ],
   "note": "False of the code: exchanging two lexer rules can change which repetitions share their productions and with it the language (C100_order_matters). Partial: files where the numbers keep the suffixes of tokens apart from the others (a token and a rule with the same suffix have different numbers, and likewise for groups and repetitions); the tokens without that restriction (C100_tokens)."
  },
  {
   "property": "C101",
   "status": "partial",
   "theorems": [
    "Syntaxis.C101_rules",
    "Syntaxis.C101_language_partial",
    "Syntaxis.C101_repaired_partial",
    "Syntaxis.C101_accepts_partial",
    "Syntaxis.C101_rewriting_matters",
    "Syntaxis.C101_plus_repaired"
   ],
   "note": "False of the code: where two repetitions share their productions by a collision of numbers, rewriting one of them changes the language (C101_rewriting_matters). Partial: files where the numbers keep the suffixes of tokens apart from the others (a token and a rule with the same suffix have different numbers, and likewise for groups and repetitions); for the rules themselves without restriction (C101_rules). C101_plus_repaired: rewriting removes the conflict of C26."
  },
  {
   "property": "C102",
   "status": "partial",
   "theorems": [
    "Syntaxis.C102_rules",
    "Syntaxis.C102_language_partial",
    "Syntaxis.C102_accepts_partial",
    "Syntaxis.C102_inlining_matters"
   ],
   "note": "False of the code: where two repetitions share their productions by a collision of numbers, inlining one of the rules changes the language (C102_inlining_matters). Partial: files where the numbers keep the suffixes of tokens apart from the others (a token and a rule with the same suffix have different numbers, and likewise for groups and repetitions); for the rules themselves without restriction (C102_rules)."
  },
  {
   "property": "C103",
   "status": "partial",
   "theorems": [
    "Syntaxis.C103_left",
    "Syntaxis.C103_right",
    "Syntaxis.C103_language_partial",
    "Syntaxis.C103_accepts_partial",
    "Syntaxis.C103_removal_matters",
    "Syntaxis.C103_left_repaired"
   ],
   "note": "False of the code: the new repetition can share its productions with one of another rule by a collision of numbers, which changes the language of that rule (C103_removal_matters). Partial: files where the numbers keep the suffixes of tokens apart from the others (a token and a rule with the same suffix have different numbers, and likewise for groups and repetitions); for the rules themselves without restriction (C103_left, C103_right). C103_left_repaired: the change removes the conflicts of a left recursive grammar of expressions."
  },
  {
   "property": "C104",
   "status": "proved",
   "theorems": [
    "Syntaxis.C104_node_reparsed"
   ],
   "note": ""
  },
  {
   "property": "C105",
   "status": "proved",
   "theorems": [
    "Syntaxis.C105_local_reparse"
   ],
   "note": ""
  },
  {
   "property": "C106",
   "status": "proved",
   "theorems": [
    "Syntaxis.C106_written",
    "Syntaxis.C106_expressible",
    "Syntaxis.C106_formatted",
    "Syntaxis.C106_distinct"
   ],
   "note": ""
  },
  {
   "property": "C107",
   "status": "proved",
   "theorems": [
    "Syntaxis.C107_grammar",
    "Syntaxis.C107_tables",
    "Syntaxis.C107_tokens",
    "Syntaxis.C107_trees",
    "Syntaxis.C107_renaming",
    "Syntaxis.C107_merged_names"
   ],
   "note": ""
  },
  {
   "property": "C108",
   "status": "proved",
   "theorems": [
    "Syntaxis.C108_rule_longest",
    "Syntaxis.C108_maximal_munch",
    "Syntaxis.C108_accepts",
    "Syntaxis.C108_words",
    "Syntaxis.C108_shorter"
   ],
   "note": ""
  }
 ]
}