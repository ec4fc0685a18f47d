{
 "claims": [
  {
   "property": "C01",
   "status": "proved",
   "theorems": [
    "Ludtwig.C01_parse_lossless",
    "Ludtwig.C01_root_text"
   ],
   "note": "under the assumption ErrLenOk on the size of error spans of the lexer generator"
  },
  {
   "property": "C02",
   "status": "proved",
   "theorems": [
    "Ludtwig.C02_lex_partition",
    "Ludtwig.C02_token_in_source"
   ],
   "note": "under ErrLenOk"
  },
  {
   "property": "C03",
   "status": "proved",
   "theorems": [
    "Ludtwig.C03_parse_terminates",
    "Ludtwig.C03_parse_ne_outOfFuel"
   ],
   "note": "recursion depth bounded by the number of tokens plus one"
  },
  {
   "property": "C04",
   "status": "partial",
   "theorems": [
    "Ludtwig.C04_parse_can_panic_raw_text",
    "Ludtwig.C04_parse_can_panic_arrow",
    "Ludtwig.C04_panics_partial",
    "Ludtwig.C04_parse_returns_partial"
   ],
   "note": "the claim is false (two witnesses); proved that these two places are the only ones and what the text must contain"
  },
  {
   "property": "C05",
   "status": "proved",
   "theorems": [
    "Ludtwig.C05_root_covers",
    "Ludtwig.C05_trivia_grouped"
   ],
   "note": ""
  },
  {
   "property": "C06",
   "status": "proved",
   "theorems": [
    "Ludtwig.C06_error_at_token",
    "Ludtwig.C06_error_in_source"
   ],
   "note": ""
  },
  {
   "property": "C07",
   "status": "proved",
   "theorems": [
    "Ludtwig.C07_marker_discipline",
    "Ludtwig.C07_all_completed"
   ],
   "note": ""
  },
  {
   "property": "C08",
   "status": "proved",
   "theorems": [
    "Ludtwig.C08_late_wrapping_equals_direct"
   ],
   "note": ""
  },
  {
   "property": "C09",
   "status": "proved",
   "theorems": [
    "Ludtwig.C09_no_error_node"
   ],
   "note": ""
  },
  {
   "property": "C10",
   "status": "proved",
   "theorems": [
    "Ludtwig.C10_recover_expect",
    "Ludtwig.C10_recover"
   ],
   "note": ""
  },
  {
   "property": "C11",
   "status": "proved",
   "theorems": [
    "Ludtwig.C11_expression",
    "Ludtwig.C11_variable",
    "Ludtwig.C11_unique"
   ],
   "note": "operands: numbers, null, booleans, names, signed operands and parenthesised sequences; the well-grouped tree is unique"
  },
  {
   "property": "C12",
   "status": "proved",
   "theorems": [
    "Ludtwig.C12_next_kind",
    "Ludtwig.C12_next_but_one",
    "Ludtwig.C12_twig_tag",
    "Ludtwig.C12_following",
    "Ludtwig.C12_following_content",
    "Ludtwig.C12_trivia_irrelevant"
   ],
   "note": ""
  },
  {
   "property": "C13",
   "status": "proved",
   "theorems": [
    "Ludtwig.C13_trivia_shape",
    "Ludtwig.C13_trivia_maximal"
   ],
   "note": ""
  },
  {
   "property": "C14",
   "status": "proved",
   "theorems": [
    "Ludtwig.C14_two_words_end",
    "Ludtwig.C14_two_words_chosen"
   ],
   "note": ""
  },
  {
   "property": "C15",
   "status": "proved",
   "theorems": [
    "Ludtwig.Cli.C15_active_rules",
    "Ludtwig.Cli.C15_order_irrelevant"
   ],
   "note": ""
  },
  {
   "property": "C16",
   "status": "proved",
   "theorems": [
    "Ludtwig.Cli.C16_unknown_rule",
    "Ludtwig.Cli.C16_known_rules_ok",
    "Ludtwig.Cli.C16_unknown_rule_exits",
    "Ludtwig.Cli.C16_known_rules_run"
   ],
   "note": ""
  },
  {
   "property": "C17",
   "status": "proved",
   "theorems": [
    "Ludtwig.Cli.C17_file_active",
    "Ludtwig.Rules.C17_file_rules",
    "Ludtwig.Rules.C17_only_direct_children"
   ],
   "note": ""
  },
  {
   "property": "C18",
   "status": "proved",
   "theorems": [
    "Ludtwig.Rules.C18_scope_of_ignore",
    "Ludtwig.Rules.C18_reported_iff"
   ],
   "note": ""
  },
  {
   "property": "C19",
   "status": "proved",
   "theorems": [
    "Ludtwig.Rules.C19_loop_never_fails",
    "Ludtwig.Rules.C19_failure_from_root_check"
   ],
   "note": ""
  },
  {
   "property": "C20",
   "status": "partial",
   "theorems": [
    "Ludtwig.Rules.C20_told_wrongly",
    "Ludtwig.Rules.C20_protected_partial",
    "Ludtwig.Rules.C20_told_exactly"
   ],
   "note": "false: the flag is off after a nested string or sensitive tag has been left (witness); proved as long as none was left, and characterised exactly"
  },
  {
   "property": "C21",
   "status": "proved",
   "theorems": [
    "Ludtwig.Cli.C21_apply_is_simultaneous_edit"
   ],
   "note": ""
  },
  {
   "property": "C22",
   "status": "partial",
   "theorems": [
    "Ludtwig.Cli.C22_overlap_can_be_applied",
    "Ludtwig.Cli.C22_applied_disjoint_partial",
    "Ludtwig.Cli.C22_unfiltered_disjoint",
    "Ludtwig.Rules.C22_fix_breaks_file",
    "Ludtwig.Rules.C22_fix_panics"
   ],
   "note": "the claim is false for nested ranges (witness, also for the real parser and rules: --fix breaks a file or panics); proved without nesting, and for rounds without filtering"
  },
  {
   "property": "C23",
   "status": "proved",
   "theorems": [
    "Ludtwig.Cli.C23_written_only_by_successful_fix"
   ],
   "note": ""
  },
  {
   "property": "C24",
   "status": "proved",
   "theorems": [
    "Ludtwig.Cli.C24_successful_fix_is_complete",
    "Ludtwig.Rules.C24_fixed_file_has_no_suggestions"
   ],
   "note": ""
  },
  {
   "property": "C25",
   "status": "proved",
   "theorems": [
    "Ludtwig.Cli.C25_fix_loop_bounded"
   ],
   "note": ""
  },
  {
   "property": "C26",
   "status": "partial",
   "theorems": [
    "Ludtwig.Cli.C26_exit_status_partial",
    "Ludtwig.Cli.C26_program_partial",
    "Ludtwig.Cli.C26_walk_error_only",
    "Ludtwig.Cli.C26_status_zero_or_one",
    "Ludtwig.Cli.C26_unreadable_config",
    "Ludtwig.Cli.C26_unusable_ignore_file"
   ],
   "note": "a directory walk error with no processed file exits with 0 although an error was reported (witness); proved when a file was processed"
  },
  {
   "property": "C27",
   "status": "proved",
   "theorems": [
    "Ludtwig.Cli.C27_scheduling_independent",
    "Ludtwig.Cli.C27_every_schedule"
   ],
   "note": ""
  },
  {
   "property": "C28",
   "status": "proved",
   "theorems": [
    "Ludtwig.Naming.C28_snake_valid_iff"
   ],
   "note": ""
  },
  {
   "property": "C29",
   "status": "partial",
   "theorems": [
    "Ludtwig.Naming.C29_suggestion_can_be_empty",
    "Ludtwig.Naming.C29_snake_suggestion_valid_partial",
    "Ludtwig.Naming.C29_kebab_suggestion_valid_partial",
    "Ludtwig.Naming.C29_snake_valid_fixed",
    "Ludtwig.Naming.C29_kebab_valid_fixed"
   ],
   "note": "a suggestion may be empty (witness); validity proved, non-emptiness where the name has a letter or digit"
  },
  {
   "property": "C30",
   "status": "proved",
   "theorems": [
    "Ludtwig.Naming.C30_kebab_valid_iff"
   ],
   "note": ""
  },
  {
   "property": "C31",
   "status": "proved",
   "theorems": [
    "Ludtwig.Naming.C31_camel_valid_iff"
   ],
   "note": ""
  },
  {
   "property": "C32",
   "status": "proved",
   "theorems": [
    "Ludtwig.Naming.C32_snake_suggestion_keeps_letters",
    "Ludtwig.Naming.C32_kebab_suggestion_keeps_letters"
   ],
   "note": ""
  },
  {
   "property": "C33",
   "status": "proved",
   "theorems": [
    "Ludtwig.Cli.C33_create_config",
    "Ludtwig.Cli.C33_content"
   ],
   "note": ""
  },
  {
   "property": "C34",
   "status": "proved",
   "theorems": [
    "Ludtwig.Rules.C34_parsed",
    "Ludtwig.Rules.C34_balanced",
    "Ludtwig.Rules.C34_condition_needed"
   ],
   "note": "for every parsed file; with a witness that the condition on blanket directives is needed: a hand-made tree makes the counter underflow"
  },
  {
   "property": "C35",
   "status": "partial",
   "theorems": [
    "Ludtwig.Rules.C35_parsed_partial",
    "Ludtwig.Rules.C35_indentation_partial",
    "Ludtwig.Rules.C35_not_off_outside",
    "Ludtwig.Rules.C35_count_zero"
   ],
   "note": "proved for a configured count above zero; for count zero the claim is false (witness: correct lines are reported)"
  },
  {
   "property": "C36",
   "status": "partial",
   "theorems": [
    "Ludtwig.Rules.C36_unix_exact",
    "Ludtwig.Rules.C36_only_line_breaks",
    "Ludtwig.Rules.C36_unix_file",
    "Ludtwig.Rules.C36_windows_reports_correct",
    "Ludtwig.Rules.C36_windows_partial"
   ],
   "note": "exact for the unix style; false for the windows style (witness: correct CRLF breaks are reported), where exactly what is reported is proved"
  },
  {
   "property": "C37",
   "status": "partial",
   "theorems": [
    "Ludtwig.Rules.C37_unix_fix",
    "Ludtwig.Rules.C37_windows_fix_wrong",
    "Ludtwig.Rules.C37_windows_fix_breaks_file",
    "Ludtwig.Rules.C37_windows_single_partial"
   ],
   "note": "proved for the unix style; false for the windows style (witness: a CRLF becomes CR CR LF and two LFs become one break; a file with `not in` at the end of a line gets a parse error), proved there for a single LF per token"
  },
  {
   "property": "C38",
   "status": "proved",
   "theorems": [
    "Ludtwig.Rules.C38_blank_lines"
   ],
   "note": ""
  },
  {
   "property": "C39",
   "status": "partial",
   "theorems": [
    "Ludtwig.Rules.C39_blocks",
    "Ludtwig.Rules.C39_ids",
    "Ludtwig.Rules.C39_blocks_partial",
    "Ludtwig.Rules.C39_ids_partial",
    "Ludtwig.Rules.C39_nested_directives"
   ],
   "note": "exact for the occurrences the rule considers; these are the ones outside ignored regions if directives are not nested; false for nested directives (witness)"
  },
  {
   "property": "C40",
   "status": "proved",
   "theorems": [
    "Ludtwig.Rules.C40_html_parsed",
    "Ludtwig.Rules.C40_twig_parsed",
    "Ludtwig.Rules.C40_html",
    "Ludtwig.Rules.C40_twig",
    "Ludtwig.Rules.C40_twig_interpolated",
    "Ludtwig.Rules.C40_only_strings",
    "Ludtwig.Rules.C40_blank_becomes_content"
   ],
   "note": "for every string of every parsed file: the node with the quotes changed is not reported and only the quotes of the text change; that parsing the changed text gives that node is not part of the theorem; an unquoted value keeps the blanks in front of it as content (witness)"
  },
  {
   "property": "C41",
   "status": "proved",
   "theorems": [
    "Ludtwig.Rules.C41_and",
    "Ludtwig.Rules.C41_or",
    "Ludtwig.Rules.C41_same_as",
    "Ludtwig.Rules.C41_not_same_as",
    "Ludtwig.Rules.C41_fix",
    "Ludtwig.Rules.C41_fix_can_join",
    "Ludtwig.Rules.C41_no_suggestion_nested"
   ],
   "note": "with witnesses: the operator word is not separated from its operands; a comparison with a binary left operand gets no suggestion"
  },
  {
   "property": "C42",
   "status": "proved",
   "theorems": [
    "Ludtwig.Rules.C42_json_encode_raw"
   ],
   "note": ""
  },
  {
   "property": "C43",
   "status": "proved",
   "theorems": [
    "Ludtwig.Cli.C43_every_problem_counted",
    "Ludtwig.Cli.C43_counts_exact"
   ],
   "note": ""
  },
  {
   "property": "C44",
   "status": "proved",
   "theorems": [
    "Ludtwig.Rules.C44_ranges_in_file",
    "Ludtwig.Rules.C44_apply_succeeds"
   ],
   "note": "for all 22 rules"
  },
  {
   "property": "C45",
   "status": "proved",
   "theorems": [
    "Ludtwig.SyntaxKind.C45_round_trip",
    "Ludtwig.SyntaxKind.C45_guard_exact"
   ],
   "note": ""
  },
  {
   "property": "C46",
   "status": "proved",
   "theorems": [
    "Ludtwig.C46_trimmed_range",
    "Ludtwig.C46_trimmed_inside"
   ],
   "note": ""
  },
  {
   "property": "C47",
   "status": "proved",
   "theorems": [
    "Ludtwig.C47_leading",
    "Ludtwig.C47_trailing",
    "Ludtwig.C47_text"
   ],
   "note": ""
  },
  {
   "property": "C48",
   "status": "proved",
   "theorems": [
    "Ludtwig.Rules.C48_rules_independent",
    "Ludtwig.Rules.C48_definitions_independent"
   ],
   "note": ""
  },
  {
   "property": "C49",
   "status": "proved",
   "theorems": [
    "Ludtwig.C49_lex_tokenizes",
    "Ludtwig.C49_tokenizes_unique"
   ],
   "note": ""
  },
  {
   "property": "C50",
   "status": "proved",
   "theorems": [
    "Ludtwig.Cli.C50_overlap_check"
   ],
   "note": ""
  },
  {
   "property": "C51",
   "status": "proved",
   "theorems": [
    "Ludtwig.Naming.C51_snake_suggestion_exists",
    "Ludtwig.Naming.C51_kebab_suggestion_exists",
    "Ludtwig.Naming.C51_no_suggestion"
   ],
   "note": ""
  },
  {
   "property": "C52",
   "status": "proved",
   "theorems": [
    "Ludtwig.Cli.C52_failed_file_reported"
   ],
   "note": ""
  },
  {
   "property": "C53",
   "status": "proved",
   "theorems": [
    "Ludtwig.Cli.C53_second_fix_changes_nothing"
   ],
   "note": ""
  },
  {
   "property": "C54",
   "status": "proved",
   "theorems": [
    "Ludtwig.Rules.C54_parser_or_overlap",
    "Ludtwig.Rules.C54_panic_reasons"
   ],
   "note": ""
  },
  {
   "property": "C55",
   "status": "proved",
   "theorems": [
    "Ludtwig.Cli.C55_no_infinite_run",
    "Ludtwig.Cli.C55_progress",
    "Ludtwig.Cli.C55_end_reachable"
   ],
   "note": ""
  },
  {
   "property": "C56",
   "status": "proved",
   "theorems": [
    "Ludtwig.Cli.C56_only_walked_files"
   ],
   "note": ""
  },
  {
   "property": "C57",
   "status": "proved",
   "theorems": [
    "Ludtwig.Rules.C57_parsed",
    "Ludtwig.Rules.C57_file_directives"
   ],
   "note": "for every parsed file; and for every tree in which only the root has the kind ROOT"
  },
  {
   "property": "C58",
   "status": "proved",
   "theorems": [
    "Ludtwig.Rules.C58_block_names",
    "Ludtwig.Rules.C58_attribute_names"
   ],
   "note": ""
  },
  {
   "property": "C59",
   "status": "proved",
   "theorems": [
    "Ludtwig.Rules.C59_hash_keys",
    "Ludtwig.Rules.C59_fix_parsed",
    "Ludtwig.Rules.C59_fix_deletes_quotes"
   ],
   "note": "the fix for files without parse errors"
  },
  {
   "property": "C60",
   "status": "proved",
   "theorems": [
    "Ludtwig.Rules.C60_filters",
    "Ludtwig.Rules.C60_tests",
    "Ludtwig.Rules.C60_functions"
   ],
   "note": ""
  },
  {
   "property": "C61",
   "status": "proved",
   "theorems": [
    "Ludtwig.Rules.C61_variables",
    "Ludtwig.Rules.C61_extends"
   ],
   "note": ""
  },
  {
   "property": "C62",
   "status": "proved",
   "theorems": [
    "Ludtwig.Shape.C62_error_free_tree"
   ],
   "note": "the grammar is Verif/Shape/Spec.lean; it records where the parser accepts more than Twig"
  },
  {
   "property": "C63",
   "status": "proved",
   "theorems": [
    "Ludtwig.Shape.C63_every_tree"
   ],
   "note": ""
  },
  {
   "property": "C64",
   "status": "proved",
   "theorems": [
    "Ludtwig.Shape.C64_parts",
    "Ludtwig.Shape.C64_wholes",
    "Ludtwig.Shape.C64_bodies"
   ],
   "note": ""
  },
  {
   "property": "C65",
   "status": "proved",
   "theorems": [
    "Ludtwig.Shape.C65_parts"
   ],
   "note": ""
  },
  {
   "property": "C66",
   "status": "proved",
   "theorems": [
    "Ludtwig.Rules.C66_rules_never_panic"
   ],
   "note": ""
  },
  {
   "property": "C67",
   "status": "proved",
   "theorems": [
    "Ludtwig.Layout.C67_layout",
    "Ludtwig.Layout.C67_leading"
   ],
   "note": "on tokens; runs stay non-empty, since whitespace where there was none can change the errors (witness in Layout/Samples)"
  },
  {
   "property": "C68",
   "status": "proved",
   "theorems": [
    "Ludtwig.Layout.C68_relaid"
   ],
   "note": "under ErrLenOk and ErrLineLocal on the error spans of the lexer generator; the first character stays, since a CR behind `not in` changes the tokens (C37_windows_fix_breaks_file)"
  },
  {
   "property": "C69",
   "status": "proved",
   "theorems": [
    "Ludtwig.Shape.C69_whitespace_attached"
   ],
   "note": ""
  },
  {
   "property": "C70",
   "status": "proved",
   "theorems": [
    "Ludtwig.Rules.C70_layout_fix_keeps_structure",
    "Ludtwig.Layout.insertionSort_sorts"
   ],
   "note": "sort_by is any function with SortsRanges (a permutation without inverted pairs whenever the suggestions can be arranged that way; insertionSort_sorts shows that insertion sort is one); ErrLenOk and ErrLineLocal on the error spans of the lexer generator. Whitespace inside string literals counts as whitespace here"
  },
  {
   "property": "C71",
   "status": "proved",
   "theorems": [
    "Ludtwig.Rules.C71_layout_fix_converges",
    "Ludtwig.Layout.insertionSort_stable"
   ],
   "note": "sort_by is any function with SortsStably (insertionSort_stable shows that insertion sort is one); ErrLenOk and ErrLineLocal on the error spans of the lexer generator. With a width of 0 the loop does not end (C35)"
  },
  {
   "property": "C72",
   "status": "proved",
   "theorems": [
    "Ludtwig.Rules.C72_block_line_breaks",
    "Ludtwig.Rules.C72_behind_is_next"
   ],
   "note": "the token behind a block is the one next_token() finds, which is the next in the file (C72_behind_is_next); it finds none behind an empty node"
  },
  {
   "property": "C73",
   "status": "proved",
   "theorems": [
    "Ludtwig.Template.C73_template_accepted",
    "Ludtwig.Template.C73_unambiguous"
   ],
   "note": "the grammar is Template/Spec; ErrLenOk on the error spans of the lexer generator. The parser also accepts some files outside the grammar (e.g. `{{ a + }}`), so the converse does not hold; what holds for every error-free tree is C62"
  },
  {
   "property": "C74",
   "status": "partial",
   "theorems": [
    "Ludtwig.Rules.C74_layout_rules",
    "Ludtwig.Rules.C74_can_break"
   ],
   "note": "false for eleven rules (one witness each); proved for the layout rules and the rules without suggestions, any set of them together. For twig-string-quotation and html-string-quotation see C75 (templates)."
  },
  {
   "property": "C75",
   "status": "proved",
   "theorems": [
    "Ludtwig.Rules.C75_quote_fix_keeps_templates",
    "Ludtwig.Layout.insertionSort_sorts"
   ],
   "note": "templates are the files derived by the grammar of C73; sort_by is any function with SortsRanges; ErrLenOk and ErrAhead on the error spans of the lexer generator"
  },
  {
   "property": "C76",
   "status": "proved",
   "theorems": [
    "Ludtwig.Rules.C76_quote_fix_keeps_trees"
   ],
   "note": "as C75; unquote leaves out the quotes that are children of a string node"
  },
  {
   "property": "C77",
   "status": "proved",
   "theorems": [
    "Ludtwig.Rules.C77_quote_fix_settles"
   ],
   "note": "as C75"
  },
  {
   "property": "C78",
   "status": "proved",
   "theorems": [
    "Ludtwig.Rules.C78_quotes_after_fix"
   ],
   "note": "as C75; which elements a directive switches a rule off for is stated by hidden and switchedOff (C18)"
  },
  {
   "property": "C79",
   "status": "proved",
   "theorems": [
    "Ludtwig.Rules.C79_neat_fix_keeps_trees"
   ],
   "note": "as C75, and ErrLineLocal. Whitespace between an equals sign and an unquoted value ends up between the new quotes (value_gains_whitespace)"
  },
  {
   "property": "C80",
   "status": "proved",
   "theorems": [
    "Ludtwig.Rules.C80_neat_fix_settles"
   ],
   "note": "as C79; SortsStably, 0 < indentationCount. Four rounds is an upper bound; no file that needs more than two is known"
  },
  {
   "property": "C81",
   "status": "proved",
   "theorems": [
    "Ludtwig.Rules.C81_layout_after_fix",
    "Ludtwig.Rules.C81_neat_after_fix"
   ],
   "note": "as C71 and C80; Enabled, LinesIndented and NoBlankLines are the specification, with expected of C35"
  },
  {
   "property": "C82",
   "status": "proved",
   "theorems": [
    "Ludtwig.Rules.C82_severity_of_rule",
    "Ludtwig.Rules.C82_no_info",
    "Ludtwig.Rules.C82_status_zero_is_clean",
    "Ludtwig.Rules.C82_program_status_zero"
   ],
   "note": "the table is severities in SeverityLemmas; files with distinct paths; a run without any file also ends with 0 (C26)"
  },
  {
   "property": "C83",
   "status": "proved",
   "theorems": [
    "Ludtwig.Rules.C83_labels_in_final_text"
   ],
   "note": "messages and notes of the diagnostics are not modelled; that the library renders a diagnostic whose labels lie in the text is not part of the model; ErrLenOk on the error spans of the lexer generator"
  },
  {
   "property": "C84",
   "status": "proved",
   "theorems": [
    "Ludtwig.Rules.C84_line_endings_keep_structure",
    "Ludtwig.Layout.C84_relined",
    "Ludtwig.Rules.breaks_lineEnding_unix"
   ],
   "note": "unix style only (the windows style is wrong, see C36, C37); sort_by is any function with SortsRanges; ErrLenOk, ErrLineLocal and ErrBreakLocal on the error spans of the lexer generator. That the fix loop ends within ten rounds is not claimed here (see C85)"
  },
  {
   "property": "C85",
   "status": "proved",
   "theorems": [
    "Ludtwig.Rules.C85_line_endings_converge",
    "Ludtwig.Rules.line_step",
    "Ludtwig.Rules.line_found"
   ],
   "note": "same assumptions as C84; the sort is stable (SortsStably, as sort_by is); AllReached: no ignore directive covers a CRLF for the rule (then it stays, see the example). The rules of a file are those of its first text, as in the code"
  },
  {
   "property": "C86",
   "status": "proved",
   "theorems": [
    "Ludtwig.Layout.C86_widened"
   ],
   "note": "on tokens; the conditions are those of Widened, each with a witness (Layout/Widen, Layout/Samples)"
  },
  {
   "property": "C87",
   "status": "proved",
   "theorems": [
    "Ludtwig.Layout.C87_broken"
   ],
   "note": "on texts; the conditions are those of Breakable (Layout/BreakSpec), and ErrBeforeBreak is assumed of logos"
  },
  {
   "property": "C88",
   "status": "proved",
   "theorems": [
    "Ludtwig.Rules.C88_block_break_fix_keeps_structure"
   ],
   "note": "the exception is the first alternative of the theorem (RawBlock and Crowded); C89 excludes it for files without blocks in raw text, and no file is known to which it applies. breaks_lineBreaks (C74) shows that the condition about '<' is needed"
  },
  {
   "property": "C89",
   "status": "proved",
   "theorems": [
    "Ludtwig.Rules.C89_breaks_at_different_places"
   ],
   "note": "the condition about raw text is used because the grammar (C62) allows a second raw text behind the first one; no file is known in which it is needed"
  },
  {
   "property": "C90",
   "status": "proved",
   "theorems": [
    "Ludtwig.Rules.C90_block_break_fix_settles"
   ],
   "note": "the condition about raw text is that of C89; the others are those of C88"
  },
  {
   "property": "C91",
   "status": "proved",
   "theorems": [
    "Ludtwig.Rules.C91_block_breaks_after_fix"
   ],
   "note": "conditions as in C90; places are bytes of the text"
  },
  {
   "property": "C92",
   "status": "proved",
   "theorems": [
    "Ludtwig.Rules.C92_line_fix_keeps_structure"
   ],
   "note": "conditions as in C90. That the fix ends within the limit of rounds is not claimed"
  },
  {
   "property": "C93",
   "status": "proved",
   "theorems": [
    "Ludtwig.Rules.C93_rows_after_fix"
   ],
   "note": "conditions as in C92; the success of the run is a hypothesis"
  },
  {
   "property": "C94",
   "status": "proved",
   "theorems": [
    "Ludtwig.Rules.C94_fix_changes_whitespace_only",
    "Ludtwig.Rules.C94_line_endings_change_whitespace_only",
    "Ludtwig.Rules.C94_same_structure_same_text"
   ],
   "note": "conditions as in C92 and C84; whitespace inside of tokens (of comments, of raw text) stays too, as the tokens are the same, see C92 and C84"
  },
  {
   "property": "C95",
   "status": "proved",
   "theorems": [
    "Ludtwig.Rules.C95_neat_fix_keeps_signs"
   ],
   "note": "conditions as in C79; that only the quotes around strings change is C79"
  },
  {
   "property": "C96",
   "status": "proved",
   "theorems": [
    "Ludtwig.Rules.C96_layout_fix_keeps_lines",
    "Ludtwig.Rules.edits_unindented"
   ],
   "note": "conditions as in C70, and an indentation width other than 0; lines end with LF, a CR before it belongs to the line"
  },
  {
   "property": "C97",
   "status": "proved",
   "theorems": [
    "Ludtwig.Rules.C97_block_break_fix_changes_breaks_only",
    "Ludtwig.Rules.spaced_unbroken",
    "Ludtwig.Rules.spaced_linesKept"
   ],
   "note": "conditions as in C90"
  },
  {
   "property": "C98",
   "status": "proved",
   "theorems": [
    "Ludtwig.Rules.C98_line_fix_joins_no_lines",
    "Ludtwig.Rules.shifted_apart"
   ],
   "note": "conditions as in C92; empty lines before the first character that is not whitespace are left out"
  }
 ]
}