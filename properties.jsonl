{"id": "C01", "title": "parse is lossless", "statement": "Whenever `parse(text)` returns, the concatenation of the texts of all tokens in the returned syntax tree, read left to right, is exactly `text`: nothing is lost, added or reordered, no matter how malformed the template is.", "quantifier": "every source text (any list of Unicode scalar values) and every way the lexer may size an unrecognised span", "why_tests_cant": "Snapshot tests compare a few hundred templates; error recovery, token merging and wrapping interact in unboundedly many ways, and one dropped token silently corrupts files under --fix.", "anchors": ["crates/ludtwig-parser/src/parser.rs:parse", "crates/ludtwig-parser/src/parser/sink.rs:Sink::finish", "crates/ludtwig-parser/src/grammar.rs:root", "crates/ludtwig-parser/src/grammar/html.rs", "crates/ludtwig-parser/src/grammar/twig.rs"]}
{"id": "C02", "title": "lexing partitions the source", "statement": "The token list of any text is a partition of it: every token is non-empty, its range length is the byte length of its text, ranges are contiguous starting at 0 and ending at the byte length of the text, and the token texts concatenate to the text.", "quantifier": "every source text", "why_tests_cant": "Only an inductive argument over all texts excludes gaps, overlaps and zero-length tokens.", "anchors": ["crates/ludtwig-parser/src/lexer.rs:lex", "crates/ludtwig-parser/src/syntax/untyped.rs:SyntaxKind"]}
{"id": "C03", "title": "parsing terminates", "statement": "For every text `parse` finishes: no loop or recursion of the grammar can run forever; the nesting depth of grammar calls is bounded by a fixed multiple of the number of tokens.", "quantifier": "every source text", "why_tests_cant": "A finite test-suite cannot show that no input makes a recovery loop spin without progress.", "anchors": ["crates/ludtwig-parser/src/grammar.rs:parse_many", "crates/ludtwig-parser/src/grammar.rs:parse_any_element", "crates/ludtwig-parser/src/parser.rs:Parser::recover_expect"]}
{"id": "C04", "title": "parse never panics", "statement": "For every text `parse` returns a result instead of panicking.", "quantifier": "every source text", "why_tests_cant": "A panic needs one unlucky token sequence at end of file; the absence of such a sequence is a universal claim. (It turns out to be false at this commit; see DESIGN.md.)", "anchors": ["crates/ludtwig-parser/src/parser.rs:Parser::bump", "crates/ludtwig-parser/src/grammar/html.rs:parse_html_raw_text", "crates/ludtwig-parser/src/grammar/twig/literal.rs:parse_twig_arrow_function"]}
{"id": "C05", "title": "one well-formed ROOT", "statement": "Whenever `parse` returns, the result is exactly one node of kind ROOT, every node that was opened was closed, and every leaf token is either one lexer token (possibly under another kind) or a merge of consecutive lexer tokens, in source order.", "quantifier": "every source text", "why_tests_cant": "Tree well-formedness has to survive every recovery path.", "anchors": ["crates/ludtwig-parser/src/parser/sink.rs:Sink::finish", "crates/ludtwig-parser/src/parser/event.rs:EventCollection"]}
{"id": "C06", "title": "parse errors point into the source", "statement": "Every reported parse error carries the exact byte range of one of the tokens of the text (so it lies inside the file and on character boundaries); if it says that something was found, the found kind is the kind of the token at that range; if it says end of file, the range is that of the last token.", "quantifier": "every source text and every reported error", "why_tests_cant": "Errors are created at more than a hundred places with different recovery states.", "anchors": ["crates/ludtwig-parser/src/parser.rs:Parser::add_error", "crates/ludtwig-parser/src/parser/parse_error.rs"]}
{"id": "C07", "title": "nodes are closed innermost first", "statement": "During any parse every node marker that is started is completed exactly once, always the innermost open one first, and a node is wrapped by a preceding marker at most once and only after completion: the ordering assertion of debug builds can never fire.", "quantifier": "every source text, every execution prefix", "why_tests_cant": "The check exists only as a debug assertion on executed paths.", "anchors": ["crates/ludtwig-parser/src/parser/event.rs:EventCollection::complete", "crates/ludtwig-parser/src/parser/event.rs:EventCollection::precede"]}
{"id": "C08", "title": "wrapping equals direct construction", "statement": "Replaying the recorded events into the tree builder (with the forward-parent links resolved late) gives the same tree as building the tree directly, where wrapping an already completed node inserts the new parent around it and everything after it.", "quantifier": "every sequence of start/complete/precede/token operations that respects the marker discipline", "why_tests_cant": "The late resolution of forward parents is an index computation over an unbounded event list.", "anchors": ["crates/ludtwig-parser/src/parser/event.rs:EventCollection::precede", "crates/ludtwig-parser/src/parser/sink.rs:Sink::finish"]}
{"id": "C09", "title": "error-free parse has no ERROR node", "statement": "If `parse` reports no error then the returned tree contains no ERROR node: code is only ever set aside as malformed together with a message.", "quantifier": "every source text", "why_tests_cant": "A silent ERROR node would switch off all rules for its content without any message; only a universal argument excludes it.", "anchors": ["crates/ludtwig-parser/src/parser.rs:Parser::recover_expect", "crates/ludtwig-parser/src/parser.rs:Parser::expect", "crates/ludtwig-parser/src/grammar/twig.rs"]}
{"id": "C10", "title": "error recovery stops at recovery tokens", "statement": "When the parser recovers from an error it skips exactly the tokens up to (not including) the first token of the caller's recovery set, of the general recovery set or of the expected kinds, or up to the end of file; the skipped tokens are wrapped in one ERROR node, none if there is nothing to skip.", "quantifier": "every parser state, expected set and recovery set", "why_tests_cant": "Recovery is a loop over an arbitrary token suffix.", "anchors": ["crates/ludtwig-parser/src/parser.rs:Parser::recover", "crates/ludtwig-parser/src/parser.rs:Parser::recover_expect"]}
{"id": "C11", "title": "operator precedence and associativity", "statement": "Parsing a flat sequence of operands and binary operators groups them according to the operator table: an operator never captures, as an unparenthesised operand on its left, an operator that binds less tightly, nor on its right one that does not bind tighter (right associative ones excepted), and the operands and operators appear in source order.", "quantifier": "every non-empty sequence of operands and operators of any length", "why_tests_cant": "Tests cover a handful of operator pairs; grouping is a property of unbounded sequences.", "anchors": ["crates/ludtwig-parser/src/grammar/twig/expression.rs:parse_twig_expression_binding_power"]}
{"id": "C12", "title": "lookahead ignores trivia", "statement": "The token-kind lookahead used by the grammar (next kind, next-but-one kind, sequence lookahead) depends only on the remaining non-whitespace tokens, so inserting or removing whitespace tokens in front of tokens never changes its answer.", "quantifier": "every token list, position and pattern", "why_tests_cant": "Universally quantified over whitespace insertions.", "anchors": ["crates/ludtwig-parser/src/parser/source.rs:Source::peek_kind", "crates/ludtwig-parser/src/parser/source.rs:Source::at_following", "crates/ludtwig-parser/src/parser/source.rs:Source::peek_next_non_trivia_kind"]}
{"id": "C13", "title": "whitespace and line-break tokens", "statement": "Every whitespace token consists of blanks and tabs only, every line-break token is a sequence of LF / CRLF, and no two whitespace tokens nor two line-break tokens are adjacent (each is maximal).", "quantifier": "every source text", "why_tests_cant": "Maximality is a statement about all neighbouring tokens of all texts.", "anchors": ["crates/ludtwig-parser/src/syntax/untyped.rs:SyntaxKind::TK_WHITESPACE", "crates/ludtwig-parser/src/syntax/untyped.rs:SyntaxKind::TK_LINE_BREAK"]}
{"id": "C14", "title": "two-word operators end at a word boundary", "statement": "A `not in` / `is not` operator token is only produced when the text is followed by a blank, tab, LF or the end of the file; otherwise the shorter operator is produced.", "quantifier": "every source text", "why_tests_cant": "Depends on the arbitrary text following the token.", "anchors": ["crates/ludtwig-parser/src/syntax/untyped.rs:cb_not", "crates/ludtwig-parser/src/syntax/untyped.rs:cb_is"]}
{"id": "C15", "title": "active rules follow the config", "statement": "The active rules are exactly the known rules whose name is listed in the config, each once and in definition order, however the config orders or repeats the names.", "quantifier": "every list of configured rule names", "why_tests_cant": "Ranges over all lists of names.", "anchors": ["crates/ludtwig/src/check/rules.rs:get_config_active_rule_definitions"]}
{"id": "C16", "title": "unknown rule names are rejected", "statement": "If the config lists an unknown rule name, start-up fails naming the first unknown name and the process exits with 1 without reading any file; if all names are known it does not fail.", "quantifier": "every list of configured rule names and every file system content", "why_tests_cant": "Ranges over all configs.", "anchors": ["crates/ludtwig/src/check/rules.rs:get_config_active_rule_definitions", "crates/ludtwig/src/main.rs:app"]}
{"id": "C17", "title": "file-ignore directives", "statement": "For a file, the rules that run are the active rules minus those named in top-level ludtwig-ignore-file directives, in the same order; none run if one of these directives names no rule; directives that are not direct children of the root have no effect.", "quantifier": "every syntax tree and every list of active rules", "why_tests_cant": "Ranges over all trees.", "anchors": ["crates/ludtwig/src/check/rules.rs:get_file_active_rule_definitions"]}
{"id": "C18", "title": "scope of ludtwig-ignore", "statement": "A rule's node and token checks run on exactly those tree elements that are not inside an ERROR node and for which neither they nor an ancestor directly follow a ludtwig-ignore directive that is blanket or names the rule.", "quantifier": "every syntax tree and every set of rules", "why_tests_cant": "The implementation tracks the scope with a mutable list during traversal; the declarative scope is a statement about all trees.", "anchors": ["crates/ludtwig/src/check.rs:run_rules"]}
{"id": "C19", "title": "run_rules never panics on directives", "statement": "The bookkeeping of ignored rules never fails: whenever a node that follows a directive is left, the rule names to remove are present, and at the end of the traversal the list is empty.", "quantifier": "every syntax tree", "why_tests_cant": "The `expect` would only fire on particular nestings of directives and skipped subtrees.", "anchors": ["crates/ludtwig/src/check.rs:run_rules"]}
{"id": "C20", "title": "whitespace is protected inside sensitive nodes", "statement": "While rules run on any descendant of a pre/textarea/script/style tag or of a quoted string, the traversal context says that trivia must not be modified.", "quantifier": "every syntax tree and every descendant", "why_tests_cant": "The flag is a single boolean toggled on enter/leave; whether it is right depends on arbitrary nesting. (False at this commit for nested sensitive nodes; see DESIGN.md.)", "anchors": ["crates/ludtwig/src/check.rs:run_rules"]}
{"id": "C21", "title": "fix application is the simultaneous edit", "statement": "When the selected suggestions are sorted and pairwise disjoint and lie on character boundaries, applying them yields the text in which every suggested range is replaced by its replacement and everything outside the ranges is unchanged.", "quantifier": "every text and every sorted disjoint list of suggestions", "why_tests_cant": "Back-to-front splicing with byte offsets over arbitrary lists.", "anchors": ["crates/ludtwig/src/process.rs:apply_suggestions_to_text"]}
{"id": "C22", "title": "applied suggestions never overlap", "statement": "In every fix round the suggestions that are actually applied are pairwise non-overlapping.", "quantifier": "every list of suggestions of any rules", "why_tests_cant": "Only adjacent pairs of the sorted list are compared. (False at this commit; see DESIGN.md.)", "anchors": ["crates/ludtwig/src/process.rs:iteratively_apply_suggestions"]}
{"id": "C23", "title": "files are only written by a successful fix", "statement": "A file is written at most once per run, only when --fix is given, only after at least one suggestion was applied and the fix loop succeeded; on any error nothing is written and the content stays as it was.", "quantifier": "every file content, every behaviour of parser and rules", "why_tests_cant": "Ranges over all rule behaviours and failure points.", "anchors": ["crates/ludtwig/src/process.rs:run_analysis", "crates/ludtwig/src/process.rs:iteratively_apply_suggestions"]}
{"id": "C24", "title": "a successful fix leaves nothing to fix", "statement": "If the fix loop succeeds, the text it produces (the one written and reported) has no remaining suggestion when its own parse is checked, and the diagnostics reported are those of that final text.", "quantifier": "every file content, every behaviour of parser and rules", "why_tests_cant": "Fixpoint of an arbitrary rewriting loop.", "anchors": ["crates/ludtwig/src/process.rs:iteratively_apply_suggestions"]}
{"id": "C25", "title": "the fix loop is bounded", "statement": "The fix loop parses the file at most ten further times and then either succeeds with fewer than ten rounds or fails with the iteration error; it never loops forever even if rules disagree forever.", "quantifier": "every file content, every behaviour of parser and rules", "why_tests_cant": "Ping-pong rules could loop forever; a bound is universal.", "anchors": ["crates/ludtwig/src/process.rs:iteratively_apply_suggestions"]}
{"id": "C26", "title": "exit status", "statement": "The exit status is 1 exactly if some error, warning or help was reported or the config names an unknown rule; otherwise 0.", "quantifier": "every multiset of processing events", "why_tests_cant": "All interleavings and counts. (False at this commit when only directory walking failed; see DESIGN.md.)", "anchors": ["crates/ludtwig/src/output.rs:handle_processing_output", "crates/ludtwig/src/main.rs:app", "crates/ludtwig/src/main.rs:handle_input_paths"]}
{"id": "C27", "title": "summary independent of scheduling", "statement": "The final counts and the exit status do not depend on the order in which the worker threads' events arrive.", "quantifier": "every interleaving of every set of per-file event sequences", "why_tests_cant": "Schedules cannot be enumerated by tests.", "anchors": ["crates/ludtwig/src/output.rs:handle_processing_output", "crates/ludtwig/src/main.rs:handle_input_paths"]}
{"id": "C28", "title": "snake_case validity", "statement": "A name is accepted as snake_case (SCREAMING_SNAKE_CASE) exactly if it is empty or a sequence of non-empty runs of digits and letters of the required case joined by single underscores.", "quantifier": "every string and both modes", "why_tests_cant": "All strings.", "anchors": ["crates/ludtwig/src/check/naming_convention.rs:is_valid_ascii_alpha_snake_case"]}
{"id": "C29", "title": "name suggestions are valid names", "statement": "Every name suggested by the snake_case and kebab-case helpers is accepted by the corresponding check and is non-empty, so applying the suggestion resolves the finding.", "quantifier": "every string and both modes", "why_tests_cant": "All strings. (Non-emptiness is false at this commit; see DESIGN.md.)", "anchors": ["crates/ludtwig/src/check/naming_convention.rs:try_make_snake_case", "crates/ludtwig/src/check/naming_convention.rs:try_make_kebab_case"]}
{"id": "C30", "title": "kebab-case validity", "statement": "An attribute name is accepted as kebab-case exactly if it is empty, or a sequence of runs of lowercase letters and digits joined by single minus signs, or one of ':', '@', '#' followed by nothing, by such a sequence, or by one minus sign and such a sequence.", "quantifier": "every string", "why_tests_cant": "All strings.", "anchors": ["crates/ludtwig/src/check/naming_convention.rs:is_valid_alphanumeric_kebab_case"]}
{"id": "C31", "title": "camelCase validity", "statement": "A variable name is accepted as camelCase exactly if, after its leading underscores, it is empty or starts with an ASCII lowercase letter and contains neither underscore nor minus.", "quantifier": "every string", "why_tests_cant": "All strings.", "anchors": ["crates/ludtwig/src/check/naming_convention.rs:is_camel_case"]}
{"id": "C32", "title": "suggestions keep the letters of a name", "statement": "A suggested snake_case or kebab-case name has the same letters and digits in the same order as the original, up to letter case: only separators are added, removed or replaced.", "quantifier": "every string and both modes", "why_tests_cant": "All strings.", "anchors": ["crates/ludtwig/src/check/naming_convention.rs:try_make_snake_case", "crates/ludtwig/src/check/naming_convention.rs:try_make_kebab_case"]}
{"id": "C33", "title": "create-config never overwrites", "statement": "With the create-config option an existing config file is never changed: either the file did not exist and is created with exactly the default content (the version put in) and exit status 0, or it did not exist and writing it fails with a panic, or nothing is written and the exit status is 1. No other file changes.", "quantifier": "every file system state and path", "why_tests_cant": "All prior file contents.", "anchors": ["crates/ludtwig/src/config.rs:handle_config_or_exit"]}
{"id": "C34", "title": "indentation bookkeeping is balanced", "statement": "During the indentation check the nesting level and alignment counters never go below zero and are back at zero at the end of the file.", "quantifier": "every syntax tree in which no indented node directly follows a blanket ludtwig-ignore", "why_tests_cant": "Arbitrary nesting of nodes, ignored subtrees and ERROR nodes.", "anchors": ["crates/ludtwig/src/check/rules/indentation.rs:RuleIndentation::check_root"]}
{"id": "C35", "title": "expected indentation", "statement": "A line outside sensitive and ignored regions is reported by the indentation rule exactly if its leading whitespace differs from (level × configured count) configured characters followed by the alignment blanks, where level is the number of indenting ancestors of its first token; the suggestion replaces exactly that whitespace by the expected one.", "quantifier": "every syntax tree and configuration", "why_tests_cant": "The level is computed by mutable counters; the declarative ancestor count is a statement about all trees.", "anchors": ["crates/ludtwig/src/check/rules/indentation.rs"]}
{"id": "C36", "title": "line-ending check is exact", "statement": "A line break is reported by the line-ending rule exactly if it is not of the configured style; a file that already has the configured style gets no report.", "quantifier": "every line-break token text and both styles", "why_tests_cant": "All sequences of LF and CRLF. (False at this commit for windows_CRLF; see DESIGN.md.)", "anchors": ["crates/ludtwig/src/check/rules/line_ending.rs"]}
{"id": "C37", "title": "line-ending fix keeps the lines", "statement": "Applying the suggestions of the line-ending rule leaves only line breaks of the configured style and keeps their number.", "quantifier": "every line-break token text and both styles", "why_tests_cant": "All sequences of LF and CRLF. (False at this commit for windows_CRLF; see DESIGN.md.)", "anchors": ["crates/ludtwig/src/check/rules/line_ending.rs"]}
{"id": "C38", "title": "blank lines carry no whitespace", "statement": "whitespace-between-line-breaks reports exactly the whitespace tokens that directly follow one line break and directly precede another, and suggests deleting exactly them.", "quantifier": "every syntax tree", "why_tests_cant": "All token neighbourhoods across node boundaries.", "anchors": ["crates/ludtwig/src/check/rules/whitespace_between_line_breaks.rs"]}
{"id": "C39", "title": "duplicate detection is exact", "statement": "Within a file (outside ERROR and ignored regions) the duplicate rules report exactly the occurrences of a block name / static id value that are not its first occurrence, each with a reference to the first one.", "quantifier": "every sequence of occurrences in a tree", "why_tests_cant": "All sequences of names.", "anchors": ["crates/ludtwig/src/check/rules/twig_block_duplicate.rs", "crates/ludtwig/src/check/rules/html_duplicate_id.rs"]}
{"id": "C40", "title": "quotation fix is safe", "statement": "A quotation suggestion is only made if the string content does not contain the new quote, never changes the content, and once applied the string is no longer reported.", "quantifier": "every string node and both styles", "why_tests_cant": "All string contents.", "anchors": ["crates/ludtwig/src/check/rules/twig_string_quotation.rs", "crates/ludtwig/src/check/rules/html_string_quotation.rs"]}
{"id": "C41", "title": "invalid operators are reported exactly", "statement": "`&&`, `||`, `===` and `!==` are reported exactly for binary expressions whose first own token is that operator; the suggestion for `&&`/`||` replaces exactly the operator token.", "quantifier": "every syntax tree node", "why_tests_cant": "All nodes.", "anchors": ["crates/ludtwig/src/check/rules/twig_logic_and.rs", "crates/ludtwig/src/check/rules/twig_logic_or.rs", "crates/ludtwig/src/check/rules/twig_use_is_same_as.rs", "crates/ludtwig/src/check/rules/twig_use_is_not_same_as.rs"]}
{"id": "C42", "title": "raw after json_encode", "statement": "The json-encode rule reports a filter exactly if it is `raw` and some filter to its left in the same filter chain is named json_encode.", "quantifier": "every filter chain of any length", "why_tests_cant": "Chains are unbounded.", "anchors": ["crates/ludtwig/src/check/rules/twig_json_encode_escape_js.rs"]}
{"id": "C43", "title": "every problem is counted", "statement": "After processing a file successfully the number of reported errors is the number of parse errors plus the rule results of severity error, and likewise for the other severities (plus one info with --inspect): no finding is dropped from the summary.", "quantifier": "every file and every rule behaviour", "why_tests_cant": "All result lists.", "anchors": ["crates/ludtwig/src/check.rs:produce_diagnostics", "crates/ludtwig/src/process.rs:process_file"]}
{"id": "C44", "title": "suggestions stay inside the file", "statement": "The ranges of all findings and suggestions of all rules lie inside the file on character boundaries, so applying disjoint ones cannot panic.", "quantifier": "every syntax tree", "why_tests_cant": "All trees and multi-byte texts.", "anchors": ["crates/ludtwig/src/process.rs:apply_suggestions_to_text", "crates/ludtwig/src/check/rules"]}
{"id": "C45", "title": "kind numbering round-trips", "statement": "Converting a syntax kind to its raw number and back is the identity, and every number accepted by the guard denotes a kind, so the unchecked conversion is safe.", "quantifier": "every kind and every 16-bit number", "why_tests_cant": "Exhaustive over the numbering.", "anchors": ["crates/ludtwig-parser/src/syntax/untyped.rs:TemplateLanguage"]}
{"id": "C46", "title": "trimmed ranges", "statement": "The trivia-trimmed range of a node lies inside the node's range, ends where the node ends, is non-empty for non-empty nodes and starts after leading whitespace tokens unless nothing else is left.", "quantifier": "every syntax tree node", "why_tests_cant": "All nodes.", "anchors": ["crates/ludtwig-parser/src/syntax/untyped.rs:SyntaxNodeExt::text_range_trimmed_trivia"]}
{"id": "C47", "title": "whitespace-control accessors", "statement": "The whitespace-control accessors report trimming exactly according to the first / last non-trivia own token of the tag.", "quantifier": "every syntax tree node", "why_tests_cant": "All nodes.", "anchors": ["crates/ludtwig-parser/src/syntax/typed.rs:HasWhitespaceControl"]}
{"id": "C48", "title": "rules do not influence each other", "statement": "The findings of one rule on a file do not depend on which other rules are active.", "quantifier": "every syntax tree and every pair of rule sets", "why_tests_cant": "All combinations of rules.", "anchors": ["crates/ludtwig/src/check.rs:run_rules"]}
{"id": "C49", "title": "maximal munch", "statement": "The token sequence of any text is the unique one given by longest match over the literal tokens and regular expressions declared on the syntax kinds (a literal wins over a regular expression of the same length), with the two-word operators and spans of unrecognised text as the only additions.", "quantifier": "every source text and every way the lexer may size an unrecognised span", "why_tests_cant": "A statement about all texts and all competing rules at every position.", "anchors": ["crates/ludtwig-parser/src/lexer.rs:lex", "crates/ludtwig-parser/src/syntax/untyped.rs:SyntaxKind"]}
{"id": "C50", "title": "overlap check", "statement": "A fix round is refused exactly when two neighbouring suggestions of one rule overlap (naming such a rule); otherwise exactly the rules of the later suggestion of an overlapping neighbouring pair wait for the next round.", "quantifier": "every list of suggestions of any rules", "why_tests_cant": "All suggestion lists.", "anchors": ["crates/ludtwig/src/process.rs:iteratively_apply_suggestions"]}
{"id": "C51", "title": "name suggestions exist", "statement": "Every name that starts with an ASCII letter or digit and consists of ASCII letters, digits, minus signs and underscores gets a snake_case and a kebab-case suggestion.", "quantifier": "every such string of any length and both modes", "why_tests_cant": "All strings.", "anchors": ["crates/ludtwig/src/check/naming_convention.rs:try_make_snake_case", "crates/ludtwig/src/check/naming_convention.rs:try_make_kebab_case"]}
{"id": "C52", "title": "failing files are reported", "statement": "A file that cannot be processed is counted once, with exactly one error, and keeps its content unless writing it failed.", "quantifier": "every file, every rule behaviour and every kind of failure", "why_tests_cant": "All failures.", "anchors": ["crates/ludtwig/src/process.rs:process_file", "crates/ludtwig/src/main.rs:handle_input_paths"]}
{"id": "C53", "title": "fixing twice is fixing once", "statement": "If fixing a file succeeds and the rules that apply to it are still those of the fixed text, then a second run with --fix succeeds, writes nothing, and reports the same.", "quantifier": "every text, parser, set of rules and flags", "why_tests_cant": "All texts and all rules; needs that the loop only ends without applicable suggestions.", "anchors": ["crates/ludtwig/src/process.rs:iteratively_apply_suggestions", "crates/ludtwig/src/process.rs:run_analysis"]}
{"id": "C54", "title": "why processing a file can panic", "statement": "Processing a file panics only if the parser or the rules panic on a text that was parsed, or two of the suggestions that are applied in one round overlap or are out of order (never because a range is outside the text or not on character boundaries).", "quantifier": "every text and flags, for the modelled parser and rules", "why_tests_cant": "All inputs; a panic of one file ends the whole program.", "anchors": ["crates/ludtwig/src/process.rs:run_analysis", "crates/ludtwig/src/check.rs:run_rules"]}
{"id": "C55", "title": "every run ends", "statement": "The program never hangs: there is no infinite sequence of actions of the tasks, a run that is not at its end can always continue, and an end is always reached.", "quantifier": "every set of tasks, every schedule and every file system behaviour", "why_tests_cant": "Schedules cannot be enumerated.", "anchors": ["crates/ludtwig/src/main.rs:handle_input_paths", "crates/ludtwig/src/process.rs:process_file"]}
{"id": "C56", "title": "only walked files are touched", "statement": "At every moment of every run only files found by the walker have been read or written, files are written only with --fix, and all other files are unchanged.", "quantifier": "every file system, list of walked items, schedule and every intermediate state", "why_tests_cant": "All schedules, all intermediate states, and files found twice.", "anchors": ["crates/ludtwig/src/main.rs:handle_input_paths", "crates/ludtwig/src/process.rs:run_analysis"]}
{"id": "C57", "title": "file directives belong directly below the root", "statement": "ludtwig-ignore-file-not-on-top reports exactly the ludtwig-ignore-file directives (outside ERROR and ignored regions) that are not a direct child of the root, each at its place.", "quantifier": "every syntax tree and configuration", "why_tests_cant": "All positions of directives in all trees.", "anchors": ["crates/ludtwig/src/check/rules/ludtwig_ignore_file_not_on_top.rs"]}
{"id": "C58", "title": "block and attribute names", "statement": "The naming rules report exactly the block names that are not snake_case and the names of attributes in the attribute lists of tags (not twig components) that are not kebab-case; a suggestion replaces exactly the name by a valid one with the same letters and digits, and exists for every name of ASCII letters, digits and separators that does not begin with a separator.", "quantifier": "every syntax tree and configuration", "why_tests_cant": "All trees and all names.", "anchors": ["crates/ludtwig/src/check/rules/twig_block_name_snake_case.rs", "crates/ludtwig/src/check/rules/html_attribute_name_kebab_case.rs"]}
{"id": "C59", "title": "quoted hash keys", "statement": "twig-hash-key-no-quotes reports exactly the hash keys that are a string of a single token that is a twig name; applying its suggestions deletes the two quotes and nothing else.", "quantifier": "every syntax tree and configuration", "why_tests_cant": "All keys in all trees.", "anchors": ["crates/ludtwig/src/check/rules/twig_hash_key_no_quotes.rs"]}
{"id": "C60", "title": "known filters, tests and functions", "statement": "The rules for known names report exactly the filters, the tests (right sides of 'is' and 'is not') and the other function calls whose name is not in the configured list; a call that is the right side of a filter or a test is not treated as a function.", "quantifier": "every syntax tree and configuration", "why_tests_cant": "All trees and all configured lists.", "anchors": ["crates/ludtwig/src/check/rules/twig_valid_filter.rs", "crates/ludtwig/src/check/rules/twig_valid_test.rs", "crates/ludtwig/src/check/rules/twig_valid_function.rs"]}
{"id": "C61", "title": "variable names and extends", "statement": "Variable definitions (set assignments and for loops) are reported exactly if the name is not camelCase, or not SCREAMING_SNAKE_CASE for an assignment of a call of 'constant'; twig-prefer-shopware-extends reports exactly the extends tags and replaces exactly the keyword.", "quantifier": "every syntax tree and configuration", "why_tests_cant": "All trees.", "anchors": ["crates/ludtwig/src/check/rules/twig_variable_definition_naming.rs", "crates/ludtwig/src/check/rules/twig_prefer_shopware_extends.rs"]}
{"id": "C62", "title": "error-free trees follow the grammar", "statement": "If a text is parsed without a parse error, every node of the syntax tree has the children that the grammar of its kind asks for, in order and trivia aside (for each of the 118 node kinds a regular expression; TWIG_LITERAL_HASH_VALUE never occurs, e.g. a for-tag has one or two names, 'in' and an expression).", "quantifier": "every source text", "why_tests_cant": "Tests compare trees of chosen templates; the claim is about every node of every tree.", "anchors": ["crates/ludtwig-parser/src/grammar/twig.rs", "crates/ludtwig-parser/src/grammar/twig/tags.rs", "crates/ludtwig-parser/src/grammar/html.rs", "crates/ludtwig-parser/src/grammar/twig/expression.rs", "crates/ludtwig-parser/src/grammar/twig/literal.rs", "crates/ludtwig-parser/src/syntax/untyped.rs"]}
{"id": "C63", "title": "every tree follows the damaged grammar", "statement": "Also in a file with parse errors the children of every node follow the grammar, except that parts not marked as sure may be missing and ERROR nodes may be in between; ERROR nodes consist of tokens only.", "quantifier": "every source text", "why_tests_cant": "All texts with all possible errors.", "anchors": ["crates/ludtwig-parser/src/grammar/twig.rs", "crates/ludtwig-parser/src/grammar/twig/tags.rs", "crates/ludtwig-parser/src/grammar/html.rs", "crates/ludtwig-parser/src/parser.rs"]}
{"id": "C64", "title": "typed accessors find their parts in every tree", "statement": "In every parsed tree, also with parse errors, these accessors succeed: starting block and starting tag, attribute list, inner string, name of a literal, both operands of a filter, operand and arguments of a call, the extends keyword, the operator of a binary expression (which is one of the binary operators), the rule list of a directive, the way up from starting and ending parts to their block or tag and from an attribute to its tag unless it is in a body; a tag or block has an ending exactly if it has a body.", "quantifier": "every source text and every node of its tree", "why_tests_cant": "All trees.", "anchors": ["crates/ludtwig-parser/src/syntax/typed.rs"]}
{"id": "C65", "title": "typed accessors in error-free trees", "statement": "In a tree without parse errors the accessors of block names, tag names and the expression of a variable succeed, too.", "quantifier": "every source text without parse error and every node", "why_tests_cant": "All trees.", "anchors": ["crates/ludtwig-parser/src/syntax/typed.rs"]}
{"id": "C66", "title": "no rule panics on a parsed file", "statement": "Running any of the rules on the tree of a parsed file ends without panic, in particular the level of the indentation rule never underflows.", "quantifier": "every source text, configuration and selection of rules", "why_tests_cant": "All trees; the condition that rules out the underflow is a fact about the whole parser.", "anchors": ["crates/ludtwig/src/check.rs:run_rules", "crates/ludtwig/src/check/rules/indentation.rs:RuleIndentation::check_root"]}
{"id": "C67", "title": "layout does not change the structure", "statement": "If the runs of whitespace and line breaks between the tokens of a file are replaced by other non-empty runs (keeping the first kind directly behind '<'), parsing gives the same panic or the same syntax tree and syntax errors, up to whitespace, line breaks and places.", "quantifier": "every list of tokens, also with syntax errors", "why_tests_cant": "All files and all changes of layout; the position checks of parse_many look at whitespace.", "anchors": ["crates/ludtwig-parser/src/parser.rs", "crates/ludtwig-parser/src/parser/source.rs", "crates/ludtwig-parser/src/grammar.rs:parse_many", "crates/ludtwig-parser/src/grammar/html.rs:parse_html_attribute_or_twig", "crates/ludtwig-parser/src/parser/sink.rs"]}
{"id": "C68", "title": "re-indenting a file does not change its structure", "statement": "If the runs of whitespace with a line break in them are replaced by other runs with a line break that start with the same character, and the whitespace at the beginning of the file by any other, parsing gives the same panic or the same syntax tree and syntax errors, up to whitespace, line breaks and places.", "quantifier": "every text, also with syntax errors", "why_tests_cant": "All texts and all indentations; the tokens of the changed lines must not reach into or depend on the whitespace.", "anchors": ["crates/ludtwig-parser/src/lexer.rs", "crates/ludtwig-parser/src/syntax/untyped.rs", "crates/ludtwig-parser/src/parser.rs", "crates/ludtwig-parser/src/grammar.rs:root"]}
{"id": "C69", "title": "whitespace belongs to the token behind it", "statement": "In every syntax tree, also of a file with parse errors, a whitespace or line break token is a child of the node that has the token behind it as a child; the only exceptions are the end of a string, the end of the file, and an interpolation behind whitespace in a string. So whitespace before a node's first token is inside that node, and no other node ends with whitespace.", "quantifier": "every source text and every node of its tree", "why_tests_cant": "All trees; the rules rely on it when they look for the whitespace of a line.", "anchors": ["crates/ludtwig-parser/src/parser/sink.rs", "crates/ludtwig-parser/src/parser.rs:explicitly_consume_trivia", "crates/ludtwig-parser/src/grammar/twig/literal.rs", "crates/ludtwig-parser/src/grammar/html.rs"]}
{"id": "C70", "title": "fixing the layout keeps the structure", "statement": "With any of the rules indentation, whitespace-between-line-breaks and the rules without suggestions active, processing a file without parse errors (also with --fix) never panics and is never refused because of overlapping suggestions; it ends well, or exceeds the limit of fix rounds, or cannot write the file. Every text that is parsed or written on the way has the same syntax tree as the original up to whitespace, line breaks and places, and no parse error.", "quantifier": "every text without parse errors, configuration, selection of these rules, flags and sorting of the suggestions", "why_tests_cant": "All texts and all rounds of the fix loop; two rules edit the same whitespace.", "anchors": ["crates/ludtwig/src/process.rs:iteratively_apply_suggestions", "crates/ludtwig/src/process.rs:run_analysis", "crates/ludtwig/src/check/rules/indentation.rs", "crates/ludtwig/src/check/rules/whitespace_between_line_breaks.rs"]}
{"id": "C71", "title": "fixing the layout ends after two rounds", "statement": "With any of the rules indentation, whitespace-between-line-breaks and the rules without suggestions active, and an indentation width other than 0, processing a file without parse errors succeeds unless the file cannot be written: the limit of fix rounds is never exceeded. With --fix at most two fixed texts are tried. A second --fix on the result writes nothing, parses only that text, and reports the same events.", "quantifier": "every text without parse errors, configuration with a non-zero width, selection of these rules, flags, and every stable sorting", "why_tests_cant": "Termination of a loop over all texts: a round changes the places, the tokens and which suggestions of the two rules collide.", "anchors": ["crates/ludtwig/src/process.rs:iteratively_apply_suggestions", "crates/ludtwig/src/process.rs:run_analysis", "crates/ludtwig/src/check/rules/indentation.rs", "crates/ludtwig/src/check/rules/whitespace_between_line_breaks.rs"]}
{"id": "C72", "title": "line breaks around blocks", "statement": "twig-block-line-breaks looks exactly at the blocks with an ending tag that are not hidden, not switched off, not marked as whitespace-sensitive and not the first thing in the file (a comment aside). It reports exactly when the first token in front of such a block (or of the comment directly before it) is not the configured number of line breaks of the configured style (one if nothing precedes it in its parent), and when the next token behind its ending tag is not, unless a block follows (a comment aside); the fix replaces the line breaks or puts them there.", "quantifier": "every parsed file (also with parse errors) and configuration", "why_tests_cant": "All trees: siblings, comments and the tokens on both sides of a block, which rowan's next_token may not find.", "anchors": ["crates/ludtwig/src/check/rules/twig_block_line_breaks.rs"]}
{"id": "C73", "title": "templates are accepted", "statement": "The parser accepts the template language: if the tokens of a file are a template according to a grammar (html elements, attributes, text and comments, all twig tags with their bodies between elements, between attributes, in quoted values and in raw text, and expressions with the operator table), then the file is parsed without any parse error, and the syntax tree is the tree of the template up to whitespace and line breaks. In particular no file has two such trees.", "quantifier": "every source text whose tokens the grammar derives", "why_tests_cant": "Tests parse chosen templates; the claim is about every derivation of a recursive grammar, so about templates of any size and nesting. C62 only says that an error-free tree is well-formed.", "anchors": ["crates/ludtwig-parser/src/grammar.rs", "crates/ludtwig-parser/src/grammar/html.rs", "crates/ludtwig-parser/src/grammar/twig.rs", "crates/ludtwig-parser/src/grammar/twig/tags.rs", "crates/ludtwig-parser/src/grammar/twig/shopware.rs", "crates/ludtwig-parser/src/grammar/twig/expression.rs", "crates/ludtwig-parser/src/grammar/twig/literal.rs", "crates/ludtwig-parser/src/parser.rs", "crates/ludtwig-parser/src/parser/sink.rs"]}
{"id": "C74", "title": "fixing introduces no parse errors", "statement": "If a file has no parse error and is processed with --fix and a single active rule, the resulting file has no parse error either.", "quantifier": "every text without parse errors, configuration and rule", "why_tests_cant": "Which texts are affected depends on tokens next to the replaced place, on keywords and on the whole parser; fix tests use one text per rule.", "anchors": ["crates/ludtwig/src/process.rs:iteratively_apply_suggestions", "crates/ludtwig/src/process.rs:run_analysis", "crates/ludtwig/src/check/rules"]}
{"id": "C75", "title": "fixing the quotes keeps templates", "statement": "With any of the rules twig-string-quotation, html-string-quotation and the rules without suggestions active, processing a template in the sense of C73 (also with --fix) never panics and is never refused because of overlapping suggestions; it ends well, or exceeds the limit of fix rounds, or cannot write the file. Every text that is parsed or written on the way is a template again, so it has no parse error.", "quantifier": "every template, configuration, selection of these rules, flags and sorting of the suggestions", "why_tests_cant": "All templates and all rounds of the fix loop: new quotes move everything behind them, change how the parser reads the string and what is around it, and strings nest in strings.", "anchors": ["crates/ludtwig/src/process.rs:iteratively_apply_suggestions", "crates/ludtwig/src/process.rs:run_analysis", "crates/ludtwig/src/check/rules/twig_string_quotation.rs", "crates/ludtwig/src/check/rules/html_string_quotation.rs"]}
{"id": "C76", "title": "fixing the quotes keeps the tree", "statement": "When a template is processed as in C75, every text that is parsed or written has the same syntax tree as the original one, up to whitespace, line breaks and the quotes around strings: the same nodes in the same order with the same tokens, in particular the same contents of all strings.", "quantifier": "every template, configuration, selection of these rules, flags and sorting of the suggestions", "why_tests_cant": "All templates and all rounds; other quotes could end a string early, or let the parser read interpolations or attributes differently.", "anchors": ["crates/ludtwig/src/process.rs:iteratively_apply_suggestions", "crates/ludtwig/src/check/rules/twig_string_quotation.rs", "crates/ludtwig/src/check/rules/html_string_quotation.rs", "crates/ludtwig-parser/src/grammar/twig/literal.rs", "crates/ludtwig-parser/src/grammar/html.rs"]}
{"id": "C77", "title": "fixing the quotes settles", "statement": "When a template is processed as in C75, there are at most two rounds of fixing (at most three texts are parsed), so the limit of rounds is never exceeded: processing ends well or the file cannot be written. When the written text is processed again, with any flags, it is parsed once, nothing is fixed or written, and the same findings are reported.", "quantifier": "every template, configuration, selection of these rules, flags and sorting of the suggestions", "why_tests_cant": "The quotes of one string decide whether the quotes of the string around it may be changed, so fixes wait for other fixes; that two rounds are always enough is a statement about all nestings.", "anchors": ["crates/ludtwig/src/process.rs:iteratively_apply_suggestions", "crates/ludtwig/src/process.rs:run_analysis", "crates/ludtwig/src/check/rules/twig_string_quotation.rs", "crates/ludtwig/src/check/rules/html_string_quotation.rs"]}
{"id": "C78", "title": "the quotes after fixing", "statement": "After processing a template as in C75 with --fix, in the text that is left every attribute value and every Twig string, on which its rule for quotes is active and not switched off by a directive, is between two of the quotes of the configuration; the only exceptions are strings whose content contains that quote, and Twig strings with interpolations when single quotes are wanted.", "quantifier": "every template, configuration, selection of these rules and sorting of the suggestions", "why_tests_cant": "A statement about every string of every template after all rounds of fixing, also for strings nested in strings.", "anchors": ["crates/ludtwig/src/process.rs:iteratively_apply_suggestions", "crates/ludtwig/src/check/rules/twig_string_quotation.rs", "crates/ludtwig/src/check/rules/html_string_quotation.rs", "crates/ludtwig/src/check/rules.rs:get_file_active_rule_definitions"]}
{"id": "C79", "title": "fixing quotes and layout together", "statement": "With any of the rules indentation, whitespace-between-line-breaks, twig-string-quotation, html-string-quotation and the rules without suggestions active together, processing a template in the sense of C73 (also with --fix) never panics and is never refused because of overlapping suggestions; it ends well, or exceeds the limit of fix rounds, or cannot write the file. Every text that is parsed or written on the way is a template again, has no parse error, and has the same syntax tree as the original one, up to whitespace, line breaks and the quotes around strings.", "quantifier": "every template, configuration, selection of these eleven rules, flags and sorting of the suggestions", "why_tests_cant": "All templates and all rounds of the fix loop: suggestions of four rules are sorted, filtered and applied together, at the same places and next to each other.", "anchors": ["crates/ludtwig/src/process.rs:iteratively_apply_suggestions", "crates/ludtwig/src/process.rs:run_analysis", "crates/ludtwig/src/check/rules/indentation.rs", "crates/ludtwig/src/check/rules/whitespace_between_line_breaks.rs", "crates/ludtwig/src/check/rules/twig_string_quotation.rs", "crates/ludtwig/src/check/rules/html_string_quotation.rs"]}
{"id": "C80", "title": "fixing quotes and layout together settles", "statement": "With the rules of C79 active together and an indentation width other than 0, processing a template ends well unless the file cannot be written: at most four fixed texts are tried, so the limit of fix rounds is never exceeded. A written file stays as it is: processing it again, with any flags, parses only it, writes nothing and (with the same inspect flag) reports the same as the run that wrote it.", "quantifier": "every template, configuration with indentation width above 0, selection of these eleven rules, flags, and sorting of the suggestions that keeps the order of those for the same range", "why_tests_cant": "All templates and all rounds of the fix loop: each round changes quotes and lines, and new quotes can make further changes of quotes and of the layout necessary.", "anchors": ["crates/ludtwig/src/process.rs:iteratively_apply_suggestions", "crates/ludtwig/src/process.rs:run_analysis", "crates/ludtwig/src/check/rules/indentation.rs", "crates/ludtwig/src/check/rules/whitespace_between_line_breaks.rs", "crates/ludtwig/src/check/rules/twig_string_quotation.rs", "crates/ludtwig/src/check/rules/html_string_quotation.rs"]}
{"id": "C81", "title": "what a fixed file looks like", "statement": "After --fix with the rules for the layout (C71) on a file without parse errors, or with the rules for quotes and layout (C79) on a template, the file has no parse error; every line on which the indentation rule is not off begins with exactly the whitespace expected in C35; no line break is followed by whitespace and another line break, unless the rule is switched off there; and for templates every string on which its rule for quotes applies is quoted as in C78. Directives on top of the final file, or inside of it, are what switches rules off.", "quantifier": "every file without parse errors resp. template, configuration with indentation width above 0, and selection of the rules", "why_tests_cant": "Quantifies over all files and describes the end result of up to ten rounds of parsing, checking and replacing.", "anchors": ["crates/ludtwig/src/process.rs:iteratively_apply_suggestions", "crates/ludtwig/src/process.rs:run_analysis", "crates/ludtwig/src/check/rules/indentation.rs", "crates/ludtwig/src/check/rules/whitespace_between_line_breaks.rs", "crates/ludtwig/src/check/rules/twig_string_quotation.rs", "crates/ludtwig/src/check/rules/html_string_quotation.rs"]}
{"id": "C82", "title": "status 0 means clean files", "statement": "Every finding names the rule it comes from, has the one severity that rule always reports with (6 rules report errors, 7 warnings, 9 helps, none infos) and has a primary label. Hence no finding goes unnoticed by the exit status: a run of the program that is not --create-config and ends with status 0 has read every file the walker found, and each of them ends with a text that parses without a syntax error and in which none of the rules that apply to the file finds anything; without --fix that is the text it had before. Conversely status 1 of a run with a file needs a walk error or a file for which this does not hold.", "quantifier": "all file systems, configs, walk results with distinct files, schedules of the threads, rules, files", "why_tests_cant": "the exit status ignores infos, so a rule reporting with the wrong severity would let a run pass; a test only sees the findings and schedules it produces", "anchors": ["crates/ludtwig/src/check/rule.rs:create_result", "crates/ludtwig/src/output.rs:handle_processing_output", "crates/ludtwig/src/check.rs:produce_diagnostics", "crates/ludtwig/src/main.rs:handle_input_paths"]}
{"id": "C83", "title": "diagnostics point into the file as it is", "statement": "For every successfully processed file, with or without --fix, the diagnostics shown are those of the text the file has after the run (not of the text before fixing). One event is counted per diagnostic, in the same order and with its severity. All labels (of syntax errors, notes and suggestions) lie in that text on character boundaries, so that rendering them does not hit the unwrap() on an out-of-range label. Except for the tree of --inspect every diagnostic has exactly one primary label, its first, at the syntax error or finding.", "quantifier": "all files, configs, sets of active rules, flags, sorts", "why_tests_cant": "a label outside the text only panics for files for which such a finding is reported; after fixing, stale ranges often happen to be inside the text", "anchors": ["crates/ludtwig/src/check.rs:produce_diagnostics", "crates/ludtwig/src/process.rs:run_analysis"]}
{"id": "C84", "title": "changing CRLF to LF keeps the structure", "statement": "With any of the rules line-ending (unix style), indentation, whitespace-between-line-breaks and the rules without suggestions active, processing a file without parse errors (also with --fix) never panics and is never refused because of overlapping suggestions, provided that no CRLF stands directly behind another CR or behind `not in` or `is not`. Every text that is parsed or written on the way has the same syntax tree as the original up to whitespace, line breaks and places, and no parse error. The condition is needed: `<p not in` CRLF `></p>` gets a parse error by the fix.", "quantifier": "every text without parse errors that meets the condition, configuration with unix line endings, selection of these rules, flags and sorting of the suggestions", "why_tests_cant": "All texts and all rounds of the fix loop; three rules edit neighbouring or the same tokens, and the lexer looks at the character behind two-word operators.", "anchors": ["crates/ludtwig/src/check/rules/line_ending.rs", "crates/ludtwig/src/process.rs:iteratively_apply_suggestions", "crates/ludtwig/src/process.rs:run_analysis", "crates/ludtwig-parser/src/lexer.rs"]}
{"id": "C85", "title": "changing line endings and layout ends", "statement": "Under the conditions of C84, with an indentation width other than 0 and no CRLF exempted by an ignore directive: processing the file succeeds unless it cannot be written. With --fix at most three fixed texts are tried. Afterwards the file contains no CRLF anywhere, unless the rule line-ending is off for the whole file. A second --fix changes nothing and reports the same findings. The condition of C84 is needed: `a`, eleven CRs and LF is given up after ten rounds.", "quantifier": "every text without parse errors that meets the conditions, configuration with unix line endings and indentation width other than 0, selection of these rules, flags, and stable sorting of the suggestions", "why_tests_cant": "All texts and all rounds; the rules interfere with each other at line starts and a finding may appear only in a later round.", "anchors": ["crates/ludtwig/src/check/rules/line_ending.rs", "crates/ludtwig/src/check/rules/indentation.rs", "crates/ludtwig/src/check/rules/whitespace_between_line_breaks.rs", "crates/ludtwig/src/process.rs:iteratively_apply_suggestions"]}
{"id": "C86", "title": "added whitespace does not change the structure", "statement": "If whitespace and line breaks are added between the tokens of a file that parses without syntax errors, also where there were none, or changed but nowhere removed, the file still parses without syntax errors and to the same syntax tree up to whitespace and line breaks. Directly behind '<' the kind of the next token has to stay, and a ':' must not be separated from a word. All three conditions are needed: `< a></a>`, `<a : b></a>` and, for a file with errors, `{{ [ %}`.", "quantifier": "every list of tokens without syntax errors", "why_tests_cant": "All files and all places where whitespace can be added; the parser peeks at raw tokens in some places and the error recovery depends on the whitespace.", "anchors": ["crates/ludtwig-parser/src/parser.rs:Parser", "crates/ludtwig-parser/src/grammar/twig.rs", "crates/ludtwig-parser/src/grammar/html.rs", "crates/ludtwig-parser/src/parser/sink.rs"]}
{"id": "C87", "title": "line breaks between tokens do not change the structure", "statement": "If line breaks (with any whitespace behind them) are put between two tokens of a text that parses without syntax errors, or take the place of the whitespace between two tokens, in any number of places at once, then the new text is split into the same tokens up to whitespace and line breaks, parses without syntax errors, and to the same syntax tree up to whitespace and line breaks. Excluded are places behind '<', behind a CR, behind `not in` and `is not`, and between ':' and a word; the first three are needed for the lexer or the parser to read the same tokens.", "quantifier": "every text without syntax errors, every set of places, every behaviour of logos on unknown characters that is not changed by a line break behind the error span", "why_tests_cant": "All texts and all places; the lexer looks for the longest match and merges two words to one operator.", "anchors": ["crates/ludtwig-parser/src/lexer.rs:lex", "crates/ludtwig-parser/src/syntax/untyped.rs", "crates/ludtwig-parser/src/parser.rs:Parser", "crates/ludtwig-parser/src/grammar/twig.rs", "crates/ludtwig-parser/src/grammar/html.rs"]}
{"id": "C88", "title": "fixing the line breaks around blocks keeps the structure", "statement": "Processing a file without syntax errors, with or without --fix, with only `twig-block-line-breaks` and rules that suggest nothing switched on: if no block or comment comes (whitespace aside) directly behind '<', `not in` or `is not`, and no token apart from line breaks ends with CR, then the run does not panic, no suggestions of a rule overlap, and every text that is parsed or written on the way parses without syntax errors and to the same syntax tree up to whitespace and line breaks. The only exception left open is a file with a block in raw text (the content of script, style, textarea or title), if the run comes to a text in which the rule makes two suggestions at the same place.", "quantifier": "every such file, every configuration and behaviour of sort_by on consistent ranges, every number of rounds", "why_tests_cant": "All files, configurations and rounds of the fix loop; tests look at single files.", "anchors": ["crates/ludtwig/src/check/rules/twig_block_line_breaks.rs", "crates/ludtwig/src/process.rs:iteratively_apply_suggestions", "crates/ludtwig/src/check/rule.rs", "crates/ludtwig-parser/src/lexer.rs:lex", "crates/ludtwig-parser/src/grammar/twig.rs"]}
{"id": "C89", "title": "suggestions about line breaks around blocks are at different places", "statement": "In a file without syntax errors and without blocks in raw text (the content of script, style, textarea or title), no two changes that `twig-block-line-breaks` suggests begin at the same place: the place behind a block is never the place in front of another one, and no place is looked at twice.", "quantifier": "every such file and configuration", "why_tests_cant": "All nestings of blocks, comments, tags and attributes; two suggestions at one place would make the fix fail or insert twice.", "anchors": ["crates/ludtwig/src/check/rules/twig_block_line_breaks.rs", "crates/ludtwig/src/check.rs:get_rule_context_suggestions", "crates/ludtwig-parser/src/grammar/html.rs", "crates/ludtwig-parser/src/grammar/twig/tags.rs"]}
{"id": "C90", "title": "one round fixes the line breaks around blocks", "statement": "Take a file without syntax errors in which no block is in raw text (the content of script, style, textarea or title), no block or comment comes behind `<` or an operator of two words, and no token but line breaks ends with CR, and process it with only `twig-block-line-breaks` and rules without suggestions. `--fix` never gives up after ten rounds: the only error is that the file cannot be written. It makes at most one changed text, which has the structure of the original and is the one that is written. Processing that text again, with or without `--fix`, changes and writes nothing.", "quantifier": "every such file, configuration, set of those rules, flags and sorting of the suggestions", "why_tests_cant": "The rule looks at two places of each block, and a change at one place changes what other blocks see; tests cannot show that the second round never finds anything.", "anchors": ["crates/ludtwig/src/check/rules/twig_block_line_breaks.rs", "crates/ludtwig/src/process.rs:iteratively_apply_suggestions", "crates/ludtwig/src/check.rs:run_rules", "crates/ludtwig-parser/src/grammar/html.rs", "crates/ludtwig-parser/src/grammar/twig/tags.rs"]}
{"id": "C91", "title": "the line breaks around blocks after fixing", "statement": "After --fix of a file as in C90, the file that is left parses without syntax errors, and unless the rule twig-block-line-breaks is off in it, around every block that the rule looks at (those of C72) are exactly the wanted line breaks of the configured style: in front of the block, or of the comment directly before it, and behind its ending tag, unless a block follows or the file ends there. No other line break follows directly on them.", "quantifier": "every such file, configuration, set of those rules and sorting of the suggestions", "why_tests_cant": "The line breaks left in a file depend on what the rule finds, what of it is applied and how the new text is parsed again; tests see single files.", "anchors": ["crates/ludtwig/src/check/rules/twig_block_line_breaks.rs", "crates/ludtwig/src/process.rs:iteratively_apply_suggestions", "crates/ludtwig/src/check.rs:run_rules", "crates/ludtwig-parser/src/grammar/twig/tags.rs"]}
{"id": "C92", "title": "fixing the line breaks around blocks together with the layout keeps the structure", "statement": "With any of the rules twig-block-line-breaks, indentation, whitespace-between-line-breaks and the rules without suggestions active together, processing a file without syntax errors (also with --fix) never panics and is never refused because of overlapping suggestions, although the rules change the same runs of whitespace in one round; and every text that is parsed or written on the way parses without syntax errors and to the same syntax tree up to whitespace and line breaks. Conditions: no block is in raw text (the content of script, style, textarea or title), no block or comment comes (whitespace aside) directly behind '<', `not in` or `is not`, and no token apart from line breaks ends with CR.", "quantifier": "every such file, every configuration, set of those rules and behaviour of sort_by on consistent ranges, every number of rounds", "why_tests_cant": "Which suggestions of different rules meet in one run of whitespace depends on the file and on the earlier rounds; tests see single files with single combinations.", "anchors": ["crates/ludtwig/src/check/rules/twig_block_line_breaks.rs", "crates/ludtwig/src/check/rules/indentation.rs", "crates/ludtwig/src/check/rules/whitespace_between_line_breaks.rs", "crates/ludtwig/src/process.rs:iteratively_apply_suggestions", "crates/ludtwig/src/check/rule.rs", "crates/ludtwig-parser/src/lexer.rs:lex"]}
{"id": "C93", "title": "layout and line breaks around blocks after fixing both", "statement": "After a successful --fix of a file as in C92, with an indentation width other than 0, the file that is left parses without syntax errors to the same syntax tree up to whitespace and line breaks, and all of this holds in it at once, as far as the rules are active and not switched off in the file: every line begins with exactly the whitespace expected by the indentation, no line is of whitespace only, and around every block that twig-block-line-breaks looks at are exactly the wanted line breaks of the configured style (C91).", "quantifier": "every such file, configuration, set of those rules and behaviour of sort_by on consistent ranges for which the run succeeds", "why_tests_cant": "The rules undo each other's work in the rounds between; that the last text satisfies all of them at once is a statement about every possible last text.", "anchors": ["crates/ludtwig/src/check/rules/twig_block_line_breaks.rs", "crates/ludtwig/src/check/rules/indentation.rs", "crates/ludtwig/src/check/rules/whitespace_between_line_breaks.rs", "crates/ludtwig/src/process.rs:iteratively_apply_suggestions", "crates/ludtwig/src/check.rs:run_rules"]}
{"id": "C94", "title": "fixing layout and line breaks changes whitespace only", "statement": "Processing a file under the conditions of C92 with any of twig-block-line-breaks, indentation, whitespace-between-line-breaks and the rules without suggestions, or under the conditions of C84 with line-ending in the unix style in place of twig-block-line-breaks, changes nothing but spaces, tabs, LFs and CRs: every text that is parsed or written, and the file that is left, has exactly the other characters of the original in the same order. More generally, any two texts that parse to the same syntax tree up to whitespace and line breaks, with or without syntax errors, have the same characters apart from whitespace.", "quantifier": "every such file, configuration, set of those rules, flags and behaviour of sort_by on consistent ranges", "why_tests_cant": "Suggestions are applied by byte offsets, from the last one to the first; a wrong offset, two suggestions for overlapping ranges or a token that is not only whitespace would delete or move text. Tests look at single files.", "anchors": ["crates/ludtwig/src/process.rs:apply_suggestions_to_text", "crates/ludtwig/src/process.rs:iteratively_apply_suggestions", "crates/ludtwig/src/check/rules/twig_block_line_breaks.rs", "crates/ludtwig/src/check/rules/indentation.rs", "crates/ludtwig/src/check/rules/whitespace_between_line_breaks.rs", "crates/ludtwig/src/check/rules/line_ending.rs"]}
{"id": "C95", "title": "fixing quotes and layout changes whitespace and quotes only", "statement": "Processing a template under the conditions of C79, with any of the rules for layout, the rules for quotes (html-string-quotation, twig-string-quotation) and the rules without suggestions, with or without --fix, changes nothing but spaces, tabs, LFs, CRs and the quotes ' and \": every text that is parsed or written, and the file that is left, has exactly the other characters of the original in the same order.", "quantifier": "every template, configuration, set of those rules, flags and behaviour of sort_by on consistent ranges", "why_tests_cant": "New quotes, exchanged quotes and new whitespace are put at byte offsets of one text in one pass; an offset that is off by one would eat or move a letter, only in files with a particular combination of them.", "anchors": ["crates/ludtwig/src/process.rs:apply_suggestions_to_text", "crates/ludtwig/src/process.rs:iteratively_apply_suggestions", "crates/ludtwig/src/check/rules/html_string_quotation.rs", "crates/ludtwig/src/check/rules/twig_string_quotation.rs", "crates/ludtwig/src/check/rules/indentation.rs", "crates/ludtwig/src/check/rules/whitespace_between_line_breaks.rs"]}
{"id": "C96", "title": "fixing the layout keeps the lines", "statement": "Processing a file without syntax errors, with any of indentation, whitespace-between-line-breaks and the rules without suggestions (C70), with or without --fix and with an indentation width other than 0: every text that is parsed or written, and the file that is left, has the lines of the original in the same order, and each line differs from the original one at most in the spaces and tabs at its beginning. No line is added, joined, split or lost, and whitespace inside or at the end of a line is kept, unless the line is of whitespace only.", "quantifier": "every file without syntax errors, configuration, set of those rules, flags and behaviour of sort_by on consistent ranges", "why_tests_cant": "Suggestions replace byte ranges around line breaks, several rounds after each other; a range that includes the line break would join lines in some file.", "anchors": ["crates/ludtwig/src/check/rules/indentation.rs", "crates/ludtwig/src/check/rules/whitespace_between_line_breaks.rs", "crates/ludtwig/src/process.rs:apply_suggestions_to_text", "crates/ludtwig/src/process.rs:iteratively_apply_suggestions"]}
{"id": "C97", "title": "fixing the line breaks around blocks changes line breaks only", "statement": "Processing a file as in C90, with only twig-block-line-breaks and rules without suggestions, with or without --fix: every text that is parsed or written, and the file that is left, has the characters of the original other than LF and CR in the same order. So also the spaces and tabs stay, those around the blocks too. No lines are joined: wherever the original has a line break (LF), those texts have one with the same other characters before and behind it.", "quantifier": "every such file, configuration, set of those rules, flags and sorting of the suggestions", "why_tests_cant": "A suggestion replaces a byte range around a block; one that includes the indentation before the block, or part of a neighbouring token, would be seen only in files where such a neighbour exists.", "anchors": ["crates/ludtwig/src/check/rules/twig_block_line_breaks.rs", "crates/ludtwig/src/process.rs:apply_suggestions_to_text", "crates/ludtwig/src/process.rs:iteratively_apply_suggestions"]}
{"id": "C98", "title": "fixing layout and line breaks joins no lines", "statement": "Processing a file as in C92, with any of twig-block-line-breaks, indentation, whitespace-between-line-breaks and the rules without suggestions, with or without --fix: every text that is parsed or written, and the file that is left, has a line break wherever the original has one behind a character that is not whitespace, with the same such characters before it and behind it. So two characters other than whitespace that are on different lines of the original are on different lines afterwards.", "quantifier": "every such file, configuration, set of those rules, flags and sorting of the suggestions", "why_tests_cant": "Suggestions of several rules are merged in each round, some replace line breaks and some the whitespace behind them; a wrong range or a dropped insertion would join two lines only in some file and round.", "anchors": ["crates/ludtwig/src/check/rules/twig_block_line_breaks.rs", "crates/ludtwig/src/check/rules/indentation.rs", "crates/ludtwig/src/check/rules/whitespace_between_line_breaks.rs", "crates/ludtwig/src/process.rs:apply_suggestions_to_text", "crates/ludtwig/src/process.rs:iteratively_apply_suggestions"]}
