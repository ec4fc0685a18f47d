# Formal model of ludtwig: design

The subject is `MalteJanz/ludtwig` (two crates: `ludtwig-parser`, a lossless
Twig/HTML parser, and `ludtwig`, the linter/formatter CLI) at the commit in
`/repo`. The Rust code is read as text, never built or run. The model is written
in Lean 4 under `lean/Verif/`. Every definition of the model cites the file and
lines it transcribes.

## Trusted base

* Lean's kernel (4.33.0) and the three standard axioms `propext`,
  `Classical.choice`, `Quot.sound`; which theorem uses which is listed at the end.
  No axioms are added; no `sorry`, `admit`, `native_decide`, `bv_decide`,
  `implemented_by` or `unsafe` is used. Mathlib is not imported.
* The transcription Rust → Lean. Panics (`expect`, `unwrap`, indexing, slicing,
  unsigned underflow) are explicit error values, loops are folds or have fuel.
  As a check of the transcription (a test, not a proof) the executable model was
  run on the inputs of all 280 snapshot tests that stand in the text of the parser
  crate and produced the tree and errors written there for all 280; and on the 114
  rule tests of `check/rules/*.rs` with the default config, where severities and
  places of all findings and all fixed texts agree.
* External crates, by their documented behaviour:
  * `logos`: longest match, a literal over a regular expression on ties. The size of
    an unrecognised span is a parameter `errLen`, assumed (`ErrLenOk`) to take at
    least one char and at most the rest of the text; for C68 also (`ErrLineLocal`) to
    end before the whitespace around the next line break and not to depend on what is
    behind the first character of it; for C84 also (`ErrBreakLocal`) to be the same before CRLF
    and LF; for C87 and C88 also (`ErrBeforeBreak`) that a span within a text is the same if a line break is put
    behind that text; for C75 also (`ErrAhead`) that whether it ends at a
    place depends only on its text and the next character, with both quotes alike.
  * `rowan`: green tree builder; navigation (`parent`, siblings, children,
    `next_token`, `first_token`, …) and the preorder traversal with `skip_subtree`.
    `next_token` is modelled as rowan implements it: it gives up at an empty node.
  * `regex`: leftmost-first search for the patterns of the line-ending rule.
  * `std` sort: for the theorems any function returning a permutation (and, where
    needed, a sorted list); for evaluated examples insertion sort, which is what
    `sort_by` does on up to 20 elements. The comparison used in `process.rs` is no
    total order (overlapping ranges compare equal), for which newer standard
    libraries may panic; this is not modelled.
  * operating system, config parser (figment), directory walker (ignore): the
    parameters of `System` in Cli/Main.lean. Assumed: two different paths are two
    different files; the walker's items do not depend on what the tasks do; nobody
    else changes files during the run.
  * `rayon::scope` / walker threads: any task can do its next action (send, read,
    write) at any time; a panic of a task is raised again when all tasks are done.

## What is modelled

| code | model |
|------|-------|
| ludtwig-parser `lexer.rs`, token attributes in `syntax/untyped.rs` | Parser/Kind, Parser/Lexer |
| `parser.rs`, `parser/{event,source,sink,parse_error}.rs` | Parser/State, Parser/Sink, Parser/Parse |
| `grammar.rs`, `grammar/html.rs`, `grammar/twig.rs`, `grammar/twig/{expression,literal,tags,shopware}.rs` (all functions) | Grammar/* |
| `syntax/untyped.rs` (kinds, `SyntaxNodeExt`), `syntax/typed.rs` (all accessors) | Parser/Kind, Syntax/Cursor, Syntax/Typed |
| ludtwig `check.rs` (`run_rules`, `get_rule_context_suggestions`, `produce_diagnostics`: its events in Cli/Process, its diagnostics with codes and labels in Rules/Diagnostics; messages and notes are left out) | Rules/Run, Cli/Process, Rules/Diagnostics |
| `check/rule.rs`, `check/rules.rs`, all 22 files of `check/rules/` | Rules/Run, Rules/Definitions, Cli/Select |
| `check/naming_convention.rs` | Naming/Model |
| `process.rs` | Cli/Process, instantiated with the parser and rules in Rules/Engine |
| `output.rs` (counting, exit status) | Cli/Output |
| `main.rs`, `config.rs` (`handle_config_or_exit`) | Cli/Main |

## Not modelled

* Machine limits: `u32` text sizes (files ≥ 4 GB), stack overflow, out of memory.
* `debug_assert!`s are not part of the release semantics that is modelled (C07
  proves that the ordering assertion of the markers holds all the same).
* Rendering of diagnostics (codespan), the messages printed, directory walking and
  ignore files, TOML and environment parsing, argument parsing (clap), the
  `verbose` option, failing writes to stdout/stderr.
* The `Display` impls and iterator plumbing (`AstChildren`, `support`) of `syntax/typed.rs` beyond
  what the accessors return.

## Properties

"Proved" means: for all inputs of the model, no bounds. The statement of each theorem
refers to a small specification of its own (Parser/Spec, Parser/LexerSpec,
Parser/PrattSpec, Parser/Skeleton, Syntax/Elements, Rules/RunSpec, Naming/Spec, and
the definitions at the head of each `*Props` file).

| id | modelled | proof |
|----|----------|-------|
| C01 | lexer, token source, parser primitives, whole grammar, sink, tree builder | program logic (Parser/Hoare): the parser cursor and the replayed sink cursor agree up to trivia through every grammar function; then induction over events |
| C02 | lexer | induction on the remaining text |
| C03 | whole grammar with fuel | in the program logic: every recursion is preceded by a consumed token |
| C04 | same | **false**, two witnesses; partial: these two places are the only possible panics, with a condition on the text |
| C05 | events, sink, builder | invariant on event lists |
| C06 | `add_error` | invariant on the error list in the program logic |
| C07 | markers | stack discipline as part of the program logic |
| C08 | event list vs. direct tree construction | refinement by induction over build operations |
| C09 | all places that create ERROR nodes | invariant in the program logic |
| C10 | `recover_expect`, `recover` | induction on remaining tokens |
| C11 | expression grammar on operand/operator sequences | exact runs of the grammar by induction on the grouping; uniqueness of the grouping separately |
| C12 | token source | lemmas on filtered suffixes |
| C13, C14, C49 | lexer | analysis of the match function against a denotational semantics of the regular expressions |
| C15–C17 | rule selection, `handle_config_or_exit`, `app` | list induction; C16 also for whole program runs |
| C18, C19, C48 | `run_rules` on syntax trees | induction over trees against a declarative scope |
| C20 | same | **false**, witness; exact characterisation of the flag and partial |
| C21, C44 | suggestion application, ranges of all 22 rules | induction on the suggestion list; navigation stays inside the tree |
| C22 | overlap filter | **false**, witness for the filter and two witnesses for the whole program (a fix breaks a file, a fix panics); partial without nested ranges |
| C23–C25, C52, C53 | `run_analysis`, fix loop with an arbitrary (also panicking) parser and rules | case analysis, induction on rounds; C24 also for the modelled parser and rules |
| C26 | exit status, whole program | **false** when nothing but a walk error happened, witness; partial otherwise, for every schedule |
| C27 | event counting, concurrent tasks on a file system | permutation invariance; simulation of every interleaving by tasks running alone |
| C28–C32, C51 | naming conventions | induction over characters against a segment specification; C29 **false** for empty suggestions, partial |
| C33 | config creation | case analysis over a file-system map; `str::replace` |
| C34, C35 | indentation rule | induction over trees; C35 **false** for a configured count of zero, partial |
| C36, C37 | line-ending rule incl. regex search | induction over line-break sequences; **false** for windows_CRLF, partial |
| C38 | whitespace-between-line-breaks | `next_token` against document order |
| C39 | duplicate rules | induction over trees; **false** for nested directives, partial |
| C40–C42 | quotation, operator, json_encode rules | accessors in terms of trees |
| C43 | events of one file | counting |
| C45 | kind numbering | exhaustive finite table |
| C46, C47 | trimmed range, whitespace control | list induction, accessors in terms of trees |
| C50 | overlap check | induction on the sorted list |
| C54 | whole file processing with the modelled parser and rules | C44 excludes ranges outside the text, C66 excludes the rules |
| C57–C61 | the remaining rules except those of C72 | accessors in terms of trees; C57 (and C34, C35, C40, C59 where they had conditions on trees) for all parsed files by the grammar of C63 |
| C62, C63 | whole parser; a table of regular expressions, one per node kind (Shape/Spec) | program logic for the list of children (Shape/Logic and the other Shape modules): every grammar function adds items of its language; regular languages compared by closure lemmas |
| C64, C65 | typed accessors on parsed trees | counting lemmas on the regular expressions of C62/C63 |
| C66 | all rules on parsed trees | C63 excludes indented nodes directly behind a blanket directive |
| C69 | the parser and the sink | the program logic of C63 with a mark for each call of `explicitly_consume_trivia`; the sink puts all other whitespace directly before a token |
| C67 | the grammar functions and the sink on two files of different layout | relational program logic (Layout/Logic): both runs go in lockstep, related by the tokens that are left, equal events and errors up to places; the sink fills the same skeleton with both token lists |
| C68 | `lex` and `parse` on two texts that differ in the whitespace around line breaks | the lexer rules look at most one character behind the token (Layout/Lex), so tokens stop at the gaps and stay the same; then C67, with rounds of the root loop for whitespace at the beginning (Layout/Leading) |
| C55, C56 | concurrent tasks | well-founded induction on tasks; invariant over steps |
| C70 | fix loop with the modelled parser and the layout rules | the suggestions of both rules are exactly at line starts (Rules/LineStarts, from C69), so sorted they never nest and one round is a re-layout in the sense of C68; induction on rounds. Assumes of `sort_by`: `SortsRanges` |
| C71 | as C70, with a stable sort and an indentation width > 0 | the file as a list of marked tokens (Layout/Cells): the marks (wanted indentation, blank lines allowed) belong to visible tokens and do not change with the layout (LayoutCells, BlankMarks); a round edits that list (LayoutRounds); after one round all lines are indented, after two there are also no blank lines with whitespace, then no rule suggests anything |
| C72 | twig-block-line-breaks on parsed trees | siblings and first tokens in terms of the tree; the grammar of C63 (comments and starting tags begin with a token) |
| C73 | all grammar functions, markers and the sink, on files that are templates | specification: one inductive grammar over significant tokens (Template/Spec), which gives the tree. Proof: forward program logic for runs (Template/Run, Steps): the state is described by the tokens that are left and, per open node, the stripped trees built so far; each construct of the grammar is run once (Terms … Elements), bodies and lists by induction over the derivation (Derivation), with the fuel of the knot bounded by the number of tokens; the operator loop groups as in C11 |
| C74 | fix loop with the modelled parser, all rules | corollary of C70 for the layout rules; **false** for eleven rules, by evaluation of one file each (Rules/FixErrors); partial |
| C75 | fix loop with the modelled parser and the rules for quotes, on templates (C73) | the grammar of C73 is stable under changes of quotes that fit its strings (Template/Requote, Requoted, RequoteInduction, by induction on derivations); the lexer gives the changed tokens for the changed text (Template/Cells, CellChange); walking through the tree the suggestions of the rules are such a change (Template/Strings, Walk, StringWalk); induction on rounds (Rules/QuoteFix). Assumes of the lexer generator: `ErrAhead` |
| C76 | as C75; `unquote` (Template/Unquote) leaves out the quotes of strings | the induction on derivations for C75 carries along that the new tree is the old one up to quotes, also for the groupings of operators |
| C77 | as C75 | one round changes the tree without trivia as `turn` (Template/Turn, Turns: the tree of the grammar for the changed tokens is unique); after one round no string of Twig is left to change, after two rounds none at all (induction on trees, Template/Turn, Tidy); directives are not changed; induction on rounds (Rules/QuoteTurn) |
| C78 | as C75 | no suggestions are left at the end of C77; what that says about a string is read off from the parts that the grammar of C73 gives it (Rules/QuoteTurn) |
| C79 | as C75, with the layout rules | the findings of all rules are those of the layout rules and those of the others (from C18); layout suggestions lie at line starts, quotes never do, and new quotes stand directly behind a word, `=` or `}}` (Template/Cells), so a round is a change of quotes as in C75 followed by a re-layout as in C68 (`merged_round`); a re-layout keeps a derivation of the grammar of C73 (Template/Relay, Relaid) |
| C80 | as C79 | a round turns the quotes as in C77 whatever the layout rules do (`neat_round`), so after two rounds the rules for quotes are silent; rules without suggestions can be left out (`results_only`), so from then on a round is one of C71, and two of these are enough (`neat_step`, `neat_loop`) |
| C81 | as C71 and C80 | in the end nothing is suggested (C24 resp. `Settled`), and what that means follows from C35 and C38 (`round_rcs`) and from `quotes_wanted` |
| C82 | all rules, the exit status, `MainRun` | `Marks` per rule like `Signs` of C48 (`definitions_mark`), lifted to a run (`run_all`); the status by C26 and C27; the text in the file system at the end by C43 |
| C83 | `diagnostics` (Rules/Diagnostics) | the events of a successful run (`ok_events`, invariant `fixLoop_ok` of the fix loop), the ranges by C06 and C44, the primary label by C82 |
| C84 | as C70, with `line-ending` in the unix style | `Relined` generalises the re-layout of C68: the whitespace behind a line may start with LF instead of CRLF unless an operator of two words ends there (Layout/LineBreaks); the suggestions are at line starts or on single CRLFs (Layout/LineBreakEdits); `Convertible` is an invariant of the rounds. Assumes in addition `ErrBreakLocal` |
| C85 | as C84 | every CRLF of the file is one of the single line breaks of C84 and has a suggestion of its own, which no other rule delays (Rules/LineEndingConverge), so one round leaves no CRLF (`NoCrlf`: none across tokens either); from then on the rule suggests nothing and the rounds are those of C71. A token merged behind `:` contains no whitespace (`Covers.merged`) |
| C86 | the grammar functions and the sink on two files, the second with more whitespace | the program logic of C67 with a second mode (`free`): the runs stay in lockstep, or the first one has already found a syntax error (`Outcome`), which is never taken back (`Mono`). Where the parser looks at a raw token, the branch for a missing token is shown to report an error (`QuietIf`, Layout/Quiet) |
| C87 | lexer and parser on a text and the same text with line breaks between tokens | a rule that matches in the new text cannot go beyond an added line break (`rule_break`, `noRule_break`), so it matches in the old text too; the tokens of both texts are `Widened` (`broken_tokens`), then C86 |
| C88 | `process.rs` with the rule for line breaks around blocks, on a file without errors | by the grammar (C62) the rule puts line breaks behind the end of a tag, or before `{%`, `{#` or `<!--` (`break_findings`), so C87 holds for each round; added line breaks do not bring a block behind `<` (`blocksClear_lined`); two suggestions at one place are excluded by C89 (`crowded_raw`); induction over the fix loop |
| C89 | the rule for line breaks around blocks, on a file without errors | behind a block comes whitespace of its parent, the end of its parent (the grammar, C62: `lang_followed`, `QuotedNode`), or a node that does not begin like a block or comment (`apart`); a place determines its block (`before_before`, `behind_behind`); the elements of a tree are distinct (`elemsAt_nodup`) |
| C90 | `process.rs` with the rule for line breaks around blocks, on a file without errors | the rule looks at places behind a token that is no whitespace (`before_iff`, `behind_iff`: by the grammar the next token is found whenever there is one); where they are and how many line breaks are wanted does not depend on whitespace (`place_same`), one number at each place (`wanted_unique`); the tokens after the change are those before it with the line breaks put between them (`broken_leaves`, from `proper_unique`), so each place is as wanted (`settled`) |
| C91 | as C90 | by C90 the fix succeeds, by C24 nothing is suggested for the text that is left, by C48 and C72 the rule finds nothing in it; so the first token at each place is one of the wanted line breaks, which is all of them there (`breaks_at`, line breaks are as long as possible) and is where the block begins or ends (`start_leaves`) |
| C92 | `process.rs` with the rules for layout and for line breaks around blocks | the layout rules replace blanks at the beginning of a line (C70), the rule for blocks puts line breaks behind a token on the same line: by the grammar a block it looks at is not the first in the file (`at_beginning`, `beginning_behind`), and the token before is no line break (`covers_solid`); so two suggestions of different rules are never at the same place and never overlap (`spot_ranges`), and a round is first line breaks put in (C87) and then lines indented anew (C68) (`spot_pieces`); induction over the fix loop |
| C93 | as C92 | by C24 nothing is suggested for the text that is left, by C92 it has the structure of the original; the findings of the layout rules and of the rule for blocks are those of the rules alone (C48), so the arguments of C81 and C91 apply (`layout_of_nothing`, `spaced_of_nothing`) |
| C94 | as C92 and C84 | the tree covers the tokens (C05), tokens of whitespace and line breaks have no other characters (C13), so the visible characters of a text are those of the tokens that are left in the bare tree (`visible_bare`), which is the same for all texts of a run (C92, C84) |
| C95 | as C79 | tokens of quotes have no other characters (C49), so a text has the same characters apart from whitespace and quotes as its tree without trivia and quotes around strings (`signs_parsed`), which is the same for all texts of a run (C79) |
| C96 | as C70 | the suggestions are pieces at line starts (`tidy_round`) that bring spaces and tabs only (`round_rcs`); the text without the whitespace at line starts (`unindented`) is the same after such a replacement (`edits_unindented`, by induction on the pieces), so it is an invariant of the fix loop (`kept_run`) |
| C97 | as C90 | the changed text is the tokens with line breaks put between them or in place of line breaks (`Spaced`, from `break_suggestions`); without LF and CR it is the same (`spaced_unbroken`, by induction on the tokens) and each line break still has its place (`spaced_linesKept`), an invariant of the fix loop (`kept_run`) |
| C98 | as C92 | a round puts line breaks between tokens (`Spaced`) and then changes whitespace at line beginnings (`Shifted`; both from `row_round_text`); the first keeps each line break at its place (C97), the second too, as whitespace with line breaks in it is behind another line break (`shifted_apart`, by induction); both are invariants of the fix loop (`kept_run`) |

## Findings (the code does not do what was claimed, or is surprising)

Proved (negations with witnesses, or theorems):

* C04: `parse` panics on `<script>{%` and on `{{ (a,` .
* C20: in `<pre><p id="x"></p>{% block a %}{% endblock %}</pre>` the flag "inside
  trivia sensitive node" is off after the string although still inside `pre`.
* C22: the overlap check looks at neighbours only. With the default config `--fix`
  turns `{{ a === ["b", x && y] }}` into `{{ a is same as(['b', x and y])] }}` (the
  original has no parse error, the result has), and panics on
  `{{ a === ["b", {"k": 1, "l": 2}]}}`.
* C26: a walk error as the only event exits with 0. A panic of one file exits with 101.
* C29: the suggested name can be empty (a name of separators only).
* C33: a config that cannot be written panics instead of exiting with 1.
* C34: a blanket directive before a node that indents makes the counter underflow
  (hand-made tree; C66 proves that the parser never produces it).
* C35: with an indentation count of 0 correctly indented lines are reported.
* C36, C37: with windows_CRLF, correct breaks are reported, and a fix turns CRLF into
  CR CR LF and two LFs into one break. `{{ a not in` LF `b }}` has no parse error and gets one
  by the fix to CRLF: a CR does not end the word for `cb_not`. For the same reason, in the default
  (unix) style, `<p not in` CRLF `></p>` gets a parse error by the fix to LF (`breaks_lineEnding_unix`).
* C84: of `a` CR CR LF the fix to LF also removes the first CR, in a second round.
* C85: of `a`, eleven CRs and LF, ten rounds are not enough: `--fix` gives the file up with an error.
* C39: nested directives end the ignored region too early in the duplicate rules.
* C40: in `<p id= x>` the quoting fix makes the blank part of the value.
* C41: `{{ a&&b }}` is fixed to `{{ aandb }}`; `===` with a binary left operand gets
  no suggestion.
* C42: `(c|json_encode)|raw` is not reported.
* C62 (the table says so): a token of an unrecognised text (TK_UNKNOWN) is accepted without
  an error in every list of elements; the right operand of a binary operator, the operand of
  a unary one, array items and the value of a named argument may be missing without an error;
  any token is taken for `=>` after parenthesised parameters.
* C64: `lhs_expression()` of `a + b + c` is the right operand, since the left one is a
  TWIG_BINARY_EXPRESSION; an attribute inside `{% if %}` within a tag has no `html_tag()`.
* C67: the position check of `parse_many` counts whitespace, so `{{ [%}` has three syntax
  errors and `{{ [ %}` four; a line break behind `<` starts an element, whitespace does not.
* C73 (left out of the grammar, witnesses in Template/Samples): `a <` before a line break, and `<` or `>` in a
  quoted attribute value give parse errors; so does `{% component %}` in a quoted value or in raw
  text, since `endcomponent` is not in TERMINATION_KEYWORDS.
* C74: files without parse errors that get one by `--fix` with a single rule:
  `{% block aB %}{% endblock aB %}` (the name behind `endblock` stays), `{% block If %}` (`if` is
  a keyword), `<p #Ab>` (becomes `#-ab`), `{{ a &&b }}`, `{{ a ||b }}`, `{{ a===b }}`, `{{ a!==b }}`
  (words run together), `{{ {'twig':a} }}` (`twig:a` is a component name), `{% extends a ? 'b' : 'c' %}`
  (`sw_extends` takes no expression), `<b></b><{% block a %}` (a `<` before a line break starts an element).
* C79: whitespace between `=` and an unquoted value belongs to the value, so `--fix` turns `<p a= b>` into
  `<p a=" b">`, and `<p a=` with `b` on the next line into a value with a line break (`value_gains_whitespace`).
* C17: file-ignore directives that are not direct children of the root do nothing.

Seen while modelling, not stated as theorems: `{{ (a,b) }}` swallows the `}}` with two
errors; `{{ a + }}` parses without an error; `{{ a + b ** * c }}` parses without an error
with `*` above `+`; `{{ (true) }}` gives a TWIG_LITERAL_NAME; `_Name` and `__name` get no
suggestion; the active rules of a file are not recomputed between fix rounds; the
line-ending regex is in a static `OnceLock`, so the first config wins; `at_following` skips
trivia, so in `'a\ '` the quote counts as escaped; rules with their own traversal look at
`prev_sibling` (nodes) for directives while `run_rules` looks at `prev_sibling_or_token`;
`twig_block_duplicate` does not `continue` after an ERROR node, `html_duplicate_id` does;
in `{{ a ~ b is foo }}` the unknown test is not checked; names of attributes inside
`{% if %}` within a tag are not checked; a misplaced file directive inside an ERROR node or
an ignored region is not reported.

## Axioms per theorem

Generated with `#print axioms` for all theorems named in MANIFEST.json.

* **propext, Classical.choice, Quot.sound** (186): `C01_parse_lossless`, `C01_root_text`, `C03_parse_terminates`, `C03_parse_ne_outOfFuel`, `C04_parse_can_panic_raw_text`, `C04_parse_can_panic_arrow`, `C04_panics_partial`, `C04_parse_returns_partial`, `C05_root_covers`, `C05_trivia_grouped`, `C06_error_at_token`, `C06_error_in_source`, `C07_marker_discipline`, `C07_all_completed`, `C08_late_wrapping_equals_direct`, `C09_no_error_node`, `C10_recover_expect`, `C10_recover`, `C11_expression`, `C11_variable`, `C11_unique`, `C12_following_content`, `C12_trivia_irrelevant`, `C13_trivia_shape`, `C13_trivia_maximal`, `C14_two_words_end`, `C14_two_words_chosen`, `Cli.C15_active_rules`, `Cli.C15_order_irrelevant`, `Cli.C16_unknown_rule`, `Cli.C16_known_rules_ok`, `Cli.C16_unknown_rule_exits`, `Cli.C16_known_rules_run`, `Rules.C18_scope_of_ignore`, `Rules.C18_reported_iff`, `Rules.C19_loop_never_fails`, `Rules.C19_failure_from_root_check`, `Rules.C20_told_wrongly`, `Rules.C20_protected_partial`, `Rules.C20_told_exactly`, `Cli.C21_apply_is_simultaneous_edit`, `Cli.C22_overlap_can_be_applied`, `Rules.C22_fix_breaks_file`, `Rules.C22_fix_panics`, `Rules.C24_fixed_file_has_no_suggestions`, `Cli.C25_fix_loop_bounded`, `Cli.C26_exit_status_partial`, `Cli.C26_program_partial`, `Cli.C26_status_zero_or_one`, `Cli.C26_unreadable_config`, `Cli.C26_unusable_ignore_file`, `Naming.C28_snake_valid_iff`, `Naming.C29_snake_suggestion_valid_partial`, `Naming.C29_kebab_suggestion_valid_partial`, `Naming.C29_snake_valid_fixed`, `Naming.C29_kebab_valid_fixed`, `Naming.C30_kebab_valid_iff`, `Naming.C32_snake_suggestion_keeps_letters`, `Naming.C32_kebab_suggestion_keeps_letters`, `Cli.C33_create_config`, `Cli.C33_content`, `Rules.C34_parsed`, `Rules.C34_balanced`, `Rules.C34_condition_needed`, `Rules.C35_parsed_partial`, `Rules.C35_indentation_partial`, `Rules.C35_not_off_outside`, `Rules.C35_count_zero`, `Rules.C36_unix_exact`, `Rules.C36_only_line_breaks`, `Rules.C36_unix_file`, `Rules.C36_windows_reports_correct`, `Rules.C36_windows_partial`, `Rules.C37_unix_fix`, `Rules.C37_windows_fix_wrong`, `Rules.C37_windows_fix_breaks_file`, `Rules.C37_windows_single_partial`, `Rules.C38_blank_lines`, `Rules.C39_blocks`, `Rules.C39_ids`, `Rules.C39_blocks_partial`, `Rules.C39_ids_partial`, `Rules.C39_nested_directives`, `Rules.C40_html_parsed`, `Rules.C40_twig_parsed`, `Rules.C40_html`, `Rules.C40_twig`, `Rules.C40_twig_interpolated`, `Rules.C40_only_strings`, `Rules.C40_blank_becomes_content`, `Rules.C41_and`, `Rules.C41_or`, `Rules.C41_same_as`, `Rules.C41_not_same_as`, `Rules.C41_fix`, `Rules.C41_fix_can_join`, `Rules.C41_no_suggestion_nested`, `Rules.C42_json_encode_raw`, `Rules.C44_ranges_in_file`, `Rules.C44_apply_succeeds`, `C46_trimmed_range`, `C46_trimmed_inside`, `C47_leading`, `C47_trailing`, `C47_text`, `Rules.C48_rules_independent`, `Rules.C48_definitions_independent`, `C49_lex_tokenizes`, `C49_tokenizes_unique`, `Cli.C50_overlap_check`, `Naming.C51_snake_suggestion_exists`, `Naming.C51_kebab_suggestion_exists`, `Naming.C51_no_suggestion`, `Rules.C54_parser_or_overlap`, `Rules.C54_panic_reasons`, `Cli.C55_progress`, `Cli.C55_end_reachable`, `Rules.C57_parsed`, `Rules.C57_file_directives`, `Rules.C58_block_names`, `Rules.C58_attribute_names`, `Rules.C59_hash_keys`, `Rules.C59_fix_parsed`, `Rules.C59_fix_deletes_quotes`, `Rules.C60_filters`, `Rules.C60_tests`, `Rules.C60_functions`, `Rules.C61_variables`, `Rules.C61_extends`, `Shape.C62_error_free_tree`, `Shape.C63_every_tree`, `Shape.C64_parts`, `Shape.C64_wholes`, `Shape.C64_bodies`, `Shape.C65_parts`, `Rules.C66_rules_never_panic`, `Layout.C67_layout`, `Layout.C67_leading`, `Layout.C68_relaid`, `Shape.C69_whitespace_attached`, `Rules.C70_layout_fix_keeps_structure`, `Layout.insertionSort_sorts`, `Rules.C71_layout_fix_converges`, `Layout.insertionSort_stable`, `Rules.C72_block_line_breaks`, `Template.C73_template_accepted`, `Template.C73_unambiguous`, `Rules.C74_layout_rules`, `Rules.C74_can_break`, `Rules.C75_quote_fix_keeps_templates`, `Rules.C76_quote_fix_keeps_trees`, `Rules.C77_quote_fix_settles`, `Rules.C78_quotes_after_fix`, `Rules.C79_neat_fix_keeps_trees`, `Rules.C80_neat_fix_settles`, `Rules.C81_layout_after_fix`, `Rules.C81_neat_after_fix`, `Rules.C82_severity_of_rule`, `Rules.C82_no_info`, `Rules.C82_status_zero_is_clean`, `Rules.C82_program_status_zero`, `Rules.C83_labels_in_final_text`, `Rules.C84_line_endings_keep_structure`, `Layout.C84_relined`, `Rules.breaks_lineEnding_unix`, `Rules.C85_line_endings_converge`, `Rules.line_step`, `Rules.line_found`, `Layout.C86_widened`, `Layout.C87_broken`, `Rules.C88_block_break_fix_keeps_structure`, `Rules.C89_breaks_at_different_places`, `Rules.C90_block_break_fix_settles`, `Rules.C91_block_breaks_after_fix`, `Rules.C92_line_fix_keeps_structure`, `Rules.C93_rows_after_fix`, `Rules.C94_fix_changes_whitespace_only`, `Rules.C94_line_endings_change_whitespace_only`, `Rules.C94_same_structure_same_text`, `Rules.C95_neat_fix_keeps_signs`, `Rules.C96_layout_fix_keeps_lines`, `Rules.C97_block_break_fix_changes_breaks_only`, `Rules.spaced_unbroken`, `Rules.spaced_linesKept`, `Rules.C98_line_fix_joins_no_lines`, `Rules.shifted_apart`
* **propext, Quot.sound** (24): `C02_lex_partition`, `C02_token_in_source`, `C12_next_kind`, `C12_next_but_one`, `C12_twig_tag`, `C12_following`, `Cli.C17_file_active`, `Rules.C17_file_rules`, `Rules.C17_only_direct_children`, `Cli.C22_applied_disjoint_partial`, `Cli.C22_unfiltered_disjoint`, `Cli.C23_written_only_by_successful_fix`, `Cli.C24_successful_fix_is_complete`, `Cli.C26_walk_error_only`, `Cli.C27_scheduling_independent`, `Cli.C27_every_schedule`, `Naming.C31_camel_valid_iff`, `Cli.C43_every_problem_counted`, `Cli.C43_counts_exact`, `SyntaxKind.C45_guard_exact`, `Cli.C52_failed_file_reported`, `Cli.C53_second_fix_changes_nothing`, `Cli.C56_only_walked_files`, `Rules.C72_behind_is_next`
* **propext** (4): `Naming.C29_suggestion_can_be_empty`, `SyntaxKind.C45_round_trip`, `Cli.C55_no_infinite_run`, `Rules.edits_unindented`
