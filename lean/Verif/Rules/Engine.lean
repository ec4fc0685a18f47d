import Verif.Rules.Definitions
import Verif.Parser.Parse

/-!
# The parser and the rules as the engine of file processing (model)

`run_analysis` of crates/ludtwig/src/process.rs calls `ludtwig_parser::parse`,
`get_file_active_rule_definitions` and `run_rules`; here these are the modelled ones.
-/

namespace Ludtwig.Rules

open Cli

/-- The rules of the definition table with the given names, in the order of the table. A rule object
of the code is identified by its name (`definitions_distinct`). -/
def rulesNamed (names : List RuleName) : List Rule :=
  definitions.filter (fun r => names.contains r.name)

/-- What `run_analysis` and `iteratively_apply_suggestions` (process.rs 58–182) call: the parser
(`errLen`: see `parse`), the selection of the file's rules among the `active` ones of the config, and
the rules. `sort` is the standard library's `sort_by` with `TextRange::ordering`. -/
def realEngine (errLen : Text → Nat) (config : Config) (active : List RuleName)
    (sort : List (RuleName × Suggestion) → List (RuleName × Suggestion)) : Engine Tree where
  parse text :=
    match Ludtwig.parse errLen text with
    | .ok p => some (p.tree, p.errors.length)
    | .error _ => none
  fileRules root := (fileRules root (rulesNamed active)).map (·.name)
  runRules names root :=
    match runRules config (rulesNamed names) root with
    | .ok results => some results
    | .error _ => none
  sort := sort

/-- The default config, crates/ludtwig/ludtwig-config.toml. -/
def defaultConfig : Config where
  lineEnding := .unixLF
  indentationMode := .space
  indentationCount := 4
  indentChildrenOfBlocks := true
  linebreaksAroundBlocks := true
  twigQuotation := .single
  htmlQuotation := .double
  validFilters :=
    ["abs".toList, "batch".toList, "capitalize".toList, "column".toList,
     "convert_encoding".toList, "country_name".toList, "currency_name".toList,
     "currency_symbol".toList, "data_uri".toList, "date".toList, "date_modify".toList,
     "default".toList, "escape".toList, "e".toList, "filter".toList, "find".toList,
     "first".toList, "format".toList, "format_currency".toList, "format_date".toList,
     "format_datetime".toList, "format_number".toList, "format_time".toList,
     "html_attr_merge".toList, "html_attr_type".toList, "html_to_markdown".toList,
     "inline_css".toList, "inky_to_html".toList, "invoke".toList, "join".toList,
     "json_encode".toList, "keys".toList, "language_name".toList, "last".toList, "length".toList,
     "locale_name".toList, "lower".toList, "map".toList, "markdown_to_html".toList,
     "merge".toList, "nl2br".toList, "number_format".toList, "plural".toList, "raw".toList,
     "reduce".toList, "replace".toList, "reverse".toList, "round".toList, "shuffle".toList,
     "singular".toList, "slice".toList, "slug".toList, "sort".toList, "spaceless".toList,
     "split".toList, "striptags".toList, "timezone_name".toList, "title".toList, "trim".toList,
     "u".toList, "upper".toList, "url_encode".toList]
  validTests :=
    ["constant".toList, "defined".toList, "divisible by".toList, "empty".toList, "even".toList,
     "iterable".toList, "mapping".toList, "null".toList, "none".toList, "odd".toList,
     "same as".toList, "sequence".toList]
  validFunctions :=
    ["attribute".toList, "block".toList, "constant".toList, "country_names".toList,
     "country_timezones".toList, "currency_names".toList, "cycle".toList, "date".toList,
     "dump".toList, "enum".toList, "enum_cases".toList, "html_attr".toList,
     "html_classes".toList, "html_cva".toList, "include".toList, "language_names".toList,
     "locale_names".toList, "max".toList, "min".toList, "parent".toList, "random".toList,
     "range".toList, "script_names".toList, "source".toList, "template_from_string".toList,
     "timezone_names".toList]

/-- The rules of the default config (in another order there, which does not matter, C15). -/
def defaultRules : List RuleName := ruleDefinitions

end Ludtwig.Rules
