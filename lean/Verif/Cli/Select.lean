import Verif.Basic.Text

/-!
# Rule selection (model)

`crates/ludtwig/src/check/rules.rs`. A rule is represented by its name (the trait objects of
`RULE_DEFINITIONS` are in bijection with their names, see `ruleDefinitions_nodup`).
-/

namespace Ludtwig.Cli

abbrev RuleName := List Char

/-- Names of `RULE_DEFINITIONS`, check/rules.rs 53–76, each from the `name()` of the rule's file. -/
def ruleDefinitions : List RuleName :=
  ["ludtwig-ignore-file-not-on-top".toList, "whitespace-between-line-breaks".toList,
   "line-ending".toList, "indentation".toList, "twig-block-line-breaks".toList,
   "twig-block-name-snake-case".toList, "html-attribute-name-kebab-case".toList,
   "twig-logic-and".toList, "twig-logic-or".toList, "twig-string-quotation".toList,
   "html-string-quotation".toList, "twig-hash-key-no-quotes".toList,
   "twig-prefer-shopware-extends".toList, "twig-use-is-same-as".toList,
   "twig-use-is-not-same-as".toList, "twig-block-duplicate".toList,
   "twig-json-encode-escape-js".toList, "html-duplicate-id".toList,
   "twig-variable-definition-naming".toList, "twig-valid-filter".toList,
   "twig-valid-test".toList, "twig-valid-function".toList]

/-- `ConfigurationError::RuleNotFound` carries the name. -/
inductive ConfigError
  | ruleNotFound (name : RuleName)
  deriving DecidableEq

/-- The validation loop, check/rules.rs 101–107. -/
def firstUnknown (active : List RuleName) : List RuleName → Option RuleName
  | [] => none
  | r :: rs => if !active.any (fun a => a == r) then some r else firstUnknown active rs

/-- `get_config_active_rule_definitions`, check/rules.rs 79–110, for a given definition table. -/
def configActive (defs config : List RuleName) : Except ConfigError (List RuleName) :=
  let active := defs.filter (fun r => config.contains r)
  match firstUnknown active config with
  | some name => .error (.ruleNotFound name)
  | none => .ok active

/-- The loop over the directives, check/rules.rs 118–132: `none` = an ignore-file directive without
rules was met (early return of the empty vector), otherwise the collected names.
The argument lists, in order, the rule lists of the direct children of the root that are
`LUDTWIG_DIRECTIVE_FILE_IGNORE` nodes. -/
def collectDisabled : List (List RuleName) → List RuleName → Option (List RuleName)
  | [], acc => some acc
  | d :: ds, acc => if d.isEmpty then none else collectDisabled ds (acc ++ d)

/-- `get_file_active_rule_definitions`, check/rules.rs 114–139. -/
def fileActive (directives : List (List RuleName)) (definitions : List RuleName) :
    List RuleName :=
  match collectDisabled directives [] with
  | none => []
  | some disabled => definitions.filter (fun d => !disabled.any (fun r => r == d))

end Ludtwig.Cli
