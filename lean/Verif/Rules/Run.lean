import Verif.Syntax.Typed
import Verif.Cli.Process

/-!
# Running the rules on a syntax tree (model)

`run_rules` of crates/ludtwig/src/check.rs, the `Rule` trait of check/rule.rs and the config values
of config.rs that rules read.
-/

namespace Ludtwig.Rules

open Cli

/-- `LineEnding`, config.rs 76–82. -/
inductive LineEnding
  | unixLF
  | windowsCRLF
  deriving DecidableEq, Repr

/-- `LineEnding::corresponding_string`, config.rs 97–104. -/
def LineEnding.text : LineEnding → Text
  | .unixLF => ['\n']
  | .windowsCRLF => ['\r', '\n']

/-- `IndentationMode`, config.rs 47–52. -/
inductive IndentationMode
  | space
  | tab
  deriving DecidableEq, Repr

/-- `IndentationMode::corresponding_char`, config.rs 67–73. -/
def IndentationMode.char : IndentationMode → Char
  | .space => ' '
  | .tab => '\t'

/-- `Quotation`, config.rs 106–112. -/
inductive Quotation
  | single
  | double
  deriving DecidableEq, Repr

/-- `Quotation::corresponding_char`, config.rs 127–134. -/
def Quotation.char : Quotation → Char
  | .single => '\''
  | .double => '"'

/-- `Format` and `Twig`, config.rs 26–45. The `u8` indentation count is a natural number. -/
structure Config where
  lineEnding : LineEnding
  indentationMode : IndentationMode
  indentationCount : Nat
  indentChildrenOfBlocks : Bool
  linebreaksAroundBlocks : Bool
  twigQuotation : Quotation
  htmlQuotation : Quotation
  validFilters : List Text
  validTests : List Text
  validFunctions : List Text

/-- `RuleRunContext`, check/rule.rs 129–150. -/
structure Ctx where
  config : Config
  insideTriviaSensitive : Bool

/-- The ways in which running the rules can panic. -/
inductive RulePanic
  /-- the `expect` of check.rs 148–153 -/
  | ignoredRuleMissing
  /-- a `usize` subtraction below zero (indentation.rs 288, 309); a panic in debug builds, a wrapped
  number in release builds -/
  | subtractOverflow
  deriving DecidableEq, Repr

/-- The `Rule` trait, check/rule.rs 7–53. `None` and the empty vector are the same to the callers
(they flatten) and both are the empty list. -/
structure Rule where
  name : RuleName
  checkNode : Ctx → Elem → List CheckResult := fun _ _ => []
  checkToken : Ctx → Elem → List CheckResult := fun _ _ => []
  checkRoot : Ctx → Elem → Except RulePanic (List CheckResult) := fun _ _ => .ok []

/-- The rules of the `ludtwig-ignore` directive directly before an element, check.rs 65–80 and
139–145; `none` if there is no directive. -/
def ignoreBefore (e : Elem) : Option (List RuleName) :=
  match e.prevSiblingOrToken with
  | none => none
  | some p => (p.cast .LUDTWIG_DIRECTIVE_IGNORE).map (·.directiveRules)

/-- The tags with sensitive whitespace, check.rs 99 and 163. -/
def sensitiveTags : List Text :=
  ["pre".toList, "textarea".toList, "script".toList, "style".toList]

/-- Is an element an HTML tag with sensitive whitespace? check.rs 98–104. -/
def isSensitiveTag (e : Elem) : Bool :=
  e.isNode && e.kind == .HTML_TAG &&
    (match e.tagName with
      | some t => sensitiveTags.contains t.text
      | none => false)

/-- Is an element a node with sensitive whitespace? check.rs 94–104 and 157–169. -/
def isSensitive (e : Elem) : Bool :=
  (e.isNode && (e.kind == .HTML_STRING_INNER || e.kind == .TWIG_LITERAL_STRING_INNER)) ||
    isSensitiveTag e

/-- The variables of `run_rules`, check.rs 26–32 and 58. -/
structure RunState where
  results : List CheckResult
  ignored : List RuleName
  sensitive : Bool

/-- The rules that are not ignored on an element, check.rs 106–118 and 121–133. -/
def runOn (rules : List Rule) (ignored : List RuleName) (check : Rule → List CheckResult) :
    List CheckResult :=
  rules.flatMap (fun r => if ignored.any (fun i => i == r.name) then [] else check r)

/-- The `Enter` event of `run_rules`, check.rs 62–136. -/
def runEnter (config : Config) (rules : List Rule) (e : Elem) (s : RunState) :
    Except RulePanic (RunState × Bool) :=
  match ignoreBefore e with
  | some [] => .ok (s, true)
  | found =>
    let ignored := s.ignored ++ found.getD []
    if e.isNode then
      if e.kind == .ERROR then .ok ({ s with ignored := ignored }, true)
      else
        let sensitive := if isSensitive e then true else s.sensitive
        .ok ({ results := s.results ++ runOn rules ignored (fun r => r.checkNode ⟨config, sensitive⟩ e)
               ignored := ignored
               sensitive := sensitive }, false)
    else
      .ok ({ s with
        results := s.results ++ runOn rules ignored (fun r => r.checkToken ⟨config, s.sensitive⟩ e)
        ignored := ignored }, false)

/-- The loop of check.rs 147–154. -/
def removeIgnored : List RuleName → List RuleName → Except RulePanic (List RuleName)
  | [], ignored => .ok ignored
  | r :: rs, ignored =>
    if ignored.contains r then removeIgnored rs (ignored.erase r) else .error .ignoredRuleMissing

/-- The `Leave` event of `run_rules`, check.rs 137–170. -/
def runLeave (e : Elem) (s : RunState) : Except RulePanic RunState :=
  match removeIgnored ((ignoreBefore e).getD []) s.ignored with
  | .error p => .error p
  | .ok ignored =>
    .ok { s with ignored := ignored, sensitive := if isSensitive e then false else s.sensitive }

/-- The root checks, check.rs 49–55. -/
def rootChecks (config : Config) (root : Elem) : List Rule → Except RulePanic (List CheckResult)
  | [] => .ok []
  | r :: rs =>
    match r.checkRoot ⟨config, false⟩ root with
    | .error p => .error p
    | .ok results =>
      match rootChecks config root rs with
      | .error p => .error p
      | .ok more => .ok (results ++ more)

/-- The visitor of the loop of `run_rules`, check.rs 59–172. -/
def runVisitor (config : Config) (rules : List Rule) : Visitor RulePanic RunState :=
  { enter := runEnter config rules, leave := runLeave }

/-- `run_rules`, check.rs 25–175. -/
def runRules (config : Config) (rules : List Rule) (root : Tree) :
    Except RulePanic (List CheckResult) :=
  if rules.isEmpty then .ok []
  else
    match rootChecks config (Elem.root root) rules with
    | .error p => .error p
    | .ok results =>
      match (Elem.root root).walk (runVisitor config rules) ⟨results, [], false⟩ with
      | .error p => .error p
      | .ok s => .ok s.results

/-- The rule lists of the `ludtwig-ignore-file` directives among the children of the root,
check/rules.rs 118–126. -/
def fileDirectives (root : Tree) : List (List RuleName) :=
  ((Elem.root root).childrenOf .LUDTWIG_DIRECTIVE_FILE_IGNORE).map (·.directiveRules)

/-- `get_file_active_rule_definitions`, check/rules.rs 114–139, on rules. -/
def fileRules (root : Tree) (definitions : List Rule) : List Rule :=
  match collectDisabled (fileDirectives root) [] with
  | none => []
  | some disabled => definitions.filter (fun d => !disabled.any (fun r => r == d.name))

/-! ## Helpers for `check_root` implementations -/

/-- `check_for_rule_ignore_enter`, check/rule.rs 85–107 and indentation.rs 208–230: the new flag, and
whether the subtree was skipped. -/
def ignoreEnter (name : RuleName) (isIgnored : Bool) (n : Elem) : Bool × Bool :=
  match n.prevSibling with
  | none => (isIgnored, false)
  | some p =>
    match p.cast .LUDTWIG_DIRECTIVE_IGNORE with
    | none => (isIgnored, false)
    | some d =>
      if d.directiveRules.isEmpty then (isIgnored, true)
      else if d.directiveRules.any (fun r => r == name) then (true, false)
      else (isIgnored, false)

/-- `check_for_rule_ignore_leave`, check/rule.rs 109–120 and indentation.rs 232–243. -/
def ignoreLeave (name : RuleName) (isIgnored : Bool) (n : Elem) : Bool :=
  match n.prevSibling with
  | none => isIgnored
  | some p =>
    match p.cast .LUDTWIG_DIRECTIVE_IGNORE with
    | none => isIgnored
    | some d => if d.directiveRules.any (fun r => r == name) then false else isIgnored

end Ludtwig.Rules
