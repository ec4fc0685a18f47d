import Verif.Syntax.Elements
import Verif.Rules.Run

/-!
# Specification of `run_rules`

Where rules run and what they are told, in terms of the elements of the tree: no traversal state, no
accessor functions of the model.
-/

namespace Ludtwig.Rules

open Cli

/-- A node of a kind. -/
def nodeOf (kind : SyntaxKind) : Tree → Bool
  | .node k _ => k == kind
  | .token _ _ => false

/-- A token of one of some kinds. -/
def tokenOf (kinds : List SyntaxKind) : Tree → Bool
  | .node _ _ => false
  | .token k _ => kinds.contains k

/-- The rule names of a directive, given its children: the words of the first rule list. -/
def directiveNames (children : List Tree) : List RuleName :=
  match children.find? (nodeOf .LUDTWIG_DIRECTIVE_RULE_LIST) with
  | some (.node _ words) => (words.filter (tokenOf [.TK_WORD])).map (·.text)
  | _ => []

/-- The rule names of the `ludtwig-ignore` directive directly before an element (no rule name at all
means every rule); `none` without directive. -/
def precedingDirective (e : Elem) : Option (List RuleName) :=
  match e.path with
  | [] => none
  | f :: _ =>
    match f.before.getLast? with
    | some (.node .LUDTWIG_DIRECTIVE_IGNORE children) => some (directiveNames children)
    | _ => none

/-- An element below which nothing is checked: an ERROR node, or an element directly after a
directive that names no rule. -/
def closed (e : Elem) : Bool :=
  nodeOf .ERROR e.tree || precedingDirective e == some []

/-- No check runs on an element inside of a closed element. -/
def hidden (e : Elem) : Bool := e.chain.any closed

/-- A rule is switched off on an element if a directive that names it is directly before the element
or one of its ancestors. -/
def switchedOff (name : RuleName) (e : Elem) : Bool :=
  e.chain.any (fun a => ((precedingDirective a).getD []).contains name)

/-- The trees in which whitespace matters: the content of strings, and the tags `pre`, `textarea`,
`script` and `style`. -/
def protectsWhitespace : Tree → Bool
  | .node .HTML_STRING_INNER _ => true
  | .node .TWIG_LITERAL_STRING_INNER _ => true
  | .node .HTML_TAG children =>
    match children.find? (nodeOf .HTML_STARTING_TAG) with
    | some (.node _ parts) =>
      match parts.find? (tokenOf [.TK_WORD, .TK_TWIG_COMPONENT_NAME]) with
      | some (.token _ name) =>
        ["pre".toList, "textarea".toList, "script".toList, "style".toList].contains name
      | _ => false
    | _ => false
  | _ => false

/-- Is there an element in the subtree in which whitespace matters (not counting what is inside of
closed elements)? -/
def touches (e : Elem) : Bool :=
  e.descendants.any (fun c => protectsWhitespace c.tree && c.ancestors.all (fun a => !closed a))

/-- What rules are told on an element about whitespace: it matters in the element itself, or the
parent is told so and no earlier sibling touches an element in which whitespace matters. -/
def toldFrom : Tree → Nat → List Frame → Bool
  | t, _, [] => protectsWhitespace t
  | t, pos, f :: fs =>
    protectsWhitespace t ||
      (toldFrom (.node f.kind (f.before ++ t :: f.after)) f.start fs &&
        (Elem.siblingsBefore ⟨t, pos, f :: fs⟩).all (fun b => !touches b))

/-- What rules are told on an element about whitespace. -/
def told (e : Elem) : Bool := toldFrom e.tree e.start e.path

/-- The check of a rule on an element, by its sort. -/
def checkElem (config : Config) (r : Rule) (e : Elem) : List CheckResult :=
  match e.tree with
  | .node _ _ => r.checkNode ⟨config, told e⟩ e
  | .token _ _ => r.checkToken ⟨config, told e⟩ e

/-- The findings of node and token checks: element by element, on each rule by rule. -/
def specResults (config : Config) (rules : List Rule) (root : Tree) : List CheckResult :=
  (root.elems.filter (fun e => !hidden e)).flatMap (fun e =>
    (rules.filter (fun r => !switchedOff r.name e)).flatMap (fun r => checkElem config r e))

end Ludtwig.Rules
