import Verif.Parser.State

/-!
# Grammar helpers (model)

Small combinators in which the grammar functions of crates/ludtwig-parser/src/grammar are written.
They only name recurring code shapes; every grammar function below cites the code it transcribes.
-/

namespace Ludtwig

/-- `if cond { t } else { e }` with a condition that looks at the tokens. -/
def ifP (c : P Bool) (t e : P α) : P α := do
  let b ← c
  if b then t else e

/-- `if cond { t }`. -/
def whenP (c : P Bool) (t : P Unit) : P Unit := ifP c t (pure ())

/-- `if m.is_none() { t }`. -/
def ifNone (m : P (Option α)) (t : P Unit) : P Unit := do
  match (← m) with
  | some _ => pure ()
  | none => t

/-- Ignores the result of a call. -/
def discard' (m : P α) : P Unit := do
  let _ ← m
  pure ()

/-- `parser.bump();` -/
def bump_ (site : Site := .checked) : P Unit := discard' (bump site)

/-- `parser.expect(kind, recovery);` -/
def expect_ (kind : SyntaxKind) (recovery : List SyntaxKind) : P Unit := discard' (expect kind recovery)

/-- `parser.expect_any(kinds, recovery);` -/
def expectAny_ (kinds recovery : List SyntaxKind) : P Unit := discard' (expectAny kinds recovery)

/-- `parser.complete(m, kind);` -/
def complete_ (m : Marker) (kind : SyntaxKind) : P Unit := discard' (complete m kind)

/-- `parser.add_error(..); parser.recover(..);` -/
def errorRecover (expected : String) (recovery : List SyntaxKind) : P Unit := do
  addError expected
  recover recovery

/-- `if f(parser).is_none() { add_error(..); recover(..); }` -/
def orRecover (f : P (Option CompletedMarker)) (expected : String) (recovery : List SyntaxKind) :
    P Unit :=
  ifNone f (errorRecover expected recovery)

/-- `let m = precede(node); complete(m, kind)`. -/
def wrap (node : CompletedMarker) (kind : SyntaxKind) : P CompletedMarker := do
  let m ← precede node
  complete m kind

/-- `if p.at(kind) { p.bump(); }` -/
def optionalToken (kind : SyntaxKind) : P Unit := whenP (at' kind) bump_

/-- `if p.at(",") { p.bump(); } else if !atEnd { p.add_error(","); }`, the separator of lists. -/
def commaOrEnd (listEnd : P Bool) : P Unit :=
  ifP (at' T!",") bump_ (whenP (P.not listEnd) (addError ","))

/-- The recursive entry points of the grammar. The functions of the grammar call each other
recursively; the model gives every function its recursive callees as parameters and ties the knot
with a bound on the recursion depth (`Grammar/Root.lean`). -/
structure Knot where
  /-- `parse_twig_expression_binding_power`, expression.rs 137–149. -/
  exprBp : Nat → P (Option CompletedMarker)
  /-- `parse_any_element`, grammar.rs 59–61. -/
  anyElement : P (Option CompletedMarker)
  /-- `parse_html_raw_text_inner`, html.rs 96–116. -/
  rawTextInner : P (Option CompletedMarker)
  /-- `parse_html_attribute_or_twig`, html.rs 285–322. -/
  attributeOrTwig : P (Option CompletedMarker)
  /-- `inner_double_quote_parser`, html.rs 329–342. -/
  innerDouble : P (Option CompletedMarker)
  /-- `inner_single_quote_parser`, html.rs 344–357. -/
  innerSingle : P (Option CompletedMarker)

/-- `parse_twig_expression`, expression.rs 73–75. -/
def Knot.expr (K : Knot) : P (Option CompletedMarker) := K.exprBp 0

/-- A regex of the form `^[first][other]*$`. -/
def matchesName (first other : Char → Bool) : Text → Bool
  | [] => false
  | c :: cs => first c && cs.all other

def isAsciiAlpha (c : Char) : Bool := ('a' ≤ c && c ≤ 'z') || ('A' ≤ c && c ≤ 'Z')
def isAsciiDigit (c : Char) : Bool := '0' ≤ c && c ≤ '9'
/-- `[\x7f-\xff]` (a range of code points, the regex is a Unicode one). -/
def isHighLatin (c : Char) : Bool := 0x7f ≤ c.toNat && c.toNat ≤ 0xff

/-- `TWIG_NAME_REGEX`, literal.rs 11–12: `^[a-zA-Z_\x7f-\xff][a-zA-Z0-9_\x7f-\xff]*$`. -/
def isTwigName : Text → Bool :=
  matchesName (fun c => isAsciiAlpha c || c == '_' || isHighLatin c)
    (fun c => isAsciiAlpha c || isAsciiDigit c || c == '_' || isHighLatin c)

/-- `HTML_TAG_NAME_REGEX`, html.rs 14–15: `^[a-zA-Z][a-zA-Z0-9\-]*$`. -/
def isHtmlTagName : Text → Bool :=
  matchesName isAsciiAlpha (fun c => isAsciiAlpha c || isAsciiDigit c || c == '-')

/-- `[a-zA-Z0-9_\-]` in `HTML_ATTRIBUTE_NAME_REGEX`. -/
def isAttributeNameChar (c : Char) : Bool :=
  isAsciiAlpha c || isAsciiDigit c || c == '_' || c == '-'

/-- `HTML_ATTRIBUTE_NAME_REGEX`, html.rs 11–12:
`^([a-zA-Z]|([:@\#_\$][a-zA-Z]))[a-zA-Z0-9_\-]*$`. -/
def isHtmlAttributeName : Text → Bool
  | [] => false
  | c :: cs =>
    if isAsciiAlpha c then cs.all isAttributeNameChar
    else if c == ':' || c == '@' || c == '#' || c == '_' || c == '$' then
      matchesName isAsciiAlpha isAttributeNameChar cs
    else false

/-- `parse_ludtwig_directive`, grammar.rs 63–94. -/
def parseLudtwigDirective (outer : Marker) (closing : List SyntaxKind) : P CompletedMarker := do
  let isFile ← at' T!"ludtwig-ignore-file"
  bump_
  let ruleListM ← start
  parseMany (atSet closing) (do
    expect_ T!"word" (T!"," :: closing)
    optionalToken T!",")
  complete_ ruleListM .LUDTWIG_DIRECTIVE_RULE_LIST
  expectAny_ closing []
  complete outer
    (if isFile then .LUDTWIG_DIRECTIVE_FILE_IGNORE else .LUDTWIG_DIRECTIVE_IGNORE)

end Ludtwig
