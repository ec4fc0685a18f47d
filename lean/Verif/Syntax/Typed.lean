import Verif.Syntax.Cursor
import Verif.Cli.Select

/-!
# Typed accessors (model)

crates/ludtwig-parser/src/syntax/typed.rs and `SyntaxNodeExt` of untyped.rs. A typed node is its
untyped element; casting is the comparison of the kind (the `ast_node!` macro, typed.rs 81–128).
-/

namespace Ludtwig

/-- `cast` of the `ast_node!` types, typed.rs 99–108, for the kind of the type. -/
def Elem.cast (k : SyntaxKind) (e : Elem) : Option Elem :=
  if e.isNode && e.kind == k then some e else none

/-- `support::child` (rowan::ast): the first child node of a kind. -/
def Elem.child (k : SyntaxKind) (e : Elem) : Option Elem := e.children.find? (fun c => c.kind == k)

/-- `support::children` (rowan::ast): the child nodes of a kind. -/
def Elem.childrenOf (k : SyntaxKind) (e : Elem) : List Elem :=
  e.children.filter (fun c => c.kind == k)

/-- `support::token` (rowan::ast): the first child token of a kind. -/
def Elem.token (k : SyntaxKind) (e : Elem) : Option Elem := e.tokens.find? (fun c => c.kind == k)

/-- `first_non_trivia_token`, typed.rs 31–36; `TwigBinaryExpression::operator`, typed.rs 311–318. -/
def Elem.firstNonTriviaToken (e : Elem) : Option Elem := e.tokens.find? (fun t => !t.kind.isTrivia)

/-- `last_non_trivia_token`, typed.rs 39–45. -/
def Elem.lastNonTriviaToken (e : Elem) : Option Elem :=
  (e.tokens.filter (fun t => !t.kind.isTrivia)).getLast?

/-- `WhitespaceTrimming`, typed.rs 22–28. -/
inductive WhitespaceTrimming
  | removeAll
  | removeExceptNewLines
  deriving DecidableEq, Repr

/-- `leading_ws_control`, typed.rs 52–58. -/
def Elem.leadingWsControl (e : Elem) : Option WhitespaceTrimming := do
  match (← e.firstNonTriviaToken).kind with
  | T!"{%-" | T!"{{-" | T!"{#-" => some .removeAll
  | T!"{%~" | T!"{{~" | T!"{#~" => some .removeExceptNewLines
  | _ => none

/-- `trailing_ws_control`, typed.rs 62–68. -/
def Elem.trailingWsControl (e : Elem) : Option WhitespaceTrimming := do
  match (← e.lastNonTriviaToken).kind with
  | T!"-%}" | T!"-}}" | T!"-#}" => some .removeAll
  | T!"~%}" | T!"~}}" | T!"~#}" => some .removeExceptNewLines
  | _ => none

/-- `TwigBlock::starting_block`, typed.rs 140–142. -/
def Elem.startingBlock (e : Elem) : Option Elem := e.child .TWIG_STARTING_BLOCK

/-- `TwigBlock::ending_block`, typed.rs 150–152. -/
def Elem.endingBlock (e : Elem) : Option Elem := e.child .TWIG_ENDING_BLOCK

/-- `TwigStartingBlock::name`, typed.rs 159–161; `HtmlAttribute::name`, typed.rs 263–265;
`TwigLiteralName::get_name`, typed.rs 494–496. -/
def Elem.word (e : Elem) : Option Elem := e.token T!"word"

/-- `TwigBlock::name`, typed.rs 135–137. -/
def Elem.blockName (e : Elem) : Option Elem := do (← e.startingBlock).word

/-- `HtmlStartingTag::name`, typed.rs 229–234; `HtmlEndingTag::name`, typed.rs 288–293. -/
def Elem.startingTagName (e : Elem) : Option Elem :=
  e.tokens.find? (fun t => t.kind == T!"word" || t.kind == T!"twig component name")

/-- `HtmlTag::starting_tag`, typed.rs 210–212. -/
def Elem.startingTag (e : Elem) : Option Elem := e.child .HTML_STARTING_TAG

/-- `HtmlTag::name`, typed.rs 183–185. -/
def Elem.tagName (e : Elem) : Option Elem := do (← e.startingTag).startingTagName

/-- `HtmlStartingTag::is_twig_component`, typed.rs 254–256. -/
def Elem.isTwigComponent (e : Elem) : Bool := (e.token T!"twig component name").isSome

/-- `HtmlAttribute::value`, typed.rs 269–271. -/
def Elem.attributeValue (e : Elem) : Option Elem := e.child .HTML_STRING

/-- `HtmlAttribute::html_tag`, typed.rs 275–281. -/
def Elem.attributeTag (e : Elem) : Option Elem := do
  (← (← e.parent).parent).cast .HTML_STARTING_TAG

/-- `TwigBinaryExpression::rhs_expression`, typed.rs 326–331. -/
def Elem.rhsExpression (e : Elem) : Option Elem := (e.childrenOf .TWIG_EXPRESSION)[1]?

/-- `LudtwigDirectiveRuleList::get_rule_names`, typed.rs 340–350. -/
def Elem.ruleNames (e : Elem) : List Cli.RuleName :=
  (e.tokens.filter (fun t => t.kind == .TK_WORD)).map (·.text)

/-- `LudtwigDirectiveFileIgnore::get_rules`, typed.rs 359–363, and
`LudtwigDirectiveIgnore::get_rules`, typed.rs 369–373. -/
def Elem.directiveRules (e : Elem) : List Cli.RuleName :=
  match e.child .LUDTWIG_DIRECTIVE_RULE_LIST with
  | some list => list.ruleNames
  | none => []

/-- `TwigLiteralString::get_inner`, typed.rs 379–381. -/
def Elem.twigStringInner (e : Elem) : Option Elem := e.child .TWIG_LITERAL_STRING_INNER

/-- `HtmlString::get_inner`, typed.rs 434–436. -/
def Elem.htmlStringInner (e : Elem) : Option Elem := e.child .HTML_STRING_INNER

/-- `get_opening_quote`, typed.rs 384–399 and 439–454. -/
def Elem.openingQuote (e : Elem) : Option Elem :=
  (e.childrenWithTokens.takeWhile (fun c => !c.isNode)).find?
    (fun c => !c.isNode && !c.kind.isTrivia)

/-- `get_closing_quote`, typed.rs 402–417 and 457–472. -/
def Elem.closingQuote (e : Elem) : Option Elem :=
  (e.childrenWithTokens.dropWhile (fun c => !c.isNode)).find?
    (fun c => !c.isNode && !c.kind.isTrivia)

/-- `TwigFilter::operand`, typed.rs 516–518; `TwigFunctionCall::name_operand`, typed.rs 535–537. -/
def Elem.operand (e : Elem) : Option Elem := e.child .TWIG_OPERAND

/-- `TwigFilter::filter`, typed.rs 523–525. -/
def Elem.filterOperand (e : Elem) : Option Elem := (e.childrenOf .TWIG_OPERAND)[1]?

/-- `TwigBlock::body`, typed.rs 145–147; `HtmlTag::body`, typed.rs 215–217. -/
def Elem.body (e : Elem) : Option Elem := e.child .BODY

/-- `HtmlTag::ending_tag`, typed.rs 220–222. -/
def Elem.endingTag (e : Elem) : Option Elem := e.child .HTML_ENDING_TAG

/-- `HtmlTag::is_self_closing`, typed.rs 189–191. -/
def Elem.isSelfClosing (e : Elem) : Bool := e.endingTag.isNone

/-- `HtmlStartingTag::attributes`, typed.rs 238–244. -/
def Elem.startingTagAttributes (e : Elem) : List Elem :=
  match e.child .HTML_ATTRIBUTE_LIST with
  | some list => list.childrenOf .HTML_ATTRIBUTE
  | none => e.childrenOf .HTML_ATTRIBUTE

/-- `HtmlTag::attributes`, typed.rs 195–201. -/
def Elem.tagAttributes (e : Elem) : List Elem :=
  match e.startingTag with
  | some n => n.startingTagAttributes
  | none => e.childrenOf .HTML_ATTRIBUTE

/-- `TwigStartingBlock::twig_block`, typed.rs 165–167; `TwigEndingBlock::twig_block`, typed.rs
174–176. -/
def Elem.twigBlock (e : Elem) : Option Elem := do (← e.parent).cast .TWIG_BLOCK

/-- `HtmlStartingTag::html_tag`, typed.rs 248–250; `HtmlEndingTag::html_tag`, typed.rs 297–299. -/
def Elem.htmlTag (e : Elem) : Option Elem := do (← e.parent).cast .HTML_TAG

/-- `TwigBinaryExpression::lhs_expression`, typed.rs 321–323. -/
def Elem.lhsExpression (e : Elem) : Option Elem := e.child .TWIG_EXPRESSION

/-- `TwigExtends::get_extends_keyword`, typed.rs 478–480. -/
def Elem.extendsKeyword (e : Elem) : Option Elem := e.token T!"extends"

/-- `TwigVar::get_expression`, typed.rs 486–488. -/
def Elem.varExpression (e : Elem) : Option Elem := e.child .TWIG_EXPRESSION

/-- `TwigFunctionCall::arguments`, typed.rs 541–543. -/
def Elem.callArguments (e : Elem) : Option Elem := e.child .TWIG_ARGUMENTS

/-- The loop of `text_range_trimmed_trivia`, untyped.rs 994–1004. -/
def trimLoop : List Elem → TextRange → TextRange
  | [], r => r
  | c :: cs, r =>
    if !c.isNode && c.kind.isTrivia then
      trimLoop cs
        (if r.start + byteLen c.text < r.stop then ⟨r.start + byteLen c.text, r.stop⟩ else r)
    else r

/-- `text_range_trimmed_trivia`, untyped.rs 991–1008. -/
def Elem.rangeTrimmed (e : Elem) : TextRange := trimLoop e.childrenWithTokens e.range

end Ludtwig
