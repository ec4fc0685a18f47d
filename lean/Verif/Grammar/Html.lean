import Verif.Grammar.Twig

/-!
# Html elements (model)

crates/ludtwig-parser/src/grammar/html.rs, function by function.
-/

namespace Ludtwig

/-- `HTML_VOID_ELEMENTS`, html.rs 18–21. -/
def htmlVoidElements : List Text :=
  ["area", "base", "br", "col", "command", "embed", "hr", "img", "input", "keygen", "link",
   "meta", "param", "source", "track", "wbr"].map String.toList

/-- `HTML_RAW_TEXT_ELEMENTS`, html.rs 24. -/
def htmlRawTextElements : List Text :=
  ["script", "style", "textarea", "title"].map String.toList

/-- `to_ascii_lowercase` of a character. -/
def asciiLower (c : Char) : Char :=
  if 'A' ≤ c && c ≤ 'Z' then Char.ofNat (c.toNat + 32) else c

/-- The kinds after `<` with which it is ordinary text, html.rs 28–30 and 59–61. -/
def noTagStart (k : SyntaxKind) : Bool :=
  k == T!"ws" || k == T!"number" || generalRecoverySet.contains k

/-- `parser_at_less_than_non_word`, html.rs 57–62. -/
def atLessThanNonWord : P Bool :=
  P.and (at' T!"<") (do
    match (← peekNthToken 1) with
    | none => return true
    | some t => return noTagStart t.kind)

/-- The start of an element in `parse_any_html`, html.rs 27–30. -/
def atElementStart : P Bool :=
  P.and (at' T!"<") (do
    match (← peekNthToken 1) with
    | none => return false
    | some t => return !noTagStart t.kind)

/-- `parse_html_doctype`, html.rs 44–54. -/
def parseHtmlDoctype : P CompletedMarker := do
  let m ← start
  bump_
  expect_ T!"DOCTYPE" [T!"word", T!">"]
  expect_ T!"word" [T!">"]
  expect_ T!">" []
  complete m .HTML_DOCTYPE

/-- Where text stops, html.rs 65–66 and 76–77. -/
def atTextEnd : P Bool :=
  P.or (atSet [T!"</"]) (P.and (atSet generalRecoverySet) (P.not atLessThanNonWord))

/-- `parse_html_text`, html.rs 56–85. -/
def parseHtmlText : P (Option CompletedMarker) :=
  ifP (P.or atEnd atTextEnd) (return none) (do
    let m ← start
    parseMany atTextEnd bump_
    return some (← complete m .HTML_TEXT))

/-- The child parser of raw text, html.rs 108–112 and 136–140: `bump` is called unconditionally
when no twig was found. -/
def parseRawTextPart (K : Knot) : P Unit :=
  ifNone (parseAnyTwig K K.rawTextInner) (bump_ .rawText)

/-- `parse_html_raw_text_inner`, html.rs 96–116. -/
def parseHtmlRawTextInner (K : Knot) : P (Option CompletedMarker) := do
  let m ← start
  parseMany atTwigTerminationTag (parseRawTextPart K)
  return some (← complete m .HTML_RAW_TEXT)

/-- The early exit of html bodies, html.rs 122–135 and 232–245: the captured variable is
`matching_end_tag_encountered`. -/
def atBodyEnd (tagKind : SyntaxKind) (tagName : Text) (found : Bool) : P (Bool × Bool) :=
  ifP (atFollowingContent [(T!"</", none), (tagKind, some tagName)]) (return (true, true))
    (do return ((← atTwigTerminationTag), found))

/-- `parse_html_raw_text`, html.rs 90–145. -/
def parseHtmlRawText (K : Knot) (tagKind : SyntaxKind) (tagName : Text) : P Bool := do
  let m ← start
  let found ← parseManyWith (atBodyEnd tagKind tagName)
    (fun found => do parseRawTextPart K; return found) false
  complete_ m .HTML_RAW_TEXT
  return found

/-- `parse_plain_html_comment`, html.rs 159–170. -/
def parsePlainHtmlComment (outer : Marker) : P CompletedMarker := do
  parseMany (at' T!"-->") bump_
  expect_ T!"-->" []
  complete outer .HTML_COMMENT

/-- `parse_html_comment`, html.rs 147–157. -/
def parseHtmlComment : P CompletedMarker := do
  let m ← start
  bump_
  ifP (atSet [T!"ludtwig-ignore-file", T!"ludtwig-ignore"])
    (parseLudtwigDirective m [T!"-->"]) (parsePlainHtmlComment m)

/-- `inner_no_quote_parser`, html.rs 359–371 (its result is ignored). -/
def parseInnerNoQuote (K : Knot) : P Unit :=
  ifP (at' T!"word") bump_
  (ifP atTwigVarOpen (discard' (parseTwigVarStatement K))
  (errorRecover "html attribute value" [T!"word", T!">", T!"/>"]))

/-- `child_parser`, html.rs 373–381. -/
def parseAttributeValuePart (K : Knot) (inner : P (Option CompletedMarker)) : P Unit :=
  ifNone (parseAnyTwig K inner)
    (ifP (P.or (atSet [T!">", T!"/>"]) (P.or (atSet generalRecoverySet) atEnd)) (pure ()) bump_)

/-- `inner_double_quote_parser` (html.rs 329–342) and `inner_single_quote_parser` (344–357). -/
def parseInnerQuote (K : Knot) (quote : SyntaxKind) (inner : P (Option CompletedMarker)) :
    P (Option CompletedMarker) := do
  parseMany (P.or (at' quote) atTwigTerminationTag) (parseAttributeValuePart K inner)
  return none

/-- The opening quote of `parse_html_attribute_value_string`, html.rs 384–392. -/
def parseOpeningQuote : P (Option SyntaxKind) :=
  ifP (atSet [T!"\"", T!"'"]) (do return some (← bump).kind) (return none)

/-- The end of `parse_html_attribute_value_string`, html.rs 417–430. -/
def parseClosingQuote : Option SyntaxKind → P Unit
  | some quote => expect_ quote [T!">", T!"/>"]
  | none => whenP (atSet [T!"\"", T!"'"]) (do
      let m ← start
      let t ← bump
      addErrorAt "no trailing quote because there is no leading quote" t
      complete_ m .ERROR)

/-- The `match` of `parse_html_attribute_value_string`, html.rs 396–406. -/
def parseInnerValue (K : Knot) : Option SyntaxKind → P Unit
  | none => parseInnerNoQuote K
  | some quote =>
    if quote = T!"\"" then discard' (parseInnerQuote K T!"\"" K.innerDouble)
    else if quote = T!"'" then discard' (parseInnerQuote K T!"'" K.innerSingle)
    else P.panic .quoteKind

/-- `parse_html_attribute_value_string`, html.rs 328–433. -/
def parseHtmlAttributeValueString (K : Knot) : P CompletedMarker := do
  let m ← start
  let quote ← parseOpeningQuote
  let inner ← start
  parseInnerValue K quote
  whenP (pure quote.isSome) explicitlyConsumeTrivia
  complete_ inner .HTML_STRING_INNER
  parseClosingQuote quote
  complete m .HTML_STRING

/-- The text that is tested as an attribute name, html.rs 286–290 (`none` is the `?` return). -/
def attributeNameText : P (Option Text) :=
  ifP (at' T!":")
    (do return (← peekNthToken 1).map (fun t => ':' :: t.text))
    (do return (← peekToken).map (·.text))

/-- The end of `parse_html_attribute_or_twig`, html.rs 315–321. -/
def parseAttributeRest (K : Knot) (m : Marker) : P (Option CompletedMarker) := do
  whenP (at' T!"=") (do
    bump_
    discard' (parseHtmlAttributeValueString K))
  return some (← complete m .HTML_ATTRIBUTE)

/-- An attribute with an html name, html.rs 294–302 and 315–321. -/
def parseNamedAttribute (K : Knot) : P (Option CompletedMarker) := do
  let m ← start
  ifP (at' T!":") (bumpNextNAs 2 T!"word") (discard' (bumpAs T!"word"))
  parseAttributeRest K m

/-- An attribute with a twig variable as its name, html.rs 305–308 and 315–321. -/
def parseTwigNamedAttribute (K : Knot) : P (Option CompletedMarker) := do
  let m ← start
  discard' (parseTwigVarStatement K)
  parseAttributeRest K m

/-- `parse_html_attribute_or_twig`, html.rs 285–322. -/
def parseHtmlAttributeOrTwig (K : Knot) : P (Option CompletedMarker) := do
  match (← attributeNameText) with
  | none => return none
  | some text =>
    if isHtmlAttributeName text then parseNamedAttribute K
    else
      ifP atTwigVarOpen (parseTwigNamedAttribute K) (parseAnyTwig K K.attributeOrTwig)

/-- The tag name of `parse_html_element`, html.rs 185–194. -/
def parseTagName (tagKind : SyntaxKind) (tagName : Text) : P Unit :=
  if tagKind = T!"twig component name" then bump_
  else if isHtmlTagName tagName then discard' (bumpAs T!"word")
  else errorRecover "HTML Tag Name" [T!">", T!"/>", T!"</", T!"word"]

/-- The end of the starting tag of `parse_html_element`, html.rs 207–214: is it self-closing. -/
def parseStartingTagEnd : P Bool :=
  ifP (at' T!"/>") (do bump_; return true)
    (do expect_ T!">" [T!"</", T!"word", T!">"]; return false)

/-- The body of `parse_html_element`, html.rs 226–253: was the ending tag found. -/
def parseElementBody (K : Knot) (tagKind : SyntaxKind) (tagName : Text) : P Bool :=
  if htmlRawTextElements.contains (tagName.map asciiLower) then parseHtmlRawText K tagKind tagName
  else parseManyWith (atBodyEnd tagKind tagName)
    (fun found => do discard' K.anyElement; return found) false

/-- The name in the ending tag of `parse_html_element`, html.rs 262–271. -/
def parseEndingTagName (tagKind : SyntaxKind) (tagName : Text) : P Unit :=
  ifP (at' T!"twig component name") bump_
  (ifP (at' tagKind) (discard' (bumpAs T!"word"))
  (errorRecover (String.ofList tagName ++ " as ending tag name") [T!">"]))

/-- The ending tag of `parse_html_element`, html.rs 256–280. -/
def parseEndingTag (tagKind : SyntaxKind) (tagName : Text) (found : Bool) : P Unit := do
  let m ← start
  if found then
    expect_ T!"</" [tagKind, T!">"]
    parseEndingTagName tagKind tagName
    expect_ T!">" []
    complete_ m .HTML_ENDING_TAG
  else
    errorRecover ("</" ++ String.ofList tagName ++ "> ending tag") []
    complete_ m .HTML_ENDING_TAG

/-- The starting tag of `parse_html_element`, html.rs 177–219: name, kind of the name and whether
the element is self-closing. -/
def parseStartingTag (K : Knot) : P (SyntaxKind × Text × Bool) := do
  let m ← start
  bump_
  let t ← peekToken
  let tagName := (t.map (·.text)).getD []
  let tagKind := (t.map (·.kind)).getD .TK_WORD
  parseTagName tagKind tagName
  let attributesM ← start
  parseMany (P.or (at' T!">") (at' T!"/>")) (discard' (parseHtmlAttributeOrTwig K))
  complete_ attributesM .HTML_ATTRIBUTE_LIST
  let selfClosing ← parseStartingTagEnd
  complete_ m .HTML_STARTING_TAG
  return (tagKind, tagName, selfClosing || htmlVoidElements.contains (tagName.map asciiLower))

/-- `parse_html_element`, html.rs 173–283. -/
def parseHtmlElement (K : Knot) : P CompletedMarker := do
  let m ← start
  let (tagKind, tagName, selfClosing) ← parseStartingTag K
  if selfClosing then complete m .HTML_TAG
  else
    let bodyM ← start
    let found ← parseElementBody K tagKind tagName
    complete_ bodyM .BODY
    parseEndingTag tagKind tagName found
    complete m .HTML_TAG

/-- `parse_any_html`, html.rs 26–42. -/
def parseAnyHtml (K : Knot) : P (Option CompletedMarker) :=
  ifP atElementStart (someP (parseHtmlElement K))
  (ifP (at' T!"<!--") (someP parseHtmlComment)
  (ifP (at' T!"<!") (someP parseHtmlDoctype)
  parseHtmlText))

end Ludtwig
