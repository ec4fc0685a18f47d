import Verif.Grammar.Html

/-!
# The root of the grammar (model)

crates/ludtwig-parser/src/grammar.rs and the parser part of `parse`, parser.rs 78–84.
-/

namespace Ludtwig

/-- `parse_any_element`, grammar.rs 59–61. -/
def parseAnyElement (K : Knot) : P (Option CompletedMarker) := do
  match (← parseAnyTwig K K.anyElement) with
  | some c => return some c
  | none => parseAnyHtml K

/-- The recursive functions of the grammar with at most `n` nested recursive calls. -/
def knot : Nat → Knot
  | 0 =>
    { exprBp := fun _ => P.panic .outOfFuel
      anyElement := P.panic .outOfFuel
      rawTextInner := P.panic .outOfFuel
      attributeOrTwig := P.panic .outOfFuel
      innerDouble := P.panic .outOfFuel
      innerSingle := P.panic .outOfFuel }
  | n + 1 =>
    let K := knot n
    { exprBp := parseExpressionBp K
      anyElement := parseAnyElement K
      rawTextInner := parseHtmlRawTextInner K
      attributeOrTwig := parseHtmlAttributeOrTwig K
      innerDouble := parseInnerQuote K T!"\"" K.innerDouble
      innerSingle := parseInnerQuote K T!"'" K.innerSingle }

/-- The child parser of `root`, grammar.rs 22–30. -/
def parseRootPart (K : Knot) : P Unit := do
  match (← K.anyElement) with
  | some _ => pure ()
  | none => whenP (P.not atEnd) (errorRecover "html, text or twig element" [])

/-- `root`, grammar.rs 16–34. -/
def parseRoot (K : Knot) : P CompletedMarker := do
  let m ← start
  parseMany (pure false) (parseRootPart K)
  complete m .ROOT

/-- `Parser::new` and `Parser::parse`, parser.rs 122–134, with a recursion depth of one more than
the number of tokens. -/
def parseTokens (tokens : List Token) : Except Panic (List Event × List ParseError) :=
  match parseRoot (knot (tokens.length + 1))
      { rest := tokens, lastRange := tokens.getLast?.map (·.range), events := [], openMarkers := [],
        errors := [] } with
  | .error e => .error e
  | .ok (_, s) => .ok (s.events, s.errors)

end Ludtwig
