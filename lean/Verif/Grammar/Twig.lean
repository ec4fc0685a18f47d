import Verif.Grammar.Tags

/-!
# Twig elements (model)

crates/ludtwig-parser/src/grammar/twig.rs, function by function.
-/

namespace Ludtwig

/-- `parse_twig_plain_comment`, twig.rs 44–55. -/
def parseTwigPlainComment (outer : Marker) : P CompletedMarker := do
  parseMany (atSet twigCommentCloseSet) bump_
  expectAny_ twigCommentCloseSet []
  complete outer .TWIG_COMMENT

/-- `parse_twig_comment_statement`, twig.rs 32–42. -/
def parseTwigCommentStatement : P CompletedMarker := do
  let m ← start
  bump_
  ifP (atSet [T!"ludtwig-ignore-file", T!"ludtwig-ignore"])
    (parseLudtwigDirective m twigCommentCloseSet) (parseTwigPlainComment m)

/-- `parse_twig_var_statement`, twig.rs 57–69. -/
def parseTwigVarStatement (K : Knot) : P CompletedMarker := do
  let m ← start
  bump_
  orRecover K.expr "twig expression" twigExpressionRecoverySet
  expectAny_ twigVarCloseSet []
  complete m .TWIG_VAR

/-- `parse_any_twig`, twig.rs 17–30. -/
def parseAnyTwig (K : Knot) (child : P (Option CompletedMarker)) : P (Option CompletedMarker) :=
  ifP atTwigBlockOpen (parseTwigBlockStatement K child)
  (ifP atTwigVarOpen (someP (parseTwigVarStatement K))
  (ifP atTwigCommentOpen (someP parseTwigCommentStatement)
  (return none)))

end Ludtwig
