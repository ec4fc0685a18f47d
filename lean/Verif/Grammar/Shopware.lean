import Verif.Grammar.Expression

/-!
# Shopware tags (model)

crates/ludtwig-parser/src/grammar/twig/shopware.rs, function by function. The block bodies shared
with grammar/twig/tags.rs are written with `parseBody` and `parseEndBlock`.
-/

namespace Ludtwig

/-- The body of a twig block: `start; parse_many(early, child_parser); complete(BODY)`,
e.g. shopware.rs 137–146. -/
def parseBody (child : P (Option CompletedMarker)) (early : P Bool) : P Unit := do
  let m ← start
  parseMany early (discard' child)
  complete_ m .BODY

/-- The ending block `{% keyword %}`: `start; expect_any(OPEN, openRecovery); expect(keyword,
recovery); expect_any(CLOSE, closeRecovery); complete(kind)`, e.g. shopware.rs 148–166. -/
def parseEndBlock (keyword : SyntaxKind) (openRecovery recovery closeRecovery : List SyntaxKind)
    (kind : SyntaxKind) : P Unit := do
  let m ← start
  expectAny_ twigBlockOpenSet openRecovery
  expect_ keyword recovery
  expectAny_ twigBlockCloseSet closeRecovery
  complete_ m kind

/-- A twig string or an error, e.g. shopware.rs 176–183. -/
def parseStringOr (K : Knot) (expected : String) (recovery : List SyntaxKind) : P Unit :=
  ifP (atSet [T!"\"", T!"'"]) (discard' (parseTwigString K false)) (errorRecover expected recovery)

/-- `if at(keyword) { start; bump; expression or recover; complete(kind) }`, e.g. shopware.rs
51–61. -/
def parseOptionalValue (K : Knot) (keyword : SyntaxKind) (expected : String)
    (recovery : List SyntaxKind) (kind : SyntaxKind) : P Unit :=
  whenP (at' keyword) (do
    let m ← start
    bump_
    orRecover K.expr expected recovery
    complete_ m kind)

/-- `parse_twig_sw_thumbnails`, shopware.rs 42–65. -/
def parseTwigSwThumbnails (K : Knot) (outer : Marker) : P CompletedMarker := do
  bump_
  orRecover K.expr "twig expression as thumbnail name" [T!"with", T!"%}", T!"-%}", T!"~%}"]
  parseOptionalValue K T!"with" "twig expression as thumbnail variables"
    [T!"with", T!"%}", T!"-%}", T!"~%}"] .SHOPWARE_THUMBNAILS_WITH
  expectAny_ twigBlockCloseSet []
  complete outer .SHOPWARE_THUMBNAILS

/-- `parse_twig_sw_icon`, shopware.rs 67–90. -/
def parseTwigSwIcon (K : Knot) (outer : Marker) : P CompletedMarker := do
  bump_
  orRecover K.expr "twig expression as icon name" [T!"style", T!"%}", T!"-%}", T!"~%}"]
  parseOptionalValue K T!"style" "twig expression as icon style variables"
    [T!"%}", T!"-%}", T!"~%}"] .SHOPWARE_ICON_STYLE
  expectAny_ twigBlockCloseSet []
  complete outer .SHOPWARE_ICON

/-- `parse_twig_sw_return`, shopware.rs 92–100. -/
def parseTwigSwReturn (K : Knot) (outer : Marker) : P CompletedMarker := do
  bump_
  discard' K.expr
  expectAny_ twigBlockCloseSet []
  complete outer .SHOPWARE_RETURN

/-- `parse_twig_sw_silent_feature_call`, shopware.rs 102–170. -/
def parseTwigSwSilentFeatureCall (K : Knot) (outer : Marker) (child : P (Option CompletedMarker)) :
    P CompletedMarker := do
  bump_
  parseStringOr K "twig string as feature flag (shopware doesn't allow expressions here)"
    [T!"endsw_silent_feature_call", T!"%}", T!"-%}", T!"~%}"]
  expectAny_ twigBlockCloseSet [T!"endsw_silent_feature_call", T!"%}", T!"-%}", T!"~%}"]
  let wrapper ← complete outer .SHOPWARE_SILENT_FEATURE_CALL_STARTING_BLOCK
  let wrapper ← precede wrapper
  parseBody child (atTwigTag T!"endsw_silent_feature_call")
  parseEndBlock T!"endsw_silent_feature_call"
    [T!"endsw_silent_feature_call", T!"%}", T!"-%}", T!"~%}"] [T!"%}", T!"-%}", T!"~%}"] []
    .SHOPWARE_SILENT_FEATURE_CALL_ENDING_BLOCK
  complete wrapper .SHOPWARE_SILENT_FEATURE_CALL

/-- `parse_twig_sw_extends`, shopware.rs 172–187. -/
def parseTwigSwExtends (K : Knot) (outer : Marker) : P CompletedMarker := do
  bump_
  parseStringOr K "twig string as template (shopware doesn't allow expressions here)"
    [T!"%}", T!"-%}", T!"~%}"]
  expectAny_ twigBlockCloseSet []
  complete outer .SHOPWARE_TWIG_SW_EXTENDS

/-- `parse_twig_sw_include`, shopware.rs 189–226. -/
def parseTwigSwInclude (K : Knot) (outer : Marker) : P CompletedMarker := do
  bump_
  orRecover K.expr "twig expression as template name"
    [T!"ignore missing", T!"with", T!"only", T!"%}", T!"-%}", T!"~%}"]
  optionalToken T!"ignore missing"
  parseOptionalValue K T!"with" "twig expression as with value"
    [T!"only", T!"%}", T!"-%}", T!"~%}"] .TWIG_INCLUDE_WITH
  optionalToken T!"only"
  expectAny_ twigBlockCloseSet []
  complete outer .SHOPWARE_TWIG_SW_INCLUDE

/-- `parse_shopware_twig_block_statement`, shopware.rs 14–40, together with the handling of its
result in `parse_twig_block_statement`, tags.rs 104–113. -/
def parseShopwareBlockStatement (K : Knot) (outer : Marker) (child : P (Option CompletedMarker)) :
    P (Option CompletedMarker) :=
  ifP (at' T!"sw_extends") (do return some (← parseTwigSwExtends K outer))
  (ifP (at' T!"sw_include") (do return some (← parseTwigSwInclude K outer))
  (ifP (at' T!"sw_silent_feature_call")
    (do return some (← parseTwigSwSilentFeatureCall K outer child))
  (ifP (at' T!"return") (do return some (← parseTwigSwReturn K outer))
  (ifP (at' T!"sw_icon") (do return some (← parseTwigSwIcon K outer))
  (ifP (at' T!"sw_thumbnails") (do return some (← parseTwigSwThumbnails K outer))
  (do
    addError "twig tag"
    complete_ outer .ERROR
    return none))))))

end Ludtwig
