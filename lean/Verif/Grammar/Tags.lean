import Verif.Grammar.Shopware

/-!
# Twig tags (model)

crates/ludtwig-parser/src/grammar/twig/tags.rs, function by function. Counters (`i32` in the code)
are unbounded numbers.
-/

namespace Ludtwig

/-- `TERMINATION_KEYWORDS`, tags.rs 23–41. -/
def terminationKeywords : List SyntaxKind :=
  [T!"endblock", T!"endif", T!"elseif", T!"else", T!"endset", T!"endfor", T!"endembed",
   T!"sw_end_embed", T!"endapply", T!"endautoescape", T!"endsandbox", T!"endverbatim", T!"endmacro",
   T!"endwith", T!"endcache", T!"endsw_silent_feature_call", T!"endtrans"]

/-- `at_twig_termination_tag`, tags.rs 21–49. -/
def atTwigTerminationTag : P Bool :=
  P.and atTwigBlockOpen (do
    match (← peekNextNonTriviaKind) with
    | some k => return terminationKeywords.contains k
    | none => return false)

/-- `%}` `-%}` `~%}` `</`, a recurring recovery set. -/
def closeRecovery : List SyntaxKind := [T!"%}", T!"-%}", T!"~%}", T!"</"]

/-- The `ttl` and `tags` parts of `parse_twig_cache`, tags.rs 138–217. -/
def parseCacheArgument (K : Knot) (keyword kind : SyntaxKind) (expected : String)
    (after : List SyntaxKind) : P Unit :=
  whenP (at' keyword) (do
    let m ← start
    bump_
    expect_ T!"(" (T!")" :: after)
    orRecover K.expr expected (T!")" :: after)
    expect_ T!")" after
    complete_ m kind)

/-- `parse_twig_cache`, tags.rs 118–243. -/
def parseTwigCache (K : Knot) (outer : Marker) (child : P (Option CompletedMarker)) :
    P CompletedMarker := do
  bump_
  orRecover K.expr "twig expression as cache key"
    [T!"ttl", T!"tags", T!"endcache", T!"(", T!")", T!"%}", T!"-%}", T!"~%}", T!"</"]
  parseCacheArgument K T!"ttl" .TWIG_CACHE_TTL "twig expression as cache time to live"
    [T!"tags", T!"endcache", T!"%}", T!"-%}", T!"~%}", T!"</"]
  parseCacheArgument K T!"tags" .TWIG_CACHE_TAGS "twig expression as cache tags"
    [T!"endcache", T!"%}", T!"-%}", T!"~%}", T!"</"]
  expectAny_ twigBlockCloseSet (T!"endcache" :: closeRecovery)
  let wrapper ← complete outer .TWIG_CACHE_STARTING_BLOCK
  let wrapper ← precede wrapper
  parseBody child (atTwigTag T!"endcache")
  parseEndBlock T!"endcache" (T!"endcache" :: closeRecovery) closeRecovery [T!"</"]
    .TWIG_CACHE_ENDING_BLOCK
  complete wrapper .TWIG_CACHE

/-- `parse_twig_with`, tags.rs 245–287. -/
def parseTwigWith (K : Knot) (outer : Marker) (child : P (Option CompletedMarker)) :
    P CompletedMarker := do
  bump_
  discard' K.expr
  optionalToken T!"only"
  expectAny_ twigBlockCloseSet (T!"endwith" :: closeRecovery)
  let wrapper ← complete outer .TWIG_WITH_STARTING_BLOCK
  let wrapper ← precede wrapper
  parseBody child (atTwigTag T!"endwith")
  parseEndBlock T!"endwith" (T!"endwith" :: closeRecovery) closeRecovery [T!"</"]
    .TWIG_WITH_ENDING_BLOCK
  complete wrapper .TWIG_WITH

/-- The optional name behind `endmacro` / `endblock`, tags.rs 363–379 and 1206–1222. -/
def parseEndName (what : String) (name : Option Text) : P Unit :=
  whenP (at' T!"word") (do
    let t ← bump
    match name with
    | none => pure ()
    | some name =>
      if t.text ≠ name then
        addErrorAt ("nothing or same twig " ++ what ++ " name as opening (" ++ String.ofList name ++ ")") t
        recover closeRecovery
      else pure ())

/-- The ending block of `macro` and `block` with an optional name, tags.rs 355–381, 1198–1225. -/
def parseNamedEndBlock (keyword : SyntaxKind) (what : String) (name : Option Text)
    (openRecovery recovery : List SyntaxKind) (kind : SyntaxKind) : P Unit := do
  let m ← start
  expectAny_ twigBlockOpenSet openRecovery
  expect_ keyword recovery
  parseEndName what name
  expectAny_ twigBlockCloseSet [T!"</"]
  complete_ m kind

/-- The end of an argument list in `macro` and `apply`, e.g. tags.rs 321. -/
def atArgumentsEnd : P Bool := atSet [T!"%}", T!"-%}", T!"~%}", T!")"]

/-- `parse_twig_macro`, tags.rs 289–386. -/
def parseTwigMacro (K : Knot) (outer : Marker) (child : P (Option CompletedMarker)) :
    P CompletedMarker := do
  bump_
  let name ← expect T!"word" ([T!"(", T!")", T!"endmacro"] ++ closeRecovery)
  let argumentsM ← start
  expect_ T!"(" ([T!")", T!"endmacro"] ++ closeRecovery)
  parseArguments K atArgumentsEnd
  expect_ T!")" (T!"endmacro" :: closeRecovery)
  complete_ argumentsM .TWIG_ARGUMENTS
  expectAny_ twigBlockCloseSet (T!"endmacro" :: closeRecovery)
  let wrapper ← complete outer .TWIG_MACRO_STARTING_BLOCK
  let wrapper ← precede wrapper
  parseBody child (atTwigTag T!"endmacro")
  parseNamedEndBlock T!"endmacro" "macro" (name.map (·.text)) (T!"endmacro" :: closeRecovery)
    closeRecovery .TWIG_MACRO_ENDING_BLOCK
  complete wrapper .TWIG_MACRO

/-- `parse_twig_verbatim`, tags.rs 388–428. -/
def parseTwigVerbatim (outer : Marker) (child : P (Option CompletedMarker)) :
    P CompletedMarker := do
  bump_
  expectAny_ twigBlockCloseSet (T!"endverbatim" :: closeRecovery)
  let wrapper ← complete outer .TWIG_VERBATIM_STARTING_BLOCK
  let wrapper ← precede wrapper
  parseBody child (atTwigTag T!"endverbatim")
  parseEndBlock T!"endverbatim" (T!"endverbatim" :: closeRecovery) closeRecovery [T!"</"]
    .TWIG_VERBATIM_ENDING_BLOCK
  complete wrapper .TWIG_VERBATIM

/-- `parse_twig_sandbox`, tags.rs 430–470. -/
def parseTwigSandbox (outer : Marker) (child : P (Option CompletedMarker)) :
    P CompletedMarker := do
  bump_
  expectAny_ twigBlockCloseSet (T!"endsandbox" :: closeRecovery)
  let wrapper ← complete outer .TWIG_SANDBOX_STARTING_BLOCK
  let wrapper ← precede wrapper
  parseBody child (atTwigTag T!"endsandbox")
  parseEndBlock T!"endsandbox" (T!"endsandbox" :: closeRecovery) closeRecovery [T!"</"]
    .TWIG_SANDBOX_ENDING_BLOCK
  complete wrapper .TWIG_SANDBOX

/-- `parse_twig_flush`, tags.rs 472–477. -/
def parseTwigFlush (outer : Marker) : P CompletedMarker := do
  bump_
  expectAny_ twigBlockCloseSet [T!"</"]
  complete outer .TWIG_FLUSH

/-- `parse_twig_do`, tags.rs 479–490. -/
def parseTwigDo (K : Knot) (outer : Marker) : P CompletedMarker := do
  bump_
  orRecover K.expr "twig expression" closeRecovery
  expectAny_ twigBlockCloseSet [T!"</"]
  complete outer .TWIG_DO

/-- `parse_twig_deprecated`, tags.rs 492–505. -/
def parseTwigDeprecated (K : Knot) (outer : Marker) : P CompletedMarker := do
  bump_
  parseStringOr K "twig deprecation message as string" closeRecovery
  expectAny_ twigBlockCloseSet [T!"</"]
  complete outer .TWIG_DEPRECATED

/-- `parse_twig_autoescape`, tags.rs 507–568. -/
def parseTwigAutoescape (K : Knot) (outer : Marker) (child : P (Option CompletedMarker)) :
    P CompletedMarker := do
  bump_
  ifP (atSet [T!"\"", T!"'"]) (discard' (parseTwigString K false))
    (ifP (at' T!"false") bump_
      (whenP (P.not atTwigBlockClose)
        (errorRecover "twig escape strategy as string or 'false'"
          [T!"%}", T!"-%}", T!"~%}", T!"endautoescape", T!"</"])))
  expectAny_ twigBlockCloseSet [T!"endautoescape", T!"</"]
  let wrapper ← complete outer .TWIG_AUTOESCAPE_STARTING_BLOCK
  let wrapper ← precede wrapper
  parseBody child (atTwigTag T!"endautoescape")
  parseEndBlock T!"endautoescape" (T!"endautoescape" :: closeRecovery) closeRecovery [T!"</"]
    .TWIG_AUTOESCAPE_ENDING_BLOCK
  complete wrapper .TWIG_AUTOESCAPE

/-- The optional arguments of the first filter in `parse_twig_apply`, tags.rs 581–602. -/
def parseApplyArguments (K : Knot) : P Unit :=
  whenP (at' T!"(") (do
    let m ← start
    bump_
    parseArguments K atArgumentsEnd
    expect_ T!")" (T!"endapply" :: closeRecovery)
    complete_ m .TWIG_ARGUMENTS)

/-- The filters of `parse_twig_apply`, tags.rs 578–614. -/
def parseApplyFilters (K : Knot) : P Unit := do
  match (← parseTwigName) with
  | some node =>
    parseApplyArguments K
    discard' (parseManyWith (fun node => do return ((← atTwigBlockClose), node))
      (fun node => ifP (at' T!"|") (parseTwigFilter K node) (pure node)) node)
  | none => errorRecover "twig filter" [T!"%}", T!"-%}", T!"~%}", T!"endapply", T!"</"]

/-- `parse_twig_apply`, tags.rs 570–642. -/
def parseTwigApply (K : Knot) (outer : Marker) (child : P (Option CompletedMarker)) :
    P CompletedMarker := do
  bump_
  parseApplyFilters K
  expectAny_ twigBlockCloseSet [T!"endapply", T!"</"]
  let wrapper ← complete outer .TWIG_APPLY_STARTING_BLOCK
  let wrapper ← precede wrapper
  parseBody child (atTwigTag T!"endapply")
  parseEndBlock T!"endapply" (T!"endapply" :: closeRecovery) closeRecovery [T!"</"]
    .TWIG_APPLY_ENDING_BLOCK
  complete wrapper .TWIG_APPLY

/-- `parse_twig_import`, tags.rs 644–666. -/
def parseTwigImport (K : Knot) (outer : Marker) : P CompletedMarker := do
  bump_
  orRecover K.expr "twig expression as template"
    [T!"as", T!"%}", T!"-%}", T!"~%}", T!"word", T!"</"]
  expect_ T!"as" [T!"%}", T!"-%}", T!"~%}", T!"word", T!"</"]
  orRecover parseTwigName "name for twig macro" closeRecovery
  expectAny_ twigBlockCloseSet [T!"</"]
  complete outer .TWIG_IMPORT

/-- `parse_name_as_name_override`, tags.rs 714–728. -/
def parseNameAsNameOverride (expected : String) : P CompletedMarker := do
  let m ← start
  orRecover parseTwigName expected (T!"as" :: closeRecovery)
  whenP (at' T!"as") (do
    bump_
    orRecover parseTwigName expected closeRecovery)
  complete m .TWIG_OVERRIDE

/-- The list of overrides with its counter, tags.rs 688–705 and 750–766. -/
def parseOverrides (expected : String) (missing : String) : P Unit := do
  let count ← parseManyWith (fun count => do return ((← atTwigBlockClose), count))
    (fun (count : Nat) => do
      discard' (parseNameAsNameOverride expected)
      commaOrEnd atTwigBlockClose
      return count + 1) 0
  whenP (pure (decide (count < 1))) (addError missing)

/-- `parse_twig_from`, tags.rs 668–712. -/
def parseTwigFrom (K : Knot) (outer : Marker) : P CompletedMarker := do
  bump_
  orRecover K.expr "twig expression as template"
    [T!"import", T!"sw_import", T!"%}", T!"-%}", T!"~%}", T!"</"]
  ifP (atSet [T!"import", T!"sw_import"]) bump_ (errorRecover "import or sw_import" closeRecovery)
  parseOverrides "macro name" "at least one macro name as macro name"
  expectAny_ twigBlockCloseSet [T!"</"]
  complete outer .TWIG_FROM

/-- `parse_twig_use`, tags.rs 730–773. -/
def parseTwigUse (K : Knot) (outer : Marker) : P CompletedMarker := do
  bump_
  parseStringOr K "twig string as template"
    [T!"with", T!"word", T!"%}", T!"-%}", T!"~%}", T!"</"]
  whenP (at' T!"with") (do
    bump_
    parseOverrides "block name" "at least one block name as block name")
  expectAny_ twigBlockCloseSet [T!"</"]
  complete outer .TWIG_USE

/-- `parse_twig_embed`, tags.rs 775–880. -/
def parseTwigEmbed (K : Knot) (outer : Marker) (child : P (Option CompletedMarker)) :
    P CompletedMarker := do
  let isSwEmbed ← at' T!"sw_embed"
  bump_
  orRecover K.expr "twig expression as template name"
    ([T!"ignore missing", T!"with", T!"only", T!"endembed", T!"sw_end_embed"] ++ closeRecovery)
  optionalToken T!"ignore missing"
  parseOptionalValue K T!"with" "twig expression as with value"
    ([T!"only", T!"endembed", T!"sw_end_embed"] ++ closeRecovery) .TWIG_INCLUDE_WITH
  optionalToken T!"only"
  expectAny_ twigBlockCloseSet ([T!"endembed", T!"sw_end_embed"] ++ closeRecovery)
  let wrapper ← complete outer .TWIG_EMBED_STARTING_BLOCK
  let wrapper ← precede wrapper
  parseBody child (P.or (atTwigTag T!"endembed") (atTwigTag T!"sw_end_embed"))
  parseEndBlock (if isSwEmbed then T!"sw_end_embed" else T!"endembed")
    ([T!"endembed", T!"sw_end_embed"] ++ closeRecovery) closeRecovery [T!"</"]
    .TWIG_EMBED_ENDING_BLOCK
  complete wrapper .TWIG_EMBED

/-- `parse_twig_include`, tags.rs 882–920. -/
def parseTwigInclude (K : Knot) (outer : Marker) : P CompletedMarker := do
  bump_
  orRecover K.expr "twig expression as template name"
    ([T!"ignore missing", T!"with", T!"only"] ++ closeRecovery)
  optionalToken T!"ignore missing"
  parseOptionalValue K T!"with" "twig expression as with value" (T!"only" :: closeRecovery)
    .TWIG_INCLUDE_WITH
  optionalToken T!"only"
  expectAny_ twigBlockCloseSet [T!"</"]
  complete outer .TWIG_INCLUDE

/-- `parse_twig_extends`, tags.rs 922–934. -/
def parseTwigExtends (K : Knot) (outer : Marker) : P CompletedMarker := do
  bump_
  orRecover K.expr "twig expression" closeRecovery
  expectAny_ twigBlockCloseSet [T!"</"]
  complete outer .TWIG_EXTENDS

/-- The `else` part of `parse_twig_for`, tags.rs 1025–1047. -/
def parseForElse (child : P (Option CompletedMarker)) : P Unit :=
  whenP (atTwigTag T!"else") (do
    let m ← start
    bump_
    bump_
    expectAny_ twigBlockCloseSet (T!"endfor" :: closeRecovery)
    complete_ m .TWIG_FOR_ELSE_BLOCK
    parseBody child (atTwigTag T!"endfor"))

/-- The loop variables of `parse_twig_for`, tags.rs 945–975. -/
def parseForVariables : P Unit := do
  orRecover parseTwigName "variable name"
    ([T!",", T!"in", T!"else", T!"endfor"] ++ closeRecovery)
  whenP (at' T!",") (do
    bump_
    orRecover parseTwigName "variable name" ([T!"in", T!"else", T!"endfor"] ++ closeRecovery))

/-- `parse_twig_for`, tags.rs 937–1060. -/
def parseTwigFor (K : Knot) (outer : Marker) (child : P (Option CompletedMarker)) :
    P CompletedMarker := do
  bump_
  parseForVariables
  expect_ T!"in" ([T!"else", T!"endfor"] ++ closeRecovery)
  orRecover K.expr "twig expression" [T!"%}", T!"-%}", T!"~%}", T!"else", T!"endfor", T!"</"]
  expectAny_ twigBlockCloseSet ([T!"else", T!"endfor"] ++ closeRecovery)
  let wrapper ← complete outer .TWIG_FOR_BLOCK
  let wrapper ← precede wrapper
  parseBody child (P.or (atTwigTag T!"endfor") (atTwigTag T!"else"))
  parseForElse child
  parseEndBlock T!"endfor" (T!"endfor" :: closeRecovery) closeRecovery [T!"</"] .TWIG_ENDFOR_BLOCK
  complete wrapper .TWIG_FOR

/-- The end of the declarations of `parse_twig_set`, e.g. tags.rs 1074. -/
def atDeclarationsEnd : P Bool := atSet [T!"=", T!"%}", T!"-%}", T!"~%}"]

/-- The counting lists of `parse_twig_set`, tags.rs 1072–1088 and 1099–1111: elements that are
found are counted, missing ones are errors. -/
def parseCounted (listEnd : P Bool) (item : P (Option CompletedMarker)) (expected : String) :
    P Nat :=
  parseManyWith (fun count => do return ((← listEnd), count))
    (fun count => do
      match (← item) with
      | some _ =>
        commaOrEnd listEnd
        return count + 1
      | none =>
        addError expected
        commaOrEnd listEnd
        return count) 0

/-- The assignment of `parse_twig_set`, tags.rs 1094–1122: is it assigned by `=`. -/
def parseSetAssignment (K : Knot) (declarations : Nat) : P Bool :=
  ifP (at' T!"=")
    (do
      bump_
      let assignments ← parseCounted atTwigBlockClose K.expr "twig expression"
      whenP (pure (declarations != assignments))
        (addError ("a total of " ++ toString declarations
          ++ " twig expressions (same amount as declarations) instead of " ++ toString assignments))
      return true)
    (do
      whenP (pure (decide (declarations > 1)))
        (addError ("= followed by " ++ toString declarations ++ " twig expressions"))
      return false)

/-- `parse_twig_set`, tags.rs 1062–1161. -/
def parseTwigSet (K : Knot) (outer : Marker) (child : P (Option CompletedMarker)) :
    P CompletedMarker := do
  bump_
  let assignmentM ← start
  let declarations ← parseCounted atDeclarationsEnd parseTwigName "twig variable name"
  whenP (pure (declarations == 0)) (addError "twig variable name")
  let assigned ← parseSetAssignment K declarations
  complete_ assignmentM .TWIG_ASSIGNMENT
  expectAny_ twigBlockCloseSet (T!"endset" :: closeRecovery)
  let wrapper ← complete outer .TWIG_SET_BLOCK
  let wrapper ← precede wrapper
  whenP (pure (!assigned)) (do
    parseBody child (atTwigTag T!"endset")
    parseEndBlock T!"endset" (T!"endset" :: closeRecovery) closeRecovery [T!"</"]
      .TWIG_ENDSET_BLOCK)
  complete wrapper .TWIG_SET

/-- The optional shortcut of `parse_twig_block`, tags.rs 1176–1185. -/
def parseBlockShortcut (K : Knot) : P Bool :=
  ifP (P.not atTwigBlockClose)
    (do
      match (← K.expr) with
      | none =>
        errorRecover "twig expression or '%}'" [T!"%}", T!"-%}", T!"~%}", T!"endblock", T!"</"]
        return false
      | some _ => return true)
    (return false)

/-- `parse_twig_block`, tags.rs 1163–1233. -/
def parseTwigBlock (K : Knot) (outer : Marker) (child : P (Option CompletedMarker)) :
    P CompletedMarker := do
  bump_
  let name ← expect T!"word" [T!"</", T!"%}", T!"-%}", T!"~%}", T!"endblock"]
  let shortcut ← parseBlockShortcut K
  expectAny_ twigBlockCloseSet [T!"</", T!"endblock", T!"%}", T!"-%}", T!"~%}"]
  let wrapper ← complete outer .TWIG_STARTING_BLOCK
  let wrapper ← precede wrapper
  whenP (pure (!shortcut)) (do
    parseBody child (atTwigTag T!"endblock")
    parseNamedEndBlock T!"endblock" "block" (name.map (·.text))
      [T!"</", T!"endblock", T!"%}", T!"-%}", T!"~%}"] [T!"</", T!"%}", T!"-%}", T!"~%}"]
      .TWIG_ENDING_BLOCK)
  complete wrapper .TWIG_BLOCK

/-- The next branch header of `parse_twig_if`, tags.rs 1288–1316: was there one. -/
def parseIfBranch (K : Knot) : P Bool :=
  ifP (atTwigTag T!"endif") (return false)
  (ifP (atTwigTag T!"elseif")
    (do
      let m ← start
      bump_
      bump_
      orRecover K.expr "twig expression" [T!"%}", T!"-%}", T!"~%}", T!"endif", T!"</"]
      expectAny_ twigBlockCloseSet (T!"endif" :: closeRecovery)
      complete_ m .TWIG_ELSE_IF_BLOCK
      return true)
  (ifP (atTwigTag T!"else")
    (do
      let m ← start
      bump_
      bump_
      expectAny_ twigBlockCloseSet (T!"endif" :: closeRecovery)
      complete_ m .TWIG_ELSE_BLOCK
      return true)
    (return false)))

/-- The loop body of `parse_twig_if`, tags.rs 1272–1317. -/
def parseIfStep (K : Knot) (child : P (Option CompletedMarker)) (_ : Unit) : P (Bool × Unit) := do
  parseBody child
    (P.or (atTwigTag T!"endif") (P.or (atTwigTag T!"elseif") (atTwigTag T!"else")))
  return ((← parseIfBranch K), ())

/-- `parse_twig_if`, tags.rs 1235–1331. -/
def parseTwigIf (K : Knot) (outer : Marker) (child : P (Option CompletedMarker)) :
    P CompletedMarker := do
  bump_
  orRecover K.expr "twig expression"
    [T!"%}", T!"-%}", T!"~%}", T!"else", T!"elseif", T!"endif", T!"</"]
  expectAny_ twigBlockCloseSet ([T!"else", T!"elseif", T!"endif"] ++ closeRecovery)
  let wrapper ← complete outer .TWIG_IF_BLOCK
  let wrapper ← precede wrapper
  loopTokens (parseIfStep K child) ()
  parseEndBlock T!"endif" (T!"endif" :: closeRecovery) closeRecovery [T!"</"] .TWIG_ENDIF_BLOCK
  complete wrapper .TWIG_IF

/-- `parse_twig_trans`, tags.rs 1333–1370. -/
def parseTwigTrans (outer : Marker) (child : P (Option CompletedMarker)) :
    P CompletedMarker := do
  bump_
  expectAny_ twigBlockCloseSet (T!"endtrans" :: closeRecovery)
  let wrapper ← complete outer .TWIG_TRANS_STARTING_BLOCK
  let wrapper ← precede wrapper
  parseBody child (atTwigTag T!"endtrans")
  parseEndBlock T!"endtrans" (T!"endtrans" :: closeRecovery) closeRecovery [T!"</"]
    .TWIG_TRANS_ENDING_BLOCK
  complete wrapper .TWIG_TRANS

/-- The loop body of `parse_twig_props`, tags.rs 1382–1402. -/
def parsePropDeclaration (K : Knot) : P Unit := do
  let m ← start
  ifNone parseTwigName (addError "twig variable name")
  whenP (at' T!"=") (do
    bump_
    ifNone K.expr (addError "twig expression"))
  complete_ m .TWIG_PROP_DECLARATION
  commaOrEnd atTwigBlockClose

/-- `parse_twig_props`, tags.rs 1372–1408. -/
def parseTwigProps (K : Knot) (outer : Marker) : P CompletedMarker := do
  bump_
  parseMany (atSet [T!"%}", T!"-%}", T!"~%}", T!",", T!"=", T!"</"]) (parsePropDeclaration K)
  expectAny_ twigBlockCloseSet [T!"</"]
  complete outer .TWIG_PROPS

/-- `parse_twig_component`, tags.rs 1410–1469. -/
def parseTwigComponent (K : Knot) (outer : Marker) (child : P (Option CompletedMarker)) :
    P CompletedMarker := do
  bump_
  ifNone parseTwigName (addError "component name")
  whenP (at' T!"with") (do
    bump_
    ifP (at' T!"{") (discard' (parseTwigHash K)) (addError "twig hash/object"))
  expectAny_ twigBlockCloseSet (T!"endcomponent" :: closeRecovery)
  let wrapper ← complete outer .TWIG_COMPONENT_STARTING_BLOCK
  let wrapper ← precede wrapper
  parseBody child (atTwigTag T!"endcomponent")
  parseEndBlock T!"endcomponent" (T!"endcomponent" :: closeRecovery) closeRecovery [T!"</"]
    .TWIG_COMPONENT_ENDING_BLOCK
  complete wrapper .TWIG_COMPONENT

/-- `Some(f(parser, m))`. -/
def someP (f : P CompletedMarker) : P (Option CompletedMarker) := do return some (← f)

/-- The dispatch of `parse_twig_block_statement`, tags.rs 58–114. -/
def parseTwigTag (K : Knot) (m : Marker) (child : P (Option CompletedMarker)) :
    P (Option CompletedMarker) :=
  ifP (at' T!"block") (someP (parseTwigBlock K m child))
  (ifP (at' T!"if") (someP (parseTwigIf K m child))
  (ifP (at' T!"set") (someP (parseTwigSet K m child))
  (ifP (at' T!"for") (someP (parseTwigFor K m child))
  (ifP (at' T!"extends") (someP (parseTwigExtends K m))
  (ifP (at' T!"include") (someP (parseTwigInclude K m))
  (ifP (atSet [T!"embed", T!"sw_embed"]) (someP (parseTwigEmbed K m child))
  (ifP (atSet [T!"use", T!"sw_use"]) (someP (parseTwigUse K m))
  (ifP (atSet [T!"from", T!"sw_from"]) (someP (parseTwigFrom K m))
  (ifP (atSet [T!"import", T!"sw_import"]) (someP (parseTwigImport K m))
  (ifP (at' T!"apply") (someP (parseTwigApply K m child))
  (ifP (at' T!"autoescape") (someP (parseTwigAutoescape K m child))
  (ifP (at' T!"deprecated") (someP (parseTwigDeprecated K m))
  (ifP (at' T!"do") (someP (parseTwigDo K m))
  (ifP (at' T!"flush") (someP (parseTwigFlush m))
  (ifP (at' T!"sandbox") (someP (parseTwigSandbox m child))
  (ifP (at' T!"verbatim") (someP (parseTwigVerbatim m child))
  (ifP (at' T!"macro") (someP (parseTwigMacro K m child))
  (ifP (at' T!"with") (someP (parseTwigWith K m child))
  (ifP (at' T!"cache") (someP (parseTwigCache K m child))
  (ifP (at' T!"trans") (someP (parseTwigTrans m child))
  (ifP (at' T!"component") (someP (parseTwigComponent K m child))
  (ifP (at' T!"props") (someP (parseTwigProps K m))
  (parseShopwareBlockStatement K m child)))))))))))))))))))))))

/-- `parse_twig_block_statement`, tags.rs 51–115. -/
def parseTwigBlockStatement (K : Knot) (child : P (Option CompletedMarker)) :
    P (Option CompletedMarker) := do
  let m ← start
  bump_
  parseTwigTag K m child

end Ludtwig
