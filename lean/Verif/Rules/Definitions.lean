import Verif.Rules.Run
import Verif.Naming.Model
import Verif.Grammar.Basic

/-!
# The rules (model)

crates/ludtwig/src/check/rules/*.rs, one definition per rule, and `RULE_DEFINITIONS` of
check/rules.rs. Of the notes only the ranges are kept.
-/

namespace Ludtwig.Rules

open Cli Naming

/-- `create_result(..).primary_note(range, ..)`, check/rule.rs 74–83 and 167–173. -/
def result (name : RuleName) (severity : Severity) (range : TextRange) : CheckResult :=
  { rule := name, severity := severity, suggestions := [], primary := some range }

/-- `suggestion`, check/rule.rs 185–197. -/
def suggest (r : CheckResult) (range : TextRange) (replaceWith : Text) : CheckResult :=
  { r with suggestions := r.suggestions ++ [⟨range, replaceWith⟩] }

/-- `TextRange::at(pos, 0)`. -/
def emptyAt (pos : Nat) : TextRange := ⟨pos, pos⟩

/-- `TextRange::cover`. -/
def cover (a b : TextRange) : TextRange := ⟨min a.start b.start, max a.stop b.stop⟩

/-! ## Directives -/

/-- ludtwig_ignore_file_not_on_top.rs 9–25. -/
def ignoreFileNotOnTop : Rule where
  name := "ludtwig-ignore-file-not-on-top".toList
  checkNode := fun _ node =>
    match node.cast .LUDTWIG_DIRECTIVE_FILE_IGNORE with
    | none => []
    | some directive =>
      match directive.parent with
      | none => []
      | some parent =>
        if parent.kind != .ROOT then
          [result "ludtwig-ignore-file-not-on-top".toList .error directive.range]
        else []

/-! ## Whitespace -/

/-- whitespace_between_line_breaks.rs 8–37. -/
def whitespaceBetweenLineBreaks : Rule where
  name := "whitespace-between-line-breaks".toList
  checkToken := fun _ token =>
    if token.kind != .TK_LINE_BREAK then []
    else
      match token.nextToken with
      | none => []
      | some ws =>
        if ws.kind != .TK_WHITESPACE then []
        else
          match ws.nextToken with
          | none => []
          | some lb =>
            if lb.kind != .TK_LINE_BREAK then []
            else
              [suggest (result "whitespace-between-line-breaks".toList .help ws.range) ws.range []]

/-- The regular expression of line_ending.rs 29–34 at the start of a text: the length in bytes of
the match. `\r\n` for unix line endings; `[^\r]?\n` for windows line endings (the optional char is
tried first). -/
def invalidLineEnding : LineEnding → Text → Option Nat
  | .unixLF, '\r' :: '\n' :: _ => some 2
  | .unixLF, _ => none
  | .windowsCRLF, c :: '\n' :: _ => if c != '\r' then some (byteLen [c, '\n']) else none
  | .windowsCRLF, '\n' :: _ => some 1
  | .windowsCRLF, _ => none

/-- `Regex::find_iter`: the leftmost matches that do not overlap, as byte ranges. The first argument
bounds the number of steps. -/
def findIter (m : Text → Option Nat) : Nat → Nat → Text → List TextRange
  | 0, _, _ => []
  | _ + 1, _, [] => []
  | fuel + 1, pos, c :: s =>
    match m (c :: s) with
    | none => findIter m fuel (pos + c.utf8Size) s
    | some n =>
      ⟨pos, pos + n⟩ ::
        (match splitAtByte n (c :: s) with
          | none => []
          | some (_, rest) => findIter m fuel (pos + n) rest)

/-- line_ending.rs 11–62. -/
def lineEnding : Rule where
  name := "line-ending".toList
  checkToken := fun ctx token =>
    if token.kind != .TK_LINE_BREAK then []
    else
      (findIter (invalidLineEnding ctx.config.lineEnding) token.text.length token.start token.text).map
        (fun range => suggest (result "line-ending".toList .warning range) range
          ctx.config.lineEnding.text)

/-! ## Indentation -/

/-- The variables of the indentation rule, indentation.rs 18–26. -/
structure IndentState where
  lineBreak : Bool
  level : Nat
  substeps : Nat
  sensitive : Bool
  isIgnored : Bool
  results : List CheckResult

/-- The expected whitespace, indentation.rs 129–134. -/
def expectedIndent (config : Config) (level substeps : Nat) : Text :=
  List.replicate (level * config.indentationCount) config.indentationMode.char ++
    List.replicate substeps ' '

/-- `handle_first_token_in_line`, indentation.rs 122–206. -/
def firstTokenInLine (config : Config) (token : Elem) (level substeps : Nat) : List CheckResult :=
  if token.kind == .TK_WHITESPACE then
    if token.text != expectedIndent config level substeps then
      [suggest (result "indentation".toList .help token.range) token.range
        (expectedIndent config level substeps)]
    else []
  else
    if level > 0 || substeps > 0 then
      [suggest (result "indentation".toList .help (emptyAt token.start)) (emptyAt token.start)
        (expectedIndent config level substeps)]
    else []

/-- The node kinds of `check_indentation_level`, indentation.rs 272–279. -/
def indentKinds : List SyntaxKind :=
  [.BODY, .TWIG_ARGUMENTS, .TWIG_LITERAL_ARRAY_INNER, .TWIG_LITERAL_HASH_ITEMS,
    .TWIG_PROP_DECLARATION]

/-- Does a node add an indentation level? indentation.rs 272–282. -/
def addsLevel (config : Config) (n : Elem) : Bool :=
  indentKinds.contains n.kind &&
    (config.indentChildrenOfBlocks ||
      (match n.parent with
        | none => true
        | some p => p.kind != .TWIG_BLOCK))

/-- The number of substeps that a node adds, indentation.rs 299–302. -/
def addsSubsteps (n : Elem) : Nat :=
  if n.kind == .HTML_ATTRIBUTE_LIST then
    match n.parent with
    | none => 0
    | some p =>
      match p.cast .HTML_STARTING_TAG with
      | none => 0
      | some t =>
        match t.startingTagName with
        | none => 0
        | some name => 1 + name.text.length + 1
  else 0

/-- The `Enter` event, indentation.rs 30–79. -/
def indentEnter (config : Config) (e : Elem) (s : IndentState) :
    Except RulePanic (IndentState × Bool) :=
  if e.isNode then
    if e.kind == .ERROR then .ok (s, true)
    else
      let (isIgnored, skip) := ignoreEnter "indentation".toList s.isIgnored e
      if skip then .ok ({ s with isIgnored := isIgnored }, true)
      else
        .ok ({ s with
          isIgnored := isIgnored
          sensitive := if isSensitiveTag e then true else s.sensitive
          level := if addsLevel config e then s.level + 1 else s.level
          substeps := s.substeps + addsSubsteps e }, false)
  else if e.kind == .TK_LINE_BREAK then .ok ({ s with lineBreak := true }, false)
  else if !s.isIgnored && s.lineBreak then
    .ok ({ s with
      results := s.results ++
        (if !s.sensitive then firstTokenInLine config e s.level s.substeps else [])
      lineBreak := false }, false)
  else .ok ({ s with lineBreak := false }, false)

/-- The `Leave` event, indentation.rs 80–103. -/
def indentLeave (config : Config) (e : Elem) (s : IndentState) : Except RulePanic IndentState :=
  if e.isNode then
    if (addsLevel config e && s.level == 0) || s.substeps < addsSubsteps e then
      .error .subtractOverflow
    else
      .ok { s with
        isIgnored := ignoreLeave "indentation".toList s.isIgnored e
        sensitive := if isSensitiveTag e then false else s.sensitive
        level := if addsLevel config e then s.level - 1 else s.level
        substeps := s.substeps - addsSubsteps e }
  else .ok s

/-- indentation.rs 11–112. -/
def indentation : Rule where
  name := "indentation".toList
  checkRoot := fun ctx root =>
    match root.walk { enter := indentEnter ctx.config, leave := indentLeave ctx.config }
        ⟨true, 0, 0, false, false, []⟩ with
    | .error p => .error p
    | .ok s => .ok s.results

/-! ## Blocks -/

/-- The kinds of comments, twig_block_line_breaks.rs 23–29. -/
def commentKinds : List SyntaxKind :=
  [.TWIG_COMMENT, .HTML_COMMENT, .LUDTWIG_DIRECTIVE_FILE_IGNORE, .LUDTWIG_DIRECTIVE_IGNORE]

/-- `real_prev_sibling`, twig_block_line_breaks.rs 22–34. -/
def realPrevSibling (block : Elem) : Option Elem :=
  match block.prevSibling with
  | none => none
  | some n => if commentKinds.contains n.kind then n.prevSibling else some n

/-- `real_next_sibling`, twig_block_line_breaks.rs 35–47. -/
def realNextSibling (block : Elem) : Option Elem :=
  match block.nextSibling with
  | none => none
  | some n => if commentKinds.contains n.kind then n.nextSibling else some n

/-- The loop body of twig_block_line_breaks.rs 123–159. -/
def checkLineBreaks (lineBreak : Text) (token : Elem) (amount : Nat) : List CheckResult :=
  let expected := (List.replicate amount lineBreak).flatten
  if token.kind == .TK_LINE_BREAK then
    if token.text != expected then
      [suggest (result "twig-block-line-breaks".toList .help token.range) token.range expected]
    else []
  else
    [suggest (result "twig-block-line-breaks".toList .help (emptyAt token.start))
      (emptyAt token.start) expected]

/-- `first_child_token`, twig_block_line_breaks.rs 58–74. -/
def blockFirstToken (block startingBlock : Elem) : Option Elem :=
  match block.prevSibling with
  | none => startingBlock.firstToken
  | some n => if commentKinds.contains n.kind then n.firstToken else startingBlock.firstToken

/-- `after_block_token`, twig_block_line_breaks.rs 79–86. -/
def blockAfterToken (block endingBlock : Elem) : Option Elem :=
  match endingBlock.lastToken with
  | none => none
  | some t =>
    match t.nextToken with
    | none => none
    | some t =>
      match realNextSibling block with
      | none => some t
      | some n => if n.kind != .TWIG_BLOCK then some t else none

/-- twig_block_line_breaks.rs 49–166 for a block. -/
def checkBlockLineBreaks (config : Config) (block : Elem) : List CheckResult :=
  match block.parent with
  | none => []
  | some parent =>
    if parent.kind == .ROOT && (realPrevSibling block).isNone then []
    else
      match block.startingBlock, block.endingBlock with
      | some startingBlock, some endingBlock =>
        let configAmount := if config.linebreaksAroundBlocks then 2 else 1
        let before := if (realPrevSibling block).isSome then configAmount else 1
        let after := if block.nextSibling.isSome then configAmount else 1
        (match blockFirstToken block startingBlock with
          | none => []
          | some t => checkLineBreaks config.lineEnding.text t before) ++
        (match blockAfterToken block endingBlock with
          | none => []
          | some t => checkLineBreaks config.lineEnding.text t after)
      | _, _ => []

/-- twig_block_line_breaks.rs 8–167. -/
def twigBlockLineBreaks : Rule where
  name := "twig-block-line-breaks".toList
  checkNode := fun ctx node =>
    if ctx.insideTriviaSensitive then []
    else
      match node.cast .TWIG_BLOCK with
      | none => []
      | some block => checkBlockLineBreaks ctx.config block

/-- Adds the suggestion of a name if there is one. -/
def suggestName (r : CheckResult) (range : TextRange) : Option Text → CheckResult
  | none => r
  | some name => suggest r range name

/-- twig_block_name_snake_case.rs 8–36. -/
def twigBlockNameSnakeCase : Rule where
  name := "twig-block-name-snake-case".toList
  checkNode := fun _ node =>
    match (node.cast .TWIG_STARTING_BLOCK).bind (·.word) with
    | none => []
    | some name =>
      if !isValidAsciiAlphaSnakeCase name.text false then
        [suggestName (result "twig-block-name-snake-case".toList .help name.range) name.range
          (tryMakeSnakeCase name.text false)]
      else []

/-- The variables of the duplicate rules: the flag, the first occurrences (text and range of what is
referred to) and the results. -/
structure DuplicateState where
  isIgnored : Bool
  table : List (Text × TextRange)
  results : List CheckResult

/-- The lookup and insertion of twig_block_duplicate.rs 40–58 and html_duplicate_id.rs 60–83. The
table maps to the node from which the range of the first occurrence is computed again; the range is
stored instead. -/
def duplicateStep (name : RuleName) (severity : Severity) (key : Text) (range : TextRange)
    (s : DuplicateState) : DuplicateState :=
  match s.table.lookup key with
  | some first =>
    { s with results := s.results ++ [{ result name severity range with secondary := [first] }] }
  | none => { s with table := (key, range) :: s.table }

/-- The `Enter` event of twig_block_duplicate.rs 23–59. -/
def blockDuplicateEnter (e : Elem) (s : DuplicateState) :
    Except RulePanic (DuplicateState × Bool) :=
  let isError := e.kind == .ERROR
  let (isIgnored, skip) := ignoreEnter "twig-block-duplicate".toList s.isIgnored e
  let s := { s with isIgnored := isIgnored }
  if skip then .ok (s, true)
  else if isIgnored then .ok (s, isError)
  else
    match (e.cast .TWIG_BLOCK).bind (·.blockName) with
    | none => .ok (s, isError)
    | some name =>
      .ok (duplicateStep "twig-block-duplicate".toList .error name.text name.range s, isError)

/-- twig_block_duplicate.rs 9–72. -/
def twigBlockDuplicate : Rule where
  name := "twig-block-duplicate".toList
  checkRoot := fun _ root =>
    match root.walkNodes
        { enter := blockDuplicateEnter
          leave := fun e s =>
            .ok { s with isIgnored := ignoreLeave "twig-block-duplicate".toList s.isIgnored e } }
        ⟨false, [], []⟩ with
    | .error p => .error p
    | .ok s => .ok s.results

/-! ## HTML -/

/-- html_attribute_name_kebab_case.rs 8–46. -/
def htmlAttributeNameKebabCase : Rule where
  name := "html-attribute-name-kebab-case".toList
  checkNode := fun _ node =>
    match node.cast .HTML_ATTRIBUTE with
    | none => []
    | some attr =>
      match attr.word with
      | none => []
      | some name =>
        match attr.attributeTag with
        | none => []
        | some tag =>
          if tag.isTwigComponent then []
          else if !isValidAlphanumericKebabCase name.text then
            [suggestName (result "html-attribute-name-kebab-case".toList .help name.range) name.range
              (tryMakeKebabCase name.text)]
          else []

/-- The inner string of a static, non-empty id attribute, html_duplicate_id.rs 34–58. -/
def staticId (e : Elem) : Option Elem :=
  match e.cast .HTML_ATTRIBUTE with
  | none => none
  | some attr =>
    match attr.word with
    | none => none
    | some name =>
      if name.text != "id".toList then none
      else
        match attr.attributeValue.bind (·.htmlStringInner) with
        | none => none
        | some inner =>
          if !inner.children.isEmpty then none
          else if inner.text.isEmpty then none
          else some inner

/-- The `Enter` event of html_duplicate_id.rs 22–84. -/
def idDuplicateEnter (e : Elem) (s : DuplicateState) : Except RulePanic (DuplicateState × Bool) :=
  if e.kind == .ERROR then .ok (s, true)
  else
    let (isIgnored, skip) := ignoreEnter "html-duplicate-id".toList s.isIgnored e
    let s := { s with isIgnored := isIgnored }
    if skip then .ok (s, true)
    else if isIgnored then .ok (s, false)
    else
      match staticId e with
      | none => .ok (s, false)
      | some inner =>
        .ok (duplicateStep "html-duplicate-id".toList .warning inner.text inner.range s, false)

/-- html_duplicate_id.rs 9–97. -/
def htmlDuplicateId : Rule where
  name := "html-duplicate-id".toList
  checkRoot := fun _ root =>
    match root.walkNodes
        { enter := idDuplicateEnter
          leave := fun e s =>
            .ok { s with isIgnored := ignoreLeave "html-duplicate-id".toList s.isIgnored e } }
        ⟨false, [], []⟩ with
    | .error p => .error p
    | .ok s => .ok s.results

/-! ## Quotation -/

/-- `make_changed_quotes_suggestion_if_possible`, html_string_quotation.rs 45–88 and
twig_string_quotation.rs 57–100. -/
def changedQuotes (string : Elem) (inner : Option Elem) (quote : Char) (r : CheckResult) :
    CheckResult :=
  match inner with
  | none => r
  | some inner =>
    if inner.text.contains quote then r
    else
      let r := suggest r
        (match string.openingQuote with
          | some q => q.range
          | none => emptyAt inner.range.start) [quote]
      suggest r
        (match string.closingQuote with
          | some q => q.range
          | none => emptyAt inner.range.stop) [quote]

/-- `is_some_and(|t| t.text().starts_with(correct_quote))`, html_string_quotation.rs 17–22. -/
def quoteIsFine (quote : Char) : Option Elem → Bool
  | some t => t.text.head? == some quote
  | none => false

/-- The check of a string, html_string_quotation.rs 17–41 and twig_string_quotation.rs 28–53. -/
def checkQuotes (name : RuleName) (quote : Char) (string : Elem) (inner : Option Elem) :
    List CheckResult :=
  if !quoteIsFine quote string.openingQuote || !quoteIsFine quote string.closingQuote then
    [changedQuotes string inner quote (result name .help string.rangeTrimmed)]
  else []

/-- html_string_quotation.rs 8–43. -/
def htmlStringQuotation : Rule where
  name := "html-string-quotation".toList
  checkNode := fun ctx node =>
    match node.cast .HTML_STRING with
    | none => []
    | some string =>
      checkQuotes "html-string-quotation".toList ctx.config.htmlQuotation.char string
        string.htmlStringInner

/-- twig_string_quotation.rs 9–55. -/
def twigStringQuotation : Rule where
  name := "twig-string-quotation".toList
  checkNode := fun ctx node =>
    match node.cast .TWIG_LITERAL_STRING with
    | none => []
    | some string =>
      if ctx.config.twigQuotation == .single &&
          (match string.twigStringInner with
            | none => 0
            | some inner => (inner.childrenOf .TWIG_LITERAL_STRING_INTERPOLATION).length) > 0 then []
      else
        checkQuotes "twig-string-quotation".toList ctx.config.twigQuotation.char string
          string.twigStringInner

/-- twig_hash_key_no_quotes.rs 9–64. -/
def twigHashKeyNoQuotes : Rule where
  name := "twig-hash-key-no-quotes".toList
  checkNode := fun _ node =>
    match (node.cast .TWIG_LITERAL_HASH_KEY).bind (·.child .TWIG_LITERAL_STRING) with
    | none => []
    | some string =>
      match string.twigStringInner with
      | none => []
      | some inner =>
        if inner.childrenWithTokens.length == 1 && isTwigName inner.text then
          [suggest
            (suggest (result "twig-hash-key-no-quotes".toList .help string.rangeTrimmed)
              (match string.openingQuote with
                | some q => q.range
                | none => emptyAt inner.range.start) [])
            (match string.closingQuote with
              | some q => q.range
              | none => emptyAt inner.range.stop) []]
        else []

/-! ## Operators -/

/-- The operator token of a binary expression node. -/
def binaryOperator (node : Elem) : Option Elem :=
  (node.cast .TWIG_BINARY_EXPRESSION).bind (·.firstNonTriviaToken)

/-- twig_logic_and.rs 9–33. -/
def twigLogicAnd : Rule where
  name := "twig-logic-and".toList
  checkNode := fun _ node =>
    match binaryOperator node with
    | none => []
    | some op =>
      if op.kind == T!"&&" then
        [suggest (result "twig-logic-and".toList .error op.range) op.range "and".toList]
      else []

/-- twig_logic_or.rs 9–34. -/
def twigLogicOr : Rule where
  name := "twig-logic-or".toList
  checkNode := fun _ node =>
    match binaryOperator node with
    | none => []
    | some op =>
      if op.kind == T!"||" then
        [suggest (result "twig-logic-or".toList .error op.range) op.range "or".toList]
      else []

/-- `char::is_whitespace`: the Unicode property White_Space. -/
def isWhitespace (c : Char) : Bool :=
  (0x9 ≤ c.toNat && c.toNat ≤ 0xd) || c.toNat == 0x20 || c.toNat == 0x85 || c.toNat == 0xa0 ||
    c.toNat == 0x1680 || (0x2000 ≤ c.toNat && c.toNat ≤ 0x200a) || c.toNat == 0x2028 ||
    c.toNat == 0x2029 || c.toNat == 0x202f || c.toNat == 0x205f || c.toNat == 0x3000

/-- `str::trim`. -/
def trim (s : Text) : Text :=
  ((s.dropWhile isWhitespace).reverse.dropWhile isWhitespace).reverse

/-- twig_use_is_same_as.rs 14–38 and twig_use_is_not_same_as.rs 14–38 for the operator and the
beginning of the replacement. -/
def checkSameAs (name : RuleName) (operator : SyntaxKind) (replacement : Text) (node : Elem) :
    List CheckResult :=
  match node.cast .TWIG_BINARY_EXPRESSION with
  | none => []
  | some binary =>
    match binary.firstNonTriviaToken with
    | none => []
    | some op =>
      if op.kind != operator then []
      else
        match binary.rhsExpression with
        | none => [result name .error op.range]
        | some rhs =>
          [suggest (result name .error op.range) (cover op.range rhs.range)
            (replacement ++ trim rhs.text ++ [')'])]

/-- twig_use_is_same_as.rs 9–39. -/
def twigUseIsSameAs : Rule where
  name := "twig-use-is-same-as".toList
  checkNode := fun _ node =>
    checkSameAs "twig-use-is-same-as".toList T!"===" "is same as(".toList node

/-- twig_use_is_not_same_as.rs 9–39. -/
def twigUseIsNotSameAs : Rule where
  name := "twig-use-is-not-same-as".toList
  checkNode := fun _ node =>
    checkSameAs "twig-use-is-not-same-as".toList T!"!==" "is not same as(".toList node

/-! ## Twig names -/

/-- twig_prefer_shopware_extends.rs 8–35. -/
def twigPreferShopwareExtends : Rule where
  name := "twig-prefer-shopware-extends".toList
  checkNode := fun _ node =>
    match node.cast .TWIG_EXTENDS with
    | none => []
    | some extends_ =>
      match extends_.token T!"extends" with
      | none => []
      | some keyword =>
        [suggest (result "twig-prefer-shopware-extends".toList .warning extends_.range) keyword.range
          "sw_extends".toList]

/-- `support::child::<TwigLiteralName>(..)?.get_name()?`. -/
def literalName (e : Elem) : Option Elem := (e.child .TWIG_LITERAL_NAME).bind (·.word)

/-- The `json_encode` test of `chain_contains_json_encode`, twig_json_encode_escape_js.rs 52–61. -/
def isJsonEncode (filter : Elem) : Bool :=
  match filter.filterOperand.bind literalName with
  | some t => t.text == "json_encode".toList
  | none => false

/-- The filter to the left in the chain, twig_json_encode_escape_js.rs 63–68. -/
def innerFilter (filter : Elem) : Option Elem := filter.operand.bind (·.child .TWIG_FILTER)

/-- The loop of `chain_contains_json_encode`, twig_json_encode_escape_js.rs 49–74. The first argument
bounds the number of steps. -/
def chainContainsJsonEncode : Nat → Elem → Bool
  | 0, _ => false
  | fuel + 1, filter =>
    isJsonEncode filter ||
      (match innerFilter filter with
        | some inner => chainContainsJsonEncode fuel inner
        | none => false)

mutual
/-- The height of a tree. -/
def treeHeight : Tree → Nat
  | .token _ _ => 1
  | .node _ cs => 1 + treesHeight cs
/-- The maximal height of trees. -/
def treesHeight : List Tree → Nat
  | [] => 0
  | t :: ts => max (treeHeight t) (treesHeight ts)
end

/-- twig_json_encode_escape_js.rs 8–46. The number of steps of the loop is bounded by the height of
the filter. -/
def twigJsonEncodeEscapeJs : Rule where
  name := "twig-json-encode-escape-js".toList
  checkNode := fun _ node =>
    match node.cast .TWIG_FILTER with
    | none => []
    | some filter =>
      match filter.filterOperand.bind literalName with
      | none => []
      | some name =>
        if name.text != "raw".toList then []
        else if !chainContainsJsonEncode (treeHeight filter.tree) filter then []
        else
          [suggest (result "twig-json-encode-escape-js".toList .warning name.range) name.range
            "escape('js')".toList]

/-- The name in an operand or expression: a plain name, or else the name of a function call,
twig_valid_filter.rs 20–30 and `extract_test_name`, twig_valid_test.rs 51–65. -/
def calledName (e : Elem) : Option Elem :=
  match e.child .TWIG_LITERAL_NAME with
  | some name => name.word
  | none =>
    match e.child .TWIG_FUNCTION_CALL with
    | some call => call.operand.bind literalName
    | none => none

/-- A warning for a name that is not in a list. -/
def checkKnown (rule : RuleName) (valid : List Text) (name : Elem) : List CheckResult :=
  if !valid.any (fun f => f == name.text) then [result rule .warning name.range] else []

/-- twig_valid_filter.rs 10–51. -/
def twigValidFilter : Rule where
  name := "twig-valid-filter".toList
  checkNode := fun ctx node =>
    match ((node.cast .TWIG_FILTER).bind (·.filterOperand)).bind calledName with
    | none => []
    | some name => checkKnown "twig-valid-filter".toList ctx.config.validFilters name

/-- Is the operator `is` or `is not`? twig_valid_test.rs 21, twig_valid_function.rs 37. -/
def isTestOperator (op : Elem) : Bool := op.kind == T!"is" || op.kind == T!"is not"

/-- twig_valid_test.rs 11–47. -/
def twigValidTest : Rule where
  name := "twig-valid-test".toList
  checkNode := fun ctx node =>
    match binaryOperator node with
    | none => []
    | some op =>
      if !isTestOperator op then []
      else
        match node.rhsExpression.bind calledName with
        | none => []
        | some name => checkKnown "twig-valid-test".toList ctx.config.validTests name

/-- Is the call the right operand of a filter? twig_valid_function.rs 20–29. -/
def isFilterCall (call : Elem) : Bool :=
  match call.parent with
  | none => false
  | some parent =>
    match (parent.parent.bind (·.cast .TWIG_FILTER)).bind (·.filterOperand) with
    | none => false
    | some f => f.same parent

/-- Is the call a test? twig_valid_function.rs 33–49. -/
def isTestCall (call : Elem) : Bool :=
  match call.parent with
  | none => false
  | some parent =>
    match parent.parent.bind (·.cast .TWIG_BINARY_EXPRESSION) with
    | none => false
    | some binary =>
      match binary.firstNonTriviaToken with
      | none => false
      | some op =>
        isTestOperator op &&
          (match binary.rhsExpression with
            | none => false
            | some rhs => rhs.same parent)

/-- twig_valid_function.rs 11–74. -/
def twigValidFunction : Rule where
  name := "twig-valid-function".toList
  checkNode := fun ctx node =>
    match node.cast .TWIG_FUNCTION_CALL with
    | none => []
    | some call =>
      if isFilterCall call then []
      else if isTestCall call then []
      else
        match call.operand.bind literalName with
        | none => []
        | some name => checkKnown "twig-valid-function".toList ctx.config.validFunctions name

/-- `is_constant_assignment`, twig_variable_definition_naming.rs 35–45. -/
def isConstantAssignment (e : Elem) : Bool :=
  match (((e.child .TWIG_EXPRESSION).bind (·.child .TWIG_FUNCTION_CALL)).bind (·.operand)).bind
      literalName with
  | some name => name.text == "constant".toList
  | none => false

/-- `check_literal_names`, twig_variable_definition_naming.rs 47–96. -/
def checkLiteralNames (e : Elem) (isConstant : Bool) : List CheckResult :=
  (e.childrenOf .TWIG_LITERAL_NAME).flatMap (fun n =>
    match n.word with
    | none => []
    | some name =>
      (if isConstant && !isValidAsciiAlphaSnakeCase name.text true then
        [result "twig-variable-definition-naming".toList .help name.range] else []) ++
      (if !isConstant && !isCamelCase name.text then
        [result "twig-variable-definition-naming".toList .help name.range] else []))

/-- twig_variable_definition_naming.rs 13–33. -/
def twigVariableDefinitionNaming : Rule where
  name := "twig-variable-definition-naming".toList
  checkNode := fun _ node =>
    if node.kind == .TWIG_ASSIGNMENT then
      match node.cast .TWIG_ASSIGNMENT with
      | none => []
      | some n => checkLiteralNames n (isConstantAssignment n)
    else if node.kind == .TWIG_FOR_BLOCK then
      match node.cast .TWIG_FOR_BLOCK with
      | none => []
      | some n => checkLiteralNames n false
    else []

/-! ## All rules -/

/-- `RULE_DEFINITIONS`, check/rules.rs 53–76. -/
def definitions : List Rule :=
  [ignoreFileNotOnTop, whitespaceBetweenLineBreaks, lineEnding, indentation, twigBlockLineBreaks,
    twigBlockNameSnakeCase, htmlAttributeNameKebabCase, twigLogicAnd, twigLogicOr,
    twigStringQuotation, htmlStringQuotation, twigHashKeyNoQuotes, twigPreferShopwareExtends,
    twigUseIsSameAs, twigUseIsNotSameAs, twigBlockDuplicate, twigJsonEncodeEscapeJs, htmlDuplicateId,
    twigVariableDefinitionNaming, twigValidFilter, twigValidTest, twigValidFunction]

end Ludtwig.Rules
