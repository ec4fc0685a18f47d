import Verif.Grammar.Basic

/-!
# Twig literals (model)

crates/ludtwig-parser/src/grammar/twig/literal.rs, function by function.
-/

namespace Ludtwig

/-- `TWIG_EXPRESSION_RECOVERY_SET`, expression.rs 13–71. -/
def twigExpressionRecoverySet : List SyntaxKind :=
  [T!"|", T!")", T!"}", T!"]", T!":", T!"}}", T!"-}}", T!"~}}", T!"%}", T!"-%}", T!"~%}", T!"(",
   T!"number", T!"\"", T!"'", T!"[", T!"null", T!"true", T!"false", T!"{",
   T!"or", T!"||", T!"and", T!"&&", T!"b-or", T!"b-xor", T!"b-and", T!"==", T!"!=", T!"<=>", T!"<",
   T!">", T!">=", T!"<=", T!"not", T!"not in", T!"in", T!"matches", T!"starts with", T!"ends with",
   T!"===", T!"!==", T!"..", T!"...", T!"+", T!"-", T!"~", T!"*", T!"/", T!"//", T!"%", T!"is",
   T!"is not", T!"**", T!"??"]

/-- `start; bump; complete(kind)`: the shape of `parse_twig_number` (literal.rs 73–79),
`parse_twig_null` (167–173) and `parse_twig_boolean` (175–181). -/
def tokenNode (kind : SyntaxKind) : P CompletedMarker := do
  let m ← start
  bump_
  complete m kind

/-- `parse_twig_number`, literal.rs 73–79. -/
def parseTwigNumber : P CompletedMarker := tokenNode .TWIG_LITERAL_NUMBER
/-- `parse_twig_null`, literal.rs 167–173. -/
def parseTwigNull : P CompletedMarker := tokenNode .TWIG_LITERAL_NULL
/-- `parse_twig_boolean`, literal.rs 175–181. -/
def parseTwigBoolean : P CompletedMarker := tokenNode .TWIG_LITERAL_BOOLEAN

/-- `start; bump_as(TK_WORD); complete(kind)`. -/
def wordNode (kind : SyntaxKind) : P CompletedMarker := do
  let m ← start
  discard' (bumpAs .TK_WORD)
  complete m kind

/-- `parse_twig_name`, literal.rs 475–487. -/
def parseTwigName : P (Option CompletedMarker) := do
  let special ← atSet [T!"same as", T!"divisible by"]
  match (← peekToken) with
  | none => return none
  | some t =>
    if !special && !isTwigName t.text then return none
    else return some (← wordNode .TWIG_LITERAL_NAME)

/-- The string interpolation in `parse_twig_string`, literal.rs 113–126. -/
def parseTwigInterpolation (K : Knot) : P Unit := do
  explicitlyConsumeTrivia
  let m ← start
  bump_
  bump_
  ifNone K.expr (addError "twig expression")
  expect_ T!"}" twigExpressionRecoverySet
  complete_ m .TWIG_LITERAL_STRING_INTERPOLATION

/-- The loop body of `parse_twig_string`, literal.rs 98–131. -/
def parseTwigStringPart (K : Knot) (quoteKind : SyntaxKind) (interpolation : Bool) : P Unit :=
  ifP (atFollowing [T!"\\", quoteKind]) (do bump_; bump_)
    (ifP (atFollowing [T!"#", T!"{"])
      (if !interpolation then do
        let t ← bump
        addErrorAt "no string interpolation, because it isn't allowed here" t
      else parseTwigInterpolation K)
      bump_)

/-- `parse_twig_string`, literal.rs 81–138. -/
def parseTwigString (K : Knot) (interpolation : Bool) : P CompletedMarker := do
  let m ← start
  let quote ← bump
  let inner ← start
  parseMany (at' quote.kind)
    (parseTwigStringPart K quote.kind (if quote.kind = T!"\"" then interpolation else false))
  explicitlyConsumeTrivia
  complete_ inner .TWIG_LITERAL_STRING_INNER
  expect_ quote.kind twigExpressionRecoverySet
  complete m .TWIG_LITERAL_STRING

/-- `parse_twig_array`, literal.rs 140–165. -/
def parseTwigArray (K : Knot) : P CompletedMarker := do
  let m ← start
  bump_
  let list ← start
  parseMany (at' T!"]") (do
    discard' K.expr
    commaOrEnd (at' T!"]"))
  complete_ list .TWIG_LITERAL_ARRAY_INNER
  expect_ T!"]" twigExpressionRecoverySet
  complete m .TWIG_LITERAL_ARRAY

/-- The key in `parse_twig_hash_pair`, literal.rs 211–236. -/
def parseTwigHashKey (K : Knot) : P (Option CompletedMarker) :=
  ifP (at' T!"number") (do return some (← wrap (← parseTwigNumber) .TWIG_LITERAL_HASH_KEY))
    (ifP (atSet [T!"'", T!"\""])
      (do return some (← wrap (← parseTwigString K false) .TWIG_LITERAL_HASH_KEY))
      (ifP (at' T!"(")
        (do
          let m ← start
          bump_
          orRecover K.expr "twig expression" twigExpressionRecoverySet
          expect_ T!")" twigExpressionRecoverySet
          return some (← complete m .TWIG_LITERAL_HASH_KEY))
        (do
          match (← peekToken) with
          | none => return none
          | some t =>
            if isTwigName t.text then return some (← wordNode .TWIG_LITERAL_HASH_KEY)
            else return none)))

/-- `parse_twig_hash_pair`, literal.rs 210–250. -/
def parseTwigHashPair (K : Knot) : P (Option CompletedMarker) := do
  match (← parseTwigHashKey K) with
  | none => return none
  | some key =>
    whenP (at' T!":") (do
      bump_
      orRecover K.expr "value as twig expression" twigExpressionRecoverySet)
    return some (← wrap key .TWIG_LITERAL_HASH_PAIR)

/-- `parse_twig_hash`, literal.rs 183–208. -/
def parseTwigHash (K : Knot) : P CompletedMarker := do
  let m ← start
  bump_
  let list ← start
  parseMany (at' T!"}") (do
    discard' (parseTwigHashPair K)
    commaOrEnd (at' T!"}"))
  complete_ list .TWIG_LITERAL_HASH_ITEMS
  expect_ T!"}" twigExpressionRecoverySet
  complete m .TWIG_LITERAL_HASH

/-- `parse_twig_function_argument`, literal.rs 461–473. -/
def parseTwigFunctionArgument (K : Knot) : P (Option CompletedMarker) :=
  ifP (atFollowing [T!"word", T!"="])
    (do
      let m ← start
      bump_
      expect_ T!"=" twigExpressionRecoverySet
      discard' K.expr
      return some (← complete m .TWIG_NAMED_ARGUMENT))
    K.expr

/-- The loop over function arguments until `listEnd`, e.g. literal.rs 276–287. -/
def parseArguments (K : Knot) (listEnd : P Bool) : P Unit :=
  parseMany listEnd (do
    discard' (parseTwigFunctionArgument K)
    commaOrEnd listEnd)

/-- `( arguments )` as a `TWIG_ARGUMENTS` node, literal.rs 272–289 and 393–410. -/
def parseArgumentsNode (K : Knot) : P Unit := do
  let m ← start
  bump_
  parseArguments K (at' T!")")
  expect_ T!")" twigExpressionRecoverySet
  complete_ m .TWIG_ARGUMENTS

/-- `parse_twig_filter`, literal.rs 252–294. -/
def parseTwigFilter (K : Knot) (node : CompletedMarker) : P CompletedMarker := do
  let operand ← wrap node .TWIG_OPERAND
  let outer ← precede operand
  bump_
  let m ← start
  match (← parseTwigName) with
  | none => errorRecover "twig filter" twigExpressionRecoverySet
  | some _ => whenP (at' T!"(") (parseArgumentsNode K)
  complete_ m .TWIG_OPERAND
  complete outer .TWIG_FILTER

/-- The upper bound in `parse_twig_indexer`, literal.rs 313–320: is there a `:`, and is the bound
missing. -/
def parseTwigUpperBound (K : Knot) : P (Bool × Bool) :=
  ifP (at' T!":") (do
      bump_
      return (true, (← K.expr).isNone))
    (return (false, true))

/-- `parse_twig_indexer`, literal.rs 296–340. -/
def parseTwigIndexer (K : Knot) (node : CompletedMarker) : P CompletedMarker := do
  let operand ← wrap node .TWIG_OPERAND
  let outer ← precede operand
  bump_
  let indexM ← start
  let lower ← K.expr
  let upper ← parseTwigUpperBound K
  whenP (pure (lower.isNone && upper.2)) (errorRecover "twig expression" twigExpressionRecoverySet)
  complete_ indexM (if upper.1 then .TWIG_INDEX_RANGE else .TWIG_INDEX)
  expect_ T!"]" twigExpressionRecoverySet
  complete outer .TWIG_INDEX_LOOKUP

/-- `parse_twig_function`, literal.rs 382–414. -/
def parseTwigFunction (K : Knot) (node : CompletedMarker) : P CompletedMarker := do
  let operand ← wrap node .TWIG_OPERAND
  let outer ← precede operand
  parseArgumentsNode K
  complete outer .TWIG_FUNCTION_CALL

/-- `parse_twig_accessor`, literal.rs 342–380. -/
def parseTwigAccessor (K : Knot) (node : CompletedMarker) : P CompletedMarker := do
  let operand ← wrap node .TWIG_OPERAND
  let outer ← precede operand
  bump_
  let m ← start
  ifP (at' T!"number")
    (do
      discard' (wrap (← parseTwigNumber) .TWIG_EXPRESSION)
      complete_ m .TWIG_INDEX
      complete outer .TWIG_INDEX_LOOKUP)
    (do
      orRecover parseTwigName "twig variable property, key or method" twigExpressionRecoverySet
      complete_ m .TWIG_OPERAND
      let node ← complete outer .TWIG_ACCESSOR
      ifP (at' T!"(") (parseTwigFunction K node) (pure node))

/-- `parse_twig_test_implicit_argument`, literal.rs 418–436. -/
def parseTwigTestImplicitArgument (K : Knot) (node : CompletedMarker) : P CompletedMarker := do
  let operand ← wrap node .TWIG_OPERAND
  let outer ← precede operand
  let m ← start
  orRecover K.expr "argument for twig test" twigExpressionRecoverySet
  complete_ m .TWIG_ARGUMENTS
  complete outer .TWIG_FUNCTION_CALL

/-- `parse_twig_arrow_function`, literal.rs 438–459. The `=>` is consumed without a check in release
builds (line 442 is a `debug_assert!`). -/
def parseTwigArrowFunction (K : Knot) (node : CompletedMarker) : P CompletedMarker := do
  let outer ← precede node
  bump_ .arrowFunction
  orRecover K.expr "single twig expression as the body of the closure" twigExpressionRecoverySet
  complete outer .TWIG_ARROW_FUNCTION

/-- The name case of `parse_twig_literal`, literal.rs 27–47. -/
def parseTwigNameLiteral (K : Knot) : P (Option CompletedMarker) := do
  let kind ← peek
  match (← parseTwigName) with
  | none => return none
  | some node =>
    return some (← ifP (at' T!"(") (parseTwigFunction K node)
      (ifP (at' T!"=>")
        (do parseTwigArrowFunction K (← wrap node .TWIG_ARGUMENTS))
        (if kind = some T!"same as" ∨ kind = some T!"divisible by" then
          parseTwigTestImplicitArgument K node
        else pure node)))

/-- `parse_twig_literal`, literal.rs 14–49. -/
def parseTwigLiteral (K : Knot) : P (Option CompletedMarker) :=
  ifP (at' T!"number") (do return some (← parseTwigNumber))
  (ifP (atSet [T!"\"", T!"'"]) (do return some (← parseTwigString K true))
  (ifP (at' T!"[") (do return some (← parseTwigArray K))
  (ifP (at' T!"null") (do return some (← parseTwigNull))
  (ifP (atSet [T!"true", T!"false"]) (do return some (← parseTwigBoolean))
  (ifP (at' T!"{") (do return some (← parseTwigHash K))
  (parseTwigNameLiteral K))))))

/-- The loop body of `parse_postfix_operators`, literal.rs 59–67. -/
def parsePostfixOperator (K : Knot) (node : CompletedMarker) : P CompletedMarker :=
  ifP (at' T!".") (parseTwigAccessor K node)
  (ifP (at' T!"[") (parseTwigIndexer K node)
  (ifP (at' T!"|") (parseTwigFilter K node)
  (pure node)))

/-- `parse_postfix_operators`, literal.rs 52–71. -/
def parsePostfixOperators (K : Knot) (node : CompletedMarker) : P CompletedMarker :=
  parseManyWith (fun node => pure (false, node)) (parsePostfixOperator K) node

end Ludtwig
