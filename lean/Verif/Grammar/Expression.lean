import Verif.Grammar.Literal

/-!
# Twig expressions (model)

crates/ludtwig-parser/src/grammar/twig/expression.rs, function by function.
-/

namespace Ludtwig

/-- `binary_binding_power`, expression.rs 90–125. -/
def binaryBindingPower : SyntaxKind → Option (Nat × Nat)
  | T!"or" | T!"||" => some (5, 6)
  | T!"and" | T!"&&" => some (10, 11)
  | T!"b-or" => some (14, 15)
  | T!"b-xor" => some (16, 17)
  | T!"b-and" => some (18, 19)
  | T!"==" | T!"!=" | T!"<=>" | T!"<" | T!">" | T!">=" | T!"<=" | T!"in" | T!"not in"
  | T!"matches" | T!"starts with" | T!"ends with" | T!"===" | T!"!==" => some (20, 21)
  | T!".." => some (25, 26)
  | T!"+" | T!"-" => some (30, 31)
  | T!"~" => some (40, 41)
  | T!"*" | T!"/" | T!"//" | T!"%" => some (60, 61)
  | T!"is" | T!"is not" => some (100, 101)
  | T!"**" => some (121, 120)
  | T!"??" => some (151, 150)
  | _ => none

/-- `unary_binding_power`, expression.rs 127–134. -/
def unaryBindingPower : SyntaxKind → Option Nat
  | T!"not" => some 51
  | T!"+" | T!"-" => some 201
  | T!"..." => some 211
  | _ => none

/-- The loop body of `parse_twig_expression_binding_power_rhs`, expression.rs 157–177. The captured
variables are `is_binary` and `lhs`. -/
def parseBinaryStep (K : Knot) (minPower : Nat) (a : Bool × CompletedMarker) :
    P (Bool × (Bool × CompletedMarker)) := do
  match (← peek).bind binaryBindingPower with
  | none => return (false, a)
  | some (left, right) =>
    if left < minPower then return (false, a)
    else
      bump_
      let m ← precede a.2
      let rhs ← K.exprBp right
      let lhs ← complete m .TWIG_BINARY_EXPRESSION
      return (rhs.isSome, (true, lhs))

/-- The error of a missing branch in `parse_conditional_expression`, expression.rs 206–217. -/
def parseTruthy (K : Knot) : P Unit := do
  match (← K.exprBp 0) with
  | some _ => pure ()
  | none =>
    whenP (P.not (at' T!":")) (errorRecover "twig expression or ':'"
      [T!":", T!"}}", T!"-}}", T!"~}}", T!"%}", T!"-%}", T!"~%}"])

/-- `parse_conditional_expression`, expression.rs 195–239. -/
def parseConditionalExpression (K : Knot) (lhs : CompletedMarker) : P (Option CompletedMarker) :=
  ifP (P.not (at' T!"?")) (return none) (do
    let m ← precede lhs
    bump_
    parseTruthy K
    whenP (at' T!":") (do
      bump_
      orRecover (K.exprBp 0) "twig expression" [T!"}}", T!"-}}", T!"~}}", T!"%}", T!"-%}", T!"~%}"])
    let conditional ← complete m .TWIG_CONDITIONAL_EXPRESSION
    return some (← wrap conditional .TWIG_EXPRESSION))

/-- `parse_twig_expression_binding_power_rhs`, expression.rs 151–193. -/
def parseBindingPowerRhs (K : Knot) (minPower : Nat) (lhs : CompletedMarker) :
    P CompletedMarker := do
  let a ← loopTokens (parseBinaryStep K minPower) (false, lhs)
  let lhs ← if a.1 then wrap a.2 .TWIG_EXPRESSION else pure a.2
  if minPower = 0 then
    return (← parseConditionalExpression K lhs).getD lhs
  else return lhs

/-- The name case of `parse_paren_expression`, expression.rs 272–289: `true` is an arrow
function. -/
def parseParenName (K : Knot) (name : CompletedMarker) : P Bool :=
  ifP (P.or (at' T!",") (atFollowing [T!")", T!"=>"])) (return true) (do
    let node ← ifP (at' T!"(") (parseTwigFunction K name) (pure name)
    let node ← parsePostfixOperators K node
    let lhs ← wrap node .TWIG_EXPRESSION
    discard' (parseBindingPowerRhs K 0 lhs)
    return false)

/-- The part of `parse_paren_expression` between the parentheses, expression.rs 266–297: `true` is
an arrow function. -/
def parseParenInner (K : Knot) : P Bool := do
  match (← peek).map unaryBindingPower with
  | some none =>
    match (← parseTwigName) with
    | some name => parseParenName K name
    | none =>
      discard' (K.exprBp 0)
      return false
  | _ =>
    discard' (K.exprBp 0)
    return false

/-- `parse_paren_expression`, expression.rs 260–300: the open marker and whether it is a
parenthesised expression (and not an arrow function). -/
def parseParenExpression (K : Knot) : P (Marker × Bool) := do
  let m ← start
  bump_
  let arrow ← parseParenInner K
  if arrow then return (m, false)
  else
    expect_ T!")" twigExpressionRecoverySet
    return (m, true)

/-- `parse_paren_arrow_function`, expression.rs 302–319. -/
def parseParenArrowFunction (K : Knot) (m : Marker) : P CompletedMarker := do
  parseMany (at' T!")") (do
    expect_ T!"," twigExpressionRecoverySet
    discard' parseTwigName)
  expect_ T!")" twigExpressionRecoverySet
  let node ← complete m .TWIG_ARGUMENTS
  parseTwigArrowFunction K node

/-- `parse_unary_expression`, expression.rs 321–335. -/
def parseUnaryExpression (K : Knot) : P CompletedMarker := do
  let m ← start
  let op ← bump
  match unaryBindingPower op.kind with
  | none => P.panic .unaryPower
  | some power =>
    discard' (K.exprBp power)
    complete m .TWIG_UNARY_EXPRESSION

/-- `parse_twig_expression_lhs`, expression.rs 241–258. -/
def parseExpressionLhs (K : Knot) : P (Option CompletedMarker) :=
  ifP (at' T!"(")
    (do
      let r ← parseParenExpression K
      if r.2 then
        let node ← complete r.1 .TWIG_PARENTHESES_EXPRESSION
        return some (← parsePostfixOperators K node)
      else return some (← parseParenArrowFunction K r.1))
    (ifP (atSet [T!"-", T!"+", T!"not", T!"..."])
      (do return some (← parseUnaryExpression K))
      (do
        match (← parseTwigLiteral K) with
        | none => return none
        | some node => return some (← parsePostfixOperators K node)))

/-- `parse_twig_expression_binding_power`, expression.rs 137–149. -/
def parseExpressionBp (K : Knot) (minPower : Nat) : P (Option CompletedMarker) := do
  match (← parseExpressionLhs K) with
  | none => return none
  | some lhs =>
    let lhs ← wrap lhs .TWIG_EXPRESSION
    return some (← parseBindingPowerRhs K minPower lhs)

end Ludtwig
