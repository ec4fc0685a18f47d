import Verif.Parser.Sink
import Verif.Grammar.Basic

/-!
# Operator precedence (specification for C11)

A flat sequence of operands and binary operators, its groupings, and which of them respect the
operator table. Nothing here refers to binding powers or to the parser.
-/

namespace Ludtwig

/-- How operators of the same row are grouped. -/
inductive Assoc
  | left
  | right
  deriving DecidableEq, Repr

/-- The operator table of the Twig documentation, from the loosest to the tightest operators, as far
as ludtwig knows them (`||`, `&&`, `===` and `!==` are no operators of Twig, but of ludtwig). -/
def operatorTable : List (Assoc × List SyntaxKind) :=
  [(.left, [T!"or", T!"||"]),
   (.left, [T!"and", T!"&&"]),
   (.left, [T!"b-or"]),
   (.left, [T!"b-xor"]),
   (.left, [T!"b-and"]),
   (.left, [T!"==", T!"!=", T!"<=>", T!"<", T!">", T!">=", T!"<=", T!"in", T!"not in", T!"matches",
     T!"starts with", T!"ends with", T!"===", T!"!=="]),
   (.left, [T!".."]),
   (.left, [T!"+", T!"-"]),
   (.left, [T!"~"]),
   (.left, [T!"*", T!"/", T!"//", T!"%"]),
   (.left, [T!"is", T!"is not"]),
   (.right, [T!"**"]),
   (.right, [T!"??"])]

/-- The row of an operator, and how its operators are grouped. -/
def rowOf (k : SyntaxKind) : Option (Nat × Assoc) :=
  (operatorTable.zipIdx.find? (fun r => r.1.2.contains k)).map (fun r => (r.2, r.1.1))

/-- The operator `a` binds tighter than `b`, or both are in the same row, which groups to the given
side. -/
def BindsTighter (side : Assoc) (a b : SyntaxKind) : Prop :=
  ∃ i s j t, rowOf a = some (i, s) ∧ rowOf b = some (j, t) ∧ (j < i ∨ (i = j ∧ s = side))

/-- A grouping of a flat sequence. An operand is given by its tokens and its tree. -/
inductive Grouping
  | operand (toks : List Token) (tree : Tree)
  | binary (l : Grouping) (op : Token) (r : Grouping)

/-- The outermost operator. -/
def Grouping.top? : Grouping → Option SyntaxKind
  | .operand _ _ => none
  | .binary _ op _ => some op.kind

/-- The grouping respects the operator table: the outermost operator of a left operand binds tighter
than the operator, or as tight in a row that groups to the left, and correspondingly on the right. -/
inductive WellGrouped : Grouping → Prop
  | operand (toks tree) : WellGrouped (.operand toks tree)
  | binary {l op r} : WellGrouped l → WellGrouped r → (rowOf op.kind).isSome →
      (∀ k ∈ l.top?, BindsTighter .left k op.kind) → (∀ k ∈ r.top?, BindsTighter .right k op.kind) →
      WellGrouped (.binary l op r)

/-- An operand or an operator of a flat sequence. -/
inductive Item
  | operand (toks : List Token) (tree : Tree)
  | op (t : Token)

/-- The flat sequence of a grouping, in order. -/
def Grouping.items : Grouping → List Item
  | .operand toks tree => [.operand toks tree]
  | .binary l op r => l.items ++ .op op :: r.items

/-- A flat sequence: an operand and further operands, each behind an operator. -/
structure Flat where
  first : List Token × Tree
  rest : List (Token × (List Token × Tree))

/-- The operands and operators of a flat sequence. -/
def Flat.items (f : Flat) : List Item :=
  .operand f.first.1 f.first.2 :: f.rest.flatMap (fun r => [.op r.1, .operand r.2.1 r.2.2])

/-- The tokens behind the first operand. -/
def restTokens (rest : List (Token × (List Token × Tree))) : List Token :=
  rest.flatMap (fun r => r.1 :: r.2.1)

/-- The tokens of a flat sequence. -/
def Flat.tokens (f : Flat) : List Token := f.first.1 ++ restTokens f.rest

/-- The token as a leaf. -/
def Token.tree (t : Token) : Tree := .token t.kind t.text

mutual
/-- The tree of a grouping as the left operand of an operator: single operands are wrapped in an
expression. -/
def Grouping.tree : Grouping → Tree
  | .operand _ x => .node .TWIG_EXPRESSION [x]
  | .binary l op r => .node .TWIG_BINARY_EXPRESSION [l.tree, op.tree, r.expr]
/-- The tree of a grouping as an expression of its own. -/
def Grouping.expr : Grouping → Tree
  | .operand _ x => .node .TWIG_EXPRESSION [x]
  | .binary l op r =>
    .node .TWIG_EXPRESSION [.node .TWIG_BINARY_EXPRESSION [l.tree, op.tree, r.expr]]
end

/-- Operands: numbers, `null`, booleans, names, signed operands and flat sequences in parentheses,
with their tokens and trees. In parentheses, the first operand must be a name, or start with a sign
or a token whose text is no name (the code takes `true` behind a parenthesis for a name). -/
inductive IsOperand : List Token → Tree → Prop
  | number (t : Token) : t.kind = T!"number" → isTwigName t.text = false →
      IsOperand [t] (.node .TWIG_LITERAL_NUMBER [t.tree])
  | null (t : Token) : t.kind = T!"null" → IsOperand [t] (.node .TWIG_LITERAL_NULL [t.tree])
  | boolean (t : Token) : (t.kind = T!"true" ∨ t.kind = T!"false") →
      IsOperand [t] (.node .TWIG_LITERAL_BOOLEAN [t.tree])
  | name (t : Token) : t.kind = T!"word" → isTwigName t.text = true →
      IsOperand [t] (.node .TWIG_LITERAL_NAME [t.tree])
  | signed (t : Token) (o : List Token) (x : Tree) : (t.kind = T!"+" ∨ t.kind = T!"-") → IsOperand o x →
      IsOperand (t :: o) (.node .TWIG_UNARY_EXPRESSION [t.tree, .node .TWIG_EXPRESSION [x]])
  | parens (l r : Token) (f : Flat) (g : Grouping) : l.kind = T!"(" → isTwigName l.text = false →
      r.kind = T!")" →
      IsOperand f.first.1 f.first.2 → (∀ x ∈ f.rest, IsOperand x.2.1 x.2.2) →
      (∀ x ∈ f.rest, (rowOf x.1.kind).isSome) →
      (∀ t ∈ f.first.1.head?, isTwigName t.text = true → t.kind = T!"word") →
      WellGrouped g → g.items = f.items →
      IsOperand (l :: f.tokens ++ [r]) (.node .TWIG_PARENTHESES_EXPRESSION [l.tree, g.expr, r.tree])

mutual
/-- The tree without its trivia tokens: at most one tree. -/
def Tree.strip : Tree → List Tree
  | .token k t => if k.isTrivia then [] else [.token k t]
  | .node k cs => [.node k (stripAll cs)]
/-- The trees without their trivia tokens. -/
def stripAll : List Tree → List Tree
  | [] => []
  | t :: ts => t.strip ++ stripAll ts
end

end Ludtwig
