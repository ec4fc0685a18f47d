import Verif.Parser.Spec

/-!
# Where whitespace is in a syntax tree (specification for C69)

Whitespace and line breaks belong to the token behind them.
-/

namespace Ludtwig.Shape

/-- Is the tree a whitespace or line break token? -/
def triviaTree : Tree → Bool
  | .token k _ => k.isTrivia
  | .node _ _ => false

/-- What may be behind whitespace among the children `r` that follow it in a node of kind `k`: a
token; a string may also end with whitespace, and so may the file; in the strings of Twig, an
interpolation may follow. -/
def BehindTrivia (k : SyntaxKind) (r : List Tree) : Prop :=
  (∃ k' t r', r = .token k' t :: r') ∨
  (r = [] ∧ k ∈ [.ROOT, .HTML_STRING_INNER, .TWIG_LITERAL_STRING_INNER]) ∨
  (k = .TWIG_LITERAL_STRING_INNER ∧
    ∃ cs r', r = .node .TWIG_LITERAL_STRING_INTERPOLATION cs :: r')

mutual
/-- In all nodes of the tree, whitespace is only where the token behind it is its sibling (or at the
end of a string or of the file, or before an interpolation). -/
def Attached : Tree → Prop
  | .token _ _ => True
  | .node k cs =>
    (∀ l x r, cs = l ++ x :: r → triviaTree x = true → BehindTrivia k r) ∧ AttachedAll cs
/-- `Attached` for all trees of a list. -/
def AttachedAll : List Tree → Prop
  | [] => True
  | t :: ts => Attached t ∧ AttachedAll ts
end

/-- The children of an html string: behind the content there is one closing quote and no whitespace,
or there is nothing, and then the content does not end with whitespace and has no block in it. -/
def QuotedNode (cs : List Tree) : Prop :=
  ∀ l ds r, cs = l ++ .node .HTML_STRING_INNER ds :: r →
    (∃ q x, q.isTrivia = false ∧ r = [.token q x]) ∨
    (r = [] ∧ (∀ l' x, ds = l' ++ [x] → triviaTree x = false) ∧ ∀ cs', .node .TWIG_BLOCK cs' ∉ ds)

mutual
/-- Whitespace at the end of the value of an attribute belongs to the value only inside of quotes, and
then all of it does. -/
def QuotedTree : Tree → Prop
  | .token _ _ => True
  | .node k cs => (k = .HTML_STRING → QuotedNode cs) ∧ QuotedAll cs
/-- `QuotedTree` for all trees of a list. -/
def QuotedAll : List Tree → Prop
  | [] => True
  | t :: ts => QuotedTree t ∧ QuotedAll ts
end

end Ludtwig.Shape
