import Verif.Parser.Sink

/-!
# What a syntax tree of a text looks like (specification)
-/

namespace Ludtwig

mutual
/-- The leaves of a tree from left to right. -/
def Tree.leaves : Tree → List (SyntaxKind × Text)
  | .token k t => [(k, t)]
  | .node _ cs => leavesOf cs
/-- The leaves of a list of trees from left to right. -/
def leavesOf : List Tree → List (SyntaxKind × Text)
  | [] => []
  | t :: ts => t.leaves ++ leavesOf ts
end

mutual
/-- The kinds of the nodes of a tree. -/
def Tree.nodeKinds : Tree → List SyntaxKind
  | .token _ _ => []
  | .node k cs => k :: nodeKindsOf cs
/-- The kinds of the nodes of a list of trees. -/
def nodeKindsOf : List Tree → List SyntaxKind
  | [] => []
  | t :: ts => t.nodeKinds ++ nodeKindsOf ts
end

/-- Leaves that stand for tokens: every token is one leaf with its text and kind, except that a
token that is not trivia may become a `word`, and a `:` may be merged with the next token, which has no
whitespace in it, to a `word`. -/
inductive Covers : List (SyntaxKind × Text) → List Token → Prop
  | nil : Covers [] []
  | same {ls ts} (t : Token) : Covers ls ts → Covers ((t.kind, t.text) :: ls) (t :: ts)
  | word {ls ts} (t : Token) : t.kind.isTrivia = false → Covers ls ts →
      Covers ((T!"word", t.text) :: ls) (t :: ts)
  | merged {ls ts} (t u : Token) : t.kind = T!":" → (∀ c ∈ u.text, c.isWhitespace = false) → Covers ls ts →
      Covers ((T!"word", t.text ++ u.text) :: ls) (t :: u :: ts)

/-- Does the first of some leaves hold trivia? `next` is the answer if there are none. -/
def headTrivia (next : Bool) : List (SyntaxKind × Text) → Bool
  | [] => next
  | (k, _) :: _ => k.isTrivia

mutual
/-- Trivia is not torn apart in a tree: if a trivia token is followed by trivia in document order,
then its next sibling is a token. `next` says whether the tree is followed by trivia. -/
def Tree.Grouped : Tree → Bool → Prop
  | .token _ _, _ => True
  | .node _ cs, next => GroupedAll cs next
/-- Trivia is not torn apart in siblings. -/
def GroupedAll : List Tree → Bool → Prop
  | [], _ => True
  | t :: ts, next =>
    t.Grouped (headTrivia next (leavesOf ts)) ∧ GroupedAll ts next ∧
      (∀ k x, t = .token k x → k.isTrivia = true → headTrivia next (leavesOf ts) = true →
        ∃ k' x' ts', ts = .token k' x' :: ts')
end

/-- What a parse error points at: the range of a token of the file, which is the token found, or,
if no token is left, the range of the last token. -/
def ErrOk (toks : List Token) (e : ParseError) : Prop :=
  (∃ t ∈ toks, e.range = t.range ∧ e.found = some t.kind) ∨
  (∃ t, toks.getLast? = some t ∧ e.range = t.range ∧ e.found = none)

end Ludtwig
