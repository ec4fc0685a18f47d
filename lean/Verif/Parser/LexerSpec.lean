import Verif.Parser.Lexer

/-!
# Regular expressions of the tokens (specification)

A declarative semantics of regular expressions, and the expressions in the attributes of
`SyntaxKind` (crates/ludtwig-parser/src/syntax/untyped.rs 43–59) written with it.
-/

namespace Ludtwig

/-- Regular expressions over chars; `set` is a char class given by ranges. -/
inductive Re
  | eps
  | set (ranges : List (Char × Char))
  | seq (a b : Re)
  | alt (a b : Re)
  | star (a : Re)

namespace Re

/-- A char lies in one of the ranges. -/
def InSet (ranges : List (Char × Char)) (c : Char) : Prop := ∃ r ∈ ranges, r.1 ≤ c ∧ c ≤ r.2

/-- The language of a regular expression. -/
inductive Matches : Re → Text → Prop
  | eps : Matches .eps []
  | set {rs c} : InSet rs c → Matches (.set rs) [c]
  | seq {a b s t} : Matches a s → Matches b t → Matches (.seq a b) (s ++ t)
  | altL {a b s} : Matches a s → Matches (.alt a b) s
  | altR {a b s} : Matches b s → Matches (.alt a b) s
  | starNil {a} : Matches (.star a) []
  | starCons {a s t} : Matches a s → Matches (.star a) t → Matches (.star a) (s ++ t)

/-- `a+` -/
def plus (a : Re) : Re := .seq a (.star a)
/-- `a?` -/
def opt (a : Re) : Re := .alt .eps a
/-- A single char. -/
def chr (c : Char) : Re := .set [(c, c)]
/-- A literal text. -/
def lit : Text → Re
  | [] => .eps
  | c :: s => .seq (chr c) (lit s)

/-- `[a-zA-Z]` -/
def alpha : Re := .set [('a', 'z'), ('A', 'Z')]
/-- `[0-9]` -/
def digit : Re := .set [('0', '9')]
/-- `[a-zA-Z0-9]` -/
def alnum : Re := .set [('a', 'z'), ('A', 'Z'), ('0', '9')]
/-- `[a-zA-Z0-9_\-]` -/
def wordChar : Re := .set [('a', 'z'), ('A', 'Z'), ('0', '9'), ('_', '_'), ('-', '-')]
/-- `[0-9a-fA-F]` -/
def hex : Re := .set [('0', '9'), ('a', 'f'), ('A', 'F')]

/-- `[ \t]+`, untyped.rs 43. -/
def whitespace : Re := plus (.set [(' ', ' '), ('\t', '\t')])
/-- `((\n)|(\r\n))+`, untyped.rs 45. -/
def lineBreak : Re := plus (.alt (chr '\n') (.seq (chr '\r') (chr '\n')))
/-- `([a-zA-Z]|([@\#_\$][a-zA-Z])|_)[a-zA-Z0-9_\-]*`, untyped.rs 50. -/
def word : Re :=
  .seq (.alt alpha (.alt (.seq (.set [('@', '@'), ('#', '#'), ('_', '_'), ('$', '$')]) alpha) (chr '_')))
    (.star wordChar)
/-- `twig(\:[a-zA-Z0-9_\-]+)+`, untyped.rs 53. -/
def componentName : Re := .seq (lit ['t', 'w', 'i', 'g']) (plus (.seq (chr ':') (plus wordChar)))
/-- `[0-9]+(\.[0-9]+)?([Ee][\+\-][0-9]+)?`, untyped.rs 56. -/
def number : Re :=
  .seq (plus digit) (.seq (opt (.seq (chr '.') (plus digit)))
    (opt (.seq (.set [('E', 'E'), ('e', 'e')]) (.seq (.set [('+', '+'), ('-', '-')]) (plus digit)))))
/-- `\&(([a-zA-Z][a-zA-Z0-9]*)|(\#[0-9]+)|(\#x[0-9a-fA-F]+));`, untyped.rs 59. -/
def escape : Re :=
  .seq (chr '&') (.seq (.alt (.seq alpha (.star alnum))
    (.alt (.seq (chr '#') (plus digit)) (.seq (chr '#') (.seq (chr 'x') (plus hex))))) (chr ';'))

end Re

/-- The token rules with regular expressions. -/
def regexRules : List (Re × SyntaxKind) :=
  [(.whitespace, .TK_WHITESPACE), (.lineBreak, .TK_LINE_BREAK), (.word, .TK_WORD),
   (.componentName, .TK_TWIG_COMPONENT_NAME), (.number, .TK_NUMBER),
   (.escape, .TK_HTML_ESCAPE_CHARACTER)]

/-- A text is the literal, up to case if the literal ignores case. -/
def Literal.Matches (l : Literal) (t : Text) : Prop :=
  if l.ignoreCase then t.map Lexer.foldCase = l.text.map Lexer.foldCase else t = l.text

/-- A text is a token of a kind by one of the rules. -/
def IsLiteralToken (t : Text) (k : SyntaxKind) : Prop := ∃ l ∈ literals, l.kind = k ∧ l.Matches t
def IsRegexToken (t : Text) (k : SyntaxKind) : Prop := ∃ r, (r, k) ∈ regexRules ∧ r.Matches t

/-- `pre` at the start of `s` is what a lexer with longest match takes, with literals before regular
expressions of the same length. -/
structure LongestMatch (s pre : Text) (k : SyntaxKind) : Prop where
  isPrefix : pre <+: s
  nonempty : pre ≠ []
  rule : IsLiteralToken pre k ∨ IsRegexToken pre k
  longest : ∀ pre' k', pre' <+: s → IsLiteralToken pre' k' ∨ IsRegexToken pre' k' →
    pre'.length ≤ pre.length
  literalFirst : ∀ k', IsLiteralToken pre k' → IsLiteralToken pre k

/-- The text starts with a blank, tab or LF, or is empty. -/
def WordEnd (s : Text) : Prop := s = [] ∨ ∃ c r, s = c :: r ∧ (c = ' ' ∨ c = '\t' ∨ c = '\n')

/-- The tokens of a text: longest match, the operators `not in` and `is not`, and spans of text
without a matching rule, of the size that `errLen` says. -/
inductive Tokenizes (errLen : Text → Nat) : Text → List (SyntaxKind × Text) → Prop
  | nil : Tokenizes errLen [] []
  | rule {pre post k ts} : LongestMatch (pre ++ post) pre k →
      ¬ (k = .TK_NOT ∧ ∃ r, post = ' ' :: 'i' :: 'n' :: r ∧ WordEnd r) →
      ¬ (k = .TK_IS ∧ ∃ r, post = ' ' :: 'n' :: 'o' :: 't' :: r ∧ WordEnd r) →
      Tokenizes errLen post ts → Tokenizes errLen (pre ++ post) ((k, pre) :: ts)
  | notIn {post ts} : LongestMatch ("not in".toList ++ post) "not".toList .TK_NOT → WordEnd post →
      Tokenizes errLen post ts →
      Tokenizes errLen ("not in".toList ++ post) ((.TK_NOT_IN, "not in".toList) :: ts)
  | isNot {post ts} : LongestMatch ("is not".toList ++ post) "is".toList .TK_IS → WordEnd post →
      Tokenizes errLen post ts →
      Tokenizes errLen ("is not".toList ++ post) ((.TK_IS_NOT, "is not".toList) :: ts)
  | unknown {pre post ts} : pre ≠ [] → pre.length = errLen (pre ++ post) →
      (∀ u k, u <+: pre ++ post → ¬ (IsLiteralToken u k ∨ IsRegexToken u k)) →
      Tokenizes errLen post ts → Tokenizes errLen (pre ++ post) ((.TK_UNKNOWN, pre) :: ts)

/-- Ranges that follow each other from one offset to another, each as long as the token's text. -/
inductive Contiguous : Nat → List Token → Nat → Prop
  | nil (a) : Contiguous a [] a
  | cons {a b t ts} : t.range.start = a → t.range.stop = a + byteLen t.text →
      Contiguous t.range.stop ts b → Contiguous a (t :: ts) b

/-- A text is a sequence of `LF` and `CRLF`. -/
def IsLineBreaks (t : Text) : Prop :=
  ∃ l : List Text, t = l.flatten ∧ ∀ x ∈ l, x = ['\n'] ∨ x = ['\r', '\n']

end Ludtwig
