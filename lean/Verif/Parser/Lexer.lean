import Verif.Basic.Text
import Verif.Parser.Kind

/-!
# Lexer (model)

`lex` (crates/ludtwig-parser/src/lexer.rs 7–31) and the lexer that `logos` generates from the
attributes in syntax/untyped.rs 38–420: at every position the longest match of the literals and
regular expressions wins, on equal length a literal wins over a regular expression (priority). Where
nothing matches, `logos` returns an error span; its size is a parameter here (`errLen`).
-/

namespace Ludtwig

/-- `Token`, lexer.rs 33–38. -/
structure Token where
  kind : SyntaxKind
  text : Text
  range : TextRange
  deriving DecidableEq, Repr

namespace Lexer

/-- `[a-zA-Z]` -/
def isAlpha (c : Char) : Bool := ('a' ≤ c && c ≤ 'z') || ('A' ≤ c && c ≤ 'Z')
/-- `[0-9]` -/
def isDigit (c : Char) : Bool := '0' ≤ c && c ≤ '9'
/-- `[a-zA-Z0-9]` -/
def isAlnum (c : Char) : Bool := isAlpha c || isDigit c
/-- `[a-zA-Z0-9_\-]` -/
def isWordChar (c : Char) : Bool := isAlnum c || c == '_' || c == '-'
/-- `[0-9a-fA-F]` -/
def isHex (c : Char) : Bool := isDigit c || ('a' ≤ c && c ≤ 'f') || ('A' ≤ c && c ≤ 'F')
/-- `[ \t]` -/
def isBlank (c : Char) : Bool := c == ' ' || c == '\t'

/-- Number of leading chars in a class: the greedy `[..]*`. -/
def spanLen (p : Char → Bool) (s : Text) : Nat := (s.takeWhile p).length

/-- `[ \t]+`, untyped.rs 43 (0 = no match, here and below). -/
def whitespaceLen (s : Text) : Nat := spanLen isBlank s

/-- `((\n)|(\r\n))+`, untyped.rs 45. -/
def lineBreakLen : Text → Nat
  | '\n' :: s => 1 + lineBreakLen s
  | '\r' :: '\n' :: s => 2 + lineBreakLen s
  | _ => 0

/-- `([a-zA-Z]|([@\#_\$][a-zA-Z])|_)[a-zA-Z0-9_\-]*`, untyped.rs 50. -/
def wordLen : Text → Nat
  | [] => 0
  | c :: s =>
    if isAlpha c || c == '_' then 1 + spanLen isWordChar s
    else if c == '@' || c == '#' || c == '$' then
      match s with
      | d :: s => if isAlpha d then 2 + spanLen isWordChar s else 0
      | [] => 0
    else 0

/-- `(\:[a-zA-Z0-9_\-]+)+`: `n` chars scanned, `best` of them accepted so far. -/
def componentGroups (afterColon : Bool) (n best : Nat) : Text → Nat
  | [] => best
  | c :: s =>
    if isWordChar c then componentGroups false (n + 1) (n + 1) s
    else if c == ':' && !afterColon then componentGroups true (n + 1) best s
    else best

/-- `twig(\:[a-zA-Z0-9_\-]+)+`, untyped.rs 53. -/
def componentNameLen : Text → Nat
  | 't' :: 'w' :: 'i' :: 'g' :: ':' :: s =>
    let n := componentGroups true 1 0 s
    if n == 0 then 0 else 4 + n
  | _ => 0

/-- `(\.[0-9]+)?` in the number, untyped.rs 56. -/
def fractionLen : Text → Nat
  | '.' :: s => let n := spanLen isDigit s; if n == 0 then 0 else 1 + n
  | _ => 0

/-- `([Ee][\+\-][0-9]+)?` in the number, untyped.rs 56. -/
def exponentLen : Text → Nat
  | e :: sign :: s =>
    if (e == 'E' || e == 'e') && (sign == '+' || sign == '-') then
      let n := spanLen isDigit s; if n == 0 then 0 else 2 + n
    else 0
  | _ => 0

/-- `[0-9]+(\.[0-9]+)?([Ee][\+\-][0-9]+)?`, untyped.rs 56. -/
def numberLen (s : Text) : Nat :=
  let a := spanLen isDigit s
  if a == 0 then 0
  else
    let b := fractionLen (s.drop a)
    a + b + exponentLen (s.drop (a + b))

/-- `\&(([a-zA-Z][a-zA-Z0-9]*)|(\#[0-9]+)|(\#x[0-9a-fA-F]+));`, untyped.rs 59. -/
def escapeLen : Text → Nat
  | '&' :: '#' :: 'x' :: s =>
    let n := spanLen isHex s
    if n ≥ 1 && (s.drop n).head? == some ';' then 4 + n else 0
  | '&' :: '#' :: s =>
    let n := spanLen isDigit s
    if n ≥ 1 && (s.drop n).head? == some ';' then 3 + n else 0
  | '&' :: c :: s =>
    if isAlpha c then
      let n := spanLen isAlnum s
      if (s.drop n).head? == some ';' then 3 + n else 0
    else 0
  | _ => 0

/-- Case folding for `ignore(case)`: ASCII letters, and the two other chars that fold to ASCII
letters in Unicode (long s and the Kelvin sign). -/
def foldCase (c : Char) : Char :=
  if 'A' ≤ c && c ≤ 'Z' then Char.ofNat (c.toNat + 32)
  else if c == '\u017f' then 's' else if c == '\u212a' then 'k' else c

/-- Does the literal match at the start of the text? -/
def literalMatches (l : Literal) (s : Text) : Bool :=
  if l.ignoreCase then (l.text.map foldCase).isPrefixOf (s.map foldCase) else l.text.isPrefixOf s

/-- The matches of the literals (first) and of the regular expressions. -/
def candidates (s : Text) : List (Nat × SyntaxKind) :=
  (literals.filter (fun l => literalMatches l s)).map (fun l => (l.text.length, l.kind)) ++
    [(whitespaceLen s, .TK_WHITESPACE), (lineBreakLen s, .TK_LINE_BREAK), (wordLen s, .TK_WORD),
     (componentNameLen s, .TK_TWIG_COMPONENT_NAME), (numberLen s, .TK_NUMBER),
     (escapeLen s, .TK_HTML_ESCAPE_CHARACTER)]

/-- The longest candidate, the first one of that length; `none` if all are empty. -/
def longest : List (Nat × SyntaxKind) → Option (Nat × SyntaxKind)
  | [] => none
  | (n, k) :: rest =>
    match longest rest with
    | some (m, k') => if n ≥ m then some (n, k) else some (m, k')
    | none => if n == 0 then none else some (n, k)

/-- The condition of `cb_not` and `cb_is` (untyped.rs 555–584) on the text after the suffix. -/
def atWordEnd : Text → Bool
  | [] => true
  | c :: _ => c == ' ' || c == '\t' || c == '\n'

/-- One token: its length and kind, with the callbacks `cb_not` (untyped.rs 555–568) and `cb_is`
(571–584). -/
def lexOne (errLen : Text → Nat) (s : Text) : Nat × SyntaxKind :=
  match longest (candidates s) with
  | none => (errLen s, .TK_UNKNOWN)
  | some (n, k) =>
    if k == .TK_NOT && [' ', 'i', 'n'].isPrefixOf (s.drop n) && atWordEnd (s.drop (n + 3)) then
      (n + 3, .TK_NOT_IN)
    else if k == .TK_IS && [' ', 'n', 'o', 't'].isPrefixOf (s.drop n)
        && atWordEnd (s.drop (n + 4)) then
      (n + 4, .TK_IS_NOT)
    else (n, k)

/-- The loop of `lex` from a byte offset, with a bound on the number of tokens (`lex` gives the
number of chars). -/
def lexFrom (errLen : Text → Nat) : Nat → Nat → Text → List Token
  | _, _, [] => []
  | 0, _, _ :: _ => []
  | fuel + 1, offset, c :: s =>
    let (n, k) := lexOne errLen (c :: s)
    let text := (c :: s).take n
    let stop := offset + byteLen text
    { kind := k, text := text, range := ⟨offset, stop⟩ } ::
      lexFrom errLen fuel stop ((c :: s).drop n)

/-- `lex`, lexer.rs 7–31. -/
def lex (errLen : Text → Nat) (s : Text) : List Token := lexFrom errLen s.length 0 s

/-- What is assumed of `logos` where no rule matches: the error span takes at least one char and at
most the rest of the text. -/
def ErrLenOk (errLen : Text → Nat) : Prop := ∀ s, s ≠ [] → 1 ≤ errLen s ∧ errLen s ≤ s.length

end Lexer

end Ludtwig
