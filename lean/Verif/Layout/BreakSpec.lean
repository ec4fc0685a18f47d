import Verif.Layout.TextSpec
import Verif.Parser.LexerSpec

/-!
# Added line breaks in a text (specification)

A text in which line breaks are put between tokens, also where there was no whitespace.
-/

namespace Ludtwig.Layout

/-- A text that starts with LF or CRLF. -/
def BreakFirst (g : Text) : Prop := ∃ b r, g = b ++ r ∧ (b = ['\n'] ∨ b = ['\r', '\n'])

/-- Line breaks can be put behind the text `u`: it does not end with `<`, CR or an operator of two
words; if it ends with `:`, then the next token, one of `ts`, does not begin with a letter. -/
structure Breakable (u : Text) (ts : List Token) : Prop where
  less : u.getLast? ≠ some '<'
  cr : u.getLast? ≠ some '\r'
  words : ¬ EndsTwoWords u
  colon : u.getLast? = some ':' → ∃ t, ts.head? = some t ∧ t.text.head?.any Char.isAlpha = false

/-- `s'` is the text of the tokens `ts` (behind the text `u`), where in some runs of whitespace and line
breaks, also empty ones, everything from some token on was replaced by other whitespace that starts with
a line break. `b` says whether such a run can come next. -/
inductive Broken : Bool → Text → List Token → Text → Prop
  | nil {b u} : Broken b u [] []
  | token {b u t ts s'} : t.kind.isTrivia = false → Broken true (u ++ t.text) ts s' →
      Broken b u (t :: ts) (t.text ++ s')
  | gap {u a g ts x s'} : (∀ t ∈ a ++ g, t.kind.isTrivia = true) →
      (∀ t ∈ ts.head?, t.kind.isTrivia = false) → Blanks x →
      (x = g.flatMap (·.text) ∨ (BreakFirst x ∧ (a = [] → Breakable u (g ++ ts)))) →
      Broken false (u ++ (a ++ g).flatMap (·.text)) ts s' →
      Broken true u (a ++ g ++ ts) (a.flatMap (·.text) ++ (x ++ s'))

/-- No rule of the lexer matches at the start of the text. -/
def NoRule (s : Text) : Prop := ∀ w k, w <+: s → ¬ (IsLiteralToken w k ∨ IsRegexToken w k)

/-- What is assumed of `logos` where no rule matches, besides `ErrLenOk`: an error span that does not go
beyond `u` is the same if a line break is put behind `u`. -/
def ErrBeforeBreak (errLen : Text → Nat) : Prop :=
  ∀ u v w, u ≠ [] → u.getLast? ≠ some '\r' → BreakFirst w → NoRule (u ++ v) → NoRule (u ++ w) →
    errLen (u ++ v) ≤ u.length → errLen (u ++ w) = errLen (u ++ v)

end Ludtwig.Layout
