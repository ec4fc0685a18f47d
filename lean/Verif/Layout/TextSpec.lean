import Verif.Layout.Spec

/-!
# Changed layout of a text (specification)

Two texts with the same lines in another layout: the whitespace around line breaks may differ.
-/

namespace Ludtwig.Layout

/-- A text of blanks, tabs, LF and CRLF. -/
def Blanks (g : Text) : Prop :=
  ∃ l : List Text, g = l.flatten ∧ ∀ x ∈ l, x = [' '] ∨ x = ['\t'] ∨ x = ['\n'] ∨ x = ['\r', '\n']

/-- A text that does not start with whitespace or a line break. -/
def Solid (s : Text) : Prop := ∀ g r, s = g ++ r → Blanks g → g = []

/-- A line `u` ends where the gap `g` begins: it does not end with a blank, nor with the CR of a CRLF. -/
def Stops (u g : Text) : Prop :=
  ∀ c ∈ u.getLast?, c ≠ ' ' ∧ c ≠ '\t' ∧ (c = '\r' → g.head? ≠ some '\n')

/-- A line ends with an operator of two words, or what looks like one. -/
def EndsTwoWords (u : Text) : Prop := "not in".toList <:+ u ∨ "is not".toList <:+ u

/-- `s'` is `s` with other whitespace at the beginnings of lines: every run of whitespace with a line
break in it may be replaced by another one that starts with the same character. -/
inductive Relaid : Text → Text → Prop
  | line {u} : '\n' ∉ u → Relaid u u
  | gap {u g g' s s'} : '\n' ∉ u → Stops u g → Blanks g → Blanks g' →
      '\n' ∈ g → '\n' ∈ g' → g.head? = g'.head? → Solid s → Solid s' → Relaid s s' →
      Relaid (u ++ (g ++ s)) (u ++ (g' ++ s'))

/-- A file and the same file in another layout, also at its beginning, where whitespace and line breaks
may appear or vanish. -/
def Reindented (s s' : Text) : Prop :=
  ∃ g g' t t', s = g ++ t ∧ s' = g' ++ t' ∧ Blanks g ∧ Blanks g' ∧ Solid t ∧ Solid t' ∧ Relaid t t'

/-- What is assumed of `logos` where no rule matches, besides `ErrLenOk`: the error span ends before
the whitespace around the next line break, and does not depend on what is behind the first character
of that whitespace. -/
def ErrLineLocal (errLen : Text → Nat) : Prop :=
  ∀ u c r, u ≠ [] → '\n' ∉ u → Stops u [c] → blankChar c = true →
    errLen (u ++ c :: r) ≤ u.length ∧ ∀ r', errLen (u ++ c :: r) = errLen (u ++ c :: r')

end Ludtwig.Layout
