import Verif.Layout.TextSpec

/-!
# Other line breaks (specification)

Two texts with the same lines, where also line breaks CRLF may have become LF.
-/

namespace Ludtwig.Layout

/-- A file that can be changed from CRLF to LF: before a CRLF there is neither another CR nor an
operator of two words. -/
def Convertible (s : Text) : Prop :=
  ∀ u r, s = u ++ ('\r' :: '\n' :: r) → ¬ EndsTwoWords u ∧ u.getLast? ≠ some '\r'

/-- A text without CRLF. -/
def NoCrlf (s : Text) : Prop := ¬ ['\r', '\n'] <:+: s

/-- The whitespace behind the line `u` starts with the same character, or with LF instead of CR. -/
def SameStart (u g g' : Text) : Prop :=
  g.head? = g'.head? ∨ (g.head? = some '\r' ∧ g'.head? = some '\n' ∧ ¬ EndsTwoWords u)

/-- `s'` is `s` with other whitespace around line breaks, where it may also start with LF instead of
CRLF. -/
inductive Relined : Text → Text → Prop
  | line {u} : '\n' ∉ u → Relined u u
  | gap {u g g' s s'} : '\n' ∉ u → Stops u g → Stops u g' → Blanks g → Blanks g' →
      '\n' ∈ g → '\n' ∈ g' → SameStart u g g' → Solid s → Solid s' → Relined s s' →
      Relined (u ++ (g ++ s)) (u ++ (g' ++ s'))

/-- The same for a file, with any whitespace at its beginning. -/
def Reset (s s' : Text) : Prop :=
  ∃ g g' t t', s = g ++ t ∧ s' = g' ++ t' ∧ Blanks g ∧ Blanks g' ∧ Solid t ∧ Solid t' ∧ Relined t t'

/-- What is assumed of `logos` where no rule matches, besides `ErrLineLocal`: the error span is the same
before CRLF and before LF. -/
def ErrBreakLocal (errLen : Text → Nat) : Prop :=
  ∀ u r r', u ≠ [] → '\n' ∉ u → Stops u ['\n'] →
    errLen (u ++ '\r' :: '\n' :: r) = errLen (u ++ '\n' :: r')

end Ludtwig.Layout
