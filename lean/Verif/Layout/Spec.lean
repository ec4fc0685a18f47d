import Verif.Parser.Parse

/-!
# Changed layout (specification)

Two token lists that only differ in their whitespace and line breaks, and trees up to whitespace and
line breaks.
-/

namespace Ludtwig.Layout

/-- The same token, perhaps at another place of the file. -/
def SameTok (t t' : Token) : Prop := t.kind = t'.kind ∧ t.text = t'.text

/-- The characters of whitespace and line breaks. -/
def blankChar (c : Char) : Bool := c == ' ' || c == '\t' || c == '\n' || c == '\r'

/-- A non-empty run of whitespace and line breaks. -/
def Gap (g : List Token) : Prop :=
  g ≠ [] ∧ ∀ t ∈ g, t.kind.isTrivia = true ∧ t.text.all blankChar = true

/-- `ts'` is `ts` with another layout: the same tokens in the same order, and whitespace or line
breaks between the same tokens, but perhaps different ones. Only directly behind `<` the kind
(whitespace or line break) has to stay. -/
inductive Relayout : List Token → List Token → Prop
  | nil : Relayout [] []
  | token {t t' ts ts'} : t.kind.isTrivia = false → SameTok t t' →
      (t.kind = T!"<" → ts.head?.map (·.kind) = ts'.head?.map (·.kind)) → Relayout ts ts' →
      Relayout (t :: ts) (t' :: ts')
  | gap {g g' ts ts'} : Gap g → Gap g' → (∀ t ∈ ts.head?, t.kind.isTrivia = false) →
      (∀ t ∈ ts'.head?, t.kind.isTrivia = false) → Relayout ts ts' → Relayout (g ++ ts) (g' ++ ts')

/-- Whitespace and line breaks, or nothing. -/
def Blank (g : List Token) : Prop :=
  ∀ t ∈ g, t.kind.isTrivia = true ∧ t.text.all blankChar = true

/-- What may follow a `:` in the two files: whitespace or none of it in both of them, or the first
file has a token there that does not begin with a letter. -/
def BehindColon (ts ts' : List Token) : Prop :=
  ts.head?.map (·.kind.isTrivia) = ts'.head?.map (·.kind.isTrivia) ∨
    ∃ u, ts.head? = some u ∧ u.text.head?.any Char.isAlpha = false

/-- `ts'` is `ts` with whitespace and line breaks added or changed, but nowhere removed. Directly
behind `<` the kind of the next token has to stay, and a `:` is not separated from a word. -/
inductive Widened : List Token → List Token → Prop
  | nil : Widened [] []
  | token {t t' ts ts'} : t.kind.isTrivia = false → SameTok t t' →
      (t.kind = T!"<" → ts.head?.map (·.kind) = ts'.head?.map (·.kind)) →
      (t.kind = T!":" → BehindColon ts ts') → Widened ts ts' → Widened (t :: ts) (t' :: ts')
  | gap {g g' ts ts'} : Blank g → Gap g' → (∀ t ∈ ts.head?, t.kind.isTrivia = false) →
      (∀ t ∈ ts'.head?, t.kind.isTrivia = false) → Widened ts ts' → Widened (g ++ ts) (g' ++ ts')

mutual
/-- A tree without whitespace and line breaks: no tree is left of such a token. -/
def bare : Tree → List Tree
  | .token k t => if k.isTrivia then [] else [.token k t]
  | .node k cs => [.node k (bareAll cs)]
/-- Trees without whitespace and line breaks. -/
def bareAll : List Tree → List Tree
  | [] => []
  | t :: ts => bare t ++ bareAll ts
end

/-- What a parse error says apart from its place. -/
def ParseError.says (e : ParseError) : Option SyntaxKind × String := (e.found, e.expected)

/-- The same outcome of parsing, up to whitespace, line breaks and places in the file. -/
def SameParse : Except ParsePanic Parse → Except ParsePanic Parse → Prop
  | .error e, .error e' => e = e'
  | .ok p, .ok p' => bare p.tree = bare p'.tree ∧
      p.errors.map ParseError.says = p'.errors.map ParseError.says
  | _, _ => False

end Ludtwig.Layout
