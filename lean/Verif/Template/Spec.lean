import Verif.Parser.PrattSpec

/-!
# The template language (specification for C73)

Which sequences of significant tokens are templates, and what their trees are: a grammar in the form
of one inductive predicate. `T n u xs`: the tokens `u` are an `n`, and its trees without trivia are
`xs`. Nothing here refers to the parser.

Trivia (blanks and line breaks) may stand between any two tokens, except where `Adjacent` is required.
-/

namespace Ludtwig.Template

/-! ## Tokens -/

/-- Nothing stands between the two tokens. -/
def Adjacent (a b : Token) : Prop := a.range.stop = b.range.start

def tagOpens : List SyntaxKind := [T!"{%", T!"{%-", T!"{%~"]
def tagCloses : List SyntaxKind := [T!"%}", T!"-%}", T!"~%}"]
def varOpens : List SyntaxKind := [T!"{{", T!"{{-", T!"{{~"]
def varCloses : List SyntaxKind := [T!"}}", T!"-}}", T!"~}}"]
def commentOpens : List SyntaxKind := [T!"{#", T!"{#-", T!"{#~"]
def commentCloses : List SyntaxKind := [T!"#}", T!"-#}", T!"~#}"]
def quotes : List SyntaxKind := [T!"\"", T!"'"]

/-- The kinds of tokens that can be names: words and keywords. -/
def nameKinds : List SyntaxKind := [
  .TK_WORD, .TK_TRUE, .TK_FALSE,
  .TK_BLOCK, .TK_ENDBLOCK, .TK_IF, .TK_ELSE_IF, .TK_ELSE, .TK_ENDIF, .TK_APPLY, .TK_ENDAPPLY,
  .TK_AUTOESCAPE, .TK_ENDAUTOESCAPE, .TK_CACHE, .TK_ENDCACHE, .TK_DEPRECATED, .TK_DO, .TK_EMBED,
  .TK_ENDEMBED, .TK_EXTENDS, .TK_FLUSH, .TK_FOR, .TK_ENDFOR, .TK_FROM, .TK_IMPORT, .TK_MACRO,
  .TK_ENDMACRO, .TK_SANDBOX, .TK_ENDSANDBOX, .TK_SET, .TK_ENDSET, .TK_USE, .TK_VERBATIM,
  .TK_ENDVERBATIM, .TK_ONLY, .TK_WITH, .TK_ENDWITH, .TK_TTL, .TK_TAGS,
  .TK_PROPS, .TK_COMPONENT, .TK_ENDCOMPONENT, .TK_NOT, .TK_OR, .TK_AND,
  .TK_IN, .TK_MATCHES, .TK_IS, .TK_EVEN, .TK_ODD, .TK_DEFINED, .TK_AS,
  .TK_NONE, .TK_NULL, .TK_CONSTANT, .TK_EMPTY, .TK_ITERABLE, .TK_MAX, .TK_MIN,
  .TK_RANGE, .TK_CYCLE, .TK_RANDOM, .TK_DATE, .TK_INCLUDE, .TK_SOURCE, .TK_TRANS, .TK_ENDTRANS,
  .TK_SW_EXTENDS, .TK_SW_SILENT_FEATURE_CALL, .TK_ENDSW_SILENT_FEATURE_CALL, .TK_SW_INCLUDE,
  .TK_RETURN, .TK_SW_ICON, .TK_SW_THUMBNAILS, .TK_STYLE, .TK_SW_EMBED, .TK_SW_END_EMBED,
  .TK_SW_USE, .TK_SW_IMPORT, .TK_SW_FROM]

/-- Tests of two words. -/
def testKinds : List SyntaxKind := [T!"same as", T!"divisible by"]

/-- Operators in front of an operand. -/
def prefixKinds : List SyntaxKind := [T!"-", T!"+", T!"not", T!"..."]

/-- ASCII letters. -/
def Letter (c : Char) : Prop := ('a' ≤ c ∧ c ≤ 'z') ∨ ('A' ≤ c ∧ c ≤ 'Z')

/-- ASCII digits. -/
def Digit (c : Char) : Prop := '0' ≤ c ∧ c ≤ '9'

/-- One character of the first and any number of the second kind. -/
def NameOf (first other : Char → Prop) (s : Text) : Prop := ∃ c cs, s = c :: cs ∧ first c ∧ ∀ d ∈ cs, other d

/-- The letters of twig names: `_`, ASCII letters and the characters from U+007F to U+00FF. -/
def TwigLetter (c : Char) : Prop := Letter c ∨ c = '_' ∨ (0x7f ≤ c.toNat ∧ c.toNat ≤ 0xff)

def TwigName (s : Text) : Prop := NameOf TwigLetter (fun c => TwigLetter c ∨ Digit c) s

def ElementName (s : Text) : Prop := NameOf Letter (fun c => Letter c ∨ Digit c ∨ c = '-') s

/-- A name of an attribute, with an optional special character in front. -/
def AttributeName (s : Text) : Prop :=
  ∃ pre name, s = pre ++ name ∧ pre ∈ [[], [':'], ['@'], ['#'], ['_'], ['$']] ∧
    NameOf Letter (fun c => Letter c ∨ Digit c ∨ c = '_' ∨ c = '-') name

/-- A token that is a name in twig. -/
def IsName (t : Token) : Prop := t.kind ∈ nameKinds ∧ TwigName t.text

/-- A name in the position of an operand: no literal and no `not`. -/
def IsVariable (t : Token) : Prop := IsName t ∧ t.kind ∉ [T!"true", T!"false", T!"null", T!"not"]

/-- The token as a word. -/
def wordTree (t : Token) : Tree := .token T!"word" t.text

/-- A name. -/
def nameTree (t : Token) : Tree := .node .TWIG_LITERAL_NAME [wordTree t]

/-- What starts something other than text in html. -/
def markupStarts : List SyntaxKind :=
  tagOpens ++ varOpens ++ commentOpens ++ [T!"<", T!"<!--", T!"<!"]

/-- The name of an html element: a component or an html name. -/
def IsTagName (t : Token) : Prop :=
  t.kind = T!"twig component name" ∨ (t.kind ∈ nameKinds ∧ ElementName t.text)

/-- The name of an html element in the tree. -/
def tagNameTree (t : Token) : Tree := if t.kind = T!"twig component name" then t.tree else wordTree t

/-- Elements without an ending tag. -/
def IsVoid (t : Token) : Prop :=
  t.text.map Char.toLower ∈ ["area", "base", "br", "col", "command", "embed", "hr", "img", "input", "keygen", "link",
    "meta", "param", "source", "track", "wbr"].map String.toList

/-- Elements with raw text as their content. -/
def IsRaw (t : Token) : Prop :=
  t.text.map Char.toLower ∈ ["script", "style", "textarea", "title"].map String.toList

/-! ## Operators -/

/-- What can follow an operand: all binary operators, only those that do not bind tighter than `not`,
or none (behind an expression that reaches as far as possible). `dangling`: this expression ends in a
conditional without `:`, so that no `:` can follow. -/
inductive Tail
  | all
  | loose
  | none (dangling : Bool)
  deriving DecidableEq

/-- Can operators follow? -/
def Tail.Continues : Tail → Prop
  | .none _ => False
  | _ => True

/-- Does the operand end in a conditional without `:`? -/
def Tail.dangles : Tail → Bool
  | .none d => d
  | _ => false

/-- The operator binds tighter than `not`, which is below `*` and above `~` in the operator table. -/
def TighterThanNot (k : SyntaxKind) : Prop := ∃ i s, rowOf k = some (i, s) ∧ 9 ≤ i

/-- May the operator follow? -/
def Tail.Allows : Tail → SyntaxKind → Prop
  | .all, _ => True
  | .loose, k => ¬ TighterThanNot k
  | .none _, _ => False

/-- The tail of `not` with its operand. -/
def Tail.behindNot : Tail → Tail
  | .none d => .none d
  | _ => .loose

/-- An operand, and what can follow it. -/
structure Operand where
  tail : Tail
  toks : List Token
  tree : Tree

/-- Every operator may follow the operand before it. -/
def Joins : Tail → List (Token × Operand) → Prop
  | _, [] => True
  | e, r :: rest => e.Allows r.1.kind ∧ Joins r.2.tail rest

/-- The tail of the last operand. -/
def lastTail : Tail → List (Token × Operand) → Tail
  | e, [] => e
  | _, r :: rest => lastTail r.2.tail rest

/-- The flat sequence of operands and operators. -/
def flatOf (first : Operand) (rest : List (Token × Operand)) : Flat :=
  ⟨(first.toks, first.tree), rest.map (fun r => (r.1, r.2.toks, r.2.tree))⟩

/-- How an expression in parentheses may start: behind `(`, `true`, `false` and `null` are taken for
names, and a name with `=>` is no arrow function. -/
def ParenStart : List Token → Prop
  | [] => True
  | t :: w => t.kind ∉ testKinds ∧ (TwigName t.text → t.kind ∈ prefixKinds ∨
      (IsVariable t ∧ ∀ t' ∈ w.head?, t'.kind ∉ [T!"=>", T!",", T!")"]))

/-- The tokens do not start with a word and `=`. -/
def NoArgumentName (u : List Token) : Prop := ∀ t e w, u = t :: e :: w → t.kind = T!"word" → e.kind ≠ T!"="

/-! ## Tables of tags -/

/-- Tags with nothing but a body: keyword, end keyword and the kinds of the two tags and of the
whole. -/
def plainBlocks : List (SyntaxKind × SyntaxKind × SyntaxKind × SyntaxKind × SyntaxKind) :=
  [(T!"sandbox", T!"endsandbox", .TWIG_SANDBOX_STARTING_BLOCK, .TWIG_SANDBOX_ENDING_BLOCK, .TWIG_SANDBOX),
   (T!"verbatim", T!"endverbatim", .TWIG_VERBATIM_STARTING_BLOCK, .TWIG_VERBATIM_ENDING_BLOCK, .TWIG_VERBATIM),
   (T!"trans", T!"endtrans", .TWIG_TRANS_STARTING_BLOCK, .TWIG_TRANS_ENDING_BLOCK, .TWIG_TRANS)]

/-- Tags with one expression. -/
def expressionTags : List (SyntaxKind × SyntaxKind) :=
  [(T!"extends", .TWIG_EXTENDS), (T!"do", .TWIG_DO)]

/-- Tags with one string. -/
def stringTags : List (SyntaxKind × SyntaxKind) :=
  [(T!"deprecated", .TWIG_DEPRECATED), (T!"sw_extends", .SHOPWARE_TWIG_SW_EXTENDS)]

/-- Tags with a template name and options. -/
def includeTags : List (SyntaxKind × SyntaxKind) :=
  [(T!"include", .TWIG_INCLUDE), (T!"sw_include", .SHOPWARE_TWIG_SW_INCLUDE)]

/-- Tags with an expression and an optional keyword with a value. -/
def valueTags : List (SyntaxKind × SyntaxKind × SyntaxKind × SyntaxKind) :=
  [(T!"sw_icon", T!"style", .SHOPWARE_ICON_STYLE, .SHOPWARE_ICON),
   (T!"sw_thumbnails", T!"with", .SHOPWARE_THUMBNAILS_WITH, .SHOPWARE_THUMBNAILS)]

/-- `embed` and its variant: keyword and end keyword. -/
def embedTags : List (SyntaxKind × SyntaxKind) :=
  [(T!"embed", T!"endembed"), (T!"sw_embed", T!"sw_end_embed")]

/-- The keyword and the node of `{# ludtwig-ignore … #}`. -/
def directives : List (SyntaxKind × SyntaxKind) :=
  [(T!"ludtwig-ignore", .LUDTWIG_DIRECTIVE_IGNORE), (T!"ludtwig-ignore-file", .LUDTWIG_DIRECTIVE_FILE_IGNORE)]

/-! ## The grammar -/

/-- Where a twig tag with a body stands, which decides what its body can contain: between elements,
between attributes, in a double or single quoted value, or in raw text. -/
inductive Ctx
  | element
  | attribute
  | double
  | single
  | raw
  deriving DecidableEq

/-- The elements of comma separated lists. -/
inductive ListOf
  | exprs
  | args
  | pairs
  | names
  | overrides
  | props

/-- The nonterminals. -/
inductive Nt
  | expr
  /-- `dangling`: it ends in a conditional without `:`. -/
  | exprOf (dangling : Bool)
  /-- Operands and binary operators; `tight`: only operators that bind tighter than `not`. -/
  | terms (tight : Bool) (tail : Tail)
  | operand (tail : Tail)
  | primary
  /-- The operators behind an operand whose tree is `x`. -/
  | postfixes (x : Tree)
  | filterName
  /-- Further parameters of an arrow function. -/
  | params
  | string (interpolation : Bool)
  | stringParts (quote : SyntaxKind) (interpolation : Bool)
  | hash
  | hashKey
  /-- Lists with `n` elements. -/
  | list (of : ListOf) (n : Nat)
  | elem (of : ListOf)
  | arguments
  | optToken (k : SyntaxKind)
  | optValue (k : SyntaxKind) (node : SyntaxKind)
  | optCall (k : SyntaxKind) (node : SyntaxKind)
  | optExpr (closed : Bool)
  /-- Further filters of `apply` behind filters with the trees `xs`. -/
  | applied (xs : List Tree)
  | strategy
  | withHash
  | forNames
  | forElse (c : Ctx)
  | var
  | comment
  | rules
  | tag (c : Ctx)
  | branches (c : Ctx)
  | body (c : Ctx)
  /-- The parts of a quoted value or of raw text. -/
  | parts (c : Ctx)
  | attrName
  | attrValue
  | attr
  | html

/-- The kinds of the tokens that are parts of quoted values and of raw text by themselves. -/
def IsPart : Ctx → SyntaxKind → Prop
  | .double, k => k ∉ T!"\"" :: T!">" :: T!"/>" :: markupStarts
  | .single, k => k ∉ T!"'" :: T!">" :: T!"/>" :: markupStarts
  | .raw, k => k ∉ tagOpens ++ varOpens ++ commentOpens
  | _, _ => False

/-- The token is text where `next` are the tokens behind it: it starts no markup. A `<` is text before a
blank (`blank` says where blanks start) and if a number or markup follows it immediately. -/
def IsText (blank : Nat → Prop) (t : Token) (next : List Token) : Prop :=
  t.kind ∉ T!"</" :: markupStarts ∨ (t.kind = T!"<" ∧
    (blank t.range.stop ∨ ∃ n ∈ next.head?, Adjacent t n ∧ n.kind ∈ T!"number" :: markupStarts))

/-- All of the tokens `ts` are text where `w` are the tokens behind them. -/
def AllText (blank : Nat → Prop) : List Token → List Token → Prop
  | [], _ => True
  | t :: ts, w => IsText blank t (ts ++ w) ∧ AllText blank ts w

/-- The ending tag `l` `e` behind the raw text `b` is the first one of its name. -/
def FirstEnd (b : List Token) (l e : Token) : Prop :=
  ∀ pre l' e' post, b ++ [l, e] = pre ++ l' :: e' :: post → l'.kind = l.kind → e'.kind = e.kind → e'.text = e.text →
    post = []

/-- The grammar of templates; `blank` says at which offsets blanks start. -/
inductive T (blank : Nat → Prop) : Nt → List Token → List Tree → Prop
  -- expressions
  | terms {tight : Bool} {first : Operand} {rest : List (Token × Operand)} {g : Grouping} :
      T blank (.operand first.tail) first.toks [first.tree] →
      (∀ r ∈ rest, T blank (.operand r.2.tail) r.2.toks [r.2.tree]) →
      (∀ r ∈ rest, (rowOf r.1.kind).isSome) → (tight = true → ∀ r ∈ rest, TighterThanNot r.1.kind) →
      Joins first.tail rest → WellGrouped g → g.items = (flatOf first rest).items →
      T blank (.terms tight (lastTail first.tail rest)) (flatOf first rest).tokens [g.expr]
  | anyExpr {d u x} : T blank (.exprOf d) u [x] → T blank .expr u [x]
  | expr {e u x} : T blank (.terms false e) u [x] → T blank (.exprOf e.dangles) u [x]
  | conditional {e u x q u1 y c d u2 z} : T blank (.terms false e) u [x] → e.Continues → q.kind = T!"?" →
      T blank (.exprOf false) u1 [y] → c.kind = T!":" → T blank (.exprOf d) u2 [z] →
      T blank (.exprOf d) (u ++ q :: (u1 ++ c :: u2)) [.node .TWIG_EXPRESSION [.node .TWIG_CONDITIONAL_EXPRESSION
        [x, q.tree, y, c.tree, z]]]
  | conditionalThen {e u x q d u1 y} : T blank (.terms false e) u [x] → e.Continues → q.kind = T!"?" →
      T blank (.exprOf d) u1 [y] →
      T blank (.exprOf true) (u ++ q :: u1) [.node .TWIG_EXPRESSION [.node .TWIG_CONDITIONAL_EXPRESSION [x, q.tree, y]]]
  | conditionalElse {e u x q c d u2 z} : T blank (.terms false e) u [x] → e.Continues → q.kind = T!"?" →
      c.kind = T!":" → T blank (.exprOf d) u2 [z] →
      T blank (.exprOf d) (u ++ q :: c :: u2) [.node .TWIG_EXPRESSION [.node .TWIG_CONDITIONAL_EXPRESSION
        [x, q.tree, c.tree, z]]]
  -- operands
  | postfixed {u x w y} : T blank .primary u [x] → T blank (.postfixes x) w [y] → T blank (.operand .all) (u ++ w) [y]
  | signed {e t u x} : t.kind ∈ [T!"+", T!"-", T!"..."] → T blank (.operand e) u [x] →
      T blank (.operand e) (t :: u) [.node .TWIG_UNARY_EXPRESSION [t.tree, .node .TWIG_EXPRESSION [x]]]
  | not {e t u x} : t.kind = T!"not" → T blank (.terms true e) u [x] →
      T blank (.operand e.behindNot) (t :: u) [.node .TWIG_UNARY_EXPRESSION [t.tree, x]]
  | arrow {t a d u x} : IsVariable t → a.kind = T!"=>" → T blank (.exprOf d) u [x] →
      T blank (.operand (.none d)) (t :: a :: u)
        [.node .TWIG_ARROW_FUNCTION [.node .TWIG_ARGUMENTS [nameTree t], a.tree, x]]
  | parenArrow {l t w xs r a d u x} : l.kind = T!"(" → IsVariable t → T blank .params w xs → r.kind = T!")" →
      a.kind = T!"=>" → T blank (.exprOf d) u [x] →
      T blank (.operand (.none d)) (l :: t :: (w ++ r :: a :: u))
        [.node .TWIG_ARROW_FUNCTION [.node .TWIG_ARGUMENTS (l.tree :: nameTree t :: (xs ++ [r.tree])), a.tree, x]]
  | noParam : T blank .params [] []
  | param {c t w xs} : c.kind = T!"," → IsName t → T blank .params w xs →
      T blank .params (c :: t :: w) (c.tree :: nameTree t :: xs)
  | test {t d u x} : t.kind ∈ testKinds → T blank (.exprOf d) u [x] → (∀ t' ∈ u.head?, t'.kind ∉ [T!"(", T!"=>"]) →
      T blank (.operand (.none d)) (t :: u)
        [.node .TWIG_FUNCTION_CALL [.node .TWIG_OPERAND [nameTree t], .node .TWIG_ARGUMENTS [x]]]
  -- primary expressions
  | number {t} : t.kind = T!"number" → T blank .primary [t] [.node .TWIG_LITERAL_NUMBER [t.tree]]
  | null {t} : t.kind = T!"null" → T blank .primary [t] [.node .TWIG_LITERAL_NULL [t.tree]]
  | boolean {t} : t.kind ∈ [T!"true", T!"false"] → T blank .primary [t] [.node .TWIG_LITERAL_BOOLEAN [t.tree]]
  | name {t} : IsVariable t → T blank .primary [t] [nameTree t]
  | call {t u x} : IsVariable t ∨ t.kind ∈ testKinds → T blank .arguments u [x] →
      T blank .primary (t :: u) [.node .TWIG_FUNCTION_CALL [.node .TWIG_OPERAND [nameTree t], x]]
  | literalString {u x} : T blank (.string true) u [x] → T blank .primary u [x]
  | array {l n u xs r} : l.kind = T!"[" → T blank (.list .exprs n) u xs → r.kind = T!"]" →
      T blank .primary (l :: (u ++ [r])) [.node .TWIG_LITERAL_ARRAY [l.tree, .node .TWIG_LITERAL_ARRAY_INNER xs, r.tree]]
  | literalHash {u x} : T blank .hash u [x] → T blank .primary u [x]
  | parens {l u x r} : l.kind = T!"(" → T blank .expr u [x] → ParenStart u → r.kind = T!")" →
      T blank .primary (l :: (u ++ [r])) [.node .TWIG_PARENTHESES_EXPRESSION [l.tree, x, r.tree]]
  -- operators behind an operand
  | done {x} : T blank (.postfixes x) [] [x]
  | property {x d t w y} : d.kind = T!"." → IsName t →
      T blank (.postfixes (.node .TWIG_ACCESSOR [.node .TWIG_OPERAND [x], d.tree, .node .TWIG_OPERAND [nameTree t]])) w [y] →
      T blank (.postfixes x) (d :: t :: w) [y]
  | method {x d t u a w y} : d.kind = T!"." → IsName t → T blank .arguments u [a] →
      T blank (.postfixes (.node .TWIG_FUNCTION_CALL [.node .TWIG_OPERAND [.node .TWIG_ACCESSOR
        [.node .TWIG_OPERAND [x], d.tree, .node .TWIG_OPERAND [nameTree t]]], a])) w [y] →
      T blank (.postfixes x) (d :: t :: (u ++ w)) [y]
  | position {x d t w y} : d.kind = T!"." → t.kind = T!"number" →
      T blank (.postfixes (.node .TWIG_INDEX_LOOKUP [.node .TWIG_OPERAND [x], d.tree,
        .node .TWIG_INDEX [.node .TWIG_EXPRESSION [.node .TWIG_LITERAL_NUMBER [t.tree]]]])) w [y] →
      T blank (.postfixes x) (d :: t :: w) [y]
  | index {x l u i r w y} : l.kind = T!"[" → T blank .expr u [i] → r.kind = T!"]" →
      T blank (.postfixes (.node .TWIG_INDEX_LOOKUP [.node .TWIG_OPERAND [x], l.tree, .node .TWIG_INDEX [i], r.tree])) w [y] →
      T blank (.postfixes x) (l :: (u ++ r :: w)) [y]
  | slice {x l u1 is c u2 js r w y} : l.kind = T!"[" → T blank (.optExpr true) u1 is → c.kind = T!":" → T blank (.optExpr false) u2 js →
      (is ≠ [] ∨ js ≠ []) → r.kind = T!"]" →
      T blank (.postfixes (.node .TWIG_INDEX_LOOKUP [.node .TWIG_OPERAND [x], l.tree,
        .node .TWIG_INDEX_RANGE (is ++ c.tree :: js), r.tree])) w [y] →
      T blank (.postfixes x) (l :: (u1 ++ c :: (u2 ++ r :: w))) [y]
  | filter {x p u xs w y} : p.kind = T!"|" → T blank .filterName u xs →
      T blank (.postfixes (.node .TWIG_FILTER [.node .TWIG_OPERAND [x], p.tree, .node .TWIG_OPERAND xs])) w [y] →
      T blank (.postfixes x) (p :: (u ++ w)) [y]
  | filterPlain {t} : IsName t → T blank .filterName [t] [nameTree t]
  | filterCall {t u x} : IsName t → T blank .arguments u [x] → T blank .filterName (t :: u) [nameTree t, x]
  -- strings
  | string {i : Bool} {l u xs r} : l.kind ∈ quotes → T blank (.stringParts l.kind (i && l.kind == T!"\"")) u xs →
      r.kind = l.kind →
      T blank (.string i) (l :: (u ++ [r])) [.node .TWIG_LITERAL_STRING [l.tree, .node .TWIG_LITERAL_STRING_INNER xs, r.tree]]
  | stringEnd {q i} : T blank (.stringParts q i) [] []
  | stringToken {q i t u xs} : t.kind ≠ q → (t.kind = T!"\\" → ∃ t' w, u = t' :: w ∧ t'.kind ≠ q) →
      (t.kind = T!"#" → ∀ t' ∈ u.head?, t'.kind ≠ T!"{") → T blank (.stringParts q i) u xs →
      T blank (.stringParts q i) (t :: u) (t.tree :: xs)
  | stringEscape {q i b t u xs} : b.kind = T!"\\" → t.kind = q → T blank (.stringParts q i) u xs →
      T blank (.stringParts q i) (b :: t :: u) (b.tree :: t.tree :: xs)
  | interpolation {q h l u x r w xs} : h.kind = T!"#" → l.kind = T!"{" → T blank .expr u [x] → r.kind = T!"}" →
      T blank (.stringParts q true) w xs →
      T blank (.stringParts q true) (h :: l :: (u ++ r :: w))
        (.node .TWIG_LITERAL_STRING_INTERPOLATION [h.tree, l.tree, x, r.tree] :: xs)
  -- lists
  | listEnd {o} : T blank (.list o 0) [] []
  | listLast {o u x} : T blank (.elem o) u [x] → T blank (.list o 1) u [x]
  | listMore {o n u x c w xs} : T blank (.elem o) u [x] → c.kind = T!"," → T blank (.list o n) w xs →
      T blank (.list o (n + 1)) (u ++ c :: w) (x :: c.tree :: xs)
  | arguments {l n u xs r} : l.kind = T!"(" → T blank (.list .args n) u xs → r.kind = T!")" →
      T blank .arguments (l :: (u ++ [r])) [.node .TWIG_ARGUMENTS (l.tree :: (xs ++ [r.tree]))]
  | exprElem {u x} : T blank .expr u [x] → T blank (.elem .exprs) u [x]
  | argument {u x} : T blank .expr u [x] → NoArgumentName u → T blank (.elem .args) u [x]
  | namedArgument {t e u x} : t.kind = T!"word" → e.kind = T!"=" → T blank .expr u [x] →
      T blank (.elem .args) (t :: e :: u) [.node .TWIG_NAMED_ARGUMENT [t.tree, e.tree, x]]
  | hash {l n u xs r} : l.kind = T!"{" → T blank (.list .pairs n) u xs → r.kind = T!"}" →
      T blank .hash (l :: (u ++ [r])) [.node .TWIG_LITERAL_HASH [l.tree, .node .TWIG_LITERAL_HASH_ITEMS xs, r.tree]]
  | numberKey {t} : t.kind = T!"number" →
      T blank .hashKey [t] [.node .TWIG_LITERAL_HASH_KEY [.node .TWIG_LITERAL_NUMBER [t.tree]]]
  | stringKey {u x} : T blank (.string false) u [x] → T blank .hashKey u [.node .TWIG_LITERAL_HASH_KEY [x]]
  | exprKey {l u x r} : l.kind = T!"(" → T blank .expr u [x] → r.kind = T!")" →
      T blank .hashKey (l :: (u ++ [r])) [.node .TWIG_LITERAL_HASH_KEY [l.tree, x, r.tree]]
  | nameKey {t} : IsName t → T blank .hashKey [t] [.node .TWIG_LITERAL_HASH_KEY [wordTree t]]
  | pair {u k c w x} : T blank .hashKey u [k] → c.kind = T!":" → T blank .expr w [x] →
      T blank (.elem .pairs) (u ++ c :: w) [.node .TWIG_LITERAL_HASH_PAIR [k, c.tree, x]]
  | shortPair {u k} : T blank .hashKey u [k] → T blank (.elem .pairs) u [.node .TWIG_LITERAL_HASH_PAIR [k]]
  | nameElem {t} : IsName t → T blank (.elem .names) [t] [nameTree t]
  | override {t} : IsName t → T blank (.elem .overrides) [t] [.node .TWIG_OVERRIDE [nameTree t]]
  | overrideAs {t a t'} : IsName t → a.kind = T!"as" → IsName t' →
      T blank (.elem .overrides) [t, a, t'] [.node .TWIG_OVERRIDE [nameTree t, a.tree, nameTree t']]
  | prop {t} : IsName t → T blank (.elem .props) [t] [.node .TWIG_PROP_DECLARATION [nameTree t]]
  | propValue {t e u x} : IsName t → e.kind = T!"=" → T blank .expr u [x] →
      T blank (.elem .props) (t :: e :: u) [.node .TWIG_PROP_DECLARATION [nameTree t, e.tree, x]]
  -- optional parts
  | noToken {k} : T blank (.optToken k) [] []
  | oneToken {k t} : t.kind = k → T blank (.optToken k) [t] [t.tree]
  | noExpr {cl} : T blank (.optExpr cl) [] []
  | oneExpr {d u x} {cl : Bool} : T blank (.exprOf d) u [x] → (cl = true → d = false) → T blank (.optExpr cl) u [x]
  | noValue {k n} : T blank (.optValue k n) [] []
  | oneValue {k n t u x} : t.kind = k → T blank .expr u [x] → T blank (.optValue k n) (t :: u) [.node n [t.tree, x]]
  | noCall {k n} : T blank (.optCall k n) [] []
  | oneCall {k n t l u x r} : t.kind = k → l.kind = T!"(" → T blank .expr u [x] → r.kind = T!")" →
      T blank (.optCall k n) (t :: l :: (u ++ [r])) [.node n [t.tree, l.tree, x, r.tree]]
  -- variables and comments
  | var {o u x c} : o.kind ∈ varOpens → T blank .expr u [x] → c.kind ∈ varCloses →
      T blank .var (o :: (u ++ [c])) [.node .TWIG_VAR [o.tree, x, c.tree]]
  | comment {o ts c} : o.kind ∈ commentOpens → (∀ t ∈ ts, t.kind ∉ commentCloses) →
      (∀ t ∈ ts.head?, t.kind ∉ directives.map (·.1)) → c.kind ∈ commentCloses →
      T blank .comment (o :: (ts ++ [c])) [.node .TWIG_COMMENT (o.tree :: (ts.map Token.tree ++ [c.tree]))]
  | directive {o d n u xs c} : o.kind ∈ commentOpens → (d.kind, n) ∈ directives → T blank .rules u xs →
      c.kind ∈ commentCloses →
      T blank .comment (o :: d :: (u ++ [c])) [.node n [o.tree, d.tree, .node .LUDTWIG_DIRECTIVE_RULE_LIST xs, c.tree]]
  | noRule : T blank .rules [] []
  | rule {t u xs w ys} : t.kind = T!"word" → T blank (.optToken T!",") u xs → T blank .rules w ys →
      T blank .rules (t :: (u ++ w)) (t.tree :: (xs ++ ys))
  -- tags
  | tagComment {c u x} : T blank .comment u [x] → T blank (.tag c) u [x]
  | block {c o k t cl b xs o' e u cl'} {ys : List Tree} : o.kind ∈ tagOpens → k.kind = T!"block" →
      t.kind = T!"word" → cl.kind ∈ tagCloses → T blank (.body c) b xs → o'.kind ∈ tagOpens → e.kind = T!"endblock" →
      T blank (.optToken T!"word") u ys → (∀ t' ∈ u, t'.text = t.text) → cl'.kind ∈ tagCloses →
      T blank (.tag c) (o :: k :: t :: cl :: (b ++ o' :: e :: (u ++ [cl'])))
        [.node .TWIG_BLOCK [.node .TWIG_STARTING_BLOCK [o.tree, k.tree, t.tree, cl.tree], .node .BODY xs,
          .node .TWIG_ENDING_BLOCK (o'.tree :: e.tree :: (ys ++ [cl'.tree]))]]
  | shortBlock {c o k t u x cl} : o.kind ∈ tagOpens → k.kind = T!"block" → t.kind = T!"word" →
      T blank .expr u [x] → cl.kind ∈ tagCloses →
      T blank (.tag c) (o :: k :: t :: (u ++ [cl]))
        [.node .TWIG_BLOCK [.node .TWIG_STARTING_BLOCK [o.tree, k.tree, t.tree, x, cl.tree]]]
  | ifTag {c o k u x cl b xs w ys o' e cl'} : o.kind ∈ tagOpens → k.kind = T!"if" → T blank .expr u [x] →
      cl.kind ∈ tagCloses → T blank (.body c) b xs → T blank (.branches c) w ys → o'.kind ∈ tagOpens → e.kind = T!"endif" →
      cl'.kind ∈ tagCloses →
      T blank (.tag c) (o :: k :: (u ++ cl :: (b ++ (w ++ [o', e, cl']))))
        [.node .TWIG_IF (.node .TWIG_IF_BLOCK [o.tree, k.tree, x, cl.tree] :: .node .BODY xs ::
          (ys ++ [.node .TWIG_ENDIF_BLOCK [o'.tree, e.tree, cl'.tree]]))]
  | noBranch {c} : T blank (.branches c) [] []
  | elseIf {c o k u x cl b xs w ys} : o.kind ∈ tagOpens → k.kind = T!"elseif" → T blank .expr u [x] →
      cl.kind ∈ tagCloses → T blank (.body c) b xs → T blank (.branches c) w ys →
      T blank (.branches c) (o :: k :: (u ++ cl :: (b ++ w)))
        (.node .TWIG_ELSE_IF_BLOCK [o.tree, k.tree, x, cl.tree] :: .node .BODY xs :: ys)
  | else {c o k cl b xs w ys} : o.kind ∈ tagOpens → k.kind = T!"else" →
      cl.kind ∈ tagCloses → T blank (.body c) b xs → T blank (.branches c) w ys →
      T blank (.branches c) (o :: k :: cl :: (b ++ w))
        (.node .TWIG_ELSE_BLOCK [o.tree, k.tree, cl.tree] :: .node .BODY xs :: ys)
  | assign {c o k n u xs e w ys cl} : o.kind ∈ tagOpens → k.kind = T!"set" → T blank (.list .names n) u xs → 1 ≤ n →
      e.kind = T!"=" → T blank (.list .exprs n) w ys → cl.kind ∈ tagCloses →
      T blank (.tag c) (o :: k :: (u ++ e :: (w ++ [cl])))
        [.node .TWIG_SET [.node .TWIG_SET_BLOCK [o.tree, k.tree, .node .TWIG_ASSIGNMENT (xs ++ e.tree :: ys), cl.tree]]]
  | capture {c o k u xs cl b ys o' e cl'} : o.kind ∈ tagOpens → k.kind = T!"set" → T blank (.list .names 1) u xs →
      cl.kind ∈ tagCloses → T blank (.body c) b ys → o'.kind ∈ tagOpens → e.kind = T!"endset" → cl'.kind ∈ tagCloses →
      T blank (.tag c) (o :: k :: (u ++ cl :: (b ++ [o', e, cl'])))
        [.node .TWIG_SET [.node .TWIG_SET_BLOCK [o.tree, k.tree, .node .TWIG_ASSIGNMENT xs, cl.tree], .node .BODY ys,
          .node .TWIG_ENDSET_BLOCK [o'.tree, e.tree, cl'.tree]]]
  | forTag {c o k u xs i w x cl b ys v zs o' e cl'} : o.kind ∈ tagOpens → k.kind = T!"for" →
      T blank .forNames u xs → i.kind = T!"in" → T blank .expr w [x] → cl.kind ∈ tagCloses →
      T blank (.body c) b ys → T blank (.forElse c) v zs → o'.kind ∈ tagOpens → e.kind = T!"endfor" → cl'.kind ∈ tagCloses →
      T blank (.tag c) (o :: k :: (u ++ i :: (w ++ cl :: (b ++ (v ++ [o', e, cl'])))))
        [.node .TWIG_FOR (.node .TWIG_FOR_BLOCK (o.tree :: k.tree :: (xs ++ [i.tree, x, cl.tree])) :: .node .BODY ys ::
          (zs ++ [.node .TWIG_ENDFOR_BLOCK [o'.tree, e.tree, cl'.tree]]))]
  | forName {t} : IsName t → T blank .forNames [t] [nameTree t]
  | forPair {t c t'} : IsName t → c.kind = T!"," → IsName t' →
      T blank .forNames [t, c, t'] [nameTree t, c.tree, nameTree t']
  | noElse {c} : T blank (.forElse c) [] []
  | forElse {c o k cl b xs} : o.kind ∈ tagOpens → k.kind = T!"else" → cl.kind ∈ tagCloses → T blank (.body c) b xs →
      T blank (.forElse c) (o :: k :: cl :: b) [.node .TWIG_FOR_ELSE_BLOCK [o.tree, k.tree, cl.tree], .node .BODY xs]
  | expressionTag {c o k n u x cl} : o.kind ∈ tagOpens → (k.kind, n) ∈ expressionTags → T blank .expr u [x] →
      cl.kind ∈ tagCloses → T blank (.tag c) (o :: k :: (u ++ [cl])) [.node n [o.tree, k.tree, x, cl.tree]]
  | stringTag {c o k n u x cl} : o.kind ∈ tagOpens → (k.kind, n) ∈ stringTags → T blank (.string false) u [x] →
      cl.kind ∈ tagCloses → T blank (.tag c) (o :: k :: (u ++ [cl])) [.node n [o.tree, k.tree, x, cl.tree]]
  | flush {c o k cl} : o.kind ∈ tagOpens → k.kind = T!"flush" → cl.kind ∈ tagCloses →
      T blank (.tag c) [o, k, cl] [.node .TWIG_FLUSH [o.tree, k.tree, cl.tree]]
  | returnTag {c o k u xs cl} : o.kind ∈ tagOpens → k.kind = T!"return" → T blank (.optExpr false) u xs → cl.kind ∈ tagCloses →
      T blank (.tag c) (o :: k :: (u ++ [cl])) [.node .SHOPWARE_RETURN (o.tree :: k.tree :: (xs ++ [cl.tree]))]
  | includeTag {c o k n u x u1 xs u2 ys u3 zs cl} : o.kind ∈ tagOpens → (k.kind, n) ∈ includeTags → T blank .expr u [x] →
      T blank (.optToken T!"ignore missing") u1 xs → T blank (.optValue T!"with" .TWIG_INCLUDE_WITH) u2 ys →
      T blank (.optToken T!"only") u3 zs → cl.kind ∈ tagCloses →
      T blank (.tag c) (o :: k :: (u ++ (u1 ++ (u2 ++ (u3 ++ [cl])))))
        [.node n (o.tree :: k.tree :: x :: (xs ++ (ys ++ (zs ++ [cl.tree]))))]
  | embedTag {c o k ek u x u1 xs u2 ys u3 zs cl b bs o' e cl'} : o.kind ∈ tagOpens → (k.kind, ek) ∈ embedTags →
      T blank .expr u [x] → T blank (.optToken T!"ignore missing") u1 xs → T blank (.optValue T!"with" .TWIG_INCLUDE_WITH) u2 ys →
      T blank (.optToken T!"only") u3 zs → cl.kind ∈ tagCloses → T blank (.body c) b bs → o'.kind ∈ tagOpens → e.kind = ek →
      cl'.kind ∈ tagCloses →
      T blank (.tag c) (o :: k :: (u ++ (u1 ++ (u2 ++ (u3 ++ cl :: (b ++ [o', e, cl']))))))
        [.node .TWIG_EMBED [.node .TWIG_EMBED_STARTING_BLOCK (o.tree :: k.tree :: x :: (xs ++ (ys ++ (zs ++ [cl.tree])))),
          .node .BODY bs, .node .TWIG_EMBED_ENDING_BLOCK [o'.tree, e.tree, cl'.tree]]]
  | valueTag {c o k vk vn n u x w ys cl} : o.kind ∈ tagOpens → (k.kind, vk, vn, n) ∈ valueTags → T blank .expr u [x] →
      T blank (.optValue vk vn) w ys → cl.kind ∈ tagCloses →
      T blank (.tag c) (o :: k :: (u ++ (w ++ [cl]))) [.node n (o.tree :: k.tree :: x :: (ys ++ [cl.tree]))]
  | useTag {c o k u x cl} : o.kind ∈ tagOpens → k.kind ∈ [T!"use", T!"sw_use"] → T blank (.string false) u [x] →
      cl.kind ∈ tagCloses → T blank (.tag c) (o :: k :: (u ++ [cl])) [.node .TWIG_USE [o.tree, k.tree, x, cl.tree]]
  | useWithTag {c o k u x i n w ys cl} : o.kind ∈ tagOpens → k.kind ∈ [T!"use", T!"sw_use"] → T blank (.string false) u [x] →
      i.kind = T!"with" → T blank (.list .overrides n) w ys → 1 ≤ n → cl.kind ∈ tagCloses →
      T blank (.tag c) (o :: k :: (u ++ i :: (w ++ [cl])))
        [.node .TWIG_USE (o.tree :: k.tree :: x :: i.tree :: (ys ++ [cl.tree]))]
  | fromTag {c o k u x i n w ys cl} : o.kind ∈ tagOpens → k.kind ∈ [T!"from", T!"sw_from"] → T blank .expr u [x] →
      i.kind ∈ [T!"import", T!"sw_import"] → T blank (.list .overrides n) w ys → 1 ≤ n → cl.kind ∈ tagCloses →
      T blank (.tag c) (o :: k :: (u ++ i :: (w ++ [cl])))
        [.node .TWIG_FROM (o.tree :: k.tree :: x :: i.tree :: (ys ++ [cl.tree]))]
  | importTag {c o k u x a t cl} : o.kind ∈ tagOpens → k.kind ∈ [T!"import", T!"sw_import"] → T blank .expr u [x] →
      a.kind = T!"as" → IsName t → cl.kind ∈ tagCloses →
      T blank (.tag c) (o :: k :: (u ++ [a, t, cl])) [.node .TWIG_IMPORT [o.tree, k.tree, x, a.tree, nameTree t, cl.tree]]
  | propsTag {c o k n u xs cl} : o.kind ∈ tagOpens → k.kind = T!"props" → T blank (.list .props n) u xs →
      cl.kind ∈ tagCloses →
      T blank (.tag c) (o :: k :: (u ++ [cl])) [.node .TWIG_PROPS (o.tree :: k.tree :: (xs ++ [cl.tree]))]
  | plainBlock {c o k ek sn en n cl b xs o' e cl'} : o.kind ∈ tagOpens → (k.kind, ek, sn, en, n) ∈ plainBlocks →
      cl.kind ∈ tagCloses → T blank (.body c) b xs → o'.kind ∈ tagOpens → e.kind = ek → cl'.kind ∈ tagCloses →
      T blank (.tag c) (o :: k :: cl :: (b ++ [o', e, cl']))
        [.node n [.node sn [o.tree, k.tree, cl.tree], .node .BODY xs, .node en [o'.tree, e.tree, cl'.tree]]]
  | applyTag {c o k u xs w ys cl b zs o' e cl'} : o.kind ∈ tagOpens → k.kind = T!"apply" → T blank .filterName u xs →
      T blank (.applied xs) w ys → cl.kind ∈ tagCloses → T blank (.body c) b zs → o'.kind ∈ tagOpens → e.kind = T!"endapply" →
      cl'.kind ∈ tagCloses →
      T blank (.tag c) (o :: k :: (u ++ (w ++ cl :: (b ++ [o', e, cl']))))
        [.node .TWIG_APPLY [.node .TWIG_APPLY_STARTING_BLOCK (o.tree :: k.tree :: (ys ++ [cl.tree])), .node .BODY zs,
          .node .TWIG_APPLY_ENDING_BLOCK [o'.tree, e.tree, cl'.tree]]]
  | appliedAll {xs} : T blank (.applied xs) [] xs
  | appliedMore {xs p u ys w zs} : p.kind = T!"|" → T blank .filterName u ys →
      T blank (.applied [.node .TWIG_FILTER [.node .TWIG_OPERAND xs, p.tree, .node .TWIG_OPERAND ys]]) w zs →
      T blank (.applied xs) (p :: (u ++ w)) zs
  | autoescapeTag {c o k u xs cl b ys o' e cl'} : o.kind ∈ tagOpens → k.kind = T!"autoescape" → T blank .strategy u xs →
      cl.kind ∈ tagCloses → T blank (.body c) b ys → o'.kind ∈ tagOpens → e.kind = T!"endautoescape" → cl'.kind ∈ tagCloses →
      T blank (.tag c) (o :: k :: (u ++ cl :: (b ++ [o', e, cl'])))
        [.node .TWIG_AUTOESCAPE [.node .TWIG_AUTOESCAPE_STARTING_BLOCK (o.tree :: k.tree :: (xs ++ [cl.tree])),
          .node .BODY ys, .node .TWIG_AUTOESCAPE_ENDING_BLOCK [o'.tree, e.tree, cl'.tree]]]
  | noStrategy : T blank .strategy [] []
  | noEscape {t} : t.kind = T!"false" → T blank .strategy [t] [t.tree]
  | strategy {u x} : T blank (.string false) u [x] → T blank .strategy u [x]
  | macroTag {c o k t u x cl b xs o' e w ys cl'} : o.kind ∈ tagOpens → k.kind = T!"macro" → t.kind = T!"word" →
      T blank .arguments u [x] → cl.kind ∈ tagCloses → T blank (.body c) b xs → o'.kind ∈ tagOpens → e.kind = T!"endmacro" →
      T blank (.optToken T!"word") w ys → (∀ t' ∈ w, t'.text = t.text) → cl'.kind ∈ tagCloses →
      T blank (.tag c) (o :: k :: t :: (u ++ cl :: (b ++ o' :: e :: (w ++ [cl']))))
        [.node .TWIG_MACRO [.node .TWIG_MACRO_STARTING_BLOCK [o.tree, k.tree, t.tree, x, cl.tree], .node .BODY xs,
          .node .TWIG_MACRO_ENDING_BLOCK (o'.tree :: e.tree :: (ys ++ [cl'.tree]))]]
  | withTag {c o k u xs w ys cl b zs o' e cl'} : o.kind ∈ tagOpens → k.kind = T!"with" → T blank (.optExpr false) u xs →
      T blank (.optToken T!"only") w ys → (u = [] → w = []) → cl.kind ∈ tagCloses → T blank (.body c) b zs → o'.kind ∈ tagOpens →
      e.kind = T!"endwith" → cl'.kind ∈ tagCloses →
      T blank (.tag c) (o :: k :: (u ++ (w ++ cl :: (b ++ [o', e, cl']))))
        [.node .TWIG_WITH [.node .TWIG_WITH_STARTING_BLOCK (o.tree :: k.tree :: (xs ++ (ys ++ [cl.tree]))), .node .BODY zs,
          .node .TWIG_WITH_ENDING_BLOCK [o'.tree, e.tree, cl'.tree]]]
  | cacheTag {c o k u x u1 xs u2 ys cl b zs o' e cl'} : o.kind ∈ tagOpens → k.kind = T!"cache" → T blank .expr u [x] →
      T blank (.optCall T!"ttl" .TWIG_CACHE_TTL) u1 xs → T blank (.optCall T!"tags" .TWIG_CACHE_TAGS) u2 ys →
      cl.kind ∈ tagCloses → T blank (.body c) b zs → o'.kind ∈ tagOpens → e.kind = T!"endcache" → cl'.kind ∈ tagCloses →
      T blank (.tag c) (o :: k :: (u ++ (u1 ++ (u2 ++ cl :: (b ++ [o', e, cl'])))))
        [.node .TWIG_CACHE [.node .TWIG_CACHE_STARTING_BLOCK (o.tree :: k.tree :: x :: (xs ++ (ys ++ [cl.tree]))),
          .node .BODY zs, .node .TWIG_CACHE_ENDING_BLOCK [o'.tree, e.tree, cl'.tree]]]
  | silentTag {c o k u x cl b ys o' e cl'} : o.kind ∈ tagOpens → k.kind = T!"sw_silent_feature_call" →
      T blank (.string false) u [x] → cl.kind ∈ tagCloses → T blank (.body c) b ys → o'.kind ∈ tagOpens →
      e.kind = T!"endsw_silent_feature_call" → cl'.kind ∈ tagCloses →
      T blank (.tag c) (o :: k :: (u ++ cl :: (b ++ [o', e, cl'])))
        [.node .SHOPWARE_SILENT_FEATURE_CALL [.node .SHOPWARE_SILENT_FEATURE_CALL_STARTING_BLOCK
          [o.tree, k.tree, x, cl.tree], .node .BODY ys,
          .node .SHOPWARE_SILENT_FEATURE_CALL_ENDING_BLOCK [o'.tree, e.tree, cl'.tree]]]
  /-- Components only between elements and attributes: in a quoted value and in raw text the code does
  not find the end of a component. -/
  | componentTag {c o k t u xs cl b ys o' e cl'} : c = .element ∨ c = .attribute → o.kind ∈ tagOpens →
      k.kind = T!"component" → IsName t → T blank .withHash u xs → cl.kind ∈ tagCloses → T blank (.body c) b ys →
      o'.kind ∈ tagOpens → e.kind = T!"endcomponent" → cl'.kind ∈ tagCloses →
      T blank (.tag c) (o :: k :: t :: (u ++ cl :: (b ++ [o', e, cl'])))
        [.node .TWIG_COMPONENT [.node .TWIG_COMPONENT_STARTING_BLOCK (o.tree :: k.tree :: nameTree t :: (xs ++ [cl.tree])),
          .node .BODY ys, .node .TWIG_COMPONENT_ENDING_BLOCK [o'.tree, e.tree, cl'.tree]]]
  | noHash : T blank .withHash [] []
  | withHash {i u x} : i.kind = T!"with" → T blank .hash u [x] → T blank .withHash (i :: u) [i.tree, x]
  -- bodies
  | bodyEnd {c} : T blank (.body c) [] []
  | bodyVar {u x w xs} : T blank .var u [x] → T blank (.body .element) w xs → T blank (.body .element) (u ++ w) (x :: xs)
  | bodyTag {u x w xs} : T blank (.tag .element) u [x] → T blank (.body .element) w xs → T blank (.body .element) (u ++ w) (x :: xs)
  | bodyHtml {u x w xs} : T blank .html u [x] → T blank (.body .element) w xs → T blank (.body .element) (u ++ w) (x :: xs)
  | bodyUnknown {t w xs} : t.kind = .TK_UNKNOWN → T blank (.body .element) w xs →
      T blank (.body .element) (t :: w) (t.tree :: xs)
  | bodyText {t ts w xs} : t.kind ≠ .TK_UNKNOWN → AllText blank (t :: ts) w →
      (∀ t' r, w = t' :: r → t'.kind ∈ markupStarts ∧ ¬ IsText blank t' r) → T blank (.body .element) w xs →
      T blank (.body .element) (t :: (ts ++ w)) (.node .HTML_TEXT (t.tree :: ts.map Token.tree) :: xs)
  | bodyAttr {u x w xs} : T blank .attr u [x] → T blank (.body .attribute) w xs → T blank (.body .attribute) (u ++ w) (x :: xs)
  | bodyDouble {u xs} : T blank (.parts .double) u xs → (∀ t ∈ u.head?, t.kind ≠ .TK_UNKNOWN) → T blank (.body .double) u xs
  | bodySingle {u xs} : T blank (.parts .single) u xs → (∀ t ∈ u.head?, t.kind ≠ .TK_UNKNOWN) → T blank (.body .single) u xs
  | bodyRaw {u xs} : T blank (.parts .raw) u xs → (∀ t ∈ u.head?, t.kind ≠ .TK_UNKNOWN) → u ≠ [] →
      T blank (.body .raw) u [.node .HTML_RAW_TEXT xs]
  | noPart {c} : T blank (.parts c) [] []
  | partVar {c u x w xs} : T blank .var u [x] → T blank (.parts c) w xs → T blank (.parts c) (u ++ w) (x :: xs)
  | partTag {c u x w xs} : T blank (.tag c) u [x] → T blank (.parts c) w xs → T blank (.parts c) (u ++ w) (x :: xs)
  | partToken {c t w xs} : IsPart c t.kind → T blank (.parts c) w xs → T blank (.parts c) (t :: w) (t.tree :: xs)
  -- attributes
  | plainName {t} : t.kind ∈ nameKinds → AttributeName t.text → T blank .attrName [t] [wordTree t]
  | colonName {c t} : c.kind = T!":" → t.kind ∈ nameKinds → AttributeName (':' :: t.text) →
      Adjacent c t → T blank .attrName [c, t] [.token T!"word" (c.text ++ t.text)]
  | varName {u x} : T blank .var u [x] → T blank .attrName u [x]
  | attrPlain {u x} : T blank .attrName u [x] → T blank .attr u [.node .HTML_ATTRIBUTE [x]]
  | attrValued {u x e w y} : T blank .attrName u [x] → e.kind = T!"=" → T blank .attrValue w [y] →
      T blank .attr (u ++ e :: w) [.node .HTML_ATTRIBUTE [x, e.tree, y]]
  | attrTag {u x} : T blank (.tag .attribute) u [x] → T blank .attr u [x]
  | doubleQuoted {l u xs r} : l.kind = T!"\"" → T blank (.parts .double) u xs → r.kind = T!"\"" →
      T blank .attrValue (l :: (u ++ [r])) [.node .HTML_STRING [l.tree, .node .HTML_STRING_INNER xs, r.tree]]
  | singleQuoted {l u xs r} : l.kind = T!"'" → T blank (.parts .single) u xs → r.kind = T!"'" →
      T blank .attrValue (l :: (u ++ [r])) [.node .HTML_STRING [l.tree, .node .HTML_STRING_INNER xs, r.tree]]
  | unquotedWord {t} : t.kind = T!"word" →
      T blank .attrValue [t] [.node .HTML_STRING [.node .HTML_STRING_INNER [t.tree]]]
  | unquotedVar {u x} : T blank .var u [x] → T blank .attrValue u [.node .HTML_STRING [.node .HTML_STRING_INNER [x]]]
  -- html
  | element {l t a as g b xs l' t' g'} : l.kind = T!"<" → IsTagName t → Adjacent l t → ¬ IsVoid t → ¬ IsRaw t →
      T blank (.body .attribute) a as → g.kind = T!">" → T blank (.body .element) b xs → l'.kind = T!"</" →
      t'.kind = t.kind → t'.text = t.text → g'.kind = T!">" →
      T blank .html (l :: t :: (a ++ g :: (b ++ [l', t', g'])))
        [.node .HTML_TAG [.node .HTML_STARTING_TAG [l.tree, tagNameTree t, .node .HTML_ATTRIBUTE_LIST as, g.tree],
          .node .BODY xs, .node .HTML_ENDING_TAG [l'.tree, tagNameTree t', g'.tree]]]
  | rawElement {l t a as g b xs l' t' g'} : l.kind = T!"<" → IsTagName t → Adjacent l t → ¬ IsVoid t → IsRaw t →
      T blank (.body .attribute) a as → g.kind = T!">" → T blank (.parts .raw) b xs → l'.kind = T!"</" →
      t'.kind = t.kind → t'.text = t.text → FirstEnd b l' t' → g'.kind = T!">" →
      T blank .html (l :: t :: (a ++ g :: (b ++ [l', t', g'])))
        [.node .HTML_TAG [.node .HTML_STARTING_TAG [l.tree, tagNameTree t, .node .HTML_ATTRIBUTE_LIST as, g.tree],
          .node .BODY [.node .HTML_RAW_TEXT xs], .node .HTML_ENDING_TAG [l'.tree, tagNameTree t', g'.tree]]]
  | voidElement {l t a as g} : l.kind = T!"<" → IsTagName t → Adjacent l t → IsVoid t →
      T blank (.body .attribute) a as → g.kind = T!">" →
      T blank .html (l :: t :: (a ++ [g]))
        [.node .HTML_TAG [.node .HTML_STARTING_TAG [l.tree, tagNameTree t, .node .HTML_ATTRIBUTE_LIST as, g.tree]]]
  | closedElement {l t a as g} : l.kind = T!"<" → IsTagName t → Adjacent l t →
      T blank (.body .attribute) a as → g.kind = T!"/>" →
      T blank .html (l :: t :: (a ++ [g]))
        [.node .HTML_TAG [.node .HTML_STARTING_TAG [l.tree, tagNameTree t, .node .HTML_ATTRIBUTE_LIST as, g.tree]]]
  | htmlComment {o ts c} : o.kind = T!"<!--" → (∀ t ∈ ts, t.kind ≠ T!"-->") →
      (∀ t ∈ ts.head?, t.kind ∉ directives.map (·.1)) → c.kind = T!"-->" →
      T blank .html (o :: (ts ++ [c])) [.node .HTML_COMMENT (o.tree :: (ts.map Token.tree ++ [c.tree]))]
  | htmlDirective {o d n u xs c} : o.kind = T!"<!--" → (d.kind, n) ∈ directives → T blank .rules u xs → c.kind = T!"-->" →
      T blank .html (o :: d :: (u ++ [c])) [.node n [o.tree, d.tree, .node .LUDTWIG_DIRECTIVE_RULE_LIST xs, c.tree]]
  | doctype {o d t c} : o.kind = T!"<!" → d.kind = T!"DOCTYPE" → t.kind = T!"word" → c.kind = T!">" →
      T blank .html [o, d, t, c] [.node .HTML_DOCTYPE [o.tree, d.tree, t.tree, c.tree]]

/-- A blank starts at the offset. -/
def BlankAt (toks : List Token) (n : Nat) : Prop := ∃ t ∈ toks, t.kind = T!"ws" ∧ t.range.start = n

/-- The tokens are a template with the tree `x`, without trivia. -/
def IsTemplate (toks : List Token) (x : Tree) : Prop :=
  ∃ xs, T (BlankAt toks) (.body .element) (toks.filter (fun t => !t.kind.isTrivia)) xs ∧ x = .node .ROOT xs

end Ludtwig.Template
