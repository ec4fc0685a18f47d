import Verif.Parser.Spec

/-!
# The grammar of syntax trees (specification for C62–C66)

A regular expression for each kind of node says which children it may have, trivia aside. It is
written down from the documentation of the syntax kinds and independently of how the parser works,
with one exception: where the parser accepts more than Twig or HTML allow, the expression says so.
-/

namespace Ludtwig.Shape

/-- A child of a node: is it a node, and its kind. -/
structure Item where
  isNode : Bool
  kind : SyntaxKind
  deriving DecidableEq, Repr

/-- Regular expressions over children. -/
inductive Rx
  /-- no children at all are accepted -/
  | never
  /-- the empty list -/
  | nil
  /-- one token of one of these kinds -/
  | tok (ks : List SyntaxKind)
  /-- one token of another kind -/
  | tokNot (ks : List SyntaxKind)
  /-- one node of one of these kinds -/
  | node (ks : List SyntaxKind)
  | seq (a b : Rx)
  | alt (a b : Rx)
  | star (a : Rx)
  /-- like `a`; the parser does not leave out any of it even if there are errors -/
  | sure (a : Rx)
  deriving DecidableEq, Repr

namespace Rx

/-- The words of an expression. -/
def Lang : Rx → List Item → Prop
  | never, _ => False
  | nil, w => w = []
  | tok ks, w => ∃ k ∈ ks, w = [⟨false, k⟩]
  | tokNot ks, w => ∃ k, k ∉ ks ∧ w = [⟨false, k⟩]
  | node ks, w => ∃ k ∈ ks, w = [⟨true, k⟩]
  | seq a b, w => ∃ u v, w = u ++ v ∧ a.Lang u ∧ b.Lang v
  | alt a b, w => a.Lang w ∨ b.Lang w
  | star a, w => ∃ ws : List (List Item), w = ws.flatten ∧ ∀ u ∈ ws, a.Lang u
  | sure a, w => a.Lang w

instance : Append Rx := ⟨seq⟩
instance : OrOp Rx := ⟨alt⟩

/-- `a` or nothing. -/
def opt (a : Rx) : Rx := alt nil a

/-- Any number of `ERROR` nodes. -/
def errors : Rx := star (node [.ERROR])

/-- The expression for children in a file with errors: tokens and nodes outside of `sure` may be
missing, and `ERROR` nodes may be anywhere, but not inside of a `sure` part, and not before a `sure`
part with which the expression begins. -/
def damage : Rx → Rx
  | never => never
  | nil => nil
  | tok ks => errors ++ (opt (tok ks) ++ errors)
  | tokNot ks => errors ++ (opt (tokNot ks) ++ errors)
  | node ks => errors ++ (opt (node ks) ++ errors)
  | seq a b => damage a ++ damage b
  | alt a b => alt (damage a) (damage b)
  | star a => star (damage a)
  | sure a => a ++ errors

end Rx

open Rx

/-! ## Tokens and groups of nodes -/

/-- `{%`, `{%-`, `{%~` -/
def blockOpen : Rx := tok [T!"{%", T!"{%-", T!"{%~"]
/-- `%}`, `-%}`, `~%}` -/
def blockClose : Rx := tok [T!"%}", T!"-%}", T!"~%}"]
/-- `{{`, `{{-`, `{{~` -/
def varOpen : Rx := tok [T!"{{", T!"{{-", T!"{{~"]
/-- `}}`, `-}}`, `~}}` -/
def varClose : Rx := tok [T!"}}", T!"-}}", T!"~}}"]
/-- `{#`, `{#-`, `{#~` -/
def commentOpen : Rx := tok [T!"{#", T!"{#-", T!"{#~"]
/-- `#}`, `-#}`, `~#}` -/
def commentClose : Rx := tok [T!"#}", T!"-#}", T!"~#}"]
/-- any token -/
def anyTok : Rx := tokNot []
/-- a character that the lexer does not know -/
def unknown : Rx := tok [.TK_UNKNOWN]

def expr : Rx := node [.TWIG_EXPRESSION]
def name : Rx := node [.TWIG_LITERAL_NAME]
def string : Rx := node [.TWIG_LITERAL_STRING]
def arguments : Rx := node [.TWIG_ARGUMENTS]
def operand : Rx := node [.TWIG_OPERAND]
def body : Rx := sure (node [.BODY])

/-- Lists: unknown characters are skipped over everywhere. -/
def many (a : Rx) : Rx := star (alt unknown a)

/-- A list whose elements may have a comma behind them. -/
def commaList (a : Rx) : Rx := many (a ++ opt (tok [T!","]))

/-- The tags, variables and comments of Twig. -/
def twigKinds : List SyntaxKind :=
  [.TWIG_BLOCK, .TWIG_IF, .TWIG_SET, .TWIG_FOR, .TWIG_EXTENDS, .TWIG_INCLUDE, .TWIG_USE, .TWIG_APPLY,
   .TWIG_AUTOESCAPE, .TWIG_DEPRECATED, .TWIG_DO, .TWIG_EMBED, .TWIG_FLUSH, .TWIG_FROM, .TWIG_IMPORT,
   .TWIG_SANDBOX, .TWIG_VERBATIM, .TWIG_MACRO, .TWIG_WITH, .TWIG_CACHE, .TWIG_PROPS, .TWIG_COMPONENT,
   .TWIG_TRANS, .SHOPWARE_TWIG_SW_EXTENDS, .SHOPWARE_TWIG_SW_INCLUDE, .SHOPWARE_SILENT_FEATURE_CALL,
   .SHOPWARE_RETURN, .SHOPWARE_ICON, .SHOPWARE_THUMBNAILS, .TWIG_VAR, .TWIG_COMMENT,
   .LUDTWIG_DIRECTIVE_FILE_IGNORE, .LUDTWIG_DIRECTIVE_IGNORE]

/-- The elements of HTML. -/
def htmlKinds : List SyntaxKind :=
  [.HTML_TAG, .HTML_COMMENT, .HTML_DOCTYPE, .HTML_TEXT, .LUDTWIG_DIRECTIVE_FILE_IGNORE,
   .LUDTWIG_DIRECTIVE_IGNORE]

/-- What is inside of a `TWIG_EXPRESSION`, apart from operators. -/
def primaryKinds : List SyntaxKind :=
  [.TWIG_LITERAL_STRING, .TWIG_LITERAL_NUMBER, .TWIG_LITERAL_ARRAY, .TWIG_LITERAL_NULL,
   .TWIG_LITERAL_BOOLEAN, .TWIG_LITERAL_HASH, .TWIG_LITERAL_NAME, .TWIG_FUNCTION_CALL,
   .TWIG_ARROW_FUNCTION, .TWIG_PARENTHESES_EXPRESSION, .TWIG_ACCESSOR, .TWIG_FILTER,
   .TWIG_INDEX_LOOKUP]

/-- The binary operators. -/
def binaryOperators : List SyntaxKind :=
  [T!"or", T!"||", T!"and", T!"&&", T!"b-or", T!"b-xor", T!"b-and", T!"==", T!"!=", T!"<=>", T!"<",
   T!">", T!">=", T!"<=", T!"in", T!"not in", T!"matches", T!"starts with", T!"ends with", T!"===",
   T!"!==", T!"..", T!"+", T!"-", T!"~", T!"*", T!"/", T!"//", T!"%", T!"is", T!"is not", T!"**", T!"??"]

/-- The unary operators. -/
def unaryOperators : List SyntaxKind := [T!"not", T!"+", T!"-", T!"..."]

/-- `{% keyword r %}` -/
def tag (keywords : List SyntaxKind) (r : Rx) : Rx :=
  sure blockOpen ++ (sure (tok keywords) ++ (r ++ blockClose))

/-- `{% keyword r %}` as the end of a block. -/
def endTag (keywords : List SyntaxKind) (r : Rx) : Rx :=
  blockOpen ++ (tok keywords ++ (r ++ blockClose))

/-- A starting block, the body and the ending block. -/
def block (start ending : SyntaxKind) : Rx :=
  sure (node [start]) ++ (body ++ sure (node [ending]))

/-- `ignore missing`, `with ...` and `only` behind the name of a template. -/
def includeOptions : Rx :=
  opt (tok [T!"ignore missing"]) ++ (opt (node [.TWIG_INCLUDE_WITH]) ++ opt (tok [T!"only"]))

/-- A directive behind the opening of a comment, up to its closing. -/
def directive (keyword : SyntaxKind) : Rx :=
  alt (sure (commentOpen ++ (tok [keyword] ++ node [.LUDTWIG_DIRECTIVE_RULE_LIST])) ++ commentClose)
    (sure (tok [T!"<!--"] ++ (tok [keyword] ++ node [.LUDTWIG_DIRECTIVE_RULE_LIST])) ++ tok [T!"-->"])

/-! ## The grammar -/

/-- The children of a node of the given kind, trivia aside. -/
def production : SyntaxKind → Rx
  | .ROOT => many (node (twigKinds ++ htmlKinds))
  -- the contents of blocks and tags, in an attribute list, in raw text and in an attribute value
  | .BODY =>
    alt (many (node (twigKinds ++ htmlKinds)))
      (alt (many (node (.HTML_ATTRIBUTE :: twigKinds)))
        (alt (many (node [.HTML_RAW_TEXT])) (star (alt anyTok (node twigKinds)))))
  -- HTML
  | .HTML_DOCTYPE => sure (tok [T!"<!"]) ++ (tok [T!"DOCTYPE"] ++ (tok [T!"word"] ++ tok [T!">"]))
  | .HTML_TAG =>
    sure (node [.HTML_STARTING_TAG]) ++ opt (sure (node [.BODY] ++ node [.HTML_ENDING_TAG]))
  | .HTML_STARTING_TAG =>
    sure (tok [T!"<"]) ++ (tok [T!"word", T!"twig component name"] ++
      (sure (node [.HTML_ATTRIBUTE_LIST]) ++ tok [T!">", T!"/>"]))
  | .HTML_ENDING_TAG => tok [T!"</"] ++ (tok [T!"word", T!"twig component name"] ++ tok [T!">"])
  | .HTML_ATTRIBUTE_LIST => many (node (.HTML_ATTRIBUTE :: twigKinds))
  | .HTML_ATTRIBUTE =>
    sure (alt (tok [T!"word"]) (node [.TWIG_VAR])) ++ opt (sure (tok [T!"="] ++ node [.HTML_STRING]))
  | .HTML_STRING =>
    alt (sure (tok [T!"\""] ++ node [.HTML_STRING_INNER]) ++ tok [T!"\""])
      (alt (sure (tok [T!"'"] ++ node [.HTML_STRING_INNER]) ++ tok [T!"'"])
        (sure (node [.HTML_STRING_INNER])))
  | .HTML_STRING_INNER => star (alt anyTok (node twigKinds))
  | .HTML_TEXT =>
    tokNot [T!"</", T!"{%", T!"{%-", T!"{%~", T!"{{", T!"{{-", T!"{{~", T!"{#", T!"{#-", T!"{#~", T!"<!--",
      T!"<!"] ++
    star (tokNot [T!"</", T!"{%", T!"{%-", T!"{%~", T!"{{", T!"{{-", T!"{{~", T!"{#", T!"{#-", T!"{#~",
      T!"<!--", T!"<!"])
  | .HTML_RAW_TEXT => star (alt anyTok (node twigKinds))
  | .HTML_COMMENT => sure (tok [T!"<!--"]) ++ (star (tokNot [T!"-->"]) ++ tok [T!"-->"])
  -- directives
  | .LUDTWIG_DIRECTIVE_FILE_IGNORE => directive T!"ludtwig-ignore-file"
  | .LUDTWIG_DIRECTIVE_IGNORE => directive T!"ludtwig-ignore"
  | .LUDTWIG_DIRECTIVE_RULE_LIST => commaList (tok [T!"word"])
  -- Twig variables, comments and tags
  | .TWIG_COMMENT =>
    sure commentOpen ++ (star (tokNot [T!"#}", T!"-#}", T!"~#}"]) ++ commentClose)
  | .TWIG_VAR => sure varOpen ++ (expr ++ varClose)
  | .TWIG_BLOCK =>
    sure (node [.TWIG_STARTING_BLOCK]) ++ opt (sure (node [.BODY] ++ node [.TWIG_ENDING_BLOCK]))
  | .TWIG_STARTING_BLOCK => tag [T!"block"] (tok [T!"word"] ++ opt expr)
  | .TWIG_ENDING_BLOCK => endTag [T!"endblock"] (opt (tok [T!"word"]))
  | .TWIG_IF =>
    sure (node [.TWIG_IF_BLOCK] ++ (star (node [.BODY] ++ node [.TWIG_ELSE_IF_BLOCK, .TWIG_ELSE_BLOCK]) ++
      (node [.BODY] ++ node [.TWIG_ENDIF_BLOCK])))
  | .TWIG_IF_BLOCK => tag [T!"if"] expr
  | .TWIG_ELSE_IF_BLOCK => tag [T!"elseif"] expr
  | .TWIG_ELSE_BLOCK => tag [T!"else"] nil
  | .TWIG_ENDIF_BLOCK => endTag [T!"endif"] nil
  | .TWIG_SET => sure (node [.TWIG_SET_BLOCK]) ++ opt (sure (node [.BODY] ++ node [.TWIG_ENDSET_BLOCK]))
  | .TWIG_SET_BLOCK => tag [T!"set"] (sure (node [.TWIG_ASSIGNMENT]))
  | .TWIG_ENDSET_BLOCK => endTag [T!"endset"] nil
  | .TWIG_ASSIGNMENT => commaList name ++ opt (sure (tok [T!"="]) ++ commaList expr)
  | .TWIG_FOR =>
    sure (node [.TWIG_FOR_BLOCK] ++ (node [.BODY] ++ (opt (node [.TWIG_FOR_ELSE_BLOCK] ++ node [.BODY]) ++
      node [.TWIG_ENDFOR_BLOCK])))
  | .TWIG_FOR_BLOCK =>
    tag [T!"for"] (name ++ (opt (sure (tok [T!","]) ++ name) ++ (tok [T!"in"] ++ expr)))
  | .TWIG_FOR_ELSE_BLOCK => tag [T!"else"] nil
  | .TWIG_ENDFOR_BLOCK => endTag [T!"endfor"] nil
  | .TWIG_EXTENDS => tag [T!"extends"] expr
  | .TWIG_INCLUDE => tag [T!"include"] (expr ++ includeOptions)
  | .TWIG_INCLUDE_WITH => sure (tok [T!"with"]) ++ expr
  | .TWIG_USE =>
    tag [T!"use", T!"sw_use"] (string ++ opt (sure (tok [T!"with"]) ++ commaList (node [.TWIG_OVERRIDE])))
  | .TWIG_OVERRIDE => name ++ opt (sure (tok [T!"as"]) ++ name)
  | .TWIG_APPLY => block .TWIG_APPLY_STARTING_BLOCK .TWIG_APPLY_ENDING_BLOCK
  | .TWIG_APPLY_STARTING_BLOCK =>
    tag [T!"apply"] (alt (name ++ opt arguments) (node [.TWIG_FILTER]) ++ star unknown)
  | .TWIG_APPLY_ENDING_BLOCK => endTag [T!"endapply"] nil
  | .TWIG_AUTOESCAPE => block .TWIG_AUTOESCAPE_STARTING_BLOCK .TWIG_AUTOESCAPE_ENDING_BLOCK
  | .TWIG_AUTOESCAPE_STARTING_BLOCK => tag [T!"autoescape"] (opt (alt string (tok [T!"false"])))
  | .TWIG_AUTOESCAPE_ENDING_BLOCK => endTag [T!"endautoescape"] nil
  | .TWIG_DEPRECATED => tag [T!"deprecated"] string
  | .TWIG_DO => tag [T!"do"] expr
  | .TWIG_EMBED => block .TWIG_EMBED_STARTING_BLOCK .TWIG_EMBED_ENDING_BLOCK
  | .TWIG_EMBED_STARTING_BLOCK => tag [T!"embed", T!"sw_embed"] (expr ++ includeOptions)
  | .TWIG_EMBED_ENDING_BLOCK => endTag [T!"endembed", T!"sw_end_embed"] nil
  | .TWIG_FLUSH => tag [T!"flush"] nil
  | .TWIG_FROM =>
    tag [T!"from", T!"sw_from"]
      (expr ++ (tok [T!"import", T!"sw_import"] ++ commaList (node [.TWIG_OVERRIDE])))
  | .TWIG_IMPORT => tag [T!"import", T!"sw_import"] (expr ++ (tok [T!"as"] ++ name))
  | .TWIG_SANDBOX => block .TWIG_SANDBOX_STARTING_BLOCK .TWIG_SANDBOX_ENDING_BLOCK
  | .TWIG_SANDBOX_STARTING_BLOCK => tag [T!"sandbox"] nil
  | .TWIG_SANDBOX_ENDING_BLOCK => endTag [T!"endsandbox"] nil
  | .TWIG_VERBATIM => block .TWIG_VERBATIM_STARTING_BLOCK .TWIG_VERBATIM_ENDING_BLOCK
  | .TWIG_VERBATIM_STARTING_BLOCK => tag [T!"verbatim"] nil
  | .TWIG_VERBATIM_ENDING_BLOCK => endTag [T!"endverbatim"] nil
  | .TWIG_MACRO => block .TWIG_MACRO_STARTING_BLOCK .TWIG_MACRO_ENDING_BLOCK
  | .TWIG_MACRO_STARTING_BLOCK => tag [T!"macro"] (tok [T!"word"] ++ sure arguments)
  | .TWIG_MACRO_ENDING_BLOCK => endTag [T!"endmacro"] (opt (tok [T!"word"]))
  | .TWIG_WITH => block .TWIG_WITH_STARTING_BLOCK .TWIG_WITH_ENDING_BLOCK
  | .TWIG_WITH_STARTING_BLOCK => tag [T!"with"] (opt expr ++ opt (tok [T!"only"]))
  | .TWIG_WITH_ENDING_BLOCK => endTag [T!"endwith"] nil
  | .TWIG_CACHE => block .TWIG_CACHE_STARTING_BLOCK .TWIG_CACHE_ENDING_BLOCK
  | .TWIG_CACHE_STARTING_BLOCK =>
    tag [T!"cache"] (expr ++ (opt (node [.TWIG_CACHE_TTL]) ++ opt (node [.TWIG_CACHE_TAGS])))
  | .TWIG_CACHE_TTL => sure (tok [T!"ttl"]) ++ (tok [T!"("] ++ (expr ++ tok [T!")"]))
  | .TWIG_CACHE_TAGS => sure (tok [T!"tags"]) ++ (tok [T!"("] ++ (expr ++ tok [T!")"]))
  | .TWIG_CACHE_ENDING_BLOCK => endTag [T!"endcache"] nil
  | .TWIG_PROPS => tag [T!"props"] (commaList (node [.TWIG_PROP_DECLARATION]))
  | .TWIG_PROP_DECLARATION => name ++ opt (sure (tok [T!"="]) ++ expr)
  | .TWIG_COMPONENT => block .TWIG_COMPONENT_STARTING_BLOCK .TWIG_COMPONENT_ENDING_BLOCK
  | .TWIG_COMPONENT_STARTING_BLOCK =>
    tag [T!"component"] (name ++ opt (sure (tok [T!"with"]) ++ node [.TWIG_LITERAL_HASH]))
  | .TWIG_COMPONENT_ENDING_BLOCK => endTag [T!"endcomponent"] nil
  | .TWIG_TRANS => block .TWIG_TRANS_STARTING_BLOCK .TWIG_TRANS_ENDING_BLOCK
  | .TWIG_TRANS_STARTING_BLOCK => tag [T!"trans"] nil
  | .TWIG_TRANS_ENDING_BLOCK => endTag [T!"endtrans"] nil
  -- tags of Shopware
  | .SHOPWARE_TWIG_SW_EXTENDS => tag [T!"sw_extends"] string
  | .SHOPWARE_TWIG_SW_INCLUDE => tag [T!"sw_include"] (expr ++ includeOptions)
  | .SHOPWARE_SILENT_FEATURE_CALL =>
    block .SHOPWARE_SILENT_FEATURE_CALL_STARTING_BLOCK .SHOPWARE_SILENT_FEATURE_CALL_ENDING_BLOCK
  | .SHOPWARE_SILENT_FEATURE_CALL_STARTING_BLOCK => tag [T!"sw_silent_feature_call"] string
  | .SHOPWARE_SILENT_FEATURE_CALL_ENDING_BLOCK => endTag [T!"endsw_silent_feature_call"] nil
  | .SHOPWARE_RETURN => tag [T!"return"] (opt expr)
  | .SHOPWARE_ICON => tag [T!"sw_icon"] (expr ++ opt (node [.SHOPWARE_ICON_STYLE]))
  | .SHOPWARE_ICON_STYLE => sure (tok [T!"style"]) ++ expr
  | .SHOPWARE_THUMBNAILS => tag [T!"sw_thumbnails"] (expr ++ opt (node [.SHOPWARE_THUMBNAILS_WITH]))
  | .SHOPWARE_THUMBNAILS_WITH => sure (tok [T!"with"]) ++ expr
  -- expressions
  | .TWIG_EXPRESSION =>
    sure (alt (node primaryKinds ++ star unknown)
      (node [.TWIG_UNARY_EXPRESSION, .TWIG_BINARY_EXPRESSION, .TWIG_CONDITIONAL_EXPRESSION]))
  | .TWIG_BINARY_EXPRESSION =>
    -- the right side may be missing without an error
    sure (node [.TWIG_EXPRESSION, .TWIG_BINARY_EXPRESSION] ++ tok binaryOperators) ++ opt expr
  | .TWIG_UNARY_EXPRESSION => sure (tok unaryOperators) ++ opt expr
  | .TWIG_PARENTHESES_EXPRESSION => sure (tok [T!"("]) ++ (opt expr ++ tok [T!")"])
  | .TWIG_CONDITIONAL_EXPRESSION =>
    sure (expr ++ tok [T!"?"]) ++ (opt expr ++ opt (sure (tok [T!":"]) ++ expr))
  | .TWIG_OPERAND =>
    alt (name ++ opt arguments) (sure (node primaryKinds ++ (opt arguments ++ star unknown)))
  | .TWIG_ACCESSOR => sure (operand ++ (tok [T!"."] ++ operand))
  | .TWIG_FILTER => sure (operand ++ (tok [T!"|"] ++ operand))
  | .TWIG_INDEX_LOOKUP =>
    alt (sure (operand ++ (tok [T!"["] ++ node [.TWIG_INDEX, .TWIG_INDEX_RANGE])) ++ tok [T!"]"])
      (sure (operand ++ (tok [T!"."] ++ node [.TWIG_INDEX])))
  | .TWIG_INDEX => expr
  | .TWIG_INDEX_RANGE => opt expr ++ (sure (tok [T!":"]) ++ opt expr)
  | .TWIG_FUNCTION_CALL => sure (operand ++ arguments)
  | .TWIG_ARROW_FUNCTION =>
    -- behind parameters in parentheses any token is taken for `=>`
    sure (arguments ++ anyTok) ++ expr
  | .TWIG_ARGUMENTS =>
    -- of a function, filter or macro; of an arrow function; of a test
    alt (tok [T!"("] ++ (commaList (opt (node [.TWIG_EXPRESSION, .TWIG_NAMED_ARGUMENT])) ++ tok [T!")"]))
      (alt (sure (tok [T!"("] ++ name) ++ (many (tok [T!","] ++ opt name) ++ tok [T!")"]))
        (alt (sure name) expr))
  | .TWIG_NAMED_ARGUMENT => sure (tok [T!"word"]) ++ (tok [T!"="] ++ opt expr)
  -- literals
  | .TWIG_LITERAL_STRING =>
    alt (sure (tok [T!"\""] ++ node [.TWIG_LITERAL_STRING_INNER]) ++ tok [T!"\""])
      (sure (tok [T!"'"] ++ node [.TWIG_LITERAL_STRING_INNER]) ++ tok [T!"'"])
  | .TWIG_LITERAL_STRING_INNER => star (alt anyTok (node [.TWIG_LITERAL_STRING_INTERPOLATION]))
  | .TWIG_LITERAL_STRING_INTERPOLATION =>
    sure (tok [T!"#"] ++ tok [T!"{"]) ++ (expr ++ tok [T!"}"])
  | .TWIG_LITERAL_NUMBER => sure (tok [T!"number"])
  | .TWIG_LITERAL_ARRAY => sure (tok [T!"["] ++ node [.TWIG_LITERAL_ARRAY_INNER]) ++ tok [T!"]"]
  | .TWIG_LITERAL_ARRAY_INNER => commaList (opt expr)
  | .TWIG_LITERAL_NULL => sure (tok [T!"null"])
  | .TWIG_LITERAL_BOOLEAN => sure (tok [T!"true", T!"false"])
  | .TWIG_LITERAL_HASH => sure (tok [T!"{"] ++ node [.TWIG_LITERAL_HASH_ITEMS]) ++ tok [T!"}"]
  | .TWIG_LITERAL_HASH_ITEMS => commaList (opt (node [.TWIG_LITERAL_HASH_PAIR]))
  | .TWIG_LITERAL_HASH_PAIR => sure (node [.TWIG_LITERAL_HASH_KEY]) ++ opt (sure (tok [T!":"]) ++ expr)
  | .TWIG_LITERAL_HASH_KEY =>
    alt (sure (alt (node [.TWIG_LITERAL_NUMBER, .TWIG_LITERAL_STRING]) (tok [T!"word"])))
      (sure (tok [T!"("]) ++ (expr ++ tok [T!")"]))
  | .TWIG_LITERAL_NAME => sure (tok [T!"word"])
  -- only in files with errors
  | .ERROR => star anyTok
  -- no nodes
  | _ => never

/-! ## Conformance -/

/-- The children of a node as seen by the grammar: trivia are left out. -/
def items : List Tree → List Item
  | [] => []
  | .token k _ :: ts => if k.isTrivia then items ts else ⟨false, k⟩ :: items ts
  | .node k _ :: ts => ⟨true, k⟩ :: items ts

mutual
/-- Every node of the tree has children as the grammar says. -/
def Conforms (G : SyntaxKind → Rx) : Tree → Prop
  | .token _ _ => True
  | .node k cs => (G k).Lang (items cs) ∧ ConformAll G cs
/-- Every node of the trees has children as the grammar says. -/
def ConformAll (G : SyntaxKind → Rx) : List Tree → Prop
  | [] => True
  | t :: ts => Conforms G t ∧ ConformAll G ts
end

/-- The grammar of files with errors. `ERROR` nodes are made of tokens only. -/
def damagedProduction : SyntaxKind → Rx
  | .ERROR => production .ERROR
  | k => (production k).damage

end Ludtwig.Shape
