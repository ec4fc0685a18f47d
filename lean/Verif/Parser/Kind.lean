/-!
# Syntax kinds

`SyntaxKind` (crates/ludtwig-parser/src/syntax/untyped.rs 38–552) with all its variants in order, the
`T!` macro (587–753), `Display` (756–926), `is_trivia` (932–935), the conversion from and to raw
numbers (943–963) and the literal tokens of the lexer (the `#[token(..)]` attributes).
The lists were extracted from the Rust file by a script.
-/

namespace Ludtwig

/-- `SyntaxKind`, syntax/untyped.rs 38–552. -/
inductive SyntaxKind
  | TK_WHITESPACE | TK_LINE_BREAK | TK_WORD | TK_TWIG_COMPONENT_NAME | TK_NUMBER
  | TK_HTML_ESCAPE_CHARACTER | TK_DOT | TK_DOUBLE_DOT | TK_TRIPLE_DOT | TK_COMMA | TK_COLON
  | TK_SEMICOLON | TK_EXCLAMATION_MARK | TK_EXCLAMATION_MARK_EQUALS
  | TK_EXCLAMATION_MARK_DOUBLE_EQUALS | TK_QUESTION_MARK | TK_DOUBLE_QUESTION_MARK | TK_PERCENT
  | TK_TILDE | TK_SINGLE_PIPE | TK_DOUBLE_PIPE | TK_AMPERSAND | TK_DOUBLE_AMPERSAND
  | TK_FORWARD_SLASH | TK_DOUBLE_FORWARD_SLASH | TK_BACKWARD_SLASH | TK_OPEN_PARENTHESIS
  | TK_CLOSE_PARENTHESIS | TK_OPEN_CURLY | TK_CLOSE_CURLY | TK_OPEN_SQUARE | TK_CLOSE_SQUARE
  | TK_LESS_THAN | TK_LESS_THAN_EQUAL | TK_LESS_THAN_EQUAL_GREATER_THAN | TK_LESS_THAN_SLASH
  | TK_LESS_THAN_EXCLAMATION_MARK | TK_DOCTYPE | TK_GREATER_THAN | TK_GREATER_THAN_EQUAL
  | TK_EQUAL_GREATER_THAN | TK_SLASH_GREATER_THAN | TK_LESS_THAN_EXCLAMATION_MARK_MINUS_MINUS
  | TK_MINUS_MINUS_GREATER_THAN | TK_EQUAL | TK_DOUBLE_EQUAL | TK_TRIPLE_EQUAL | TK_PLUS
  | TK_MINUS | TK_STAR | TK_DOUBLE_STAR | TK_DOUBLE_QUOTES | TK_SINGLE_QUOTES
  | TK_GRAVE_ACCENT_QUOTES | TK_CURLY_PERCENT | TK_CURLY_PERCENT_MINUS | TK_CURLY_PERCENT_TILDE
  | TK_PERCENT_CURLY | TK_MINUS_PERCENT_CURLY | TK_TILDE_PERCENT_CURLY | TK_OPEN_CURLY_CURLY
  | TK_OPEN_CURLY_CURLY_MINUS | TK_OPEN_CURLY_CURLY_TILDE | TK_CLOSE_CURLY_CURLY
  | TK_MINUS_CLOSE_CURLY_CURLY | TK_TILDE_CLOSE_CURLY_CURLY | TK_OPEN_CURLY_HASHTAG
  | TK_OPEN_CURLY_HASHTAG_MINUS | TK_OPEN_CURLY_HASHTAG_TILDE | TK_HASHTAG_CLOSE_CURLY
  | TK_MINUS_HASHTAG_CLOSE_CURLY | TK_TILDE_HASHTAG_CLOSE_CURLY | TK_HASHTAG | TK_TRUE | TK_FALSE
  | TK_BLOCK | TK_ENDBLOCK | TK_IF | TK_ELSE_IF | TK_ELSE | TK_ENDIF | TK_APPLY | TK_ENDAPPLY
  | TK_AUTOESCAPE | TK_ENDAUTOESCAPE | TK_CACHE | TK_ENDCACHE | TK_DEPRECATED | TK_DO | TK_EMBED
  | TK_ENDEMBED | TK_EXTENDS | TK_FLUSH | TK_FOR | TK_ENDFOR | TK_FROM | TK_IMPORT | TK_MACRO
  | TK_ENDMACRO | TK_SANDBOX | TK_ENDSANDBOX | TK_SET | TK_ENDSET | TK_USE | TK_VERBATIM
  | TK_ENDVERBATIM | TK_ONLY | TK_IGNORE_MISSING | TK_WITH | TK_ENDWITH | TK_TTL | TK_TAGS
  | TK_PROPS | TK_COMPONENT | TK_ENDCOMPONENT | TK_NOT | TK_NOT_IN | TK_OR | TK_AND
  | TK_BINARY_OR | TK_BINARY_XOR | TK_BINARY_AND | TK_IN | TK_MATCHES | TK_STARTS_WITH
  | TK_ENDS_WITH | TK_IS | TK_IS_NOT | TK_EVEN | TK_ODD | TK_DEFINED | TK_SAME_AS | TK_AS
  | TK_NONE | TK_NULL | TK_DIVISIBLE_BY | TK_CONSTANT | TK_EMPTY | TK_ITERABLE | TK_MAX | TK_MIN
  | TK_RANGE | TK_CYCLE | TK_RANDOM | TK_DATE | TK_INCLUDE | TK_SOURCE | TK_TRANS | TK_ENDTRANS
  | TK_SW_EXTENDS | TK_SW_SILENT_FEATURE_CALL | TK_ENDSW_SILENT_FEATURE_CALL | TK_SW_INCLUDE
  | TK_RETURN | TK_SW_ICON | TK_SW_THUMBNAILS | TK_STYLE | TK_SW_EMBED | TK_SW_END_EMBED
  | TK_SW_USE | TK_SW_IMPORT | TK_SW_FROM | TK_LUDTWIG_IGNORE_FILE | TK_LUDTWIG_IGNORE
  | TK_UNKNOWN | BODY | TWIG_VAR | TWIG_EXPRESSION | TWIG_BINARY_EXPRESSION
  | TWIG_UNARY_EXPRESSION | TWIG_PARENTHESES_EXPRESSION | TWIG_CONDITIONAL_EXPRESSION
  | TWIG_OPERAND | TWIG_ACCESSOR | TWIG_FILTER | TWIG_INDEX_LOOKUP | TWIG_INDEX
  | TWIG_INDEX_RANGE | TWIG_FUNCTION_CALL | TWIG_ARROW_FUNCTION | TWIG_ARGUMENTS
  | TWIG_NAMED_ARGUMENT | TWIG_LITERAL_STRING | TWIG_LITERAL_STRING_INNER
  | TWIG_LITERAL_STRING_INTERPOLATION | TWIG_LITERAL_NUMBER | TWIG_LITERAL_ARRAY
  | TWIG_LITERAL_ARRAY_INNER | TWIG_LITERAL_NULL | TWIG_LITERAL_BOOLEAN | TWIG_LITERAL_HASH
  | TWIG_LITERAL_HASH_ITEMS | TWIG_LITERAL_HASH_PAIR | TWIG_LITERAL_HASH_KEY
  | TWIG_LITERAL_HASH_VALUE | TWIG_LITERAL_NAME | TWIG_COMMENT | TWIG_BLOCK | TWIG_STARTING_BLOCK
  | TWIG_ENDING_BLOCK | TWIG_IF | TWIG_IF_BLOCK | TWIG_ELSE_IF_BLOCK | TWIG_ELSE_BLOCK
  | TWIG_ENDIF_BLOCK | TWIG_SET | TWIG_SET_BLOCK | TWIG_ENDSET_BLOCK | TWIG_ASSIGNMENT | TWIG_FOR
  | TWIG_FOR_BLOCK | TWIG_FOR_ELSE_BLOCK | TWIG_ENDFOR_BLOCK | TWIG_EXTENDS | TWIG_INCLUDE
  | TWIG_INCLUDE_WITH | TWIG_USE | TWIG_OVERRIDE | TWIG_APPLY | TWIG_APPLY_STARTING_BLOCK
  | TWIG_APPLY_ENDING_BLOCK | TWIG_AUTOESCAPE | TWIG_AUTOESCAPE_STARTING_BLOCK
  | TWIG_AUTOESCAPE_ENDING_BLOCK | TWIG_DEPRECATED | TWIG_DO | TWIG_EMBED
  | TWIG_EMBED_STARTING_BLOCK | TWIG_EMBED_ENDING_BLOCK | TWIG_FLUSH | TWIG_FROM | TWIG_IMPORT
  | TWIG_SANDBOX | TWIG_SANDBOX_STARTING_BLOCK | TWIG_SANDBOX_ENDING_BLOCK | TWIG_VERBATIM
  | TWIG_VERBATIM_STARTING_BLOCK | TWIG_VERBATIM_ENDING_BLOCK | TWIG_MACRO
  | TWIG_MACRO_STARTING_BLOCK | TWIG_MACRO_ENDING_BLOCK | TWIG_WITH | TWIG_WITH_STARTING_BLOCK
  | TWIG_WITH_ENDING_BLOCK | TWIG_CACHE | TWIG_CACHE_TTL | TWIG_CACHE_TAGS
  | TWIG_CACHE_STARTING_BLOCK | TWIG_CACHE_ENDING_BLOCK | TWIG_PROPS | TWIG_PROP_DECLARATION
  | TWIG_COMPONENT | TWIG_COMPONENT_STARTING_BLOCK | TWIG_COMPONENT_ENDING_BLOCK | TWIG_TRANS
  | TWIG_TRANS_STARTING_BLOCK | TWIG_TRANS_ENDING_BLOCK | SHOPWARE_TWIG_SW_EXTENDS
  | SHOPWARE_TWIG_SW_INCLUDE | SHOPWARE_SILENT_FEATURE_CALL
  | SHOPWARE_SILENT_FEATURE_CALL_STARTING_BLOCK | SHOPWARE_SILENT_FEATURE_CALL_ENDING_BLOCK
  | SHOPWARE_RETURN | SHOPWARE_ICON | SHOPWARE_ICON_STYLE | SHOPWARE_THUMBNAILS
  | SHOPWARE_THUMBNAILS_WITH | HTML_DOCTYPE | HTML_ATTRIBUTE_LIST | HTML_ATTRIBUTE | HTML_STRING
  | HTML_STRING_INNER | HTML_TEXT | HTML_RAW_TEXT | HTML_COMMENT | HTML_TAG | HTML_STARTING_TAG
  | HTML_ENDING_TAG | LUDTWIG_DIRECTIVE_FILE_IGNORE | LUDTWIG_DIRECTIVE_IGNORE
  | LUDTWIG_DIRECTIVE_RULE_LIST | ERROR | ROOT
  deriving DecidableEq, Repr, Inhabited

namespace SyntaxKind

/-- All kinds in declaration order (the numbering of `#[repr(u16)]`). -/
def all : List SyntaxKind := [
  .TK_WHITESPACE, .TK_LINE_BREAK, .TK_WORD, .TK_TWIG_COMPONENT_NAME, .TK_NUMBER,
  .TK_HTML_ESCAPE_CHARACTER, .TK_DOT, .TK_DOUBLE_DOT, .TK_TRIPLE_DOT, .TK_COMMA, .TK_COLON,
  .TK_SEMICOLON, .TK_EXCLAMATION_MARK, .TK_EXCLAMATION_MARK_EQUALS,
  .TK_EXCLAMATION_MARK_DOUBLE_EQUALS, .TK_QUESTION_MARK, .TK_DOUBLE_QUESTION_MARK, .TK_PERCENT,
  .TK_TILDE, .TK_SINGLE_PIPE, .TK_DOUBLE_PIPE, .TK_AMPERSAND, .TK_DOUBLE_AMPERSAND,
  .TK_FORWARD_SLASH, .TK_DOUBLE_FORWARD_SLASH, .TK_BACKWARD_SLASH, .TK_OPEN_PARENTHESIS,
  .TK_CLOSE_PARENTHESIS, .TK_OPEN_CURLY, .TK_CLOSE_CURLY, .TK_OPEN_SQUARE, .TK_CLOSE_SQUARE,
  .TK_LESS_THAN, .TK_LESS_THAN_EQUAL, .TK_LESS_THAN_EQUAL_GREATER_THAN, .TK_LESS_THAN_SLASH,
  .TK_LESS_THAN_EXCLAMATION_MARK, .TK_DOCTYPE, .TK_GREATER_THAN, .TK_GREATER_THAN_EQUAL,
  .TK_EQUAL_GREATER_THAN, .TK_SLASH_GREATER_THAN, .TK_LESS_THAN_EXCLAMATION_MARK_MINUS_MINUS,
  .TK_MINUS_MINUS_GREATER_THAN, .TK_EQUAL, .TK_DOUBLE_EQUAL, .TK_TRIPLE_EQUAL, .TK_PLUS,
  .TK_MINUS, .TK_STAR, .TK_DOUBLE_STAR, .TK_DOUBLE_QUOTES, .TK_SINGLE_QUOTES,
  .TK_GRAVE_ACCENT_QUOTES, .TK_CURLY_PERCENT, .TK_CURLY_PERCENT_MINUS, .TK_CURLY_PERCENT_TILDE,
  .TK_PERCENT_CURLY, .TK_MINUS_PERCENT_CURLY, .TK_TILDE_PERCENT_CURLY, .TK_OPEN_CURLY_CURLY,
  .TK_OPEN_CURLY_CURLY_MINUS, .TK_OPEN_CURLY_CURLY_TILDE, .TK_CLOSE_CURLY_CURLY,
  .TK_MINUS_CLOSE_CURLY_CURLY, .TK_TILDE_CLOSE_CURLY_CURLY, .TK_OPEN_CURLY_HASHTAG,
  .TK_OPEN_CURLY_HASHTAG_MINUS, .TK_OPEN_CURLY_HASHTAG_TILDE, .TK_HASHTAG_CLOSE_CURLY,
  .TK_MINUS_HASHTAG_CLOSE_CURLY, .TK_TILDE_HASHTAG_CLOSE_CURLY, .TK_HASHTAG, .TK_TRUE, .TK_FALSE,
  .TK_BLOCK, .TK_ENDBLOCK, .TK_IF, .TK_ELSE_IF, .TK_ELSE, .TK_ENDIF, .TK_APPLY, .TK_ENDAPPLY,
  .TK_AUTOESCAPE, .TK_ENDAUTOESCAPE, .TK_CACHE, .TK_ENDCACHE, .TK_DEPRECATED, .TK_DO, .TK_EMBED,
  .TK_ENDEMBED, .TK_EXTENDS, .TK_FLUSH, .TK_FOR, .TK_ENDFOR, .TK_FROM, .TK_IMPORT, .TK_MACRO,
  .TK_ENDMACRO, .TK_SANDBOX, .TK_ENDSANDBOX, .TK_SET, .TK_ENDSET, .TK_USE, .TK_VERBATIM,
  .TK_ENDVERBATIM, .TK_ONLY, .TK_IGNORE_MISSING, .TK_WITH, .TK_ENDWITH, .TK_TTL, .TK_TAGS,
  .TK_PROPS, .TK_COMPONENT, .TK_ENDCOMPONENT, .TK_NOT, .TK_NOT_IN, .TK_OR, .TK_AND,
  .TK_BINARY_OR, .TK_BINARY_XOR, .TK_BINARY_AND, .TK_IN, .TK_MATCHES, .TK_STARTS_WITH,
  .TK_ENDS_WITH, .TK_IS, .TK_IS_NOT, .TK_EVEN, .TK_ODD, .TK_DEFINED, .TK_SAME_AS, .TK_AS,
  .TK_NONE, .TK_NULL, .TK_DIVISIBLE_BY, .TK_CONSTANT, .TK_EMPTY, .TK_ITERABLE, .TK_MAX, .TK_MIN,
  .TK_RANGE, .TK_CYCLE, .TK_RANDOM, .TK_DATE, .TK_INCLUDE, .TK_SOURCE, .TK_TRANS, .TK_ENDTRANS,
  .TK_SW_EXTENDS, .TK_SW_SILENT_FEATURE_CALL, .TK_ENDSW_SILENT_FEATURE_CALL, .TK_SW_INCLUDE,
  .TK_RETURN, .TK_SW_ICON, .TK_SW_THUMBNAILS, .TK_STYLE, .TK_SW_EMBED, .TK_SW_END_EMBED,
  .TK_SW_USE, .TK_SW_IMPORT, .TK_SW_FROM, .TK_LUDTWIG_IGNORE_FILE, .TK_LUDTWIG_IGNORE,
  .TK_UNKNOWN, .BODY, .TWIG_VAR, .TWIG_EXPRESSION, .TWIG_BINARY_EXPRESSION,
  .TWIG_UNARY_EXPRESSION, .TWIG_PARENTHESES_EXPRESSION, .TWIG_CONDITIONAL_EXPRESSION,
  .TWIG_OPERAND, .TWIG_ACCESSOR, .TWIG_FILTER, .TWIG_INDEX_LOOKUP, .TWIG_INDEX,
  .TWIG_INDEX_RANGE, .TWIG_FUNCTION_CALL, .TWIG_ARROW_FUNCTION, .TWIG_ARGUMENTS,
  .TWIG_NAMED_ARGUMENT, .TWIG_LITERAL_STRING, .TWIG_LITERAL_STRING_INNER,
  .TWIG_LITERAL_STRING_INTERPOLATION, .TWIG_LITERAL_NUMBER, .TWIG_LITERAL_ARRAY,
  .TWIG_LITERAL_ARRAY_INNER, .TWIG_LITERAL_NULL, .TWIG_LITERAL_BOOLEAN, .TWIG_LITERAL_HASH,
  .TWIG_LITERAL_HASH_ITEMS, .TWIG_LITERAL_HASH_PAIR, .TWIG_LITERAL_HASH_KEY,
  .TWIG_LITERAL_HASH_VALUE, .TWIG_LITERAL_NAME, .TWIG_COMMENT, .TWIG_BLOCK, .TWIG_STARTING_BLOCK,
  .TWIG_ENDING_BLOCK, .TWIG_IF, .TWIG_IF_BLOCK, .TWIG_ELSE_IF_BLOCK, .TWIG_ELSE_BLOCK,
  .TWIG_ENDIF_BLOCK, .TWIG_SET, .TWIG_SET_BLOCK, .TWIG_ENDSET_BLOCK, .TWIG_ASSIGNMENT, .TWIG_FOR,
  .TWIG_FOR_BLOCK, .TWIG_FOR_ELSE_BLOCK, .TWIG_ENDFOR_BLOCK, .TWIG_EXTENDS, .TWIG_INCLUDE,
  .TWIG_INCLUDE_WITH, .TWIG_USE, .TWIG_OVERRIDE, .TWIG_APPLY, .TWIG_APPLY_STARTING_BLOCK,
  .TWIG_APPLY_ENDING_BLOCK, .TWIG_AUTOESCAPE, .TWIG_AUTOESCAPE_STARTING_BLOCK,
  .TWIG_AUTOESCAPE_ENDING_BLOCK, .TWIG_DEPRECATED, .TWIG_DO, .TWIG_EMBED,
  .TWIG_EMBED_STARTING_BLOCK, .TWIG_EMBED_ENDING_BLOCK, .TWIG_FLUSH, .TWIG_FROM, .TWIG_IMPORT,
  .TWIG_SANDBOX, .TWIG_SANDBOX_STARTING_BLOCK, .TWIG_SANDBOX_ENDING_BLOCK, .TWIG_VERBATIM,
  .TWIG_VERBATIM_STARTING_BLOCK, .TWIG_VERBATIM_ENDING_BLOCK, .TWIG_MACRO,
  .TWIG_MACRO_STARTING_BLOCK, .TWIG_MACRO_ENDING_BLOCK, .TWIG_WITH, .TWIG_WITH_STARTING_BLOCK,
  .TWIG_WITH_ENDING_BLOCK, .TWIG_CACHE, .TWIG_CACHE_TTL, .TWIG_CACHE_TAGS,
  .TWIG_CACHE_STARTING_BLOCK, .TWIG_CACHE_ENDING_BLOCK, .TWIG_PROPS, .TWIG_PROP_DECLARATION,
  .TWIG_COMPONENT, .TWIG_COMPONENT_STARTING_BLOCK, .TWIG_COMPONENT_ENDING_BLOCK, .TWIG_TRANS,
  .TWIG_TRANS_STARTING_BLOCK, .TWIG_TRANS_ENDING_BLOCK, .SHOPWARE_TWIG_SW_EXTENDS,
  .SHOPWARE_TWIG_SW_INCLUDE, .SHOPWARE_SILENT_FEATURE_CALL,
  .SHOPWARE_SILENT_FEATURE_CALL_STARTING_BLOCK, .SHOPWARE_SILENT_FEATURE_CALL_ENDING_BLOCK,
  .SHOPWARE_RETURN, .SHOPWARE_ICON, .SHOPWARE_ICON_STYLE, .SHOPWARE_THUMBNAILS,
  .SHOPWARE_THUMBNAILS_WITH, .HTML_DOCTYPE, .HTML_ATTRIBUTE_LIST, .HTML_ATTRIBUTE, .HTML_STRING,
  .HTML_STRING_INNER, .HTML_TEXT, .HTML_RAW_TEXT, .HTML_COMMENT, .HTML_TAG, .HTML_STARTING_TAG,
  .HTML_ENDING_TAG, .LUDTWIG_DIRECTIVE_FILE_IGNORE, .LUDTWIG_DIRECTIVE_IGNORE,
  .LUDTWIG_DIRECTIVE_RULE_LIST, .ERROR, .ROOT]

/-- `is_trivia`, untyped.rs 932–935. -/
def isTrivia (k : SyntaxKind) : Bool := k == .TK_WHITESPACE || k == .TK_LINE_BREAK

/-- `kind_to_raw` (untyped.rs 943–947, 960–962): the discriminant. -/
def toRaw (k : SyntaxKind) : Nat := k.ctorIdx

/-- `kind_from_raw` (untyped.rs 956–959): the assertion on the number, then the `transmute` (which
is defined behaviour exactly if the number is a discriminant; `none` is the panic of the
assertion). -/
def fromRaw (n : Nat) : Option SyntaxKind := if n ≤ toRaw .ROOT then all[n]? else none

/-- `Display`, untyped.rs 756–926; the kinds for which the code panics (`unreachable!`) have no
name. -/
def displayTable : List (SyntaxKind × String) := [
  (.TK_WHITESPACE, "whitespace"), (.TK_LINE_BREAK, "line break"), (.TK_WORD, "word"),
  (.TK_TWIG_COMPONENT_NAME, "twig component name"), (.TK_NUMBER, "number"),
  (.TK_HTML_ESCAPE_CHARACTER, "html escape character"), (.TK_DOT, "."), (.TK_DOUBLE_DOT, ".."),
  (.TK_TRIPLE_DOT, "..."), (.TK_COMMA, ","), (.TK_COLON, ":"), (.TK_SEMICOLON, ";"),
  (.TK_EXCLAMATION_MARK, "!"), (.TK_EXCLAMATION_MARK_EQUALS, "!="),
  (.TK_EXCLAMATION_MARK_DOUBLE_EQUALS, "!=="), (.TK_QUESTION_MARK, "?"),
  (.TK_DOUBLE_QUESTION_MARK, "??"), (.TK_PERCENT, "%"), (.TK_TILDE, "~"), (.TK_SINGLE_PIPE, "|"),
  (.TK_DOUBLE_PIPE, "||"), (.TK_AMPERSAND, "&"), (.TK_DOUBLE_AMPERSAND, "&&"),
  (.TK_FORWARD_SLASH, "/"), (.TK_DOUBLE_FORWARD_SLASH, "//"), (.TK_BACKWARD_SLASH, "\\"),
  (.TK_OPEN_PARENTHESIS, "("), (.TK_CLOSE_PARENTHESIS, ")"), (.TK_OPEN_CURLY, "{"),
  (.TK_CLOSE_CURLY, "}"), (.TK_OPEN_SQUARE, "["), (.TK_CLOSE_SQUARE, "]"), (.TK_LESS_THAN, "<"),
  (.TK_LESS_THAN_EQUAL, "<="), (.TK_LESS_THAN_EQUAL_GREATER_THAN, "<=>"),
  (.TK_LESS_THAN_SLASH, "</"), (.TK_LESS_THAN_EXCLAMATION_MARK, "<!"), (.TK_DOCTYPE, "DOCTYPE"),
  (.TK_GREATER_THAN, ">"), (.TK_GREATER_THAN_EQUAL, ">="), (.TK_EQUAL_GREATER_THAN, "=>"),
  (.TK_SLASH_GREATER_THAN, "/>"), (.TK_LESS_THAN_EXCLAMATION_MARK_MINUS_MINUS, "<!--"),
  (.TK_MINUS_MINUS_GREATER_THAN, "-->"), (.TK_EQUAL, "="), (.TK_DOUBLE_EQUAL, "=="),
  (.TK_TRIPLE_EQUAL, "==="), (.TK_PLUS, "+"), (.TK_MINUS, "-"), (.TK_STAR, "*"),
  (.TK_DOUBLE_STAR, "**"), (.TK_DOUBLE_QUOTES, "\""), (.TK_SINGLE_QUOTES, "'"),
  (.TK_GRAVE_ACCENT_QUOTES, "`"), (.TK_CURLY_PERCENT, "{%"), (.TK_CURLY_PERCENT_MINUS, "{%-"),
  (.TK_CURLY_PERCENT_TILDE, "{%~"), (.TK_PERCENT_CURLY, "%}"), (.TK_MINUS_PERCENT_CURLY, "-%}"),
  (.TK_TILDE_PERCENT_CURLY, "~%}"), (.TK_OPEN_CURLY_CURLY, "{{"),
  (.TK_OPEN_CURLY_CURLY_MINUS, "{{-"), (.TK_OPEN_CURLY_CURLY_TILDE, "{{~"),
  (.TK_CLOSE_CURLY_CURLY, "}}"), (.TK_MINUS_CLOSE_CURLY_CURLY, "-}}"),
  (.TK_TILDE_CLOSE_CURLY_CURLY, "~}}"), (.TK_OPEN_CURLY_HASHTAG, "{#"),
  (.TK_OPEN_CURLY_HASHTAG_MINUS, "{#-"), (.TK_OPEN_CURLY_HASHTAG_TILDE, "{#~"),
  (.TK_HASHTAG_CLOSE_CURLY, "#}"), (.TK_MINUS_HASHTAG_CLOSE_CURLY, "-#}"),
  (.TK_TILDE_HASHTAG_CLOSE_CURLY, "~#}"), (.TK_HASHTAG, "#"), (.TK_TRUE, "true"),
  (.TK_FALSE, "false"), (.TK_BLOCK, "block"), (.TK_ENDBLOCK, "endblock"), (.TK_IF, "if"),
  (.TK_ELSE_IF, "elseif"), (.TK_ELSE, "else"), (.TK_ENDIF, "endif"), (.TK_APPLY, "apply"),
  (.TK_ENDAPPLY, "endapply"), (.TK_AUTOESCAPE, "autoescape"),
  (.TK_ENDAUTOESCAPE, "endautoescape"), (.TK_CACHE, "cache"), (.TK_ENDCACHE, "endcache"),
  (.TK_DEPRECATED, "deprecated"), (.TK_DO, "do"), (.TK_EMBED, "embed"),
  (.TK_ENDEMBED, "endembed"), (.TK_EXTENDS, "extends"), (.TK_FLUSH, "flush"), (.TK_FOR, "for"),
  (.TK_ENDFOR, "endfor"), (.TK_FROM, "from"), (.TK_IMPORT, "import"), (.TK_MACRO, "macro"),
  (.TK_ENDMACRO, "endmacro"), (.TK_SANDBOX, "sandbox"), (.TK_ENDSANDBOX, "endsandbox"),
  (.TK_SET, "set"), (.TK_ENDSET, "endset"), (.TK_USE, "use"), (.TK_VERBATIM, "verbatim"),
  (.TK_ENDVERBATIM, "endverbatim"), (.TK_ONLY, "only"), (.TK_IGNORE_MISSING, "ignore missing"),
  (.TK_WITH, "with"), (.TK_ENDWITH, "endwith"), (.TK_TTL, "ttl"), (.TK_TAGS, "tags"),
  (.TK_PROPS, "props"), (.TK_COMPONENT, "component"), (.TK_ENDCOMPONENT, "endcomponent"),
  (.TK_NOT, "not"), (.TK_NOT_IN, "not in"), (.TK_OR, "or"), (.TK_AND, "and"),
  (.TK_BINARY_OR, "b-or"), (.TK_BINARY_XOR, "b-xor"), (.TK_BINARY_AND, "b-and"), (.TK_IN, "in"),
  (.TK_MATCHES, "matches"), (.TK_STARTS_WITH, "starts with"), (.TK_ENDS_WITH, "ends with"),
  (.TK_IS, "is"), (.TK_IS_NOT, "is not"), (.TK_EVEN, "even"), (.TK_ODD, "odd"),
  (.TK_DEFINED, "defined"), (.TK_SAME_AS, "same as"), (.TK_AS, "as"), (.TK_NONE, "none"),
  (.TK_NULL, "null"), (.TK_DIVISIBLE_BY, "divisible by"), (.TK_CONSTANT, "constant"),
  (.TK_EMPTY, "empty"), (.TK_ITERABLE, "iterable"), (.TK_MAX, "max"), (.TK_MIN, "min"),
  (.TK_RANGE, "range"), (.TK_CYCLE, "cycle"), (.TK_RANDOM, "random"), (.TK_DATE, "date"),
  (.TK_INCLUDE, "include"), (.TK_SOURCE, "source"), (.TK_TRANS, "trans"),
  (.TK_ENDTRANS, "endtrans"), (.TK_SW_EXTENDS, "sw_extends"),
  (.TK_SW_SILENT_FEATURE_CALL, "sw_silent_feature_call"),
  (.TK_ENDSW_SILENT_FEATURE_CALL, "endsw_silent_feature_call"), (.TK_SW_INCLUDE, "sw_include"),
  (.TK_RETURN, "return"), (.TK_SW_ICON, "sw_icon"), (.TK_SW_THUMBNAILS, "sw_thumbnails"),
  (.TK_STYLE, "style"), (.TK_SW_EMBED, "sw_embed"), (.TK_SW_END_EMBED, "sw_end_embed"),
  (.TK_SW_USE, "sw_use"), (.TK_SW_IMPORT, "sw_import"), (.TK_SW_FROM, "sw_from"),
  (.TK_LUDTWIG_IGNORE_FILE, "ludtwig-ignore-file"), (.TK_LUDTWIG_IGNORE, "ludtwig-ignore"),
  (.TK_UNKNOWN, "unknown"), (.ERROR, "error")]

/-- `Display::fmt`; `none` is the panic of `unreachable!`. -/
def display? (k : SyntaxKind) : Option String := (displayTable.find? (fun p => p.1 == k)).map (·.2)

/-- `Display::fmt` for kinds that have a name. -/
def display (k : SyntaxKind) : String := k.display?.getD ""

end SyntaxKind

/-- A `#[token(..)]` attribute: the literal, whether letter case is ignored, and the kind. -/
structure Literal where
  text : List Char
  ignoreCase : Bool
  kind : SyntaxKind
  deriving Repr, DecidableEq

/-- The literal tokens of the lexer (untyped.rs 38–420, all `#[token(..)]` attributes). -/
def literals : List Literal := [
  ⟨['.'], false, .TK_DOT⟩,
  ⟨['.', '.'], false, .TK_DOUBLE_DOT⟩,
  ⟨['.', '.', '.'], false, .TK_TRIPLE_DOT⟩,
  ⟨[','], false, .TK_COMMA⟩,
  ⟨[':'], false, .TK_COLON⟩,
  ⟨[';'], false, .TK_SEMICOLON⟩,
  ⟨['!'], false, .TK_EXCLAMATION_MARK⟩,
  ⟨['!', '='], false, .TK_EXCLAMATION_MARK_EQUALS⟩,
  ⟨['!', '=', '='], false, .TK_EXCLAMATION_MARK_DOUBLE_EQUALS⟩,
  ⟨['?'], false, .TK_QUESTION_MARK⟩,
  ⟨['?', '?'], false, .TK_DOUBLE_QUESTION_MARK⟩,
  ⟨['%'], false, .TK_PERCENT⟩,
  ⟨['~'], false, .TK_TILDE⟩,
  ⟨['|'], false, .TK_SINGLE_PIPE⟩,
  ⟨['|', '|'], false, .TK_DOUBLE_PIPE⟩,
  ⟨['&'], false, .TK_AMPERSAND⟩,
  ⟨['&', '&'], false, .TK_DOUBLE_AMPERSAND⟩,
  ⟨['/'], false, .TK_FORWARD_SLASH⟩,
  ⟨['/', '/'], false, .TK_DOUBLE_FORWARD_SLASH⟩,
  ⟨['\\'], false, .TK_BACKWARD_SLASH⟩,
  ⟨['('], false, .TK_OPEN_PARENTHESIS⟩,
  ⟨[')'], false, .TK_CLOSE_PARENTHESIS⟩,
  ⟨['{'], false, .TK_OPEN_CURLY⟩,
  ⟨['}'], false, .TK_CLOSE_CURLY⟩,
  ⟨['['], false, .TK_OPEN_SQUARE⟩,
  ⟨[']'], false, .TK_CLOSE_SQUARE⟩,
  ⟨['<'], false, .TK_LESS_THAN⟩,
  ⟨['<', '='], false, .TK_LESS_THAN_EQUAL⟩,
  ⟨['<', '=', '>'], false, .TK_LESS_THAN_EQUAL_GREATER_THAN⟩,
  ⟨['<', '/'], false, .TK_LESS_THAN_SLASH⟩,
  ⟨['<', '!'], false, .TK_LESS_THAN_EXCLAMATION_MARK⟩,
  ⟨['D', 'O', 'C', 'T', 'Y', 'P', 'E'], true, .TK_DOCTYPE⟩,
  ⟨['>'], false, .TK_GREATER_THAN⟩,
  ⟨['>', '='], false, .TK_GREATER_THAN_EQUAL⟩,
  ⟨['=', '>'], false, .TK_EQUAL_GREATER_THAN⟩,
  ⟨['/', '>'], false, .TK_SLASH_GREATER_THAN⟩,
  ⟨['<', '!', '-', '-'], false, .TK_LESS_THAN_EXCLAMATION_MARK_MINUS_MINUS⟩,
  ⟨['-', '-', '>'], false, .TK_MINUS_MINUS_GREATER_THAN⟩,
  ⟨['='], false, .TK_EQUAL⟩,
  ⟨['=', '='], false, .TK_DOUBLE_EQUAL⟩,
  ⟨['=', '=', '='], false, .TK_TRIPLE_EQUAL⟩,
  ⟨['+'], false, .TK_PLUS⟩,
  ⟨['-'], false, .TK_MINUS⟩,
  ⟨['*'], false, .TK_STAR⟩,
  ⟨['*', '*'], false, .TK_DOUBLE_STAR⟩,
  ⟨['"'], false, .TK_DOUBLE_QUOTES⟩,
  ⟨['\''], false, .TK_SINGLE_QUOTES⟩,
  ⟨['`'], false, .TK_GRAVE_ACCENT_QUOTES⟩,
  ⟨['{', '%'], false, .TK_CURLY_PERCENT⟩,
  ⟨['{', '%', '-'], false, .TK_CURLY_PERCENT_MINUS⟩,
  ⟨['{', '%', '~'], false, .TK_CURLY_PERCENT_TILDE⟩,
  ⟨['%', '}'], false, .TK_PERCENT_CURLY⟩,
  ⟨['-', '%', '}'], false, .TK_MINUS_PERCENT_CURLY⟩,
  ⟨['~', '%', '}'], false, .TK_TILDE_PERCENT_CURLY⟩,
  ⟨['{', '{'], false, .TK_OPEN_CURLY_CURLY⟩,
  ⟨['{', '{', '-'], false, .TK_OPEN_CURLY_CURLY_MINUS⟩,
  ⟨['{', '{', '~'], false, .TK_OPEN_CURLY_CURLY_TILDE⟩,
  ⟨['}', '}'], false, .TK_CLOSE_CURLY_CURLY⟩,
  ⟨['-', '}', '}'], false, .TK_MINUS_CLOSE_CURLY_CURLY⟩,
  ⟨['~', '}', '}'], false, .TK_TILDE_CLOSE_CURLY_CURLY⟩,
  ⟨['{', '#'], false, .TK_OPEN_CURLY_HASHTAG⟩,
  ⟨['{', '#', '-'], false, .TK_OPEN_CURLY_HASHTAG_MINUS⟩,
  ⟨['{', '#', '~'], false, .TK_OPEN_CURLY_HASHTAG_TILDE⟩,
  ⟨['#', '}'], false, .TK_HASHTAG_CLOSE_CURLY⟩,
  ⟨['-', '#', '}'], false, .TK_MINUS_HASHTAG_CLOSE_CURLY⟩,
  ⟨['~', '#', '}'], false, .TK_TILDE_HASHTAG_CLOSE_CURLY⟩,
  ⟨['#'], false, .TK_HASHTAG⟩,
  ⟨['t', 'r', 'u', 'e'], true, .TK_TRUE⟩,
  ⟨['f', 'a', 'l', 's', 'e'], true, .TK_FALSE⟩,
  ⟨['b', 'l', 'o', 'c', 'k'], false, .TK_BLOCK⟩,
  ⟨['e', 'n', 'd', 'b', 'l', 'o', 'c', 'k'], false, .TK_ENDBLOCK⟩,
  ⟨['i', 'f'], false, .TK_IF⟩,
  ⟨['e', 'l', 's', 'e', 'i', 'f'], false, .TK_ELSE_IF⟩,
  ⟨['e', 'l', 's', 'e'], false, .TK_ELSE⟩,
  ⟨['e', 'n', 'd', 'i', 'f'], false, .TK_ENDIF⟩,
  ⟨['a', 'p', 'p', 'l', 'y'], false, .TK_APPLY⟩,
  ⟨['e', 'n', 'd', 'a', 'p', 'p', 'l', 'y'], false, .TK_ENDAPPLY⟩,
  ⟨['a', 'u', 't', 'o', 'e', 's', 'c', 'a', 'p', 'e'], false, .TK_AUTOESCAPE⟩,
  ⟨['e', 'n', 'd', 'a', 'u', 't', 'o', 'e', 's', 'c', 'a', 'p', 'e'], false, .TK_ENDAUTOESCAPE⟩,
  ⟨['c', 'a', 'c', 'h', 'e'], false, .TK_CACHE⟩,
  ⟨['e', 'n', 'd', 'c', 'a', 'c', 'h', 'e'], false, .TK_ENDCACHE⟩,
  ⟨['d', 'e', 'p', 'r', 'e', 'c', 'a', 't', 'e', 'd'], false, .TK_DEPRECATED⟩,
  ⟨['d', 'o'], false, .TK_DO⟩,
  ⟨['e', 'm', 'b', 'e', 'd'], false, .TK_EMBED⟩,
  ⟨['e', 'n', 'd', 'e', 'm', 'b', 'e', 'd'], false, .TK_ENDEMBED⟩,
  ⟨['e', 'x', 't', 'e', 'n', 'd', 's'], false, .TK_EXTENDS⟩,
  ⟨['f', 'l', 'u', 's', 'h'], false, .TK_FLUSH⟩,
  ⟨['f', 'o', 'r'], false, .TK_FOR⟩,
  ⟨['e', 'n', 'd', 'f', 'o', 'r'], false, .TK_ENDFOR⟩,
  ⟨['f', 'r', 'o', 'm'], false, .TK_FROM⟩,
  ⟨['i', 'm', 'p', 'o', 'r', 't'], false, .TK_IMPORT⟩,
  ⟨['m', 'a', 'c', 'r', 'o'], false, .TK_MACRO⟩,
  ⟨['e', 'n', 'd', 'm', 'a', 'c', 'r', 'o'], false, .TK_ENDMACRO⟩,
  ⟨['s', 'a', 'n', 'd', 'b', 'o', 'x'], false, .TK_SANDBOX⟩,
  ⟨['e', 'n', 'd', 's', 'a', 'n', 'd', 'b', 'o', 'x'], false, .TK_ENDSANDBOX⟩,
  ⟨['s', 'e', 't'], false, .TK_SET⟩,
  ⟨['e', 'n', 'd', 's', 'e', 't'], false, .TK_ENDSET⟩,
  ⟨['u', 's', 'e'], false, .TK_USE⟩,
  ⟨['v', 'e', 'r', 'b', 'a', 't', 'i', 'm'], false, .TK_VERBATIM⟩,
  ⟨['e', 'n', 'd', 'v', 'e', 'r', 'b', 'a', 't', 'i', 'm'], false, .TK_ENDVERBATIM⟩,
  ⟨['o', 'n', 'l', 'y'], false, .TK_ONLY⟩,
  ⟨['i', 'g', 'n', 'o', 'r', 'e', ' ', 'm', 'i', 's', 's', 'i', 'n', 'g'], false, .TK_IGNORE_MISSING⟩,
  ⟨['w', 'i', 't', 'h'], false, .TK_WITH⟩,
  ⟨['e', 'n', 'd', 'w', 'i', 't', 'h'], false, .TK_ENDWITH⟩,
  ⟨['t', 't', 'l'], false, .TK_TTL⟩,
  ⟨['t', 'a', 'g', 's'], false, .TK_TAGS⟩,
  ⟨['p', 'r', 'o', 'p', 's'], false, .TK_PROPS⟩,
  ⟨['c', 'o', 'm', 'p', 'o', 'n', 'e', 'n', 't'], false, .TK_COMPONENT⟩,
  ⟨['e', 'n', 'd', 'c', 'o', 'm', 'p', 'o', 'n', 'e', 'n', 't'], false, .TK_ENDCOMPONENT⟩,
  ⟨['n', 'o', 't'], false, .TK_NOT⟩,
  ⟨['o', 'r'], false, .TK_OR⟩,
  ⟨['a', 'n', 'd'], false, .TK_AND⟩,
  ⟨['b', '-', 'o', 'r'], false, .TK_BINARY_OR⟩,
  ⟨['b', '-', 'x', 'o', 'r'], false, .TK_BINARY_XOR⟩,
  ⟨['b', '-', 'a', 'n', 'd'], false, .TK_BINARY_AND⟩,
  ⟨['i', 'n'], false, .TK_IN⟩,
  ⟨['m', 'a', 't', 'c', 'h', 'e', 's'], false, .TK_MATCHES⟩,
  ⟨['s', 't', 'a', 'r', 't', 's', ' ', 'w', 'i', 't', 'h'], false, .TK_STARTS_WITH⟩,
  ⟨['e', 'n', 'd', 's', ' ', 'w', 'i', 't', 'h'], false, .TK_ENDS_WITH⟩,
  ⟨['i', 's'], false, .TK_IS⟩,
  ⟨['e', 'v', 'e', 'n'], false, .TK_EVEN⟩,
  ⟨['o', 'd', 'd'], false, .TK_ODD⟩,
  ⟨['d', 'e', 'f', 'i', 'n', 'e', 'd'], false, .TK_DEFINED⟩,
  ⟨['s', 'a', 'm', 'e', ' ', 'a', 's'], false, .TK_SAME_AS⟩,
  ⟨['a', 's'], false, .TK_AS⟩,
  ⟨['n', 'o', 'n', 'e'], true, .TK_NONE⟩,
  ⟨['n', 'u', 'l', 'l'], true, .TK_NULL⟩,
  ⟨['d', 'i', 'v', 'i', 's', 'i', 'b', 'l', 'e', ' ', 'b', 'y'], false, .TK_DIVISIBLE_BY⟩,
  ⟨['c', 'o', 'n', 's', 't', 'a', 'n', 't'], false, .TK_CONSTANT⟩,
  ⟨['e', 'm', 'p', 't', 'y'], false, .TK_EMPTY⟩,
  ⟨['i', 't', 'e', 'r', 'a', 'b', 'l', 'e'], false, .TK_ITERABLE⟩,
  ⟨['m', 'a', 'x'], false, .TK_MAX⟩,
  ⟨['m', 'i', 'n'], false, .TK_MIN⟩,
  ⟨['r', 'a', 'n', 'g', 'e'], false, .TK_RANGE⟩,
  ⟨['c', 'y', 'c', 'l', 'e'], false, .TK_CYCLE⟩,
  ⟨['r', 'a', 'n', 'd', 'o', 'm'], false, .TK_RANDOM⟩,
  ⟨['d', 'a', 't', 'e'], false, .TK_DATE⟩,
  ⟨['i', 'n', 'c', 'l', 'u', 'd', 'e'], false, .TK_INCLUDE⟩,
  ⟨['s', 'o', 'u', 'r', 'c', 'e'], false, .TK_SOURCE⟩,
  ⟨['t', 'r', 'a', 'n', 's'], false, .TK_TRANS⟩,
  ⟨['e', 'n', 'd', 't', 'r', 'a', 'n', 's'], false, .TK_ENDTRANS⟩,
  ⟨['s', 'w', '_', 'e', 'x', 't', 'e', 'n', 'd', 's'], false, .TK_SW_EXTENDS⟩,
  ⟨['s', 'w', '_', 's', 'i', 'l', 'e', 'n', 't', '_', 'f', 'e', 'a', 't', 'u', 'r', 'e', '_', 'c', 'a', 'l', 'l'], false, .TK_SW_SILENT_FEATURE_CALL⟩,
  ⟨['e', 'n', 'd', 's', 'w', '_', 's', 'i', 'l', 'e', 'n', 't', '_', 'f', 'e', 'a', 't', 'u', 'r', 'e', '_', 'c', 'a', 'l', 'l'], false, .TK_ENDSW_SILENT_FEATURE_CALL⟩,
  ⟨['s', 'w', '_', 'i', 'n', 'c', 'l', 'u', 'd', 'e'], false, .TK_SW_INCLUDE⟩,
  ⟨['r', 'e', 't', 'u', 'r', 'n'], false, .TK_RETURN⟩,
  ⟨['s', 'w', '_', 'i', 'c', 'o', 'n'], false, .TK_SW_ICON⟩,
  ⟨['s', 'w', '_', 't', 'h', 'u', 'm', 'b', 'n', 'a', 'i', 'l', 's'], false, .TK_SW_THUMBNAILS⟩,
  ⟨['s', 't', 'y', 'l', 'e'], false, .TK_STYLE⟩,
  ⟨['s', 'w', '_', 'e', 'm', 'b', 'e', 'd'], false, .TK_SW_EMBED⟩,
  ⟨['s', 'w', '_', 'e', 'n', 'd', '_', 'e', 'm', 'b', 'e', 'd'], false, .TK_SW_END_EMBED⟩,
  ⟨['s', 'w', '_', 'u', 's', 'e'], false, .TK_SW_USE⟩,
  ⟨['s', 'w', '_', 'i', 'm', 'p', 'o', 'r', 't'], false, .TK_SW_IMPORT⟩,
  ⟨['s', 'w', '_', 'f', 'r', 'o', 'm'], false, .TK_SW_FROM⟩,
  ⟨['l', 'u', 'd', 't', 'w', 'i', 'g', '-', 'i', 'g', 'n', 'o', 'r', 'e', '-', 'f', 'i', 'l', 'e'], true, .TK_LUDTWIG_IGNORE_FILE⟩,
  ⟨['l', 'u', 'd', 't', 'w', 'i', 'g', '-', 'i', 'g', 'n', 'o', 'r', 'e'], true, .TK_LUDTWIG_IGNORE⟩]

/-- The `T!` macro, untyped.rs 587–753, written `T!"{%"` for `T!["{%"]`. -/
syntax:max "T!" noWs str : term

macro_rules
  | `(T!$s) => match s.getString with
    | "ws" => `(SyntaxKind.TK_WHITESPACE)
    | "lb" => `(SyntaxKind.TK_LINE_BREAK)
    | "word" => `(SyntaxKind.TK_WORD)
    | "twig component name" => `(SyntaxKind.TK_TWIG_COMPONENT_NAME)
    | "number" => `(SyntaxKind.TK_NUMBER)
    | "html escape character" => `(SyntaxKind.TK_HTML_ESCAPE_CHARACTER)
    | "unknown" => `(SyntaxKind.TK_UNKNOWN)
    | "." => `(SyntaxKind.TK_DOT)
    | ".." => `(SyntaxKind.TK_DOUBLE_DOT)
    | "..." => `(SyntaxKind.TK_TRIPLE_DOT)
    | "," => `(SyntaxKind.TK_COMMA)
    | ":" => `(SyntaxKind.TK_COLON)
    | ";" => `(SyntaxKind.TK_SEMICOLON)
    | "!" => `(SyntaxKind.TK_EXCLAMATION_MARK)
    | "!=" => `(SyntaxKind.TK_EXCLAMATION_MARK_EQUALS)
    | "!==" => `(SyntaxKind.TK_EXCLAMATION_MARK_DOUBLE_EQUALS)
    | "?" => `(SyntaxKind.TK_QUESTION_MARK)
    | "??" => `(SyntaxKind.TK_DOUBLE_QUESTION_MARK)
    | "%" => `(SyntaxKind.TK_PERCENT)
    | "~" => `(SyntaxKind.TK_TILDE)
    | "|" => `(SyntaxKind.TK_SINGLE_PIPE)
    | "||" => `(SyntaxKind.TK_DOUBLE_PIPE)
    | "&" => `(SyntaxKind.TK_AMPERSAND)
    | "&&" => `(SyntaxKind.TK_DOUBLE_AMPERSAND)
    | "/" => `(SyntaxKind.TK_FORWARD_SLASH)
    | "//" => `(SyntaxKind.TK_DOUBLE_FORWARD_SLASH)
    | "\\" => `(SyntaxKind.TK_BACKWARD_SLASH)
    | "(" => `(SyntaxKind.TK_OPEN_PARENTHESIS)
    | ")" => `(SyntaxKind.TK_CLOSE_PARENTHESIS)
    | "{" => `(SyntaxKind.TK_OPEN_CURLY)
    | "}" => `(SyntaxKind.TK_CLOSE_CURLY)
    | "[" => `(SyntaxKind.TK_OPEN_SQUARE)
    | "]" => `(SyntaxKind.TK_CLOSE_SQUARE)
    | "<" => `(SyntaxKind.TK_LESS_THAN)
    | "<=" => `(SyntaxKind.TK_LESS_THAN_EQUAL)
    | "<=>" => `(SyntaxKind.TK_LESS_THAN_EQUAL_GREATER_THAN)
    | "</" => `(SyntaxKind.TK_LESS_THAN_SLASH)
    | "<!" => `(SyntaxKind.TK_LESS_THAN_EXCLAMATION_MARK)
    | "DOCTYPE" => `(SyntaxKind.TK_DOCTYPE)
    | ">" => `(SyntaxKind.TK_GREATER_THAN)
    | ">=" => `(SyntaxKind.TK_GREATER_THAN_EQUAL)
    | "=>" => `(SyntaxKind.TK_EQUAL_GREATER_THAN)
    | "/>" => `(SyntaxKind.TK_SLASH_GREATER_THAN)
    | "<!--" => `(SyntaxKind.TK_LESS_THAN_EXCLAMATION_MARK_MINUS_MINUS)
    | "-->" => `(SyntaxKind.TK_MINUS_MINUS_GREATER_THAN)
    | "=" => `(SyntaxKind.TK_EQUAL)
    | "==" => `(SyntaxKind.TK_DOUBLE_EQUAL)
    | "===" => `(SyntaxKind.TK_TRIPLE_EQUAL)
    | "+" => `(SyntaxKind.TK_PLUS)
    | "-" => `(SyntaxKind.TK_MINUS)
    | "*" => `(SyntaxKind.TK_STAR)
    | "**" => `(SyntaxKind.TK_DOUBLE_STAR)
    | "\"" => `(SyntaxKind.TK_DOUBLE_QUOTES)
    | "'" => `(SyntaxKind.TK_SINGLE_QUOTES)
    | "`" => `(SyntaxKind.TK_GRAVE_ACCENT_QUOTES)
    | "{%" => `(SyntaxKind.TK_CURLY_PERCENT)
    | "{%-" => `(SyntaxKind.TK_CURLY_PERCENT_MINUS)
    | "{%~" => `(SyntaxKind.TK_CURLY_PERCENT_TILDE)
    | "%}" => `(SyntaxKind.TK_PERCENT_CURLY)
    | "-%}" => `(SyntaxKind.TK_MINUS_PERCENT_CURLY)
    | "~%}" => `(SyntaxKind.TK_TILDE_PERCENT_CURLY)
    | "{{" => `(SyntaxKind.TK_OPEN_CURLY_CURLY)
    | "{{-" => `(SyntaxKind.TK_OPEN_CURLY_CURLY_MINUS)
    | "{{~" => `(SyntaxKind.TK_OPEN_CURLY_CURLY_TILDE)
    | "}}" => `(SyntaxKind.TK_CLOSE_CURLY_CURLY)
    | "-}}" => `(SyntaxKind.TK_MINUS_CLOSE_CURLY_CURLY)
    | "~}}" => `(SyntaxKind.TK_TILDE_CLOSE_CURLY_CURLY)
    | "{#" => `(SyntaxKind.TK_OPEN_CURLY_HASHTAG)
    | "{#-" => `(SyntaxKind.TK_OPEN_CURLY_HASHTAG_MINUS)
    | "{#~" => `(SyntaxKind.TK_OPEN_CURLY_HASHTAG_TILDE)
    | "#}" => `(SyntaxKind.TK_HASHTAG_CLOSE_CURLY)
    | "-#}" => `(SyntaxKind.TK_MINUS_HASHTAG_CLOSE_CURLY)
    | "~#}" => `(SyntaxKind.TK_TILDE_HASHTAG_CLOSE_CURLY)
    | "#" => `(SyntaxKind.TK_HASHTAG)
    | "true" => `(SyntaxKind.TK_TRUE)
    | "false" => `(SyntaxKind.TK_FALSE)
    | "block" => `(SyntaxKind.TK_BLOCK)
    | "endblock" => `(SyntaxKind.TK_ENDBLOCK)
    | "if" => `(SyntaxKind.TK_IF)
    | "elseif" => `(SyntaxKind.TK_ELSE_IF)
    | "else" => `(SyntaxKind.TK_ELSE)
    | "endif" => `(SyntaxKind.TK_ENDIF)
    | "apply" => `(SyntaxKind.TK_APPLY)
    | "endapply" => `(SyntaxKind.TK_ENDAPPLY)
    | "autoescape" => `(SyntaxKind.TK_AUTOESCAPE)
    | "endautoescape" => `(SyntaxKind.TK_ENDAUTOESCAPE)
    | "cache" => `(SyntaxKind.TK_CACHE)
    | "endcache" => `(SyntaxKind.TK_ENDCACHE)
    | "deprecated" => `(SyntaxKind.TK_DEPRECATED)
    | "do" => `(SyntaxKind.TK_DO)
    | "embed" => `(SyntaxKind.TK_EMBED)
    | "endembed" => `(SyntaxKind.TK_ENDEMBED)
    | "extends" => `(SyntaxKind.TK_EXTENDS)
    | "flush" => `(SyntaxKind.TK_FLUSH)
    | "for" => `(SyntaxKind.TK_FOR)
    | "endfor" => `(SyntaxKind.TK_ENDFOR)
    | "from" => `(SyntaxKind.TK_FROM)
    | "import" => `(SyntaxKind.TK_IMPORT)
    | "macro" => `(SyntaxKind.TK_MACRO)
    | "endmacro" => `(SyntaxKind.TK_ENDMACRO)
    | "sandbox" => `(SyntaxKind.TK_SANDBOX)
    | "endsandbox" => `(SyntaxKind.TK_ENDSANDBOX)
    | "set" => `(SyntaxKind.TK_SET)
    | "endset" => `(SyntaxKind.TK_ENDSET)
    | "use" => `(SyntaxKind.TK_USE)
    | "verbatim" => `(SyntaxKind.TK_VERBATIM)
    | "endverbatim" => `(SyntaxKind.TK_ENDVERBATIM)
    | "only" => `(SyntaxKind.TK_ONLY)
    | "ignore missing" => `(SyntaxKind.TK_IGNORE_MISSING)
    | "with" => `(SyntaxKind.TK_WITH)
    | "endwith" => `(SyntaxKind.TK_ENDWITH)
    | "ttl" => `(SyntaxKind.TK_TTL)
    | "tags" => `(SyntaxKind.TK_TAGS)
    | "props" => `(SyntaxKind.TK_PROPS)
    | "component" => `(SyntaxKind.TK_COMPONENT)
    | "endcomponent" => `(SyntaxKind.TK_ENDCOMPONENT)
    | "not" => `(SyntaxKind.TK_NOT)
    | "not in" => `(SyntaxKind.TK_NOT_IN)
    | "or" => `(SyntaxKind.TK_OR)
    | "and" => `(SyntaxKind.TK_AND)
    | "b-or" => `(SyntaxKind.TK_BINARY_OR)
    | "b-xor" => `(SyntaxKind.TK_BINARY_XOR)
    | "b-and" => `(SyntaxKind.TK_BINARY_AND)
    | "in" => `(SyntaxKind.TK_IN)
    | "matches" => `(SyntaxKind.TK_MATCHES)
    | "starts with" => `(SyntaxKind.TK_STARTS_WITH)
    | "ends with" => `(SyntaxKind.TK_ENDS_WITH)
    | "is" => `(SyntaxKind.TK_IS)
    | "is not" => `(SyntaxKind.TK_IS_NOT)
    | "even" => `(SyntaxKind.TK_EVEN)
    | "odd" => `(SyntaxKind.TK_ODD)
    | "defined" => `(SyntaxKind.TK_DEFINED)
    | "same as" => `(SyntaxKind.TK_SAME_AS)
    | "as" => `(SyntaxKind.TK_AS)
    | "none" => `(SyntaxKind.TK_NONE)
    | "null" => `(SyntaxKind.TK_NULL)
    | "divisible by" => `(SyntaxKind.TK_DIVISIBLE_BY)
    | "constant" => `(SyntaxKind.TK_CONSTANT)
    | "empty" => `(SyntaxKind.TK_EMPTY)
    | "iterable" => `(SyntaxKind.TK_ITERABLE)
    | "max" => `(SyntaxKind.TK_MAX)
    | "min" => `(SyntaxKind.TK_MIN)
    | "range" => `(SyntaxKind.TK_RANGE)
    | "cycle" => `(SyntaxKind.TK_CYCLE)
    | "random" => `(SyntaxKind.TK_RANDOM)
    | "date" => `(SyntaxKind.TK_DATE)
    | "include" => `(SyntaxKind.TK_INCLUDE)
    | "source" => `(SyntaxKind.TK_SOURCE)
    | "trans" => `(SyntaxKind.TK_TRANS)
    | "endtrans" => `(SyntaxKind.TK_ENDTRANS)
    | "sw_extends" => `(SyntaxKind.TK_SW_EXTENDS)
    | "sw_silent_feature_call" => `(SyntaxKind.TK_SW_SILENT_FEATURE_CALL)
    | "endsw_silent_feature_call" => `(SyntaxKind.TK_ENDSW_SILENT_FEATURE_CALL)
    | "sw_include" => `(SyntaxKind.TK_SW_INCLUDE)
    | "return" => `(SyntaxKind.TK_RETURN)
    | "sw_icon" => `(SyntaxKind.TK_SW_ICON)
    | "sw_thumbnails" => `(SyntaxKind.TK_SW_THUMBNAILS)
    | "style" => `(SyntaxKind.TK_STYLE)
    | "sw_embed" => `(SyntaxKind.TK_SW_EMBED)
    | "sw_end_embed" => `(SyntaxKind.TK_SW_END_EMBED)
    | "sw_use" => `(SyntaxKind.TK_SW_USE)
    | "sw_import" => `(SyntaxKind.TK_SW_IMPORT)
    | "sw_from" => `(SyntaxKind.TK_SW_FROM)
    | "ludtwig-ignore-file" => `(SyntaxKind.TK_LUDTWIG_IGNORE_FILE)
    | "ludtwig-ignore" => `(SyntaxKind.TK_LUDTWIG_IGNORE)
    | _ => Lean.Macro.throwError "unknown token"

end Ludtwig
