import Verif.Syntax.Samples

/-!
# Sample trees for the rules

Trees of source texts, written out, with the check that parsing gives them.
-/

namespace Ludtwig.Rules

/-- A `pre` tag with a string and a block in it. -/
def preSample : Tree :=
  .node .ROOT [
    .node .HTML_TAG [
      .node .HTML_STARTING_TAG [
        .token .TK_LESS_THAN ['<'],
        .token .TK_WORD ['p', 'r', 'e'],
        .node .HTML_ATTRIBUTE_LIST [],
        .token .TK_GREATER_THAN ['>']],
      .node .BODY [
        .node .HTML_TAG [
          .node .HTML_STARTING_TAG [
            .token .TK_LESS_THAN ['<'],
            .token .TK_WORD ['p'],
            .node .HTML_ATTRIBUTE_LIST [
              .node .HTML_ATTRIBUTE [
                .token .TK_WHITESPACE [' '],
                .token .TK_WORD ['i', 'd'],
                .token .TK_EQUAL ['='],
                .node .HTML_STRING [
                  .token .TK_DOUBLE_QUOTES ['"'],
                  .node .HTML_STRING_INNER [
                    .token .TK_WORD ['x']],
                  .token .TK_DOUBLE_QUOTES ['"']]]],
            .token .TK_GREATER_THAN ['>']],
          .node .BODY [],
          .node .HTML_ENDING_TAG [
            .token .TK_LESS_THAN_SLASH ['<', '/'],
            .token .TK_WORD ['p'],
            .token .TK_GREATER_THAN ['>']]],
        .node .TWIG_BLOCK [
          .node .TWIG_STARTING_BLOCK [
            .token .TK_CURLY_PERCENT ['{', '%'],
            .token .TK_WHITESPACE [' '],
            .token .TK_BLOCK ['b', 'l', 'o', 'c', 'k'],
            .token .TK_WHITESPACE [' '],
            .token .TK_WORD ['a'],
            .token .TK_WHITESPACE [' '],
            .token .TK_PERCENT_CURLY ['%', '}']],
          .node .BODY [],
          .node .TWIG_ENDING_BLOCK [
            .token .TK_CURLY_PERCENT ['{', '%'],
            .token .TK_WHITESPACE [' '],
            .token .TK_ENDBLOCK ['e', 'n', 'd', 'b', 'l', 'o', 'c', 'k'],
            .token .TK_WHITESPACE [' '],
            .token .TK_PERCENT_CURLY ['%', '}']]]],
      .node .HTML_ENDING_TAG [
        .token .TK_LESS_THAN_SLASH ['<', '/'],
        .token .TK_WORD ['p', 'r', 'e'],
        .token .TK_GREATER_THAN ['>']]]]

theorem preSample_parsed :
    parsesTo "<pre><p id=\"x\"></p>{% block a %}{% endblock %}</pre>".toList preSample = true := by
  decide +kernel

/-- Directives before elements. -/
def ignoreSample : Tree :=
  .node .ROOT [
    .node .LUDTWIG_DIRECTIVE_IGNORE [
      .token .TK_OPEN_CURLY_HASHTAG ['{', '#'],
      .token .TK_WHITESPACE [' '],
      .token .TK_LUDTWIG_IGNORE ['l', 'u', 'd', 't', 'w', 'i', 'g', '-', 'i', 'g', 'n', 'o', 'r', 'e'],
      .node .LUDTWIG_DIRECTIVE_RULE_LIST [],
      .token .TK_WHITESPACE [' '],
      .token .TK_HASHTAG_CLOSE_CURLY ['#', '}']],
    .node .HTML_TAG [
      .node .HTML_STARTING_TAG [
        .token .TK_LESS_THAN ['<'],
        .token .TK_WORD ['p'],
        .node .HTML_ATTRIBUTE_LIST [],
        .token .TK_GREATER_THAN ['>']],
      .node .BODY [
        .node .HTML_TEXT [
          .token .TK_WORD ['a']]],
      .node .HTML_ENDING_TAG [
        .token .TK_LESS_THAN_SLASH ['<', '/'],
        .token .TK_WORD ['p'],
        .token .TK_GREATER_THAN ['>']]],
    .node .LUDTWIG_DIRECTIVE_IGNORE [
      .token .TK_OPEN_CURLY_HASHTAG ['{', '#'],
      .token .TK_WHITESPACE [' '],
      .token .TK_LUDTWIG_IGNORE ['l', 'u', 'd', 't', 'w', 'i', 'g', '-', 'i', 'g', 'n', 'o', 'r', 'e'],
      .node .LUDTWIG_DIRECTIVE_RULE_LIST [
        .token .TK_WHITESPACE [' '],
        .token .TK_WORD ['x']],
      .token .TK_WHITESPACE [' '],
      .token .TK_HASHTAG_CLOSE_CURLY ['#', '}']],
    .node .HTML_TAG [
      .node .HTML_STARTING_TAG [
        .token .TK_LESS_THAN ['<'],
        .token .TK_WORD ['i'],
        .node .HTML_ATTRIBUTE_LIST [],
        .token .TK_GREATER_THAN ['>']],
      .node .BODY [
        .node .HTML_TEXT [
          .token .TK_WORD ['b']]],
      .node .HTML_ENDING_TAG [
        .token .TK_LESS_THAN_SLASH ['<', '/'],
        .token .TK_WORD ['i'],
        .token .TK_GREATER_THAN ['>']]]]

theorem ignoreSample_parsed :
    parsesTo "{# ludtwig-ignore #}<p>a</p>{# ludtwig-ignore x #}<i>b</i>".toList ignoreSample =
      true := by
  decide +kernel

/-- Directives for a file. -/
def fileSample : Tree :=
  .node .ROOT [
    .node .LUDTWIG_DIRECTIVE_FILE_IGNORE [
      .token .TK_OPEN_CURLY_HASHTAG ['{', '#'],
      .token .TK_WHITESPACE [' '],
      .token .TK_LUDTWIG_IGNORE_FILE ['l', 'u', 'd', 't', 'w', 'i', 'g', '-', 'i', 'g', 'n', 'o', 'r', 'e', '-', 'f', 'i', 'l', 'e'],
      .node .LUDTWIG_DIRECTIVE_RULE_LIST [
        .token .TK_WHITESPACE [' '],
        .token .TK_WORD ['a'],
        .token .TK_COMMA [','],
        .token .TK_WHITESPACE [' '],
        .token .TK_WORD ['b', '-', 'c']],
      .token .TK_WHITESPACE [' '],
      .token .TK_HASHTAG_CLOSE_CURLY ['#', '}']],
    .node .HTML_TAG [
      .node .HTML_STARTING_TAG [
        .token .TK_LESS_THAN ['<'],
        .token .TK_WORD ['p'],
        .node .HTML_ATTRIBUTE_LIST [],
        .token .TK_GREATER_THAN ['>']],
      .node .BODY [
        .node .LUDTWIG_DIRECTIVE_FILE_IGNORE [
          .token .TK_OPEN_CURLY_HASHTAG ['{', '#'],
          .token .TK_WHITESPACE [' '],
          .token .TK_LUDTWIG_IGNORE_FILE ['l', 'u', 'd', 't', 'w', 'i', 'g', '-', 'i', 'g', 'n', 'o', 'r', 'e', '-', 'f', 'i', 'l', 'e'],
          .node .LUDTWIG_DIRECTIVE_RULE_LIST [],
          .token .TK_WHITESPACE [' '],
          .token .TK_HASHTAG_CLOSE_CURLY ['#', '}']]],
      .node .HTML_ENDING_TAG [
        .token .TK_LESS_THAN_SLASH ['<', '/'],
        .token .TK_WORD ['p'],
        .token .TK_GREATER_THAN ['>']]]]

theorem fileSample_parsed :
    parsesTo "{# ludtwig-ignore-file a, b-c #}<p>{# ludtwig-ignore-file #}</p>".toList fileSample =
      true := by
  decide +kernel

/-- Line breaks of both styles. -/
def crlfSample : Tree :=
  .node .ROOT [
    .node .HTML_TEXT [
      .token .TK_WORD ['a'],
      .token .TK_LINE_BREAK ['\r', '\n'],
      .token .TK_WORD ['b'],
      .token .TK_LINE_BREAK ['\n', '\n'],
      .token .TK_WORD ['c']]]

theorem crlfSample_parsed : parsesTo "a\r\nb\n\nc".toList crlfSample = true := by decide +kernel

/-- Blank lines with whitespace. -/
def blankSample : Tree :=
  .node .ROOT [
    .node .HTML_TEXT [
      .token .TK_WORD ['a']],
    .node .TWIG_VAR [
      .token .TK_LINE_BREAK ['\n'],
      .token .TK_WHITESPACE [' ', ' '],
      .token .TK_LINE_BREAK ['\n'],
      .token .TK_WHITESPACE ['\t'],
      .token .TK_LINE_BREAK ['\n'],
      .token .TK_OPEN_CURLY_CURLY ['{', '{'],
      .node .TWIG_EXPRESSION [
        .node .TWIG_LITERAL_NAME [
          .token .TK_WHITESPACE [' '],
          .token .TK_WORD ['b']]],
      .token .TK_WHITESPACE [' '],
      .token .TK_CLOSE_CURLY_CURLY ['}', '}']],
    .token .TK_WHITESPACE [' '],
    .token .TK_LINE_BREAK ['\n']]

theorem blankSample_parsed : parsesTo "a\n  \n\t\n{{ b }} \n".toList blankSample = true := by
  decide +kernel

/-- Operators of other languages. -/
def operatorSample : Tree :=
  .node .ROOT [
    .node .TWIG_VAR [
      .token .TK_OPEN_CURLY_CURLY ['{', '{'],
      .node .TWIG_EXPRESSION [
        .node .TWIG_BINARY_EXPRESSION [
          .node .TWIG_EXPRESSION [
            .node .TWIG_LITERAL_NAME [
              .token .TK_WHITESPACE [' '],
              .token .TK_WORD ['a']]],
          .token .TK_WHITESPACE [' '],
          .token .TK_DOUBLE_AMPERSAND ['&', '&'],
          .node .TWIG_EXPRESSION [
            .node .TWIG_LITERAL_NAME [
              .token .TK_WHITESPACE [' '],
              .token .TK_WORD ['b']]]]],
      .token .TK_WHITESPACE [' '],
      .token .TK_CLOSE_CURLY_CURLY ['}', '}']],
    .node .TWIG_VAR [
      .token .TK_OPEN_CURLY_CURLY ['{', '{'],
      .node .TWIG_EXPRESSION [
        .node .TWIG_BINARY_EXPRESSION [
          .node .TWIG_EXPRESSION [
            .node .TWIG_LITERAL_NAME [
              .token .TK_WHITESPACE [' '],
              .token .TK_WORD ['c']]],
          .token .TK_TRIPLE_EQUAL ['=', '=', '='],
          .node .TWIG_EXPRESSION [
            .node .TWIG_LITERAL_NAME [
              .token .TK_WORD ['d']]]]],
      .token .TK_WHITESPACE [' '],
      .token .TK_CLOSE_CURLY_CURLY ['}', '}']]]

theorem operatorSample_parsed :
    parsesTo "{{ a && b }}{{ c===d }}".toList operatorSample = true := by
  decide +kernel

/-- An operator without blanks around it. -/
def tightSample : Tree :=
  .node .ROOT [
    .node .TWIG_VAR [
      .token .TK_OPEN_CURLY_CURLY ['{', '{'],
      .node .TWIG_EXPRESSION [
        .node .TWIG_BINARY_EXPRESSION [
          .node .TWIG_EXPRESSION [
            .node .TWIG_LITERAL_NAME [
              .token .TK_WHITESPACE [' '],
              .token .TK_WORD ['a']]],
          .token .TK_DOUBLE_AMPERSAND ['&', '&'],
          .node .TWIG_EXPRESSION [
            .node .TWIG_LITERAL_NAME [
              .token .TK_WORD ['b']]]]],
      .token .TK_WHITESPACE [' '],
      .token .TK_CLOSE_CURLY_CURLY ['}', '}']]]

theorem tightSample_parsed :
    parsesTo "{{ a&&b }}".toList tightSample = true := by
  decide +kernel

/-- What the suggestion for `tightSample` gives. -/
def joinedSample : Tree :=
  .node .ROOT [
    .node .TWIG_VAR [
      .token .TK_OPEN_CURLY_CURLY ['{', '{'],
      .node .TWIG_EXPRESSION [
        .node .TWIG_LITERAL_NAME [
          .token .TK_WHITESPACE [' '],
          .token .TK_WORD ['a', 'a', 'n', 'd', 'b']]],
      .token .TK_WHITESPACE [' '],
      .token .TK_CLOSE_CURLY_CURLY ['}', '}']]]

theorem joinedSample_parsed :
    parsesTo "{{ aandb }}".toList joinedSample = true := by
  decide +kernel

/-- A comparison whose left side is a binary expression. -/
def nestedSample : Tree :=
  .node .ROOT [
    .node .TWIG_VAR [
      .token .TK_OPEN_CURLY_CURLY ['{', '{'],
      .node .TWIG_EXPRESSION [
        .node .TWIG_BINARY_EXPRESSION [
          .node .TWIG_BINARY_EXPRESSION [
            .node .TWIG_EXPRESSION [
              .node .TWIG_LITERAL_NAME [
                .token .TK_WHITESPACE [' '],
                .token .TK_WORD ['a']]],
            .token .TK_WHITESPACE [' '],
            .token .TK_TILDE ['~'],
            .node .TWIG_EXPRESSION [
              .node .TWIG_LITERAL_NAME [
                .token .TK_WHITESPACE [' '],
                .token .TK_WORD ['b']]]],
          .token .TK_WHITESPACE [' '],
          .token .TK_TRIPLE_EQUAL ['=', '=', '='],
          .node .TWIG_EXPRESSION [
            .node .TWIG_LITERAL_NAME [
              .token .TK_WHITESPACE [' '],
              .token .TK_WORD ['c']]]]],
      .token .TK_WHITESPACE [' '],
      .token .TK_CLOSE_CURLY_CURLY ['}', '}']]]

theorem nestedSample_parsed :
    parsesTo "{{ a ~ b === c }}".toList nestedSample = true := by
  decide +kernel

/-- Chains of filters. -/
def chainSample : Tree :=
  .node .ROOT [
    .node .TWIG_VAR [
      .token .TK_OPEN_CURLY_CURLY ['{', '{'],
      .node .TWIG_EXPRESSION [
        .node .TWIG_FILTER [
          .node .TWIG_OPERAND [
            .node .TWIG_FILTER [
              .node .TWIG_OPERAND [
                .node .TWIG_FILTER [
                  .node .TWIG_OPERAND [
                    .node .TWIG_LITERAL_NAME [
                      .token .TK_WHITESPACE [' '],
                      .token .TK_WORD ['a']]],
                  .token .TK_SINGLE_PIPE ['|'],
                  .node .TWIG_OPERAND [
                    .node .TWIG_LITERAL_NAME [
                      .token .TK_WORD ['j', 's', 'o', 'n', '_', 'e', 'n', 'c', 'o', 'd', 'e']],
                    .node .TWIG_ARGUMENTS [
                      .token .TK_OPEN_PARENTHESIS ['('],
                      .node .TWIG_EXPRESSION [
                        .node .TWIG_LITERAL_NUMBER [
                          .token .TK_NUMBER ['1']]],
                      .token .TK_CLOSE_PARENTHESIS [')']]]]],
              .token .TK_SINGLE_PIPE ['|'],
              .node .TWIG_OPERAND [
                .node .TWIG_LITERAL_NAME [
                  .token .TK_WORD ['b']]]]],
          .token .TK_SINGLE_PIPE ['|'],
          .node .TWIG_OPERAND [
            .node .TWIG_LITERAL_NAME [
              .token .TK_WORD ['r', 'a', 'w']]]]],
      .token .TK_WHITESPACE [' '],
      .token .TK_CLOSE_CURLY_CURLY ['}', '}']],
    .node .TWIG_VAR [
      .token .TK_OPEN_CURLY_CURLY ['{', '{'],
      .node .TWIG_EXPRESSION [
        .node .TWIG_FILTER [
          .node .TWIG_OPERAND [
            .node .TWIG_PARENTHESES_EXPRESSION [
              .token .TK_WHITESPACE [' '],
              .token .TK_OPEN_PARENTHESIS ['('],
              .node .TWIG_EXPRESSION [
                .node .TWIG_FILTER [
                  .node .TWIG_OPERAND [
                    .node .TWIG_LITERAL_NAME [
                      .token .TK_WORD ['c']]],
                  .token .TK_SINGLE_PIPE ['|'],
                  .node .TWIG_OPERAND [
                    .node .TWIG_LITERAL_NAME [
                      .token .TK_WORD ['j', 's', 'o', 'n', '_', 'e', 'n', 'c', 'o', 'd', 'e']]]]],
              .token .TK_CLOSE_PARENTHESIS [')']]],
          .token .TK_SINGLE_PIPE ['|'],
          .node .TWIG_OPERAND [
            .node .TWIG_LITERAL_NAME [
              .token .TK_WORD ['r', 'a', 'w']]]]],
      .token .TK_WHITESPACE [' '],
      .token .TK_CLOSE_CURLY_CURLY ['}', '}']]]

theorem chainSample_parsed :
    parsesTo "{{ a|json_encode(1)|b|raw }}{{ (c|json_encode)|raw }}".toList chainSample = true := by
  decide +kernel

/-- Strings in other quotes and without quotes. -/
def quoteSample : Tree :=
  .node .ROOT [
    .node .HTML_TAG [
      .node .HTML_STARTING_TAG [
        .token .TK_LESS_THAN ['<'],
        .token .TK_WORD ['p'],
        .node .HTML_ATTRIBUTE_LIST [
          .node .HTML_ATTRIBUTE [
            .token .TK_WHITESPACE [' '],
            .token .TK_WORD ['i', 'd'],
            .token .TK_EQUAL ['='],
            .node .HTML_STRING [
              .token .TK_SINGLE_QUOTES ['\''],
              .node .HTML_STRING_INNER [
                .token .TK_WORD ['x']],
              .token .TK_SINGLE_QUOTES ['\'']]],
          .node .HTML_ATTRIBUTE [
            .token .TK_WHITESPACE [' '],
            .token .TK_WORD ['a'],
            .token .TK_EQUAL ['='],
            .node .HTML_STRING [
              .node .HTML_STRING_INNER [
                .token .TK_WORD ['b']]]]],
        .token .TK_GREATER_THAN ['>']],
      .node .BODY [],
      .node .HTML_ENDING_TAG [
        .token .TK_LESS_THAN_SLASH ['<', '/'],
        .token .TK_WORD ['p'],
        .token .TK_GREATER_THAN ['>']]],
    .node .TWIG_VAR [
      .token .TK_OPEN_CURLY_CURLY ['{', '{'],
      .node .TWIG_EXPRESSION [
        .node .TWIG_LITERAL_STRING [
          .token .TK_WHITESPACE [' '],
          .token .TK_SINGLE_QUOTES ['\''],
          .node .TWIG_LITERAL_STRING_INNER [
            .token .TK_WORD ['c']],
          .token .TK_SINGLE_QUOTES ['\'']]],
      .token .TK_WHITESPACE [' '],
      .token .TK_CLOSE_CURLY_CURLY ['}', '}']]]

theorem quoteSample_parsed :
    parsesTo "<p id='x' a=b></p>{{ 'c' }}".toList quoteSample = true := by
  decide +kernel

/-- An attribute value without quotes after a blank. -/
def blankValueSample : Tree :=
  .node .ROOT [
    .node .HTML_TAG [
      .node .HTML_STARTING_TAG [
        .token .TK_LESS_THAN ['<'],
        .token .TK_WORD ['p'],
        .node .HTML_ATTRIBUTE_LIST [
          .node .HTML_ATTRIBUTE [
            .token .TK_WHITESPACE [' '],
            .token .TK_WORD ['i', 'd'],
            .token .TK_EQUAL ['='],
            .node .HTML_STRING [
              .node .HTML_STRING_INNER [
                .token .TK_WHITESPACE [' '],
                .token .TK_WORD ['x']]]]],
        .token .TK_GREATER_THAN ['>']],
      .node .BODY [],
      .node .HTML_ENDING_TAG [
        .token .TK_LESS_THAN_SLASH ['<', '/'],
        .token .TK_WORD ['p'],
        .token .TK_GREATER_THAN ['>']]]]

theorem blankValueSample_parsed :
    parsesTo "<p id= x></p>".toList blankValueSample = true := by
  decide +kernel

/-- The tree of `{% block a %}{% endblock %}{% block a %}{% endblock %}`. -/
def blocksSample : Tree :=
  .node .ROOT [
    .node .TWIG_BLOCK [
      .node .TWIG_STARTING_BLOCK [
        .token .TK_CURLY_PERCENT ['{', '%'],
        .token .TK_WHITESPACE [' '],
        .token .TK_BLOCK ['b', 'l', 'o', 'c', 'k'],
        .token .TK_WHITESPACE [' '],
        .token .TK_WORD ['a'],
        .token .TK_WHITESPACE [' '],
        .token .TK_PERCENT_CURLY ['%', '}']],
      .node .BODY [],
      .node .TWIG_ENDING_BLOCK [
        .token .TK_CURLY_PERCENT ['{', '%'],
        .token .TK_WHITESPACE [' '],
        .token .TK_ENDBLOCK ['e', 'n', 'd', 'b', 'l', 'o', 'c', 'k'],
        .token .TK_WHITESPACE [' '],
        .token .TK_PERCENT_CURLY ['%', '}']]],
    .node .TWIG_BLOCK [
      .node .TWIG_STARTING_BLOCK [
        .token .TK_CURLY_PERCENT ['{', '%'],
        .token .TK_WHITESPACE [' '],
        .token .TK_BLOCK ['b', 'l', 'o', 'c', 'k'],
        .token .TK_WHITESPACE [' '],
        .token .TK_WORD ['a'],
        .token .TK_WHITESPACE [' '],
        .token .TK_PERCENT_CURLY ['%', '}']],
      .node .BODY [],
      .node .TWIG_ENDING_BLOCK [
        .token .TK_CURLY_PERCENT ['{', '%'],
        .token .TK_WHITESPACE [' '],
        .token .TK_ENDBLOCK ['e', 'n', 'd', 'b', 'l', 'o', 'c', 'k'],
        .token .TK_WHITESPACE [' '],
        .token .TK_PERCENT_CURLY ['%', '}']]]]

theorem blocksSample_parsed :
    parsesTo "{% block a %}{% endblock %}{% block a %}{% endblock %}".toList blocksSample = true := by
  decide +kernel

/-- Three ids, a directive before the second one. -/
def idsSample : Tree :=
  .node .ROOT [
    .node .HTML_TAG [
      .node .HTML_STARTING_TAG [
        .token .TK_LESS_THAN ['<'],
        .token .TK_WORD ['p'],
        .node .HTML_ATTRIBUTE_LIST [
          .node .HTML_ATTRIBUTE [
            .token .TK_WHITESPACE [' '],
            .token .TK_WORD ['i', 'd'],
            .token .TK_EQUAL ['='],
            .node .HTML_STRING [
              .token .TK_DOUBLE_QUOTES ['"'],
              .node .HTML_STRING_INNER [
                .token .TK_WORD ['a']],
              .token .TK_DOUBLE_QUOTES ['"']]]],
        .token .TK_GREATER_THAN ['>']],
      .node .BODY [],
      .node .HTML_ENDING_TAG [
        .token .TK_LESS_THAN_SLASH ['<', '/'],
        .token .TK_WORD ['p'],
        .token .TK_GREATER_THAN ['>']]],
    .node .LUDTWIG_DIRECTIVE_IGNORE [
      .token .TK_OPEN_CURLY_HASHTAG ['{', '#'],
      .token .TK_WHITESPACE [' '],
      .token .TK_LUDTWIG_IGNORE ['l', 'u', 'd', 't', 'w', 'i', 'g', '-', 'i', 'g', 'n', 'o', 'r', 'e'],
      .node .LUDTWIG_DIRECTIVE_RULE_LIST [
        .token .TK_WHITESPACE [' '],
        .token .TK_WORD ['h', 't', 'm', 'l', '-', 'd', 'u', 'p', 'l', 'i', 'c', 'a', 't', 'e', '-', 'i', 'd']],
      .token .TK_WHITESPACE [' '],
      .token .TK_HASHTAG_CLOSE_CURLY ['#', '}']],
    .node .HTML_TAG [
      .node .HTML_STARTING_TAG [
        .token .TK_LESS_THAN ['<'],
        .token .TK_WORD ['p'],
        .node .HTML_ATTRIBUTE_LIST [
          .node .HTML_ATTRIBUTE [
            .token .TK_WHITESPACE [' '],
            .token .TK_WORD ['i', 'd'],
            .token .TK_EQUAL ['='],
            .node .HTML_STRING [
              .token .TK_DOUBLE_QUOTES ['"'],
              .node .HTML_STRING_INNER [
                .token .TK_WORD ['a']],
              .token .TK_DOUBLE_QUOTES ['"']]]],
        .token .TK_GREATER_THAN ['>']],
      .node .BODY [],
      .node .HTML_ENDING_TAG [
        .token .TK_LESS_THAN_SLASH ['<', '/'],
        .token .TK_WORD ['p'],
        .token .TK_GREATER_THAN ['>']]],
    .node .HTML_TAG [
      .node .HTML_STARTING_TAG [
        .token .TK_LESS_THAN ['<'],
        .token .TK_WORD ['p'],
        .node .HTML_ATTRIBUTE_LIST [
          .node .HTML_ATTRIBUTE [
            .token .TK_WHITESPACE [' '],
            .token .TK_WORD ['i', 'd'],
            .token .TK_EQUAL ['='],
            .node .HTML_STRING [
              .token .TK_DOUBLE_QUOTES ['"'],
              .node .HTML_STRING_INNER [
                .token .TK_WORD ['a']],
              .token .TK_DOUBLE_QUOTES ['"']]]],
        .token .TK_GREATER_THAN ['>']],
      .node .BODY [],
      .node .HTML_ENDING_TAG [
        .token .TK_LESS_THAN_SLASH ['<', '/'],
        .token .TK_WORD ['p'],
        .token .TK_GREATER_THAN ['>']]]]

theorem idsSample_parsed :
    parsesTo "<p id=\"a\"></p>{# ludtwig-ignore html-duplicate-id #}<p id=\"a\"></p><p id=\"a\"></p>".toList idsSample = true := by
  decide +kernel

/-- A directive inside of an ignored tag, followed by two equal ids. -/
def nestedIgnoreSample : Tree :=
  .node .ROOT [
    .node .LUDTWIG_DIRECTIVE_IGNORE [
      .token .TK_OPEN_CURLY_HASHTAG ['{', '#'],
      .token .TK_WHITESPACE [' '],
      .token .TK_LUDTWIG_IGNORE ['l', 'u', 'd', 't', 'w', 'i', 'g', '-', 'i', 'g', 'n', 'o', 'r', 'e'],
      .node .LUDTWIG_DIRECTIVE_RULE_LIST [
        .token .TK_WHITESPACE [' '],
        .token .TK_WORD ['h', 't', 'm', 'l', '-', 'd', 'u', 'p', 'l', 'i', 'c', 'a', 't', 'e', '-', 'i', 'd']],
      .token .TK_WHITESPACE [' '],
      .token .TK_HASHTAG_CLOSE_CURLY ['#', '}']],
    .node .HTML_TAG [
      .node .HTML_STARTING_TAG [
        .token .TK_LESS_THAN ['<'],
        .token .TK_WORD ['p'],
        .node .HTML_ATTRIBUTE_LIST [],
        .token .TK_GREATER_THAN ['>']],
      .node .BODY [
        .node .LUDTWIG_DIRECTIVE_IGNORE [
          .token .TK_OPEN_CURLY_HASHTAG ['{', '#'],
          .token .TK_WHITESPACE [' '],
          .token .TK_LUDTWIG_IGNORE ['l', 'u', 'd', 't', 'w', 'i', 'g', '-', 'i', 'g', 'n', 'o', 'r', 'e'],
          .node .LUDTWIG_DIRECTIVE_RULE_LIST [
            .token .TK_WHITESPACE [' '],
            .token .TK_WORD ['h', 't', 'm', 'l', '-', 'd', 'u', 'p', 'l', 'i', 'c', 'a', 't', 'e', '-', 'i', 'd']],
          .token .TK_WHITESPACE [' '],
          .token .TK_HASHTAG_CLOSE_CURLY ['#', '}']],
        .node .HTML_TAG [
          .node .HTML_STARTING_TAG [
            .token .TK_LESS_THAN ['<'],
            .token .TK_WORD ['b'],
            .node .HTML_ATTRIBUTE_LIST [],
            .token .TK_GREATER_THAN ['>']],
          .node .BODY [],
          .node .HTML_ENDING_TAG [
            .token .TK_LESS_THAN_SLASH ['<', '/'],
            .token .TK_WORD ['b'],
            .token .TK_GREATER_THAN ['>']]],
        .node .HTML_TAG [
          .node .HTML_STARTING_TAG [
            .token .TK_LESS_THAN ['<'],
            .token .TK_WORD ['i'],
            .node .HTML_ATTRIBUTE_LIST [
              .node .HTML_ATTRIBUTE [
                .token .TK_WHITESPACE [' '],
                .token .TK_WORD ['i', 'd'],
                .token .TK_EQUAL ['='],
                .node .HTML_STRING [
                  .token .TK_DOUBLE_QUOTES ['"'],
                  .node .HTML_STRING_INNER [
                    .token .TK_WORD ['c']],
                  .token .TK_DOUBLE_QUOTES ['"']]]],
            .token .TK_GREATER_THAN ['>']],
          .node .BODY [],
          .node .HTML_ENDING_TAG [
            .token .TK_LESS_THAN_SLASH ['<', '/'],
            .token .TK_WORD ['i'],
            .token .TK_GREATER_THAN ['>']]],
        .node .HTML_TAG [
          .node .HTML_STARTING_TAG [
            .token .TK_LESS_THAN ['<'],
            .token .TK_WORD ['i'],
            .node .HTML_ATTRIBUTE_LIST [
              .node .HTML_ATTRIBUTE [
                .token .TK_WHITESPACE [' '],
                .token .TK_WORD ['i', 'd'],
                .token .TK_EQUAL ['='],
                .node .HTML_STRING [
                  .token .TK_DOUBLE_QUOTES ['"'],
                  .node .HTML_STRING_INNER [
                    .token .TK_WORD ['c']],
                  .token .TK_DOUBLE_QUOTES ['"']]]],
            .token .TK_GREATER_THAN ['>']],
          .node .BODY [],
          .node .HTML_ENDING_TAG [
            .token .TK_LESS_THAN_SLASH ['<', '/'],
            .token .TK_WORD ['i'],
            .token .TK_GREATER_THAN ['>']]]],
      .node .HTML_ENDING_TAG [
        .token .TK_LESS_THAN_SLASH ['<', '/'],
        .token .TK_WORD ['p'],
        .token .TK_GREATER_THAN ['>']]]]

theorem nestedIgnoreSample_parsed :
    parsesTo "{# ludtwig-ignore html-duplicate-id #}<p>{# ludtwig-ignore html-duplicate-id #}<b></b><i id=\"c\"></i><i id=\"c\"></i></p>".toList nestedIgnoreSample = true := by
  decide +kernel

/-- A tag with a tag inside that has attributes on two lines. -/
def indentSample : Tree :=
  .node .ROOT [
    .node .HTML_TAG [
      .node .HTML_STARTING_TAG [
        .token .TK_LESS_THAN ['<'],
        .token .TK_WORD ['p'],
        .node .HTML_ATTRIBUTE_LIST [],
        .token .TK_GREATER_THAN ['>']],
      .node .BODY [
        .node .HTML_TAG [
          .node .HTML_STARTING_TAG [
            .token .TK_LINE_BREAK ['\n'],
            .token .TK_LESS_THAN ['<'],
            .token .TK_WORD ['b'],
            .node .HTML_ATTRIBUTE_LIST [
              .node .HTML_ATTRIBUTE [
                .token .TK_WHITESPACE [' '],
                .token .TK_WORD ['i', 'd'],
                .token .TK_EQUAL ['='],
                .node .HTML_STRING [
                  .token .TK_DOUBLE_QUOTES ['"'],
                  .node .HTML_STRING_INNER [
                    .token .TK_WORD ['x']],
                  .token .TK_DOUBLE_QUOTES ['"']]],
              .node .HTML_ATTRIBUTE [
                .token .TK_LINE_BREAK ['\n'],
                .token .TK_WHITESPACE [' ', ' ', ' '],
                .token .TK_WORD ['c', 'l', 'a', 's', 's'],
                .token .TK_EQUAL ['='],
                .node .HTML_STRING [
                  .token .TK_DOUBLE_QUOTES ['"'],
                  .node .HTML_STRING_INNER [
                    .token .TK_WORD ['y']],
                  .token .TK_DOUBLE_QUOTES ['"']]]],
            .token .TK_GREATER_THAN ['>']],
          .node .BODY [],
          .node .HTML_ENDING_TAG [
            .token .TK_LESS_THAN_SLASH ['<', '/'],
            .token .TK_WORD ['b'],
            .token .TK_GREATER_THAN ['>']]]],
      .node .HTML_ENDING_TAG [
        .token .TK_LINE_BREAK ['\n'],
        .token .TK_LESS_THAN_SLASH ['<', '/'],
        .token .TK_WORD ['p'],
        .token .TK_GREATER_THAN ['>']]]]

theorem indentSample_parsed :
    parsesTo "<p>\n<b id=\"x\"\n   class=\"y\"></b>\n</p>".toList indentSample = true := by
  decide +kernel

/-- A directive that names no rule before a tag. -/
def blanketSample : Tree :=
  .node .ROOT [
    .node .LUDTWIG_DIRECTIVE_IGNORE [
      .token .TK_OPEN_CURLY_HASHTAG ['{', '#'],
      .token .TK_WHITESPACE [' '],
      .token .TK_LUDTWIG_IGNORE ['l', 'u', 'd', 't', 'w', 'i', 'g', '-', 'i', 'g', 'n', 'o', 'r', 'e'],
      .node .LUDTWIG_DIRECTIVE_RULE_LIST [],
      .token .TK_WHITESPACE [' '],
      .token .TK_HASHTAG_CLOSE_CURLY ['#', '}']],
    .node .HTML_TAG [
      .node .HTML_STARTING_TAG [
        .token .TK_LESS_THAN ['<'],
        .token .TK_WORD ['p'],
        .node .HTML_ATTRIBUTE_LIST [],
        .token .TK_GREATER_THAN ['>']],
      .node .BODY [
        .node .HTML_TAG [
          .node .HTML_STARTING_TAG [
            .token .TK_LINE_BREAK ['\n'],
            .token .TK_LESS_THAN ['<'],
            .token .TK_WORD ['b'],
            .node .HTML_ATTRIBUTE_LIST [],
            .token .TK_GREATER_THAN ['>']],
          .node .BODY [],
          .node .HTML_ENDING_TAG [
            .token .TK_LESS_THAN_SLASH ['<', '/'],
            .token .TK_WORD ['b'],
            .token .TK_GREATER_THAN ['>']]]],
      .node .HTML_ENDING_TAG [
        .token .TK_LESS_THAN_SLASH ['<', '/'],
        .token .TK_WORD ['p'],
        .token .TK_GREATER_THAN ['>']]],
    .node .HTML_TAG [
      .node .HTML_STARTING_TAG [
        .token .TK_LINE_BREAK ['\n'],
        .token .TK_WHITESPACE [' '],
        .token .TK_LESS_THAN ['<'],
        .token .TK_WORD ['i'],
        .node .HTML_ATTRIBUTE_LIST [],
        .token .TK_GREATER_THAN ['>']],
      .node .BODY [],
      .node .HTML_ENDING_TAG [
        .token .TK_LESS_THAN_SLASH ['<', '/'],
        .token .TK_WORD ['i'],
        .token .TK_GREATER_THAN ['>']]]]

theorem blanketSample_parsed :
    parsesTo "{# ludtwig-ignore #}<p>\n<b></b></p>\n <i></i>".toList blanketSample = true := by
  decide +kernel

/-- A line break behind `not in`. -/
def notInSample : Tree :=
  .node .ROOT [
    .node .TWIG_VAR [
      .token .TK_OPEN_CURLY_CURLY ['{', '{'],
      .node .TWIG_EXPRESSION [
        .node .TWIG_BINARY_EXPRESSION [
          .node .TWIG_EXPRESSION [
            .node .TWIG_LITERAL_NAME [
              .token .TK_WHITESPACE [' '],
              .token .TK_WORD ['a']]],
          .token .TK_WHITESPACE [' '],
          .token .TK_NOT_IN ['n', 'o', 't', ' ', 'i', 'n'],
          .node .TWIG_EXPRESSION [
            .node .TWIG_LITERAL_NAME [
              .token .TK_LINE_BREAK ['\n'],
              .token .TK_WORD ['b']]]]],
      .token .TK_WHITESPACE [' '],
      .token .TK_CLOSE_CURLY_CURLY ['}', '}']]]

theorem notInSample_parsed :
    parsesTo "{{ a not in\nb }}".toList notInSample = true := by
  decide +kernel

end Ludtwig.Rules
