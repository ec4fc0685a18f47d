import Verif.Syntax.Samples

/-!
# Sample trees for the rules about names
-/

namespace Ludtwig.Rules

/-- Names of blocks and attributes. -/
def nameSample : Tree :=
  .node .ROOT [
    .node .TWIG_BLOCK [
      .node .TWIG_STARTING_BLOCK [
        .token .TK_CURLY_PERCENT ['{', '%'],
        .token .TK_WHITESPACE [' '],
        .token .TK_BLOCK ['b', 'l', 'o', 'c', 'k'],
        .token .TK_WHITESPACE [' '],
        .token .TK_WORD ['a', 'B'],
        .token .TK_WHITESPACE [' '],
        .token .TK_PERCENT_CURLY ['%', '}']],
      .node .BODY [
        .node .TWIG_BLOCK [
          .node .TWIG_STARTING_BLOCK [
            .token .TK_CURLY_PERCENT ['{', '%'],
            .token .TK_WHITESPACE [' '],
            .token .TK_BLOCK ['b', 'l', 'o', 'c', 'k'],
            .token .TK_WHITESPACE [' '],
            .token .TK_WORD ['c', '_', 'd'],
            .token .TK_WHITESPACE [' '],
            .token .TK_PERCENT_CURLY ['%', '}']],
          .node .BODY [],
          .node .TWIG_ENDING_BLOCK [
            .token .TK_CURLY_PERCENT ['{', '%'],
            .token .TK_WHITESPACE [' '],
            .token .TK_ENDBLOCK ['e', 'n', 'd', 'b', 'l', 'o', 'c', 'k'],
            .token .TK_WHITESPACE [' '],
            .token .TK_PERCENT_CURLY ['%', '}']]]],
      .node .TWIG_ENDING_BLOCK [
        .token .TK_CURLY_PERCENT ['{', '%'],
        .token .TK_WHITESPACE [' '],
        .token .TK_ENDBLOCK ['e', 'n', 'd', 'b', 'l', 'o', 'c', 'k'],
        .token .TK_WHITESPACE [' '],
        .token .TK_PERCENT_CURLY ['%', '}']]],
    .node .HTML_TAG [
      .node .HTML_STARTING_TAG [
        .token .TK_LESS_THAN ['<'],
        .token .TK_WORD ['p'],
        .node .HTML_ATTRIBUTE_LIST [
          .node .HTML_ATTRIBUTE [
            .token .TK_WHITESPACE [' '],
            .token .TK_WORD ['a', 'B'],
            .token .TK_EQUAL ['='],
            .node .HTML_STRING [
              .token .TK_DOUBLE_QUOTES ['"'],
              .node .HTML_STRING_INNER [
                .token .TK_WORD ['x']],
              .token .TK_DOUBLE_QUOTES ['"']]],
          .node .HTML_ATTRIBUTE [
            .token .TK_WHITESPACE [' '],
            .token .TK_WORD ['c', '-', 'd']]],
        .token .TK_GREATER_THAN ['>']],
      .node .BODY [],
      .node .HTML_ENDING_TAG [
        .token .TK_LESS_THAN_SLASH ['<', '/'],
        .token .TK_WORD ['p'],
        .token .TK_GREATER_THAN ['>']]],
    .node .HTML_TAG [
      .node .HTML_STARTING_TAG [
        .token .TK_LESS_THAN ['<'],
        .token .TK_TWIG_COMPONENT_NAME ['t', 'w', 'i', 'g', ':', 'A'],
        .node .HTML_ATTRIBUTE_LIST [
          .node .HTML_ATTRIBUTE [
            .token .TK_WHITESPACE [' '],
            .token .TK_WORD ['b', 'C'],
            .token .TK_EQUAL ['='],
            .node .HTML_STRING [
              .token .TK_DOUBLE_QUOTES ['"'],
              .node .HTML_STRING_INNER [
                .token .TK_WORD ['x']],
              .token .TK_DOUBLE_QUOTES ['"']]]],
        .token .TK_GREATER_THAN ['>']],
      .node .BODY [],
      .node .HTML_ENDING_TAG [
        .token .TK_LESS_THAN_SLASH ['<', '/'],
        .token .TK_TWIG_COMPONENT_NAME ['t', 'w', 'i', 'g', ':', 'A'],
        .token .TK_GREATER_THAN ['>']]]]

theorem nameSample_parsed :
    parsesTo "{% block aB %}{% block c_d %}{% endblock %}{% endblock %}<p aB=\"x\" c-d></p><twig:A bC=\"x\"></twig:A>".toList nameSample = true := by
  decide +kernel

/-- Hash keys. -/
def keySample : Tree :=
  .node .ROOT [
    .node .TWIG_VAR [
      .token .TK_OPEN_CURLY_CURLY ['{', '{'],
      .node .TWIG_EXPRESSION [
        .node .TWIG_LITERAL_HASH [
          .token .TK_WHITESPACE [' '],
          .token .TK_OPEN_CURLY ['{'],
          .node .TWIG_LITERAL_HASH_ITEMS [
            .node .TWIG_LITERAL_HASH_PAIR [
              .node .TWIG_LITERAL_HASH_KEY [
                .node .TWIG_LITERAL_STRING [
                  .token .TK_DOUBLE_QUOTES ['"'],
                  .node .TWIG_LITERAL_STRING_INNER [
                    .token .TK_WORD ['k']],
                  .token .TK_DOUBLE_QUOTES ['"']]],
              .token .TK_COLON [':'],
              .node .TWIG_EXPRESSION [
                .node .TWIG_LITERAL_NUMBER [
                  .token .TK_WHITESPACE [' '],
                  .token .TK_NUMBER ['1']]]],
            .token .TK_COMMA [','],
            .node .TWIG_LITERAL_HASH_PAIR [
              .node .TWIG_LITERAL_HASH_KEY [
                .node .TWIG_LITERAL_STRING [
                  .token .TK_WHITESPACE [' '],
                  .token .TK_SINGLE_QUOTES ['\''],
                  .node .TWIG_LITERAL_STRING_INNER [
                    .token .TK_WORD ['a', '-', 'b']],
                  .token .TK_SINGLE_QUOTES ['\'']]],
              .token .TK_COLON [':'],
              .node .TWIG_EXPRESSION [
                .node .TWIG_LITERAL_NUMBER [
                  .token .TK_WHITESPACE [' '],
                  .token .TK_NUMBER ['2']]]],
            .token .TK_COMMA [','],
            .node .TWIG_LITERAL_HASH_PAIR [
              .node .TWIG_LITERAL_HASH_KEY [
                .token .TK_WHITESPACE [' '],
                .token .TK_WORD ['c']],
              .token .TK_COLON [':'],
              .node .TWIG_EXPRESSION [
                .node .TWIG_LITERAL_NUMBER [
                  .token .TK_WHITESPACE [' '],
                  .token .TK_NUMBER ['3']]]]],
          .token .TK_CLOSE_CURLY ['}']]],
      .token .TK_WHITESPACE [' '],
      .token .TK_CLOSE_CURLY_CURLY ['}', '}']]]

theorem keySample_parsed :
    parsesTo "{{ {\"k\": 1, 'a-b': 2, c: 3} }}".toList keySample = true := by
  decide +kernel

/-- Filters, tests and functions. -/
def knownSample : Tree :=
  .node .ROOT [
    .node .TWIG_VAR [
      .token .TK_OPEN_CURLY_CURLY ['{', '{'],
      .node .TWIG_EXPRESSION [
        .node .TWIG_FILTER [
          .node .TWIG_OPERAND [
            .node .TWIG_FILTER [
              .node .TWIG_OPERAND [
                .node .TWIG_LITERAL_NAME [
                  .token .TK_WHITESPACE [' '],
                  .token .TK_WORD ['a']]],
              .token .TK_SINGLE_PIPE ['|'],
              .node .TWIG_OPERAND [
                .node .TWIG_LITERAL_NAME [
                  .token .TK_WORD ['f', 'o', 'o']]]]],
          .token .TK_SINGLE_PIPE ['|'],
          .node .TWIG_OPERAND [
            .node .TWIG_LITERAL_NAME [
              .token .TK_WORD ['u', 'p', 'p', 'e', 'r']]]]],
      .token .TK_WHITESPACE [' '],
      .token .TK_CLOSE_CURLY_CURLY ['}', '}']],
    .node .TWIG_IF [
      .node .TWIG_IF_BLOCK [
        .token .TK_CURLY_PERCENT ['{', '%'],
        .token .TK_WHITESPACE [' '],
        .token .TK_IF ['i', 'f'],
        .node .TWIG_EXPRESSION [
          .node .TWIG_BINARY_EXPRESSION [
            .node .TWIG_EXPRESSION [
              .node .TWIG_LITERAL_NAME [
                .token .TK_WHITESPACE [' '],
                .token .TK_WORD ['b']]],
            .token .TK_WHITESPACE [' '],
            .token .TK_IS ['i', 's'],
            .node .TWIG_EXPRESSION [
              .node .TWIG_FUNCTION_CALL [
                .node .TWIG_OPERAND [
                  .node .TWIG_LITERAL_NAME [
                    .token .TK_WHITESPACE [' '],
                    .token .TK_WORD ['b', 'a', 'r']]],
                .node .TWIG_ARGUMENTS [
                  .token .TK_OPEN_PARENTHESIS ['('],
                  .node .TWIG_EXPRESSION [
                    .node .TWIG_LITERAL_NUMBER [
                      .token .TK_NUMBER ['1']]],
                  .token .TK_CLOSE_PARENTHESIS [')']]]]]],
        .token .TK_WHITESPACE [' '],
        .token .TK_PERCENT_CURLY ['%', '}']],
      .node .BODY [],
      .node .TWIG_ENDIF_BLOCK [
        .token .TK_CURLY_PERCENT ['{', '%'],
        .token .TK_WHITESPACE [' '],
        .token .TK_ENDIF ['e', 'n', 'd', 'i', 'f'],
        .token .TK_WHITESPACE [' '],
        .token .TK_PERCENT_CURLY ['%', '}']]],
    .node .TWIG_VAR [
      .token .TK_OPEN_CURLY_CURLY ['{', '{'],
      .node .TWIG_EXPRESSION [
        .node .TWIG_FUNCTION_CALL [
          .node .TWIG_OPERAND [
            .node .TWIG_LITERAL_NAME [
              .token .TK_WHITESPACE [' '],
              .token .TK_WORD ['b', 'a', 'z']]],
          .node .TWIG_ARGUMENTS [
            .token .TK_OPEN_PARENTHESIS ['('],
            .node .TWIG_EXPRESSION [
              .node .TWIG_FILTER [
                .node .TWIG_OPERAND [
                  .node .TWIG_LITERAL_NAME [
                    .token .TK_WORD ['c']]],
                .token .TK_SINGLE_PIPE ['|'],
                .node .TWIG_OPERAND [
                  .node .TWIG_LITERAL_NAME [
                    .token .TK_WORD ['q', 'u', 'x']],
                  .node .TWIG_ARGUMENTS [
                    .token .TK_OPEN_PARENTHESIS ['('],
                    .node .TWIG_EXPRESSION [
                      .node .TWIG_LITERAL_NAME [
                        .token .TK_WORD ['d']]],
                    .token .TK_CLOSE_PARENTHESIS [')']]]]],
            .token .TK_CLOSE_PARENTHESIS [')']]]],
      .token .TK_WHITESPACE [' '],
      .token .TK_CLOSE_CURLY_CURLY ['}', '}']]]

theorem knownSample_parsed :
    parsesTo "{{ a|foo|upper }}{% if b is bar(1) %}{% endif %}{{ baz(c|qux(d)) }}".toList knownSample = true := by
  decide +kernel

/-- Definitions of variables. -/
def variableSample : Tree :=
  .node .ROOT [
    .node .TWIG_EXTENDS [
      .token .TK_CURLY_PERCENT ['{', '%'],
      .token .TK_WHITESPACE [' '],
      .token .TK_EXTENDS ['e', 'x', 't', 'e', 'n', 'd', 's'],
      .node .TWIG_EXPRESSION [
        .node .TWIG_LITERAL_STRING [
          .token .TK_WHITESPACE [' '],
          .token .TK_DOUBLE_QUOTES ['"'],
          .node .TWIG_LITERAL_STRING_INNER [
            .token .TK_WORD ['a']],
          .token .TK_DOUBLE_QUOTES ['"']]],
      .token .TK_WHITESPACE [' '],
      .token .TK_PERCENT_CURLY ['%', '}']],
    .node .TWIG_SET [
      .node .TWIG_SET_BLOCK [
        .token .TK_CURLY_PERCENT ['{', '%'],
        .token .TK_WHITESPACE [' '],
        .token .TK_SET ['s', 'e', 't'],
        .node .TWIG_ASSIGNMENT [
          .node .TWIG_LITERAL_NAME [
            .token .TK_WHITESPACE [' '],
            .token .TK_WORD ['A', '_', 'B']],
          .token .TK_WHITESPACE [' '],
          .token .TK_EQUAL ['='],
          .node .TWIG_EXPRESSION [
            .node .TWIG_FUNCTION_CALL [
              .node .TWIG_OPERAND [
                .node .TWIG_LITERAL_NAME [
                  .token .TK_WHITESPACE [' '],
                  .token .TK_WORD ['c', 'o', 'n', 's', 't', 'a', 'n', 't']]],
              .node .TWIG_ARGUMENTS [
                .token .TK_OPEN_PARENTHESIS ['('],
                .node .TWIG_EXPRESSION [
                  .node .TWIG_LITERAL_STRING [
                    .token .TK_DOUBLE_QUOTES ['"'],
                    .node .TWIG_LITERAL_STRING_INNER [
                      .token .TK_WORD ['x']],
                    .token .TK_DOUBLE_QUOTES ['"']]],
                .token .TK_CLOSE_PARENTHESIS [')']]]]],
        .token .TK_WHITESPACE [' '],
        .token .TK_PERCENT_CURLY ['%', '}']]],
    .node .TWIG_SET [
      .node .TWIG_SET_BLOCK [
        .token .TK_CURLY_PERCENT ['{', '%'],
        .token .TK_WHITESPACE [' '],
        .token .TK_SET ['s', 'e', 't'],
        .node .TWIG_ASSIGNMENT [
          .node .TWIG_LITERAL_NAME [
            .token .TK_WHITESPACE [' '],
            .token .TK_WORD ['C']],
          .token .TK_COMMA [','],
          .node .TWIG_LITERAL_NAME [
            .token .TK_WHITESPACE [' '],
            .token .TK_WORD ['d']],
          .token .TK_WHITESPACE [' '],
          .token .TK_EQUAL ['='],
          .node .TWIG_EXPRESSION [
            .node .TWIG_LITERAL_NUMBER [
              .token .TK_WHITESPACE [' '],
              .token .TK_NUMBER ['1']]],
          .token .TK_COMMA [','],
          .node .TWIG_EXPRESSION [
            .node .TWIG_LITERAL_NUMBER [
              .token .TK_WHITESPACE [' '],
              .token .TK_NUMBER ['2']]]],
        .token .TK_WHITESPACE [' '],
        .token .TK_PERCENT_CURLY ['%', '}']]],
    .node .TWIG_FOR [
      .node .TWIG_FOR_BLOCK [
        .token .TK_CURLY_PERCENT ['{', '%'],
        .token .TK_WHITESPACE [' '],
        .token .TK_FOR ['f', 'o', 'r'],
        .node .TWIG_LITERAL_NAME [
          .token .TK_WHITESPACE [' '],
          .token .TK_WORD ['_', 'e']],
        .token .TK_COMMA [','],
        .node .TWIG_LITERAL_NAME [
          .token .TK_WHITESPACE [' '],
          .token .TK_WORD ['F']],
        .token .TK_WHITESPACE [' '],
        .token .TK_IN ['i', 'n'],
        .node .TWIG_EXPRESSION [
          .node .TWIG_LITERAL_NAME [
            .token .TK_WHITESPACE [' '],
            .token .TK_WORD ['g']]],
        .token .TK_WHITESPACE [' '],
        .token .TK_PERCENT_CURLY ['%', '}']],
      .node .BODY [],
      .node .TWIG_ENDFOR_BLOCK [
        .token .TK_CURLY_PERCENT ['{', '%'],
        .token .TK_WHITESPACE [' '],
        .token .TK_ENDFOR ['e', 'n', 'd', 'f', 'o', 'r'],
        .token .TK_WHITESPACE [' '],
        .token .TK_PERCENT_CURLY ['%', '}']]]]

theorem variableSample_parsed :
    parsesTo "{% extends \"a\" %}{% set A_B = constant(\"x\") %}{% set C, d = 1, 2 %}{% for _e, F in g %}{% endfor %}".toList variableSample = true := by
  decide +kernel

/-- Directives for the file. -/
def directiveSample : Tree :=
  .node .ROOT [
    .node .LUDTWIG_DIRECTIVE_FILE_IGNORE [
      .token .TK_OPEN_CURLY_HASHTAG ['{', '#'],
      .token .TK_WHITESPACE [' '],
      .token .TK_LUDTWIG_IGNORE_FILE ['l', 'u', 'd', 't', 'w', 'i', 'g', '-', 'i', 'g', 'n', 'o', 'r', 'e', '-', 'f', 'i', 'l', 'e'],
      .node .LUDTWIG_DIRECTIVE_RULE_LIST [
        .token .TK_WHITESPACE [' '],
        .token .TK_WORD ['a']],
      .token .TK_WHITESPACE [' '],
      .token .TK_HASHTAG_CLOSE_CURLY ['#', '}']],
    .node .HTML_TAG [
      .node .HTML_STARTING_TAG [
        .token .TK_LESS_THAN ['<'],
        .token .TK_WORD ['p'],
        .node .HTML_ATTRIBUTE_LIST [],
        .token .TK_GREATER_THAN ['>']],
      .node .BODY [
        .node .LUDTWIG_DIRECTIVE_FILE_IGNORE [
          .token .TK_OPEN_CURLY_HASHTAG ['{', '#'],
          .token .TK_WHITESPACE [' '],
          .token .TK_LUDTWIG_IGNORE_FILE ['l', 'u', 'd', 't', 'w', 'i', 'g', '-', 'i', 'g', 'n', 'o', 'r', 'e', '-', 'f', 'i', 'l', 'e'],
          .node .LUDTWIG_DIRECTIVE_RULE_LIST [
            .token .TK_WHITESPACE [' '],
            .token .TK_WORD ['b']],
          .token .TK_WHITESPACE [' '],
          .token .TK_HASHTAG_CLOSE_CURLY ['#', '}']]],
      .node .HTML_ENDING_TAG [
        .token .TK_LESS_THAN_SLASH ['<', '/'],
        .token .TK_WORD ['p'],
        .token .TK_GREATER_THAN ['>']]]]

theorem directiveSample_parsed :
    parsesTo "{# ludtwig-ignore-file a #}<p>{# ludtwig-ignore-file b #}</p>".toList directiveSample = true := by
  decide +kernel

/-- A block with a tag, an attribute and a filter. -/
def accessorSample : Tree :=
  .node .ROOT [
    .node .TWIG_BLOCK [
      .node .TWIG_STARTING_BLOCK [
        .token .TK_CURLY_PERCENT ['{', '%'],
        .token .TK_WHITESPACE [' '],
        .token .TK_BLOCK ['b', 'l', 'o', 'c', 'k'],
        .token .TK_WHITESPACE [' '],
        .token .TK_WORD ['a'],
        .token .TK_WHITESPACE [' '],
        .token .TK_PERCENT_CURLY ['%', '}']],
      .node .BODY [
        .node .HTML_TAG [
          .node .HTML_STARTING_TAG [
            .token .TK_LESS_THAN ['<'],
            .token .TK_WORD ['p'],
            .node .HTML_ATTRIBUTE_LIST [
              .node .HTML_ATTRIBUTE [
                .token .TK_WHITESPACE [' '],
                .token .TK_WORD ['i', 'd'],
                .token .TK_EQUAL ['='],
                .node .HTML_STRING [
                  .token .TK_DOUBLE_QUOTES ['"'],
                  .node .HTML_STRING_INNER [
                    .token .TK_WORD ['b']],
                  .token .TK_DOUBLE_QUOTES ['"']]]],
            .token .TK_GREATER_THAN ['>']],
          .node .BODY [
            .node .TWIG_VAR [
              .token .TK_OPEN_CURLY_CURLY ['{', '{'],
              .node .TWIG_EXPRESSION [
                .node .TWIG_FILTER [
                  .node .TWIG_OPERAND [
                    .node .TWIG_LITERAL_NAME [
                      .token .TK_WHITESPACE [' '],
                      .token .TK_WORD ['c']]],
                  .token .TK_SINGLE_PIPE ['|'],
                  .node .TWIG_OPERAND [
                    .node .TWIG_LITERAL_NAME [
                      .token .TK_WORD ['d']]]]],
              .token .TK_WHITESPACE [' '],
              .token .TK_CLOSE_CURLY_CURLY ['}', '}']]],
          .node .HTML_ENDING_TAG [
            .token .TK_LESS_THAN_SLASH ['<', '/'],
            .token .TK_WORD ['p'],
            .token .TK_GREATER_THAN ['>']]]],
      .node .TWIG_ENDING_BLOCK [
        .token .TK_CURLY_PERCENT ['{', '%'],
        .token .TK_WHITESPACE [' '],
        .token .TK_ENDBLOCK ['e', 'n', 'd', 'b', 'l', 'o', 'c', 'k'],
        .token .TK_WHITESPACE [' '],
        .token .TK_PERCENT_CURLY ['%', '}']]]]

theorem accessorSample_parsed :
    parsesTo "{% block a %}<p id=\"b\">{{ c|d }}</p>{% endblock %}".toList accessorSample = true := by
  decide +kernel

end Ludtwig.Rules
