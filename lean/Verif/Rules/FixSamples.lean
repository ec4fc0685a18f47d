import Verif.Rules.Samples

/-!
# Sample trees for fixing

Trees of source texts, written out, with the check that parsing gives them and how many errors.
-/

namespace Ludtwig.Rules

/-- A source text is parsed to a tree with a number of errors, as a computation. -/
def parsesWith (s : Text) (t : Tree) (errors : Nat) : Bool :=
  match parse (fun _ => 1) s with
  | .ok r => r.tree.eqb t && r.errors.length == errors
  | .error _ => false

theorem parse_of_parsesWith {s : Text} {t : Tree} {n : Nat} (h : parsesWith s t n = true) :
    ∃ r, parse (fun _ => 1) s = .ok r ∧ r.tree = t ∧ r.errors.length = n := by
  unfold parsesWith at h
  split at h
  · rename_i r hr
    rw [Bool.and_eq_true] at h
    exact ⟨r, hr, Tree.eq_of_eqb _ _ h.1, by simpa using h.2⟩
  · cases h

/-- A comparison with a string and an operator in its right operand. -/
def joinSample : Tree :=
  .node .ROOT [
    .node .TWIG_VAR [
      .token .TK_OPEN_CURLY_CURLY ['{', '{'],
      .node .TWIG_EXPRESSION [
        .node .TWIG_BINARY_EXPRESSION [
          .node .TWIG_EXPRESSION [
            .node .TWIG_LITERAL_NAME [
              .token .TK_WHITESPACE [' '],
              .token .TK_WORD ['a']]],
          .token .TK_WHITESPACE [' '],
          .token .TK_TRIPLE_EQUAL ['=', '=', '='],
          .node .TWIG_EXPRESSION [
            .node .TWIG_LITERAL_ARRAY [
              .token .TK_WHITESPACE [' '],
              .token .TK_OPEN_SQUARE ['['],
              .node .TWIG_LITERAL_ARRAY_INNER [
                .node .TWIG_EXPRESSION [
                  .node .TWIG_LITERAL_STRING [
                    .token .TK_DOUBLE_QUOTES ['"'],
                    .node .TWIG_LITERAL_STRING_INNER [
                      .token .TK_WORD ['b']],
                    .token .TK_DOUBLE_QUOTES ['"']]],
                .token .TK_COMMA [','],
                .node .TWIG_EXPRESSION [
                  .node .TWIG_BINARY_EXPRESSION [
                    .node .TWIG_EXPRESSION [
                      .node .TWIG_LITERAL_NAME [
                        .token .TK_WHITESPACE [' '],
                        .token .TK_WORD ['x']]],
                    .token .TK_WHITESPACE [' '],
                    .token .TK_DOUBLE_AMPERSAND ['&', '&'],
                    .node .TWIG_EXPRESSION [
                      .node .TWIG_LITERAL_NAME [
                        .token .TK_WHITESPACE [' '],
                        .token .TK_WORD ['y']]]]]],
              .token .TK_CLOSE_SQUARE [']']]]]],
      .token .TK_WHITESPACE [' '],
      .token .TK_CLOSE_CURLY_CURLY ['}', '}']]]

theorem joinSample_parsed :
    parsesWith "{{ a === [\"b\", x && y] }}".toList joinSample 0 = true := by
  decide +kernel

/-- The text after the first round of fixing `joinSample`. -/
def joinSample₂ : Tree :=
  .node .ROOT [
    .node .TWIG_VAR [
      .token .TK_OPEN_CURLY_CURLY ['{', '{'],
      .node .TWIG_EXPRESSION [
        .node .TWIG_BINARY_EXPRESSION [
          .node .TWIG_EXPRESSION [
            .node .TWIG_LITERAL_NAME [
              .token .TK_WHITESPACE [' '],
              .token .TK_WORD ['a']]],
          .token .TK_WHITESPACE [' '],
          .token .TK_IS ['i', 's'],
          .node .TWIG_EXPRESSION [
            .node .TWIG_FUNCTION_CALL [
              .node .TWIG_OPERAND [
                .node .TWIG_LITERAL_NAME [
                  .token .TK_WHITESPACE [' '],
                  .token .TK_WORD ['s', 'a', 'm', 'e', ' ', 'a', 's']]],
              .node .TWIG_ARGUMENTS [
                .token .TK_OPEN_PARENTHESIS ['('],
                .node .TWIG_EXPRESSION [
                  .node .TWIG_LITERAL_ARRAY [
                    .token .TK_OPEN_SQUARE ['['],
                    .node .TWIG_LITERAL_ARRAY_INNER [
                      .node .TWIG_EXPRESSION [
                        .node .TWIG_LITERAL_STRING [
                          .token .TK_DOUBLE_QUOTES ['"'],
                          .node .TWIG_LITERAL_STRING_INNER [
                            .token .TK_WORD ['b']],
                          .token .TK_DOUBLE_QUOTES ['"']]],
                      .token .TK_COMMA [','],
                      .node .TWIG_EXPRESSION [
                        .node .TWIG_BINARY_EXPRESSION [
                          .node .TWIG_EXPRESSION [
                            .node .TWIG_LITERAL_NAME [
                              .token .TK_WHITESPACE [' '],
                              .token .TK_WORD ['x']]],
                          .token .TK_WHITESPACE [' '],
                          .token .TK_DOUBLE_AMPERSAND ['&', '&'],
                          .node .TWIG_EXPRESSION [
                            .node .TWIG_LITERAL_NAME [
                              .token .TK_WHITESPACE [' '],
                              .token .TK_WORD ['y']]]]]],
                    .token .TK_CLOSE_SQUARE [']']]],
                .token .TK_CLOSE_PARENTHESIS [')']]]]]],
      .node .ERROR [
        .token .TK_CLOSE_SQUARE [']']],
      .token .TK_WHITESPACE [' '],
      .token .TK_CLOSE_CURLY_CURLY ['}', '}']]]

theorem joinSample₂_parsed :
    parsesWith "{{ a is same as([\"b\", x && y])] }}".toList joinSample₂ 1 = true := by
  decide +kernel

/-- The text after the second round of fixing `joinSample`. -/
def joinSample₃ : Tree :=
  .node .ROOT [
    .node .TWIG_VAR [
      .token .TK_OPEN_CURLY_CURLY ['{', '{'],
      .node .TWIG_EXPRESSION [
        .node .TWIG_BINARY_EXPRESSION [
          .node .TWIG_EXPRESSION [
            .node .TWIG_LITERAL_NAME [
              .token .TK_WHITESPACE [' '],
              .token .TK_WORD ['a']]],
          .token .TK_WHITESPACE [' '],
          .token .TK_IS ['i', 's'],
          .node .TWIG_EXPRESSION [
            .node .TWIG_FUNCTION_CALL [
              .node .TWIG_OPERAND [
                .node .TWIG_LITERAL_NAME [
                  .token .TK_WHITESPACE [' '],
                  .token .TK_WORD ['s', 'a', 'm', 'e', ' ', 'a', 's']]],
              .node .TWIG_ARGUMENTS [
                .token .TK_OPEN_PARENTHESIS ['('],
                .node .TWIG_EXPRESSION [
                  .node .TWIG_LITERAL_ARRAY [
                    .token .TK_OPEN_SQUARE ['['],
                    .node .TWIG_LITERAL_ARRAY_INNER [
                      .node .TWIG_EXPRESSION [
                        .node .TWIG_LITERAL_STRING [
                          .token .TK_SINGLE_QUOTES ['\''],
                          .node .TWIG_LITERAL_STRING_INNER [
                            .token .TK_WORD ['b']],
                          .token .TK_SINGLE_QUOTES ['\'']]],
                      .token .TK_COMMA [','],
                      .node .TWIG_EXPRESSION [
                        .node .TWIG_BINARY_EXPRESSION [
                          .node .TWIG_EXPRESSION [
                            .node .TWIG_LITERAL_NAME [
                              .token .TK_WHITESPACE [' '],
                              .token .TK_WORD ['x']]],
                          .token .TK_WHITESPACE [' '],
                          .token .TK_AND ['a', 'n', 'd'],
                          .node .TWIG_EXPRESSION [
                            .node .TWIG_LITERAL_NAME [
                              .token .TK_WHITESPACE [' '],
                              .token .TK_WORD ['y']]]]]],
                    .token .TK_CLOSE_SQUARE [']']]],
                .token .TK_CLOSE_PARENTHESIS [')']]]]]],
      .node .ERROR [
        .token .TK_CLOSE_SQUARE [']']],
      .token .TK_WHITESPACE [' '],
      .token .TK_CLOSE_CURLY_CURLY ['}', '}']]]

theorem joinSample₃_parsed :
    parsesWith "{{ a is same as(['b', x and y])] }}".toList joinSample₃ 1 = true := by
  decide +kernel

/-- A comparison with a string and a hash in its right operand. -/
def hashSample : Tree :=
  .node .ROOT [
    .node .TWIG_VAR [
      .token .TK_OPEN_CURLY_CURLY ['{', '{'],
      .node .TWIG_EXPRESSION [
        .node .TWIG_BINARY_EXPRESSION [
          .node .TWIG_EXPRESSION [
            .node .TWIG_LITERAL_NAME [
              .token .TK_WHITESPACE [' '],
              .token .TK_WORD ['a']]],
          .token .TK_WHITESPACE [' '],
          .token .TK_TRIPLE_EQUAL ['=', '=', '='],
          .node .TWIG_EXPRESSION [
            .node .TWIG_LITERAL_ARRAY [
              .token .TK_WHITESPACE [' '],
              .token .TK_OPEN_SQUARE ['['],
              .node .TWIG_LITERAL_ARRAY_INNER [
                .node .TWIG_EXPRESSION [
                  .node .TWIG_LITERAL_STRING [
                    .token .TK_DOUBLE_QUOTES ['"'],
                    .node .TWIG_LITERAL_STRING_INNER [
                      .token .TK_WORD ['b']],
                    .token .TK_DOUBLE_QUOTES ['"']]],
                .token .TK_COMMA [','],
                .node .TWIG_EXPRESSION [
                  .node .TWIG_LITERAL_HASH [
                    .token .TK_WHITESPACE [' '],
                    .token .TK_OPEN_CURLY ['{'],
                    .node .TWIG_LITERAL_HASH_ITEMS [
                      .node .TWIG_LITERAL_HASH_PAIR [
                        .node .TWIG_LITERAL_HASH_KEY [
                          .node .TWIG_LITERAL_STRING [
                            .token .TK_DOUBLE_QUOTES ['"'],
                            .node .TWIG_LITERAL_STRING_INNER [
                              .token .TK_WORD ['k']],
                            .token .TK_DOUBLE_QUOTES ['"']]],
                        .token .TK_COLON [':'],
                        .node .TWIG_EXPRESSION [
                          .node .TWIG_LITERAL_NUMBER [
                            .token .TK_WHITESPACE [' '],
                            .token .TK_NUMBER ['1']]]],
                      .token .TK_COMMA [','],
                      .node .TWIG_LITERAL_HASH_PAIR [
                        .node .TWIG_LITERAL_HASH_KEY [
                          .node .TWIG_LITERAL_STRING [
                            .token .TK_WHITESPACE [' '],
                            .token .TK_DOUBLE_QUOTES ['"'],
                            .node .TWIG_LITERAL_STRING_INNER [
                              .token .TK_WORD ['l']],
                            .token .TK_DOUBLE_QUOTES ['"']]],
                        .token .TK_COLON [':'],
                        .node .TWIG_EXPRESSION [
                          .node .TWIG_LITERAL_NUMBER [
                            .token .TK_WHITESPACE [' '],
                            .token .TK_NUMBER ['2']]]]],
                    .token .TK_CLOSE_CURLY ['}']]]],
              .token .TK_CLOSE_SQUARE [']']]]]],
      .token .TK_CLOSE_CURLY_CURLY ['}', '}']]]

theorem hashSample_parsed :
    parsesWith "{{ a === [\"b\", {\"k\": 1, \"l\": 2}]}}".toList hashSample 0 = true := by
  decide +kernel

end Ludtwig.Rules
