import Verif.Parser.Sink
import Verif.Grammar.Root

/-!
# `parse` (model)

crates/ludtwig-parser/src/parser.rs 77–84.
-/

namespace Ludtwig

/-- `Parse`, parser.rs 87–90. -/
structure Parse where
  tree : Tree
  errors : List ParseError

/-- A panic of the parser or of the sink. -/
inductive ParsePanic
  | parser (p : Panic)
  | sink (p : SinkPanic)
  deriving DecidableEq, Repr

/-- `parse` on the tokens of a file, parser.rs 80–83. -/
def parseLexed (tokens : List Token) : Except ParsePanic Parse :=
  match parseTokens tokens with
  | .error e => .error (.parser e)
  | .ok (events, errors) =>
    match sinkFinish tokens events with
    | .error e => .error (.sink e)
    | .ok tree => .ok ⟨tree, errors⟩

/-- `parse`, parser.rs 78–84. `errLen` is the length of the tokens in which the lexer generator
reports text that no rule matches. -/
def parse (errLen : Text → Nat) (input : Text) : Except ParsePanic Parse :=
  parseLexed (Lexer.lex errLen input)

end Ludtwig
