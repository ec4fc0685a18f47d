import Verif.Parser.Lexer

/-!
# Parser state and primitives (model)

`Parser` (crates/ludtwig-parser/src/parser.rs), `Source` (parser/source.rs), `EventCollection`
(parser/event.rs) and `ParseErrorBuilder` (parser/parse_error.rs).
Panics are explicit results; the release behaviour is modelled, plus the debug-only check of the
marker order in `complete` (so that it can be shown never to fire). The `debug_assert!`s at the
beginning of the grammar functions are left out.
-/

namespace Ludtwig

/-- Where a `bump` was called (`#[track_caller]`); only the call sites without a preceding check of
the next token are told apart. -/
inductive Site
  | checked
  | arrowFunction
  | rawText
  deriving DecidableEq, Repr

/-- The ways in which parsing can panic. -/
inductive Panic
  /-- `bump` / `bump_as`: no more tokens (parser.rs 212–216, 233–237). -/
  | bumpAtEnd (site : Site)
  /-- `bump_next_n_as`: not enough tokens (parser.rs 250–254). -/
  | bumpNAtEnd
  /-- `add_error` on a file without tokens (parser.rs 340–343). -/
  | errorOnEmptyFile
  /-- `complete` of a marker that is not the innermost open one (event.rs 79–88, debug builds). -/
  | markerOrder
  /-- `complete` of a marker whose event is not a placeholder (event.rs 92, debug builds). -/
  | notPlaceholder
  /-- `precede` of something that is not a completed node (event.rs 115). -/
  | precedeNotStart
  /-- `unreachable!` in `parse_html_attribute_value_string` (html.rs 405). -/
  | quoteKind
  /-- `expect` of the unary binding power (expression.rs 330). -/
  | unaryPower
  /-- `Display` of a kind without a name (untyped.rs 923). -/
  | noDisplay
  /-- Not a panic of the code: the recursion bound of the model was too small. -/
  | outOfFuel
  deriving DecidableEq, Repr

/-- `Event`, parser/event.rs 5–22. -/
inductive Event
  | startNode (kind : SyntaxKind) (forwardParent : Option Nat)
  | addToken (kind : SyntaxKind)
  | addNextNTokensAs (n : Nat) (kind : SyntaxKind)
  | finishNode
  | explicitlyConsumeTrivia
  | placeholder
  deriving DecidableEq, Repr

/-- `ParseError`, parse_error.rs 43–48. -/
structure ParseError where
  range : TextRange
  found : Option SyntaxKind
  expected : String
  deriving DecidableEq, Repr

/-- `Marker`, event.rs 122–127: the position of its event. -/
abbrev Marker := Nat
/-- `CompletedMarker`, event.rs 147–152. -/
abbrev CompletedMarker := Nat

/-- `Parser`, parser.rs 115–119. `rest` is `tokens[cursor..]` of `Source` (source.rs 8–11) and
`lastRange` the range of the last token of the file. -/
structure PState where
  rest : List Token
  lastRange : Option TextRange
  events : List Event
  openMarkers : List Nat
  errors : List ParseError

/-- A parser action: may panic, otherwise returns a value and the new state. -/
def P (α : Type) : Type := PState → Except Panic (α × PState)

namespace P

def pure (a : α) : P α := fun s => .ok (a, s)

def bind (m : P α) (f : α → P β) : P β := fun s =>
  match m s with
  | .error e => .error e
  | .ok (a, s') => f a s'

instance : Monad P where
  pure := pure
  bind := bind

def panic (e : Panic) : P α := fun _ => .error e

/-- Short-circuit `||` of two checks. -/
def or (a b : P Bool) : P Bool := do if (← a) then return true else b

/-- Short-circuit `&&` of two checks. -/
def and (a b : P Bool) : P Bool := do if (← a) then b else return false

/-- `!` of a check. -/
def not (a : P Bool) : P Bool := do return !(← a)

end P

/-- `eat_trivia`, source.rs 123–127, on the remaining tokens. -/
def dropTrivia (ts : List Token) : List Token := ts.dropWhile (fun t => t.kind.isTrivia)

/-- `eat_trivia`, source.rs 123–127. -/
def eatTrivia : P Unit := fun s => .ok ((), { s with rest := dropTrivia s.rest })

/-- `peek_token`, source.rs 41–44, 137–139. -/
def peekToken : P (Option Token) := fun s =>
  let rest := dropTrivia s.rest
  .ok (rest.head?, { s with rest := rest })

/-- `peek`, parser.rs 136–138 (source.rs 36–39). -/
def peek : P (Option SyntaxKind) := do return (← peekToken).map (·.kind)

/-- `peek_nth_token`, source.rs 49–52: the n-th remaining token including trivia. -/
def peekNthToken (n : Nat) : P (Option Token) := fun s =>
  let rest := dropTrivia s.rest
  .ok (rest[n]?, { s with rest := rest })

/-- `get_pos`, source.rs 119–121. Only compared with other positions of the same file, so the
number of remaining tokens serves as the position. -/
def getPos : P Nat := fun s => .ok (s.rest.length, s)

/-- `at_set`, parser.rs 157–159. -/
def atSet (set : List SyntaxKind) : P Bool := do
  match (← peek) with
  | some k => return set.contains k
  | none => return false

/-- `at`, parser.rs 161–163. -/
def at' (kind : SyntaxKind) : P Bool := do return (← peek) == some kind

/-- `at_end`, parser.rs 206–208. -/
def atEnd : P Bool := do return (← peek).isNone

/-- The loop of `at_following`, source.rs 66–72, on the kinds of the remaining non-trivia tokens. -/
def followKinds : List SyntaxKind → List SyntaxKind → Bool
  | _, [] => true
  | [], _ :: _ => false
  | t :: ts, k :: ks => if t == k then followKinds ts ks else false

/-- `at_following`, source.rs 54–73. -/
def atFollowing (set : List SyntaxKind) : P Bool := fun s =>
  let rest := dropTrivia s.rest
  let r := if rest.isEmpty then false
    else followKinds ((rest.filter (fun t => !t.kind.isTrivia)).map (·.kind)) set
  .ok (r, { s with rest := rest })

/-- The loop of `at_following_content`, source.rs 101–112. -/
def followContent : List Token → List (SyntaxKind × Option Text) → Bool
  | _, [] => true
  | [], _ :: _ => false
  | t :: ts, (k, c) :: ks =>
    if t.kind == k && (match c with | none => true | some c => c == t.text) then followContent ts ks
    else false

/-- `at_following_content`, source.rs 90–113. -/
def atFollowingContent (set : List (SyntaxKind × Option Text)) : P Bool := fun s =>
  let rest := dropTrivia s.rest
  let r := if rest.isEmpty then false
    else followContent (rest.filter (fun t => !t.kind.isTrivia)) set
  .ok (r, { s with rest := rest })

/-- `peek_next_non_trivia_kind`, source.rs 77–88: the kind of the first non-trivia token after the
current one. -/
def peekNextNonTriviaKind : P (Option SyntaxKind) := fun s =>
  let rest := dropTrivia s.rest
  .ok ((dropTrivia rest.tail).head?.map (·.kind), { s with rest := rest })

/-- `GENERAL_RECOVERY_SET`, parser.rs 23–36. -/
def generalRecoverySet : List SyntaxKind :=
  [T!"{%", T!"{%-", T!"{%~", T!"{{", T!"{{-", T!"{{~", T!"{#", T!"{#-", T!"{#~", T!"<", T!"<!--",
   T!"<!"]
/-- `TWIG_BLOCK_OPEN_SET`, parser.rs 39. -/
def twigBlockOpenSet : List SyntaxKind := [T!"{%", T!"{%-", T!"{%~"]
/-- `TWIG_BLOCK_CLOSE_SET`, parser.rs 42. -/
def twigBlockCloseSet : List SyntaxKind := [T!"%}", T!"-%}", T!"~%}"]
/-- `TWIG_VAR_OPEN_SET`, parser.rs 45. -/
def twigVarOpenSet : List SyntaxKind := [T!"{{", T!"{{-", T!"{{~"]
/-- `TWIG_VAR_CLOSE_SET`, parser.rs 48. -/
def twigVarCloseSet : List SyntaxKind := [T!"}}", T!"-}}", T!"~}}"]
/-- `TWIG_COMMENT_OPEN_SET`, parser.rs 51. -/
def twigCommentOpenSet : List SyntaxKind := [T!"{#", T!"{#-", T!"{#~"]
/-- `TWIG_COMMENT_CLOSE_SET`, parser.rs 54. -/
def twigCommentCloseSet : List SyntaxKind := [T!"#}", T!"-#}", T!"~#}"]

/-- `at_twig_block_open`, parser.rs 182–184. -/
def atTwigBlockOpen : P Bool := atSet twigBlockOpenSet
/-- `at_twig_block_close`, parser.rs 187–189. -/
def atTwigBlockClose : P Bool := atSet twigBlockCloseSet
/-- `at_twig_var_open`, parser.rs 192–194. -/
def atTwigVarOpen : P Bool := atSet twigVarOpenSet
/-- `at_twig_comment_open`, parser.rs 197–199. -/
def atTwigCommentOpen : P Bool := atSet twigCommentOpenSet

/-- `at_twig_tag`, parser.rs 177–179. -/
def atTwigTag (keyword : SyntaxKind) : P Bool :=
  P.and atTwigBlockOpen (do return (← peekNextNonTriviaKind) == some keyword)

/-- `bump_as` (parser.rs 232–245) and, with `asKind = none`, `bump` (211–220): the token's event is
recorded with its own or the given kind. The token is returned with its own kind (the kind of the
token that `bump_as` returns is never used). -/
def bumpGen (site : Site) (asKind : Option SyntaxKind) : P Token := fun s =>
  match dropTrivia s.rest with
  | [] => .error (.bumpAtEnd site)
  | t :: rest => .ok (t, { s with rest := rest, events := s.events ++ [.addToken (asKind.getD t.kind)] })

/-- `bump`, parser.rs 211–220. -/
def bump (site : Site := .checked) : P Token := bumpGen site none

/-- `bump_as`, parser.rs 232–245. -/
def bumpAs (kind : SyntaxKind) : P Token := bumpGen .checked (some kind)

/-- `bump_next_n_as`, parser.rs 248–259 (source.rs 27–34). -/
def bumpNextNAs (n : Nat) (kind : SyntaxKind) : P Unit := fun s =>
  let rest := dropTrivia s.rest
  if rest.length < n then .error .bumpNAtEnd
  else .ok ((), { s with rest := rest.drop n, events := s.events ++ [.addNextNTokensAs n kind] })

/-- `explicitly_consume_trivia`, parser.rs 227–229. -/
def explicitlyConsumeTrivia : P Unit := fun s =>
  .ok ((), { s with events := s.events ++ [.explicitlyConsumeTrivia] })

/-- `start`, event.rs 66–73. -/
def start : P Marker := fun s =>
  .ok (s.events.length, { s with
    events := s.events ++ [.placeholder]
    openMarkers := s.events.length :: s.openMarkers })

/-- `complete`, event.rs 76–102. -/
def complete (marker : Marker) (kind : SyntaxKind) : P CompletedMarker := fun s =>
  match s.openMarkers with
  | m :: rest =>
    if m == marker then
      if s.events[marker]? == some .placeholder then
        .ok (marker, { s with
          events := s.events.set marker (.startNode kind none) ++ [.finishNode]
          openMarkers := rest })
      else .error .notPlaceholder
    else .error .markerOrder
  | [] => .error .markerOrder

/-- `precede`, event.rs 105–119. -/
def precede (completed : CompletedMarker) : P Marker := fun s =>
  let newPos := s.events.length
  match s.events[completed]? with
  | some (.startNode kind _) =>
    .ok (newPos, { s with
      events := s.events.set completed (.startNode kind (some (newPos - completed))) ++ [.placeholder]
      openMarkers := newPos :: s.openMarkers })
  | _ => .error .precedeNotStart

/-- `ParseErrorBuilder`, parse_error.rs 8–40. -/
structure ErrorBuilder where
  range : Option TextRange := none
  found : Option SyntaxKind := none
  expected : String

/-- `add_error`, parser.rs 330–357. -/
def addErrorBuilder (b : ErrorBuilder) : P Unit := fun s =>
  if b.range.isNone || b.found.isNone then
    let rest := dropTrivia s.rest
    match rest with
    | t :: _ =>
      .ok ((), { s with
        rest := rest
        errors := s.errors ++ [⟨b.range.getD t.range, b.found.orElse (fun _ => some t.kind), b.expected⟩] })
    | [] =>
      match s.lastRange with
      | none => .error .errorOnEmptyFile
      | some r => .ok ((), { s with
          rest := rest
          errors := s.errors ++ [⟨b.range.getD r, b.found, b.expected⟩] })
  else
    match b.range with
    | some r => .ok ((), { s with errors := s.errors ++ [⟨r, b.found, b.expected⟩] })
    | none => .ok ((), s)

/-- `add_error(ParseErrorBuilder::new(expected))`. -/
def addError (expected : String) : P Unit := addErrorBuilder { expected := expected }

/-- `add_error(ParseErrorBuilder::new(expected).at_token(token))`, parse_error.rs 28–32. -/
def addErrorAt (expected : String) (t : Token) : P Unit :=
  addErrorBuilder { range := some t.range, found := some t.kind, expected := expected }

/-- A `loop` with a bound: `body` returns whether to go on, and the new value of the captured
variables. -/
def loopP {σ : Type} (body : σ → P (Bool × σ)) : Nat → σ → P σ
  | 0, _ => P.panic .outOfFuel
  | fuel + 1, a => do
    let (continue_, a) ← body a
    if continue_ then loopP body fuel a else return a

/-- A loop whose bound is the number of remaining tokens (plus one). -/
def loopTokens {σ : Type} (body : σ → P (Bool × σ)) (a : σ) : P σ := do
  let n ← getPos
  loopP body (n + 1) a

/-- The loop body of `recover_expect`, parser.rs 313–325: bump, then stop at an expected kind
(which is consumed after closing the error node) or at a recovery token. -/
def recoverStep (expected recovery : List SyntaxKind) (m : Marker) (r : Option Token) :
    P (Bool × Option Token) := do
  let _ ← bump
  if (← P.and (pure (!expected.isEmpty)) (atSet expected)) then
    let _ ← complete m .ERROR
    let t ← bump
    return (false, some t)
  else if (← P.or atEnd (P.or (atSet generalRecoverySet) (atSet recovery))) then
    let _ ← complete m .ERROR
    return (false, none)
  else
    return (true, r)

/-- `recover_expect`, parser.rs 304–327. -/
def recoverExpect (expected recovery : List SyntaxKind) : P (Option Token) := do
  if (← P.or atEnd (P.or (atSet recovery) (atSet generalRecoverySet))) then
    return none
  else
    let m ← start
    loopTokens (recoverStep expected recovery m) none

/-- `recover`, parser.rs 300–302. -/
def recover (recovery : List SyntaxKind) : P Unit := do
  let _ ← recoverExpect [] recovery

/-- `format!("{kind}")`. -/
def displayKind (k : SyntaxKind) : P String :=
  match k.display? with
  | some s => return s
  | none => P.panic .noDisplay

/-- `format!("{k}")` for a list of kinds. -/
def displayKinds : List SyntaxKind → P (List String)
  | [] => return []
  | k :: ks => do
    let s ← displayKind k
    let ss ← displayKinds ks
    return s :: ss

/-- `expect`, parser.rs 261–272. -/
def expect (kind : SyntaxKind) (recovery : List SyntaxKind) : P (Option Token) := do
  if (← at' kind) then
    let t ← bump
    return some t
  else
    let d ← displayKind kind
    addError d
    recoverExpect [kind] recovery

/-- `expect_any`, parser.rs 276–293. -/
def expectAny (kinds : List SyntaxKind) (recovery : List SyntaxKind) : P (Option Token) := do
  if (← atSet kinds) then
    let t ← bump
    return some t
  else
    let ds ← displayKinds kinds
    addError (" or ".intercalate ds)
    recoverExpect kinds recovery

/-- The loop body of `parse_many`, grammar.rs 44–56. `early` and `child` may change captured
variables `σ`. -/
def parseManyStep {σ : Type} (early : σ → P (Bool × σ)) (child : σ → P σ) (a : σ) :
    P (Bool × σ) := do
  let pos ← getPos
  if (← at' .TK_UNKNOWN) then
    let _ ← bump
    return (true, a)
  else if (← atEnd) then
    return (false, a)
  else
    let (exit, a) ← early a
    if exit then return (false, a)
    else
      let a ← child a
      let pos' ← getPos
      return (pos' != pos, a)

/-- `parse_many`, grammar.rs 36–57, with captured variables. -/
def parseManyWith {σ : Type} (early : σ → P (Bool × σ)) (child : σ → P σ) (a : σ) : P σ :=
  loopTokens (parseManyStep early child) a

/-- `parse_many`, grammar.rs 36–57, for closures that capture nothing they change. -/
def parseMany (early : P Bool) (child : P Unit) : P Unit :=
  parseManyWith (fun _ => do return ((← early), ())) (fun _ => child) ()

end Ludtwig
