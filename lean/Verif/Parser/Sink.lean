import Verif.Parser.State

/-!
# Sink (model)

`Sink::finish` (crates/ludtwig-parser/src/parser/sink.rs) turns the events and the tokens into the
syntax tree. rowan's `GreenNodeBuilder` is represented by the children of the innermost open node
and the stack of open nodes.
-/

namespace Ludtwig

/-- The green tree: tokens with their text and nodes. -/
inductive Tree
  | token (kind : SyntaxKind) (text : Text)
  | node (kind : SyntaxKind) (children : List Tree)
  deriving Repr, Inhabited

mutual
/-- The text of a tree (`SyntaxNode::text`). -/
def Tree.text : Tree → Text
  | .token _ t => t
  | .node _ cs => textOf cs
/-- The concatenated text of a list of trees. -/
def textOf : List Tree → Text
  | [] => []
  | t :: ts => t.text ++ textOf ts
end

/-- The ways in which the sink can panic. -/
inductive SinkPanic
  /-- `unreachable!` on a forward parent that is not a start event, or an index out of bounds
  (sink.rs 62–74). -/
  | forwardParent
  /-- `tokens[cursor]` out of bounds (sink.rs 117, 126, 134). -/
  | noToken
  /-- `finish_node` without an open node (rowan). -/
  | finishWithoutStart
  /-- not all tokens consumed (sink.rs 92–96). -/
  | tokensLeft
  /-- `GreenNodeBuilder::finish` without exactly one root node (rowan). -/
  | noRoot
  /-- Not a panic of the code: a chain longer than the number of events. -/
  | outOfFuel
  deriving DecidableEq, Repr

/-- `Sink`, sink.rs 15–21. `rest` is `tokens[cursor..]`; `children` are the children of the innermost
open node, `parents` the kinds of the open nodes together with the children that their parents had
when they were started. -/
structure SinkState where
  events : List Event
  rest : List Token
  children : List Tree
  parents : List (SyntaxKind × List Tree)

/-- `token`, sink.rs 116–122, for a run of trivia tokens: `consume_trivia`, sink.rs 104–114. -/
def consumeTrivia (s : SinkState) : SinkState :=
  { s with
    rest := dropTrivia s.rest
    children := s.children
      ++ (s.rest.takeWhile (fun t => t.kind.isTrivia)).map (fun t => Tree.token t.kind t.text) }

/-- `token_as`, sink.rs 125–131. -/
def tokenAs (kind : SyntaxKind) (s : SinkState) : Except SinkPanic SinkState :=
  match s.rest with
  | [] => .error .noToken
  | t :: rest => .ok { s with rest := rest, children := s.children ++ [.token kind t.text] }

/-- `next_n_tokens_as`, sink.rs 133–143. -/
def nextNTokensAs (n : Nat) (kind : SyntaxKind) (s : SinkState) : Except SinkPanic SinkState :=
  if s.rest.length < n then .error .noToken
  else .ok { s with
    rest := s.rest.drop n
    children := s.children ++ [.token kind ((s.rest.take n).flatMap (·.text))] }

/-- `GreenNodeBuilder::start_node`. -/
def startNode (kind : SyntaxKind) (s : SinkState) : SinkState :=
  { s with children := [], parents := (kind, s.children) :: s.parents }

/-- `GreenNodeBuilder::finish_node`. -/
def finishNode (s : SinkState) : Except SinkPanic SinkState :=
  match s.parents with
  | [] => .error .finishWithoutStart
  | (kind, before) :: parents =>
    .ok { s with children := before ++ [.node kind s.children], parents := parents }

/-- The walk along the forward parents, sink.rs 57–75: collects the kinds and replaces the visited
events by placeholders. -/
def walkForward : Nat → List Event → Nat → Option Nat → List SyntaxKind →
    Except SinkPanic (List Event × List SyntaxKind)
  | _, events, _, none, kinds => .ok (events, kinds)
  | 0, _, _, some _, _ => .error .outOfFuel
  | fuel + 1, events, idx, some fp, kinds =>
    match events[idx + fp]? with
    | some (.startNode kind fp') =>
      walkForward fuel (events.set (idx + fp) .placeholder) (idx + fp) fp' (kinds ++ [kind])
    | _ => .error .forwardParent

/-- The `match` of the loop body of `finish`, sink.rs 47–88, on the event at `idx`. -/
def sinkEvent (idx : Nat) (s : SinkState) : Except SinkPanic SinkState :=
  match s.events[idx]? with
  | some (.startNode kind fp) =>
    match walkForward s.events.length (s.events.set idx .placeholder) idx fp [kind] with
    | .error e => .error e
    | .ok (events, kinds) => .ok (kinds.reverse.foldl (fun s k => startNode k s) { s with events })
  | some (.addToken kind) => tokenAs kind s
  | some (.addNextNTokensAs n kind) => nextNTokensAs n kind s
  | some .explicitlyConsumeTrivia => .ok (consumeTrivia s)
  | some .finishNode => finishNode s
  | some .placeholder => .ok s
  | none => .ok s

/-- Is trivia consumed before the event at `idx`, sink.rs 38–45. -/
def consumesTriviaBefore (s : SinkState) (idx : Nat) : Bool :=
  (match s.events[idx]? with
    | some (.addToken _) => true
    | some (.addNextNTokensAs _ _) => true
    | _ => false) || idx + 1 == s.events.length

/-- The loop body of `finish`, sink.rs 37–89. -/
def sinkStep (idx : Nat) (s : SinkState) : Except SinkPanic SinkState :=
  sinkEvent idx (if consumesTriviaBefore s idx then consumeTrivia s else s)

/-- The loop of `finish`, sink.rs 37–89, over the given indices. -/
def sinkLoop : List Nat → SinkState → Except SinkPanic SinkState
  | [], s => .ok s
  | idx :: is, s =>
    match sinkStep idx s with
    | .error e => .error e
    | .ok s => sinkLoop is s

/-- `Sink::finish`, sink.rs 34–102. -/
def sinkFinish (tokens : List Token) (events : List Event) : Except SinkPanic Tree :=
  match sinkLoop (List.range events.length)
      { events := events, rest := tokens, children := [], parents := [] } with
  | .error e => .error e
  | .ok s =>
    if s.rest.isEmpty then
      match s.children with
      | [.node kind children] => .ok (.node kind children)
      | _ => .error .noRoot
    else .error .tokensLeft

end Ludtwig
