import Verif.Parser.Sink

/-!
# Direct construction of trees (specification for C08)

A tree skeleton has nodes labelled with the event position of their marker and leaves that stand for
the token commands. The direct machine builds skeletons without any late resolution: completing the
innermost open node appends it to its parent, and preceding a completed node inserts a new open
parent around it and everything after it. `fill` puts the lexer tokens into the leaves from left to
right.
-/

namespace Ludtwig

/-- The token commands. -/
inductive Leaf
  /-- the next token that is not trivia, under the given kind -/
  | tok (kind : SyntaxKind)
  /-- the next `n` tokens merged into one -/
  | ntok (n : Nat) (kind : SyntaxKind)
  /-- the trivia at this place -/
  | triv
  deriving DecidableEq, Repr

/-- Tree skeletons. -/
inductive Skel
  | leaf (l : Leaf)
  | node (pos : Nat) (kind : SyntaxKind) (children : List Skel)

/-- Commands to the event collection. -/
inductive Cmd
  | start
  | complete (marker : Nat) (kind : SyntaxKind)
  | precede (completed : Nat)
  | leaf (l : Leaf)

/-- The direct machine: the open nodes (innermost first) with their children so far, the finished
trees, and the number of commands so far, from which the labels of new markers are taken. -/
structure Direct where
  done : List Skel
  frames : List (Nat × List Skel)
  next : Nat

/-- Splits a list of skeletons in front of the node with the given label. -/
def splitAtNode (c : Nat) : List Skel → Option (List Skel × List Skel)
  | [] => none
  | .node p k cs :: rest =>
    if p = c then some ([], .node p k cs :: rest)
    else (splitAtNode c rest).map (fun r => (.node p k cs :: r.1, r.2))
  | .leaf l :: rest => (splitAtNode c rest).map (fun r => (.leaf l :: r.1, r.2))

/-- Appends a skeleton to the innermost open node. -/
def Direct.add (d : Direct) (x : Skel) : Direct :=
  match d.frames with
  | [] => { d with done := d.done ++ [x] }
  | (p, cs) :: fs => { d with frames := (p, cs ++ [x]) :: fs }

/-- One step of the direct machine; `none` if the command breaks the marker discipline: only the
innermost open node may be completed, only a completed child of the innermost open node may be
preceded, and only one that was not preceded before (those have a smaller label than their
parent). -/
def Direct.step (d : Direct) : Cmd → Option Direct
  | .start => some { d with frames := (d.next, []) :: d.frames, next := d.next + 1 }
  | .leaf l => some { d.add (.leaf l) with next := d.next + 1 }
  | .complete m k =>
    match d.frames with
    | (p, cs) :: fs =>
      if p = m then some { ({ d with frames := fs }).add (.node p k cs) with next := d.next + 1 }
      else none
    | [] => none
  | .precede c =>
    match d.frames with
    | [] => none
    | (p, cs) :: fs =>
      if p < c then
        match splitAtNode c cs with
        | none => none
        | some (before, after) =>
          some { d with frames := (d.next, after) :: (p, before) :: fs, next := d.next + 1 }
      else none

/-- The direct machine on a list of commands. -/
def Direct.run (d : Direct) : List Cmd → Option Direct
  | [] => some d
  | c :: cs =>
    match d.step c with
    | none => none
    | some d' => d'.run cs

/-- The trivia tokens at the front, as leaves of the tree. -/
def triviaTrees (ts : List Token) : List Tree :=
  (ts.takeWhile (fun t => t.kind.isTrivia)).map (fun t => .token t.kind t.text)

/-- Fills one leaf with tokens. -/
def Leaf.fill (ts : List Token) : Leaf → Option (List Tree × List Token)
  | .triv => some (triviaTrees ts, dropTrivia ts)
  | .tok k =>
    match dropTrivia ts with
    | [] => none
    | t :: rest => some (triviaTrees ts ++ [.token k t.text], rest)
  | .ntok n k =>
    if (dropTrivia ts).length < n then none
    else some (triviaTrees ts ++ [.token k (((dropTrivia ts).take n).flatMap (·.text))],
      (dropTrivia ts).drop n)

mutual
/-- Fills a skeleton with tokens from left to right. -/
def Skel.fill (ts : List Token) : Skel → Option (List Tree × List Token)
  | .leaf l => l.fill ts
  | .node _ k cs =>
    match fillAll ts cs with
    | none => none
    | some (trees, rest) => some ([.node k trees], rest)
/-- Fills a list of skeletons with tokens from left to right. -/
def fillAll (ts : List Token) : List Skel → Option (List Tree × List Token)
  | [] => some ([], ts)
  | x :: xs =>
    match x.fill ts with
    | none => none
    | some (trees, rest) =>
      match fillAll rest xs with
      | none => none
      | some (trees', rest') => some (trees ++ trees', rest')
end

end Ludtwig
