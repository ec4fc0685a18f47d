import Verif.Parser.Sink

/-!
# Syntax elements (model)

rowan's `SyntaxNode` / `SyntaxToken`: a green tree together with its position. An element is
represented by its green tree, the byte offset of its start and the way up to the root. The names
are those of rowan's `cursor.rs` / `api.rs`; the behaviour is the one of these functions (external
crate, see DESIGN.md).
-/

namespace Ludtwig

/-- Kind of a tree. -/
def Tree.kind : Tree → SyntaxKind
  | .token k _ => k
  | .node k _ => k

/-- Is a tree a node (and not a token)? -/
def Tree.isNode : Tree → Bool
  | .token _ _ => false
  | .node _ _ => true

/-- The position of an element in its parent: kind and start of the parent, the children before and
after the element. -/
structure Frame where
  kind : SyntaxKind
  start : Nat
  before : List Tree
  after : List Tree

/-- A syntax element: `path` leads from the parent to the root. -/
structure Elem where
  tree : Tree
  start : Nat
  path : List Frame

/-- `SyntaxNode::new_root`. -/
def Elem.root (t : Tree) : Elem := ⟨t, 0, []⟩

/-- `kind()`. -/
def Elem.kind (e : Elem) : SyntaxKind := e.tree.kind

/-- Is the element a node? -/
def Elem.isNode (e : Elem) : Bool := e.tree.isNode

/-- `text()`. -/
def Elem.text (e : Elem) : Text := e.tree.text

/-- `text_range()`. -/
def Elem.range (e : Elem) : TextRange := ⟨e.start, e.start + byteLen e.tree.text⟩

/-- The elements of a list of children, given the children before them and their start. -/
def childElems (path : List Frame) (kind : SyntaxKind) (start : Nat) :
    List Tree → Nat → List Tree → List Elem
  | _, _, [] => []
  | before, pos, t :: ts =>
    ⟨t, pos, ⟨kind, start, before, ts⟩ :: path⟩ ::
      childElems path kind start (before ++ [t]) (pos + byteLen t.text) ts

/-- `children_with_tokens()`. -/
def Elem.childrenWithTokens (e : Elem) : List Elem :=
  match e.tree with
  | .token _ _ => []
  | .node k cs => childElems e.path k e.start [] e.start cs

/-- `children()`: the nodes among the children. -/
def Elem.children (e : Elem) : List Elem := e.childrenWithTokens.filter (·.isNode)

/-- The tokens among the children (`children_with_tokens().filter_map(NodeOrToken::into_token)`). -/
def Elem.tokens (e : Elem) : List Elem := e.childrenWithTokens.filter (fun c => !c.isNode)

/-- `parent()`. -/
def Elem.parent (e : Elem) : Option Elem :=
  match e.path with
  | [] => none
  | f :: fs => some ⟨.node f.kind (f.before ++ e.tree :: f.after), f.start, fs⟩

/-- The siblings before the element in document order. -/
def Elem.siblingsBefore (e : Elem) : List Elem :=
  match e.path with
  | [] => []
  | f :: fs =>
    (childElems fs f.kind f.start [] f.start (f.before ++ e.tree :: f.after)).take f.before.length

/-- The siblings after the element in document order. -/
def Elem.siblingsAfter (e : Elem) : List Elem :=
  match e.path with
  | [] => []
  | f :: fs =>
    (childElems fs f.kind f.start [] f.start (f.before ++ e.tree :: f.after)).drop
      (f.before.length + 1)

/-- `prev_sibling_or_token()`. -/
def Elem.prevSiblingOrToken (e : Elem) : Option Elem := e.siblingsBefore.getLast?

/-- `prev_sibling()`: the closest node before. -/
def Elem.prevSibling (e : Elem) : Option Elem := (e.siblingsBefore.filter (·.isNode)).getLast?

/-- `next_sibling()`: the closest node after. -/
def Elem.nextSibling (e : Elem) : Option Elem := (e.siblingsAfter.filter (·.isNode)).head?

mutual
/-- `first_token()`: follows the first children; `none` if that ends in an empty node. -/
def firstTokenAt : Tree → Nat → List Frame → Option Elem
  | .token k t, pos, path => some ⟨.token k t, pos, path⟩
  | .node k cs, pos, path => firstTokenIn cs k pos path
/-- The first token of the first child. -/
def firstTokenIn : List Tree → SyntaxKind → Nat → List Frame → Option Elem
  | [], _, _, _ => none
  | c :: cs, k, pos, path => firstTokenAt c pos (⟨k, pos, [], cs⟩ :: path)
end

/-- `first_token()`. -/
def Elem.firstToken (e : Elem) : Option Elem := firstTokenAt e.tree e.start e.path

mutual
/-- `last_token()`: follows the last children; `none` if that ends in an empty node. -/
def lastTokenAt : Tree → Nat → List Frame → Option Elem
  | .token k t, pos, path => some ⟨.token k t, pos, path⟩
  | .node k cs, pos, path => lastTokenIn cs [] pos k pos path
/-- The last token of the last child; `before` are the children passed. -/
def lastTokenIn : List Tree → List Tree → Nat → SyntaxKind → Nat → List Frame → Option Elem
  | [], _, _, _, _, _ => none
  | c :: cs, before, pos, k, start, path =>
    match cs with
    | [] => lastTokenAt c pos (⟨k, start, before, []⟩ :: path)
    | _ :: _ => lastTokenIn cs (before ++ [c]) (pos + byteLen c.text) k start path
end

/-- `last_token()`. -/
def Elem.lastToken (e : Elem) : Option Elem := lastTokenAt e.tree e.start e.path

/-- `next_token()`: the first token of the next sibling of the element or of its closest ancestor
that has one (`none` if that sibling has no first token). `stop` is the end of the element. -/
def nextTokenFrom (t : Tree) (stop : Nat) : List Frame → Option Elem
  | [] => none
  | f :: fs =>
    match f.after with
    | n :: ns => firstTokenAt n stop (⟨f.kind, f.start, f.before ++ [t], ns⟩ :: fs)
    | [] => nextTokenFrom (.node f.kind (f.before ++ [t])) stop fs

/-- `next_token()`. -/
def Elem.nextToken (e : Elem) : Option Elem :=
  nextTokenFrom e.tree (e.start + byteLen e.tree.text) e.path

/-- The identity of nodes (`==`): the same place in the tree. -/
def Elem.same (a b : Elem) : Bool :=
  a.path.map (fun f => f.before.length) == b.path.map (fun f => f.before.length)

/-! ## Traversal -/

/-- What is done with the events of `preorder_with_tokens()`. `enter` also says whether
`skip_subtree()` was called. -/
structure Visitor (ε σ : Type) where
  enter : Elem → σ → Except ε (σ × Bool)
  leave : Elem → σ → Except ε σ

mutual
/-- The loop over `preorder_with_tokens()` from entering to leaving an element. After
`skip_subtree()` the next event is the leave event of the element. -/
def walkTree {ε σ : Type} (V : Visitor ε σ) : Tree → Nat → List Frame → σ → Except ε σ
  | .token k t, pos, path, s =>
    match V.enter ⟨.token k t, pos, path⟩ s with
    | .error p => .error p
    | .ok (s, _) => V.leave ⟨.token k t, pos, path⟩ s
  | .node k cs, pos, path, s =>
    match V.enter ⟨.node k cs, pos, path⟩ s with
    | .error p => .error p
    | .ok (s, skip) =>
      match (if skip then .ok s else walkTrees V cs k pos [] pos path s) with
      | .error p => .error p
      | .ok s => V.leave ⟨.node k cs, pos, path⟩ s
/-- The events of the children of a node. -/
def walkTrees {ε σ : Type} (V : Visitor ε σ) :
    List Tree → SyntaxKind → Nat → List Tree → Nat → List Frame → σ → Except ε σ
  | [], _, _, _, _, _, s => .ok s
  | t :: ts, k, start, before, pos, path, s =>
    match walkTree V t pos (⟨k, start, before, ts⟩ :: path) s with
    | .error p => .error p
    | .ok s => walkTrees V ts k start (before ++ [t]) (pos + byteLen t.text) path s
end

/-- A loop over `preorder_with_tokens()`. -/
def Elem.walk {ε σ : Type} (V : Visitor ε σ) (e : Elem) (s : σ) : Except ε σ :=
  walkTree V e.tree e.start e.path s

/-- A loop over `preorder()`: only the nodes give events. -/
def Elem.walkNodes {ε σ : Type} (V : Visitor ε σ) (e : Elem) (s : σ) : Except ε σ :=
  e.walk
    { enter := fun x s => if x.isNode then V.enter x s else .ok (s, false)
      leave := fun x s => if x.isNode then V.leave x s else .ok s } s

end Ludtwig
