import Verif.Rules.NameProps
import Verif.Rules.ParsedProps
import Verif.Syntax.NextToken

/-!
# Line breaks around blocks: property C72
-/

namespace Ludtwig.Rules

open Cli Shape

/-! ## Specification -/

/-- Comments and directives. -/
def isComment (t : Tree) : Bool :=
  nodeOf .TWIG_COMMENT t || nodeOf .HTML_COMMENT t || nodeOf .LUDTWIG_DIRECTIVE_FILE_IGNORE t ||
    nodeOf .LUDTWIG_DIRECTIVE_IGNORE t

/-- The closest of some siblings, the closest first. One comment is passed over. -/
def beyondComment : List Tree → Option Tree
  | [] => none
  | n :: ns => if isComment n then ns.head? else some n

/-- The nodes directly before an element, the closest first. -/
def nodesBefore (e : Elem) : List Tree :=
  match e.path with
  | [] => []
  | f :: _ => (f.before.filter Tree.isNode).reverse

/-- The nodes directly behind an element, the closest first. -/
def nodesBehind (e : Elem) : List Tree :=
  match e.path with
  | [] => []
  | f :: _ => f.after.filter Tree.isNode

/-- A block that is looked at: it has an end, and is not the beginning of the file. -/
def Surrounded (e ending : Elem) : Prop :=
  nodeOf .TWIG_BLOCK e.tree = true ∧ FirstChild (nodeOf .TWIG_ENDING_BLOCK) e ending ∧
  ∃ f fs, e.path = f :: fs ∧ (f.kind = .ROOT → beyondComment (nodesBefore e) ≠ none)

/-- Where a block begins: at the comment directly before it, or else at its first tag. -/
def Beginning (e c : Elem) : Prop :=
  (∃ k s a n b after fs, e.path = ⟨k, s, a ++ n :: b, after⟩ :: fs ∧ isComment n = true ∧
    (∀ t ∈ b, t.isNode = false) ∧
    c = ⟨n, s + byteLen (textOf a), ⟨k, s, a, b ++ e.tree :: after⟩ :: fs⟩) ∨
  ((∀ n ∈ (nodesBefore e).head?, isComment n = false) ∧ FirstChild (nodeOf .TWIG_STARTING_BLOCK) e c)

/-- The first token in an element. -/
def FirstIn (c t : Elem) : Prop := ∃ r, tokensOf (elemsAt c.tree c.start c.path) = t :: r

/-- The number of line breaks in front of a block: one as the first in its parent. -/
def breaksBefore (config : Config) (e : Elem) : Nat :=
  if beyondComment (nodesBefore e) = none then 1 else if config.linebreaksAroundBlocks then 2 else 1

/-- The number of line breaks behind a block: one as the last in its parent. -/
def breaksBehind (config : Config) (e : Elem) : Nat :=
  if nodesBehind e = [] then 1 else if config.linebreaksAroundBlocks then 2 else 1

/-- The finding if a place is not as many line breaks as there should be: the first token at the place is
replaced if it is of line breaks, else they are put before it. -/
def BreakFinding (config : Config) (n : Nat) (t : Elem) (x : CheckResult) : Prop :=
  ¬ (t.kind = .TK_LINE_BREAK ∧ t.text = (List.replicate n config.lineEnding.text).flatten) ∧
  ∃ range : TextRange,
    range = (if t.kind = .TK_LINE_BREAK then t.range else ⟨t.start, t.start⟩) ∧
    x = { rule := "twig-block-line-breaks".toList
          severity := .help
          suggestions := [⟨range, (List.replicate n config.lineEnding.text).flatten⟩]
          primary := some range }

/-! ## Siblings -/

theorem childElems_append (path : List Frame) (k : SyntaxKind) (start : Nat) :
    ∀ (a b before : List Tree) (pos : Nat), childElems path k start before pos (a ++ b) =
      (childElems path k start before pos (a ++ b)).take a.length ++
        childElems path k start (before ++ a) (pos + byteLen (textOf a)) b
  | [], b, before, pos => by simp [textOf]
  | t :: a, b, before, pos => by
    simp only [List.cons_append, childElems, List.length_cons, List.take_succ_cons, List.cons.injEq, true_and]
    have := childElems_append path k start a b (before ++ [t]) (pos + byteLen t.text)
    simpa [textOf, byteLen_append, Nat.add_assoc] using this

/-- The trees of the nodes before an element. -/
theorem siblingsBefore_nodes (e : Elem) :
    ((e.siblingsBefore.filter (·.isNode)).map (·.tree)).reverse = nodesBefore e := by
  unfold Elem.siblingsBefore nodesBefore
  cases e.path with
  | nil => rfl
  | cons f fs =>
    dsimp only
    congr 1
    have h := childElems_trees fs f.kind f.start (f.before ++ e.tree :: f.after) [] f.start
    have h2 : ((childElems fs f.kind f.start [] f.start (f.before ++ e.tree :: f.after)).take
        f.before.length).map (·.tree) = f.before := by
      rw [List.map_take, h]; simp
    conv => rhs; rw [← h2]
    rw [List.filter_map]
    rfl

theorem siblingsAfter_nodes (e : Elem) :
    (e.siblingsAfter.filter (·.isNode)).map (·.tree) = nodesBehind e := by
  unfold Elem.siblingsAfter nodesBehind
  cases e.path with
  | nil => rfl
  | cons f fs =>
    dsimp only
    have h := childElems_trees fs f.kind f.start (f.before ++ e.tree :: f.after) [] f.start
    have h2 : ((childElems fs f.kind f.start [] f.start (f.before ++ e.tree :: f.after)).drop
        (f.before.length + 1)).map (·.tree) = f.after := by
      rw [List.map_drop, h]; simp
    conv => rhs; rw [← h2]
    rw [List.filter_map]
    rfl

/-- A list either has no node, or a last one. -/
theorem last_node (ts : List Tree) : (∀ t ∈ ts, t.isNode = false) ∨
    ∃ a n b, ts = a ++ n :: b ∧ n.isNode = true ∧ ∀ t ∈ b, t.isNode = false := by
  induction ts with
  | nil => exact .inl (by simp)
  | cons t ts ih =>
    rcases ih with h | ⟨a, n, b, rfl, h1, h2⟩
    · cases ht : t.isNode with
      | true => exact .inr ⟨[], t, ts, rfl, ht, h⟩
      | false =>
        refine .inl (fun x hx => ?_)
        rcases List.mem_cons.1 hx with rfl | hx
        · exact ht
        · exact h x hx
    · exact .inr ⟨t :: a, n, b, rfl, h1, h2⟩

theorem first_node (ts : List Tree) : (∀ t ∈ ts, t.isNode = false) ∨
    ∃ a n b, ts = a ++ n :: b ∧ n.isNode = true ∧ ∀ t ∈ a, t.isNode = false := by
  induction ts with
  | nil => exact .inl (by simp)
  | cons t ts ih =>
    cases ht : t.isNode with
    | true => exact .inr ⟨[], t, ts, rfl, ht, by simp⟩
    | false =>
      rcases ih with h | ⟨a, n, b, rfl, h1, h2⟩
      · refine .inl (fun x hx => ?_)
        rcases List.mem_cons.1 hx with rfl | hx
        · exact ht
        · exact h x hx
      · refine .inr ⟨t :: a, n, b, rfl, h1, fun x hx => ?_⟩
        rcases List.mem_cons.1 hx with rfl | hx
        · exact ht
        · exact h2 x hx

theorem no_nodes {l : List Elem} {ts : List Tree} (h : l.map (·.tree) = ts) (ht : ∀ t ∈ ts, t.isNode = false) :
    l.filter (·.isNode) = [] := by
  rw [List.filter_eq_nil_iff]
  intro e he
  have : e.tree.isNode = false := ht _ (h ▸ List.mem_map_of_mem he)
  show ¬ e.tree.isNode = true
  rw [this]; exact Bool.false_ne_true

theorem nodes_nil {ts : List Tree} (ht : ∀ t ∈ ts, t.isNode = false) : ts.filter Tree.isNode = [] := by
  rw [List.filter_eq_nil_iff]
  intro t h
  rw [ht t h]; exact Bool.false_ne_true

theorem prevSibling_split {t n : Tree} {pos s : Nat} {k : SyntaxKind} {a b after : List Tree} {fs : List Frame}
    (h1 : n.isNode = true) (h2 : ∀ t ∈ b, t.isNode = false) :
    (⟨t, pos, ⟨k, s, a ++ n :: b, after⟩ :: fs⟩ : Elem).prevSibling =
      some ⟨n, s + byteLen (textOf a), ⟨k, s, a, b ++ t :: after⟩ :: fs⟩ ∧
    nodesBefore ⟨t, pos, ⟨k, s, a ++ n :: b, after⟩ :: fs⟩ = n :: (a.filter Tree.isNode).reverse := by
  constructor
  · unfold Elem.prevSibling Elem.siblingsBefore
    dsimp only
    have h3 := childElems_append fs k s a (n :: (b ++ t :: after)) [] s
    have h4 : a ++ n :: b ++ t :: after = a ++ n :: (b ++ t :: after) := by simp
    rw [h4, h3]
    have h5 : ((childElems fs k s [] s (a ++ n :: (b ++ t :: after))).take a.length).length = a.length := by
      rw [List.length_take, childElems_length]; simp
    rw [List.take_append, h5, List.length_append, List.length_cons, Nat.add_sub_cancel_left,
      List.take_of_length_le (by rw [h5]; omega), childElems, List.take_succ_cons, List.filter_append,
      List.filter_cons_of_pos (by exact h1), no_nodes (ts := b) (l := (childElems fs k s ([] ++ a ++ [n])
        (s + byteLen (textOf a) + byteLen n.text) (b ++ t :: after)).take b.length) ?_ h2]
    · rw [List.getLast?_append]
      rfl
    · rw [List.map_take, childElems_trees]; simp
  · show ((a ++ n :: b).filter Tree.isNode).reverse = _
    rw [List.filter_append, List.filter_cons_of_pos h1, nodes_nil h2]
    simp

/-- `prev_sibling()`. -/
theorem prevSibling_cases (e : Elem) : (e.prevSibling = none ∧ nodesBefore e = []) ∨
    ∃ k s a n b after fs, e.path = ⟨k, s, a ++ n :: b, after⟩ :: fs ∧ n.isNode = true ∧
      (∀ t ∈ b, t.isNode = false) ∧
      e.prevSibling = some ⟨n, s + byteLen (textOf a), ⟨k, s, a, b ++ e.tree :: after⟩ :: fs⟩ ∧
      nodesBefore e = n :: (a.filter Tree.isNode).reverse := by
  obtain ⟨t, pos, path⟩ := e
  cases path with
  | nil => exact .inl ⟨rfl, rfl⟩
  | cons f fs =>
    obtain ⟨k, s, before, after⟩ := f
    rcases last_node before with h | ⟨a, n, b, rfl, h1, h2⟩
    · left
      constructor
      · unfold Elem.prevSibling Elem.siblingsBefore
        dsimp only
        rw [no_nodes (ts := before) ?_ h]
        · rfl
        · rw [List.map_take, childElems_trees]; simp
      · show (before.filter Tree.isNode).reverse = []
        rw [nodes_nil h]; rfl
    · exact .inr ⟨k, s, a, n, b, after, fs, rfl, h1, h2, prevSibling_split h1 h2⟩

/-- `next_sibling()`. -/
theorem nextSibling_cases (e : Elem) : (e.nextSibling = none ∧ nodesBehind e = []) ∨
    ∃ n, e.nextSibling = some n ∧ nodesBehind e = n.tree :: nodesBehind n := by
  obtain ⟨t, pos, path⟩ := e
  cases path with
  | nil => exact .inl ⟨rfl, rfl⟩
  | cons f fs =>
    obtain ⟨k, s, before, after⟩ := f
    rcases first_node after with h | ⟨a, n, b, rfl, h1, h2⟩
    · left
      constructor
      · unfold Elem.nextSibling Elem.siblingsAfter
        dsimp only
        rw [no_nodes (ts := after) ?_ h]
        · rfl
        · rw [List.map_drop, childElems_trees]; simp
      · exact nodes_nil h
    · right
      refine ⟨⟨n, s + byteLen (textOf (before ++ t :: a)), ⟨k, s, before ++ t :: a, b⟩ :: fs⟩, ?_, ?_⟩
      · unfold Elem.nextSibling Elem.siblingsAfter
        dsimp only
        have h3 := childElems_append fs k s (before ++ [t]) (a ++ n :: b) [] s
        have h4 : before ++ t :: (a ++ n :: b) = before ++ [t] ++ (a ++ n :: b) := by simp
        rw [h4, h3]
        have h5 : ((childElems fs k s [] s (before ++ [t] ++ (a ++ n :: b))).take
            (before ++ [t]).length).length = before.length + 1 := by
          rw [List.length_take, childElems_length]; simp
        rw [List.drop_append, h5, List.drop_of_length_le (by rw [h5]; omega), Nat.sub_self, List.drop_zero,
          List.nil_append, childElems_append, List.filter_append, no_nodes (ts := a) ?_ h2, List.nil_append,
          childElems, List.filter_cons_of_pos (by exact h1)]
        · simp [textOf_append, byteLen_append, Nat.add_assoc, textOf]
        · rw [List.map_take, childElems_trees]; simp
      · show (a ++ n :: b).filter Tree.isNode = n :: b.filter Tree.isNode
        rw [List.filter_append, nodes_nil h2, List.filter_cons_of_pos h1]
        rfl

theorem comment_kind {n : Tree} (h : n.isNode = true) : commentKinds.contains n.kind = isComment n := by
  cases n with
  | token => cases h
  | node k cs =>
    simp only [commentKinds, isComment, nodeOf, Tree.kind, List.contains_cons, List.contains_nil, Bool.or_false,
      Bool.or_assoc]

theorem prevSibling_none (e : Elem) : e.prevSibling = none ↔ nodesBefore e = [] := by
  rcases prevSibling_cases e with ⟨h1, h2⟩ | ⟨k, s, a, n, b, after, fs, _, _, _, h1, h2⟩
  · simp [h1, h2]
  · simp [h1, h2]

theorem nextSibling_none (e : Elem) : e.nextSibling = none ↔ nodesBehind e = [] := by
  rcases nextSibling_cases e with ⟨h1, h2⟩ | ⟨n, h1, h2⟩
  · simp [h1, h2]
  · simp [h1, h2]

theorem realPrev_none (e : Elem) : (realPrevSibling e).isNone = true ↔ beyondComment (nodesBefore e) = none := by
  unfold realPrevSibling
  rcases prevSibling_cases e with ⟨h1, h2⟩ | ⟨k, s, a, n, b, after, fs, _, hn, _, h1, h2⟩
  · rw [h1, h2]; simp [beyondComment]
  · rw [h1, h2]
    dsimp only [beyondComment]
    have hk : commentKinds.contains (⟨n, s + byteLen (textOf a), ⟨k, s, a, b ++ e.tree :: after⟩ :: fs⟩ : Elem).kind =
        isComment n := comment_kind hn
    rw [hk]
    split
    · rw [Option.isNone_iff_eq_none, prevSibling_none, List.head?_eq_none_iff]
      exact Iff.rfl
    · simp

theorem realNext_kind (e : Elem) (k : SyntaxKind) :
    (∃ n, realNextSibling e = some n ∧ n.kind = k) ↔ ∃ n, beyondComment (nodesBehind e) = some n ∧ n.kind = k := by
  have hnode : ∀ (e n : Elem), nodesBehind e = n.tree :: nodesBehind n → n.tree.isNode = true := by
    intro e n h
    have : n.tree ∈ nodesBehind e := by rw [h]; simp
    unfold nodesBehind at this
    split at this
    · cases this
    · exact (List.mem_filter.1 this).2
  unfold realNextSibling
  rcases nextSibling_cases e with ⟨h1, h2⟩ | ⟨n, h1, h2⟩
  · rw [h1, h2]; simp [beyondComment]
  · rw [h1, h2]
    dsimp only [beyondComment]
    have hk : commentKinds.contains n.kind = isComment n.tree := comment_kind (hnode e n h2)
    rw [hk]
    split
    · rcases nextSibling_cases n with ⟨g1, g2⟩ | ⟨m, g1, g2⟩
      · rw [g1, g2]; simp
      · rw [g1, g2]; simp [Elem.kind]
    · simp [Elem.kind]

/-! ## First tokens -/

/-- Every word begins with a token. -/
def _root_.Ludtwig.Shape.Rx.opens : Rx → Bool
  | .tok _ => true
  | .tokNot _ => true
  | .seq a _ => a.opens
  | .alt a b => a.opens && b.opens
  | .sure a => a.opens
  | _ => false

theorem lang_opens : ∀ {r : Rx} {w : List Item}, r.opens = true → r.Lang w → ∃ k v, w = ⟨false, k⟩ :: v
  | .tok _, w, _, hl => by obtain ⟨k, _, rfl⟩ := hl; exact ⟨k, [], rfl⟩
  | .tokNot _, w, _, hl => by obtain ⟨k, _, rfl⟩ := hl; exact ⟨k, [], rfl⟩
  | .seq a b, w, h, hl => by
    obtain ⟨u, v, rfl, h1, _⟩ := hl
    obtain ⟨k, u', rfl⟩ := lang_opens (r := a) h h1
    exact ⟨k, u' ++ v, rfl⟩
  | .alt a b, w, h, hl => by
    rw [Rx.opens, Bool.and_eq_true] at h
    rcases hl with hl | hl
    · exact lang_opens h.1 hl
    · exact lang_opens h.2 hl
  | .sure a, w, h, hl => lang_opens (r := a) h hl

theorem firstToken_opens {G : SyntaxKind → Rx} {root : Tree} (hc : Conforms G root) {c : Elem}
    (hin : Elem.In root c) {k : SyntaxKind} (hk : nodeOf k c.tree = true) (ho : (G k).opens = true) :
    ∃ t, c.firstToken = some t := by
  obtain ⟨cs, ht⟩ := nodeOf_tree hk
  have hl := lang_in hc hin ht
  obtain ⟨k', v, hv⟩ := lang_opens ho hl
  unfold Elem.firstToken
  rw [ht, firstTokenAt]
  cases cs with
  | nil => rw [items] at hv; cases hv
  | cons d ds =>
    rw [firstTokenIn]
    cases d with
    | token k x => exact ⟨_, rfl⟩
    | node k ds' => rw [items] at hv; cases hv

theorem firstToken_iff {G : SyntaxKind → Rx} {root : Tree} (hc : Conforms G root) {c : Elem}
    (hin : Elem.In root c) {k : SyntaxKind} (hk : nodeOf k c.tree = true) (ho : (G k).opens = true) (t : Elem) :
    c.firstToken = some t ↔ FirstIn c t := by
  constructor
  · intro h; exact firstTokenAt_eq _ _ _ _ h
  · rintro ⟨r, hr⟩
    obtain ⟨t', ht'⟩ := firstToken_opens hc hin hk ho
    obtain ⟨r', hr'⟩ := firstTokenAt_eq _ _ _ _ ht'
    rw [hr] at hr'
    cases hr'
    exact ht'

theorem checkLineBreaks_iff (config : Config) (n : Nat) (t : Elem) (x : CheckResult) :
    x ∈ checkLineBreaks config.lineEnding.text t n ↔ BreakFinding config n t x := by
  unfold checkLineBreaks BreakFinding
  dsimp only
  by_cases hk : t.kind = .TK_LINE_BREAK
  · rw [if_pos (by rw [hk]; rfl)]
    by_cases ht : t.text = (List.replicate n config.lineEnding.text).flatten
    · rw [if_neg (by rw [ht]; simp)]
      constructor
      · intro h; cases h
      · rintro ⟨h, _⟩; exact absurd ⟨hk, ht⟩ h
    · rw [if_pos (by simpa using ht), List.mem_singleton]
      constructor
      · rintro rfl
        exact ⟨fun h => ht h.2, _, rfl, by rw [if_pos hk]; rfl⟩
      · rintro ⟨_, _, rfl, rfl⟩
        rw [if_pos hk]; rfl
  · rw [if_neg (by simpa using hk), List.mem_singleton]
    constructor
    · rintro rfl
      exact ⟨fun h => hk h.1, _, rfl, by rw [if_neg hk]; rfl⟩
    · rintro ⟨_, _, rfl, rfl⟩
      rw [if_neg hk]; rfl

/-- The comment before a block as an element of the tree. -/
theorem In_before {root : Tree} {t n : Tree} {pos : Nat} {k : SyntaxKind} {s : Nat} {a b after : List Tree}
    {fs : List Frame} (h : Elem.In root ⟨t, pos, ⟨k, s, a ++ n :: b, after⟩ :: fs⟩) :
    Elem.In root ⟨n, s + byteLen (textOf a), ⟨k, s, a, b ++ t :: after⟩ :: fs⟩ := by
  refine .child (In_path h).1 ?_
  unfold Elem.childrenWithTokens
  dsimp only
  have h4 : a ++ n :: b ++ t :: after = a ++ n :: (b ++ t :: after) := by simp
  rw [h4, childElems_append fs k s a (n :: (b ++ t :: after)) [] s, childElems]
  exact List.mem_append_right _ List.mem_cons_self

theorem comment_opens {n : Tree} (h : isComment n = true) :
    ∃ k, nodeOf k n = true ∧ (damagedProduction k).opens = true := by
  unfold isComment at h
  simp only [Bool.or_eq_true] at h
  rcases h with ((h | h) | h) | h
  · exact ⟨_, h, rfl⟩
  · exact ⟨_, h, rfl⟩
  · exact ⟨_, h, rfl⟩
  · exact ⟨_, h, rfl⟩

theorem comment_node {n : Tree} (h : isComment n = true) : n.isNode = true := by
  obtain ⟨k, hk, _⟩ := comment_opens h
  obtain ⟨cs, rfl⟩ := nodeOf_tree hk
  rfl

/-- The first token of a block with the comment before it. -/
theorem blockFirst_iff {root : Tree} (hc : Conforms damagedProduction root) {e start : Elem}
    (hin : Elem.In root e) (hs : FirstChild (nodeOf .TWIG_STARTING_BLOCK) e start) (t : Elem) :
    blockFirstToken e start = some t ↔ ∃ c, Beginning e c ∧ FirstIn c t := by
  have hstart : start.firstToken = some t ↔ FirstIn start t := by
    have hin' : Elem.In root start := In_child hin ((child_iff _ _ _).2 hs)
    obtain ⟨_, _, _, _, _, hk, _⟩ := hs
    exact firstToken_iff hc hin' hk rfl t
  unfold blockFirstToken
  rcases prevSibling_cases e with ⟨h1, h2⟩ | ⟨k, s, a, n, b, after, fs, hp, hn, hb, h1, h2⟩
  · rw [h1]
    dsimp only
    rw [hstart]
    constructor
    · intro h
      exact ⟨start, .inr ⟨by rw [h2]; simp, hs⟩, h⟩
    · rintro ⟨c, ⟨k, s, a, n, b, after, fs, hp, hn, hb, rfl⟩ | ⟨_, g2⟩, h⟩
      · obtain ⟨te, pe, path⟩ := e
        cases hp
        have := (prevSibling_split (t := te) (pos := pe) (s := s) (k := k) (a := a) (after := after) (fs := fs)
          (comment_node hn) hb).1
        rw [this] at h1
        cases h1
      · rw [firstChild_unique hs g2]; exact h
  · rw [h1]
    dsimp only
    have hk : commentKinds.contains (⟨n, s + byteLen (textOf a), ⟨k, s, a, b ++ e.tree :: after⟩ :: fs⟩ : Elem).kind =
        isComment n := comment_kind hn
    rw [hk]
    cases hcm : isComment n with
    | true =>
      rw [if_pos rfl]
      have hinc : Elem.In root ⟨n, s + byteLen (textOf a), ⟨k, s, a, b ++ e.tree :: after⟩ :: fs⟩ := by
        obtain ⟨te, pe, path⟩ := e
        cases hp
        exact In_before hin
      obtain ⟨kc, hkc, hoc⟩ := comment_opens hcm
      rw [firstToken_iff hc hinc hkc hoc]
      constructor
      · intro h
        exact ⟨_, .inl ⟨k, s, a, n, b, after, fs, hp, hcm, hb, rfl⟩, h⟩
      · rintro ⟨c, ⟨k', s', a', n', b', after', fs', hp', hn', hb', rfl⟩ | ⟨g1, _⟩, h⟩
        · obtain ⟨te, pe, path⟩ := e
          simp only at hp
          subst hp
          have := (prevSibling_split (t := te) (pos := pe) (s := s') (k := k') (a := a') (after := after')
            (fs := fs') (comment_node hn') hb').1
          rw [← hp', h1] at this
          rw [Option.some.inj this]
          exact h
        · rw [h2] at g1
          have := g1 n rfl
          rw [hcm] at this; cases this
    | false =>
      rw [if_neg Bool.false_ne_true, hstart]
      constructor
      · intro h
        refine ⟨start, .inr ⟨?_, hs⟩, h⟩
        rw [h2]
        rintro m hm
        cases hm
        exact hcm
      · rintro ⟨c, ⟨k', s', a', n', b', after', fs', hp', hn', hb', rfl⟩ | ⟨_, g2⟩, h⟩
        · obtain ⟨te, pe, path⟩ := e
          simp only at hp
          subst hp
          have := (prevSibling_split (t := te) (pos := pe) (s := s') (k := k') (a := a') (after := after')
            (fs := fs') (comment_node hn') hb').1
          rw [← hp', h1] at this
          have this : n = n' := congrArg Elem.tree (Option.some.inj this)
          rw [← this, hcm] at hn'; cases hn'
        · rw [firstChild_unique hs g2]; exact h

/-! ## C72 -/

/-- The token behind a block: the one that `next_token()` finds from the last token of its last tag. -/
def Behind (ending t : Elem) : Prop := ∃ last, ending.lastToken = some last ∧ last.nextToken = some t

theorem blockAfter_iff (e ending t : Elem) : blockAfterToken e ending = some t ↔
    Behind ending t ∧ ¬ ∃ n, beyondComment (nodesBehind e) = some n ∧ n.kind = .TWIG_BLOCK := by
  rw [← realNext_kind]
  unfold blockAfterToken Behind
  cases h1 : ending.lastToken with
  | none => simp
  | some last =>
    dsimp only
    cases h2 : last.nextToken with
    | none => simp [h2]
    | some t' =>
      dsimp only
      cases h3 : realNextSibling e with
      | none => simp [h2]
      | some n =>
        dsimp only
        by_cases hk : n.kind = .TWIG_BLOCK
        · rw [if_neg (by rw [hk]; decide)]
          simp [hk]
        · rw [if_pos (by simpa using hk)]
          simp [h2, hk]

/-- C72: the findings of `twig-block-line-breaks` in a parsed file. They are about the blocks that are not
hidden, not switched off, not told to be inside of something where whitespace matters, have an ending tag,
and are not the first thing in the file (a comment aside). In front of such a block (or of the comment
directly before it) there must be exactly the wanted number of line breaks; and also behind it, unless a block
follows (a comment aside). -/
theorem C72_block_line_breaks {errLen : Text → Nat} {s : Text} {p : Parse} (h : parse errLen s = .ok p)
    (config : Config) :
    ∃ l, runRules config [twigBlockLineBreaks] p.tree = .ok l ∧ ∀ x, x ∈ l ↔
      ∃ e ending, Elem.In p.tree e ∧ hidden e = false ∧
        switchedOff "twig-block-line-breaks".toList e = false ∧ told e = false ∧ Surrounded e ending ∧
        ((∃ c t, Beginning e c ∧ FirstIn c t ∧ BreakFinding config (breaksBefore config e) t x) ∨
          ((¬ ∃ n, beyondComment (nodesBehind e) = some n ∧ n.kind = .TWIG_BLOCK) ∧
            ∃ t, Behind ending t ∧ BreakFinding config (breaksBehind config e) t x)) := by
  have hc := C63_every_tree h
  obtain ⟨l, hl, hx⟩ := node_rule_findings config twigBlockLineBreaks p.tree rfl rfl
    (fun e x => told e = false ∧ ∃ ending, Surrounded e ending ∧
      ((∃ c t, Beginning e c ∧ FirstIn c t ∧ BreakFinding config (breaksBefore config e) t x) ∨
        ((¬ ∃ n, beyondComment (nodesBehind e) = some n ∧ n.kind = .TWIG_BLOCK) ∧
          ∃ t, Behind ending t ∧ BreakFinding config (breaksBehind config e) t x)))
    (fun e x hin => by
      unfold twigBlockLineBreaks; dsimp only
      cases htold : told e with
      | true => simp
      | false =>
        simp only [Bool.false_eq_true, if_false, true_and]
        cases hcast : e.cast .TWIG_BLOCK with
        | none =>
          dsimp only
          constructor
          · intro h; cases h
          · rintro ⟨ending, ⟨hb, _⟩, _⟩
            rw [(nodeOf_cast _ _ _).2 ⟨hb, rfl⟩] at hcast
            cases hcast
        | some b =>
          obtain ⟨hblock, heq⟩ := (nodeOf_cast _ _ _).1 hcast
          have heq' : e = b := by rw [heq]
          subst heq'
          dsimp only
          unfold checkBlockLineBreaks Elem.parent
          cases hpath : e.path with
          | nil =>
            dsimp only
            constructor
            · intro h; cases h
            · rintro ⟨ending, ⟨_, _, f, fs, hf, _⟩, _⟩
              rw [hpath] at hf; cases hf
          | cons f fs =>
            dsimp only
            have hkind : (⟨Tree.node f.kind (f.before ++ e.tree :: f.after), f.start, fs⟩ : Elem).kind = f.kind := rfl
            rw [hkind]
            by_cases hroot : f.kind = .ROOT ∧ beyondComment (nodesBefore e) = none
            · rw [if_pos (by rw [Bool.and_eq_true, realPrev_none]; exact ⟨by rw [hroot.1]; rfl, hroot.2⟩)]
              constructor
              · intro h; cases h
              · rintro ⟨ending, ⟨_, _, f', fs', hf, hne⟩, _⟩
                rw [hpath] at hf
                cases hf
                exact absurd hroot.2 (hne hroot.1)
            · rw [if_neg (by rw [Bool.and_eq_true, realPrev_none]; rintro ⟨h1, h2⟩; exact hroot ⟨eq_of_beq h1, h2⟩)]
              cases hstart : e.startingBlock with
              | none =>
                have := (C64_parts h hin).1 hblock
                rw [hstart] at this; cases this
              | some start =>
                have hs := (child_iff _ _ _).1 hstart
                cases hend : e.endingBlock with
                | none =>
                  dsimp only
                  constructor
                  · intro h; cases h
                  · rintro ⟨ending, ⟨_, he, _⟩, _⟩
                    have := (child_iff _ _ _).2 he
                    unfold Elem.endingBlock at hend
                    rw [this] at hend; cases hend
                | some ending =>
                  have he := (child_iff _ _ _).1 hend
                  dsimp only
                  have hsur : Surrounded e ending :=
                    ⟨hblock, he, f, fs, hpath, fun h1 h2 => hroot ⟨h1, h2⟩⟩
                  have hbefore : (if (realPrevSibling e).isSome = true then
                      (if config.linebreaksAroundBlocks = true then 2 else 1) else 1) = breaksBefore config e := by
                    unfold breaksBefore
                    by_cases hn : beyondComment (nodesBefore e) = none
                    · have := (realPrev_none e).2 hn
                      rw [if_pos hn, if_neg (by rw [Option.isNone_iff_eq_none.1 this]; exact Bool.false_ne_true)]
                    · rw [if_neg hn, if_pos]
                      cases hr : realPrevSibling e with
                      | none => exact absurd ((realPrev_none e).1 (by rw [hr]; rfl)) hn
                      | some => rfl
                  have hbehind : (if e.nextSibling.isSome = true then
                      (if config.linebreaksAroundBlocks = true then 2 else 1) else 1) = breaksBehind config e := by
                    unfold breaksBehind
                    by_cases hn : nodesBehind e = []
                    · rw [if_pos hn, if_neg (by rw [(nextSibling_none e).2 hn]; exact Bool.false_ne_true)]
                    · rw [if_neg hn, if_pos]
                      cases hr : e.nextSibling with
                      | none => exact absurd ((nextSibling_none e).1 hr) hn
                      | some => rfl
                  rw [hbefore, hbehind, List.mem_append]
                  have h1 : (x ∈ (match blockFirstToken e start with
                      | none => []
                      | some t => checkLineBreaks config.lineEnding.text t (breaksBefore config e))) ↔
                      ∃ c t, Beginning e c ∧ FirstIn c t ∧ BreakFinding config (breaksBefore config e) t x := by
                    cases hf : blockFirstToken e start with
                    | none =>
                      dsimp only
                      constructor
                      · intro h; cases h
                      · rintro ⟨c, t, g1, g2, _⟩
                        rw [(blockFirst_iff hc hin hs t).2 ⟨c, g1, g2⟩] at hf; cases hf
                    | some t =>
                      dsimp only
                      rw [checkLineBreaks_iff]
                      constructor
                      · intro g
                        obtain ⟨c, g1, g2⟩ := (blockFirst_iff hc hin hs t).1 hf
                        exact ⟨c, t, g1, g2, g⟩
                      · rintro ⟨c, t', g1, g2, g3⟩
                        have := (blockFirst_iff hc hin hs t').2 ⟨c, g1, g2⟩
                        rw [hf] at this
                        cases this
                        exact g3
                  have h2 : (x ∈ (match blockAfterToken e ending with
                      | none => []
                      | some t => checkLineBreaks config.lineEnding.text t (breaksBehind config e))) ↔
                      (¬ ∃ n, beyondComment (nodesBehind e) = some n ∧ n.kind = .TWIG_BLOCK) ∧
                        ∃ t, Behind ending t ∧ BreakFinding config (breaksBehind config e) t x := by
                    cases hf : blockAfterToken e ending with
                    | none =>
                      dsimp only
                      constructor
                      · intro h; cases h
                      · rintro ⟨g1, t, g2, _⟩
                        rw [(blockAfter_iff e ending t).2 ⟨g2, g1⟩] at hf; cases hf
                    | some t =>
                      dsimp only
                      rw [checkLineBreaks_iff]
                      obtain ⟨g2, g1⟩ := (blockAfter_iff e ending t).1 hf
                      constructor
                      · intro g
                        exact ⟨g1, t, g2, g⟩
                      · rintro ⟨_, t', g2', g3⟩
                        have := (blockAfter_iff e ending t').2 ⟨g2', g1⟩
                        rw [hf] at this
                        cases this
                        exact g3
                  refine (or_congr h1 h2).trans ?_
                  constructor
                  · intro g; exact ⟨ending, hsur, g⟩
                  · rintro ⟨ending', ⟨_, he', _⟩, g⟩
                    rw [firstChild_unique he he']
                    exact g)
    (fun e x hP => by
      obtain ⟨_, ending, ⟨hb, _⟩, _⟩ := hP
      obtain ⟨cs, ht⟩ := nodeOf_tree hb
      rw [ht]; rfl)
  refine ⟨l, hl, fun x => (hx x).trans ?_⟩
  constructor
  · rintro ⟨e, h1, h2, h3, h4, ending, h5, h6⟩
    exact ⟨e, ending, h1, h2, h3, h4, h5, h6⟩
  · rintro ⟨e, ending, h1, h2, h3, h4, h5, h6⟩
    exact ⟨e, h1, h2, h3, h4, ending, h5, h6⟩

mutual
theorem lastTokenAt_eq : ∀ (t : Tree) (pos : Nat) (path : List Frame) (x : Elem),
    lastTokenAt t pos path = some x → ∃ r, tokensOf (elemsAt t pos path) = r ++ [x]
  | .token k t, pos, path, x, h => by
    simp only [lastTokenAt, Option.some.injEq] at h
    subst h
    exact ⟨[], by simp [elemsAt, tokensOf, Elem.isNode, Tree.isNode]⟩
  | .node k cs, pos, path, x, h => by
    obtain ⟨r, hr⟩ := lastTokenIn_eq cs [] pos k pos path x h
    exact ⟨r, by simpa [elemsAt, tokensOf, List.filter_cons, Elem.isNode, Tree.isNode] using hr⟩
theorem lastTokenIn_eq : ∀ (cs before : List Tree) (pos : Nat) (k : SyntaxKind) (start : Nat) (path : List Frame)
    (x : Elem), lastTokenIn cs before pos k start path = some x →
      ∃ r, tokensOf (elemsIn cs k start before pos path) = r ++ [x]
  | [], _, _, _, _, _, _, h => by simp [lastTokenIn] at h
  | [c], before, pos, k, start, path, x, h => by
    rw [lastTokenIn] at h
    obtain ⟨r, hr⟩ := lastTokenAt_eq c pos _ x h
    exact ⟨r, by rw [elemsIn, elemsIn, List.append_nil]; exact hr⟩
  | c :: d :: cs, before, pos, k, start, path, x, h => by
    rw [lastTokenIn] at h
    obtain ⟨r, hr⟩ := lastTokenIn_eq (d :: cs) _ _ k start path x h
    exact ⟨tokensOf (elemsAt c pos (⟨k, start, before, d :: cs⟩ :: path)) ++ r, by
      rw [elemsIn, tokensOf_append, hr, List.append_assoc]⟩
end

/-- C72: the token behind a block is the next one in the file behind the last token of the ending tag. -/
theorem C72_behind_is_next {root : Tree} {ending t : Elem} (hin : Elem.In root ending) (h : Behind ending t) :
    ∃ x last y r, root.tokenElems = x ++ last :: t :: y ∧
      tokensOf (elemsAt ending.tree ending.start ending.path) = r ++ [last] := by
  obtain ⟨last, h1, h2⟩ := h
  obtain ⟨r, hr⟩ := lastTokenAt_eq _ _ _ _ h1
  have hm : last ∈ root.tokenElems := by
    have : last ∈ tokensOf (elemsAt ending.tree ending.start ending.path) := by rw [hr]; simp
    obtain ⟨h3, h4⟩ := List.mem_filter.1 this
    exact List.mem_filter.2 ⟨(mem_elems_iff _ _).2 (elemsAt_in root _ _ _ _ hin h3), h4⟩
  obtain ⟨x, y, hxy⟩ := List.append_of_mem hm
  obtain ⟨y', hy'⟩ := nextToken_after h2
  rw [tokenElems_after hxy] at hy'
  subst hy'
  exact ⟨x, last, y', r, hxy, hr⟩

/-- A file with four findings: nothing in front of and behind the first block, too few line breaks in front of the second
one, and none behind it. -/
example : Returns (parse (fun _ => 1)
      "<p>{% block a %}x{% endblock %}<hr>\n{% block b %}y{% endblock %}</p>".toList)
    (fun r => match runRules defaultConfig [twigBlockLineBreaks] r.tree with
      | .ok l => l.length == 4
      | .error _ => false) = true := by decide +kernel

end Ludtwig.Rules
