import Verif.Syntax.Elements
import Verif.Parser.Spec

/-!
# Where elements are

Lemmas: an element is a slice of the text of the tree at its start, and the tokens of a tree follow
each other without gaps.
-/

namespace Ludtwig

/-- An element stands in a text at its start. -/
def Elem.InText (s : Text) (e : Elem) : Prop :=
  ∃ pre post, s = pre ++ e.text ++ post ∧ byteLen pre = e.start

theorem textOf_append (as bs : List Tree) : textOf (as ++ bs) = textOf as ++ textOf bs := by
  induction as with
  | nil => rfl
  | cons a as ih => simp [textOf, ih]

/-- Where the children of a node are. -/
theorem childElems_place (path : List Frame) (k : SyntaxKind) (start : Nat) :
    ∀ (ts before : List Tree) (pos : Nat) (c : Elem),
      c ∈ childElems path k start before pos ts →
        ∃ l r, ts = l ++ c.tree :: r ∧ c.start = pos + byteLen (textOf l) ∧
          c.path = ⟨k, start, before ++ l, r⟩ :: path
  | [], _, _, _, h => by simp [childElems] at h
  | t :: ts, before, pos, c, h => by
    simp only [childElems, List.mem_cons] at h
    rcases h with h | h
    · subst h; exact ⟨[], ts, rfl, rfl, by simp⟩
    · obtain ⟨l, r, h1, h2, h3⟩ := childElems_place path k start ts _ _ c h
      refine ⟨t :: l, r, by rw [h1]; rfl, ?_, ?_⟩
      · rw [h2, textOf, byteLen_append]; omega
      · simpa using h3

/-- Where the children of an element are. -/
theorem children_place {e c : Elem} (h : c ∈ e.childrenWithTokens) :
    ∃ k l r, e.tree = .node k (l ++ c.tree :: r) ∧ c.start = e.start + byteLen (textOf l) ∧
      c.path = ⟨k, e.start, l, r⟩ :: e.path := by
  unfold Elem.childrenWithTokens at h
  split at h
  · simp at h
  · rename_i k cs hk
    obtain ⟨l, r, h1, h2, h3⟩ := childElems_place _ _ _ _ _ _ _ h
    exact ⟨k, l, r, by rw [hk, h1], h2, by simpa using h3⟩

/-- A child stands in the text of its parent. -/
theorem child_inText {s : Text} {e c : Elem} (he : e.InText s) (hc : c ∈ e.childrenWithTokens) :
    c.InText s := by
  obtain ⟨pre, post, hs, hp⟩ := he
  obtain ⟨k, l, r, h1, h2, _⟩ := children_place hc
  refine ⟨pre ++ textOf l, textOf r ++ post, ?_, ?_⟩
  · rw [hs, Elem.text, h1, Tree.text, textOf_append, textOf, Elem.text]; simp
  · rw [byteLen_append, h2, hp]

/-- Every element of a tree stands in the text of the tree at its start. -/
theorem In_inText {root : Tree} {e : Elem} (h : Elem.In root e) : e.InText root.text := by
  induction h with
  | root => exact ⟨[], [], by simp [Elem.root, Elem.text], rfl⟩
  | child _ hc ih => exact child_inText ih hc

/-- Leaves with their byte offsets. -/
def placed : Nat → List (SyntaxKind × Text) → List (Nat × SyntaxKind × Text)
  | _, [] => []
  | pos, (k, t) :: ls => (pos, k, t) :: placed (pos + byteLen t) ls

theorem placed_append (pos : Nat) (as bs : List (SyntaxKind × Text)) :
    placed pos (as ++ bs) =
      placed pos as ++ placed (pos + byteLen (as.flatMap (·.2))) bs := by
  induction as generalizing pos with
  | nil => simp [placed]
  | cons a as ih => simp [placed, ih, byteLen_append, Nat.add_assoc]

/-- The text of a tree is the text of its leaves. -/
theorem leaves_text : ∀ t : Tree, t.leaves.flatMap (·.2) = t.text := by
  intro t
  refine Tree.rec (motive_1 := fun t => t.leaves.flatMap (·.2) = t.text)
    (motive_2 := fun ts => (leavesOf ts).flatMap (·.2) = textOf ts) ?_ ?_ ?_ ?_ t
  · intro k t; simp [Tree.leaves, Tree.text]
  · intro k cs h; simpa [Tree.leaves, Tree.text] using h
  · simp [leavesOf, textOf]
  · intro t ts h1 h2; simp only [leavesOf, textOf, List.flatMap_append, h1, h2]

/-- Offset, kind and text of an element. -/
def Elem.leaf (e : Elem) : Nat × SyntaxKind × Text := (e.start, e.kind, e.text)

mutual
theorem elemsAt_leaves : ∀ (t : Tree) (pos : Nat) (path : List Frame),
    ((elemsAt t pos path).filter (fun e => !e.isNode)).map (·.leaf) = placed pos t.leaves
  | .token k t, pos, path => by
    simp [elemsAt, Elem.isNode, Tree.isNode, Elem.leaf, Elem.kind, Tree.kind, Elem.text, Tree.text,
      Tree.leaves, placed]
  | .node k cs, pos, path => by
    simp [elemsAt, Elem.isNode, Tree.isNode, Tree.leaves]
    exact elemsIn_leaves cs k pos [] pos path
theorem elemsIn_leaves : ∀ (ts : List Tree) (k : SyntaxKind) (start : Nat) (before : List Tree)
    (pos : Nat) (path : List Frame),
    ((elemsIn ts k start before pos path).filter (fun e => !e.isNode)).map (·.leaf) =
      placed pos (leavesOf ts)
  | [], _, _, _, _, _ => by simp [elemsIn, leavesOf, placed]
  | t :: ts, k, start, before, pos, path => by
    rw [elemsIn, List.filter_append, List.map_append, elemsAt_leaves t, elemsIn_leaves ts, leavesOf,
      placed_append, leaves_text]
end

/-- The tokens of a tree in document order. -/
def Tree.tokenElems (t : Tree) : List Elem := t.elems.filter (fun e => !e.isNode)

/-- The tokens of a tree are its leaves, one after the other from offset 0 on. -/
theorem tokenElems_leaves (t : Tree) : t.tokenElems.map (·.leaf) = placed 0 t.leaves :=
  elemsAt_leaves t 0 []

theorem placed_mem {pos : Nat} {ls : List (SyntaxKind × Text)} {x : Nat × SyntaxKind × Text}
    (h : x ∈ placed pos ls) : x.2 ∈ ls := by
  induction ls generalizing pos with
  | nil => simp [placed] at h
  | cons a ls ih =>
    simp only [placed, List.mem_cons] at h
    rcases h with h | h
    · subst h; exact List.mem_cons_self
    · exact List.mem_cons_of_mem _ (ih h)

/-- A token element is a leaf. -/
theorem token_leaf {root : Tree} {e : Elem} (h : Elem.In root e) (ht : e.isNode = false) :
    (e.kind, e.text) ∈ root.leaves := by
  have : e.leaf ∈ root.tokenElems.map (·.leaf) :=
    List.mem_map.mpr ⟨e, List.mem_filter.mpr ⟨(mem_elems_iff root e).mpr h, by simp [ht]⟩, rfl⟩
  rw [tokenElems_leaves] at this
  exact placed_mem this

end Ludtwig
