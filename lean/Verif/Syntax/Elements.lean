import Verif.Syntax.Cursor
import Verif.Basic.TextLemmas

/-!
# The elements of a tree (specification)

All elements of a tree in document order, ancestors and descendants. Defined apart from the
traversal `walkTree` of the model; used to state what the rules see.
-/

namespace Ludtwig

mutual
/-- An element and everything inside it, in document order (parents before their children). -/
def elemsAt : Tree → Nat → List Frame → List Elem
  | .token k t, pos, path => [⟨.token k t, pos, path⟩]
  | .node k cs, pos, path => ⟨.node k cs, pos, path⟩ :: elemsIn cs k pos [] pos path
/-- The elements of the last children of a node; `before` are the other children. -/
def elemsIn : List Tree → SyntaxKind → Nat → List Tree → Nat → List Frame → List Elem
  | [], _, _, _, _, _ => []
  | t :: ts, k, start, before, pos, path =>
    elemsAt t pos (⟨k, start, before, ts⟩ :: path) ++
      elemsIn ts k start (before ++ [t]) (pos + byteLen t.text) path
end

/-- The element itself and all elements inside it, in document order. -/
def Elem.descendants (e : Elem) : List Elem := elemsAt e.tree e.start e.path

/-- All elements of a tree, in document order. -/
def Tree.elems (t : Tree) : List Elem := (Elem.root t).descendants

/-- The elements on a path, the closest first. -/
def ancestorsFrom : Tree → List Frame → List Elem
  | _, [] => []
  | t, f :: fs =>
    ⟨.node f.kind (f.before ++ t :: f.after), f.start, fs⟩ ::
      ancestorsFrom (.node f.kind (f.before ++ t :: f.after)) fs

/-- The elements around an element, the closest first. -/
def Elem.ancestors (e : Elem) : List Elem := ancestorsFrom e.tree e.path

/-- The element and the elements around it. -/
def Elem.chain (e : Elem) : List Elem := e :: e.ancestors

/-- The elements of a tree, by rowan's functions: the root and the children of elements. -/
inductive Elem.In (root : Tree) : Elem → Prop
  | root : Elem.In root (Elem.root root)
  | child {p c : Elem} : Elem.In root p → c ∈ p.childrenWithTokens → Elem.In root c

/-! ## Basic facts -/

theorem ancestors_cons (t : Tree) (pos : Nat) (f : Frame) (fs : List Frame) :
    (⟨t, pos, f :: fs⟩ : Elem).ancestors =
      ⟨.node f.kind (f.before ++ t :: f.after), f.start, fs⟩ ::
        (⟨.node f.kind (f.before ++ t :: f.after), f.start, fs⟩ : Elem).ancestors := rfl

/-- The chain of ancestors follows `parent()`. -/
theorem ancestors_parent (e : Elem) :
    e.ancestors = match e.parent with | none => [] | some p => p.chain := by
  obtain ⟨t, pos, path⟩ := e
  cases path <;> rfl

/-- The ancestors of an ancestor are the rest of the list. -/
theorem ancestors_split (path : List Frame) : ∀ (t : Tree) (pos : Nat) (x : Elem),
    x ∈ (⟨t, pos, path⟩ : Elem).ancestors →
      ∃ l, (⟨t, pos, path⟩ : Elem).ancestors = l ++ x :: x.ancestors := by
  induction path with
  | nil => intro t pos x h; exact absurd h (by simp [Elem.ancestors, ancestorsFrom])
  | cons f fs ih =>
    intro t pos x h
    rw [ancestors_cons] at h ⊢
    rcases List.mem_cons.mp h with h | h
    · subst h; exact ⟨[], rfl⟩
    · obtain ⟨l, hl⟩ := ih _ _ _ h
      exact ⟨_ :: l, by rw [hl]; rfl⟩

theorem ancestors_trans {a b c : Elem} (h₁ : a ∈ b.ancestors) (h₂ : b ∈ c.ancestors) :
    a ∈ c.ancestors := by
  obtain ⟨t, pos, path⟩ := c
  obtain ⟨l, hl⟩ := ancestors_split path t pos b h₂
  rw [hl]
  simp [h₁]

mutual
/-- Everything inside an element has the element around it. -/
theorem elemsAt_chain : ∀ (t : Tree) (pos : Nat) (path : List Frame) (c : Elem),
    c ∈ elemsAt t pos path → (⟨t, pos, path⟩ : Elem) ∈ c.chain
  | .token k t, pos, path, c, h => by
    simp only [elemsAt, List.mem_singleton] at h
    subst h; exact List.mem_cons_self
  | .node k cs, pos, path, c, h => by
    simp only [elemsAt, List.mem_cons] at h
    rcases h with h | h
    · subst h; exact List.mem_cons_self
    · exact List.mem_cons_of_mem _ (elemsIn_chain cs k pos [] pos path c h)
theorem elemsIn_chain : ∀ (ts : List Tree) (k : SyntaxKind) (start : Nat) (before : List Tree)
    (pos : Nat) (path : List Frame) (c : Elem), c ∈ elemsIn ts k start before pos path →
      (⟨.node k (before ++ ts), start, path⟩ : Elem) ∈ c.ancestors
  | [], _, _, _, _, _, _, h => by simp [elemsIn] at h
  | t :: ts, k, start, before, pos, path, c, h => by
    simp only [elemsIn, List.mem_append] at h
    rcases h with h | h
    · have := elemsAt_chain t pos _ c h
      rcases List.mem_cons.mp this with h | h
      · rw [← h]; exact List.mem_cons_self
      · exact ancestors_trans (by rw [ancestors_cons]; exact List.mem_cons_self) h
    · have := elemsIn_chain ts k start (before ++ [t]) _ path c h
      simpa using this
end

/-- The elements inside a list of children, child by child. -/
theorem elemsIn_eq : ∀ (ts : List Tree) (k : SyntaxKind) (start : Nat) (before : List Tree)
    (pos : Nat) (path : List Frame), elemsIn ts k start before pos path =
      (childElems path k start before pos ts).flatMap (·.descendants)
  | [], _, _, _, _, _ => by simp [elemsIn, childElems]
  | t :: ts, k, start, before, pos, path => by
    simp only [elemsIn, childElems, List.flatMap_cons, elemsIn_eq ts]
    rfl

/-- An element and the elements inside its children. -/
theorem descendants_eq (e : Elem) :
    e.descendants = e :: e.childrenWithTokens.flatMap (·.descendants) := by
  obtain ⟨t, pos, path⟩ := e
  cases t with
  | token k t => simp [Elem.descendants, elemsAt, Elem.childrenWithTokens]
  | node k cs => simp [Elem.descendants, elemsAt, Elem.childrenWithTokens, elemsIn_eq]

theorem self_mem_descendants (e : Elem) : e ∈ e.descendants := by
  rw [descendants_eq]; exact List.mem_cons_self

mutual
/-- The children of an element in a subtree are in the subtree. -/
theorem elemsAt_child : ∀ (t : Tree) (pos : Nat) (path : List Frame) (p c : Elem),
    p ∈ elemsAt t pos path → c ∈ p.childrenWithTokens → c ∈ elemsAt t pos path
  | .token k t, pos, path, p, c, h, hc => by
    simp only [elemsAt, List.mem_singleton] at h
    subst h; simp [Elem.childrenWithTokens] at hc
  | .node k cs, pos, path, p, c, h, hc => by
    simp only [elemsAt, List.mem_cons] at h ⊢
    rcases h with h | h
    · subst h
      right
      rw [elemsIn_eq]
      exact List.mem_flatMap.mpr ⟨c, hc, self_mem_descendants c⟩
    · exact .inr (elemsIn_child cs k pos [] pos path p c h hc)
theorem elemsIn_child : ∀ (ts : List Tree) (k : SyntaxKind) (start : Nat) (before : List Tree)
    (pos : Nat) (path : List Frame) (p c : Elem), p ∈ elemsIn ts k start before pos path →
      c ∈ p.childrenWithTokens → c ∈ elemsIn ts k start before pos path
  | [], _, _, _, _, _, _, _, h, _ => by simp [elemsIn] at h
  | t :: ts, k, start, before, pos, path, p, c, h, hc => by
    simp only [elemsIn, List.mem_append] at h ⊢
    rcases h with h | h
    · exact .inl (elemsAt_child t pos _ p c h hc)
    · exact .inr (elemsIn_child ts k start _ _ path p c h hc)
end

mutual
theorem elemsAt_in (root : Tree) : ∀ (t : Tree) (pos : Nat) (path : List Frame) (c : Elem),
    Elem.In root ⟨t, pos, path⟩ → c ∈ elemsAt t pos path → Elem.In root c
  | .token k t, pos, path, c, hin, h => by
    simp only [elemsAt, List.mem_singleton] at h
    subst h; exact hin
  | .node k cs, pos, path, c, hin, h => by
    simp only [elemsAt, List.mem_cons] at h
    rcases h with h | h
    · subst h; exact hin
    · exact elemsIn_in root cs k pos [] pos path c (fun d hd => .child hin hd) h
theorem elemsIn_in (root : Tree) : ∀ (ts : List Tree) (k : SyntaxKind) (start : Nat)
    (before : List Tree) (pos : Nat) (path : List Frame) (c : Elem),
    (∀ d ∈ childElems path k start before pos ts, Elem.In root d) →
      c ∈ elemsIn ts k start before pos path → Elem.In root c
  | [], _, _, _, _, _, _, _, h => by simp [elemsIn] at h
  | t :: ts, k, start, before, pos, path, c, hin, h => by
    simp only [elemsIn, List.mem_append] at h
    simp only [childElems, List.mem_cons, forall_eq_or_imp] at hin
    rcases h with h | h
    · exact elemsAt_in root t pos _ c hin.1 h
    · exact elemsIn_in root ts k start _ _ path c hin.2 h
end

/-- The list of all elements contains exactly the elements reachable by `children_with_tokens`. -/
theorem mem_elems_iff (root : Tree) (e : Elem) : e ∈ root.elems ↔ Elem.In root e := by
  constructor
  · exact elemsAt_in root root 0 [] e .root
  · intro h
    induction h with
    | root => exact self_mem_descendants _
    | child _ hc ih => exact elemsAt_child root 0 [] _ _ ih hc

/-- The siblings before a child, as positions in its parent. -/
theorem childElems_append (path : List Frame) (k : SyntaxKind) (start : Nat) :
    ∀ (as bs before : List Tree) (pos : Nat),
      childElems path k start before pos (as ++ bs) =
        (childElems path k start before pos (as ++ bs)).take as.length ++
          childElems path k start (before ++ as) (pos + byteLen (as.flatMap (·.text))) bs
  | [], bs, before, pos => by simp
  | a :: as, bs, before, pos => by
    simp only [List.cons_append, childElems, List.length_cons, List.take_succ_cons]
    congr 1
    refine (childElems_append path k start as bs (before ++ [a]) (pos + byteLen a.text)).trans ?_
    simp [byteLen_append, Nat.add_assoc]

end Ludtwig
