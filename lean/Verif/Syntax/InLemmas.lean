import Verif.Syntax.NextToken
import Verif.Syntax.Typed

/-!
# Navigation stays in the tree

Lemmas: what the cursor functions and typed accessors return for an element of a tree is an element
of the same tree.
-/

namespace Ludtwig

/-- A byte range lies in a text on char boundaries. -/
def RangeIn (s : Text) (r : TextRange) : Prop :=
  ∃ pre mid post, s = pre ++ mid ++ post ∧ byteLen pre = r.start ∧ byteLen (pre ++ mid) = r.stop

theorem RangeIn.boundary {s : Text} {r : TextRange} (h : RangeIn s r) :
    r.start ≤ r.stop ∧ OnBoundary s r.start ∧ OnBoundary s r.stop := by
  obtain ⟨pre, mid, post, h1, h2, h3⟩ := h
  refine ⟨?_, ⟨pre, mid ++ post, by rw [h1]; simp, h2⟩, ⟨pre ++ mid, post, h1, h3⟩⟩
  rw [← h2, ← h3, byteLen_append]; omega

theorem RangeIn.of_boundary {s : Text} {r : TextRange} (h1 : r.start ≤ r.stop)
    (h2 : OnBoundary s r.start) (h3 : OnBoundary s r.stop) : RangeIn s r := by
  obtain ⟨a, b, hs, ha⟩ := h2
  obtain ⟨c, d, hs', hc⟩ := h3
  rw [hs] at hs'
  obtain ⟨mid, rfl, hb⟩ := split_le hs' (by omega)
  exact ⟨a, mid, d, by rw [hs, hb]; simp, ha, hc⟩

theorem In_range {root : Tree} {e : Elem} (h : Elem.In root e) : RangeIn root.text e.range := by
  obtain ⟨pre, post, h1, h2⟩ := In_inText h
  exact ⟨pre, e.text, post, h1, h2, by rw [byteLen_append, h2]; rfl⟩

theorem In_descendant {root : Tree} {e x : Elem} (h : Elem.In root e) (hx : x ∈ e.descendants) :
    Elem.In root x :=
  elemsAt_in root e.tree e.start e.path x h hx

theorem In_children {root : Tree} {e x : Elem} (h : Elem.In root e) (hx : x ∈ e.children) :
    Elem.In root x := .child h (List.mem_filter.mp hx).1

theorem In_tokens {root : Tree} {e x : Elem} (h : Elem.In root e) (hx : x ∈ e.tokens) :
    Elem.In root x := .child h (List.mem_filter.mp hx).1

theorem child_parent {e c : Elem} (h : c ∈ e.childrenWithTokens) : c.parent = some e := by
  obtain ⟨k, l, r, h1, h2, h3⟩ := children_place h
  unfold Elem.parent
  rw [h3]
  obtain ⟨t, pos, path⟩ := e
  simp only at h1 ⊢
  rw [h1]

theorem In_parent {root : Tree} {e p : Elem} (h : Elem.In root e) (hp : e.parent = some p) :
    Elem.In root p ∧ e ∈ p.childrenWithTokens := by
  cases h with
  | root => simp [Elem.root, Elem.parent] at hp
  | child hq hc =>
    rw [child_parent hc] at hp
    cases hp
    exact ⟨hq, hc⟩

theorem In_path {root : Tree} {t : Tree} {pos : Nat} {f : Frame} {fs : List Frame}
    (h : Elem.In root ⟨t, pos, f :: fs⟩) :
    Elem.In root ⟨.node f.kind (f.before ++ t :: f.after), f.start, fs⟩ ∧
      pos = f.start + byteLen (textOf f.before) := by
  obtain ⟨h1, h2⟩ := In_parent h rfl
  refine ⟨h1, ?_⟩
  obtain ⟨k, l, r, e1, e2, e3⟩ := children_place h2
  simp only [List.cons.injEq] at e3
  rw [e3.1]
  exact e2

theorem childElems_mem (path : List Frame) (k : SyntaxKind) (start : Nat) :
    ∀ (l r before : List Tree) (t : Tree) (pos : Nat),
      (⟨t, pos + byteLen (textOf l), ⟨k, start, before ++ l, r⟩ :: path⟩ : Elem) ∈
        childElems path k start before pos (l ++ t :: r)
  | [], r, before, t, pos => by simp [childElems, textOf]
  | a :: l, r, before, t, pos => by
    have := childElems_mem path k start l r (before ++ [a]) t (pos + byteLen a.text)
    simp only [List.cons_append, childElems, List.mem_cons]
    right
    simpa [textOf, byteLen_append, Nat.add_assoc] using this

/-- Every way to split the children of a node gives a child element. -/
theorem In_split {root : Tree} {k : SyntaxKind} {l r : List Tree} {t : Tree} {pos : Nat}
    {fs : List Frame} (h : Elem.In root ⟨.node k (l ++ t :: r), pos, fs⟩) :
    Elem.In root ⟨t, pos + byteLen (textOf l), ⟨k, pos, l, r⟩ :: fs⟩ := by
  refine .child h ?_
  have := childElems_mem fs k pos l r [] t pos
  simpa [Elem.childrenWithTokens] using this

theorem mem_siblings {root : Tree} {e x : Elem} (h : Elem.In root e)
    (hx : x ∈ e.siblingsBefore ∨ x ∈ e.siblingsAfter) : Elem.In root x := by
  obtain ⟨t, pos, path⟩ := e
  cases path with
  | nil => simp [Elem.siblingsBefore, Elem.siblingsAfter] at hx
  | cons f fs =>
    obtain ⟨h1, _⟩ := In_path h
    refine .child h1 ?_
    rcases hx with hx | hx
    · exact List.mem_of_mem_take hx
    · exact List.mem_of_mem_drop hx

theorem In_prevSibling {root : Tree} {e x : Elem} (h : Elem.In root e)
    (hx : e.prevSibling = some x) : Elem.In root x := by
  refine mem_siblings h (.inl ?_)
  exact (List.mem_filter.mp (List.mem_of_getLast? hx)).1

theorem In_nextSibling {root : Tree} {e x : Elem} (h : Elem.In root e)
    (hx : e.nextSibling = some x) : Elem.In root x := by
  refine mem_siblings h (.inr ?_)
  exact (List.mem_filter.mp (List.mem_of_head? hx)).1

theorem In_firstToken {root : Tree} {e x : Elem} (h : Elem.In root e)
    (hx : e.firstToken = some x) : Elem.In root x := by
  obtain ⟨r, hr⟩ := firstTokenAt_eq e.tree e.start e.path x hx
  refine In_descendant h ?_
  have : x ∈ tokensOf (elemsAt e.tree e.start e.path) := by rw [hr]; exact List.mem_cons_self
  exact (List.mem_filter.mp this).1

mutual
theorem lastTokenAt_mem : ∀ (t : Tree) (pos : Nat) (path : List Frame) (x : Elem),
    lastTokenAt t pos path = some x → x ∈ elemsAt t pos path
  | .token k t, pos, path, x, h => by
    simp only [lastTokenAt, Option.some.injEq] at h
    subst h; simp [elemsAt]
  | .node k cs, pos, path, x, h => by
    simp only [elemsAt]
    exact List.mem_cons_of_mem _ (lastTokenIn_mem cs [] pos k pos path x h)
theorem lastTokenIn_mem : ∀ (cs before : List Tree) (pos : Nat) (k : SyntaxKind) (start : Nat)
    (path : List Frame) (x : Elem), lastTokenIn cs before pos k start path = some x →
      x ∈ elemsIn cs k start before pos path
  | [], _, _, _, _, _, _, h => by simp [lastTokenIn] at h
  | [c], before, pos, k, start, path, x, h => by
    simp only [lastTokenIn] at h
    simp only [elemsIn, List.append_nil]
    exact lastTokenAt_mem c pos _ x h
  | c :: d :: cs, before, pos, k, start, path, x, h => by
    simp only [lastTokenIn] at h
    rw [elemsIn]
    exact List.mem_append_right _ (lastTokenIn_mem (d :: cs) _ _ k start path x h)
end

theorem In_lastToken {root : Tree} {e x : Elem} (h : Elem.In root e)
    (hx : e.lastToken = some x) : Elem.In root x :=
  In_descendant h (lastTokenAt_mem _ _ _ _ hx)

theorem In_nextTokenFrom {root : Tree} : ∀ (path : List Frame) (t : Tree) (pos : Nat) (x : Elem),
    Elem.In root ⟨t, pos, path⟩ → nextTokenFrom t (pos + byteLen t.text) path = some x →
      Elem.In root x
  | [], _, _, _, _, h => by simp [nextTokenFrom] at h
  | f :: fs, t, pos, x, h, hx => by
    obtain ⟨h1, h2⟩ := In_path h
    rw [nextTokenFrom] at hx
    split at hx
    · rename_i n ns hf
      rw [hf] at h1
      have := In_split (l := f.before ++ [t]) (t := n) (r := ns) (by simpa using h1)
      have hpos : f.start + byteLen (textOf (f.before ++ [t])) = pos + byteLen t.text := by
        rw [h2]; simp [textOf_append, textOf, byteLen_append, Nat.add_assoc]
      rw [hpos] at this
      exact In_firstToken this hx
    · rename_i hf
      rw [hf] at h1
      have hpos : pos + byteLen t.text = f.start + byteLen (Tree.node f.kind (f.before ++ [t])).text := by
        rw [h2]; simp [Tree.text, textOf_append, textOf, byteLen_append, Nat.add_assoc]
      rw [hpos] at hx
      exact In_nextTokenFrom fs _ _ x h1 hx

theorem In_nextToken {root : Tree} {e x : Elem} (h : Elem.In root e)
    (hx : e.nextToken = some x) : Elem.In root x :=
  In_nextTokenFrom e.path e.tree e.start x h hx

/-! ## Typed accessors -/

theorem In_cast {root : Tree} {k : SyntaxKind} {e x : Elem} (h : Elem.In root e)
    (hx : e.cast k = some x) : Elem.In root x := by
  unfold Elem.cast at hx
  split at hx
  · cases hx; exact h
  · cases hx

theorem In_child {root : Tree} {k : SyntaxKind} {e x : Elem} (h : Elem.In root e)
    (hx : e.child k = some x) : Elem.In root x := In_children h (List.mem_of_find?_eq_some hx)

theorem In_token {root : Tree} {k : SyntaxKind} {e x : Elem} (h : Elem.In root e)
    (hx : e.token k = some x) : Elem.In root x := In_tokens h (List.mem_of_find?_eq_some hx)

theorem In_childrenOf {root : Tree} {k : SyntaxKind} {e x : Elem} (h : Elem.In root e)
    (hx : x ∈ e.childrenOf k) : Elem.In root x := In_children h (List.mem_filter.mp hx).1

theorem In_firstNonTriviaToken {root : Tree} {e x : Elem} (h : Elem.In root e)
    (hx : e.firstNonTriviaToken = some x) : Elem.In root x := In_tokens h (List.mem_of_find?_eq_some hx)

theorem In_startingTagName {root : Tree} {e x : Elem} (h : Elem.In root e)
    (hx : e.startingTagName = some x) : Elem.In root x := In_tokens h (List.mem_of_find?_eq_some hx)

theorem In_nth {root : Tree} {k : SyntaxKind} {n : Nat} {e x : Elem} (h : Elem.In root e)
    (hx : (e.childrenOf k)[n]? = some x) : Elem.In root x := In_childrenOf h (List.mem_of_getElem? hx)

theorem In_openingQuote {root : Tree} {e x : Elem} (h : Elem.In root e)
    (hx : e.openingQuote = some x) : Elem.In root x := by
  have := List.mem_of_find?_eq_some hx
  exact .child h ((List.takeWhile_sublist _).mem this)

theorem In_closingQuote {root : Tree} {e x : Elem} (h : Elem.In root e)
    (hx : e.closingQuote = some x) : Elem.In root x := by
  have := List.mem_of_find?_eq_some hx
  exact .child h ((List.dropWhile_sublist _).mem this)

/-- An accessor that stays in the tree. -/
def Stays (f : Elem → Option Elem) : Prop :=
  ∀ {root : Tree} {e x : Elem}, Elem.In root e → f e = some x → Elem.In root x

theorem In_bind {root : Tree} {o : Option Elem} {f : Elem → Option Elem} {x : Elem}
    (ho : ∀ y, o = some y → Elem.In root y) (hf : ∀ y, o = some y → f y = some x → Elem.In root y → Elem.In root x)
    (hx : o.bind f = some x) : Elem.In root x := by
  cases o with
  | none => cases hx
  | some y => exact hf y rfl hx (ho y rfl)

end Ludtwig
