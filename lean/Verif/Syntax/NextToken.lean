import Verif.Syntax.Places

/-!
# `next_token` and document order

Lemmas: what `next_token()` returns is the next token in document order; it may miss it behind an
empty node, but not if both are trivia in a tree that does not tear trivia apart.
-/

namespace Ludtwig

/-- The tokens among some elements. -/
def tokensOf (l : List Elem) : List Elem := l.filter (fun e => !e.isNode)

theorem tokensOf_append (a b : List Elem) : tokensOf (a ++ b) = tokensOf a ++ tokensOf b :=
  List.filter_append ..

/-- The tokens after a place, given the tree there, its end and its path. -/
def tokensAfterFrom (t : Tree) (stop : Nat) : List Frame → List Elem
  | [] => []
  | f :: fs =>
    tokensOf (elemsIn f.after f.kind f.start (f.before ++ [t]) stop fs) ++
      tokensAfterFrom (.node f.kind (f.before ++ t :: f.after)) (stop + byteLen (textOf f.after)) fs

/-- The tokens after an element in document order. -/
def Elem.tokensAfter (e : Elem) : List Elem :=
  tokensAfterFrom e.tree (e.start + byteLen e.tree.text) e.path

mutual
theorem elemsAt_after : ∀ (t : Tree) (pos : Nat) (path : List Frame) (l : List Elem) (a : Elem)
    (r : List Elem), tokensOf (elemsAt t pos path) = l ++ a :: r →
      a.tokensAfter = r ++ tokensAfterFrom t (pos + byteLen t.text) path
  | .token k x, pos, path, l, a, r, h => by
    simp only [elemsAt, tokensOf, List.filter_cons, Elem.isNode, Tree.isNode, Bool.not_false, if_true,
      List.filter_nil] at h
    rcases List.singleton_eq_append_iff.mp h with ⟨rfl, h⟩ | ⟨_, h⟩
    · cases h
      rfl
    · cases h
  | .node k cs, pos, path, l, a, r, h => by
    have h' : tokensOf (elemsIn cs k pos [] pos path) = l ++ a :: r := by
      simpa [elemsAt, tokensOf, List.filter_cons, Elem.isNode, Tree.isNode] using h
    have := elemsIn_after cs k pos [] pos path l a r h'
    simpa [Tree.text] using this
theorem elemsIn_after : ∀ (ts : List Tree) (k : SyntaxKind) (start : Nat) (before : List Tree)
    (pos : Nat) (path : List Frame) (l : List Elem) (a : Elem) (r : List Elem),
    tokensOf (elemsIn ts k start before pos path) = l ++ a :: r →
      a.tokensAfter =
        r ++ tokensAfterFrom (.node k (before ++ ts)) (pos + byteLen (textOf ts)) path
  | [], _, _, _, _, _, l, a, r, h => by simp [elemsIn, tokensOf] at h
  | t :: ts, k, start, before, pos, path, l, a, r, h => by
    rw [elemsIn, tokensOf_append] at h
    rcases List.append_eq_append_iff.mp h with ⟨x, h1, h2⟩ | ⟨x, h1, h2⟩
    · have := elemsIn_after ts k start (before ++ [t]) _ path x a r h2
      simpa [textOf, byteLen_append, Nat.add_assoc] using this
    · cases x with
      | nil =>
        have := elemsIn_after ts k start (before ++ [t]) (pos + byteLen t.text) path [] a r
          (by simpa using h2.symm)
        simpa [textOf, byteLen_append, Nat.add_assoc] using this
      | cons y x =>
        simp only [List.cons_append, List.cons.injEq] at h2
        obtain ⟨rfl, rfl⟩ := h2
        have := elemsAt_after t pos _ l a x h1
        rw [this, tokensAfterFrom]
        simp [textOf, byteLen_append, Nat.add_assoc]
end

/-- What follows a token in the list of tokens of a tree. -/
theorem tokenElems_after {root : Tree} {l r : List Elem} {a : Elem}
    (h : root.tokenElems = l ++ a :: r) : a.tokensAfter = r := by
  have := elemsAt_after root 0 [] l a r h
  simpa [tokensAfterFrom] using this

mutual
theorem firstTokenAt_eq : ∀ (t : Tree) (pos : Nat) (path : List Frame) (x : Elem),
    firstTokenAt t pos path = some x → ∃ r, tokensOf (elemsAt t pos path) = x :: r
  | .token k t, pos, path, x, h => by
    simp only [firstTokenAt, Option.some.injEq] at h
    subst h
    exact ⟨[], by simp [elemsAt, tokensOf, Elem.isNode, Tree.isNode]⟩
  | .node k cs, pos, path, x, h => by
    obtain ⟨r, hr⟩ := firstTokenIn_eq cs k pos path x h
    exact ⟨r, by simpa [elemsAt, tokensOf, List.filter_cons, Elem.isNode, Tree.isNode] using hr⟩
theorem firstTokenIn_eq : ∀ (cs : List Tree) (k : SyntaxKind) (pos : Nat) (path : List Frame)
    (x : Elem), firstTokenIn cs k pos path = some x →
      ∃ r, tokensOf (elemsIn cs k pos [] pos path) = x :: r
  | [], _, _, _, _, h => by simp [firstTokenIn] at h
  | c :: cs, k, pos, path, x, h => by
    simp only [firstTokenIn] at h
    obtain ⟨r, hr⟩ := firstTokenAt_eq c pos _ x h
    exact ⟨r ++ tokensOf (elemsIn cs k pos ([] ++ [c]) (pos + byteLen c.text) path), by
      rw [elemsIn, tokensOf_append, hr]; rfl⟩
end

theorem nextTokenFrom_eq : ∀ (path : List Frame) (t : Tree) (stop : Nat) (x : Elem),
    nextTokenFrom t stop path = some x → ∃ r, tokensAfterFrom t stop path = x :: r
  | [], _, _, _, h => by simp [nextTokenFrom] at h
  | f :: fs, t, stop, x, h => by
    rw [nextTokenFrom] at h
    split at h
    · rename_i n ns hf
      obtain ⟨r, hr⟩ := firstTokenAt_eq n stop _ x h
      refine ⟨r ++ tokensOf (elemsIn ns f.kind f.start (f.before ++ [t] ++ [n])
        (stop + byteLen n.text) fs) ++ tokensAfterFrom (.node f.kind (f.before ++ t :: f.after))
        (stop + byteLen (textOf f.after)) fs, ?_⟩
      rw [tokensAfterFrom, hf, elemsIn, tokensOf_append, hr]
      simp
    · rename_i hf
      obtain ⟨r, hr⟩ := nextTokenFrom_eq fs _ _ x h
      refine ⟨r, ?_⟩
      rw [tokensAfterFrom, hf]
      simpa [elemsIn, tokensOf, textOf] using hr

/-- `next_token()` gives the next token in document order, if it gives one. -/
theorem nextToken_after {e x : Elem} (h : e.nextToken = some x) : ∃ r, e.tokensAfter = x :: r :=
  nextTokenFrom_eq e.path e.tree _ x h

/-- `next_token()` does give one if the next sibling is a token. -/
theorem nextToken_sibling {e x : Elem} {r : List Elem} {f : Frame} {fs : List Frame} {k : SyntaxKind}
    {t : Text} {ts : List Tree} (hp : e.path = f :: fs) (hf : f.after = .token k t :: ts)
    (h : e.tokensAfter = x :: r) : e.nextToken = some x := by
  unfold Elem.nextToken
  unfold Elem.tokensAfter at h
  rw [hp] at h ⊢
  rw [tokensAfterFrom, hf] at h
  simp only [elemsIn, elemsAt, tokensOf, List.filter_cons, Elem.isNode, Tree.isNode, Bool.not_false,
    if_true, List.cons_append, List.cons.injEq] at h
  rw [nextTokenFrom, hf]
  simp only [firstTokenAt]
  rw [← h.1]

/-- Does the first of some elements hold trivia? -/
def elemsTrivia : List Elem → Bool
  | [] => false
  | e :: _ => e.kind.isTrivia

theorem elemsTrivia_append (a b : List Elem) :
    elemsTrivia (a ++ b) = if a.isEmpty then elemsTrivia b else elemsTrivia a := by
  cases a <;> rfl

theorem elemsTrivia_in (ts : List Tree) (k : SyntaxKind) (start : Nat) (before : List Tree)
    (pos : Nat) (path : List Frame) (rest : List Elem) :
    elemsTrivia (tokensOf (elemsIn ts k start before pos path) ++ rest) =
      headTrivia (elemsTrivia rest) (leavesOf ts) := by
  have h := elemsIn_leaves ts k start before pos path
  unfold tokensOf
  revert h
  generalize (elemsIn ts k start before pos path).filter (fun e => !e.isNode) = es
  intro h
  cases hl : leavesOf ts with
  | nil =>
    rw [hl] at h
    simp only [placed, List.map_eq_nil_iff] at h
    subst h; rfl
  | cons x ls =>
    rw [hl] at h
    cases es with
    | nil => simp [placed] at h
    | cons e es =>
      simp only [placed, List.map_cons, List.cons.injEq, Elem.leaf, Prod.mk.injEq] at h
      simp only [List.cons_append, elemsTrivia, headTrivia, h.1.2.1]

/-- If an element is trivia and followed by trivia, its next sibling is a token. -/
def Elem.NextIsSibling (e : Elem) : Prop :=
  e.kind.isTrivia = true → elemsTrivia e.tokensAfter = true →
    ∃ f fs k t ts, e.path = f :: fs ∧ f.after = .token k t :: ts

mutual
theorem grouped_at : ∀ (t : Tree) (pos : Nat) (path : List Frame) (e : Elem),
    t.Grouped (elemsTrivia (tokensAfterFrom t (pos + byteLen t.text) path)) →
    (t.isNode = false → Elem.NextIsSibling ⟨t, pos, path⟩) →
    e ∈ tokensOf (elemsAt t pos path) → e.NextIsSibling
  | .token k x, pos, path, e, _, ht, h => by
    simp only [elemsAt, tokensOf, List.mem_filter, List.mem_singleton] at h
    obtain ⟨rfl, _⟩ := h
    exact ht rfl
  | .node k cs, pos, path, e, hg, _, h => by
    refine grouped_in cs k pos [] pos path e (by simpa [Tree.Grouped, Tree.text] using hg) ?_
    simpa [elemsAt, tokensOf, List.filter_cons, Elem.isNode, Tree.isNode] using h
theorem grouped_in : ∀ (ts : List Tree) (k : SyntaxKind) (start : Nat) (before : List Tree)
    (pos : Nat) (path : List Frame) (e : Elem),
    GroupedAll ts (elemsTrivia (tokensAfterFrom (.node k (before ++ ts))
      (pos + byteLen (textOf ts)) path)) →
    e ∈ tokensOf (elemsIn ts k start before pos path) → e.NextIsSibling
  | [], _, _, _, _, _, _, _, h => by simp [elemsIn, tokensOf] at h
  | t :: ts, k, start, before, pos, path, e, hg, h => by
    rw [GroupedAll] at hg
    have hA : tokensAfterFrom t (pos + byteLen t.text) (⟨k, start, before, ts⟩ :: path) =
        tokensOf (elemsIn ts k start (before ++ [t]) (pos + byteLen t.text) path) ++
          tokensAfterFrom (.node k (before ++ t :: ts)) (pos + byteLen (textOf (t :: ts))) path := by
      rw [tokensAfterFrom]; simp [textOf, byteLen_append, Nat.add_assoc]
    have hT : elemsTrivia (tokensAfterFrom t (pos + byteLen t.text)
        (⟨k, start, before, ts⟩ :: path)) = headTrivia (elemsTrivia (tokensAfterFrom
          (.node k (before ++ t :: ts)) (pos + byteLen (textOf (t :: ts))) path)) (leavesOf ts) := by
      rw [hA, elemsTrivia_in]
    rw [elemsIn, tokensOf_append, List.mem_append] at h
    rcases h with h | h
    · refine grouped_at t pos _ e (by rw [hT]; exact hg.1) ?_ h
      intro htok
      cases t with
      | node _ _ => simp [Tree.isNode] at htok
      | token k' x =>
        intro h1 h2
        have h2' := h2
        unfold Elem.tokensAfter at h2'
        dsimp only at h2'
        rw [hT] at h2'
        obtain ⟨k'', x'', ts', hts⟩ := hg.2.2 k' x rfl h1 h2'
        exact ⟨_, _, k'', x'', ts', rfl, hts⟩
    · refine grouped_in ts k start (before ++ [t]) (pos + byteLen t.text) path e ?_ h
      simpa [textOf, byteLen_append, Nat.add_assoc] using hg.2.1
end

/-- In a tree that does not tear trivia apart, `next_token()` of a trivia token finds a following
trivia token, and what it finds is always the next token. -/
theorem nextToken_trivia {root : Tree} (hg : root.Grouped false) {l r : List Elem} {a : Elem}
    (h : root.tokenElems = l ++ a :: r) (ha : a.kind.isTrivia = true) :
    (∀ x r', r = x :: r' → x.kind.isTrivia = true → a.nextToken = some x) ∧
    (∀ x, a.nextToken = some x → ∃ r', r = x :: r') := by
  have hr := tokenElems_after h
  refine ⟨?_, ?_⟩
  · intro x r' hx hk
    have hroot : root.isNode = false → Elem.NextIsSibling ⟨root, 0, []⟩ := by
      intro hn _ h2
      simp [Elem.tokensAfter, tokensAfterFrom, elemsTrivia] at h2
    have hns := grouped_at root 0 [] a (by simpa [tokensAfterFrom, elemsTrivia] using hg) hroot (by
      show a ∈ root.tokenElems
      rw [h]; simp)
    obtain ⟨f, fs, k, t, ts, hp, hf⟩ := hns ha (by rw [hr, hx]; exact hk)
    exact nextToken_sibling hp hf (by rw [hr, hx])
  · intro x hx
    obtain ⟨r', hr'⟩ := nextToken_after hx
    exact ⟨r', by rw [← hr, hr']⟩

end Ludtwig
