import Verif.Syntax.InLemmas
import Verif.Rules.RunLemmas

/-!
# Accessors in terms of trees

Specification of "the first (last) child such that" in terms of trees and offsets, and the lemmas
that the accessors give it.
-/

namespace Ludtwig

/-- `x` is the first child of `e` with a property, at its place in `e`. -/
def FirstChild (q : Tree → Bool) (e x : Elem) : Prop :=
  ∃ k l r, e.tree = .node k (l ++ x.tree :: r) ∧ (∀ t ∈ l, q t = false) ∧ q x.tree = true ∧
    x.start = e.start + byteLen (textOf l) ∧ x.path = ⟨k, e.start, l, r⟩ :: e.path

/-- `x` is the last child of `e` with a property, at its place in `e`. -/
def LastChild (q : Tree → Bool) (e x : Elem) : Prop :=
  ∃ k l r, e.tree = .node k (l ++ x.tree :: r) ∧ (∀ t ∈ r, q t = false) ∧ q x.tree = true ∧
    x.start = e.start + byteLen (textOf l) ∧ x.path = ⟨k, e.start, l, r⟩ :: e.path

theorem childElems_find (q : Tree → Bool) (path : List Frame) (k : SyntaxKind) (start : Nat) :
    ∀ (ts before : List Tree) (pos : Nat) (x : Elem),
      (childElems path k start before pos ts).find? (fun c => q c.tree) = some x ↔
        ∃ l r, ts = l ++ x.tree :: r ∧ (∀ t ∈ l, q t = false) ∧ q x.tree = true ∧
          x.start = pos + byteLen (textOf l) ∧ x.path = ⟨k, start, before ++ l, r⟩ :: path
  | [], before, pos, x => by simp [childElems]
  | t :: ts, before, pos, x => by
    simp only [childElems, List.find?_cons]
    cases hq : q t with
    | true =>
      simp only [Option.some.injEq]
      constructor
      · rintro rfl
        exact ⟨[], ts, rfl, by simp, hq, by simp [textOf], by simp⟩
      · rintro ⟨l, r, h1, h2, h3, h4, h5⟩
        cases l with
        | nil =>
          simp only [List.nil_append, List.cons.injEq] at h1
          obtain ⟨xt, xs, xp⟩ := x
          simp only [textOf, byteLen_nil, Nat.add_zero, List.append_nil] at h1 h4 h5
          rw [h4, h5, h1.1, h1.2]
        | cons a l =>
          simp only [List.cons_append, List.cons.injEq] at h1
          have := h2 a List.mem_cons_self
          rw [← h1.1, hq] at this
          cases this
    | false =>
      simp only
      rw [childElems_find q path k start ts _ _ x]
      constructor
      · rintro ⟨l, r, h1, h2, h3, h4, h5⟩
        refine ⟨t :: l, r, by rw [h1]; rfl, ?_, h3, ?_, ?_⟩
        · intro y hy
          rcases List.mem_cons.mp hy with rfl | hy
          · exact hq
          · exact h2 y hy
        · rw [h4, textOf, byteLen_append]; omega
        · simpa using h5
      · rintro ⟨l, r, h1, h2, h3, h4, h5⟩
        cases l with
        | nil =>
          simp only [List.nil_append, List.cons.injEq] at h1
          rw [← h1.1, hq] at h3
          cases h3
        | cons a l =>
          simp only [List.cons_append, List.cons.injEq] at h1
          obtain ⟨rfl, h1⟩ := h1
          refine ⟨l, r, h1, fun y hy => h2 y (List.mem_cons_of_mem _ hy), h3, ?_, ?_⟩
          · rw [h4, textOf, byteLen_append]; omega
          · simpa using h5

theorem find_firstChild (q : Tree → Bool) (e x : Elem) :
    e.childrenWithTokens.find? (fun c => q c.tree) = some x ↔ FirstChild q e x := by
  unfold Elem.childrenWithTokens FirstChild
  cases he : e.tree with
  | token k t => simp
  | node k cs =>
    rw [childElems_find]
    constructor
    · rintro ⟨l, r, h1, h2, h3, h4, h5⟩
      exact ⟨k, l, r, by rw [h1], h2, h3, h4, by simpa using h5⟩
    · rintro ⟨k', l, r, h1, h2, h3, h4, h5⟩
      cases h1
      exact ⟨l, r, rfl, h2, h3, h4, by simpa using h5⟩

/-- A token that is not trivia. -/
def isSignificant : Tree → Bool
  | .token k _ => !k.isTrivia
  | .node _ _ => false

theorem firstNonTriviaToken_iff (e x : Elem) :
    e.firstNonTriviaToken = some x ↔ FirstChild isSignificant e x := by
  rw [← find_firstChild]
  unfold Elem.firstNonTriviaToken Elem.tokens
  rw [List.find?_filter]
  have : (fun a : Elem => decide ((!a.isNode) = true ∧ (!a.kind.isTrivia) = true)) =
      (fun c : Elem => isSignificant c.tree) := by
    funext a
    obtain ⟨t, _, _⟩ := a
    cases t <;> simp [Elem.isNode, Tree.isNode, isSignificant, Elem.kind, Tree.kind]
  rw [this]

theorem childElems_last (q : Tree → Bool) (path : List Frame) (k : SyntaxKind) (start : Nat) :
    ∀ (ts before : List Tree) (pos : Nat) (x : Elem),
      ((childElems path k start before pos ts).filter (fun c => q c.tree)).getLast? = some x →
        ∃ l r, ts = l ++ x.tree :: r ∧ (∀ t ∈ r, q t = false) ∧ q x.tree = true ∧
          x.start = pos + byteLen (textOf l) ∧ x.path = ⟨k, start, before ++ l, r⟩ :: path
  | [], before, pos, x, h => by simp [childElems] at h
  | t :: ts, before, pos, x, h => by
    by_cases hr : (childElems path k start (before ++ [t]) (pos + byteLen t.text) ts).filter
        (fun c => q c.tree) = []
    · simp only [childElems, List.filter_cons, hr] at h
      have hall : ∀ y ∈ ts, q y = false := by
        intro y hy
        rw [List.filter_eq_nil_iff] at hr
        rw [← childElems_trees path k start ts (before ++ [t]) (pos + byteLen t.text)] at hy
        obtain ⟨c, hc, rfl⟩ := List.mem_map.mp hy
        simpa using hr c hc
      split at h
      · rename_i hq
        simp only [List.getLast?_singleton, Option.some.injEq] at h
        subst h
        exact ⟨[], ts, rfl, hall, hq, by simp [textOf], by simp⟩
      · simp at h
    · have h' : ((childElems path k start (before ++ [t]) (pos + byteLen t.text) ts).filter
          (fun c => q c.tree)).getLast? = some x := by
        simp only [childElems, List.filter_cons] at h
        split at h
        · rwa [List.getLast?_cons_of_ne_nil hr] at h
        · exact h
      obtain ⟨l, r, h1, h2, h3, h4, h5⟩ := childElems_last q path k start ts _ _ x h'
      refine ⟨t :: l, r, by rw [h1]; rfl, h2, h3, ?_, by simpa using h5⟩
      rw [h4, textOf, byteLen_append]; omega

theorem last_lastChild (q : Tree → Bool) (e x : Elem)
    (h : (e.childrenWithTokens.filter (fun c => q c.tree)).getLast? = some x) : LastChild q e x := by
  unfold Elem.childrenWithTokens at h
  cases he : e.tree with
  | token k t => simp [he] at h
  | node k cs =>
    simp only [he] at h
    obtain ⟨l, r, h1, h2, h3, h4, h5⟩ := childElems_last q _ _ _ _ _ _ _ h
    exact ⟨k, l, r, by rw [he, h1], h2, h3, h4, by simpa using h5⟩

theorem firstChild_unique {q : Tree → Bool} {e x y : Elem} (hx : FirstChild q e x)
    (hy : FirstChild q e y) : x = y := by
  rw [← find_firstChild] at hx hy
  rw [hx] at hy
  exact Option.some.inj hy

theorem lastChild_unique {q : Tree → Bool} {e x y : Elem} (hx : LastChild q e x)
    (hy : LastChild q e y) : x = y := by
  obtain ⟨k, l, r, h1, h2, h3, h4, h5⟩ := hx
  obtain ⟨k', l', r', g1, g2, g3, g4, g5⟩ := hy
  rw [h1] at g1
  simp only [Tree.node.injEq] at g1
  obtain ⟨rfl, g1⟩ := g1
  have key : ∀ (l l' r r' : List Tree) (a b : Tree), l ++ a :: r = l' ++ b :: r' →
      (∀ t ∈ r, q t = false) → (∀ t ∈ r', q t = false) → q a = true → q b = true →
      l = l' ∧ a = b ∧ r = r' := by
    intro l
    induction l with
    | nil =>
      intro l' r r' a b h hr hr' ha hb
      cases l' with
      | nil => simp at h; exact ⟨rfl, h⟩
      | cons c l' =>
        simp only [List.nil_append, List.cons_append, List.cons.injEq] at h
        have := hr b (by rw [h.2]; simp)
        rw [hb] at this; cases this
    | cons c l ih =>
      intro l' r r' a b h hr hr' ha hb
      cases l' with
      | nil =>
        simp only [List.nil_append, List.cons_append, List.cons.injEq] at h
        have := hr' a (by rw [← h.2]; simp)
        rw [ha] at this; cases this
      | cons d l' =>
        simp only [List.cons_append, List.cons.injEq] at h
        obtain ⟨h1, h2, h3⟩ := ih l' r r' a b h.2 hr hr' ha hb
        exact ⟨by rw [h.1, h1], h2, h3⟩
  obtain ⟨e1, e2, e3⟩ := key l l' r r' _ _ g1 h2 g2 h3 g3
  obtain ⟨xt, xs, xp⟩ := x
  obtain ⟨yt, ys, yp⟩ := y
  simp only at *
  rw [h4, h5, g4, g5, e1, e2, e3]

theorem lastNonTriviaToken_iff (e x : Elem) :
    e.lastNonTriviaToken = some x ↔ LastChild isSignificant e x := by
  have hf : e.lastNonTriviaToken =
      (e.childrenWithTokens.filter (fun c => isSignificant c.tree)).getLast? := by
    unfold Elem.lastNonTriviaToken Elem.tokens
    rw [List.filter_filter]
    congr 2
    funext a
    obtain ⟨t, _, _⟩ := a
    cases t <;> simp [Elem.isNode, Tree.isNode, isSignificant, Elem.kind, Tree.kind]
  rw [hf]
  constructor
  · exact last_lastChild _ e x
  · intro h
    cases hx : (e.childrenWithTokens.filter (fun c => isSignificant c.tree)).getLast? with
    | some y => rw [lastChild_unique h (last_lastChild _ e y hx)]
    | none =>
      obtain ⟨k, l, r, h1, h2, h3, h4, h5⟩ := h
      rw [List.getLast?_eq_none_iff, List.filter_eq_nil_iff] at hx
      have hm : x.tree ∈ e.childrenWithTokens.map (·.tree) := by
        rw [childrenWithTokens_trees, h1]; simp [Tree.subtrees]
      obtain ⟨c, hc, hct⟩ := List.mem_map.mp hm
      have := hx c hc
      rw [hct, h3] at this
      exact absurd rfl this

/-- `x` is the second child of `e` with a property, at its place in `e`. -/
def SecondChild (q : Tree → Bool) (e x : Elem) : Prop :=
  ∃ k l y m r, e.tree = .node k (l ++ y :: (m ++ x.tree :: r)) ∧ (∀ t ∈ l, q t = false) ∧
    q y = true ∧ (∀ t ∈ m, q t = false) ∧ q x.tree = true ∧
    x.start = e.start + byteLen (textOf (l ++ y :: m)) ∧
    x.path = ⟨k, e.start, l ++ y :: m, r⟩ :: e.path

theorem childElems_second (q : Tree → Bool) (path : List Frame) (k : SyntaxKind) (start : Nat) :
    ∀ (ts before : List Tree) (pos : Nat) (x : Elem),
      ((childElems path k start before pos ts).filter (fun c => q c.tree))[1]? = some x ↔
        ∃ l y m r, ts = l ++ y :: (m ++ x.tree :: r) ∧ (∀ t ∈ l, q t = false) ∧ q y = true ∧
          (∀ t ∈ m, q t = false) ∧ q x.tree = true ∧
          x.start = pos + byteLen (textOf (l ++ y :: m)) ∧
          x.path = ⟨k, start, before ++ (l ++ y :: m), r⟩ :: path
  | [], before, pos, x => by simp [childElems]
  | t :: ts, before, pos, x => by
    simp only [childElems, List.filter_cons]
    cases hq : q t with
    | true =>
      simp only [if_true, List.getElem?_cons_succ]
      rw [← List.head?_eq_getElem?, List.head?_filter, childElems_find]
      constructor
      · rintro ⟨m, r, h1, h2, h3, h4, h5⟩
        refine ⟨[], t, m, r, by rw [h1]; rfl, by simp, hq, h2, h3, ?_, ?_⟩
        · rw [h4]; simp [textOf, byteLen_append, Nat.add_assoc]
        · rw [h5]; simp
      · rintro ⟨l, y, m, r, h1, h2, h3, h4, h5, h6, h7⟩
        cases l with
        | nil =>
          simp only [List.nil_append, List.cons.injEq] at h1
          obtain ⟨rfl, h1⟩ := h1
          refine ⟨m, r, h1, h4, h5, ?_, ?_⟩
          · rw [h6]; simp [textOf, byteLen_append, Nat.add_assoc]
          · rw [h7]; simp
        | cons a l =>
          simp only [List.cons_append, List.cons.injEq] at h1
          have := h2 a List.mem_cons_self
          rw [← h1.1, hq] at this
          cases this
    | false =>
      simp only [Bool.false_eq_true, if_false]
      rw [childElems_second q path k start ts]
      constructor
      · rintro ⟨l, y, m, r, h1, h2, h3, h4, h5, h6, h7⟩
        refine ⟨t :: l, y, m, r, by rw [h1]; rfl, ?_, h3, h4, h5, ?_, ?_⟩
        · intro u hu
          rcases List.mem_cons.mp hu with rfl | hu
          · exact hq
          · exact h2 u hu
        · rw [h6]; simp [textOf, byteLen_append, Nat.add_assoc]
        · rw [h7]; simp
      · rintro ⟨l, y, m, r, h1, h2, h3, h4, h5, h6, h7⟩
        cases l with
        | nil =>
          simp only [List.nil_append, List.cons.injEq] at h1
          rw [← h1.1, hq] at h3
          cases h3
        | cons a l =>
          simp only [List.cons_append, List.cons.injEq] at h1
          obtain ⟨rfl, h1⟩ := h1
          refine ⟨l, y, m, r, h1, fun u hu => h2 u (List.mem_cons_of_mem _ hu), h3, h4, h5, ?_, ?_⟩
          · rw [h6]; simp [textOf, byteLen_append, Nat.add_assoc]
          · rw [h7]; simp

theorem isNode_kind (k : SyntaxKind) (c : Elem) :
    (c.isNode && c.kind == k) = Rules.nodeOf k c.tree := by
  unfold Elem.isNode Elem.kind
  cases c.tree <;> simp [Rules.nodeOf, Tree.isNode, Tree.kind]

theorem childrenOf_filter (k : SyntaxKind) (e : Elem) :
    e.childrenOf k = e.childrenWithTokens.filter (fun c => Rules.nodeOf k c.tree) := by
  unfold Elem.childrenOf Elem.children
  rw [List.filter_filter]
  congr 1
  funext c
  rw [← isNode_kind, Bool.and_comm]

theorem second_iff (k : SyntaxKind) (e x : Elem) :
    (e.childrenOf k)[1]? = some x ↔ SecondChild (Rules.nodeOf k) e x := by
  rw [childrenOf_filter]
  unfold Elem.childrenWithTokens SecondChild
  cases he : e.tree with
  | token _ _ => simp
  | node k' cs =>
    rw [childElems_second]
    constructor
    · rintro ⟨l, y, m, r, h1, h2, h3, h4, h5, h6, h7⟩
      exact ⟨k', l, y, m, r, by rw [h1], h2, h3, h4, h5, h6, by simpa using h7⟩
    · rintro ⟨k'', l, y, m, r, h1, h2, h3, h4, h5, h6, h7⟩
      cases h1
      exact ⟨l, y, m, r, rfl, h2, h3, h4, h5, h6, by simpa using h7⟩

theorem child_iff (k : SyntaxKind) (e x : Elem) :
    e.child k = some x ↔ FirstChild (Rules.nodeOf k) e x := by
  rw [← find_firstChild]
  unfold Elem.child Elem.children
  rw [List.find?_filter]
  have : (fun a : Elem => decide (a.isNode = true ∧ (a.kind == k) = true)) =
      (fun c : Elem => Rules.nodeOf k c.tree) := by
    funext a
    rw [← isNode_kind, Bool.eq_iff_iff]
    simp
  rw [this]

/-- A token of a kind. -/
def isTokenOf (k : SyntaxKind) : Tree → Bool
  | .token k' _ => k' == k
  | .node _ _ => false

theorem token_iff (k : SyntaxKind) (e x : Elem) :
    e.token k = some x ↔ FirstChild (isTokenOf k) e x := by
  rw [← find_firstChild]
  unfold Elem.token Elem.tokens
  rw [List.find?_filter]
  have : (fun a : Elem => decide ((!a.isNode) = true ∧ (a.kind == k) = true)) =
      (fun c : Elem => isTokenOf k c.tree) := by
    funext a
    unfold Elem.isNode Elem.kind
    rw [Bool.eq_iff_iff]
    cases a.tree <;> simp [isTokenOf, Tree.isNode, Tree.kind]
  rw [this]

end Ludtwig
