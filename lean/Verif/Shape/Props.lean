import Verif.Shape.Tree
import Verif.Syntax.Elements


/-! # Syntax trees follow the grammar: C62 and C63 -/

namespace Ludtwig.Shape

open Rx

/-- C62: the syntax tree of a text without parse errors follows the grammar: every node has the
children that its kind asks for, in order. -/
theorem C62_error_free_tree {errLen : Text → Nat} {s : Text} {p : Parse}
    (h : parse errLen s = .ok p) (he : p.errors = []) : Conforms production p.tree :=
  (parseLexed_shape true h (fun _ => he)).1

/-- C63: every syntax tree, also that of a text with parse errors, follows the grammar apart from
missing parts and `ERROR` nodes. -/
theorem C63_every_tree {errLen : Text → Nat} {s : Text} {p : Parse}
    (h : parse errLen s = .ok p) : Conforms damagedProduction p.tree :=
  (parseLexed_shape false h (fun h => by cases h)).1

/-- C69: in every syntax tree, also that of a text with parse errors, whitespace and line breaks are
children of the node that has the token behind them as a child, apart from the ends of strings and of
the file, and from interpolations. -/
theorem C69_whitespace_attached {errLen : Text → Nat} {s : Text} {p : Parse}
    (h : parse errLen s = .ok p) : Attached p.tree :=
  (parseLexed_shape false h (fun h => by cases h)).2.1

/-- In the syntax tree of a text without parse errors, whitespace at the end of the value of an attribute
belongs to the value only inside of quotes, and then all of it does. -/
theorem quoted_strings {errLen : Text → Nat} {s : Text} {p : Parse}
    (h : parse errLen s = .ok p) (he : p.errors = []) : QuotedTree p.tree :=
  (parseLexed_shape true h (fun _ => he)).2.2 rfl

/-! ## What the grammar says about the nodes of a tree -/

theorem conformAll_mem {G : SyntaxKind → Rx} {ts : List Tree} (h : ConformAll G ts) :
    ∀ t ∈ ts, Conforms G t := by
  induction ts with
  | nil => simp
  | cons a ts ih =>
    intro t ht
    rcases List.mem_cons.1 ht with rfl | ht
    · exact h.1
    · exact ih h.2 t ht

theorem mem_childElems_tree {path : List Frame} {k : SyntaxKind} {start : Nat} {c : Elem} :
    ∀ {ts before : List Tree} {pos : Nat}, c ∈ childElems path k start before pos ts → c.tree ∈ ts
  | [], _, _, h => by cases h
  | t :: ts, before, pos, h => by
    simp only [childElems, List.mem_cons] at h
    rcases h with rfl | h
    · exact List.mem_cons_self
    · exact List.mem_cons_of_mem _ (mem_childElems_tree h)

theorem conforms_in {G : SyntaxKind → Rx} {root : Tree} (h : Conforms G root) {e : Elem}
    (hin : Elem.In root e) : Conforms G e.tree := by
  induction hin with
  | root => exact h
  | @child q c hq hc ih =>
    unfold Elem.childrenWithTokens at hc
    split at hc
    · cases hc
    · rename_i k cs heq
      rw [heq] at ih
      exact conformAll_mem ih.2 _ (mem_childElems_tree hc)

/-- The children of a node in a tree. -/
theorem lang_in {G : SyntaxKind → Rx} {root : Tree} (h : Conforms G root) {e : Elem}
    (hin : Elem.In root e) {k : SyntaxKind} {cs : List Tree} (ht : e.tree = .node k cs) :
    (G k).Lang (items cs) := by
  have := conforms_in h hin
  rw [ht] at this
  exact this.1

theorem mem_items_node {k : SyntaxKind} {cs : List Tree} : ∀ {ts : List Tree}, .node k cs ∈ ts →
    (⟨true, k⟩ : Item) ∈ items ts
  | t :: ts, h => by
    rcases List.mem_cons.1 h with h | h
    · subst h; simp [items]
    · have := mem_items_node h
      cases t with
      | token k' x => unfold items; split <;> simp [this]
      | node k' x => simp [items, this]

/-- A node among the children of a node is one that the grammar mentions. -/
theorem child_mentioned {G : SyntaxKind → Rx} {root : Tree} (h : Conforms G root) {e : Elem}
    (hin : Elem.In root e) {k k' : SyntaxKind} {cs cs' : List Tree} (ht : e.tree = .node k cs)
    (hc : .node k' cs' ∈ cs) : (G k).mentions ⟨true, k'⟩ = true :=
  lang_mentions (lang_in h hin ht) _ (mem_items_node hc)

/-- Children, up to a place in their list of items. -/
theorem items_split : ∀ {cs : List Tree} {u v : List Item} {k : SyntaxKind},
    items cs = u ++ ⟨true, k⟩ :: v →
    ∃ l x r, cs = l ++ .node k x :: r ∧ items l = u ∧ items r = v
  | [], u, v, k, h => by simp [items] at h
  | .token k' x :: cs, u, v, k, h => by
    unfold items at h
    split at h
    · rename_i htr
      obtain ⟨l, y, r, rfl, h1, h2⟩ := items_split h
      exact ⟨.token k' x :: l, y, r, rfl, by simp [items, htr, h1], h2⟩
    · rename_i htr
      cases u with
      | nil => simp at h
      | cons i u =>
        simp only [List.cons_append, List.cons.injEq] at h
        obtain ⟨rfl, h⟩ := h
        obtain ⟨l, y, r, rfl, h1, h2⟩ := items_split h
        exact ⟨.token k' x :: l, y, r, rfl, by simp [items, htr, h1], h2⟩
  | .node k' x :: cs, u, v, k, h => by
    unfold items at h
    cases u with
    | nil =>
      simp only [List.nil_append, List.cons.injEq, Item.mk.injEq, true_and] at h
      obtain ⟨rfl, h⟩ := h
      exact ⟨[], x, cs, rfl, rfl, h⟩
    | cons i u =>
      simp only [List.cons_append, List.cons.injEq] at h
      obtain ⟨rfl, h⟩ := h
      obtain ⟨l, y, r, rfl, h1, h2⟩ := items_split h
      exact ⟨.node k' x :: l, y, r, rfl, by simp [items, h1], h2⟩

theorem items_tokens {ts : List Tree} (h : ∀ i ∈ items ts, i.isNode = false) :
    ∀ t ∈ ts, t.isNode = false := by
  intro t ht
  cases t with
  | token k x => rfl
  | node k x => exact h _ (mem_items_node ht)

end Ludtwig.Shape
