import Verif.Rules.FilterProps

/-! # Quotes of strings: property C40 -/

namespace Ludtwig.Rules

open Cli

/-- The first token that is not trivia in a list of trees, where no node comes before it. -/
def QuoteIn (ts : List Tree) (a : List Tree) (q : Tree) (b : List Tree) : Prop :=
  ts = a ++ q :: b ∧ (∀ t ∈ a, isSignificant t = false) ∧ isSignificant q = true

/-- A list of trees without a quote. -/
def NoQuote (ts : List Tree) : Prop := ∀ t ∈ ts, isSignificant t = false

/-- A string node: tokens, the inner node, and what follows. -/
structure StringNode (e : Elem) (k : SyntaxKind) (l : List Tree) (inner : Tree) (r : List Tree) : Prop where
  tree : e.tree = .node k (l ++ inner :: r)
  lead : ∀ t ∈ l, t.isNode = false
  node : inner.isNode = true

/-- The tokens before the inner node with the quote `q`: the old quote is replaced, or a quote is
added directly before the inner node. -/
def Opened (q : Tree) (l l' : List Tree) : Prop :=
  (∃ a o b, QuoteIn l a o b ∧ l' = a ++ q :: b) ∨ (NoQuote l ∧ l' = l ++ [q])

/-- What follows the inner node with the quote `q`: the old quote is replaced, or a quote is added
directly after the inner node. -/
def Closed (q : Tree) (r r' : List Tree) : Prop :=
  (∃ a o b, QuoteIn r a o b ∧ r' = a ++ q :: b) ∨ (NoQuote r ∧ r' = q :: r)

theorem quote_cases (ts : List Tree) : (∃ a o b, QuoteIn ts a o b) ∨ NoQuote ts := by
  induction ts with
  | nil => right; intro t h; cases h
  | cons t ts ih =>
    cases ht : isSignificant t with
    | true => left; exact ⟨[], t, ts, rfl, by simp, ht⟩
    | false =>
      rcases ih with ⟨a, o, b, rfl, h2, h3⟩ | h
      · left
        refine ⟨t :: a, o, b, rfl, ?_, h3⟩
        intro u hu
        rcases List.mem_cons.mp hu with rfl | hu
        · exact ht
        · exact h2 u hu
      · right
        intro u hu
        rcases List.mem_cons.mp hu with rfl | hu
        · exact ht
        · exact h u hu

theorem sig_eq (c : Elem) : (!c.isNode && !c.kind.isTrivia) = isSignificant c.tree := by
  unfold Elem.isNode Elem.kind
  cases c.tree <;> simp [isSignificant, Tree.isNode, Tree.kind]

theorem childElems_mem_tree (path : List Frame) (k : SyntaxKind) (start : Nat) (before : List Tree)
    (pos : Nat) (ts : List Tree) (c : Elem) (h : c ∈ childElems path k start before pos ts) :
    c.tree ∈ ts := by
  obtain ⟨l, r, h1, _⟩ := childElems_place path k start ts before pos c h
  rw [h1]; simp

theorem find_quote (path : List Frame) (k : SyntaxKind) (start : Nat) (before : List Tree) (pos : Nat)
    {ts a b : List Tree} {o : Tree} (h : QuoteIn ts a o b) :
    (childElems path k start before pos ts).find? (fun c => !c.isNode && !c.kind.isTrivia) =
      some ⟨o, pos + byteLen (textOf a), ⟨k, start, before ++ a, b⟩ :: path⟩ := by
  have hf : (fun c : Elem => !c.isNode && !c.kind.isTrivia) = fun c => isSignificant c.tree :=
    funext sig_eq
  rw [hf, childElems_find]
  exact ⟨a, b, h.1, h.2.1, h.2.2, rfl, rfl⟩

theorem find_noQuote (path : List Frame) (k : SyntaxKind) (start : Nat) (before : List Tree)
    (pos : Nat) {ts : List Tree} (h : NoQuote ts) :
    (childElems path k start before pos ts).find? (fun c => !c.isNode && !c.kind.isTrivia) = none := by
  rw [List.find?_eq_none]
  intro c hc
  rw [sig_eq, h c.tree (childElems_mem_tree _ _ _ _ _ _ _ hc)]
  decide

theorem node_not_sig {t : Tree} (h : t.isNode = true) : isSignificant t = false := by
  cases t <;> simp_all [isSignificant, Tree.isNode]

/-- The search for the opening quote among the children of a string node. -/
theorem opening_find (path : List Frame) (k : SyntaxKind) (start : Nat) (inner : Tree) (r : List Tree)
    (hn : inner.isNode = true) : ∀ (l before : List Tree) (pos : Nat), (∀ t ∈ l, t.isNode = false) →
    (∀ a o b, QuoteIn l a o b →
      ((childElems path k start before pos (l ++ inner :: r)).takeWhile (fun c => !c.isNode)).find?
        (fun c => !c.isNode && !c.kind.isTrivia) =
      some ⟨o, pos + byteLen (textOf a), ⟨k, start, before ++ a, b ++ inner :: r⟩ :: path⟩) ∧
    (NoQuote l →
      ((childElems path k start before pos (l ++ inner :: r)).takeWhile (fun c => !c.isNode)).find?
        (fun c => !c.isNode && !c.kind.isTrivia) = none)
  | [], before, pos, _ => by
    refine ⟨fun a o b h => absurd h.1 (by simp), fun _ => ?_⟩
    simp only [List.nil_append, childElems, List.takeWhile_cons]
    rw [if_neg (by simp [Elem.isNode, hn])]
    rfl
  | t :: l, before, pos, hl => by
    have ht := hl t List.mem_cons_self
    have ih := opening_find path k start inner r hn l (before ++ [t]) (pos + byteLen t.text)
      (fun u hu => hl u (List.mem_cons_of_mem _ hu))
    simp only [List.cons_append, childElems, List.takeWhile_cons]
    rw [if_pos (by simp [Elem.isNode, ht]), List.find?_cons, sig_eq]
    cases hs : isSignificant t with
    | true =>
      refine ⟨fun a o b h => ?_, fun h => ?_⟩
      · cases a with
        | nil =>
          have := h.1
          simp only [List.nil_append, List.cons.injEq] at this
          obtain ⟨rfl, rfl⟩ := this
          simp [textOf]
        | cons u a =>
          have h1 := h.1
          simp only [List.cons_append, List.cons.injEq] at h1
          have := h.2.1 u List.mem_cons_self
          rw [← h1.1, hs] at this
          cases this
      · have := h t List.mem_cons_self
        rw [hs] at this; cases this
    | false =>
      refine ⟨fun a o b h => ?_, fun h => ih.2 (fun u hu => h u (List.mem_cons_of_mem _ hu))⟩
      cases a with
      | nil =>
        have := h.1
        simp only [List.nil_append, List.cons.injEq] at this
        have h2 := h.2.2
        rw [← this.1, hs] at h2
        cases h2
      | cons u a =>
        have h1 := h.1
        simp only [List.cons_append, List.cons.injEq] at h1
        obtain ⟨rfl, h1⟩ := h1
        refine (ih.1 a o b ⟨h1, fun v hv => h.2.1 v (List.mem_cons_of_mem _ hv), h.2.2⟩).trans ?_
        simp [textOf, byteLen_append, Nat.add_assoc]

/-- The children from the inner node on. -/
theorem closing_drop (path : List Frame) (k : SyntaxKind) (start : Nat) (inner : Tree) (r : List Tree)
    (hn : inner.isNode = true) : ∀ (l before : List Tree) (pos : Nat), (∀ t ∈ l, t.isNode = false) →
    (childElems path k start before pos (l ++ inner :: r)).dropWhile (fun c => !c.isNode) =
      childElems path k start (before ++ l) (pos + byteLen (textOf l)) (inner :: r)
  | [], before, pos, _ => by
    simp only [List.nil_append, childElems, List.dropWhile_cons]
    rw [if_neg (by simp [Elem.isNode, hn])]
    simp [textOf]
  | t :: l, before, pos, hl => by
    have ih := closing_drop path k start inner r hn l (before ++ [t]) (pos + byteLen t.text)
      (fun u hu => hl u (List.mem_cons_of_mem _ hu))
    rw [List.cons_append, childElems, List.dropWhile_cons,
      if_pos (by simp [Elem.isNode, hl t List.mem_cons_self]), ih]
    simp [textOf, byteLen_append, Nat.add_assoc]

theorem openingQuote_some {e : Elem} {k : SyntaxKind} {l r a b : List Tree} {inner o : Tree}
    (h : StringNode e k l inner r) (hq : QuoteIn l a o b) :
    ∃ path, e.openingQuote = some ⟨o, e.start + byteLen (textOf a), path⟩ := by
  refine ⟨⟨k, e.start, [] ++ a, b ++ inner :: r⟩ :: e.path, ?_⟩
  unfold Elem.openingQuote Elem.childrenWithTokens
  rw [h.tree]
  exact (opening_find e.path k e.start inner r h.node l [] e.start h.lead).1 a o b hq

theorem openingQuote_none {e : Elem} {k : SyntaxKind} {l r : List Tree} {inner : Tree}
    (h : StringNode e k l inner r) (hq : NoQuote l) : e.openingQuote = none := by
  unfold Elem.openingQuote Elem.childrenWithTokens
  rw [h.tree]
  exact (opening_find e.path k e.start inner r h.node l [] e.start h.lead).2 hq

theorem closingQuote_some {e : Elem} {k : SyntaxKind} {l r a b : List Tree} {inner o : Tree}
    (h : StringNode e k l inner r) (hq : QuoteIn r a o b) :
    ∃ path, e.closingQuote =
      some ⟨o, e.start + byteLen (textOf l) + byteLen inner.text + byteLen (textOf a), path⟩ := by
  refine ⟨⟨k, e.start, l ++ inner :: a, b⟩ :: e.path, ?_⟩
  unfold Elem.closingQuote Elem.childrenWithTokens
  rw [h.tree]
  simp only
  rw [closing_drop e.path k e.start inner r h.node l [] e.start h.lead]
  have hq' : QuoteIn (inner :: r) (inner :: a) o b := by
    refine ⟨by rw [hq.1]; rfl, ?_, hq.2.2⟩
    intro t ht
    rcases List.mem_cons.mp ht with rfl | ht
    · exact node_not_sig h.node
    · exact hq.2.1 t ht
  rw [find_quote _ _ _ _ _ hq']
  simp [textOf, byteLen_append, Nat.add_assoc]

theorem closingQuote_none {e : Elem} {k : SyntaxKind} {l r : List Tree} {inner : Tree}
    (h : StringNode e k l inner r) (hq : NoQuote r) : e.closingQuote = none := by
  unfold Elem.closingQuote Elem.childrenWithTokens
  rw [h.tree]
  simp only
  rw [closing_drop e.path k e.start inner r h.node l [] e.start h.lead]
  apply find_noQuote
  intro t ht
  rcases List.mem_cons.mp ht with rfl | ht
  · exact node_not_sig h.node
  · exact hq t ht

theorem quoteIsFine_iff (q : Char) (o : Option Elem) :
    quoteIsFine q o = true ↔ ∃ t, o = some t ∧ t.text.head? = some q := by
  cases o with
  | none => simp [quoteIsFine]
  | some t => simp [quoteIsFine]

/-- A list of trees whose quote is `q`. -/
def QuotedBy (q : Char) (ts : List Tree) : Prop :=
  ∃ a o b, QuoteIn ts a o b ∧ o.text.head? = some q

theorem opening_fine {e : Elem} {k : SyntaxKind} {l r : List Tree} {inner : Tree} (q : Char)
    (h : StringNode e k l inner r) : quoteIsFine q e.openingQuote = true ↔ QuotedBy q l := by
  rw [quoteIsFine_iff]
  constructor
  · rintro ⟨t, h1, h2⟩
    rcases quote_cases l with ⟨a, o, b, hq⟩ | hn
    · obtain ⟨path, hp⟩ := openingQuote_some h hq
      rw [hp] at h1
      cases h1
      exact ⟨a, o, b, hq, h2⟩
    · rw [openingQuote_none h hn] at h1; cases h1
  · rintro ⟨a, o, b, hq, h2⟩
    obtain ⟨path, hp⟩ := openingQuote_some h hq
    exact ⟨_, hp, h2⟩

theorem closing_fine {e : Elem} {k : SyntaxKind} {l r : List Tree} {inner : Tree} (q : Char)
    (h : StringNode e k l inner r) : quoteIsFine q e.closingQuote = true ↔ QuotedBy q r := by
  rw [quoteIsFine_iff]
  constructor
  · rintro ⟨t, h1, h2⟩
    rcases quote_cases r with ⟨a, o, b, hq⟩ | hn
    · obtain ⟨path, hp⟩ := closingQuote_some h hq
      rw [hp] at h1
      cases h1
      exact ⟨a, o, b, hq, h2⟩
    · rw [closingQuote_none h hn] at h1; cases h1
  · rintro ⟨a, o, b, hq, h2⟩
    obtain ⟨path, hp⟩ := closingQuote_some h hq
    exact ⟨_, hp, h2⟩

theorem checkQuotes_nil {e : Elem} {k : SyntaxKind} {l r : List Tree} {inner : Tree} (name : RuleName)
    (q : Char) (ie : Option Elem) (h : StringNode e k l inner r) :
    checkQuotes name q e ie = [] ↔ QuotedBy q l ∧ QuotedBy q r := by
  rw [← opening_fine q h, ← closing_fine q h]
  unfold checkQuotes
  cases quoteIsFine q e.openingQuote <;> cases quoteIsFine q e.closingQuote <;> simp

theorem opened_quoted {q : Char} {k : SyntaxKind} (hk : k.isTrivia = false) {l l' : List Tree}
    (h : Opened (.token k [q]) l l') : QuotedBy q l' := by
  rcases h with ⟨a, o, b, hq, rfl⟩ | ⟨hn, rfl⟩
  · exact ⟨a, _, b, ⟨rfl, hq.2.1, by simp [isSignificant, hk]⟩, rfl⟩
  · exact ⟨l, _, [], ⟨rfl, hn, by simp [isSignificant, hk]⟩, rfl⟩

theorem closed_quoted {q : Char} {k : SyntaxKind} (hk : k.isTrivia = false) {r r' : List Tree}
    (h : Closed (.token k [q]) r r') : QuotedBy q r' := by
  rcases h with ⟨a, o, b, hq, rfl⟩ | ⟨hn, rfl⟩
  · exact ⟨a, _, b, ⟨rfl, hq.2.1, by simp [isSignificant, hk]⟩, rfl⟩
  · exact ⟨[], _, r, ⟨rfl, by simp, by simp [isSignificant, hk]⟩, rfl⟩

theorem opened_lead {q : Tree} (hq : q.isNode = false) {l l' : List Tree} (h : Opened q l l')
    (hl : ∀ t ∈ l, t.isNode = false) : ∀ t ∈ l', t.isNode = false := by
  rcases h with ⟨a, o, b, ⟨rfl, _⟩, rfl⟩ | ⟨_, rfl⟩
  · intro t ht
    rcases List.mem_append.mp ht with h | h
    · exact hl t (List.mem_append_left _ h)
    · rcases List.mem_cons.mp h with rfl | h
      · exact hq
      · exact hl t (List.mem_append_right _ (List.mem_cons_of_mem _ h))
  · intro t ht
    rcases List.mem_append.mp ht with h | h
    · exact hl t h
    · rw [List.mem_singleton.mp h]; exact hq

/-- The two edits of a string: the opening side as kept text, replaced text and kept text, and the
closing side likewise. -/
theorem quote_edit (root pre post l1 o l2 inner r1 c r2 : Text) (q : Char)
    (h : root = pre ++ (l1 ++ o ++ l2 ++ inner ++ r1 ++ c ++ r2) ++ post) :
    applySuggestionsToText
      [⟨⟨byteLen pre + byteLen l1, byteLen pre + byteLen l1 + byteLen o⟩, [q]⟩,
       ⟨⟨byteLen pre + byteLen (l1 ++ o ++ l2 ++ inner ++ r1),
         byteLen pre + byteLen (l1 ++ o ++ l2 ++ inner ++ r1) + byteLen c⟩, [q]⟩] root =
      some (pre ++ (l1 ++ [q] ++ l2 ++ inner ++ r1 ++ [q] ++ r2) ++ post) := by
  have := apply_pieces [⟨l1, none⟩, ⟨o, some [q]⟩, ⟨l2 ++ inner ++ r1, none⟩, ⟨c, some [q]⟩,
    ⟨r2 ++ post, none⟩] pre
  simp only [pieceSuggestions, piecesBefore, piecesAfter, List.flatMap_cons, List.flatMap_nil,
    List.append_nil, Option.getD, List.nil_append, List.cons_append] at this
  rw [h]
  simpa [byteLen_append, Nat.add_assoc] using this

theorem changedQuotes_eq {e : Elem} {k : SyntaxKind} {l r : List Tree} {inner : Tree}
    (h : StringNode e k l inner r) (ie : Elem) (hie : ie.tree = inner)
    (hs : ie.start = e.start + byteLen (textOf l)) (q : Char) (x : CheckResult)
    (hx : x.suggestions = []) :
    (q ∈ inner.text → changedQuotes e (some ie) q x = x) ∧
    (q ∉ inner.text → ∀ qk, ∃ l' r', Opened (.token qk [q]) l l' ∧ Closed (.token qk [q]) r r' ∧
      ∀ root pre post, root = pre ++ textOf (l ++ inner :: r) ++ post → byteLen pre = e.start →
        applySuggestionsToText (changedQuotes e (some ie) q x).suggestions root =
          some (pre ++ textOf (l' ++ inner :: r') ++ post)) := by
  have hit : ie.text = inner.text := by rw [Elem.text, hie]
  refine ⟨fun hq => ?_, fun hq qk => ?_⟩
  · unfold changedQuotes; dsimp only
    rw [if_pos (by rw [hit]; simpa using hq)]
  · have hsug : (changedQuotes e (some ie) q x).suggestions =
        [⟨(match e.openingQuote with
            | some q => q.range
            | none => emptyAt ie.range.start), [q]⟩,
          ⟨(match e.closingQuote with
            | some q => q.range
            | none => emptyAt ie.range.stop), [q]⟩] := by
      unfold changedQuotes; dsimp only
      rw [if_neg (by rw [hit]; simpa using hq)]
      simp only [suggest, hx, List.nil_append, List.cons_append]
      cases e.openingQuote <;> cases e.closingQuote <;> rfl
    have hstart : ie.range.start = e.start + byteLen (textOf l) := hs
    have hstop : ie.range.stop = e.start + byteLen (textOf l) + byteLen inner.text := by
      show ie.start + byteLen ie.text = _
      rw [hs, hit]
    rcases quote_cases l with ⟨a, o, b, ho⟩ | ho <;> rcases quote_cases r with ⟨c, p, d, hp⟩ | hp
    · obtain ⟨_, h1⟩ := openingQuote_some h ho
      obtain ⟨_, h2⟩ := closingQuote_some h hp
      refine ⟨_, _, .inl ⟨a, o, b, ho, rfl⟩, .inl ⟨c, p, d, hp, rfl⟩, fun root pre post hr hpre => ?_⟩
      rw [hsug, h1, h2]
      have := quote_edit root pre post (textOf a) o.text (textOf b) inner.text (textOf c) p.text
        (textOf d) q (by rw [hr, ho.1, hp.1]; simp [textOf_append, textOf])
      rw [hpre] at this
      simpa [Elem.range, Elem.text, textOf_append, textOf, Tree.text, byteLen_append, Nat.add_assoc,
        ho.1, hp.1] using this
    · obtain ⟨_, h1⟩ := openingQuote_some h ho
      have h2 := closingQuote_none h hp
      refine ⟨_, _, .inl ⟨a, o, b, ho, rfl⟩, .inr ⟨hp, rfl⟩, fun root pre post hr hpre => ?_⟩
      rw [hsug, h1, h2]
      have := quote_edit root pre post (textOf a) o.text (textOf b) inner.text [] []
        (textOf r) q (by rw [hr, ho.1]; simp [textOf_append, textOf])
      rw [hpre] at this
      simp only [emptyAt, hstop]
      simpa [Elem.range, Elem.text, textOf_append, textOf, Tree.text, byteLen_append, Nat.add_assoc,
        ho.1] using this
    · have h1 := openingQuote_none h ho
      obtain ⟨_, h2⟩ := closingQuote_some h hp
      refine ⟨_, _, .inr ⟨ho, rfl⟩, .inl ⟨c, p, d, hp, rfl⟩, fun root pre post hr hpre => ?_⟩
      rw [hsug, h1, h2]
      have := quote_edit root pre post (textOf l) [] [] inner.text (textOf c) p.text
        (textOf d) q (by rw [hr, hp.1]; simp [textOf_append, textOf])
      rw [hpre] at this
      simp only [emptyAt, hstart]
      simpa [Elem.range, Elem.text, textOf_append, textOf, Tree.text, byteLen_append, Nat.add_assoc,
        hp.1] using this
    · have h1 := openingQuote_none h ho
      have h2 := closingQuote_none h hp
      refine ⟨_, _, .inr ⟨ho, rfl⟩, .inr ⟨hp, rfl⟩, fun root pre post hr hpre => ?_⟩
      rw [hsug, h1, h2]
      have := quote_edit root pre post (textOf l) [] [] inner.text [] []
        (textOf r) q (by rw [hr]; simp [textOf_append, textOf])
      rw [hpre] at this
      simp only [emptyAt, hstart, hstop]
      simpa [Elem.range, Elem.text, textOf_append, textOf, Tree.text, byteLen_append,
        Nat.add_assoc] using this

theorem string_inner {e : Elem} {k ik : SyntaxKind} {l r : List Tree} {inner : Tree}
    (h : StringNode e k l inner r) (hk : inner.kind = ik) :
    ∃ ie, e.child ik = some ie ∧ ie.tree = inner ∧ ie.start = e.start + byteLen (textOf l) := by
  have : FirstChild (nodeOf ik) e ⟨inner, e.start + byteLen (textOf l), ⟨k, e.start, l, r⟩ :: e.path⟩ := by
    refine ⟨k, l, r, h.tree, ?_, ?_, rfl, rfl⟩
    · intro t ht
      have := h.lead t ht
      cases t <;> simp_all [nodeOf, Tree.isNode]
    · have := h.node
      cases inner <;> simp_all [nodeOf, Tree.isNode, Tree.kind]
  exact ⟨_, (child_iff _ _ _).mpr this, rfl, rfl⟩

/-- What C40 says about a check of string nodes: `k` is the kind of the string,
`q` is the configured quote.

- The string is fine exactly if both quotes are there and are `q`.
- There is no suggestion if the content contains `q`.
- Otherwise applying the suggestions changes nothing in the file but the quotes, and the string with
  the new quotes is fine. -/
structure QuotesChecked (check : Elem → List CheckResult) (k : SyntaxKind) (q : Char)
    (root : Tree) (e : Elem) (l : List Tree) (inner : Tree) (r : List Tree) : Prop where
  fine : check e = [] ↔ QuotedBy q l ∧ QuotedBy q r
  unfixable : q ∈ inner.text → ∀ x ∈ check e, x.suggestions = []
  fixed : q ∉ inner.text → ∀ x ∈ check e, ∀ qk : SyntaxKind, qk.isTrivia = false →
    ∃ l' r' pre post, Opened (.token qk [q]) l l' ∧ Closed (.token qk [q]) r r' ∧
      root.text = pre ++ textOf (l ++ inner :: r) ++ post ∧ byteLen pre = e.start ∧
      applySuggestionsToText x.suggestions root.text =
        some (pre ++ textOf (l' ++ inner :: r') ++ post) ∧
      ∀ pos path, check ⟨.node k (l' ++ inner :: r'), pos, path⟩ = []

theorem quotes_checked {check : Elem → List CheckResult} {k : SyntaxKind} {q : Char}
    {name : RuleName} {root : Tree} {e : Elem} {l r : List Tree} {inner : Tree}
    (hc : ∀ e l r, StringNode e k l inner r →
      ∃ ie : Elem, ie.tree = inner ∧ ie.start = e.start + byteLen (textOf l) ∧
        check e = checkQuotes name q e (some ie))
    (hin : Elem.In root e) (h : StringNode e k l inner r) :
    QuotesChecked check k q root e l inner r := by
  obtain ⟨ie, h1, h2, h3⟩ := hc e l r h
  refine ⟨?_, ?_, ?_⟩
  · rw [h3]; exact checkQuotes_nil name q _ h
  · intro hq x hx
    rw [h3] at hx
    unfold checkQuotes at hx
    split at hx
    · rw [List.mem_singleton.mp hx,
        (changedQuotes_eq h ie h1 h2 q (result name .help e.rangeTrimmed) rfl).1 hq]
      rfl
    · cases hx
  · intro hq x hx qk hqk
    rw [h3] at hx
    unfold checkQuotes at hx
    split at hx
    · obtain ⟨l', r', ho, hcl, ha⟩ :=
        (changedQuotes_eq h ie h1 h2 q (result name .help e.rangeTrimmed) rfl).2 hq qk
      obtain ⟨pre, post, g1, g2⟩ := In_inText hin
      have g1 : root.text = pre ++ textOf (l ++ inner :: r) ++ post := by
        rw [g1, Elem.text, h.tree]; rfl
      refine ⟨l', r', pre, post, ho, hcl, g1, g2, ?_, ?_⟩
      · rw [List.mem_singleton.mp hx]
        exact ha _ pre post g1 g2
      · intro pos path
        have h' : StringNode ⟨.node k (l' ++ inner :: r'), pos, path⟩ k l' inner r' :=
          ⟨rfl, opened_lead rfl ho h.lead, h.node⟩
        obtain ⟨ie', _, _, g⟩ := hc _ l' r' h'
        rw [g, checkQuotes_nil name q _ h']
        exact ⟨opened_quoted hqk ho, closed_quoted hqk hcl⟩
    · cases hx

/-- C40 for HTML strings. -/
theorem C40_html (ctx : Ctx) {root : Tree} {e : Elem} {l r : List Tree} {inner : Tree}
    (hin : Elem.In root e) (h : StringNode e .HTML_STRING l inner r)
    (hk : inner.kind = .HTML_STRING_INNER) :
    QuotesChecked (htmlStringQuotation.checkNode ctx) .HTML_STRING
      ctx.config.htmlQuotation.char root e l inner r := by
  refine quotes_checked (name := "html-string-quotation".toList) ?_ hin h
  intro e l r h
  obtain ⟨ie, h1, h2, h3⟩ := string_inner h hk
  refine ⟨ie, h2, h3, ?_⟩
  unfold htmlStringQuotation; dsimp only
  have hc : e.cast .HTML_STRING = some e :=
    (nodeOf_cast _ _ _).mpr ⟨by rw [h.tree]; rfl, rfl⟩
  have hi : e.htmlStringInner = some ie := h1
  rw [hc]; dsimp only
  rw [hi]

/-- A string content without interpolation. -/
def NoInterpolation (inner : Tree) : Prop :=
  ∀ t ∈ inner.subtrees, nodeOf .TWIG_LITERAL_STRING_INTERPOLATION t = false

/-- C40 for twig strings: as for HTML strings, unless an interpolation is to get single quotes. -/
theorem C40_twig (ctx : Ctx) {root : Tree} {e : Elem} {l r : List Tree} {inner : Tree}
    (hin : Elem.In root e) (h : StringNode e .TWIG_LITERAL_STRING l inner r)
    (hk : inner.kind = .TWIG_LITERAL_STRING_INNER)
    (hi : ctx.config.twigQuotation = .double ∨ NoInterpolation inner) :
    QuotesChecked (twigStringQuotation.checkNode ctx) .TWIG_LITERAL_STRING
      ctx.config.twigQuotation.char root e l inner r := by
  refine quotes_checked (name := "twig-string-quotation".toList) ?_ hin h
  intro e l r h
  obtain ⟨ie, h1, h2, h3⟩ := string_inner h hk
  refine ⟨ie, h2, h3, ?_⟩
  unfold twigStringQuotation; dsimp only
  have hc : e.cast .TWIG_LITERAL_STRING = some e :=
    (nodeOf_cast _ _ _).mpr ⟨by rw [h.tree]; rfl, rfl⟩
  have hin' : e.twigStringInner = some ie := h1
  rw [hc]; dsimp only
  rw [hin']; dsimp only
  rw [if_neg]
  rcases hi with hd | hn
  · rw [hd]; simp
  · have : ie.childrenOf .TWIG_LITERAL_STRING_INTERPOLATION = [] := by
      rw [childrenOf_filter, List.filter_eq_nil_iff]
      intro c hc
      have : c.tree ∈ ie.tree.subtrees := by
        rw [← childrenWithTokens_trees]; exact List.mem_map_of_mem hc
      rw [h2] at this
      rw [hn c.tree this]; decide
    simp only [this, List.length_nil]; simp

/-- C40: an interpolated string is left alone if single quotes are configured. -/
theorem C40_twig_interpolated (ctx : Ctx) (hc : ctx.config.twigQuotation = .single) {e : Elem}
    {l r : List Tree} {inner : Tree} (h : StringNode e .TWIG_LITERAL_STRING l inner r)
    (hk : inner.kind = .TWIG_LITERAL_STRING_INNER) (hi : ¬ NoInterpolation inner) :
    twigStringQuotation.checkNode ctx e = [] := by
  obtain ⟨ie, h1, h2, h3⟩ := string_inner h hk
  unfold twigStringQuotation; dsimp only
  have hcast : e.cast .TWIG_LITERAL_STRING = some e :=
    (nodeOf_cast _ _ _).mpr ⟨by rw [h.tree]; rfl, rfl⟩
  have hin' : e.twigStringInner = some ie := h1
  rw [hcast]; dsimp only
  rw [hin']; dsimp only
  rw [if_pos]
  simp only [hc, childrenOf_filter, beq_self_eq_true, Bool.true_and, gt_iff_lt, decide_eq_true_eq]
  rw [List.length_pos_iff]
  intro hnil
  rw [List.filter_eq_nil_iff] at hnil
  apply hi
  intro t ht
  rw [← h2, ← childrenWithTokens_trees] at ht
  obtain ⟨c, hc, rfl⟩ := List.mem_map.mp ht
  simpa using hnil c hc

/-- Other nodes are not reported. -/
theorem C40_only_strings (ctx : Ctx) (e : Elem) :
    (nodeOf .HTML_STRING e.tree = false → htmlStringQuotation.checkNode ctx e = []) ∧
    (nodeOf .TWIG_LITERAL_STRING e.tree = false → twigStringQuotation.checkNode ctx e = []) := by
  refine ⟨fun h => ?_, fun h => ?_⟩
  · have : e.cast .HTML_STRING = none := by
      unfold Elem.cast; rw [isNode_kind, h]; rfl
    unfold htmlStringQuotation; dsimp only; rw [this]
  · have : e.cast .TWIG_LITERAL_STRING = none := by
      unfold Elem.cast; rw [isNode_kind, h]; rfl
    unfold twigStringQuotation; dsimp only; rw [this]

/-- The suggestions for `<p id='x' a=b></p>{{ 'c' }}`, applied. -/
example : parsesTo "<p id='x' a=b></p>{{ 'c' }}".toList quoteSample = true ∧
    Gives (runRules sampleConfig [htmlStringQuotation, twigStringQuotation] quoteSample) (fun l =>
      applySuggestionsToText (l.flatMap (·.suggestions)) "<p id='x' a=b></p>{{ 'c' }}".toList ==
        some "<p id=\"x\" a=\"b\"></p>{{ \"c\" }}".toList) = true :=
  ⟨quoteSample_parsed, by decide +kernel⟩

/-- A quote is added before the trivia that belongs to an unquoted value: `<p id= x></p>` becomes
`<p id=" x"></p>`, in which the value of the attribute begins with a blank. -/
theorem C40_blank_becomes_content :
    parsesTo "<p id= x></p>".toList blankValueSample = true ∧
    Gives (runRules sampleConfig [htmlStringQuotation] blankValueSample) (fun l =>
      applySuggestionsToText (l.flatMap (·.suggestions)) "<p id= x></p>".toList ==
        some "<p id=\" x\"></p>".toList) = true :=
  ⟨blankValueSample_parsed, by decide +kernel⟩

end Ludtwig.Rules
