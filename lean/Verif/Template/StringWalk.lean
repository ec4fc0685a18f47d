import Verif.Template.Walk
import Verif.Template.Turn

/-!
# The strings of a tree and the cells of its tokens (proof device for C75)
-/

namespace Ludtwig.Template

open Lexer Cli Rules

/-! ## Suggestions -/

/-- The inner part of a string. -/
def innerPart (e : Elem) : Option Elem := if e.kind = .HTML_STRING then e.htmlStringInner else e.twigStringInner

/-- The suggestions that give a string the quote `q`. -/
def quoteSugs (e : Elem) (q : Char) : List Suggestion :=
  match innerPart e with
  | none => []
  | some i =>
    if i.text.contains q then []
    else [⟨match e.openingQuote with
        | some o => o.range
        | none => emptyAt i.range.start, [q]⟩,
      ⟨match e.closingQuote with
        | some o => o.range
        | none => emptyAt i.range.stop, [q]⟩]

/-- The suggestions for a string: `dec` says which strings are changed. -/
def own (dec : Elem → Option Char) (e : Elem) : List Suggestion :=
  match dec e with
  | none => []
  | some q => quoteSugs e q

/-- The suggestions for all strings of elements. -/
def elemSugs (dec : Elem → Option Char) (es : List Elem) : List Suggestion := es.flatMap (fun e => e.descendants.flatMap (own dec))

/-- Only strings are changed, and strings with interpolations do not become single quoted. -/
structure DecOk (dec : Elem → Option Char) : Prop where
  quote : ∀ {e q}, dec e = some q → QuoteChar q
  kind : ∀ {e q}, dec e = some q → ∃ cs, e.tree = .node .TWIG_LITERAL_STRING cs ∨ e.tree = .node .HTML_STRING cs
  parts : ∀ {e q i}, dec e = some q → q = '\'' → e.kind = .TWIG_LITERAL_STRING → e.twigStringInner = some i →
    i.childrenOf .TWIG_LITERAL_STRING_INTERPOLATION = []

variable {dec : Elem → Option Char}

theorem elemSugs_append (es fs : List Elem) : elemSugs dec (es ++ fs) = elemSugs dec es ++ elemSugs dec fs := List.flatMap_append

theorem elemSugs_cons (e : Elem) (es : List Elem) : elemSugs dec (e :: es) = own dec e ++ elemSugs dec (e.childrenWithTokens ++ es) := by
  rw [elemSugs_append, ← List.append_assoc]
  show e.descendants.flatMap (own dec) ++ _ = _
  rw [descendants_eq, List.flatMap_cons]
  congr 2
  show List.flatMap _ (List.flatMap _ _) = _
  rw [List.flatMap_assoc]
  rfl

theorem own_token (hd : DecOk dec) {e : Elem} {k : SyntaxKind} {t : Text} (h : e.tree = .token k t) : own dec e = [] := by
  unfold own
  cases hq : dec e with
  | none => rfl
  | some q =>
    obtain ⟨cs, h' | h'⟩ := hd.kind hq <;> rw [h] at h' <;> cases h'

theorem own_node (hd : DecOk dec) {e : Elem} {k : SyntaxKind} {cs : List Tree} (h : e.tree = .node k cs) (h1 : k ≠ .TWIG_LITERAL_STRING)
    (h2 : k ≠ .HTML_STRING) : own dec e = [] := by
  unfold own
  cases hq : dec e with
  | none => rfl
  | some q =>
    obtain ⟨cs, h' | h'⟩ := hd.kind hq <;> rw [h] at h' <;> cases h'
    · exact absurd rfl h1
    · exact absurd rfl h2

theorem sugs_token (hd : DecOk dec) {e : Elem} {k : SyntaxKind} {t : Text} (h : e.tree = .token k t) (es : List Elem) :
    elemSugs dec (e :: es) = elemSugs dec es := by
  rw [elemSugs_cons, own_token hd h]
  unfold Elem.childrenWithTokens
  rw [h]; rfl

theorem sugs_node (hd : DecOk dec) {e : Elem} {k : SyntaxKind} {cs : List Tree} (h : e.tree = .node k cs) (h1 : k ≠ .TWIG_LITERAL_STRING)
    (h2 : k ≠ .HTML_STRING) (es : List Elem) : elemSugs dec (e :: es) = elemSugs dec (e.childrenWithTokens ++ es) := by
  rw [elemSugs_cons, own_node hd h h1 h2]; rfl

theorem sugs_trivia (hd : DecOk dec) {tv : List Elem} (h : ∀ e ∈ tv, IsTriviaElem e) (es : List Elem) :
    elemSugs dec (tv ++ es) = elemSugs dec es := by
  induction tv with
  | nil => rfl
  | cons e tv ih =>
    obtain ⟨k, t, h1, _⟩ := h e (by simp)
    rw [List.cons_append, sugs_token hd h1, ih (fun e he => h e (List.mem_cons_of_mem _ he))]

/-! ## The trees with new quotes -/

/-- The new quote of a string. -/
def newQuote (dec : Elem → Option Char) (e : Elem) : Option Char :=
  match dec e with
  | none => none
  | some q =>
    match innerPart e with
    | none => none
    | some i => if i.text.contains q then none else some q

mutual
/-- An element without trivia and with new quotes. -/
def turnAt (dec : Elem → Option Char) : Tree → Nat → List Frame → List Tree
  | .token k t, _, _ => if k.isTrivia then [] else [.token k t]
  | .node k cs, pos, path => [.node k (requote (newQuote dec ⟨.node k cs, pos, path⟩) (turnIn dec cs k pos [] pos path))]
/-- The last children of a node without trivia and with new quotes. -/
def turnIn (dec : Elem → Option Char) : List Tree → SyntaxKind → Nat → List Tree → Nat → List Frame → List Tree
  | [], _, _, _, _, _ => []
  | t :: ts, k, start, before, pos, path =>
    turnAt dec t pos (⟨k, start, before, ts⟩ :: path) ++ turnIn dec ts k start (before ++ [t]) (pos + byteLen t.text) path
end

/-- Elements without trivia and with new quotes. -/
def turnElems (dec : Elem → Option Char) (es : List Elem) : List Tree := es.flatMap (fun e => turnAt dec e.tree e.start e.path)

theorem turnElems_append (es fs : List Elem) : turnElems dec (es ++ fs) = turnElems dec es ++ turnElems dec fs := List.flatMap_append

theorem turnIn_eq {path : List Frame} {k : SyntaxKind} {start : Nat} : ∀ {ts before : List Tree} {pos : Nat},
    turnIn dec ts k start before pos path = turnElems dec (childElems path k start before pos ts)
  | [], before, pos => by simp [turnIn, childElems, turnElems]
  | t :: ts, before, pos => by
    rw [turnIn, turnIn_eq]
    rfl

theorem turnElems_cons (e : Elem) (es : List Elem) : turnElems dec (e :: es) = turnElems dec [e] ++ turnElems dec es := turnElems_append [e] es

theorem turn_elem_node {e : Elem} {k : SyntaxKind} {cs : List Tree} (h : e.tree = .node k cs) :
    turnElems dec [e] = [.node k (requote (newQuote dec e) (turnElems dec e.childrenWithTokens))] := by
  obtain ⟨tree, pos, path⟩ := e
  simp only at h
  subst h
  show turnAt dec (.node k cs) pos path ++ [] = _
  rw [turnAt, turnIn_eq]
  rfl

theorem turn_elem_token {e : Elem} {k : SyntaxKind} {t : Text} (h : e.tree = .token k t) (hk : k.isTrivia = false) :
    turnElems dec [e] = [.token k t] := by
  show turnAt dec e.tree _ _ ++ [] = _
  rw [h, turnAt, hk]; rfl

theorem turn_trivia {tv : List Elem} (h : ∀ e ∈ tv, IsTriviaElem e) (es : List Elem) : turnElems dec (tv ++ es) = turnElems dec es := by
  induction tv with
  | nil => rfl
  | cons e tv ih =>
    obtain ⟨k, t, h1, h2⟩ := h e (by simp)
    have h3 : turnElems dec [e] = [] := by
      show turnAt dec e.tree _ _ ++ [] = _
      rw [h1, turnAt, h2]; rfl
    rw [List.cons_append, turnElems_cons, h3, List.nil_append, ih (fun e he => h e (List.mem_cons_of_mem _ he))]

theorem turnElems_length (es : List Elem) : (turnElems dec es).length = (elemStrip es).length := by
  induction es with
  | nil => rfl
  | cons e es ih =>
    rw [turnElems_cons, List.length_append, ih]
    show _ = (e.tree.strip ++ elemStrip es).length
    rw [List.length_append]
    congr 1
    cases h : e.tree with
    | node k cs => rw [turn_elem_node h]; simp [Tree.strip]
    | token k t =>
      cases hk : k.isTrivia with
      | false => rw [turn_elem_token h hk]; simp [Tree.strip, hk]
      | true =>
        show (turnAt dec e.tree _ _ ++ []).length = _
        rw [h, turnAt, hk]; simp [Tree.strip, hk]

theorem newQuote_own {e : Elem} (h : newQuote dec e = none) : own dec e = [] := by
  unfold newQuote at h
  unfold own
  cases hq : dec e with
  | none => rfl
  | some q =>
    rw [hq] at h
    dsimp only at h ⊢
    unfold quoteSugs
    cases hi : innerPart e with
    | none => rfl
    | some i =>
      rw [hi] at h
      dsimp only at h ⊢
      split at h
      · rename_i hc; rw [if_pos hc]
      · cases h

theorem newQuote_other (hd : DecOk dec) {e : Elem} {k : SyntaxKind} {cs : List Tree} (h : e.tree = .node k cs) (h1 : k ≠ .TWIG_LITERAL_STRING)
    (h2 : k ≠ .HTML_STRING) : newQuote dec e = none := by
  unfold newQuote
  cases hq : dec e with
  | none => rfl
  | some q =>
    obtain ⟨cs, h' | h'⟩ := hd.kind hq <;> rw [h] at h' <;> cases h'
    · exact absurd rfl h1
    · exact absurd rfl h2

/-! ## The parts of a string -/

theorem trivia_isNode {e : Elem} (h : IsTriviaElem e) : e.isNode = false := by
  obtain ⟨k, t, h1, _⟩ := h
  simp [Elem.isNode, h1, Tree.isNode]

theorem trivia_kind {e : Elem} (h : IsTriviaElem e) : e.kind.isTrivia = true := by
  obtain ⟨k, t, h1, h2⟩ := h
  simpa [Elem.kind, h1, Tree.kind] using h2

theorem takeWhile_trivia {tv es : List Elem} (h : ∀ e ∈ tv, IsTriviaElem e) :
    (tv ++ es).takeWhile (fun c => !c.isNode) = tv ++ es.takeWhile (fun c => !c.isNode) := by
  induction tv with
  | nil => rfl
  | cons e tv ih =>
    rw [List.cons_append, List.takeWhile_cons_of_pos (by simp [trivia_isNode (h e (by simp))]), ih (fun e he => h e (List.mem_cons_of_mem _ he))]
    rfl

theorem dropWhile_trivia {tv es : List Elem} (h : ∀ e ∈ tv, IsTriviaElem e) :
    (tv ++ es).dropWhile (fun c => !c.isNode) = es.dropWhile (fun c => !c.isNode) := by
  induction tv with
  | nil => rfl
  | cons e tv ih =>
    rw [List.cons_append, List.dropWhile_cons_of_pos (by simp [trivia_isNode (h e (by simp))]), ih (fun e he => h e (List.mem_cons_of_mem _ he))]

theorem find_trivia {tv es : List Elem} (h : ∀ e ∈ tv, IsTriviaElem e) :
    (tv ++ es).find? (fun c => !c.isNode && !c.kind.isTrivia) = es.find? (fun c => !c.isNode && !c.kind.isTrivia) := by
  induction tv with
  | nil => rfl
  | cons e tv ih =>
    rw [List.cons_append, List.find?_cons_of_neg (by simp [trivia_kind (h e (by simp))]), ih (fun e he => h e (List.mem_cons_of_mem _ he))]

theorem filter_trivia {tv es : List Elem} (h : ∀ e ∈ tv, IsTriviaElem e) : (tv ++ es).filter (·.isNode) = es.filter (·.isNode) := by
  induction tv with
  | nil => rfl
  | cons e tv ih =>
    rw [List.cons_append, List.filter_cons_of_neg (by simp [trivia_isNode (h e (by simp))]), ih (fun e he => h e (List.mem_cons_of_mem _ he))]

theorem token_isNode {e : Elem} {k : SyntaxKind} {t : Text} (h : e.tree = .token k t) : e.isNode = false := by simp [Elem.isNode, h, Tree.isNode]
theorem node_isNode {e : Elem} {k : SyntaxKind} {cs : List Tree} (h : e.tree = .node k cs) : e.isNode = true := by simp [Elem.isNode, h, Tree.isNode]
theorem token_kind {e : Elem} {k : SyntaxKind} {t : Text} (h : e.tree = .token k t) : e.kind = k := by simp [Elem.kind, h, Tree.kind]
theorem node_kind {e : Elem} {k : SyntaxKind} {cs : List Tree} (h : e.tree = .node k cs) : e.kind = k := by simp [Elem.kind, h, Tree.kind]

/-- The two kinds of strings with their inner kinds. -/
def StringKinds (k ki : SyntaxKind) : Prop :=
  (k = .TWIG_LITERAL_STRING ∧ ki = .TWIG_LITERAL_STRING_INNER) ∨ (k = .HTML_STRING ∧ ki = .HTML_STRING_INNER)

theorem innerPart_child {e : Elem} {k ki : SyntaxKind} {cs : List Tree} (hk : StringKinds k ki) (he : e.tree = .node k cs) :
    innerPart e = e.child ki := by
  unfold innerPart
  rw [node_kind he]
  rcases hk with ⟨rfl, rfl⟩ | ⟨rfl, rfl⟩
  · exact if_neg (by decide)
  · exact if_pos rfl

theorem inner_ne {k ki : SyntaxKind} (hk : StringKinds k ki) : ki ≠ .TWIG_LITERAL_STRING ∧ ki ≠ .HTML_STRING := by
  rcases hk with ⟨_, rfl⟩ | ⟨_, rfl⟩ <;> exact ⟨by decide, by decide⟩

section
variable {e eL eI eR : Elem} {k ki kl kr : SyntaxKind} {tA tB tC tD : List Elem} {cs ds : List Tree} {l r : Text}

/-- The parts of a string with quotes. -/
theorem quoted_parts (hc : e.childrenWithTokens = tA ++ eL :: (tB ++ eI :: (tC ++ eR :: tD)))
    (hA : ∀ e ∈ tA, IsTriviaElem e) (hB : ∀ e ∈ tB, IsTriviaElem e) (hC : ∀ e ∈ tC, IsTriviaElem e)
    (hL : eL.tree = .token kl l) (hkl : kl.isTrivia = false) (hI : eI.tree = .node ki ds) (hR : eR.tree = .token kr r) (hkr : kr.isTrivia = false) :
    e.child ki = some eI ∧ e.openingQuote = some eL ∧ e.closingQuote = some eR := by
  refine ⟨?_, ?_, ?_⟩
  · unfold Elem.child Elem.children
    rw [hc, filter_trivia hA, List.filter_cons_of_neg (by simp [token_isNode hL]), filter_trivia hB,
      List.filter_cons_of_pos (node_isNode hI), List.find?_cons_of_pos (by simp [node_kind hI])]
  · unfold Elem.openingQuote
    rw [hc, takeWhile_trivia hA, find_trivia hA, List.takeWhile_cons_of_pos (by simp [token_isNode hL]),
      List.find?_cons_of_pos (by simp [token_isNode hL, token_kind hL, hkl])]
  · unfold Elem.closingQuote
    rw [hc, dropWhile_trivia hA, List.dropWhile_cons_of_pos (by simp [token_isNode hL]), dropWhile_trivia hB,
      List.dropWhile_cons_of_neg (by simp [node_isNode hI]), List.find?_cons_of_neg (by simp [node_isNode hI]), find_trivia hC,
      List.find?_cons_of_pos (by simp [token_isNode hR, token_kind hR, hkr])]

/-- A string with quotes. -/
theorem own_quoted (hd : DecOk dec) (hk : StringKinds k ki) (he : e.tree = .node k cs)
    (hc : e.childrenWithTokens = tA ++ eL :: (tB ++ eI :: (tC ++ eR :: tD)))
    (hA : ∀ e ∈ tA, IsTriviaElem e) (hB : ∀ e ∈ tB, IsTriviaElem e) (hC : ∀ e ∈ tC, IsTriviaElem e)
    (hL : eL.tree = .token kl l) (hkl : kl.isTrivia = false) (hI : eI.tree = .node ki ds) (hR : eR.tree = .token kr r) (hkr : kr.isTrivia = false) :
    e.child ki = some eI ∧
    ((newQuote dec e = none ∧ own dec e = []) ∨
      ∃ q, newQuote dec e = some q ∧ dec e = some q ∧ QuoteChar q ∧ q ∉ eI.text ∧ own dec e = [⟨eL.range, [q]⟩, ⟨eR.range, [q]⟩]) := by
  obtain ⟨hi, ho, hcl⟩ := quoted_parts hc hA hB hC hL hkl hI hR hkr
  refine ⟨hi, ?_⟩
  unfold own newQuote
  cases hq : dec e with
  | none => exact .inl ⟨rfl, rfl⟩
  | some q =>
    dsimp only
    unfold quoteSugs
    rw [innerPart_child hk he, hi, ho, hcl]
    dsimp only
    by_cases hqi : q ∈ eI.text
    · exact .inl ⟨if_pos (by simpa using hqi), if_pos (by simpa using hqi)⟩
    · exact .inr ⟨q, if_neg (by simpa using hqi), rfl, hd.quote hq, hqi, if_neg (by simpa using hqi)⟩

/-- The parts of a string without quotes. -/
theorem unquoted_parts (hc : e.childrenWithTokens = tA ++ eI :: tD)
    (hA : ∀ e ∈ tA, IsTriviaElem e) (hD : ∀ e ∈ tD, IsTriviaElem e) (hI : eI.tree = .node ki ds) :
    e.child ki = some eI ∧ e.openingQuote = none ∧ e.closingQuote = none := by
  refine ⟨?_, ?_, ?_⟩
  · unfold Elem.child Elem.children
    rw [hc, filter_trivia hA, List.filter_cons_of_pos (node_isNode hI), List.find?_cons_of_pos (by simp [node_kind hI])]
  · unfold Elem.openingQuote
    rw [hc, takeWhile_trivia hA, find_trivia hA, List.takeWhile_cons_of_neg (by simp [node_isNode hI])]
    rfl
  · unfold Elem.closingQuote
    rw [hc, dropWhile_trivia hA, List.dropWhile_cons_of_neg (by simp [node_isNode hI]), List.find?_cons_of_neg (by simp [node_isNode hI]),
      ← List.append_nil tD, find_trivia hD]
    rfl

/-- A string without quotes. -/
theorem own_unquoted (hd : DecOk dec) (hk : StringKinds k ki) (he : e.tree = .node k cs) (hc : e.childrenWithTokens = tA ++ eI :: tD)
    (hA : ∀ e ∈ tA, IsTriviaElem e) (hD : ∀ e ∈ tD, IsTriviaElem e) (hI : eI.tree = .node ki ds) :
    (newQuote dec e = none ∧ own dec e = []) ∨
      ∃ q, newQuote dec e = some q ∧ QuoteChar q ∧ own dec e = [⟨emptyAt eI.range.start, [q]⟩, ⟨emptyAt eI.range.stop, [q]⟩] := by
  obtain ⟨hi, ho, hcl⟩ := unquoted_parts hc hA hD hI
  unfold own newQuote
  cases hq : dec e with
  | none => exact .inl ⟨rfl, rfl⟩
  | some q =>
    dsimp only
    unfold quoteSugs
    rw [innerPart_child hk he, hi, ho, hcl]
    dsimp only
    by_cases hqi : q ∈ eI.text
    · exact .inl ⟨if_pos (by simpa using hqi), if_pos (by simpa using hqi)⟩
    · exact .inr ⟨q, if_neg (by simpa using hqi), hd.quote hq, if_neg (by simpa using hqi)⟩

/-- Inside a twig string are only interpolations. -/
theorem parts_leaves {is : List Tree} (h : e.childrenOf .TWIG_LITERAL_STRING_INTERPOLATION = []) (hs : elemStrip e.childrenWithTokens = is)
    (hp : ∀ x ∈ is, IsStringPart x) : ∀ x ∈ is, IsLeaf x := by
  intro x hx
  have hpx := hp x hx
  cases x with
  | token => trivial
  | node k ds =>
    have hk : k = .TWIG_LITERAL_STRING_INTERPOLATION := hpx
    rw [← hs] at hx
    obtain ⟨c, hc, hxc⟩ := List.mem_flatMap.1 hx
    rcases strip_cases c.tree with ⟨h0, _⟩ | ⟨y, hy⟩
    · rw [h0] at hxc; cases hxc
    · rw [hy] at hxc
      cases List.mem_singleton.1 hxc
      obtain ⟨ds', h1, _⟩ := strip_node hy
      have : c ∈ e.childrenOf .TWIG_LITERAL_STRING_INTERPOLATION :=
        List.mem_filter.2 ⟨List.mem_filter.2 ⟨hc, node_isNode h1⟩, by simp [node_kind h1, hk]⟩
      rw [h] at this; cases this

end

/-! ## What is to be shown -/

/-- The cells for elements that stand for `T`, with the solid tokens `u` and the trees `xs`. -/
structure Out (dec : Elem → Option Char) (a : Nat) (es : List Elem) (T u : List Token) (xs : List Tree) (cs : List Cell)
    (g : List (Token × List Cell)) : Prop extends Cut a T cs g where
  seen : T.filter solid = u
  turns : ∀ C : Change, (∀ p ∈ g, C.Matches p) → Turns C u xs (turnElems dec es)
  sugs : (cellSugs a cs).Perm (elemSugs dec es)

variable {a e' : Nat} {e : Elem} {es fs tv : List Elem} {T R u v w : List Token} {t l r : Token} {x : Tree} {xs is : List Tree}
  {cs ds : List Cell} {g g' : List (Token × List Cell)}

theorem plain_of {C : Change} (h : C.Matches (t, [.keep t])) : C.Plain t := by
  obtain ⟨f, h1, h2⟩ := h
  have := h1 (.keep t) (by simp)
  unfold Change.Plain
  rw [h2]
  show [f _] = _
  rw [show f (.keep t) = C.moved t from this]

theorem Out.trivia (hd : DecOk dec) {T0 : List Token} (ht : ∀ e ∈ tv, IsTriviaElem e) (h1 : ∀ t ∈ T0, t.kind.isTrivia = true)
    (h2 : Contiguous a T0 (a + width T0)) (h3 : ∀ t ∈ T0, t.text ≠ []) (h : Out dec (a + width T0) es T u xs cs g) :
    Out dec a (tv ++ es) (T0 ++ T) u xs (keeps T0 ++ cs) g where
  toCut := (Cut.trivia h2 h3 h1).append h.toCut
  seen := by rw [List.filter_append, solid_none h1, h.seen]; rfl
  turns := by rw [turn_trivia ht]; exact h.turns
  sugs := by
    rw [sugs_trivia hd ht, cellSugs_append, cellSugs_keeps, old_keeps]
    exact h.sugs

theorem Out.tok (hd : DecOk dec) {k : SyntaxKind} (he : e.tree = .token k t.text) (hk : k.isTrivia = false) (h1 : t.range.start = a)
    (h2 : t.range.stop = a + byteLen t.text) (h3 : t.text ≠ []) (h4 : solid t = true) (h : Out dec (a + byteLen t.text) es T u xs cs g) :
    Out dec a (e :: es) (t :: T) (t :: u) (.token k t.text :: xs) (.keep t :: cs) ((t, [.keep t]) :: g) where
  toCut := (Cut.keep h1 h2 h3 h4).append (T := [t]) (by
    rw [show width [t] = byteLen t.text by simp [width_cons, width_nil]]
    exact h.toCut)
  seen := by rw [List.filter_cons_of_pos h4, h.seen]
  turns := fun C hm => by
    rw [turnElems_cons, turn_elem_token he hk]
    exact .tok (plain_of (hm _ (by simp))) h3 (h.turns C (fun p hp => hm p (List.mem_cons_of_mem _ hp)))
  sugs := by
    rw [sugs_token hd he]
    exact h.sugs

theorem Out.two (hd : DecOk dec) {k : SyntaxKind} {c : Token} (he : e.tree = .token k (c.text ++ t.text)) (hk : k.isTrivia = false) (h1 : Contiguous a [c, t] (a + width [c, t]))
    (h2 : c.text ≠ []) (h3 : t.text ≠ []) (h4 : solid c = true) (h5 : solid t = true) (h : Out dec (a + width [c, t]) es T u xs cs g) :
    Out dec a (e :: es) (c :: t :: T) (c :: t :: u) (.token k (c.text ++ t.text) :: xs) (.keep c :: .keep t :: cs)
      ((c, [.keep c]) :: (t, [.keep t]) :: g) := by
  have hw : width [c, t] = byteLen c.text + byteLen t.text := by simp [width_cons, width_nil]
  cases h1 with
  | cons p1 p2 p3 =>
  cases p3 with
  | cons p4 p5 _ =>
  have c1 := Cut.keep p1 p2 h2 h4
  have c2 : Cut (a + width [c]) [t] _ _ := Cut.keep (by rw [p4, p2]; simp [width_cons, width_nil]) (by rw [p5, p2]; simp [width_cons, width_nil]) h3 h5
  have c3 := (c1.append c2).append (U := T) (by simpa using h.toCut)
  refine ⟨by simpa using c3, ?_, fun C hm => ?_, ?_⟩
  · rw [List.filter_cons_of_pos h4, List.filter_cons_of_pos h5, h.seen]
  · rw [turnElems_cons, turn_elem_token he hk]
    exact .two (plain_of (hm _ (by simp))) (plain_of (hm _ (by simp))) h2 h3
      (h.turns C (fun p hp => hm p (by simp [hp])))
  · rw [sugs_token hd he]
    have : cellSugs a (Cell.keep c :: .keep t :: cs) = cellSugs (a + width [c, t]) cs := by
      rw [hw, ← Nat.add_assoc]; rfl
    rw [this]
    exact h.sugs

theorem Out.node (hd : DecOk dec) {k : SyntaxKind} {ts : List Tree} {ys : List Tree} (he : e.tree = .node k ts) (hts : stripAll ts = ys) (h1 : k ≠ .TWIG_LITERAL_STRING)
    (h2 : k ≠ .HTML_STRING) (h : Out dec a (e.childrenWithTokens ++ es) T u (ys ++ xs) cs g) :
    Out dec a (e :: es) T u (.node k ys :: xs) cs g where
  toCut := h.toCut
  seen := h.seen
  turns := fun C hm => by
    rw [turnElems_cons, turn_elem_node he, newQuote_other hd he h1 h2]
    have := h.turns C hm
    rw [turnElems_append] at this
    exact .node h1 h2 (by show ys.length = (turnElems dec e.childrenWithTokens).length; rw [turnElems_length, kids_strip he, hts]) this
  sugs := by rw [sugs_node hd he h1 h2]; exact h.sugs

/-! ## Strings with quotes -/

theorem Cut.cell {c : Cell} (h : Cut a [t] [c] [(t, [c])]) (h' : Cut (a + byteLen t.text) T ds g') :
    Cut a (t :: T) (c :: ds) ((t, [c]) :: g') :=
  h.append (T := [t]) (by
    rw [show width [t] = byteLen t.text by simp [width_cons, width_nil]]
    exact h')

theorem Cut.blank {T0 : List Token} (h1 : ∀ t ∈ T0, t.kind.isTrivia = true) (h2 : Contiguous a T0 (a + width T0)) (h3 : ∀ t ∈ T0, t.text ≠ [])
    (h : Cut (a + width T0) T cs g) : Cut a (T0 ++ T) (keeps T0 ++ cs) g := (Cut.trivia h2 h3 h1).append h

theorem cellSugs_blank (a : Nat) (T0 : List Token) (cs : List Cell) : cellSugs a (keeps T0 ++ cs) = cellSugs (a + width T0) cs := by
  rw [cellSugs_append, cellSugs_keeps, old_keeps]; rfl

theorem cellSugs_keep (a : Nat) (t : Token) (cs : List Cell) : cellSugs a (.keep t :: cs) = cellSugs (a + byteLen t.text) cs := rfl

theorem cellSugs_swap (a : Nat) (t : Token) (q : Char) (cs : List Cell) :
    cellSugs a (.swap t q :: cs) = ⟨⟨a, a + byteLen t.text⟩, [q]⟩ :: cellSugs (a + byteLen t.text) cs := rfl

theorem cellSugs_ins (a p : Nat) (q : Char) (cs : List Cell) : cellSugs a (.ins p q :: cs) = ⟨⟨a, a⟩, [q]⟩ :: cellSugs a cs := rfl

theorem kind_quote (h : t.kind ∈ quotes) : ∃ q, QuoteChar q ∧ t.kind = quoteKind q := by
  simp only [quotes, List.mem_cons, List.not_mem_nil, or_false] at h
  rcases h with h | h
  · exact ⟨'"', .inl rfl, by rw [h]; decide⟩
  · exact ⟨'\'', .inr rfl, by rw [h]; decide⟩

theorem quote_len (h : ∀ q, QuoteChar q → t.kind = quoteKind q → t.text = [q]) (ht : t.kind ∈ quotes) : byteLen t.text = 1 := by
  obtain ⟨q, h1, h2⟩ := kind_quote ht
  rw [h q h1 h2]
  rcases h1 with rfl | rfl <;> decide

theorem quotes_solid {k : SyntaxKind} (h : k ∈ quotes) : k.isTrivia = false := by
  simp only [quotes, List.mem_cons, List.not_mem_nil, or_false] at h
  rcases h with rfl | rfl <;> decide

theorem swapped_of {C : Change} {q : Char} (h : C.Matches (t, [.swap t q])) : ∃ t', C.image t = [t'] ∧ t'.kind = quoteKind q ∧ t'.tree = quoteLeaf q := by
  obtain ⟨f, h1, h2⟩ := h
  obtain ⟨h3, h4⟩ : _ ∧ _ := h1 (.swap t q) (by simp)
  exact ⟨f (.swap t q), h2, h3, by rw [Token.tree, h3, h4]; rfl⟩

/-- All that is to be shown for a list of tokens. -/
abbrev Walks (dec : Elem → Option Char) (u : List Token) (xs : List Tree) : Prop :=
  ∀ {a : Nat} {es : List Elem} {T R w : List Token} {e' : Nat}, Stretch a es T R u w e' → RowFine es → elemStrip es = xs → ∃ cs g, Out dec a es T u xs cs g

theorem quoted (hd : DecOk dec) {k ki : SyntaxKind} (hk : StringKinds k ki) {ts : List Tree} (he : e.tree = .node k ts)
    (hs : stripAll ts = [.token l.kind l.text, .node ki is, .token r.kind r.text]) (hl : l.kind ∈ quotes) (hr : r.kind ∈ quotes)
    (hparts : k = .TWIG_LITERAL_STRING → ∀ x ∈ is, IsStringPart x) (ihv : Walks dec v is) (ihu : Walks dec u xs)
    (h : Stretch a (e :: es) T R (l :: (v ++ r :: u)) w e') (hrow : RowFine (e :: es)) (hes : elemStrip es = xs) :
    ∃ cs g, Cut a T cs g ∧ T.filter solid = l :: (v ++ r :: u) ∧ l.text ≠ [] ∧ r.text ≠ [] ∧
      (∀ C : Change, (∀ p ∈ g, C.Matches p) → ∃ l' r' js, C.Quotes l v r is (decide (k = .TWIG_LITERAL_STRING)) ∧ C.image l = [l'] ∧ C.image r = [r'] ∧
        l'.kind ∈ quotes ∧ Turns C v is js ∧ Turns C u xs (turnElems dec es) ∧ turnElems dec [e] = [.node k [l'.tree, .node ki js, r'.tree]]) ∧
      (cellSugs a cs).Perm (elemSugs dec (e :: es)) := by
  have hks := kids_strip he
  rw [hs] at hks
  obtain ⟨tA, eL, f1, hc1, hA, hL, hf1⟩ := strip_cons hks
  obtain ⟨tB, eI, f2, rfl, hB, hI, hf2⟩ := strip_cons hf1
  obtain ⟨tC, eR, tD, rfl, hC, hR, hf3⟩ := strip_cons hf2
  have hD := strip_nil hf3
  obtain ⟨hL, hkl⟩ := strip_token hL
  obtain ⟨ti, hI, hIs⟩ := strip_node hI
  obtain ⟨hR, hkr⟩ := strip_token hR
  have s0 := h.kids he
  rw [hc1] at s0
  simp only [List.append_assoc, List.cons_append] at s0
  obtain ⟨TA, T1, rfl, a1, _, a2, a3, s1⟩ := s0.trivia hA
  obtain ⟨T2, rfl, l0, l1, l2, l3, l4, s2⟩ := s1.token hL hkl
  obtain ⟨TB, T3, rfl, b1, _, b2, b3, s3⟩ := s2.trivia hB
  have s4 := s3.kids hI
  obtain ⟨TI, T4, rfl, s5, s5'⟩ := s4.split
  have rI : RowFine eI.childrenWithTokens := by
    have := hrow.inside he
    rw [hc1] at this
    exact (this.right.rest.right).inside hI
  have hIs' : elemStrip eI.childrenWithTokens = is := by rw [kids_strip hI, hIs]
  obtain ⟨ci, gi, oi⟩ := ihv s5 rI hIs'
  have s6 := s5' oi.seen
  obtain ⟨TC, T5, rfl, c1, _, c2, c3, s7⟩ := s6.trivia hC
  obtain ⟨T6, rfl, r0, r1, r2, r3, r4, s8⟩ := s7.token hR hkr
  obtain ⟨TD, T7, rfl, d1, _, d2, d3, s9⟩ := s8.trivia hD
  obtain ⟨cu, gu, ou⟩ := ihu s9 hrow.rest hes
  have cut : ∀ {cl cr : Cell}, Cut _ [l] [cl] [(l, [cl])] → Cut _ [r] [cr] [(r, [cr])] → Cut a _
      (keeps TA ++ cl :: (keeps TB ++ (ci ++ (keeps TC ++ cr :: (keeps TD ++ cu))))) ((l, [cl]) :: (gi ++ (r, [cr]) :: gu)) :=
    fun hcl hcr => Cut.blank a1 a2 a3 (Cut.cell hcl (Cut.blank b1 b2 b3 (oi.toCut.append
      (Cut.blank c1 c2 c3 (Cut.cell hcr (Cut.blank d1 d2 d3 ou.toCut))))))
  have seen : ∀ {cl cr : Cell} {T : List Token} {cs}, Cut a T cs ((l, [cl]) :: (gi ++ (r, [cr]) :: gu)) →
      T.filter solid = l :: (v ++ r :: u) := by
    intro cl cr T cs hcut
    rw [← hcut.keys, List.map_cons, List.map_append, List.map_cons, oi.keys, oi.seen, ou.keys, ou.seen]
  have hsugs : elemSugs dec (e :: es) = own dec e ++ (elemSugs dec eI.childrenWithTokens ++ elemSugs dec es) := by
    rw [elemSugs_cons, hc1]
    simp only [List.append_assoc, List.cons_append]
    rw [sugs_trivia hd hA, sugs_token hd hL, sugs_trivia hd hB, sugs_node hd hI (inner_ne hk).1 (inner_ne hk).2, elemSugs_append,
      sugs_trivia hd hC, sugs_token hd hR, sugs_trivia hd hD]
  obtain ⟨hchild, hown⟩ := own_quoted hd hk he hc1 hA hB hC hL hkl hI hR hkr
  have hkids : turnElems dec e.childrenWithTokens = [l.tree, .node ki (turnElems dec eI.childrenWithTokens), r.tree] := by
    rw [hc1, turn_trivia hA, turnElems_cons, turn_elem_token hL hkl, turn_trivia hB, turnElems_cons, turn_elem_node hI,
      newQuote_other hd hI (inner_ne hk).1 (inner_ne hk).2, turn_trivia hC, turnElems_cons, turn_elem_token hR hkr, ← List.append_nil tD, turn_trivia hD]
    rfl
  have hturn := turn_elem_node (dec := dec) he
  rw [hkids] at hturn
  rcases hown with ⟨hnew, hown⟩ | ⟨q, hnew, hq, hqc, hqi, hown⟩
  · have hcut := cut (Cut.keep l1 l2 l3 l4) (Cut.keep r1 r2 r3 r4)
    refine ⟨_, _, hcut, seen hcut, l3, r3, fun C hm => ⟨C.moved l, C.moved r, _, .inl ⟨plain_of (hm _ (by simp)), plain_of (hm _ (by simp))⟩,
      plain_of (hm _ (by simp)), plain_of (hm _ (by simp)), hl,
      oi.turns C (fun p hp => hm p (by simp [hp])), ou.turns C (fun p hp => hm p (by simp [hp])), by rw [hturn, hnew]; rfl⟩, ?_⟩
    rw [hsugs, hown, List.nil_append, cellSugs_blank, cellSugs_keep, cellSugs_blank, cellSugs_append, oi.old, cellSugs_blank, cellSugs_keep, cellSugs_blank]
    exact List.Perm.append oi.sugs ou.sugs
  · have hcut := cut (Cut.swap (q := q) l1 l2 (quote_len (s1.quote l (by simp)) hl) l4 hl hqc) (Cut.swap (q := q) r1 r2 (quote_len (s7.quote r (by simp)) hr) r4 hr hqc)
    refine ⟨_, _, hcut, seen hcut, l3, r3, fun C hm => ?_, ?_⟩
    · obtain ⟨l', hl1, hl2, hl3⟩ := swapped_of (hm (l, [.swap l q]) (by simp))
      obtain ⟨r', hr1, hr2, hr3⟩ := swapped_of (hm (r, [.swap r q]) (by simp))
      refine ⟨l', r', _, .inr ?_, hl1, hr1, by rw [hl2]; exact quoteKind_quotes hqc,
        oi.turns C (fun p hp => hm p (by simp [hp])), ou.turns C (fun p hp => hm p (by simp [hp])), ?_⟩
      rotate_left
      · rw [hturn, hnew, hl3, hr3]
        unfold requote
        dsimp only
        rw [List.filter_cons_of_neg (by simp [quote_tree hl]), List.filter_cons_of_pos (by rfl), List.filter_cons_of_neg (by simp [quote_tree hr])]
        rfl
      refine ⟨l', r', hl1, hr1, by rw [hl2]; exact quoteKind_quotes hqc, by rw [hl2, hr2], ?_, ?_⟩
      · intro t ht hkt
        rw [hl2] at hkt
        rw [← oi.seen] at ht
        have htI := (List.mem_filter.1 ht).1
        have htext := s5.quote t (List.mem_append_left _ htI) q hqc hkt
        apply hqi
        have h1 := s5.covers.text
        rw [← elemText_leaves, kids_text hI] at h1
        rw [h1]
        exact List.mem_flatten.2 ⟨t.text, List.mem_map.2 ⟨t, htI, rfl⟩, by rw [htext]; simp⟩
      · intro hkt hkq
        have hkt := of_decide_eq_true hkt
        subst hkt
        rw [hl2] at hkq
        have hki : ki = .TWIG_LITERAL_STRING_INNER := by
          rcases hk with ⟨_, h⟩ | ⟨h, _⟩
          · exact h
          · cases h
        subst hki
        have hq' : q = '\'' := by
          rcases hqc with rfl | rfl
          · exact absurd hkq (by decide)
          · rfl
        exact parts_leaves (hd.parts hq hq' (node_kind he) hchild) hIs' (hparts rfl)
    · rw [hsugs, hown, cellSugs_blank, cellSugs_swap, cellSugs_blank, cellSugs_append, oi.old, cellSugs_blank, cellSugs_swap, cellSugs_blank]
      have hLr : eL.range = ⟨a + width TA, a + width TA + byteLen l.text⟩ := by
        unfold Elem.range; rw [hL, l0]; rfl
      rw [hLr]
      refine List.Perm.cons _ (List.perm_middle.trans ?_)
      have hRr : eR.range = ⟨eR.start, eR.start + byteLen r.text⟩ := by
        unfold Elem.range; rw [hR]; rfl
      rw [hRr, r0]
      exact List.Perm.cons _ (show List.Perm _ (elemSugs dec eI.childrenWithTokens ++ elemSugs dec es) from List.Perm.append oi.sugs ou.sugs)

/-! ## Strings without quotes -/

theorem enclosed {X B M D U : List Token} {cm : List Cell} {gm : List (Token × List Cell)} {p p' : Nat} {q : Char} (hk : t.kind = T!"=")
    (h1 : t.range.start = a) (h2 : t.range.stop = a + byteLen t.text) (h3 : t.text ≠ []) (hq : QuoteChar q)
    (hX : Contiguous (a + byteLen t.text) X p) (hX' : ∀ t ∈ X, t.text ≠ []) (hXt : ∀ t ∈ X, t.kind.isTrivia = true) (hp : p = a + byteLen t.text + width X)
    (hB : Contiguous p B (p + width B)) (hB' : ∀ t ∈ B, t.text ≠ []) (hBt : ∀ t ∈ B, t.kind.isTrivia = true)
    (hM : oldToks cm = M) (hMs : ∀ ds, Sits true ds → Sits false (cm ++ ds)) (hMl : Lies (p + width B) cm)
    (hD : Contiguous (p + width B + width M) D p') (hD' : ∀ t ∈ D, t.text ≠ []) (hDt : ∀ t ∈ D, t.kind.isTrivia = true)
    (hp' : p' = p + width B + width M + width D) (hX0 : X = []) (hD0 : D = [])
    (hsig : gm.flatMap (·.2) = .ins p q :: (cm.filter Cell.sig ++ [.ins p' q])) (hkeys : gm.map (·.1) = M.filter solid) (hok : ∀ x ∈ gm, GroupOk x)
    (h : Cut p' U ds g) :
    Cut a (t :: (X ++ (B ++ (M ++ (D ++ U))))) (.keep t :: (keeps X ++ .ins p q :: (keeps B ++ (cm ++ (keeps D ++ .ins p' q :: ds)))))
      ((t, [.keep t]) :: (gm ++ g)) where
  old := by
    show t :: oldToks (keeps X ++ Cell.ins p q :: _) = _
    rw [old_append, old_keeps]
    show t :: (X ++ oldToks (keeps B ++ _)) = _
    rw [old_append, old_keeps, old_append, hM, old_append, old_keeps]
    show t :: (X ++ (B ++ (M ++ (D ++ oldToks ds)))) = _
    rw [h.old]
  good := by
    show Sits (decide (t.kind ∈ insertable)) _
    rw [decide_eq_true (by rw [hk]; decide)]
    subst hX0 hD0
    exact ⟨rfl, hq, sits_keeps (hMs _ ⟨rfl, hq, h.good⟩)⟩
  places := by
    refine ⟨h1, h2, h3, ?_⟩
    rw [h2]
    refine lies_append (lies_keeps hX hX') ?_
    rw [old_keeps]
    refine ⟨hp, ?_⟩
    rw [← hp]
    refine lies_append (lies_keeps hB hB') ?_
    rw [old_keeps]
    refine lies_append hMl ?_
    rw [hM]
    refine lies_append (lies_keeps hD hD') ?_
    rw [old_keeps]
    refine ⟨hp', ?_⟩
    rw [← hp']
    exact h.places
  sigs := by
    have hs : ∀ {x}, Cell.sig (.ins x q) = true := by simp [Cell.sig, Cell.new, quoteKind_sig]
    rw [List.filter_cons_of_pos (by simp [Cell.sig, Cell.new, hk]; decide), sigs_append, sigs_trivia hXt, List.nil_append, List.filter_cons_of_pos hs,
      sigs_append, sigs_trivia hBt, List.nil_append, sigs_append, sigs_append, sigs_trivia hDt, List.nil_append, List.filter_cons_of_pos hs, h.sigs,
      List.flatMap_cons, List.flatMap_append, hsig]
    simp
  keys := by
    rw [List.filter_cons_of_pos (by rw [solid, hk]; decide)]
    simp only [List.filter_append, solid_none hXt, solid_none hBt, solid_none hDt, List.nil_append, List.map_cons, List.map_append, hkeys, h.keys]
  groups := by
    intro x hx
    rcases List.mem_cons.1 hx with rfl | hx
    · exact .keep
    · exact (List.mem_append.1 hx).elim (hok x) (h.groups x)

theorem byteLen_empty {t : Text} (h : byteLen t = 0) : t = [] := by
  cases t with
  | nil => rfl
  | cons c t =>
    have := c.utf8Size_pos
    simp only [byteLen] at h
    omega

theorem width_none (h : width T = 0) (ht : ∀ t ∈ T, t.text ≠ []) : T = [] := by
  cases T with
  | nil => rfl
  | cons t T =>
    rw [width_cons] at h
    exact absurd (byteLen_empty (by omega)) (ht t (by simp))

theorem Stretch.blank (h : Stretch a [] T R u w e') : T = [] := by
  cases h.covers
  rfl

theorem Stretch.done (h : Stretch a tv T R u w e') (ht : ∀ e ∈ tv, IsTriviaElem e) :
    (∀ t ∈ T, t.kind.isTrivia = true) ∧ Contiguous a T (a + width T) ∧ (∀ t ∈ T, t.text ≠ []) := by
  rw [← List.append_nil tv] at h
  obtain ⟨T0, T1, rfl, h1, _, h3, h4, h5⟩ := h.trivia ht
  cases h5.covers
  rw [List.append_nil]
  exact ⟨h1, h3, h4⟩

theorem Contiguous.join {T U : List Token} : ∀ {a b c}, Contiguous a T b → Contiguous b U c → Contiguous a (T ++ U) c := by
  induction T with
  | nil => intro a b c h h'; cases h; exact h'
  | cons t T ih =>
    intro a b c h h'
    cases h with
    | cons h1 h2 h3 => exact .cons h1 h2 (ih h3 h')

theorem forall_append {α : Type} {p : α → Prop} {l m : List α} (h : ∀ x ∈ l, p x) (h' : ∀ x ∈ m, p x) : ∀ x ∈ l ++ m, p x :=
  fun x hx => (List.mem_append.1 hx).elim (h x) (h' x)

theorem word_of {C : Change} {p p' : Nat} {q : Char} (hq : QuoteChar q) (h : C.Matches (t, [.ins p q, .keep t, .ins p' q])) :
    ∃ a b, a.kind ∈ quotes ∧ b.kind = a.kind ∧ C.image t = [a, C.moved t, b] ∧ a.tree = quoteLeaf q ∧ b.tree = quoteLeaf q := by
  obtain ⟨f, h1, h2⟩ := h
  obtain ⟨k1, k1'⟩ : (f (.ins p q)).kind = quoteKind q ∧ (f (.ins p q)).text = [q] := h1 (.ins p q) (by simp)
  have k2 : f (.keep t) = C.moved t := h1 (.keep t) (by simp)
  obtain ⟨k3, k3'⟩ : (f (.ins p' q)).kind = quoteKind q ∧ (f (.ins p' q)).text = [q] := h1 (.ins p' q) (by simp)
  refine ⟨f (.ins p q), f (.ins p' q), by rw [k1]; exact quoteKind_quotes hq, by rw [k1, k3], ?_, by rw [Token.tree, k1, k1']; rfl,
    by rw [Token.tree, k3, k3']; rfl⟩
  rw [h2, ← k2]
  rfl

theorem var_of {C : Change} {o c : Token} {p p' : Nat} {q : Char} (hq : QuoteChar q) (h : C.Matches (o, [.ins p q, .keep o]))
    (h' : C.Matches (c, [.keep c, .ins p' q])) :
    ∃ a b, a.kind ∈ quotes ∧ b.kind = a.kind ∧ C.image o = [a, C.moved o] ∧ C.image c = [C.moved c, b] ∧ a.tree = quoteLeaf q ∧
      b.tree = quoteLeaf q := by
  obtain ⟨f, h1, h2⟩ := h
  obtain ⟨f', h1', h2'⟩ := h'
  obtain ⟨k1, k1'⟩ : (f (.ins p q)).kind = quoteKind q ∧ (f (.ins p q)).text = [q] := h1 (.ins p q) (by simp)
  have k2 : f (.keep o) = C.moved o := h1 (.keep o) (by simp)
  obtain ⟨k3, k3'⟩ : (f' (.ins p' q)).kind = quoteKind q ∧ (f' (.ins p' q)).text = [q] := h1' (.ins p' q) (by simp)
  have k4 : f' (.keep c) = C.moved c := h1' (.keep c) (by simp)
  refine ⟨f (.ins p q), f' (.ins p' q), by rw [k1]; exact quoteKind_quotes hq, by rw [k1, k3], ?_, ?_, by rw [Token.tree, k1, k1']; rfl,
    by rw [Token.tree, k3, k3']; rfl⟩
  · rw [h2, ← k2]; rfl
  · rw [h2', ← k4]; rfl

/-- The inside of a string without quotes: trivia `B`, then `M`, then trivia `D`. The cells are `cm`; the groups are `gk` without and `gq` with
new quotes. -/
structure Mid (dec : Elem → Option Char) (b : Nat) (es : List Elem) (TI m : List Token) (ms : List Tree) (B M D : List Token) (cm : List Cell)
    (gk : List (Token × List Cell)) (gq : Nat → Nat → Char → List (Token × List Cell)) : Prop where
  eq : TI = B ++ (M ++ D)
  cont : Contiguous b TI (b + width TI)
  full : ∀ t ∈ TI, t.text ≠ []
  front : ∀ t ∈ B, t.kind.isTrivia = true
  back : ∀ t ∈ D, t.kind.isTrivia = true
  none : D = []
  cut : Cut (b + width B) M cm gk
  sits : ∀ ds, Sits true ds → Sits false (cm ++ ds)
  seen : M.filter solid = m
  sigs : ∀ p p' q, (gq p p' q).flatMap (·.2) = .ins p q :: (cm.filter Cell.sig ++ [.ins p' q])
  keys : ∀ p p' q, (gq p p' q).map (·.1) = m
  groups : ∀ p p' q, QuoteChar q → ∀ x ∈ gq p p' q, GroupOk x
  sugs : (cellSugs (b + width B) cm).Perm (elemSugs dec es)
  turns : ∀ C : Change, (∀ x ∈ gk, C.Matches x) → ∀ {u xs ys}, Turns C u xs ys →
    Turns C (m ++ u) (.node .HTML_STRING [.node .HTML_STRING_INNER ms] :: xs) (.node .HTML_STRING [.node .HTML_STRING_INNER (turnElems dec es)] :: ys)
  turnsq : ∀ (C : Change) (p p' : Nat) (q : Char), QuoteChar q → (∀ x ∈ gq p p' q, C.Matches x) → ∀ {u xs ys}, Turns C u xs ys →
    Turns C (m ++ u) (.node .HTML_STRING [.node .HTML_STRING_INNER ms] :: xs)
      (.node .HTML_STRING [quoteLeaf q, .node .HTML_STRING_INNER (turnElems dec es), quoteLeaf q] :: ys)

theorem unquoted (hd : DecOk dec) {m : List Token} {ms : List Tree} (hl : l.kind = T!"=")
    (mid : ∀ {b : Nat} {es : List Elem} {TI R' w' : List Token} {e'' : Nat}, Stretch b es TI R' m w' e'' → RowFine es →
      (∀ l x, es = l ++ [x] → ¬ IsTriviaElem x) → elemStrip es = ms →
      ∃ B M D cm gk gq, Mid dec b es TI m ms B M D cm gk gq)
    (ihu : Walks dec u xs) : Walks dec (l :: (m ++ u)) (.token l.kind l.text :: .node .HTML_STRING [.node .HTML_STRING_INNER ms] :: xs) := by
  intro a es T R w e' h hrow hs
  obtain ⟨t0, eE, f1, rfl, h0, hE, hf1⟩ := strip_cons hs
  obtain ⟨t1, e, es, rfl, h1, he, hes⟩ := strip_cons hf1
  have r1 := hrow.right.rest
  obtain ⟨hE, hkE⟩ := strip_token hE
  obtain ⟨ts, he, hts⟩ := strip_node he
  have hks := kids_strip he
  rw [hts] at hks
  obtain ⟨tA, eI, tD, hc1, hA, hI, hf2⟩ := strip_cons hks
  have hD := strip_nil hf2
  obtain ⟨ti, hI, hti⟩ := strip_node hI
  have hIs : elemStrip eI.childrenWithTokens = ms := by rw [kids_strip hI, hti]
  have t1nil := r1.none h1 he (by decide)
  have r2 : RowFine (e :: es) := r1.right
  have r3 := r2.inside he
  rw [hc1] at r3
  have tAnil := r3.none hA hI (by decide)
  have hlast : ∀ l x, eI.childrenWithTokens = l ++ [x] → ¬ IsTriviaElem x := by
    intro l x hx ⟨k, t, e1, e2⟩
    have hq := r2.quoted e (by simp)
    rw [he] at hq
    have hts' := (kids he).1
    rw [hc1, tAnil] at hts'
    have hti' := (kids hI).1
    rcases hq.1 rfl [] ti (tD.map (·.tree)) (by rw [← hts', ← hI]; rfl) with ⟨q, y, hq, hr⟩ | ⟨_, hq, _⟩
    · cases tD with
      | nil => cases hr
      | cons d tD =>
        obtain ⟨k', t', h1, h2⟩ := hD d (by simp)
        have h3 : d.tree = .token q y := (List.cons.inj hr).1
        rw [h1] at h3
        cases h3
        rw [hq] at h2
        cases h2
    · have := hq (l.map (·.tree)) x.tree (by rw [← hti', hx, List.map_append]; rfl)
      rw [e1] at this
      have this : k.isTrivia = false := this
      rw [e2] at this
      cases this
  obtain ⟨T0, U0, rfl, a1, _, a2, a3, s0⟩ := h.trivia h0
  obtain ⟨U1, rfl, l0, l1, l2, l3, l4, s1⟩ := s0.token hE hkE
  obtain ⟨T1, U2, rfl, b1, bw, b2, b3, s2⟩ := s1.trivia h1
  have T1nil := width_none (bw.trans (by rw [t1nil]; rfl)) b3
  have s3 := s2.kids he
  rw [hc1] at s3
  simp only [List.append_assoc, List.cons_append] at s3
  obtain ⟨TA, U3, rfl, c1, cw, c2, c3, s4⟩ := s3.trivia hA
  have TAnil := width_none (cw.trans (by rw [tAnil]; rfl)) c3
  have hstart := s4.row.1
  have s5 := s4.kids hI
  obtain ⟨TI, U4, rfl, s6, s7⟩ := s5.split
  have hwI : width TI = byteLen eI.text := by rw [covers_width s6.covers, kids_text hI]
  obtain ⟨B, M, D, cm, gk, gq, hm⟩ := mid s6 (r3.right.inside hI) hlast hIs
  obtain rfl := hm.eq
  have hseen : (B ++ (M ++ D)).filter solid = m := by
    rw [List.filter_append, List.filter_append, solid_none hm.front, solid_none hm.back, hm.seen]
    simp
  have s8 := s7 hseen
  obtain ⟨TD, U5, rfl, d1, _, d2, d3, s9⟩ := s8.trivia hD
  obtain ⟨cu, gu, ou⟩ := ihu s9 r2.rest hes
  have k0 := contiguous_append hm.cont
  have k1 := contiguous_append k0.2
  have hall : (T0 ++ l :: (T1 ++ (TA ++ (B ++ (M ++ D) ++ (TD ++ U5))))).filter solid = l :: (m ++ u) := by
    rw [List.filter_append, solid_none a1, List.nil_append, List.filter_cons_of_pos l4, List.filter_append, solid_none b1, List.nil_append,
      List.filter_append, solid_none c1, List.nil_append, List.filter_append, hseen, List.filter_append, solid_none d1, List.nil_append, ou.seen]
  have hsugs : elemSugs dec (t0 ++ eE :: (t1 ++ e :: es)) = own dec e ++ (elemSugs dec eI.childrenWithTokens ++ elemSugs dec es) := by
    rw [sugs_trivia hd h0, sugs_token hd hE, sugs_trivia hd h1, elemSugs_cons, hc1]
    simp only [List.append_assoc, List.cons_append]
    rw [sugs_trivia hd hA, sugs_node hd hI (by decide) (by decide), elemSugs_append, sugs_trivia hd hD]
  have hrest := Cut.blank d1 d2 d3 ou.toCut
  have hw : width (B ++ (M ++ D)) = width B + width M + width D := by simp only [width_append, Nat.add_assoc]
  have hfull := hm.full
  have hfB : ∀ t ∈ B, t.text ≠ [] := fun t ht => hfull t (by simp [ht])
  have hfD : ∀ t ∈ D, t.text ≠ [] := fun t ht => hfull t (by simp [ht])
  have kD : Contiguous (a + width T0 + byteLen l.text + width T1 + width TA + width B + width M) D
      (a + width T0 + byteLen l.text + width T1 + width TA + width B + width M + width D) := by
    have := k1.2
    rw [hw] at this
    simpa only [Nat.add_assoc] using this
  have husugs : (cellSugs (a + width T0 + byteLen l.text + width T1 + width TA + width (B ++ (M ++ D))) (keeps TD ++ cu)).Perm (elemSugs dec es) := by
    rw [cellSugs_blank]; exact ou.sugs
  have hoff : a + width T0 + byteLen l.text + width T1 + width TA + width (B ++ (M ++ D)) =
      a + width T0 + byteLen l.text + width T1 + width TA + width B + width M + width D := by rw [hw]; omega
  rw [hoff] at hrest husugs
  have hkids : turnElems dec e.childrenWithTokens = [.node .HTML_STRING_INNER (turnElems dec eI.childrenWithTokens)] := by
    rw [hc1, turn_trivia hA, turnElems_cons, turn_elem_node hI, newQuote_other hd hI (by decide) (by decide), ← List.append_nil tD, turn_trivia hD]
    rfl
  have hturn : turnElems dec (t0 ++ eE :: (t1 ++ e :: es)) = .token l.kind l.text :: .node .HTML_STRING
      (requote (newQuote dec e) [.node .HTML_STRING_INNER (turnElems dec eI.childrenWithTokens)]) :: turnElems dec es := by
    rw [turn_trivia h0, turnElems_cons, turn_elem_token hE hkE, turn_trivia h1, turnElems_cons, turn_elem_node he, hkids]
    rfl
  rcases own_unquoted hd (.inr ⟨rfl, rfl⟩) he hc1 hA hD hI with ⟨hnew, hown⟩ | ⟨q, hnew, hq, hown⟩
  · have cut := Cut.blank a1 a2 a3 (Cut.cell (Cut.keep l1 l2 l3 l4) (Cut.blank b1 b2 b3 (Cut.blank c1 c2 c3
      (Cut.blank hm.front k0.1 hfB (hm.cut.append (Cut.blank hm.back kD hfD hrest))))))
    refine ⟨_, _, ⟨by simpa only [List.append_assoc] using cut, hall, fun C hC => ?_, ?_⟩⟩
    · rw [hturn, hnew]
      exact .tok (plain_of (hC _ (by simp))) l3 (hm.turns C (fun x hx => hC x (by simp [hx])) (ou.turns C (fun x hx => hC x (by simp [hx]))))
    · rw [hsugs, hown, List.nil_append, cellSugs_blank, cellSugs_keep, cellSugs_blank, cellSugs_blank, cellSugs_blank, cellSugs_append, hm.cut.old,
        cellSugs_blank]
      exact List.Perm.append hm.sugs husugs
  · have hX := Contiguous.join b2 c2
    have cut := Cut.blank a1 a2 a3 (enclosed (p := a + width T0 + byteLen l.text + width T1 + width TA)
      (p' := a + width T0 + byteLen l.text + width T1 + width TA + width B + width M + width D) (q := q) (X := T1 ++ TA) (B := B) (M := M) (D := D)
      (gm := gq (a + width T0 + byteLen l.text + width T1 + width TA)
        (a + width T0 + byteLen l.text + width T1 + width TA + width B + width M + width D) q) hl l1 l2 l3 hq hX (forall_append b3 c3)
      (forall_append b1 c1) (by rw [width_append]; omega) k0.1 hfB hm.front hm.cut.old hm.sits hm.cut.places kD hfD hm.back rfl (by rw [T1nil, TAnil]; rfl) hm.none
      (hm.sigs _ _ _) (by rw [hm.keys, hm.seen]) (hm.groups _ _ _ hq) hrest)
    refine ⟨_, _, ⟨by simpa only [List.append_assoc] using cut, hall, fun C hC => ?_, ?_⟩⟩
    · rw [hturn, hnew]
      exact .tok (plain_of (hC _ (by simp))) l3 (hm.turnsq C _ _ q hq (fun x hx => hC x (List.mem_cons_of_mem _ (List.mem_append_left _ hx)))
        (ou.turns C (fun x hx => hC x (by simp [hx]))))
    · rw [hsugs, hown, cellSugs_blank, cellSugs_keep, cellSugs_blank, cellSugs_ins, cellSugs_blank, cellSugs_append, hm.cut.old,
        cellSugs_blank, cellSugs_ins]
      have hp1 : emptyAt eI.range.start = ⟨a + width T0 + byteLen l.text + width (T1 ++ TA), a + width T0 + byteLen l.text + width (T1 ++ TA)⟩ := by
        show (⟨eI.start, eI.start⟩ : TextRange) = _
        rw [hstart, width_append, Nat.add_assoc (a + width T0 + byteLen l.text)]
      have hp2 : emptyAt eI.range.stop = ⟨a + width T0 + byteLen l.text + width (T1 ++ TA) + width B + width M + width D,
          a + width T0 + byteLen l.text + width (T1 ++ TA) + width B + width M + width D⟩ := by
        have hx : eI.start + byteLen eI.text = a + width T0 + byteLen l.text + width (T1 ++ TA) + width B + width M + width D := by
          rw [hstart, ← hwI, hw, width_append]; omega
        show (⟨eI.start + byteLen eI.text, eI.start + byteLen eI.text⟩ : TextRange) = _
        rw [hx]
      rw [hp1, hp2]
      refine List.Perm.cons _ (List.perm_middle.trans (List.Perm.cons _ ?_))
      show List.Perm _ (elemSugs dec eI.childrenWithTokens ++ elemSugs dec es)
      rw [width_append, ← Nat.add_assoc]
      exact List.Perm.append hm.sugs husugs

theorem end_none {l tv : List Elem} (he : es = l ++ tv) (h : ∀ l x, es = l ++ [x] → ¬ IsTriviaElem x) (ht : ∀ x ∈ tv, IsTriviaElem x) : tv = [] := by
  rcases List.eq_nil_or_concat tv with h' | ⟨tv', x, rfl⟩
  · exact h'
  · exact absurd (ht x (by simp)) (h (l ++ tv') x (by rw [he]; simp))

theorem mid_word (hd : DecOk dec) (ht : t.kind = T!"word") (h : Stretch a es T R [t] w e') (_ : RowFine es)
    (hend : ∀ l x, es = l ++ [x] → ¬ IsTriviaElem x) (hs : elemStrip es = [.token t.kind t.text]) :
    ∃ B M D cm gk gq, Mid dec a es T [t] [.token t.kind t.text] B M D cm gk gq := by
  obtain ⟨tB, eW, tC, rfl, hB, hW, hf⟩ := strip_cons hs
  have hC := strip_nil hf
  obtain ⟨hW, hkW⟩ := strip_token hW
  have tCnil := end_none (l := tB ++ [eW]) (by simp) hend hC
  have hcont := (contiguous_append h.cont).1
  have hfull := h.full
  obtain ⟨B, T1, rfl, b1, _, b2, b3, s1⟩ := h.trivia hB
  obtain ⟨D, rfl, _, l1, l2, l3, l4, s2⟩ := s1.token hW hkW
  obtain ⟨d1, d2, d3⟩ := s2.done hC
  have hD0 : D = [] := by rw [tCnil] at s2; exact s2.blank
  have hturn : turnElems dec (tB ++ eW :: tC) = [.token t.kind t.text] := by
    rw [turn_trivia hB, turnElems_cons, turn_elem_token hW hkW, ← List.append_nil tC, turn_trivia hC]
    rfl
  refine ⟨B, [t], D, [.keep t], [(t, [.keep t])], fun p p' q => [(t, [.ins p q, .keep t, .ins p' q])], ?_⟩
  refine ⟨rfl, hcont, fun t ht => hfull t (List.mem_append_left _ ht), b1, d1, hD0, Cut.keep l1 l2 l3 l4, fun ds hds => ?_, ?_, fun p p' q => ?_,
    fun _ _ _ => rfl, fun p p' q hq x hx => ?_, ?_, fun C hC u xs ys hf => ?_, fun C p p' q hq hC u xs ys hf => ?_⟩
  · show Sits (decide (t.kind ∈ insertable)) ds
    rw [decide_eq_true (by rw [ht]; decide)]
    exact hds
  · rw [List.filter_cons_of_pos l4]; rfl
  · rw [List.filter_cons_of_pos (show Cell.sig (.keep t) = true from l4)]; rfl
  · cases List.mem_singleton.1 hx; exact .word ht hq
  · rw [sugs_trivia hd hB, sugs_token hd hW, ← List.append_nil tC, sugs_trivia hd hC]
    exact List.Perm.refl _
  · rw [hturn]
    exact .word ht l3 (plain_of (hC _ (by simp))) hf
  · rw [hturn]
    obtain ⟨a, b, w1, w2, w3, w4, w5⟩ := word_of hq (hC (t, [.ins p q, .keep t, .ins p' q]) (by simp))
    have := Turns.wordq l3 w1 w2 w3 hf
    rw [w4, w5] at this
    exact this

theorem mid_var (hd : DecOk dec) {o c : Token} (ho : o.kind ∈ varOpens) (hc : c.kind ∈ varCloses) (ihv : Walks dec v is)
    (h : Stretch a es T R (o :: (v ++ [c])) w e') (hrow : RowFine es) (hend : ∀ l x, es = l ++ [x] → ¬ IsTriviaElem x)
    (hs : elemStrip es = [.node .TWIG_VAR (.token o.kind o.text :: (is ++ [.token c.kind c.text]))]) :
    ∃ B M D cm gk gq, Mid dec a es T (o :: (v ++ [c])) [.node .TWIG_VAR (.token o.kind o.text :: (is ++ [.token c.kind c.text]))] B M D cm gk gq := by
  obtain ⟨tB, eV, tC, rfl, hB, hV, hf⟩ := strip_cons hs
  have hC := strip_nil hf
  obtain ⟨tv, hV, htv⟩ := strip_node hV
  have hks := kids_strip hV
  rw [htv] at hks
  obtain ⟨tE, eO, f1, hc1, hE, hO, hf1⟩ := strip_cons hks
  obtain ⟨fI, f2, rfl, hfI, hf2⟩ := strip_split hf1
  obtain ⟨tG, eC, tF, rfl, hG, hCl, hf3⟩ := strip_cons hf2
  have hF := strip_nil hf3
  have tCnil := end_none (l := tB ++ [eV]) (by simp) hend hC
  have r1 : RowFine (eV :: tC) := hrow.right
  have tFnil := r1.end hV (by decide) (l := tE ++ eO :: (fI ++ (tG ++ [eC]))) (by rw [hc1]; simp) hF
  have r2 := r1.inside hV
  rw [hc1] at r2
  have r3 := r2.right.rest.left
  obtain ⟨hO, hkO⟩ := strip_token hO
  obtain ⟨hCl, hkC⟩ := strip_token hCl
  have hcont := (contiguous_append h.cont).1
  have hfull := h.full
  obtain ⟨B, T1, rfl, b1, _, b2, b3, s1⟩ := h.trivia hB
  have s2 := s1.kids hV
  rw [hc1] at s2
  simp only [List.append_assoc, List.cons_append] at s2
  obtain ⟨E, T2, rfl, e1, _, e2, e3, s3⟩ := s2.trivia hE
  obtain ⟨T3, rfl, _, o1, o2, o3, o4, s4⟩ := s3.token hO hkO
  obtain ⟨TV, T4, rfl, s5, s5'⟩ := s4.split
  obtain ⟨cv, gv, ov⟩ := ihv s5 r3 hfI
  have s6 := s5' ov.seen
  obtain ⟨G, T5, rfl, g1, _, g2, g3, s7⟩ := s6.trivia hG
  obtain ⟨D, rfl, _, c1, c2, c3, c4, s8⟩ := s7.token hCl hkC
  obtain ⟨d1, d2, d3⟩ := s8.done (forall_append hF hC)
  have hD0 : D = [] := by rw [tCnil, tFnil] at s8; exact s8.blank
  have cut := Cut.cell (Cut.keep o1 o2 o3 o4) (ov.toCut.append (Cut.blank g1 g2 g3 (Cut.keep c1 c2 c3 c4)))
  have hins : ∀ ds, Sits true ds → Sits false (Cell.keep c :: ds) := by
    intro ds hds
    show Sits (decide (c.kind ∈ insertable)) ds
    rw [decide_eq_true (show c.kind ∈ insertable from List.mem_append_right _ hc)]
    exact hds
  have hseen : (o :: (TV ++ (G ++ [c]))).filter solid = o :: (v ++ [c]) := by
    rw [List.filter_cons_of_pos o4, List.filter_append, ov.seen, List.filter_append, solid_none g1, List.filter_cons_of_pos c4]; rfl
  have hso : Cell.sig (.keep o) = true := o4
  have hsc : Cell.sig (.keep c) = true := c4
  have hturn : turnElems dec (tB ++ eV :: tC) = [.node .TWIG_VAR (o.tree :: (turnElems dec fI ++ [c.tree]))] := by
    rw [turn_trivia hB, turnElems_cons, turn_elem_node hV, newQuote_other hd hV (by decide) (by decide), ← List.append_nil tC, turn_trivia hC, hc1,
      turn_trivia hE, turnElems_cons, turn_elem_token hO hkO, turnElems_append, turn_trivia hG, turnElems_cons, turn_elem_token hCl hkC,
      ← List.append_nil tF, turn_trivia hF]
    rfl
  refine ⟨B ++ E, o :: (TV ++ (G ++ [c])), D, .keep o :: (cv ++ (keeps G ++ [.keep c])), (o, [.keep o]) :: (gv ++ [(c, [.keep c])]),
    fun p p' q => (o, [.ins p q, .keep o]) :: (gv ++ [(c, [.keep c, .ins p' q])]), ?_⟩
  refine ⟨by simp, hcont, fun t ht => hfull t (List.mem_append_left _ ht), forall_append b1 e1, d1, hD0, ?_, fun ds hds => ?_, hseen, fun p p' q => ?_,
    fun _ _ _ => ?_, fun p p' q hq x hx => ?_, ?_, fun C hC u xs ys hf => ?_, fun C p p' q hq hC u xs ys hf => ?_⟩
  · rw [width_append, ← Nat.add_assoc]; exact cut
  · show Sits (decide (o.kind ∈ insertable)) (cv ++ (keeps G ++ [.keep c]) ++ ds)
    rw [List.append_assoc, List.append_assoc]
    exact Sits.mono (Sits.append (sits_keeps (hins _ hds)) ov.good)
  · rw [List.filter_cons_of_pos hso, sigs_append, sigs_append, sigs_trivia g1, List.filter_cons_of_pos hsc, ov.sigs]
    simp
  · rw [List.map_cons, List.map_append, ov.keys, ov.seen]; rfl
  · rcases List.mem_cons.1 hx with rfl | hx
    · exact .opened ho hq
    · rcases List.mem_append.1 hx with hx | hx
      · exact ov.groups x hx
      · cases List.mem_singleton.1 hx; exact .closed hc hq
  · have h1 : elemSugs dec (tB ++ eV :: tC) = elemSugs dec fI := by
      rw [sugs_trivia hd hB, sugs_node hd hV (by decide) (by decide), hc1]
      simp only [List.append_assoc, List.cons_append]
      rw [sugs_trivia hd hE, sugs_token hd hO, elemSugs_append, sugs_trivia hd hG, sugs_token hd hCl, sugs_trivia hd hF, ← List.append_nil tC,
        sugs_trivia hd hC]
      exact List.append_nil _
    rw [h1, cellSugs_keep, cellSugs_append, cellSugs_blank, cellSugs_keep, width_append, ← Nat.add_assoc]
    show List.Perm (_ ++ []) _
    rw [List.append_nil]
    exact ov.sugs
  · have h1 : o :: (v ++ [c]) ++ u = o :: (v ++ c :: u) := by simp
    rw [h1]
    rw [hturn]
    exact .var ho o3 c3 (plain_of (hC _ (by simp))) (plain_of (hC _ (by simp))) (ov.turns C (fun x hx => hC x (by simp [hx]))) hf
  · have h1 : o :: (v ++ [c]) ++ u = o :: (v ++ c :: u) := by simp
    rw [h1, hturn]
    obtain ⟨a, b, w1, w2, w3, w4, w5, w6⟩ := var_of hq (hC (o, [.ins p q, .keep o]) (by simp)) (hC (c, [.keep c, .ins p' q]) (by simp))
    have := Turns.varq o3 c3 w1 w2 w3 w4 (ov.turns C (fun x hx => hC x (by simp [hx]))) hf
    rw [w5, w6] at this
    exact this

/-! ## The walk -/

/-- The strings of a tree and the cells of its tokens. -/
theorem walk (hd : DecOk dec) (h : Strs u xs) : Walks dec u xs := by
  induction h with
  | nil =>
    intro a es T R w e' h _ hs
    have ht := strip_nil hs
    obtain ⟨h1, h2, h3⟩ := h.done ht
    refine ⟨keeps T, [], Cut.trivia h2 h3 h1, solid_none h1, fun _ _ => by rw [← List.append_nil es, turn_trivia ht]; exact .nil, ?_⟩
    rw [cellSugs_keeps, ← List.append_nil es, sugs_trivia hd ht]
    exact List.Perm.refl _
  | tok _ ih =>
    intro a es T R w e' h hrow hs
    obtain ⟨tv, e, fs, rfl, h0, he, hf⟩ := strip_cons hs
    obtain ⟨he, hk⟩ := strip_token he
    obtain ⟨T0, T1, rfl, h1, _, h2, h3, s1⟩ := h.trivia h0
    obtain ⟨T2, rfl, _, l1, l2, l3, l4, s2⟩ := s1.token he hk
    obtain ⟨cs, g, o⟩ := ih s2 hrow.right.rest hf
    exact ⟨_, _, Out.trivia hd h0 h1 h2 h3 (Out.tok hd he hk l1 l2 l3 l4 o)⟩
  | two hadj _ ih =>
    intro a es T R w e' h hrow hs
    obtain ⟨tv, e, fs, rfl, h0, he, hf⟩ := strip_cons hs
    obtain ⟨he, hk⟩ := strip_token he
    obtain ⟨T0, T1, rfl, h1, _, h2, h3, s1⟩ := h.trivia h0
    obtain ⟨T2, rfl, l1, l2, l3, l4, l5, s2⟩ := s1.two he hk hadj
    obtain ⟨cs, g, o⟩ := ih s2 hrow.right.rest hf
    exact ⟨_, _, Out.trivia hd h0 h1 h2 h3 (Out.two hd he hk l1 l2 l3 l4 l5 o)⟩
  | @node k _ _ _ hk _ ih =>
    have k1 : k ≠ .TWIG_LITERAL_STRING := fun e => hk (by rw [e]; decide)
    have k2 : k ≠ .HTML_STRING := fun e => hk (by rw [e]; decide)
    intro a es T R w e' h hrow hs
    obtain ⟨tv, e, fs, rfl, h0, he, hf⟩ := strip_cons hs
    obtain ⟨ts, he, hts⟩ := strip_node he
    obtain ⟨T0, T1, rfl, h1, _, h2, h3, s1⟩ := h.trivia h0
    obtain ⟨cs, g, o⟩ := ih (s1.kids he) (hrow.right.kids he hk) (by rw [elemStrip_append, kids_strip he, hts, hf])
    exact ⟨_, _, Out.trivia hd h0 h1 h2 h3 (Out.node hd he hts k1 k2 o)⟩
  | twig k1 k2 hp _ _ ihv ihu =>
    intro a es T R w e' h hrow hs
    obtain ⟨tv, e, fs, rfl, h0, he, hf⟩ := strip_cons hs
    obtain ⟨ts, he, hts⟩ := strip_node he
    obtain ⟨T0, T1, rfl, h1, _, h2, h3, s1⟩ := h.trivia h0
    obtain ⟨cs, g, c1, c2, c3, c4, c5, c6⟩ := quoted hd (.inl ⟨rfl, rfl⟩) he hts k1 k2 (fun _ => hp) ihv ihu s1 hrow.right hf
    refine ⟨_, _, Out.trivia hd h0 h1 h2 h3 ⟨c1, c2, fun C hC => ?_, c6⟩⟩
    obtain ⟨l', r', js, q1, q2, q3, q4, q5, q6, q7⟩ := c5 C hC
    rw [turnElems_cons, q7]
    exact .twig k1 k2 q1 q2 q3 q4 c3 c4 q5 q6
  | html k1 k2 _ _ ihv ihu =>
    intro a es T R w e' h hrow hs
    obtain ⟨tv, e, fs, rfl, h0, he, hf⟩ := strip_cons hs
    obtain ⟨ts, he, hts⟩ := strip_node he
    obtain ⟨T0, T1, rfl, h1, _, h2, h3, s1⟩ := h.trivia h0
    obtain ⟨cs, g, c1, c2, c3, c4, c5, c6⟩ := quoted hd (.inr ⟨rfl, rfl⟩) he hts k1 k2 (fun h => by cases h) ihv ihu s1 hrow.right hf
    refine ⟨_, _, Out.trivia hd h0 h1 h2 h3 ⟨c1, c2, fun C hC => ?_, c6⟩⟩
    obtain ⟨l', r', js, q1, q2, q3, q4, q5, q6, q7⟩ := c5 C hC
    rw [turnElems_cons, q7]
    exact .html k1 k2 q1 q2 q3 q4 c3 c4 q5 q6
  | word k1 k2 _ ihu => exact unquoted hd k1 (mid_word hd k2) ihu
  | @var l o v c u is xs k1 k2 k3 _ _ _ ihv ihu =>
    intro a es T R w e' h hrow hs
    have h1 : l :: (o :: (v ++ [c]) ++ u) = l :: o :: (v ++ c :: u) := by simp
    rw [← h1] at h ⊢
    exact unquoted hd k1 (mid_var hd k2 k3 ihv) ihu h hrow hs

end Ludtwig.Template
