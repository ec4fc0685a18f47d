import Verif.Syntax.TypedLemmas
import Verif.Syntax.Samples
import Verif.Parser.LeafLemmas

/-! # Typed accessors: properties C46, C47 -/

namespace Ludtwig

open Lexer

/-! ## C46: trimmed ranges -/

/-- A trivia token. -/
def isTriviaTree : Tree → Bool
  | .token k _ => k.isTrivia
  | .node _ _ => false

/-- The trivia tokens at the beginning of a node. -/
def leadingTrivia (t : Tree) : List Tree := t.subtrees.takeWhile isTriviaTree

/-- `trimLoop` on trees. -/
def trimTrees : List Tree → TextRange → TextRange
  | [], r => r
  | t :: ts, r =>
    if isTriviaTree t then
      trimTrees ts (if r.start + byteLen t.text < r.stop then ⟨r.start + byteLen t.text, r.stop⟩ else r)
    else r

theorem trimLoop_trees (l : List Elem) (r : TextRange) :
    trimLoop l r = trimTrees (l.map (·.tree)) r := by
  induction l generalizing r with
  | nil => rfl
  | cons e l ih =>
    obtain ⟨t, pos, path⟩ := e
    have : (!(Elem.isNode ⟨t, pos, path⟩) && (Elem.kind ⟨t, pos, path⟩).isTrivia) = isTriviaTree t := by
      cases t <;> simp [Elem.isNode, Tree.isNode, Elem.kind, Tree.kind, isTriviaTree]
    simp only [trimLoop, List.map_cons, trimTrees, this, ih, Elem.text]
    rfl

theorem trimTrees_empty (ts : List Tree) (r : TextRange) (h : textOf ts = []) : trimTrees ts r = r := by
  induction ts with
  | nil => rfl
  | cons t ts ih =>
    simp only [textOf, List.append_eq_nil_iff] at h
    have hr : (if r.start + byteLen t.text < r.stop then ⟨r.start + byteLen t.text, r.stop⟩ else r) = r := by
      rw [h.1]
      by_cases hlt : r.start + byteLen ([] : Text) < r.stop
      · rw [if_pos hlt]; rfl
      · rw [if_neg hlt]
    simp only [trimTrees, hr, ih h.2, ite_self]

theorem byteLen_pos {s : Text} (h : s ≠ []) : 0 < byteLen s := by
  cases s with
  | nil => exact absurd rfl h
  | cons c s => have := c.utf8Size_pos; simp [byteLen]; omega

theorem textOf_takeWhile_nil {ts : List Tree} {p : Tree → Bool} (h : textOf ts = []) :
    textOf (ts.takeWhile p) = [] := by
  induction ts with
  | nil => rfl
  | cons t ts ih =>
    simp only [textOf, List.append_eq_nil_iff] at h
    rw [List.takeWhile_cons]
    split
    · simp [textOf, h.1, ih h.2]
    · rfl

theorem trimTrees_spec : ∀ (ts : List Tree) (s : Nat),
    (trimTrees ts ⟨s, s + byteLen (textOf ts)⟩).stop = s + byteLen (textOf ts) ∧
    (byteLen (textOf (ts.takeWhile isTriviaTree)) < byteLen (textOf ts) →
      (trimTrees ts ⟨s, s + byteLen (textOf ts)⟩).start =
        s + byteLen (textOf (ts.takeWhile isTriviaTree))) ∧
    (¬ byteLen (textOf (ts.takeWhile isTriviaTree)) < byteLen (textOf ts) →
      (textOf ts = [] ∧ (trimTrees ts ⟨s, s + byteLen (textOf ts)⟩).start = s) ∨
      ∃ l t m, ts.takeWhile isTriviaTree = l ++ t :: m ∧ t.text ≠ [] ∧ textOf m = [] ∧
        (trimTrees ts ⟨s, s + byteLen (textOf ts)⟩).start = s + byteLen (textOf l))
  | [], s => ⟨rfl, fun h => absurd h (by simp [textOf]), fun _ => .inl ⟨rfl, rfl⟩⟩
  | t :: ts, s => by
    simp only [trimTrees, List.takeWhile_cons]
    cases ht : isTriviaTree t with
    | false =>
      simp only [Bool.false_eq_true, if_false, textOf, byteLen_nil, Nat.add_zero, true_and,
        implies_true]
      intro h
      left
      refine ⟨?_, trivial⟩
      have : ¬ textOf (t :: ts) ≠ [] := fun hne => h (byteLen_pos hne)
      simpa [textOf] using this
    | true =>
      simp only [if_true]
      by_cases hts : textOf ts = []
      · have hn : ¬ (s + byteLen t.text < s + byteLen (textOf (t :: ts))) := by
          simp [textOf, hts]
        rw [if_neg hn, trimTrees_empty _ _ hts]
        have htw := textOf_takeWhile_nil (p := isTriviaTree) hts
        refine ⟨rfl, fun h => ?_, fun _ => ?_⟩
        · simp [textOf, hts, htw] at h
        · by_cases h0 : t.text = []
          · left; exact ⟨by simp [textOf, h0, hts], rfl⟩
          · right; exact ⟨[], t, _, rfl, h0, htw, rfl⟩
      · have hp := byteLen_pos hts
        have hlt : s + byteLen t.text < s + byteLen (textOf (t :: ts)) := by
          simp only [textOf, byteLen_append]; omega
        rw [if_pos hlt]
        have e1 : s + byteLen (textOf (t :: ts)) = s + byteLen t.text + byteLen (textOf ts) := by
          simp only [textOf, byteLen_append]; omega
        rw [e1]
        obtain ⟨h1, h2, h3⟩ := trimTrees_spec ts (s + byteLen t.text)
        refine ⟨h1, fun h => ?_, fun h => ?_⟩
        · rw [h2 (by simp only [textOf, byteLen_append] at h; omega)]
          simp only [textOf, byteLen_append]; omega
        · right
          rcases h3 (by simp only [textOf, byteLen_append] at h; omega) with ⟨h3, _⟩ | ⟨l, u, m, g1, g2, g3, g4⟩
          · exact absurd h3 hts
          · refine ⟨t :: l, u, m, by rw [g1]; rfl, g2, g3, ?_⟩
            rw [g4]; simp only [textOf, byteLen_append]; omega

/-- C46: the trimmed range ends where the node ends; it starts after the leading trivia of the node;
if the node consists of trivia only, it starts before the last trivia token that is not empty. -/
theorem C46_trimmed_range (e : Elem) (hn : e.isNode = true) :
    e.rangeTrimmed.stop = e.range.stop ∧
    (byteLen (textOf (leadingTrivia e.tree)) < byteLen e.text →
      e.rangeTrimmed.start = e.start + byteLen (textOf (leadingTrivia e.tree))) ∧
    (byteLen (textOf (leadingTrivia e.tree)) = byteLen e.text → e.text ≠ [] →
      ∃ l t m, leadingTrivia e.tree = l ++ t :: m ∧ t.text ≠ [] ∧ textOf m = [] ∧
        e.rangeTrimmed.start = e.start + byteLen (textOf l)) ∧
    (e.text = [] → e.rangeTrimmed = e.range) := by
  obtain ⟨t, pos, path⟩ := e
  cases t with
  | token _ _ => simp [Elem.isNode, Tree.isNode] at hn
  | node k cs =>
    have hr : (⟨.node k cs, pos, path⟩ : Elem).rangeTrimmed =
        trimTrees cs ⟨pos, pos + byteLen (textOf cs)⟩ := by
      unfold Elem.rangeTrimmed
      rw [trimLoop_trees, childrenWithTokens_trees]
      rfl
    obtain ⟨h1, h2, h3⟩ := trimTrees_spec cs pos
    rw [hr]
    refine ⟨h1, h2, ?_, ?_⟩
    · intro h hne
      rcases h3 (by
        intro hlt
        have h' : byteLen (textOf (cs.takeWhile isTriviaTree)) = byteLen (textOf cs) := h
        omega) with ⟨h, _⟩ | h
      · exact absurd h hne
      · exact h
    · intro h
      exact trimTrees_empty _ _ h

/-- C46, consequences: the trimmed range lies in the range of the node, is empty only if the node is,
and lies on char boundaries of the file. -/
theorem C46_trimmed_inside (root : Tree) (e : Elem) (hin : Elem.In root e) (hn : e.isNode = true) :
    e.range.start ≤ e.rangeTrimmed.start ∧ e.rangeTrimmed.stop = e.range.stop ∧
    (e.text ≠ [] → e.rangeTrimmed.start < e.rangeTrimmed.stop) ∧
    RangeIn root.text e.rangeTrimmed := by
  obtain ⟨h1, h2, h3, h4⟩ := C46_trimmed_range e hn
  have hstop : e.range.stop = e.start + byteLen e.text := rfl
  have hstart : e.range.start = e.start := rfl
  have hle : ∃ pre post, e.text = pre ++ post ∧ e.rangeTrimmed.start = e.start + byteLen pre ∧
      (e.text ≠ [] → post ≠ []) := by
    have htw : e.text = textOf (leadingTrivia e.tree) ++
        textOf (e.tree.subtrees.dropWhile isTriviaTree) := by
      unfold leadingTrivia
      rw [← textOf_append, List.takeWhile_append_dropWhile]
      cases he : e.tree with
      | token k t => rw [Elem.isNode, he] at hn; simp [Tree.isNode] at hn
      | node k cs => rw [Elem.text, he]; rfl
    by_cases hlt : byteLen (textOf (leadingTrivia e.tree)) < byteLen e.text
    · refine ⟨_, _, htw, h2 hlt, ?_⟩
      intro _ h0
      rw [htw, h0] at hlt
      simp at hlt
    · by_cases h0 : e.text = []
      · refine ⟨[], [], h0, ?_, fun h => absurd h0 h⟩
        rw [h4 h0]; rfl
      · have heq : byteLen (textOf (leadingTrivia e.tree)) = byteLen e.text := by
          have := congrArg byteLen htw
          rw [byteLen_append] at this
          omega
        obtain ⟨l, t, m, g1, g2, g3, g4⟩ := h3 heq h0
        refine ⟨textOf l, t.text ++ (textOf m ++ textOf (e.tree.subtrees.dropWhile isTriviaTree)), ?_, g4, ?_⟩
        · conv => lhs; rw [htw, g1, textOf_append, textOf]
          simp
        · intro _ h
          simp only [List.append_eq_nil_iff] at h
          exact g2 h.1
  obtain ⟨pre, post, k1, k2, k3⟩ := hle
  refine ⟨by rw [hstart, k2]; omega, h1, ?_, ?_⟩
  · intro hne
    rw [h1, hstop, k2, k1, byteLen_append]
    have := byteLen_pos (k3 hne)
    omega
  · obtain ⟨a, b, g1, g2⟩ := In_inText hin
    refine ⟨a ++ pre, post, b, ?_, ?_, ?_⟩
    · rw [g1, k1]; simp
    · rw [byteLen_append, g2, k2]
    · rw [h1, hstop, k1, byteLen_append, byteLen_append, byteLen_append, g2]; omega

/-- A node ` \n a` with two leading trivia tokens, and one of trivia only. -/
example : (⟨.node .HTML_TEXT [.token .TK_WHITESPACE [' '], .token .TK_LINE_BREAK ['\n'],
      .token .TK_WORD ['a']], 5, []⟩ : Elem).rangeTrimmed = ⟨7, 8⟩ ∧
    (⟨.node .HTML_TEXT [.token .TK_WHITESPACE [' '], .token .TK_LINE_BREAK ['\n']], 5, []⟩ :
      Elem).rangeTrimmed = ⟨6, 7⟩ := by decide

/-! ## C47: whitespace control -/

/-- The sign of a way to trim whitespace. -/
def WhitespaceTrimming.sign : WhitespaceTrimming → Char
  | .removeAll => '-'
  | .removeExceptNewLines => '~'

/-- The opening tokens with whitespace control: kind, text. -/
def openings : WhitespaceTrimming → List (SyntaxKind × Text)
  | .removeAll => [(T!"{%-", "{%-".toList), (T!"{{-", "{{-".toList), (T!"{#-", "{#-".toList)]
  | .removeExceptNewLines =>
    [(T!"{%~", "{%~".toList), (T!"{{~", "{{~".toList), (T!"{#~", "{#~".toList)]

/-- The closing tokens with whitespace control: kind, text. -/
def closings : WhitespaceTrimming → List (SyntaxKind × Text)
  | .removeAll => [(T!"-%}", "-%}".toList), (T!"-}}", "-}}".toList), (T!"-#}", "-#}".toList)]
  | .removeExceptNewLines =>
    [(T!"~%}", "~%}".toList), (T!"~}}", "~}}".toList), (T!"~#}", "~#}".toList)]

/-- C47: the opening whitespace control of a node is what its first own token that is not trivia
says. -/
theorem C47_leading (e : Elem) (m : WhitespaceTrimming) :
    e.leadingWsControl = some m ↔
      ∃ x, FirstChild isSignificant e x ∧ x.kind ∈ (openings m).map (·.1) := by
  have hx : (∃ x, FirstChild isSignificant e x ∧ x.kind ∈ (openings m).map (·.1)) ↔
      ∃ x, e.firstNonTriviaToken = some x ∧ x.kind ∈ (openings m).map (·.1) := by
    simp only [firstNonTriviaToken_iff]
  rw [hx]
  unfold Elem.leadingWsControl
  cases e.firstNonTriviaToken with
  | none => simp
  | some x =>
    simp only [Option.bind_eq_bind, Option.bind_some, Option.some.injEq, exists_eq_left']
    generalize x.kind = k
    cases m <;> simp only [openings, List.map_cons, List.map_nil, List.mem_cons, List.not_mem_nil,
      or_false] <;> split <;> simp_all

/-- C47: the closing whitespace control of a node is what its last own token that is not trivia
says. -/
theorem C47_trailing (e : Elem) (m : WhitespaceTrimming) :
    e.trailingWsControl = some m ↔
      ∃ x, LastChild isSignificant e x ∧ x.kind ∈ (closings m).map (·.1) := by
  have hx : (∃ x, LastChild isSignificant e x ∧ x.kind ∈ (closings m).map (·.1)) ↔
      ∃ x, e.lastNonTriviaToken = some x ∧ x.kind ∈ (closings m).map (·.1) := by
    simp only [lastNonTriviaToken_iff]
  rw [hx]
  unfold Elem.trailingWsControl
  cases e.lastNonTriviaToken with
  | none => simp
  | some x =>
    simp only [Option.bind_eq_bind, Option.bind_some, Option.some.injEq, exists_eq_left']
    generalize x.kind = k
    cases m <;> simp only [closings, List.map_cons, List.map_nil, List.mem_cons, List.not_mem_nil,
      or_false] <;> split <;> simp_all

theorem controls_literal (m : WhitespaceTrimming) : ∀ p ∈ openings m ++ closings m,
    onlyLiteral p.1 p.2 = true := by
  cases m <;> decide +kernel

/-- C47 in a parsed file: a node with opening (closing) whitespace control has a first (last) own
token whose text ends (starts) with the sign. -/
theorem C47_text {errLen : Text → Nat} (he : ErrLenOk errLen) {s : Text} {r : Parse}
    (h : parse errLen s = .ok r) {e : Elem} (hin : Elem.In r.tree e) (m : WhitespaceTrimming) :
    (e.leadingWsControl = some m → ∃ x, FirstChild isSignificant e x ∧
      x.text.getLast? = some m.sign ∧ (x.kind, x.text) ∈ openings m) ∧
    (e.trailingWsControl = some m → ∃ x, LastChild isSignificant e x ∧
      x.text.head? = some m.sign ∧ (x.kind, x.text) ∈ closings m) := by
  have htext : ∀ x, Elem.In r.tree x → x.isNode = false → ∀ p ∈ openings m ++ closings m,
      p.1 = x.kind → p = (x.kind, x.text) := by
    intro x hx hnode p hp hk
    have hl := token_leaf hx hnode
    rw [← hk] at hl
    have := leaf_literal he h (controls_literal m p hp) hl
    rw [this, ← hk]
  have hsig : ∀ t, isSignificant t = true → t.isNode = false := by
    intro t; cases t <;> simp [isSignificant, Tree.isNode]
  refine ⟨fun hc => ?_, fun hc => ?_⟩
  · obtain ⟨x, hx, hk⟩ := (C47_leading e m).mp hc
    obtain ⟨p, hp, hpk⟩ := List.mem_map.mp hk
    have hxin : Elem.In r.tree x := by
      rw [← firstNonTriviaToken_iff] at hx
      exact In_firstNonTriviaToken hin hx
    have hnode : x.isNode = false := by
      obtain ⟨_, _, _, _, _, h3, _⟩ := hx
      exact hsig _ h3
    have hpe := htext x hxin hnode p (List.mem_append_left _ hp) hpk
    refine ⟨x, hx, ?_, hpe ▸ hp⟩
    have : x.text = p.2 := by rw [hpe]
    rw [this]
    have hall : ∀ m : WhitespaceTrimming, ∀ q ∈ openings m, q.2.getLast? = some m.sign := by
      intro m; cases m <;> decide
    exact hall m p hp
  · obtain ⟨x, hx, hk⟩ := (C47_trailing e m).mp hc
    obtain ⟨p, hp, hpk⟩ := List.mem_map.mp hk
    have hxin : Elem.In r.tree x := by
      rw [← lastNonTriviaToken_iff] at hx
      unfold Elem.lastNonTriviaToken at hx
      exact In_tokens hin (List.mem_filter.mp (List.mem_of_getLast? hx)).1
    have hnode : x.isNode = false := by
      obtain ⟨_, _, _, _, _, h3, _⟩ := hx
      exact hsig _ h3
    have hpe := htext x hxin hnode p (List.mem_append_right _ hp) hpk
    refine ⟨x, hx, ?_, hpe ▸ hp⟩
    have : x.text = p.2 := by rw [hpe]
    rw [this]
    have hall : ∀ m : WhitespaceTrimming, ∀ q ∈ closings m, q.2.head? = some m.sign := by
      intro m; cases m <;> decide
    exact hall m p hp

/-- The nodes of `{{- a ~}} {%~ set b = 1 -%}`: `TWIG_VAR`, `TWIG_SET` and `TWIG_SET_BLOCK`. -/
example : parsesTo "{{- a ~}} {%~ set b = 1 -%}".toList wsSample = true ∧
    ((Elem.root wsSample).children.map fun e => (e.leadingWsControl, e.trailingWsControl)) =
      [(some .removeAll, some .removeExceptNewLines), (none, none)] ∧
    ((Elem.root wsSample).children.map fun e => e.children.map fun e =>
      (e.leadingWsControl, e.trailingWsControl)) =
      [[(none, none)], [(some .removeExceptNewLines, some .removeAll)]] :=
  ⟨wsSample_parsed, by decide +kernel, by decide +kernel⟩

end Ludtwig
