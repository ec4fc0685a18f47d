import Verif.Parser.RunLemmas
import Verif.Parser.LexerProps

/-!
# `parse`: properties C01, C03, C04, C05, C06, C07 and C09
-/

namespace Ludtwig

open Lexer

/-! ## C01 -/

mutual
theorem Tree.text_leaves : (t : Tree) → t.text = (t.leaves.map (·.2)).flatten
  | .token _ _ => by simp [Tree.text, Tree.leaves]
  | .node _ cs => by simp [Tree.text, Tree.leaves, textOf_leaves cs]
theorem textOf_leaves : (ts : List Tree) → textOf ts = ((leavesOf ts).map (·.2)).flatten
  | [] => by simp [textOf, leavesOf]
  | t :: ts => by simp [textOf, leavesOf, Tree.text_leaves t, textOf_leaves ts]
end

theorem Covers.text {ls ts} (h : Covers ls ts) :
    (ls.map (·.2)).flatten = (ts.map (·.text)).flatten := by
  induction h with
  | nil => rfl
  | same t _ ih => simp [ih]
  | word t _ _ ih => simp [ih]
  | merged t u _ _ _ ih => simp [ih]

/-- C01: the leaves of the tree that `parse` returns concatenate to the source text. -/
theorem C01_parse_lossless {errLen : Text → Nat} (he : ErrLenOk errLen) (s : Text) (r : Parse)
    (h : parse errLen s = .ok r) : (r.tree.leaves.map (·.2)).flatten = s := by
  have := parseLexed_run (lex errLen s)
  unfold parse at h
  rw [h] at this
  obtain ⟨⟨trees, h1, h2, _⟩, _⟩ := this
  rw [h1, Tree.leaves, h2.text]
  exact (C02_lex_partition he s).2.1

/-- C01 in terms of `SyntaxNode::text`. -/
theorem C01_root_text {errLen : Text → Nat} (he : ErrLenOk errLen) (s : Text) (r : Parse)
    (h : parse errLen s = .ok r) : r.tree.text = s := by
  rw [Tree.text_leaves]; exact C01_parse_lossless he s r h

/-- A check of an outcome that the kernel can compute. -/
def Returns (x : Except ParsePanic Parse) (f : Parse → Bool) : Bool :=
  match x with
  | .ok r => f r
  | .error _ => false

/-- A malformed text for which `parse` returns a tree and errors. -/
example : Returns (parse (fun _ => 1) "{% if a <p>é}".toList)
    (fun r => r.errors.length != 0 && decide (r.tree.text = "{% if a <p>é}".toList)) = true := by
  decide +kernel

/-! ## C03 -/

/-- C03: the recursion depth of one more than the number of tokens is enough, as is every greater
one: no loop and no recursion of the grammar runs longer. -/
theorem C03_parse_terminates (toks : List Token) (N : Nat) (hN : toks.length < N) :
    parseRoot (knot N) (initial toks) ≠ .error .outOfFuel := by
  by_cases hne : toks = []
  · subst hne
    intro h
    obtain ⟨N, rfl⟩ : ∃ M, N = M + 1 := ⟨N - 1, by simp at hN; omega⟩
    cases h
  · intro h
    have := parseRoot_run hne hN
    rw [h] at this
    rcases this with ⟨h, _⟩ | ⟨h, _⟩ <;> cases h

/-- C03 for `parse`. -/
theorem C03_parse_ne_outOfFuel (errLen : Text → Nat) (s : Text) :
    parse errLen s ≠ .error (.parser .outOfFuel) := by
  intro h
  have := parseLexed_run (lex errLen s)
  unfold parse at h
  rw [h] at this
  rcases this with ⟨h, _⟩ | ⟨h, _⟩ <;> cases h

/-! ## C04 -/

/-- C04 is false: an unclosed twig tag in a raw text element. -/
theorem C04_parse_can_panic_raw_text :
    ¬ ∀ s, ∃ r, parse (fun _ => 1) s = .ok r := by
  intro h
  obtain ⟨r, hr⟩ := h "<script>{%".toList
  have : Returns (parse (fun _ => 1) "<script>{%".toList) (fun _ => true) = false := by
    decide +kernel
  rw [hr] at this
  cases this

/-- C04 is false: an unclosed list of names in parentheses. -/
theorem C04_parse_can_panic_arrow :
    ¬ ∀ s, '<' ∉ s → ∃ r, parse (fun _ => 1) s = .ok r := by
  intro h
  obtain ⟨r, hr⟩ := h "{{ (a,".toList (by decide)
  have : Returns (parse (fun _ => 1) "{{ (a,".toList) (fun _ => true) = false := by
    decide +kernel
  rw [hr] at this
  cases this

theorem literal_paren : ∀ l ∈ literals, l.kind = T!"(" → l.text = ['('] ∧ l.ignoreCase = false := by
  decide +kernel

theorem paren_text {errLen : Text → Nat} {s p : Text} {ts : List (SyntaxKind × Text)}
    (h : Tokenizes errLen s ((T!"(", p) :: ts)) : p = ['('] := by
  rcases tokenizes_step h with ⟨_, h⟩ | ⟨pre, post, k', ts1, hs, hne, hx, ht, hd⟩
  · cases h
  · cases hx
    rcases hd with ⟨q, j, hq, ⟨rfl, rfl, _⟩ | ⟨_, h, _⟩ | ⟨_, h, _⟩⟩ | ⟨h, _⟩
    · rcases hq.rule with ⟨l, hl, hk, hm⟩ | ⟨r, hr, _⟩
      · obtain ⟨h1, h2⟩ := literal_paren l hl hk
        simpa [Literal.Matches, h2, h1] using hm
      · simp [regexRules] at hr
    all_goals cases h

/-- C04, what holds: `parse` can only panic at two places: for a `(` in the text, in the names of an
arrow function; or, for a token that is the name of a raw text element in any case, in raw text.
Every other panic of the parser and all panics of the sink are impossible. -/
theorem C04_panics_partial {errLen : Text → Nat} (he : ErrLenOk errLen) (s : Text) (e : ParsePanic)
    (h : parse errLen s = .error e) :
    (e = .parser (.bumpAtEnd .arrowFunction) ∧ '(' ∈ s) ∨
    (e = .parser (.bumpAtEnd .rawText) ∧
      ∃ w ∈ ["script", "style", "textarea", "title"].map String.toList, w <:+: s.map asciiLower) := by
  have hr := parseLexed_run (lex errLen s)
  unfold parse at h
  rw [h] at hr
  cases e with
  | sink e => exact hr.elim
  | parser e =>
    rcases hr with ⟨rfl, t, ht, hk⟩ | ⟨rfl, t, ht, hk⟩
    · left
      refine ⟨rfl, ?_⟩
      obtain ⟨l, r, hlr⟩ := List.append_of_mem ht
      have h1 := lex_split he hlr
      simp only [List.map_cons, hk] at h1
      have hp := paren_text h1
      obtain ⟨a, b, hs, _⟩ := C02_token_in_source he s ht
      rw [hs, hp]
      simp
    · right
      refine ⟨rfl, t.text.map asciiLower, ?_, ?_⟩
      · simpa [htmlRawTextElements] using hk
      · obtain ⟨a, b, hs, _⟩ := C02_token_in_source he s ht
        rw [hs]
        exact ⟨a.map asciiLower, b.map asciiLower, by simp⟩

/-- C04 for texts without parenthesis and without the names of raw text elements. -/
theorem C04_parse_returns_partial {errLen : Text → Nat} (he : ErrLenOk errLen) (s : Text)
    (h1 : '(' ∉ s) (h2 : ∀ w ∈ ["script", "style", "textarea", "title"].map String.toList,
      ¬ w <:+: s.map asciiLower) : ∃ r, parse errLen s = .ok r := by
  cases h : parse errLen s with
  | ok r => exact ⟨r, rfl⟩
  | error e =>
    rcases C04_panics_partial he s e h with ⟨_, h⟩ | ⟨_, w, hw, h⟩
    · exact absurd h h1
    · exact absurd h (h2 w hw)

example : '(' ∉ "{% for a in <b {{ [ }".toList ∧
    ∀ w ∈ ["script", "style", "textarea", "title"].map String.toList,
      ¬ w <:+: ("{% for a in <b {{ [ }".toList).map asciiLower := by decide +kernel

/-! ## C05 -/

/-- C05: the result is one ROOT node whose leaves are the tokens of the lexer in order, where only
a token may be turned into a word, or a colon and the next token merged to a word. -/
theorem C05_root_covers (errLen : Text → Nat) (s : Text) (r : Parse) (h : parse errLen s = .ok r) :
    ∃ trees, r.tree = .node .ROOT trees ∧ Covers (leavesOf trees) (lex errLen s) := by
  have := parseLexed_run (lex errLen s)
  unfold parse at h
  rw [h] at this
  obtain ⟨⟨trees, h1, h2, _⟩, _⟩ := this
  exact ⟨trees, h1, h2⟩

/-- C05: trivia that follows trivia is in the same node, directly after it. -/
theorem C05_trivia_grouped (errLen : Text → Nat) (s : Text) (r : Parse)
    (h : parse errLen s = .ok r) : r.tree.Grouped false := by
  have := parseLexed_run (lex errLen s)
  unfold parse at h
  rw [h] at this
  obtain ⟨⟨trees, h1, _, _, h2⟩, _⟩ := this
  rw [h1]
  exact h2

/-- A merged attribute name and a keyword turned into a word. -/
example : Returns (parse (fun _ => 1) "<a :b>{{ c.not }}".toList) (fun r =>
    r.tree.leaves.contains (T!"word", ":b".toList) && r.tree.leaves.contains (T!"word", "not".toList)) =
    true := by decide +kernel

/-! ## C06 -/

/-- C06: an error points at a token of the text: the one found, or the last one if the end of the
file was found. -/
theorem C06_error_at_token (errLen : Text → Nat) (s : Text) (r : Parse)
    (h : parse errLen s = .ok r) (e : ParseError) (hm : e ∈ r.errors) : ErrOk (lex errLen s) e := by
  have := parseLexed_run (lex errLen s)
  unfold parse at h
  rw [h] at this
  exact this.2 e hm

/-- C06: the range of an error is a non-empty piece of the text between char boundaries. -/
theorem C06_error_in_source {errLen : Text → Nat} (he : ErrLenOk errLen) (s : Text) (r : Parse)
    (h : parse errLen s = .ok r) (e : ParseError) (hm : e ∈ r.errors) :
    ∃ a m b, s = a ++ m ++ b ∧ m ≠ [] ∧ e.range.start = byteLen a ∧ e.range.stop = byteLen (a ++ m) := by
  have key : ∀ t ∈ lex errLen s, e.range = t.range → ∃ a m b, s = a ++ m ++ b ∧ m ≠ [] ∧
      e.range.start = byteLen a ∧ e.range.stop = byteLen (a ++ m) := by
    intro t ht hr
    obtain ⟨a, b, h1, h2, h3⟩ := C02_token_in_source he s ht
    exact ⟨a, t.text, b, h1, (C02_lex_partition he s).2.2 t ht, by rw [hr, h2], by rw [hr, h3]⟩
  rcases C06_error_at_token errLen s r h e hm with ⟨t, ht, h1, _⟩ | ⟨t, ht, h1, _⟩
  · exact key t ht h1
  · exact key t (List.mem_of_getLast? ht) h1

example : Returns (parse (fun _ => 1) "é{{ a }".toList) (fun r =>
    r.errors.map (fun e => (e.range.start, e.range.stop, e.found)) == [(7, 8, some T!"}")]) = true := by decide +kernel

/-! ## C07 -/

/-- C07: no parse completes a marker that is not the innermost open one, or one that is not open, or
precedes something that is not a completed node. -/
theorem C07_marker_discipline (errLen : Text → Nat) (s : Text) (p : Panic)
    (hp : p = .markerOrder ∨ p = .notPlaceholder ∨ p = .precedeNotStart) :
    parse errLen s ≠ .error (.parser p) := by
  intro h
  have := parseLexed_run (lex errLen s)
  unfold parse at h
  rw [h] at this
  rcases this with ⟨h, _⟩ | ⟨h, _⟩ <;> subst h <;> simp at hp

/-- C07: when the parser is done, all markers have been completed. -/
theorem C07_all_completed (toks : List Token) (N : Nat) (hN : toks.length < N) (c : CompletedMarker)
    (s : PState) (h : parseRoot (knot N) (initial toks) = .ok (c, s)) : s.openMarkers = [] := by
  by_cases hne : toks = []
  · subst hne
    obtain ⟨N, rfl⟩ : ∃ M, N = M + 1 := ⟨N - 1, by simp at hN; omega⟩
    cases h
    rfl
  · have := parseRoot_run hne hN
    rw [h] at this
    exact this.2

example : (match parseRoot (knot 20) (initial (lex (fun _ => 1) "{{ a + b * c".toList)) with
    | .ok (_, s) => s.openMarkers.isEmpty && s.events.length > 10 | .error _ => false) = true := by
  decide +kernel

/-! ## C09 -/

/-- C09: without an error there is no ERROR node. -/
theorem C09_no_error_node (errLen : Text → Nat) (s : Text) (r : Parse) (h : parse errLen s = .ok r)
    (he : r.errors = []) : SyntaxKind.ERROR ∉ r.tree.nodeKinds := by
  have := parseLexed_run (lex errLen s)
  unfold parse at h
  rw [h] at this
  obtain ⟨⟨trees, h1, _, h3, _⟩, _⟩ := this
  rw [h1, Tree.nodeKinds]
  simp [h3 he]

example : Returns (parse (fun _ => 1) "<b>{{ a }}</b>".toList) (fun r => r.errors.isEmpty) = true ∧
    Returns (parse (fun _ => 1) "{{ ) }}".toList)
      (fun r => r.tree.nodeKinds.contains .ERROR) = true := by decide +kernel

end Ludtwig
