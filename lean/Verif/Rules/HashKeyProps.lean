import Verif.Rules.NameProps

/-! # Quotes of hash keys: property C59 -/

namespace Ludtwig.Rules

open Cli

/-- A character with which a name in Twig may begin. -/
def NameStart (c : Char) : Prop :=
  ('a' ≤ c ∧ c ≤ 'z') ∨ ('A' ≤ c ∧ c ≤ 'Z') ∨ c = '_' ∨ (0x7f ≤ c.toNat ∧ c.toNat ≤ 0xff)

/-- A name in Twig. -/
def TwigName (s : Text) : Prop :=
  ∃ c r, s = c :: r ∧ NameStart c ∧ ∀ d ∈ r, NameStart d ∨ ('0' ≤ d ∧ d ≤ '9')

theorem nameStart_iff (c : Char) : (isAsciiAlpha c || c == '_' || isHighLatin c) = true ↔ NameStart c := by
  simp [isAsciiAlpha, isHighLatin, NameStart, or_assoc]

theorem twigName_iff (s : Text) : isTwigName s = true ↔ TwigName s := by
  unfold isTwigName TwigName matchesName
  cases s with
  | nil => simp
  | cons c r =>
    have h : ∀ d, (isAsciiAlpha d || isAsciiDigit d || d == '_' || isHighLatin d) = true ↔
        NameStart d ∨ ('0' ≤ d ∧ d ≤ '9') := by
      intro d
      rw [← nameStart_iff]
      simp only [isAsciiDigit, Bool.or_eq_true, Bool.and_eq_true, decide_eq_true_eq]
      constructor
      · rintro (((h | h) | h) | h)
        · exact .inl (.inl (.inl h))
        · exact .inr h
        · exact .inl (.inl (.inr h))
        · exact .inl (.inr h)
      · rintro (((h | h) | h) | h)
        · exact .inl (.inl (.inl h))
        · exact .inl (.inr h)
        · exact .inr h
        · exact .inl (.inl (.inr h))
    rw [Bool.and_eq_true, nameStart_iff, List.all_eq_true]
    simp only [h]
    constructor
    · rintro ⟨h1, h2⟩; exact ⟨c, r, rfl, h1, h2⟩
    · rintro ⟨_, _, he, h1, h2⟩; cases he; exact ⟨h1, h2⟩

/-- A hash key that is a string with the content of a name: the string, and its inner node with
exactly one child. -/
def NameInQuotes (e string inner : Elem) : Prop :=
  nodeOf .TWIG_LITERAL_HASH_KEY e.tree = true ∧ FirstChild (nodeOf .TWIG_LITERAL_STRING) e string ∧
    FirstChild (nodeOf .TWIG_LITERAL_STRING_INNER) string inner ∧
    (∃ k c, inner.tree = .node k [c]) ∧ TwigName inner.text

/-- The finding for a string as hash key. -/
def keyFinding (string inner : Elem) : CheckResult :=
  { rule := "twig-hash-key-no-quotes".toList
    severity := .help
    suggestions :=
      [⟨(match string.openingQuote with
          | some q => q.range
          | none => emptyAt inner.range.start), []⟩,
       ⟨(match string.closingQuote with
          | some q => q.range
          | none => emptyAt inner.range.stop), []⟩]
    primary := some string.rangeTrimmed
    secondary := [] }

theorem one_child {inner : Elem} {ik : SyntaxKind} (h : nodeOf ik inner.tree = true) :
    (inner.childrenWithTokens.length == 1) = true ↔ ∃ k c, inner.tree = .node k [c] := by
  have hl : inner.childrenWithTokens.length = inner.tree.subtrees.length := by
    rw [← childrenWithTokens_trees, List.length_map]
  rw [hl]
  cases ht : inner.tree with
  | token _ _ => rw [ht] at h; cases h
  | node k cs =>
    simp only [Tree.subtrees, beq_iff_eq, List.length_eq_one_iff, Tree.node.injEq]
    constructor
    · rintro ⟨c, hc⟩; exact ⟨k, c, rfl, hc⟩
    · rintro ⟨_, c, _, hc⟩; exact ⟨c, hc⟩

theorem hashKey_check (ctx : Ctx) (e : Elem) (x : CheckResult) :
    x ∈ twigHashKeyNoQuotes.checkNode ctx e ↔
      ∃ string inner, NameInQuotes e string inner ∧ x = keyFinding string inner := by
  unfold twigHashKeyNoQuotes; dsimp only
  constructor
  · intro h
    split at h
    · cases h
    · rename_i string hs
      rw [Option.bind_eq_some_iff] at hs
      obtain ⟨e', h1, h2⟩ := hs
      obtain ⟨hk, rfl⟩ := (nodeOf_cast _ _ _).mp h1
      rw [child_iff] at h2
      split at h
      · cases h
      · rename_i inner hi
        have hi : FirstChild (nodeOf .TWIG_LITERAL_STRING_INNER) string inner := (child_iff _ _ _).mp hi
        split at h
        · rename_i hc
          rw [Bool.and_eq_true] at hc
          have hn : nodeOf .TWIG_LITERAL_STRING_INNER inner.tree = true := by
            obtain ⟨_, _, _, _, _, h3, _⟩ := hi; exact h3
          refine ⟨string, inner, ⟨hk, h2, hi, (one_child hn).mp hc.1, (twigName_iff _).mp hc.2⟩, ?_⟩
          exact List.mem_singleton.mp h
        · cases h
  · rintro ⟨string, inner, ⟨hk, h2, hi, hc, hn⟩, rfl⟩
    have hs : (e.cast .TWIG_LITERAL_HASH_KEY).bind (·.child .TWIG_LITERAL_STRING) = some string := by
      rw [(nodeOf_cast _ _ _).mpr ⟨hk, rfl⟩]
      exact (child_iff _ _ _).mpr h2
    rw [hs]; dsimp only
    have hi' : string.twigStringInner = some inner := (child_iff _ _ _).mpr hi
    rw [hi']; dsimp only
    have hnode : nodeOf .TWIG_LITERAL_STRING_INNER inner.tree = true := by
      obtain ⟨_, _, _, _, _, h3, _⟩ := hi; exact h3
    rw [if_pos (by rw [(one_child hnode).mpr hc, (twigName_iff _).mpr hn]; rfl)]
    exact List.mem_singleton.mpr rfl

/-- C59: the findings are exactly those for the hash keys (not hidden and not switched off) that are
strings with a single token that is a name. -/
theorem C59_hash_keys (config : Config) (root : Tree) :
    ∃ l, runRules config [twigHashKeyNoQuotes] root = .ok l ∧ ∀ x, x ∈ l ↔
      ∃ e string inner, Elem.In root e ∧ hidden e = false ∧
        switchedOff "twig-hash-key-no-quotes".toList e = false ∧ NameInQuotes e string inner ∧
        x = keyFinding string inner := by
  refine node_rule_findings config twigHashKeyNoQuotes root rfl rfl
    (fun e x => ∃ string inner, NameInQuotes e string inner ∧ x = keyFinding string inner)
    (fun e x _ => hashKey_check _ e x) (fun e x h => ?_) |>.imp
      (fun l h => ⟨h.1, fun x => (h.2 x).trans ?_⟩)
  · obtain ⟨_, _, h, _⟩ := h
    exact nodeOf_isNode h.1
  · constructor
    · rintro ⟨e, h1, h2, h3, s, i, h4⟩; exact ⟨e, s, i, h1, h2, h3, h4⟩
    · rintro ⟨e, s, i, h1, h2, h3, h4⟩; exact ⟨e, h1, h2, h3, s, i, h4⟩

/-- Deletion of two pieces of a text. -/
theorem delete_two (root pre post l1 o l2 inner r1 c r2 : Text)
    (h : root = pre ++ (l1 ++ o ++ l2 ++ inner ++ r1 ++ c ++ r2) ++ post) :
    applySuggestionsToText
      [⟨⟨byteLen pre + byteLen l1, byteLen pre + byteLen l1 + byteLen o⟩, []⟩,
       ⟨⟨byteLen pre + byteLen (l1 ++ o ++ l2 ++ inner ++ r1),
         byteLen pre + byteLen (l1 ++ o ++ l2 ++ inner ++ r1) + byteLen c⟩, []⟩] root =
      some (pre ++ (l1 ++ l2 ++ inner ++ r1 ++ r2) ++ post) := by
  have := apply_pieces [⟨l1, none⟩, ⟨o, some []⟩, ⟨l2 ++ inner ++ r1, none⟩, ⟨c, some []⟩,
    ⟨r2 ++ post, none⟩] pre
  simp only [pieceSuggestions, piecesBefore, piecesAfter, List.flatMap_cons, List.flatMap_nil,
    List.append_nil, Option.getD, List.nil_append, List.cons_append] at this
  rw [h]
  simpa [byteLen_append, Nat.add_assoc] using this

/-- C59, the fix: applying the suggestions of a finding deletes the two quotes of the string and
nothing else. -/
theorem C59_fix_deletes_quotes {root : Tree} {string inner : Elem} {l r : List Tree} {it : Tree}
    (hin : Elem.In root string) (h : StringNode string .TWIG_LITERAL_STRING l it r)
    {a b c d : List Tree} {o p : Tree} (ho : QuoteIn l a o b) (hp : QuoteIn r c p d) :
    ∃ pre post, root.text = pre ++ textOf (a ++ o :: b ++ it :: c ++ p :: d) ++ post ∧
      byteLen pre = string.start ∧
      applySuggestionsToText (keyFinding string inner).suggestions root.text =
        some (pre ++ textOf (a ++ b ++ it :: c ++ d) ++ post) := by
  obtain ⟨pre, post, g1, g2⟩ := In_inText hin
  have g1 : root.text = pre ++ textOf (a ++ o :: b ++ it :: c ++ p :: d) ++ post := by
    rw [g1, Elem.text, h.tree, ho.1, hp.1]
    simp [Tree.text]
  refine ⟨pre, post, g1, g2, ?_⟩
  obtain ⟨_, h1⟩ := openingQuote_some h ho
  obtain ⟨_, h2⟩ := closingQuote_some h hp
  unfold keyFinding; dsimp only
  rw [h1, h2]
  have := delete_two root.text pre post (textOf a) o.text (textOf b) it.text (textOf c) p.text
    (textOf d) (by rw [g1]; simp [textOf_append, textOf])
  rw [g2] at this
  simpa [Elem.range, Elem.text, textOf_append, textOf, Tree.text, byteLen_append, Nat.add_assoc,
    ho.1, hp.1] using this

/-- Of the keys of `{{ {"k": 1, 'a-b': 2, c: 3} }}` only the first is reported. -/
example : parsesTo "{{ {\"k\": 1, 'a-b': 2, c: 3} }}".toList keySample = true ∧
    Gives (runRules sampleConfig [twigHashKeyNoQuotes] keySample) (fun l =>
      l.length == 1 && applySuggestionsToText (l.flatMap (·.suggestions))
        "{{ {\"k\": 1, 'a-b': 2, c: 3} }}".toList == some "{{ {k: 1, 'a-b': 2, c: 3} }}".toList) =
      true :=
  ⟨keySample_parsed, by decide +kernel⟩

end Ludtwig.Rules
