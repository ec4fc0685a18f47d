import Verif.Rules.RangeProps

/-! # Operators: property C41 -/

namespace Ludtwig.Rules

open Cli Lexer

/-- What is reported by a rule without root check. -/
theorem reported_iff (config : Config) (r : Rule) (root : Tree)
    (hr : r.checkRoot ⟨config, false⟩ (Elem.root root) = .ok []) :
    ∃ l, runRules config [r] root = .ok l ∧
      ∀ x, x ∈ l ↔ ∃ e, Elem.In root e ∧ hidden e = false ∧ switchedOff r.name e = false ∧
        x ∈ checkElem config r e := by
  obtain ⟨l, hl, _⟩ := C18_reported_iff config r root
    ⟨[], .help, [], none, []⟩ hr
  refine ⟨l, hl, fun x => ?_⟩
  obtain ⟨l', hl', h⟩ := C18_reported_iff config r root x hr
  rw [hl] at hl'
  cases hl'
  exact h

/-- The finding for an operator with a replacement for it. -/
def replaceFinding (name : RuleName) (op : Elem) (new : Text) : CheckResult where
  rule := name
  severity := .error
  suggestions := [⟨⟨op.start, op.start + byteLen op.text⟩, new⟩]
  primary := some ⟨op.start, op.start + byteLen op.text⟩
  secondary := []

theorem binaryOperator_iff (e o : Elem) : binaryOperator e = some o ↔
    nodeOf .TWIG_BINARY_EXPRESSION e.tree = true ∧ FirstChild isSignificant e o := by
  rw [← firstNonTriviaToken_iff]
  unfold binaryOperator Elem.cast Elem.isNode Elem.kind
  rw [show nodeOf .TWIG_BINARY_EXPRESSION e.tree =
    (e.tree.isNode && e.tree.kind == .TWIG_BINARY_EXPRESSION) by
      cases e.tree <;> simp [nodeOf, Tree.isNode, Tree.kind]]
  split <;> simp_all

theorem nodeOf_isNode {k : SyntaxKind} {t : Tree} (h : nodeOf k t = true) : t.isNode = true := by
  cases t <;> simp_all [nodeOf, Tree.isNode]

/-- What is reported by a rule that checks nodes only. -/
theorem node_rule_reported (config : Config) (r : Rule) (root : Tree)
    (ht : r.checkToken = fun _ _ => []) (hr : r.checkRoot = fun _ _ => .ok [])
    (P : Elem → CheckResult → Prop) (hP : ∀ ctx e x, x ∈ r.checkNode ctx e ↔ P e x)
    (hn : ∀ e x, P e x → e.tree.isNode = true) :
    ∃ l, runRules config [r] root = .ok l ∧ ∀ x, x ∈ l ↔
      ∃ e, Elem.In root e ∧ hidden e = false ∧ switchedOff r.name e = false ∧ P e x := by
  obtain ⟨l, hl, h⟩ := reported_iff config r root (by rw [hr])
  refine ⟨l, hl, fun x => (h x).trans ?_⟩
  constructor
  · rintro ⟨e, h1, h2, h3, h4⟩
    refine ⟨e, h1, h2, h3, ?_⟩
    unfold checkElem at h4
    split at h4
    · exact (hP _ _ _).mp h4
    · rw [ht] at h4; cases h4
  · rintro ⟨e, h1, h2, h3, h4⟩
    refine ⟨e, h1, h2, h3, ?_⟩
    have := hn e x h4
    unfold checkElem
    split
    · exact (hP _ _ _).mpr h4
    · rename_i he; rw [he] at this; cases this

/-- C41, `&&`: the findings are exactly those for the binary expressions (not hidden and not switched
off) whose first own token that is not trivia is `&&`; the suggestion replaces exactly that token by
`and`. -/
theorem C41_and (config : Config) (root : Tree) :
    ∃ l, runRules config [twigLogicAnd] root = .ok l ∧ ∀ x, x ∈ l ↔
      ∃ e o, Elem.In root e ∧ hidden e = false ∧ switchedOff "twig-logic-and".toList e = false ∧
        nodeOf .TWIG_BINARY_EXPRESSION e.tree = true ∧ FirstChild isSignificant e o ∧
        o.kind = .TK_DOUBLE_AMPERSAND ∧
        x = replaceFinding "twig-logic-and".toList o ['a', 'n', 'd'] := by
  refine node_rule_reported config twigLogicAnd root rfl rfl
    (fun e x => ∃ o, nodeOf .TWIG_BINARY_EXPRESSION e.tree = true ∧ FirstChild isSignificant e o ∧
      o.kind = .TK_DOUBLE_AMPERSAND ∧ x = replaceFinding "twig-logic-and".toList o ['a', 'n', 'd'])
    (fun ctx e x => ?_) (fun e x h => ?_) |>.imp (fun l h => ⟨h.1, fun x => (h.2 x).trans ?_⟩)
  · unfold twigLogicAnd; dsimp only
    constructor
    · intro h
      split at h
      · cases h
      · rename_i o ho
        split at h
        · rename_i hk
          rw [binaryOperator_iff] at ho
          exact ⟨o, ho.1, ho.2, by simpa using hk, List.mem_singleton.mp h⟩
        · cases h
    · rintro ⟨o, h4, h5, h6, rfl⟩
      rw [(binaryOperator_iff e o).mpr ⟨h4, h5⟩]; dsimp only
      rw [if_pos (by rw [h6]; rfl)]
      exact List.mem_singleton.mpr rfl
  · obtain ⟨o, h4, _⟩ := h
    exact nodeOf_isNode h4
  · constructor
    · rintro ⟨e, h1, h2, h3, o, h4⟩; exact ⟨e, o, h1, h2, h3, h4⟩
    · rintro ⟨e, o, h1, h2, h3, h4⟩; exact ⟨e, h1, h2, h3, o, h4⟩

/-- C41, `||`: likewise, with `or`. -/
theorem C41_or (config : Config) (root : Tree) :
    ∃ l, runRules config [twigLogicOr] root = .ok l ∧ ∀ x, x ∈ l ↔
      ∃ e o, Elem.In root e ∧ hidden e = false ∧ switchedOff "twig-logic-or".toList e = false ∧
        nodeOf .TWIG_BINARY_EXPRESSION e.tree = true ∧ FirstChild isSignificant e o ∧
        o.kind = .TK_DOUBLE_PIPE ∧
        x = replaceFinding "twig-logic-or".toList o ['o', 'r'] := by
  refine node_rule_reported config twigLogicOr root rfl rfl
    (fun e x => ∃ o, nodeOf .TWIG_BINARY_EXPRESSION e.tree = true ∧ FirstChild isSignificant e o ∧
      o.kind = .TK_DOUBLE_PIPE ∧ x = replaceFinding "twig-logic-or".toList o ['o', 'r'])
    (fun ctx e x => ?_) (fun e x h => ?_) |>.imp (fun l h => ⟨h.1, fun x => (h.2 x).trans ?_⟩)
  · unfold twigLogicOr; dsimp only
    constructor
    · intro h
      split at h
      · cases h
      · rename_i o ho
        split at h
        · rename_i hk
          rw [binaryOperator_iff] at ho
          exact ⟨o, ho.1, ho.2, by simpa using hk, List.mem_singleton.mp h⟩
        · cases h
    · rintro ⟨o, h4, h5, h6, rfl⟩
      rw [(binaryOperator_iff e o).mpr ⟨h4, h5⟩]; dsimp only
      rw [if_pos (by rw [h6]; rfl)]
      exact List.mem_singleton.mpr rfl
  · obtain ⟨o, h4, _⟩ := h
    exact nodeOf_isNode h4
  · constructor
    · rintro ⟨e, h1, h2, h3, o, h4⟩; exact ⟨e, o, h1, h2, h3, h4⟩
    · rintro ⟨e, o, h1, h2, h3, h4⟩; exact ⟨e, h1, h2, h3, o, h4⟩

/-- The characters with the Unicode property White_Space. -/
def WhiteSpace (c : Char) : Prop :=
  c.toNat ∈ [0x9, 0xa, 0xb, 0xc, 0xd, 0x20, 0x85, 0xa0, 0x1680, 0x2000, 0x2001, 0x2002, 0x2003, 0x2004, 0x2005, 0x2006,
    0x2007, 0x2008, 0x2009, 0x200a, 0x2028, 0x2029, 0x202f, 0x205f, 0x3000]

/-- `t` is `s` without the white space at both ends. -/
def Trimmed (s t : Text) : Prop :=
  ∃ a b, s = a ++ t ++ b ∧ (∀ c ∈ a, WhiteSpace c) ∧ (∀ c ∈ b, WhiteSpace c) ∧
    (∀ c, t.head? = some c → ¬ WhiteSpace c) ∧ (∀ c, t.getLast? = some c → ¬ WhiteSpace c)

theorem isWhitespace_iff (c : Char) : isWhitespace c = true ↔ WhiteSpace c := by
  unfold isWhitespace WhiteSpace
  simp only [Bool.or_eq_true, Bool.and_eq_true, decide_eq_true_eq, beq_iff_eq, List.mem_cons, List.not_mem_nil, or_false]
  omega

theorem dropWhile_prefix {p : Char → Bool} {a t : Text} (ha : ∀ c ∈ a, p c = true)
    (ht : ∀ c, t.head? = some c → p c = false) : (a ++ t).dropWhile p = t := by
  induction a with
  | nil =>
    cases t with
    | nil => rfl
    | cons c t => simp [ht c rfl]
  | cons c a ih =>
    simp only [List.cons_append, List.dropWhile_cons, ha c List.mem_cons_self, if_true]
    exact ih (fun d hd => ha d (List.mem_cons_of_mem _ hd))

theorem dropWhile_head {p : Char → Bool} {s : Text} {c : Char} (h : (s.dropWhile p).head? = some c) :
    p c = false := by
  induction s with
  | nil => simp at h
  | cons d s ih =>
    rw [List.dropWhile_cons] at h
    split at h
    · exact ih h
    · rename_i hd
      simp only [List.head?_cons, Option.some.injEq] at h
      subst h
      simpa using hd

theorem takeWhile_all {p : Char → Bool} {s : Text} {c : Char} (h : c ∈ s.takeWhile p) :
    p c = true := by
  induction s with
  | nil => simp at h
  | cons d s ih =>
    rw [List.takeWhile_cons] at h
    split at h
    · rename_i hd
      rcases List.mem_cons.mp h with rfl | h
      · exact hd
      · exact ih h
    · cases h

theorem trim_iff (s t : Text) : trim s = t ↔ Trimmed s t := by
  unfold Trimmed
  simp only [← isWhitespace_iff, Bool.not_eq_true]
  constructor
  · rintro rfl
    have h1 : s = s.takeWhile isWhitespace ++ s.dropWhile isWhitespace :=
      (List.takeWhile_append_dropWhile).symm
    generalize hu : s.dropWhile isWhitespace = u at h1
    have h2 : u = trim s ++ (u.reverse.takeWhile isWhitespace).reverse := by
      rw [trim, hu, ← List.reverse_append, List.takeWhile_append_dropWhile, List.reverse_reverse]
    refine ⟨s.takeWhile isWhitespace, (u.reverse.takeWhile isWhitespace).reverse, ?_, ?_, ?_, ?_, ?_⟩
    · rw [List.append_assoc, ← h2, ← h1]
    · intro c hc; exact takeWhile_all hc
    · intro c hc; exact takeWhile_all (List.mem_reverse.mp hc)
    · intro c hc
      apply dropWhile_head (s := s)
      rw [hu, h2, List.head?_append, hc]; rfl
    · intro c hc
      unfold trim at hc
      rw [List.getLast?_reverse] at hc
      exact dropWhile_head hc
  · rintro ⟨a, b, rfl, ha, hb, h1, h2⟩
    cases t with
    | nil =>
      have : (a ++ [] ++ b).dropWhile isWhitespace = [] := by
        have := dropWhile_prefix (p := isWhitespace) (a := a ++ b) (t := []) (by
          intro c hc
          rcases List.mem_append.mp hc with h | h
          · exact ha c h
          · exact hb c h) (by simp)
        simpa using this
      rw [trim, this]; rfl
    | cons c t =>
      have e1 : (a ++ (c :: t) ++ b).dropWhile isWhitespace = (c :: t) ++ b := by
        rw [List.append_assoc]
        exact dropWhile_prefix ha (by intro d hd; exact h1 d (by simpa using hd))
      rw [trim, e1, List.reverse_append, dropWhile_prefix, List.reverse_reverse]
      · intro d hd; exact hb d (List.mem_reverse.mp hd)
      · intro d hd; rw [List.head?_reverse] at hd; exact h2 d hd

/-- The finding for `===` and `!==`: the suggestion replaces everything from the operator to the end
of the second `TWIG_EXPRESSION` of the binary expression by a test with that expression as argument;
there is none if there is no second `TWIG_EXPRESSION`. -/
def CompareFinding (name : RuleName) (test : Text) (e op : Elem) (x : CheckResult) : Prop :=
  x.rule = name ∧ x.severity = .error ∧ x.primary = some ⟨op.start, op.start + byteLen op.text⟩ ∧
  x.secondary = [] ∧
  ((∃ rhs t, SecondChild (nodeOf .TWIG_EXPRESSION) e rhs ∧ Trimmed rhs.text t ∧
      x.suggestions = [⟨⟨min op.start rhs.start,
        max (op.start + byteLen op.text) (rhs.start + byteLen rhs.text)⟩, test ++ t ++ [')']⟩]) ∨
    ((∀ rhs, ¬ SecondChild (nodeOf .TWIG_EXPRESSION) e rhs) ∧ x.suggestions = []))

theorem mem_checkSameAs (name : RuleName) (k : SyntaxKind) (test : Text) (e : Elem)
    (x : CheckResult) : x ∈ checkSameAs name k test e ↔
      ∃ o, nodeOf .TWIG_BINARY_EXPRESSION e.tree = true ∧ FirstChild isSignificant e o ∧
        o.kind = k ∧ CompareFinding name test e o x := by
  constructor
  · intro h
    unfold checkSameAs at h
    split at h
    · cases h
    · rename_i b hb
      have hbe : b = e := by
        unfold Elem.cast at hb
        split at hb <;> cases hb
        rfl
      subst hbe
      split at h
      · cases h
      · rename_i o ho
        have hbo : binaryOperator b = some o := by unfold binaryOperator; rw [hb]; exact ho
        rw [binaryOperator_iff] at hbo
        split at h
        · cases h
        · rename_i hk
          refine ⟨o, hbo.1, hbo.2, by simpa using hk, ?_⟩
          split at h
          · rename_i hr
            have := List.mem_singleton.mp h
            subst this
            refine ⟨rfl, rfl, rfl, rfl, .inr ⟨?_, rfl⟩⟩
            intro rhs hrhs
            rw [← second_iff] at hrhs
            unfold Elem.rhsExpression at hr
            rw [hr] at hrhs
            cases hrhs
          · rename_i rhs hr
            have := List.mem_singleton.mp h
            subst this
            exact ⟨rfl, rfl, rfl, rfl, .inl ⟨rhs, trim rhs.text, (second_iff _ _ _).mp hr,
              (trim_iff _ _).mp rfl, rfl⟩⟩
  · rintro ⟨o, h1, h2, h3, h4, h5, h6, h7, h8⟩
    have hbo := (binaryOperator_iff e o).mpr ⟨h1, h2⟩
    have hc : e.cast .TWIG_BINARY_EXPRESSION = some e := by
      unfold Elem.cast
      rw [isNode_kind, h1]; rfl
    unfold checkSameAs
    rw [hc]; dsimp only
    rw [(firstNonTriviaToken_iff e o).mpr h2]; dsimp only
    rw [if_neg (by rw [h3]; simp)]
    obtain ⟨xr, xs, xg, xp, xn⟩ := x
    simp only at h4 h5 h6 h7 h8
    subst h4 h5 h6 h7
    rcases h8 with ⟨rhs, t, g1, g2, g3⟩ | ⟨g1, g2⟩
    · have : e.rhsExpression = some rhs := (second_iff _ _ _).mpr g1
      rw [this]; dsimp only
      rw [(trim_iff _ _).mpr g2, g3]
      exact List.mem_singleton.mpr rfl
    · have : e.rhsExpression = none := by
        cases hr : e.rhsExpression with
        | none => rfl
        | some rhs => exact absurd ((second_iff _ _ _).mp hr) (g1 rhs)
      rw [this, g2]
      exact List.mem_singleton.mpr rfl

/-- C41, `===`. -/
theorem C41_same_as (config : Config) (root : Tree) :
    ∃ l, runRules config [twigUseIsSameAs] root = .ok l ∧ ∀ x, x ∈ l ↔
      ∃ e o, Elem.In root e ∧ hidden e = false ∧ switchedOff "twig-use-is-same-as".toList e = false ∧
        nodeOf .TWIG_BINARY_EXPRESSION e.tree = true ∧ FirstChild isSignificant e o ∧
        o.kind = .TK_TRIPLE_EQUAL ∧
        CompareFinding "twig-use-is-same-as".toList "is same as(".toList e o x := by
  refine node_rule_reported config twigUseIsSameAs root rfl rfl
    (fun e x => ∃ o, nodeOf .TWIG_BINARY_EXPRESSION e.tree = true ∧ FirstChild isSignificant e o ∧
      o.kind = .TK_TRIPLE_EQUAL ∧ CompareFinding "twig-use-is-same-as".toList "is same as(".toList e o x)
    (fun ctx e x => ?_) (fun e x h => ?_) |>.imp (fun l h => ⟨h.1, fun x => (h.2 x).trans ?_⟩)
  · exact mem_checkSameAs _ _ _ e x
  · obtain ⟨o, h4, _⟩ := h
    exact nodeOf_isNode h4
  · constructor
    · rintro ⟨e, h1, h2, h3, o, h4⟩; exact ⟨e, o, h1, h2, h3, h4⟩
    · rintro ⟨e, o, h1, h2, h3, h4⟩; exact ⟨e, h1, h2, h3, o, h4⟩

/-- C41, `!==`. -/
theorem C41_not_same_as (config : Config) (root : Tree) :
    ∃ l, runRules config [twigUseIsNotSameAs] root = .ok l ∧ ∀ x, x ∈ l ↔
      ∃ e o, Elem.In root e ∧ hidden e = false ∧ switchedOff "twig-use-is-not-same-as".toList e = false ∧
        nodeOf .TWIG_BINARY_EXPRESSION e.tree = true ∧ FirstChild isSignificant e o ∧
        o.kind = .TK_EXCLAMATION_MARK_DOUBLE_EQUALS ∧
        CompareFinding "twig-use-is-not-same-as".toList "is not same as(".toList e o x := by
  refine node_rule_reported config twigUseIsNotSameAs root rfl rfl
    (fun e x => ∃ o, nodeOf .TWIG_BINARY_EXPRESSION e.tree = true ∧ FirstChild isSignificant e o ∧
      o.kind = .TK_EXCLAMATION_MARK_DOUBLE_EQUALS ∧ CompareFinding "twig-use-is-not-same-as".toList "is not same as(".toList e o x)
    (fun ctx e x => ?_) (fun e x h => ?_) |>.imp (fun l h => ⟨h.1, fun x => (h.2 x).trans ?_⟩)
  · exact mem_checkSameAs _ _ _ e x
  · obtain ⟨o, h4, _⟩ := h
    exact nodeOf_isNode h4
  · constructor
    · rintro ⟨e, h1, h2, h3, o, h4⟩; exact ⟨e, o, h1, h2, h3, h4⟩
    · rintro ⟨e, o, h1, h2, h3, h4⟩; exact ⟨e, h1, h2, h3, o, h4⟩

/-- C41 in a parsed file: the operator token of a finding for `&&` or `||` is that text, and applying
the suggestion replaces exactly it. -/
theorem C41_fix {errLen : Text → Nat} (he : ErrLenOk errLen) {s : Text} {r : Parse}
    (h : parse errLen s = .ok r) {e o : Elem} (hin : Elem.In r.tree e)
    (ho : FirstChild isSignificant e o) (name : RuleName) (new : Text) (k : SyntaxKind) (op : Text)
    (hk : (k, op) ∈ [(.TK_DOUBLE_AMPERSAND, "&&".toList), (.TK_DOUBLE_PIPE, "||".toList)])
    (hok : o.kind = k) :
    ∃ pre post, s = pre ++ op ++ post ∧ byteLen pre = o.start ∧
      applySuggestionsToText (replaceFinding name o new).suggestions s =
        some (pre ++ new ++ post) := by
  have hoin : Elem.In r.tree o := In_firstNonTriviaToken hin ((firstNonTriviaToken_iff e o).mpr ho)
  have hnode : o.isNode = false := by
    obtain ⟨_, _, _, _, _, h3, _⟩ := ho
    unfold Elem.isNode
    cases ht : o.tree with
    | token _ _ => rfl
    | node _ _ => rw [ht] at h3; simp [isSignificant] at h3
  have hlit : ∀ p ∈ [(SyntaxKind.TK_DOUBLE_AMPERSAND, "&&".toList), (.TK_DOUBLE_PIPE, "||".toList)],
      onlyLiteral p.1 p.2 = true := by decide +kernel
  have hl := token_leaf hoin hnode
  rw [hok] at hl
  have htext : o.text = op := leaf_literal he h (hlit _ hk) hl
  obtain ⟨pre, post, h1, h2⟩ := In_inText hoin
  rw [C01_root_text he s r h, htext] at h1
  refine ⟨pre, post, h1, h2, ?_⟩
  have := apply_pieces [⟨op, some new⟩, ⟨post, none⟩] pre
  simp only [pieceSuggestions, piecesBefore, piecesAfter, List.flatMap_cons, List.flatMap_nil,
    List.append_nil, Option.getD] at this
  simp only [replaceFinding]
  rw [← h2, htext, h1, List.append_assoc, List.append_assoc]
  simpa using this

/-- What two rules find in `{{ a && b }}{{ c===d }}`. -/
example : parsesTo "{{ a && b }}{{ c===d }}".toList operatorSample = true ∧
    Gives (runRules sampleConfig [twigLogicAnd, twigLogicOr] operatorSample) (fun l =>
      l.map (·.suggestions) == [[⟨⟨5, 7⟩, "and".toList⟩]]) = true ∧
    Gives (runRules sampleConfig [twigUseIsSameAs, twigUseIsNotSameAs] operatorSample) (fun l =>
      l.map (·.suggestions) == [[⟨⟨16, 20⟩, "is same as(d)".toList⟩]]) = true :=
  ⟨operatorSample_parsed, by decide +kernel, by decide +kernel⟩

/-- The replacement is not separated from its neighbours: the suggestion for `{{ a&&b }}` gives
`{{ aandb }}`, in which there is no binary expression any more. -/
theorem C41_fix_can_join :
    parsesTo "{{ a&&b }}".toList tightSample = true ∧
    Gives (runRules sampleConfig [twigLogicAnd] tightSample) (fun l =>
      l.map (fun x => applySuggestionsToText x.suggestions "{{ a&&b }}".toList) ==
        [some "{{ aandb }}".toList]) = true ∧
    parsesTo "{{ aandb }}".toList joinedSample = true ∧
    (Elem.root joinedSample).descendants.all (fun e => !nodeOf .TWIG_BINARY_EXPRESSION e.tree)
      = true :=
  ⟨tightSample_parsed, by decide +kernel, joinedSample_parsed, by decide +kernel⟩

/-- There is no suggestion if the left side is itself a binary expression, because that is not a
`TWIG_EXPRESSION`: the right side is then the first one and not the second one. -/
theorem C41_no_suggestion_nested :
    parsesTo "{{ a ~ b === c }}".toList nestedSample = true ∧
    Gives (runRules sampleConfig [twigUseIsSameAs] nestedSample) (fun l =>
      l.map (·.suggestions) == [[]]) = true :=
  ⟨nestedSample_parsed, by decide +kernel⟩

end Ludtwig.Rules
