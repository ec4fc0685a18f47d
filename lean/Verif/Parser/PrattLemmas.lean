import Verif.Parser.ExactRun
import Verif.Parser.GroupingLemmas

/-!
# Runs of the expression grammar (helper lemmas for C11)
-/

namespace Ludtwig

/-- Tokens that end an expression. -/
def expressionEnds : List SyntaxKind :=
  [T!"}}", T!"-}}", T!"~}}", T!"%}", T!"-%}", T!"~%}", T!")", T!"]", T!"}", T!",", T!":"]

/-- What may follow an operand: an operator, an end of an expression or the end of the file. -/
def Follow (v : List Token) : Prop :=
  ∀ t ∈ v.head?, t.kind ∈ binaryOperators ∨ t.kind ∈ expressionEnds

/-- What may follow an expression. -/
def FollowEnd (v : List Token) : Prop := ∀ t ∈ v.head?, t.kind ∈ expressionEnds

theorem FollowEnd.follow {v} (h : FollowEnd v) : Follow v := fun t ht => .inr (h t ht)

/-- Kinds that would continue an operand. -/
theorem Follow.ne {v : List Token} (h : Follow v) {k : SyntaxKind}
    (hk : k ∉ binaryOperators ∧ k ∉ expressionEnds) : (v.head?.map (·.kind) == some k) = false := by
  cases v with
  | nil => rfl
  | cons t v =>
    simp only [List.head?_cons, Option.map_some]
    rw [beq_eq_false_iff_ne]
    intro e
    cases e
    rcases h t rfl with h | h
    · exact hk.1 h
    · exact hk.2 h

variable {s : PState} {p c : Nat} {cs ks : List Skel} {fs : List (Nat × List Skel)} {t : Token}
  {v : List Token} {er : List ParseError} {frames : List (Nat × List Skel)} {K : Knot} {k : SyntaxKind}

theorem bne_false_of_eq {a b : Nat} (h : a = b) : (a != b) = false := by simp [h]

theorem postfixStep (h : Now s frames v er) (hf : Follow v) :
    ∃ s' b, Does (parseManyStep (fun node => pure (false, node)) (parsePostfixOperator K) c) s (b, c) s' ∧
      Now s' frames v er ∧ s'.rest = dropTrivia s.rest ∧
      (b = true → (dropTrivia s.rest).length ≠ s.rest.length) := by
  obtain ⟨s1, h1, n1, r1⟩ := h.at' .TK_UNKNOWN
  rw [hf.ne (by decide +kernel)] at h1
  obtain ⟨s2, h2, n2, r2⟩ := n1.atEnd
  have d0 : Does getPos s s.rest.length s := rfl
  cases v with
  | nil =>
    refine ⟨s2, false, ?_, n2, by rw [r2, r1, dropTrivia_twice], by simp⟩
    exact d0.bind (h1.bind (h2.bind (Does.pure _ _)))
  | cons t v =>
    obtain ⟨s3, h3, n3, r3⟩ := n2.at' T!"."
    obtain ⟨s4, h4, n4, r4⟩ := n3.at' T!"["
    obtain ⟨s5, h5, n5, r5⟩ := n4.at' T!"|"
    rw [hf.ne (by decide +kernel)] at h3 h4 h5
    have r6 : s5.rest = dropTrivia s.rest := by
      rw [r5, r4, r3, r2, r1]; simp only [dropTrivia_twice]
    have hc : Does (parsePostfixOperator K c) s2 c s5 :=
      .ifFalse h3 (.ifFalse h4 (.ifFalse h5 (Does.pure _ _)))
    have d1 : Does getPos s5 s5.rest.length s5 := rfl
    refine ⟨s5, s5.rest.length != s.rest.length, ?_, n5, r6, ?_⟩
    · refine d0.bind (h1.bind (h2.bind ?_))
      simp only [List.isEmpty_cons, Bool.false_eq_true, if_false]
      refine (Does.pure _ _).bind ?_
      simp only [Bool.false_eq_true, if_false]
      exact hc.bind (d1.bind (Does.pure _ _))
    · rw [r6]
      simp

/-- No postfix operator follows. -/
theorem postfix_none (h : Now s frames v er) (hf : Follow v) :
    ∃ s', Does (parsePostfixOperators K c) s c s' ∧ Now s' frames v er ∧ s'.rest.length ≤ s.rest.length := by
  have d0 : Does getPos s s.rest.length s := rfl
  obtain ⟨s1, b1, h1, n1, r1, e1⟩ := postfixStep (K := K) (c := c) h hf
  have hlen : (dropTrivia s.rest).length ≤ s.rest.length := (List.dropWhile_suffix _).length_le
  cases b1 with
  | false =>
    refine ⟨s1, d0.bind ?_, n1, by rw [r1]; exact hlen⟩
    exact h1.bind (Does.pure _ _)
  | true =>
    obtain ⟨s2, b2, h2, n2, r2, e2⟩ := postfixStep (K := K) (c := c) n1 hf
    have : b2 = false := by
      cases b2 with
      | false => rfl
      | true => exact absurd (by rw [r1, dropTrivia_twice]) (e2 rfl)
    subst this
    refine ⟨s2, d0.bind ?_, n2, ?_⟩
    · have : 0 < s.rest.length := by have := e1 rfl; omega
      obtain ⟨m, hm⟩ : ∃ m, s.rest.length = m + 1 := ⟨s.rest.length - 1, by omega⟩
      rw [hm]
      exact h1.bind (h2.bind (Does.pure _ _))
    · rw [r2, r1, dropTrivia_twice]; exact hlen

/-- The result of a run that consumed the tokens of a tree. -/
structure Made (f : P (Option CompletedMarker)) (s : PState) (p : Nat) (cs : List Skel)
    (fs : List (Nat × List Skel)) (o v : List Token) (er : List ParseError) (tree : Tree) : Prop where
  made : ∃ c k ks s', Does f s (some c) s' ∧ Now s' ((p, cs ++ [.node c k ks]) :: fs) v er ∧
    Fits [.node c k ks] o [tree] ∧ p < c ∧ s'.rest.length < s.rest.length

/-- The parser takes the tokens for an operand with this tree, whatever may follow. -/
def OperandRuns (o : List Token) (tree : Tree) : Prop :=
  ∀ n s p cs fs v er, o.length ≤ n → Now s ((p, cs) :: fs) (o ++ v) er → Follow v →
    Made (parseExpressionLhs (knot n)) s p cs fs o v er tree

/-! ## Single tokens -/

theorem tokenNode_run (h : Now s ((p, cs) :: fs) (t :: v) er) (ht : t.kind.isTrivia = false)
    (kind : SyntaxKind) :
    ∃ c ks s', Does (tokenNode kind) s c s' ∧ Now s' ((p, cs ++ [.node c kind ks]) :: fs) v er ∧
      Fits [.node c kind ks] [t] [.node kind [t.tree]] ∧ p < c ∧ s'.rest.length < s.rest.length := by
  obtain ⟨m, s1, h1, n1, r1, _⟩ := h.start
  obtain ⟨s2, h2, n2, l2, _⟩ := n1.bump_
  obtain ⟨s3, h3, n3, r3, hlt⟩ := n2.complete kind
  refine ⟨m, _, s3, h1.bind (h2.bind h3), n3, ?_, hlt, by rw [r3, ← r1]; exact l2⟩
  exact (Fits.one ht).wrapped m kind

theorem wordNode_run (h : Now s ((p, cs) :: fs) (t :: v) er) (ht : t.kind = T!"word") (kind : SyntaxKind) :
    ∃ c ks s', Does (wordNode kind) s c s' ∧ Now s' ((p, cs ++ [.node c kind ks]) :: fs) v er ∧
      Fits [.node c kind ks] [t] [.node kind [t.tree]] ∧ p < c ∧ s'.rest.length < s.rest.length := by
  obtain ⟨m, s1, h1, n1, r1, _⟩ := h.start
  obtain ⟨s2, h2, n2, l2, _⟩ := n1.bump (some .TK_WORD)
  obtain ⟨s3, h3, n3, r3, hlt⟩ := n2.complete kind
  refine ⟨m, _, s3, h1.bind (h2.discard.bind h3), n3, ?_, hlt, by rw [r3, ← r1]; exact l2⟩
  have : Fits [.leaf (.tok .TK_WORD)] [t] [t.tree] := by
    have := Fits.one (t := t) (by rw [ht]; rfl)
    rwa [ht] at this
  exact this.wrapped m kind

theorem parseTwigName_run (h : Now s ((p, cs) :: fs) (t :: v) er) (ht : t.kind = T!"word")
    (hn : isTwigName t.text = true) :
    ∃ c ks s', Does parseTwigName s (some c) s' ∧
      Now s' ((p, cs ++ [.node c .TWIG_LITERAL_NAME ks]) :: fs) v er ∧
      Fits [.node c .TWIG_LITERAL_NAME ks] [t] [.node .TWIG_LITERAL_NAME [t.tree]] ∧ p < c ∧
      s'.rest.length < s.rest.length := by
  obtain ⟨s1, h1, n1, r1⟩ := h.atSet [T!"same as", T!"divisible by"]
  obtain ⟨s2, h2, n2, r2⟩ := n1.peekToken
  obtain ⟨c, ks, s3, h3, n3, f3, hlt, l3⟩ := wordNode_run n2 ht .TWIG_LITERAL_NAME
  refine ⟨c, ks, s3, ?_, n3, f3, hlt, ?_⟩
  · refine h1.bind (h2.bind ?_)
    simp only [List.head?_cons, hn, Bool.not_true, Bool.and_false, Bool.false_eq_true, if_false]
    exact h3.bind (Does.pure _ _)
  · rw [r2, r1] at l3
    have : (dropTrivia s.rest).length ≤ s.rest.length := (List.dropWhile_suffix _).length_le
    have : (dropTrivia (dropTrivia s.rest)).length ≤ (dropTrivia s.rest).length :=
      (List.dropWhile_suffix _).length_le
    omega

theorem dropTrivia_le (ts : List Token) : (dropTrivia ts).length ≤ ts.length :=
  (List.dropWhile_suffix _).length_le

theorem Now.at_false (h : Now s frames (t :: v) er) {k : SyntaxKind} (hk : t.kind ≠ k) :
    ∃ s', Does (Ludtwig.at' k) s false s' ∧ Now s' frames (t :: v) er ∧ s'.rest.length ≤ s.rest.length := by
  obtain ⟨s', h1, h2, h3⟩ := h.at' k
  refine ⟨s', ?_, h2, by rw [h3]; exact dropTrivia_le _⟩
  rwa [show ((t :: v).head?.map (·.kind) == some k) = false by simpa using hk] at h1

theorem Now.at_true (h : Now s frames (t :: v) er) {k : SyntaxKind} (hk : t.kind = k) :
    ∃ s', Does (Ludtwig.at' k) s true s' ∧ Now s' frames (t :: v) er ∧ s'.rest.length ≤ s.rest.length := by
  obtain ⟨s', h1, h2, h3⟩ := h.at' k
  refine ⟨s', ?_, h2, by rw [h3]; exact dropTrivia_le _⟩
  rwa [show ((t :: v).head?.map (·.kind) == some k) = true by simpa using hk] at h1

theorem Now.atSet_false (h : Now s frames (t :: v) er) {set : List SyntaxKind} (hk : t.kind ∉ set) :
    ∃ s', Does (Ludtwig.atSet set) s false s' ∧ Now s' frames (t :: v) er ∧
      s'.rest.length ≤ s.rest.length := by
  obtain ⟨s', h1, h2, h3⟩ := h.atSet set
  refine ⟨s', ?_, h2, by rw [h3]; exact dropTrivia_le _⟩
  rwa [show ((t :: v).head?.map (·.kind)).any (fun k => set.contains k) = false by simpa using hk] at h1

theorem Now.atSet_true (h : Now s frames (t :: v) er) {set : List SyntaxKind} (hk : t.kind ∈ set) :
    ∃ s', Does (Ludtwig.atSet set) s true s' ∧ Now s' frames (t :: v) er ∧
      s'.rest.length ≤ s.rest.length := by
  obtain ⟨s', h1, h2, h3⟩ := h.atSet set
  refine ⟨s', ?_, h2, by rw [h3]; exact dropTrivia_le _⟩
  rwa [show ((t :: v).head?.map (·.kind)).any (fun k => set.contains k) = true by simpa using hk] at h1

theorem Now.at_follow (h : Now s frames v er) (hf : Follow v) {k : SyntaxKind}
    (hk : k ∉ binaryOperators ∧ k ∉ expressionEnds) :
    ∃ s', Does (Ludtwig.at' k) s false s' ∧ Now s' frames v er ∧ s'.rest.length ≤ s.rest.length := by
  obtain ⟨s', h1, h2, h3⟩ := h.at' k
  refine ⟨s', ?_, h2, by rw [h3]; exact dropTrivia_le _⟩
  rwa [hf.ne hk] at h1

/-- The start of `parse_twig_expression_lhs` for a literal. -/
theorem lhs_literal (h : Now s ((p, cs) :: fs) (t :: v) er) {w : List Token} {o : List Token} {tree : Tree}
    (h1 : t.kind ≠ T!"(") (h2 : t.kind ∉ [T!"-", T!"+", T!"not", T!"..."]) (hf : Follow w)
    (hlit : ∀ s', Now s' ((p, cs) :: fs) (t :: v) er → Made (parseTwigLiteral K) s' p cs fs o w er tree) :
    Made (parseExpressionLhs K) s p cs fs o w er tree := by
  obtain ⟨s1, d1, n1, l1⟩ := h.at_false h1
  obtain ⟨s2, d2, n2, l2⟩ := n1.atSet_false h2
  obtain ⟨c, k, ks, s3, d3, n3, f3, hlt, l3⟩ := (hlit s2 n2).made
  obtain ⟨s4, d4, n4, l4⟩ := postfix_none (K := K) (c := c) n3 hf
  exact ⟨c, k, ks, s4, .ifFalse d1 (.ifFalse d2 (d3.bind (d4.bind (Does.pure _ _)))), n4, f3, hlt, by omega⟩

theorem number_runs {t : Token} (ht : t.kind = T!"number") :
    OperandRuns [t] (.node .TWIG_LITERAL_NUMBER [t.tree]) := by
  intro n s p cs fs v er _ h hf
  refine lhs_literal h (by rw [ht]; decide) (by rw [ht]; decide) hf (fun s' h => ?_)
  obtain ⟨s1, d1, n1, l1⟩ := h.at_true ht
  obtain ⟨c, ks, s2, d2, n2, f2, hlt, l2⟩ := tokenNode_run n1 (by rw [ht]; rfl) .TWIG_LITERAL_NUMBER
  exact ⟨c, _, ks, s2, .ifTrue d1 (d2.bind (Does.pure _ _)), n2, f2, hlt, by omega⟩

theorem null_runs {t : Token} (ht : t.kind = T!"null") :
    OperandRuns [t] (.node .TWIG_LITERAL_NULL [t.tree]) := by
  intro n s p cs fs v er _ h hf
  refine lhs_literal h (by rw [ht]; decide) (by rw [ht]; decide) hf (fun s' h => ?_)
  obtain ⟨s1, d1, n1, l1⟩ := h.at_false (k := T!"number") (by rw [ht]; decide)
  obtain ⟨s2, d2, n2, l2⟩ := n1.atSet_false (set := [T!"\"", T!"'"]) (by rw [ht]; decide)
  obtain ⟨s3, d3, n3, l3⟩ := n2.at_false (k := T!"[") (by rw [ht]; decide)
  obtain ⟨s4, d4, n4, l4⟩ := n3.at_true ht
  obtain ⟨c, ks, s5, d5, n5, f5, hlt, l5⟩ := tokenNode_run n4 (by rw [ht]; rfl) .TWIG_LITERAL_NULL
  exact ⟨c, _, ks, s5, .ifFalse d1 (.ifFalse d2 (.ifFalse d3 (.ifTrue d4 (d5.bind (Does.pure _ _))))), n5, f5, hlt,
    by omega⟩

theorem boolean_runs {t : Token} (ht : t.kind = T!"true" ∨ t.kind = T!"false") :
    OperandRuns [t] (.node .TWIG_LITERAL_BOOLEAN [t.tree]) := by
  intro n s p cs fs v er _ h hf
  have hne : ∀ k, k ≠ T!"true" → k ≠ T!"false" → t.kind ≠ k := by
    rintro k h1 h2 rfl
    rcases ht with h | h <;> simp_all
  refine lhs_literal h (hne _ (by decide) (by decide)) (by rcases ht with h | h <;> (rw [h]; decide)) hf
    (fun s' h => ?_)
  obtain ⟨s1, d1, n1, l1⟩ := h.at_false (k := T!"number") (hne _ (by decide) (by decide))
  obtain ⟨s2, d2, n2, l2⟩ := n1.atSet_false (set := [T!"\"", T!"'"])
    (by rcases ht with h | h <;> (rw [h]; decide))
  obtain ⟨s3, d3, n3, l3⟩ := n2.at_false (k := T!"[") (hne _ (by decide) (by decide))
  obtain ⟨s4, d4, n4, l4⟩ := n3.at_false (k := T!"null") (hne _ (by decide) (by decide))
  obtain ⟨s5, d5, n5, l5⟩ := n4.atSet_true (set := [T!"true", T!"false"])
    (by rcases ht with h | h <;> (rw [h]; decide))
  obtain ⟨c, ks, s6, d6, n6, f6, hlt, l6⟩ := tokenNode_run n5
    (by rcases ht with h | h <;> (rw [h]; rfl)) .TWIG_LITERAL_BOOLEAN
  exact ⟨c, _, ks, s6, .ifFalse d1 (.ifFalse d2 (.ifFalse d3 (.ifFalse d4 (.ifTrue d5
    (d6.bind (Does.pure _ _)))))), n6, f6, hlt, by omega⟩

theorem name_runs {t : Token} (ht : t.kind = T!"word") (hn : isTwigName t.text = true) :
    OperandRuns [t] (.node .TWIG_LITERAL_NAME [t.tree]) := by
  intro n s p cs fs v er _ h hf
  refine lhs_literal h (by rw [ht]; decide) (by rw [ht]; decide) hf (fun s' h => ?_)
  obtain ⟨s1, d1, n1, l1⟩ := h.at_false (k := T!"number") (by rw [ht]; decide)
  obtain ⟨s2, d2, n2, l2⟩ := n1.atSet_false (set := [T!"\"", T!"'"]) (by rw [ht]; decide)
  obtain ⟨s3, d3, n3, l3⟩ := n2.at_false (k := T!"[") (by rw [ht]; decide)
  obtain ⟨s4, d4, n4, l4⟩ := n3.at_false (k := T!"null") (by rw [ht]; decide)
  obtain ⟨s5, d5, n5, l5⟩ := n4.atSet_false (set := [T!"true", T!"false"]) (by rw [ht]; decide)
  obtain ⟨s6, d6, n6, l6⟩ := n5.at_false (k := T!"{") (by rw [ht]; decide)
  obtain ⟨s7, d7, n7, r7⟩ := n6.peek
  have l7 : s7.rest.length ≤ s6.rest.length := by rw [r7]; exact dropTrivia_le _
  obtain ⟨c, ks, s8, d8, n8, f8, hlt, l8⟩ := parseTwigName_run n7 ht hn
  obtain ⟨s9, d9, n9, l9⟩ := n8.at_follow hf (k := T!"(") (by decide +kernel)
  obtain ⟨s10, d10, n10, l10⟩ := n9.at_follow hf (k := T!"=>") (by decide +kernel)
  refine ⟨c, _, ks, s10, .ifFalse d1 (.ifFalse d2 (.ifFalse d3 (.ifFalse d4 (.ifFalse d5 (.ifFalse d6 ?_))))), n10,
    f8, hlt, by omega⟩
  refine d7.bind (d8.bind ((Does.ifFalse d9 (.ifFalse d10 ?_)).bind (Does.pure _ _)))
  simp only [List.head?_cons, Option.map_some, ht]
  rw [if_neg (by decide)]
  exact Does.pure _ _

/-! ## The operators -/

/-- The operators of the rest of a flat sequence. -/
theorem rest_head_follow {rest : List (Token × (List Token × Tree))} {w : List Token}
    (hops : ∀ x ∈ rest, (rowOf x.1.kind).isSome) (hw : FollowEnd w) : Follow (restTokens rest ++ w) := by
  cases rest with
  | nil => exact hw.follow
  | cons x rest =>
    intro t ht
    simp only [restTokens, List.flatMap_cons, List.cons_append, List.head?_cons, Option.mem_some_iff] at ht
    subst ht
    exact .inl (mem_binaryOperators.2 (hops x (by simp)))

theorem power_end {k : SyntaxKind} (h : k ∈ expressionEnds) : binaryBindingPower k = none := by
  have : ∀ k ∈ expressionEnds, binaryBindingPower k = none := by decide +kernel
  exact this k h

/-- The loop that takes operators and their right operands runs like `Pratt`. -/
def LoopRuns (n : Nat) (rest : List (Token × (List Token × Tree))) (w : List Token) : Prop :=
  ∀ (s : PState) (p : Nat) (cs : List Skel) (fs : List (Nat × List Skel)) (er : List ParseError) (c : Nat)
    (k : SyntaxKind) (ks : List Skel) (g : Grouping) (o : List Token) (min fuel : Nat) (flag : Bool),
    Now s ((p, cs ++ [.node c k ks]) :: fs) (restTokens rest ++ w) er → p < c →
    Fits [.node c k ks] o [g.tree] → s.rest.length < fuel → (flag = true → g.top?.isSome) →
    ∃ flag' c' k' ks' s' g' rest' used,
      Does (loopP (parseBinaryStep (knot n) min) fuel (flag, c)) s (flag', c') s' ∧
      Pratt min g rest g' rest' ∧ Now s' ((p, cs ++ [.node c' k' ks']) :: fs) (restTokens rest' ++ w) er ∧
      p < c' ∧ Fits [.node c' k' ks'] (o ++ used) [g'.tree] ∧ restTokens rest = used ++ restTokens rest' ∧
      s'.rest.length ≤ s.rest.length ∧ (flag' = true → g'.top?.isSome) ∧ (flag' = false → flag = false ∧ g' = g)

/-- The part of an expression behind its first operand. -/
theorem rhs_run {n min : Nat} {rest : List (Token × (List Token × Tree))} {w o : List Token} {x : Tree}
    (hloop : LoopRuns n rest w) (hops : ∀ x ∈ rest, (rowOf x.1.kind).isSome) (hw : FollowEnd w)
    (h : Now s ((p, cs ++ [.node c k ks]) :: fs) (restTokens rest ++ w) er)
    (hlt : p < c) (hfit : Fits [.node c k ks] o [.node .TWIG_EXPRESSION [x]]) (o' : List Token) :
    ∃ c' k' ks' s' g' rest' used,
      Does (parseBindingPowerRhs (knot n) min c) s c' s' ∧
      Pratt min (.operand o' x) rest g' rest' ∧
      Now s' ((p, cs ++ [.node c' k' ks']) :: fs) (restTokens rest' ++ w) er ∧ p < c' ∧
      Fits [.node c' k' ks'] (o ++ used) [g'.expr] ∧ restTokens rest = used ++ restTokens rest' ∧
      s'.rest.length ≤ s.rest.length := by
  have d0 : Does getPos s s.rest.length s := rfl
  obtain ⟨flag, c1, k1, ks1, s1, g1, rest1, used, d1, hp, n1, lt1, f1, e1, l1, hflag, hflag'⟩ :=
    hloop s p cs fs er c k ks (.operand o' x) o min (s.rest.length + 1) false h hlt
      (by simpa [Grouping.tree] using hfit) (by omega) (by simp)
  have hrest1 : ∀ y ∈ rest1, (rowOf y.1.kind).isSome := fun y hy => hops y (hp.suffix.subset hy)
  -- the wrapping of a binary expression
  obtain ⟨c2, k2, ks2, s2, d2, n2, lt2, f2, l2⟩ : ∃ c2 k2 ks2 s2,
      (∀ (kont : CompletedMarker → P CompletedMarker) b s3, Does (kont c2) s2 b s3 →
        Does (if flag = true then wrap c1 .TWIG_EXPRESSION >>= kont else pure c1 >>= kont) s1 b s3) ∧
      Now s2 ((p, cs ++ [.node c2 k2 ks2]) :: fs) (restTokens rest1 ++ w) er ∧ p < c2 ∧
      Fits [.node c2 k2 ks2] (o ++ used) [g1.expr] ∧ s2.rest.length ≤ s1.rest.length := by
    cases flag with
    | false =>
      have hg := (hflag' rfl).2
      subst hg
      exact ⟨c1, k1, ks1, s1, fun _ _ _ h => h, n1, lt1, by simpa [Grouping.tree, Grouping.expr] using f1, Nat.le_refl _⟩
    | true =>
      obtain ⟨m, s2, d2, n2, r2, lt2⟩ := n1.wrap lt1 .TWIG_EXPRESSION
      refine ⟨m, _, _, s2, fun _ _ _ h => d2.bind h, n2, lt2, ?_, by rw [r2]; exact Nat.le_refl _⟩
      have := f1.wrapped m .TWIG_EXPRESSION
      cases g1 with
      | operand => simp [Grouping.top?] at hflag
      | binary a op b => simpa [Grouping.tree, Grouping.expr] using this
  -- no conditional expression
  have hf := rest_head_follow hrest1 hw
  obtain ⟨s3, d3, n3, l3⟩ := n2.at_follow hf (k := T!"?") (by decide +kernel)
  have dnot : Does (P.not (at' T!"?")) s2 true s3 := d3.bind (Does.pure _ _)
  have dcond : Does (parseConditionalExpression (knot n) c2) s2 none s3 := .ifTrue dnot (Does.pure _ _)
  have dloop : Does (loopTokens (parseBinaryStep (knot n) min) (false, c)) s (flag, c1) s1 := d0.bind d1
  by_cases hmin : min = 0
  · refine ⟨c2, k2, ks2, s3, g1, rest1, used, ?_, hp, n3, lt2, f2, e1, by omega⟩
    refine dloop.bind (d2 _ _ _ ?_)
    simp only [if_pos hmin]
    exact dcond.bind (Does.pure _ _)
  · refine ⟨c2, k2, ks2, s2, g1, rest1, used, ?_, hp, n2, lt2, f2, e1, by omega⟩
    refine dloop.bind (d2 _ _ _ ?_)
    simp only [if_neg hmin]
    exact Does.pure _ _

/-- An expression: an operand and the part behind it. -/
theorem expr_run {n min : Nat} {rest : List (Token × (List Token × Tree))} {w : List Token}
    {x : List Token × Tree} (hx : OperandRuns x.1 x.2) (hn : x.1.length ≤ n)
    (hloop : LoopRuns n rest w) (hops : ∀ x ∈ rest, (rowOf x.1.kind).isSome) (hw : FollowEnd w)
    (h : Now s ((p, cs) :: fs) (x.1 ++ (restTokens rest ++ w)) er) :
    ∃ c' k' ks' s' g' rest' used,
      Does (parseExpressionBp (knot n) min) s (some c') s' ∧
      Pratt min (.operand x.1 x.2) rest g' rest' ∧
      Now s' ((p, cs ++ [.node c' k' ks']) :: fs) (restTokens rest' ++ w) er ∧ p < c' ∧
      Fits [.node c' k' ks'] (x.1 ++ used) [g'.expr] ∧ restTokens rest = used ++ restTokens rest' ∧
      s'.rest.length < s.rest.length := by
  obtain ⟨c, k, ks, s1, d1, n1, f1, lt1, l1⟩ :=
    (hx n s p cs fs _ er hn h (rest_head_follow hops hw)).made
  obtain ⟨m, s2, d2, n2, r2, lt2⟩ := n1.wrap lt1 .TWIG_EXPRESSION
  obtain ⟨c', k', ks', s', g', rest', used, d3, hp, n3, lt3, f3, e3, l3⟩ :=
    rhs_run (min := min) hloop hops hw n2 lt2 (f1.wrapped m .TWIG_EXPRESSION) x.1
  refine ⟨c', k', ks', s', g', rest', used, ?_, hp, n3, lt3, f3, e3, by rw [r2] at l3; omega⟩
  exact d1.bind (d2.bind (d3.bind (Does.pure _ _)))

theorem loop_runs (N : Nat) : ∀ (n : Nat) (rest : List (Token × (List Token × Tree))) (w : List Token),
    rest.length ≤ N → (restTokens rest).length ≤ n → (∀ x ∈ rest, OperandRuns x.2.1 x.2.2) →
    (∀ x ∈ rest, (rowOf x.1.kind).isSome) → FollowEnd w → LoopRuns n rest w := by
  induction N with
  | zero =>
    intro n rest w hN _ _ _ hw
    have : rest = [] := List.length_eq_zero_iff.1 (by omega)
    subst this
    intro s p cs fs er c k ks g o min fuel flag h hlt hfit hfuel hflag
    obtain ⟨s1, d1, n1, r1⟩ := h.peek
    refine ⟨flag, c, k, ks, s1, g, [], [], ?_, .stop (by simp), n1, hlt, by simpa using hfit, by simp,
      by rw [r1]; exact dropTrivia_le _, hflag, fun h => ⟨h, rfl⟩⟩
    cases fuel with
    | zero => omega
    | succ fuel =>
      have : Does (parseBinaryStep (knot n) min (flag, c)) s (false, (flag, c)) s1 := by
        refine d1.bind ?_
        have hnone : ((restTokens [] ++ w).head?.map (·.kind)).bind binaryBindingPower = none := by
          cases w with
          | nil => rfl
          | cons t w => exact power_end (hw t rfl)
        rw [hnone]
        exact Does.pure _ _
      exact this.bind (Does.pure _ _)
  | succ N ih =>
    intro n rest w hN hlen hruns hops hw
    cases rest with
    | nil => exact ih n [] w (by simp) hlen hruns hops hw
    | cons y rest =>
      obtain ⟨op, x⟩ := y
      intro s p cs fs er c k ks g o min fuel flag h hlt hfit hfuel hflag
      obtain ⟨⟨l, r⟩, hpow⟩ := Option.isSome_iff_exists.1 ((power_isSome op.kind).2 (hops (op, x) (by simp)))
      have hrest : ∀ y ∈ rest, (rowOf y.1.kind).isSome := fun y hy => hops y (by simp [hy])
      have hruns' : ∀ y ∈ rest, OperandRuns y.2.1 y.2.2 := fun y hy => hruns y (by simp [hy])
      have e0 : restTokens ((op, x) :: rest) = op :: (x.1 ++ restTokens rest) := by simp [restTokens]
      rw [e0] at hlen
      simp only [List.length_cons, List.length_append] at hlen
      obtain ⟨n', rfl⟩ : ∃ n', n = n' + 1 := ⟨n - 1, by omega⟩
      cases fuel with
      | zero => omega
      | succ fuel =>
        obtain ⟨s1, d1, n1, r1⟩ := h.peek
        have hhead : ((restTokens ((op, x) :: rest) ++ w).head?.map (·.kind)).bind binaryBindingPower =
            some (l, r) := by
          rw [e0]; exact hpow
        by_cases hmin : l < min
        · refine ⟨flag, c, k, ks, s1, g, (op, x) :: rest, [], ?_, .stop ?_, n1, hlt, by simpa using hfit, by simp,
            by rw [r1]; exact dropTrivia_le _, hflag, fun h => ⟨h, rfl⟩⟩
          · have : Does (parseBinaryStep (knot (n' + 1)) min (flag, c)) s (false, (flag, c)) s1 := by
              refine d1.bind ?_
              rw [hhead]
              simp only [if_pos hmin]
              exact Does.pure _ _
            exact this.bind (Does.pure _ _)
          · simp only [List.head?_cons, Option.mem_some_iff]
            rintro _ rfl l' r' h'
            rw [hpow] at h'
            cases h'
            exact hmin
        · have n1' := n1
          rw [e0, List.cons_append, List.append_assoc] at n1'
          obtain ⟨s2, d2, n2, l2, _⟩ := n1'.bump_
          rw [List.append_assoc] at n2
          obtain ⟨m, s3, d3, n3, r3⟩ := n2.precede (pre := cs) (post := [.leaf (.tok op.kind)]) hlt
          have hloop' : LoopRuns n' rest w :=
            ih n' rest w (by simpa using hN) (by omega) hruns' hrest hw
          obtain ⟨c4, k4, ks4, s4, g1, rest1, used1, d4, hp4, n4, lt4, f4, e4, l4⟩ :=
            expr_run (min := r) (hruns (op, x) (by simp)) (by simp only; omega) hloop' hrest hw n3
          obtain ⟨s5, d5, n5, r5, lt5⟩ := n4.complete .TWIG_BINARY_EXPRESSION
          have hsuf := hp4.suffix
          have hlen1 : (restTokens rest1).length ≤ n' := by
            have := congrArg List.length e4
            simp only [List.length_append] at this
            omega
          have hop : op.kind.isTrivia = false := by
            have : ∀ k ∈ binaryOperators, k.isTrivia = false := by decide +kernel
            exact this _ (mem_binaryOperators.2 (hops (op, x) (by simp)))
          have hfit' : Fits [.node m .TWIG_BINARY_EXPRESSION (.node c k ks :: [.leaf (.tok op.kind)] ++ [.node c4 k4 ks4])]
              (o ++ op :: (x.1 ++ used1)) [(Grouping.binary g op g1).tree] := by
            have := (hfit.append ((Fits.one hop).append f4)).wrapped m .TWIG_BINARY_EXPRESSION
            simpa [Grouping.tree] using this
          have hl5 : s5.rest.length < s.rest.length := by
            have : s1.rest.length ≤ s.rest.length := by rw [r1]; exact dropTrivia_le _
            rw [r3] at l4
            rw [r5]
            omega
          obtain ⟨flag', c6, k6, ks6, s6, g', rest', used, d6, hp6, n6, lt6, f6, e6, l6, t6, t6'⟩ :=
            ih (n' + 1) rest1 w (by have := hsuf.length_le; simp at hN; omega) (by omega)
              (fun y hy => hruns' y (hsuf.subset hy)) (fun y hy => hrest y (hsuf.subset hy)) hw
              s5 p cs fs er m .TWIG_BINARY_EXPRESSION _ (.binary g op g1) _ min fuel true n5 lt5 hfit'
              (by omega) (by simp [Grouping.top?])
          refine ⟨flag', c6, k6, ks6, s6, g', rest', op :: (x.1 ++ used1) ++ used, ?_, .step hpow (by omega) hp4 hp6,
            n6, lt6, by simpa using f6, by rw [e0, e4, e6]; simp, by omega, t6, ?_⟩
          · have hstep : Does (parseBinaryStep (knot (n' + 1)) min (flag, c)) s (true, (true, m)) s5 := by
              refine d1.bind ?_
              rw [hhead]
              simp only [if_neg hmin]
              exact d2.bind (d3.bind (d4.bind (d5.bind (Does.pure _ _))))
            exact hstep.bind d6
          · intro hfalse
            exact absurd (t6' hfalse).1 (by simp)

end Ludtwig
