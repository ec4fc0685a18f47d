import Verif.Parser.PrattLemmas

/-!
# Runs of operands and expressions (helper lemmas for C11)
-/

namespace Ludtwig

variable {s : PState} {p c : Nat} {cs ks : List Skel} {fs : List (Nat × List Skel)} {t : Token}
  {v : List Token} {er : List ParseError} {frames : List (Nat × List Skel)} {K : Knot} {k : SyntaxKind}

/-- Taking all operators gives the well-grouped expression. -/
theorem Pratt.whole {x : List Token × Tree} {rest g' rest'} (h : Pratt 0 (.operand x.1 x.2) rest g' rest')
    (hops : ∀ x ∈ rest, (rowOf x.1.kind).isSome) :
    rest' = [] ∧ WellGrouped g' ∧ g'.items = Flat.items ⟨x, rest⟩ := by
  obtain ⟨h1, _, h3⟩ := h.wellGrouped hops (.operand _ _) (by simp [Grouping.top?]) (by simp [Grouping.top?])
  have hr : rest' = [] := by
    cases hr : rest' with
    | nil => rfl
    | cons y ys =>
      subst hr
      obtain ⟨⟨l, r⟩, hpow⟩ := Option.isSome_iff_exists.1
        ((power_isSome y.1.kind).2 (hops y (h.suffix.subset (by simp))))
      exact absurd (h3 y rfl l r hpow) (by omega)
  refine ⟨hr, h1, ?_⟩
  have := h.items
  subst hr
  simpa [restItems, Grouping.items, Flat.items] using this

/-- An operand before which a sign was taken. -/
theorem tight_run {n : Nat} {x : List Token × Tree} (hx : OperandRuns x.1 x.2) (hn : x.1.length ≤ n)
    (h : Now s ((p, cs) :: fs) (x.1 ++ v) er) (hf : Follow v) :
    Made (parseExpressionBp (knot n) 201) s p cs fs x.1 v er (.node .TWIG_EXPRESSION [x.2]) := by
  obtain ⟨c, k, ks, s1, d1, n1, f1, lt1, l1⟩ := (hx n s p cs fs _ er hn h hf).made
  obtain ⟨m, s2, d2, n2, r2, lt2⟩ := n1.wrap lt1 .TWIG_EXPRESSION
  obtain ⟨s3, d3, n3, r3⟩ := n2.peek
  refine ⟨m, _, _, s3, ?_, n3, f1.wrapped m _, lt2, by rw [r3, r2]; have := dropTrivia_le s1.rest; omega⟩
  refine d1.bind (d2.bind (Does.bind (a := m) ?_ (Does.pure _ _)))
  have hstep : Does (parseBinaryStep (knot n) 201 (false, m)) s2 (false, (false, m)) s3 := by
    refine d3.bind ?_
    cases v with
    | nil => exact Does.pure _ _
    | cons t v =>
      simp only [List.head?_cons, Option.map_some, Option.bind_some]
      have hall : ∀ k ∈ binaryOperators ++ expressionEnds, (match binaryBindingPower k with
          | none => true
          | some (l, _) => decide (l < 201)) = true := by decide +kernel
      have := hall t.kind (by have := hf t rfl; simpa using this)
      split
      · exact Does.pure _ _
      · rename_i l r he
        rw [he] at this
        rw [if_pos (of_decide_eq_true this)]
        exact Does.pure _ _
  have d0 : Does getPos s2 s2.rest.length s2 := rfl
  have dloop : Does (loopTokens (parseBinaryStep (knot n) 201) (false, m)) s2 (false, m) s3 :=
    d0.bind (hstep.bind (Does.pure _ _))
  exact dloop.bind (Does.pure _ _)

theorem signed_runs {t : Token} {o : List Token} {x : Tree} (ht : t.kind = T!"+" ∨ t.kind = T!"-")
    (hx : OperandRuns o x) :
    OperandRuns (t :: o) (.node .TWIG_UNARY_EXPRESSION [t.tree, .node .TWIG_EXPRESSION [x]]) := by
  intro n s p cs fs v er hn h hf
  simp only [List.length_cons] at hn
  obtain ⟨n', rfl⟩ : ∃ n', n = n' + 1 := ⟨n - 1, by omega⟩
  obtain ⟨s1, d1, n1, l1⟩ := h.at_false (k := T!"(") (by rcases ht with h | h <;> (rw [h]; decide))
  obtain ⟨s2, d2, n2, l2⟩ := n1.atSet_true (set := [T!"-", T!"+", T!"not", T!"..."])
    (by rcases ht with h | h <;> (rw [h]; decide))
  obtain ⟨m, s3, d3, n3, r3, lt3⟩ := n2.start
  obtain ⟨s4, d4, n4, l4, _⟩ := n3.bump
  obtain ⟨c5, k5, ks5, s5, d5, n5, f5, lt5, l5⟩ :=
    (tight_run (x := (o, x)) (n := n') hx (by simp only; omega) n4 hf).made
  obtain ⟨s6, d6, n6, r6, lt6⟩ := n5.complete .TWIG_UNARY_EXPRESSION
  have hpow : unaryBindingPower t.kind = some 201 := by rcases ht with h | h <;> (rw [h]; rfl)
  have htr : t.kind.isTrivia = false := by rcases ht with h | h <;> (rw [h]; rfl)
  refine ⟨m, _, _, s6, .ifFalse d1 (.ifTrue d2 (Does.bind (a := m) ?_ (Does.pure _ _))), n6, ?_, lt6, ?_⟩
  · refine d3.bind (d4.bind ?_)
    simp only [hpow]
    exact d5.discard.bind d6
  · have := ((Fits.one htr).append f5).wrapped m .TWIG_UNARY_EXPRESSION
    simpa using this
  · rw [r6]; rw [r3] at l4; omega

theorem expect_run (h : Now s ((p, cs) :: fs) (t :: v) er) (ht : t.kind = k) (rec : List SyntaxKind) :
    ∃ s', Does (expect_ k rec) s () s' ∧ Now s' ((p, cs ++ [.leaf (.tok t.kind)]) :: fs) v er ∧
      s'.rest.length < s.rest.length := by
  obtain ⟨s1, d1, n1, l1⟩ := h.at_true ht
  obtain ⟨s2, d2, n2, l2, _⟩ := n1.bump
  refine ⟨s2, Does.discard (a := some t) (Does.bind d1 ?_), n2, by omega⟩
  simp only [if_true]
  exact Does.bind d2 (Does.pure _ _)

theorem expectAny_run {set : List SyntaxKind} (h : Now s ((p, cs) :: fs) (t :: v) er) (ht : t.kind ∈ set)
    (rec : List SyntaxKind) :
    ∃ s', Does (expectAny_ set rec) s () s' ∧ Now s' ((p, cs ++ [.leaf (.tok t.kind)]) :: fs) v er ∧
      s'.rest.length < s.rest.length := by
  obtain ⟨s1, d1, n1, l1⟩ := h.atSet_true ht
  obtain ⟨s2, d2, n2, l2, _⟩ := n1.bump
  refine ⟨s2, Does.discard (a := some t) (Does.bind d1 ?_), n2, by omega⟩
  simp only [if_true]
  exact Does.bind d2 (Does.pure _ _)

theorem noName_run (h : Now s frames (t :: v) er) (hn : isTwigName t.text = false)
    (ht : t.kind ∉ [T!"same as", T!"divisible by"]) :
    ∃ s', Does parseTwigName s none s' ∧ Now s' frames (t :: v) er ∧ s'.rest.length ≤ s.rest.length := by
  obtain ⟨s1, d1, n1, l1⟩ := h.atSet_false ht
  obtain ⟨s2, d2, n2, r2⟩ := n1.peekToken
  refine ⟨s2, ?_, n2, by rw [r2]; have := dropTrivia_le s1.rest; omega⟩
  refine d1.bind (d2.bind ?_)
  simp only [List.head?_cons, hn, Bool.not_false, Bool.and_self, if_true]
  exact Does.pure _ _

/-- What the first token of an operand can be. -/
inductive OperandStart : List Token → Tree → Prop
  | name (t : Token) : t.kind = T!"word" → isTwigName t.text = true →
      OperandStart [t] (.node .TWIG_LITERAL_NAME [t.tree])
  | sign (t : Token) (o x) : (unaryBindingPower t.kind).isSome → OperandStart (t :: o) x
  | other (t : Token) (o x) : t.kind ≠ T!"word" → unaryBindingPower t.kind = none →
      t.kind ∉ [T!"same as", T!"divisible by"] → OperandStart (t :: o) x

theorem IsOperand.start {o x} (h : IsOperand o x) : OperandStart o x := by
  cases h with
  | number t ht => exact .other t _ _ (by rw [ht]; decide) (by rw [ht]; rfl) (by rw [ht]; decide)
  | null t ht => exact .other t _ _ (by rw [ht]; decide) (by rw [ht]; rfl) (by rw [ht]; decide)
  | boolean t ht =>
    rcases ht with ht | ht <;>
      exact .other t _ _ (by rw [ht]; decide) (by rw [ht]; rfl) (by rw [ht]; decide)
  | name t ht hn => exact .name t ht hn
  | signed t o x ht _ => exact .sign t _ _ (by rcases ht with ht | ht <;> (rw [ht]; rfl))
  | parens l r f g ht =>
    exact .other l _ _ (by rw [ht]; decide) (by rw [ht]; rfl) (by rw [ht]; decide)

/-- The part of a flat sequence between parentheses. -/
theorem inner_run {n : Nat} {f : Flat} {g : Grouping} {r : Token} (hstart : OperandStart f.first.1 f.first.2)
    (hfirst : OperandRuns f.first.1 f.first.2) (hrest : ∀ x ∈ f.rest, OperandRuns x.2.1 x.2.2)
    (hops : ∀ x ∈ f.rest, (rowOf x.1.kind).isSome)
    (hnames : ∀ t ∈ f.first.1.head?, isTwigName t.text = true → t.kind = T!"word")
    (hg : WellGrouped g) (hi : g.items = f.items) (hr : r.kind = T!")") (hf : Follow v)
    (hn : f.tokens.length < n) (h : Now s ((p, cs) :: fs) (f.tokens ++ r :: v) er) :
    ∃ c k ks s', Does (parseParenInner (knot n)) s false s' ∧
      Now s' ((p, cs ++ [.node c k ks]) :: fs) (r :: v) er ∧ Fits [.node c k ks] f.tokens [g.expr] ∧ p < c ∧
      s'.rest.length < s.rest.length := by
  obtain ⟨n', rfl⟩ : ∃ n', n = n' + 1 := ⟨n - 1, by omega⟩
  have hw : FollowEnd (r :: v) := by
    intro t ht
    cases ht
    rw [hr]
    decide
  simp only [Flat.tokens, List.length_append] at hn
  rw [Flat.tokens, List.append_assoc] at h
  have hloop : ∀ m, (restTokens f.rest).length ≤ m → LoopRuns m f.rest (r :: v) := fun m hm =>
    loop_runs _ m f.rest (r :: v) (Nat.le_refl _) hm hrest hops hw
  obtain ⟨s1, d1, n1, r1⟩ := h.peek
  have l1 : s1.rest.length ≤ s.rest.length := by rw [r1]; exact dropTrivia_le _
  -- an expression, after the checks
  have hexpr : ∀ s2, Now s2 ((p, cs) :: fs) (f.first.1 ++ (restTokens f.rest ++ r :: v)) er →
      ∃ c k ks s', Does (do discard' ((knot (n' + 1)).exprBp 0); return false) s2 false s' ∧
      Now s' ((p, cs ++ [.node c k ks]) :: fs) (r :: v) er ∧ Fits [.node c k ks] f.tokens [g.expr] ∧ p < c ∧
      s'.rest.length < s2.rest.length := by
    intro s2 n2
    obtain ⟨c', k', ks', s', g', rest', used, d3, hp, n3, lt3, f3, e3, l3⟩ :=
      expr_run (min := 0) (n := n') hfirst (by omega) (hloop n' (by omega)) hops hw n2
    obtain ⟨rfl, hg', hi'⟩ := hp.whole hops
    have : g = g' := wellGrouped_unique hg hg' (hi.trans hi'.symm)
    subst this
    have e3' : used = restTokens f.rest := by simpa [restTokens] using e3.symm
    subst e3'
    exact ⟨c', k', ks', s', d3.discard.bind (Does.pure _ _), by simpa [restTokens] using n3, f3, lt3, l3⟩
  have hheadEq : ∀ t o, f.first.1 = t :: o →
      ((f.first.1 ++ (restTokens f.rest ++ r :: v)).head?.map (·.kind)).map unaryBindingPower =
        some (unaryBindingPower t.kind) := by
    intro t o he; rw [he]; rfl
  generalize hfo : f.first.1 = o at hstart
  generalize hfx : f.first.2 = x at hstart
  cases hstart with
  | sign t o x ht =>
    obtain ⟨u, hu⟩ := Option.isSome_iff_exists.1 ht
    obtain ⟨c', k', ks', s', d3, rest⟩ := hexpr s1 n1
    refine ⟨c', k', ks', s', ?_, rest.1, rest.2.1, rest.2.2.1, by have := rest.2.2.2; omega⟩
    refine d1.bind ?_
    rw [hheadEq t o hfo, hu]
    exact d3
  | other t o x hword hu hspecial =>
    have hname : isTwigName t.text = false := by
      cases hb : isTwigName t.text with
      | false => rfl
      | true => exact absurd (hnames t (by rw [hfo]; rfl) hb) hword
    have n1' := n1
    rw [hfo, List.cons_append] at n1'
    obtain ⟨s2, d2, n2, l2⟩ := noName_run n1' hname hspecial
    rw [← List.cons_append, ← hfo] at n2
    obtain ⟨c', k', ks', s', d3, rest⟩ := hexpr s2 n2
    refine ⟨c', k', ks', s', ?_, rest.1, rest.2.1, rest.2.2.1, by have := rest.2.2.2; omega⟩
    refine d1.bind ?_
    rw [hheadEq t o hfo, hu]
    exact d2.bind d3
  | name t hword hname =>
    have n1' := n1
    rw [hfo, List.cons_append, List.nil_append] at n1'
    obtain ⟨c2, ks2, s2, d2, n2, f2, lt2, l2⟩ := parseTwigName_run n1' hword hname
    have hff : Follow (restTokens f.rest ++ r :: v) := rest_head_follow hops hw
    -- not at the arguments of an arrow function
    obtain ⟨s3, d3, n3, r3⟩ := n2.at' T!","
    have hcomma : ((restTokens f.rest ++ r :: v).head?.map (·.kind) == some T!",") = false := by
      rw [beq_eq_false_iff_ne]
      cases hrs : f.rest with
      | nil => simp [restTokens, hr]
      | cons y ys =>
        simp only [restTokens, List.flatMap_cons, List.cons_append, List.head?_cons, Option.map_some, ne_eq,
          Option.some.injEq]
        intro he
        have := hops y (by rw [hrs]; simp)
        rw [he] at this
        exact absurd this (by decide +kernel)
    rw [hcomma] at d3
    obtain ⟨s4, b, d4, n4, hb, l4⟩ : ∃ s4 b, Does (atFollowing [T!")", T!"=>"]) s3 b s4 ∧
        Now s4 ((p, cs ++ [.node c2 .TWIG_LITERAL_NAME ks2]) :: fs) (restTokens f.rest ++ r :: v) er ∧
        b = false ∧ s4.rest.length ≤ s3.rest.length := by
      obtain ⟨s4, b, h1, h2, h3⟩ := C12_following s3 [T!")", T!"=>"]
      rw [n3.view] at h3
      refine ⟨s4, b, h2, ⟨?_, h1.2.1.trans n3.view, ?_⟩, ?_, ?_⟩
      · rw [h1.1]; exact n3.built
      · rw [h1.1]; exact n3.errs
      · cases b with
        | false => rfl
        | true =>
          obtain ⟨_, hpre⟩ := h3.1 rfl
          exfalso
          cases hrs : f.rest with
          | nil =>
            rw [hrs] at hpre
            simp only [restTokens, List.flatMap_nil, List.nil_append, List.map_cons, List.cons_prefix_cons] at hpre
            cases v with
            | nil => simp at hpre
            | cons t' v' =>
              simp only [List.map_cons, List.cons_prefix_cons] at hpre
              have := hf t' rfl
              rw [← hpre.2.1] at this
              exact absurd this (by decide +kernel)
          | cons y ys =>
            rw [hrs] at hpre
            simp only [restTokens, List.flatMap_cons, List.cons_append, List.map_cons,
              List.cons_prefix_cons] at hpre
            have := hops y (by rw [hrs]; simp)
            rw [← hpre.1] at this
            exact absurd this (by decide +kernel)
      · exact h1.2.2.length_le
    subst hb
    obtain ⟨s5, d5, n5, l5⟩ := n4.at_follow hff (k := T!"(") (by decide +kernel)
    obtain ⟨s6, d6, n6, l6⟩ := postfix_none (K := knot (n' + 1)) (c := c2) n5 hff
    obtain ⟨m, s7, d7, n7, r7, lt7⟩ := n6.wrap lt2 .TWIG_EXPRESSION
    obtain ⟨c', k', ks', s', g', rest', used, d8, hp, n8, lt8, f8, e8, l8⟩ :=
      rhs_run (min := 0) (hloop (n' + 1) (by omega)) hops hw n7 lt7 (f2.wrapped m .TWIG_EXPRESSION) [t]
    obtain ⟨rfl, hg', hi'⟩ := Pratt.whole (x := ([t], _)) hp hops
    have : g = g' := wellGrouped_unique hg hg' (by
      rw [hi, hi']
      simp only [Flat.items, hfo, hfx])
    subst this
    have e8' : used = restTokens f.rest := by simpa [restTokens] using e8.symm
    subst e8'
    refine ⟨c', k', ks', s', ?_, by simpa [restTokens] using n8, ?_, lt8, ?_⟩
    · refine d1.bind ?_
      rw [hheadEq t [] hfo, hword]
      refine d2.bind ?_
      have dor : Does (P.or (at' T!",") (atFollowing [T!")", T!"=>"])) s2 false s4 := .ifFalse d3 d4
      exact .ifFalse dor ((Does.ifFalse d5 (Does.pure _ _)).bind (d6.bind (d7.bind (d8.discard.bind (Does.pure _ _)))))
    · rw [Flat.tokens, hfo]; exact f8
    · have : s3.rest.length ≤ s2.rest.length := by rw [r3]; exact dropTrivia_le _
      rw [r7] at l8
      omega

theorem parens_runs {l r : Token} {f : Flat} {g : Grouping} (hl : l.kind = T!"(") (hr : r.kind = T!")")
    (hstart : OperandStart f.first.1 f.first.2)
    (hfirst : OperandRuns f.first.1 f.first.2) (hrest : ∀ x ∈ f.rest, OperandRuns x.2.1 x.2.2)
    (hops : ∀ x ∈ f.rest, (rowOf x.1.kind).isSome)
    (hnames : ∀ t ∈ f.first.1.head?, isTwigName t.text = true → t.kind = T!"word")
    (hg : WellGrouped g) (hi : g.items = f.items) :
    OperandRuns (l :: f.tokens ++ [r]) (.node .TWIG_PARENTHESES_EXPRESSION [l.tree, g.expr, r.tree]) := by
  intro n s p cs fs v er hn h hf
  simp only [List.length_append, List.length_cons, List.length_nil] at hn
  rw [List.cons_append, List.cons_append, List.append_assoc, List.singleton_append] at h
  obtain ⟨s1, d1, n1, l1⟩ := h.at_true hl
  obtain ⟨m, s2, d2, n2, r2, lt2⟩ := n1.start
  obtain ⟨s3, d3, n3, l3, _⟩ := n2.bump_
  obtain ⟨c4, k4, ks4, s4, d4, n4, f4, lt4, l4⟩ :=
    inner_run (n := n) hstart hfirst hrest hops hnames hg hi hr hf (by omega) n3
  obtain ⟨s5, d5, n5, l5⟩ := expect_run n4 hr twigExpressionRecoverySet
  obtain ⟨s6, d6, n6, r6, lt6⟩ := n5.complete .TWIG_PARENTHESES_EXPRESSION
  obtain ⟨s7, d7, n7, l7⟩ := postfix_none (K := knot n) (c := m) n6 hf
  refine ⟨m, _, _, s7, .ifTrue d1 (Does.bind (a := (m, true)) ?_ (d6.bind (d7.bind (Does.pure _ _)))), n7, ?_, lt6, ?_⟩
  · exact d2.bind (d3.bind (d4.bind (d5.bind (Does.pure _ _))))
  · have h1 : l.kind.isTrivia = false := by rw [hl]; rfl
    have h2 : r.kind.isTrivia = false := by rw [hr]; rfl
    have := ((Fits.one h1).append (f4.append (Fits.one h2))).wrapped m .TWIG_PARENTHESES_EXPRESSION
    simpa using this
  · rw [r6] at l7; rw [r2] at l3; omega

theorem IsOperand.runs {o x} (h : IsOperand o x) : OperandRuns o x := by
  induction h with
  | number t ht _ => exact number_runs ht
  | null t ht => exact null_runs ht
  | boolean t ht => exact boolean_runs ht
  | name t ht hn => exact name_runs ht hn
  | signed t o x ht _ ih => exact signed_runs ht ih
  | parens l r f g hl _ hr h1 h2 hops hnames hg hi ih1 ih2 =>
    exact parens_runs hl hr h1.start ih1 ih2 hops hnames hg hi

end Ludtwig
