import Verif.Parser.OperandLemmas
import Verif.Parser.Parse

/-!
# Operator precedence (C11)
-/

namespace Ludtwig

/-- The operands of the flat sequence are operands and its operators are in the operator table. -/
structure Flat.Ok (f : Flat) : Prop where
  first : IsOperand f.first.1 f.first.2
  rest : ∀ x ∈ f.rest, IsOperand x.2.1 x.2.2
  ops : ∀ x ∈ f.rest, (rowOf x.1.kind).isSome

/-- **C11**, inside a document — In any state of the parser, if the significant tokens ahead are a
flat sequence of operands and binary operators followed by a token that ends an expression, then
`parse_twig_expression` takes exactly this sequence, records no error and appends one node to the
open node. This node becomes the expression of the well-grouped grouping of the sequence. -/
theorem C11_expression {f : Flat} (hf : f.Ok) {n : Nat} (hn : f.tokens.length < n) {s : PState} {p : Nat}
    {cs : List Skel} {fs : List (Nat × List Skel)} {w : List Token} {er : List ParseError}
    (hw : FollowEnd w) (h : Now s ((p, cs) :: fs) (f.tokens ++ w) er) :
    ∃ g c k ks s', WellGrouped g ∧ g.items = f.items ∧ (knot n).expr s = .ok (some c, s') ∧
      Now s' ((p, cs ++ [.node c k ks]) :: fs) w er ∧ Fits [.node c k ks] f.tokens [g.expr] ∧
      s'.rest.length < s.rest.length := by
  obtain ⟨n', rfl⟩ : ∃ n', n = n' + 1 := ⟨n - 1, by omega⟩
  simp only [Flat.tokens, List.length_append] at hn
  rw [Flat.tokens, List.append_assoc] at h
  obtain ⟨c', k', ks', s', g', rest', used, d3, hp, n3, lt3, f3, e3, l3⟩ :=
    expr_run (min := 0) (n := n') hf.first.runs (by omega)
      (loop_runs _ n' f.rest w (Nat.le_refl _) (by omega) (fun x hx => (hf.rest x hx).runs) hf.ops hw) hf.ops hw h
  obtain ⟨rfl, hg', hi'⟩ := hp.whole hf.ops
  have e3' : used = restTokens f.rest := by simpa [restTokens] using e3.symm
  subst e3'
  exact ⟨g', c', k', ks', s', hg', hi', d3, by simpa [restTokens] using n3, f3, l3⟩

/-- C11 — There is only one well-grouped grouping of a sequence, so the tree of `C11_expression` and
of `C11_variable` is determined by the operator table. -/
theorem C11_unique {g g' : Grouping} (h : WellGrouped g) (h' : WellGrouped g') (he : g.items = g'.items) :
    g = g' := wellGrouped_unique h h' he

/-- **C11** — A file whose significant tokens are `{{`, a flat sequence of operands and binary
operators, and `}}` (with any trivia between them and any whitespace control) is parsed without
errors, and without its trivia the tree is the well-grouped grouping of the sequence. -/
theorem C11_variable {f : Flat} (hf : f.Ok) {op cl : Token} (hop : op.kind ∈ twigVarOpenSet)
    (hcl : cl.kind ∈ twigVarCloseSet) {toks : List Token} (ht : significant toks = op :: f.tokens ++ [cl]) :
    ∃ g tree, WellGrouped g ∧ g.items = f.items ∧ parseLexed toks = .ok ⟨tree, []⟩ ∧
      tree.strip = [.node .ROOT [.node .TWIG_VAR [op.tree, g.expr, cl.tree]]] := by
  have hlen : f.tokens.length + 2 ≤ toks.length := by
    have h1 : (significant toks).length ≤ toks.length := List.length_filter_le _ _
    rw [ht] at h1
    simp at h1
    omega
  have hne : toks ≠ [] := by rintro rfl; simp at hlen
  obtain ⟨s0, hs0⟩ : ∃ s0 : PState, s0 = { rest := toks, lastRange := toks.getLast?.map (·.range), events := [], openMarkers := [], errors := [] } := ⟨_, rfl⟩
  have n0 : Now s0 [] (op :: f.tokens ++ [cl]) [] := by
    subst hs0
    exact ⟨⟨0, Built.empty⟩, ht, rfl⟩
  obtain ⟨m, s1, d1, n1, r1, _⟩ := n0.start
  -- the first step of the root
  have hopk : op.kind ∉ twigBlockOpenSet ∧ op.kind ≠ .TK_UNKNOWN ∧ op.kind.isTrivia = false := by
    have : ∀ k ∈ twigVarOpenSet, k ∉ twigBlockOpenSet ∧ k ≠ .TK_UNKNOWN ∧ k.isTrivia = false := by decide +kernel
    exact this _ hop
  have hclk : cl.kind ∈ expressionEnds ∧ cl.kind.isTrivia = false := by
    have : ∀ k ∈ twigVarCloseSet, k ∈ expressionEnds ∧ k.isTrivia = false := by decide +kernel
    exact this _ hcl
  rw [List.cons_append] at n1
  have dpos : Does getPos s1 s1.rest.length s1 := rfl
  obtain ⟨s2, d2, n2, l2⟩ := n1.at_false hopk.2.1
  obtain ⟨s3, d3, n3, r3⟩ := n2.atEnd
  have l3 : s3.rest.length ≤ s2.rest.length := by rw [r3]; exact dropTrivia_le _
  obtain ⟨s4, d4, n4, l4⟩ := n3.atSet_false hopk.1
  obtain ⟨s5, d5, n5, l5⟩ := n4.atSet_true hop
  obtain ⟨v, s6, d6, n6, r6, _⟩ := n5.start
  obtain ⟨s7, d7, n7, l7, _⟩ := n6.bump_
  obtain ⟨g, c, k, ks, s8, hg, hi, d8, n8, f8, l8⟩ :=
    C11_expression hf (n := toks.length) (by omega) (w := [cl]) (by intro t h; cases h; exact hclk.1) n7
  have d8 : Does (knot toks.length).expr s7 (some c) s8 := d8
  obtain ⟨s9, d9, n9, l9⟩ := expectAny_run n8 hcl []
  obtain ⟨s10, d10, n10, r10, _⟩ := n9.complete .TWIG_VAR
  have dor : Does (orRecover (knot toks.length).expr "twig expression" twigExpressionRecoverySet) s7 () s8 :=
    d8.bind (Does.pure _ _)
  have dstmt : Does (parseTwigVarStatement (knot toks.length)) s5 v s10 :=
    d6.bind (d7.bind (dor.bind (d9.bind d10)))
  have delem : Does (knot (toks.length + 1)).anyElement s3 (some v) s10 :=
    Does.bind (.ifFalse d4 (.ifTrue d5 (dstmt.bind (Does.pure _ _)))) (Does.pure _ _)
  have dpart : Does (parseRootPart (knot (toks.length + 1))) s3 () s10 := delem.bind (Does.pure _ _)
  have l10 : s10.rest.length < s1.rest.length := by rw [r10]; rw [r6] at l7; omega
  have dpos' : Does getPos s10 s10.rest.length s10 := rfl
  have dstep : Does (parseManyStep (fun _ => do return ((← pure false), ()))
      (fun _ => parseRootPart (knot (toks.length + 1))) ()) s1 (true, ()) s10 := by
    refine dpos.bind (d2.bind (d3.bind ?_))
    simp only [List.isEmpty_cons, Bool.false_eq_true, if_false]
    refine Does.bind (a := (false, ())) (Does.pure _ _) ?_
    simp only [Bool.false_eq_true, if_false]
    refine dpart.bind (dpos'.bind ?_)
    rw [show (s10.rest.length != s1.rest.length) = true by simp; omega]
    exact Does.pure _ _
  -- the end of the root
  obtain ⟨s11, d11, n11, r11⟩ := n10.at' .TK_UNKNOWN
  obtain ⟨s12, d12, n12, r12⟩ := n11.atEnd
  have dstep' : Does (parseManyStep (fun _ => do return ((← pure false), ()))
      (fun _ => parseRootPart (knot (toks.length + 1))) ()) s10 (false, ()) s12 :=
    dpos'.bind (d11.bind (d12.bind (Does.pure _ _)))
  have dmany : Does (parseMany (pure false) (parseRootPart (knot (toks.length + 1)))) s1 () s12 := by
    refine dpos.bind ?_
    obtain ⟨n, hn⟩ : ∃ n, s1.rest.length = n + 1 := ⟨s1.rest.length - 1, by omega⟩
    rw [hn]
    exact dstep.bind (dstep'.bind (Does.pure _ _))
  obtain ⟨next, hb⟩ := n12.built
  have dcomplete : Does (complete m .ROOT) s12 m
      { s12 with events := s12.events.set m (.startNode .ROOT none) ++ [.finishNode], openMarkers := [] } := by
    show Ludtwig.complete m .ROOT s12 = _
    unfold Ludtwig.complete
    rw [hb.opened]
    simp [hb.hole]
  have droot : Does (parseRoot (knot (toks.length + 1))) s0 m _ := d1.bind (dmany.bind dcomplete)
  have hfit := ((Fits.one hopk.2.2).append (f8.append (Fits.one hclk.2))).wrapped v .TWIG_VAR
  obtain ⟨trees, rest, hfill, hrest, hstrip⟩ := hfit.fill (ts := toks) (v := []) (by rw [ht]; simp)
  have hrest' : dropTrivia rest = [] := by
    rcases dropTrivia_cases rest with ⟨_, h2⟩ | ⟨t, v, rest, h1, h2, h3, _⟩
    · exact h2
    · rw [hrest] at h1; cases h1
  refine ⟨g, .node .ROOT (trees ++ triviaTrees rest), hg, hi, ?_, ?_⟩
  · unfold parseLexed parseTokens
    rw [← hs0, show parseRoot (knot (toks.length + 1)) s0 = _ from droot]
    dsimp only
    rw [hb.sink (ts := toks) (trees := trees ++ triviaTrees rest)]
    · dsimp only
      rw [n12.errs]
    · rw [fillAll_append]
      simp only [List.nil_append, List.append_assoc] at hfill ⊢
      rw [hfill]
      simp [fillAll, Skel.fill, Leaf.fill, hrest']
  · simp only [Tree.strip, stripAll_append, hstrip, stripAll_trivia, List.append_nil, List.cons_append,
      List.nil_append]

/-! ## Examples -/

/-- A token for the examples. -/
private def ex (k : SyntaxKind) (t : String) : Token := ⟨k, t.toList, ⟨0, 0⟩⟩

private theorem ex_name (t : String) (h : isTwigName t.toList = true) :
    IsOperand [ex T!"word" t] (.node .TWIG_LITERAL_NAME [(ex T!"word" t).tree]) :=
  .name (ex T!"word" t) rfl h

/-- `a + b * -c ** d ** e` -/
private def exFlat : Flat where
  first := ([ex T!"word" "a"], .node .TWIG_LITERAL_NAME [(ex T!"word" "a").tree])
  rest := [
    (ex T!"+" "+", [ex T!"word" "b"], .node .TWIG_LITERAL_NAME [(ex T!"word" "b").tree]),
    (ex T!"*" "*", [ex T!"-" "-", ex T!"word" "c"], .node .TWIG_UNARY_EXPRESSION
      [(ex T!"-" "-").tree, .node .TWIG_EXPRESSION [.node .TWIG_LITERAL_NAME [(ex T!"word" "c").tree]]]),
    (ex T!"**" "**", [ex T!"word" "d"], .node .TWIG_LITERAL_NAME [(ex T!"word" "d").tree]),
    (ex T!"**" "**", [ex T!"word" "e"], .node .TWIG_LITERAL_NAME [(ex T!"word" "e").tree])]

private theorem exFlat_ok : exFlat.Ok where
  first := ex_name "a" (by decide +kernel)
  rest := by
    intro x hx
    simp only [exFlat, List.mem_cons, List.not_mem_nil, or_false] at hx
    rcases hx with rfl | rfl | rfl | rfl
    · exact ex_name "b" (by decide +kernel)
    · exact .signed _ _ _ (.inr rfl) (ex_name "c" (by decide +kernel))
    · exact ex_name "d" (by decide +kernel)
    · exact ex_name "e" (by decide +kernel)
  ops := by
    intro x hx
    simp only [exFlat, List.mem_cons, List.not_mem_nil, or_false] at hx
    rcases hx with rfl | rfl | rfl | rfl <;> decide +kernel

example : ∃ g tree, WellGrouped g ∧ g.items = exFlat.items ∧
    parseLexed (ex T!"{{" "{{" :: exFlat.tokens ++ [ex T!"}}" "}}"]) = .ok ⟨tree, []⟩ ∧
    tree.strip = [.node .ROOT [.node .TWIG_VAR [(ex T!"{{" "{{").tree, g.expr, (ex T!"}}" "}}").tree]]] :=
  C11_variable exFlat_ok (op := ex T!"{{" "{{") (cl := ex T!"}}" "}}") (by decide) (by decide) (by decide +kernel)

/-- The grouping is `a + (b * (-c ** (d ** e)))`. -/
example : ∃ g, g.items = exFlat.items ∧ WellGrouped g ∧ g.top? = some T!"+" := by
  refine ⟨.binary (.operand exFlat.first.1 exFlat.first.2) (ex T!"+" "+")
    (.binary (.operand [ex T!"word" "b"] (.node .TWIG_LITERAL_NAME [(ex T!"word" "b").tree])) (ex T!"*" "*")
      (.binary (.operand [ex T!"-" "-", ex T!"word" "c"] (.node .TWIG_UNARY_EXPRESSION
        [(ex T!"-" "-").tree, .node .TWIG_EXPRESSION [.node .TWIG_LITERAL_NAME [(ex T!"word" "c").tree]]]))
        (ex T!"**" "**")
        (.binary (.operand [ex T!"word" "d"] (.node .TWIG_LITERAL_NAME [(ex T!"word" "d").tree])) (ex T!"**" "**")
          (.operand [ex T!"word" "e"] (.node .TWIG_LITERAL_NAME [(ex T!"word" "e").tree]))))), rfl, ?_, rfl⟩
  have h1 : BindsTighter .right T!"**" T!"**" := ⟨11, .right, 11, .right, by decide +kernel, by decide +kernel, by decide⟩
  have h2 : BindsTighter .right T!"**" T!"*" := ⟨11, .right, 9, .left, by decide +kernel, by decide +kernel, by decide⟩
  have h3 : BindsTighter .right T!"*" T!"+" := ⟨9, .left, 7, .left, by decide +kernel, by decide +kernel, by decide⟩
  refine .binary (.operand _ _) (.binary (.operand _ _) (.binary (.operand _ _) (.binary (.operand _ _) (.operand _ _)
    ?_ ?_ ?_) ?_ ?_ ?_) ?_ ?_ ?_) ?_ ?_ ?_
  all_goals first
    | decide +kernel
    | (simp only [Grouping.top?, Option.mem_some_iff]; rintro _ rfl; assumption)
    | (intro k hk; cases hk)

end Ludtwig
