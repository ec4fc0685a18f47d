import Verif.Template.StringWalk
import Verif.Shape.Props

/-!
# The strings in the tree of a template (proof device for C77)

What the trees of templates have in common: the parts of strings, no quotes in trivia, no trivia between a
directive and the node behind it, and no attribute values inside of strings of Twig.
-/

namespace Ludtwig.Template

open Rules Shape

/-- The parts of a string of this kind, without trivia. -/
def StringParts (k : SyntaxKind) (ys : List Tree) : Prop :=
  ∃ ki is, StringKinds k ki ∧ (ys = [.node ki is] ∨ ∃ a b, QuoteChar a ∧ QuoteChar b ∧ ys = [quoteLeaf a, .node ki is, quoteLeaf b])

mutual
/-- The strings of a tree without trivia have their parts. -/
def Parted : Tree → Prop
  | .token _ _ => True
  | .node k cs => (k = .TWIG_LITERAL_STRING ∨ k = .HTML_STRING → StringParts k cs) ∧ PartedAll cs
/-- The strings of the trees have their parts. -/
def PartedAll : List Tree → Prop
  | [] => True
  | x :: xs => Parted x ∧ PartedAll xs
end

mutual
/-- There are no quotes in trivia, the strings have their parts, and the directives before nodes are the same without trivia. -/
def Tidy : Tree → Prop
  | .token k t => k.isTrivia = true → ∀ q, QuoteChar q → q ∉ t
  | .node k cs => (∀ l k' ds r, cs = l ++ .node k' ds :: r → directive l.getLast? = directive (stripAll l).getLast?) ∧
      (k = .TWIG_LITERAL_STRING ∨ k = .HTML_STRING → StringParts k (stripAll cs)) ∧ TidyAll cs
/-- The same for trees. -/
def TidyAll : List Tree → Prop
  | [] => True
  | x :: xs => Tidy x ∧ TidyAll xs
end

variable {k : SyntaxKind} {x y : Tree} {cs xs ys : List Tree} {u v : List Token}

theorem partedAll_append : PartedAll (xs ++ ys) ↔ PartedAll xs ∧ PartedAll ys := by
  induction xs with
  | nil => simp [PartedAll]
  | cons x xs ih => rw [List.cons_append]; simp only [PartedAll, ih, and_assoc]

theorem noHtmlAll_append : NoHtmlAll (xs ++ ys) ↔ NoHtmlAll xs ∧ NoHtmlAll ys := by
  induction xs with
  | nil => simp [NoHtmlAll]
  | cons x xs ih => rw [List.cons_append]; simp only [NoHtmlAll, ih, and_assoc]

theorem intactAll_append : IntactAll (xs ++ ys) ↔ IntactAll xs ∧ IntactAll ys := by
  induction xs with
  | nil => simp [IntactAll]
  | cons x xs ih => rw [List.cons_append]; simp only [IntactAll, ih, and_assoc]

/-! ## The trees of templates have string parts -/

theorem token_leaf {t : Token} (hk : t.kind ∈ quotes) (h : ∀ q, QuoteChar q → t.kind = quoteKind q → t.text = [q]) :
    ∃ q, QuoteChar q ∧ t.tree = quoteLeaf q := by
  have : t.kind = quoteKind '"' ∨ t.kind = quoteKind '\'' := by
    simp only [quotes, List.mem_cons, List.not_mem_nil, or_false] at hk
    rcases hk with hk | hk
    · exact .inl (by rw [hk]; decide)
    · exact .inr (by rw [hk]; decide)
  rcases this with hk | hk
  · exact ⟨'"', .inl rfl, by rw [Token.tree, h _ (.inl rfl) hk, hk]; rfl⟩
  · exact ⟨'\'', .inr rfl, by rw [Token.tree, h _ (.inr rfl) hk, hk]; rfl⟩

theorem strs_parted (h : Strs u xs) (hq : ∀ t ∈ u, ∀ q, QuoteChar q → t.kind = quoteKind q → t.text = [q]) : PartedAll xs := by
  induction h with
  | nil => simp [PartedAll]
  | tok _ ih =>
    have := ih (fun t ht => hq t (by simp [ht]))
    simp [PartedAll, Parted, this]
  | two _ _ ih =>
    have := ih (fun t ht => hq t (by simp [ht]))
    simp [PartedAll, Parted, this]
  | @node k _ _ _ h _ ih =>
    have h1 : k ≠ .TWIG_LITERAL_STRING := fun e => h (by rw [e]; decide)
    have h2 : k ≠ .HTML_STRING := fun e => h (by rw [e]; decide)
    have := partedAll_append.1 (ih hq)
    simp [PartedAll, Parted, this, h1, h2]
  | @twig l v r u is xs h1 h2 _ _ _ ih1 ih2 =>
    obtain ⟨a, ha, e1⟩ := token_leaf h1 (hq l (by simp))
    obtain ⟨b, hb, e2⟩ := token_leaf h2 (hq r (by simp))
    have i1 := ih1 (fun t ht => hq t (by simp [ht]))
    have i2 := ih2 (fun t ht => hq t (by simp [ht]))
    rw [e1, e2]
    have hp : StringParts .TWIG_LITERAL_STRING [quoteLeaf a, .node .TWIG_LITERAL_STRING_INNER is, quoteLeaf b] :=
      ⟨_, is, .inl ⟨rfl, rfl⟩, .inr ⟨a, b, ha, hb, rfl⟩⟩
    have l1 : ∀ q, Parted (quoteLeaf q) := fun q => by simp [quoteLeaf, Parted]
    simp [PartedAll, Parted, hp, i1, i2, l1]
  | @html l v r u is xs h1 h2 _ _ ih1 ih2 =>
    obtain ⟨a, ha, e1⟩ := token_leaf h1 (hq l (by simp))
    obtain ⟨b, hb, e2⟩ := token_leaf h2 (hq r (by simp))
    have i1 := ih1 (fun t ht => hq t (by simp [ht]))
    have i2 := ih2 (fun t ht => hq t (by simp [ht]))
    rw [e1, e2]
    have hp : StringParts .HTML_STRING [quoteLeaf a, .node .HTML_STRING_INNER is, quoteLeaf b] :=
      ⟨_, is, .inr ⟨rfl, rfl⟩, .inr ⟨a, b, ha, hb, rfl⟩⟩
    have l1 : ∀ q, Parted (quoteLeaf q) := fun q => by simp [quoteLeaf, Parted]
    simp [PartedAll, Parted, hp, i1, i2, l1]
  | @word e t u xs _ _ _ ih =>
    have := ih (fun t ht => hq t (by simp [ht]))
    have hp : StringParts .HTML_STRING [.node .HTML_STRING_INNER [t.tree]] := ⟨_, _, .inr ⟨rfl, rfl⟩, .inl rfl⟩
    have l1 : ∀ t : Token, Parted t.tree := fun t => by simp [Token.tree, Parted]
    simp [PartedAll, Parted, hp, this, l1]
  | @var e o v c u is xs _ _ _ _ _ _ ih1 ih2 =>
    have i1 := ih1 (fun t ht => hq t (by simp [ht]))
    have i2 := ih2 (fun t ht => hq t (by simp [ht]))
    have hp : StringParts .HTML_STRING [.node .HTML_STRING_INNER [.node .TWIG_VAR (o.tree :: (is ++ [c.tree]))]] :=
      ⟨_, _, .inr ⟨rfl, rfl⟩, .inl rfl⟩
    have l1 : ∀ t : Token, Parted t.tree := fun t => by simp [Token.tree, Parted]
    simp [PartedAll, Parted, hp, i1, i2, l1, partedAll_append]

/-! ## Trees as they are parsed -/

theorem stripAll_nodes {K : SyntaxKind} {ds : List Tree} (h : .node K ds ∈ stripAll cs) : ∃ ds', .node K ds' ∈ cs := by
  rw [stripAll_flatMap, List.mem_flatMap] at h
  obtain ⟨y, hy, h⟩ := h
  rcases strip_cases y with ⟨h1, _⟩ | ⟨z, hz⟩
  · rw [h1] at h; cases h
  · rw [hz, List.mem_singleton] at h
    subst h
    obtain ⟨ds', rfl, _⟩ := strip_node hz
    exact ⟨ds', hy⟩

theorem directive_node (h : directive (some x) ≠ none) : ∃ ds, x = .node .LUDTWIG_DIRECTIVE_IGNORE ds := by
  unfold directive at h
  split at h
  · rename_i cs e; cases e; exact ⟨cs, rfl⟩
  · exact absurd rfl h

theorem words_strip (cs : List Tree) : (stripAll cs).filter (tokenOf [.TK_WORD]) = cs.filter (tokenOf [.TK_WORD]) := by
  induction cs with
  | nil => rfl
  | cons x cs ih =>
    rw [stripAll, List.filter_append, ih]
    cases x with
    | node K ds => simp [Tree.strip, tokenOf]
    | token K t =>
      by_cases hK : K.isTrivia = true
      · have : tokenOf [.TK_WORD] (.token K t) = false := by
          cases h : tokenOf [.TK_WORD] (.token K t) with
          | false => rfl
          | true =>
            have : K = .TK_WORD := by simpa [tokenOf] using h
            subst this; cases hK
        simp [Tree.strip, hK, this]
      · simp only [Tree.strip, hK, Bool.false_eq_true, if_false]
        rw [← List.filter_append]; rfl

theorem names_strip (cs : List Tree) : directiveNames (stripAll cs) = directiveNames cs := by
  unfold directiveNames
  induction cs with
  | nil => rfl
  | cons x cs ih =>
    rw [stripAll]
    cases x with
    | node K ds =>
      by_cases hK : (K == .LUDTWIG_DIRECTIVE_RULE_LIST) = true
      · rw [List.find?_cons_of_pos (show nodeOf .LUDTWIG_DIRECTIVE_RULE_LIST (.node K ds) = true from hK)]
        simp only [Tree.strip, List.singleton_append]
        rw [List.find?_cons_of_pos (show nodeOf .LUDTWIG_DIRECTIVE_RULE_LIST (.node K _) = true from hK)]
        dsimp only
        rw [words_strip]
      · rw [List.find?_cons_of_neg (show ¬ nodeOf .LUDTWIG_DIRECTIVE_RULE_LIST (.node K ds) = true from hK)]
        simp only [Tree.strip, List.singleton_append]
        rw [List.find?_cons_of_neg (show ¬ nodeOf .LUDTWIG_DIRECTIVE_RULE_LIST (.node K _) = true from hK)]
        exact ih
    | token K t =>
      rw [List.find?_cons_of_neg (by simp [nodeOf])]
      by_cases hK : K.isTrivia = true
      · simp only [Tree.strip, hK, if_true, List.nil_append]
        exact ih
      · simp only [Tree.strip, hK, Bool.false_eq_true, if_false, List.singleton_append]
        rw [List.find?_cons_of_neg (by simp [nodeOf])]
        exact ih

theorem directive_strip (h : x.strip = [y]) : directive (some x) = directive (some y) := by
  cases x with
  | token K t => 
    have := h
    cases y with
    | token k' t' => obtain ⟨h, _⟩ := strip_token h; rfl
    | node k' ds => obtain ⟨_, h, _⟩ := strip_node h; cases h
  | node K ds =>
    simp only [Tree.strip, List.cons.injEq, and_true] at h
    subst h
    by_cases hK : K = .LUDTWIG_DIRECTIVE_IGNORE
    · subst hK
      show some (directiveNames ds) = some (directiveNames (stripAll ds))
      rw [names_strip]
    · rw [directive_other hK, directive_other hK]

theorem stripAll_last (l : List Tree) (h : x.strip = [y]) : (stripAll (l ++ [x])).getLast? = some y := by
  rw [stripAll_flatMap, List.flatMap_append]
  simp [h]

theorem stripAll_skip (l : List Tree) (h : x.strip = []) : stripAll (l ++ [x]) = stripAll l := by
  rw [stripAll_flatMap, List.flatMap_append, ← stripAll_flatMap]
  simp [h]

/-- No directives in strings of Twig. -/
theorem no_directive : (production .TWIG_LITERAL_STRING_INNER).mentions ⟨true, .LUDTWIG_DIRECTIVE_IGNORE⟩ = false := by decide +kernel

theorem directive_before (ha : ∀ l x r, cs = l ++ x :: r → triviaTree x = true → BehindTrivia k r) (hc : (production k).Lang (items cs))
    {l r ds : List Tree} {k' : SyntaxKind} (h : cs = l ++ .node k' ds :: r) : directive l.getLast? = directive (stripAll l).getLast? := by
  rcases List.eq_nil_or_concat l with rfl | ⟨l', y, rfl⟩
  · rfl
  · rw [List.concat_eq_append] at h ⊢
    rw [List.getLast?_append]
    rcases strip_cases y with ⟨h1, K, t, rfl, hK⟩ | ⟨z, hz⟩
    · have hb := ha l' (.token K t) (.node k' ds :: r) (by rw [h]; simp) hK
      rcases hb with ⟨_, _, _, e⟩ | ⟨e, _⟩ | ⟨rfl, _⟩
      · cases e
      · cases e
      · show directive (some (.token K t)) = _
        rw [stripAll_skip l' h1]
        show none = _
        symm
        cases hl : (stripAll l').getLast? with
        | none => rfl
        | some z =>
          by_cases hz : directive (some z) = none
          · exact hz
          · exfalso
            obtain ⟨es, rfl⟩ := directive_node hz
            obtain ⟨es', hm⟩ := stripAll_nodes (List.mem_of_getLast? hl)
            have := lang_mentions hc _ (mem_items_node (k := .LUDTWIG_DIRECTIVE_IGNORE) (cs := es') (by rw [h]; simp [hm]))
            rw [no_directive] at this
            cases this
    · rw [stripAll_last l' hz]
      exact directive_strip hz

mutual
theorem tidy_of : ∀ {x : Tree}, Attached x → Conforms production x → PartedAll x.strip →
    (∀ p ∈ x.leaves, p.1.isTrivia = true → ∀ q, QuoteChar q → q ∉ p.2) → Tidy x
  | .token k t, _, _, _, hl => by
    rw [Tidy]
    exact hl (k, t) (by simp [Tree.leaves])
  | .node k cs, ha, hc, hp, hl => by
    rw [Attached] at ha
    rw [Conforms] at hc
    simp only [Tree.strip, PartedAll, Parted, and_true] at hp
    rw [Tree.leaves] at hl
    rw [Tidy]
    exact ⟨fun l k' ds r h => directive_before ha.1 hc.1 h, hp.1, tidyAll_of ha.2 hc.2 hp.2 hl⟩
theorem tidyAll_of : ∀ {xs : List Tree}, AttachedAll xs → ConformAll production xs → PartedAll (stripAll xs) →
    (∀ p ∈ leavesOf xs, p.1.isTrivia = true → ∀ q, QuoteChar q → q ∉ p.2) → TidyAll xs
  | [], _, _, _, _ => by simp [TidyAll]
  | x :: xs, ha, hc, hp, hl => by
    rw [AttachedAll] at ha
    rw [ConformAll] at hc
    rw [stripAll, partedAll_append] at hp
    rw [leavesOf] at hl
    rw [TidyAll]
    exact ⟨tidy_of ha.1 hc.1 hp.1 (fun p hm => hl p (by simp [hm])), tidyAll_of ha.2 hc.2 hp.2 (fun p hm => hl p (by simp [hm]))⟩
end

/-! ## No attribute values inside of strings of Twig -/

/-- The kinds of nodes inside of strings of Twig. -/
def inTwigString : List SyntaxKind :=
  [.TWIG_LITERAL_STRING, .TWIG_LITERAL_STRING_INNER, .TWIG_LITERAL_STRING_INTERPOLATION, .TWIG_EXPRESSION, .TWIG_BINARY_EXPRESSION,
    .TWIG_UNARY_EXPRESSION, .TWIG_PARENTHESES_EXPRESSION, .TWIG_CONDITIONAL_EXPRESSION, .TWIG_ACCESSOR, .TWIG_FILTER, .TWIG_INDEX_LOOKUP,
    .TWIG_FUNCTION_CALL, .TWIG_ARROW_FUNCTION, .TWIG_LITERAL_NUMBER, .TWIG_LITERAL_ARRAY, .TWIG_LITERAL_NULL, .TWIG_LITERAL_BOOLEAN,
    .TWIG_LITERAL_HASH, .TWIG_LITERAL_NAME, .TWIG_OPERAND, .TWIG_INDEX, .TWIG_INDEX_RANGE, .TWIG_ARGUMENTS, .TWIG_LITERAL_ARRAY_INNER,
    .TWIG_LITERAL_HASH_ITEMS, .TWIG_NAMED_ARGUMENT, .TWIG_LITERAL_HASH_PAIR, .TWIG_LITERAL_HASH_KEY]

/-- The kinds of nodes that an expression mentions. -/
def nodeKinds : Rx → List SyntaxKind
  | .never | .nil | .tok _ | .tokNot _ => []
  | .node ks => ks
  | .seq a b | .alt a b => nodeKinds a ++ nodeKinds b
  | .star a | .sure a => nodeKinds a

theorem mentions_kind {r : Rx} (h : r.mentions ⟨true, k⟩ = true) : k ∈ nodeKinds r := by
  induction r with
  | never => cases h
  | nil => cases h
  | tok ks => simp [Rx.mentions] at h
  | tokNot ks => simp [Rx.mentions] at h
  | node ks => simpa [Rx.mentions, nodeKinds] using h
  | seq a b iha ihb =>
    simp only [Rx.mentions, Bool.or_eq_true] at h
    exact List.mem_append.2 (h.imp iha ihb)
  | alt a b iha ihb =>
    simp only [Rx.mentions, Bool.or_eq_true] at h
    exact List.mem_append.2 (h.imp iha ihb)
  | star a ih => exact ih h
  | sure a ih => exact ih h

theorem inTwigString_closed : ∀ k ∈ inTwigString, ∀ k' ∈ nodeKinds (production k), k' ∈ inTwigString := by decide +kernel

mutual
theorem noHtml_of : ∀ {x : Tree}, Conforms production x → (∀ k cs, x = .node k cs → k ∈ inTwigString) → NoHtmlAll x.strip
  | .token k t, _, _ => by
    unfold Tree.strip
    split <;> simp [NoHtmlAll, NoHtml]
  | .node k cs, hc, hk => by
    have hk := hk k cs rfl
    rw [Conforms] at hc
    simp only [Tree.strip, NoHtmlAll, NoHtml, and_true]
    refine ⟨fun h => by subst h; exact absurd hk (by decide), noHtmlAll_of hc.2 (fun k' ds hm => ?_)⟩
    exact inTwigString_closed k hk k' (mentions_kind (lang_mentions hc.1 _ (mem_items_node hm)))
theorem noHtmlAll_of : ∀ {xs : List Tree}, ConformAll production xs → (∀ k cs, .node k cs ∈ xs → k ∈ inTwigString) → NoHtmlAll (stripAll xs)
  | [], _, _ => by simp [stripAll, NoHtmlAll]
  | x :: xs, hc, hk => by
    rw [ConformAll] at hc
    rw [stripAll, noHtmlAll_append]
    exact ⟨noHtml_of hc.1 (fun k cs h => hk k cs (by simp [h])), noHtmlAll_of hc.2 (fun k cs h => hk k cs (by simp [h]))⟩
end

theorem parts_shape (h : StringParts k ys) : StringShape ys := by
  obtain ⟨ki, is, hk, h⟩ := h
  exact ⟨ki, is, by rcases hk with ⟨_, rfl⟩ | ⟨_, rfl⟩ <;> decide, h⟩

mutual
theorem intact_of : ∀ {x : Tree}, Conforms production x → PartedAll x.strip → IntactAll x.strip
  | .token k t, _, _ => by
    unfold Tree.strip
    split <;> simp [IntactAll, Intact]
  | .node k cs, hc, hp => by
    have hc' := hc
    rw [Conforms] at hc
    simp only [Tree.strip, PartedAll, Parted, and_true] at hp
    simp only [Tree.strip, IntactAll, Intact, and_true]
    refine ⟨fun h => parts_shape (hp.1 h), fun h => ?_, intactAll_of hc.2 hp.2⟩
    have := noHtml_of hc' (fun k' ds e => by cases e; rw [h]; decide)
    simp only [Tree.strip, NoHtmlAll, NoHtml, and_true] at this
    exact this.2
theorem intactAll_of : ∀ {xs : List Tree}, ConformAll production xs → PartedAll (stripAll xs) → IntactAll (stripAll xs)
  | [], _, _ => by simp [stripAll, IntactAll]
  | x :: xs, hc, hp => by
    rw [ConformAll] at hc
    rw [stripAll, partedAll_append] at hp
    rw [stripAll, intactAll_append]
    exact ⟨intact_of hc.1 hp.1, intactAll_of hc.2 hp.2⟩
end

end Ludtwig.Template
