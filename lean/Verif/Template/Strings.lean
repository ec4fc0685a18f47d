import Verif.Template.Spec

/-!
# The strings of a template (proof device for C75)

`Strs u xs`: the tokens of the trees `xs` are `u`, and every string has its quotes, or it is a word or
`{{ … }}` behind `=`. The grammar of templates has this property.
-/

namespace Ludtwig.Template

/-- A node. -/
def IsNode : Tree → Prop
  | .token _ _ => False
  | .node _ _ => True

/-- A part of a string: a token or an interpolation. -/
def IsStringPart : Tree → Prop
  | .token _ _ => True
  | .node k _ => k = .TWIG_LITERAL_STRING_INTERPOLATION

/-- The strings, their contents and the file: the nodes at whose end whitespace may stand, and the strings themselves. -/
def textKinds : List SyntaxKind := [.TWIG_LITERAL_STRING, .HTML_STRING, .ROOT, .HTML_STRING_INNER, .TWIG_LITERAL_STRING_INNER]

/-- Tokens and trees, with the strings. -/
inductive Strs : List Token → List Tree → Prop
  | nil : Strs [] []
  | tok {t k u xs} : Strs u xs → Strs (t :: u) (.token k t.text :: xs)
  | two {c t k u xs} : Adjacent c t → Strs u xs → Strs (c :: t :: u) (.token k (c.text ++ t.text) :: xs)
  | node {k cs u xs} : k ∉ textKinds → Strs u (cs ++ xs) → Strs u (.node k cs :: xs)
  | twig {l v r u is xs} : l.kind ∈ quotes → r.kind ∈ quotes → (∀ x ∈ is, IsStringPart x) → Strs v is → Strs u xs →
      Strs (l :: (v ++ r :: u)) (.node .TWIG_LITERAL_STRING [l.tree, .node .TWIG_LITERAL_STRING_INNER is, r.tree] :: xs)
  | html {l v r u is xs} : l.kind ∈ quotes → r.kind ∈ quotes → Strs v is → Strs u xs →
      Strs (l :: (v ++ r :: u)) (.node .HTML_STRING [l.tree, .node .HTML_STRING_INNER is, r.tree] :: xs)
  | word {e t u xs} : e.kind = T!"=" → t.kind = T!"word" → Strs u xs →
      Strs (e :: t :: u) (e.tree :: .node .HTML_STRING [.node .HTML_STRING_INNER [t.tree]] :: xs)
  | var {e o v c u is xs} : e.kind = T!"=" → o.kind ∈ varOpens → c.kind ∈ varCloses → (∀ x ∈ is, IsNode x) →
      Strs v is → Strs u xs →
      Strs (e :: o :: (v ++ c :: u)) (e.tree :: .node .HTML_STRING [.node .HTML_STRING_INNER
        [.node .TWIG_VAR (o.tree :: (is ++ [c.tree]))]] :: xs)

variable {blank : Nat → Prop} {t : Token} {u v w : List Token} {x y : Tree} {xs ys zs : List Tree}

theorem strs_append (h : Strs u xs) (h' : Strs w ys) : Strs (u ++ w) (xs ++ ys) := by
  induction h with
  | nil => exact h'
  | tok _ ih => exact .tok ih
  | two h _ ih => exact .two h ih
  | node h1 _ ih =>
    refine .node h1 ?_
    show Strs _ (_ ++ (_ ++ _))
    rw [← List.append_assoc]
    exact ih
  | twig h1 h2 h3 h4 _ _ ih =>
    have := Strs.twig h1 h2 h3 h4 ih
    simpa using this
  | html h1 h2 h3 _ _ ih =>
    have := Strs.html h1 h2 h3 ih
    simpa using this
  | word h1 h2 _ ih => exact .word h1 h2 ih
  | var h1 h2 h3 h4 h5 _ _ ih =>
    have := Strs.var h1 h2 h3 h4 h5 ih
    simpa using this

theorem strs_one (h : Strs u [x]) (h' : Strs w ys) : Strs (u ++ w) (x :: ys) := strs_append h h'

theorem strs_last (h : Strs u xs) : Strs (u ++ []) (xs ++ []) := by simpa using h

theorem strs_tok (h : Strs u xs) : Strs (t :: u) (t.tree :: xs) := .tok h

theorem strs_word (h : Strs u xs) : Strs (t :: u) (wordTree t :: xs) := .tok h

theorem strs_name (h : Strs u xs) : Strs (t :: u) (nameTree t :: xs) :=
  .node (by decide) (strs_word h)

theorem strs_tagName (h : Strs u xs) : Strs (t :: u) (tagNameTree t :: xs) := by
  unfold tagNameTree
  split
  · exact strs_tok h
  · exact strs_word h

theorem strs_toks (h : Strs u xs) : Strs (w ++ u) (w.map Token.tree ++ xs) := by
  induction w with
  | nil => exact h
  | cons t w ih => exact strs_tok ih

theorem strs_node {k : SyntaxKind} {cs : List Tree} (hk : k ∉ textKinds) (h : Strs u cs)
    (h' : Strs w xs) : Strs (u ++ w) (.node k cs :: xs) :=
  .node hk (strs_append h h')

theorem strs_flat {k : SyntaxKind} {cs : List Tree} (hk : k ∉ textKinds)
    (h : Strs u (cs ++ xs)) : Strs u (.node k cs :: xs) :=
  .node hk h

/-! ## Operands and operators -/

/-- The tokens of items. -/
def itemToks (is : List Item) : List Token := is.flatMap fun
  | .operand u _ => u
  | .op t => [t]

theorem itemToks_append {is js : List Item} : itemToks (is ++ js) = itemToks is ++ itemToks js := List.flatMap_append

theorem strs_grouping (g : Grouping) (h : ∀ u x, .operand u x ∈ g.items → Strs u [x]) :
    Strs (itemToks g.items) [g.tree] ∧ Strs (itemToks g.items) [g.expr] := by
  induction g with
  | operand u x =>
    have h1 : Strs (itemToks (Grouping.operand u x).items) ([x] ++ []) := by
      have := strs_last (h u x (by simp [Grouping.items]))
      simpa [Grouping.items, itemToks] using this
    exact ⟨strs_flat (by decide) h1, strs_flat (by decide) h1⟩
  | binary l op r ih1 ih2 =>
    have h1 := (ih1 (fun u x hx => h u x (by simp [Grouping.items, hx]))).1
    have h2 := (ih2 (fun u x hx => h u x (by simp [Grouping.items, hx]))).2
    have h3 : Strs (itemToks (Grouping.binary l op r).items) ([l.tree, op.tree, r.expr] ++ []) := by
      have := strs_one h1 (strs_tok (t := op) h2)
      simpa [Grouping.items, itemToks] using this
    exact ⟨strs_flat (by decide) h3, strs_flat (by decide) (strs_flat (by decide) (by simpa using h3))⟩

theorem flat_toks (first : Operand) (rest : List (Token × Operand)) : itemToks (flatOf first rest).items = (flatOf first rest).tokens := by
  unfold flatOf Flat.items Flat.tokens itemToks restTokens
  simp only [List.flatMap_cons]
  congr 1
  induction rest with
  | nil => rfl
  | cons r rest ih => simp only [List.map_cons, List.flatMap_cons, List.flatMap_append, ih, List.flatMap_nil, List.append_nil, List.singleton_append]

/-! ## The grammar -/

/-- `{{ … }}`. -/
def VarLike (u : List Token) (xs : List Tree) : Prop :=
  ∃ o v c is, u = o :: (v ++ [c]) ∧ xs = [.node .TWIG_VAR (o.tree :: (is ++ [c.tree]))] ∧ o.kind ∈ varOpens ∧
    c.kind ∈ varCloses ∧ (∀ x ∈ is, IsNode x) ∧ Strs v is

theorem VarLike.strs (h : VarLike u xs) : Strs u xs := by
  obtain ⟨o, v, c, is, rfl, rfl, _, _, _, h⟩ := h
  exact strs_flat (by decide) (strs_tok (by simpa using strs_append h (strs_tok .nil)))

/-- What is shown of the nonterminals. -/
def Sound : Nt → List Token → List Tree → Prop
  | .postfixes x, u, xs => ∀ v, Strs v [x] → Strs (v ++ u) xs
  | .applied ys, u, xs => ∀ v, Strs v ys → Strs (v ++ u) xs
  | .attrValue, u, xs => ∀ e : Token, e.kind = T!"=" → Strs (e :: u) (e.tree :: xs)
  | .optValue _ n, u, xs => n ∉ textKinds → Strs u xs
  | .optCall _ n, u, xs => n ∉ textKinds → Strs u xs
  | .var, u, xs => VarLike u xs
  | _, u, xs => Strs u xs

theorem expr_node (h : T blank .expr u [x]) : IsNode x := by
  have key : ∀ {n u xs}, T blank n u xs → ((∃ t e, n = .terms t e) ∨ (∃ d, n = .exprOf d) ∨ n = .expr) → ∀ x ∈ xs, IsNode x := by
    intro n u xs h
    induction h with
    | @terms _ _ _ g =>
      intro _ x hx
      cases List.mem_singleton.1 hx
      cases g <;> trivial
    | anyExpr _ ih => exact fun _ => ih (.inr (.inl ⟨_, rfl⟩))
    | expr _ ih => exact fun _ => ih (.inl ⟨_, _, rfl⟩)
    | conditional | conditionalThen | conditionalElse =>
      intro _ x hx
      cases List.mem_singleton.1 hx
      trivial
    | _ => intro h; rcases h with ⟨_, _, h⟩ | ⟨_, h⟩ | h <;> cases h
  exact key h (.inr (.inr rfl)) x (by simp)

theorem string_parts {q : SyntaxKind} {i : Bool} (h : T blank (.stringParts q i) u xs) : ∀ x ∈ xs, IsStringPart x := by
  have key : ∀ {n u xs}, T blank n u xs → (∃ q i, n = .stringParts q i) → ∀ x ∈ xs, IsStringPart x := by
    intro n u xs h
    induction h with
    | stringEnd => intro _ x hx; cases hx
    | stringToken _ _ _ _ ih => exact fun _ => List.forall_mem_cons.2 ⟨trivial, ih ⟨_, _, rfl⟩⟩
    | stringEscape _ _ _ ih => exact fun _ => List.forall_mem_cons.2 ⟨trivial, List.forall_mem_cons.2 ⟨trivial, ih ⟨_, _, rfl⟩⟩⟩
    | interpolation _ _ _ _ _ _ ih => exact fun _ => List.forall_mem_cons.2 ⟨rfl, ih ⟨_, _, rfl⟩⟩
    | _ => intro ⟨_, _, h⟩; cases h
  exact key h ⟨_, _, rfl⟩

/-- Neither kind of a string. -/
abbrev NotString (n : SyntaxKind) : Prop := n ∉ textKinds

theorem directives_ok {k n : SyntaxKind} (h : (k, n) ∈ directives) : NotString n := by
  revert h; unfold directives; simp only [List.mem_cons, Prod.mk.injEq, List.not_mem_nil, or_false]; rintro (h | h) <;> simp only [h] <;> decide

theorem expressionTags_ok {k n : SyntaxKind} (h : (k, n) ∈ expressionTags) : NotString n := by
  revert h; unfold expressionTags; simp only [List.mem_cons, Prod.mk.injEq, List.not_mem_nil, or_false]; rintro (h | h) <;> simp only [h] <;> decide

theorem stringTags_ok {k n : SyntaxKind} (h : (k, n) ∈ stringTags) : NotString n := by
  revert h; unfold stringTags; simp only [List.mem_cons, Prod.mk.injEq, List.not_mem_nil, or_false]; rintro (h | h) <;> simp only [h] <;> decide

theorem includeTags_ok {k n : SyntaxKind} (h : (k, n) ∈ includeTags) : NotString n := by
  revert h; unfold includeTags; simp only [List.mem_cons, Prod.mk.injEq, List.not_mem_nil, or_false]; rintro (h | h) <;> simp only [h] <;> decide

theorem valueTags_ok {k vk vn n : SyntaxKind} (h : (k, vk, vn, n) ∈ valueTags) : NotString vn ∧ NotString n := by
  revert h; unfold valueTags; simp only [List.mem_cons, Prod.mk.injEq, List.not_mem_nil, or_false]; rintro (h | h) <;> simp only [h] <;> decide

theorem plainBlocks_ok {k ek sn en n : SyntaxKind} (h : (k, ek, sn, en, n) ∈ plainBlocks) :
    NotString sn ∧ NotString en ∧ NotString n := by
  revert h; unfold plainBlocks; simp only [List.mem_cons, Prod.mk.injEq, List.not_mem_nil, or_false]; rintro (h | h | h) <;> simp only [h] <;> decide

/-- Puts the trees together. -/
macro "st" : tactic => `(tactic| (
  repeat' first
    | assumption
    | exact Strs.nil
    | exact strs_toks Strs.nil
    | (with_reducible refine strs_tok ?_)
    | (with_reducible refine strs_word ?_)
    | (with_reducible refine strs_name ?_)
    | (with_reducible refine strs_tagName ?_)
    | (with_reducible refine strs_toks ?_)
    | (with_reducible refine strs_node (by first | assumption | decide) (by assumption) ?_)
    | ((with_reducible refine strs_flat ?_ ?_) <;> (first | assumption | (decide; done) | simp only [List.cons_append, List.nil_append, List.append_assoc, List.append_nil]))
    | (with_reducible refine strs_one (by assumption) ?_)
    | (with_reducible refine strs_append (by assumption) ?_)))

theorem sound {n : Nt} (h : T blank n u xs) : Sound n u xs := by
  induction h with
  | @terms _ first rest g h1 h2 _ _ _ _ h ih1 ih2 =>
    have := (strs_grouping g (fun u x hx => ?_)).2
    · rw [h, flat_toks] at this
      exact this
    · rw [h] at hx
      simp only [flatOf, Flat.items, List.mem_cons, List.mem_flatMap, List.mem_map, Item.operand.injEq, reduceCtorEq,
        List.not_mem_nil, or_false, false_or] at hx
      rcases hx with ⟨rfl, rfl⟩ | ⟨r, ⟨q, hq, rfl⟩, rfl, rfl⟩
      · exact ih1
      · exact ih2 q hq
  | postfixed _ _ ih1 ih2 => exact ih2 _ ih1
  | done => exact fun v hv => by simpa using hv
  | @property x d t w y _ _ _ ih =>
    intro v hv
    have := ih (v ++ [d, t]) (by st)
    simpa using this
  | @method x d t u a w y _ _ _ _ iha ih =>
    intro v hv
    simp only [Sound] at iha
    have := ih (v ++ d :: t :: u) (by st)
    simpa using this
  | @position x d t w y _ _ _ ih =>
    intro v hv
    have := ih (v ++ [d, t]) (by st)
    simpa using this
  | @index x l u i r w y _ _ _ _ iha ih =>
    intro v hv
    simp only [Sound] at iha
    have := ih (v ++ l :: (u ++ [r])) (by st)
    simpa using this
  | @slice x l u1 is c u2 js r w y _ _ _ _ _ _ _ iha ihb ih =>
    intro v hv
    simp only [Sound] at iha ihb
    have := ih (v ++ l :: (u1 ++ c :: (u2 ++ [r]))) (by st)
    simpa using this
  | @filter x p u xs w y _ _ _ iha ih =>
    intro v hv
    simp only [Sound] at iha
    have := ih (v ++ p :: u) (by st)
    simpa using this
  | string h1 h h2 ih => exact .twig h1 (by rw [h2]; exact h1) (string_parts h) ih .nil
  | oneValue _ _ ih => simp only [Sound] at *; intro hn; st
  | oneCall _ _ _ _ ih => simp only [Sound] at *; intro hn; st
  | var h1 h2 h3 ih =>
    exact ⟨_, _, _, [_], rfl, rfl, h1, h3, fun x hx => by cases List.mem_singleton.1 hx; exact expr_node h2, ih⟩
  | directive _ h _ _ ih => have := directives_ok h; simp only [Sound] at *; st
  | htmlDirective _ h _ _ ih => have := directives_ok h; simp only [Sound] at *; st
  | expressionTag _ h _ _ ih => have := expressionTags_ok h; simp only [Sound] at *; st
  | stringTag _ h _ _ ih => have := stringTags_ok h; simp only [Sound] at *; st
  | includeTag _ h _ _ _ _ _ _ _ ih _ =>
    have := includeTags_ok h; simp only [Sound] at *; have := ih (by decide); st
  | embedTag _ _ _ _ _ _ _ _ _ _ _ _ _ ih _ _ =>
    simp only [Sound] at *; have := ih (by decide); st
  | cacheTag _ _ _ _ _ _ _ _ _ _ _ ih1 ih2 _ =>
    simp only [Sound] at *; have := ih1 (by decide); have := ih2 (by decide); st
  | valueTag _ h _ _ _ _ ih =>
    have := (valueTags_ok h).2; simp only [Sound] at *; have := ih (valueTags_ok h).1; st
  | plainBlock _ h _ _ _ _ _ ih =>
    obtain ⟨_, _, _⟩ := plainBlocks_ok h; simp only [Sound] at *; st
  | applyTag _ _ _ _ _ _ _ _ _ ih1 ih2 ih3 =>
    have := ih2 _ ih1
    simp only [Sound] at *
    refine strs_flat (by decide) ?_
    simp only [List.cons_append, List.nil_append]
    refine strs_flat (by decide) ?_
    simp only [List.cons_append, List.nil_append, List.append_assoc]
    refine strs_tok (strs_tok ?_)
    rw [← List.append_assoc]
    st
  | appliedAll => exact fun v hv => by simpa using hv
  | @appliedMore xs p u ys w zs _ _ _ iha ih =>
    intro v hv
    simp only [Sound] at iha
    have := ih (v ++ p :: u) (by st)
    simpa using this
  | bodyVar _ _ ih1 ih2 => exact strs_one ih1.strs ih2
  | partVar _ _ ih1 ih2 => exact strs_one ih1.strs ih2
  | varName _ ih => exact ih.strs
  | colonName _ _ _ h => exact .two h .nil
  | attrValued _ he _ ih1 ih2 =>
    have := ih2 _ he
    simp only [Sound] at *
    st
  | doubleQuoted h1 _ h2 ih =>
    exact fun e he => .tok (.html (by rw [h1]; decide) (by rw [h2]; decide) ih .nil)
  | singleQuoted h1 _ h2 ih =>
    exact fun e he => .tok (.html (by rw [h1]; decide) (by rw [h2]; decide) ih .nil)
  | unquotedWord h => exact fun e he => .word he h .nil
  | unquotedVar _ ih =>
    intro e he
    obtain ⟨o, v, c, is, rfl, h, h1, h2, h3, h4⟩ := ih
    cases h
    exact .var he h1 h2 h3 h4 .nil
  | noValue | noCall => exact fun _ => .nil
  | _ => simp only [Sound] at *; st

end Ludtwig.Template
