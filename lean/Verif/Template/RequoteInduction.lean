import Verif.Template.Requoted

/-!
# Changing quotes in a template: the induction over derivations (proof device for C75)
-/

namespace Ludtwig.Template

variable {C : Change} {blank blank' : Nat → Prop} {t : Token} {u v w : List Token} {x : Tree} {xs zs : List Tree} {c c' : Ctx}

set_option hygiene false in
local macro "nrm" : tactic => `(tactic| try simp (disch := first | assumption | decide) only [List.cons_append, List.append_assoc,
  List.nil_append, fits_node, fits_tree, fits_word, fits_tagName, nameTree] at hf)

set_option hygiene false in
open Lean.Parser.Tactic in
local macro "eat " i:term:max ppSpace p:rcasesPatLo : tactic => `(tactic| (obtain ⟨$p:rcasesPatLo, hf⟩ := $i _ _ hf; nrm))

local macro "img" : tactic => `(tactic| simp (disch := assumption) only [all_append, all_nil, all_stays])

local macro "img0" : tactic => `(tactic| try simp (disch := assumption) only [all_append, all_nil, all_stays])

theorem moved_tree : (C.moved t).tree = t.tree := rfl
theorem moved_word : wordTree (C.moved t) = wordTree t := rfl
theorem moved_name : nameTree (C.moved t) = nameTree t := rfl
theorem moved_tagName : tagNameTree (C.moved t) = tagNameTree t := rfl
theorem moved_text : (C.moved t).text = t.text := rfl
theorem moved_trees : (u.map C.moved).map Token.tree = u.map Token.tree := by
  rw [List.map_map]
  rfl

/-- The trees are the same up to quotes. -/
local macro "same" : tactic => `(tactic| first | rfl | assumption | simp only [unquote_node, unquoteAll_cons, unquoteAll_nil, unquoteAll_append, moved_tree,
  moved_word, moved_name, moved_tagName, moved_text, moved_trees, *])

set_option hygiene false in
local macro "fin " t:term:max : tactic => `(tactic| exact ⟨⟨_, by img0; exact $t, by same⟩, hf⟩)

theorem headPlain_cons (h : C.Stays t) : HeadPlain C (t :: u) := fun _ h' => by cases h'; exact h.1

set_option hygiene false in
local macro "got" : tactic => `(tactic| (
  try (obtain ⟨_, hb, ehb⟩ := hb _ (hcc.mono (by intro t ht; simp [ht])))
  try (obtain ⟨_, hx, ehx⟩ := hx _ (hcc.mono (by intro t ht; simp [ht])))
  try (obtain ⟨_, hy, ehy⟩ := hy _ (hcc.mono (by intro t ht; simp [ht])))
  try (obtain ⟨_, hz, ehz⟩ := hz _ (hcc.mono (by intro t ht; simp [ht])))))

set_option hygiene false in
local macro "fint " t:term:max : tactic => `(tactic| (
  refine ⟨⟨fun c' hcc => ?_, headPlain_cons p1⟩, hf⟩
  got
  exact ⟨_, by img0; exact $t, by same⟩))

theorem Goes.var (h : Goes C blank' .var u xs) : ∀ w zs, Fits C (u ++ w) (xs ++ zs) → Res C blank' .var u xs ∧ Fits C w zs := by
  obtain ⟨o, v, d, y, rfl, rfl, ho, hd, _, ih⟩ := h
  intro w zs hf
  nrm
  obtain ⟨p1, hf⟩ := hf
  eat ih ⟨x, hx, ehx⟩
  obtain ⟨p2, hf⟩ := hf
  exact ⟨⟨⟨_, by img; exact .var ho hx hd, by same⟩, headPlain_cons p1⟩, hf⟩

theorem QuoteOk.mono {q q' : SyntaxKind} {i i' : Bool} {ys : List Tree} (h : QuoteOk q i q' i' u xs) (hv : ∀ t ∈ v, t ∈ u) (hy : ∀ x ∈ ys, x ∈ xs) :
    QuoteOk q i q' i' v ys :=
  h.imp id fun ⟨h1, h2, h3⟩ => ⟨h1, h2.imp id (fun h x hx => h x (hy x hx)), fun t ht => h3 t (hv t ht)⟩

theorem pn_with : PlainNode .TWIG_INCLUDE_WITH := ⟨by decide, by decide⟩
theorem pn_ttl : PlainNode .TWIG_CACHE_TTL := ⟨by decide, by decide⟩
theorem pn_tags : PlainNode .TWIG_CACHE_TAGS := ⟨by decide, by decide⟩
theorem pn_directives : ∀ p ∈ directives, p.2 ≠ .TWIG_LITERAL_STRING ∧ p.2 ≠ .HTML_STRING := by decide
theorem pn_expressionTags : ∀ p ∈ expressionTags, p.2 ≠ .TWIG_LITERAL_STRING ∧ p.2 ≠ .HTML_STRING := by decide
theorem pn_stringTags : ∀ p ∈ stringTags, p.2 ≠ .TWIG_LITERAL_STRING ∧ p.2 ≠ .HTML_STRING := by decide
theorem pn_includeTags : ∀ p ∈ includeTags, p.2 ≠ .TWIG_LITERAL_STRING ∧ p.2 ≠ .HTML_STRING := by decide
theorem pn_valueTags : ∀ p ∈ valueTags, (p.2.2.2 ≠ .TWIG_LITERAL_STRING ∧ p.2.2.2 ≠ .HTML_STRING) ∧
    p.2.2.1 ≠ .TWIG_LITERAL_STRING ∧ p.2.2.1 ≠ .HTML_STRING := by decide
theorem pn_plainBlocks : ∀ p ∈ plainBlocks, (p.2.2.1 ≠ .TWIG_LITERAL_STRING ∧ p.2.2.1 ≠ .HTML_STRING) ∧
    (p.2.2.2.1 ≠ .TWIG_LITERAL_STRING ∧ p.2.2.2.1 ≠ .HTML_STRING) ∧
    p.2.2.2.2 ≠ .TWIG_LITERAL_STRING ∧ p.2.2.2.2 ≠ .HTML_STRING := by decide

theorem texts_after {s : Text} (hu : ∀ t ∈ u, C.Stays t) (h : ∀ t ∈ u, t.text = s) : ∀ t ∈ C.all u, t.text = s := by
  rw [all_tokens hu]
  intro t ht
  obtain ⟨t0, h0, rfl⟩ := List.mem_map.1 ht
  exact h t0 h0

theorem moved_kinds {P : SyntaxKind → Prop} (h : ∀ t ∈ u, P t.kind) : ∀ t ∈ u.map C.moved, P t.kind := by
  intro t ht
  obtain ⟨t0, h0, rfl⟩ := List.mem_map.1 ht
  exact h t0 h0

theorem moved_head {P : SyntaxKind → Prop} (h : ∀ t ∈ u.head?, P t.kind) : ∀ t ∈ (u.map C.moved).head?, P t.kind := by
  cases u with
  | nil => simp
  | cons t u =>
    intro t' ht'
    cases ht'
    exact h t rfl

theorem quote_leaf (h : t.kind ∈ quotes) : isQuoteLeaf t.tree = true := by
  simp only [quotes, List.mem_cons, List.not_mem_nil, or_false] at h
  rcases h with h | h <;> simp [isQuoteLeaf, Token.tree, h]

/-- A string without its quotes. -/
theorem unquote_string {l r : Token} {k i : SyntaxKind} (hl : l.kind ∈ quotes) (hr : r.kind = l.kind) (hk : k = .TWIG_LITERAL_STRING ∨ k = .HTML_STRING) :
    unquote (.node k [l.tree, .node i xs, r.tree]) = .node k [unquote (.node i xs)] := by
  have h1 : unquote l.tree = l.tree := unquote_token
  have h2 : unquote r.tree = r.tree := unquote_token
  have h3 : isQuoteLeaf (unquote (.node i xs)) = false := by rw [unquote_node]; rfl
  rw [unquote_node, if_pos hk]
  simp [unquoteAll_cons, unquoteAll_nil, h1, h2, quote_leaf hl, quote_leaf (t := r) (by rw [hr]; exact hl), h3]

theorem unquote_requoted {l r l' r' : Token} {ys : List Tree} {k i : SyntaxKind} (hl' : l'.kind ∈ quotes) (hr' : r'.kind = l'.kind) (hl : l.kind ∈ quotes)
    (hr : r.kind = l.kind) (hk : (k = .TWIG_LITERAL_STRING ∧ i = .TWIG_LITERAL_STRING_INNER) ∨ (k = .HTML_STRING ∧ i = .HTML_STRING_INNER))
    (h : unquoteAll ys = unquoteAll xs) : unquote (.node k [l'.tree, .node i ys, r'.tree]) = unquote (.node k [l.tree, .node i xs, r.tree]) := by
  have hk' := hk.imp (·.1) (·.1)
  rw [unquote_string hl' hr' hk', unquote_string hl hr hk', unquote_node, unquote_node, h]

theorem unquote_quoted {l r : Token} {ys : List Tree} (hl : l.kind ∈ quotes) (hr : r.kind = l.kind) (h : unquoteAll ys = unquoteAll xs) :
    unquote (.node .HTML_STRING [l.tree, .node .HTML_STRING_INNER ys, r.tree]) = unquote (.node .HTML_STRING [.node .HTML_STRING_INNER xs]) := by
  have h3 : isQuoteLeaf (unquote (.node .HTML_STRING_INNER xs)) = false := by rw [unquote_node]; rfl
  rw [unquote_string hl hr (.inr rfl), unquote_node, h, ← unquote_node, unquote_node (k := .HTML_STRING), if_pos (.inr rfl)]
  simp [unquoteAll_cons, unquoteAll_nil, h3]

/-- Quoted values of attributes. -/
theorem quoted_after {l r : Token} (hc : (c = .double ∧ l.kind = T!"\"") ∨ (c = .single ∧ l.kind = T!"'")) (hr : r.kind = l.kind)
    (hq : C.Quotes l u r xs false) (ih : ∀ c', CtxOk c c' u → SomeTrees C blank' (.parts c') u xs) :
    SomeTree C blank' .attrValue (l :: (u ++ [r])) [.node .HTML_STRING [l.tree, .node .HTML_STRING_INNER xs, r.tree]] := by
  have hl : l.kind ∈ quotes := by rcases hc with ⟨_, h⟩ | ⟨_, h⟩ <;> rw [h] <;> decide
  obtain ⟨l', r', e1, e2, k1, k2, hk⟩ := quotes_after hq hl hr
  have k0 := k1
  have e : C.all (l :: (u ++ [r])) = l' :: (C.all u ++ [r']) := by
    simp only [all_cons, all_append, e1, e2, all_nil, List.cons_append, List.nil_append]
  unfold SomeTree
  rw [e]
  simp only [quotes, List.mem_cons, List.not_mem_nil, or_false] at k1
  rcases k1 with k1 | k1
  · obtain ⟨ys, hy, ehy⟩ := ih .double (by
      rcases hk with hk | ⟨hk, hn, _⟩
      · rcases hc with ⟨h, _⟩ | ⟨_, h⟩
        · exact .inl h.symm
        · rw [h, k1] at hk; cases hk
      · rw [k1] at hn
        exact .inr ⟨hc.imp (·.1) (·.1), .inl ⟨rfl, hn⟩⟩)
    exact ⟨_, .doubleQuoted k1 hy (k2.trans k1), unquote_requoted k0 k2 hl hr (.inr ⟨rfl, rfl⟩) ehy⟩
  · obtain ⟨ys, hy, ehy⟩ := ih .single (by
      rcases hk with hk | ⟨hk, hn, _⟩
      · rcases hc with ⟨_, h⟩ | ⟨h, _⟩
        · rw [h, k1] at hk; cases hk
        · exact .inl h.symm
      · rw [k1] at hn
        exact .inr ⟨hc.imp (·.1) (·.1), .inr ⟨rfl, hn⟩⟩)
    exact ⟨_, .singleQuoted k1 hy (k2.trans k1), unquote_requoted k0 k2 hl hr (.inr ⟨rfl, rfl⟩) ehy⟩

/-- New quotes around a value. -/
theorem quoted_new {a b : Token} {u : List Token} (ha : a.kind ∈ quotes) (hb : b.kind = a.kind) (h : ∀ c, a.kind = T!"\"" ∧ c = .double ∨ a.kind = T!"'" ∧ c = .single →
    ∃ xs', T blank' (.parts c) u xs' ∧ unquoteAll xs' = unquoteAll xs) :
    ∃ x, T blank' .attrValue (a :: (u ++ [b])) [x] ∧ unquote x = unquote (.node .HTML_STRING [.node .HTML_STRING_INNER xs]) := by
  have k0 := ha
  simp only [quotes, List.mem_cons, List.not_mem_nil, or_false] at ha
  rcases ha with ha | ha
  · obtain ⟨ys, hy, ehy⟩ := h .double (.inl ⟨ha, rfl⟩)
    exact ⟨_, .doubleQuoted ha hy (hb.trans ha), unquote_quoted k0 hb ehy⟩
  · obtain ⟨ys, hy, ehy⟩ := h .single (.inr ⟨ha, rfl⟩)
    exact ⟨_, .singleQuoted ha hy (hb.trans ha), unquote_quoted k0 hb ehy⟩

set_option maxHeartbeats 4000000 in
theorem requoted (ok : C.Ok blank blank') {n : Nt} (h : T blank n u xs) : Goes C blank' n u xs := by
  induction h with
  | @terms tight first rest g h1 h2 h3 h4 h5 h6 h7 ih1 ih2 =>
    intro w zs hf
    have hf' := (fits_grouping g).2 hf
    rw [h7, leaves_flat] at hf'
    have hf'' : Fits C (first.toks ++ (restTokens (rest.map (fun r => (r.1, r.2.toks, r.2.tree))) ++ w))
        ([first.tree] ++ (rest.flatMap (fun r => [r.1.tree, r.2.tree]) ++ zs)) := by
      rw [← List.append_assoc]
      exact hf'
    obtain ⟨⟨x, hx, ehx⟩, hf⟩ := ih1 _ _ hf''
    obtain ⟨rest', g1, g2, g3, g4⟩ := rest_goes ih2 hf
    obtain ⟨g', g5, g6, _, _, g7⟩ := regroup h6 (js := (flatOf ⟨first.tail, C.all first.toks, x⟩ rest').items) (by rw [h7]; exact g2.items ehx)
    have key := T.terms (blank := blank') (tight := tight) (first := ⟨first.tail, C.all first.toks, x⟩) (rest := rest') (g := g') hx g3
      (g2.kinds (P := fun k => (rowOf k).isSome) h3) (fun ht => g2.kinds (P := TighterThanNot) (h4 ht)) (g2.joins h5) g5 g6
    refine ⟨⟨g'.expr, ?_, g7⟩, g4⟩
    rw [g2.last] at key
    have e : (flatOf ⟨first.tail, C.all first.toks, x⟩ rest').tokens = C.all (flatOf first rest).tokens := by
      show _ ++ _ = C.all (_ ++ _)
      rw [all_append]
      exact congrArg _ g1
    rw [e] at key
    exact key
  | anyExpr _ ih =>
    intro w zs hf
    eat ih ⟨x, hx, ehx⟩
    exact ⟨⟨_, .anyExpr hx, by same⟩, hf⟩
  | expr _ ih =>
    intro w zs hf
    eat ih ⟨x, hx, ehx⟩
    exact ⟨⟨_, .expr hx, by same⟩, hf⟩
  | conditional _ he hq _ hc _ ih1 ih2 ih3 =>
    intro w zs hf
    nrm
    eat ih1 ⟨x, hx, ehx⟩
    obtain ⟨p1, hf⟩ := hf
    eat ih2 ⟨y, hy, ehy⟩
    obtain ⟨p2, hf⟩ := hf
    eat ih3 ⟨z, hz, ehz⟩
    fin (.conditional hx he hq hy hc hz)
  | conditionalThen _ he hq _ ih1 ih2 =>
    intro w zs hf
    nrm
    eat ih1 ⟨x, hx, ehx⟩
    obtain ⟨p1, hf⟩ := hf
    eat ih2 ⟨y, hy, ehy⟩
    fin (.conditionalThen hx he hq hy)
  | conditionalElse _ he hq hc _ ih1 ih2 =>
    intro w zs hf
    nrm
    eat ih1 ⟨x, hx, ehx⟩
    obtain ⟨p1, p2, hf⟩ := hf
    eat ih2 ⟨y, hy, ehy⟩
    fin (.conditionalElse hx he hq hc hy)
  | postfixed _ _ ih1 ih2 =>
    intro w zs hf
    obtain ⟨y, tail, e, hy, ih2⟩ := ih2
    cases e
    have hf := hy _ _ hf
    nrm
    eat ih1 ⟨x, hx, ehx⟩
    eat ih2 hp
    obtain ⟨y', hp, ehp⟩ := hp x ehx
    fin (.postfixed hx hp)
  | signed ht _ ih =>
    intro w zs hf
    nrm
    obtain ⟨p1, hf⟩ := hf
    eat ih ⟨x, hx, ehx⟩
    fin (.signed ht hx)
  | not ht _ ih =>
    intro w zs hf
    nrm
    obtain ⟨p1, hf⟩ := hf
    eat ih ⟨x, hx, ehx⟩
    fin (.not ht hx)
  | arrow ht ha _ ih =>
    intro w zs hf
    nrm
    obtain ⟨p1, p2, hf⟩ := hf
    eat ih ⟨x, hx, ehx⟩
    fin (.arrow ht ha hx)
  | parenArrow hl ht _ hr ha _ ih1 ih2 =>
    intro w zs hf
    nrm
    obtain ⟨p1, p2, hf⟩ := hf
    eat ih1 ⟨xs', hxs, ehxs⟩
    obtain ⟨p3, p4, hf⟩ := hf
    eat ih2 ⟨x, hx, ehx⟩
    fin (.parenArrow hl ht hxs hr ha hx)
  | noParam =>
    intro w zs hf
    exact ⟨⟨_, .noParam, by same⟩, hf⟩
  | param hc ht _ ih =>
    intro w zs hf
    nrm
    obtain ⟨p1, p2, hf⟩ := hf
    eat ih ⟨xs', hxs, ehxs⟩
    fin (.param hc ht hxs)
  | test ht _ hu ih =>
    intro w zs hf
    nrm
    obtain ⟨p1, hf⟩ := hf
    eat ih ⟨x, hx, ehx⟩
    fin (.test ht hx (all_head_kind ok (by decide) hu))
  | number ht =>
    intro w zs hf
    nrm
    obtain ⟨p1, hf⟩ := hf
    fin (.number ht)
  | null ht =>
    intro w zs hf
    nrm
    obtain ⟨p1, hf⟩ := hf
    fin (.null ht)
  | boolean ht =>
    intro w zs hf
    nrm
    obtain ⟨p1, hf⟩ := hf
    fin (.boolean ht)
  | name ht =>
    intro w zs hf
    nrm
    obtain ⟨p1, hf⟩ := hf
    fin (.name ht)
  | call ht _ ih =>
    intro w zs hf
    nrm
    obtain ⟨p1, hf⟩ := hf
    eat ih ⟨x, hx, ehx⟩
    fin (.call ht hx)
  | literalString _ ih =>
    intro w zs hf
    eat ih ⟨x, hx, ehx⟩
    fin (.literalString hx)
  | array hl _ hr ih =>
    intro w zs hf
    nrm
    obtain ⟨p1, hf⟩ := hf
    eat ih ⟨x, hx, ehx⟩
    obtain ⟨p2, hf⟩ := hf
    fin (.array hl hx hr)
  | literalHash _ ih =>
    intro w zs hf
    eat ih ⟨x, hx, ehx⟩
    fin (.literalHash hx)
  | parens hl _ hu hr ih =>
    intro w zs hf
    nrm
    obtain ⟨p1, hf⟩ := hf
    eat ih ⟨x, hx, ehx⟩
    obtain ⟨p2, hf⟩ := hf
    fin (.parens hl hx (paren_start ok hu) hr)
  | @done x => exact ⟨x, [], rfl, fun U zs h => h, fun w zs hf => ⟨fun x' ex' => ⟨x', .done, ex'⟩, hf⟩⟩
  | @property x d t w y hd ht _ ih =>
    obtain ⟨y, tail, e, hy, ih⟩ := ih
    cases e
    refine ⟨y, d.tree :: .node .TWIG_OPERAND [.node .TWIG_LITERAL_NAME [wordTree t]] :: tail, rfl, fun U zs hf => ?_, fun w zs hf => ?_⟩
    · replace hf := hy _ _ hf
      nrm
      exact hf
    · nrm
      obtain ⟨p1, p2, hf⟩ := hf
      eat ih hp
      refine ⟨fun x' ex' => Exists.imp (fun y' h => ⟨by img; exact .property hd ht h.1, h.2⟩) (hp _ ?_), hf⟩
      same
  | @method x d t u a w y hd ht _ _ ih1 ih2 =>
    obtain ⟨y, tail, e, hy, ih⟩ := ih2
    cases e
    refine ⟨y, d.tree :: .node .TWIG_OPERAND [.node .TWIG_LITERAL_NAME [wordTree t]] :: a :: tail, rfl, fun U zs hf => ?_, fun w zs hf => ?_⟩
    · replace hf := hy _ _ hf
      nrm
      exact hf
    · nrm
      obtain ⟨p1, p2, hf⟩ := hf
      eat ih1 ⟨a', ha, eha⟩
      eat ih hp
      refine ⟨fun x' ex' => Exists.imp (fun y' h => ⟨by img; exact .method hd ht ha h.1, h.2⟩) (hp _ ?_), hf⟩
      same
  | @position x d t w y hd ht _ ih =>
    obtain ⟨y, tail, e, hy, ih⟩ := ih
    cases e
    refine ⟨y, d.tree :: .node .TWIG_INDEX [.node .TWIG_EXPRESSION [.node .TWIG_LITERAL_NUMBER [t.tree]]] :: tail, rfl, fun U zs hf => ?_, fun w zs hf => ?_⟩
    · replace hf := hy _ _ hf
      nrm
      exact hf
    · nrm
      obtain ⟨p1, p2, hf⟩ := hf
      eat ih hp
      refine ⟨fun x' ex' => Exists.imp (fun y' h => ⟨by img; exact .position hd ht h.1, h.2⟩) (hp _ ?_), hf⟩
      same
  | @index x l u i r w y hl _ hr _ ih1 ih2 =>
    obtain ⟨y, tail, e, hy, ih⟩ := ih2
    cases e
    refine ⟨y, l.tree :: .node .TWIG_INDEX [i] :: r.tree :: tail, rfl, fun U zs hf => ?_, fun w zs hf => ?_⟩
    · replace hf := hy _ _ hf
      nrm
      exact hf
    · nrm
      obtain ⟨p1, hf⟩ := hf
      eat ih1 ⟨i', hi, ehi⟩
      obtain ⟨p2, hf⟩ := hf
      eat ih hp
      refine ⟨fun x' ex' => Exists.imp (fun y' h => ⟨by img; exact .index hl hi hr h.1, h.2⟩) (hp _ ?_), hf⟩
      same
  | @slice x l u1 is c u2 js r w y hl _ hc _ hne hr _ ih1 ih2 ih3 =>
    obtain ⟨y, tail, e, hy, ih⟩ := ih3
    cases e
    refine ⟨y, l.tree :: .node .TWIG_INDEX_RANGE (is ++ c.tree :: js) :: r.tree :: tail, rfl, fun U zs hf => ?_, fun w zs hf => ?_⟩
    · replace hf := hy _ _ hf
      nrm
      exact hf
    · nrm
      obtain ⟨p1, hf⟩ := hf
      eat ih1 ⟨is', hi, ehi, hi'⟩
      obtain ⟨p2, hf⟩ := hf
      eat ih2 ⟨js', hj, ehj, hj'⟩
      obtain ⟨p3, hf⟩ := hf
      eat ih hp
      refine ⟨fun x' ex' => Exists.imp (fun y' h => ⟨by img; exact .slice hl hi hc hj (hne.imp hi' hj') hr h.1, h.2⟩) (hp _ ?_), hf⟩
      same
  | @filter x p u xs w y hp0 _ _ ih1 ih2 =>
    obtain ⟨y, tail, e, hy, ih⟩ := ih2
    cases e
    refine ⟨y, p.tree :: .node .TWIG_OPERAND xs :: tail, rfl, fun U zs hf => ?_, fun w zs hf => ?_⟩
    · replace hf := hy _ _ hf
      nrm
      exact hf
    · nrm
      obtain ⟨p1, hf⟩ := hf
      eat ih1 ⟨xs', hx, ehx⟩
      eat ih hp
      refine ⟨fun x' ex' => Exists.imp (fun y' h => ⟨by img; exact .filter hp0 hx h.1, h.2⟩) (hp _ ?_), hf⟩
      same
  | filterPlain ht =>
    intro w zs hf
    nrm
    obtain ⟨p1, hf⟩ := hf
    fin (.filterPlain ht)
  | filterCall ht _ ih =>
    intro w zs hf
    nrm
    obtain ⟨p1, hf⟩ := hf
    eat ih ⟨x, hx, ehx⟩
    fin (.filterCall ht hx)
  | @string i l u xs r hl h hr ih =>
    intro w zs hf
    nrm
    obtain ⟨hq, hu, hf⟩ := fits_string (long h) hf
    obtain ⟨l', r', e1, e2, k1, k2, hk⟩ := quotes_after hq hl hr
    have ih' := (ih [] [] (by simpa using hu)).1.1
    obtain ⟨ys, hy, ehy⟩ := ih' l'.kind (i && l'.kind == T!"\"") (by
      rcases hk with hk | ⟨hk, hn, hi⟩
      · rw [hk]
        exact .inl ⟨rfl, rfl⟩
      · refine .inr ⟨hl, ?_, hn⟩
        simp only [quotes, List.mem_cons, List.not_mem_nil, or_false] at k1 hl
        rcases k1 with k1 | k1
        · rcases hl with hl | hl
          · rw [k1, hl] at hk
            exact absurd rfl hk
          · rw [hl]
            left
            cases i <;> rfl
        · exact .inr (hi rfl k1))
    have e : C.all (l :: (u ++ [r])) = l' :: (C.all u ++ [r']) := by
      simp only [all_cons, all_append, e1, e2, all_nil, List.cons_append, List.nil_append]
    exact ⟨⟨_, by rw [e]; exact .string k1 hy k2, unquote_requoted k1 k2 hl hr (.inl ⟨rfl, rfl⟩) ehy⟩, hf⟩
  | stringEnd =>
    intro w zs hf
    exact ⟨⟨fun q' i' _ => ⟨_, .stringEnd, rfl⟩, by intro t ht; cases ht⟩, hf⟩
  | @stringToken q i t u xs ht hb hh _ ih =>
    intro w zs hf
    nrm
    obtain ⟨p1, hf⟩ := hf
    eat ih ⟨h, hp⟩
    refine ⟨⟨fun q' i' hq => ?_, headPlain_cons p1⟩, hf⟩
    obtain ⟨xs', hx, ehx⟩ := h q' i' (hq.mono (by intro t ht; simp [ht]) (by intro t ht; simp [ht]))
    have hall : ∀ t' ∈ t :: u, t'.kind ≠ q → t'.kind ≠ q' := by
      intro t' ht' hne
      rcases hq with ⟨rfl, _⟩ | ⟨_, _, h⟩
      · exact hne
      · exact h t' ht'
    refine ⟨(C.moved t).tree :: xs', ?_, by same⟩
    img
    refine .stringToken (hall t (by simp) ht) (fun e => ?_) (fun e => ?_) hx
    · obtain ⟨t', w', rfl, h'⟩ := hb e
      have : C.Plain t' := hp t' rfl
      refine ⟨C.moved t', C.all w', ?_, hall t' (by simp) h'⟩
      rw [all_cons, this]
      rfl
    · have := all_head_kind ok (ks := [T!"{"]) (by decide) (by simpa using hh e)
      simpa using this
  | @stringEscape q i b t u xs hb ht _ ih =>
    intro w zs hf
    nrm
    obtain ⟨p1, p2, hf⟩ := hf
    eat ih ⟨h, hp⟩
    refine ⟨⟨fun q' i' hq => ?_, headPlain_cons p1⟩, hf⟩
    obtain ⟨xs', hx, ehx⟩ := h q' i' (hq.mono (by intro t ht; simp [ht]) (by intro t ht; simp [ht]))
    refine ⟨(C.moved b).tree :: (C.moved t).tree :: xs', ?_, by same⟩
    img
    rcases hq with ⟨rfl, _⟩ | ⟨hq, _, h⟩
    · exact .stringEscape hb ht hx
    · refine .stringToken (h b (by simp)) (fun _ => ⟨_, _, rfl, h t (by simp)⟩) (fun e => ?_)
        (.stringToken (h t (by simp)) (fun e => ?_) (fun e => ?_) hx)
      · exact absurd (hb.symm.trans e) (by decide)
      · rw [← ht, (show t.kind = _ from e)] at hq
        exact absurd hq (by decide)
      · rw [← ht, (show t.kind = _ from e)] at hq
        exact absurd hq (by decide)
  | interpolation hh hl _ hr _ ih1 ih2 =>
    intro w zs hf
    nrm
    obtain ⟨p1, p2, hf⟩ := hf
    eat ih1 ⟨x, hx, ehx⟩
    obtain ⟨p3, hf⟩ := hf
    eat ih2 ⟨h, hp⟩
    refine ⟨⟨fun q' i' hq => ?_, headPlain_cons p1⟩, hf⟩
    rcases hq with ⟨rfl, rfl⟩ | ⟨_, hq | hq, _⟩
    · obtain ⟨xs', hxs, ehxs⟩ := h _ _ (.inl ⟨rfl, rfl⟩)
      got
      exact ⟨_, by img; exact .interpolation hh hl hx hr hxs, by same⟩
    · cases hq
    · exact (hq _ List.mem_cons_self).elim
  | listEnd =>
    intro w zs hf
    exact ⟨⟨_, .listEnd, by same⟩, hf⟩
  | listLast _ ih =>
    intro w zs hf
    eat ih ⟨x, hx, ehx⟩
    fin (.listLast hx)
  | listMore _ hc _ ih1 ih2 =>
    intro w zs hf
    nrm
    eat ih1 ⟨x, hx, ehx⟩
    obtain ⟨p1, hf⟩ := hf
    eat ih2 ⟨xs', hxs, ehxs⟩
    fin (.listMore hx hc hxs)
  | arguments hl _ hr ih =>
    intro w zs hf
    nrm
    obtain ⟨p1, hf⟩ := hf
    eat ih ⟨x, hx, ehx⟩
    obtain ⟨p2, hf⟩ := hf
    fin (.arguments hl hx hr)
  | exprElem _ ih =>
    intro w zs hf
    eat ih ⟨x, hx, ehx⟩
    fin (.exprElem hx)
  | argument _ hu ih =>
    intro w zs hf
    eat ih ⟨x, hx, ehx⟩
    fin (.argument hx (no_argument_name ok hu))
  | namedArgument ht he _ ih =>
    intro w zs hf
    nrm
    obtain ⟨p1, p2, hf⟩ := hf
    eat ih ⟨x, hx, ehx⟩
    fin (.namedArgument ht he hx)
  | hash hl _ hr ih =>
    intro w zs hf
    nrm
    obtain ⟨p1, hf⟩ := hf
    eat ih ⟨x, hx, ehx⟩
    obtain ⟨p2, hf⟩ := hf
    fin (.hash hl hx hr)
  | numberKey ht =>
    intro w zs hf
    nrm
    obtain ⟨p1, hf⟩ := hf
    fin (.numberKey ht)
  | stringKey _ ih =>
    intro w zs hf
    nrm
    eat ih ⟨x, hx, ehx⟩
    fin (.stringKey hx)
  | exprKey hl _ hr ih =>
    intro w zs hf
    nrm
    obtain ⟨p1, hf⟩ := hf
    eat ih ⟨x, hx, ehx⟩
    obtain ⟨p2, hf⟩ := hf
    fin (.exprKey hl hx hr)
  | nameKey ht =>
    intro w zs hf
    nrm
    obtain ⟨p1, hf⟩ := hf
    fin (.nameKey ht)
  | pair _ hc _ ih1 ih2 =>
    intro w zs hf
    nrm
    eat ih1 ⟨x, hx, ehx⟩
    obtain ⟨p1, hf⟩ := hf
    eat ih2 ⟨y, hy, ehy⟩
    fin (.pair hx hc hy)
  | shortPair _ ih =>
    intro w zs hf
    nrm
    eat ih ⟨x, hx, ehx⟩
    fin (.shortPair hx)
  | nameElem ht =>
    intro w zs hf
    nrm
    obtain ⟨p1, hf⟩ := hf
    fin (.nameElem ht)
  | override ht =>
    intro w zs hf
    nrm
    obtain ⟨p1, hf⟩ := hf
    fin (.override ht)
  | overrideAs ht ha ht' =>
    intro w zs hf
    nrm
    obtain ⟨p1, p2, p3, hf⟩ := hf
    fin (.overrideAs ht ha ht')
  | prop ht =>
    intro w zs hf
    nrm
    obtain ⟨p1, hf⟩ := hf
    fin (.prop ht)
  | propValue ht he _ ih =>
    intro w zs hf
    nrm
    obtain ⟨p1, p2, hf⟩ := hf
    eat ih ⟨x, hx, ehx⟩
    fin (.propValue ht he hx)
  | noToken =>
    intro w zs hf
    exact ⟨⟨⟨_, .noToken, rfl⟩, by simp⟩, hf⟩
  | oneToken ht =>
    intro w zs hf
    nrm
    obtain ⟨p1, hf⟩ := hf
    exact ⟨⟨⟨_, by img; exact .oneToken ht, by same⟩, by simpa using p1⟩, hf⟩
  | noExpr =>
    intro w zs hf
    exact ⟨⟨_, .noExpr, rfl, by simp⟩, hf⟩
  | oneExpr _ hd ih =>
    intro w zs hf
    eat ih ⟨x, hx, ehx⟩
    exact ⟨⟨_, .oneExpr hx hd, by same, by simp⟩, hf⟩
  | noValue =>
    intro _ w zs hf
    exact ⟨⟨_, .noValue, by same⟩, hf⟩
  | oneValue ht _ ih =>
    intro ⟨hn1, hn2⟩ w zs hf
    nrm
    obtain ⟨p1, hf⟩ := hf
    eat ih ⟨x, hx, ehx⟩
    fin (.oneValue ht hx)
  | noCall =>
    intro _ w zs hf
    exact ⟨⟨_, .noCall, by same⟩, hf⟩
  | oneCall ht hl _ hr ih =>
    intro ⟨hn1, hn2⟩ w zs hf
    nrm
    obtain ⟨p1, p2, hf⟩ := hf
    eat ih ⟨x, hx, ehx⟩
    obtain ⟨p3, hf⟩ := hf
    fin (.oneCall ht hl hx hr)
  | var ho h hc ih => exact ⟨_, _, _, _, rfl, rfl, ho, hc, long h, ih⟩
  | comment ho hts hd hc =>
    intro w zs hf
    nrm
    obtain ⟨p1, hf⟩ := hf
    obtain ⟨p2, hf⟩ := fits_tokens hf
    nrm
    obtain ⟨p3, hf⟩ := hf
    exact ⟨⟨⟨_, by img; rw [all_tokens p2]; exact .comment ho (moved_kinds (P := fun k => k ∉ commentCloses) hts) (moved_head (P := fun k => k ∉ directives.map (·.1)) hd) hc, by same⟩, headPlain_cons p1⟩, hf⟩
  | directive ho hd _ hc ih =>
    intro w zs hf
    obtain ⟨hn1, hn2⟩ := pn_directives _ hd
    nrm
    obtain ⟨p1, p2, hf⟩ := hf
    eat ih ⟨x, hx, ehx⟩
    obtain ⟨p3, hf⟩ := hf
    exact ⟨⟨⟨_, by img; exact .directive ho hd hx hc, by same⟩, headPlain_cons p1⟩, hf⟩
  | noRule =>
    intro w zs hf
    exact ⟨⟨_, .noRule, by same⟩, hf⟩
  | rule ht _ _ ih1 ih2 =>
    intro w zs hf
    nrm
    obtain ⟨p1, hf⟩ := hf
    eat ih1 ⟨⟨x, hx, ehx⟩, _⟩
    eat ih2 ⟨y, hy, ehy⟩
    fin (.rule ht hx hy)
  | tagComment _ ih =>
    intro w zs hf
    eat ih ⟨⟨x, hx, ehx⟩, hp⟩
    exact ⟨⟨fun c' _ => ⟨_, .tagComment hx, by same⟩, hp⟩, hf⟩
  | block ho hk ht hc _ ho' he _ hut hc' ih1 ih2 =>
    intro w zs hf
    nrm
    obtain ⟨p1, p2, p3, p4, hf⟩ := hf
    eat ih1 ⟨hb, _⟩
    obtain ⟨p5, p6, hf⟩ := hf
    eat ih2 ⟨⟨x, hx, ehx⟩, hs⟩
    obtain ⟨p7, hf⟩ := hf
    fint (.block ho hk ht hc hb ho' he hx (texts_after hs hut) hc')
  | shortBlock ho hk ht _ hc ih =>
    intro w zs hf
    nrm
    obtain ⟨p1, p2, p3, hf⟩ := hf
    eat ih ⟨x, hx, ehx⟩
    obtain ⟨p4, hf⟩ := hf
    fint (.shortBlock ho hk ht hx hc)
  | ifTag ho hk _ hc _ _ ho' he hc' ih1 ih2 ih3 =>
    intro w zs hf
    nrm
    obtain ⟨p1, p2, hf⟩ := hf
    eat ih1 ⟨x, hx, ehx⟩
    obtain ⟨p3, hf⟩ := hf
    eat ih2 ⟨hb, _⟩
    eat ih3 hy
    obtain ⟨p4, p5, p6, hf⟩ := hf
    fint (.ifTag ho hk hx hc hb hy ho' he hc')
  | noBranch =>
    intro w zs hf
    exact ⟨fun c' _ => ⟨_, .noBranch, rfl⟩, hf⟩
  | elseIf ho hk _ hc _ _ ih1 ih2 ih3 =>
    intro w zs hf
    nrm
    obtain ⟨p1, p2, hf⟩ := hf
    eat ih1 ⟨x, hx, ehx⟩
    obtain ⟨p3, hf⟩ := hf
    eat ih2 ⟨hb, _⟩
    eat ih3 hy
    refine ⟨fun c' hcc => ?_, hf⟩
    got
    exact ⟨_, by img; exact .elseIf ho hk hx hc hb hy, by same⟩
  | «else» ho hk hc _ _ ih1 ih2 =>
    intro w zs hf
    nrm
    obtain ⟨p1, p2, p3, hf⟩ := hf
    eat ih1 ⟨hb, _⟩
    eat ih2 hy
    refine ⟨fun c' hcc => ?_, hf⟩
    got
    exact ⟨_, by img; exact .else ho hk hc hb hy, by same⟩
  | assign ho hk _ hn he _ hc ih1 ih2 =>
    intro w zs hf
    nrm
    obtain ⟨p1, p2, hf⟩ := hf
    eat ih1 ⟨x, hx, ehx⟩
    obtain ⟨p3, hf⟩ := hf
    eat ih2 ⟨y, hy, ehy⟩
    obtain ⟨p4, hf⟩ := hf
    fint (.assign ho hk hx hn he hy hc)
  | capture ho hk _ hc _ ho' he hc' ih1 ih2 =>
    intro w zs hf
    nrm
    obtain ⟨p1, p2, hf⟩ := hf
    eat ih1 ⟨x, hx, ehx⟩
    obtain ⟨p3, hf⟩ := hf
    eat ih2 ⟨hb, _⟩
    obtain ⟨p4, p5, p6, hf⟩ := hf
    fint (.capture ho hk hx hc hb ho' he hc')
  | forTag ho hk _ hi _ hc _ _ ho' he hc' ih1 ih2 ih3 ih4 =>
    intro w zs hf
    nrm
    obtain ⟨p1, p2, hf⟩ := hf
    eat ih1 ⟨x, hx, ehx⟩
    obtain ⟨p3, hf⟩ := hf
    eat ih2 ⟨y, hy, ehy⟩
    obtain ⟨p4, hf⟩ := hf
    eat ih3 ⟨hb, _⟩
    eat ih4 hz
    obtain ⟨p5, p6, p7, hf⟩ := hf
    fint (.forTag ho hk hx hi hy hc hb hz ho' he hc')
  | forName ht =>
    intro w zs hf
    nrm
    obtain ⟨p1, hf⟩ := hf
    fin (.forName ht)
  | forPair ht hc ht' =>
    intro w zs hf
    nrm
    obtain ⟨p1, p2, p3, hf⟩ := hf
    fin (.forPair ht hc ht')
  | noElse =>
    intro w zs hf
    exact ⟨fun c' _ => ⟨_, .noElse, rfl⟩, hf⟩
  | forElse ho hk hc _ ih =>
    intro w zs hf
    nrm
    obtain ⟨p1, p2, p3, hf⟩ := hf
    eat ih ⟨hb, _⟩
    refine ⟨fun c' hcc => ?_, hf⟩
    got
    exact ⟨_, by img; exact .forElse ho hk hc hb, by same⟩
  | expressionTag ho hk _ hc ih =>
    intro w zs hf
    obtain ⟨hn1, hn2⟩ := pn_expressionTags _ hk
    nrm
    obtain ⟨p1, p2, hf⟩ := hf
    eat ih ⟨x, hx, ehx⟩
    obtain ⟨p3, hf⟩ := hf
    fint (.expressionTag ho hk hx hc)
  | stringTag ho hk _ hc ih =>
    intro w zs hf
    obtain ⟨hn1, hn2⟩ := pn_stringTags _ hk
    nrm
    obtain ⟨p1, p2, hf⟩ := hf
    eat ih ⟨x, hx, ehx⟩
    obtain ⟨p3, hf⟩ := hf
    fint (.stringTag ho hk hx hc)
  | flush ho hk hc =>
    intro w zs hf
    nrm
    obtain ⟨p1, p2, p3, hf⟩ := hf
    fint (.flush ho hk hc)
  | returnTag ho hk _ hc ih =>
    intro w zs hf
    nrm
    obtain ⟨p1, p2, hf⟩ := hf
    eat ih ⟨x, hx, ehx, _⟩
    obtain ⟨p3, hf⟩ := hf
    fint (.returnTag ho hk hx hc)
  | includeTag ho hk _ _ _ _ hc ih1 ih2 ih3 ih4 =>
    intro w zs hf
    obtain ⟨hn1, hn2⟩ := pn_includeTags _ hk
    nrm
    obtain ⟨p1, p2, hf⟩ := hf
    eat ih1 ⟨x, hx, ehx⟩
    eat ih2 ⟨⟨x1, hx1, ehx1⟩, _⟩
    eat (ih3 pn_with) ⟨x2, hx2, ehx2⟩
    eat ih4 ⟨⟨x3, hx3, ehx3⟩, _⟩
    obtain ⟨p3, hf⟩ := hf
    fint (.includeTag ho hk hx hx1 hx2 hx3 hc)
  | embedTag ho hk _ _ _ _ hc _ ho' he hc' ih1 ih2 ih3 ih4 ih5 =>
    intro w zs hf
    nrm
    obtain ⟨p1, p2, hf⟩ := hf
    eat ih1 ⟨x, hx, ehx⟩
    eat ih2 ⟨⟨x1, hx1, ehx1⟩, _⟩
    eat (ih3 pn_with) ⟨x2, hx2, ehx2⟩
    eat ih4 ⟨⟨x3, hx3, ehx3⟩, _⟩
    obtain ⟨p3, hf⟩ := hf
    eat ih5 ⟨hb, _⟩
    obtain ⟨p4, p5, p6, hf⟩ := hf
    fint (.embedTag ho hk hx hx1 hx2 hx3 hc hb ho' he hc')
  | valueTag ho hk _ _ hc ih1 ih2 =>
    intro w zs hf
    obtain ⟨⟨hn1, hn2⟩, hn3⟩ := pn_valueTags _ hk
    nrm
    obtain ⟨p1, p2, hf⟩ := hf
    eat ih1 ⟨x, hx, ehx⟩
    eat (ih2 hn3) ⟨x2, hx2, ehx2⟩
    obtain ⟨p3, hf⟩ := hf
    fint (.valueTag ho hk hx hx2 hc)
  | useTag ho hk _ hc ih =>
    intro w zs hf
    nrm
    obtain ⟨p1, p2, hf⟩ := hf
    eat ih ⟨x, hx, ehx⟩
    obtain ⟨p3, hf⟩ := hf
    fint (.useTag ho hk hx hc)
  | useWithTag ho hk _ hi _ hn hc ih1 ih2 =>
    intro w zs hf
    nrm
    obtain ⟨p1, p2, hf⟩ := hf
    eat ih1 ⟨x, hx, ehx⟩
    obtain ⟨p3, hf⟩ := hf
    eat ih2 ⟨y, hy, ehy⟩
    obtain ⟨p4, hf⟩ := hf
    fint (.useWithTag ho hk hx hi hy hn hc)
  | fromTag ho hk _ hi _ hn hc ih1 ih2 =>
    intro w zs hf
    nrm
    obtain ⟨p1, p2, hf⟩ := hf
    eat ih1 ⟨x, hx, ehx⟩
    obtain ⟨p3, hf⟩ := hf
    eat ih2 ⟨y, hy, ehy⟩
    obtain ⟨p4, hf⟩ := hf
    fint (.fromTag ho hk hx hi hy hn hc)
  | importTag ho hk _ ha ht hc ih =>
    intro w zs hf
    nrm
    obtain ⟨p1, p2, hf⟩ := hf
    eat ih ⟨x, hx, ehx⟩
    obtain ⟨p3, p4, p5, hf⟩ := hf
    fint (.importTag ho hk hx ha ht hc)
  | propsTag ho hk _ hc ih =>
    intro w zs hf
    nrm
    obtain ⟨p1, p2, hf⟩ := hf
    eat ih ⟨x, hx, ehx⟩
    obtain ⟨p3, hf⟩ := hf
    fint (.propsTag ho hk hx hc)
  | plainBlock ho hk hc _ ho' he hc' ih =>
    intro w zs hf
    obtain ⟨⟨hn1, hn2⟩, ⟨hn3, hn4⟩, hn5, hn6⟩ := pn_plainBlocks _ hk
    nrm
    obtain ⟨p1, p2, p3, hf⟩ := hf
    eat ih ⟨hb, _⟩
    obtain ⟨p4, p5, p6, hf⟩ := hf
    fint (.plainBlock ho hk hc hb ho' he hc')
  | applyTag ho hk _ _ hc _ ho' he hc' ih1 ih2 ih3 =>
    intro w zs hf
    obtain ⟨tail, ha, ih2⟩ := ih2
    nrm
    obtain ⟨p1, p2, hf⟩ := hf
    replace hf := ha _ _ hf
    eat ih1 ⟨x, hx, ehx⟩
    eat ih2 hy
    obtain ⟨p3, hf⟩ := hf
    eat ih3 ⟨hb, _⟩
    obtain ⟨p4, p5, p6, hf⟩ := hf
    obtain ⟨ys', hy, ehy⟩ := hy _ ehx
    fint (.applyTag ho hk hx hy hc hb ho' he hc')
  | @appliedAll xs => exact ⟨[], fun U zs h => h, fun w zs hf => ⟨fun x' ex' => ⟨_, .appliedAll, ex'⟩, hf⟩⟩
  | @appliedMore xs p u ys w zs hp0 _ _ ih1 ih2 =>
    obtain ⟨tail, hy, ih⟩ := ih2
    refine ⟨p.tree :: .node .TWIG_OPERAND ys :: tail, fun U zs hf => ?_, fun w zs hf => ?_⟩
    · replace hf := hy _ _ hf
      nrm
      simpa using hf
    · nrm
      obtain ⟨p1, hf⟩ := hf
      eat ih1 ⟨xs', hx, ehx⟩
      eat ih hp
      refine ⟨fun x' ex' => Exists.imp (fun y' h => ⟨by img; exact .appliedMore hp0 hx h.1, h.2⟩) (hp _ ?_), hf⟩
      same
  | autoescapeTag ho hk _ hc _ ho' he hc' ih1 ih2 =>
    intro w zs hf
    nrm
    obtain ⟨p1, p2, hf⟩ := hf
    eat ih1 ⟨x, hx, ehx⟩
    obtain ⟨p3, hf⟩ := hf
    eat ih2 ⟨hb, _⟩
    obtain ⟨p4, p5, p6, hf⟩ := hf
    fint (.autoescapeTag ho hk hx hc hb ho' he hc')
  | noStrategy =>
    intro w zs hf
    exact ⟨⟨_, .noStrategy, by same⟩, hf⟩
  | noEscape ht =>
    intro w zs hf
    nrm
    obtain ⟨p1, hf⟩ := hf
    fin (.noEscape ht)
  | strategy _ ih =>
    intro w zs hf
    eat ih ⟨x, hx, ehx⟩
    fin (.strategy hx)
  | macroTag ho hk ht _ hc _ ho' he _ hut hc' ih1 ih2 ih3 =>
    intro w zs hf
    nrm
    obtain ⟨p1, p2, p3, hf⟩ := hf
    eat ih1 ⟨x, hx, ehx⟩
    obtain ⟨p4, hf⟩ := hf
    eat ih2 ⟨hb, _⟩
    obtain ⟨p5, p6, hf⟩ := hf
    eat ih3 ⟨⟨y, hy, ehy⟩, hs⟩
    obtain ⟨p7, hf⟩ := hf
    fint (.macroTag ho hk ht hx hc hb ho' he hy (texts_after hs hut) hc')
  | withTag ho hk _ _ hw hc _ ho' he hc' ih1 ih2 ih3 =>
    intro w zs hf
    nrm
    obtain ⟨p1, p2, hf⟩ := hf
    eat ih1 ⟨x, hx, ehx, _⟩
    eat ih2 ⟨⟨y, hy, ehy⟩, _⟩
    obtain ⟨p3, hf⟩ := hf
    eat ih3 ⟨hb, _⟩
    obtain ⟨p4, p5, p6, hf⟩ := hf
    fint (.withTag ho hk hx hy (fun e => by rw [hw (all_ne ok e)]; rfl) hc hb ho' he hc')
  | cacheTag ho hk _ _ _ hc _ ho' he hc' ih1 ih2 ih3 ih4 =>
    intro w zs hf
    nrm
    obtain ⟨p1, p2, hf⟩ := hf
    eat ih1 ⟨x, hx, ehx⟩
    eat (ih2 pn_ttl) ⟨y, hy, ehy⟩
    eat (ih3 pn_tags) ⟨z, hz, ehz⟩
    obtain ⟨p3, hf⟩ := hf
    eat ih4 ⟨hb, _⟩
    obtain ⟨p4, p5, p6, hf⟩ := hf
    fint (.cacheTag ho hk hx hy hz hc hb ho' he hc')
  | silentTag ho hk _ hc _ ho' he hc' ih1 ih2 =>
    intro w zs hf
    nrm
    obtain ⟨p1, p2, hf⟩ := hf
    eat ih1 ⟨x, hx, ehx⟩
    obtain ⟨p3, hf⟩ := hf
    eat ih2 ⟨hb, _⟩
    obtain ⟨p4, p5, p6, hf⟩ := hf
    fint (.silentTag ho hk hx hc hb ho' he hc')
  | @componentTag c _ _ _ _ _ _ _ _ _ _ _ hctx ho hk ht _ hc _ ho' he hc' ih1 ih2 =>
    intro w zs hf
    nrm
    obtain ⟨p1, p2, p3, hf⟩ := hf
    eat ih1 ⟨x, hx, ehx⟩
    obtain ⟨p4, hf⟩ := hf
    eat ih2 ⟨hb, _⟩
    obtain ⟨p5, p6, p7, hf⟩ := hf
    refine ⟨⟨fun c' hcc => ?_, headPlain_cons p1⟩, hf⟩
    have e : c' = c := by
      rcases hctx with rfl | rfl
      · exact hcc.element
      · exact hcc.attribute
    subst e
    got
    exact ⟨_, by img; exact .componentTag hctx ho hk ht hx hc hb ho' he hc', by same⟩
  | noHash =>
    intro w zs hf
    exact ⟨⟨_, .noHash, by same⟩, hf⟩
  | withHash hi _ ih =>
    intro w zs hf
    nrm
    obtain ⟨p1, hf⟩ := hf
    eat ih ⟨x, hx, ehx⟩
    fin (.withHash hi hx)
  | bodyEnd =>
    intro w zs hf
    exact ⟨⟨fun c' _ => ⟨_, .bodyEnd, rfl⟩, fun _ t ht => by cases ht⟩, hf⟩
  | bodyVar _ _ ih1 ih2 =>
    intro w zs hf
    nrm
    eat ih1.var ⟨⟨x, hx, ehx⟩, h1⟩
    eat ih2 ⟨hb, h2⟩
    refine ⟨⟨fun c' hcc => ?_, fun _ => head_append h1 (h2 rfl)⟩, hf⟩
    cases hcc.element
    got
    exact ⟨_, by img; exact .bodyVar hx hb, by same⟩
  | bodyTag _ _ ih1 ih2 =>
    intro w zs hf
    nrm
    eat ih1 ⟨hx, h1⟩
    eat ih2 ⟨hb, h2⟩
    refine ⟨⟨fun c' hcc => ?_, fun _ => head_append h1 (h2 rfl)⟩, hf⟩
    cases hcc.element
    got
    exact ⟨_, by img; exact .bodyTag hx hb, by same⟩
  | bodyHtml _ _ ih1 ih2 =>
    intro w zs hf
    nrm
    eat ih1 ⟨⟨x, hx, ehx⟩, h1⟩
    eat ih2 ⟨hb, h2⟩
    refine ⟨⟨fun c' hcc => ?_, fun _ => head_append h1 (h2 rfl)⟩, hf⟩
    cases hcc.element
    got
    exact ⟨_, by img; exact .bodyHtml hx hb, by same⟩
  | bodyUnknown ht _ ih =>
    intro w zs hf
    nrm
    obtain ⟨p1, hf⟩ := hf
    eat ih ⟨hb, h2⟩
    refine ⟨⟨fun c' hcc => ?_, fun _ => headPlain_cons p1⟩, hf⟩
    cases hcc.element
    got
    exact ⟨_, by img; exact .bodyUnknown ht hb, by same⟩
  | @bodyText t ts w xs ht hts hw _ ih =>
    intro w' zs hf
    nrm
    obtain ⟨p1, hf⟩ := hf
    obtain ⟨p2, hf⟩ := fits_tokens hf
    eat ih ⟨hb, h2⟩
    refine ⟨⟨fun c' hcc => ?_, fun _ => headPlain_cons p1⟩, hf⟩
    cases hcc.element
    got
    refine ⟨_, by
      img
      rw [all_tokens p2]
      refine .bodyText ht (allText_after (u := t :: ts) ok (List.forall_mem_cons.2 ⟨p1, p2⟩) (h2 rfl) hts) (fun t' r' e => ?_) hb
      cases w with
      | nil => cases e
      | cons t0 r0 =>
        have hp : C.Plain t0 := h2 rfl _ rfl
        rw [all_cons, hp] at e
        cases e
        obtain ⟨h3, h4⟩ := hw _ _ rfl
        exact ⟨h3, fun h => h4 (isText_back ok hp h)⟩, by same⟩
  | bodyAttr _ _ ih1 ih2 =>
    intro w zs hf
    nrm
    eat ih1 ⟨x, hx, ehx⟩
    eat ih2 ⟨hb, h2⟩
    refine ⟨⟨fun c' hcc => ?_, fun h => by cases h⟩, hf⟩
    cases hcc.attribute
    got
    exact ⟨_, by img; exact .bodyAttr hx hb, by same⟩
  | bodyDouble _ hu ih =>
    intro w zs hf
    eat ih hb
    refine ⟨⟨fun c' hcc => ?_, fun h => by cases h⟩, hf⟩
    obtain ⟨ys, hy, ehy⟩ := hb c' hcc
    have hu' := all_head_kind ok (ks := [.TK_UNKNOWN]) (by decide) (by simpa using hu)
    simp only [List.mem_singleton] at hu'
    rcases hcc.quoted (.inl rfl) with rfl | rfl
    · exact ⟨_, .bodyDouble hy hu', by same⟩
    · exact ⟨_, .bodySingle hy hu', by same⟩
  | bodySingle _ hu ih =>
    intro w zs hf
    eat ih hb
    refine ⟨⟨fun c' hcc => ?_, fun h => by cases h⟩, hf⟩
    obtain ⟨ys, hy, ehy⟩ := hb c' hcc
    have hu' := all_head_kind ok (ks := [.TK_UNKNOWN]) (by decide) (by simpa using hu)
    simp only [List.mem_singleton] at hu'
    rcases hcc.quoted (.inr rfl) with rfl | rfl
    · exact ⟨_, .bodyDouble hy hu', by same⟩
    · exact ⟨_, .bodySingle hy hu', by same⟩
  | bodyRaw _ hu hne ih =>
    intro w zs hf
    nrm
    eat ih hb
    refine ⟨⟨fun c' hcc => ?_, fun h => by cases h⟩, hf⟩
    obtain ⟨ys, hy, ehy⟩ := hb c' hcc
    have hu' := all_head_kind ok (ks := [.TK_UNKNOWN]) (by decide) (by simpa using hu)
    simp only [List.mem_singleton] at hu'
    cases hcc.raw
    exact ⟨_, .bodyRaw hy hu' (fun e => hne (all_ne ok e)), by same⟩
  | noPart =>
    intro w zs hf
    exact ⟨fun c' _ => ⟨_, .noPart, rfl⟩, hf⟩
  | partVar _ _ ih1 ih2 =>
    intro w zs hf
    nrm
    eat ih1.var ⟨⟨x, hx, ehx⟩, _⟩
    eat ih2 hb
    refine ⟨fun c' hcc => ?_, hf⟩
    got
    exact ⟨_, by img; exact .partVar hx hb, by same⟩
  | partTag _ _ ih1 ih2 =>
    intro w zs hf
    nrm
    eat ih1 ⟨hx, _⟩
    eat ih2 hb
    refine ⟨fun c' hcc => ?_, hf⟩
    got
    exact ⟨_, by img; exact .partTag hx hb, by same⟩
  | partToken ht _ ih =>
    intro w zs hf
    nrm
    obtain ⟨p1, hf⟩ := hf
    eat ih hb
    refine ⟨fun c' hcc => ?_, hf⟩
    got
    exact ⟨_, by img; exact .partToken (hcc.part ht) hb, by same⟩
  | plainName ht hx =>
    intro w zs hf
    nrm
    obtain ⟨p1, hf⟩ := hf
    fin (.plainName ht hx)
  | @colonName c t hc ht hx ha =>
    intro w zs hf
    have hne : t.text ≠ [] := by
      intro h
      rw [h] at hx
      obtain ⟨pre, name, e, hp, a, as, rfl, h1, h2⟩ := hx
      cases pre with
      | nil =>
        cases e
        revert h1
        unfold Letter
        decide
      | cons p pre =>
        have := congrArg List.length e
        simp at this
    obtain ⟨p1, p2, hf⟩ := fits_two hne hf
    fin (.colonName hc ht hx ((ok.adjacent (.inr hc) p1.1 p2.1).2 ha))
  | varName _ ih =>
    intro w zs hf
    eat ih.var ⟨⟨x, hx, ehx⟩, _⟩
    fin (.varName hx)
  | attrPlain _ ih =>
    intro w zs hf
    nrm
    eat ih ⟨x, hx, ehx⟩
    fin (.attrPlain hx)
  | attrValued _ he _ ih1 ih2 =>
    intro w zs hf
    nrm
    eat ih1 ⟨x, hx, ehx⟩
    obtain ⟨p1, hf⟩ := hf
    eat ih2 ⟨y, hy, ehy⟩
    fin (.attrValued hx he hy)
  | attrTag _ ih =>
    intro w zs hf
    eat ih ⟨hx, _⟩
    obtain ⟨_, hx, ehx⟩ := hx _ (.inl rfl)
    exact ⟨⟨_, .attrTag hx, by same⟩, hf⟩
  | doubleQuoted hl h hr ih =>
    intro w zs hf
    nrm
    obtain ⟨hq, hu, hf⟩ := fits_html (long h) hf
    exact ⟨quoted_after (.inl ⟨rfl, hl⟩) (hr.trans hl.symm) hq (ih [] [] (by simpa using hu)).1, hf⟩
  | singleQuoted hl h hr ih =>
    intro w zs hf
    nrm
    obtain ⟨hq, hu, hf⟩ := fits_html (long h) hf
    exact ⟨quoted_after (.inr ⟨rfl, hl⟩) (hr.trans hl.symm) hq (ih [] [] (by simpa using hu)).1, hf⟩
  | @unquotedWord t ht =>
    intro w zs hf
    obtain ⟨h1, hf⟩ := fits_unquoted hf
    refine ⟨?_, hf⟩
    rcases h1 with h1 | ⟨a, b, ha, hb, h1⟩
    · have e : C.all [t] = [C.moved t] := by rw [all_cons, h1]; rfl
      exact ⟨_, by rw [e]; exact .unquotedWord ht, by same⟩
    · have e : C.all [t] = a :: ([C.moved t] ++ [b]) := by rw [all_cons, h1]; rfl
      show ∃ x, T blank' .attrValue (C.all [t]) [x] ∧ _
      rw [e]
      refine quoted_new ha hb fun c hc => ⟨_, .partToken ?_ .noPart, by same⟩
      show IsPart c t.kind
      rw [ht]
      rcases hc with ⟨_, rfl⟩ | ⟨_, rfl⟩ <;> simp only [IsPart] <;> decide
  | unquotedVar _ ih =>
    intro w zs hf
    obtain ⟨o, v, d, y, rfl, e, ho, hd, hlen, ih⟩ := ih
    cases e
    nrm
    obtain ⟨h1, hv, hf⟩ := fits_unquotedVar hlen hf
    refine ⟨?_, hf⟩
    obtain ⟨⟨z, hz, ehz⟩, _⟩ := ih [] [] (by simpa using hv)
    rcases h1 with ⟨h1, h2⟩ | ⟨a, b, ha, hb, h1, h2⟩
    · have e : C.all (o :: (v ++ [d])) = C.moved o :: (C.all v ++ [C.moved d]) := by
        rw [all_cons, all_append, h1, all_cons, h2]; rfl
      exact ⟨_, by rw [e]; exact .unquotedVar (.var ho hz hd), by same⟩
    · have e : C.all (o :: (v ++ [d])) = a :: ((C.moved o :: (C.all v ++ [C.moved d])) ++ [b]) := by
        rw [all_cons, all_append, h1, all_cons, h2]; simp [all_nil]
      show ∃ x, T blank' .attrValue (C.all _) [x] ∧ _
      rw [e]
      refine quoted_new ha hb fun c hc => ?_
      have := T.partVar (c := c) (.var (o := C.moved o) (c := C.moved d) ho hz hd) .noPart
      rw [List.append_nil] at this
      exact ⟨_, this, by same⟩
  | element hl ht ha hv hr _ hg _ hl' hk htx hg' ih1 ih2 =>
    intro w zs hf
    nrm
    obtain ⟨p1, p2, hf⟩ := hf
    eat ih1 ⟨h1, _⟩
    obtain ⟨_, h1, eh1⟩ := h1 _ (.inl rfl)
    obtain ⟨p3, hf⟩ := hf
    eat ih2 ⟨h2, _⟩
    obtain ⟨_, h2, eh2⟩ := h2 _ (.inl rfl)
    obtain ⟨p4, p5, p6, hf⟩ := hf
    exact ⟨⟨⟨_, by
      img
      exact .element hl ht ((ok.adjacent (.inl hl) p1.1 p2.1).2 ha) hv hr h1 hg h2 hl' hk htx hg', by same⟩,
      headPlain_cons p1⟩, hf⟩
  | rawElement hl ht ha hv hr _ hg _ hl' hk htx hfe hg' ih1 ih2 =>
    intro w zs hf
    nrm
    obtain ⟨p1, p2, hf⟩ := hf
    eat ih1 ⟨h1, _⟩
    obtain ⟨_, h1, eh1⟩ := h1 _ (.inl rfl)
    obtain ⟨p3, hf⟩ := hf
    eat ih2 h2
    obtain ⟨_, h2, eh2⟩ := h2 _ (.inl rfl)
    obtain ⟨p4, p5, p6, hf⟩ := hf
    exact ⟨⟨⟨_, by
      img
      exact .rawElement hl ht ((ok.adjacent (.inl hl) p1.1 p2.1).2 ha) hv hr h1 hg h2 hl' hk htx
        (firstEnd_after ok hl' (by unfold IsTagName; rw [hk, htx]; exact ht) p4 p5 hfe) hg', by same⟩,
      headPlain_cons p1⟩, hf⟩
  | voidElement hl ht ha hv _ hg ih =>
    intro w zs hf
    nrm
    obtain ⟨p1, p2, hf⟩ := hf
    eat ih ⟨h1, _⟩
    obtain ⟨_, h1, eh1⟩ := h1 _ (.inl rfl)
    obtain ⟨p3, hf⟩ := hf
    exact ⟨⟨⟨_, by
      img
      exact .voidElement hl ht ((ok.adjacent (.inl hl) p1.1 p2.1).2 ha) hv h1 hg, by same⟩, headPlain_cons p1⟩, hf⟩
  | closedElement hl ht ha _ hg ih =>
    intro w zs hf
    nrm
    obtain ⟨p1, p2, hf⟩ := hf
    eat ih ⟨h1, _⟩
    obtain ⟨_, h1, eh1⟩ := h1 _ (.inl rfl)
    obtain ⟨p3, hf⟩ := hf
    exact ⟨⟨⟨_, by
      img
      exact .closedElement hl ht ((ok.adjacent (.inl hl) p1.1 p2.1).2 ha) h1 hg, by same⟩, headPlain_cons p1⟩, hf⟩
  | htmlComment ho hts hd hc =>
    intro w zs hf
    nrm
    obtain ⟨p1, hf⟩ := hf
    obtain ⟨p2, hf⟩ := fits_tokens hf
    nrm
    obtain ⟨p3, hf⟩ := hf
    exact ⟨⟨⟨_, by img; rw [all_tokens p2]; exact .htmlComment ho (moved_kinds (P := fun k => k ≠ T!"-->") hts) (moved_head (P := fun k => k ∉ directives.map (·.1)) hd) hc, by same⟩, headPlain_cons p1⟩, hf⟩
  | htmlDirective ho hd _ hc ih =>
    intro w zs hf
    obtain ⟨hn1, hn2⟩ := pn_directives _ hd
    nrm
    obtain ⟨p1, p2, hf⟩ := hf
    eat ih ⟨x, hx, ehx⟩
    obtain ⟨p3, hf⟩ := hf
    exact ⟨⟨⟨_, by img; exact .htmlDirective ho hd hx hc, by same⟩, headPlain_cons p1⟩, hf⟩
  | doctype ho hd ht hc =>
    intro w zs hf
    nrm
    obtain ⟨p1, p2, p3, p4, hf⟩ := hf
    exact ⟨⟨⟨_, by img; exact .doctype ho hd ht hc, by same⟩, headPlain_cons p1⟩, hf⟩

/-- The images of a template are a template with the same tree up to quotes. -/
theorem body_requoted (ok : C.Ok blank blank') (h : T blank (.body .element) u xs) (hf : Fits C u xs) :
    ∃ xs', T blank' (.body .element) (C.all u) xs' ∧ unquoteAll xs' = unquoteAll xs := by
  obtain ⟨⟨h1, _⟩, _⟩ := requoted ok h [] [] (by simpa using hf)
  exact h1 .element (.inl rfl)

end Ludtwig.Template
