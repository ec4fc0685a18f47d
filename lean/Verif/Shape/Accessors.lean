import Verif.Shape.Props
import Verif.Parser.ParseProps
import Verif.Syntax.TypedLemmas
import Verif.Syntax.InLemmas
import Verif.Rules.FixSamples
import Verif.Rules.NameSamples

/-! # Typed accessors on parsed trees: C64 and C65 -/

namespace Ludtwig.Shape

open Rx Rules

/-! ## Counting children -/

/-- A lower bound for the number of children with a property. -/
def Rx.least (p : Item → Bool) : Rx → Nat
  | never => 0
  | nil => 0
  | tok ks => if ks.all (fun k => p ⟨false, k⟩) then 1 else 0
  | tokNot _ => 0
  | node ks => if ks.all (fun k => p ⟨true, k⟩) then 1 else 0
  | seq a b => a.least p + b.least p
  | alt a b => min (a.least p) (b.least p)
  | star _ => 0
  | sure a => a.least p

theorem lang_least {p : Item → Bool} {r : Rx} : ∀ {w : List Item}, r.Lang w →
    r.least p ≤ w.countP p := by
  induction r with
  | never => intro w h; exact h.elim
  | nil => intro w _; exact Nat.zero_le _
  | tok ks =>
    rintro w ⟨k, hk, rfl⟩
    unfold least
    split
    · rename_i h
      simp [List.all_eq_true.1 h k hk]
    · exact Nat.zero_le _
  | tokNot ks => intro w _; exact Nat.zero_le _
  | node ks =>
    rintro w ⟨k, hk, rfl⟩
    unfold least
    split
    · rename_i h
      simp [List.all_eq_true.1 h k hk]
    · exact Nat.zero_le _
  | seq a b iha ihb =>
    rintro w ⟨u, v, rfl, hu, hv⟩
    have := iha hu
    have := ihb hv
    rw [List.countP_append]
    unfold least
    omega
  | alt a b iha ihb =>
    rintro w (h | h)
    · have := iha h; unfold least; omega
    · have := ihb h; unfold least; omega
  | star a iha => intro w _; exact Nat.zero_le _
  | sure a iha => intro w h; exact iha h

/-- The number of children with a property, if it is the same for all words. -/
def Rx.exactly (p : Item → Bool) : Rx → Option Nat
  | never => none
  | nil => some 0
  | tok ks =>
    if ks.all (fun k => p ⟨false, k⟩) then some 1
    else if ks.all (fun k => !p ⟨false, k⟩) then some 0 else none
  | tokNot _ => none
  | node ks =>
    if ks.all (fun k => p ⟨true, k⟩) then some 1
    else if ks.all (fun k => !p ⟨true, k⟩) then some 0 else none
  | seq a b =>
    match a.exactly p, b.exactly p with
    | some m, some n => some (m + n)
    | _, _ => none
  | alt a b => if a.exactly p = b.exactly p then a.exactly p else none
  | star a => if a.exactly p = some 0 then some 0 else none
  | sure a => a.exactly p

theorem lang_exactly {p : Item → Bool} {r : Rx} : ∀ {w : List Item} {n : Nat}, r.exactly p = some n →
    r.Lang w → w.countP p = n := by
  induction r with
  | never => intro w n _ h; exact h.elim
  | nil => intro w n hn h; cases hn; rw [show w = [] from h]; rfl
  | tok ks =>
    rintro w n hn ⟨k, hk, rfl⟩
    unfold exactly at hn
    split at hn
    · rename_i h; cases hn; simp [List.all_eq_true.1 h k hk]
    · split at hn
      · rename_i h; cases hn
        have := List.all_eq_true.1 h k hk
        simp only [Bool.not_eq_true'] at this
        simp [this]
      · cases hn
  | tokNot ks => intro w n hn _; cases hn
  | node ks =>
    rintro w n hn ⟨k, hk, rfl⟩
    unfold exactly at hn
    split at hn
    · rename_i h; cases hn; simp [List.all_eq_true.1 h k hk]
    · split at hn
      · rename_i h; cases hn
        have := List.all_eq_true.1 h k hk
        simp only [Bool.not_eq_true'] at this
        simp [this]
      · cases hn
  | seq a b iha ihb =>
    rintro w n hn ⟨u, v, rfl, hu, hv⟩
    unfold exactly at hn
    split at hn
    · rename_i m n' h1 h2
      cases hn
      rw [List.countP_append, iha h1 hu, ihb h2 hv]
    · cases hn
  | alt a b iha ihb =>
    intro w n hn h
    unfold exactly at hn
    split at hn
    · rename_i heq
      rcases h with h | h
      · exact iha hn h
      · exact ihb (heq ▸ hn) h
    · cases hn
  | star a iha =>
    rintro w n hn ⟨ws, rfl, hw⟩
    unfold exactly at hn
    split at hn
    · rename_i h0
      cases hn
      rw [List.countP_flatten]
      rw [List.sum_eq_zero_iff_forall_eq_nat]
      intro x hx
      obtain ⟨u, hu, rfl⟩ := List.mem_map.1 hx
      exact iha h0 (hw u hu)
    · cases hn
  | sure a iha => intro w n hn h; exact iha hn h

/-- Do all words have as many children with the one property as with the other? -/
def Rx.balanced (p q : Item → Bool) (r : Rx) : Bool :=
  ((r.exactly p).isSome && r.exactly p == r.exactly q) ||
  match r with
  | seq a b => a.balanced p q && b.balanced p q
  | alt a b => a.balanced p q && b.balanced p q
  | star a => a.balanced p q
  | sure a => a.balanced p q
  | _ => false

theorem lang_balanced {p q : Item → Bool} {r : Rx} : ∀ {w : List Item}, r.balanced p q = true →
    r.Lang w → w.countP p = w.countP q := by
  have key : ∀ {r : Rx} {w : List Item}, ((r.exactly p).isSome && r.exactly p == r.exactly q) = true →
      r.Lang w → w.countP p = w.countP q := by
    intro r w h hw
    simp only [Bool.and_eq_true, beq_iff_eq, Option.isSome_iff_exists] at h
    obtain ⟨⟨n, h1⟩, h2⟩ := h
    rw [lang_exactly h1 hw, lang_exactly (h2 ▸ h1) hw]
  induction r with
  | never => intro w _ h; exact h.elim
  | nil => intro w hb h; unfold balanced at hb; simp only [Bool.or_false] at hb; exact key hb h
  | tok ks => intro w hb h; unfold balanced at hb; simp only [Bool.or_false] at hb; exact key hb h
  | tokNot ks => intro w hb h; unfold balanced at hb; simp only [Bool.or_false] at hb; exact key hb h
  | node ks => intro w hb h; unfold balanced at hb; simp only [Bool.or_false] at hb; exact key hb h
  | seq a b iha ihb =>
    intro w hb h
    unfold balanced at hb
    rcases Bool.or_eq_true_iff.1 hb with hb | hb
    · exact key hb h
    · simp only [Bool.and_eq_true] at hb
      obtain ⟨u, v, rfl, hu, hv⟩ := h
      rw [List.countP_append, List.countP_append, iha hb.1 hu, ihb hb.2 hv]
  | alt a b iha ihb =>
    intro w hb h
    unfold balanced at hb
    rcases Bool.or_eq_true_iff.1 hb with hb | hb
    · exact key hb h
    · simp only [Bool.and_eq_true] at hb
      rcases h with h | h
      · exact iha hb.1 h
      · exact ihb hb.2 h
  | star a iha =>
    intro w hb h
    unfold balanced at hb
    rcases Bool.or_eq_true_iff.1 hb with hb | hb
    · exact key hb h
    · obtain ⟨ws, rfl, hw⟩ := h
      rw [List.countP_flatten, List.countP_flatten]
      congr 1
      exact List.map_congr_left (fun u hu => iha hb (hw u hu))
  | sure a iha =>
    intro w hb h
    unfold balanced at hb
    rcases Bool.or_eq_true_iff.1 hb with hb | hb
    · exact key hb h
    · exact iha hb h

/-- The item of an element. -/
def itemOf (c : Elem) : Item := ⟨c.isNode, c.kind⟩

/-- Is the element a trivia token? -/
def triviaElem (c : Elem) : Bool := !c.isNode && c.kind.isTrivia

theorem childElems_items (path : List Frame) (k : SyntaxKind) (start : Nat) : ∀ (cs before : List Tree)
    (pos : Nat), ((childElems path k start before pos cs).filter (fun c => !triviaElem c)).map itemOf =
      items cs
  | [], _, _ => rfl
  | .token k' x :: cs, before, pos => by
    have ih := childElems_items path k start cs (before ++ [.token k' x]) (pos + byteLen (Tree.token k' x).text)
    unfold items childElems
    split
    · rename_i htr
      rw [List.filter_cons_of_neg (by simp [triviaElem, Elem.isNode, Elem.kind, Tree.isNode, Tree.kind, htr])]
      exact ih
    · rename_i htr
      rw [List.filter_cons_of_pos (by simp [triviaElem, Elem.isNode, Elem.kind, Tree.isNode, Tree.kind, htr]),
        List.map_cons, ih]
      rfl
  | .node k' x :: cs, before, pos => by
    have ih := childElems_items path k start cs (before ++ [.node k' x]) (pos + byteLen (Tree.node k' x).text)
    unfold items childElems
    rw [List.filter_cons_of_pos (by simp [triviaElem, Elem.isNode, Tree.isNode]), List.map_cons, ih]
    rfl

theorem children_items {e : Elem} {k : SyntaxKind} {cs : List Tree} (ht : e.tree = .node k cs) :
    (e.childrenWithTokens.filter (fun c => !triviaElem c)).map itemOf = items cs := by
  unfold Elem.childrenWithTokens
  rw [ht]
  exact childElems_items ..

theorem nodeOf_tree {k : SyntaxKind} {t : Tree} (h : nodeOf k t = true) : ∃ cs, t = .node k cs := by
  cases t with
  | token _ _ => cases h
  | node k' cs =>
    refine ⟨cs, ?_⟩
    rw [show k' = k by simpa [nodeOf] using h]

section
variable {G : SyntaxKind → Rx} {root : Tree} {e : Elem} {K : SyntaxKind} {w : List Item}

theorem least_children (h : Conforms G root) (hin : Elem.In root e) (hk : nodeOf K e.tree = true)
    (p : Item → Bool) :
    (G K).least p ≤
      (e.childrenWithTokens.filter (fun c => !triviaElem c && p (itemOf c))).length := by
  obtain ⟨cs, ht⟩ := nodeOf_tree hk
  refine Nat.le_trans (lang_least (p := p) (lang_in h hin ht)) ?_
  rw [← children_items ht, List.countP_map, List.countP_eq_length_filter, List.filter_filter]
  refine Nat.le_of_eq (congrArg _ (List.filter_congr (fun c _ => ?_)))
  simp [Bool.and_comm]

theorem has_item (h : Conforms G root) (hin : Elem.In root e) (hk : nodeOf K e.tree = true)
    {p : Item → Bool} (hm : 0 < (G K).least p) :
    ∃ c ∈ e.childrenWithTokens, triviaElem c = false ∧ p (itemOf c) = true := by
  have := List.length_pos_iff_exists_mem.1 (Nat.lt_of_lt_of_le hm (least_children h hin hk p))
  obtain ⟨c, hc⟩ := this
  obtain ⟨h1, h2⟩ := List.mem_filter.1 hc
  simp only [Bool.and_eq_true, Bool.not_eq_true'] at h2
  exact ⟨c, h1, h2.1, h2.2⟩

/-- The node that every word of the grammar has is found by `support::child`. -/
theorem has_child (h : Conforms G root) (hin : Elem.In root e) (hk : nodeOf K e.tree = true)
    {k : SyntaxKind} (hm : 0 < (G K).least (fun i => i == ⟨true, k⟩)) :
    (e.child k).isSome = true := by
  obtain ⟨c, hc, _, hp⟩ := has_item h hin hk hm
  have hp : itemOf c = ⟨true, k⟩ := by simpa using hp
  injection hp with h1 h2
  unfold Elem.child Elem.children
  rw [List.find?_isSome]
  exact ⟨c, List.mem_filter.2 ⟨hc, h1⟩, by simp [h2]⟩

theorem has_second (h : Conforms G root) (hin : Elem.In root e) (hk : nodeOf K e.tree = true)
    {k : SyntaxKind} (hm : 1 < (G K).least (fun i => i == ⟨true, k⟩)) :
    ((e.childrenOf k)[1]?).isSome = true := by
  have := Nat.lt_of_lt_of_le hm (least_children h hin hk (fun i => i == ⟨true, k⟩))
  have hl : (e.childrenOf k).length =
      (e.childrenWithTokens.filter (fun c => !triviaElem c && itemOf c == ⟨true, k⟩)).length := by
    unfold Elem.childrenOf Elem.children
    rw [List.filter_filter]
    refine congrArg _ (List.filter_congr (fun c _ => ?_))
    rw [Bool.eq_iff_iff]
    simp only [itemOf, triviaElem, Bool.and_eq_true, beq_iff_eq, Item.mk.injEq, Bool.not_eq_true',
      Bool.and_eq_false_iff, Bool.not_eq_false']
    constructor
    · rintro ⟨h1, h2⟩; exact ⟨.inl h2, h2, h1⟩
    · rintro ⟨_, h2, h1⟩; exact ⟨h1, h2⟩
  rw [← hl] at this
  simp [List.getElem?_eq_getElem this]

theorem childrenOf_length (ht : ∃ k cs, e.tree = .node k cs ∧ items cs = w) (k : SyntaxKind) :
    (e.childrenOf k).length = w.countP (fun i => i == ⟨true, k⟩) := by
  obtain ⟨k', cs, ht, rfl⟩ := ht
  rw [← children_items ht, List.countP_map, List.countP_eq_length_filter, List.filter_filter]
  unfold Elem.childrenOf Elem.children
  rw [List.filter_filter]
  refine congrArg _ (List.filter_congr (fun c _ => ?_))
  rw [Bool.eq_iff_iff]
  simp only [itemOf, triviaElem, Bool.and_eq_true, beq_iff_eq, Item.mk.injEq, Bool.not_eq_true',
    Bool.and_eq_false_iff, Bool.not_eq_false', Function.comp_apply]
  constructor
  · rintro ⟨h1, h2⟩; exact ⟨⟨h2, h1⟩, .inl h2⟩
  · rintro ⟨⟨h2, h1⟩, _⟩; exact ⟨h1, h2⟩

theorem child_isSome (k : SyntaxKind) : (e.child k).isSome = true ↔ 0 < (e.childrenOf k).length := by
  unfold Elem.child Elem.childrenOf
  rw [List.find?_isSome, List.length_pos_iff_exists_mem]
  constructor
  · rintro ⟨c, h1, h2⟩; exact ⟨c, List.mem_filter.2 ⟨h1, h2⟩⟩
  · rintro ⟨c, h⟩; exact ⟨c, (List.mem_filter.1 h).1, (List.mem_filter.1 h).2⟩

/-- Two nodes that come together. -/
theorem child_iff_child (h : Conforms G root) (hin : Elem.In root e) (hk : nodeOf K e.tree = true)
    {k k' : SyntaxKind} (hb : (G K).balanced (fun i => i == ⟨true, k⟩) (fun i => i == ⟨true, k'⟩) = true) :
    (e.child k).isSome = true ↔ (e.child k').isSome = true := by
  obtain ⟨cs, ht⟩ := nodeOf_tree hk
  have := lang_balanced hb (lang_in h hin ht)
  rw [child_isSome, child_isSome, childrenOf_length ⟨_, _, ht, rfl⟩, childrenOf_length ⟨_, _, ht, rfl⟩, this]

/-- The token that every word of the grammar has is found among the tokens. -/
theorem has_token (h : Conforms G root) (hin : Elem.In root e) (hk : nodeOf K e.tree = true)
    {ks : List SyntaxKind} (hm : 0 < (G K).least (fun i => !i.isNode && ks.contains i.kind)) :
    ∃ c ∈ e.tokens, ks.contains c.kind = true ∧ c.kind.isTrivia = false := by
  obtain ⟨c, hc, ht, hp⟩ := has_item h hin hk hm
  simp only [itemOf, Bool.and_eq_true, Bool.not_eq_true'] at hp
  refine ⟨c, List.mem_filter.2 ⟨hc, by simp [hp.1]⟩, hp.2, ?_⟩
  simpa [triviaElem, hp.1] using ht

theorem has_tokenOf (h : Conforms G root) (hin : Elem.In root e) (hk : nodeOf K e.tree = true)
    {k : SyntaxKind} (hm : 0 < (G K).least (fun i => !i.isNode && [k].contains i.kind)) :
    (e.token k).isSome = true := by
  obtain ⟨c, hc, h1, _⟩ := has_token h hin hk hm
  unfold Elem.token
  rw [List.find?_isSome]
  exact ⟨c, hc, by simpa using h1⟩

/-- A child of a kind that only one kind of nodes has. -/
theorem has_parent (h : Conforms G root) (hr : nodeOf .ROOT root = true) (hin : Elem.In root e)
    (hk : nodeOf K e.tree = true) (hne : K ≠ .ROOT) :
    ∃ p k, e.parent = some p ∧ Elem.In root p ∧ nodeOf k p.tree = true ∧
      (G k).mentions ⟨true, K⟩ = true := by
  cases hin with
  | root =>
    obtain ⟨_, h1⟩ := nodeOf_tree hr
    obtain ⟨_, h2⟩ := nodeOf_tree hk
    have h2 : root = _ := h2
    rw [h1] at h2
    cases h2
    exact absurd rfl hne
  | @child p _ hp hc =>
    obtain ⟨cs', h2⟩ := nodeOf_tree hk
    cases hpt : p.tree with
    | token _ _ => unfold Elem.childrenWithTokens at hc; rw [hpt] at hc; cases hc
    | node k cs =>
      refine ⟨p, k, child_parent hc, hp, by simp [nodeOf, hpt], ?_⟩
      refine child_mentioned h hp hpt (cs' := cs') ?_
      unfold Elem.childrenWithTokens at hc
      rw [hpt] at hc
      rw [← h2]
      exact mem_childElems_tree hc

end

/-! ## Which nodes have which parents -/

theorem parent_startingBlock : ∀ k, (damagedProduction k).mentions ⟨true, .TWIG_STARTING_BLOCK⟩ = true →
    k = .TWIG_BLOCK := by
  intro k; cases k <;> first | (intro _; rfl) | (intro h; exact absurd h (by decide +kernel))

theorem parent_endingBlock : ∀ k, (damagedProduction k).mentions ⟨true, .TWIG_ENDING_BLOCK⟩ = true →
    k = .TWIG_BLOCK := by
  intro k; cases k <;> first | (intro _; rfl) | (intro h; exact absurd h (by decide +kernel))

theorem parent_startingTag : ∀ k, (damagedProduction k).mentions ⟨true, .HTML_STARTING_TAG⟩ = true →
    k = .HTML_TAG := by
  intro k; cases k <;> first | (intro _; rfl) | (intro h; exact absurd h (by decide +kernel))

theorem parent_endingTag : ∀ k, (damagedProduction k).mentions ⟨true, .HTML_ENDING_TAG⟩ = true →
    k = .HTML_TAG := by
  intro k; cases k <;> first | (intro _; rfl) | (intro h; exact absurd h (by decide +kernel))

theorem parent_attributeList : ∀ k, (damagedProduction k).mentions ⟨true, .HTML_ATTRIBUTE_LIST⟩ = true →
    k = .HTML_STARTING_TAG := by
  intro k; cases k <;> first | (intro _; rfl) | (intro h; exact absurd h (by decide +kernel))

theorem parent_attribute : ∀ k, (damagedProduction k).mentions ⟨true, .HTML_ATTRIBUTE⟩ = true →
    k = .HTML_ATTRIBUTE_LIST ∨ k = .BODY := by
  intro k
  cases k <;> first
    | (intro _; exact .inl rfl) | (intro _; exact .inr rfl) | (intro h; exact absurd h (by decide +kernel))

theorem parent_root : ∀ k, (damagedProduction k).mentions ⟨true, .ROOT⟩ = false := by
  intro k; cases k <;> rfl

theorem tokens_binary : ∀ k, (damagedProduction .TWIG_BINARY_EXPRESSION).mentions ⟨false, k⟩ = true →
    k ∈ binaryOperators := by
  intro k h
  have : (damagedProduction .TWIG_BINARY_EXPRESSION).mentions ⟨false, k⟩ = binaryOperators.contains k := by
    show (((false || (!false && binaryOperators.contains k)) || false) || (false || _)) = _
    cases binaryOperators.contains k <;> rfl
  rw [this] at h
  simpa using h

section
variable {errLen : Text → Nat} {s : Text} {p : Parse}

theorem root_node (h : parse errLen s = .ok p) : nodeOf .ROOT p.tree = true := by
  obtain ⟨trees, h1, _⟩ := C05_root_covers errLen s p h
  rw [h1]
  rfl

theorem cast_node {k : SyntaxKind} {e : Elem} (h : nodeOf k e.tree = true) : e.cast k = some e := by
  obtain ⟨cs, ht⟩ := nodeOf_tree h
  unfold Elem.cast
  rw [if_pos]
  simp [Elem.isNode, Elem.kind, ht, Tree.isNode, Tree.kind]

/-- C64: in every parsed tree, also with parse errors, the accessors of these parts find them. -/
theorem C64_parts (h : parse errLen s = .ok p) {e : Elem} (hin : Elem.In p.tree e) :
    (nodeOf .TWIG_BLOCK e.tree = true → e.startingBlock.isSome = true) ∧
    (nodeOf .HTML_TAG e.tree = true → e.startingTag.isSome = true) ∧
    (nodeOf .HTML_STARTING_TAG e.tree = true → (e.child .HTML_ATTRIBUTE_LIST).isSome = true) ∧
    (nodeOf .HTML_STRING e.tree = true → e.htmlStringInner.isSome = true) ∧
    (nodeOf .TWIG_LITERAL_STRING e.tree = true → e.twigStringInner.isSome = true) ∧
    (nodeOf .TWIG_LITERAL_NAME e.tree = true → e.word.isSome = true) ∧
    (nodeOf .TWIG_FILTER e.tree = true →
      e.operand.isSome = true ∧ e.filterOperand.isSome = true) ∧
    (nodeOf .TWIG_FUNCTION_CALL e.tree = true →
      e.operand.isSome = true ∧ e.callArguments.isSome = true) ∧
    (nodeOf .TWIG_EXTENDS e.tree = true → e.extendsKeyword.isSome = true) ∧
    (nodeOf .TWIG_BINARY_EXPRESSION e.tree = true →
      ∃ o, e.firstNonTriviaToken = some o ∧ o.kind ∈ binaryOperators) ∧
    (nodeOf .LUDTWIG_DIRECTIVE_IGNORE e.tree = true ∨ nodeOf .LUDTWIG_DIRECTIVE_FILE_IGNORE e.tree = true →
      (e.child .LUDTWIG_DIRECTIVE_RULE_LIST).isSome = true) := by
  have hc := C63_every_tree h
  refine ⟨fun hk => has_child (k := .TWIG_STARTING_BLOCK) hc hin hk (by decide +kernel),
    fun hk => has_child (k := .HTML_STARTING_TAG) hc hin hk (by decide +kernel),
    fun hk => has_child (k := .HTML_ATTRIBUTE_LIST) hc hin hk (by decide +kernel),
    fun hk => has_child (k := .HTML_STRING_INNER) hc hin hk (by decide +kernel),
    fun hk => has_child (k := .TWIG_LITERAL_STRING_INNER) hc hin hk (by decide +kernel),
    fun hk => has_tokenOf (k := T!"word") hc hin hk (by decide +kernel),
    fun hk => ⟨has_child (k := .TWIG_OPERAND) hc hin hk (by decide +kernel),
      has_second (k := .TWIG_OPERAND) hc hin hk (by decide +kernel)⟩,
    fun hk => ⟨has_child (k := .TWIG_OPERAND) hc hin hk (by decide +kernel),
      has_child (k := .TWIG_ARGUMENTS) hc hin hk (by decide +kernel)⟩,
    fun hk => has_tokenOf (k := T!"extends") hc hin hk (by decide +kernel), fun hk => ?_, fun hk => ?_⟩
  · obtain ⟨c, hct, h1, h2⟩ := has_token hc hin hk (ks := binaryOperators) (by decide +kernel)
    have hsome : (e.tokens.find? (fun t => !t.kind.isTrivia)).isSome = true := by
      rw [List.find?_isSome]
      exact ⟨c, hct, by simp [h2]⟩
    obtain ⟨o, ho⟩ := Option.isSome_iff_exists.1 hsome
    refine ⟨o, ho, ?_⟩
    obtain ⟨cs, ht⟩ := nodeOf_tree hk
    have hm := lang_mentions (lang_in hc hin ht) (itemOf o) (by
      rw [← children_items ht]
      refine List.mem_map.2 ⟨o, List.mem_filter.2 ⟨(List.mem_filter.1 (List.mem_of_find?_eq_some ho)).1, ?_⟩, rfl⟩
      have := List.find?_some ho
      simp only [triviaElem, Bool.not_and, Bool.not_not]
      simp only [Bool.not_eq_true'] at this
      simp [this])
    have hn : o.isNode = false := by
      simpa using (List.mem_filter.1 (List.mem_of_find?_eq_some ho)).2
    rw [itemOf, hn] at hm
    exact tokens_binary _ hm
  · rcases hk with hk | hk
    · exact has_child hc hin hk (by decide +kernel)
    · exact has_child hc hin hk (by decide +kernel)

/-- C64 for the way up: the accessors from a part to the whole succeed in every parsed tree; for an
attribute unless it is in the body of a Twig tag. -/
theorem C64_wholes (h : parse errLen s = .ok p) {e : Elem} (hin : Elem.In p.tree e) :
    (nodeOf .TWIG_STARTING_BLOCK e.tree = true ∨ nodeOf .TWIG_ENDING_BLOCK e.tree = true →
      e.twigBlock.isSome = true) ∧
    (nodeOf .HTML_STARTING_TAG e.tree = true ∨ nodeOf .HTML_ENDING_TAG e.tree = true →
      e.htmlTag.isSome = true) ∧
    (nodeOf .HTML_ATTRIBUTE e.tree = true →
      ∃ q, e.parent = some q ∧ (nodeOf .BODY q.tree = true ∨ e.attributeTag.isSome = true)) := by
  have hc := C63_every_tree h
  have hr := root_node h
  refine ⟨fun hk => ?_, fun hk => ?_, fun hk => ?_⟩
  · have hq : ∃ q, e.parent = some q ∧ nodeOf .TWIG_BLOCK q.tree = true := by
      rcases hk with hk | hk <;> obtain ⟨q, k, h1, _, h2, h3⟩ := has_parent hc hr hin hk (by decide +kernel)
      · cases parent_startingBlock k h3; exact ⟨q, h1, h2⟩
      · cases parent_endingBlock k h3; exact ⟨q, h1, h2⟩
    obtain ⟨q, h1, h2⟩ := hq
    simp [Elem.twigBlock, h1, cast_node h2]
  · have hq : ∃ q, e.parent = some q ∧ nodeOf .HTML_TAG q.tree = true := by
      rcases hk with hk | hk <;> obtain ⟨q, k, h1, _, h2, h3⟩ := has_parent hc hr hin hk (by decide +kernel)
      · cases parent_startingTag k h3; exact ⟨q, h1, h2⟩
      · cases parent_endingTag k h3; exact ⟨q, h1, h2⟩
    obtain ⟨q, h1, h2⟩ := hq
    simp [Elem.htmlTag, h1, cast_node h2]
  · obtain ⟨q, k, h1, hq, h2, h3⟩ := has_parent hc hr hin hk (by decide +kernel)
    refine ⟨q, h1, ?_⟩
    rcases parent_attribute k h3 with rfl | rfl
    · right
      obtain ⟨q', k', g1, _, g2, g3⟩ := has_parent hc hr hq h2 (by decide +kernel)
      cases parent_attributeList k' g3
      simp [Elem.attributeTag, h1, g1, cast_node g2]
    · exact .inl h2

/-- C64 for bodies: a tag or block has an ending exactly if it has a body, in every parsed tree. -/
theorem C64_bodies (h : parse errLen s = .ok p) {e : Elem} (hin : Elem.In p.tree e) :
    (nodeOf .HTML_TAG e.tree = true → (e.isSelfClosing = false ↔ e.body.isSome = true)) ∧
    (nodeOf .TWIG_BLOCK e.tree = true → (e.endingBlock.isSome = true ↔ e.body.isSome = true)) := by
  have hc := C63_every_tree h
  refine ⟨fun hk => ?_, fun hk => ?_⟩
  · have := child_iff_child (k := .HTML_ENDING_TAG) (k' := .BODY) hc hin hk (by decide +kernel)
    unfold Elem.isSelfClosing Elem.endingTag Elem.body
    rw [← this]
    cases e.child .HTML_ENDING_TAG <;> simp
  · exact child_iff_child (k := .TWIG_ENDING_BLOCK) (k' := .BODY) hc hin hk (by decide +kernel)

/-- An element found by `support::child` is in the tree. -/
theorem child_in {root : Tree} {e c : Elem} (hin : Elem.In root e) {k : SyntaxKind}
    (hc : e.child k = some c) : Elem.In root c ∧ nodeOf k c.tree = true := by
  unfold Elem.child at hc
  have h1 := List.mem_of_find?_eq_some hc
  have h2 := List.find?_some hc
  obtain ⟨h1, h3⟩ := List.mem_filter.1 h1
  refine ⟨.child hin h1, ?_⟩
  cases ht : c.tree with
  | token _ _ => simp [Elem.isNode, ht, Tree.isNode] at h3
  | node k' cs => simpa [nodeOf, Elem.kind, ht, Tree.kind] using h2

/-- C65: in a tree without parse errors these accessors find their parts, too. -/
theorem C65_parts (h : parse errLen s = .ok p) (he : p.errors = []) {e : Elem}
    (hin : Elem.In p.tree e) :
    (nodeOf .TWIG_STARTING_BLOCK e.tree = true → e.word.isSome = true) ∧
    (nodeOf .TWIG_BLOCK e.tree = true → e.blockName.isSome = true) ∧
    (nodeOf .HTML_STARTING_TAG e.tree = true ∨ nodeOf .HTML_ENDING_TAG e.tree = true →
      e.startingTagName.isSome = true) ∧
    (nodeOf .HTML_TAG e.tree = true → e.tagName.isSome = true) ∧
    (nodeOf .TWIG_VAR e.tree = true → e.varExpression.isSome = true) := by
  have hc := C62_error_free_tree h he
  have hblock : ∀ {e : Elem}, Elem.In p.tree e → nodeOf .TWIG_STARTING_BLOCK e.tree = true →
      e.word.isSome = true := fun hin hk => has_tokenOf hc hin hk (by decide +kernel)
  have hname : ∀ {e : Elem}, Elem.In p.tree e →
      nodeOf .HTML_STARTING_TAG e.tree = true ∨ nodeOf .HTML_ENDING_TAG e.tree = true →
      e.startingTagName.isSome = true := by
    intro e hin hk
    have : ∃ c ∈ e.tokens, [T!"word", T!"twig component name"].contains c.kind = true ∧
        c.kind.isTrivia = false := by
      rcases hk with hk | hk
      · exact has_token hc hin hk (by decide +kernel)
      · exact has_token hc hin hk (by decide +kernel)
    obtain ⟨c, h1, h2, _⟩ := this
    unfold Elem.startingTagName
    rw [List.find?_isSome]
    exact ⟨c, h1, by simpa using h2⟩
  refine ⟨hblock hin, fun hk => ?_, hname hin, fun hk => ?_, fun hk => has_child hc hin hk (by decide +kernel)⟩
  · obtain ⟨b, hb⟩ := Option.isSome_iff_exists.1 ((C64_parts h hin).1 hk)
    obtain ⟨h1, h2⟩ := child_in hin hb
    simpa [Elem.blockName, hb] using hblock h1 h2
  · obtain ⟨b, hb⟩ := Option.isSome_iff_exists.1 ((C64_parts h hin).2.1 hk)
    obtain ⟨h1, h2⟩ := child_in hin hb
    simpa [Elem.tagName, hb] using hname h1 (.inl h2)

end

/-! ## Examples -/

/-- The text `{{ a === ["b", {"k": 1, "l": 2}]}}` meets the conditions of C62 and C65. -/
example : ∃ p, parse (fun _ => 1) "{{ a === [\"b\", {\"k\": 1, \"l\": 2}]}}".toList = .ok p ∧
    p.errors = [] ∧ Conforms production p.tree := by
  obtain ⟨p, h1, _, h2⟩ := parse_of_parsesWith hashSample_parsed
  have he : p.errors = [] := List.eq_nil_of_length_eq_zero h2
  exact ⟨p, h1, he, C62_error_free_tree h1 he⟩

/-- The text `{{ a is same as(["b", x && y])] }}` has a parse error and meets the conditions of C63
and C64. -/
example : ∃ p, parse (fun _ => 1) "{{ a is same as([\"b\", x && y])] }}".toList = .ok p ∧
    p.errors.length = 1 ∧ Conforms damagedProduction p.tree := by
  obtain ⟨p, h1, _, h2⟩ := parse_of_parsesWith joinSample₂_parsed
  exact ⟨p, h1, h2, C63_every_tree h1⟩

/-- A tree that does not follow the grammar: a variable without an expression. -/
example : ¬ Conforms production (.node .ROOT [.node .TWIG_VAR [.token T!"{{" "{{".toList,
    .token T!"}}" "}}".toList]]) := by
  intro h
  have h1 := lang_least (p := fun i => i == ⟨true, .TWIG_EXPRESSION⟩) h.2.1.1
  exact absurd h1 (by decide +kernel)

/-- A tree that does not follow the grammar of files with errors: a variable without its opening. -/
example : ¬ Conforms damagedProduction (.node .ROOT [.node .TWIG_VAR [.token T!"}}" "}}".toList]]) := by
  intro h
  have h1 := lang_least (p := fun i => i == ⟨false, T!"{{"⟩ || i == ⟨false, T!"{{-"⟩ ||
    i == ⟨false, T!"{{~"⟩) h.2.1.1
  exact absurd h1 (by decide +kernel)

/-- The elements of a parsed tree that C64 and C65 speak about exist: a block, a tag, an attribute, a
string, a name and a filter. -/
example : parsesTo "{% block a %}<p id=\"b\">{{ c|d }}</p>{% endblock %}".toList accessorSample = true ∧
    [SyntaxKind.TWIG_BLOCK, .HTML_TAG, .HTML_ATTRIBUTE, .HTML_STRING, .TWIG_LITERAL_NAME,
      .TWIG_FILTER, .TWIG_VAR].all (fun k =>
        accessorSample.elems.any (fun e => nodeOf k e.tree)) = true :=
  ⟨accessorSample_parsed, by decide +kernel⟩

/-- The text `{{ a is same as(["b", x && y])] }}`, with whitespace and a parse error, meets the
condition of C69. -/
example : ∃ p, parse (fun _ => 1) "{{ a is same as([\"b\", x && y])] }}".toList = .ok p ∧
    p.errors.length = 1 ∧ Attached p.tree := by
  obtain ⟨p, h1, _, h2⟩ := parse_of_parsesWith joinSample₂_parsed
  exact ⟨p, h1, h2, C69_whitespace_attached h1⟩

/-- A tree in which the whitespace before a node is not in it. -/
example : ¬ Attached (.node .ROOT [.token .TK_WHITESPACE [' '], .node .HTML_TEXT
    [.token .TK_WORD ['a']]]) := by
  intro h
  rcases h.1 [] _ _ rfl rfl with ⟨k, t, r, h⟩ | ⟨h, _⟩ | ⟨h, _⟩ <;> cases h

/-- A tree with whitespace at the end of a node. -/
example : ¬ Attached (.node .ROOT [.node .HTML_TEXT
    [.token .TK_WORD ['a'], .token .TK_WHITESPACE [' ']]]) := by
  intro h
  rcases h.2.1.1 [_] _ _ rfl rfl with ⟨k, t, r, h⟩ | ⟨_, h⟩ | ⟨h, _⟩
  · cases h
  · exact absurd h (by decide)
  · cases h

end Ludtwig.Shape
