import Verif.Parser.RunLemmas
import Verif.Shape.Root
import Verif.Shape.AttachSpec

/-!
# From unfinished trees to syntax trees (proof device)
-/

namespace Ludtwig.Shape
open Rx

theorem items_append (a b : List Tree) : items (a ++ b) = items a ++ items b := by
  induction a with
  | nil => rfl
  | cons x a ih =>
    cases x with
    | token k t => simp only [List.cons_append, items, ih]; split <;> simp
    | node k cs => simp [items, ih]

theorem conformAll_append {G : SyntaxKind → Rx} {a b : List Tree} :
    ConformAll G (a ++ b) ↔ ConformAll G a ∧ ConformAll G b := by
  induction a with
  | nil => simp [ConformAll]
  | cons x a ih => simp [ConformAll, ih, and_assoc]

theorem items_trivia (ts : List Token) : items (triviaTrees ts) = [] := by
  unfold triviaTrees
  induction ts with
  | nil => rfl
  | cons t ts ih =>
    rw [List.takeWhile_cons]
    split
    · rename_i h
      simp [items, h, ih]
    · rfl

theorem conformAll_trivia {G : SyntaxKind → Rx} (ts : List Token) : ConformAll G (triviaTrees ts) := by
  unfold triviaTrees
  generalize ts.takeWhile _ = l
  induction l with
  | nil => simp [ConformAll]
  | cons t l ih => simpa [ConformAll, Conforms] using ih

/-- The content of an html string that ends with explicitly consumed trivia. -/
def sealItem : Item := ⟨true, .TK_LINE_BREAK⟩

/-- The content of an html string that does not end so and has a block in it. -/
def blockItem : Item := ⟨true, .TK_UNKNOWN⟩

/-- The kind that a completed node really has. -/
def realItem (i : Item) : Item :=
  if i = sealItem ∨ i = blockItem then ⟨true, .HTML_STRING_INNER⟩ else i

/-- Without the marks. -/
def unmark (w : List Item) : List Item := (w.filter (fun i => i != markItem)).map realItem

theorem unmark_append (a b : List Item) : unmark (a ++ b) = unmark a ++ unmark b := by
  simp [unmark]

theorem unmark_self {w : List Item} (h : ∀ i ∈ w, i ≠ markItem ∧ i ≠ sealItem ∧ i ≠ blockItem) : unmark w = w := by
  unfold unmark
  rw [List.filter_eq_self.2 (fun i hi => by simpa using (h i hi).1)]
  conv => rhs; rw [← List.map_id w]
  exact List.map_congr_left (fun i hi => if_neg (by simpa using (h i hi).2))

/-- The expression for the real kinds. -/
def Rx.real : Rx → Rx
  | .node ks => .node (ks.map (fun k => if k = .TK_LINE_BREAK ∨ k = .TK_UNKNOWN then .HTML_STRING_INNER else k))
  | .seq a b => .seq a.real b.real
  | .alt a b => .alt a.real b.real
  | .star a => .star a.real
  | .sure a => .sure a.real
  | r => r

theorem real_node (k : SyntaxKind) : realItem ⟨true, k⟩ =
    ⟨true, if k = .TK_LINE_BREAK ∨ k = .TK_UNKNOWN then .HTML_STRING_INNER else k⟩ := by
  unfold realItem sealItem blockItem
  by_cases h : k = .TK_LINE_BREAK ∨ k = .TK_UNKNOWN <;> simp [h]

theorem real_token (k : SyntaxKind) : realItem ⟨false, k⟩ = ⟨false, k⟩ := by
  unfold realItem sealItem blockItem
  simp

theorem lang_real {r : Rx} : ∀ {w : List Item}, r.Lang w → (Rx.real r).Lang (w.map realItem) := by
  induction r with
  | never => intro w h; exact h.elim
  | nil => intro w h; rw [show w = [] from h]; rfl
  | tok ks => rintro w ⟨k, hk, rfl⟩; exact ⟨k, hk, by simp [real_token]⟩
  | tokNot ks => rintro w ⟨k, hk, rfl⟩; exact ⟨k, hk, by simp [real_token]⟩
  | node ks => rintro w ⟨k, hk, rfl⟩; exact ⟨_, List.mem_map.2 ⟨k, hk, rfl⟩, by simp [real_node]⟩
  | seq a b iha ihb =>
    rintro w ⟨u, v, rfl, hu, hv⟩
    exact ⟨_, _, List.map_append, iha hu, ihb hv⟩
  | alt a b iha ihb =>
    rintro w (h | h)
    · exact .inl (iha h)
    · exact .inr (ihb h)
  | star a iha =>
    rintro w ⟨ws, rfl, hw⟩
    refine ⟨ws.map (·.map realItem), by rw [List.map_flatten], ?_⟩
    intro u hu
    obtain ⟨u', hu', rfl⟩ := List.mem_map.1 hu
    exact iha (hw u' hu')
  | sure a iha => intro w h; exact iha h

/-- The grammar without marks. -/
def base (strict : Bool) : SyntaxKind → Rx := if strict then production else damagedProduction

theorem base_unmarked (strict : Bool) (k : SyntaxKind) : (base strict k).mentions markItem = false := by
  cases strict <;> cases k <;> rfl

theorem base_unsealed (strict : Bool) (k : SyntaxKind) : (base strict k).mentions sealItem = false := by
  cases strict <;> cases k <;> rfl

theorem base_plain (strict : Bool) (k : SyntaxKind) : (base strict k).mentions blockItem = false := by
  cases strict <;> cases k <;> rfl

/-- Where marks may be among the children of a node of kind `k`. -/
def MarkOk (k : SyntaxKind) : List Item → Prop
  | [] => True
  | i :: w =>
    (i = markItem → (w = [] ∧ k ∈ [.ROOT, .HTML_STRING_INNER, .TWIG_LITERAL_STRING_INNER]) ∨
      (k = .TWIG_LITERAL_STRING_INNER ∧ ∃ w', w = ⟨true, .TWIG_LITERAL_STRING_INTERPOLATION⟩ :: w')) ∧
    MarkOk k w

theorem markOk_append {k : SyntaxKind} {u w : List Item} (hu : ∀ i ∈ u, i ≠ markItem)
    (hw : MarkOk k w) : MarkOk k (u ++ w) := by
  induction u with
  | nil => exact hw
  | cons i u ih =>
    exact ⟨fun h => absurd h (hu i List.mem_cons_self), ih (fun j hj => hu j (List.mem_cons_of_mem _ hj))⟩

theorem markOk_end {k : SyntaxKind} (hk : k ∈ [.ROOT, .HTML_STRING_INNER, .TWIG_LITERAL_STRING_INNER])
    {w : List Item} (h : (opt mark).Lang w) : MarkOk k w ∧ unmark w = [] := by
  rcases h with rfl | ⟨k', h1, rfl⟩
  · exact ⟨trivial, rfl⟩
  · simp at h1
    subst h1
    exact ⟨⟨fun _ => .inl ⟨rfl, hk⟩, trivial⟩, rfl⟩

theorem unmarked {strict : Bool} {k : SyntaxKind} {w : List Item} (h : (base strict k).Lang w) :
    ∀ i ∈ w, i ≠ markItem ∧ i ≠ sealItem ∧ i ≠ blockItem := by
  intro i hi
  refine ⟨?_, ?_, ?_⟩
  · rintro rfl
    have := lang_mentions h _ hi
    rw [base_unmarked] at this
    cases this
  · rintro rfl
    have := lang_mentions h _ hi
    rw [base_unsealed] at this
    cases this
  · rintro rfl
    have := lang_mentions h _ hi
    rw [base_plain] at this
    cases this

theorem gram_cases (strict : Bool) (k : SyntaxKind) :
    gram strict k = base strict k ∨
    (k = .HTML_STRING_INNER ∧ gram strict k = base strict k ++ opt mark) ∨
    (k = .HTML_STRING ∧ (gram strict k).mentions markItem = false ∧
      incl (Rx.real (gram strict k)) (base strict k) = true) ∨
    (k = .TWIG_LITERAL_STRING_INNER ∧ ∃ r r', r.mentions markItem = false ∧ r.mentions sealItem = false ∧
      r.mentions blockItem = false ∧
      gram strict k = star (alt r (mark ++ node [.TWIG_LITERAL_STRING_INTERPOLATION])) ++ opt mark ∧
      base strict k = star (alt r r') ∧
      r'.Lang [⟨true, .TWIG_LITERAL_STRING_INTERPOLATION⟩]) := by
  by_cases h1 : k = .HTML_STRING_INNER
  · subst h1
    refine .inr (.inl ⟨rfl, ?_⟩)
    cases strict <;> rfl
  by_cases h3 : k = .HTML_STRING
  · subst h3
    refine .inr (.inr (.inl ⟨rfl, ?_, ?_⟩))
    · cases strict <;> rfl
    · cases strict <;> rfl
  · by_cases h2 : k = .TWIG_LITERAL_STRING_INNER
    · subst h2
      refine .inr (.inr (.inr ⟨rfl, ?_⟩))
      cases strict with
      | true => exact ⟨anyTok, _, rfl, rfl, rfl, rfl, rfl, _, List.mem_singleton_self _, rfl⟩
      | false =>
        refine ⟨anyTok.damage, _, rfl, rfl, rfl, rfl, rfl, [], _, rfl, ⟨[], rfl, by simp⟩,
          [⟨true, .TWIG_LITERAL_STRING_INTERPOLATION⟩], [], rfl, .inr ?_,
          ⟨[], rfl, by simp⟩⟩
        exact ⟨_, List.mem_singleton_self _, rfl⟩
    · left
      cases strict with
      | true =>
        show markedProduction k = production k
        unfold markedProduction
        split
        · exact absurd rfl h3
        · exact absurd rfl h1
        · exact absurd rfl h2
        · rfl
      | false =>
        show markedDamaged k = damagedProduction k
        unfold markedDamaged damagedProduction
        split
        · rfl
        · exact absurd rfl h3
        · exact absurd rfl h1
        · exact absurd rfl h2
        · rename_i h0 _ _ _
          split
          · exact absurd rfl h0
          · rfl

theorem gram_unmark {strict : Bool} {k : SyntaxKind} {w : List Item} (h : (gram strict k).Lang w) :
    (base strict k).Lang (unmark w) ∧ MarkOk k w := by
  rcases gram_cases strict k with h1 | ⟨rfl, h1⟩ | ⟨rfl, h0, h1⟩ |
    ⟨rfl, r, r', h0, h0', h0'', h1, h2, h3⟩
  · rw [h1] at h
    have := unmarked h
    refine ⟨by rwa [unmark_self this], ?_⟩
    have := markOk_append (k := k) (w := []) (fun i hi => (this i hi).1) trivial
    rwa [List.append_nil] at this
  · rw [h1] at h
    obtain ⟨u, v, rfl, hu, hv⟩ := h
    obtain ⟨e1, e2⟩ := markOk_end (k := .HTML_STRING_INNER) (by decide) hv
    have hm := unmarked hu
    refine ⟨?_, markOk_append (fun i hi => (hm i hi).1) e1⟩
    rw [unmark_append, unmark_self hm, e2, List.append_nil]
    exact hu
  · have hm : ∀ i ∈ w, i ≠ markItem := by
      rintro i hi rfl
      have := lang_mentions h _ hi
      rw [h0] at this
      cases this
    constructor
    · unfold unmark
      rw [List.filter_eq_self.2 (fun i hi => by simpa using hm i hi)]
      exact incl_lang h1 (lang_real h)
    · have := markOk_append (k := .HTML_STRING) (w := []) hm trivial
      rwa [List.append_nil] at this
  · rw [h1] at h
    obtain ⟨u, v, rfl, ⟨ws, rfl, hw⟩, hv⟩ := h
    obtain ⟨e1, e2⟩ := markOk_end (k := .TWIG_LITERAL_STRING_INNER) (by decide) hv
    rw [unmark_append, e2, List.append_nil, h2]
    have key : ∀ u ∈ ws, (∀ i ∈ u, i ≠ markItem ∧ i ≠ sealItem ∧ i ≠ blockItem) ∧ r.Lang u ∨
        u = [markItem, ⟨true, .TWIG_LITERAL_STRING_INTERPOLATION⟩] := by
      intro u hu
      rcases hw u hu with h | ⟨a, b, rfl, ⟨k1, m1, rfl⟩, ⟨k2, m2, rfl⟩⟩
      · left
        refine ⟨?_, h⟩
        intro i hi
        refine ⟨?_, ?_, ?_⟩
        · rintro rfl
          have := lang_mentions h _ hi
          rw [h0] at this
          cases this
        · rintro rfl
          have := lang_mentions h _ hi
          rw [h0'] at this
          cases this
        · rintro rfl
          have := lang_mentions h _ hi
          rw [h0''] at this
          cases this
      · right
        simp at m1 m2
        subst m1 m2
        rfl
    constructor
    · refine ⟨ws.map unmark, ?_, ?_⟩
      · clear hw key
        induction ws with
        | nil => rfl
        | cons u ws ih => simp only [List.flatten_cons, unmark_append, List.map_cons, ih]
      · intro u hu
        obtain ⟨u', hu', rfl⟩ := List.mem_map.1 hu
        rcases key u' hu' with ⟨m1, m2⟩ | rfl
        · rw [unmark_self m1]; exact .inl m2
        · exact .inr h3
    · clear hw
      induction ws with
      | nil => exact e1
      | cons u ws ih =>
        have ih := ih (fun u hu => key u (List.mem_cons_of_mem _ hu))
        rw [List.flatten_cons, List.append_assoc]
        rcases key u List.mem_cons_self with ⟨m1, _⟩ | rfl
        · exact markOk_append (fun i hi => (m1 i hi).1) ih
        · exact ⟨fun _ => .inr ⟨rfl, _, rfl⟩, ⟨fun h => (by cases h), ih⟩⟩

theorem attachedAll_append {a b : List Tree} : AttachedAll (a ++ b) ↔ AttachedAll a ∧ AttachedAll b := by
  induction a with
  | nil => simp [AttachedAll]
  | cons x a ih => simp [AttachedAll, ih, and_assoc]

/-- Is the tree a token? -/
def tokenTree : Tree → Bool
  | .token _ _ => true
  | .node _ _ => false

theorem attachedAll_tokens {a : List Tree} (h : ∀ t ∈ a, tokenTree t = true) : AttachedAll a := by
  induction a with
  | nil => simp [AttachedAll]
  | cons x a ih =>
    refine ⟨?_, ih (fun t ht => h t (List.mem_cons_of_mem _ ht))⟩
    have := h x List.mem_cons_self
    cases x with
    | token k t => trivial
    | node k cs => cases this

/-- Whitespace among the children of a node is where it may be. -/
def TriviaOk (k : SyntaxKind) (cs : List Tree) : Prop :=
  ∀ l x r, cs = l ++ x :: r → triviaTree x = true → BehindTrivia k r

theorem triviaOk_node {k k' : SyntaxKind} {cs r : List Tree} (h : TriviaOk k r) :
    TriviaOk k (.node k' cs :: r) := by
  intro l x r' he hx
  cases l with
  | nil => cases he; cases hx
  | cons y l => cases he; exact h l x r' rfl hx

theorem triviaOk_token {k k' : SyntaxKind} {t : Text} {r : List Tree} (hk : k'.isTrivia = false)
    (h : TriviaOk k r) : TriviaOk k (.token k' t :: r) := by
  intro l x r' he hx
  cases l with
  | nil =>
    cases he
    change k'.isTrivia = true at hx
    rw [hk] at hx
    cases hx
  | cons y l => cases he; exact h l x r' rfl hx

theorem triviaTrees_tokens (ts : List Token) : ∀ t ∈ triviaTrees ts, tokenTree t = true := by
  intro t ht
  obtain ⟨x, _, rfl⟩ := List.mem_map.1 ht
  rfl

/-- Whitespace in front of children. -/
theorem triviaOk_prepend {k : SyntaxKind} {a r : List Tree} (ha : ∀ t ∈ a, tokenTree t = true)
    (hb : BehindTrivia k r) (h : TriviaOk k r) : TriviaOk k (a ++ r) := by
  induction a with
  | nil => exact h
  | cons y a ih =>
    have ih := ih (fun t ht => ha t (List.mem_cons_of_mem _ ht))
    intro l x r' he hx
    cases l with
    | nil =>
      obtain ⟨rfl, rfl⟩ := List.cons.inj he
      cases a with
      | nil => exact hb
      | cons z a =>
        have := ha z (by simp)
        cases z with
        | token k' t => exact .inl ⟨_, _, _, rfl⟩
        | node k' cs => cases this
    | cons z l => exact ih l x r' (List.cons.inj he).2 hx

theorem leaf_fill {G : SyntaxKind → Rx} {l : Leaf} {ts rest : List Token} {trees : List Tree}
    (h : l.fill ts = some (trees, rest)) :
    items trees = unmark (skelItems [.leaf l]) ∧ ConformAll G trees ∧ AttachedAll trees := by
  cases l with
  | triv =>
    simp only [Leaf.fill, Option.some.injEq, Prod.mk.injEq] at h
    obtain ⟨rfl, rfl⟩ := h
    exact ⟨items_trivia ts, conformAll_trivia ts, attachedAll_tokens (triviaTrees_tokens ts)⟩
  | tok k =>
    simp only [Leaf.fill] at h
    split at h
    · cases h
    · simp only [Option.some.injEq, Prod.mk.injEq] at h
      obtain ⟨rfl, rfl⟩ := h
      refine ⟨?_, conformAll_append.2 ⟨conformAll_trivia ts, by simp [ConformAll, Conforms]⟩,
        attachedAll_append.2 ⟨attachedAll_tokens (triviaTrees_tokens ts), by simp [AttachedAll, Attached]⟩⟩
      rw [items_append, items_trivia, unmark_self]
      · simp [items, skelItems]
      · intro i hi; simp only [skelItems] at hi; split at hi <;> simp at hi; subst hi; simp [markItem, sealItem, blockItem]
  | ntok n k =>
    simp only [Leaf.fill] at h
    split at h
    · cases h
    · simp only [Option.some.injEq, Prod.mk.injEq] at h
      obtain ⟨rfl, rfl⟩ := h
      refine ⟨?_, conformAll_append.2 ⟨conformAll_trivia ts, by simp [ConformAll, Conforms]⟩,
        attachedAll_append.2 ⟨attachedAll_tokens (triviaTrees_tokens ts), by simp [AttachedAll, Attached]⟩⟩
      rw [items_append, items_trivia, unmark_self]
      · simp [items, skelItems]
      · intro i hi; simp only [skelItems] at hi; split at hi <;> simp at hi; subst hi; simp [markItem, sealItem, blockItem]

theorem skelItems_cons (x : Skel) (xs : List Skel) :
    skelItems (x :: xs) = skelItems [x] ++ skelItems xs := skelItems_append [x] xs

theorem label_real {k k' : SyntaxKind} {cs : List Skel} (h1 : k' ≠ .HTML_STRING_INNER)
    (h2 : k' ≠ .TK_LINE_BREAK) (h0 : k' ≠ .TK_UNKNOWN) (h : label k cs = k') : k = k' := by
  unfold label at h
  split at h
  · split at h
    · exact absurd h.symm h2
    · split at h
      · exact absurd h.symm h0
      · rename_i h3 _ _
        rw [h3] at h
        exact absurd h.symm h1
  · exact h

theorem real_label {k : SyntaxKind} {cs : List Skel} (h : k ≠ .TK_LINE_BREAK) (h0 : k ≠ .TK_UNKNOWN) :
    realItem ⟨true, label k cs⟩ = ⟨true, k⟩ := by
  rw [real_node]
  unfold label
  by_cases h1 : k = .HTML_STRING_INNER
  · subst h1
    cases endsTriv cs <;> cases hasBlock cs <;> simp
  · simp [h1, h, h0]

/-! ## The strings of html -/

theorem quotedAll_append {a b : List Tree} : QuotedAll (a ++ b) ↔ QuotedAll a ∧ QuotedAll b := by
  induction a with
  | nil => simp [QuotedAll]
  | cons x a ih => simp [QuotedAll, ih, and_assoc]

theorem quotedAll_tokens {a : List Tree} (h : ∀ t ∈ a, tokenTree t = true) : QuotedAll a := by
  induction a with
  | nil => simp [QuotedAll]
  | cons x a ih =>
    refine ⟨?_, ih (fun t ht => h t (List.mem_cons_of_mem _ ht))⟩
    have := h x List.mem_cons_self
    cases x with
    | token k t => trivial
    | node k cs => cases this

theorem leaf_tokens {l : Leaf} {ts rest : List Token} {trees : List Tree}
    (h : l.fill ts = some (trees, rest)) : ∀ t ∈ trees, tokenTree t = true := by
  cases l with
  | triv =>
    simp only [Leaf.fill, Option.some.injEq, Prod.mk.injEq] at h
    obtain ⟨rfl, rfl⟩ := h
    exact triviaTrees_tokens ts
  | tok k =>
    simp only [Leaf.fill] at h
    split at h
    · cases h
    · simp only [Option.some.injEq, Prod.mk.injEq] at h
      obtain ⟨rfl, rfl⟩ := h
      intro t ht
      rcases List.mem_append.1 ht with ht | ht
      · exact triviaTrees_tokens ts t ht
      · simp at ht; subst ht; rfl
  | ntok n k =>
    simp only [Leaf.fill] at h
    split at h
    · cases h
    · simp only [Option.some.injEq, Prod.mk.injEq] at h
      obtain ⟨rfl, rfl⟩ := h
      intro t ht
      rcases List.mem_append.1 ht with ht | ht
      · exact triviaTrees_tokens ts t ht
      · simp at ht; subst ht; rfl

/-- A token of the grammar with the whitespace before it. -/
theorem leaf_last {l : Leaf} {ts rest : List Token} {trees : List Tree} (hl : l ≠ .triv)
    (hg : GoodLeaf l) (h : l.fill ts = some (trees, rest)) :
    ∃ k x, k.isTrivia = false ∧ trees = triviaTrees ts ++ [.token k x] := by
  cases l with
  | triv => exact absurd rfl hl
  | tok k =>
    simp only [Leaf.fill] at h
    split at h
    · cases h
    · simp only [Option.some.injEq, Prod.mk.injEq] at h
      exact ⟨k, _, hg, h.1.symm⟩
  | ntok n k =>
    simp only [Leaf.fill] at h
    split at h
    · cases h
    · simp only [Option.some.injEq, Prod.mk.injEq] at h
      exact ⟨k, _, hg, h.1.symm⟩

theorem skelItems_token {G : SyntaxKind → Rx} {xs : List Skel} {k : SyntaxKind} {w : List Item}
    (h : skelItems xs = ⟨false, k⟩ :: w) (hg : GoodAll G xs) :
    ∃ l xs', xs = .leaf l :: xs' ∧ l ≠ .triv ∧ skelItems xs' = w := by
  cases xs with
  | nil => cases h
  | cons x xs =>
    obtain ⟨h1, _⟩ := hg
    cases x with
    | node p k cs => simp [skelItems] at h
    | leaf l =>
      cases l with
      | triv => simp [skelItems, markItem] at h
      | tok k =>
        have : k.isTrivia = false := h1
        simp [skelItems, this] at h
        exact ⟨_, _, rfl, by simp, h.2⟩
      | ntok n k =>
        have : k.isTrivia = false := h1
        simp [skelItems, this] at h
        exact ⟨_, _, rfl, by simp, h.2⟩

theorem skelItems_node {G : SyntaxKind → Rx} {xs : List Skel} {k : SyntaxKind} {w : List Item}
    (hk : k ≠ .TK_WHITESPACE) (h : skelItems xs = ⟨true, k⟩ :: w) (hg : GoodAll G xs) :
    ∃ p k' cs xs', xs = .node p k' cs :: xs' ∧ label k' cs = k ∧ skelItems xs' = w := by
  cases xs with
  | nil => cases h
  | cons x xs =>
    obtain ⟨h1, _⟩ := hg
    cases x with
    | node p k cs =>
      simp [skelItems] at h
      exact ⟨_, _, _, _, rfl, h.1, h.2⟩
    | leaf l =>
      cases l with
      | triv => simp [skelItems, markItem, Ne.symm hk] at h
      | tok k => have : k.isTrivia = false := h1; simp [skelItems, this] at h
      | ntok n k => have : k.isTrivia = false := h1; simp [skelItems, this] at h

theorem fill_cons {x : Skel} {xs : List Skel} {ts rest : List Token} {trees : List Tree}
    (h : fillAll ts (x :: xs) = some (trees, rest)) :
    ∃ t1 r1 t2, x.fill ts = some (t1, r1) ∧ fillAll r1 xs = some (t2, rest) ∧ trees = t1 ++ t2 := by
  simp only [fillAll] at h
  split at h
  · cases h
  · rename_i t1 r1 h1
    split at h
    · cases h
    · rename_i t2 r2 h2
      simp only [Option.some.injEq, Prod.mk.injEq] at h
      obtain ⟨rfl, rfl⟩ := h
      exact ⟨_, _, _, h1, h2, rfl⟩

theorem fill_node {p : Nat} {k : SyntaxKind} {cs : List Skel} {ts rest : List Token} {trees : List Tree}
    (h : (Skel.node p k cs).fill ts = some (trees, rest)) :
    ∃ ds, fillAll ts cs = some (ds, rest) ∧ trees = [.node k ds] := by
  simp only [Skel.fill] at h
  split at h
  · cases h
  · rename_i ds r h1
    simp only [Option.some.injEq, Prod.mk.injEq] at h
    obtain ⟨rfl, rfl⟩ := h
    exact ⟨ds, h1, rfl⟩

theorem triviaTrees_drop (ts : List Token) : triviaTrees (dropTrivia ts) = [] := by
  unfold triviaTrees
  cases h : dropTrivia ts with
  | nil => rfl
  | cons t r => simp [dropTrivia_head h]

theorem endsTriv_split {cs : List Skel} (h : endsTriv cs = true) : ∃ d, cs = d ++ [.leaf .triv] := by
  rcases List.eq_nil_or_concat cs with rfl | ⟨d, y, rfl⟩
  · cases h
  · rw [List.concat_eq_append] at h ⊢
    unfold endsTriv at h
    rw [List.getLast?_append, List.getLast?_singleton] at h
    cases y with
    | node p k cs => cases h
    | leaf l =>
      cases l with
      | triv => exact ⟨d, rfl⟩
      | tok k => cases h
      | ntok n k => cases h

/-- Behind explicitly consumed trivia there are none. -/
theorem endsTriv_rest {cs : List Skel} {ts rest : List Token} {trees : List Tree}
    (h : fillAll ts cs = some (trees, rest)) (he : endsTriv cs = true) : triviaTrees rest = [] := by
  obtain ⟨d, rfl⟩ := endsTriv_split he
  rw [fillAll_append] at h
  split at h
  · cases h
  · rename_i t1 r1 h1
    simp only [fillAll, Skel.fill, Leaf.fill, Option.some.injEq, Prod.mk.injEq] at h
    rw [← h.2]
    exact triviaTrees_drop r1

/-- Children that do not end with explicitly consumed trivia do not end with whitespace. -/
theorem endsTriv_last {G : SyntaxKind → Rx} {cs : List Skel} {ts rest : List Token} {trees : List Tree}
    (h : fillAll ts cs = some (trees, rest)) (hg : GoodAll G cs) (he : endsTriv cs = false) :
    ∀ l x, trees = l ++ [x] → triviaTree x = false := by
  rcases List.eq_nil_or_concat cs with rfl | ⟨d, y, rfl⟩
  · intro l x hl
    simp only [fillAll, Option.some.injEq, Prod.mk.injEq] at h
    rw [← h.1] at hl
    simp at hl
  · rw [List.concat_eq_append] at h he hg
    rw [fillAll_append] at h
    split at h
    · cases h
    · rename_i t1 r1 h1
      split at h
      · cases h
      · rename_i t2 r2 h2
        simp only [Option.some.injEq, Prod.mk.injEq] at h
        obtain ⟨rfl, rfl⟩ := h
        obtain ⟨u1, s1, u2, e1, e2, rfl⟩ := fill_cons h2
        simp only [fillAll, Option.some.injEq, Prod.mk.injEq] at e2
        obtain ⟨rfl, rfl⟩ := e2
        intro l x hl
        cases y with
        | node p k cs =>
          obtain ⟨ds, _, rfl⟩ := fill_node e1
          rw [List.append_nil] at hl
          have := (List.append_inj' hl rfl).2
          simp at this
          rw [← this]
          rfl
        | leaf lf =>
          have hn : lf ≠ .triv := by
            rintro rfl
            unfold endsTriv at he
            rw [List.getLast?_append, List.getLast?_singleton] at he
            cases he
          obtain ⟨k, y, hk, rfl⟩ := leaf_last hn (goodAll_append.1 hg).2.1 e1
          rw [List.append_nil, ← List.append_assoc] at hl
          have := (List.append_inj' hl rfl).2
          simp at this
          rw [← this]
          exact hk

theorem label_sealed {k : SyntaxKind} {cs : List Skel} (h : label k cs = .TK_LINE_BREAK)
    (hk : k ≠ .TK_LINE_BREAK) : endsTriv cs = true := by
  unfold label at h
  split at h
  · split at h
    · assumption
    · split at h
      · cases h
      · exact absurd h hk
  · exact absurd h hk

theorem label_plain {k : SyntaxKind} {cs : List Skel} (h : label k cs = .HTML_STRING_INNER) :
    endsTriv cs = false ∧ hasBlock cs = false := by
  unfold label at h
  split at h
  · split at h
    · cases h
    · split at h
      · cases h
      · rename_i h1 h2; exact ⟨by simpa using h1, by simpa using h2⟩
  · rename_i h1; exact absurd h h1

theorem no_block : ∀ {cs : List Skel} {ts rest : List Token} {trees : List Tree},
    fillAll ts cs = some (trees, rest) → hasBlock cs = false → ∀ ds, .node .TWIG_BLOCK ds ∉ trees
  | [], ts, rest, trees, h, _, ds => by
    simp only [fillAll, Option.some.injEq, Prod.mk.injEq] at h
    rw [← h.1]
    simp
  | x :: cs, ts, rest, trees, h, hb, ds => by
    obtain ⟨t1, r1, u, e1, h1, rfl⟩ := fill_cons h
    simp only [hasBlock, List.any_cons, Bool.or_eq_false_iff] at hb
    intro hm
    rcases List.mem_append.1 hm with hm | hm
    · cases x with
      | leaf l =>
        have := leaf_tokens e1 _ hm
        cases this
      | node p k cs' =>
        obtain ⟨ds', _, rfl⟩ := fill_node e1
        simp only [List.mem_singleton, Tree.node.injEq] at hm
        have := hb.1
        rw [← hm.1] at this
        simp at this
    · exact no_block h1 hb.2 ds hm

theorem tokens_split {a : List Tree} (ha : ∀ t ∈ a, tokenTree t = true) {b l r : List Tree}
    {k : SyntaxKind} {ds : List Tree} (h : a ++ b = l ++ .node k ds :: r) :
    ∃ l', b = l' ++ .node k ds :: r := by
  induction a generalizing l with
  | nil => exact ⟨l, h⟩
  | cons x a ih =>
    cases l with
    | nil =>
      cases h
      have := ha (.node k ds) (by simp)
      cases this
    | cons y l => exact ih (fun t ht => ha t (List.mem_cons_of_mem _ ht)) (List.cons.inj h).2

theorem quoted_parts {q : SyntaxKind} {cs : List Skel} {ts rest : List Token} {trees : List Tree}
    (h : fillAll ts cs = some (trees, rest)) (hg : GoodAll (gram true) cs)
    (hw : skelItems cs = [⟨false, q⟩, ⟨true, .TK_LINE_BREAK⟩, ⟨false, q⟩]) : QuotedNode trees := by
  obtain ⟨l1, xs, rfl, n1, hw⟩ := skelItems_token hw hg
  obtain ⟨p, k, d, xs, rfl, hl, hw⟩ := skelItems_node (by simp) hw hg.2
  obtain ⟨l2, xs, rfl, n2, hw⟩ := skelItems_token hw hg.2.2
  have := skelItems_nil hw hg.2.2.2
  subst this
  obtain ⟨t1, r1, u1, e1, h1, rfl⟩ := fill_cons h
  obtain ⟨t2, r2, u2, e2, h', rfl⟩ := fill_cons h1
  obtain ⟨t3, r3, u3, e3, h'', rfl⟩ := fill_cons h'
  simp only [fillAll, Option.some.injEq, Prod.mk.injEq] at h''
  obtain ⟨rfl, rfl⟩ := h''
  obtain ⟨ds, e4, rfl⟩ := fill_node e2
  have hk : k ≠ .TK_LINE_BREAK := by
    rintro rfl
    exact hg.2.1.1
  have h5 := endsTriv_rest e4 (label_sealed hl hk)
  obtain ⟨k3, x3, hk3, rfl⟩ := leaf_last n2 hg.2.2.1 e3
  rw [h5]
  intro l ds' r he
  obtain ⟨l', he⟩ := tokens_split (leaf_tokens e1) he
  left
  cases l' with
  | nil =>
    simp at he
    exact ⟨k3, x3, hk3, he.2.symm⟩
  | cons y l' =>
    exfalso
    simp at he
    obtain ⟨_, he⟩ := he
    cases l' with
    | nil => simp at he
    | cons z l' => simp at he

theorem string_quoted {cs : List Skel} {ts rest : List Token} {trees : List Tree}
    (h : fillAll ts cs = some (trees, rest)) (hg : GoodAll (gram true) cs)
    (hw : (gram true .HTML_STRING).Lang (skelItems cs)) : QuotedNode trees := by
  rcases hw with ⟨u, v, hw, ⟨a, b, rfl, ⟨k1, m1, rfl⟩, k2, m2, rfl⟩, k3, m3, rfl⟩ |
      ⟨u, v, hw, ⟨a, b, rfl, ⟨k1, m1, rfl⟩, k2, m2, rfl⟩, k3, m3, rfl⟩ | ⟨k, m, hw⟩
  · simp only [List.mem_singleton] at m1 m2 m3
    subst m1 m2 m3
    exact quoted_parts h hg hw
  · simp only [List.mem_singleton] at m1 m2 m3
    subst m1 m2 m3
    exact quoted_parts h hg hw
  · simp only [List.mem_singleton] at m
    subst m
    obtain ⟨p, k, d, xs, rfl, hl, hw⟩ := skelItems_node (by simp) hw hg
    have := skelItems_nil hw hg.2
    subst this
    obtain ⟨t1, r1, u, e1, h1, rfl⟩ := fill_cons h
    simp only [fillAll, Option.some.injEq, Prod.mk.injEq] at h1
    obtain ⟨rfl, rfl⟩ := h1
    obtain ⟨ds, e4, rfl⟩ := fill_node e1
    intro l ds' r he
    right
    cases l with
    | nil =>
      simp at he
      obtain ⟨⟨rfl, rfl⟩, rfl⟩ := he
      exact ⟨rfl, endsTriv_last e4 hg.1.2 (label_plain hl).1, no_block e4 (label_plain hl).2⟩
    | cons y l =>
      simp at he

/-- The place of whitespace in filled children. -/
theorem fillAll_trivia {G : SyntaxKind → Rx} {k : SyntaxKind} : (xs : List Skel) →
    ∀ {ts rest : List Token} {trees : List Tree}, fillAll ts xs = some (trees, rest) → GoodAll G xs →
      MarkOk k (skelItems xs) → TriviaOk k trees
  | [] => by
    intro h _ _
    simp only [fillAll, Option.some.injEq, Prod.mk.injEq] at h
    obtain ⟨rfl, rfl⟩ := h
    intro l x r he
    simp at he
  | x :: xs => by
    intro h hg hm
    obtain ⟨hg1, hg2⟩ := hg
    simp only [fillAll] at h
    split at h
    · cases h
    · rename_i t1 r1 h1
      split at h
      · cases h
      · rename_i t2 r2 h2
        simp only [Option.some.injEq, Prod.mk.injEq] at h
        obtain ⟨rfl, rfl⟩ := h
        cases x with
        | node p k' cs =>
          simp only [Skel.fill] at h1
          split at h1
          · cases h1
          · simp only [Option.some.injEq, Prod.mk.injEq] at h1
            obtain ⟨rfl, rfl⟩ := h1
            exact triviaOk_node (fillAll_trivia xs h2 hg2 hm.2)
        | leaf l =>
          simp only [Skel.fill] at h1
          cases l with
          | triv =>
            simp only [Leaf.fill, Option.some.injEq, Prod.mk.injEq] at h1
            obtain ⟨rfl, rfl⟩ := h1
            refine triviaOk_prepend (triviaTrees_tokens _) ?_ (fillAll_trivia xs h2 hg2 hm.2)
            rcases hm.1 rfl with ⟨e1, e2⟩ | ⟨e1, w, e2⟩
            · have := skelItems_nil e1 hg2
              subst this
              simp only [fillAll, Option.some.injEq, Prod.mk.injEq] at h2
              exact .inr (.inl ⟨h2.1.symm, e2⟩)
            · refine .inr (.inr ⟨e1, ?_⟩)
              cases xs with
              | nil => simp [skelItems] at e2
              | cons y ys =>
                cases y with
                | leaf l =>
                  cases l with
                  | triv => simp [skelItems, markItem] at e2
                  | tok k' =>
                    have : k'.isTrivia = false := hg2.1
                    simp [skelItems, this] at e2
                  | ntok n k' =>
                    have : k'.isTrivia = false := hg2.1
                    simp [skelItems, this] at e2
                | node p k' cs =>
                  simp only [skelItems, List.cons.injEq, Item.mk.injEq, true_and] at e2
                  obtain ⟨e2, _⟩ := e2
                  have := label_real (by simp) (by simp) (by simp) e2
                  subst this
                  simp only [fillAll] at h2
                  split at h2
                  · cases h2
                  · rename_i u1 v1 g1
                    split at h2
                    · cases h2
                    · simp only [Option.some.injEq, Prod.mk.injEq] at h2
                      obtain ⟨rfl, _⟩ := h2
                      simp only [Skel.fill] at g1
                      split at g1
                      · cases g1
                      · simp only [Option.some.injEq, Prod.mk.injEq] at g1
                        obtain ⟨rfl, _⟩ := g1
                        exact ⟨_, _, rfl⟩
          | tok k' =>
            have hk : k'.isTrivia = false := hg1
            have hm' : MarkOk k (skelItems xs) := by
              rw [skelItems_cons] at hm
              simp only [skelItems, hk] at hm
              exact hm.2
            simp only [Leaf.fill] at h1
            split at h1
            · cases h1
            · simp only [Option.some.injEq, Prod.mk.injEq] at h1
              obtain ⟨rfl, rfl⟩ := h1
              rw [List.append_assoc]
              refine triviaOk_prepend (triviaTrees_tokens _) (.inl ⟨_, _, _, rfl⟩) ?_
              exact triviaOk_token hk (fillAll_trivia xs h2 hg2 hm')
          | ntok n k' =>
            have hk : k'.isTrivia = false := hg1
            have hm' : MarkOk k (skelItems xs) := by
              rw [skelItems_cons] at hm
              simp only [skelItems, hk] at hm
              exact hm.2
            simp only [Leaf.fill] at h1
            split at h1
            · cases h1
            · simp only [Option.some.injEq, Prod.mk.injEq] at h1
              obtain ⟨rfl, rfl⟩ := h1
              rw [List.append_assoc]
              refine triviaOk_prepend (triviaTrees_tokens _) (.inl ⟨_, _, _, rfl⟩) ?_
              exact triviaOk_token hk (fillAll_trivia xs h2 hg2 hm')

mutual
theorem fill_items {strict : Bool} : (x : Skel) → ∀ {ts rest : List Token} {trees : List Tree},
    x.fill ts = some (trees, rest) → GoodSkel (gram strict) x →
      items trees = unmark (skelItems [x]) ∧ ConformAll (base strict) trees ∧ AttachedAll trees ∧
      (strict = true → QuotedAll trees)
  | .leaf l => fun h _ => by
    have h : l.fill _ = _ := h
    obtain ⟨h1, h2, h3⟩ := leaf_fill (G := base strict) h
    exact ⟨h1, h2, h3, fun _ => quotedAll_tokens (leaf_tokens h)⟩
  | .node p k cs => by
    intro h hg
    simp only [Skel.fill] at h
    split at h
    · cases h
    · rename_i trees' rest' heq
      simp only [Option.some.injEq, Prod.mk.injEq] at h
      obtain ⟨rfl, rfl⟩ := h
      simp only [GoodSkel] at hg
      obtain ⟨h1, h2, h3, h4⟩ := fillAll_items cs heq hg.2
      obtain ⟨g1, g2⟩ := gram_unmark hg.1
      have hk : k ≠ .TK_WHITESPACE := by
        rintro rfl
        cases strict <;> exact g1
      have hk' : k ≠ .TK_LINE_BREAK := by
        rintro rfl
        cases strict <;> exact g1
      have hk'' : k ≠ .TK_UNKNOWN := by
        rintro rfl
        cases strict <;> exact g1
      refine ⟨?_, ?_, ?_, ?_⟩
      · show _ = (List.filter _ [_]).map realItem
        rw [List.filter_eq_self.2]
        · simp [items, real_label hk' hk'']
        · intro i hi
          simp only [List.mem_singleton] at hi
          subst hi
          simpa using label_ne_mark hk
      · simp only [ConformAll, Conforms, h1, and_true]
        exact ⟨g1, h2⟩
      · exact ⟨⟨fillAll_trivia cs heq hg.2 g2, h3⟩, trivial⟩
      · rintro rfl
        refine ⟨⟨?_, h4 rfl⟩, trivial⟩
        rintro rfl
        exact string_quoted heq hg.2 hg.1
theorem fillAll_items {strict : Bool} : (xs : List Skel) → ∀ {ts rest : List Token}
    {trees : List Tree}, fillAll ts xs = some (trees, rest) → GoodAll (gram strict) xs →
    items trees = unmark (skelItems xs) ∧ ConformAll (base strict) trees ∧ AttachedAll trees ∧
    (strict = true → QuotedAll trees)
  | [] => by
    intro h _
    simp only [fillAll, Option.some.injEq, Prod.mk.injEq] at h
    obtain ⟨rfl, rfl⟩ := h
    exact ⟨rfl, by simp [ConformAll], trivial, fun _ => trivial⟩
  | x :: xs => by
    intro h hg
    simp only [fillAll] at h
    split at h
    · cases h
    · rename_i t1 r1 h1
      split at h
      · cases h
      · rename_i t2 r2 h2
        simp only [Option.some.injEq, Prod.mk.injEq] at h
        obtain ⟨rfl, rfl⟩ := h
        simp only [GoodAll] at hg
        obtain ⟨k1, k2, k2', k2q⟩ := fill_items x h1 hg.1
        obtain ⟨k3, k4, k4', k4q⟩ := fillAll_items xs h2 hg.2
        exact ⟨by rw [items_append, skelItems_cons, unmark_append, k1, k3], conformAll_append.2 ⟨k2, k4⟩,
          attachedAll_append.2 ⟨k2', k4'⟩, fun hs => quotedAll_append.2 ⟨k2q hs, k4q hs⟩⟩
end

theorem parseRoot_form {toks : List Token} {N : Nat} : parseRoot (knot N) (initial toks) =
    match parseMany (pure false) (parseRootPart (knot N))
      { rest := toks, lastRange := toks.getLast?.map (·.range), events := [.placeholder],
        openMarkers := [0], errors := [] } with
    | .error e => .error e
    | .ok (_, s) => complete 0 .ROOT s := by
  unfold parseRoot
  show P.bind start (fun m => P.bind (parseMany (pure false) (parseRootPart (knot N)))
    (fun _ => complete m .ROOT)) (initial toks) = _
  simp only [P.bind, start, initial, List.nil_append, List.length_nil]
  split <;> rename_i heq <;> simp only [heq]

/-- The children of the root. -/
def rootRx (strict : Bool) : Rx :=
  many (.seq (stray strict) (opt (.alt (lost strict) (.node elementKinds))))

/-- The parser's part: the children of the root and their nodes are as the grammar says. -/
theorem parseRoot_shape (strict : Bool) {toks : List Token} {N : Nat} {c : CompletedMarker} {s : PState}
    (h : parseRoot (knot N) (initial toks) = .ok (c, s)) :
    (strict = true ∧ s.errors ≠ []) ∨ ∃ E cs next,
      s.events = E.set 0 (.startNode .ROOT none) ++ [.finishNode] ∧
      Built E [0] ⟨[], [(0, cs)], next⟩ ∧ (gram strict .ROOT).Lang (skelItems cs) ∧
      GoodAll (gram strict) cs := by
  rw [parseRoot_form] at h
  split at h
  · cases h
  · rename_i u s1 hok
    have h0 : Cl strict [(0, [])] any
        { rest := toks, lastRange := toks.getLast?.map (·.range), events := [.placeholder],
          openMarkers := [0], errors := [] } :=
      .inr ⟨[(0, [])], 1, Built.empty.start, .cons rfl (by simp [GoodAll]) (by simp) .nil, trivial⟩
    have hrun : Runs strict [] [] any (parseMany (pure false) (parseRootPart (knot N)))
        (fun _ => [.rx (rootRx strict)]) :=
      runs_parseMany (Peek.pure false) (shape_parseRootPart (kshape_knot N))
    obtain ⟨⟨L, vs, h'⟩, ⟨h1, h2⟩, hs⟩ := hrun 0 [] [] _ h0 u s1 hok
    dsimp only at h1 h2 hs
    subst h1
    have hs := Cl.le (L := []) hs (ys := [.rx (rootRx strict)]) (by simpa using h2)
    rcases hs with ⟨hs1, hs2⟩ | ⟨frames, next, hb, hF, _⟩
    · left
      refine ⟨hs1, ?_⟩
      unfold complete at h
      split at h
      · split at h
        · split at h
          · cases h; exact hs2
          · cases h
        · cases h
      · cases h
    · right
      cases hF with
      | @cons _ cs _ fs _ k1 k2 k3 k4 =>
        cases k4 with
        | nil =>
          have ho := hb.opened
          simp only [List.map_cons, List.map_nil] at ho
          simp only [complete, ho, beq_self_eq_true, if_true, hb.hole] at h
          cases h
          refine ⟨s1.events, cs, next, rfl, ?_, ?_, k2⟩
          · rw [ho] at hb; exact hb
          · have hl := k1.lang
            have hi : incl (segsRx [.rx (rootRx strict)]) (gram strict .ROOT) = true := by
              cases strict <;> rfl
            exact incl_lang hi hl

theorem set_getElem {α : Type} {l : List α} {i : Nat} {a : α} (h : l[i]? = some a) : l.set i a = l := by
  apply List.ext_getElem?
  intro j
  rw [List.getElem?_set]
  split
  · rename_i h1
    subst h1
    split
    · exact h.symm
    · rename_i h2
      rw [List.getElem?_eq_none (by omega)] at h
      cases h
  · rfl

theorem parseLexed_shape (strict : Bool) {toks : List Token} {r : Parse}
    (h : parseLexed toks = .ok r) (hs : strict = true → r.errors = []) :
    Conforms (base strict) r.tree ∧ Attached r.tree ∧ (strict = true → QuotedTree r.tree) := by
  by_cases hne : toks = []
  · subst hne
    have : parseLexed [] = .ok ⟨.node .ROOT [], []⟩ := by rfl
    rw [this] at h
    cases h
    refine ⟨⟨incl_lang (r := .nil) ?_ rfl, by simp [ConformAll]⟩, ⟨by simp, trivial⟩, fun _ => ⟨?_, trivial⟩⟩
    rotate_left
    · intro h
      cases h
    cases strict <;> rfl
  have hr := parseRoot_run hne (N := toks.length + 1) (by omega)
  unfold parseLexed parseTokens at h
  split at h
  · cases h
  · rename_i events errors heq
    split at heq
    · cases heq
    · rename_i c s hok
      cases heq
      have hok : parseRoot (knot (toks.length + 1)) (initial toks) = .ok (c, s) := hok
      rw [hok] at hr
      obtain ⟨⟨⟨E, _, _, h1, hb1, q, h2, h3⟩, _, _⟩, _⟩ := hr
      split at h
      · cases h
      · rename_i tree hsink
        cases h
        rcases parseRoot_shape strict hok with ⟨k1, k2⟩ | ⟨E', cs, next, k1, hb, k2, k3⟩
        · exact absurd (hs k1) k2
        have hE : E' = E := by
          rw [h1] at k1
          have hset := (List.append_inj' k1 rfl).1
          have e1 : (E.set 0 (.startNode .ROOT none)).set 0 .placeholder = E := by
            rw [List.set_set]
            exact set_getElem hb1.hole
          have e2 : (E'.set 0 (.startNode .ROOT none)).set 0 .placeholder = E' := by
            rw [List.set_set]
            exact set_getElem hb.hole
          rw [← e1, ← e2, hset]
        subst hE
        have hleaves : E'.filterMap Event.leaf? = (flatAll cs).filterMap Op.leaf? := by
          obtain ⟨g, hg, hf⟩ := hb.rel
          rw [← hg.leaves, hf]
          simp [flatFrames, flatAll, Op.leaf?, List.filterMap_cons]
        have heat : eat ((flatAll (cs ++ [.leaf .triv])).filterMap Op.leaf?) toks = some [] := by
          simp only [flatAll_append, List.filterMap_append, eat_append, ← hleaves, h2]
          simp [flatAll, Skel.flat, Op.leaf?, eat, h3]
        obtain ⟨trees, hfill, _⟩ := fillAll_of_eat _ heat
        rw [k1, hb.sink hfill] at hsink
        cases hsink
        have hg : GoodAll (gram strict) (cs ++ [.leaf .triv]) :=
          goodAll_append.2 ⟨k3, by simp [GoodAll, GoodSkel, GoodLeaf]⟩
        obtain ⟨m1, m2, m3, m4⟩ := fillAll_items _ hfill hg
        obtain ⟨n1, n2⟩ := gram_unmark k2
        have hroot : MarkOk .ROOT (skelItems (cs ++ [.leaf .triv])) := by
          rw [skelItems_append]
          have hu : (base strict .ROOT).Lang (skelItems cs) := by
            rcases gram_cases strict .ROOT with h | ⟨h, _⟩ | ⟨h, _⟩ | ⟨h, _⟩
            · rwa [h] at k2
            · cases h
            · cases h
            · cases h
          exact markOk_append (fun i hi => (unmarked hu i hi).1) ⟨fun _ => .inl ⟨rfl, by decide⟩, trivial⟩
        refine ⟨⟨?_, m2⟩, ⟨fillAll_trivia _ hfill hg hroot, m3⟩, fun hs => ⟨fun h => (by cases h), m4 hs⟩⟩
        rw [m1, skelItems_append, unmark_append]
        have : unmark (skelItems [.leaf .triv]) = [] := rfl
        rw [this, List.append_nil]
        exact n1

end Ludtwig.Shape
