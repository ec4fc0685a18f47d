import Verif.Template.Requote
import Verif.Template.Unquote
import Verif.Template.Strings

/-!
# The tree after a change of quotes (proof device for C77)

`Turns C u xs ys`: the change `C` respects the trees `xs` of the tokens `u`, and `ys` are the trees with
the new quotes. Trees of the new tokens that are the same as `xs` up to quotes are these trees.
-/

namespace Ludtwig.Template

/-- The change respects the trees of the tokens, and these are the new trees. -/
inductive Turns (C : Change) : List Token → List Tree → List Tree → Prop
  | nil : Turns C [] [] []
  | tok {t k u xs ys} : C.Plain t → t.text ≠ [] → Turns C u xs ys → Turns C (t :: u) (.token k t.text :: xs) (.token k t.text :: ys)
  | two {c t k u xs ys} : C.Plain c → C.Plain t → c.text ≠ [] → t.text ≠ [] → Turns C u xs ys →
      Turns C (c :: t :: u) (.token k (c.text ++ t.text) :: xs) (.token k (c.text ++ t.text) :: ys)
  | node {k cs ds u xs ys} : k ≠ .TWIG_LITERAL_STRING → k ≠ .HTML_STRING → cs.length = ds.length → Turns C u (cs ++ xs) (ds ++ ys) →
      Turns C u (.node k cs :: xs) (.node k ds :: ys)
  | twig {l v r u l' r' is js xs ys} : l.kind ∈ quotes → r.kind ∈ quotes → C.Quotes l v r is true → C.image l = [l'] → C.image r = [r'] → l'.kind ∈ quotes → l.text ≠ [] → r.text ≠ [] →
      Turns C v is js → Turns C u xs ys →
      Turns C (l :: (v ++ r :: u)) (.node .TWIG_LITERAL_STRING [l.tree, .node .TWIG_LITERAL_STRING_INNER is, r.tree] :: xs)
        (.node .TWIG_LITERAL_STRING [l'.tree, .node .TWIG_LITERAL_STRING_INNER js, r'.tree] :: ys)
  | html {l v r u l' r' is js xs ys} : l.kind ∈ quotes → r.kind ∈ quotes → C.Quotes l v r is false → C.image l = [l'] → C.image r = [r'] → l'.kind ∈ quotes → l.text ≠ [] → r.text ≠ [] →
      Turns C v is js → Turns C u xs ys →
      Turns C (l :: (v ++ r :: u)) (.node .HTML_STRING [l.tree, .node .HTML_STRING_INNER is, r.tree] :: xs)
        (.node .HTML_STRING [l'.tree, .node .HTML_STRING_INNER js, r'.tree] :: ys)
  | word {t u xs ys} : t.kind = T!"word" → t.text ≠ [] → C.Plain t → Turns C u xs ys →
      Turns C (t :: u) (.node .HTML_STRING [.node .HTML_STRING_INNER [t.tree]] :: xs)
        (.node .HTML_STRING [.node .HTML_STRING_INNER [t.tree]] :: ys)
  | wordq {t a b u xs ys} : t.text ≠ [] → a.kind ∈ quotes → b.kind = a.kind → C.image t = [a, C.moved t, b] → Turns C u xs ys →
      Turns C (t :: u) (.node .HTML_STRING [.node .HTML_STRING_INNER [t.tree]] :: xs)
        (.node .HTML_STRING [a.tree, .node .HTML_STRING_INNER [t.tree], b.tree] :: ys)
  | var {o v c u is js xs ys} : o.kind ∈ varOpens → o.text ≠ [] → c.text ≠ [] → C.Plain o → C.Plain c → Turns C v is js → Turns C u xs ys →
      Turns C (o :: (v ++ c :: u)) (.node .HTML_STRING [.node .HTML_STRING_INNER [.node .TWIG_VAR (o.tree :: (is ++ [c.tree]))]] :: xs)
        (.node .HTML_STRING [.node .HTML_STRING_INNER [.node .TWIG_VAR (o.tree :: (js ++ [c.tree]))]] :: ys)
  | varq {o v c a b u is js xs ys} : o.text ≠ [] → c.text ≠ [] → a.kind ∈ quotes → b.kind = a.kind → C.image o = [a, C.moved o] →
      C.image c = [C.moved c, b] → Turns C v is js → Turns C u xs ys →
      Turns C (o :: (v ++ c :: u)) (.node .HTML_STRING [.node .HTML_STRING_INNER [.node .TWIG_VAR (o.tree :: (is ++ [c.tree]))]] :: xs)
        (.node .HTML_STRING [a.tree, .node .HTML_STRING_INNER [.node .TWIG_VAR (o.tree :: (js ++ [c.tree]))], b.tree] :: ys)

/-! ## Strings, one by one -/

/-- `Strs` with each tree apart from those before it. -/
inductive Each : List Token → List Tree → Prop
  | nil : Each [] []
  | tok {t k u xs} : Each u xs → Each (t :: u) (.token k t.text :: xs)
  | two {c t k u xs} : Each u xs → Each (c :: t :: u) (.token k (c.text ++ t.text) :: xs)
  | node {k cs u xs} : k ≠ .TWIG_LITERAL_STRING → k ≠ .HTML_STRING → Each u (cs ++ xs) → Each u (.node k cs :: xs)
  | twig {l v r u is xs} : l.kind ∈ quotes → r.kind ∈ quotes → Each v is → Each u xs →
      Each (l :: (v ++ r :: u)) (.node .TWIG_LITERAL_STRING [l.tree, .node .TWIG_LITERAL_STRING_INNER is, r.tree] :: xs)
  | html {l v r u is xs} : l.kind ∈ quotes → r.kind ∈ quotes → Each v is → Each u xs →
      Each (l :: (v ++ r :: u)) (.node .HTML_STRING [l.tree, .node .HTML_STRING_INNER is, r.tree] :: xs)
  | word {t u xs} : t.kind = T!"word" → Each u xs → Each (t :: u) (.node .HTML_STRING [.node .HTML_STRING_INNER [t.tree]] :: xs)
  | var {o v c u is xs} : o.kind ∈ varOpens → Each v is → Each u xs →
      Each (o :: (v ++ c :: u)) (.node .HTML_STRING [.node .HTML_STRING_INNER [.node .TWIG_VAR (o.tree :: (is ++ [c.tree]))]] :: xs)

variable {C : Change} {t : Token} {u v w A B : List Token} {x : Tree} {xs ys zs : List Tree}

theorem Turns.fits (h : Turns C u xs ys) : Fits C u xs := by
  induction h with
  | nil => exact .nil
  | tok h1 h2 _ ih => exact .tok h1 h2 ih
  | two h1 h2 h3 h4 _ ih => exact .two h1 h2 h3 h4 ih
  | node h1 h2 _ _ ih => exact .node h1 h2 ih
  | twig _ _ h1 _ _ _ h2 h3 _ _ ih1 ih2 => exact .twig h1 h2 h3 ih1 ih2
  | html _ _ h1 _ _ _ h2 h3 _ _ ih1 ih2 => exact .html h1 h2 h3 ih1 ih2
  | word _ h1 h2 _ ih => exact .word h1 (.inl h2) ih
  | wordq h1 h2 h3 h4 _ ih => exact .word h1 (.inr ⟨_, _, h2, h3, h4⟩) ih
  | var _ h1 h2 h3 h4 _ _ ih1 ih2 => exact .var h1 h2 (.inl ⟨h3, h4⟩) ih1 ih2
  | varq h1 h2 h3 h4 h5 h6 _ _ ih1 ih2 => exact .var h1 h2 (.inr ⟨_, _, h3, h4, h5, h6⟩) ih1 ih2

theorem turns_node {k : SyntaxKind} {cs ds : List Tree} (h1 : k ≠ .TWIG_LITERAL_STRING) (h2 : k ≠ .HTML_STRING)
    (h : Turns C u (.node k cs :: xs) (.node k ds :: ys)) : Turns C u (cs ++ xs) (ds ++ ys) := by
  cases h with
  | node _ _ _ h => exact h
  | twig => exact absurd rfl h1
  | html => exact absurd rfl h2
  | word => exact absurd rfl h2
  | wordq => exact absurd rfl h2
  | var => exact absurd rfl h2
  | varq => exact absurd rfl h2

theorem Strs.each (h : Strs u xs) : Each u xs := by
  induction h with
  | nil => exact .nil
  | tok _ ih => exact .tok ih
  | two _ _ ih => exact .two ih
  | node h _ ih => exact .node (fun e => h (by rw [e]; decide)) (fun e => h (by rw [e]; decide)) ih
  | twig h1 h2 _ _ _ ih1 ih2 => exact .twig h1 h2 ih1 ih2
  | html h1 h2 _ _ ih1 ih2 => exact .html h1 h2 ih1 ih2
  | word _ h2 _ ih => exact .tok (.word h2 ih)
  | var _ h2 _ _ _ _ ih1 ih2 => exact .tok (.var h2 ih1 ih2)

theorem each_split (h : Each u zs) : ∀ {xs ys}, zs = xs ++ ys → ∃ u1 u2, u = u1 ++ u2 ∧ Each u1 xs ∧ Each u2 ys := by
  induction h with
  | nil =>
    intro xs ys e
    obtain ⟨rfl, rfl⟩ := List.append_eq_nil_iff.1 e.symm
    exact ⟨[], [], rfl, .nil, .nil⟩
  | @tok t k u zs h ih =>
    intro xs ys e
    cases xs with
    | nil => cases e; exact ⟨[], _, rfl, .nil, .tok h⟩
    | cons x xs => cases e; obtain ⟨u1, u2, rfl, h1, h2⟩ := ih rfl; exact ⟨_, u2, rfl, .tok h1, h2⟩
  | @two c t k u zs h ih =>
    intro xs ys e
    cases xs with
    | nil => cases e; exact ⟨[], _, rfl, .nil, .two h⟩
    | cons x xs => cases e; obtain ⟨u1, u2, rfl, h1, h2⟩ := ih rfl; exact ⟨_, u2, rfl, .two h1, h2⟩
  | @node k cs u zs k1 k2 h ih =>
    intro xs ys e
    cases xs with
    | nil => cases e; exact ⟨[], _, rfl, .nil, .node k1 k2 h⟩
    | cons x xs =>
      cases e
      obtain ⟨u1, u2, rfl, h1, h2⟩ := ih (xs := cs ++ xs) (ys := ys) (List.append_assoc ..).symm
      exact ⟨_, u2, rfl, .node k1 k2 h1, h2⟩
  | @twig l v r u is zs k1 k2 hv h _ ih =>
    intro xs ys e
    cases xs with
    | nil => cases e; exact ⟨[], _, rfl, .nil, .twig k1 k2 hv h⟩
    | cons x xs =>
      cases e; obtain ⟨u1, u2, rfl, h1, h2⟩ := ih rfl
      exact ⟨l :: (v ++ r :: u1), u2, by simp, .twig k1 k2 hv h1, h2⟩
  | @html l v r u is zs k1 k2 hv h _ ih =>
    intro xs ys e
    cases xs with
    | nil => cases e; exact ⟨[], _, rfl, .nil, .html k1 k2 hv h⟩
    | cons x xs =>
      cases e; obtain ⟨u1, u2, rfl, h1, h2⟩ := ih rfl
      exact ⟨l :: (v ++ r :: u1), u2, by simp, .html k1 k2 hv h1, h2⟩
  | @word t u zs k1 h ih =>
    intro xs ys e
    cases xs with
    | nil => cases e; exact ⟨[], _, rfl, .nil, .word k1 h⟩
    | cons x xs => cases e; obtain ⟨u1, u2, rfl, h1, h2⟩ := ih rfl; exact ⟨_, u2, rfl, .word k1 h1, h2⟩
  | @var o v c u is zs k1 hv h _ ih =>
    intro xs ys e
    cases xs with
    | nil => cases e; exact ⟨[], _, rfl, .nil, .var k1 hv h⟩
    | cons x xs =>
      cases e; obtain ⟨u1, u2, rfl, h1, h2⟩ := ih rfl
      exact ⟨o :: (v ++ c :: u1), u2, by simp, .var k1 hv h1, h2⟩

/-! ## Trees that are the same up to quotes -/

theorem unquote_is_token {k : SyntaxKind} {s : Text} (h : unquote x = .token k s) : x = .token k s := by
  cases x with
  | token => rwa [unquote_token] at h
  | node => rw [unquote_node] at h; cases h

theorem unquote_is_node {k : SyntaxKind} {cs : List Tree} (h : unquote x = unquote (.node k cs)) : ∃ ds, x = .node k ds ∧
    ((k ≠ .TWIG_LITERAL_STRING ∧ k ≠ .HTML_STRING → unquoteAll ds = unquoteAll cs) ∧
      (k = .TWIG_LITERAL_STRING ∨ k = .HTML_STRING →
        (unquoteAll ds).filter (fun x => !isQuoteLeaf x) = (unquoteAll cs).filter (fun x => !isQuoteLeaf x))) := by
  cases x with
  | token => rw [unquote_token, unquote_node] at h; cases h
  | node k' ds =>
    rw [unquote_node, unquote_node] at h
    simp only [Tree.node.injEq] at h
    obtain ⟨rfl, h⟩ := h
    refine ⟨ds, rfl, fun hk => ?_, fun hk => ?_⟩
    · rwa [if_neg (by simp [hk.1, hk.2]), if_neg (by simp [hk.1, hk.2])] at h
    · rwa [if_pos hk, if_pos hk] at h

theorem unquoteAll_is_cons (h : unquoteAll zs = unquoteAll (x :: xs)) : ∃ y ys, zs = y :: ys ∧ unquote y = unquote x ∧ unquoteAll ys = unquoteAll xs := by
  rw [unquoteAll_cons] at h
  cases zs with
  | nil => rw [unquoteAll_nil] at h; cases h
  | cons y ys =>
    rw [unquoteAll_cons] at h
    simp only [List.cons.injEq] at h
    exact ⟨y, ys, rfl, h.1, h.2⟩

theorem unquoteAll_is_nil (h : unquoteAll zs = []) : zs = [] := by
  cases zs with
  | nil => rfl
  | cons y ys => rw [unquoteAll_cons] at h; cases h

theorem unquoteAll_length : (unquoteAll xs).length = xs.length := by
  induction xs with
  | nil => rw [unquoteAll_nil]
  | cons x xs ih => rw [unquoteAll_cons, List.length_cons, List.length_cons, ih]

theorem unquoteAll_is_append (h : unquoteAll zs = unquoteAll (xs ++ ys)) : ∃ as bs, zs = as ++ bs ∧ unquoteAll as = unquoteAll xs ∧
    unquoteAll bs = unquoteAll ys := by
  refine ⟨zs.take xs.length, zs.drop xs.length, (List.take_append_drop _ _).symm, ?_⟩
  rw [← List.take_append_drop xs.length zs, unquoteAll_append, unquoteAll_append] at h
  refine List.append_inj h ?_
  rw [unquoteAll_length, unquoteAll_length, List.length_take]
  have := congrArg List.length h
  simp only [List.length_append, unquoteAll_length, List.length_take, List.length_drop] at this
  omega

theorem quote_tree (h : t.kind ∈ quotes) : isQuoteLeaf t.tree = true := by
  simp only [quotes, List.mem_cons, List.not_mem_nil, or_false] at h
  rcases h with h | h <;> simp [Token.tree, isQuoteLeaf, h]

theorem unquote_tree : unquote t.tree = t.tree := unquote_token

theorem filter_quoted {l r : Token} (hl : l.kind ∈ quotes) (hr : r.kind ∈ quotes) {ki : SyntaxKind} {is : List Tree} :
    (unquoteAll [l.tree, .node ki is, r.tree]).filter (fun x => !isQuoteLeaf x) = [unquote (.node ki is)] := by
  simp only [unquoteAll_cons, unquoteAll_nil, unquote_tree]
  rw [List.filter_cons_of_neg (by simp [quote_tree hl]), List.filter_cons_of_pos (by rw [unquote_node]; rfl),
    List.filter_cons_of_neg (by simp [quote_tree hr])]
  rfl

theorem filter_bare {ki : SyntaxKind} {is : List Tree} :
    (unquoteAll [.node ki is]).filter (fun x => !isQuoteLeaf x) = [unquote (.node ki is)] := by
  simp only [unquoteAll_cons, unquoteAll_nil]
  rw [List.filter_cons_of_pos (by rw [unquote_node]; rfl)]
  rfl

/-- The inner parts of two strings. -/
theorem inner_alike {ki : SyntaxKind} {is js : List Tree} (hk : ki ≠ .TWIG_LITERAL_STRING ∧ ki ≠ .HTML_STRING)
    (h : [unquote (.node ki is)] = [unquote (.node ki js)]) : unquoteAll is = unquoteAll js := by
  simp only [List.cons.injEq, and_true] at h
  obtain ⟨ds, h1, h2, _⟩ := unquote_is_node h
  cases h1
  exact h2 hk

theorem turns_length (h : Turns C u xs ys) : xs.length = ys.length := by
  induction h with
  | nil => rfl
  | node _ _ h _ ih => simp only [List.length_append, List.length_cons] at ih ⊢; omega
  | tok _ _ _ ih => simp [ih]
  | two _ _ _ _ _ ih => simp [ih]
  | twig _ _ _ _ _ _ _ _ _ _ _ ih => simp [ih]
  | html _ _ _ _ _ _ _ _ _ _ _ ih => simp [ih]
  | word _ _ _ _ ih => simp [ih]
  | wordq _ _ _ _ _ ih => simp [ih]
  | var _ _ _ _ _ _ _ _ ih => simp [ih]
  | varq _ _ _ _ _ _ _ _ _ ih => simp [ih]

theorem moved_text : (C.moved t).text = t.text := rfl

theorem moved_tree' : (C.moved t).tree = t.tree := rfl

theorem each_token {k : SyntaxKind} {s : Text} (hs : ∀ t ∈ u, t.text ≠ []) (h : Each u (.token k s :: xs)) (ht : u ++ A = t :: B) (hst : t.text = s) :
    ∃ u', u = t :: u' ∧ Each u' xs ∧ u' ++ A = B := by
  cases h with
  | tok h => cases ht; exact ⟨_, rfl, h, rfl⟩
  | @two c t' k u xs h =>
    cases ht
    have : t'.text = [] := by simpa using hst
    exact absurd this (hs t' (by simp))

theorem quote_not_open {k : SyntaxKind} (h : k ∈ quotes) : k ∉ varOpens := by
  simp only [quotes, List.mem_cons, List.not_mem_nil, or_false] at h
  rcases h with rfl | rfl <;> decide

theorem all_quoted {l r l' r' : Token} (h1 : C.image l = [l']) (h2 : C.image r = [r']) :
    C.all (l :: (v ++ r :: u)) = l' :: (C.all v ++ r' :: C.all u) := by
  rw [all_cons, all_append, all_cons, h1, h2]; rfl

theorem unique_quoted {k ki : SyntaxKind} {l0 r0 l' r' : Token} {v0 u0 v' u' : List Token} {is is' js : List Tree}
    (hs : ∀ t ∈ l0 :: (v0 ++ r0 :: u0), t.text ≠ []) (e1 : unquoteAll is' = unquoteAll is) (e2 : unquoteAll zs = unquoteAll xs)
    (hV : l0 :: (v0 ++ r0 :: u0) ++ A = l' :: (v' ++ r' :: u') ++ B) (hv : Each v0 is') (hu : Each u0 zs)
    (ihv : ∀ {V xs' A B}, (∀ t ∈ V, t.text ≠ []) → Each V xs' → unquoteAll xs' = unquoteAll is → V ++ A = v' ++ B → V = v' ∧ xs' = js)
    (ihu : ∀ {V xs' A B}, (∀ t ∈ V, t.text ≠ []) → Each V xs' → unquoteAll xs' = unquoteAll xs → V ++ A = u' ++ B → V = u' ∧ xs' = ys) :
    l0 :: (v0 ++ r0 :: u0) = l' :: (v' ++ r' :: u') ∧
      Tree.node k [l0.tree, .node ki is', r0.tree] :: zs = .node k [l'.tree, .node ki js, r'.tree] :: ys := by
  simp only [List.cons_append, List.append_assoc, List.cons.injEq] at hV
  obtain ⟨rfl, hV⟩ := hV
  obtain ⟨rfl, rfl⟩ := ihv (fun t ht => hs t (by simp [ht])) hv e1 hV
  have hV' := List.append_cancel_left hV
  simp only [List.cons.injEq] at hV'
  obtain ⟨rfl, hV'⟩ := hV'
  obtain ⟨rfl, rfl⟩ := ihu (fun t ht => hs t (by simp [ht])) hu e2 hV'
  exact ⟨rfl, rfl⟩

/-- The trees of the new tokens. -/
theorem turns_unique (h : Turns C u xs ys) : ∀ {V xs' A B}, (∀ t ∈ V, t.text ≠ []) → Each V xs' → unquoteAll xs' = unquoteAll xs →
    V ++ A = C.all u ++ B → V = C.all u ∧ xs' = ys := by
  induction h with
  | nil =>
    intro V xs' A B hs he e _
    rw [unquoteAll_nil] at e
    cases unquoteAll_is_nil e
    cases he
    exact ⟨rfl, rfl⟩
  | tok h1 h2 _ ih =>
    intro V xs' A B hs he e hV
    obtain ⟨x', zs, rfl, e1, e2⟩ := unquoteAll_is_cons e
    rw [unquote_token] at e1
    cases unquote_is_token e1
    rw [all_stays ⟨h1, h2⟩] at hV ⊢
    obtain ⟨V', rfl, h3, h4⟩ := each_token hs he hV rfl
    obtain ⟨g1, g2⟩ := ih (fun t ht => hs t (by simp [ht])) h3 e2 h4
    rw [g1, g2]
    exact ⟨rfl, rfl⟩
  | @two c t k u xs ys h1 h2 h3 h4 _ ih =>
    intro V xs' A B hs he e hV
    obtain ⟨x', zs, rfl, e1, e2⟩ := unquoteAll_is_cons e
    rw [unquote_token] at e1
    cases unquote_is_token e1
    rw [all_stays ⟨h1, h3⟩, all_stays ⟨h2, h4⟩] at hV ⊢
    generalize hS : c.text ++ t.text = S at he
    cases he with
    | tok he =>
      simp only [List.cons_append, List.cons.injEq] at hV
      rw [hV.1, moved_text] at hS
      exact absurd (by simpa using hS) h4
    | two he =>
      simp only [List.cons_append, List.cons.injEq] at hV
      obtain ⟨g1, g2⟩ := ih (fun t ht => hs t (by simp [ht])) he e2 hV.2.2
      rw [hV.1, hV.2.1, g1, g2]
      exact ⟨rfl, rfl⟩
  | @node k cs ds u xs ys h1 h2 h3 h ih =>
    intro V xs' A B hs he e hV
    obtain ⟨x', zs, rfl, e1, e2⟩ := unquoteAll_is_cons e
    obtain ⟨es, rfl, e3, _⟩ := unquote_is_node e1
    have e3 := e3 ⟨h1, h2⟩
    cases he with
    | node _ _ he =>
      obtain ⟨g1, g2⟩ := ih hs he (by rw [unquoteAll_append, unquoteAll_append, e3, e2]) hV
      have hl : es.length = ds.length := by rw [← unquoteAll_length, e3, unquoteAll_length, h3]
      obtain ⟨g3, g4⟩ := List.append_inj g2 hl
      rw [g3, g4]
      exact ⟨g1, rfl⟩
    | twig => exact absurd rfl h1
    | html => exact absurd rfl h2
    | word => exact absurd rfl h2
    | var => exact absurd rfl h2
  | twig q1 q2 _ i1 i2 k1 _ _ _ _ ihv ihu =>
    intro V xs' A B hs he e hV
    obtain ⟨x', zs, rfl, e1, e2⟩ := unquoteAll_is_cons e
    obtain ⟨es, rfl, _, e3⟩ := unquote_is_node e1
    have e3 := e3 (.inl rfl)
    rw [filter_quoted q1 q2] at e3
    rw [all_quoted i1 i2] at hV ⊢
    cases he with
    | node h => exact absurd rfl h
    | twig p1 p2 hv hu =>
      rw [filter_quoted p1 p2] at e3
      exact unique_quoted hs (inner_alike ⟨by decide, by decide⟩ e3) e2 hV hv hu ihv ihu
  | html q1 q2 _ i1 i2 k1 _ _ _ _ ihv ihu =>
    intro V xs' A B hs he e hV
    obtain ⟨x', zs, rfl, e1, e2⟩ := unquoteAll_is_cons e
    obtain ⟨es, rfl, _, e3⟩ := unquote_is_node e1
    have e3 := e3 (.inr rfl)
    rw [filter_quoted q1 q2] at e3
    rw [all_quoted i1 i2] at hV ⊢
    cases he with
    | node _ h => exact absurd rfl h
    | html p1 p2 hv hu =>
      rw [filter_quoted p1 p2] at e3
      exact unique_quoted hs (inner_alike ⟨by decide, by decide⟩ e3) e2 hV hv hu ihv ihu
    | word p1 =>
      simp only [List.cons_append, List.cons.injEq] at hV
      rw [hV.1] at p1
      rw [p1] at k1
      exact absurd k1 (by decide)
    | var p1 =>
      simp only [List.cons_append, List.cons.injEq] at hV
      rw [hV.1] at p1
      exact absurd p1 (quote_not_open k1)
  | @word t u xs ys k1 h1 i1 _ ih =>
    intro V xs' A B hs he e hV
    obtain ⟨x', zs, rfl, e1, e2⟩ := unquoteAll_is_cons e
    obtain ⟨es, rfl, _, e3⟩ := unquote_is_node e1
    have e3 := e3 (.inr rfl)
    rw [filter_bare] at e3
    rw [all_stays ⟨i1, h1⟩] at hV ⊢
    cases he with
    | node _ h => exact absurd rfl h
    | html p1 p2 hv hu =>
      simp only [List.cons_append, List.cons.injEq] at hV
      rw [hV.1] at p1
      have p1 : t.kind ∈ quotes := p1
      rw [k1] at p1
      exact absurd p1 (by decide)
    | word p1 hu =>
      simp only [List.cons_append, List.cons.injEq] at hV
      obtain ⟨g1, g2⟩ := ih (fun t ht => hs t (by simp [ht])) hu e2 hV.2
      rw [hV.1, g1, g2]
      exact ⟨rfl, rfl⟩
    | var p1 =>
      simp only [List.cons_append, List.cons.injEq] at hV
      rw [hV.1] at p1
      have p1 : t.kind ∈ varOpens := p1
      rw [k1] at p1
      exact absurd p1 (by decide)
  | @wordq t a b u xs ys h1 k1 k2 i1 _ ih =>
    intro V xs' A B hs he e hV
    obtain ⟨x', zs, rfl, e1, e2⟩ := unquoteAll_is_cons e
    obtain ⟨es, rfl, _, e3⟩ := unquote_is_node e1
    have e3 := e3 (.inr rfl)
    rw [filter_bare] at e3
    rw [all_cons, i1] at hV ⊢
    cases he with
    | node _ h => exact absurd rfl h
    | html p1 p2 hv hu =>
      rw [filter_quoted p1 p2] at e3
      have e4 := inner_alike ⟨by decide, by decide⟩ e3
      obtain ⟨y, ys', rfl, e5, e6⟩ := unquoteAll_is_cons e4
      rw [unquoteAll_nil] at e6
      cases unquoteAll_is_nil e6
      rw [unquote_tree] at e5
      have e5 : y = t.tree := unquote_is_token e5
      subst e5
      simp only [List.cons_append, List.nil_append, List.append_assoc, List.cons.injEq] at hV
      obtain ⟨v', rfl, h3, h4⟩ := each_token (fun t ht => hs t (by simp [ht])) hv hV.2 rfl
      cases h3
      simp only [List.cons_append, List.nil_append, List.cons.injEq] at h4
      obtain ⟨g1, g2⟩ := ih (fun t ht => hs t (by simp [ht])) hu e2 h4.2
      rw [hV.1, h4.1, g1, g2]
      exact ⟨rfl, rfl⟩
    | word p1 =>
      simp only [List.cons_append, List.cons.injEq] at hV
      rw [hV.1] at p1
      rw [p1] at k1
      exact absurd k1 (by decide)
    | var p1 =>
      simp only [List.cons_append, List.cons.injEq] at hV
      rw [hV.1] at p1
      exact absurd p1 (quote_not_open k1)
  | @var o v c u is js xs ys k1 h1 h2 i1 i2 _ _ ihv ihu =>
    intro V xs' A B hs he e hV
    obtain ⟨x', zs, rfl, e1, e2⟩ := unquoteAll_is_cons e
    obtain ⟨es, rfl, _, e3⟩ := unquote_is_node e1
    have e3 := e3 (.inr rfl)
    rw [filter_bare] at e3
    rw [all_stays ⟨i1, h1⟩, all_append, all_stays ⟨i2, h2⟩] at hV ⊢
    cases he with
    | node _ h => exact absurd rfl h
    | html p1 p2 hv hu =>
      simp only [List.cons_append, List.cons.injEq] at hV
      rw [hV.1] at p1
      exact absurd k1 (quote_not_open p1)
    | word p1 hu =>
      simp only [List.cons_append, List.cons.injEq] at hV
      rw [hV.1] at p1
      have p1 : o.kind = _ := p1
      rw [p1] at k1
      exact absurd k1 (by decide)
    | @var o0 v0 c0 u0 is0 _ p1 hv hu =>
      rw [filter_bare] at e3
      have e4 := inner_alike ⟨by decide, by decide⟩ e3
      simp only [unquoteAll_cons, unquoteAll_nil] at e4
      have e5 := inner_alike ⟨by decide, by decide⟩ e4
      rw [unquoteAll_cons, unquoteAll_cons, List.cons.injEq, unquoteAll_append, unquoteAll_append] at e5
      have e6 := List.append_inj' e5.2 (by rw [unquoteAll_length, unquoteAll_length]; rfl)
      simp only [List.cons_append, List.append_assoc, List.cons.injEq] at hV
      obtain ⟨g1, g2⟩ := ihv (fun t ht => hs t (by simp [ht])) hv e6.1 hV.2
      have hV2 := hV.2
      rw [g1] at hV2
      have hV2 := List.append_cancel_left hV2
      simp only [List.cons.injEq] at hV2
      obtain ⟨g3, g4⟩ := ihu (fun t ht => hs t (by simp [ht])) hu e2 hV2.2
      rw [hV.1, hV2.1, g1, g2, g3, g4]
      exact ⟨rfl, rfl⟩
  | @varq o v c a b u is js xs ys h1 h2 k1 k2 i1 i2 _ _ ihv ihu =>
    intro V xs' A B hs he e hV
    obtain ⟨x', zs, rfl, e1, e2⟩ := unquoteAll_is_cons e
    obtain ⟨es, rfl, _, e3⟩ := unquote_is_node e1
    have e3 := e3 (.inr rfl)
    rw [filter_bare] at e3
    rw [all_cons, i1, all_append, all_cons, i2] at hV ⊢
    cases he with
    | node _ h => exact absurd rfl h
    | @html l0 v0 r0 u0 is0 _ p1 p2 hv hu =>
      rw [filter_quoted p1 p2] at e3
      have e4 := inner_alike ⟨by decide, by decide⟩ e3
      obtain ⟨y, ys', rfl, e5, e6⟩ := unquoteAll_is_cons e4
      rw [unquoteAll_nil] at e6
      cases unquoteAll_is_nil e6
      obtain ⟨fs, rfl, e7, _⟩ := unquote_is_node e5
      obtain ⟨y, fs, rfl, e8, e9⟩ := unquoteAll_is_cons (e7 ⟨by decide, by decide⟩)
      rw [unquote_tree] at e8
      have e8 : y = o.tree := unquote_is_token e8
      subst e8
      obtain ⟨is', bs, rfl, e10, e11⟩ := unquoteAll_is_append e9
      obtain ⟨y, bs', rfl, e12, e13⟩ := unquoteAll_is_cons e11
      rw [unquoteAll_nil] at e13
      cases unquoteAll_is_nil e13
      rw [unquote_tree] at e12
      have e12 : y = c.tree := unquote_is_token e12
      subst e12
      simp only [List.cons_append, List.nil_append, List.append_assoc, List.cons.injEq] at hV
      cases hv with
      | node _ _ hv =>
        rw [List.append_nil] at hv
        obtain ⟨v1, rfl, h3, h4⟩ := each_token (fun t ht => hs t (by simp [ht])) hv hV.2 rfl
        obtain ⟨v2, v3, rfl, h5, h6⟩ := each_split h3 rfl
        rw [List.append_assoc] at h4
        obtain ⟨g1, g2⟩ := ihv (fun t ht => hs t (by simp [ht])) h5 e10 h4
        subst g1
        have h4 := List.append_cancel_left h4
        obtain ⟨v4, rfl, h7, h8⟩ := each_token (fun t ht => hs t (by simp [ht])) h6 h4 rfl
        cases h7
        simp only [List.nil_append, List.cons.injEq] at h8
        obtain ⟨g3, g4⟩ := ihu (fun t ht => hs t (by simp [ht])) hu e2 h8.2
        rw [hV.1, h8.1, g2, g3, g4]
        exact ⟨by simp, rfl⟩
    | word p1 =>
      simp only [List.cons_append, List.cons.injEq] at hV
      rw [hV.1] at p1
      rw [p1] at k1
      exact absurd k1 (by decide)
    | var p1 =>
      simp only [List.cons_append, List.cons.injEq] at hV
      rw [hV.1] at p1
      exact absurd p1 (quote_not_open k1)

end Ludtwig.Template
