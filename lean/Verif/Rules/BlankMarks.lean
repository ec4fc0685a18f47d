import Verif.Rules.LayoutCells

/-!
# Where the rule for blank lines is off

Whether a `ludtwig-ignore` directive applies to a line break, in terms of the mark of the line break and
the token before it.
-/

namespace Ludtwig.Rules

open Cli Lexer Layout Shape

/-! ## The token before a token -/

theorem token_pos {root : Tree} (hne : ∀ l ∈ root.leaves, l.2 ≠ []) {e : Elem} (h : e ∈ root.tokenElems) :
    0 < byteLen e.text := by
  have := byteLen_pos (hne (e.kind, e.text)
    (token_leaf ((mem_elems_iff _ _).mp (List.mem_filter.mp h).1) (tokenElems_token h)))
  exact this

/-- A place in the file is the start of at most one token. -/
theorem split_unique {root : Tree} (hne : ∀ l ∈ root.leaves, l.2 ≠ []) {x y x' y' : List Elem} {e e' : Elem}
    (h : root.tokenElems = x ++ e :: y) (h' : root.tokenElems = x' ++ e' :: y') (hs : e.start = e'.start) :
    x = x' ∧ e = e' ∧ y = y' := by
  have hord := tokenElems_ordered root
  have hpos : ∀ a ∈ root.tokenElems, 0 < byteLen a.text := fun a ha => token_pos hne ha
  rw [h] at hord hpos h'
  clear h hne
  induction x generalizing x' with
  | nil =>
    cases x' with
    | nil =>
      rw [List.nil_append, List.nil_append, List.cons.injEq] at h'
      exact ⟨rfl, h'⟩
    | cons a x' =>
      exfalso
      rw [List.nil_append, List.cons_append, List.cons.injEq] at h'
      obtain ⟨rfl, rfl⟩ := h'
      rw [List.nil_append, List.pairwise_cons] at hord
      have := hord.1 e' (by simp)
      have := hpos e (by simp)
      omega
  | cons a x ih =>
    cases x' with
    | nil =>
      exfalso
      rw [List.nil_append, List.cons_append, List.cons.injEq] at h'
      obtain ⟨rfl, rfl⟩ := h'
      rw [List.cons_append, List.pairwise_cons] at hord
      have := hord.1 e (by simp)
      have := hpos a (by simp)
      omega
    | cons b x' =>
      rw [List.cons_append, List.cons_append, List.cons.injEq] at h'
      obtain ⟨rfl, h'⟩ := h'
      rw [List.cons_append, List.pairwise_cons] at hord
      obtain ⟨rfl, h2⟩ := ih h' hord.2 (fun c hc => hpos c (List.mem_cons_of_mem _ hc))
      exact ⟨rfl, h2⟩

theorem before_unique {root : Tree} (hne : ∀ l ∈ root.leaves, l.2 ≠ []) {x y : List Elem} {e q : Elem}
    (h : root.tokenElems = x ++ e :: y) (hq : Elem.In root q) (hn : q.isNode = false)
    (ha : ∃ r, q.tokensAfter = e :: r) : x.getLast? = some q := by
  have hm : q ∈ root.tokenElems := List.mem_filter.2 ⟨(mem_elems_iff _ _).2 hq, by simp [hn]⟩
  obtain ⟨l, r, hl⟩ := List.append_of_mem hm
  obtain ⟨r', hr⟩ := ha
  rw [tokenElems_after hl] at hr
  subst hr
  have hl' : root.tokenElems = (l ++ [q]) ++ e :: r' := by rw [hl]; simp
  obtain ⟨rfl, _⟩ := split_unique hne h hl' rfl
  simp

/-- The token before a token is its sibling, if that is a token. -/
theorem before_token {root : Tree} (hne : ∀ l ∈ root.leaves, l.2 ≠ []) {x y : List Elem}
    {ke k k' : SyntaxKind} {te t : Text} {pos s : Nat} {bef aft : List Tree} {fs : List Frame}
    (h : root.tokenElems = x ++ ⟨.token ke te, pos, ⟨k, s, bef ++ [.token k' t], aft⟩ :: fs⟩ :: y) :
    ∃ pos' path', x.getLast? = some ⟨.token k' t, pos', path'⟩ := by
  have hm : (⟨.token ke te, pos, ⟨k, s, bef ++ [.token k' t], aft⟩ :: fs⟩ : Elem) ∈ root.tokenElems := by
    rw [h]; simp
  have hin := (mem_elems_iff _ _).1 (List.mem_filter.1 hm).1
  obtain ⟨h1, h2⟩ := In_path hin
  simp only at h1 h2
  have h0 : (bef ++ [.token k' t]) ++ .token ke te :: aft = bef ++ .token k' t :: .token ke te :: aft := by simp
  rw [h0] at h1
  have h3 := In_split h1
  refine ⟨_, _, before_unique hne h h3 rfl ?_⟩
  have hp : s + byteLen (textOf bef) + byteLen (Tree.token k' t).text = pos := by
    rw [h2]
    simp [byteLen_append, Nat.add_assoc, textOf_append, textOf]
  unfold Elem.tokensAfter tokensAfterFrom
  dsimp only
  rw [elemsIn, tokensOf_append, elemsAt, hp]
  exact ⟨_, rfl⟩

/-- The token before a token behind a node that ends with a token. -/
theorem before_node {root : Tree} (hne : ∀ l ∈ root.leaves, l.2 ≠ []) {x y : List Elem}
    {ke k i k' : SyntaxKind} {te t : Text} {pos s : Nat} {bef l aft : List Tree} {fs : List Frame}
    (h : root.tokenElems = x ++ ⟨.token ke te, pos, ⟨k, s, bef ++ [.node i (l ++ [.token k' t])], aft⟩ :: fs⟩ :: y) :
    ∃ pos' path', x.getLast? = some ⟨.token k' t, pos', path'⟩ := by
  have hm : (⟨.token ke te, pos, ⟨k, s, bef ++ [.node i (l ++ [.token k' t])], aft⟩ :: fs⟩ : Elem) ∈
      root.tokenElems := by
    rw [h]; simp
  have hin := (mem_elems_iff _ _).1 (List.mem_filter.1 hm).1
  obtain ⟨h1, h2⟩ := In_path hin
  simp only at h1 h2
  have h0 : (bef ++ [.node i (l ++ [.token k' t])]) ++ .token ke te :: aft =
      bef ++ .node i (l ++ [.token k' t]) :: .token ke te :: aft := by simp
  rw [h0] at h1
  have h3 := In_split (In_split h1)
  refine ⟨_, _, before_unique hne h h3 rfl ?_⟩
  have hp : s + byteLen (textOf bef) + byteLen (textOf l) + byteLen (Tree.token k' t).text +
      byteLen (textOf []) = pos := by
    rw [h2]
    simp [byteLen_append, Nat.add_assoc, textOf_append, textOf, Tree.text]
  unfold Elem.tokensAfter tokensAfterFrom
  dsimp only
  rw [elemsIn, tokensAfterFrom]
  dsimp only
  rw [elemsIn, tokensOf_append, elemsAt, hp]
  exact ⟨_, rfl⟩

/-! ## Directives -/

/-- Does a directive directly before an element switch the rule for blank lines off? -/
def mutesNow (e : Elem) : Bool :=
  match e.path with
  | [] => false
  | f :: _ => mutes f.before.getLast?

theorem now_eq (e : Elem) : (precedingDirective e == some [] ||
    ((precedingDirective e).getD []).contains "whitespace-between-line-breaks".toList) = mutesNow e := by
  obtain ⟨t, pos, path⟩ := e
  cases path with
  | nil => rfl
  | cons f fs =>
    unfold precedingDirective mutesNow mutes
    dsimp only
    split
    · rename_i cs heq
      rw [heq]
      rfl
    · rename_i hno
      split
      · rename_i cs heq
        exact absurd heq (hno cs)
      · rfl

theorem ancestors_isNode {e a : Elem} (ha : a ∈ e.ancestors) : a.isNode = true := by
  obtain ⟨t, pos, path⟩ := e
  induction path generalizing t pos with
  | nil => cases ha
  | cons f fs ih =>
    rw [ancestors_cons] at ha
    rcases List.mem_cons.1 ha with rfl | ha
    · rfl
    · exact ih _ _ ha

theorem In_ancestors {root : Tree} {e a : Elem} (h : Elem.In root e) (ha : a ∈ e.ancestors) :
    Elem.In root a := by
  obtain ⟨t, pos, path⟩ := e
  induction path generalizing t pos with
  | nil => cases ha
  | cons f fs ih =>
    rw [ancestors_cons] at ha
    have := (In_path h).1
    rcases List.mem_cons.1 ha with rfl | ha
    · exact this
    · exact ih _ _ this ha

theorem no_error {root : Tree} (hn : Neat root) {e : Elem} (h : Elem.In root e) :
    nodeOf .ERROR e.tree = false := by
  cases hc : nodeOf .ERROR e.tree with
  | false => rfl
  | true =>
    obtain ⟨cs, ht⟩ := nodeOf_tree hc
    exact absurd (nodeKinds_in h .ERROR (by rw [ht]; simp [Tree.nodeKinds])) hn.noError

theorem any_or_any {α : Type} (l : List α) (p q : α → Bool) :
    (l.any p || l.any q) = l.any (fun a => p a || q a) := by
  induction l with
  | nil => rfl
  | cons a l ih =>
    simp only [List.any_cons]
    rw [← ih]
    cases p a <;> cases q a <;> simp

theorem off_chain {root : Tree} (hn : Neat root) {e : Elem} (h : Elem.In root e) :
    (hidden e || switchedOff "whitespace-between-line-breaks".toList e) = e.chain.any mutesNow := by
  unfold hidden switchedOff
  rw [any_or_any]
  have hin : ∀ a ∈ e.chain, Elem.In root a := by
    intro a ha
    rcases List.mem_cons.1 ha with rfl | ha
    · exact h
    · exact In_ancestors h ha
  rw [Bool.eq_iff_iff, List.any_eq_true, List.any_eq_true]
  constructor
  · rintro ⟨a, ha, h⟩
    refine ⟨a, ha, ?_⟩
    rw [← now_eq]
    unfold closed at h
    rw [no_error hn (hin a ha)] at h
    exact h
  · rintro ⟨a, ha, h⟩
    refine ⟨a, ha, ?_⟩
    rw [← now_eq] at h
    unfold closed
    rw [no_error hn (hin a ha)]
    exact h

theorem mutes_bare (t : Tree) : mutes (some (bareTree t)) = mutes (some t) := by
  cases t with
  | token k x => rfl
  | node k cs =>
    show mutes (some (.node k (bareAll cs))) = _
    unfold mutes
    by_cases h : k = .LUDTWIG_DIRECTIVE_IGNORE
    · subst h
      dsimp only
      rw [names_bare]
    · split
      · rename_i heq
        simp only [Option.some.injEq, Tree.node.injEq] at heq
        exact absurd heq.1 h
      · split
        · rename_i heq
          simp only [Option.some.injEq, Tree.node.injEq] at heq
          exact absurd heq.1 h
        · rfl

theorem bareAll_solid {t : Tree} (h : triviaTree t = false) (l : List Tree) :
    (bareAll (l ++ [t])).getLast? = some (bareTree t) := by
  rw [bareAll_append, bareAll, bare_solid h]
  simp [bareAll]

/-- Whitespace before a node does not matter. -/
theorem now_node {root : Tree} (hn : Neat root) {k : SyntaxKind} {cs : List Tree} {pos : Nat}
    {path : List Frame} (h : Elem.In root ⟨.node k cs, pos, path⟩) :
    mutesNow ⟨.node k cs, pos, path⟩ = muted ⟨.node k cs, pos, path⟩ := by
  cases path with
  | nil => rfl
  | cons f fs =>
    obtain ⟨h1, h2⟩ := In_path h
    obtain ⟨fk, fstart, bef, aft⟩ := f
    simp only at h1 h2
    show mutes bef.getLast? = mutes (bareAll bef).getLast?
    rcases List.eq_nil_or_concat bef with rfl | ⟨l, x, rfl⟩
    · rfl
    · rw [List.concat_eq_append] at *
      cases hx : triviaTree x with
      | false => rw [bareAll_solid hx, mutes_bare]; simp
      | true =>
        have ha := attached_in hn.attached h1
        rcases ha.1 l x (.node k cs :: aft) (by simp) hx with ⟨_, _, _, h⟩ | ⟨h, _⟩ | ⟨h, _⟩
        · cases h
        · cases h
        · subst h
          have hd := no_directive hn h1 (by decide)
          rw [mutes_false (fun ds hds => hd ds (by
            rcases List.mem_append.1 hds with h | h
            · simp [h]
            · simp only [List.mem_singleton] at h; simp [h]))]
          rw [List.getLast?_append, List.getLast?_singleton]
          cases x with
          | token kx tx => rfl
          | node kx cx => cases hx

/-- Where the rule for blank lines is off. -/
theorem blank_off {root : Tree} (hn : Neat root) (hq : Quoted root) (hne : ∀ l ∈ root.leaves, l.2 ≠ [])
    (config : Config) {x y : List Elem} {e : Elem} (h : root.tokenElems = x ++ e :: y)
    (hk : e.kind.isTrivia = true) :
    (hidden e || switchedOff "whitespace-between-line-breaks".toList e) =
      ((markOf config e).mute || ((x.getLast?.map solid).getD false && (markOf config e).own)) := by
  have hm : e ∈ root.tokenElems := by rw [h]; simp
  have hin := (mem_elems_iff _ _).1 (List.mem_filter.1 hm).1
  rw [off_chain hn hin]
  show (mutesNow e || e.ancestors.any mutesNow) = (e.ancestors.any muted || _)
  have h1 : e.ancestors.any mutesNow = e.ancestors.any muted := by
    rw [Bool.eq_iff_iff, List.any_eq_true, List.any_eq_true]
    have hp : ∀ a ∈ e.ancestors, mutesNow a = muted a := by
      intro a ha
      have hi := In_ancestors hin ha
      have hnode : a.isNode = true := ancestors_isNode ha
      obtain ⟨t, pos, path⟩ := a
      cases t with
      | token k x => cases hnode
      | node k cs => exact now_node hn hi
    constructor
    · rintro ⟨a, ha, h⟩; exact ⟨a, ha, by rw [← hp a ha]; exact h⟩
    · rintro ⟨a, ha, h⟩; exact ⟨a, ha, by rw [hp a ha]; exact h⟩
  rw [h1, Bool.or_comm]
  congr 1
  show mutesNow e = (_ && (muted e || behindString e))
  have ht := tokenElems_token hm
  obtain ⟨t, pos, path⟩ := e
  cases t with
  | node k cs => cases ht
  | token ke te =>
    cases path with
    | nil => simp [mutesNow, muted, behindString]
    | cons f fs =>
      obtain ⟨fk, s, bef, aft⟩ := f
      obtain ⟨hp1, hp2⟩ := In_path hin
      simp only at hp1 hp2
      show mutes bef.getLast? = (_ && (mutes (bareAll bef).getLast? || stringMutes (bareAll bef).getLast?))
      rcases List.eq_nil_or_concat bef with rfl | ⟨l, b, rfl⟩
      · simp [bareAll, mutes, stringMutes]
      · rw [List.concat_eq_append] at *
        cases hb : triviaTree b with
        | true =>
          cases b with
          | node kb cb => cases hb
          | token kb tb =>
            obtain ⟨pos', path', hl⟩ := before_token hne h
            rw [hl, List.getLast?_append, List.getLast?_singleton]
            have : solid ⟨.token kb tb, pos', path'⟩ = false := by unfold solid; rw [hb]; rfl
            simp [this, mutes]
        | false =>
          rw [bareAll_solid hb, mutes_bare, List.getLast?_append, List.getLast?_singleton, Option.some_or]
          cases b with
          | token kb tb => simp [mutes, stringMutes, bareTree]
          | node kb cb =>
            have hstr : stringMutes (some (bareTree (.node kb cb))) = false := by
              by_cases hi : kb = .HTML_STRING_INNER
              · exfalso
                subst hi
                have hmen := lang_mentions (lang_in hn.shape hp1 rfl) ⟨true, .HTML_STRING_INNER⟩
                  (mem_items_node (cs := cb) (by simp))
                obtain rfl := parent_htmlInner _ hmen
                rcases hq _ hp1 l cb (.token ke te :: aft) (by simp) with ⟨q, x3, hq, he⟩ | ⟨he, _⟩
                · simp only [List.cons.injEq, Tree.token.injEq] at he
                  rw [← he.1.1] at hq
                  have hk : ke.isTrivia = true := hk
                  rw [hk] at hq
                  cases hq
                · cases he
              · unfold stringMutes bareTree
                split
                · rename_i heq
                  simp only [Option.some.injEq, Tree.node.injEq] at heq
                  exact absurd heq.1 hi
                · rfl
            rw [hstr, Bool.or_false]
            cases hmu : mutes (some (.node kb cb)) with
            | false => simp
            | true =>
              have hkb : kb = .LUDTWIG_DIRECTIVE_IGNORE := by
                unfold mutes at hmu
                split at hmu
                · rename_i heq
                  simp only [Option.some.injEq, Tree.node.injEq] at heq
                  exact heq.1
                · cases hmu
              subst hkb
              have hp3 : Elem.In root ⟨.node .LUDTWIG_DIRECTIVE_IGNORE cb, s + byteLen (textOf l),
                  ⟨fk, s, l, .token ke te :: aft⟩ :: fs⟩ := by
                refine In_split ?_
                have h0 : l ++ [.node .LUDTWIG_DIRECTIVE_IGNORE cb] ++ .token ke te :: aft =
                  l ++ .node .LUDTWIG_DIRECTIVE_IGNORE cb :: .token ke te :: aft := by simp
                rw [← h0]
                exact hp1
              obtain ⟨l', k', t', rfl, hk'⟩ := directive_end hn hp3 rfl
              obtain ⟨pos', path', hl⟩ := before_node hne h
              rw [hl]
              have : solid ⟨.token k' t', pos', path'⟩ = true := by
                unfold solid triviaTree; simp [hk']
              simp [this]

end Ludtwig.Rules
