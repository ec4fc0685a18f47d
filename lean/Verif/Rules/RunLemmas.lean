import Verif.Rules.RunSpec

/-!
# Lemmas for `run_rules`
-/

namespace Ludtwig

/-- The trees of the children of a tree. -/
def Tree.subtrees : Tree → List Tree
  | .token _ _ => []
  | .node _ cs => cs

theorem childElems_trees (path : List Frame) (k : SyntaxKind) (start : Nat) :
    ∀ (ts before : List Tree) (pos : Nat),
      (childElems path k start before pos ts).map (·.tree) = ts
  | [], _, _ => rfl
  | t :: ts, before, pos => by simp [childElems, childElems_trees path k start ts]

theorem childElems_length (path : List Frame) (k : SyntaxKind) (start : Nat)
    (ts before : List Tree) (pos : Nat) :
    (childElems path k start before pos ts).length = ts.length := by
  conv => rhs; rw [← childElems_trees path k start ts before pos]
  simp

theorem childrenWithTokens_trees (e : Elem) :
    e.childrenWithTokens.map (·.tree) = e.tree.subtrees := by
  obtain ⟨t, pos, path⟩ := e
  cases t <;> simp [Elem.childrenWithTokens, Tree.subtrees, childElems_trees]

theorem find_map_tree (p : Tree → Bool) (l : List Elem) :
    (l.find? (fun c => p c.tree)).map (·.tree) = (l.map (·.tree)).find? p := by
  induction l with
  | nil => rfl
  | cons a l ih =>
    simp only [List.find?_cons, List.map_cons]
    cases p a.tree <;> simp [ih]

theorem child_tree (k : SyntaxKind) (e : Elem) :
    (e.child k).map (·.tree) = e.tree.subtrees.find? (fun t => t.isNode && t.kind == k) := by
  rw [← childrenWithTokens_trees, ← find_map_tree]
  simp only [Elem.child, Elem.children, List.find?_filter, Bool.decide_and, Bool.decide_eq_true]
  rfl

theorem token_tree (p : SyntaxKind → Bool) (e : Elem) :
    (e.tokens.find? (fun c => p c.kind)).map (·.tree) =
      e.tree.subtrees.find? (fun t => !t.isNode && p t.kind) := by
  rw [← childrenWithTokens_trees, ← find_map_tree]
  simp only [Elem.tokens, List.find?_filter, Bool.decide_and, Bool.decide_eq_true]
  rfl

/-- The siblings before an element of a walk. -/
theorem siblingsBefore_tree (e : Elem) :
    e.siblingsBefore.map (·.tree) = match e.path with | [] => [] | f :: _ => f.before := by
  obtain ⟨t, pos, path⟩ := e
  cases path with
  | nil => rfl
  | cons f fs =>
    simp only [Elem.siblingsBefore, List.map_take, childElems_trees]
    simp

theorem prevSiblingOrToken_tree (e : Elem) :
    e.prevSiblingOrToken.map (·.tree) =
      match e.path with | [] => none | f :: _ => f.before.getLast? := by
  rw [Elem.prevSiblingOrToken, ← List.getLast?_map, siblingsBefore_tree]
  cases e.path <;> rfl

namespace Rules

open Cli

theorem nodeOf_eq (k : SyntaxKind) : (fun t : Tree => t.isNode && t.kind == k) = nodeOf k := by
  funext t; cases t <;> simp [Tree.isNode, Tree.kind, nodeOf]

theorem child_tree' (k : SyntaxKind) (e : Elem) :
    (e.child k).map (·.tree) = e.tree.subtrees.find? (nodeOf k) := by
  rw [child_tree, nodeOf_eq]

theorem ruleNames_eq (e : Elem) :
    e.ruleNames = (e.tree.subtrees.filter (tokenOf [.TK_WORD])).map (·.text) := by
  rw [← childrenWithTokens_trees, List.filter_map, List.map_map]
  unfold Elem.ruleNames Elem.tokens
  rw [List.filter_filter]
  have : (fun a : Elem => a.kind == .TK_WORD && !a.isNode) =
      tokenOf [.TK_WORD] ∘ (fun x : Elem => x.tree) := by
    funext a
    obtain ⟨t, pos, path⟩ := a
    cases t <;> simp [Elem.kind, Elem.isNode, Tree.kind, Tree.isNode, tokenOf]
    rw [Bool.eq_iff_iff]; simp
  rw [this]
  rfl

theorem directiveRules_eq (e : Elem) : e.directiveRules = directiveNames e.tree.subtrees := by
  have h := child_tree' .LUDTWIG_DIRECTIVE_RULE_LIST e
  unfold Elem.directiveRules directiveNames
  rw [← h]
  cases hc : e.child .LUDTWIG_DIRECTIVE_RULE_LIST with
  | none => rfl
  | some l =>
    simp only [Option.map_some, ruleNames_eq]
    cases hl : l.tree with
    | node k ws => rfl
    | token k t => rfl

theorem ignoreBefore_eq (e : Elem) : ignoreBefore e = precedingDirective e := by
  have h := prevSiblingOrToken_tree e
  unfold ignoreBefore precedingDirective
  cases hp : e.path with
  | nil =>
    rw [hp] at h
    cases hq : e.prevSiblingOrToken with
    | none => rfl
    | some p => rw [hq] at h; simp at h
  | cons f fs =>
    rw [hp] at h
    simp only at h ⊢
    rw [← h]
    cases hq : e.prevSiblingOrToken with
    | none => rfl
    | some p =>
      obtain ⟨t, pos, path⟩ := p
      cases t with
      | token k t => simp [Elem.cast, Elem.isNode, Tree.isNode]
      | node k cs =>
        by_cases hk : k = .LUDTWIG_DIRECTIVE_IGNORE
        · subst hk
          simp [Elem.cast, Elem.isNode, Tree.isNode, Elem.kind, Tree.kind, directiveRules_eq,
            Tree.subtrees]
        · simp [Elem.cast, Elem.isNode, Tree.isNode, Elem.kind, Tree.kind, hk]

theorem startingTagName_tree (e : Elem) : e.startingTagName.map (·.tree) =
    e.tree.subtrees.find? (tokenOf [.TK_WORD, .TK_TWIG_COMPONENT_NAME]) := by
  unfold Elem.startingTagName
  rw [token_tree (fun k => k == .TK_WORD || k == .TK_TWIG_COMPONENT_NAME)]
  congr 1
  funext t
  cases t <;> simp [Tree.isNode, Tree.kind, tokenOf]
  rw [Bool.eq_iff_iff]; simp

theorem isSensitive_eq (e : Elem) : isSensitive e = protectsWhitespace e.tree := by
  obtain ⟨t, pos, path⟩ := e
  cases t with
  | token k t => rfl
  | node k cs =>
    by_cases h₁ : k = .HTML_STRING_INNER
    · subst h₁; rfl
    by_cases h₂ : k = .TWIG_LITERAL_STRING_INNER
    · subst h₂; rfl
    by_cases h₃ : k = .HTML_TAG
    · subst h₃
      have h := child_tree' .HTML_STARTING_TAG ⟨.node .HTML_TAG cs, pos, path⟩
      simp only [isSensitive, isSensitiveTag, Elem.tagName, Elem.startingTag, protectsWhitespace]
      simp only [Tree.subtrees] at h
      rw [← h]
      cases hc : Elem.child .HTML_STARTING_TAG ⟨.node .HTML_TAG cs, pos, path⟩ with
      | none => rfl
      | some st =>
        have h' := startingTagName_tree st
        obtain ⟨tt, tpos, tpath⟩ := st
        cases tt with
        | token k t =>
          rw [hc] at h
          have := List.find?_some h.symm
          simp [nodeOf] at this
        | node k parts =>
          simp only [Tree.subtrees] at h'
          simp only [Option.map_some, ← h']
          show (_ || (match Elem.startingTagName ⟨Tree.node k parts, tpos, tpath⟩ with
            | some t => sensitiveTags.contains t.text
            | none => false)) = _
          cases hn : Elem.startingTagName ⟨Tree.node k parts, tpos, tpath⟩ with
          | none => rfl
          | some n =>
            obtain ⟨nt, npos, npath⟩ := n
            cases nt with
            | token k t => rfl
            | node k t =>
              rw [hn] at h'
              have := List.find?_some h'.symm
              simp [tokenOf] at this
    · have e₁ : isSensitive ⟨.node k cs, pos, path⟩ = false := by
        simp [isSensitive, isSensitiveTag, Elem.kind, Tree.kind, h₁, h₂, h₃]
      rw [e₁]
      unfold protectsWhitespace
      split <;> simp_all

/-! ## The loop -/

/-- The names of all directives that switch off rules on an element. -/
def offNames (e : Elem) : List RuleName := e.chain.flatMap (fun a => (precedingDirective a).getD [])

/-- The names of all directives before the ancestors of an element. -/
def offAbove (e : Elem) : List RuleName :=
  e.ancestors.flatMap (fun a => (precedingDirective a).getD [])

theorem switchedOff_iff (name : RuleName) (e : Elem) :
    switchedOff name e = (offNames e).any (fun i => i == name) := by
  rw [Bool.eq_iff_iff]
  simp [switchedOff, offNames, List.any_eq_true]

/-- Removing the names that were added gives the same names. -/
theorem removeIgnored_perm : ∀ (names ignored rest : List RuleName),
    ignored.Perm (names ++ rest) → ∃ l, removeIgnored names ignored = .ok l ∧ l.Perm rest
  | [], ignored, rest, h => ⟨ignored, rfl, h⟩
  | n :: names, ignored, rest, h => by
    have hm : n ∈ ignored := h.symm.subset List.mem_cons_self
    have hp : (ignored.erase n).Perm (names ++ rest) := by
      have := h.erase n
      simpa using this
    obtain ⟨l, hl, hr⟩ := removeIgnored_perm names _ rest hp
    refine ⟨l, ?_, hr⟩
    have : ignored.contains n = true := by simpa using hm
    simp only [removeIgnored, this, if_true, hl]

/-- What a rule is told before its own element is looked at. -/
def toldBefore (e : Elem) : Bool :=
  match e.path with
  | [] => false
  | f :: fs => toldFrom (.node f.kind (f.before ++ e.tree :: f.after)) f.start fs &&
      e.siblingsBefore.all (fun b => !touches b)

theorem told_eq (e : Elem) : told e = (protectsWhitespace e.tree || toldBefore e) := by
  obtain ⟨t, pos, path⟩ := e
  cases path with
  | nil => simp [told, toldFrom, toldBefore]
  | cons f fs => simp [told, toldFrom, toldBefore]

/-- The findings on an element. -/
def findings (config : Config) (rules : List Rule) (e : Elem) : List CheckResult :=
  (rules.filter (fun r => !switchedOff r.name e)).flatMap (fun r => checkElem config r e)

theorem runOn_eq (rules : List Rule) (ignored : List RuleName) (e : Elem)
    (h : ignored.Perm (offNames e)) (check : Rule → List CheckResult) :
    runOn rules ignored check =
      (rules.filter (fun r => !switchedOff r.name e)).flatMap check := by
  unfold runOn
  induction rules with
  | nil => rfl
  | cons r rules ih =>
    have hh : ignored.any (fun i => i == r.name) = switchedOff r.name e := by
      rw [switchedOff_iff]
      rw [Bool.eq_iff_iff]
      simp only [List.any_eq_true]
      exact ⟨fun ⟨x, hx, h'⟩ => ⟨x, h.subset hx, h'⟩, fun ⟨x, hx, h'⟩ => ⟨x, h.symm.subset hx, h'⟩⟩
    simp only [List.flatMap_cons, hh, ih, List.filter_cons]
    cases switchedOff r.name e <;> simp

/-- The enclosing elements of an element are open. -/
def Open (e : Elem) : Prop := e.ancestors.all (fun a => !closed a) = true

theorem hidden_eq (e : Elem) (h : Open e) : hidden e = closed e := by
  unfold Open at h
  have : e.ancestors.any closed = false := by
    rw [List.all_eq_true] at h
    rw [List.any_eq_false]
    intro x hx; simpa using h x hx
  simp [hidden, Elem.chain, this]

/-- Everything inside of a closed element is hidden. -/
theorem hidden_of_closed (e c : Elem) (h : closed e = true) (hc : c ∈ e.descendants) :
    hidden c = true := by
  have := elemsAt_chain e.tree e.start e.path c hc
  exact List.any_eq_true.mpr ⟨e, this, h⟩

theorem child_ancestors (path : List Frame) (k : SyntaxKind) (start : Nat) :
    ∀ (ts before : List Tree) (pos : Nat) (c : Elem), c ∈ childElems path k start before pos ts →
      c.ancestors = (⟨.node k (before ++ ts), start, path⟩ : Elem).chain
  | [], _, _, _, h => by simp [childElems] at h
  | t :: ts, before, pos, c, h => by
    simp only [childElems, List.mem_cons] at h
    rcases h with h | h
    · subst h; rfl
    · have := child_ancestors path k start ts _ _ c h
      simpa using this

/-- Whitespace matters in an open element or below. -/
theorem touches_eq (e : Elem) (h : Open e) : touches e =
    (protectsWhitespace e.tree ||
      (!closed e && e.childrenWithTokens.any touches)) := by
  unfold touches
  rw [descendants_eq, List.any_cons]
  have h' : (e.ancestors.all fun a => !closed a) = true := h
  rw [h', Bool.and_true]
  congr 1
  rw [List.any_flatMap]
  cases hc : closed e with
  | false => rfl
  | true =>
    simp only [Bool.not_true, Bool.false_and]
    rw [List.any_eq_false]
    intro c hcm
    simp only [List.any_eq_true, not_exists, not_and]
    intro d hd hh
    simp only [Bool.and_eq_true, List.all_eq_true] at hh
    obtain ⟨k, cs, hk⟩ : ∃ k cs, e.tree = .node k cs := by
      cases ht : e.tree with
      | token k t => simp [Elem.childrenWithTokens, ht] at hcm
      | node k cs => exact ⟨k, cs, rfl⟩
    have hca : c.ancestors = e.chain := by
      obtain ⟨t, pos, path⟩ := e
      simp only at hk; subst hk
      have := child_ancestors path k pos cs [] pos c (by simpa [Elem.childrenWithTokens] using hcm)
      simpa using this
    have hcd : c ∈ d.chain := elemsAt_chain c.tree c.start c.path d hd
    have hed : e ∈ d.ancestors := by
      rcases List.mem_cons.mp hcd with h | h
      · subst h; rw [hca]; exact List.mem_cons_self
      · exact ancestors_trans (by rw [hca]; exact List.mem_cons_self) h
    have := hh.2 e hed
    simp [hc] at this

/-- What the loop does with an element whose ancestors are open: the state before and after. -/
def Step (config : Config) (rules : List Rule) (e : Elem) (s s' : RunState) : Prop :=
  s'.results = s.results ++
      (e.descendants.filter (fun c => !hidden c)).flatMap (findings config rules) ∧
    s'.ignored.Perm s.ignored ∧ s'.sensitive = (s.sensitive && !touches e)

theorem runLeave_ok (e : Elem) (s : RunState) (rest : List RuleName)
    (h : s.ignored.Perm ((precedingDirective e).getD [] ++ rest)) :
    ∃ l, runLeave e s = .ok { s with ignored := l, sensitive := !protectsWhitespace e.tree && s.sensitive } ∧
      l.Perm rest := by
  obtain ⟨l, hl, hr⟩ := removeIgnored_perm _ _ _ h
  refine ⟨l, ?_, hr⟩
  unfold runLeave
  rw [ignoreBefore_eq, hl, isSensitive_eq]
  simp only
  cases protectsWhitespace e.tree <;> rfl

theorem offNames_eq (e : Elem) : offNames e = (precedingDirective e).getD [] ++ offAbove e := by
  simp [offNames, offAbove, Elem.chain]

theorem runEnter_blanket (config : Config) (rules : List Rule) (e : Elem) (s : RunState)
    (h : precedingDirective e = some []) : runEnter config rules e s = .ok (s, true) := by
  unfold runEnter
  rw [ignoreBefore_eq, h]

theorem runEnter_open (config : Config) (rules : List Rule) (e : Elem) (s : RunState)
    (h : precedingDirective e ≠ some []) (he : nodeOf .ERROR e.tree = false)
    (ho : s.ignored.Perm (offAbove e)) (ht : s.sensitive = toldBefore e) :
    runEnter config rules e s = .ok ({
      results := s.results ++ findings config rules e
      ignored := s.ignored ++ (precedingDirective e).getD []
      sensitive := told e }, false) := by
  have hp : (s.ignored ++ (precedingDirective e).getD []).Perm (offNames e) := by
    rw [offNames_eq]
    exact (ho.append_right _).trans List.perm_append_comm
  unfold runEnter
  rw [ignoreBefore_eq]
  split
  · rename_i h'; exact absurd h' h
  · rw [isSensitive_eq, ht]
    simp only
    obtain ⟨t, pos, path⟩ := e
    cases t with
    | token k t =>
      simp only [Elem.isNode, Tree.isNode, Bool.false_eq_true, if_false]
      rw [runOn_eq _ _ _ hp]
      have hw : told ⟨.token k t, pos, path⟩ = toldBefore ⟨.token k t, pos, path⟩ := by
        rw [told_eq]; rfl
      simp only [findings, checkElem, hw]
    | node k cs =>
      have hk : (k == SyntaxKind.ERROR) = false := he
      simp only [Elem.isNode, Tree.isNode, if_true, Elem.kind, Tree.kind, hk, Bool.false_eq_true,
        if_false]
      rw [runOn_eq _ _ _ hp]
      have hw : (if protectsWhitespace (.node k cs) = true then true
          else toldBefore ⟨.node k cs, pos, path⟩) = told ⟨.node k cs, pos, path⟩ := by
        rw [told_eq]; cases protectsWhitespace (.node k cs) <;> simp
      rw [hw]
      rfl

theorem runEnter_error (config : Config) (rules : List Rule) (e : Elem) (s : RunState)
    (h : precedingDirective e ≠ some []) (he : nodeOf .ERROR e.tree = true) :
    runEnter config rules e s =
      .ok ({ s with ignored := s.ignored ++ (precedingDirective e).getD [] }, true) := by
  unfold runEnter
  rw [ignoreBefore_eq]
  split
  · rename_i h'; exact absurd h' h
  · obtain ⟨t, pos, path⟩ := e
    cases t with
    | token k t => simp [nodeOf] at he
    | node k cs =>
      have hk : (k == SyntaxKind.ERROR) = true := he
      simp only [Elem.isNode, Tree.isNode, if_true, Elem.kind, Tree.kind, hk]

/-- Nothing inside of a closed element is checked. -/
theorem filter_closed (e : Elem) (h : closed e = true) :
    e.descendants.filter (fun c => !hidden c) = [] := by
  rw [List.filter_eq_nil_iff]
  intro c hc
  simp [hidden_of_closed e c h hc]

/-- The loop on a closed element. -/
theorem closed_step (config : Config) (rules : List Rule) (e : Elem) (s : RunState)
    (hc : closed e = true) (hopen : Open e) :
    ∃ s₁ s', runEnter config rules e s = .ok (s₁, true) ∧ runLeave e s₁ = .ok s' ∧
      Step config rules e s s' := by
  have hte := touches_eq e hopen
  rw [hc] at hte
  simp only [Bool.not_true, Bool.false_and, Bool.or_false] at hte
  by_cases hb : precedingDirective e = some []
  · obtain ⟨l, hl, hp⟩ := runLeave_ok e s s.ignored (by rw [hb]; exact .refl _)
    refine ⟨s, _, runEnter_blanket config rules e s hb, hl, ?_, hp, ?_⟩
    · rw [filter_closed e hc]; simp
    · rw [hte]; simp [Bool.and_comm]
  · have he : nodeOf .ERROR e.tree = true := by
      unfold closed at hc
      rcases Bool.or_eq_true _ _ ▸ hc with h | h
      · exact h
      · exact absurd (by simpa using h) hb
    obtain ⟨l, hl, hp⟩ := runLeave_ok e
      { s with ignored := s.ignored ++ (precedingDirective e).getD [] } s.ignored
      List.perm_append_comm
    refine ⟨_, _, runEnter_error config rules e s hb he, hl, ?_, hp, ?_⟩
    · rw [filter_closed e hc]; simp
    · rw [hte]; simp [Bool.and_comm]

theorem open_parts (e : Elem) (hc : closed e = false) :
    precedingDirective e ≠ some [] ∧ nodeOf .ERROR e.tree = false := by
  unfold closed at hc
  rw [Bool.or_eq_false_iff] at hc
  exact ⟨by simpa using hc.2, hc.1⟩

theorem take_child (path : List Frame) (k : SyntaxKind) (start : Nat) (before : List Tree) (t : Tree)
    (ts : List Tree) :
    (childElems path k start [] start (before ++ t :: ts)).take (before.length + 1) =
      (childElems path k start [] start (before ++ t :: ts)).take before.length ++
        [⟨t, start + byteLen (before.flatMap (·.text)), ⟨k, start, before, ts⟩ :: path⟩] := by
  have h := childElems_append path k start before (t :: ts) [] start
  have hl : ((childElems path k start [] start (before ++ t :: ts)).take before.length).length =
      before.length := by
    rw [List.length_take, childElems_length]; simp
  generalize (childElems path k start [] start (before ++ t :: ts)).take before.length = q at h hl
  rw [h, ← hl]
  simp [childElems, List.take_append, List.take_of_length_le]

mutual
/-- The loop from entering to leaving an element. -/
theorem walkTree_step (config : Config) (rules : List Rule) : ∀ (t : Tree) (pos : Nat)
    (path : List Frame) (s : RunState), Open ⟨t, pos, path⟩ →
    s.ignored.Perm (offAbove ⟨t, pos, path⟩) → s.sensitive = toldBefore ⟨t, pos, path⟩ →
    ∃ s', walkTree (runVisitor config rules) t pos path s = .ok s' ∧
      Step config rules ⟨t, pos, path⟩ s s'
  | .token k t, pos, path, s, hopen, ho, ht => by
    cases hc : closed ⟨.token k t, pos, path⟩ with
    | true =>
      obtain ⟨s₁, s', h₁, h₂, h₃⟩ := closed_step config rules _ s hc hopen
      refine ⟨s', ?_, h₃⟩
      simp only [walkTree, runVisitor, h₁, h₂]
    | false =>
      obtain ⟨hb, he⟩ := open_parts _ hc
      have h₁ := runEnter_open config rules _ s hb he ho ht
      obtain ⟨l, hl, hp⟩ := runLeave_ok ⟨.token k t, pos, path⟩ { 
          results := s.results ++ findings config rules ⟨.token k t, pos, path⟩
          ignored := s.ignored ++ (precedingDirective ⟨.token k t, pos, path⟩).getD []
          sensitive := told ⟨.token k t, pos, path⟩ } s.ignored List.perm_append_comm
      refine ⟨_, Eq.trans ?_ hl, ?_, hp, ?_⟩
      · simp only [walkTree, runVisitor, h₁]
      · have : Elem.descendants ⟨.token k t, pos, path⟩ = [⟨.token k t, pos, path⟩] := rfl
        rw [this, List.filter_cons_of_pos (by rw [hidden_eq _ hopen, hc]; rfl)]
        simp
      · rw [touches_eq _ hopen, hc, told_eq, ht]
        simp [Elem.childrenWithTokens, protectsWhitespace]
  | .node k cs, pos, path, s, hopen, ho, ht => by
    cases hc : closed ⟨.node k cs, pos, path⟩ with
    | true =>
      obtain ⟨s₁, s', h₁, h₂, h₃⟩ := closed_step config rules _ s hc hopen
      refine ⟨s', ?_, h₃⟩
      simp only [walkTree, runVisitor, h₁, h₂, if_true]
    | false =>
      obtain ⟨hb, he⟩ := open_parts _ hc
      have h₁ := runEnter_open config rules _ s hb he ho ht
      obtain ⟨s₂, h₂, hres, hign, hsen⟩ := walkTrees_step config rules cs k pos [] pos path
        { results := s.results ++ findings config rules ⟨.node k cs, pos, path⟩
          ignored := s.ignored ++ (precedingDirective ⟨.node k cs, pos, path⟩).getD []
          sensitive := told ⟨.node k cs, pos, path⟩ } hc hopen
        (by rw [List.nil_append, offNames_eq]
            exact (ho.append_right _).trans List.perm_append_comm)
        (by simp) (by simp)
      obtain ⟨l, hl, hp⟩ := runLeave_ok ⟨.node k cs, pos, path⟩ s₂ s.ignored
        (hign.trans List.perm_append_comm)
      refine ⟨_, Eq.trans ?_ hl, ?_, hp, ?_⟩
      · simp only [walkTree]
        have h₁' : (runVisitor config rules).enter ⟨.node k cs, pos, path⟩ s = _ := h₁
        rw [h₁']
        simp only [Bool.false_eq_true, if_false, h₂]
        rfl
      · have : Elem.descendants ⟨.node k cs, pos, path⟩ =
          ⟨.node k cs, pos, path⟩ :: elemsIn cs k pos [] pos path := rfl
        rw [this, List.filter_cons_of_pos (by rw [hidden_eq _ hopen, hc]; rfl)]
        simp only [hres, List.flatMap_cons, List.append_assoc]
      · simp only [hsen]
        rw [touches_eq _ hopen, hc, told_eq, ht]
        have : (childElems path k pos [] pos cs).all (fun c => !touches c) =
            !(Elem.childrenWithTokens ⟨.node k cs, pos, path⟩).any touches := by
          simp only [Elem.childrenWithTokens]
          rw [Bool.eq_iff_iff]; simp
        rw [this]
        simp only
        cases protectsWhitespace (.node k cs) <;> simp
/-- The loop over the last children of an open node. -/
theorem walkTrees_step (config : Config) (rules : List Rule) : ∀ (ts : List Tree) (k : SyntaxKind)
    (start : Nat) (before : List Tree) (pos : Nat) (path : List Frame) (s : RunState),
    closed ⟨.node k (before ++ ts), start, path⟩ = false →
    Open ⟨.node k (before ++ ts), start, path⟩ →
    s.ignored.Perm (offNames ⟨.node k (before ++ ts), start, path⟩) →
    s.sensitive = (told ⟨.node k (before ++ ts), start, path⟩ &&
      ((childElems path k start [] start (before ++ ts)).take before.length).all
        (fun b => !touches b)) →
    pos = start + byteLen (before.flatMap (·.text)) →
    ∃ s', walkTrees (runVisitor config rules) ts k start before pos path s = .ok s' ∧
      s'.results = s.results ++
        ((elemsIn ts k start before pos path).filter (fun c => !hidden c)).flatMap
          (findings config rules) ∧
      s'.ignored.Perm s.ignored ∧
      s'.sensitive = (s.sensitive &&
        (childElems path k start before pos ts).all (fun c => !touches c))
  | [], k, start, before, pos, path, s, _, _, _, _, _ =>
    ⟨s, rfl, by simp [elemsIn], .refl _, by simp [childElems]⟩
  | t :: ts, k, start, before, pos, path, s, hc, hopen, ho, ht, hpos => by
    obtain ⟨s₁, h₁, hr₁, hi₁, hs₁⟩ := walkTree_step config rules t pos
      (⟨k, start, before, ts⟩ :: path) s
      (by
        unfold Open at hopen ⊢
        rw [ancestors_cons, List.all_cons, hc]
        simpa using hopen) ho ht
    have hb : before ++ [t] ++ ts = before ++ t :: ts := by simp
    obtain ⟨s₂, h₂, hr₂, hi₂, hs₂⟩ := walkTrees_step config rules ts k start (before ++ [t])
      (pos + byteLen t.text) path s₁ (by rw [hb]; exact hc) (by rw [hb]; exact hopen)
      (by rw [hb]; exact hi₁.trans ho)
      (by
        rw [hb, hs₁, ht, List.length_append, List.length_singleton, take_child, List.all_append,
          ← hpos]
        simp [Bool.and_assoc])
      (by rw [hpos]; simp [byteLen_append, Nat.add_assoc])
    refine ⟨s₂, ?_, ?_, hi₂.trans hi₁, ?_⟩
    · simp only [walkTrees, h₁, h₂]
    · rw [hr₂, hr₁]
      simp only [elemsIn, List.filter_append, List.flatMap_append, List.append_assoc]
      rfl
    · rw [hs₂, hs₁]
      simp only [childElems, List.all_cons, Bool.and_assoc]
end

/-- The loop of `run_rules` over a whole tree. -/
theorem runLoop (config : Config) (rules : List Rule) (root : Tree) (results : List CheckResult) :
    (Elem.root root).walk (runVisitor config rules) ⟨results, [], false⟩ =
      .ok ⟨results ++ specResults config rules root, [], false⟩ := by
  obtain ⟨⟨res, ign, sen⟩, h, hr, hi, hs⟩ := walkTree_step config rules root 0 []
    ⟨results, [], false⟩ rfl (.refl _) rfl
  simp only [List.perm_nil, Bool.false_and] at hr hi hs
  subst hi hs hr
  exact h

end Rules
end Ludtwig
