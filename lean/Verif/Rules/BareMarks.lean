import Verif.Rules.LineStarts
import Verif.Layout.Main

/-!
# What does not depend on the layout

Elements without whitespace and line breaks. What the rules for the layout ask about the elements
around a token is the same in all trees that differ in whitespace and line breaks only.
-/

namespace Ludtwig.Rules

open Cli Shape Layout

/-! ## Elements without whitespace -/

/-- A tree without the whitespace inside of it. -/
def bareTree : Tree → Tree
  | .token k t => .token k t
  | .node k cs => .node k (bareAll cs)

/-- A place without whitespace. -/
def bareFrame (f : Frame) : Frame := ⟨f.kind, 0, bareAll f.before, bareAll f.after⟩

/-- An element without whitespace in and around it. -/
def bareElem (e : Elem) : Elem := ⟨bareTree e.tree, 0, e.path.map bareFrame⟩

/-- Is the element no whitespace and no line break? -/
def solid (e : Elem) : Bool := !triviaTree e.tree

theorem bare_eq (t : Tree) : bare t = if triviaTree t then [] else [bareTree t] := by
  cases t with
  | token k x => rfl
  | node k cs => rfl

theorem bare_solid {t : Tree} (h : triviaTree t = false) : bare t = [bareTree t] := by
  rw [bare_eq, h]; rfl

mutual
theorem bareTree_idem : ∀ t : Tree, bareTree (bareTree t) = bareTree t
  | .token k x => rfl
  | .node k cs => by show Tree.node k _ = _; rw [bareAll_idem cs]; rfl
theorem bareAll_idem : ∀ ts : List Tree, bareAll (bareAll ts) = bareAll ts
  | [] => rfl
  | t :: ts => by
    rw [bareAll, bareAll_append, bareAll_idem ts, bare_eq t]
    split
    · rfl
    · rename_i h
      have h' : triviaTree (bareTree t) = false := by
        cases t with
        | token k x => simpa [bareTree] using h
        | node k cs => rfl
      simp only [bareAll, bare_solid h', bareTree_idem t, List.append_nil]
end

theorem bareFrame_idem (f : Frame) : bareFrame (bareFrame f) = bareFrame f := by
  simp [bareFrame, bareAll_idem]

theorem bareElem_idem (e : Elem) : bareElem (bareElem e) = bareElem e := by
  simp [bareElem, bareTree_idem, bareFrame_idem]

theorem trivia_bareTree (t : Tree) : triviaTree (bareTree t) = triviaTree t := by
  cases t <;> rfl

theorem isNode_bareTree (t : Tree) : (bareTree t).isNode = t.isNode := by
  cases t <;> rfl

theorem solid_node {e : Elem} (h : e.isNode = true) : solid e = true := by
  obtain ⟨t, pos, path⟩ := e
  cases t with
  | token k x => cases h
  | node k cs => rfl

theorem bareAll_mid (b a : List Tree) {t : Tree} (h : triviaTree t = false) :
    bareAll (b ++ t :: a) = bareAll b ++ bareTree t :: bareAll a := by
  rw [bareAll_append, bareAll, bare_solid h]; rfl

theorem bareAll_one {t : Tree} (h : triviaTree t = false) : bareAll [t] = [bareTree t] := by
  rw [bareAll, bare_solid h]; rfl

theorem bare_ancestors : ∀ (path : List Frame) (t : Tree), triviaTree t = false →
    ancestorsFrom (bareTree t) (path.map bareFrame) = (ancestorsFrom t path).map bareElem
  | [], _, _ => rfl
  | f :: fs, t, h => by
    have hb : (Tree.node f.kind (bareAll f.before ++ bareTree t :: bareAll f.after)) =
        bareTree (.node f.kind (f.before ++ t :: f.after)) := by
      show _ = Tree.node _ _
      rw [bareAll_mid _ _ h]
    simp only [List.map_cons, ancestorsFrom]
    congr 1
    · show (⟨Tree.node f.kind (bareAll f.before ++ bareTree t :: bareAll f.after), 0, _⟩ : Elem) = _
      rw [hb]; rfl
    · show ancestorsFrom (Tree.node f.kind (bareAll f.before ++ bareTree t :: bareAll f.after)) _ = _
      rw [hb]
      exact bare_ancestors fs _ rfl

theorem bareElem_ancestors {e : Elem} (h : solid e = true) :
    (bareElem e).ancestors = e.ancestors.map bareElem :=
  bare_ancestors e.path e.tree (by simpa [solid] using h)

/-- The elements of a list that are no whitespace, without whitespace. -/
def bareElems (l : List Elem) : List Elem := (l.filter solid).map bareElem

theorem bareElems_append (a b : List Elem) : bareElems (a ++ b) = bareElems a ++ bareElems b := by
  simp [bareElems]

theorem bareElems_cons_solid {e : Elem} (h : solid e = true) (l : List Elem) :
    bareElems (e :: l) = bareElem e :: bareElems l := by
  simp [bareElems, h]

theorem bareElems_cons_trivia {e : Elem} (h : solid e = false) (l : List Elem) :
    bareElems (e :: l) = bareElems l := by
  simp [bareElems, h]

mutual
theorem bare_elemsAt : ∀ (t : Tree) (pos pos' : Nat) (path path' : List Frame),
    path.map bareFrame = path'.map bareFrame → triviaTree t = false →
    bareElems (elemsAt t pos path) = bareElems (elemsAt (bareTree t) pos' path')
  | .token k x, pos, pos', path, path', hp, h => by
    have h1 : solid ⟨.token k x, pos, path⟩ = true := by simp [solid, h]
    have h2 : solid ⟨.token k x, pos', path'⟩ = true := by simp [solid, h]
    simp only [elemsAt, bareTree, bareElems_cons_solid h1, bareElems_cons_solid h2]
    simp only [bareElem, hp]
  | .node k cs, pos, pos', path, path', hp, h => by
    have h1 : solid ⟨.node k cs, pos, path⟩ = true := rfl
    have h2 : solid ⟨.node k (bareAll cs), pos', path'⟩ = true := rfl
    simp only [elemsAt, bareTree, bareElems_cons_solid h1, bareElems_cons_solid h2]
    congr 1
    · simp only [bareElem, hp, bareTree, bareAll_idem]
    · exact bare_elemsIn cs k pos pos' [] [] pos pos' path path' hp rfl
theorem bare_elemsIn : ∀ (ts : List Tree) (k : SyntaxKind) (start start' : Nat) (bef bef' : List Tree)
    (pos pos' : Nat) (path path' : List Frame), path.map bareFrame = path'.map bareFrame →
    bareAll bef = bareAll bef' →
    bareElems (elemsIn ts k start bef pos path) =
      bareElems (elemsIn (bareAll ts) k start' bef' pos' path')
  | [], k, start, start', bef, bef', pos, pos', path, path', hp, hb => rfl
  | t :: ts, k, start, start', bef, bef', pos, pos', path, path', hp, hb => by
    cases ht : triviaTree t with
    | true =>
      have h0 : bare t = [] := by rw [bare_eq, ht]; rfl
      rw [elemsIn, bareElems_append, bareAll, h0, List.nil_append]
      have h1 : bareElems (elemsAt t pos (⟨k, start, bef, ts⟩ :: path)) = [] := by
        cases t with
        | token k x =>
          have : solid ⟨.token k x, pos, ⟨k, start, bef, ts⟩ :: path⟩ = false := by
            simp [solid, ht]
          simp only [elemsAt]
          exact bareElems_cons_trivia (by simp [solid, ht]) _
        | node k cs => cases ht
      rw [h1, List.nil_append]
      exact bare_elemsIn ts k start start' (bef ++ [t]) bef' _ _ path path' hp
        (by rw [bareAll_append, bareAll, h0, bareAll, List.append_nil, List.append_nil, hb])
    | false =>
      rw [elemsIn, bareElems_append, bareAll, bare_solid ht, List.singleton_append, elemsIn, bareElems_append]
      congr 1
      · exact bare_elemsAt t _ _ _ _ (by simp [bareFrame, hb, hp, bareAll_idem]) ht
      · refine bare_elemsIn ts k start start' (bef ++ [t]) (bef' ++ [bareTree t]) _ _ path path' hp ?_
        rw [bareAll_append, bareAll_append, hb, bareAll_one ht,
          bareAll_one (by rw [trivia_bareTree]; exact ht), bareTree_idem]
end

theorem bare_siblings : ∀ (ts : List Tree) (k : SyntaxKind) (start start' : Nat) (bef bef' : List Tree)
    (pos pos' : Nat) (path path' : List Frame) (rest rest' : List Tree),
    path.map bareFrame = path'.map bareFrame → bareAll bef = bareAll bef' →
    bareAll rest = bareAll rest' →
    bareElems ((childElems path k start bef pos (ts ++ rest)).take ts.length) =
      bareElems ((childElems path' k start' bef' pos' (bareAll ts ++ rest')).take (bareAll ts).length)
  | [], k, start, start', bef, bef', pos, pos', path, path', rest, rest', hp, hb, hr => rfl
  | t :: ts, k, start, start', bef, bef', pos, pos', path, path', rest, rest', hp, hb, hr => by
    simp only [List.cons_append, childElems, List.length_cons, List.take_succ_cons]
    cases ht : triviaTree t with
    | true =>
      have h0 : bare t = [] := by rw [bare_eq, ht]; rfl
      rw [bareElems_cons_trivia (by simp [solid, ht]), bareAll, h0, List.nil_append]
      exact bare_siblings ts k start start' (bef ++ [t]) bef' _ _ path path' rest rest' hp
        (by rw [bareAll_append, bareAll, h0, bareAll, List.append_nil, List.append_nil, hb]) hr
    | false =>
      rw [bareElems_cons_solid (by simp [solid, ht]), bareAll, bare_solid ht]
      simp only [List.cons_append, List.nil_append, childElems, List.length_cons, List.take_succ_cons]
      rw [bareElems_cons_solid (by simp [solid, trivia_bareTree, ht])]
      congr 1
      · simp only [bareElem, bareTree_idem, List.map_cons, hp, bareFrame, hb, bareAll_append, hr,
          bareAll_idem]
      · refine bare_siblings ts k start start' (bef ++ [t]) (bef' ++ [bareTree t]) _ _ path path' rest
          rest' hp ?_ hr
        rw [bareAll_append, bareAll_append, hb, bareAll_one ht,
          bareAll_one (by rw [trivia_bareTree]; exact ht), bareTree_idem]

theorem bare_descendants {e : Elem} (h : solid e = true) :
    bareElems e.descendants = bareElems (bareElem e).descendants :=
  bare_elemsAt e.tree _ _ _ _ (by simp [bareElem, bareFrame_idem]) (by simpa [solid] using h)

theorem bareElem_siblings {e : Elem} (h : solid e = true) :
    bareElems e.siblingsBefore = bareElems (bareElem e).siblingsBefore := by
  obtain ⟨t, pos, path⟩ := e
  have ht : triviaTree t = false := by simpa [solid] using h
  cases path with
  | nil => rfl
  | cons f fs =>
    refine bare_siblings f.before f.kind f.start 0 [] [] f.start 0 fs (fs.map bareFrame) _ _
      (by simp [bareFrame_idem]) rfl ?_
    show bareAll (t :: f.after) = bareAll (bareTree t :: bareAll f.after)
    rw [bareAll, bareAll, bare_solid ht, bare_solid (by rw [trivia_bareTree]; exact ht), bareTree_idem,
      bareAll_idem]

/-! ## What is the same without whitespace -/

/-- A question about elements that has the same answer without whitespace. -/
def Blind {α : Type} (p : Elem → α) : Prop := ∀ e, solid e = true → p (bareElem e) = p e

theorem Blind.same {α : Type} {p : Elem → α} (h : Blind p) {a b : Elem} (ha : solid a = true)
    (hb : solid b = true) (hab : bareElem a = bareElem b) : p a = p b := by
  rw [← h a ha, ← h b hb, hab]

theorem ancestors_solid {e a : Elem} (h : a ∈ e.ancestors) : solid a = true := by
  obtain ⟨t, pos, path⟩ := e
  induction path generalizing t pos with
  | nil => cases h
  | cons f fs ih =>
    rw [ancestors_cons] at h
    rcases List.mem_cons.1 h with rfl | h
    · rfl
    · exact ih _ _ h

theorem Blind.all {p : Elem → Bool} (h : Blind p) : Blind (fun e => e.ancestors.all p) := by
  intro e he
  dsimp only
  rw [bareElem_ancestors he, List.all_map]
  rw [Bool.eq_iff_iff, List.all_eq_true, List.all_eq_true]
  exact ⟨fun g a ha => (by rw [← h a (ancestors_solid ha)]; exact g a ha),
    fun g a ha => (by show p (bareElem a) = true; rw [h a (ancestors_solid ha)]; exact g a ha)⟩

theorem Blind.any {p : Elem → Bool} (h : Blind p) : Blind (fun e => e.ancestors.any p) := by
  intro e he
  dsimp only
  rw [bareElem_ancestors he, List.any_map]
  rw [Bool.eq_iff_iff, List.any_eq_true, List.any_eq_true]
  exact ⟨fun ⟨a, ha, g⟩ => ⟨a, ha, (by rw [← h a (ancestors_solid ha)]; exact g)⟩,
    fun ⟨a, ha, g⟩ => ⟨a, ha, (by show p (bareElem a) = true; rw [h a (ancestors_solid ha)]; exact g)⟩⟩

theorem map_ancestors {α : Type} {p : Elem → α} (h : Blind p) {e : Elem} (he : solid e = true) :
    (bareElem e).ancestors.map p = e.ancestors.map p := by
  rw [bareElem_ancestors he, List.map_map]
  exact List.map_congr_left (fun a ha => h a (ancestors_solid ha))

theorem any_bareElems {p : Elem → Bool} (h : Blind p) (hp : ∀ e, solid e = false → p e = false)
    (l : List Elem) : l.any p = (bareElems l).any p := by
  induction l with
  | nil => rfl
  | cons e l ih =>
    cases he : solid e with
    | true => rw [bareElems_cons_solid he, List.any_cons, List.any_cons, ih, h e he]
    | false => rw [bareElems_cons_trivia he, List.any_cons, ih, hp e he, Bool.false_or]

theorem token_of_trivia {e : Elem} (h : solid e = false) : e.isNode = false := by
  cases hn : e.isNode with
  | false => rfl
  | true => rw [solid_node hn] at h; cases h

theorem blind_touches {closed p : Elem → Bool} (hc : Blind closed) (hp : Blind p)
    (ht : ∀ e : Elem, e.isNode = false → p e = false) : Blind (touchesBy closed p) := by
  intro e he
  have hq : Blind (fun c => p c && c.ancestors.all (fun a => !closed a)) := by
    intro c h
    dsimp only
    rw [hp c h]
    congr 1
    exact Blind.all (p := fun a => !closed a) (fun a ha => congrArg not (hc a ha)) c h
  have h0 : ∀ c : Elem, solid c = false → (p c && c.ancestors.all (fun a => !closed a)) = false := by
    intro c h
    rw [ht c (token_of_trivia h)]; rfl
  unfold touchesBy
  rw [any_bareElems hq h0 e.descendants, any_bareElems hq h0 (bareElem e).descendants,
    ← bare_descendants he]

theorem touches_token {closed p : Elem → Bool} (ht : ∀ e : Elem, e.isNode = false → p e = false)
    {e : Elem} (h : e.isNode = false) : touchesBy closed p e = false := by
  unfold touchesBy
  obtain ⟨t, pos, path⟩ := e
  cases t with
  | node k cs => cases h
  | token k x =>
    have : Elem.descendants ⟨.token k x, pos, path⟩ = [⟨.token k x, pos, path⟩] := rfl
    rw [this, List.any_cons, ht _ h]; rfl

theorem blind_flag {closed p : Elem → Bool} (hc : Blind closed) (hp : Blind p)
    (ht : ∀ e : Elem, e.isNode = false → p e = false) : Blind (flagAt closed p) := by
  have key : ∀ (path : List Frame) (t : Tree) (pos pos' : Nat), triviaTree t = false →
      flagFrom closed p (bareTree t) pos' (path.map bareFrame) = flagFrom closed p t pos path := by
    intro path
    induction path with
    | nil =>
      intro t pos pos' h
      show p ⟨bareTree t, pos', []⟩ = p ⟨t, pos, []⟩
      rw [← hp ⟨t, pos, []⟩ (by simp [solid, h]), ← hp ⟨bareTree t, pos', []⟩ (by simp [solid, trivia_bareTree, h])]
      simp [bareElem, bareTree_idem]
    | cons f fs ih =>
      intro t pos pos' h
      have hs : solid ⟨t, pos, f :: fs⟩ = true := by simp [solid, h]
      have hs' : solid ⟨bareTree t, pos', bareFrame f :: fs.map bareFrame⟩ = true := by
        simp [solid, trivia_bareTree, h]
      simp only [List.map_cons, flagFrom]
      have e1 : p ⟨bareTree t, pos', bareFrame f :: fs.map bareFrame⟩ = p ⟨t, pos, f :: fs⟩ := by
        refine hp.same hs' hs ?_
        simp [bareElem, bareTree_idem, bareFrame_idem]
      have e2 : Tree.node (bareFrame f).kind ((bareFrame f).before ++ bareTree t :: (bareFrame f).after) =
          bareTree (.node f.kind (f.before ++ t :: f.after)) := by
        show _ = Tree.node _ _
        rw [bareAll_mid _ _ h]; rfl
      rw [e1, e2, ih _ f.start _ rfl]
      congr 2
      have hall : ∀ l : List Elem, l.all (fun b => !touchesBy closed p b) = !(l.any (touchesBy closed p)) := by
        intro l; simp [List.not_any_eq_all_not]
      have hany := any_bareElems (blind_touches hc hp ht)
        (fun e he => touches_token ht (token_of_trivia he))
      rw [hall, hall, hany (Elem.siblingsBefore ⟨t, pos, f :: fs⟩), hany]
      congr 2
      have := bareElem_siblings hs
      rw [this]
      rfl
  intro e he
  exact key e.path e.tree e.start 0 (by simpa [solid] using he)

/-! ## The questions of the rules -/

theorem filter_bare {p : Tree → Bool} (hp : ∀ t, triviaTree t = true → p t = false)
    (hb : ∀ t, p (bareTree t) = p t) (l : List Tree) :
    (bareAll l).filter p = (l.filter p).map bareTree := by
  induction l with
  | nil => rfl
  | cons t l ih =>
    cases ht : triviaTree t with
    | true =>
      rw [bareAll, bare_eq, ht, if_pos rfl, List.nil_append, List.filter_cons_of_neg (by simp [hp t ht]), ih]
    | false =>
      rw [bareAll, bare_solid ht, List.singleton_append, List.filter_cons, List.filter_cons, hb t, ih]
      split <;> rfl

theorem find_bare {p : Tree → Bool} (hp : ∀ t, triviaTree t = true → p t = false)
    (hb : ∀ t, p (bareTree t) = p t) (l : List Tree) :
    (bareAll l).find? p = (l.find? p).map bareTree := by
  rw [← List.head?_filter, ← List.head?_filter, filter_bare hp hb, List.head?_map]

theorem nodeOf_bare (k : SyntaxKind) (t : Tree) : nodeOf k (bareTree t) = nodeOf k t := by
  cases t <;> rfl

theorem nodeOf_trivia (k : SyntaxKind) {t : Tree} (h : triviaTree t = true) : nodeOf k t = false := by
  cases t with
  | token => rfl
  | node => cases h

theorem tokenOf_bare (ks : List SyntaxKind) (t : Tree) : tokenOf ks (bareTree t) = tokenOf ks t := by
  cases t <;> rfl

theorem tokenOf_trivia {ks : List SyntaxKind} (hk : ∀ k ∈ ks, k.isTrivia = false) {t : Tree}
    (h : triviaTree t = true) : tokenOf ks t = false := by
  cases t with
  | node => rfl
  | token k x =>
    cases hc : tokenOf ks (.token k x) with
    | false => rfl
    | true =>
      have := hk k (by simpa [tokenOf] using hc)
      have h : k.isTrivia = true := h
      rw [this] at h; cases h

theorem bareTree_token {ks : List SyntaxKind} {t : Tree} (h : tokenOf ks t = true) : bareTree t = t := by
  cases t with
  | token => rfl
  | node => cases h

theorem names_bare (cs : List Tree) : directiveNames (bareAll cs) = directiveNames cs := by
  unfold directiveNames
  rw [find_bare (fun t h => nodeOf_trivia _ h) (nodeOf_bare _)]
  cases cs.find? (nodeOf .LUDTWIG_DIRECTIVE_RULE_LIST) with
  | none => rfl
  | some t =>
    cases t with
    | token k x => rfl
    | node k ws =>
      show ((bareAll ws).filter (tokenOf [.TK_WORD])).map (·.text) = (ws.filter (tokenOf [.TK_WORD])).map (·.text)
      rw [filter_bare (fun t h => tokenOf_trivia (by decide) h) (tokenOf_bare _), List.map_map]
      refine List.map_congr_left (fun t ht => ?_)
      show (bareTree t).text = t.text
      rw [bareTree_token (List.mem_filter.1 ht).2]

theorem blind_directiveAbove : Blind directiveAbove := by
  intro e _
  obtain ⟨t, pos, path⟩ := e
  cases path with
  | nil => rfl
  | cons f fs =>
    unfold directiveAbove
    simp only [bareElem, List.map_cons]
    have h1 : (bareFrame f).before.filter Tree.isNode = (f.before.filter Tree.isNode).map bareTree :=
      filter_bare (fun t h => (by cases t with | token => rfl | node => cases h)) isNode_bareTree _
    rw [h1, List.getLast?_map]
    cases (f.before.filter Tree.isNode).getLast? with
    | none => rfl
    | some x =>
      cases x with
      | token k x => rfl
      | node k cs =>
        by_cases hk : k = .LUDTWIG_DIRECTIVE_IGNORE
        · subst hk
          show some (directiveNames (bareAll cs)) = some (directiveNames cs)
          rw [names_bare]
        · simp only [Option.map_some, bareTree]
          split
          · rename_i h; cases h; exact absurd rfl hk
          · split
            · rename_i h; cases h; exact absurd rfl hk
            · rfl

theorem blind_skipped : Blind skipped := by
  intro e he
  unfold skipped
  rw [blind_directiveAbove e he]
  show ((bareTree e.tree).isNode && (nodeOf .ERROR (bareTree e.tree) || _)) = _
  rw [isNode_bareTree, nodeOf_bare]

theorem blind_switchesOff (name : RuleName) : Blind (switchesOff name) := by
  intro e he
  unfold switchesOff
  rw [blind_directiveAbove e he]
  show ((bareTree e.tree).isNode && _) = _
  rw [isNode_bareTree]

theorem protects_bare (t : Tree) : protectsWhitespace (bareTree t) = protectsWhitespace t := by
  cases t with
  | token k x => rfl
  | node k cs =>
    by_cases hk : k = .HTML_TAG
    · subst hk
      show (match (bareAll cs).find? (nodeOf .HTML_STARTING_TAG) with
        | some (.node _ parts) =>
          match parts.find? (tokenOf [.TK_WORD, .TK_TWIG_COMPONENT_NAME]) with
          | some (.token _ name) => _
          | _ => false
        | _ => false) = (match cs.find? (nodeOf .HTML_STARTING_TAG) with
        | some (.node _ parts) =>
          match parts.find? (tokenOf [.TK_WORD, .TK_TWIG_COMPONENT_NAME]) with
          | some (.token _ name) => _
          | _ => false
        | _ => false)
      rw [find_bare (fun t h => nodeOf_trivia _ h) (nodeOf_bare _)]
      cases cs.find? (nodeOf .HTML_STARTING_TAG) with
      | none => rfl
      | some x =>
        cases x with
        | token k x => rfl
        | node k parts =>
          simp only [Option.map_some, bareTree]
          rw [find_bare (fun t h => tokenOf_trivia (by decide) h) (tokenOf_bare _)]
          cases parts.find? (tokenOf [.TK_WORD, .TK_TWIG_COMPONENT_NAME]) with
          | none => rfl
          | some y => cases y <;> rfl
    · cases k <;> first | rfl | exact absurd rfl hk

theorem blind_sensitive : Blind sensitiveTag := by
  intro e _
  unfold sensitiveTag
  show (nodeOf .HTML_TAG (bareTree e.tree) && protectsWhitespace (bareTree e.tree)) = _
  rw [nodeOf_bare, protects_bare]

theorem blind_indents (config : Config) : Blind (indents config) := by
  intro e _
  obtain ⟨t, pos, path⟩ := e
  unfold indents
  congr 1
  · cases t with
    | token k x => rfl
    | node k cs => cases k <;> rfl
  · cases path <;> rfl

theorem blind_alignment : Blind alignment := by
  intro e he
  obtain ⟨t, pos, path⟩ := e
  cases t with
  | token k x => rfl
  | node k cs =>
    by_cases hk : k = .HTML_ATTRIBUTE_LIST
    · subst hk
      cases path with
      | nil => rfl
      | cons f fs =>
        show (if f.kind == .HTML_STARTING_TAG then
          match (bareAll f.before ++ bareTree (.node .HTML_ATTRIBUTE_LIST cs) :: bareAll f.after).find?
              (tokenOf [.TK_WORD, .TK_TWIG_COMPONENT_NAME]) with
          | some name => name.text.length + 2
          | none => 0
          else 0) = (if f.kind == .HTML_STARTING_TAG then
          match (f.before ++ .node .HTML_ATTRIBUTE_LIST cs :: f.after).find?
              (tokenOf [.TK_WORD, .TK_TWIG_COMPONENT_NAME]) with
          | some name => name.text.length + 2
          | none => 0
          else 0)
        rw [← bareAll_mid _ _ (t := .node .HTML_ATTRIBUTE_LIST cs) rfl,
          find_bare (fun t h => tokenOf_trivia (by decide) h) (tokenOf_bare _)]
        cases hf : (f.before ++ .node .HTML_ATTRIBUTE_LIST cs :: f.after).find?
            (tokenOf [.TK_WORD, .TK_TWIG_COMPONENT_NAME]) with
        | none => rfl
        | some name =>
          rw [Option.map_some, bareTree_token (List.find?_some hf)]
    · cases k <;> first | rfl | exact absurd rfl hk

/-- Is a tree a directive that switches off the rule for blank lines? -/
def mutes : Option Tree → Bool
  | some (.node .LUDTWIG_DIRECTIVE_IGNORE children) =>
    directiveNames children == [] ||
      (directiveNames children).contains "whitespace-between-line-breaks".toList
  | _ => false

/-- Is such a directive before an element, apart from whitespace? -/
def muted (e : Elem) : Bool :=
  match e.path with
  | [] => false
  | f :: _ => mutes (bareAll f.before).getLast?

/-- Is a tree the content of a string with such a directive at its end? -/
def stringMutes : Option Tree → Bool
  | some (.node .HTML_STRING_INNER ds) => mutes (bareAll ds).getLast?
  | _ => false

/-- Is the content of a string before an element, with such a directive at its end? -/
def behindString (e : Elem) : Bool :=
  match e.path with
  | [] => false
  | f :: _ => stringMutes (bareAll f.before).getLast?

theorem blind_muted : Blind muted := by
  intro e _
  obtain ⟨t, pos, path⟩ := e
  cases path with
  | nil => rfl
  | cons f fs =>
    show mutes (bareAll (bareAll f.before)).getLast? = _
    rw [bareAll_idem]
    rfl

theorem blind_behindString : Blind behindString := by
  intro e _
  obtain ⟨t, pos, path⟩ := e
  cases path with
  | nil => rfl
  | cons f fs =>
    show stringMutes (bareAll (bareAll f.before)).getLast? = _
    rw [bareAll_idem]
    rfl

theorem mem_bareAll {t : Tree} : ∀ {l : List Tree}, t ∈ bareAll l → ∃ t' ∈ l, triviaTree t' = false ∧ t = bareTree t'
  | a :: l, h => by
    rw [bareAll, List.mem_append] at h
    rcases h with h | h
    · rw [bare_eq] at h
      split at h
      · cases h
      · rename_i ha
        exact ⟨a, List.mem_cons_self, by simpa using ha, by simpa using h⟩
    · obtain ⟨t', h1, h2⟩ := mem_bareAll h
      exact ⟨t', List.mem_cons_of_mem _ h1, h2⟩

/-! ## Marks -/

/-- All that the rules for the layout ask about the place of a token. -/
structure Mark where
  seen : Bool
  off : Bool
  level : Nat
  align : Nat
  mute : Bool
  own : Bool

/-- The mark of a token. -/
def markOf (config : Config) (e : Elem) : Mark :=
  ⟨e.ancestors.all (fun a => !skipped a), indentOff e, levelOf config e, alignmentOf e,
    e.ancestors.any muted, muted e || behindString e⟩

theorem blind_mark (config : Config) : Blind (markOf config) := by
  intro e he
  have h1 := Blind.all (p := fun a => !skipped a) (fun a ha => congrArg not (blind_skipped a ha)) e he
  have h2 : indentOff (bareElem e) = indentOff e := by
    unfold indentOff
    have ho : Blind offHere := blind_switchesOff _
    rw [blind_flag blind_skipped ho (fun e h => offHere_token h) e he,
      blind_flag blind_skipped blind_sensitive (fun e h => (indents_token (config := config) h).2.2) e he]
  have h3 : levelOf config (bareElem e) = levelOf config e := by
    unfold levelOf
    rw [← List.countP_eq_length_filter, ← List.countP_eq_length_filter, bareElem_ancestors he,
      List.countP_map]
    refine List.countP_congr (fun a ha => ?_)
    show indents config (bareElem a) = true ↔ _
    rw [blind_indents config a (ancestors_solid ha)]
  have h4 : alignmentOf (bareElem e) = alignmentOf e := by
    unfold alignmentOf
    rw [map_ancestors blind_alignment he]
  have h5 := Blind.any blind_muted e he
  have h6 := blind_muted e he
  have h7 := blind_behindString e he
  dsimp only at h1 h5
  unfold markOf
  rw [h1, h2, h3, h4, h5, h6, h7]

end Ludtwig.Rules
