import Verif.Rules.BreakGaps
import Verif.Rules.BlankMarks

/-!
# Where line breaks belong does not depend on whitespace
-/

namespace Ludtwig.Rules

open Cli Lexer Layout Shape

/-! ## Directives -/

/-- The rule names of a directive. -/
def directiveOf : Option Tree → Option (List RuleName)
  | some (.node .LUDTWIG_DIRECTIVE_IGNORE children) => some (directiveNames children)
  | _ => none

/-- The directive before an element, apart from whitespace. -/
def blindDirective (e : Elem) : Option (List RuleName) :=
  match e.path with
  | [] => none
  | f :: _ => directiveOf (bareAll f.before).getLast?

theorem preceding_eq (e : Elem) : precedingDirective e =
    match e.path with
    | [] => none
    | f :: _ => directiveOf f.before.getLast? := by
  unfold precedingDirective
  cases e.path with
  | nil => rfl
  | cons f fs =>
    dsimp only
    unfold directiveOf
    split
    · rename_i heq; rw [heq]
    · rename_i hno
      split
      · rename_i cs heq; exact absurd heq (hno cs)
      · rfl

theorem blind_blindDirective : Blind blindDirective := by
  intro e _
  obtain ⟨t, pos, path⟩ := e
  cases path with
  | nil => rfl
  | cons f fs =>
    show directiveOf (bareAll (bareAll f.before)).getLast? = _
    rw [bareAll_idem]
    rfl

theorem directiveOf_bare (t : Tree) : directiveOf (some (bareTree t)) = directiveOf (some t) := by
  cases t with
  | token k x => rfl
  | node k cs =>
    by_cases hk : k = .LUDTWIG_DIRECTIVE_IGNORE
    · subst hk
      show some (directiveNames (bareAll cs)) = some (directiveNames cs)
      rw [names_bare]
    · show directiveOf (some (.node k (bareAll cs))) = _
      unfold directiveOf
      split
      · rename_i heq; cases heq; exact absurd rfl hk
      · split
        · rename_i heq; cases heq; exact absurd rfl hk
        · rfl

theorem directiveOf_none {o : Option Tree} (h : ∀ t ∈ o, nodeOf .LUDTWIG_DIRECTIVE_IGNORE t = false) :
    directiveOf o = none := by
  unfold directiveOf
  split
  · have := h _ rfl
    cases this
  · rfl

theorem mentions_interpolation (k : SyntaxKind)
    (h : (production k).mentions ⟨true, .TWIG_LITERAL_STRING_INTERPOLATION⟩ = true) :
    k = .TWIG_LITERAL_STRING_INNER := by
  cases k <;> first | rfl | cases h

/-- Whitespace is never between a directive and a node. -/
theorem directive_now {root : Tree} (h : Fine root) {e : Elem} (hin : Elem.In root e) (hn : e.isNode = true) :
    precedingDirective e = blindDirective e := by
  rw [preceding_eq]
  unfold blindDirective
  obtain ⟨t, pos, path⟩ := e
  cases t with
  | token => cases hn
  | node j ds =>
    cases path with
    | nil => rfl
    | cons f fs =>
      dsimp only
      by_cases hj : j = .TWIG_LITERAL_STRING_INTERPOLATION
      · subst hj
        have hP := (In_path hin).1
        have hl := lang_in h.shape hP rfl
        have hk := mentions_interpolation _ (lang_mentions hl _ (mem_items_node (cs := ds) (by simp)))
        rw [hk] at hl
        have hno : ∀ t ∈ f.before, nodeOf .LUDTWIG_DIRECTIVE_IGNORE t = false := by
          intro t ht
          cases hc : nodeOf .LUDTWIG_DIRECTIVE_IGNORE t with
          | false => rfl
          | true =>
            obtain ⟨cs, rfl⟩ := nodeOf_tree hc
            have := lang_only (ks := [.TWIG_LITERAL_STRING_INTERPOLATION]) (by decide +kernel) hl
              (mem_items_node (cs := cs) (List.mem_append_left _ ht))
            exact absurd this (by decide)
        rw [directiveOf_none (fun t ht => hno t (List.mem_of_getLast? ht)), directiveOf_none]
        intro t ht
        obtain ⟨t', h1, _, rfl⟩ := mem_bareAll (List.mem_of_getLast? ht)
        rw [nodeOf_bare]
        exact hno _ h1
      · have hs := before_solid h hin hj
        rcases List.eq_nil_or_concat f.before with hb | ⟨b, z, hb⟩
        · rw [hb]; rfl
        · rw [List.concat_eq_append] at hb
          rw [hb]
          have hz : triviaTree z = false := by
            cases z with
            | node => rfl
            | token k x =>
              rw [leavesBefore, hb, leavesOf_append] at hs
              exact hs (leavesBefore fs ++ leavesOf b) (k, x) (by simp [leavesOf, Tree.leaves])
          rw [bareAll_append, bareAll_one hz]
          simp only [List.getLast?_append, List.getLast?_singleton, Option.some_or]
          rw [directiveOf_bare]

/-! ## Where the rule runs -/

/-- `closed`, apart from whitespace. -/
def blindClosed (e : Elem) : Bool := nodeOf .ERROR e.tree || blindDirective e == some []

/-- Does a directive switch the rule off at an element, apart from whitespace? -/
def blindOff (e : Elem) : Bool := ((blindDirective e).getD []).contains "twig-block-line-breaks".toList

/-- Where the rule for line breaks looks at a block. -/
def Visible (e : Elem) : Prop :=
  hidden e = false ∧ switchedOff "twig-block-line-breaks".toList e = false ∧ told e = false

theorem blind_closed : Blind blindClosed := by
  intro e he
  unfold blindClosed
  rw [blind_blindDirective e he]
  show (nodeOf .ERROR (bareTree e.tree) || _) = _
  rw [nodeOf_bare]

theorem blind_off : Blind blindOff := by
  intro e he
  unfold blindOff
  rw [blind_blindDirective e he]

theorem any_congr' {α : Type} {p q : α → Bool} : ∀ {l : List α}, (∀ x ∈ l, p x = q x) → l.any p = l.any q
  | [], _ => rfl
  | a :: l, h => by
    rw [List.any_cons, List.any_cons, h a (by simp), any_congr' (fun x hx => h x (by simp [hx]))]

theorem all_congr' {α : Type} {p q : α → Bool} : ∀ {l : List α}, (∀ x ∈ l, p x = q x) → l.all p = l.all q
  | [], _ => rfl
  | a :: l, h => by
    rw [List.all_cons, List.all_cons, h a (by simp), all_congr' (fun x hx => h x (by simp [hx]))]

theorem flag_congr {root : Tree} {c c' p : Elem → Bool}
    (hc : ∀ a, Elem.In root a → a.isNode = true → c a = c' a) : ∀ (path : List Frame) (t : Tree) (pos : Nat),
    Elem.In root ⟨t, pos, path⟩ → flagFrom c p t pos path = flagFrom c' p t pos path
  | [], _, _, _ => rfl
  | f :: fs, t, pos, hin => by
    have hP := (In_path hin).1
    rw [flagFrom, flagFrom, flag_congr hc fs _ _ hP]
    congr 2
    refine all_congr' (fun b hb => ?_)
    congr 1
    have hbin : Elem.In root b := by
      refine .child hP ?_
      unfold Elem.siblingsBefore at hb
      exact List.mem_of_mem_take hb
    unfold touchesBy
    refine any_congr' (fun d hd => ?_)
    congr 1
    refine all_congr' (fun a ha => ?_)
    rw [hc a (In_ancestors (In_descendant hbin hd) ha) (ancestors_isNode ha)]

theorem told_flag (e : Elem) : told e = flagAt closed (fun c => protectsWhitespace c.tree) e := by
  have main : ∀ (path : List Frame) (t : Tree) (pos : Nat),
      toldFrom t pos path = flagFrom closed (fun c => protectsWhitespace c.tree) t pos path := by
    intro path
    induction path with
    | nil => intro t pos; rfl
    | cons f fs ih =>
      intro t pos
      rw [toldFrom, flagFrom, ih]
      rfl
  exact main _ _ _

theorem closed_now {root : Tree} (h : Fine root) {e : Elem} (hin : Elem.In root e) (hn : e.isNode = true) :
    closed e = blindClosed e := by
  unfold closed blindClosed
  rw [directive_now h hin hn]

theorem chain_any {root : Tree} {p q : Elem → Bool} (hpq : ∀ a, Elem.In root a → a.isNode = true → p a = q a)
    {e : Elem} (hin : Elem.In root e) (hn : e.isNode = true) : e.chain.any p = (q e || e.ancestors.any q) := by
  unfold Elem.chain
  rw [List.any_cons, hpq e hin hn, any_congr' (fun a ha => hpq a (In_ancestors hin ha) (ancestors_isNode ha))]

theorem visible_same {root root' : Tree} (h : Fine root) (h' : Fine root') {e e' : Elem} (hin : Elem.In root e)
    (hin' : Elem.In root' e') (hn : e.isNode = true) (hn' : e'.isNode = true) (hb : bareElem e = bareElem e') :
    Visible e ↔ Visible e' := by
  have hs := solid_node hn
  have hs' := solid_node hn'
  have h1 : hidden e = hidden e' := by
    unfold hidden
    rw [chain_any (fun a ha hn => closed_now h ha hn) hin hn, chain_any (fun a ha hn => closed_now h' ha hn) hin' hn',
      blind_closed.same hs hs' hb, blind_closed.any.same hs hs' hb]
  have h2 : switchedOff "twig-block-line-breaks".toList e = switchedOff "twig-block-line-breaks".toList e' := by
    unfold switchedOff
    rw [chain_any (q := blindOff) (fun a ha hn => by rw [directive_now h ha hn]; rfl) hin hn,
      chain_any (q := blindOff) (fun a ha hn => by rw [directive_now h' ha hn]; rfl) hin' hn',
      blind_off.same hs hs' hb, blind_off.any.same hs hs' hb]
  have h3 : told e = told e' := by
    rw [told_flag, told_flag]
    unfold flagAt
    rw [flag_congr (fun a ha hn => closed_now h ha hn) _ _ _ hin,
      flag_congr (fun a ha hn => closed_now h' ha hn) _ _ _ hin']
    exact (blind_flag blind_closed (p := fun c => protectsWhitespace c.tree) (fun e _ => protects_bare e.tree)
      (fun e he => by
        obtain ⟨t, pos, path⟩ := e
        cases t with
        | token => rfl
        | node => cases he)).same hs hs' hb
  unfold Visible
  rw [h1, h2, h3]

/-! ## Blocks in trees that differ in whitespace -/

theorem bareAll_split : ∀ {cs B R : List Tree} {u : Tree}, bareAll cs = B ++ u :: R →
    ∃ l x r, cs = l ++ x :: r ∧ bareAll l = B ∧ bareTree x = u ∧ triviaTree x = false ∧ bareAll r = R
  | [], B, R, u, h => by cases B <;> cases h
  | t :: cs, B, R, u, h => by
    rw [bareAll, bare_eq] at h
    split at h
    · rename_i ht
      obtain ⟨l, x, r, rfl, h1, h2, h3, h4⟩ := bareAll_split h
      exact ⟨t :: l, x, r, rfl, by rw [bareAll, bare_eq, ht, if_pos rfl, h1]; rfl, h2, h3, h4⟩
    · rename_i ht
      have ht : triviaTree t = false := by simpa using ht
      cases B with
      | nil =>
        simp only [List.nil_append, List.singleton_append, List.cons.injEq] at h
        exact ⟨[], t, cs, rfl, rfl, h.1, ht, h.2⟩
      | cons b B =>
        simp only [List.cons_append, List.nil_append, List.cons.injEq] at h
        obtain ⟨l, x, r, rfl, h1, h2, h3, h4⟩ := bareAll_split h.2
        exact ⟨t :: l, x, r, rfl, by rw [bareAll, bare_solid ht, h1, h.1]; rfl, h2, h3, h4⟩

theorem bareAll_none {q : Tree → Bool} (hb : ∀ t, q (bareTree t) = q t) (ht : ∀ t, triviaTree t = true → q t = false)
    {l l' : List Tree} (h : bareAll l = bareAll l') (hl : ∀ t ∈ l', q t = false) : ∀ t ∈ l, q t = false := by
  intro t hm
  cases hq : q t with
  | false => rfl
  | true =>
    have hs : triviaTree t = false := by
      cases hx : triviaTree t with
      | false => rfl
      | true => rw [ht t hx] at hq; cases hq
    obtain ⟨a, b, rfl⟩ := List.append_of_mem hm
    rw [bareAll_mid _ _ hs] at h
    obtain ⟨l2, x, r2, rfl, _, h2, _, _⟩ := bareAll_split h.symm
    have := hl x (by simp)
    rw [← hb, h2, hb, hq] at this
    cases this

theorem bareElem_tree {e e' : Elem} (h : bareElem e = bareElem e') : bareTree e.tree = bareTree e'.tree :=
  congrArg Elem.tree h

theorem bareElem_path {e e' : Elem} (h : bareElem e = bareElem e') :
    e.path.map bareFrame = e'.path.map bareFrame := congrArg Elem.path h

theorem firstChild_same {q : Tree → Bool} (hb : ∀ t, q (bareTree t) = q t)
    (ht : ∀ t, triviaTree t = true → q t = false) {e e' x' : Elem} (he : bareElem e = bareElem e')
    (h : FirstChild q e' x') : ∃ x, FirstChild q e x ∧ bareElem x = bareElem x' := by
  obtain ⟨k, l', r', h1, h2, h3, _, h5⟩ := h
  have h6 := bareElem_tree he
  obtain ⟨te, pos, path⟩ := e
  dsimp only at h6
  have hsx : triviaTree x'.tree = false := by
    cases hx : triviaTree x'.tree with
    | false => rfl
    | true => rw [ht _ hx] at h3; cases h3
  cases te with
  | token j y => rw [h1] at h6; cases h6
  | node j cs =>
    rw [h1] at h6
    simp only [bareTree, Tree.node.injEq] at h6
    obtain ⟨rfl, h6⟩ := h6
    rw [bareAll_mid _ _ hsx] at h6
    obtain ⟨l, x, r, rfl, g1, g2, g3, g4⟩ := bareAll_split h6
    refine ⟨⟨x, pos + byteLen (textOf l), ⟨j, pos, l, r⟩ :: path⟩, ⟨j, l, r, rfl,
      bareAll_none hb ht g1 h2, ?_, rfl, rfl⟩, ?_⟩
    · dsimp only
      rw [← hb, g2, hb, h3]
    · unfold bareElem
      rw [h5]
      dsimp only
      rw [List.map_cons, List.map_cons, g2]
      have : List.map bareFrame path = List.map bareFrame e'.path := bareElem_path he
      rw [this]
      simp only [bareFrame, g1, g4]

theorem isComment_bare (t : Tree) : isComment (bareTree t) = isComment t := by
  unfold isComment
  rw [nodeOf_bare, nodeOf_bare, nodeOf_bare, nodeOf_bare]

theorem isNode_trivia (t : Tree) (h : triviaTree t = true) : t.isNode = false := by
  cases t with
  | token => rfl
  | node => cases h

theorem nodesBefore_same {e e' : Elem} (h : bareElem e = bareElem e') :
    (nodesBefore e).map bareTree = (nodesBefore e').map bareTree := by
  have hp := bareElem_path h
  unfold nodesBefore
  cases h1 : e.path with
  | nil =>
    rw [h1] at hp
    rw [List.map_eq_nil_iff.1 hp.symm]
  | cons f fs =>
    rw [h1] at hp
    obtain ⟨f', fs', h2, h3, _⟩ := List.map_eq_cons_iff.1 hp.symm
    rw [h2]
    dsimp only
    rw [List.map_reverse, List.map_reverse, ← filter_bare isNode_trivia isNode_bareTree,
      ← filter_bare isNode_trivia isNode_bareTree]
    have : bareAll f'.before = bareAll f.before := congrArg Frame.before h3
    rw [this]

theorem nodesBehind_same {e e' : Elem} (h : bareElem e = bareElem e') :
    (nodesBehind e).map bareTree = (nodesBehind e').map bareTree := by
  have hp := bareElem_path h
  unfold nodesBehind
  cases h1 : e.path with
  | nil =>
    rw [h1] at hp
    rw [List.map_eq_nil_iff.1 hp.symm]
  | cons f fs =>
    rw [h1] at hp
    obtain ⟨f', fs', h2, h3, _⟩ := List.map_eq_cons_iff.1 hp.symm
    rw [h2]
    dsimp only
    rw [← filter_bare isNode_trivia isNode_bareTree, ← filter_bare isNode_trivia isNode_bareTree]
    have : bareAll f'.after = bareAll f.after := congrArg Frame.after h3
    rw [this]

theorem beyond_bare : ∀ l : List Tree, beyondComment (l.map bareTree) = (beyondComment l).map bareTree
  | [] => rfl
  | n :: ns => by
    rw [List.map_cons, beyondComment, beyondComment, isComment_bare]
    split
    · rw [List.head?_map]
    · rfl

theorem beyond_same {l l' : List Tree} (h : l.map bareTree = l'.map bareTree) :
    (beyondComment l).map bareTree = (beyondComment l').map bareTree := by
  rw [← beyond_bare, ← beyond_bare, h]

theorem beyond_none {l l' : List Tree} (h : l.map bareTree = l'.map bareTree) :
    beyondComment l = none ↔ beyondComment l' = none := by
  rw [← Option.map_eq_none_iff (f := bareTree), beyond_same h, Option.map_eq_none_iff]

theorem kind_bare (t : Tree) : (bareTree t).kind = t.kind := by cases t <;> rfl

theorem beyond_block {l l' : List Tree} (h : l.map bareTree = l'.map bareTree) (k : SyntaxKind) :
    (∃ n, beyondComment l = some n ∧ n.kind = k) → ∃ n, beyondComment l' = some n ∧ n.kind = k := by
  rintro ⟨n, hn, hk⟩
  have := beyond_same h
  rw [hn] at this
  obtain ⟨n', h1, h2⟩ := Option.map_eq_some_iff.1 this.symm
  exact ⟨n', h1, by rw [← kind_bare, h2, kind_bare, hk]⟩

theorem breaks_same (config : Config) {e e' : Elem} (h : bareElem e = bareElem e') :
    breaksBefore config e = breaksBefore config e' ∧ breaksBehind config e = breaksBehind config e' := by
  constructor
  · unfold breaksBefore
    simp only [beyond_none (nodesBefore_same h)]
  · unfold breaksBehind
    have : nodesBehind e = [] ↔ nodesBehind e' = [] := by
      rw [← List.map_eq_nil_iff (f := bareTree), nodesBehind_same h, List.map_eq_nil_iff]
    simp only [this]

theorem surrounded_same {e e' ending' : Elem} (h : bareElem e = bareElem e') (hs : Surrounded e' ending') :
    ∃ ending, Surrounded e ending ∧ bareElem ending = bareElem ending' := by
  obtain ⟨h1, h2, f', fs', h3, h4⟩ := hs
  obtain ⟨ending, h5, h6⟩ := firstChild_same (nodeOf_bare _) (fun _ h => nodeOf_trivia _ h) h h2
  refine ⟨ending, ⟨?_, h5, ?_⟩, h6⟩
  · rw [← nodeOf_bare, bareElem_tree h, nodeOf_bare, h1]
  · have hp := bareElem_path h
    rw [h3, List.map_cons] at hp
    obtain ⟨f, fs, g1, g2, _⟩ := List.map_eq_cons_iff.1 hp
    refine ⟨f, fs, g1, fun hk hn => h4 ?_ ((beyond_none (nodesBefore_same h)).1 hn)⟩
    have : (bareFrame f).kind = (bareFrame f').kind := congrArg Frame.kind g2
    have : f.kind = f'.kind := this
    rw [← this, hk]

theorem beginning_same {e e' c' : Elem} (hn : e.isNode = true) (hn' : e'.isNode = true)
    (h : bareElem e = bareElem e') (hb : Beginning e' c') :
    ∃ c, Beginning e c ∧ bareElem c = bareElem c' := by
  rcases hb with ⟨k, s', a', n', b', after', fs', h1, h2, h3, rfl⟩ | ⟨h1, h2⟩
  · have hp := bareElem_path h
    rw [h1, List.map_cons] at hp
    obtain ⟨f, fs, g1, g2, g3⟩ := List.map_eq_cons_iff.1 hp
    obtain ⟨fk, s, bef, after⟩ := f
    simp only [bareFrame, Frame.mk.injEq, true_and] at g2
    obtain ⟨rfl, g4, g5⟩ := g2
    have hsn : triviaTree n' = false := by
      cases hx : triviaTree n' with
      | false => rfl
      | true => simp [isComment, nodeOf_trivia _ hx] at h2
    rw [bareAll_mid _ _ hsn] at g4
    obtain ⟨a, n, b, rfl, k1, k2, k3, k4⟩ := bareAll_split g4
    refine ⟨_, .inl ⟨fk, s, a, n, b, after, fs, g1, ?_, bareAll_none isNode_bareTree isNode_trivia k4 h3, rfl⟩, ?_⟩
    · rw [← isComment_bare, k2, isComment_bare, h2]
    · unfold bareElem
      dsimp only
      have e1 : triviaTree e.tree = false := by simpa [solid] using solid_node hn
      have e2 : triviaTree e'.tree = false := by simpa [solid] using solid_node hn'
      rw [List.map_cons, List.map_cons, k2, g3]
      simp only [bareFrame, k1, bareAll_mid _ _ e1, bareAll_mid _ _ e2, k4, g5, bareElem_tree h]
  · obtain ⟨c, h3, h4⟩ := firstChild_same (nodeOf_bare _) (fun _ h => nodeOf_trivia _ h) h h2
    refine ⟨c, .inr ⟨fun n hn => ?_, h3⟩, h4⟩
    have hm := nodesBefore_same h
    cases hx : nodesBefore e with
    | nil => rw [hx] at hn; cases hn
    | cons m ms =>
      rw [hx] at hn hm
      cases hn
      obtain ⟨m', ms', k1, k2, _⟩ := List.map_eq_cons_iff.1 hm.symm
      have := h1 m' (by rw [k1]; rfl)
      rw [← isComment_bare, ← k2, isComment_bare, this]

/-! ## Places -/

/-- Leaves without whitespace. -/
def solidLeaves (l : List (SyntaxKind × Text)) : List (SyntaxKind × Text) := l.filter (fun l => !l.1.isTrivia)

theorem leavesBefore_bare : ∀ path : List Frame, leavesBefore (path.map bareFrame) = solidLeaves (leavesBefore path)
  | [] => rfl
  | f :: fs => by
    rw [List.map_cons, leavesBefore, leavesBefore, leavesBefore_bare fs]
    unfold solidLeaves
    rw [List.filter_append, ← leaves_bareAll]
    rfl

/-- The places in a file where the rule wants `n` line breaks: the leaves before them. -/
def Place (config : Config) (root : Tree) (n : Nat) (a : List (SyntaxKind × Text)) : Prop :=
  ∃ e ending, Elem.In root e ∧ Visible e ∧ Surrounded e ending ∧
    ((∃ c, Beginning e c ∧ n = breaksBefore config e ∧ a = leavesBefore c.path) ∨
      ((¬ ∃ n, beyondComment (nodesBehind e) = some n ∧ n.kind = .TWIG_BLOCK) ∧ n = breaksBehind config e ∧
        a = leavesBefore ending.path ++ ending.tree.leaves))

/-- The same elements are in trees that differ only in whitespace. -/
theorem elem_same {cs cs' : List Tree} (h : bareAll cs = bareAll cs') {e' : Elem}
    (hin : Elem.In (.node .ROOT cs') e') (hs : solid e' = true) :
    ∃ e, Elem.In (.node .ROOT cs) e ∧ solid e = true ∧ bareElem e = bareElem e' := by
  have h1 : bareElems (Tree.node .ROOT cs).elems = bareElems (elemsAt (bareTree (.node .ROOT cs)) 0 []) :=
    bare_elemsAt _ 0 0 [] [] rfl rfl
  have h2 : bareElems (Tree.node .ROOT cs').elems = bareElems (elemsAt (bareTree (.node .ROOT cs')) 0 []) :=
    bare_elemsAt _ 0 0 [] [] rfl rfl
  have h3 : bareTree (.node .ROOT cs) = bareTree (.node .ROOT cs') := by
    show Tree.node .ROOT (bareAll cs) = .node .ROOT (bareAll cs')
    rw [h]
  rw [h3, ← h2] at h1
  have hm : bareElem e' ∈ bareElems (Tree.node .ROOT cs').elems :=
    List.mem_map_of_mem (List.mem_filter.2 ⟨(mem_elems_iff _ _).2 hin, hs⟩)
  rw [← h1] at hm
  obtain ⟨e, he, hb⟩ := List.mem_map.1 hm
  obtain ⟨he, hs⟩ := List.mem_filter.1 he
  exact ⟨e, (mem_elems_iff _ _).1 he, hs, hb⟩

theorem isNode_of {k : SyntaxKind} {e : Elem} (h : nodeOf k e.tree = true) : e.isNode = true := by
  obtain ⟨cs, hc⟩ := nodeOf_tree h
  obtain ⟨t, pos, path⟩ := e
  dsimp only at hc
  subst hc
  rfl

theorem place_same {config : Config} {cs cs' : List Tree} (h : bareAll cs = bareAll cs')
    (hf : Fine (.node .ROOT cs)) (hf' : Fine (.node .ROOT cs')) {n : Nat} {a' : List (SyntaxKind × Text)}
    (hp : Place config (.node .ROOT cs') n a') :
    ∃ a, Place config (.node .ROOT cs) n a ∧ solidLeaves a = solidLeaves a' := by
  obtain ⟨e', ending', hin', hvis, hsur', hcase⟩ := hp
  have hn' := isNode_of hsur'.1
  obtain ⟨e, hin, hs, hb⟩ := elem_same h hin' (solid_node hn')
  obtain ⟨ending, hsur, hend⟩ := surrounded_same hb hsur'
  have hn := isNode_of hsur.1
  have hv := (visible_same hf hf' hin hin' hn hn' hb).2 hvis
  obtain ⟨b1, b2⟩ := breaks_same config hb
  rcases hcase with ⟨c', g1, g2, g3⟩ | ⟨g1, g2, g3⟩
  · obtain ⟨c, k1, k2⟩ := beginning_same hn hn' hb g1
    refine ⟨_, ⟨e, ending, hin, hv, hsur, .inl ⟨c, k1, by rw [b1]; exact g2, rfl⟩⟩, ?_⟩
    rw [g3, ← leavesBefore_bare, ← leavesBefore_bare, bareElem_path k2]
  · refine ⟨_, ⟨e, ending, hin, hv, hsur, .inr ⟨fun hx => g1 (beyond_block (nodesBehind_same hb) _ hx),
      by rw [b2]; exact g2, rfl⟩⟩, ?_⟩
    have e1 : triviaTree ending.tree = false := by
      simpa [solid] using solid_node (isNode_of (surrounded_ending hsur))
    have e2 : triviaTree ending'.tree = false := by
      simpa [solid] using solid_node (isNode_of (surrounded_ending hsur'))
    have hl := leavesBefore_bare ending.path
    have hl' := leavesBefore_bare ending'.path
    have ht := leaves_bare ending.tree
    have ht' := leaves_bare ending'.tree
    rw [bare_solid e1, bareElem_tree hend, ← bare_solid e2] at ht
    rw [bareElem_path hend] at hl
    unfold solidLeaves at hl hl' ⊢
    rw [g3, List.filter_append, List.filter_append, ← ht, ← ht', ← hl, ← hl']

end Ludtwig.Rules
