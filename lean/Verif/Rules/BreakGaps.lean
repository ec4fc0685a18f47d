import Verif.Rules.BlockBreakRun

/-!
# What is in front of a node

In a tree without syntax errors, the leaf before a node is no whitespace, and nodes end with a leaf that is
no whitespace (apart from the contents of strings).
-/

namespace Ludtwig.Rules

open Cli Lexer Layout Shape

/-- Kinds of nodes that may end with whitespace. -/
def looseKinds : List SyntaxKind := [.ROOT, .HTML_STRING_INNER, .TWIG_LITERAL_STRING_INNER]

/-- No leaf, or one that is no whitespace, is the last. -/
def EndsSolid (l : List (SyntaxKind × Text)) : Prop := ∀ a x, l = a ++ [x] → x.1.isTrivia = false

theorem endsSolid_nil : EndsSolid [] := by
  intro a x h
  cases a <;> cases h

theorem endsSolid_append {a b : List (SyntaxKind × Text)} (hb : EndsSolid b) (hne : b ≠ []) : EndsSolid (a ++ b) := by
  intro l x h
  rcases List.eq_nil_or_concat b with rfl | ⟨b', y, rfl⟩
  · exact absurd rfl hne
  · rw [List.concat_eq_append, ← List.append_assoc] at h
    have := List.append_inj_right' h rfl
    cases this
    exact hb b' x (by simp)

/-- The last tree with leaves. -/
theorem last_leafy : ∀ ts : List Tree, leavesOf ts = [] ∨
    ∃ l t r, ts = l ++ t :: r ∧ t.leaves ≠ [] ∧ leavesOf r = []
  | [] => .inl rfl
  | t :: ts => by
    rcases last_leafy ts with h | ⟨l, u, r, rfl, h1, h2⟩
    · by_cases ht : t.leaves = []
      · exact .inl (by rw [leavesOf, ht, h]; rfl)
      · exact .inr ⟨[], t, ts, rfl, ht, h⟩
    · exact .inr ⟨t :: l, u, r, rfl, h1, h2⟩

/-- A node of a tree without syntax errors. -/
structure FineNode (k : SyntaxKind) (cs : List Tree) : Prop where
  attached : Attached (.node k cs)
  shape : Conforms production (.node k cs)
  quoted : QuotedTree (.node k cs)

theorem fine_child {k j : SyntaxKind} {cs ds : List Tree} (h : FineNode k cs) (hm : .node j ds ∈ cs) :
    FineNode j ds :=
  ⟨attachedAll_mem h.attached.2 _ hm, conformAll_mem h.shape.2 _ hm, quotedAll_mem h.quoted.2 _ hm⟩

theorem interpolation_leaves {cs : List Tree} (h : Conforms production (.node .TWIG_LITERAL_STRING_INTERPOLATION cs)) :
    leavesOf cs ≠ [] := by
  obtain ⟨k, x, r, rfl⟩ := interpolation_begin h.1
  simp [leavesOf, Tree.leaves]

/-- The last child with leaves, up to the end or to a node behind it. -/
theorem ends_step {k : SyntaxKind} {l r s : List Tree} {t : Tree} (hf : FineNode k (l ++ t :: (r ++ s)))
    (hr : leavesOf r = []) (hs : (s = [] ∧ (k ∉ looseKinds ∨ ∀ l' x, l ++ t :: (r ++ s) = l' ++ [x] → triviaTree x = false)) ∨
      ∃ j ds s', s = .node j ds :: s' ∧ j ≠ .TWIG_LITERAL_STRING_INTERPOLATION)
    (ih : ∀ j ds, t = .node j ds → (j ∉ looseKinds ∨ ∀ l x, ds = l ++ [x] → triviaTree x = false) →
      EndsSolid (leavesOf ds)) : EndsSolid t.leaves := by
  have notok : ∀ j x r', r ++ s = .token j x :: r' → False := by
    intro j x r' h
    cases r with
    | nil =>
      rw [List.nil_append] at h
      rcases hs with ⟨rfl, _⟩ | ⟨_, _, _, rfl, _⟩ <;> cases h
    | cons a r =>
      cases h
      simp [leavesOf, Tree.leaves] at hr
  cases t with
  | token j x =>
    intro a y hy
    have hy : [(j, x)] = a ++ [y] := hy
    have : y = (j, x) := by
      have := List.append_inj_right' (show [] ++ [(j, x)] = a ++ [y] from hy) rfl
      cases this; rfl
    subst this
    cases hj : j.isTrivia with
    | false => rfl
    | true =>
      exfalso
      rcases hf.attached.1 l (.token j x) (r ++ s) rfl hj with ⟨_, _, _, h⟩ | ⟨h, hk⟩ | ⟨hk, cs, r', h⟩
      · exact notok _ _ _ h
      · obtain ⟨rfl, rfl⟩ := List.append_eq_nil_iff.1 h
        rcases hs with ⟨_, hs⟩ | ⟨_, _, _, hs, _⟩
        · rcases hs with hs | hs
          · exact hs hk
          · have := hs l (.token j x) (by simp)
            rw [show triviaTree (.token j x) = true from hj] at this
            cases this
        · cases hs
      · cases r with
        | nil =>
          rw [List.nil_append] at h
          rcases hs with ⟨rfl, _⟩ | ⟨_, _, _, rfl, hs⟩
          · cases h
          · cases h; exact hs rfl
        | cons a r =>
          cases h
          have hm : Tree.node .TWIG_LITERAL_STRING_INTERPOLATION cs ∈
            l ++ .token j x :: (.node .TWIG_LITERAL_STRING_INTERPOLATION cs :: r ++ s) := by simp
          have := interpolation_leaves (conformAll_mem hf.shape.2 _ hm)
          simp [leavesOf, Tree.leaves] at hr
          exact this hr.1
  | node j ds =>
    have hm : (⟨true, j⟩ : Shape.Item) ∈ Shape.items (l ++ .node j ds :: (r ++ s)) :=
      mem_items_node (cs := ds) (by simp)
    have hment := lang_mentions hf.shape.1 _ hm
    show EndsSolid (leavesOf ds)
    refine ih j ds rfl ?_
    by_cases hj : j ∈ looseKinds
    · simp only [looseKinds, List.mem_cons, List.not_mem_nil, or_false] at hj
      rcases hj with rfl | rfl | rfl
      · rw [mentions_root] at hment; cases hment
      · have hk := mentions_inner _ hment
        subst hk
        rcases hf.quoted.1 rfl l ds (r ++ s) rfl with ⟨q, x, _, h⟩ | ⟨_, h, _⟩
        · exact (notok _ _ _ h).elim
        · exact .inr h
      · have hk := parent_twigInner _ hment
        subst hk
        obtain ⟨_, _, _, h⟩ := behind_twigInner hf.shape.1
        exact (notok _ _ _ h).elim
    · exact .inl hj

/-- A node ends with a leaf that is no whitespace. -/
theorem ends_solid : ∀ (n : Nat) {k : SyntaxKind} {cs : List Tree}, sizeOf cs ≤ n → FineNode k cs →
    (k ∉ looseKinds ∨ ∀ l x, cs = l ++ [x] → triviaTree x = false) → EndsSolid (leavesOf cs) := by
  intro n
  induction n with
  | zero =>
    intro k cs hn
    cases cs <;> simp at hn
  | succ n ih =>
    intro k cs hn hf hk
    rcases last_leafy cs with h | ⟨l, t, r, rfl, h1, h2⟩
    · rw [h]; exact endsSolid_nil
    · have : leavesOf (l ++ t :: r) = leavesOf l ++ t.leaves := by
        rw [leavesOf_append, leavesOf, h2, List.append_nil]
      rw [this]
      refine endsSolid_append ?_ h1
      refine ends_step (s := []) (r := r) (by simpa using hf) h2 (.inl ⟨rfl, by simpa using hk⟩) ?_
      rintro j ds rfl hj
      have hm : Tree.node j ds ∈ l ++ .node j ds :: r := by simp
      refine ih ?_ (fine_child hf hm) hj
      have := List.sizeOf_lt_of_mem hm
      simp only [Tree.node.sizeOf_spec] at this
      omega

/-! ## The leaves in front of an element -/

/-- The leaves in front of a place. -/
def leavesBefore : List Frame → List (SyntaxKind × Text)
  | [] => []
  | f :: fs => leavesBefore fs ++ leavesOf f.before

theorem children_split {c : Elem} {path : List Frame} {k : SyntaxKind} {start : Nat} :
    ∀ {cs before : List Tree} {pos : Nat}, c ∈ childElems path k start before pos cs →
    ∃ x y b after, elemsIn cs k start before pos path = x ++ (elemsAt c.tree c.start c.path ++ y) ∧
      c.path = ⟨k, start, before ++ b, after⟩ :: path ∧ (tokensOf x).map kt = leavesOf b
  | [], before, pos, h => by cases h
  | t :: ts, before, pos, h => by
    rw [childElems] at h
    rcases List.mem_cons.1 h with rfl | h
    · exact ⟨[], _, [], ts, by rw [elemsIn]; rfl, by simp, rfl⟩
    · obtain ⟨x, y, b, after, h, h1, h2⟩ := children_split h
      refine ⟨elemsAt t pos (⟨k, start, before, ts⟩ :: path) ++ x, y, t :: b, after, by rw [elemsIn, h]; simp, ?_, ?_⟩
      · rw [h1]; simp
      · rw [tokensOf_append, List.map_append, h2, tokens_kt, leavesOf]

theorem In_split {root : Tree} {c : Elem} (h : Elem.In root c) :
    ∃ x y, root.tokenElems = x ++ (tokensOf (elemsAt c.tree c.start c.path) ++ y) ∧
      x.map kt = leavesBefore c.path := by
  have main : ∃ x y, root.elems = x ++ (elemsAt c.tree c.start c.path ++ y) ∧
      (tokensOf x).map kt = leavesBefore c.path := by
    induction h with
    | root => exact ⟨[], [], by simp [Tree.elems, Elem.descendants], rfl⟩
    | @child p c _ hc ih =>
      obtain ⟨x, y, h, h0⟩ := ih
      unfold Elem.childrenWithTokens at hc
      split at hc
      · cases hc
      · rename_i k cs ht
        obtain ⟨x', y', b, after, h', h1, h2⟩ := children_split hc
        rw [ht, elemsAt, h'] at h
        refine ⟨x ++ (⟨.node k cs, p.start, p.path⟩ :: x'), y' ++ y, by rw [h]; simp, ?_⟩
        rw [tokensOf_append, List.map_append, h0, h1, leavesBefore]
        show _ ++ (tokensOf x').map kt = _
        rw [h2, List.nil_append]
  obtain ⟨x, y, h, h1⟩ := main
  refine ⟨tokensOf x, tokensOf y, ?_, h1⟩
  show tokensOf root.elems = _
  rw [h, tokensOf_append, tokensOf_append]

/-- The trees of a file without syntax errors. -/
structure Fine (root : Tree) : Prop where
  attached : Attached root
  shape : Conforms production root
  quoted : QuotedTree root

theorem fine_parsed {errLen : Text → Nat} {s : Text} {p : Parse} (h : parse errLen s = .ok p)
    (herr : p.errors = []) : Fine p.tree :=
  ⟨C69_whitespace_attached h, C62_error_free_tree h herr, quoted_strings h herr⟩

theorem fine_in {root : Tree} (h : Fine root) {e : Elem} (hin : Elem.In root e) {k : SyntaxKind} {cs : List Tree}
    (ht : e.tree = .node k cs) : FineNode k cs :=
  ⟨ht ▸ attached_in h.attached hin, ht ▸ conforms_in h.shape hin, ht ▸ quoted_in h.quoted hin⟩

/-- The leaf in front of a node is no whitespace. -/
theorem before_solid {root : Tree} (h : Fine root) : ∀ {path : List Frame} {j : SyntaxKind} {ds : List Tree}
    {pos : Nat}, Elem.In root ⟨.node j ds, pos, path⟩ → j ≠ .TWIG_LITERAL_STRING_INTERPOLATION →
    EndsSolid (leavesBefore path) := by
  intro path
  induction path with
  | nil => intro j ds pos _ _; exact endsSolid_nil
  | cons f fs ih =>
    intro j ds pos hin hj
    have hP := (In_path hin).1
    have hf := fine_in h hP rfl
    rw [leavesBefore]
    rcases last_leafy f.before with h0 | ⟨l, t, r, hb, h1, h2⟩
    · rw [h0, List.append_nil]
      refine ih hP ?_
      intro hk
      rw [hk] at hf
      obtain ⟨k, x, r, hr⟩ := interpolation_begin hf.shape.1
      cases hb : f.before with
      | nil => rw [hb] at hr; cases hr
      | cons a b =>
        rw [hb] at hr h0
        cases hr
        simp [leavesOf, Tree.leaves] at h0
    · have : leavesOf f.before = leavesOf l ++ t.leaves := by
        rw [hb, leavesOf_append, leavesOf, h2, List.append_nil]
      rw [this, ← List.append_assoc]
      refine endsSolid_append ?_ h1
      have he : f.before ++ .node j ds :: f.after = l ++ t :: (r ++ .node j ds :: f.after) := by rw [hb]; simp
      rw [he] at hf
      refine ends_step hf h2 (.inr ⟨j, ds, _, rfl, hj⟩) ?_
      rintro j' ds' rfl hj'
      exact ends_solid _ (Nat.le_refl _) (fine_child hf (by simp)) hj'

/-! ## The token behind a block -/

theorem first_some {k : SyntaxKind} {ds : List Tree} (hc : Conforms production (.node k ds))
    (ho : (production k).opens = true) (pos : Nat) (path : List Frame) :
    firstTokenAt (.node k ds) pos path ≠ none := by
  obtain ⟨j, v, hv⟩ := lang_opens ho hc.1
  rcases items_first hv with ⟨j, x, ts, rfl⟩ | ⟨h, _⟩
  · simp [firstTokenAt, firstTokenIn]
  · cases h

theorem first_beside_some {k : SyntaxKind} {ds : List Tree} (hc : Conforms production (.node k ds))
    (hk : k ∈ besideKinds) (pos : Nat) (path : List Frame) : firstTokenAt (.node k ds) pos path ≠ none := by
  have main : ∀ {ks : List SyntaxKind}, fullRx (production k) = true → beginsRx ks (production k) = true →
      (∀ j ∈ ks, (production j).opens = true) → firstTokenAt (.node k ds) pos path ≠ none := by
    intro ks h1 h2 h3
    cases hi : Shape.items ds with
    | nil => exact absurd hi (lang_full h1 hc.1)
    | cons i v =>
      have hok := lang_begins h2 hc.1 i v hi
      rcases items_first hi with ⟨j, x, ts, rfl⟩ | ⟨hn, ds', ts, rfl⟩
      · simp [firstTokenAt, firstTokenIn]
      · have hin : i.kind ∈ ks := by simpa [okItem, hn] using hok
        rw [firstTokenAt, firstTokenIn]
        exact first_some hc.2.1 (h3 _ hin) _ _
  rcases begins_beside k hk with rfl | ⟨h1, h2⟩
  · exact main (ks := [.TWIG_STARTING_BLOCK]) (by decide +kernel) (by decide +kernel) (by decide +kernel)
  · exact main h1 h2 (fun j hj => (opens_inner j hj).1)

theorem next_up {t : Tree} {stop : Nat} {f : Frame} {fs : List Frame} (h : f.after = []) :
    nextTokenFrom t stop (f :: fs) = nextTokenFrom (.node f.kind (f.before ++ [t])) stop fs ∧
    tokensAfterFrom t stop (f :: fs) = tokensAfterFrom (.node f.kind (f.before ++ [t])) stop fs := by
  constructor
  · rw [nextTokenFrom, h]
  · rw [tokensAfterFrom, h, elemsIn]
    simp [tokensOf, textOf]

theorem last_in (j : SyntaxKind) (x : Text) : ∀ (cs before : List Tree) (pos : Nat) (k : SyntaxKind) (start : Nat)
    (path : List Frame), lastTokenIn (cs ++ [.token j x]) before pos k start path =
      some ⟨.token j x, pos + byteLen (textOf cs), ⟨k, start, before ++ cs, []⟩ :: path⟩
  | [], before, pos, k, start, path => by
    simp [lastTokenIn, lastTokenAt, textOf]
  | c :: cs, before, pos, k, start, path => by
    have := last_in j x cs (before ++ [c]) (pos + byteLen c.text) k start path
    have hne : ∃ d ds, cs ++ [.token j x] = d :: ds := by
      cases cs with
      | nil => exact ⟨_, _, rfl⟩
      | cons d ds => exact ⟨_, _, rfl⟩
    obtain ⟨d, ds, hd⟩ := hne
    rw [hd] at this
    rw [List.cons_append, hd, lastTokenIn, this]
    · simp [textOf, byteLen_append, Nat.add_assoc]

/-- If `next_token()` finds nothing behind a block, then there is nothing. -/
theorem next_none {root : Tree} (h : Fine root) (hraw : ¬ RawBlock root) {e : Elem} (hin : Elem.In root e)
    (hb : nodeOf .TWIG_BLOCK e.tree = true) {stop : Nat} (hn : nextTokenFrom e.tree stop e.path = none) :
    tokensAfterFrom e.tree stop e.path = [] := by
  cases hef : e.path with
  | nil => rfl
  | cons f fs =>
    rw [hef] at hn
    obtain ⟨ecs, hecs⟩ := nodeOf_tree hb
    have hP : Elem.In root ⟨.node f.kind (f.before ++ e.tree :: f.after), f.start, fs⟩ := by
      obtain ⟨te, pe, path⟩ := e
      dsimp only at hef
      subst hef
      exact (In_path hin).1
    have hPl := lang_in h.shape hP rfl
    have hPc := (conforms_in h.shape hP).2
    have hmem : (⟨true, .TWIG_BLOCK⟩ : Shape.Item) ∈ Shape.items (f.before ++ e.tree :: f.after) :=
      mem_items_node (cs := ecs) (by rw [hecs]; simp)
    have hfk := mentions_block _ (lang_mentions hPl _ hmem)
    cases hafter : f.after with
    | cons z as =>
      exfalso
      rw [nextTokenFrom, hafter] at hn
      cases z with
      | token j x => simp [firstTokenAt] at hn
      | node n ds =>
        have hnk : n ∈ besideKinds := lang_beside hPl hmem (mem_items_node (cs := ds) (by rw [hafter]; simp))
        have hcd : Conforms production (.node n ds) := conformAll_mem hPc _ (by rw [hafter]; simp)
        exact first_beside_some hcd hnk _ _ hn
    | nil =>
      rw [(next_up hafter).1] at hn
      rw [(next_up hafter).2]
      rw [hafter] at hP hPc
      have hnraw : f.kind ≠ .HTML_RAW_TEXT := fun hk =>
        hraw (rawBlock_in hP (.inl ⟨hk, ecs, by rw [hecs]; simp⟩))
      cases hfs : fs with
      | nil => rfl
      | cons g gs =>
        exfalso
        rw [hfs] at hP hn
        have hQ := (In_path hP).1
        have hQl := lang_in h.shape hQ rfl
        have hQc := (conforms_in h.shape hQ).2
        have hm2 : (⟨true, f.kind⟩ : Shape.Item) ∈
            Shape.items (g.before ++ .node f.kind (f.before ++ [e.tree]) :: g.after) :=
          mem_items_node (cs := f.before ++ [e.tree]) (by simp)
        have hm2 := lang_mentions hQl _ hm2
        rw [nextTokenFrom] at hn
        have bodies : followedRx f.kind endKinds (production g.kind) false = true → False := by
          intro hfol
          rw [Shape.items_append, Shape.items] at hQl
          obtain ⟨i, v, hv, hok⟩ := lang_followed hfol hQl [] nofun _ _ rfl
          rw [List.append_nil] at hv
          rcases items_first hv with ⟨j, x, ts, hga⟩ | ⟨hin, ds, ts, hga⟩
          · rw [hga] at hn
            simp [firstTokenAt] at hn
          · have hik : i.kind ∈ endKinds := by simpa [okItem, hin] using hok
            have hcd : Conforms production (.node i.kind ds) := conformAll_mem hQc _ (by rw [hga]; simp)
            rw [hga] at hn
            exact first_some hcd (opens_end _ hik).1 _ _ hn
        simp only [holdKinds, List.mem_cons, List.not_mem_nil, or_false] at hfk
        rcases hfk with hfk | hfk | hfk | hfk | hfk
        · rw [hfk, mentions_root] at hm2
          cases hm2
        · exact bodies (by rw [hfk]; exact (followed_body _).1)
        · exact bodies (by rw [hfk]; exact (followed_body _).2)
        · have hg : g.kind = .HTML_STRING := mentions_inner _ (by rw [← hfk]; exact hm2)
          have hquote := (quoted_in h.quoted hQ).1 hg
          rcases hquote g.before (f.before ++ [e.tree]) g.after (by rw [hfk]) with ⟨j, x, _, hga⟩ | ⟨_, _, hnob⟩
          · rw [hga] at hn
            simp [firstTokenAt] at hn
          · exact hnob ecs (by rw [hecs]; simp)
        · exact hnraw hfk

/-- The token behind a block is the next one, whatever it is. -/
theorem behind_iff {root : Tree} (h : Fine root) (hraw : ¬ RawBlock root) {e ending : Elem} (hin : Elem.In root e)
    (hsur : Surrounded e ending) : ∃ x y, root.tokenElems = x ++ y ∧
      x.map kt = leavesBefore ending.path ++ ending.tree.leaves ∧ EndsSolid (x.map kt) ∧ x ≠ [] ∧
      ∀ t, Behind ending t ↔ y.head? = some t := by
  have hi : Elem.In root ending := In_child hin ((child_iff _ _ _).2 hsur.2.1)
  obtain ⟨cs, hcs⟩ := nodeOf_tree (surrounded_ending hsur)
  have hl := lang_in h.shape hi hcs
  have hno : ∀ t ∈ cs, t.isNode = false := by
    intro t htm
    cases t with
    | token => rfl
    | node j ds =>
      exfalso
      have := lang_only (ks := []) (by decide +kernel) hl (mem_items_node htm)
      cases this
  obtain ⟨cs', j, x0, rfl⟩ : ∃ cs' j x, cs = cs' ++ [.token j x] := by
    rcases List.eq_nil_or_concat cs with rfl | ⟨cs', z, rfl⟩
    · exact absurd rfl (lang_full (by decide +kernel) hl)
    · cases z with
      | token j x => exact ⟨cs', j, x, by simp⟩
      | node j ds => cases hno (.node j ds) (by simp)
  have hlast : ending.lastToken = some ⟨.token j x0, ending.start + byteLen (textOf cs'),
      ⟨.TWIG_ENDING_BLOCK, ending.start, [] ++ cs', []⟩ :: ending.path⟩ := by
    unfold Elem.lastToken
    rw [hcs, lastTokenAt, last_in]
  obtain ⟨r, hr⟩ := lastTokenAt_eq _ _ _ _ hlast
  obtain ⟨x, y, hxy, hx⟩ := In_split hi
  generalize hlastd : (⟨.token j x0, ending.start + byteLen (textOf cs'),
      ⟨.TWIG_ENDING_BLOCK, ending.start, [] ++ cs', []⟩ :: ending.path⟩ : Elem) = last at hlast hr
  have hxm : (x ++ tokensOf (elemsAt ending.tree ending.start ending.path)).map kt =
      leavesBefore ending.path ++ ending.tree.leaves := by
    rw [List.map_append, hx, tokens_kt]
  refine ⟨x ++ tokensOf (elemsAt ending.tree ending.start ending.path), y, by rw [hxy]; simp, hxm, ?_,
    by rw [hr]; simp, ?_⟩
  · rw [hxm]
    refine endsSolid_append ?_ ?_
    · rw [hcs]
      exact ends_solid _ (Nat.le_refl _) (fine_in h hi hcs) (.inl (by decide))
    · rw [hcs]
      simp [Tree.leaves, leavesOf_append, leavesOf]
  · have hafter : last.tokensAfter = y := by
      refine tokenElems_after (root := root) (l := x ++ r) ?_
      rw [hxy, hr]; simp
    intro t
    constructor
    · rintro ⟨last', h1, h2⟩
      rw [hlast] at h1
      cases h1
      obtain ⟨r', hr'⟩ := nextToken_after h2
      rw [hafter] at hr'
      rw [hr']; rfl
    · intro hy
      refine ⟨last, hlast, ?_⟩
      cases hn : last.nextToken with
      | some t' =>
        obtain ⟨r', hr'⟩ := nextToken_after hn
        rw [hafter] at hr'
        rw [hr'] at hy
        exact hy
      | none =>
        exfalso
        have hempty : last.tokensAfter = [] := by
          unfold Elem.nextToken at hn
          unfold Elem.tokensAfter
          subst hlastd
          rw [(next_up rfl).1] at hn
          rw [(next_up rfl).2]
          dsimp only at hn ⊢
          rw [List.nil_append, ← hcs] at hn ⊢
          obtain ⟨hbe, ⟨kb, l, r1, het, _, hending, _, hpath⟩, _⟩ := hsur
          obtain ⟨ecs, hecs⟩ := nodeOf_tree hbe
          have hkb : kb = .TWIG_BLOCK := by rw [hecs] at het; cases het; rfl
          subst hkb
          have hr1 : r1 = [] := by
            have hlang := lang_in h.shape hin het
            rw [Shape.items_append, hcs, Shape.items] at hlang
            have hi := after_ending hlang rfl
            cases r1 with
            | nil => rfl
            | cons z r1 =>
              exfalso
              cases z with
              | node j zs => rw [Shape.items] at hi; cases hi
              | token j x =>
                rw [hpath, nextTokenFrom] at hn
                simp [firstTokenAt] at hn
          subst hr1
          rw [hpath] at hn ⊢
          rw [(next_up rfl).1] at hn
          rw [(next_up rfl).2]
          dsimp only at hn ⊢
          rw [← het] at hn ⊢
          exact next_none h hraw hin hbe hn
        rw [hafter] at hempty
        rw [hempty] at hy
        cases hy

/-- The place in front of a block: the first token of its beginning is the next one behind a token that is no
whitespace. -/
theorem before_iff {root : Tree} (h : Fine root) {e c : Elem} (hin : Elem.In root e) (hb : Beginning e c) :
    ∃ x y, root.tokenElems = x ++ y ∧ x.map kt = leavesBefore c.path ∧ EndsSolid (x.map kt) ∧
      ∀ t, FirstIn c t ↔ y.head? = some t := by
  have hi := In_beginning hin hb
  obtain ⟨x, y, hxy, hx⟩ := In_split hi
  refine ⟨x, tokensOf (elemsAt c.tree c.start c.path) ++ y, hxy, hx, ?_, ?_⟩
  · rw [hx]
    obtain ⟨k, cs, ht, hk⟩ := beginning_kind hb
    obtain ⟨tc, pc, path⟩ := c
    cases ht
    refine before_solid h hi ?_
    rintro rfl
    exact absurd hk (by decide)
  · intro t
    obtain ⟨k, cs, ht, hk⟩ := beginning_kind hb
    have hc := conforms_in h.shape hi
    rw [ht] at hc
    obtain ⟨t', r, f, hr, _⟩ := first_opened hc (opens_begin _ hk) c.start c.path
    unfold FirstIn
    rw [ht, hr]
    simp only [List.cons_append, List.head?_cons, Option.some.injEq, List.cons.injEq]
    constructor
    · rintro ⟨_, h, _⟩; exact h
    · rintro rfl; exact ⟨r, rfl, rfl⟩

end Ludtwig.Rules
