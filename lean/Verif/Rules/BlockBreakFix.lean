import Verif.Rules.BlockBreakProps
import Verif.Rules.QuoteFix
import Verif.Layout.BlockPlaces

/-!
# Fixing the line breaks around blocks: property C88
-/

namespace Ludtwig.Rules

open Cli Lexer Layout Shape

/-! ## Tokens by their kind -/

def openKinds : List SyntaxKind := [T!"{%", T!"{%-", T!"{%~", T!"{#", T!"{#-", T!"{#~", T!"<!--"]

def closeKinds : List SyntaxKind := [T!"%}", T!"-%}", T!"~%}"]

theorem literals_ends : ∀ l ∈ literals,
    (l.kind ∈ openKinds → l.ignoreCase = false ∧ openTexts.any (fun w => w.isPrefixOf l.text) = true) ∧
    (l.kind ∈ closeKinds → l.ignoreCase = false ∧ l.text.getLast? = some '}') := by decide +kernel

theorem token_ends {errLen : Text → Nat} {s p : Text} {k : SyntaxKind} {ts : List (SyntaxKind × Text)}
    (h : Tokenizes errLen s ((k, p) :: ts)) :
    (k ∈ openKinds → ∃ w ∈ openTexts, w <+: p) ∧ (k ∈ closeKinds → p.getLast? = some '}') := by
  have no : ∀ {k}, k ∉ openKinds → k ∉ closeKinds →
      (k ∈ openKinds → ∃ w ∈ openTexts, w <+: p) ∧ (k ∈ closeKinds → p.getLast? = some '}') :=
    fun h1 h2 => ⟨fun h => absurd h h1, fun h => absurd h h2⟩
  rcases tokenizes_step h with ⟨_, h⟩ | ⟨pre, post, k', ts1, hs, hne, hx, ht, hd⟩
  · cases h
  · cases hx
    rcases hd with ⟨q, j, hq, ⟨rfl, rfl, _⟩ | ⟨_, rfl, _⟩ | ⟨_, rfl, _⟩⟩ | ⟨rfl, _⟩
    · rcases hq.rule with ⟨l, hl, rfl, hm⟩ | ⟨r, hr, _⟩
      · obtain ⟨h1, h2⟩ := literals_ends l hl
        unfold Literal.Matches at hm
        refine ⟨fun hk => ?_, fun hk => ?_⟩
        · obtain ⟨g1, g2⟩ := h1 hk
          rw [g1] at hm
          have hm : p = l.text := by simpa using hm
          obtain ⟨w, hw, g⟩ := List.any_eq_true.1 g2
          exact ⟨w, hw, by rw [hm]; exact List.isPrefixOf_iff_prefix.1 g⟩
        · obtain ⟨g1, g2⟩ := h2 hk
          rw [g1] at hm
          have hm : p = l.text := by simpa using hm
          rw [hm]; exact g2
      · simp only [regexRules, List.mem_cons, List.not_mem_nil, or_false, Prod.mk.injEq] at hr
        rcases hr with ⟨_, rfl⟩ | ⟨_, rfl⟩ | ⟨_, rfl⟩ | ⟨_, rfl⟩ | ⟨_, rfl⟩ | ⟨_, rfl⟩ <;>
          exact no (by decide) (by decide)
    all_goals exact no (by decide) (by decide)

/-- What is known of the leaves of a parsed file. -/
structure LeafText (l : SyntaxKind × Text) : Prop where
  nonempty : l.2 ≠ []
  blanks : l.1.isTrivia = true → Blanks l.2
  opens : l.1 ∈ openKinds → ∃ w ∈ openTexts, w <+: l.2
  closes : l.1 ∈ closeKinds → l.2.getLast? = some '}'

theorem tokens_text {errLen : Text → Nat} {ts : List (SyntaxKind × Text)} : ∀ {s : Text},
    Tokenizes errLen s ts → ∀ l ∈ ts, LeafText l := by
  induction ts with
  | nil => intro s _ l hl; cases hl
  | cons x ts ih =>
    intro s h l hl
    rcases List.mem_cons.1 hl with rfl | hl
    · have h1 := tokenizes_trivia h l (by simp)
      have h2 := token_ends (k := l.1) (p := l.2) h
      exact ⟨h1.1, fun hk => (h1.2.1 hk).1, h2.1, h2.2⟩
    · exact ih (tokenizes_split (l := [x]) h) l hl

theorem leaves_known {errLen : Text → Nat} (he : ErrLenOk errLen) {s : Text} {p : Parse}
    (h : parse errLen s = .ok p) : ∀ l ∈ p.tree.leaves, LeafText l := by
  obtain ⟨trees, h1, h2⟩ := C05_root_covers errLen s p h
  rw [h1]
  show ∀ l ∈ leavesOf trees, LeafText l
  have h3 : ∀ t ∈ lex errLen s, LeafText (t.kind, t.text) := fun t ht =>
    tokens_text (C49_lex_tokenizes he s) _ (List.mem_map.2 ⟨t, ht, rfl⟩)
  have word : ∀ x : Text, x ≠ [] → LeafText (T!"word", x) := fun x hx =>
    ⟨hx, nofun, fun h => absurd (show SyntaxKind.TK_WORD ∈ openKinds from h) (by decide),
      fun h => absurd (show SyntaxKind.TK_WORD ∈ closeKinds from h) (by decide)⟩
  generalize leavesOf trees = ls at h2
  generalize lex errLen s = ts at h2 h3
  induction h2 with
  | nil => simp
  | same t _ ih =>
    intro l hl
    rcases List.mem_cons.mp hl with rfl | hl
    · exact h3 t List.mem_cons_self
    · exact ih (fun t ht => h3 t (List.mem_cons_of_mem _ ht)) l hl
  | word t _ _ ih =>
    intro l hl
    rcases List.mem_cons.mp hl with rfl | hl
    · exact word _ (h3 t List.mem_cons_self).nonempty
    · exact ih (fun t ht => h3 t (List.mem_cons_of_mem _ ht)) l hl
  | merged t u _ _ _ ih =>
    intro l hl
    rcases List.mem_cons.mp hl with rfl | hl
    · exact word _ (by have := (h3 t List.mem_cons_self).nonempty; simp at this; simp [this])
    · exact ih (fun t ht => h3 t (List.mem_cons_of_mem _ (List.mem_cons_of_mem _ ht))) l hl

/-! ## First and last tokens of nodes -/

/-- Every word begins with a token of one of the kinds. -/
def opensWith (ks : List SyntaxKind) : Rx → Bool
  | .tok l => l.all (ks.contains ·)
  | .seq a _ => opensWith ks a
  | .alt a b => opensWith ks a && opensWith ks b
  | .sure a => opensWith ks a
  | _ => false

theorem lang_opensWith {ks : List SyntaxKind} : ∀ {r : Rx} {w : List Shape.Item}, opensWith ks r = true → r.Lang w →
    ∃ k ∈ ks, ∃ v, w = ⟨false, k⟩ :: v
  | .tok l, w, h, hl => by
    obtain ⟨k, hk, rfl⟩ := hl
    exact ⟨k, by simpa using List.all_eq_true.1 h k hk, [], rfl⟩
  | .seq a b, w, h, hl => by
    obtain ⟨u, v, rfl, h1, _⟩ := hl
    obtain ⟨k, hk, u', rfl⟩ := lang_opensWith (r := a) h h1
    exact ⟨k, hk, u' ++ v, rfl⟩
  | .alt a b, w, h, hl => by
    rw [opensWith, Bool.and_eq_true] at h
    rcases hl with hl | hl
    · exact lang_opensWith h.1 hl
    · exact lang_opensWith h.2 hl
  | .sure a, w, h, hl => lang_opensWith (r := a) h hl

/-- Every word ends with a token of one of the kinds. -/
def closesWith (ks : List SyntaxKind) : Rx → Bool
  | .tok l => l.all (ks.contains ·)
  | .seq _ b => closesWith ks b
  | .alt a b => closesWith ks a && closesWith ks b
  | .sure a => closesWith ks a
  | _ => false

theorem lang_closesWith {ks : List SyntaxKind} : ∀ {r : Rx} {w : List Shape.Item}, closesWith ks r = true → r.Lang w →
    ∃ k ∈ ks, ∃ v, w = v ++ [⟨false, k⟩]
  | .tok l, w, h, hl => by
    obtain ⟨k, hk, rfl⟩ := hl
    exact ⟨k, by simpa using List.all_eq_true.1 h k hk, [], rfl⟩
  | .seq a b, w, h, hl => by
    obtain ⟨u, v, rfl, _, h1⟩ := hl
    obtain ⟨k, hk, u', rfl⟩ := lang_closesWith (r := b) h h1
    exact ⟨k, hk, u ++ u', by simp⟩
  | .alt a b, w, h, hl => by
    rw [closesWith, Bool.and_eq_true] at h
    rcases hl with hl | hl
    · exact lang_closesWith h.1 hl
    · exact lang_closesWith h.2 hl
  | .sure a, w, h, hl => lang_closesWith (r := a) h hl

theorem items_opened : ∀ {cs : List Tree} {k : SyntaxKind} {v : List Shape.Item}, Shape.items cs = ⟨false, k⟩ :: v →
    ∃ g x r, leavesOf cs = g ++ (k, x) :: r ∧ ∀ l ∈ g, l.1.isTrivia = true
  | [], k, v, h => by cases h
  | .token j x :: cs, k, v, h => by
    rw [Shape.items] at h
    split at h
    · rename_i hj
      obtain ⟨g, y, r, h1, h2⟩ := items_opened h
      refine ⟨(j, x) :: g, y, r, by rw [leavesOf, h1]; simp [Tree.leaves], ?_⟩
      intro l hl
      rcases List.mem_cons.1 hl with rfl | hl
      · exact hj
      · exact h2 l hl
    · cases h
      exact ⟨[], x, leavesOf cs, by simp [leavesOf, Tree.leaves], by simp⟩
  | .node j x :: cs, k, v, h => by rw [Shape.items] at h; cases h

theorem items_trivia : ∀ {cs : List Tree}, Shape.items cs = [] → ∀ l ∈ leavesOf cs, l.1.isTrivia = true
  | [], _, l, hl => by cases hl
  | .token j x :: cs, h, l, hl => by
    rw [Shape.items] at h
    split at h
    · rename_i hj
      rw [leavesOf, Tree.leaves] at hl
      rcases List.mem_append.1 hl with hl | hl
      · simp at hl; subst hl; exact hj
      · exact items_trivia h l hl
    · cases h
  | .node j x :: cs, h, l, hl => by rw [Shape.items] at h; cases h

theorem items_closed : ∀ {cs : List Tree} {k : SyntaxKind} {v : List Shape.Item}, Shape.items cs = v ++ [⟨false, k⟩] →
    ∃ r x g, leavesOf cs = r ++ (k, x) :: g ∧ ∀ l ∈ g, l.1.isTrivia = true
  | [], k, v, h => by simp [Shape.items] at h
  | .token j x :: cs, k, v, h => by
    rw [Shape.items] at h
    split at h
    · obtain ⟨r, y, g, h1, h2⟩ := items_closed h
      exact ⟨(j, x) :: r, y, g, by rw [leavesOf, h1]; simp [Tree.leaves], h2⟩
    · cases v with
      | nil =>
        simp at h
        obtain ⟨rfl, h⟩ := h
        exact ⟨[], x, leavesOf cs, by simp [leavesOf, Tree.leaves], items_trivia h⟩
      | cons i v =>
        simp only [List.cons_append, List.cons.injEq] at h
        obtain ⟨r, y, g, h1, h2⟩ := items_closed h.2
        exact ⟨(j, x) :: r, y, g, by rw [leavesOf, h1]; simp [Tree.leaves], h2⟩
  | .node j x :: cs, k, v, h => by
    rw [Shape.items] at h
    cases v with
    | nil => simp at h
    | cons i v =>
      simp only [List.cons_append, List.cons.injEq] at h
      obtain ⟨r, y, g, h1, h2⟩ := items_closed h.2
      exact ⟨(Tree.node j x).leaves ++ r, y, g, by rw [leavesOf, h1]; simp, h2⟩

/-! ## Where elements lie -/

theorem children_elems {c : Elem} {path : List Frame} {k : SyntaxKind} {start : Nat} :
    ∀ {cs before : List Tree} {pos : Nat}, c ∈ childElems path k start before pos cs →
    ∃ x y, elemsIn cs k start before pos path = x ++ (elemsAt c.tree c.start c.path ++ y)
  | [], before, pos, h => by cases h
  | t :: ts, before, pos, h => by
    rw [childElems] at h
    rcases List.mem_cons.1 h with rfl | h
    · exact ⟨[], _, by rw [elemsIn]; rfl⟩
    · obtain ⟨x, y, h⟩ := children_elems h
      exact ⟨elemsAt t pos (⟨k, start, before, ts⟩ :: path) ++ x, y, by rw [elemsIn, h]; simp⟩

theorem In_elems {root : Tree} {c : Elem} (h : Elem.In root c) :
    ∃ x y, root.elems = x ++ (elemsAt c.tree c.start c.path ++ y) := by
  induction h with
  | root => exact ⟨[], [], by simp [Tree.elems, Elem.descendants]⟩
  | @child p c _ hc ih =>
    obtain ⟨x, y, h⟩ := ih
    unfold Elem.childrenWithTokens at hc
    split at hc
    · cases hc
    · rename_i k cs ht
      obtain ⟨x', y', h'⟩ := children_elems hc
      rw [ht, elemsAt, h'] at h
      exact ⟨x ++ (⟨.node k cs, p.start, p.path⟩ :: x'), y' ++ y, by rw [h]; simp⟩

theorem In_tokens_between {root : Tree} {c : Elem} (h : Elem.In root c) :
    ∃ x y, root.tokenElems = x ++ (tokensOf (elemsAt c.tree c.start c.path) ++ y) := by
  obtain ⟨x, y, h⟩ := In_elems h
  refine ⟨tokensOf x, tokensOf y, ?_⟩
  show tokensOf root.elems = _
  rw [h, tokensOf_append, tokensOf_append]

/-- Kind and text of an element. -/
def kt (e : Elem) : SyntaxKind × Text := (e.kind, e.text)

theorem placed_snd : ∀ (ls : List (SyntaxKind × Text)) (pos : Nat), (placed pos ls).map (·.2) = ls
  | [], _ => rfl
  | (k, t) :: ls, pos => by rw [placed, List.map_cons, placed_snd]

theorem tokens_kt (c : Tree) (pos : Nat) (path : List Frame) :
    (tokensOf (elemsAt c pos path)).map kt = c.leaves := by
  have := congrArg (List.map (·.2)) (elemsAt_leaves c pos path)
  rw [placed_snd, List.map_map] at this
  exact this

theorem token_place {root : Tree} {x y : List Elem} {t : Elem} (h : root.tokenElems = x ++ t :: y) :
    root.leaves = x.map kt ++ kt t :: y.map kt ∧ t.start = byteLen ((x.map kt).flatMap (·.2)) := by
  have hm := tokenElems_leaves root
  have h1 : root.tokenElems.map kt = root.leaves := tokens_kt root 0 []
  rw [h, List.map_append, List.map_cons] at h1
  refine ⟨h1.symm, ?_⟩
  rw [h, ← h1, placed_append, List.map_append, List.map_cons, placed] at hm
  have hlen : (x.map (·.leaf)).length = (placed 0 (x.map kt)).length := by
    have := congrArg List.length (placed_snd (x.map kt) 0)
    simp only [List.length_map] at this ⊢
    exact this.symm
  have := (List.append_inj hm hlen).2
  simp only [List.cons.injEq] at this
  have h2 := congrArg (·.1) this.1
  simpa [Elem.leaf] using h2

/-! ## The places of the findings -/

/-- No token apart from line breaks ends with CR. -/
def NoCr (root : Tree) : Prop := ∀ l ∈ root.leaves, l.1.isTrivia = false → l.2.getLast? ≠ some '\r'

theorem covers_head {k : SyntaxKind} {x : Text} {ls : List (SyntaxKind × Text)} {T : List Token}
    (h : Covers ((k, x) :: ls) T) : ∃ t r, T = t :: r ∧ (k = .TK_LINE_BREAK ↔ t.kind = .TK_LINE_BREAK) ∧
      (k = .TK_LINE_BREAK → t.text = x) ∧ t.text <+: x := by
  cases h with
  | same t h => exact ⟨t, _, rfl, Iff.rfl, fun _ => rfl, List.prefix_refl _⟩
  | word t hk h =>
    refine ⟨t, _, rfl, ⟨nofun, fun h => ?_⟩, nofun, List.prefix_refl _⟩
    rw [h] at hk; cases hk
  | merged t u hk _ h =>
    refine ⟨t, _, rfl, ⟨nofun, fun h => ?_⟩, nofun, List.prefix_append _ _⟩
    rw [h] at hk; cases hk

theorem covers_flat {ls : List (SyntaxKind × Text)} {T : List Token} (h : Covers ls T) :
    T.flatMap (·.text) = ls.flatMap (·.2) := by
  induction h with
  | nil => rfl
  | same t _ ih => simp [ih]
  | word t _ _ ih => simp [ih]
  | merged t u _ _ _ ih => simp [ih]

theorem flatten_replicate (n : Nat) (l : List Text) :
    (List.replicate n l.flatten).flatten = ((List.replicate n l).flatten).flatten := by
  induction n with
  | zero => rfl
  | succ n ih => simp only [List.replicate_succ, List.flatten_cons, List.flatten_append, ih]

/-- Where a finding is: at a token, with a place in front of it where line breaks can be put. -/
theorem finding_breakAt {errLen : Text → Nat} (he : ErrLenOk errLen) {s : Text} {p : Parse}
    (h : parse errLen s = .ok p) {x y : List Elem} {t : Elem} (ht : p.tree.tokenElems = x ++ t :: y)
    {n : Nat} (hn : n ≠ 0) {config : Config} {res : CheckResult} (hf : BreakFinding config n t res)
    (h1 : ((x.map kt).flatMap (·.2)).getLast? ≠ some '<') (h2 : ((x.map kt).flatMap (·.2)).getLast? ≠ some '\r')
    (h3 : ¬ EndsTwoWords ((x.map kt).flatMap (·.2)))
    (h4 : ((x.map kt).flatMap (·.2)).getLast? = some ':' → t.text.head?.any Char.isAlpha = false) :
    ∀ sug ∈ res.suggestions, BreakAt [] (lex errLen s) sug := by
  obtain ⟨_, range, hr, rfl⟩ := hf
  intro sug hs
  simp only [List.mem_singleton] at hs
  subst hs
  obtain ⟨hl, hst⟩ := token_place ht
  obtain ⟨trees, g1, g2⟩ := C05_root_covers errLen s p h
  have g3 : p.tree.leaves = leavesOf trees := by rw [g1]; rfl
  rw [← g3, hl] at g2
  obtain ⟨T1, T2, e, c1, c2⟩ := Template.covers_split g2
  obtain ⟨v, r, rfl, k1, k2, k3⟩ := covers_head c2
  have hu : ([] ++ T1.flatMap (·.text) : Text) = (x.map kt).flatMap (·.2) := covers_flat c1
  have hv : v.text ≠ [] := (C02_lex_partition he s).2.2 v (by rw [e]; simp)
  have hend : IsLineBreaks config.lineEnding.text ∧ config.lineEnding.text ≠ [] := by
    cases config.lineEnding
    · exact ⟨⟨[['\n']], rfl, by simp⟩, by decide⟩
    · exact ⟨⟨[['\r', '\n']], rfl, by simp⟩, by decide⟩
  refine ⟨?_, ?_, T1, v, r, e, ?_, ?_⟩
  · obtain ⟨⟨l, hl1, hl2⟩, _⟩ := hend
    refine ⟨(List.replicate n l).flatten, ?_, ?_⟩
    · show (List.replicate n config.lineEnding.text).flatten = _
      rw [hl1, flatten_replicate]
    · intro z hz
      obtain ⟨w, hw, hz⟩ := List.mem_flatten.1 hz
      rw [List.eq_of_mem_replicate hw] at hz
      exact hl2 z hz
  · intro h0
    have h0 : (List.replicate n config.lineEnding.text).flatten = [] := h0
    cases n with
    | zero => exact hn rfl
    | succ n =>
      rw [List.replicate_succ, List.flatten_cons] at h0
      exact hend.2 (List.append_eq_nil_iff.1 h0).1
  · rw [hu]
    refine ⟨h1, h2, h3, fun hc => ⟨v, rfl, ?_⟩⟩
    have := h4 hc
    obtain ⟨z, hz⟩ := k3
    have hz : t.text = v.text ++ z := hz.symm
    rw [hz] at this
    cases hvt : v.text with
    | nil => exact absurd hvt hv
    | cons a b => rw [hvt] at this; exact this
  · rw [hu]
    dsimp only
    rw [hr]
    by_cases hk : t.kind = .TK_LINE_BREAK
    · have hk' := k1.1 hk
      rw [if_pos hk, if_pos hk', k2 hk, ← hst]
      rfl
    · have hk' : v.kind ≠ .TK_LINE_BREAK := fun hv => hk (k1.2 hv)
      rw [if_neg hk, if_neg hk', ← hst]

theorem last_of_leaves {x : List (SyntaxKind × Text)} {l : SyntaxKind × Text} (hl : l.2 ≠ []) :
    ((x ++ [l]).flatMap (·.2)).getLast? = l.2.getLast? := by
  rw [List.flatMap_append, List.getLast?_append]
  simp only [List.flatMap_cons, List.flatMap_nil, List.append_nil]
  cases h : l.2.getLast? with
  | none => exact absurd (List.getLast?_eq_none_iff.1 h) hl
  | some c => rfl

theorem words_last {u : Text} (h : EndsTwoWords u) : u.getLast? = some 'n' ∨ u.getLast? = some 't' := by
  rcases h with ⟨x, rfl⟩ | ⟨x, rfl⟩
  · left; rw [List.getLast?_append]; rfl
  · right; rw [List.getLast?_append]; rfl

/-- The last character before a place is not a CR. -/
theorem place_cr {errLen : Text → Nat} (he : ErrLenOk errLen) {s : Text} {p : Parse}
    (h : parse errLen s = .ok p) (hcr : NoCr p.tree) {x y : List Elem} {t : Elem}
    (ht : p.tree.tokenElems = x ++ t :: y) : ((x.map kt).flatMap (·.2)).getLast? ≠ some '\r' := by
  obtain ⟨hl, _⟩ := token_place ht
  rcases List.eq_nil_or_concat x with rfl | ⟨x', z, rfl⟩
  · simp
  · rw [List.concat_eq_append] at *
    have hm : kt z ∈ p.tree.leaves := by rw [hl]; simp
    have hk := leaves_known he h _ hm
    rw [List.map_append, List.map_cons, List.map_nil, last_of_leaves hk.nonempty]
    cases htr : (kt z).1.isTrivia with
    | true => exact (blanks_last (hk.blanks htr) hk.nonempty).1
    | false => exact hcr _ hm htr

/-- A place behind a block. -/
theorem behind_place {errLen : Text → Nat} (he : ErrLenOk errLen) {s : Text} {p : Parse}
    (h : parse errLen s = .ok p) (herr : p.errors = []) {ending t : Elem} (hin : Elem.In p.tree ending)
    (hk : nodeOf .TWIG_ENDING_BLOCK ending.tree = true) (hb : Behind ending t) :
    ∃ x y, p.tree.tokenElems = x ++ t :: y ∧ ∃ c, ((x.map kt).flatMap (·.2)).getLast? = some c ∧
      (c = '}' ∨ (blankChar c = true ∧ c ≠ '\r')) := by
  obtain ⟨x, last, y, r, h1, h2⟩ := C72_behind_is_next hin hb
  have h1' : p.tree.tokenElems = (x ++ [last]) ++ t :: y := by rw [h1]; simp
  refine ⟨x ++ [last], y, h1', ?_⟩
  obtain ⟨hl, _⟩ := token_place h1'
  have hm : kt last ∈ p.tree.leaves := by rw [hl]; simp
  have hk2 := leaves_known he h _ hm
  rw [List.map_append, List.map_cons, List.map_nil, last_of_leaves hk2.nonempty]
  -- the last token of the ending tag
  obtain ⟨cs, ht⟩ := nodeOf_tree hk
  have hlang := lang_in (C62_error_free_tree h herr) hin ht
  obtain ⟨k, hkc, v, hv⟩ := lang_closesWith (ks := closeKinds) (by decide) hlang
  obtain ⟨r', z, g, h3, h4⟩ := items_closed hv
  have h5 := tokens_kt ending.tree ending.start ending.path
  rw [h2, ht, Tree.leaves, h3, List.map_append, List.map_cons, List.map_nil] at h5
  have hcases : (kt last).1.isTrivia = true ∨ (kt last).1 ∈ closeKinds := by
    rcases List.eq_nil_or_concat g with rfl | ⟨g', w, rfl⟩
    · have := List.append_inj_right' h5 rfl
      simp only [List.cons.injEq, and_true] at this
      rw [this]
      exact .inr hkc
    · rw [List.concat_eq_append] at *
      have h6 : r.map kt ++ [kt last] = (r' ++ (k, z) :: g') ++ [w] := by rw [h5]; simp
      have := List.append_inj_right' h6 rfl
      simp only [List.cons.injEq, and_true] at this
      rw [this]
      exact .inl (h4 w (by simp))
  rcases hcases with ht | ht
  · have hbl := hk2.blanks ht
    obtain ⟨q1, q2⟩ := blanks_last hbl hk2.nonempty
    cases hc : (kt last).2.getLast? with
    | none => exact absurd (List.getLast?_eq_none_iff.1 hc) hk2.nonempty
    | some c =>
      refine ⟨c, rfl, .inr ⟨?_, ?_⟩⟩
      · cases hbc : blankChar c with
        | true => rfl
        | false => exact absurd hc (q2 c hbc)
      · rintro rfl; exact q1 hc
  · exact ⟨'}', hk2.closes ht, .inl rfl⟩

/-- A place in front of a block or a comment. -/
theorem before_place {errLen : Text → Nat} (he : ErrLenOk errLen) {s : Text} {p : Parse}
    (h : parse errLen s = .ok p) {c t : Elem} (hin : Elem.In p.tree c)
    {cs : List Tree} {k : SyntaxKind} (ht : c.tree = .node k cs) (hc : Conforms production p.tree)
    (hk : opensWith openKinds (production k) = true) (hf : FirstIn c t) :
    ∃ x y, p.tree.tokenElems = x ++ t :: y ∧ BlockNext (((t :: y).map kt).flatMap (·.2)) := by
  obtain ⟨r, hr⟩ := hf
  obtain ⟨x, y, hxy⟩ := In_tokens_between hin
  have hxy' : p.tree.tokenElems = x ++ t :: (r ++ y) := by rw [hxy, hr]; simp
  refine ⟨x, r ++ y, hxy', ?_⟩
  obtain ⟨hl, _⟩ := token_place hxy'
  obtain ⟨k', hk', v, hv⟩ := lang_opensWith hk (lang_in hc hin ht)
  obtain ⟨g, z, q, h3, h4⟩ := items_opened hv
  have h5 := tokens_kt c.tree c.start c.path
  rw [hr, ht, Tree.leaves, h3] at h5
  have h6 : (t :: (r ++ y)).map kt = g ++ (k', z) :: (q ++ y.map kt) := by
    rw [← List.cons_append, List.map_append, h5]; simp
  have hknown : ∀ l ∈ (t :: (r ++ y)).map kt, LeafText l := fun l hlm =>
    leaves_known he h l (by rw [hl]; exact List.mem_append_right _ (by simpa using hlm))
  rw [h6] at hknown ⊢
  obtain ⟨w, hw, z', hz⟩ := (hknown (k', z) (by simp)).opens hk'
  dsimp only at hz
  refine ⟨g.flatMap (·.2), w, z' ++ (q ++ y.map kt).flatMap (·.2), ?_, ?_, hw⟩
  · rw [List.flatMap_append, List.flatMap_cons, ← hz]; simp
  · intro c hc
    obtain ⟨l, hl, hc⟩ := List.mem_flatMap.1 hc
    exact blanks_chars ((hknown l (by simp [hl])).blanks (h4 l hl)) c hc

end Ludtwig.Rules
