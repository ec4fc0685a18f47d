import Verif.Rules.LineStarts
import Verif.Rules.EngineProps
import Verif.Rules.WhitespaceProps
import Verif.Layout.LineSuggestions

/-!
# Fixing the layout of a file: property C70

With only `indentation` and `whitespace-between-line-breaks` among the rules that suggest something,
`--fix` does not change the structure of a file without parse errors.
-/

namespace Ludtwig.Rules

open Cli Lexer Layout Shape

/-! ## Specification -/

/-- The rules that suggest nothing, and the two rules for whitespace at line starts. -/
def layoutRules : List RuleName :=
  ["indentation".toList, "whitespace-between-line-breaks".toList,
    "ludtwig-ignore-file-not-on-top".toList, "twig-block-duplicate".toList, "html-duplicate-id".toList,
    "twig-variable-definition-naming".toList, "twig-valid-filter".toList, "twig-valid-test".toList,
    "twig-valid-function".toList]

/-! ## Tokens at line starts -/

theorem isBreak_kind {e : Elem} (h : e.isNode = false) : isBreak e = (e.kind == .TK_LINE_BREAK) := by
  obtain ⟨t, pos, path⟩ := e
  cases t with
  | token k x => rfl
  | node k cs => cases h

theorem starts_allowed : ∀ (x : List Elem) {y : List Elem} {t : Elem} {a : Bool} {pos : Nat}
    {ls : List (SyntaxKind × Text)} {new : Text}, (∀ e ∈ x, e.isNode = false) →
    (x ++ t :: y).map (·.leaf) = placed pos ls → endsBreak a x = true → Blanks new →
    (t.kind = .TK_WHITESPACE → AtLineStart a pos ls ⟨t.range, new⟩) ∧
    (t.kind.isTrivia = false → AtLineStart a pos ls ⟨emptyAt t.start, new⟩)
  | [], y, t, a, pos, [], new, _, h, _, _ => by simp [placed] at h
  | [], y, t, a, pos, (k, x) :: ls, new, _, h, ha, hb => by
    simp only [List.nil_append, List.map_cons, placed, List.cons.injEq, Elem.leaf, Prod.mk.injEq] at h
    obtain ⟨⟨h1, h2, h3⟩, _⟩ := h
    have ha : a = true := ha
    subst ha
    refine ⟨fun hk => ?_, fun hk => ?_⟩
    · rw [hk] at h2
      subst h2
      have : t.range = ⟨pos, pos + byteLen x⟩ := by
        show (⟨t.start, t.start + byteLen t.text⟩ : TextRange) = _
        rw [h1, h3]
      rw [this]
      exact .space hb
    · rw [h2] at hk
      have : emptyAt t.start = ⟨pos, pos⟩ := by unfold emptyAt; rw [h1]
      rw [this]
      exact .insert hk hb
  | e :: x, y, t, a, pos, [], new, _, h, _, _ => by simp [placed] at h
  | e :: x, y, t, a, pos, (k, z) :: ls, new, hn, h, ha, hb => by
    simp only [List.cons_append, List.map_cons, placed, List.cons.injEq, Elem.leaf, Prod.mk.injEq] at h
    obtain ⟨⟨h1, h2, h3⟩, h4⟩ := h
    have ha' : endsBreak (k == .TK_LINE_BREAK) x = true := by
      have : endsBreak a (e :: x) = endsBreak (isBreak e) x := rfl
      rw [this, isBreak_kind (hn e List.mem_cons_self), h2] at ha
      exact ha
    obtain ⟨g1, g2⟩ := starts_allowed x (fun e he => hn e (List.mem_cons_of_mem _ he)) h4 ha' hb
    exact ⟨fun hk => .later (g1 hk), fun hk => .later (g2 hk)⟩

theorem starts_split : ∀ (l : List Elem) (prev : Option Elem) (a : Bool),
    TrueLines seen (afterBreak prev) a l →
    ∀ t ∈ (((prev :: (l.filter seen).map some).zip (l.filter seen)).filter (fun p =>
      !isTokenOf .TK_LINE_BREAK p.2.tree && afterBreak p.1)).map (·.2),
    ∃ x y, l = x ++ t :: y ∧ isBreak t = false ∧ endsBreak a x = true
  | [], prev, a, _, t, ht => by simp at ht
  | e :: l, prev, a, h, t, ht => by
    simp only [TrueLines] at h
    cases hs : seen e with
    | false =>
      rw [hs] at h
      simp only [Bool.false_eq_true, if_false] at h
      rw [List.filter_cons_of_neg (by rw [hs]; exact Bool.false_ne_true)] at ht
      obtain ⟨x, y, rfl, h2, h3⟩ := starts_split l prev (isBreak e) h t ht
      exact ⟨e :: x, y, rfl, h2, h3⟩
    | true =>
      rw [hs] at h
      simp only [if_true] at h
      rw [List.filter_cons_of_pos hs] at ht
      simp only [List.map_cons, List.zip_cons_cons, List.filter_cons] at ht
      have hrec := starts_split l (some e) (isBreak e) h.2
      split at ht
      · rename_i hc
        simp only [Bool.and_eq_true, Bool.not_eq_true'] at hc
        rw [List.map_cons] at ht
        rcases List.mem_cons.mp ht with rfl | ht
        · exact ⟨[], l, rfl, hc.1, h.1 hc.1 hc.2⟩
        · obtain ⟨x, y, rfl, h2, h3⟩ := hrec t ht
          exact ⟨e :: x, y, rfl, h2, h3⟩
      · obtain ⟨x, y, rfl, h2, h3⟩ := hrec t ht
        exact ⟨e :: x, y, rfl, h2, h3⟩

theorem visibleTokens_eq (root : Tree) : visibleTokens root = root.tokenElems.filter seen := by
  unfold visibleTokens Tree.tokenElems Elem.reached Tree.elems
  rw [List.filter_filter, List.filter_filter]
  congr 1
  funext e
  exact Bool.and_comm ..

theorem lineStarts_split {root : Tree} (hn : Neat root) {t : Elem}
    (ht : t ∈ lineStarts (visibleTokens root)) :
    ∃ x y, root.tokenElems = x ++ t :: y ∧ isBreak t = false ∧ endsBreak true x = true := by
  rw [visibleTokens_eq] at ht
  exact starts_split _ none true (lines_true hn) t ht

theorem tokenElems_token {root : Tree} {e : Elem} (h : e ∈ root.tokenElems) : e.isNode = false := by
  simpa using (List.mem_filter.mp h).2

theorem kind_cases {k : SyntaxKind} (h : (k == .TK_LINE_BREAK) = false) (hw : k ≠ .TK_WHITESPACE) :
    k.isTrivia = false := by
  revert h hw
  cases k <;> simp [SyntaxKind.isTrivia]

/-! ## The order of tokens -/

theorem placed_le {pos : Nat} {ls : List (SyntaxKind × Text)} {x : Nat × SyntaxKind × Text}
    (h : x ∈ placed pos ls) : pos ≤ x.1 := by
  induction ls generalizing pos with
  | nil => simp [placed] at h
  | cons a ls ih =>
    simp only [placed, List.mem_cons] at h
    rcases h with rfl | h
    · exact Nat.le_refl _
    · have := ih h; omega

theorem placed_ordered (ls : List (SyntaxKind × Text)) : ∀ pos : Nat,
    (placed pos ls).Pairwise (fun a b => a.1 + byteLen a.2.2 ≤ b.1) := by
  induction ls with
  | nil => intro pos; exact .nil
  | cons a ls ih =>
    intro pos
    rw [placed, List.pairwise_cons]
    exact ⟨fun b hb => placed_le hb, ih _⟩

theorem tokenElems_ordered (root : Tree) :
    root.tokenElems.Pairwise (fun a b => a.start + byteLen a.text ≤ b.start) := by
  have := placed_ordered root.leaves 0
  rw [← tokenElems_leaves, List.pairwise_map] at this
  exact this

/-- The leaves of a parsed file are not empty. -/
theorem parsed_leaves {errLen : Text → Nat} (he : ErrLenOk errLen) {s : Text} {p : Parse}
    (h : parse errLen s = .ok p) : ∀ l ∈ p.tree.leaves, l.2 ≠ [] := by
  obtain ⟨trees, h1, h2⟩ := C05_root_covers errLen s p h
  rw [h1]
  show ∀ l ∈ leavesOf trees, l.2 ≠ []
  have h3 : ∀ t ∈ lex errLen s, t.text ≠ [] := by
    intro t ht
    exact (tokenizes_trivia (C49_lex_tokenizes he s) (t.kind, t.text)
      (List.mem_map.mpr ⟨t, ht, rfl⟩)).1
  generalize leavesOf trees = ls at h2
  generalize lex errLen s = ts at h2 h3
  induction h2 with
  | nil => simp
  | same t _ ih =>
    intro l hl
    rcases List.mem_cons.mp hl with rfl | hl
    · exact h3 t List.mem_cons_self
    · exact ih (fun t ht => h3 t (List.mem_cons_of_mem _ ht)) l hl
  | word t _ _ ih =>
    intro l hl
    rcases List.mem_cons.mp hl with rfl | hl
    · exact h3 t List.mem_cons_self
    · exact ih (fun t ht => h3 t (List.mem_cons_of_mem _ ht)) l hl
  | merged t u _ _ _ ih =>
    intro l hl
    rcases List.mem_cons.mp hl with rfl | hl
    · have := h3 t List.mem_cons_self
      simp [this]
    · exact ih (fun t ht => h3 t (List.mem_cons_of_mem _ (List.mem_cons_of_mem _ ht))) l hl

/-! ## The suggestions of the indentation rule -/

theorem rcs_append (a b : List CheckResult) : getRuleContextSuggestions (a ++ b) =
    getRuleContextSuggestions a ++ getRuleContextSuggestions b := by
  simp [getRuleContextSuggestions]

theorem rcs_flatMap {α : Type} (l : List α) (f : α → List CheckResult) :
    getRuleContextSuggestions (l.flatMap f) = l.flatMap (fun a => getRuleContextSuggestions (f a)) := by
  simp [getRuleContextSuggestions, List.flatMap_assoc]

theorem mem_rcs {l : List CheckResult} {p : RuleName × Suggestion} :
    p ∈ getRuleContextSuggestions l ↔ ∃ x ∈ l, x.rule = p.1 ∧ p.2 ∈ x.suggestions := by
  unfold getRuleContextSuggestions
  simp only [List.mem_flatMap, List.mem_map]
  constructor
  · rintro ⟨x, hx, s, hs, rfl⟩; exact ⟨x, hx, rfl, hs⟩
  · rintro ⟨x, hx, hr, hs⟩; exact ⟨x, hx, p.2, hs, by rw [hr]⟩

theorem expected_blanks (config : Config) (l n : Nat) : Blanks (expectedIndent config l n) := by
  refine blanks_of_chars (fun c hc => ?_)
  unfold expectedIndent at hc
  rcases List.mem_append.mp hc with h | h
  · rw [List.eq_of_mem_replicate h]
    cases config.indentationMode <;> rfl
  · rw [List.eq_of_mem_replicate h]; rfl

theorem lineFindings_rcs (config : Config) (t : Elem) :
    (getRuleContextSuggestions (lineFindings config t) = [] ∨
      ∃ new, Blanks new ∧
        ((t.kind = .TK_WHITESPACE ∧ getRuleContextSuggestions (lineFindings config t) =
            [("indentation".toList, ⟨t.range, new⟩)]) ∨
         (t.kind ≠ .TK_WHITESPACE ∧ getRuleContextSuggestions (lineFindings config t) =
            [("indentation".toList, ⟨emptyAt t.start, new⟩)]))) := by
  unfold lineFindings
  split
  · exact .inl rfl
  · unfold firstTokenInLine
    split
    · rename_i hk
      split
      · exact .inr ⟨_, expected_blanks _ _ _, .inl ⟨by simpa using hk, rfl⟩⟩
      · exact .inl rfl
    · rename_i hk
      split
      · exact .inr ⟨_, expected_blanks _ _ _, .inr ⟨by simpa using hk, rfl⟩⟩
      · exact .inl rfl

theorem zip_snd {l : List Elem} : ∀ prev : Option Elem, ((prev :: l.map some).zip l).map (·.2) = l := by
  induction l with
  | nil => intro prev; rfl
  | cons e l ih => intro prev; simp only [List.map_cons, List.zip_cons_cons, ih]

theorem lineStarts_sublist (l : List Elem) : (lineStarts l).Sublist l := by
  unfold lineStarts withPrevious
  have := (List.filter_sublist (p := fun p : Option Elem × Elem =>
    !isTokenOf .TK_LINE_BREAK p.2.tree &&
      (match p.1 with
        | none => true
        | some b => isTokenOf .TK_LINE_BREAK b.tree)) (l := (none :: l.map some).zip l)).map (·.2)
  rw [zip_snd] at this
  exact this

/-- What the suggestions of the indentation rule are like. -/
theorem indent_rcs {root : Tree} (hn : Neat root) (hne : ∀ l ∈ root.leaves, l.2 ≠ []) (config : Config) :
    (∀ p ∈ getRuleContextSuggestions ((lineStarts (visibleTokens root)).flatMap (lineFindings config)),
      p.1 = "indentation".toList ∧ AtLineStart true 0 root.leaves p.2) ∧
    (getRuleContextSuggestions ((lineStarts (visibleTokens root)).flatMap (lineFindings config))).Pairwise
      Apart := by
  rw [rcs_flatMap]
  refine ⟨?_, ?_⟩
  · intro p hp
    obtain ⟨t, ht, hp⟩ := List.mem_flatMap.mp hp
    obtain ⟨x, y, hs, hb, hx⟩ := lineStarts_split hn ht
    have hall : ∀ e ∈ x ++ t :: y, e.isNode = false := fun e he => tokenElems_token (hs ▸ he)
    have hmap := tokenElems_leaves root
    rw [hs] at hmap
    rcases lineFindings_rcs config t with h | ⟨new, hnew, ⟨hk, h⟩ | ⟨hk, h⟩⟩
    · rw [h] at hp; cases hp
    · rw [h] at hp
      simp only [List.mem_singleton] at hp
      subst hp
      exact ⟨rfl, (starts_allowed x (fun e he => hall e (List.mem_append_left _ he)) hmap hx hnew).1 hk⟩
    · rw [h] at hp
      simp only [List.mem_singleton] at hp
      subst hp
      rw [isBreak_kind (hall t (by simp))] at hb
      exact ⟨rfl, (starts_allowed x (fun e he => hall e (List.mem_append_left _ he)) hmap hx hnew).2
        (kind_cases hb hk)⟩
  · rw [List.pairwise_flatMap]
    refine ⟨fun t _ => ?_, ?_⟩
    · rcases lineFindings_rcs config t with h | ⟨new, hnew, ⟨hk, h⟩ | ⟨hk, h⟩⟩ <;> rw [h] <;> simp
    · have hsub : (lineStarts (visibleTokens root)).Sublist root.tokenElems := by
        refine (lineStarts_sublist _).trans ?_
        rw [visibleTokens_eq]
        exact List.filter_sublist
      have h1 := pairwise_both (P := fun e : Elem => e ∈ root.tokenElems)
        (fun e he => hsub.subset he) ((tokenElems_ordered root).sublist hsub)
      refine h1.imp ?_
      rintro a b ⟨ha, hb, hab⟩ p hp q hq hr
      exfalso
      have hpos : 0 < byteLen a.text := by
        refine byteLen_pos (hne (a.kind, a.text) ?_)
        exact token_leaf ((mem_elems_iff _ _).mp (List.mem_filter.mp ha).1) (tokenElems_token ha)
      have hst : ∀ (t : Elem) (p), p ∈ getRuleContextSuggestions (lineFindings config t) →
          p.2.range.start = t.start := by
        intro t p hp
        rcases lineFindings_rcs config t with h | ⟨new, hnew, ⟨hk, h⟩ | ⟨hk, h⟩⟩
        · rw [h] at hp; cases hp
        · rw [h] at hp; simp only [List.mem_singleton] at hp; subst hp; rfl
        · rw [h] at hp; simp only [List.mem_singleton] at hp; subst hp; rfl
      have e1 := hst a p hp
      have e2 := hst b q hq
      rw [hr] at e1
      omega

/-! ## The suggestions of the rule for blank lines -/

theorem blank_rcs {errLen : Text → Nat} (he : ErrLenOk errLen) {s : Text} {r : Parse}
    (h : parse errLen s = .ok r) (ctx : Ctx) {e : Elem} (hin : e ∈ r.tree.tokenElems) :
    getRuleContextSuggestions (whitespaceBetweenLineBreaks.checkToken ctx e) = [] ∨
    ∃ sug : Suggestion, getRuleContextSuggestions (whitespaceBetweenLineBreaks.checkToken ctx e) =
        [("whitespace-between-line-breaks".toList, sug)] ∧
      AtLineStart true 0 r.tree.leaves sug ∧ sug.range.start = e.start + byteLen e.text ∧
      sug.range.start < sug.range.stop := by
  obtain ⟨before, after, hs⟩ := List.append_of_mem hin
  have hc := C38_blank_lines h ctx hs
  cases hen : enclosed e after with
  | none => rw [hen] at hc; rw [hc]; exact .inl rfl
  | some ws =>
    rw [hen] at hc
    rw [hc]
    refine .inr ⟨⟨ws.range, []⟩, rfl, ?_⟩
    unfold enclosed at hen
    split at hen
    · rename_i w next rest
      split at hen
      · rename_i hk
        cases hen
        have hs' : r.tree.tokenElems = (before ++ [e]) ++ ws :: next :: rest := by simp [hs]
        have hall : ∀ x ∈ (before ++ [e]) ++ ws :: next :: rest, x.isNode = false :=
          fun x hx => tokenElems_token (hs' ▸ hx)
        have hmap := tokenElems_leaves r.tree
        rw [hs'] at hmap
        have hx : endsBreak true (before ++ [e]) = true := by
          rw [endsBreak_append]
          show isBreak e = true
          rw [isBreak_kind (tokenElems_token hin), hk.1]
          rfl
        refine ⟨(starts_allowed (before ++ [e]) (fun x hx => hall x (List.mem_append_left _ hx)) hmap hx
          blanks_nil).1 hk.2.1, ?_, ?_⟩
        · show ws.start = _
          have hpl := tokenElems_leaves r.tree
          have key : ∀ (l : List Elem) (pos : Nat) (ls : List (SyntaxKind × Text)) (a b : Elem)
              (m : List Elem), (l ++ a :: b :: m).map (·.leaf) = placed pos ls →
              b.start = a.start + byteLen a.text := by
            intro l
            induction l with
            | nil =>
              intro pos ls a b m hm
              rcases ls with _ | ⟨⟨k1, t1⟩, _ | ⟨⟨k2, t2⟩, ls⟩⟩
              · simp [placed] at hm
              · simp [placed] at hm
              · simp only [List.nil_append, List.map_cons, placed, List.cons.injEq, Elem.leaf,
                  Prod.mk.injEq] at hm
                rw [hm.2.1.1, hm.1.1, hm.1.2.2]
            | cons x l ih =>
              intro pos ls a b m hm
              rcases ls with _ | ⟨⟨k1, t1⟩, ls⟩
              · simp [placed] at hm
              · simp only [List.cons_append, List.map_cons, placed, List.cons.injEq] at hm
                exact ih _ _ _ _ _ hm.2
          rw [hs] at hpl
          exact key before 0 _ e ws (next :: rest) hpl
        · have hw : ws ∈ r.tree.tokenElems := by rw [hs']; simp
          have := byteLen_pos (parsed_leaves he h (ws.kind, ws.text)
            (token_leaf ((mem_elems_iff _ _).mp (List.mem_filter.mp hw).1) (tokenElems_token hw)))
          show ws.start < ws.start + byteLen ws.text
          simp only at this
          omega
      · cases hen
    · cases hen

/-! ## Rules that suggest nothing -/

/-- A rule that suggests nothing. -/
def Silent (r : Rule) : Prop :=
  (∀ ctx e, AllR (fun x => x.suggestions = []) (r.checkNode ctx e)) ∧
  (∀ ctx e, AllR (fun x => x.suggestions = []) (r.checkToken ctx e)) ∧
  (∀ ctx e l, r.checkRoot ctx e = .ok l → AllR (fun x => x.suggestions = []) l)

theorem silent_node {r : Rule} (hn : ∀ ctx e, AllR (fun x => x.suggestions = []) (r.checkNode ctx e))
    (ht : r.checkToken = fun _ _ => []) (hr : r.checkRoot = fun _ _ => .ok []) : Silent r :=
  ⟨hn, fun _ _ => by rw [ht]; exact .nil, fun _ _ _ h => by rw [hr] at h; exact noRoot h⟩

theorem silent_root {r : Rule} (hn : r.checkNode = fun _ _ => []) (ht : r.checkToken = fun _ _ => [])
    (hr : ∀ ctx e l, r.checkRoot ctx e = .ok l → AllR (fun x => x.suggestions = []) l) : Silent r :=
  ⟨fun _ _ => by rw [hn]; exact .nil, fun _ _ => by rw [ht]; exact .nil, hr⟩

theorem silent_ignoreFileNotOnTop : Silent ignoreFileNotOnTop :=
  silent_node (fun ctx e => by unfold ignoreFileNotOnTop; dsimp only; signs) rfl rfl

theorem silent_twigValidFilter : Silent twigValidFilter :=
  silent_node (fun ctx e => by unfold twigValidFilter; dsimp only; unfold checkKnown; signs) rfl rfl

theorem silent_twigValidTest : Silent twigValidTest :=
  silent_node (fun ctx e => by unfold twigValidTest; dsimp only; unfold checkKnown; signs) rfl rfl

theorem silent_twigValidFunction : Silent twigValidFunction :=
  silent_node (fun ctx e => by unfold twigValidFunction; dsimp only; unfold checkKnown; signs) rfl rfl

theorem checkLiteralNames_silent (e : Elem) (b : Bool) :
    AllR (fun x => x.suggestions = []) (checkLiteralNames e b) := by
  intro x hx
  simp only [checkLiteralNames, List.mem_flatMap] at hx
  obtain ⟨n, _, hn⟩ := hx
  revert x
  show AllR _ _
  signs

theorem silent_twigVariableDefinitionNaming : Silent twigVariableDefinitionNaming :=
  silent_node (fun ctx e => by
    unfold twigVariableDefinitionNaming; dsimp only
    repeat' first
      | with_reducible exact AllR.nil
      | exact checkLiteralNames_silent _ _
      | split) rfl rfl

theorem duplicateStep_silent (name : RuleName) (sev : Severity) (key : Text) (range : TextRange)
    (s : DuplicateState) (h : AllR (fun x => x.suggestions = []) s.results) :
    AllR (fun x => x.suggestions = []) (duplicateStep name sev key range s).results := by
  unfold duplicateStep
  split
  · exact .append h (.one rfl)
  · exact h

theorem silent_twigBlockDuplicate : Silent twigBlockDuplicate :=
  silent_root rfl rfl (fun ctx e l h => by
    unfold twigBlockDuplicate at h; dsimp only at h
    split at h
    · simp at h
    · rename_i s hs
      cases h
      refine walkNodes_inv _
        (fun s => AllR (fun x => x.suggestions = []) s.results) _ _ _ ?_ .nil hs
      intro x _ s hs
      refine ⟨?_, ?_⟩
      · intro s' b h
        unfold blockDuplicateEnter at h; dsimp only at h
        split at h
        · cases h; exact hs
        · split at h
          · cases h; exact hs
          · split at h
            · cases h; exact hs
            · cases h; exact duplicateStep_silent _ _ _ _ _ hs
      · intro s' h
        cases h; exact hs)

theorem silent_htmlDuplicateId : Silent htmlDuplicateId :=
  silent_root rfl rfl (fun ctx e l h => by
    unfold htmlDuplicateId at h; dsimp only at h
    split at h
    · simp at h
    · rename_i s hs
      cases h
      refine walkNodes_inv _
        (fun s => AllR (fun x => x.suggestions = []) s.results) _ _ _ ?_ .nil hs
      intro x _ s hs
      refine ⟨?_, ?_⟩
      · intro s' b h
        unfold idDuplicateEnter at h; dsimp only at h
        split at h
        · cases h; exact hs
        · split at h
          · cases h; exact hs
          · split at h
            · cases h; exact hs
            · split at h
              · cases h; exact hs
              · cases h; exact duplicateStep_silent _ _ _ _ _ hs
      · intro s' h
        cases h; exact hs)

theorem layout_cases {r : Rule} (hd : r ∈ definitions) (hn : r.name ∈ layoutRules) :
    r = indentation ∨ r = whitespaceBetweenLineBreaks ∨ Silent r := by
  simp only [definitions, List.mem_cons, List.not_mem_nil, or_false] at hd
  rcases hd with rfl | rfl | rfl | rfl | rfl | rfl | rfl | rfl | rfl | rfl | rfl | rfl | rfl | rfl |
    rfl | rfl | rfl | rfl | rfl | rfl | rfl | rfl
  · exact .inr (.inr silent_ignoreFileNotOnTop)
  · exact .inr (.inl rfl)
  · exact absurd hn (by decide +kernel)
  · exact .inl rfl
  · exact absurd hn (by decide +kernel)
  · exact absurd hn (by decide +kernel)
  · exact absurd hn (by decide +kernel)
  · exact absurd hn (by decide +kernel)
  · exact absurd hn (by decide +kernel)
  · exact absurd hn (by decide +kernel)
  · exact absurd hn (by decide +kernel)
  · exact absurd hn (by decide +kernel)
  · exact absurd hn (by decide +kernel)
  · exact absurd hn (by decide +kernel)
  · exact absurd hn (by decide +kernel)
  · exact .inr (.inr silent_twigBlockDuplicate)
  · exact absurd hn (by decide +kernel)
  · exact .inr (.inr silent_htmlDuplicateId)
  · exact .inr (.inr silent_twigVariableDefinitionNaming)
  · exact .inr (.inr silent_twigValidFilter)
  · exact .inr (.inr silent_twigValidTest)
  · exact .inr (.inr silent_twigValidFunction)

theorem silent_rcs {l : List CheckResult} (h : AllR (fun x => x.suggestions = []) l) :
    getRuleContextSuggestions l = [] := by
  unfold getRuleContextSuggestions
  rw [List.flatMap_eq_nil_iff]
  intro x hx
  rw [h x hx]; rfl

/-! ## The suggestions of all rules -/

/-- The suggestions on one element. -/
def elemRcs (config : Config) (rules : List Rule) (e : Elem) : List (RuleName × Suggestion) :=
  getRuleContextSuggestions
    ((rules.filter (fun r => !switchedOff r.name e)).flatMap (fun r => checkElem config r e))

theorem rcs_eq_nil_of_silent (config : Config) {r : Rule} (h : Silent r) (e : Elem) :
    getRuleContextSuggestions (checkElem config r e) = [] := by
  refine silent_rcs ?_
  unfold checkElem
  split
  · exact h.1 _ _
  · exact h.2.1 _ _

theorem check_indentation (config : Config) (e : Elem) : checkElem config indentation e = [] := by
  unfold checkElem
  split <;> rfl

theorem nodup_names {rules : List Rule} (hs : rules.Sublist definitions) :
    rules.Pairwise (fun a b => a.name ≠ b.name) := by
  have := definitions_distinct.sublist (hs.map (·.name))
  exact List.pairwise_map.mp this

/-- What the suggestions on an element are like. -/
theorem elem_rcs {errLen : Text → Nat} (he : ErrLenOk errLen) {s : Text} {p : Parse}
    (h : parse errLen s = .ok p) (config : Config) {rules : List Rule} (hs : rules.Sublist definitions)
    (hn : ∀ r ∈ rules, r.name ∈ layoutRules) {e : Elem} (hin : e ∈ p.tree.elems) :
    (∀ q ∈ elemRcs config rules e, e.isNode = false ∧ q.1 = "whitespace-between-line-breaks".toList ∧
      AtLineStart true 0 p.tree.leaves q.2 ∧ q.2.range.start = e.start + byteLen e.text ∧
      q.2.range.start < q.2.range.stop) ∧ (elemRcs config rules e).Pairwise Apart := by
  have hcase : ∀ r ∈ rules, getRuleContextSuggestions (checkElem config r e) = [] ∨
      (r = whitespaceBetweenLineBreaks ∧ e.isNode = false ∧
        ∃ sug : Suggestion, getRuleContextSuggestions (checkElem config r e) =
          [("whitespace-between-line-breaks".toList, sug)] ∧
        AtLineStart true 0 p.tree.leaves sug ∧ sug.range.start = e.start + byteLen e.text ∧
        sug.range.start < sug.range.stop) := by
    intro r hr
    rcases layout_cases (hs.subset hr) (hn r hr) with rfl | rfl | hsil
    · rw [check_indentation]; exact .inl rfl
    · cases ht : e.tree with
      | node k cs =>
        left
        unfold checkElem
        rw [ht]
        rfl
      | token k x =>
        have hc : checkElem config whitespaceBetweenLineBreaks e =
            whitespaceBetweenLineBreaks.checkToken ⟨config, told e⟩ e := by
          unfold checkElem
          rw [ht]
        rw [hc]
        have hnode : e.isNode = false := by unfold Elem.isNode; rw [ht]; rfl
        rcases blank_rcs he h ⟨config, told e⟩ (List.mem_filter.mpr ⟨hin, by simp [hnode]⟩) with h1 | h1
        · exact .inl h1
        · exact .inr ⟨rfl, hnode, h1⟩
    · exact .inl (rcs_eq_nil_of_silent config hsil e)
  have hsub : (rules.filter (fun r => !switchedOff r.name e)).Sublist rules := List.filter_sublist
  unfold elemRcs
  rw [rcs_flatMap]
  refine ⟨?_, ?_⟩
  · intro q hq
    obtain ⟨r, hr, hq⟩ := List.mem_flatMap.mp hq
    rcases hcase r (hsub.subset hr) with h1 | ⟨_, h0, sug, h1, h2⟩
    · rw [h1] at hq; cases hq
    · rw [h1] at hq
      simp only [List.mem_singleton] at hq
      subst hq
      exact ⟨h0, rfl, h2⟩
  · rw [List.pairwise_flatMap]
    refine ⟨fun r hr => ?_, ?_⟩
    · rcases hcase r (hsub.subset hr) with h1 | ⟨_, _, sug, h1, _⟩ <;> rw [h1] <;> simp
    · refine (pairwise_both (P := fun r => r ∈ rules) (fun r hr => hsub.subset hr)
        ((nodup_names hs).sublist hsub)).imp ?_
      rintro a b ⟨ha, hb, hab⟩ x hx y hy
      rcases hcase a ha with h1 | ⟨rfl, _⟩
      · rw [h1] at hx; cases hx
      · rcases hcase b hb with h1 | ⟨rfl, _⟩
        · rw [h1] at hy; cases hy
        · exact absurd rfl hab

/-- What the suggestions of one round are like. -/
theorem tidy_results {errLen : Text → Nat} (he : ErrLenOk errLen) {s : Text} {p : Parse}
    (h : parse errLen s = .ok p) (herr : p.errors = []) (config : Config) {rules : List Rule}
    (hs : rules.Sublist definitions) (hn : ∀ r ∈ rules, r.name ∈ layoutRules)
    {results : List CheckResult} (hr : runRules config rules p.tree = .ok results) :
    Tidy p.tree.leaves (getRuleContextSuggestions results) := by
  have hneat := neat_parsed h herr
  have hne := parsed_leaves he h
  -- the root checks
  have hroot : ∃ x, rootChecks config (Elem.root p.tree) rules = .ok x := by
    unfold runRules at hr
    cases rules with
    | nil => exact ⟨[], rfl⟩
    | cons a rs =>
      simp only [List.isEmpty_cons, Bool.false_eq_true, if_false] at hr
      split at hr
      · cases hr
      · rename_i x hx; exact ⟨x, hx⟩
  obtain ⟨x, hx⟩ := hroot
  obtain ⟨found, hf, _⟩ := rootChecks_inv config _ rules x hx
  rw [C18_scope_of_ignore config rules p.tree found hf] at hr
  cases hr
  have hcase : ∀ r ∈ rules, getRuleContextSuggestions (found r) = [] ∨
      (r = indentation ∧ found r = (lineStarts (visibleTokens p.tree)).flatMap (lineFindings config)) := by
    intro r hr
    rcases layout_cases (hs.subset hr) (hn r hr) with rfl | rfl | hsil
    · have h1 := hf _ hr
      rw [indentation_findings _ _ (parsed_noBlanket h config), Except.ok.injEq] at h1
      exact .inr ⟨rfl, h1.symm⟩
    · have h1 := hf _ hr
      have h2 : whitespaceBetweenLineBreaks.checkRoot ⟨config, false⟩ (Elem.root p.tree) = .ok [] := rfl
      rw [h2, Except.ok.injEq] at h1
      rw [← h1]
      exact .inl rfl
    · exact .inl (silent_rcs (hsil.2.2 _ _ _ (hf r hr)))
  obtain ⟨hi1, hi2⟩ := indent_rcs hneat hne config
  have hA : (∀ q ∈ getRuleContextSuggestions (rules.flatMap found),
      q.1 = "indentation".toList ∧ AtLineStart true 0 p.tree.leaves q.2) ∧
      (getRuleContextSuggestions (rules.flatMap found)).Pairwise Apart := by
    rw [rcs_flatMap]
    refine ⟨?_, ?_⟩
    · intro q hq
      obtain ⟨r, hr, hq⟩ := List.mem_flatMap.mp hq
      rcases hcase r hr with h1 | ⟨_, h1⟩
      · rw [h1] at hq; cases hq
      · rw [h1] at hq; exact hi1 q hq
    · rw [List.pairwise_flatMap]
      refine ⟨fun r hr => ?_, ?_⟩
      · rcases hcase r hr with h1 | ⟨_, h1⟩
        · rw [h1]; exact .nil
        · rw [h1]; exact hi2
      · refine (pairwise_both (P := fun r => r ∈ rules) (fun r hr => hr) (nodup_names hs)).imp ?_
        rintro a b ⟨ha, hb, hab⟩ x hx y hy
        rcases hcase a ha with h1 | ⟨rfl, _⟩
        · rw [h1] at hx; cases hx
        · rcases hcase b hb with h1 | ⟨rfl, _⟩
          · rw [h1] at hy; cases hy
          · exact absurd rfl hab
  -- the other checks
  have hB : getRuleContextSuggestions (specResults config rules p.tree) =
      (p.tree.elems.filter (fun e => !hidden e)).flatMap (elemRcs config rules) := by
    unfold specResults
    rw [rcs_flatMap]
    rfl
  have hsub : (p.tree.elems.filter (fun e => !hidden e)).Sublist p.tree.elems := List.filter_sublist
  have hB1 : ∀ q ∈ getRuleContextSuggestions (specResults config rules p.tree),
      q.1 = "whitespace-between-line-breaks".toList ∧ AtLineStart true 0 p.tree.leaves q.2 ∧
      q.2.range.start < q.2.range.stop := by
    rw [hB]
    intro q hq
    obtain ⟨e, hin, hq⟩ := List.mem_flatMap.mp hq
    have := (elem_rcs he h config hs hn (hsub.subset hin)).1 q hq
    exact ⟨this.2.1, this.2.2.1, this.2.2.2.2⟩
  have hB2 : (getRuleContextSuggestions (specResults config rules p.tree)).Pairwise Apart := by
    rw [hB, List.pairwise_flatMap]
    refine ⟨fun e hin => (elem_rcs he h config hs hn (hsub.subset hin)).2, ?_⟩
    have h1 : p.tree.elems.Pairwise (fun a b => (!a.isNode) = true → (!b.isNode) = true →
        a.start + byteLen a.text ≤ b.start) := by
      have := tokenElems_ordered p.tree
      unfold Tree.tokenElems at this
      rwa [List.pairwise_filter] at this
    refine (pairwise_both (P := fun e => e ∈ p.tree.elems) (fun e hin => hsub.subset hin)
      (h1.sublist hsub)).imp ?_
    rintro a b ⟨ha, hb, hab⟩ x hx y hy hr
    exfalso
    have ea := (elem_rcs he h config hs hn ha).1 x hx
    have eb := (elem_rcs he h config hs hn hb).1 y hy
    have hle := hab (by simp [ea.1]) (by simp [eb.1])
    have hpos := byteLen_pos (hne (b.kind, b.text) (token_leaf ((mem_elems_iff _ _).mp hb) eb.1))
    have e1 := ea.2.2.2.1
    have e2 := eb.2.2.2.1
    rw [hr] at e1
    simp only at hpos
    omega
  refine ⟨?_, ?_⟩
  · intro q hq
    rw [rcs_append] at hq
    rcases List.mem_append.mp hq with hq | hq
    · exact (hA.1 q hq).2
    · exact (hB1 q hq).2.1
  · rw [rcs_append, List.pairwise_append]
    refine ⟨hA.2, hB2, ?_⟩
    intro x hx y hy hr
    obtain ⟨y1, _, y2⟩ := hB1 y hy
    rw [(hA.1 x hx).1, y1, hr]
    exact ⟨by decide, y2⟩

/-! ## Fixing -/

/-- One round: the text after it is the text before in another layout. -/
theorem layout_round {errLen : Text → Nat} (he : ErrLenOk errLen) (hl : ErrLineLocal errLen)
    {s : Text} {p : Parse} (h : parse errLen s = .ok p) (herr : p.errors = []) (config : Config)
    {rules : List Rule} (hs : rules.Sublist definitions) (hn : ∀ r ∈ rules, r.name ∈ layoutRules)
    {sort : List (RuleName × Suggestion) → List (RuleName × Suggestion)} (hsort : SortsRanges sort)
    {results : List CheckResult} (hr : runRules config rules p.tree = .ok results) :
    ∃ over s', overlappingRules (sort (getRuleContextSuggestions results)) = .ok over ∧
      applySuggestionsToText (filterSuggestions over (sort (getRuleContextSuggestions results))) s =
        some s' ∧ Reindented s s' := by
  obtain ⟨over, ps, h1, h2, h3⟩ := tidy_round (parsed_leaves he h) (tidy_results he h herr config hs hn hr) hsort
  have htext : piecesBefore ps = s := by
    rw [edits_before h2, leaves_text]
    exact C01_root_text he s p h
  refine ⟨over, piecesAfter ps, h1, ?_, ?_⟩
  · rw [h3]
    have := apply_pieces ps []
    simp only [byteLen_nil, List.nil_append] at this
    rw [← htext]
    exact this
  · obtain ⟨trees, g1, g2⟩ := C05_root_covers errLen s p h
    have : p.tree.leaves = leavesOf trees := by rw [g1]; rfl
    rw [this] at h2
    obtain ⟨ps', k1, k2, k3⟩ := edits_tokens g2 h2
    rw [← k3]
    exact edits_reindented he hl (C49_lex_tokenizes he s) k1

theorem sameParse_ok {errLen : Text → Nat} {s s' : Text} {p : Parse} (h : parse errLen s = .ok p)
    (herr : p.errors = []) (hsame : SameParse (parse errLen s) (parse errLen s')) :
    ∃ p', parse errLen s' = .ok p' ∧ p'.errors = [] := by
  rw [h] at hsame
  cases h' : parse errLen s' with
  | error e => rw [h'] at hsame; exact hsame.elim
  | ok p' =>
    rw [h'] at hsame
    refine ⟨p', rfl, ?_⟩
    have := hsame.2
    rw [herr] at this
    simpa using this.symm

/-- The fix loop keeps the structure. -/
theorem layout_loop {errLen : Text → Nat} (he : ErrLenOk errLen) (hl : ErrLineLocal errLen)
    (config : Config) (active : List RuleName)
    {sort : List (RuleName × Suggestion) → List (RuleName × Suggestion)} (hsort : SortsRanges sort)
    (original : Text) (names : List RuleName) (hnames : ∀ n ∈ names, n ∈ layoutRules) : ∀ (n it : Nat)
    (ctx : FileContext Tree) (results : List CheckResult) (dirty : Bool) (p : Parse),
    ctx.fileRules = names → parse errLen ctx.sourceCode = .ok p → p.errors = [] →
    SameParse (parse errLen original) (parse errLen ctx.sourceCode) →
    runRules config (rulesNamed names) p.tree = .ok results →
    (∀ t ∈ (fixLoop (realEngine errLen config active sort) n it ctx results dirty).2,
      SameParse (parse errLen original) (parse errLen t)) ∧
    ((fixLoop (realEngine errLen config active sort) n it ctx results dirty).1 = .err .maxApplyIteration ∨
      ∃ ctx' results' dirty' it',
        (fixLoop (realEngine errLen config active sort) n it ctx results dirty).1 =
          .ok ctx' results' dirty' it' ∧
        SameParse (parse errLen original) (parse errLen ctx'.sourceCode)) := by
  intro n
  induction n with
  | zero => intro it ctx results dirty p _ _ _ _ _; exact ⟨by simp [fixLoop], .inl rfl⟩
  | succ n ih =>
    intro it ctx results dirty p hc hp herr hsame hr
    by_cases hemp : getRuleContextSuggestions results = []
    · rw [fixLoop_nothing _ n it ctx results dirty hemp]
      exact ⟨by simp, .inr ⟨_, _, _, _, rfl, hsame⟩⟩
    · have hmem : ∀ r ∈ rulesNamed names, r.name ∈ layoutRules := by
        intro r hr
        have := (List.mem_filter.mp hr).2
        exact hnames _ (by simpa using this)
      obtain ⟨over, s', h1, h2, h3⟩ := layout_round he hl hp herr config (rulesNamed_sublist names) hmem
        hsort hr
      have hsame' : SameParse (parse errLen original) (parse errLen s') :=
        hsame.trans (C68_relaid he hl h3)
      obtain ⟨p', hp', herr'⟩ := sameParse_ok hp herr (C68_relaid he hl h3)
      obtain ⟨results', hr'⟩ := C66_rules_never_panic hp' config (rulesNamed names)
        (fun r hr => (rulesNamed_sublist names).subset hr)
      have hE : (realEngine errLen config active sort).sort = sort := rfl
      rw [fixLoop_next (realEngine errLen config active sort) n it ctx results dirty over s' p'.tree
        p'.errors.length results' hemp h1 h2 ((realEngine_parse ..).mpr ⟨p', hp', rfl, rfl⟩)
        (by rw [hc]; exact (realEngine_run ..).mpr hr')]
      obtain ⟨g1, g2⟩ := ih (it + 1) ⟨p'.tree, s', p'.errors.length, ctx.fileRules⟩ results' true p' hc hp' herr' hsame' hr'
      refine ⟨?_, g2⟩
      intro t ht
      rcases List.mem_cons.mp ht with rfl | ht
      · exact hsame'
      · exact g1 t ht

/-- C70: processing a file without parse errors, with or without `--fix`, with only `indentation`,
`whitespace-between-line-breaks` and rules without suggestions: it does not panic, no suggestions of a
rule overlap, and every text that it parses or writes has the structure of the original (the same tree
up to whitespace and line breaks, no errors). -/
theorem C70_layout_fix_keeps_structure {errLen : Text → Nat} (he : ErrLenOk errLen)
    (hl : ErrLineLocal errLen) (config : Config) (active : List RuleName)
    (hactive : ∀ n ∈ active, n ∈ layoutRules)
    {sort : List (RuleName × Suggestion) → List (RuleName × Suggestion)} (hsort : SortsRanges sort)
    (flags : Flags) (writeOk : Bool) {original : Text} {p : Parse} (hp : parse errLen original = .ok p)
    (herr : p.errors = []) :
    let run := runAnalysis (realEngine errLen config active sort) flags writeOk original
    (run.outcome = .ok ∨ (flags.fix = true ∧ run.outcome = .err .maxApplyIteration) ∨
      (flags.fix = true ∧ writeOk = false ∧ run.outcome = .err .fileWrite)) ∧
    ∀ t ∈ run.parsed ++ run.writes, SameParse (parse errLen original) (parse errLen t) := by
  have hrefl : SameParse (parse errLen original) (parse errLen original) := by
    rw [hp]; exact ⟨rfl, rfl⟩
  have hnames : ∀ n ∈ (realEngine errLen config active sort).fileRules p.tree, n ∈ layoutRules := by
    intro n hn
    obtain ⟨r, hr, rfl⟩ := List.mem_map.mp hn
    have h1 := (List.mem_filter.mp ((fileRules_sublist _ _).subset hr)).2
    exact hactive _ (by simpa using h1)
  obtain ⟨results, hr⟩ := C66_rules_never_panic hp config
    (rulesNamed ((realEngine errLen config active sort).fileRules p.tree))
    (fun r hr => (rulesNamed_sublist _).subset hr)
  intro run
  have hrun : run = runAnalysis (realEngine errLen config active sort) flags writeOk original := rfl
  clear_value run
  unfold runAnalysis at hrun
  have hp' : (realEngine errLen config active sort).parse original = some (p.tree, p.errors.length) :=
    (realEngine_parse ..).mpr ⟨p, hp, rfl, rfl⟩
  have hr' : (realEngine errLen config active sort).runRules
      ((realEngine errLen config active sort).fileRules p.tree) p.tree = some results :=
    (realEngine_run ..).mpr hr
  rw [hp'] at hrun
  dsimp only at hrun
  rw [hr'] at hrun
  dsimp only at hrun
  obtain ⟨g1, g2⟩ := layout_loop he hl config active hsort original _ hnames 10 0
    ⟨p.tree, original, p.errors.length, (realEngine errLen config active sort).fileRules p.tree⟩
    results false p rfl hp herr hrefl hr
  unfold iterativelyApplySuggestions at hrun
  generalize fixLoop (realEngine errLen config active sort) 10 0
    ⟨p.tree, original, p.errors.length, (realEngine errLen config active sort).fileRules p.tree⟩
    results false = L at g1 g2 hrun
  obtain ⟨res, parsed⟩ := L
  by_cases hfix : flags.fix = true
  · rw [if_pos hfix] at hrun
    rcases g2 with g2 | ⟨ctx', results', dirty', it', g2, g3⟩
    · simp only at g2
      subst g2
      dsimp only at hrun
      subst hrun
      refine ⟨.inr (.inl ⟨hfix, rfl⟩), ?_⟩
      intro t ht
      simp only [List.append_nil, List.mem_cons] at ht
      rcases ht with rfl | ht
      · exact hrefl
      · exact g1 t ht
    · simp only at g2
      subst g2
      dsimp only at hrun
      split at hrun
      · rename_i hd
        simp only [Bool.and_eq_true, Bool.not_eq_true'] at hd
        subst hrun
        refine ⟨.inr (.inr ⟨hfix, hd.2, rfl⟩), ?_⟩
        intro t ht
        simp only [List.mem_append, List.mem_cons, List.not_mem_nil, or_false] at ht
        rcases ht with (rfl | ht) | rfl
        · exact hrefl
        · exact g1 t ht
        · exact g3
      · subst hrun
        refine ⟨.inl rfl, ?_⟩
        intro t ht
        simp only [List.mem_append, List.mem_cons] at ht
        rcases ht with (rfl | ht) | ht
        · exact hrefl
        · exact g1 t ht
        · split at ht
          · simp only [List.mem_singleton] at ht; subst ht; exact g3
          · cases ht
  · rw [if_neg hfix] at hrun
    subst hrun
    refine ⟨.inl rfl, ?_⟩
    intro t ht
    simp only [List.append_nil, List.mem_singleton] at ht
    subst ht
    exact hrefl

/-- A file on which both rules work, in two rounds: the line of blanks is first indented, because both
rules suggest something for it, and then removed; the line of `<b>` is indented. -/
example : SortsRanges insertionSort ∧ (∀ n ∈ layoutRules, n ∈ layoutRules) ∧
    Returns (parse (fun _ => 1) "<p>\n  \n<b></b>\n</p>".toList) (fun r => r.errors.isEmpty) = true ∧
    (runAnalysis (realEngine (fun _ => 1) defaultConfig layoutRules insertionSort) ⟨true, false⟩ true
      "<p>\n  \n<b></b>\n</p>".toList).parsed =
      ["<p>\n  \n<b></b>\n</p>".toList, "<p>\n    \n    <b></b>\n</p>".toList,
        "<p>\n\n    <b></b>\n</p>".toList] ∧
    (runAnalysis (realEngine (fun _ => 1) defaultConfig layoutRules insertionSort) ⟨true, false⟩ true
      "<p>\n  \n<b></b>\n</p>".toList).writes = ["<p>\n\n    <b></b>\n</p>".toList] :=
  ⟨insertionSort_sorts, fun _ h => h, by decide +kernel, by decide +kernel, by decide +kernel⟩

end Ludtwig.Rules
