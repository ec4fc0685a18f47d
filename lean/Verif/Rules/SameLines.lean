import Verif.Rules.LineEndingConverge
import Verif.Rules.BreakLayout

/-!
# Fixing the layout keeps the lines: property C96
-/

namespace Ludtwig.Rules

open Cli Lexer Shape Layout

/-- A text without the spaces and tabs at the beginnings of its lines. `b` says whether it begins at the beginning
of a line. -/
def unindented (b : Bool) : Text → Text
  | [] => []
  | c :: s =>
    if c = '\n' then '\n' :: unindented true s
    else if b = true ∧ (c = ' ' ∨ c = '\t') then unindented true s
    else c :: unindented false s

/-- Is the end of a text, that begins at the beginning of a line or not, behind the whitespace of a line? -/
def atStart (b : Bool) : Text → Bool
  | [] => b
  | c :: s =>
    if c = '\n' then atStart true s
    else if b = true ∧ (c = ' ' ∨ c = '\t') then atStart true s
    else atStart false s

theorem unindented_append : ∀ (t : Text) (b : Bool) (x : Text),
    unindented b (t ++ x) = unindented b t ++ unindented (atStart b t) x
  | [], b, x => rfl
  | c :: t, b, x => by
    rw [List.cons_append, unindented, unindented, atStart]
    split
    · rw [unindented_append t true x, List.cons_append]
    · split
      · exact unindented_append t true x
      · rw [unindented_append t false x, List.cons_append]

theorem unindented_true : ∀ x : Text,
    unindented true x = (unindented false x).dropWhile (fun c => c == ' ' || c == '\t')
  | [] => rfl
  | c :: x => by
    rw [unindented, unindented]
    by_cases h : c = '\n'
    · subst h; rfl
    · rw [if_neg h, if_neg h, if_neg (c := false = true ∧ _) (by simp)]
      by_cases hc : c = ' ' ∨ c = '\t'
      · rw [if_pos ⟨rfl, hc⟩, List.dropWhile_cons_of_pos (by simpa using hc)]
        exact unindented_true x
      · rw [if_neg (by simp [hc]), List.dropWhile_cons_of_neg (by simpa using hc)]

theorem unindented_any {x y : Text} (h : unindented false x = unindented false y) (b : Bool) :
    unindented b x = unindented b y := by
  cases b with
  | false => exact h
  | true => rw [unindented_true, unindented_true, h]

theorem unindented_blanks {x : Text} : ∀ {w : Text}, (∀ c ∈ w, c = ' ' ∨ c = '\t') →
    unindented true (w ++ x) = unindented true x
  | [], _ => rfl
  | c :: w, h => by
    have hc := h c List.mem_cons_self
    rw [List.cons_append, unindented, if_neg (by rcases hc with rfl | rfl <;> decide), if_pos ⟨rfl, hc⟩]
    exact unindented_blanks (fun d hd => h d (List.mem_cons_of_mem _ hd))

theorem atStart_last : ∀ (y : Text) (b : Bool), atStart b (y ++ ['\n']) = true
  | [], b => by simp [atStart]
  | c :: y, b => by
    rw [List.cons_append, atStart]
    split
    · exact atStart_last y true
    · split <;> exact atStart_last y _

/-- Whitespace at the beginnings of lines is all that changes. -/
theorem edits_unindented {b : Bool} {ls : List (SyntaxKind × Text)} {ps : List Piece} (h : Edits b ls ps) :
    (∀ l ∈ ls, l.1 = .TK_LINE_BREAK → ∃ y, l.2 = y ++ ['\n']) →
    (∀ l ∈ ls, l.1 = .TK_WHITESPACE → ∀ c ∈ l.2, c = ' ' ∨ c = '\t') →
    (∀ p ∈ ps, ∀ new, p.new = some new → ∀ c ∈ new, c = ' ' ∨ c = '\t') →
    unindented b (piecesAfter ps) = unindented b (piecesBefore ps) := by
  have cons : ∀ (p : Piece) (ps : List Piece), piecesAfter (p :: ps) = p.new.getD p.old ++ piecesAfter ps ∧
      piecesBefore (p :: ps) = p.old ++ piecesBefore ps := fun p ps => ⟨by simp [piecesAfter], by simp [piecesBefore]⟩
  induction h with
  | nil => intros; rfl
  | @keep b k t ls ps _ ih =>
    intro h1 h2 h3
    have ih := ih (fun l hl => h1 l (List.mem_cons_of_mem _ hl)) (fun l hl => h2 l (List.mem_cons_of_mem _ hl))
      (fun p hp => h3 p (List.mem_cons_of_mem _ hp))
    rw [(cons _ _).1, (cons _ _).2]
    show unindented b (t ++ _) = unindented b (t ++ _)
    rw [unindented_append, unindented_append]
    congr 1
    by_cases hk : k = .TK_LINE_BREAK
    · obtain ⟨y, hy⟩ := h1 (k, t) List.mem_cons_self hk
      have hy : t = y ++ ['\n'] := hy
      rw [show (k == .TK_LINE_BREAK) = true by simp [hk]] at ih
      rw [hy, atStart_last, ih]
    · rw [show (k == .TK_LINE_BREAK) = false by simp [hk]] at ih
      exact unindented_any ih _
  | @space t new ls ps _ _ ih =>
    intro h1 h2 h3
    have ih := ih (fun l hl => h1 l (List.mem_cons_of_mem _ hl)) (fun l hl => h2 l (List.mem_cons_of_mem _ hl))
      (fun p hp => h3 p (List.mem_cons_of_mem _ hp))
    rw [(cons _ _).1, (cons _ _).2]
    show unindented true (new ++ _) = unindented true (t ++ _)
    rw [unindented_blanks (h3 _ List.mem_cons_self new rfl), unindented_blanks (h2 (_, t) List.mem_cons_self rfl)]
    exact unindented_any ih _
  | @insert k t new ls ps _ _ _ ih =>
    intro h1 h2 h3
    have ih := ih (fun l hl => h1 l (List.mem_cons_of_mem _ hl)) (fun l hl => h2 l (List.mem_cons_of_mem _ hl))
      (fun p hp => h3 p (List.mem_cons_of_mem _ (List.mem_cons_of_mem _ hp)))
    rw [(cons _ _).1, (cons _ _).2, (cons _ _).1, (cons _ _).2]
    show unindented true (new ++ (t ++ _)) = unindented true ([] ++ (t ++ _))
    rw [unindented_blanks (h3 _ List.mem_cons_self new rfl), List.nil_append, unindented_append, unindented_append,
      unindented_any ih]

theorem piece_new : ∀ {ps : List Piece} {pos : Nat} {p : Piece} {new : Text}, p ∈ ps → p.new = some new →
    ∃ sug ∈ pieceSuggestions pos ps, sug.replaceWith = new
  | q :: ps, pos, p, new, hp, hn => by
    rw [pieceSuggestions]
    rcases List.mem_cons.1 hp with rfl | hp
    · rw [hn]; exact ⟨_, List.mem_append_left _ List.mem_cons_self, rfl⟩
    · obtain ⟨sug, h1, h2⟩ := piece_new (pos := pos + byteLen q.old) hp hn
      exact ⟨sug, List.mem_append_right _ h1, h2⟩

theorem covers_space {ls : List (SyntaxKind × Text)} {ts : List Token} (h : Covers ls ts) :
    ∀ l ∈ ls, l.1.isTrivia = true → ∃ t ∈ ts, t.kind = l.1 ∧ t.text = l.2 := by
  induction h with
  | nil => intro l hl; cases hl
  | same t _ ih =>
    refine List.forall_mem_cons.2 ⟨fun _ => ⟨t, List.mem_cons_self, rfl, rfl⟩, fun l hl hk => ?_⟩
    obtain ⟨u, hu, h⟩ := ih l hl hk
    exact ⟨u, List.mem_cons_of_mem _ hu, h⟩
  | word t _ _ ih =>
    refine List.forall_mem_cons.2 ⟨fun h => (by cases h), fun l hl hk => ?_⟩
    obtain ⟨u, hu, h⟩ := ih l hl hk
    exact ⟨u, List.mem_cons_of_mem _ hu, h⟩
  | merged t u _ _ _ ih =>
    refine List.forall_mem_cons.2 ⟨fun h => (by cases h), fun l hl hk => ?_⟩
    obtain ⟨v, hv, h⟩ := ih l hl hk
    exact ⟨v, List.mem_cons_of_mem _ (List.mem_cons_of_mem _ hv), h⟩

/-- One round of fixing the layout. -/
theorem lines_round {errLen : Text → Nat} (he : ErrLenOk errLen) (hl : ErrLineLocal errLen)
    {s : Text} {p : Parse} (h : parse errLen s = .ok p) (herr : p.errors = []) {config : Config}
    (hc : 0 < config.indentationCount)
    {rules : List Rule} (hs : rules.Sublist definitions) (hn : ∀ r ∈ rules, r.name ∈ layoutRules)
    {sort : List (RuleName × Suggestion) → List (RuleName × Suggestion)} (hsort : SortsRanges sort)
    {results : List CheckResult} (hr : runRules config rules p.tree = .ok results) :
    ∃ over s', overlappingRules (sort (getRuleContextSuggestions results)) = .ok over ∧
      applySuggestionsToText (filterSuggestions over (sort (getRuleContextSuggestions results))) s = some s' ∧
      SameParse (parse errLen s) (parse errLen s') ∧ unindented true s' = unindented true s := by
  have htidy := tidy_results he h herr config hs hn hr
  obtain ⟨k1, _⟩ := tidy_sorted (parsed_leaves he h) htidy hsort
  obtain ⟨over, ps, h1, h2, h3⟩ := tidy_round (parsed_leaves he h) htidy hsort
  have htext : piecesBefore ps = s := by
    rw [edits_before h2, leaves_text]
    exact C01_root_text he s p h
  have happ : applySuggestionsToText (filterSuggestions over (sort (getRuleContextSuggestions results))) s =
      some (piecesAfter ps) := by
    rw [h3]
    have := apply_pieces ps []
    simp only [byteLen_nil, List.nil_append] at this
    rw [← htext]
    exact this
  obtain ⟨over', s', g1, g2, g3⟩ := layout_round he hl h herr config hs hn hsort hr
  rw [h1] at g1
  cases g1
  rw [happ] at g2
  cases g2
  refine ⟨over, piecesAfter ps, h1, happ, C68_relaid he hl g3, ?_⟩
  rw [← htext]
  obtain ⟨trees, c1, c2⟩ := C05_root_covers errLen s p h
  refine edits_unindented h2 ?_ ?_ ?_
  · intro l hl hk
    obtain ⟨t, ht, h1, h2⟩ := covers_space c2 l (by rw [c1] at hl; exact hl) (by rw [hk]; rfl)
    have := lineBreaks_last ((C13_trivia_shape he s ht).2 (h1.trans hk)) ((C02_lex_partition he s).2.2 t ht)
    rw [← h2]; exact this
  · intro l hl hk
    obtain ⟨t, ht, h1, h2⟩ := covers_space c2 l (by rw [c1] at hl; exact hl) (by rw [hk]; rfl)
    rw [← h2]; exact (C13_trivia_shape he s ht).1 (h1.trans hk)
  · intro q hq new hnew
    obtain ⟨sug, hsug, rfl⟩ := piece_new (pos := 0) hq hnew
    rw [← h3] at hsug
    unfold filterSuggestions at hsug
    obtain ⟨x, hx, rfl⟩ := List.mem_map.1 hsug
    have hx := k1.mem_iff.1 (List.mem_filter.1 hx).1
    obtain ⟨A, B, hAB, hA, hB⟩ := round_rcs h hc hs hn hr
    rw [hAB] at hx
    rcases List.mem_append.1 hx with hx | hx
    · obtain ⟨_, t, _, _, _, rfl⟩ := (hA x).1 hx
      exact fun c hc => by simpa [isBlank] using expected_chars config t c hc
    · obtain ⟨_, _, _, _, _, _, _, _, _, _, _, rfl⟩ := (hB x).1 hx
      intro c hc
      cases hc

/-- C96: processing a file without parse errors as in C70, that is with any of `indentation`,
`whitespace-between-line-breaks` and the rules without suggestions, keeps the lines: in every text that is parsed
or written, and in the file afterwards, there are the lines of the original in their order, which differ only in
the spaces and tabs at their beginnings. -/
theorem C96_layout_fix_keeps_lines {errLen : Text → Nat} (he : ErrLenOk errLen) (hl : ErrLineLocal errLen)
    {config : Config} (hc : 0 < config.indentationCount) (active : List RuleName)
    (hactive : ∀ n ∈ active, n ∈ layoutRules)
    {sort : List (RuleName × Suggestion) → List (RuleName × Suggestion)} (hsort : SortsRanges sort)
    (flags : Flags) (writeOk : Bool) {original : Text} {p : Parse} (hp : parse errLen original = .ok p)
    (herr : p.errors = []) :
    let run := runAnalysis (realEngine errLen config active sort) flags writeOk original
    (∀ t ∈ run.parsed ++ run.writes, unindented true t = unindented true original) ∧
      unindented true (contentAfter original run) = unindented true original := by
  intro run
  have hall : ∀ t ∈ run.parsed ++ run.writes, unindented true t = unindented true original := by
    obtain ⟨_, g2⟩ := kept_run (I := fun t => SameParse (parse errLen original) (parse errLen t) ∧
        unindented true t = unindented true original)
      (fun t ht => by
        obtain ⟨⟨tree, errs⟩, hq, hqe⟩ := sameParse_ok hp herr ht.1
        dsimp only at hqe
        subst hqe
        exact ⟨tree, hq⟩) config active hactive
      (fun t q rules results ht hq hs hn hr => by
        obtain ⟨q', hq', hqe⟩ := sameParse_ok hp herr ht.1
        rw [hq] at hq'
        cases hq'
        obtain ⟨over, s', k1, k2, k3, k4⟩ := lines_round he hl hq hqe hc hs hn hsort hr
        exact ⟨over, s', k1, k2, ht.1.trans k3, k4.trans ht.2⟩) flags writeOk
      ⟨by rw [hp]; exact ⟨rfl, rfl⟩, rfl⟩
    exact fun t ht => (g2 t ht).2
  refine ⟨hall, ?_⟩
  unfold contentAfter
  cases hw : run.writes.getLast? with
  | none => rfl
  | some t => exact hall t (List.mem_append_right _ (List.mem_of_getLast? hw))

/-- Four lines, of which one loses whitespace and one gets some. -/
example :
    let s := "<p>\n  \n<b> a</b>\n</p>".toList
    let run := runAnalysis (realEngine (fun _ => 1) defaultConfig layoutRules insertionSort) ⟨true, false⟩ true s
    SortsRanges insertionSort ∧ ErrLenOk (fun _ => 1) ∧ ErrLineLocal (fun _ => 1) ∧
    0 < defaultConfig.indentationCount ∧
    Returns (parse (fun _ => 1) s) (fun r => r.errors.isEmpty) = true ∧
    contentAfter s run = "<p>\n\n    <b> a</b>\n</p>".toList ∧
    unindented true s = "<p>\n\n<b> a</b>\n</p>".toList :=
  ⟨insertionSort_sorts, errLenOk_one, errLineLocal_one, by decide, by decide +kernel, by decide +kernel,
    by decide +kernel⟩

end Ludtwig.Rules
