import Verif.Rules.LayoutRounds
import Verif.Rules.RunProps
import Verif.Cli.ProcessProps

/-!
# Fixing the layout ends: property C71

With only `indentation` and `whitespace-between-line-breaks` among the rules that suggest something,
`--fix` succeeds on every file without parse errors after at most two rounds, and a second `--fix`
changes nothing.
-/

namespace Ludtwig.Rules

open Cli Lexer Layout Shape

/-! ## The rules of a file -/

theorem fileDirectives_trees (k : SyntaxKind) (cs : List Tree) : fileDirectives (.node k cs) =
    (cs.filter (nodeOf .LUDTWIG_DIRECTIVE_FILE_IGNORE)).map (fun t => directiveNames t.subtrees) := by
  rw [fileDirectives_eq]
  rfl

theorem bareAll_nodes (k : SyntaxKind) : ∀ cs : List Tree,
    (bareAll cs).filter (nodeOf k) = (cs.filter (nodeOf k)).map bareTree
  | [] => rfl
  | t :: cs => by
    rw [bareAll, List.filter_append, bareAll_nodes k cs, bare_eq]
    cases t with
    | token k' x =>
      rw [List.filter_cons_of_neg (by simp [nodeOf])]
      split
      · rfl
      · rw [List.filter_cons_of_neg (by simp [nodeOf, bareTree])]
        rfl
    | node k' ds =>
      rw [show triviaTree (.node k' ds) = false from rfl]
      have hb : nodeOf k (bareTree (.node k' ds)) = nodeOf k (.node k' ds) := rfl
      cases hc : nodeOf k (.node k' ds) with
      | true =>
        rw [List.filter_cons_of_pos hc]
        simp only [Bool.false_eq_true, if_false]
        rw [List.filter_cons_of_pos (by rw [hb, hc])]
        rfl
      | false =>
        rw [List.filter_cons_of_neg (by rw [hc]; exact Bool.false_ne_true)]
        simp only [Bool.false_eq_true, if_false]
        rw [List.filter_cons_of_neg (by rw [hb, hc]; exact Bool.false_ne_true)]
        rfl

/-- The rules that apply to a file do not depend on its layout. -/
theorem fileRules_same {k : SyntaxKind} {cs cs' : List Tree} (h : bareAll cs = bareAll cs')
    (rules : List Rule) : fileRules (.node k cs) rules = fileRules (.node k cs') rules := by
  have key : ∀ cs : List Tree, fileDirectives (.node k cs) =
      ((bareAll cs).filter (nodeOf .LUDTWIG_DIRECTIVE_FILE_IGNORE)).map (fun t => directiveNames t.subtrees) := by
    intro cs
    rw [fileDirectives_trees, bareAll_nodes, List.map_map]
    refine List.map_congr_left (fun t ht => ?_)
    obtain ⟨ds, rfl⟩ := nodeOf_tree (List.mem_filter.1 ht).2
    exact (names_bare ds).symm
  unfold fileRules
  rw [key cs, key cs', h]

theorem rulesOf_same {errLen : Text → Nat} {config : Config} {active : List RuleName}
    {sort : List (RuleName × Suggestion) → List (RuleName × Suggestion)} {s s' : Text} {p p' : Parse}
    (h : parse errLen s = .ok p) (h' : parse errLen s' = .ok p')
    (hsame : SameParse (parse errLen s) (parse errLen s')) {rules : List RuleName}
    (hr : RulesOf (realEngine errLen config active sort) s rules) :
    RulesOf (realEngine errLen config active sort) s' rules := by
  obtain ⟨tree, errors, h1, rfl⟩ := hr
  obtain ⟨q, hq, rfl, rfl⟩ := (realEngine_parse ..).mp h1
  rw [h] at hq
  cases hq
  obtain ⟨cs, cs', e1, e2, e3⟩ := sameParse_bare h h' hsame
  refine ⟨p'.tree, p'.errors.length, (realEngine_parse ..).mpr ⟨p', h', rfl, rfl⟩, ?_⟩
  show (fileRules p'.tree (rulesNamed active)).map (·.name) = (fileRules p.tree (rulesNamed active)).map (·.name)
  rw [e1, e2, fileRules_same e3]

/-! ## Rounds -/

/-- Is a rule among the active ones? -/
def named (name : RuleName) (rules : List Rule) : Bool := rules.any (fun r => r.name == name)

theorem named_mem {rules : List Rule} (hs : rules.Sublist definitions) {r : Rule} (hr : r ∈ definitions) :
    named r.name rules = true ↔ r ∈ rules := by
  unfold named
  rw [List.any_eq_true]
  constructor
  · rintro ⟨r', h1, h2⟩
    have h2 : r'.name = r.name := eq_of_beq h2
    have hd := nodup_names (List.Sublist.refl definitions)
    have : r' = r := by
      have h3 := hs.subset h1
      clear h1 hs
      generalize definitions = l at hd h3 hr
      induction l with
      | nil => cases hr
      | cons a l ih =>
        rw [List.pairwise_cons] at hd
        rcases List.mem_cons.1 h3 with rfl | h3
        · rcases List.mem_cons.1 hr with rfl | hr
          · rfl
          · exact absurd h2 (hd.1 _ hr)
        · rcases List.mem_cons.1 hr with rfl | hr
          · exact absurd h2.symm (hd.1 _ (by assumption))
          · exact ih hd.2 (by assumption) hr
    exact this ▸ h1
  · intro h
    exact ⟨r, h, beq_self_eq_true _⟩

/-- All lines of a file are indented as wanted. -/
def Done1 (config : Config) (rules : List Rule) (root : Tree) : Prop :=
  Indented (wantOf (named "indentation".toList rules) config) true (cells config root)

/-- No line of a file is of whitespace only, where that matters. -/
def Done2 (config : Config) (rules : List Rule) (root : Tree) : Prop :=
  NoBlank (offOf (named "whitespace-between-line-breaks".toList rules)) Mark.own false false (cells config root)

theorem indentation_defined : indentation ∈ definitions := by
  simp [definitions]

theorem blank_defined : whitespaceBetweenLineBreaks ∈ definitions := by
  simp [definitions]

/-- One round of fixing. -/
theorem layout_step {errLen : Text → Nat} (he : ErrLenOk errLen) (hl : ErrLineLocal errLen)
    {s : Text} {p : Parse} (h : parse errLen s = .ok p) (herr : p.errors = []) {config : Config}
    (hc : 0 < config.indentationCount) {rules : List Rule} (hs : rules.Sublist definitions)
    (hn : ∀ r ∈ rules, r.name ∈ layoutRules)
    {sort : List (RuleName × Suggestion) → List (RuleName × Suggestion)} (hsort : SortsStably sort)
    {results : List CheckResult} (hr : runRules config rules p.tree = .ok results) :
    (Done1 config rules p.tree → Done2 config rules p.tree → getRuleContextSuggestions results = []) ∧
    ∃ over s' p', overlappingRules (sort (getRuleContextSuggestions results)) = .ok over ∧
      applySuggestionsToText (filterSuggestions over (sort (getRuleContextSuggestions results))) s =
        some s' ∧ parse errLen s' = .ok p' ∧ p'.errors = [] ∧ Done1 config rules p'.tree ∧
      (Done1 config rules p.tree → Done2 config rules p'.tree) := by
  obtain ⟨A, B, hAB, hA, hB⟩ := round_rcs h hc hs hn hr
  have hA' := hA
  have hB' := hB
  have n1 : named "indentation".toList rules = true ↔ indentation ∈ rules :=
    named_mem hs indentation_defined
  have n2 : named "whitespace-between-line-breaks".toList rules = true ↔ whitespaceBetweenLineBreaks ∈ rules :=
    named_mem hs blank_defined
  rw [← n1] at hA'
  rw [← n2] at hB'
  obtain ⟨d1, d2⟩ := round_done he h herr hA' hB'
  refine ⟨fun h1 h2 => by rw [hAB, d1 h1, d2 h2]; rfl, ?_⟩
  have htidy := tidy_results he h herr config hs hn hr
  rw [hAB] at htidy ⊢
  obtain ⟨over, ps, g1, g2, g3, g4, g5, g6, g7⟩ := stable_round (parsed_leaves he h) htidy
    (n1 := "indentation".toList) (n2 := "whitespace-between-line-breaks".toList)
    (fun q hq => by obtain ⟨_, t, _, _, _, rfl⟩ := (hA q).1 hq; rfl)
    (fun q hq => by obtain ⟨_, _, _, _, _, _, _, _, _, _, _, rfl⟩ := (hB q).1 hq; rfl) (by decide) hsort
  obtain ⟨a1, a2, a3⟩ := round_acts he h herr hA' hB' g4 g5 g6 g7
  have htext : piecesBefore ps = s := by
    rw [edits_before g2, leaves_text]
    exact C01_root_text he s p h
  have hre : Reindented s (piecesAfter ps) := by
    obtain ⟨trees, t1, t2⟩ := C05_root_covers errLen s p h
    have : p.tree.leaves = leavesOf trees := by rw [t1]; rfl
    have g2' := g2
    rw [this] at g2'
    obtain ⟨ps', k1, k2, k3⟩ := edits_tokens t2 g2'
    rw [← k3]
    exact edits_reindented he hl (C49_lex_tokenizes he s) k1
  have hsame := C68_relaid he hl hre
  obtain ⟨p', hp', herr'⟩ := sameParse_ok h herr hsame
  have hcells := round_cells he hl h herr config g2 a1 hp' herr' hsame
  have hpr : Proper (endMark p.tree) ((acted config p.tree (pieceSuggestions 0 ps)).map (·.1)) := by
    rw [acted_cells]; exact cells_proper he h herr config
  refine ⟨over, piecesAfter ps, p', g1, ?_, hp', herr', ?_, ?_⟩
  · rw [g3]
    have := apply_pieces ps []
    simp only [byteLen_nil, List.nil_append] at this
    rw [← htext]
    exact this
  · unfold Done1
    rw [hcells]
    exact edited_indented hpr a2
  · intro hd
    unfold Done2
    rw [hcells]
    refine (edited_blanks (want := wantOf (named "indentation".toList rules) config) hpr ?_ (a3 (d1 hd))).2
    rw [acted_cells]
    exact hd

/-! ## The loop -/

/-- From what state a number of rounds is enough. -/
def Stage (config : Config) (rules : List Rule) (root : Tree) : Nat → Prop
  | 0 => Done1 config rules root ∧ Done2 config rules root
  | 1 => Done1 config rules root
  | _ => True

theorem layout_ends {errLen : Text → Nat} (he : ErrLenOk errLen) (hl : ErrLineLocal errLen)
    {config : Config} (hc : 0 < config.indentationCount) (active : List RuleName)
    {sort : List (RuleName × Suggestion) → List (RuleName × Suggestion)} (hsort : SortsStably sort)
    (names : List RuleName) (hnames : ∀ n ∈ names, n ∈ layoutRules) : ∀ (k n it : Nat)
    (ctx : FileContext Tree) (results : List CheckResult) (dirty : Bool) (p : Parse),
    ctx.fileRules = names → parse errLen ctx.sourceCode = .ok p → p.errors = [] →
    runRules config (rulesNamed names) p.tree = .ok results → k ≤ 2 →
    Stage config (rulesNamed names) p.tree k →
    (fixLoop (realEngine errLen config active sort) (k + n + 1) it ctx results dirty).2.length ≤ k ∧
    ∃ ctx' results' dirty' it',
      (fixLoop (realEngine errLen config active sort) (k + n + 1) it ctx results dirty).1 =
        .ok ctx' results' dirty' it' := by
  intro k
  induction k with
  | zero =>
    intro n it ctx results dirty p hcx hp herr hr hk hst
    have hmem : ∀ r ∈ rulesNamed names, r.name ∈ layoutRules := by
      intro r hr
      have := (List.mem_filter.mp hr).2
      exact hnames _ (by simpa using this)
    have hnil := (layout_step he hl hp herr hc (rulesNamed_sublist names) hmem hsort hr).1 hst.1 hst.2
    rw [Nat.zero_add, fixLoop_nothing _ n it ctx results dirty hnil]
    exact ⟨Nat.le_refl _, _, _, _, _, rfl⟩
  | succ k ih =>
    intro n it ctx results dirty p hcx hp herr hr hk hst
    have hfuel : k + 1 + n + 1 = (k + n + 1) + 1 := by omega
    rw [hfuel]
    by_cases hemp : getRuleContextSuggestions results = []
    · rw [fixLoop_nothing _ _ it ctx results dirty hemp]
      exact ⟨Nat.zero_le _, _, _, _, _, rfl⟩
    · have hmem : ∀ r ∈ rulesNamed names, r.name ∈ layoutRules := by
        intro r hr
        have := (List.mem_filter.mp hr).2
        exact hnames _ (by simpa using this)
      obtain ⟨over, s', p', h1, h2, hp', herr', hd1, hd2⟩ :=
        (layout_step he hl hp herr hc (rulesNamed_sublist names) hmem hsort hr).2
      obtain ⟨results', hr'⟩ := C66_rules_never_panic hp' config (rulesNamed names)
        (fun r hr => (rulesNamed_sublist names).subset hr)
      rw [fixLoop_next (realEngine errLen config active sort) _ it ctx results dirty over s' p'.tree
        p'.errors.length results' hemp h1 h2 ((realEngine_parse ..).mpr ⟨p', hp', rfl, rfl⟩)
        (by rw [hcx]; exact (realEngine_run ..).mpr hr')]
      have hst' : Stage config (rulesNamed names) p'.tree k := by
        rcases k with _ | _ | k
        · exact ⟨hd1, hd2 hst⟩
        · exact hd1
        · omega
      obtain ⟨g1, g2⟩ := ih n (it + 1) ⟨p'.tree, s', p'.errors.length, ctx.fileRules⟩ results' true p'
        hcx hp' herr' hr' (by omega) hst'
      refine ⟨?_, g2⟩
      rw [List.length_cons]
      exact Nat.succ_le_succ g1

/-- C71: processing a file without parse errors with only `indentation`,
`whitespace-between-line-breaks` and rules without suggestions, and a width of the indentation other than 0:
it succeeds unless the file cannot be written; with `--fix`, at most two fixed texts are tried; and a second
`--fix` changes nothing and reports the same. -/
theorem C71_layout_fix_converges {errLen : Text → Nat} (he : ErrLenOk errLen)
    (hl : ErrLineLocal errLen) {config : Config} (hc : 0 < config.indentationCount) (active : List RuleName)
    (hactive : ∀ n ∈ active, n ∈ layoutRules)
    {sort : List (RuleName × Suggestion) → List (RuleName × Suggestion)} (hsort : SortsStably sort)
    (flags : Flags) (writeOk : Bool) {original : Text} {p : Parse} (hp : parse errLen original = .ok p)
    (herr : p.errors = []) :
    let E := realEngine errLen config active sort
    let run := runAnalysis E flags writeOk original
    (run.outcome = .ok ∨ (flags.fix = true ∧ writeOk = false ∧ run.outcome = .err .fileWrite)) ∧
    run.parsed.length ≤ 3 ∧
    (flags.fix = true → writeOk = true →
      let again := runAnalysis E flags true (contentAfter original run)
      again.outcome = .ok ∧ again.writes = [] ∧ again.events = run.events ∧
        again.parsed = [contentAfter original run]) := by
  intro E run
  have hnames : ∀ n ∈ (realEngine errLen config active sort).fileRules p.tree, n ∈ layoutRules := by
    intro n hn
    obtain ⟨r, hr, rfl⟩ := List.mem_map.mp hn
    have h1 := (List.mem_filter.mp ((fileRules_sublist _ _).subset hr)).2
    exact hactive _ (by simpa using h1)
  obtain ⟨results, hr⟩ := C66_rules_never_panic hp config
    (rulesNamed ((realEngine errLen config active sort).fileRules p.tree))
    (fun r hr => (rulesNamed_sublist _).subset hr)
  have hfirst : (run.outcome = .ok ∨ (flags.fix = true ∧ writeOk = false ∧ run.outcome = .err .fileWrite)) ∧
      run.parsed.length ≤ 3 := by
    have hrun : run = runAnalysis (realEngine errLen config active sort) flags writeOk original := rfl
    clear_value run
    unfold runAnalysis at hrun
    have hp' : (realEngine errLen config active sort).parse original = some (p.tree, p.errors.length) :=
      (realEngine_parse ..).mpr ⟨p, hp, rfl, rfl⟩
    have hr' : (realEngine errLen config active sort).runRules
        ((realEngine errLen config active sort).fileRules p.tree) p.tree = some results :=
      (realEngine_run ..).mpr hr
    rw [hp'] at hrun
    dsimp only at hrun
    rw [hr'] at hrun
    dsimp only at hrun
    obtain ⟨g1, ctx', results', dirty', it', g2⟩ := layout_ends he hl hc active hsort _ hnames 2 7 0
      ⟨p.tree, original, p.errors.length, (realEngine errLen config active sort).fileRules p.tree⟩
      results false p rfl hp herr hr (Nat.le_refl _) trivial
    unfold iterativelyApplySuggestions at hrun
    rw [show 2 + 7 + 1 = 10 from rfl] at g1 g2
    generalize fixLoop (realEngine errLen config active sort) 10 0
      ⟨p.tree, original, p.errors.length, (realEngine errLen config active sort).fileRules p.tree⟩
      results false = L at g1 g2 hrun
    obtain ⟨res, parsed⟩ := L
    simp only at g2 g1
    subst g2
    by_cases hfix : flags.fix = true
    · rw [if_pos hfix] at hrun
      dsimp only at hrun
      split at hrun
      · rename_i hd
        simp only [Bool.and_eq_true, Bool.not_eq_true'] at hd
        subst hrun
        exact ⟨.inr ⟨hfix, hd.2, rfl⟩, Nat.succ_le_succ g1⟩
      · subst hrun
        exact ⟨.inl rfl, Nat.succ_le_succ g1⟩
    · rw [if_neg hfix] at hrun
      subst hrun
      exact ⟨.inl rfl, by simp⟩
  refine ⟨hfirst.1, hfirst.2, ?_⟩
  rintro hfix rfl
  have hok : run.outcome = .ok := by
    rcases hfirst.1 with h | ⟨_, h, _⟩
    · exact h
    · cases h
  refine C53_second_fix_changes_nothing E flags true original hfix hok (fun rules hrules => ?_)
  have hsame : SameParse (parse errLen original) (parse errLen (contentAfter original run)) := by
    have h70 := (C70_layout_fix_keeps_structure he hl config active hactive hsort.1 flags true hp herr).2
    unfold contentAfter
    cases hw : run.writes.getLast? with
    | none =>
      show SameParse (parse errLen original) (parse errLen original)
      rw [hp]; exact ⟨rfl, rfl⟩
    | some t => exact h70 t (List.mem_append_right _ (List.mem_of_getLast? hw))
  obtain ⟨p', hp', _⟩ := sameParse_ok hp herr hsame
  exact rulesOf_same hp hp' hsame hrules

/-- A file that needs two rounds. -/
example : SortsStably insertionSort ∧ 0 < defaultConfig.indentationCount ∧
    Returns (parse (fun _ => 1) "<p>\n  \n<b></b>\n</p>".toList) (fun r => r.errors.isEmpty) = true ∧
    (runAnalysis (realEngine (fun _ => 1) defaultConfig layoutRules insertionSort) ⟨true, false⟩ true
      "<p>\n  \n<b></b>\n</p>".toList).parsed.length = 3 :=
  ⟨insertionSort_stable, by decide, by decide +kernel, by decide +kernel⟩

end Ludtwig.Rules
