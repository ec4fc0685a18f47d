import Verif.Rules.NeatFix
import Verif.Rules.QuoteTurn
import Verif.Rules.LayoutConverge

/-!
# Fixing quotes and layout together settles: property C80

While quotes are changed, nothing is said about the layout. After two rounds the quotes are as wanted, and from
then on all suggestions are those of the rules for the layout, which need two more rounds.
-/

namespace Ludtwig.Rules

open Cli Lexer Template
open Layout hiding Tidy
open Shape hiding directive

/-! ## Rules without suggestions -/

theorem flatMap_only {α β : Type} (f : α → Bool) (g : α → List β) (l : List α)
    (h : (l.filter (fun a => !f a)).flatMap g = []) : l.flatMap g = (l.filter f).flatMap g := by
  induction l with
  | nil => rfl
  | cons a l ih =>
    cases hf : f a with
    | true =>
      rw [List.filter_cons_of_neg (by simp [hf])] at h
      rw [List.filter_cons_of_pos hf, List.flatMap_cons, List.flatMap_cons, ih h]
    | false =>
      rw [List.filter_cons_of_pos (by simp [hf]), List.flatMap_cons, List.append_eq_nil_iff] at h
      rw [List.filter_cons_of_neg (by simp [hf]), List.flatMap_cons, h.1, List.nil_append, ih h.2]

/-- Without the rules that suggest nothing, the suggestions are the same, in the same order. -/
theorem results_only (config : Config) (rules : List Rule) (root : Tree) (f : Rule → Bool) {l a b : List CheckResult}
    (h : runRules config rules root = .ok l) (ha : runRules config (rules.filter f) root = .ok a)
    (hb : runRules config (rules.filter (fun r => !f r)) root = .ok b) (hn : getRuleContextSuggestions b = []) :
    getRuleContextSuggestions l = getRuleContextSuggestions a := by
  have hroot : ∃ x, rootChecks config (Elem.root root) rules = .ok x := by
    unfold runRules at h
    cases rules with
    | nil => exact ⟨[], rfl⟩
    | cons a rs =>
      simp only [List.isEmpty_cons, Bool.false_eq_true, if_false] at h
      split at h
      · cases h
      · rename_i x hx; exact ⟨x, hx⟩
  obtain ⟨x, hx⟩ := hroot
  obtain ⟨found, hf, _⟩ := rootChecks_inv config _ rules x hx
  rw [C18_scope_of_ignore config rules root found hf] at h
  rw [C18_scope_of_ignore config _ root found (fun r hr => hf r (List.mem_filter.1 hr).1)] at ha hb
  cases h; cases ha; cases hb
  rw [rcs_append, List.append_eq_nil_iff, rcs_flatMap] at hn
  rw [rcs_append, rcs_append, rcs_flatMap, rcs_flatMap, flatMap_only f _ rules hn.1]
  congr 1
  have h2 := hn.2
  unfold specResults at h2 ⊢
  rw [rcs_flatMap] at h2
  rw [rcs_flatMap, rcs_flatMap]
  rw [List.flatMap_eq_nil_iff] at h2
  refine congrArg List.flatten (List.map_congr_left (fun e he => ?_))
  have h3 := h2 e he
  rw [rcs_flatMap, List.filter_filter] at h3
  rw [rcs_flatMap, rcs_flatMap, List.filter_filter]
  have h4 := flatMap_only f (fun r => getRuleContextSuggestions (checkElem config r e)) (rules.filter (fun r => !switchedOff r.name e))
    (by rw [List.filter_filter]; simpa only [Bool.and_comm] using h3)
  rw [List.filter_filter] at h4
  simpa only [Bool.and_comm] using h4

/-! ## Rounds -/

mutual
theorem calm_fewer {ks ks' : SyntaxKind → Bool} (h : ∀ k, ks' k = true → ks k = true) : ∀ {x : Tree} {w : Wish} {prev : Option Tree},
    Calm ks w prev x → Calm ks' w prev x
  | .token _ _, _, _, _ => by simp [Calm]
  | .node k cs, w, prev, hc => by
    rw [calm_node] at hc ⊢
    exact ⟨fun hk => hc.1 (h k hk), calmAll_fewer h hc.2⟩
theorem calmAll_fewer {ks ks' : SyntaxKind → Bool} (h : ∀ k, ks' k = true → ks k = true) : ∀ {xs : List Tree} {w : Wish} {prev : Option Tree},
    CalmAll ks w prev xs → CalmAll ks' w prev xs
  | [], _, _, _ => calmAll_nil
  | x :: xs, w, prev, hc => by
    rw [calmAll_cons] at hc ⊢
    exact ⟨calm_fewer h hc.1, calmAll_fewer h hc.2⟩
end

/-- The rules for the layout. -/
abbrev layoutPart (rules : List Rule) : List Rule := rules.filter (fun r => decide (r.name ∈ layoutRules))
/-- The other rules. -/
abbrev quotePart (rules : List Rule) : List Rule := rules.filter (fun r => !decide (r.name ∈ layoutRules))

/-- What is already done before a round of fixing: first the quotes, then the layout. -/
def NeatDone (config : Config) (rules : List Rule) (tree x : Tree) : Nat → Prop
  | 0 => True
  | 1 => Calm twigKind (wishIn config (quotePart rules)) none x
  | 2 => Calm (fun _ => true) (wishIn config (quotePart rules)) none x
  | 3 => Calm (fun _ => true) (wishIn config (quotePart rules)) none x ∧ Done1 config (layoutPart rules) tree
  | _ => Calm (fun _ => true) (wishIn config (quotePart rules)) none x ∧ Done1 config (layoutPart rules) tree ∧
      Done2 config (layoutPart rules) tree

theorem neatDone_calm {config : Config} {rules : List Rule} {tree x : Tree} {m : Nat} (h : NeatDone config rules tree x (m + 2)) :
    Calm (fun _ => true) (wishIn config (quotePart rules)) none x := by
  match m, h with
  | 0, h => exact h
  | 1, h => exact h.1
  | _ + 2, h => exact h.1

theorem neat_names {rules : List Rule} (hn : ∀ r ∈ rules, r.name ∈ neatRules) :
    (∀ r ∈ layoutPart rules, r.name ∈ layoutRules) ∧ ∀ r ∈ quotePart rules, r.name ∈ quoteRules := by
  refine ⟨fun r hr => by simpa using (List.mem_filter.1 hr).2, fun r hr => ?_⟩
  rcases List.mem_append.1 (hn r (List.mem_filter.1 hr).1) with h | h
  · exact absurd h (by simpa using (List.mem_filter.1 hr).2)
  · exact h

/-- One round of fixing. -/
theorem neat_step {errLen : Text → Nat} (he : ErrLenOk errLen) (hl : ErrLineLocal errLen) (ha : ErrAhead errLen)
    {config : Config} (hc : 0 < config.indentationCount) {rules : List Rule} (hs : rules.Sublist definitions)
    (hn : ∀ r ∈ rules, r.name ∈ neatRules)
    {sort : List (RuleName × Suggestion) → List (RuleName × Suggestion)} (hsort : SortsStably sort)
    {s : Text} {tree x : Tree} (hread : Read errLen s tree x) {results : List CheckResult}
    (hr : runRules config rules tree = .ok results) {m : Nat} (hdone : NeatDone config rules tree x m) :
    (4 ≤ m → getRuleContextSuggestions results = []) ∧
    ∃ over s' tree' x', overlappingRules (sort (getRuleContextSuggestions results)) = .ok over ∧
      applySuggestionsToText (filterSuggestions over (sort (getRuleContextSuggestions results))) s = some s' ∧
      Read errLen s' tree' x' ∧ NeatDone config rules tree' x' (m + 1) ∧ ∀ ds, fileRules tree' ds = fileRules tree ds := by
  obtain ⟨htidy, hintact, xs, rfl⟩ := template_tidy he hread.isTemplate hread.parsed hread.strip
  obtain ⟨over, s', h1, h2, x', h3, _, h5⟩ := neat_round he hl ha hread.isTemplate hread.parsed config hs hn hsort.1 hr
  rw [round_turn htidy hread.strip] at h5
  cases h5
  obtain ⟨tree', hread'⟩ := template_read he h3
  have hfile : ∀ ds, fileRules tree' ds = fileRules tree ds := fun ds => fileRules_turn hread.strip hread'.strip ds
  match m, hdone with
  | 0, _ => exact ⟨by omega, over, s', tree', _, h1, h2, hread', calm_once (char_quote _) wishIn_of hintact, hfile⟩
  | 1, hdone =>
    exact ⟨by omega, over, s', tree', _, h1, h2, hread', calm_twice (char_quote _) (char_quote _) wishIn_of hintact hdone, hfile⟩
  | m + 2, hdone =>
    have hcalm := neatDone_calm hdone
    have hcalm' : Calm (fun _ => true) (wishIn config (quotePart rules)) none
        (turn (wishIn config (quotePart rules)) none (.node .ROOT xs)) :=
      calm_twice (char_quote _) (char_quote _) wishIn_of hintact (calm_fewer (fun _ _ => rfl) hcalm)
    obtain ⟨A, B, hA, hB, _⟩ := results_split config rules tree (fun r => decide (r.name ∈ layoutRules)) hr
    obtain ⟨hnA, hnB⟩ := neat_names hn
    have hnone : getRuleContextSuggestions B = [] := by
      have := quote_results config (List.filter_sublist.trans hs) hnB hB
      rw [calm_nothing htidy hread.strip hcalm] at this
      exact List.map_eq_nil_iff.1 this
    have hsame := results_only config rules tree _ hr hA hB hnone
    rw [hsame] at h1 h2 ⊢
    obtain ⟨g1, over', s'', p', g2, g3, g4, _, g6, g7⟩ :=
      layout_step he hl hread.parsed rfl hc (List.filter_sublist.trans hs) hnA hsort hA
    rw [h1] at g2
    cases g2
    rw [h2] at g3
    cases g3
    rw [hread'.parsed] at g4
    cases g4
    refine ⟨fun hm => ?_, over, s', tree', _, h1, h2, hread', ?_, hfile⟩
    · match m, hdone with
      | m + 2, hdone => exact g1 hdone.2.1 hdone.2.2
    · match m, hdone with
      | 0, _ => exact ⟨hcalm', g6⟩
      | 1, hdone => exact ⟨hcalm', g6, g7 hdone.2⟩
      | m + 2, hdone => exact ⟨hcalm', g6, g7 hdone.2.1⟩

theorem neat_loop {errLen : Text → Nat} (he : ErrLenOk errLen) (hl : ErrLineLocal errLen) (ha : ErrAhead errLen)
    {config : Config} (hcount : 0 < config.indentationCount) (active : List RuleName)
    {sort : List (RuleName × Suggestion) → List (RuleName × Suggestion)} (hsort : SortsStably sort)
    (names : List RuleName) (hnames : ∀ n ∈ names, n ∈ neatRules) (tree0 : Tree) : ∀ (n m it : Nat)
    (ctx : FileContext Tree) (results : List CheckResult) (dirty : Bool) (tree x : Tree), 4 < n + m →
    0 < n → ctx.fileRules = names → ctx.parseErrors = 0 → Read errLen ctx.sourceCode tree x → (∀ ds, fileRules tree ds = fileRules tree0 ds) →
    NeatDone config (rulesNamed names) tree x m →
    runRules config (rulesNamed names) tree = .ok results →
    ∃ ctx' results' it' ts, fixLoop (realEngine errLen config active sort) n it ctx results dirty = (.ok ctx' results' (dirty || !ts.isEmpty) it', ts) ∧
      m + ts.length ≤ max m 4 ∧ (ctx.sourceCode :: ts).getLast? = some ctx'.sourceCode ∧ ctx'.parseErrors = 0 ∧
      Settled errLen config names tree0 ctx'.sourceCode results' := by
  intro n
  induction n with
  | zero => intro m it ctx results dirty tree x _ h; cases h
  | succ n ih =>
    intro m it ctx results dirty tree x hn _ hc herr hread hfile hdone hr
    have hmem : ∀ r ∈ rulesNamed names, r.name ∈ neatRules := by
      intro r hr
      have := (List.mem_filter.mp hr).2
      exact hnames _ (by simpa using this)
    by_cases hemp : getRuleContextSuggestions results = []
    · refine ⟨ctx, results, it, [], ?_, by simp; omega, rfl, herr, hemp, tree, _, hread, hr, hfile⟩
      rw [fixLoop_nothing _ n it ctx results dirty hemp]
      simp
    · obtain ⟨h0, over, s', tree', x', h1, h2, hread', hdone', hfile'⟩ :=
        neat_step he hl ha hcount (rulesNamed_sublist names) hmem hsort hread hr hdone
      have hm : m < 4 := Nat.lt_of_not_le (fun h => hemp (h0 h))
      obtain ⟨results', hr'⟩ := C66_rules_never_panic hread'.parsed config (rulesNamed names)
        (fun r hr => (rulesNamed_sublist names).subset hr)
      obtain ⟨ctx', res, it', ts, g1, g2, g3, g4⟩ := ih (m + 1) (it + 1) ⟨tree', s', 0, ctx.fileRules⟩ results' true tree' _ (by omega) (by omega) hc rfl
        hread' (fun ds => (hfile' ds).trans (hfile ds)) hdone' hr'
      refine ⟨ctx', res, it', s' :: ts, ?_, by simp only [List.length_cons]; omega, ?_, g4⟩
      · rw [fixLoop_next (realEngine errLen config active sort) n it ctx results dirty over s' tree'
          0 results' hemp h1 h2 ((realEngine_parse ..).mpr ⟨_, hread'.parsed, rfl, rfl⟩)
          (by rw [hc]; exact (realEngine_run ..).mpr hr')]
        rw [show (⟨tree', s', 0, ctx.fileRules⟩ : FileContext Tree) = { ctx with sourceCode := s', tree := tree', parseErrors := 0 } from rfl] at g1
        rw [g1]
        simp
      · rw [List.getLast?_cons_cons]
        exact g3

theorem neat_run {errLen : Text → Nat} (he : ErrLenOk errLen) (hl : ErrLineLocal errLen) (ha : ErrAhead errLen)
    {config : Config} (hcount : 0 < config.indentationCount) (active : List RuleName) (hactive : ∀ n ∈ active, n ∈ neatRules)
    {sort : List (RuleName × Suggestion) → List (RuleName × Suggestion)} (hsort : SortsStably sort)
    (inspect writeOk : Bool) {original : Text} {tree x : Tree} (hread : Read errLen original tree x) :
    ∃ t results ts, Settled errLen config ((fileRules tree (rulesNamed active)).map (·.name)) tree t results ∧
      ts.length ≤ 4 ∧ (original :: ts).getLast? = some t ∧
      runAnalysis (realEngine errLen config active sort) ⟨true, inspect⟩ writeOk original =
        if ts ≠ [] ∧ writeOk = false then ⟨[t], [], .err .fileWrite, original :: ts⟩
        else ⟨if ts = [] then [] else [t], produceDiagnostics inspect 0 results ++ [.outputStderrMessage], .ok, original :: ts⟩ :=
  run_of_loop hread (fun results hr => neat_loop he hl ha hcount active hsort _ (fileRules_active hactive tree) tree 10 0 0
    ⟨tree, original, 0, _⟩ results false tree x (by omega) (by omega) rfl rfl hread (fun _ => rfl) trivial hr) inspect writeOk

/-- C80: fixing quotes and layout of a template together takes at most four rounds, so that at most five texts are
parsed and the limit of rounds is never reached. A file that was written stays as it is when it is processed again:
nothing is left to fix, and the same is reported. -/
theorem C80_neat_fix_settles {errLen : Text → Nat} (he : ErrLenOk errLen) (hl : ErrLineLocal errLen) (ha : ErrAhead errLen)
    {config : Config} (hcount : 0 < config.indentationCount) (active : List RuleName) (hactive : ∀ n ∈ active, n ∈ neatRules)
    {sort : List (RuleName × Suggestion) → List (RuleName × Suggestion)} (hsort : SortsStably sort)
    (flags : Flags) (writeOk : Bool) {original : Text} (ht : TemplateText errLen original) :
    let run := runAnalysis (realEngine errLen config active sort) flags writeOk original
    (run.outcome = .ok ∨ (flags.fix = true ∧ writeOk = false ∧ run.outcome = .err .fileWrite)) ∧
    run.parsed.length ≤ 5 ∧
    ∀ t ∈ run.writes, ∀ flags' writeOk',
      let again := runAnalysis (realEngine errLen config active sort) flags' writeOk' t
      again.outcome = .ok ∧ again.parsed = [t] ∧ again.writes = [] ∧
        (run.outcome = .ok → flags'.inspect = flags.inspect → again.events = run.events) := by
  obtain ⟨x, hx⟩ := ht
  obtain ⟨tree, hread⟩ := template_read he hx
  exact settled_claims hread flags writeOk (fun inspect => neat_run he hl ha hcount active hactive hsort inspect writeOk hread)

/-- The hypotheses of C80 for the file of C79, and the file that it writes is left alone. -/
example : SortsStably insertionSort ∧ 0 < defaultConfig.indentationCount ∧ ErrAhead (fun _ => 1) ∧ TemplateText (fun _ => 1) neatSample ∧
    (runAnalysis (realEngine (fun _ => 1) defaultConfig neatRules insertionSort) ⟨true, false⟩ true neatSample).writes =
      ["<p\n   a=\"b\" c=\"d\"></p>".toList] ∧
    (runAnalysis (realEngine (fun _ => 1) defaultConfig neatRules insertionSort) ⟨true, false⟩ true
      "<p\n   a=\"b\" c=\"d\"></p>".toList).writes = [] :=
  ⟨insertionSort_stable, by decide, errAhead_one, NeatSample.isTemplate, by decide +kernel, by decide +kernel⟩

end Ludtwig.Rules
