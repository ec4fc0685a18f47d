import Verif.Rules.NeatTurn

/-!
# What a fixed file looks like: property C81
-/

namespace Ludtwig.Rules

open Cli Lexer Template
open Layout hiding Tidy
open Shape hiding directive

/-! ## Specification -/

/-- A rule is active, and no directive on top of the file switches it off. -/
def Enabled (active : List RuleName) (root : Tree) (n : RuleName) : Prop :=
  n ∈ active ∧ [] ∉ topDirectives root ∧ ∀ d ∈ topDirectives root, n ∉ d

/-- Every line on which the rule for the indentation is not off begins with the expected whitespace. -/
def LinesIndented (config : Config) (root : Tree) : Prop :=
  ∀ t ∈ lineStarts (visibleTokens root), indentOff t = false → leading t = expected config t

/-- Between two line breaks is not only whitespace, except where the rule is switched off at the first of them. -/
def NoBlankLines (root : Tree) : Prop :=
  ∀ x lb ws next y, root.tokenElems = x ++ lb :: ws :: next :: y → lb.kind = .TK_LINE_BREAK → ws.kind = .TK_WHITESPACE →
    next.kind = .TK_LINE_BREAK → hidden lb = true ∨ switchedOff "whitespace-between-line-breaks".toList lb = true

/-! ## Proofs -/

theorem enabled_mem {active : List RuleName} {tree : Tree} {r : Rule} (hr : r ∈ definitions) (h : Enabled active tree r.name) :
    r ∈ rulesNamed ((fileRules tree (rulesNamed active)).map (·.name)) := by
  obtain ⟨h1, h2, h3⟩ := h
  refine List.mem_filter.2 ⟨hr, ?_⟩
  rw [List.contains_iff_mem]
  refine List.mem_map.2 ⟨r, ?_, rfl⟩
  rw [C17_file_rules, if_neg h2]
  exact List.mem_filter.2 ⟨List.mem_filter.2 ⟨hr, by simpa using h1⟩, by simpa using h3⟩

/-- The layout of a file for which nothing is suggested. -/
theorem layout_of_nothing {errLen : Text → Nat} {s : Text} {p : Parse} (h : parse errLen s = .ok p)
    {config : Config} (hc : 0 < config.indentationCount) {rules : List Rule} (hs : rules.Sublist definitions)
    (hn : ∀ r ∈ rules, r.name ∈ layoutRules) {results : List CheckResult}
    (hr : runRules config rules p.tree = .ok results) (hnil : getRuleContextSuggestions results = []) :
    (indentation ∈ rules → LinesIndented config p.tree) ∧ (whitespaceBetweenLineBreaks ∈ rules → NoBlankLines p.tree) := by
  obtain ⟨A, B, hAB, hA, hB⟩ := round_rcs h hc hs hn hr
  rw [hnil] at hAB
  obtain ⟨rfl, rfl⟩ := List.append_eq_nil_iff.1 hAB.symm
  refine ⟨fun hi t ht ho => ?_, fun hw x lb ws next y hx h1 h2 h3 => ?_⟩
  · by_cases he : leading t = expected config t
    · exact he
    · exact absurd ((hA _).2 ⟨hi, t, ht, ho, he, rfl⟩) (by simp)
  · cases ho : (hidden lb || switchedOff "whitespace-between-line-breaks".toList lb) with
    | true => simpa using ho
    | false => exact absurd ((hB _).2 ⟨hw, x, lb, ws, next, y, hx, h1, h2, h3, ho, rfl⟩) (by simp)

/-- C81: a file without parse errors that was processed with `--fix` and the rules for the layout has lines with the
expected indentation and no lines of whitespace only, as far as the rules are not switched off. -/
theorem C81_layout_after_fix {errLen : Text → Nat} (he : ErrLenOk errLen) (hl : ErrLineLocal errLen)
    {config : Config} (hc : 0 < config.indentationCount) (active : List RuleName) (hactive : ∀ n ∈ active, n ∈ layoutRules)
    {sort : List (RuleName × Suggestion) → List (RuleName × Suggestion)} (hsort : SortsStably sort)
    (inspect : Bool) {original : Text} {p : Parse} (hp : parse errLen original = .ok p) (herr : p.errors = []) :
    let run := runAnalysis (realEngine errLen config active sort) ⟨true, inspect⟩ true original
    ∃ tree, parse errLen (contentAfter original run) = .ok ⟨tree, []⟩ ∧
      (Enabled active tree "indentation".toList → LinesIndented config tree) ∧
      (Enabled active tree "whitespace-between-line-breaks".toList → NoBlankLines tree) := by
  intro run
  obtain ⟨h1, _, h3⟩ := C71_layout_fix_converges he hl hc active hactive hsort ⟨true, inspect⟩ true hp herr
  have hok : (runAnalysis (realEngine errLen config active sort) ⟨true, inspect⟩ true original).outcome = .ok := by
    rcases h1 with h | ⟨_, h, _⟩
    · exact h
    · cases h
  obtain ⟨rules, errors, results, hro, ⟨tree, hpt, hrun⟩, hnil, _⟩ :=
    C24_successful_fix_is_complete (realEngine errLen config active sort) ⟨true, inspect⟩ original rfl hok
  have hsame : SameParse (parse errLen original) (parse errLen (contentAfter original run)) := by
    have h70 := (C70_layout_fix_keeps_structure he hl config active hactive hsort.1 ⟨true, inspect⟩ true hp herr).2
    unfold contentAfter
    cases hw : run.writes.getLast? with
    | none =>
      show SameParse (parse errLen original) (parse errLen original)
      rw [hp]; exact ⟨rfl, rfl⟩
    | some t => exact h70 t (List.mem_append_right _ (List.mem_of_getLast? hw))
  obtain ⟨⟨tree', errs⟩, hp', herr'⟩ := sameParse_ok hp herr hsame
  have herr' : errs = [] := herr'
  subst herr'
  obtain ⟨tree'', errors'', hq, hrules⟩ := rulesOf_same hp hp' hsame hro
  obtain ⟨q, hq1, rfl, rfl⟩ := (realEngine_parse ..).mp hpt
  obtain ⟨q', hq1', rfl, rfl⟩ := (realEngine_parse ..).mp hq
  rw [show parse errLen (contentAfter original _) = _ from hp'] at hq1
  cases hq1
  rw [hp'] at hq1'
  cases hq1'
  have hrun' := (realEngine_run ..).mp hrun
  rw [← hrules] at hrun'
  have hmem : ∀ r ∈ rulesNamed ((fileRules tree' (rulesNamed active)).map (·.name)), r.name ∈ layoutRules := by
    intro r hr
    have := (List.mem_filter.mp hr).2
    rw [List.contains_iff_mem] at this
    exact fileRules_active hactive tree' _ this
  obtain ⟨g1, g2⟩ := layout_of_nothing hp' hc (rulesNamed_sublist _) hmem hrun' hnil
  exact ⟨tree', hp', fun h => g1 (enabled_mem (r := indentation) indentation_defined h),
    fun h => g2 (enabled_mem (r := whitespaceBetweenLineBreaks) blank_defined h)⟩

/-- C81: with the rules for quotes in addition, a template has this layout and quotes as in C78. -/
theorem C81_neat_after_fix {errLen : Text → Nat} (he : ErrLenOk errLen) (hl : ErrLineLocal errLen) (ha : ErrAhead errLen)
    {config : Config} (hc : 0 < config.indentationCount) (active : List RuleName) (hactive : ∀ n ∈ active, n ∈ neatRules)
    {sort : List (RuleName × Suggestion) → List (RuleName × Suggestion)} (hsort : SortsStably sort)
    (inspect writeOk : Bool) {original : Text} (ht : TemplateText errLen original) :
    let run := runAnalysis (realEngine errLen config active sort) ⟨true, inspect⟩ writeOk original
    ∃ t tree, (run.writes = [t] ∨ run.writes = [] ∧ t = original) ∧ parse errLen t = .ok ⟨tree, []⟩ ∧
      (Enabled active tree "indentation".toList → LinesIndented config tree) ∧
      (Enabled active tree "whitespace-between-line-breaks".toList → NoBlankLines tree) ∧
      ∀ e ∈ tree.elems,
        (∀ cs, e.tree = .node .HTML_STRING cs → Applies active tree "html-string-quotation".toList e →
          BetweenQuotes config.htmlQuotation.char cs ∨ Contains config.htmlQuotation.char cs) ∧
        (∀ cs, e.tree = .node .TWIG_LITERAL_STRING cs → Applies active tree "twig-string-quotation".toList e →
          BetweenQuotes config.twigQuotation.char cs ∨ Contains config.twigQuotation.char cs ∨
            (config.twigQuotation = .single ∧ Interpolates cs)) := by
  obtain ⟨x, hx⟩ := ht
  obtain ⟨tree0, hread0⟩ := template_read he hx
  obtain ⟨t, results, ts, h1, h2, h3, h4⟩ := neat_run he hl ha hc active hactive hsort inspect writeOk hread0
  intro run
  have hrun : run = runAnalysis (realEngine errLen config active sort) ⟨true, inspect⟩ writeOk original := rfl
  clear_value run
  rw [h4] at hrun
  obtain ⟨k1, tree, x', k2, k3, k4⟩ := h1
  rw [← k4] at k3
  have hmem : ∀ r ∈ rulesNamed ((fileRules tree (rulesNamed active)).map (·.name)), r.name ∈ neatRules := by
    intro r hr
    have := (List.mem_filter.mp hr).2
    rw [List.contains_iff_mem] at this
    exact fileRules_active hactive tree _ this
  obtain ⟨hnA, hnB⟩ := neat_names hmem
  have hs := rulesNamed_sublist ((fileRules tree (rulesNamed active)).map (·.name))
  obtain ⟨A, B, hA, hB, hAB⟩ := results_split config _ tree (fun r => decide (r.name ∈ layoutRules)) k3
  have hnil : getRuleContextSuggestions A = [] ∧ getRuleContextSuggestions B = [] := by
    rw [← List.append_eq_nil_iff, ← rcs_append]
    have : (getRuleContextSuggestions results).Perm (getRuleContextSuggestions (A ++ B)) := hAB.flatMap_right _
    rw [k1] at this
    exact List.nil_perm.1 this
  obtain ⟨g1, g2⟩ := layout_of_nothing k2.parsed hc (List.filter_sublist.trans hs) hnA hA hnil.1
  refine ⟨t, tree, ?_, k2.parsed,
    fun h => g1 (List.mem_filter.2 ⟨enabled_mem (r := indentation) indentation_defined h, by decide⟩),
    fun h => g2 (List.mem_filter.2 ⟨enabled_mem (r := whitespaceBetweenLineBreaks) blank_defined h, by decide⟩), ?_⟩
  · subst hrun
    cases ts with
    | nil => exact .inr ⟨by simp, by simpa using h3.symm⟩
    | cons a ts => left; split <;> simp
  · obtain ⟨htidy, _⟩ := template_tidy he k2.isTemplate k2.parsed k2.strip
    have hnone := quote_results config (List.filter_sublist.trans hs) hnB hB
    rw [hnil.2] at hnone
    have hruns : ∀ {n : RuleName} {e : Elem}, n ∉ layoutRules →
        runs (rulesNamed ((fileRules tree (rulesNamed active)).map (·.name))) n e = true →
        runs (quotePart (rulesNamed ((fileRules tree (rulesNamed active)).map (·.name)))) n e = true := by
      intro n e hn h
      unfold runs at h ⊢
      rw [Bool.and_eq_true] at h ⊢
      refine ⟨h.1, ?_⟩
      obtain ⟨r, hr, e⟩ := List.any_eq_true.1 h.2
      have e' : r.name = n := eq_of_beq e
      exact List.any_eq_true.2 ⟨r, List.mem_filter.2 ⟨hr, by rw [e']; simpa using hn⟩, e⟩
    intro e hel
    obtain ⟨g1, g2⟩ := quotes_wanted htidy hnone.symm e hel
    exact ⟨fun cs hcs happ => g1 cs hcs (hruns (by decide) (applies_runs (by decide) happ)),
      fun cs hcs happ => g2 cs hcs (hruns (by decide) (applies_runs (by decide) happ))⟩

/-- The file that is written for the file of C79: a line with whitespace and two values between quotes, on which all of
these rules are active. -/
example : SortsStably insertionSort ∧ 0 < defaultConfig.indentationCount ∧ ErrAhead (fun _ => 1) ∧ TemplateText (fun _ => 1) neatSample ∧
    Gives (parse (fun _ => 1) "<p\n   a=\"b\" c=\"d\"></p>".toList) (fun p =>
      (topDirectives p.tree).isEmpty && neatRules.contains "indentation".toList &&
      (lineStarts (visibleTokens p.tree)).map (fun t => (leading t, indentOff t)) == [([], false), ("   ".toList, false)] &&
      (p.tree.elems.filter (fun e => e.isNode && e.kind == .HTML_STRING)).length == 2) = true :=
  ⟨insertionSort_stable, by decide, errAhead_one, NeatSample.isTemplate, by decide +kernel⟩

end Ludtwig.Rules
