import Verif.Rules.BreakAfter
import Verif.Rules.BreakLayout

/-!
# Line breaks around blocks and layout in a fixed file: property C93
-/

namespace Ludtwig.Rules

open Cli Lexer Layout Shape

/-- C93: a file that was processed successfully as in C92 with `--fix`, has lines with the expected indentation,
no lines of whitespace only, and the wanted line breaks around blocks, all at once, as far as the rules are not
switched off. -/
theorem C93_rows_after_fix {errLen : Text → Nat} (he : ErrLenOk errLen) (hlo : ErrLineLocal errLen)
    (hE : ErrBeforeBreak errLen) {config : Config} (hc : 0 < config.indentationCount) (active : List RuleName)
    (hactive : ∀ n ∈ active, n ∈ rowRules)
    {sort : List (RuleName × Suggestion) → List (RuleName × Suggestion)} (hsort : SortsRanges sort)
    (inspect : Bool) {original : Text} {p : Parse} (hp : parse errLen original = .ok p)
    (herr : p.errors = []) (hb : BlocksClear original) (hcr : NoCr p.tree) (hraw : ¬ RawBlock p.tree)
    (hok : (runAnalysis (realEngine errLen config active sort) ⟨true, inspect⟩ true original).outcome = .ok) :
    let run := runAnalysis (realEngine errLen config active sort) ⟨true, inspect⟩ true original
    ∃ tree, parse errLen (contentAfter original run) = .ok ⟨tree, []⟩ ∧ bare tree = bare p.tree ∧
      (Enabled active tree "indentation".toList → LinesIndented config tree) ∧
      (Enabled active tree "whitespace-between-line-breaks".toList → NoBlankLines tree) ∧
      (Enabled active tree "twig-block-line-breaks".toList →
        BlocksSpaced config (contentAfter original run) tree) := by
  intro run
  obtain ⟨rules, errors, results, hro, ⟨tree, hpt, hrun⟩, hnil, _⟩ :=
    C24_successful_fix_is_complete (realEngine errLen config active sort) ⟨true, inspect⟩ original rfl hok
  have hsame : SameParse (parse errLen original) (parse errLen (contentAfter original run)) := by
    have h92 := (C92_line_fix_keeps_structure he hlo hE config active hactive hsort ⟨true, inspect⟩ true hp herr hb
      hcr hraw).2
    unfold contentAfter
    cases hw : run.writes.getLast? with
    | none =>
      show SameParse (parse errLen original) (parse errLen original)
      rw [hp]; exact ⟨rfl, rfl⟩
    | some t => exact h92 t (List.mem_append_right _ (List.mem_of_getLast? hw))
  obtain ⟨⟨tree', errs⟩, hp', herr'⟩ := sameParse_ok hp herr hsame
  have herr' : errs = [] := herr'
  subst herr'
  have hbare : bare p.tree = bare tree' := by
    rw [hp, hp'] at hsame
    exact hsame.1
  have hraw' : ¬ RawBlock tree' := by
    rw [← rawBlock_bare, ← hbare, rawBlock_bare]; exact hraw
  obtain ⟨tree'', errors'', hq, hrules⟩ := rulesOf_same hp hp' hsame hro
  obtain ⟨q, hq1, rfl, rfl⟩ := (realEngine_parse ..).mp hpt
  obtain ⟨q', hq1', rfl, rfl⟩ := (realEngine_parse ..).mp hq
  rw [show parse errLen (contentAfter original _) = _ from hp'] at hq1
  cases hq1
  rw [hp'] at hq1'
  cases hq1'
  have hrun' := (realEngine_run ..).mp hrun
  rw [← hrules] at hrun'
  have hs := rulesNamed_sublist ((fileRules tree' (rulesNamed active)).map (·.name))
  -- the layout
  obtain ⟨A, B, hA, hB, hAB⟩ := results_split config _ tree' (fun r => decide (r.name ∈ layoutRules)) hrun'
  have hnilA : getRuleContextSuggestions A = [] := by
    have : (getRuleContextSuggestions results).Perm (getRuleContextSuggestions (A ++ B)) := hAB.flatMap_right _
    rw [hnil, rcs_append] at this
    exact (List.append_eq_nil_iff.1 (List.nil_perm.1 this)).1
  obtain ⟨g1, g2⟩ := layout_of_nothing hp' hc (List.filter_sublist.trans hs)
    (fun r hr => by simpa using (List.mem_filter.1 hr).2) hA hnilA
  refine ⟨tree', hp', hbare.symm,
    fun h => g1 (List.mem_filter.2 ⟨enabled_mem (r := indentation) indentation_defined h, by decide⟩),
    fun h => g2 (List.mem_filter.2 ⟨enabled_mem (r := whitespaceBetweenLineBreaks) blank_defined h, by decide⟩),
    fun hen => ?_⟩
  -- the blocks
  have hin := enabled_mem (r := twigBlockLineBreaks) breaks_defined hen
  have h48 := C48_rules_independent config tree' _ twigBlockLineBreaks
      (List.Nodup.sublist (hs.map _) definitions_distinct)
      (fun q hq => definitions_sign q (hs.subset hq)) hin _ hrun'
  have hempty : ofRule twigBlockLineBreaks.name results = [] := by
    rw [List.eq_nil_iff_forall_not_mem]
    intro z hz
    obtain ⟨_, _, _, _, _, _, ⟨_, range, _, hz'⟩⟩ := (finding_iff hp' rfl hraw' h48 z).1 hz
    have hz1 : z ∈ results := (List.mem_filter.1 hz).1
    have : (z.rule, z.suggestions.head (by rw [hz']; simp)) ∈ getRuleContextSuggestions results :=
      List.mem_flatMap.2 ⟨z, hz1, List.mem_map.2 ⟨_, List.head_mem _, rfl⟩⟩
    rw [hnil] at this
    cases this
  rw [hempty] at h48
  exact spaced_of_nothing he hp' rfl hraw' h48

/-- The file of C92: the run succeeds, all three rules are active in the file that is left, in which a line with
a block, an empty line and a line of text have the expected whitespace. -/
example :
    let s := "<p>{% block a %}{% endblock %}\n b</p>".toList
    let s' := "<p>\n    {% block a %}{% endblock %}\n\n    b</p>".toList
    let run := runAnalysis (realEngine (fun _ => 1) defaultConfig rowRules insertionSort) ⟨true, false⟩ true s
    SortsRanges insertionSort ∧ ErrLineLocal (fun _ => 1) ∧ ErrBeforeBreak (fun _ => 1) ∧
    0 < defaultConfig.indentationCount ∧ BlocksClear s ∧
    Returns (parse (fun _ => 1) s) (fun r => r.errors.isEmpty && noRaw r.tree &&
      r.tree.leaves.all (fun l => l.2.getLast? != some '\r')) = true ∧
    run.outcome = .ok ∧ contentAfter s run = s' ∧
    Returns (parse (fun _ => 1) s') (fun r => (topDirectives r.tree).isEmpty &&
      (lineStarts (visibleTokens r.tree)).map (fun t => (leading t, indentOff t)) ==
        [([], false), ("    ".toList, false), ("    ".toList, false)]) = true :=
  ⟨insertionSort_sorts, fun _ _ _ h _ _ _ => ⟨List.length_pos_iff.2 h, fun _ => rfl⟩,
    fun _ _ _ _ _ _ _ _ _ => rfl, by decide, blocksClear_check (by decide +kernel),
    by decide +kernel, by decide +kernel, by decide +kernel, by decide +kernel⟩

end Ludtwig.Rules
