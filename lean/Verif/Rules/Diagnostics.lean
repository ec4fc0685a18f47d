import Verif.Rules.SeverityProps

/-!
# The diagnostics of a file: C83

`produce_diagnostics` of crates/ludtwig/src/check.rs with the labels it attaches. The library that
renders a diagnostic fails for a label outside the text (and the code then panics), so the ranges matter.
-/

namespace Ludtwig.Rules

open Cli Lexer

/-- `codespan_reporting::diagnostic::Label` without its message. -/
structure Label where
  primary : Bool
  range : TextRange
  deriving DecidableEq

/-- `codespan_reporting::diagnostic::Diagnostic` without message and notes; `note` is `info` here. -/
structure Diagnostic where
  severity : Severity
  code : Text
  labels : List Label
  deriving DecidableEq

/-- The labels of a finding, check.rs 242–261. -/
def labelsOf (r : CheckResult) : List Label :=
  r.primary.toList.map (Label.mk true) ++ r.secondary.map (Label.mk false) ++
    r.suggestions.map (fun s => Label.mk false s.range)

/-- The diagnostics emitted by `produce_diagnostics`, check.rs 205–269. -/
def diagnostics (inspect : Bool) (errors : List ParseError) (results : List CheckResult) :
    List Diagnostic :=
  (if inspect then [⟨.info, "SyntaxTree".toList, []⟩] else []) ++
    errors.map (fun e => ⟨.error, "SyntaxError".toList, [⟨true, e.range⟩]⟩) ++
    results.map (fun r => ⟨r.severity, r.rule, labelsOf r⟩)

/-- The events of a successfully processed file are those of the diagnostics of one checked text, which
is the content of the file after the run. -/
theorem ok_events {Tree : Type} (E : Engine Tree) (flags : Flags) (writeOk : Bool)
    (original : Text) (hok : (processFile E flags writeOk (some original)).outcome = .ok) :
    ∃ rules errors results, RulesOf E original rules ∧
      Checked E rules (contentAfter original (processFile E flags writeOk (some original))) errors
        results ∧
      (processFile E flags writeOk (some original)).events =
        .fileProcessed :: produceDiagnostics flags.inspect errors results ++ [.outputStderrMessage] := by
  generalize hR : processFile E flags writeOk (some original) = R at *
  simp only [processFile, runAnalysis] at hR
  split at hR
  · subst hR; simp at hok
  rename_i tree errors hparse
  split at hR
  · subst hR; simp at hok
  rename_i results hrun
  split at hR
  · rename_i hfix
    split at hR
    · subst hR; simp at hok
    · subst hR; simp at hok
    · rename_i ctx results' dirty it parsed hloop
      unfold iterativelyApplySuggestions at hloop
      obtain ⟨⟨h1, h1', h1''⟩, h3, h4, h5, _, _⟩ :=
        fixLoop_ok E _ 10 0 _ _ false ⟨hparse, rfl, hrun⟩ _ _ _ _ _ hloop
      split at hR
      · subst hR; simp at hok
      · simp only at hR
        refine ⟨_, ctx.parseErrors, results', ⟨tree, errors, hparse, rfl⟩, ?_, ?_⟩
        · have : contentAfter original R = ctx.sourceCode := by
            subst hR
            simp only [contentAfter]
            cases dirty with
            | true => simp
            | false =>
              simp at h4; subst h4; simp at h5; simp [h5]
          rw [this]
          exact ⟨_, h1, h1''⟩
        · subst hR; simp
  · rename_i hfix
    simp only at hR
    refine ⟨_, errors, results, ⟨tree, errors, hparse, rfl⟩, ?_, ?_⟩
    · have : contentAfter original R = original := by subst hR; simp [contentAfter]
      rw [this]
      exact ⟨_, hparse, hrun⟩
    · subst hR; simp

theorem diagnostics_events (inspect : Bool) (errors : List ParseError) (results : List CheckResult) :
    produceDiagnostics inspect errors.length results =
      (diagnostics inspect errors results).map (fun d => .report d.severity) := by
  unfold produceDiagnostics diagnostics
  cases inspect <;> simp [Function.comp_def, List.map_const']

/-- C83: for a successfully processed file (with and without `--fix`) exactly one event is reported per
diagnostic, in the order of the diagnostics; the diagnostics are those of the text the file has after
the run; all their labels lie in that text on char boundaries; and each of them (except the tree of
`--inspect`) has one primary label, which is the first, at the place of the syntax error or finding. -/
theorem C83_labels_in_final_text {errLen : Text → Nat} (he : ErrLenOk errLen) (config : Config)
    (active : List RuleName) (sort : List (RuleName × Suggestion) → List (RuleName × Suggestion))
    (flags : Flags) (writeOk : Bool) (original : Text)
    (hok : (processFile (realEngine errLen config active sort) flags writeOk (some original)).outcome =
      .ok) :
    let run := processFile (realEngine errLen config active sort) flags writeOk (some original)
    let final := contentAfter original run
    ∃ before after results, parse errLen original = .ok before ∧ parse errLen final = .ok after ∧
      runRules config (fileRules before.tree (rulesNamed active)) after.tree = .ok results ∧
      run.events = .fileProcessed ::
        (diagnostics flags.inspect after.errors results).map (fun d => .report d.severity) ++
          [.outputStderrMessage] ∧
      ∀ d ∈ diagnostics flags.inspect after.errors results,
        (∀ l ∈ d.labels, RangeIn final l.range) ∧
        (d = ⟨.info, "SyntaxTree".toList, []⟩ ∧ flags.inspect = true ∨
          ∃ l others, d.labels = l :: others ∧ l.primary = true ∧ (∀ o ∈ others, o.primary = false) ∧
            ((∃ e ∈ after.errors, l.range = e.range) ∨ ∃ x ∈ results, x.primary = some l.range)) := by
  dsimp only
  obtain ⟨rules, errors, results, ⟨tree₀, n₀, hp₀, rfl⟩, ⟨tree, hp, hr⟩, hev⟩ :=
    ok_events (realEngine errLen config active sort) flags writeOk original hok
  obtain ⟨p₀, hq₀, rfl, _⟩ := (realEngine_parse ..).mp hp₀
  obtain ⟨p, hq, rfl, rfl⟩ := (realEngine_parse ..).mp hp
  have hname : (realEngine errLen config active sort).fileRules p₀.tree =
    (fileRules p₀.tree (rulesNamed active)).map (·.name) := rfl
  rw [hname, realEngine_run, rulesNamed_names] at hr
  refine ⟨p₀, p, results, hq₀, hq, hr, ?_, ?_⟩
  · rw [hev, diagnostics_events]
  · have htext := C01_root_text he _ _ hq
    intro d hd
    simp only [diagnostics, List.mem_append, List.mem_map] at hd
    rcases hd with (hd | ⟨e, hm, rfl⟩) | ⟨x, hx, rfl⟩
    · split at hd
      · rename_i hi
        simp only [List.mem_singleton] at hd
        subst hd
        exact ⟨fun l hl => (List.not_mem_nil hl).elim, .inl ⟨rfl, hi⟩⟩
      · cases hd
    · refine ⟨?_, .inr ⟨_, [], rfl, rfl, fun o ho => (List.not_mem_nil ho).elim, .inl ⟨e, hm, rfl⟩⟩⟩
      intro l hl
      simp only [List.mem_singleton] at hl
      subst hl
      obtain ⟨a, m, b, h1, _, h2, h3⟩ := C06_error_in_source he _ _ hq e hm
      exact ⟨a, m, b, h1, h2.symm, h3.symm⟩
    · obtain ⟨r1, r2, r3⟩ := C44_ranges_in_file config _ (fileRules_defined _ _) _ _ hr x hx
      rw [htext] at r1 r2 r3
      obtain ⟨_, _, range, hrange⟩ := C82_severity_of_rule config _ (fileRules_defined _ _) _ _ hr x hx
      refine ⟨?_, .inr ⟨⟨true, range⟩, x.secondary.map (Label.mk false) ++
        x.suggestions.map (fun s => Label.mk false s.range), ?_, rfl, ?_, .inr ⟨x, hx, hrange⟩⟩⟩
      · intro l hl
        simp only [labelsOf, List.mem_append, List.mem_map, Option.mem_toList] at hl
        rcases hl with (⟨r, h, rfl⟩ | ⟨r, h, rfl⟩) | ⟨s, h, rfl⟩
        · exact r1 r h
        · exact r2 r h
        · exact r3 s h
      · simp [labelsOf, hrange]
      · intro o ho
        simp only [List.mem_append, List.mem_map] at ho
        rcases ho with ⟨r, _, rfl⟩ | ⟨s, _, rfl⟩ <;> rfl

/-- The condition of `C83_labels_in_final_text` holds, and the diagnostics of `{{ "a" ` are a syntax error
and a finding with a primary label and one label for each of its two suggestions. -/
example :
    (processFile sampleEngine ⟨false, true⟩ true (some "{{ \"a\" ".toList)).outcome = .ok ∧
    (processFile sampleEngine ⟨false, true⟩ true (some "{{ \"a\" ".toList)).events =
      [.fileProcessed, .report .info, .report .error, .report .help, .outputStderrMessage] ∧
    Returns (parse (fun _ => 1) "{{ \"a\" ".toList) (fun p =>
      Gives (runRules defaultConfig definitions p.tree) (fun l =>
        diagnostics true p.errors l ==
          [⟨.info, "SyntaxTree".toList, []⟩,
           ⟨.error, "SyntaxError".toList, [⟨true, ⟨6, 7⟩⟩]⟩,
           ⟨.help, "twig-string-quotation".toList,
             [⟨true, ⟨3, 6⟩⟩, ⟨false, ⟨3, 4⟩⟩, ⟨false, ⟨5, 6⟩⟩]⟩])) = true := by
  decide +kernel

end Ludtwig.Rules
