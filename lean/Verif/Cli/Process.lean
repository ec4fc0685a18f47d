import Verif.Basic.Text
import Verif.Cli.Output
import Verif.Cli.Select

/-!
# Processing one file, the fix loop (model)

`crates/ludtwig/src/process.rs` and the suggestion / diagnostics helpers of `check.rs`.
The parser and the rules are parameters (`Engine`): the theorems hold for every behaviour of them.
-/

namespace Ludtwig.Cli

/-- `CheckSuggestion` (check/rule.rs): the range to replace and the replacement. The message is only
printed. -/
structure Suggestion where
  range : TextRange
  replaceWith : Text
  deriving DecidableEq, Repr

/-- `CheckResult` (check/rule.rs 150–159). Of the notes only the ranges are kept: the messages are
only printed. -/
structure CheckResult where
  rule : RuleName
  severity : Severity
  suggestions : List Suggestion
  primary : Option TextRange := none
  secondary : List TextRange := []
  deriving DecidableEq, Repr

/-- `FileProcessingError` (error.rs 5–18), without paths and io errors. -/
inductive FileError
  | fileRead
  | fileWrite
  | maxApplyIteration
  | overlappingSuggestionInSingleRule (rule : RuleName)
  deriving DecidableEq, Repr

/-- The parts used by `run_analysis` that are kept abstract.
* `parse` is `ludtwig_parser::parse` followed by `SyntaxNode::new_root`: tree and number of errors,
  or `none` for a panic;
* `fileRules` is `get_file_active_rule_definitions(&root, ..)` for the configured rules;
* `runRules` is `run_rules` on the tree with the file's rules, `none` is a panic;
* `sort` is `sort_by` with `TextRange::ordering`. That comparison is not a total order (overlapping
  ranges compare as equal), for which the standard library promises no particular result; what a
  theorem needs to assume about `sort` is stated there. -/
structure Engine (Tree : Type) where
  parse : Text → Option (Tree × Nat)
  fileRules : Tree → List RuleName
  runRules : List RuleName → Tree → Option (List CheckResult)
  sort : List (RuleName × Suggestion) → List (RuleName × Suggestion)

/-- `FileContext`, process.rs 19–35 (the cli context and path are constant). -/
structure FileContext (Tree : Type) where
  tree : Tree
  sourceCode : Text
  parseErrors : Nat
  fileRules : List RuleName

/-- `get_rule_context_suggestions`, check.rs 177–187. -/
def getRuleContextSuggestions (results : List CheckResult) : List (RuleName × Suggestion) :=
  results.flatMap (fun res => res.suggestions.map (fun sug => (res.rule, sug)))

/-- The loop over adjacent pairs, process.rs 137–149: the rules to leave out in this round, or the
error for two adjacent overlapping suggestions of one rule. -/
def overlappingRules : List (RuleName × Suggestion) → Except FileError (List RuleName)
  | [] => .ok []
  | [_] => .ok []
  | a :: b :: rest =>
    if a.2.range.ordering b.2.range == .eq then
      if a.1 == b.1 then .error (.overlappingSuggestionInSingleRule a.1)
      else
        match overlappingRules (b :: rest) with
        | .error e => .error e
        | .ok rs => .ok (b.1 :: rs)
    else overlappingRules (b :: rest)

/-- The filter of process.rs 150–159. -/
def filterSuggestions (over : List RuleName) (sugs : List (RuleName × Suggestion)) :
    List Suggestion :=
  (sugs.filter (fun p => !over.contains p.1)).map (·.2)

/-- `apply_suggestions_to_text`, process.rs 184–196: replacements from the last suggestion to the
first; `none` is a panic of `replace_range`. -/
def applySuggestionsToText (sugs : List Suggestion) (source : Text) : Option Text :=
  sugs.reverse.foldl
    (fun acc sug => acc.bind (fun t => replaceRange t sug.range sug.replaceWith)) (some source)

/-- Result of the fix loop: a panic, an error, or the final context, results, `dirty` flag and
iteration number. -/
inductive LoopResult (Tree : Type)
  | panic
  | err (e : FileError)
  | ok (ctx : FileContext Tree) (results : List CheckResult) (dirty : Bool) (iterations : Nat)

/-- `iteratively_apply_suggestions`, process.rs 117–182. `remaining` counts down the iterations of
`for iterations in 0..10`. Besides the result, the list of the texts that were parsed is returned
(a ghost value for the theorems). -/
def fixLoop {Tree : Type} (E : Engine Tree) :
    (remaining : Nat) → (iterations : Nat) → FileContext Tree → List CheckResult → Bool →
      LoopResult Tree × List Text
  | 0, _, _, _, _ => (.err .maxApplyIteration, [])
  | remaining + 1, iterations, ctx, results, dirty =>
    let suggestions := getRuleContextSuggestions results
    if suggestions.isEmpty then (.ok ctx results dirty iterations, [])
    else
      let sorted := E.sort suggestions
      match overlappingRules sorted with
      | .error e => (.err e, [])
      | .ok over =>
        match applySuggestionsToText (filterSuggestions over sorted) ctx.sourceCode with
        | none => (.panic, [])
        | some source =>
          match E.parse source with
          | none => (.panic, [source])
          | some (tree, errors) =>
            match E.runRules ctx.fileRules tree with
            | none => (.panic, [source])
            | some results =>
              let ctx' : FileContext Tree :=
                { ctx with sourceCode := source, tree := tree, parseErrors := errors }
              let r := fixLoop E remaining (iterations + 1) ctx' results true
              (r.1, source :: r.2)

/-- `iteratively_apply_suggestions` as called. -/
def iterativelyApplySuggestions {Tree : Type} (E : Engine Tree) (ctx : FileContext Tree)
    (results : List CheckResult) : LoopResult Tree × List Text :=
  fixLoop E 10 0 ctx results false

/-- The events sent by `produce_diagnostics`, check.rs 205–269. -/
def produceDiagnostics (inspect : Bool) (parseErrors : Nat) (results : List CheckResult) :
    List Event :=
  (if inspect then [.report .info] else []) ++
    List.replicate parseErrors (.report .error) ++
    results.map (fun r => .report r.severity)

/-- Outcome of processing a file. -/
inductive Outcome
  | panic
  | err (e : FileError)
  | ok
  deriving DecidableEq

/-- Everything observable about processing one file: the writes to the file in order, the events
sent, the outcome, and (ghost) the texts parsed. -/
structure FileRun where
  writes : List Text
  events : List Event
  outcome : Outcome
  parsed : List Text

/-- Command line flags used here. -/
structure Flags where
  fix : Bool
  inspect : Bool

/-- `run_analysis`, process.rs 58–115. `writeOk` says whether `fs::write` succeeds (an attempted
write is recorded in either case). -/
def runAnalysis {Tree : Type} (E : Engine Tree) (flags : Flags) (writeOk : Bool)
    (original : Text) : FileRun :=
  match E.parse original with
  | none => { writes := [], events := [], outcome := .panic, parsed := [original] }
  | some (tree, errors) =>
    let ctx : FileContext Tree :=
      { tree := tree, sourceCode := original, parseErrors := errors, fileRules := E.fileRules tree }
    match E.runRules ctx.fileRules ctx.tree with
    | none => { writes := [], events := [], outcome := .panic, parsed := [original] }
    | some results =>
      if flags.fix then
        match iterativelyApplySuggestions E ctx results with
        | (.panic, parsed) =>
          { writes := [], events := [], outcome := .panic, parsed := original :: parsed }
        | (.err e, parsed) =>
          { writes := [], events := [], outcome := .err e, parsed := original :: parsed }
        | (.ok ctx results dirty _, parsed) =>
          if dirty && !writeOk then
            { writes := [ctx.sourceCode], events := [], outcome := .err .fileWrite,
              parsed := original :: parsed }
          else
            { writes := if dirty then [ctx.sourceCode] else []
              events := produceDiagnostics flags.inspect ctx.parseErrors results ++
                [.outputStderrMessage]
              outcome := .ok
              parsed := original :: parsed }
      else
        { writes := []
          events := produceDiagnostics flags.inspect ctx.parseErrors results ++ [.outputStderrMessage]
          outcome := .ok
          parsed := [original] }

/-- `process_file`, process.rs 44–56, with the event of main.rs 199–204 for a returned error.
`content` is what `fs::read_to_string` returns (`none` = error). -/
def processFile {Tree : Type} (E : Engine Tree) (flags : Flags) (writeOk : Bool)
    (content : Option Text) : FileRun :=
  match content with
  | none => { writes := [], events := [.fileProcessed, .report .error], outcome := .err .fileRead,
              parsed := [] }
  | some text =>
    let r := runAnalysis E flags writeOk text
    { r with events := .fileProcessed :: r.events ++
        (match r.outcome with | .err _ => [.report .error] | _ => []) }

/-- The file content after processing: the last write wins (only successful writes count; after a
failed `fs::write` the operating system decides, see DESIGN). -/
def contentAfter (old : Text) (r : FileRun) : Text := r.writes.getLast?.getD old

end Ludtwig.Cli
