/-!
# Processing events, summary and exit status (model)

`crates/ludtwig/src/output.rs` and `main.rs`.
-/

namespace Ludtwig.Cli

/-- `check/rule.rs` `Severity`. -/
inductive Severity
  | error | warning | help | info
  deriving DecidableEq, Repr

/-- `output.rs` 8–12 `ProcessingEvent`. The buffer of `OutputStderrMessage` is only printed and is
left out. -/
inductive Event
  | fileProcessed
  | report (s : Severity)
  | outputStderrMessage
  deriving DecidableEq, Repr

/-- The counters of `handle_processing_output`, output.rs 17–21. -/
structure Counts where
  files : Nat := 0
  errors : Nat := 0
  warnings : Nat := 0
  helps : Nat := 0
  infos : Nat := 0
  deriving DecidableEq, Repr

/-- One iteration of the receive loop, output.rs 27–48. -/
def Counts.step (c : Counts) : Event → Counts
  | .fileProcessed => { c with files := c.files + 1 }
  | .report .error => { c with errors := c.errors + 1 }
  | .report .warning => { c with warnings := c.warnings + 1 }
  | .report .help => { c with helps := c.helps + 1 }
  | .report .info => { c with infos := c.infos + 1 }
  | .outputStderrMessage => c

/-- The receive loop until all senders are gone, output.rs 26–49. -/
def receiveAll (events : List Event) : Counts := events.foldl Counts.step {}

/-- `handle_processing_output`, output.rs 16–70: the exit status for the received events. -/
def handleProcessingOutput (events : List Event) : Nat :=
  let c := receiveAll events
  if c.files > 0 && (c.errors > 0 || c.warnings > 0 || c.helps > 0) then 1 else 0

/-- What the walker callback of `handle_input_paths` (main.rs 178–209) gets: an error, a directory,
or a file together with the events `process_file` sends and whether it returned `Err`. -/
inductive WalkEntry
  | walkError
  | directory
  | file (sent : List Event) (failed : Bool)

/-- Events sent for one walk entry: main.rs 179–206 and process.rs 46 (`FileProcessed` first). -/
def entryEvents : WalkEntry → List Event
  | .walkError => [.report .error]
  | .directory => []
  | .file sent failed => .fileProcessed :: sent ++ (if failed then [.report .error] else [])

/-- `Interleave ls l`: `l` is an interleaving of the sequences `ls` (each worker sends its events in
order; the channel receives them in some interleaved order). -/
inductive Interleave {α : Type} : List (List α) → List α → Prop
  | done (ls) : (∀ x ∈ ls, x = []) → Interleave ls []
  | step (pre : List (List α)) (a : α) (x : List α) (post : List (List α)) (l : List α) :
      Interleave (pre ++ x :: post) l → Interleave (pre ++ (a :: x) :: post) (a :: l)

/-- `app`, main.rs 106–142: a config error gives status 1 before anything is scanned; otherwise the
status is computed from the received events. -/
def app (configOk : Bool) (received : List Event) : Nat :=
  if configOk then handleProcessingOutput received else 1

end Ludtwig.Cli
