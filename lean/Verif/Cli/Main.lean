import Verif.Cli.Process

/-!
# The whole program: start-up, configuration file and concurrent processing (model)

`crates/ludtwig/src/main.rs`, `config.rs` (`handle_config_or_exit`) and the concurrent side of
`process.rs`. The operating system, the config parser and the directory walker are parameters
(`System`).
-/

namespace Ludtwig.Cli

/-- A path. Two different paths are taken to be two different files (no links, no `./a` beside `a`). -/
abbrev Path := List Char

/-- What is at a path: nothing, something that `read_to_string` cannot read (a directory, no UTF-8, no
permission), or a text file. -/
inductive FileNode
  | absent
  | unreadable
  | text (t : Text)
  deriving DecidableEq, Repr

/-- The content of the file system. -/
abbrev FileSystem := Path → FileNode

/-- `std::fs::read_to_string`; `none` is an error. -/
def FileSystem.read (fs : FileSystem) (p : Path) : Option Text :=
  match fs p with
  | .text t => some t
  | _ => none

/-- `Path::exists`. -/
def FileSystem.exists (fs : FileSystem) (p : Path) : Bool := fs p != .absent

/-- The file system with another content at one path. -/
def FileSystem.set (fs : FileSystem) (p : Path) (n : FileNode) : FileSystem :=
  fun q => if q = p then n else fs q

/-- What of `Config` the start-up needs: the configured rule names. The rest goes to the rules. -/
structure LoadedConfig (Conf : Type) where
  activeRules : List RuleName
  rest : Conf

/-- What an item of the directory walk is, main.rs 179–192. -/
inductive WalkItem
  | error
  | directory
  | file (p : Path)
  deriving DecidableEq, Repr

/-- The parts outside of the model.
* `canWrite p`: does `std::fs::write` to `p` succeed?
* `failedWrite p t n`: what is at `p` after writing `t` over `n` failed;
* `loadConfig`: `Config::new`, config.rs 143–161 (defaults, the file, the environment);
* `ignoreUsable`: can `./.ludtwig-ignore` be used by the walker, if it exists?
* `walk`: what the walker finds for the given paths, in some order;
* `defaultConfig`, `version`: `DEFAULT_RAW_CONFIG` and `LUDTWIG_VERSION`. -/
structure System (Conf : Type) where
  canWrite : Path → Bool
  failedWrite : Path → Text → FileNode → FileNode
  loadConfig : FileSystem → Path → Option (LoadedConfig Conf)
  ignoreUsable : Bool
  walk : FileSystem → List Path → List WalkItem
  defaultConfig : Text
  version : Text

/-- `std::fs::write`: the file system afterwards and whether it succeeded. -/
def System.write {Conf : Type} (sys : System Conf) (fs : FileSystem) (p : Path) (t : Text) :
    FileSystem × Bool :=
  if sys.canWrite p then (fs.set p (.text t), true)
  else (fs.set p (sys.failedWrite p t (fs p)), false)

/-! ## Start-up -/

/-- `Opts`, main.rs 32–62 (without `verbose`, which only prints). -/
structure Opts where
  files : List Path
  flags : Flags
  configPath : Option Path
  createConfig : Bool

/-- `DEFAULT_CONFIG_PATH`, config.rs 136. -/
def defaultConfigPath : Path := "./ludtwig-config.toml".toList

/-- The pattern replaced in the default config, config.rs 179. -/
def versionPattern : Text := "{{LUDTWIG_VERSION}}".toList

/-- `str::replace`: the matches of a (non-empty) pattern from left to right, not overlapping. -/
def replaceAll (pattern value : Text) : Nat → Text → Text
  | _, [] => []
  | skip + 1, _ :: cs => replaceAll pattern value skip cs
  | 0, c :: cs =>
    if pattern.isPrefixOf (c :: cs) then value ++ replaceAll pattern value (pattern.length - 1) cs
    else c :: replaceAll pattern value 0 cs

/-- How the program ends: with an exit status or with a panic (status 101). -/
inductive Exit
  | status (n : Nat)
  | panic
  deriving DecidableEq, Repr

/-- A file that the program read or tried to write. -/
inductive Access
  | read (p : Path)
  | write (p : Path)
  deriving DecidableEq, Repr

/-- Result of `handle_config_or_exit`. -/
inductive Startup (Conf : Type)
  | exit (e : Exit)
  | run (c : LoadedConfig Conf)

/-- `handle_config_or_exit`, config.rs 163–234: the file system afterwards, the template files accessed
(the written config file counts, reading the config does not) and how it goes on. -/
def handleConfigOrExit {Conf : Type} (sys : System Conf) (opts : Opts) (fs : FileSystem) :
    FileSystem × List Access × Startup Conf :=
  let path := opts.configPath.getD defaultConfigPath
  if opts.createConfig then
    if fs.exists path then (fs, [], .exit (.status 1))
    else
      match sys.write fs path (replaceAll versionPattern sys.version 0 sys.defaultConfig) with
      | (fs', true) => (fs', [.write path], .exit (.status 0))
      | (fs', false) => (fs', [.write path], .exit .panic)
  else
    match sys.loadConfig fs path with
    | some c => (fs, [], .run c)
    | none => (fs, [], .exit (.status 1))

/-! ## Tasks -/

/-- What a spawned closure (main.rs 194–206) still has to do. Parsing and checking do not touch shared
state and happen between two of these actions. -/
inductive Task
  | done
  | panic
  | send (e : Event) (next : Task)
  | read (p : Path) (next : Option Text → Task)
  | write (p : Path) (t : Text) (next : Bool → Task)

/-- Send several events. -/
def Task.sendAll : List Event → Task → Task
  | [], k => k
  | e :: es, k => .send e (Task.sendAll es k)

/-- `run_analysis`, process.rs 58–115, with the event of main.rs 199–204 for an error. -/
def analysisTask {Tree : Type} (E : Engine Tree) (flags : Flags) (p : Path) (original : Text) : Task :=
  let failed : Task := .send (.report .error) .done
  let finish (ctx : FileContext Tree) (results : List CheckResult) : Task :=
    Task.sendAll (produceDiagnostics flags.inspect ctx.parseErrors results)
      (.send .outputStderrMessage .done)
  match E.parse original with
  | none => .panic
  | some (tree, errors) =>
    let ctx : FileContext Tree :=
      { tree := tree, sourceCode := original, parseErrors := errors, fileRules := E.fileRules tree }
    match E.runRules ctx.fileRules ctx.tree with
    | none => .panic
    | some results =>
      if flags.fix then
        match (iterativelyApplySuggestions E ctx results).1 with
        | .panic => .panic
        | .err _ => failed
        | .ok ctx results dirty _ =>
          if dirty then
            .write p ctx.sourceCode (fun ok => if ok then finish ctx results else failed)
          else finish ctx results
      else finish ctx results

/-- `process_file`, process.rs 44–56. -/
def processTask {Tree : Type} (E : Engine Tree) (flags : Flags) (p : Path) : Task :=
  .send .fileProcessed (.read p (fun
    | none => .send (.report .error) .done
    | some text => analysisTask E flags p text))

/-- What the closure of the walker does for one item, main.rs 178–209. -/
def itemTask {Tree : Type} (E : Engine Tree) (flags : Flags) : WalkItem → Task
  | .error => .send (.report .error) .done
  | .directory => .done
  | .file p => processTask E flags p

/-! ## Concurrent execution -/

/-- The state while the tasks run: the file system, what each task still has to do, the events in the
channel (in the order received), and the files accessed. -/
structure State where
  fs : FileSystem
  tasks : List Task
  received : List Event
  accesses : List Access

/-- One action of one task. The worker threads of the walker and of the thread pool are not modelled:
any task may do its next action at any time. -/
inductive Step {Conf : Type} (sys : System Conf) : State → State → Prop
  | send (fs pre e k post rec acc) :
      Step sys ⟨fs, pre ++ .send e k :: post, rec, acc⟩ ⟨fs, pre ++ k :: post, rec ++ [e], acc⟩
  | read (fs pre p k post rec acc) :
      Step sys ⟨fs, pre ++ .read p k :: post, rec, acc⟩
        ⟨fs, pre ++ k (fs.read p) :: post, rec, acc ++ [.read p]⟩
  | write (fs pre p t k post rec acc) :
      Step sys ⟨fs, pre ++ .write p t k :: post, rec, acc⟩
        ⟨(sys.write fs p t).1, pre ++ k (sys.write fs p t).2 :: post, rec, acc ++ [.write p]⟩

/-- Any number of steps. -/
inductive Steps {Conf : Type} (sys : System Conf) : State → State → Prop
  | refl (s) : Steps sys s s
  | step (s t u) : Step sys s t → Steps sys t u → Steps sys s u

/-- No task has anything left to do. -/
def State.Final (s : State) : Prop := ∀ k ∈ s.tasks, k = .done ∨ k = .panic

/-- The end of `app`, main.rs 131–142: a panic of a task is raised again by `rayon::scope`, otherwise
the status of `handle_processing_output`. -/
def State.exit (s : State) : Exit :=
  if s.tasks.any (fun | .panic => true | _ => false) then .panic
  else .status (handleProcessingOutput s.received)

/-- A run of `main`, main.rs 96–103, `app` 106–142 and `handle_input_paths` 145–212: from a file system
to a file system, the way the program ends, and the files it accessed. `E` is the engine for the
active rules. -/
inductive MainRun {Conf Tree : Type} (sys : System Conf) (E : Conf → List RuleName → Engine Tree)
    (opts : Opts) (fs : FileSystem) : FileSystem → Exit → List Access → Prop
  /-- `handle_config_or_exit` ends the program. -/
  | config (fs' acc e) : handleConfigOrExit sys opts fs = (fs', acc, .exit e) →
      MainRun sys E opts fs fs' e acc
  /-- An unknown rule name, main.rs 113–119. -/
  | unknownRule (fs' acc c err) : handleConfigOrExit sys opts fs = (fs', acc, .run c) →
      configActive ruleDefinitions c.activeRules = .error err →
      MainRun sys E opts fs fs' (.status 1) acc
  /-- `paths[0]` without paths, main.rs 154. -/
  | noPath (fs' acc c active) : handleConfigOrExit sys opts fs = (fs', acc, .run c) →
      configActive ruleDefinitions c.activeRules = .ok active → opts.files = [] →
      MainRun sys E opts fs fs' .panic acc
  /-- An unusable `./.ludtwig-ignore`, main.rs 164–170. -/
  | badIgnore (fs' acc c active) : handleConfigOrExit sys opts fs = (fs', acc, .run c) →
      configActive ruleDefinitions c.activeRules = .ok active → opts.files ≠ [] →
      fs'.exists "./.ludtwig-ignore".toList = true → sys.ignoreUsable = false →
      MainRun sys E opts fs fs' (.status 1) acc
  /-- The files are processed. -/
  | process (fs' acc c active s) : handleConfigOrExit sys opts fs = (fs', acc, .run c) →
      configActive ruleDefinitions c.activeRules = .ok active → opts.files ≠ [] →
      ¬ (fs'.exists "./.ludtwig-ignore".toList = true ∧ sys.ignoreUsable = false) →
      Steps sys ⟨fs', (sys.walk fs' opts.files).map (itemTask (E c.rest active) opts.flags), [], acc⟩ s →
      s.Final → MainRun sys E opts fs s.fs s.exit s.accesses

end Ludtwig.Cli
