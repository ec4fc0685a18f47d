import Verif.Cli.MainLemmas
import Verif.Cli.SelectProps

/-! # The whole program: C16, C26, C27, C33, C55, C56 -/

namespace Ludtwig.Cli

section
variable {Conf : Type} (sys : System Conf) {Tree : Type} (E : Engine Tree) (flags : Flags)

/-! ## C27: the schedule does not matter -/

/-- The events of one item when its file is processed on its own. -/
def itemEvents (fs : FileSystem) : WalkItem → List Event
  | .error => [.report .error]
  | .directory => []
  | .file p => (processFile E flags (sys.canWrite p) (fs.read p)).events

/-- The state in which nothing was done. -/
def startState (fs : FileSystem) (acc : List Access) (items : List WalkItem) : State :=
  ⟨fs, items.map (itemTask E flags), [], acc⟩

theorem inv_start (fs : FileSystem) (acc : List Access) (items : List WalkItem) :
    Inv sys (items.map (fun i => (i, (itemTask E flags i).alone sys fs))) fs
      (startState E flags fs acc items) := by
  refine ⟨by simp [startState], ?_, fun _ _ => rfl, ?_⟩
  · intro x hx
    simp only [startState, List.zip_map', List.mem_map] at hx
    obtain ⟨i, _, rfl⟩ := hx
    exact ⟨only_item E flags i, rfl, fun _ _ => rfl⟩
  · simp [startState, List.flatMap_map]

/-- C27: whatever the order in which the actions of the tasks happen, at the end every walked file has
the content that processing it alone gives, every other file is as before, the summary is that of
the events of the files processed one by one, the program panics exactly if processing one of the
files does, and otherwise exits with the status for those events. (The walker finds no file twice.) -/
theorem C27_every_schedule (fs : FileSystem) (acc : List Access) (items : List WalkItem)
    (hd : DistinctFiles items) (s : State) (hs : Steps sys (startState E flags fs acc items) s)
    (hfin : s.Final) :
    (∀ p, .file p ∈ items →
      s.fs p = nodeAfter sys p (processFile E flags (sys.canWrite p) (fs.read p)) (fs p)) ∧
    (∀ p, .file p ∉ items → s.fs p = fs p) ∧
    receiveAll s.received = receiveAll (items.flatMap (itemEvents sys E flags fs)) ∧
    (s.exit = .panic ↔ ∃ p, .file p ∈ items ∧
      (processFile E flags (sys.canWrite p) (fs.read p)).outcome = .panic) ∧
    (s.exit ≠ .panic →
      s.exit = .status (handleProcessingOutput (items.flatMap (itemEvents sys E flags fs)))) := by
  have hinv := inv_steps sys (by simpa [Function.comp_def] using hd) (inv_start sys E flags fs acc items) hs
  obtain ⟨hlen, hon, hoth, hev⟩ := hinv
  have hdone : ∀ k ∈ s.tasks, ∀ f, (k.alone sys f).fs = f ∧ (k.alone sys f).events = [] ∧
      ((k.alone sys f).panicked = true ↔ k = .panic) := by
    intro k hk f
    rcases hfin k hk with rfl | rfl
    · exact ⟨rfl, rfl, by simp [Task.alone]⟩
    · exact ⟨rfl, rfl, by simp [Task.alone]⟩
  -- the task of an item
  have hpair : ∀ i ∈ items, ∃ k ∈ s.tasks, OnTrack sys s.fs k i ((itemTask E flags i).alone sys fs) := by
    intro i hi
    obtain ⟨n, hn, rfl⟩ := List.mem_iff_getElem.mp hi
    have hl : s.tasks.length = items.length := by simpa using hlen
    refine ⟨s.tasks[n]'(by omega), List.getElem_mem _, ?_⟩
    exact hon (s.tasks[n]'(by omega), (items[n], _))
      (List.mem_iff_getElem.mpr ⟨n, by simp; omega, by simp⟩)
  have hpairBack : ∀ k ∈ s.tasks, ∃ i ∈ items,
      OnTrack sys s.fs k i ((itemTask E flags i).alone sys fs) := by
    intro k hk
    obtain ⟨n, hn, rfl⟩ := List.mem_iff_getElem.mp hk
    have hl : s.tasks.length = items.length := by simpa using hlen
    refine ⟨items[n]'(by omega), List.getElem_mem _, ?_⟩
    exact hon (s.tasks[n], (items[n]'(by omega), _))
      (List.mem_iff_getElem.mpr ⟨n, by simp; omega, by simp⟩)
  have hevents : s.received.Perm (items.flatMap (itemEvents sys E flags fs)) := by
    have h0 : s.tasks.flatMap (fun k => (k.alone sys s.fs).events) = [] := by
      rw [List.flatMap_eq_nil_iff]
      exact fun k hk => (hdone k hk _).2.1
    rw [h0, List.append_nil, List.flatMap_map] at hev
    refine hev.trans (List.Perm.of_eq (flatMap_congr_mem (fun i _ => ?_)))
    cases i with
    | error => rfl
    | directory => rfl
    | file p => exact (alone_process sys E flags p fs).1
  have hcounts : receiveAll s.received = receiveAll (items.flatMap (itemEvents sys E flags fs)) := by
    simp [C43_counts_exact, hevents.count_eq]
  have hany : s.tasks.any (fun | .panic => true | _ => false) = true ↔ .panic ∈ s.tasks := by
    rw [List.any_eq_true]
    constructor
    · rintro ⟨k, hk, h⟩
      cases k <;> first | exact hk | cases h
    · exact fun h => ⟨_, h, rfl⟩
  have hpanic : .panic ∈ s.tasks ↔ ∃ p, .file p ∈ items ∧
      (processFile E flags (sys.canWrite p) (fs.read p)).outcome = .panic := by
    constructor
    · intro h
      obtain ⟨i, hi, ht⟩ := hpairBack _ h
      have := ht.panicked
      cases i with
      | error => cases this
      | directory => cases this
      | file p =>
        exact ⟨p, hi, (alone_process sys E flags p fs).2.1.mp this.symm⟩
    · rintro ⟨p, hp, h⟩
      obtain ⟨k, hk, ht⟩ := hpair _ hp
      have h' := (alone_process sys E flags p fs).2.1.mpr h
      have : (k.alone sys s.fs).panicked = true := ht.panicked.trans h'
      rw [(hdone k hk _).2.2.mp this] at hk
      exact hk
  refine ⟨fun p hp => ?_, fun p hp => ?_, hcounts, ?_, ?_⟩
  · obtain ⟨k, hk, ht⟩ := hpair _ hp
    have := ht.fs p rfl
    rw [(hdone k hk _).1] at this
    rw [this]
    exact (alone_process sys E flags p fs).2.2
  · refine hoth p (fun x hx hp' => hp ?_)
    obtain ⟨i, hi, rfl⟩ := List.mem_map.mp hx
    cases hp'
    exact hi
  · rw [← hpanic, ← hany]
    unfold State.exit
    split
    · rename_i hh; exact ⟨fun _ => hh, fun _ => rfl⟩
    · rename_i hh; exact ⟨fun h => (by cases h), fun h => absurd h hh⟩
  · intro h
    unfold State.exit at h ⊢
    split
    · rename_i hh; rw [if_pos hh] at h; exact absurd rfl h
    · simp only [handleProcessingOutput, hcounts]

/-! ## C55: every run ends -/

/-- What a task can be after its next action. -/
inductive Task.Next : Task → Task → Prop
  | send (e k) : Task.Next k (.send e k)
  | read (p k o) : Task.Next (k o) (.read p k)
  | write (p t k o) : Task.Next (k o) (.write p t k)

theorem next_acc (k : Task) : Acc Task.Next k := by
  induction k with
  | done => exact ⟨_, fun _ h => by cases h⟩
  | panic => exact ⟨_, fun _ h => by cases h⟩
  | send e k ih => exact ⟨_, fun _ h => by cases h; exact ih⟩
  | read p k ih => exact ⟨_, fun _ h => by cases h; exact ih _⟩
  | write p t k ih => exact ⟨_, fun _ h => by cases h; exact ih _⟩

/-- One task of a list makes an action. -/
inductive NextIn : List Task → List Task → Prop
  | mk (pre k' k post) : Task.Next k' k → NextIn (pre ++ k' :: post) (pre ++ k :: post)

theorem nextIn_cons {l : List Task} {k : Task} {l' : List Task} (h : NextIn l' (k :: l)) :
    (∃ k', Task.Next k' k ∧ l' = k' :: l) ∨ ∃ l₂, NextIn l₂ l ∧ l' = k :: l₂ := by
  generalize hm : k :: l = m at h
  cases h with
  | mk pre k' k₂ post hk =>
    cases pre with
    | nil => cases hm; exact .inl ⟨k', hk, rfl⟩
    | cons a pre => cases hm; exact .inr ⟨_, .mk pre k' k₂ post hk, rfl⟩

theorem nextIn_acc_cons {k : Task} (hk : Acc Task.Next k) : ∀ l : List Task, Acc NextIn l →
    Acc NextIn (k :: l) := by
  induction hk with
  | intro k _ ihk =>
    intro l hl
    induction hl with
    | intro l hl ihl =>
      refine ⟨_, fun l' h => ?_⟩
      rcases nextIn_cons h with ⟨k', h1, rfl⟩ | ⟨l₂, h1, rfl⟩
      · exact ihk k' h1 l ⟨_, hl⟩
      · exact ihl l₂ h1

theorem nextIn_acc : ∀ l : List Task, Acc NextIn l
  | [] => ⟨_, fun l' h => by
      generalize hm : ([] : List Task) = m at h
      cases h with
      | mk pre k' k post hk => cases pre <;> cases hm⟩
  | k :: l => nextIn_acc_cons (next_acc k) l (nextIn_acc l)

/-- C55: there is no infinite run, whatever the tasks, the order of their actions and the answers of
the file system (also when several tasks work on one file). -/
theorem C55_no_infinite_run (s : State) : Acc (fun t s => Step sys s t) s := by
  have h : ∀ l : List Task, Acc NextIn l → ∀ s : State, s.tasks = l → Acc (fun t s => Step sys s t) s := by
    intro l hl
    induction hl with
    | intro l _ ih =>
      intro s hs
      refine ⟨_, fun t h => ih t.tasks ?_ t rfl⟩
      subst hs
      cases h with
      | send fs pre e k post rec acc => exact .mk pre _ _ post (.send e k)
      | read fs pre p k post rec acc => exact .mk pre _ _ post (.read p k _)
      | write fs pre p t k post rec acc => exact .mk pre _ _ post (.write p t k _)
  exact h s.tasks (nextIn_acc _) s rfl

/-- C55: a run that is not at its end can go on, and where it cannot go on it is at its end. -/
theorem C55_progress (s : State) : (∃ t, Step sys s t) ↔ ¬ s.Final := by
  constructor
  · rintro ⟨t, h⟩ hf
    cases h with
    | send fs pre e k post rec acc => rcases hf (.send e k) (by simp) with h | h <;> cases h
    | read fs pre p k post rec acc => rcases hf (.read p k) (by simp) with h | h <;> cases h
    | write fs pre p t k post rec acc => rcases hf (.write p t k) (by simp) with h | h <;> cases h
  · intro hf
    unfold State.Final at hf
    obtain ⟨fs, tasks, rec, acc⟩ := s
    have : ∃ k ∈ tasks, k ≠ .done ∧ k ≠ .panic := by
      refine Classical.byContradiction (fun hno => hf (fun k hk => ?_))
      refine Classical.byContradiction (fun h => hno ⟨k, hk, ?_⟩)
      exact ⟨fun h1 => h (.inl h1), fun h1 => h (.inr h1)⟩
    obtain ⟨k, hk, h1, h2⟩ := this
    obtain ⟨pre, post, rfl⟩ := List.append_of_mem hk
    cases k with
    | done => exact absurd rfl h1
    | panic => exact absurd rfl h2
    | send e k => exact ⟨_, .send fs pre e k post rec acc⟩
    | read p k => exact ⟨_, .read fs pre p k post rec acc⟩
    | write p t k => exact ⟨_, .write fs pre p t k post rec acc⟩

/-- C55: from every state the end can be reached. -/
theorem C55_end_reachable (s : State) : ∃ t, Steps sys s t ∧ t.Final := by
  have h := C55_no_infinite_run sys s
  induction h with
  | intro s _ ih =>
    by_cases hf : s.Final
    · exact ⟨s, .refl s, hf⟩
    · obtain ⟨t, ht⟩ := (C55_progress sys s).mpr hf
      obtain ⟨u, hu, hfin⟩ := ih t ht
      exact ⟨u, .step s t u ht hu, hfin⟩

/-! ## C56: only walked files are touched, and only with `--fix` -/

/-- A task writes nothing. -/
inductive NoWrite : Task → Prop
  | done : NoWrite .done
  | panic : NoWrite .panic
  | send (e k) : NoWrite k → NoWrite (.send e k)
  | read (p k) : (∀ o, NoWrite (k o)) → NoWrite (.read p k)

theorem noWrite_sendAll {k : Task} (hk : NoWrite k) : ∀ es : List Event, NoWrite (Task.sendAll es k)
  | [] => hk
  | e :: es => .send e _ (noWrite_sendAll hk es)

theorem noWrite_item (hfix : flags.fix = false) (i : WalkItem) : NoWrite (itemTask E flags i) := by
  cases i with
  | error => exact .send _ _ .done
  | directory => exact .done
  | file p =>
    refine .send _ _ (.read _ _ (fun o => ?_))
    cases o with
    | none => exact .send _ _ .done
    | some t =>
      dsimp only
      unfold analysisTask
      dsimp only
      rw [hfix]
      split
      · exact .panic
      · split
        · exact .panic
        · exact noWrite_sendAll (.send _ _ .done) _

theorem only_mono {P Q : Path → Prop} (h : ∀ p, P p → Q p) {k : Task} (hk : Only P k) : Only Q k := by
  induction hk with
  | done => exact .done
  | panic => exact .panic
  | send e k _ ih => exact .send e k ih
  | read p k hp _ ih => exact .read p k (h p hp) ih
  | write p t k hp _ ih => exact .write p t k (h p hp) ih

theorem forall_replace {P : Task → Prop} {pre post : List Task} {k k' : Task}
    (h : ∀ x ∈ pre ++ k :: post, P x) (hk : P k → P k') : ∀ x ∈ pre ++ k' :: post, P x := by
  intro x hx
  rcases List.mem_append.mp hx with hx | hx
  · exact h x (by simp [hx])
  · rcases List.mem_cons.mp hx with rfl | hx
    · exact hk (h k (by simp))
    · exact h x (by simp [hx])

/-- C56: at every moment of every run only files found by the walker have been accessed or changed;
without `--fix` no file was written and none has changed. This also holds if the walker finds a file
twice. -/
theorem C56_only_walked_files (fs : FileSystem) (items : List WalkItem) (s : State)
    (hs : Steps sys (startState E flags fs [] items) s) :
    (∀ a ∈ s.accesses, ∃ p, .file p ∈ items ∧ (a = .read p ∨ (a = .write p ∧ flags.fix = true))) ∧
    (∀ p, .file p ∉ items → s.fs p = fs p) ∧
    (flags.fix = false → s.fs = fs) := by
  let P : Path → Prop := fun p => .file p ∈ items
  have key : ∀ s t, Steps sys s t → (∀ k ∈ s.tasks, Only P k) →
      (flags.fix = false → ∀ k ∈ s.tasks, NoWrite k) →
      (∀ a ∈ t.accesses, a ∈ s.accesses ∨
        ∃ p, P p ∧ (a = .read p ∨ (a = .write p ∧ flags.fix = true))) ∧
      (∀ p, ¬ P p → t.fs p = s.fs p) ∧ (flags.fix = false → t.fs = s.fs) := by
    intro s t h
    induction h with
    | refl s => exact fun _ _ => ⟨fun a ha => .inl ha, fun _ _ => rfl, fun _ => rfl⟩
    | step s t u h _ ih =>
      intro ho hn
      cases h with
      | send fs pre e k post rec acc =>
        refine ih (forall_replace ho (fun h => ?_)) (fun hf => forall_replace (hn hf) (fun h => ?_))
        · cases h with | send _ _ h => exact h
        · cases h with | send _ _ h => exact h
      | read fs pre p k post rec acc =>
        have hp : P p := by
          cases ho (.read p k) (by simp) with
          | read _ _ hp _ => exact hp
        obtain ⟨h1, h2, h3⟩ := ih
          (forall_replace ho (fun h => by cases h with | read _ _ _ h => exact h _))
          (fun hf => forall_replace (hn hf) (fun h => by cases h with | read _ _ h => exact h _))
        refine ⟨fun a ha => ?_, h2, h3⟩
        rcases h1 a ha with h | h
        · rcases List.mem_append.mp h with h | h
          · exact .inl h
          · rw [List.mem_singleton.mp h]; exact .inr ⟨p, hp, .inl rfl⟩
        · exact .inr h
      | write fs pre p t k post rec acc =>
        have hp : P p := by
          cases ho (.write p t k) (by simp) with
          | write _ _ _ hp _ => exact hp
        have hfix : flags.fix = true := by
          cases hf : flags.fix with
          | true => rfl
          | false => cases hn hf (.write p t k) (by simp)
        obtain ⟨h1, h2, _⟩ := ih
          (forall_replace ho (fun h => by cases h with | write _ _ _ _ h => exact h _))
          (fun hf => by rw [hfix] at hf; cases hf)
        refine ⟨fun a ha => ?_, fun q hq => ?_, fun hf => by rw [hfix] at hf; cases hf⟩
        · rcases h1 a ha with h | h
          · rcases List.mem_append.mp h with h | h
            · exact .inl h
            · rw [List.mem_singleton.mp h]; exact .inr ⟨p, hp, .inr ⟨rfl, hfix⟩⟩
          · exact .inr h
        · rw [h2 q hq]
          exact write_other sys fs p t q (fun he => hq (he ▸ hp))
  have ho : ∀ k ∈ items.map (itemTask E flags), Only P k := by
    intro k hk
    obtain ⟨i, hi, rfl⟩ := List.mem_map.mp hk
    exact only_mono (fun p hp => by cases hp; exact hi) (only_item E flags i)
  have hn : flags.fix = false → ∀ k ∈ items.map (itemTask E flags), NoWrite k := by
    intro hf k hk
    obtain ⟨i, _, rfl⟩ := List.mem_map.mp hk
    exact noWrite_item E flags hf i
  obtain ⟨h1, h2, h3⟩ := key _ _ hs ho hn
  refine ⟨fun a ha => ?_, h2, h3⟩
  rcases h1 a ha with h | h
  · cases h
  · exact h


/-! ## C26: the exit status -/

/-- The file at `p` is a problem: it cannot be read, it cannot be processed, or the content it has
after processing has a parse error or a finding that is more than an info. -/
def Problem (fs : FileSystem) (p : Path) : Prop :=
  fs.read p = none ∨ ∃ original, fs.read p = some original ∧
    let run := processFile E flags (sys.canWrite p) (some original)
    (run.outcome ≠ .ok ∨ ∃ rules errors results, RulesOf E original rules ∧
      Checked E rules (contentAfter original run) errors results ∧
      (0 < errors ∨ ∃ r ∈ results, r.severity ≠ .info))

theorem problem_iff (fs : FileSystem) (p : Path)
    (hp : (processFile E flags (sys.canWrite p) (fs.read p)).outcome ≠ .panic) :
    Problem sys E flags fs p ↔
      let c := receiveAll (processFile E flags (sys.canWrite p) (fs.read p)).events
      0 < c.errors ∨ 0 < c.warnings ∨ 0 < c.helps := by
  unfold Problem
  cases hr : fs.read p with
  | none =>
    simp only [true_or, true_iff]
    exact .inl Nat.one_pos
  | some original =>
    rw [hr] at hp
    simp only [reduceCtorEq, false_or, Option.some.injEq, exists_eq_left']
    cases ho : (processFile E flags (sys.canWrite p) (some original)).outcome with
    | panic => exact absurd ho hp
    | err e =>
      rw [(C52_failed_file_reported E flags _ _ e ho).1]
      simp
    | ok =>
      obtain ⟨final, rules, errors, results, hrules, hchk, _, hfinal, hcount⟩ :=
        C43_every_problem_counted E flags (sys.canWrite p) original ho
      rw [hcount, hfinal]
      have hpos : ∀ sev : Severity, 0 < results.countP (fun r => r.severity == sev) ↔
          ∃ r ∈ results, r.severity = sev := by
        intro sev
        rw [List.countP_pos_iff]
        simp
      simp only [ne_eq, not_true_eq_false, false_or, Nat.add_pos_iff_pos_or_pos, hpos]
      constructor
      · rintro ⟨rules', errors', results', ⟨t1, n1, h1, h2⟩, ⟨t2, h3, h4⟩, h⟩
        obtain ⟨u1, m1, h5, h6⟩ := hrules
        obtain ⟨u2, h7, h8⟩ := hchk
        rw [h1] at h5; cases h5
        rw [h3] at h7; cases h7
        rw [h2] at h6; cases h6
        rw [h4] at h8; cases h8
        rcases h with h | ⟨r, h, hs⟩
        · exact .inl (.inl h)
        · cases hsev : r.severity with
          | error => exact .inl (.inr ⟨r, h, hsev⟩)
          | warning => exact .inr (.inl ⟨r, h, hsev⟩)
          | help => exact .inr (.inr ⟨r, h, hsev⟩)
          | info => exact absurd hsev hs
      · intro h
        refine ⟨rules, errors, results, hrules, hchk, ?_⟩
        rcases h with (h | ⟨r, h, hs⟩) | ⟨r, h, hs⟩ | ⟨r, h, hs⟩
        · exact .inl h
        all_goals exact .inr ⟨r, h, by rw [hs]; simp⟩

theorem count_flatMap_pos (fs : FileSystem) (items : List WalkItem) (e : Event) :
    0 < (items.flatMap (itemEvents sys E flags fs)).count e ↔
      ∃ i ∈ items, 0 < (itemEvents sys E flags fs i).count e := by
  simp only [List.count_pos_iff, List.mem_flatMap]

theorem process_sends_file (writeOk : Bool) (content : Option Text) :
    .fileProcessed ∈ (processFile E flags writeOk content).events := by
  cases content <;> simp [processFile]

/-- C26 for a processed list of files without a panic and with at least one file: at the end the
status is 1 if the walker failed somewhere or one of the files is a problem, otherwise 0. Missing
from the full claim: the runs without any file, see `C26_walk_error_only`. -/
theorem C26_program_partial (fs : FileSystem) (acc : List Access) (items : List WalkItem)
    (hd : DistinctFiles items) (hf : ∃ p, .file p ∈ items)
    (hp : ∀ p, .file p ∈ items →
      (processFile E flags (sys.canWrite p) (fs.read p)).outcome ≠ .panic)
    (s : State) (hs : Steps sys (startState E flags fs acc items) s) (hfin : s.Final) :
    (s.exit = .status 0 ∨ s.exit = .status 1) ∧
    (s.exit = .status 1 ↔ .error ∈ items ∨ ∃ p, .file p ∈ items ∧ Problem sys E flags fs p) := by
  obtain ⟨_, _, _, hpan, hst⟩ := C27_every_schedule sys E flags fs acc items hd s hs hfin
  have hnp : s.exit ≠ .panic := by
    intro h
    obtain ⟨p, h1, h2⟩ := hpan.mp h
    exact hp p h1 h2
  rw [hst hnp]
  generalize hev : items.flatMap (itemEvents sys E flags fs) = events
  have hstatus : handleProcessingOutput events = 0 ∨ handleProcessingOutput events = 1 := by
    unfold handleProcessingOutput; grind
  refine ⟨by rcases hstatus with h | h <;> simp [h], ?_⟩
  have hfiles : 0 < events.count .fileProcessed := by
    rw [← hev, count_flatMap_pos]
    obtain ⟨p, hp⟩ := hf
    exact ⟨_, hp, by rw [List.count_pos_iff]; exact process_sends_file E flags _ _⟩
  have hone : handleProcessingOutput events = 1 ↔ 0 < events.count (.report .error) ∨
      0 < events.count (.report .warning) ∨ 0 < events.count (.report .help) := by
    simp only [handleProcessingOutput, C43_counts_exact]
    grind
  rw [Exit.status.injEq, hone]
  subst hev
  simp only [count_flatMap_pos]
  constructor
  · have hprob : ∀ i ∈ items, (0 < (itemEvents sys E flags fs i).count (.report .error) ∨
        0 < (itemEvents sys E flags fs i).count (.report .warning) ∨
        0 < (itemEvents sys E flags fs i).count (.report .help)) →
        .error ∈ items ∨ ∃ p, .file p ∈ items ∧ Problem sys E flags fs p := by
      intro i hi h
      cases i with
      | error => exact .inl hi
      | directory => simp [itemEvents] at h
      | file p =>
        refine .inr ⟨p, hi, (problem_iff sys E flags fs p (hp p hi)).mpr ?_⟩
        simp only [C43_counts_exact]
        exact h
    rintro (⟨i, hi, h⟩ | ⟨i, hi, h⟩ | ⟨i, hi, h⟩)
    · exact hprob i hi (.inl h)
    · exact hprob i hi (.inr (.inl h))
    · exact hprob i hi (.inr (.inr h))
  · rintro (h | ⟨p, hi, h⟩)
    · exact .inl ⟨_, h, Nat.one_pos⟩
    · have := (problem_iff sys E flags fs p (hp p hi)).mp h
      simp only [C43_counts_exact] at this
      rcases this with h | h | h
      · exact .inl ⟨_, hi, h⟩
      · exact .inr (.inl ⟨_, hi, h⟩)
      · exact .inr (.inr ⟨_, hi, h⟩)

/-! ### Examples -/

end

section
/-- Two files, an unreadable one and a walk error; the file `c` cannot be written. -/
def sampleFs : FileSystem := fun p =>
  if p = ['a'] then .text ['x', 'y'] else if p = ['c'] then .text ['z'] else
  if p = ['u'] then .unreadable else .absent

def sampleSystem : System Unit where
  canWrite p := p != ['c']
  failedWrite _ _ n := n
  loadConfig _ _ := some ⟨[], ()⟩
  ignoreUsable := true
  walk _ paths := .directory :: paths.map .file
  defaultConfig := "version = \"{{LUDTWIG_VERSION}}\"\n".toList
  version := ['1']

def sampleItems : List WalkItem := [.directory, .file ['a'], .file ['c'], .file ['u'], .error]

/-- The conditions of `C27_every_schedule`, `C55_no_infinite_run`, `C56_only_walked_files` and
`C26_program_partial` hold, and with `--fix` a file changes. -/
example : DistinctFiles sampleItems ∧
    (∃ s, Steps sampleSystem (startState eatEngine ⟨true, false⟩ sampleFs [] sampleItems) s ∧ s.Final ∧
      s.fs ['a'] = .text [] ∧ s.fs ['c'] = .text ['z'] ∧ s.exit = .status 1) ∧
    (∀ p, .file p ∈ sampleItems → (processFile eatEngine ⟨true, false⟩ (sampleSystem.canWrite p)
      (sampleFs.read p)).outcome ≠ .panic) := by
  have hd : DistinctFiles sampleItems := by
    simp [DistinctFiles, sampleItems, WalkItem.Has]
  have hnp : ∀ p, .file p ∈ sampleItems → (processFile eatEngine ⟨true, false⟩ (sampleSystem.canWrite p)
      (sampleFs.read p)).outcome ≠ .panic := by
    intro p hp
    simp only [sampleItems, List.mem_cons, reduceCtorEq, false_or, WalkItem.file.injEq, List.not_mem_nil,
      or_false] at hp
    rcases hp with rfl | rfl | rfl <;> decide
  refine ⟨hd, ?_, hnp⟩
  obtain ⟨s, hs, hf⟩ := C55_end_reachable sampleSystem
    (startState eatEngine ⟨true, false⟩ sampleFs [] sampleItems)
  obtain ⟨h1, _, _, _⟩ := C27_every_schedule sampleSystem eatEngine ⟨true, false⟩ sampleFs [] sampleItems hd
    s hs hf
  refine ⟨s, hs, hf, (h1 ['a'] (by decide)).trans (by decide), (h1 ['c'] (by decide)).trans (by decide), ?_⟩
  exact (C26_program_partial sampleSystem eatEngine ⟨true, false⟩ sampleFs [] sampleItems hd
    ⟨['a'], by decide⟩ hnp s hs hf).2.mpr (.inl (by decide))

end

/-- Filtering a list without repetitions by membership in a sublist gives the sublist. -/
theorem sublist_filter {l s : List RuleName} (hs : s.Sublist l) (hn : l.Nodup) :
    l.filter (fun r => s.contains r) = s := by
  induction hs with
  | slnil => rfl
  | @cons s l a hs ih =>
    rw [List.nodup_cons] at hn
    have ha : s.contains a = false := by
      rw [List.contains_eq_mem]
      exact decide_eq_false (fun h => hn.1 (hs.subset h))
    rw [List.filter_cons_of_neg (by rw [ha]; simp)]
    exact ih hn.2
  | @cons_cons s l a hs ih =>
    rw [List.nodup_cons] at hn
    rw [List.filter_cons_of_pos (by simp)]
    congr 1
    have : ∀ r ∈ l, (a :: s).contains r = s.contains r := by
      intro r hr
      have hne : r ≠ a := fun h => hn.1 (h ▸ hr)
      rw [Bool.eq_iff_iff]
      simp [hne]
    rw [List.filter_congr this, ih hn.2]

/-! ## The program -/

section
variable {Conf Tree : Type} (sys : System Conf) (E : Conf → List RuleName → Engine Tree) (opts : Opts)
  (fs : FileSystem)

/-- The path of the config file. -/
def Opts.config (opts : Opts) : Path := opts.configPath.getD "./ludtwig-config.toml".toList

/-! ### C33 -/

/-- C33: with `--create-config` there are three possible runs. If something exists at the path, nothing
is written and the status is 1. Otherwise the default config is written there and nothing else
changes, with status 0; or, if it cannot be written, the program panics. -/
theorem C33_create_config (hc : opts.createConfig = true) (fs' : FileSystem) (e : Exit)
    (acc : List Access) :
    MainRun sys E opts fs fs' e acc ↔
      (fs opts.config ≠ .absent ∧ fs' = fs ∧ e = .status 1 ∧ acc = []) ∨
      (fs opts.config = .absent ∧ sys.canWrite opts.config = true ∧
        fs' = fs.set opts.config (.text (replaceAll versionPattern sys.version 0 sys.defaultConfig)) ∧
        e = .status 0 ∧ acc = [.write opts.config]) ∨
      (fs opts.config = .absent ∧ sys.canWrite opts.config = false ∧
        (∀ p, p ≠ opts.config → fs' p = fs p) ∧
        fs' opts.config = sys.failedWrite opts.config
          (replaceAll versionPattern sys.version 0 sys.defaultConfig) .absent ∧
        e = .panic ∧ acc = [.write opts.config]) := by
  have hrun : ∀ fs' acc c, handleConfigOrExit sys opts fs ≠ (fs', acc, .run c) := by
    intro fs' acc c h
    simp only [handleConfigOrExit, hc, if_true] at h
    split at h
    · cases h
    · split at h <;> cases h
  have hex : fs.exists opts.config = true ↔ fs opts.config ≠ .absent := by
    simp [FileSystem.exists]
  constructor
  · intro h
    cases h with
    | config _ _ _ h =>
      simp only [handleConfigOrExit, hc, if_true] at h
      by_cases hx : fs opts.config = .absent
      · have hf : fs.exists (opts.configPath.getD defaultConfigPath) = false := by
          simp only [FileSystem.exists]; rw [show opts.configPath.getD defaultConfigPath = opts.config from rfl, hx]; rfl
        rw [hf] at h
        simp only [Bool.false_eq_true, if_false, System.write] at h
        cases hw : sys.canWrite opts.config with
        | true =>
          have hw' : sys.canWrite (opts.configPath.getD defaultConfigPath) = true := hw
          rw [hw'] at h
          simp only [if_true] at h
          cases h
          exact .inr (.inl ⟨hx, rfl, rfl, rfl, rfl⟩)
        | false =>
          have hw' : sys.canWrite (opts.configPath.getD defaultConfigPath) = false := hw
          rw [hw'] at h
          simp only [Bool.false_eq_true, if_false] at h
          cases h
          refine .inr (.inr ⟨hx, rfl, fun p hp => ?_, ?_, rfl, rfl⟩)
          · simp only [FileSystem.set]
            exact if_neg hp
          · simp only [FileSystem.set]
            rw [show opts.configPath.getD defaultConfigPath = opts.config from rfl, if_pos rfl, hx]
      · have hf : fs.exists (opts.configPath.getD defaultConfigPath) = true := hex.mpr hx
        rw [hf] at h
        simp only [if_true] at h
        cases h
        exact .inl ⟨hx, rfl, rfl, rfl⟩
    | unknownRule _ _ _ _ h => exact absurd h (hrun _ _ _)
    | noPath _ _ _ _ h => exact absurd h (hrun _ _ _)
    | badIgnore _ _ _ _ h => exact absurd h (hrun _ _ _)
    | process _ _ _ _ _ h => exact absurd h (hrun _ _ _)
  · have hpath : opts.configPath.getD defaultConfigPath = opts.config := rfl
    rintro (⟨hx, rfl, rfl, rfl⟩ | ⟨hx, hw, rfl, rfl, rfl⟩ | ⟨hx, hw, h1, h2, rfl, rfl⟩)
    · refine .config _ _ _ ?_
      simp only [handleConfigOrExit, hc, if_true, hpath, hex.mpr hx]
    · refine .config _ _ _ ?_
      have hf : fs.exists opts.config = false := by simp [FileSystem.exists, hx]
      simp only [handleConfigOrExit, hc, if_true, hpath, hf, Bool.false_eq_true, if_false, System.write,
        hw]
    · refine .config _ _ _ ?_
      have hf : fs.exists opts.config = false := by simp [FileSystem.exists, hx]
      simp only [handleConfigOrExit, hc, if_true, hpath, hf, Bool.false_eq_true, if_false, System.write,
        hw]
      have : fs.set opts.config (sys.failedWrite opts.config
          (replaceAll versionPattern sys.version 0 sys.defaultConfig) (fs opts.config)) = fs' := by
        funext q
        simp only [FileSystem.set]
        split
        · rename_i hq; rw [hq, hx, h2]
        · rename_i hq; exact (h1 q hq).symm
      rw [this]

theorem replaceAll_skip (pattern value : Text) : ∀ (a b : Text),
    replaceAll pattern value a.length (a ++ b) = replaceAll pattern value 0 b
  | [], b => rfl
  | c :: a, b => by
    rw [List.cons_append, List.length_cons, replaceAll]
    exact replaceAll_skip pattern value a b

theorem replaceAll_none (pattern value : Text) : ∀ (t : Text),
    (∀ x y, t ≠ x ++ pattern ++ y) → replaceAll pattern value 0 t = t
  | [], _ => rfl
  | c :: cs, h => by
    rw [replaceAll, if_neg, replaceAll_none pattern value cs]
    · intro x y hxy
      exact h (c :: x) y (by rw [hxy]; rfl)
    · intro hp
      obtain ⟨y, hy⟩ := List.isPrefixOf_iff_prefix.mp hp
      exact h [] y (by rw [← hy]; rfl)

/-- C33: what is written: if the version pattern is at exactly one place of the default config, the
version is put there and nothing else is changed. -/
theorem C33_content (value pre post : Text)
    (honce : ∀ x y, pre ++ versionPattern ++ post = x ++ versionPattern ++ y → x = pre) :
    replaceAll versionPattern value 0 (pre ++ versionPattern ++ post) = pre ++ value ++ post := by
  have hlen : 1 < versionPattern.length := by decide
  generalize versionPattern = pat at *
  induction pre with
  | nil =>
    obtain ⟨c, cs, rfl⟩ : ∃ c cs, pat = c :: cs := by
      cases pat with
      | nil => simp at hlen
      | cons c cs => exact ⟨c, cs, rfl⟩
    rw [List.nil_append, List.nil_append, List.cons_append, replaceAll, if_pos]
    · rw [List.length_cons, Nat.add_sub_cancel, replaceAll_skip, replaceAll_none]
      intro x y hxy
      have := honce (c :: cs ++ x) y (by rw [hxy]; simp)
      simp at this
    · rw [List.isPrefixOf_iff_prefix]
      exact ⟨post, rfl⟩
  | cons c pre ih =>
    rw [List.cons_append, List.cons_append, replaceAll, if_neg]
    · rw [ih]
      · rfl
      · intro x y hxy
        have := honce (c :: x) y (by rw [List.cons_append, List.cons_append, hxy]; rfl)
        simpa using this
    · intro hp
      obtain ⟨y, hy⟩ := List.isPrefixOf_iff_prefix.mp hp
      have := honce [] y (by rw [List.nil_append]; exact hy.symm)
      simp at this

/-! ### C16 -/

/-- C16: if the config names an unknown rule, the only possible run ends with status 1 without
accessing or changing any file. -/
theorem C16_unknown_rule_exits (hc : opts.createConfig = false) (c : LoadedConfig Conf)
    (hl : sys.loadConfig fs opts.config = some c) (hu : ∃ r ∈ c.activeRules, r ∉ ruleDefinitions)
    (fs' : FileSystem) (e : Exit) (acc : List Access) :
    MainRun sys E opts fs fs' e acc ↔ fs' = fs ∧ e = .status 1 ∧ acc = [] := by
  have hh : handleConfigOrExit sys opts fs = (fs, [], .run c) := by
    have hl' : sys.loadConfig fs (opts.configPath.getD defaultConfigPath) = some c := hl
    simp only [handleConfigOrExit, hc, Bool.false_eq_true, if_false, hl']
  have herr : ∀ active, configActive ruleDefinitions c.activeRules ≠ .ok active := by
    intro active ha
    obtain ⟨r, hr, hn⟩ := hu
    obtain ⟨h1, _, h3⟩ := C15_active_rules _ _ ha
    exact hn (h1.subset ((h3 r).mpr hr))
  constructor
  · intro h
    cases h with
    | config _ _ _ h => rw [hh] at h; cases h
    | unknownRule _ _ _ _ h => rw [hh] at h; cases h; exact ⟨rfl, rfl, rfl⟩
    | noPath _ _ _ _ h h2 => rw [hh] at h; cases h; exact absurd h2 (herr _)
    | badIgnore _ _ _ _ h h2 => rw [hh] at h; cases h; exact absurd h2 (herr _)
    | process _ _ _ _ _ h h2 => rw [hh] at h; cases h; exact absurd h2 (herr _)
  · rintro ⟨rfl, rfl, rfl⟩
    cases ha : configActive ruleDefinitions c.activeRules with
    | error err => exact .unknownRule _ _ _ _ hh ha
    | ok active => exact absurd ha (herr _)

/-- C16: if the config can be loaded and names only known rules (and there is a path to scan and the
ignore file is usable), every run processes the files the walker finds, with exactly the
configured rules. -/
theorem C16_known_rules_run (hc : opts.createConfig = false) (c : LoadedConfig Conf)
    (hl : sys.loadConfig fs opts.config = some c) (hk : ∀ r ∈ c.activeRules, r ∈ ruleDefinitions)
    (hf : opts.files ≠ []) (hi : sys.ignoreUsable = true) (fs' : FileSystem) (e : Exit)
    (acc : List Access) :
    MainRun sys E opts fs fs' e acc ↔
      ∃ active s, active.Sublist ruleDefinitions ∧ (∀ r, r ∈ active ↔ r ∈ c.activeRules) ∧
        Steps sys (startState (E c.rest active) opts.flags fs [] (sys.walk fs opts.files)) s ∧ s.Final ∧
        fs' = s.fs ∧ e = s.exit ∧ acc = s.accesses := by
  have hh : handleConfigOrExit sys opts fs = (fs, [], .run c) := by
    have hl' : sys.loadConfig fs (opts.configPath.getD defaultConfigPath) = some c := hl
    simp only [handleConfigOrExit, hc, Bool.false_eq_true, if_false, hl']
  obtain ⟨active, ha⟩ := C16_known_rules_ok _ hk
  obtain ⟨h1, h2, h3⟩ := C15_active_rules _ _ ha
  constructor
  · intro h
    cases h with
    | config _ _ _ h => rw [hh] at h; cases h
    | unknownRule _ _ _ _ h h2 => rw [hh] at h; cases h; rw [ha] at h2; cases h2
    | noPath _ _ _ _ h h2 h3 => exact absurd h3 hf
    | badIgnore _ _ _ _ h h2 h3 h4 h5 => rw [hi] at h5; cases h5
    | process _ _ _ _ s h h2' h3' h4 h5 h6 =>
      rw [hh] at h; cases h
      rw [ha] at h2'; cases h2'
      exact ⟨active, s, h1, h3, h5, h6, rfl, rfl, rfl⟩
  · rintro ⟨active', s, h1', h3', h5, h6, rfl, rfl, rfl⟩
    have : active' = active := by
      have hsub : ∀ {l l' : List RuleName}, l.Sublist ruleDefinitions → l'.Sublist ruleDefinitions →
          (∀ r, r ∈ l ↔ r ∈ l') → l = l' := by
        intro l l' hl hl' hll
        have e1 : ruleDefinitions.filter (fun r => l.contains r) = l := sublist_filter hl ruleDefinitions_nodup
        have e2 : ruleDefinitions.filter (fun r => l'.contains r) = l' :=
          sublist_filter hl' ruleDefinitions_nodup
        rw [← e1, ← e2]
        exact List.filter_congr (fun r _ => by simp [hll])
      exact hsub h1' h1 (fun r => (h3' r).trans (h3 r).symm)
    subst this
    exact .process _ _ _ _ s hh ha hf (by simp [hi]) h5 h6

/-! ### C26: failures at start-up -/

/-- C26: if the config cannot be loaded, the only possible run ends with status 1 without accessing or
changing any file. -/
theorem C26_unreadable_config (hc : opts.createConfig = false)
    (hl : sys.loadConfig fs opts.config = none) (fs' : FileSystem) (e : Exit) (acc : List Access) :
    MainRun sys E opts fs fs' e acc ↔ fs' = fs ∧ e = .status 1 ∧ acc = [] := by
  have hh : handleConfigOrExit sys opts fs = (fs, [], .exit (.status 1)) := by
    have hl' : sys.loadConfig fs (opts.configPath.getD defaultConfigPath) = none := hl
    simp only [handleConfigOrExit, hc, Bool.false_eq_true, if_false, hl']
  constructor
  · intro h
    cases h with
    | config _ _ _ h => rw [hh] at h; cases h; exact ⟨rfl, rfl, rfl⟩
    | unknownRule _ _ _ _ h => rw [hh] at h; cases h
    | noPath _ _ _ _ h h2 => rw [hh] at h; cases h
    | badIgnore _ _ _ _ h h2 => rw [hh] at h; cases h
    | process _ _ _ _ _ h h2 => rw [hh] at h; cases h
  · rintro ⟨rfl, rfl, rfl⟩
    exact .config _ _ _ hh

/-- C26: if the config is fine but there is a `./.ludtwig-ignore` that cannot be used, the only possible
run ends with status 1 without accessing or changing any file. -/
theorem C26_unusable_ignore_file (hc : opts.createConfig = false) (c : LoadedConfig Conf)
    (hl : sys.loadConfig fs opts.config = some c) (hk : ∀ r ∈ c.activeRules, r ∈ ruleDefinitions)
    (hf : opts.files ≠ []) (hx : fs "./.ludtwig-ignore".toList ≠ .absent)
    (hi : sys.ignoreUsable = false) (fs' : FileSystem) (e : Exit) (acc : List Access) :
    MainRun sys E opts fs fs' e acc ↔ fs' = fs ∧ e = .status 1 ∧ acc = [] := by
  have hh : handleConfigOrExit sys opts fs = (fs, [], .run c) := by
    have hl' : sys.loadConfig fs (opts.configPath.getD defaultConfigPath) = some c := hl
    simp only [handleConfigOrExit, hc, Bool.false_eq_true, if_false, hl']
  have hex : fs.exists "./.ludtwig-ignore".toList = true := by
    simp only [FileSystem.exists, bne_iff_ne]
    exact hx
  obtain ⟨active, ha⟩ := C16_known_rules_ok _ hk
  constructor
  · intro h
    cases h with
    | config _ _ _ h => rw [hh] at h; cases h
    | unknownRule _ _ _ _ h h2 => rw [hh] at h; cases h; rw [ha] at h2; cases h2
    | noPath _ _ _ _ h h2 h3 => exact absurd h3 hf
    | badIgnore _ _ _ _ h => rw [hh] at h; cases h; exact ⟨rfl, rfl, rfl⟩
    | process _ _ _ _ s h h2' h3' h4 h5 h6 =>
      rw [hh] at h; cases h
      exact absurd ⟨hex, hi⟩ h4
  · rintro ⟨rfl, rfl, rfl⟩
    exact .badIgnore _ _ _ _ hh ha hf hex hi

end

/-- With `--create-config` on the sample system: the default config with the version put in is
written, and a second run refuses. -/
example :
    let opts : Opts := ⟨[], ⟨false, false⟩, some ['k'], true⟩
    let fs' := sampleFs.set ['k'] (.text "version = \"1\"\n".toList)
    MainRun sampleSystem (fun _ _ => eatEngine) opts sampleFs fs' (.status 0) [.write ['k']] ∧
    MainRun sampleSystem (fun _ _ => eatEngine) opts fs' fs' (.status 1) [] := by
  refine ⟨(C33_create_config _ _ _ _ rfl _ _ _).mpr (.inr (.inl ⟨by decide, by decide, ?_, rfl, rfl⟩)),
    (C33_create_config _ _ _ _ rfl _ _ _).mpr (.inl ⟨by decide, rfl, rfl, rfl⟩)⟩
  have : replaceAll versionPattern sampleSystem.version 0 sampleSystem.defaultConfig =
      "version = \"1\"\n".toList := by decide
  rw [this]
  rfl

/-- The condition of `C33_content` holds for the sample config. -/
example : ∃ pre post, sampleSystem.defaultConfig = pre ++ versionPattern ++ post ∧
    ∀ x y, pre ++ versionPattern ++ post = x ++ versionPattern ++ y → x = pre := by
  have gen : ∀ t pat pre : Text, (∀ n ≤ t.length, pat.isPrefixOf (t.drop n) = true → t.take n = pre) →
      ∀ x y, t = x ++ pat ++ y → x = pre := by
    intro t pat pre h x y hxy
    have := h x.length (by rw [hxy]; simp) (by
      rw [hxy, List.append_assoc, List.drop_left, List.isPrefixOf_iff_prefix]
      exact ⟨y, rfl⟩)
    rwa [hxy, List.append_assoc, List.take_left] at this
  exact ⟨"version = \"".toList, "\"\n".toList, by decide, gen _ _ _ (by decide)⟩

/-- A config naming an unknown rule, and one with known rules only. -/
example :
    (∃ r ∈ ["line-ending".toList, ['n', 'o']], r ∉ ruleDefinitions) ∧
    ∀ r ∈ ["line-ending".toList], r ∈ ruleDefinitions := by
  decide

/-- A config that cannot be loaded, and an ignore file that cannot be used. -/
example :
    let opts : Opts := ⟨[['a']], ⟨true, false⟩, none, false⟩
    let noConfig : System Unit := { sampleSystem with loadConfig := fun _ _ => none }
    let noIgnore : System Unit := { sampleSystem with ignoreUsable := false }
    let fs := sampleFs.set "./.ludtwig-ignore".toList (.text ['['])
    MainRun noConfig (fun _ _ => eatEngine) opts sampleFs sampleFs (.status 1) [] ∧
    MainRun noIgnore (fun _ _ => eatEngine) opts fs fs (.status 1) [] ∧
    ¬ MainRun noIgnore (fun _ _ => eatEngine) opts fs fs (.status 0) [] := by
  refine ⟨(C26_unreadable_config _ _ _ _ rfl rfl _ _ _).mpr ⟨rfl, rfl, rfl⟩,
    (C26_unusable_ignore_file _ _ _ _ rfl ⟨[], ()⟩ rfl (by simp) (by simp) (by simp [FileSystem.set]) rfl
      _ _ _).mpr ⟨rfl, rfl, rfl⟩, fun h => ?_⟩
  have := (C26_unusable_ignore_file _ _ _ _ rfl ⟨[], ()⟩ rfl (by simp) (by simp) (by simp [FileSystem.set]) rfl
      _ _ _).mp h
  cases this.2.1

end Ludtwig.Cli
