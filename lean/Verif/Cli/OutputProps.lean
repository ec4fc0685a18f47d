import Verif.Cli.Output

/-! # Summary and exit status: properties C26, C27 -/

namespace Ludtwig.Cli

theorem foldl_step (events : List Event) (c : Counts) :
    events.foldl Counts.step c =
      { files := c.files + events.count .fileProcessed
        errors := c.errors + events.count (.report .error)
        warnings := c.warnings + events.count (.report .warning)
        helps := c.helps + events.count (.report .help)
        infos := c.infos + events.count (.report .info) } := by
  induction events generalizing c with
  | nil => simp
  | cons e es ih =>
    rw [List.foldl_cons, ih]
    cases e with
    | fileProcessed => simp [Counts.step]; omega
    | report s => cases s <;> simp [Counts.step] <;> omega
    | outputStderrMessage => simp [Counts.step]

/-- The printed counts are the numbers of events of each sort. -/
theorem C43_counts_exact (events : List Event) :
    receiveAll events =
      { files := events.count .fileProcessed
        errors := events.count (.report .error)
        warnings := events.count (.report .warning)
        helps := events.count (.report .help)
        infos := events.count (.report .info) } := by
  simp [receiveAll, foldl_step]

theorem Interleave.perm {α : Type} {ls : List (List α)} {l : List α} (h : Interleave ls l) :
    l.Perm ls.flatten := by
  induction h with
  | done ls h => 
    have : ls.flatten = [] := by simpa using h
    rw [this]
  | step pre a x post l _ ih =>
    have h1 : (pre ++ (a :: x) :: post).flatten = pre.flatten ++ a :: (x ++ post.flatten) := by simp
    have h2 : (pre ++ x :: post).flatten = pre.flatten ++ (x ++ post.flatten) := by simp
    rw [h1]
    rw [h2] at ih
    exact (ih.cons a).trans List.perm_middle.symm

/-- C27: for any set of per-worker event sequences, any two interleavings give the same counts and
the same exit status. -/
theorem C27_scheduling_independent (workers : List (List Event)) (l₁ l₂ : List Event)
    (h₁ : Interleave workers l₁) (h₂ : Interleave workers l₂) :
    receiveAll l₁ = receiveAll l₂ ∧ handleProcessingOutput l₁ = handleProcessingOutput l₂ := by
  have hp : l₁.Perm l₂ := h₁.perm.trans h₂.perm.symm
  have : receiveAll l₁ = receiveAll l₂ := by
    simp [C43_counts_exact, hp.count_eq]
  exact ⟨this, by simp [handleProcessingOutput, this]⟩

/-- Two interleavings that differ. -/
example : Interleave [[Event.fileProcessed, .report .error], [Event.fileProcessed]]
      [.fileProcessed, .report .error, .fileProcessed] ∧
    Interleave [[Event.fileProcessed, .report .error], [Event.fileProcessed]]
      [.fileProcessed, .fileProcessed, .report .error] :=
  ⟨.step [] _ _ _ _ (.step [] _ _ _ _ (.step [[]] _ _ [] _ (.done _ (by simp)))),
   .step [] _ _ _ _ (.step [[Event.report .error]] .fileProcessed [] [] _
    (show Interleave ([[Event.report .error], []]) _ from .step [] (Event.report .error) [] [[]] _ (.done _ (by simp))))⟩

/-- C26 for runs in which at least one file was processed, or the config was rejected: the status
is 1 exactly if a file produced an error, warning or help, the walk failed somewhere, a file could
not be processed, or the config names an unknown rule. Missing from the full claim: runs without
any processed file, see `C26_walk_error_only`. -/
theorem C26_exit_status_partial (configOk : Bool) (entries : List WalkEntry) (received : List Event)
    (hr : Interleave (entries.map entryEvents) received)
    (hf : configOk = true → ∃ sent failed, .file sent failed ∈ entries) :
    app configOk received = 1 ↔
      configOk = false ∨ .walkError ∈ entries ∨
      ∃ sent failed, .file sent failed ∈ entries ∧
        (failed = true ∨ .report .error ∈ sent ∨ .report .warning ∈ sent ∨ .report .help ∈ sent) := by
  have hp := hr.perm
  cases configOk with
  | false => simp [app]
  | true =>
    obtain ⟨sent, failed, hmem⟩ := hf rfl
    have hfile : 0 < received.count .fileProcessed := by
      rw [hp.count_eq, List.count_pos_iff, List.mem_flatten]
      exact ⟨entryEvents (.file sent failed), List.mem_map_of_mem hmem, by simp [entryEvents]⟩
    have hmemiff : ∀ s : Severity, Event.report s ∈ received ↔
        (s = .error ∧ .walkError ∈ entries) ∨ ∃ sent failed, .file sent failed ∈ entries ∧
          ((failed = true ∧ s = .error) ∨ .report s ∈ sent) := by
      intro s
      rw [hp.mem_iff, List.mem_flatten]
      constructor
      · rintro ⟨l, hl, hs⟩
        obtain ⟨e, he, rfl⟩ := List.mem_map.1 hl
        cases e with
        | walkError => simp [entryEvents] at hs; exact .inl ⟨hs, he⟩
        | directory => simp [entryEvents] at hs
        | file sent failed =>
          refine .inr ⟨sent, failed, he, ?_⟩
          cases failed <;> simp [entryEvents] at hs <;> grind
      · rintro (⟨rfl, he⟩ | ⟨sent, failed, he, h⟩)
        · exact ⟨_, List.mem_map_of_mem he, by simp [entryEvents]⟩
        · refine ⟨_, List.mem_map_of_mem he, ?_⟩
          rcases h with ⟨rfl, rfl⟩ | h
          · simp [entryEvents]
          · simp [entryEvents, h]
    have hex : app true received = 1 ↔ Event.report .error ∈ received ∨
        Event.report .warning ∈ received ∨ Event.report .help ∈ received := by
      have e1 := List.count_pos_iff (a := Event.report .error) (l := received)
      have e2 := List.count_pos_iff (a := Event.report .warning) (l := received)
      have e3 := List.count_pos_iff (a := Event.report .help) (l := received)
      rw [← e1, ← e2, ← e3]
      simp only [app, handleProcessingOutput, C43_counts_exact]
      grind
    rw [hex, hmemiff, hmemiff, hmemiff]
    constructor
    · rintro ((⟨-, h⟩ | ⟨s, f, h, ⟨h1, -⟩ | h1⟩) | (⟨h1, -⟩ | ⟨s, f, h, ⟨-, h1⟩ | h1⟩) |
        (⟨h1, -⟩ | ⟨s, f, h, ⟨-, h1⟩ | h1⟩))
      · exact .inr (.inl h)
      · exact .inr (.inr ⟨s, f, h, .inl h1⟩)
      · exact .inr (.inr ⟨s, f, h, .inr (.inl h1)⟩)
      · cases h1
      · cases h1
      · exact .inr (.inr ⟨s, f, h, .inr (.inr (.inl h1))⟩)
      · cases h1
      · cases h1
      · exact .inr (.inr ⟨s, f, h, .inr (.inr (.inr h1))⟩)
    · rintro (h | h | ⟨s, f, h, h1 | h1 | h1 | h1⟩)
      · cases h
      · exact .inl (.inl ⟨rfl, h⟩)
      · exact .inl (.inr ⟨s, f, h, .inl ⟨h1, rfl⟩⟩)
      · exact .inl (.inr ⟨s, f, h, .inr h1⟩)
      · exact .inr (.inl (.inr ⟨s, f, h, .inr h1⟩))
      · exact .inr (.inr (.inr ⟨s, f, h, .inr h1⟩))

example : Interleave ([WalkEntry.file [.report .help] false, .directory].map entryEvents)
    [.fileProcessed, .report .help] :=
  .step [] _ _ _ _ (.step [] _ _ _ _ (.done _ (by simp [entryEvents])))

/-- C26, counterexample: when the only thing that happens is a failure to walk a given path (for
example a file that does not exist), an error is reported but the exit status is 0. -/
theorem C26_walk_error_only :
    ∃ received, Interleave ([WalkEntry.walkError].map entryEvents) received ∧
      .report .error ∈ received ∧ app true received = 0 :=
  ⟨[.report .error], .step [] _ _ _ _ (.done _ (by simp)), by simp, by decide⟩

/-- The exit status is always 0 or 1. -/
theorem C26_status_zero_or_one (configOk : Bool) (received : List Event) :
    app configOk received = 0 ∨ app configOk received = 1 := by
  unfold app handleProcessingOutput; grind

end Ludtwig.Cli
