import Verif.Rules.SeverityLemmas
import Verif.Rules.EngineProps
import Verif.Cli.MainProps

/-!
# What a run reports: C82, C83

The severity of the findings of each rule, what that means for the exit status, and the labels of the
diagnostics that are shown for a file.
-/

namespace Ludtwig.Rules

open Cli Lexer

/-! ## C82 -/

/-- What holds for the findings of all rules on all elements and roots holds for those of a run. -/
theorem run_all {P : CheckResult → Prop} (config : Config) (rules : List Rule) (root : Tree)
    (hn : ∀ r ∈ rules, ∀ ctx e, AllR P (r.checkNode ctx e))
    (ht : ∀ r ∈ rules, ∀ ctx e, AllR P (r.checkToken ctx e))
    (hr : ∀ r ∈ rules, ∀ ctx e l, r.checkRoot ctx e = .ok l → AllR P l)
    (l : List CheckResult) (h : runRules config rules root = .ok l) : AllR P l := by
  have hroot : ∀ (rs : List Rule) (l : List CheckResult), (∀ r ∈ rs, r ∈ rules) →
      rootChecks config (Elem.root root) rs = .ok l → AllR P l := by
    intro rs
    induction rs with
    | nil => intro l _ h; cases h; exact .nil
    | cons r rs ih =>
      intro l hk h
      rw [rootChecks] at h
      split at h
      · cases h
      · rename_i a ha
        split at h
        · cases h
        · rename_i b hb
          cases h
          exact AllR.append (hr r (hk r List.mem_cons_self) _ _ _ ha)
            (ih b (fun r hr => hk r (List.mem_cons_of_mem _ hr)) hb)
  unfold runRules at h
  split at h
  · cases h; exact .nil
  · split at h
    · cases h
    · rename_i a ha
      rw [runLoop] at h
      cases h
      refine AllR.append (hroot _ _ (fun _ h => h) ha) ?_
      intro x hx
      simp only [specResults, List.mem_flatMap, List.mem_filter] at hx
      obtain ⟨e, _, r, ⟨hr, _⟩, hx⟩ := hx
      unfold checkElem at hx
      split at hx
      · exact hn r hr _ _ x hx
      · exact ht r hr _ _ x hx

/-- C82: a finding names one of the rules of the run, has the severity of that rule in the table and
has a primary label. -/
theorem C82_severity_of_rule (config : Config) (rules : List Rule)
    (hd : ∀ r ∈ rules, r ∈ definitions) (root : Tree) (l : List CheckResult)
    (h : runRules config rules root = .ok l) :
    ∀ x ∈ l, (∃ r ∈ rules, x.rule = r.name) ∧ severityOf x.rule = some x.severity ∧
      ∃ range, x.primary = some range := by
  have key : ∀ r ∈ rules, ∀ sev, severityOf r.name = some sev → ∀ x, Stamped r.name sev x →
      (∃ r ∈ rules, x.rule = r.name) ∧ severityOf x.rule = some x.severity ∧
        ∃ range, x.primary = some range := by
    intro r hr sev hs x hx
    simp only [Stamped, stampOf, Prod.mk.injEq] at hx
    obtain ⟨h1, h2, h3⟩ := hx
    exact ⟨⟨r, hr, h1⟩, by rw [h1, h2, hs], Option.isSome_iff_exists.mp h3⟩
  refine run_all config rules root ?_ ?_ ?_ l h
  · intro r hr ctx e x hx
    obtain ⟨sev, hs, hm⟩ := definitions_mark r (hd r hr)
    exact key r hr sev hs x (hm.1 ctx e x hx)
  · intro r hr ctx e x hx
    obtain ⟨sev, hs, hm⟩ := definitions_mark r (hd r hr)
    exact key r hr sev hs x (hm.2.1 ctx e x hx)
  · intro r hr ctx e l hl x hx
    obtain ⟨sev, hs, hm⟩ := definitions_mark r (hd r hr)
    exact key r hr sev hs x (hm.2.2 ctx e l hl x hx)

/-- No rule reports with the severity info. -/
theorem severityOf_ne_info (name : RuleName) : severityOf name ≠ some .info := by
  unfold severityOf
  intro h
  obtain ⟨x, hx, hs⟩ := Option.map_eq_some_iff.mp h
  have hall : ∀ x ∈ severities, x.2 ≠ .info := by decide
  exact hall x (List.mem_of_find?_eq_some hx) hs

/-- C82: no finding is a mere info. -/
theorem C82_no_info (config : Config) (rules : List Rule) (hd : ∀ r ∈ rules, r ∈ definitions)
    (root : Tree) (l : List CheckResult) (h : runRules config rules root = .ok l) :
    ∀ x ∈ l, x.severity ≠ .info := by
  intro x hx hi
  have := (C82_severity_of_rule config rules hd root l h x hx).2.1
  rw [hi] at this
  exact severityOf_ne_info _ this

/-- All rules together on `<p id='x' a=b></p>{{ 'c' }}`. -/
example : Gives (runRules sampleConfig definitions quoteSample) (fun l =>
      l.map (fun x => (x.rule, x.severity)) ==
        [("html-string-quotation".toList, .help), ("html-string-quotation".toList, .help),
         ("twig-string-quotation".toList, .help)]) = true := by decide +kernel

theorem fileRules_defined (root : Tree) (active : List RuleName) :
    ∀ r ∈ fileRules root (rulesNamed active), r ∈ definitions :=
  fun _ hr => ((fileRules_sublist _ _).trans (rulesNamed_sublist _)).subset hr

section
variable (errLen : Text → Nat) (config : Config) (active : List RuleName)
  (sort : List (RuleName × Suggestion) → List (RuleName × Suggestion))

/-- The file at `p` is not clean: it cannot be read, processing it fails, or the text it has afterwards
has a syntax error or a finding of one of its rules. -/
def Unclean {Conf : Type} (sys : System Conf) (flags : Flags) (fs : FileSystem) (p : Path) : Prop :=
  fs.read p = none ∨ ∃ original, fs.read p = some original ∧
    let run := processFile (realEngine errLen config active sort) flags (sys.canWrite p) (some original)
    (run.outcome ≠ .ok ∨ ∃ before after results, parse errLen original = .ok before ∧
      parse errLen (contentAfter original run) = .ok after ∧
      runRules config (fileRules before.tree (rulesNamed active)) after.tree = .ok results ∧
      (after.errors ≠ [] ∨ results ≠ []))

theorem unclean_iff {Conf : Type} (sys : System Conf) (flags : Flags) (fs : FileSystem) (p : Path) :
    Problem sys (realEngine errLen config active sort) flags fs p ↔
      Unclean errLen config active sort sys flags fs p := by
  have hname : ∀ tree : Tree, (realEngine errLen config active sort).fileRules tree =
      (fileRules tree (rulesNamed active)).map (·.name) := fun _ => rfl
  unfold Problem Unclean
  refine or_congr Iff.rfl (exists_congr fun original => and_congr Iff.rfl (or_congr Iff.rfl ?_))
  constructor
  · rintro ⟨rules, errors, results, ⟨tree₀, n₀, hp₀, rfl⟩, ⟨tree, hp, hr⟩, hbad⟩
    obtain ⟨p₀, hq₀, rfl, _⟩ := (realEngine_parse ..).mp hp₀
    obtain ⟨p, hq, rfl, rfl⟩ := (realEngine_parse ..).mp hp
    rw [hname, realEngine_run, rulesNamed_names] at hr
    refine ⟨p₀, p, results, hq₀, hq, hr, ?_⟩
    rcases hbad with h | ⟨x, hx, _⟩
    · exact .inl (List.ne_nil_of_length_pos h)
    · exact .inr (List.ne_nil_of_mem hx)
  · rintro ⟨p₀, p, results, hq₀, hq, hr, hbad⟩
    refine ⟨_, p.errors.length, results, ⟨p₀.tree, _, (realEngine_parse ..).mpr ⟨p₀, hq₀, rfl, rfl⟩, rfl⟩,
      ⟨p.tree, (realEngine_parse ..).mpr ⟨p, hq, rfl, rfl⟩, ?_⟩, ?_⟩
    · rw [hname, realEngine_run, rulesNamed_names]; exact hr
    · rcases hbad with h | h
      · exact .inl (List.length_pos_iff.mpr h)
      · obtain ⟨x, hx⟩ := List.exists_mem_of_ne_nil _ h
        exact .inr ⟨x, hx, C82_no_info config _ (fileRules_defined _ _) _ _ hr x hx⟩

/-- C82: a run that processes at least one file and does not panic ends with status 0 exactly if the
walker had no error and all files are clean. -/
theorem C82_status_zero_is_clean {Conf : Type} (sys : System Conf) (flags : Flags) (fs : FileSystem)
    (acc : List Access) (items : List WalkItem) (hd : DistinctFiles items)
    (hf : ∃ p, .file p ∈ items)
    (hp : ∀ p, .file p ∈ items → (processFile (realEngine errLen config active sort) flags
      (sys.canWrite p) (fs.read p)).outcome ≠ .panic)
    (s : State) (hs : Steps sys (startState (realEngine errLen config active sort) flags fs acc items) s)
    (hfin : s.Final) :
    (s.exit = .status 0 ∨ s.exit = .status 1) ∧
    (s.exit = .status 0 ↔ .error ∉ items ∧
      ∀ p, .file p ∈ items → ¬ Unclean errLen config active sort sys flags fs p) := by
  obtain ⟨h1, h2⟩ := C26_program_partial sys (realEngine errLen config active sort) flags fs acc items
    hd hf hp s hs hfin
  refine ⟨h1, ?_⟩
  have h3 : s.exit = .status 0 ↔ ¬ s.exit = .status 1 := by
    rcases h1 with h | h <;> rw [h] <;> simp
  rw [h3, h2]
  simp only [unclean_iff, not_or, not_exists, not_and]

theorem read_some {fs : FileSystem} {p : Path} {t : Text} : fs.read p = some t ↔ fs p = .text t := by
  unfold FileSystem.read
  cases fs p <;> simp

/-- A file is written in a successful run only if it can be written. -/
theorem ok_written {Tree : Type} (E : Engine Tree) (flags : Flags) (writeOk : Bool) (t : Text)
    (hok : (processFile E flags writeOk (some t)).outcome = .ok)
    (hw : (processFile E flags writeOk (some t)).writes ≠ []) : writeOk = true := by
  generalize hR : processFile E flags writeOk (some t) = R at *
  simp only [processFile, runAnalysis] at hR
  split at hR
  · subst hR; simp at hok
  split at hR
  · subst hR; simp at hok
  split at hR
  · split at hR
    · subst hR; simp at hok
    · subst hR; simp at hok
    · rename_i dirty _ _ _
      split at hR
      · subst hR; simp at hok
      · rename_i hd
        subst hR
        cases dirty with
        | false => simp at hw
        | true => simpa using hd
  · subst hR; simp at hw

/-- C82 for the program: if a run ends with status 0 (and is not `--create-config`), a config was
loaded, and every file the walker found could be read and at the end has a text without syntax errors
in which none of the file's rules finds anything. Without `--fix` it is the text it had before. -/
theorem C82_program_status_zero {Conf : Type} (sys : System Conf) (toConfig : Conf → Config)
    (opts : Opts) (hc : opts.createConfig = false) (fs fs' : FileSystem)
    (hd : DistinctFiles (sys.walk fs opts.files)) (acc : List Access)
    (h : MainRun sys (fun conf active => realEngine errLen (toConfig conf) active sort) opts fs fs'
      (.status 0) acc) :
    ∃ c, sys.loadConfig fs opts.config = some c ∧
      ((∃ p, .file p ∈ sys.walk fs opts.files) → .error ∉ sys.walk fs opts.files) ∧
      ∀ p, .file p ∈ sys.walk fs opts.files → ∃ original text before after,
        fs p = .text original ∧ fs' p = .text text ∧ (opts.flags.fix = false → text = original) ∧
        parse errLen original = .ok before ∧ parse errLen text = .ok after ∧ after.errors = [] ∧
        runRules (toConfig c.rest) (fileRules before.tree (rulesNamed c.activeRules)) after.tree =
          .ok [] := by
  have hpath : opts.configPath.getD defaultConfigPath = opts.config := rfl
  have hload : ∀ fs₁ acc c, handleConfigOrExit sys opts fs = (fs₁, acc, .run c) →
      fs₁ = fs ∧ sys.loadConfig fs opts.config = some c := by
    intro fs₁ acc c h
    simp only [handleConfigOrExit, hc, Bool.false_eq_true, if_false, hpath] at h
    split at h <;> cases h
    rename_i hl
    exact ⟨rfl, hl⟩
  generalize he : Exit.status 0 = e at h
  cases h with
  | config _ _ _ h =>
    simp only [handleConfigOrExit, hc, Bool.false_eq_true, if_false, hpath] at h
    split at h <;> cases h
    cases he
  | unknownRule => cases he
  | noPath => cases he
  | badIgnore => cases he
  | process fs₁ acc₁ c active s h1 h2 h3 h4 h5 h6 =>
    obtain ⟨rfl, hl⟩ := hload _ _ _ h1
    have hact : rulesNamed active = rulesNamed c.activeRules := by
      obtain ⟨_, _, h3⟩ := C15_active_rules _ _ h2
      unfold rulesNamed
      refine List.filter_congr (fun r _ => ?_)
      rw [Bool.eq_iff_iff]
      simp [h3]
    obtain ⟨hfs, _, _, hpan, _⟩ := C27_every_schedule sys
      (realEngine errLen (toConfig c.rest) active sort) opts.flags _ _ _ hd s h5 h6
    have hnp : ∀ p, .file p ∈ sys.walk fs₁ opts.files →
        (processFile (realEngine errLen (toConfig c.rest) active sort) opts.flags (sys.canWrite p)
          (fs₁.read p)).outcome ≠ .panic := by
      intro p hp hq
      have := hpan.mpr ⟨p, hp, hq⟩
      rw [← he] at this
      cases this
    have hclean : ∀ p, .file p ∈ sys.walk fs₁ opts.files → .error ∉ sys.walk fs₁ opts.files ∧
        ¬ Unclean errLen (toConfig c.rest) active sort sys opts.flags fs₁ p := by
      intro p hp
      have := (C82_status_zero_is_clean errLen (toConfig c.rest) active sort sys opts.flags fs₁ _ _ hd
        ⟨p, hp⟩ hnp s h5 h6).2.mp he.symm
      exact ⟨this.1, this.2 p hp⟩
    refine ⟨c, hl, ?_, ?_⟩
    · rintro ⟨p, hp⟩
      exact (hclean p hp).1
    · intro p hp
      obtain ⟨_, hcl⟩ := hclean p hp
      unfold Unclean at hcl
      rw [not_or] at hcl
      obtain ⟨hr, hcl⟩ := hcl
      obtain ⟨original, hor⟩ := Option.ne_none_iff_exists'.mp hr
      have hnode := hfs p hp
      rw [hor] at hnode
      generalize hrun : processFile (realEngine errLen (toConfig c.rest) active sort) opts.flags
        (sys.canWrite p) (some original) = run at hnode
      have hok : run.outcome = .ok := by
        refine Decidable.byContradiction fun hne => hcl ⟨original, hor, .inl ?_⟩
        rw [hrun]; exact hne
      obtain ⟨final, rules, errors, results, ⟨tree₀, n₀, hp₀, rfl⟩, ⟨tree, hp', hr'⟩, hfix, hcon, _⟩ :=
        C43_every_problem_counted (realEngine errLen (toConfig c.rest) active sort) opts.flags
          (sys.canWrite p) original (by rw [hrun]; exact hok)
      obtain ⟨p₀, hq₀, rfl, _⟩ := (realEngine_parse ..).mp hp₀
      obtain ⟨p₁, hq, rfl, rfl⟩ := (realEngine_parse ..).mp hp'
      have hname : (realEngine errLen (toConfig c.rest) active sort).fileRules p₀.tree =
        (fileRules p₀.tree (rulesNamed active)).map (·.name) := rfl
      rw [hname, realEngine_run, rulesNamed_names] at hr'
      have hclean : p₁.errors = [] ∧ results = [] := by
        refine Decidable.byContradiction fun hne => hcl ⟨original, hor, .inr ⟨p₀, p₁, results, hq₀, ?_,
          hr', ?_⟩⟩
        · rw [hcon]; exact hq
        · by_cases he : p₁.errors = []
          · exact .inr fun hr => hne ⟨he, hr⟩
          · exact .inl he
      refine ⟨original, final, p₀, p₁, read_some.mp hor, ?_, hfix, hq₀, hq, hclean.1, ?_⟩
      · rw [hnode, ← hcon, hrun]
        unfold nodeAfter contentAfter
        cases hw : run.writes.getLast? with
        | none => rw [read_some.mp hor]; rfl
        | some t =>
          have hcan := ok_written _ _ _ _ (by rw [hrun]; exact hok)
            (fun hnil : (processFile _ _ _ _).writes = [] => by
              rw [hrun] at hnil; rw [hnil] at hw; cases hw)
          simp [hcan]
      · rw [← hact, ← hclean.2]; exact hr'

end

/-- A file system with one file, for the example. -/
def oneFile (t : Text) : FileSystem := fun p => if p = ['a'] then .text t else .absent

/-- The sample system with the rules of the default config. -/
def oneSystem : System Unit := { sampleSystem with loadConfig := fun _ _ => some ⟨defaultRules, ()⟩ }

/-- Fixing the file with the name `a`. -/
def oneOpts : Opts := ⟨[['a']], ⟨true, false⟩, none, false⟩

theorem oneFile_run (E : Unit → List RuleName → Engine Tree) (t t' : Text)
    (hrun : (processFile (E () ruleDefinitions) ⟨true, false⟩ true (some t)).outcome = .ok ∧
      (processFile (E () ruleDefinitions) ⟨true, false⟩ true (some t)).events =
        [.fileProcessed, .outputStderrMessage] ∧
      (processFile (E () ruleDefinitions) ⟨true, false⟩ true (some t)).writes = [t']) :
    ∃ fs' acc, MainRun oneSystem E oneOpts (oneFile t) fs' (.status 0) acc ∧ fs' ['a'] = .text t' := by
  have hw : oneSystem.walk (oneFile t) oneOpts.files = [.directory, .file ['a']] := rfl
  have hd : DistinctFiles [.directory, .file ['a']] := by simp [DistinctFiles, WalkItem.Has]
  have hread : (oneFile t).read ['a'] = some t := rfl
  have hcan : oneSystem.canWrite ['a'] = true := rfl
  obtain ⟨s, hs, hf⟩ := C55_end_reachable oneSystem (startState (E () ruleDefinitions) ⟨true, false⟩
    (oneFile t) [] [.directory, .file ['a']])
  obtain ⟨h1, _, _, h4, h5⟩ := C27_every_schedule oneSystem _ ⟨true, false⟩ (oneFile t) [] _ hd s hs hf
  have hexit : s.exit = .status 0 := by
    have hnp : s.exit ≠ .panic := by
      intro h
      obtain ⟨p, hp, hq⟩ := h4.mp h
      simp only [List.mem_cons, reduceCtorEq, false_or, WalkItem.file.injEq, List.not_mem_nil,
        or_false] at hp
      subst hp
      rw [hread, hcan, hrun.1] at hq
      cases hq
    rw [h5 hnp]
    simp only [List.flatMap_cons, List.flatMap_nil, List.append_nil, itemEvents, List.nil_append, hread,
      hcan, hrun.2.1]
    rfl
  refine ⟨s.fs, s.accesses, ?_, ?_⟩
  · rw [← hexit]
    exact (C16_known_rules_run oneSystem E oneOpts (oneFile t) rfl ⟨defaultRules, ()⟩ rfl (fun _ h => h)
      (by decide) rfl _ _ _).mpr ⟨ruleDefinitions, s, List.Sublist.refl _, fun _ => Iff.rfl,
        by rw [hw]; exact hs, hf, rfl, rfl, rfl⟩
  · rw [h1 ['a'] (by decide), hread, hcan]
    unfold nodeAfter
    rw [hrun.2.2]
    rfl

/-- The conditions of the theorems hold: with the default config and `--fix` the program changes
`{{ "a" }}` and ends with status 0. -/
example : DistinctFiles (oneSystem.walk (oneFile "{{ \"a\" }}".toList) oneOpts.files) ∧
    .file ['a'] ∈ oneSystem.walk (oneFile "{{ \"a\" }}".toList) oneOpts.files ∧
    ∃ fs' acc, MainRun oneSystem
      (fun _ active => realEngine (fun _ => 1) defaultConfig active insertionSort) oneOpts
      (oneFile "{{ \"a\" }}".toList) fs' (.status 0) acc ∧ fs' ['a'] = .text "{{ 'a' }}".toList :=
  ⟨by simp [DistinctFiles, oneSystem, sampleSystem, oneOpts, WalkItem.Has],
    by simp [oneSystem, sampleSystem, oneOpts],
    oneFile_run _ _ _ (by decide +kernel)⟩

end Ludtwig.Rules
