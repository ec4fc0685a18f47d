import Verif.Rules.Engine
import Verif.Rules.FixSamples
import Verif.Rules.RangeProps
import Verif.Cli.ProcessProps
import Verif.Parser.ParseProps

/-!
# Fixing a file with the parser and the rules: C22, C24, C53, C54

The theorems of Cli/ProcessProps hold for every parser and all rules. Here they are about the modelled
ones.
-/

namespace Ludtwig.Rules

open Cli Lexer

/-! ## The rules of a file -/

theorem rulesNamed_sublist (names : List RuleName) : (rulesNamed names).Sublist definitions :=
  List.filter_sublist

theorem fileRules_sublist (root : Tree) (rules : List Rule) : (fileRules root rules).Sublist rules := by
  unfold fileRules
  split
  · exact List.nil_sublist _
  · exact List.filter_sublist

/-- Filtering a list without repetitions by the names of a sublist gives the sublist. -/
theorem filter_names {l s : List Rule} (hs : s.Sublist l) (hn : (l.map (·.name)).Nodup) :
    l.filter (fun r => (s.map (·.name)).contains r.name) = s := by
  induction hs with
  | slnil => rfl
  | @cons s l a hs ih =>
    rw [List.map_cons, List.nodup_cons] at hn
    have ha : (s.map (·.name)).contains a.name = false := by
      rw [List.contains_eq_mem]
      exact decide_eq_false (fun h => hn.1 ((hs.map _).subset h))
    rw [List.filter_cons_of_neg (by rw [ha]; simp)]
    exact ih hn.2
  | @cons_cons s l a hs ih =>
    rw [List.map_cons, List.nodup_cons] at hn
    rw [List.filter_cons_of_pos (by simp)]
    congr 1
    have : ∀ r ∈ l, ((a :: s).map (·.name)).contains r.name = (s.map (·.name)).contains r.name := by
      intro r hr
      have hne : r.name ≠ a.name := fun h => hn.1 (h ▸ List.mem_map_of_mem hr)
      rw [Bool.eq_iff_iff]
      simp [hne]
    rw [List.filter_congr this, ih hn.2]

theorem rulesNamed_names (root : Tree) (active : List RuleName) :
    rulesNamed ((fileRules root (rulesNamed active)).map (·.name)) =
      fileRules root (rulesNamed active) :=
  filter_names ((fileRules_sublist _ _).trans (rulesNamed_sublist _)) definitions_distinct

section
variable (errLen : Text → Nat) (config : Config) (active : List RuleName)
  (sort : List (RuleName × Suggestion) → List (RuleName × Suggestion))

theorem realEngine_parse (text : Text) (tree : Tree) (n : Nat) :
    (realEngine errLen config active sort).parse text = some (tree, n) ↔
      ∃ p, parse errLen text = .ok p ∧ p.tree = tree ∧ p.errors.length = n := by
  unfold realEngine
  dsimp only
  cases h : parse errLen text with
  | error e => simp
  | ok p => simp

theorem realEngine_parse_none (text : Text) :
    (realEngine errLen config active sort).parse text = none ↔ ∃ e, parse errLen text = .error e := by
  unfold realEngine
  dsimp only
  cases h : parse errLen text with
  | error e => simp
  | ok p => simp

theorem realEngine_run (names : List RuleName) (root : Tree) (l : List CheckResult) :
    (realEngine errLen config active sort).runRules names root = some l ↔
      runRules config (rulesNamed names) root = .ok l := by
  unfold realEngine
  dsimp only
  cases h : runRules config (rulesNamed names) root with
  | error e => simp
  | ok p => simp

theorem realEngine_run_none (names : List RuleName) (root : Tree) :
    (realEngine errLen config active sort).runRules names root = none ↔
      ∃ e, runRules config (rulesNamed names) root = .error e := by
  unfold realEngine
  dsimp only
  cases h : runRules config (rulesNamed names) root with
  | error e => simp
  | ok p => simp

/-! ## C24 -/

/-- C24 for the rules of the program: after a successful run with `--fix` the file's content can be
parsed and checked, and none of the rules that applied to the file has a suggestion left. -/
theorem C24_fixed_file_has_no_suggestions (inspect : Bool) (original : Text)
    (hok : (runAnalysis (realEngine errLen config active sort) ⟨true, inspect⟩ true original).outcome = .ok) :
    let final := contentAfter original
      (runAnalysis (realEngine errLen config active sort) ⟨true, inspect⟩ true original)
    ∃ before after results, parse errLen original = .ok before ∧ parse errLen final = .ok after ∧
      runRules config (fileRules before.tree (rulesNamed active)) after.tree = .ok results ∧
      ∀ x ∈ results, x.suggestions = [] := by
  obtain ⟨rules, errors, results, ⟨tree₀, n₀, hp₀, rfl⟩, ⟨tree, hp, hr⟩, hs, _⟩ :=
    C24_successful_fix_is_complete (realEngine errLen config active sort) ⟨true, inspect⟩ original rfl hok
  obtain ⟨p₀, hq₀, rfl, _⟩ := (realEngine_parse ..).mp hp₀
  obtain ⟨p, hq, rfl, _⟩ := (realEngine_parse ..).mp hp
  have hr := (realEngine_run ..).mp hr
  refine ⟨p₀, p, results, hq₀, hq, ?_, fun x hx => ?_⟩
  · have : (realEngine errLen config active sort).fileRules p₀.tree =
        (fileRules p₀.tree (rulesNamed active)).map (·.name) := rfl
    rw [this, rulesNamed_names] at hr
    exact hr
  · unfold getRuleContextSuggestions at hs
    rw [List.flatMap_eq_nil_iff] at hs
    simpa using hs x hx

/-! ## C54: why fixing panics -/

/-- C54: processing a file panics only if, for one of the texts it looks at, the parser panics, a rule
panics, or two of the suggestions that are applied to it overlap or are out of order. -/
theorem C54_panic_reasons (he : ErrLenOk errLen) (hsort : ∀ l, (sort l).Perm l) (flags : Flags)
    (writeOk : Bool) (original : Text)
    (hpanic : (runAnalysis (realEngine errLen config active sort) flags writeOk original).outcome
      = .panic) :
    ∃ text ∈ (runAnalysis (realEngine errLen config active sort) flags writeOk original).parsed,
      (∃ e, parse errLen text = .error e) ∨
      ∃ p₀ p, parse errLen original = .ok p₀ ∧ parse errLen text = .ok p ∧
        ((∃ e, runRules config (fileRules p₀.tree (rulesNamed active)) p.tree = .error e) ∨
          ∃ results over,
            runRules config (fileRules p₀.tree (rulesNamed active)) p.tree = .ok results ∧
            overlappingRules (sort (getRuleContextSuggestions results)) = .ok over ∧
            ∃ a b, [a, b].Sublist
                (filterSuggestions over (sort (getRuleContextSuggestions results))) ∧
              b.range.start < a.range.stop) := by
  generalize hR : runAnalysis (realEngine errLen config active sort) flags writeOk original = R at *
  unfold runAnalysis at hR
  split at hR
  · rename_i hp
    subst hR
    exact ⟨original, by simp, .inl ((realEngine_parse_none ..).mp hp)⟩
  rename_i tree errors hp
  obtain ⟨p₀, hq₀, rfl, _⟩ := (realEngine_parse ..).mp hp
  dsimp only at hR
  have hnames : rulesNamed ((realEngine errLen config active sort).fileRules p₀.tree) =
      fileRules p₀.tree (rulesNamed active) := rulesNamed_names _ _
  split at hR
  · rename_i hr
    subst hR
    have hr := (realEngine_run_none ..).mp hr
    rw [hnames] at hr
    exact ⟨original, by simp, .inr ⟨p₀, p₀, hq₀, hq₀, .inl hr⟩⟩
  rename_i results hr
  split at hR
  · split at hR
    · rename_i parsed hloop
      subst hR
      unfold iterativelyApplySuggestions at hloop
      obtain ⟨text, ht, hh⟩ := fixLoop_panic _ _ 10 0 _ _ false ⟨hp, rfl, hr⟩ _ hloop
      refine ⟨text, ht, ?_⟩
      rcases hh with hh | ⟨tree, n, h1, hh⟩
      · exact .inl ((realEngine_parse_none ..).mp hh)
      · obtain ⟨p, hq, rfl, _⟩ := (realEngine_parse ..).mp h1
        refine .inr ⟨p₀, p, hq₀, hq, ?_⟩
        rcases hh with hh | ⟨l, over, h2, h3, h4⟩
        · have hh := (realEngine_run_none ..).mp hh
          rw [hnames] at hh
          exact .inl hh
        · have h2 := (realEngine_run ..).mp h2
          rw [hnames] at h2
          refine .inr ⟨l, over, h2, h3, ?_⟩
          have htext : p.tree.text = text := C01_root_text he text p hq
          refine Classical.byContradiction (fun hno => ?_)
          have hpair : (filterSuggestions over (sort (getRuleContextSuggestions l))).Pairwise
              (fun a b => a.range.stop ≤ b.range.start) := by
            rw [List.pairwise_iff_forall_sublist]
            intro a b hab
            refine Classical.byContradiction (fun hlt => hno ⟨a, b, hab, by omega⟩)
          obtain ⟨t, ht⟩ := C44_apply_succeeds config _ (fun r hr =>
            ((fileRules_sublist _ _).trans (rulesNamed_sublist _)).subset hr)
            p.tree l h2 _ (fun s hs => by
              unfold filterSuggestions at hs
              obtain ⟨x, hx, rfl⟩ := List.mem_map.mp hs
              have hx := (hsort _).mem_iff.mp (List.mem_filter.mp hx).1
              unfold getRuleContextSuggestions at hx
              obtain ⟨res, hres, hx⟩ := List.mem_flatMap.mp hx
              obtain ⟨sug, hsug, rfl⟩ := List.mem_map.mp hx
              exact ⟨res, hres, hsug⟩) hpair
          rw [htext] at ht
          have h4' : applySuggestionsToText
            (filterSuggestions over (sort (getRuleContextSuggestions l))) text = none := h4
          rw [h4'] at ht
          cases ht
    · subst hR; cases hpanic
    · split at hR <;> subst hR <;> cases hpanic
  · subst hR; cases hpanic

end

/-! ## C22: overlapping suggestions of the rules -/

/-- The engine with the default config and all rules; `sort_by` on at most twenty elements. -/
def sampleEngine : Engine Tree := realEngine (fun _ => 1) defaultConfig defaultRules insertionSort

theorem sampleEngine_parse {s : Text} {t : Tree} {n : Nat} (h : parsesWith s t n = true) :
    sampleEngine.parse s = some (t, n) :=
  (realEngine_parse ..).mpr (parse_of_parsesWith h)

/-- The text after one round of fixing. -/
def nextText (source : Text) (results : List CheckResult) : Option Text :=
  match overlappingRules (insertionSort (getRuleContextSuggestions results)) with
  | .ok over =>
    applySuggestionsToText (filterSuggestions over
      (insertionSort (getRuleContextSuggestions results))) source
  | .error _ => none

theorem nextText_some {source next : Text} {results : List CheckResult}
    (h : nextText source results = some next) : ∃ over,
    overlappingRules (insertionSort (getRuleContextSuggestions results)) = .ok over ∧
      applySuggestionsToText (filterSuggestions over
        (insertionSort (getRuleContextSuggestions results))) source = some next := by
  unfold nextText at h
  split at h
  · rename_i over ho
    exact ⟨over, ho, h⟩
  · cases h

theorem sampleEngine_run {t : Tree} {f : List CheckResult → Bool}
    (h : Gives (runRules defaultConfig definitions t) f = true) :
    ∃ l, sampleEngine.runRules ruleDefinitions t = some l ∧ f l = true := by
  have hd : rulesNamed ruleDefinitions = definitions := by
    unfold rulesNamed
    rw [List.filter_eq_self]
    decide +kernel
  unfold Gives at h
  split at h
  · rename_i l hl
    refine ⟨l, (realEngine_run ..).mpr ?_, h⟩
    rw [hd]
    exact hl
  · cases h

/-- Two rounds of fixing, as computations. -/
theorem two_rounds {t₁ t₂ t₃ : Text} {T₁ T₂ T₃ : Tree} {n₁ n₂ n₃ : Nat}
    (h₁ : parsesWith t₁ T₁ n₁ = true) (h₂ : parsesWith t₂ T₂ n₂ = true)
    (h₃ : parsesWith t₃ T₃ n₃ = true) (f : sampleEngine.fileRules T₁ = ruleDefinitions)
    (g₁ : Gives (runRules defaultConfig definitions T₁)
      (fun l => !(getRuleContextSuggestions l).isEmpty && nextText t₁ l == some t₂) = true)
    (g₂ : Gives (runRules defaultConfig definitions T₂)
      (fun l => !(getRuleContextSuggestions l).isEmpty && nextText t₂ l == some t₃) = true)
    (g₃ : Gives (runRules defaultConfig definitions T₃)
      (fun l => (getRuleContextSuggestions l).isEmpty) = true) :
    (runAnalysis sampleEngine ⟨true, false⟩ true t₁).outcome = .ok ∧
    (runAnalysis sampleEngine ⟨true, false⟩ true t₁).writes = [t₃] ∧
    (∃ p, parse (fun _ => 1) t₁ = .ok p ∧ p.errors.length = n₁) ∧
    ∃ p, parse (fun _ => 1) t₃ = .ok p ∧ p.errors.length = n₃ := by
  have p₁ := sampleEngine_parse h₁
  have p₂ := sampleEngine_parse h₂
  have p₃ := sampleEngine_parse h₃
  obtain ⟨l₁, r₁, c₁⟩ := sampleEngine_run g₁
  obtain ⟨l₂, r₂, c₂⟩ := sampleEngine_run g₂
  obtain ⟨l₃, r₃, c₃⟩ := sampleEngine_run g₃
  simp only [Bool.and_eq_true, Bool.not_eq_true', List.isEmpty_eq_false_iff, beq_iff_eq,
    List.isEmpty_iff] at c₁ c₂ c₃
  obtain ⟨o₁, a₁, b₁⟩ := nextText_some c₁.2
  obtain ⟨o₂, a₂, b₂⟩ := nextText_some c₂.2
  have hr : runAnalysis sampleEngine ⟨true, false⟩ true t₁ =
      { writes := [t₃]
        events := produceDiagnostics false n₃ l₃ ++ [.outputStderrMessage]
        outcome := .ok, parsed := [t₁, t₂, t₃] } := by
    unfold runAnalysis
    rw [p₁]
    dsimp only
    rw [f, r₁]
    dsimp only
    unfold iterativelyApplySuggestions
    rw [fixLoop_next sampleEngine 9 0 ⟨T₁, t₁, n₁, ruleDefinitions⟩ l₁ false o₁ t₂ T₂ n₂ l₂ c₁.1 a₁ b₁ p₂ r₂,
      fixLoop_next sampleEngine 8 _ ⟨T₂, t₂, n₂, ruleDefinitions⟩ l₂ true o₂ t₃ T₃ n₃ l₃ c₂.1 a₂ b₂ p₃ r₃,
      fixLoop_nothing sampleEngine 7 _ _ l₃ true c₃]
    simp
  rw [hr]
  obtain ⟨q₁, hq₁, _, he₁⟩ := (realEngine_parse ..).mp p₁
  obtain ⟨q₃, hq₃, _, he₃⟩ := (realEngine_parse ..).mp p₃
  exact ⟨rfl, rfl, ⟨q₁, hq₁, he₁⟩, ⟨q₃, hq₃, he₃⟩⟩

/-- C22, counterexample in the program: `{{ a === ["b", x && y] }}` has no parse error; fixing it with
the default config applies the overlapping suggestions for `===` and for `&&` in one round, and
succeeds with a file that has one bracket too many and a parse error. -/
theorem C22_fix_breaks_file :
    (runAnalysis sampleEngine ⟨true, false⟩ true "{{ a === [\"b\", x && y] }}".toList).outcome = .ok ∧
    (runAnalysis sampleEngine ⟨true, false⟩ true "{{ a === [\"b\", x && y] }}".toList).writes =
      ["{{ a is same as(['b', x and y])] }}".toList] ∧
    (∃ p, parse (fun _ => 1) "{{ a === [\"b\", x && y] }}".toList = .ok p ∧ p.errors.length = 0) ∧
    ∃ p, parse (fun _ => 1) "{{ a is same as(['b', x and y])] }}".toList = .ok p ∧
      p.errors.length = 1 :=
  two_rounds joinSample_parsed joinSample₂_parsed joinSample₃_parsed (by decide +kernel)
    (by decide +kernel) (by decide +kernel) (by decide +kernel)

/-- A panic in the first round of fixing, as a computation. -/
theorem panic_round {t₁ : Text} {T₁ : Tree} {n₁ : Nat} (h₁ : parsesWith t₁ T₁ n₁ = true)
    (f : sampleEngine.fileRules T₁ = ruleDefinitions)
    (g₁ : Gives (runRules defaultConfig definitions T₁)
      (fun l => !(getRuleContextSuggestions l).isEmpty &&
        Gives (overlappingRules (insertionSort (getRuleContextSuggestions l))) (fun _ => true) &&
        nextText t₁ l == none) = true) :
    (runAnalysis sampleEngine ⟨true, false⟩ true t₁).outcome = .panic ∧
    ∃ p, parse (fun _ => 1) t₁ = .ok p ∧ p.errors.length = n₁ := by
  have p₁ := sampleEngine_parse h₁
  obtain ⟨l₁, r₁, c₁⟩ := sampleEngine_run g₁
  simp only [Bool.and_eq_true, Bool.not_eq_true', List.isEmpty_eq_false_iff, beq_iff_eq] at c₁
  obtain ⟨⟨c₁, c₂⟩, c₃⟩ := c₁
  obtain ⟨q₁, hq₁, _, he₁⟩ := (realEngine_parse ..).mp p₁
  refine ⟨?_, q₁, hq₁, he₁⟩
  unfold runAnalysis
  rw [p₁]
  dsimp only
  rw [f, r₁]
  dsimp only
  unfold iterativelyApplySuggestions
  rw [fixLoop]
  simp only
  have hs : sampleEngine.sort = insertionSort := rfl
  rw [hs]
  unfold nextText at c₃
  unfold Gives at c₂
  split at c₂
  · rename_i over ho
    rw [ho] at c₃ ⊢
    dsimp only at c₃ ⊢
    rw [c₃]
    simp [c₁]
  · cases c₂

/-- C22, counterexample in the program: for `{{ a === ["b", {"k": 1, "l": 2}]}}`, which has no parse
error, fixing with the default config panics, because after the quotes of the keys are removed the
overlapping range of the comparison ends behind the end of the text. -/
theorem C22_fix_panics :
    (runAnalysis sampleEngine ⟨true, false⟩ true "{{ a === [\"b\", {\"k\": 1, \"l\": 2}]}}".toList).outcome
      = .panic ∧
    ∃ p, parse (fun _ => 1) "{{ a === [\"b\", {\"k\": 1, \"l\": 2}]}}".toList = .ok p ∧
      p.errors.length = 0 :=
  panic_round hashSample_parsed (by decide +kernel) (by decide +kernel)

/-- The condition of `C24_fixed_file_has_no_suggestions` holds for the first text. -/
example : (runAnalysis (realEngine (fun _ => 1) defaultConfig defaultRules insertionSort) ⟨true, false⟩
    true "{{ a === [\"b\", x && y] }}".toList).outcome = .ok :=
  C22_fix_breaks_file.1

/-- The condition of `C54_panic_reasons` holds for the second text. -/
example : (runAnalysis (realEngine (fun _ => 1) defaultConfig defaultRules insertionSort) ⟨true, false⟩
    true "{{ a === [\"b\", {\"k\": 1, \"l\": 2}]}}".toList).outcome = .panic :=
  C22_fix_panics.1

end Ludtwig.Rules
