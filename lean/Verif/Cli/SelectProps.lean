import Verif.Cli.Select

/-! # Rule selection: properties C15, C16 (and the directive-list core of C17) -/

namespace Ludtwig.Cli

/-- The definition table has no duplicate names (so a rule is identified by its name). -/
theorem ruleDefinitions_nodup : ruleDefinitions.Nodup := by decide

theorem firstUnknown_none_iff (active config : List RuleName) :
    firstUnknown active config = none ↔ ∀ r ∈ config, r ∈ active := by
  induction config with
  | nil => simp [firstUnknown]
  | cons r rs ih =>
    simp only [firstUnknown]
    by_cases h : r ∈ active
    · have : active.any (fun a => a == r) = true := by simpa using h
      simp [this, ih, h]
    · have : active.any (fun a => a == r) = false := by
        simp; intro x hx hxr; exact h (hxr ▸ hx)
      simp [this, h]

theorem firstUnknown_some_iff (active config : List RuleName) (n : RuleName) :
    firstUnknown active config = some n ↔
      ∃ pre post, config = pre ++ n :: post ∧ n ∉ active ∧ ∀ r ∈ pre, r ∈ active := by
  induction config with
  | nil => simp [firstUnknown]
  | cons r rs ih =>
    simp only [firstUnknown]
    by_cases h : r ∈ active
    · have : active.any (fun a => a == r) = true := by simpa using h
      simp only [this, Bool.not_true, Bool.false_eq_true, if_false, ih]
      constructor
      · rintro ⟨pre, post, rfl, h1, h2⟩
        exact ⟨r :: pre, post, rfl, h1, by simpa [h] using h2⟩
      · rintro ⟨pre, post, h0, h1, h2⟩
        cases pre with
        | nil => simp at h0; exact absurd h (h0.1 ▸ h1)
        | cons p ps =>
          simp at h0
          exact ⟨ps, post, h0.2, h1, fun x hx => h2 x (by simp [hx])⟩
    · have : active.any (fun a => a == r) = false := by
        simp; intro x hx hxr; exact h (hxr ▸ hx)
      simp only [this, Bool.not_false, if_true, Option.some.injEq]
      constructor
      · rintro rfl; exact ⟨[], rs, rfl, h, by simp⟩
      · rintro ⟨pre, post, h0, h1, h2⟩
        cases pre with
        | nil => simp at h0; exact h0.1
        | cons p ps => simp at h0; exact absurd (h2 p (by simp)) (h0.1 ▸ h)

/-- C15: when selection succeeds, the active rules are a sublist of the definition table (definition
order), each at most once, and contain exactly the names listed in the config. -/
theorem C15_active_rules (config active : List RuleName)
    (h : configActive ruleDefinitions config = .ok active) :
    active.Sublist ruleDefinitions ∧ active.Nodup ∧ ∀ r, r ∈ active ↔ r ∈ config := by
  unfold configActive at h
  simp only at h
  split at h
  · cases h
  · rename_i hn
    cases h
    rw [firstUnknown_none_iff] at hn
    refine ⟨List.filter_sublist, ruleDefinitions_nodup.filter _, fun r => ⟨?_, hn r⟩⟩
    intro hr
    simpa using (List.mem_filter.1 hr).2

example : configActive ruleDefinitions ["indentation".toList, "line-ending".toList, "indentation".toList]
    = .ok ["line-ending".toList, "indentation".toList] := by rfl

/-- C15: order and repetition in the config are irrelevant. -/
theorem C15_order_irrelevant (config config' active : List RuleName)
    (hsame : ∀ r, r ∈ config ↔ r ∈ config')
    (h : configActive ruleDefinitions config = .ok active) :
    configActive ruleDefinitions config' = .ok active := by
  unfold configActive at h ⊢
  simp only at h ⊢
  have hf : ruleDefinitions.filter (fun r => config.contains r) =
      ruleDefinitions.filter (fun r => config'.contains r) := by
    apply List.filter_congr
    intro x _
    simp [hsame]
  split at h
  · cases h
  · rename_i hn
    cases h
    rw [firstUnknown_none_iff] at hn
    rw [← hf]
    have : firstUnknown (ruleDefinitions.filter (fun r => config.contains r)) config' = none := by
      rw [firstUnknown_none_iff]; intro r hr; exact hn r ((hsame r).2 hr)
    rw [this]

/-- C16: selection fails with name `n` exactly if `n` is the first name in the config that is not
in the definition table. -/
theorem C16_unknown_rule (config : List RuleName) (n : RuleName) :
    configActive ruleDefinitions config = .error (.ruleNotFound n) ↔
      ∃ pre post, config = pre ++ n :: post ∧ n ∉ ruleDefinitions ∧
        ∀ r ∈ pre, r ∈ ruleDefinitions := by
  unfold configActive
  simp only
  have key : ∀ r ∈ config, r ∈ ruleDefinitions.filter (fun r => config.contains r) ↔
      r ∈ ruleDefinitions := by
    intro r hr
    rw [List.mem_filter]
    simp [hr]
  have : firstUnknown (ruleDefinitions.filter (fun r => config.contains r)) config = some n ↔
      ∃ pre post, config = pre ++ n :: post ∧ n ∉ ruleDefinitions ∧
        ∀ r ∈ pre, r ∈ ruleDefinitions := by
    rw [firstUnknown_some_iff]
    constructor
    · rintro ⟨pre, post, h0, h1, h2⟩
      refine ⟨pre, post, h0, ?_, ?_⟩
      · rwa [key n (by simp [h0])] at h1
      · intro r hr; exact (key r (by simp [h0, hr])).1 (h2 r hr)
    · rintro ⟨pre, post, h0, h1, h2⟩
      refine ⟨pre, post, h0, ?_, ?_⟩
      · rwa [key n (by simp [h0])]
      · intro r hr; exact (key r (by simp [h0, hr])).2 (h2 r hr)
  rw [← this]
  split
  · rename_i m hm; rw [hm]; simp
  · rename_i hm; rw [hm]; simp

/-- C16: with only known names selection succeeds. -/
theorem C16_known_rules_ok (config : List RuleName) (h : ∀ r ∈ config, r ∈ ruleDefinitions) :
    ∃ active, configActive ruleDefinitions config = .ok active := by
  cases hc : configActive ruleDefinitions config with
  | ok a => exact ⟨a, rfl⟩
  | error e =>
    cases e with
    | ruleNotFound n =>
      rw [C16_unknown_rule] at hc
      obtain ⟨pre, post, h0, h1, _⟩ := hc
      exact absurd (h n (by simp [h0])) h1

example : ∀ r ∈ ["line-ending".toList], r ∈ ruleDefinitions := by decide

theorem collectDisabled_spec (ds : List (List RuleName)) (acc : List RuleName) :
    collectDisabled ds acc = if [] ∈ ds then none else some (acc ++ ds.flatten) := by
  induction ds generalizing acc with
  | nil => simp [collectDisabled]
  | cons d ds ih =>
    cases d with
    | nil => simp [collectDisabled]
    | cons r rs => simp [collectDisabled, ih]

/-- C17, on the list of top-level directives: nothing runs if some directive is blanket; otherwise
exactly the active rules not named by any directive run, in the same order. -/
theorem C17_file_active (directives : List (List RuleName)) (definitions : List RuleName) :
    ([] ∈ directives → fileActive directives definitions = []) ∧
    ([] ∉ directives → (fileActive directives definitions).Sublist definitions ∧
      (∀ r, (fileActive directives definitions).count r =
        if (∃ d ∈ directives, r ∈ d) then 0 else definitions.count r)) := by
  unfold fileActive
  rw [collectDisabled_spec]
  constructor
  · intro h; simp [h]
  · intro h
    simp only [h, if_false, List.nil_append]
    refine ⟨List.filter_sublist, fun r => ?_⟩
    split
    · rename_i hd
      obtain ⟨d, h1, h2⟩ := hd
      rw [List.count_eq_zero]
      intro hr
      have := (List.mem_filter.1 hr).2
      simp at this
      exact this d h1 h2
    · rename_i hd
      rw [List.count_filter]
      simp
      intro d h1 h2
      exact hd ⟨d, h1, h2⟩

end Ludtwig.Cli
