import Verif.Rules.StampLemmas

/-!
# The severity of a finding

Lemmas for C82: all findings of a rule have the same severity and a primary label.
-/

namespace Ludtwig.Rules

open Cli

/-- Specification: the severity with which a rule reports, by the name of the rule. -/
def severities : List (String × Severity) :=
  [("ludtwig-ignore-file-not-on-top", .error),
   ("twig-logic-and", .error),
   ("twig-logic-or", .error),
   ("twig-use-is-same-as", .error),
   ("twig-use-is-not-same-as", .error),
   ("twig-block-duplicate", .error),
   ("line-ending", .warning),
   ("twig-prefer-shopware-extends", .warning),
   ("twig-json-encode-escape-js", .warning),
   ("html-duplicate-id", .warning),
   ("twig-valid-filter", .warning),
   ("twig-valid-test", .warning),
   ("twig-valid-function", .warning),
   ("whitespace-between-line-breaks", .help),
   ("indentation", .help),
   ("twig-block-line-breaks", .help),
   ("twig-block-name-snake-case", .help),
   ("html-attribute-name-kebab-case", .help),
   ("twig-string-quotation", .help),
   ("html-string-quotation", .help),
   ("twig-hash-key-no-quotes", .help),
   ("twig-variable-definition-naming", .help)]

/-- Specification: the severity of the rule with this name. -/
def severityOf (name : RuleName) : Option Severity :=
  (severities.find? (fun x => x.1.toList == name)).map (·.2)

/-- The part of a finding that does not depend on the place: the rule, the severity and whether there
is a primary label. -/
def stampOf (x : CheckResult) : RuleName × Severity × Bool := (x.rule, x.severity, x.primary.isSome)

/-- The finding has this name and severity and a primary label. -/
abbrev Stamped (name : RuleName) (sev : Severity) (x : CheckResult) : Prop :=
  stampOf x = (name, sev, true)

/-- The findings of a rule are stamped with its name and one severity. -/
def Marks (r : Rule) (sev : Severity) : Prop :=
  (∀ ctx e, AllR (Stamped r.name sev) (r.checkNode ctx e)) ∧
  (∀ ctx e, AllR (Stamped r.name sev) (r.checkToken ctx e)) ∧
  (∀ ctx e l, r.checkRoot ctx e = .ok l → AllR (Stamped r.name sev) l)

theorem suggest_stamp (r : CheckResult) (range : TextRange) (t : Text) :
    stampOf (suggest r range t) = stampOf r := rfl

theorem suggestName_stamp (r : CheckResult) (range : TextRange) (t : Option Text) :
    stampOf (suggestName r range t) = stampOf r := by cases t <;> rfl

theorem changedQuotes_stamp (string : Elem) (inner : Option Elem) (q : Char) (r : CheckResult) :
    stampOf (changedQuotes string inner q r) = stampOf r := by
  unfold changedQuotes
  split
  · rfl
  · split <;> rfl

/-- Closes goals about the findings of a check by cases. -/
macro "marks" : tactic => `(tactic| (
  repeat' first
    | with_reducible exact AllR.nil
    | ((with_reducible refine AllR.one ?_); first
        | ((with_reducible refine Eq.trans (suggestName_stamp _ _ _) ?_); rfl)
        | ((with_reducible refine Eq.trans (changedQuotes_stamp _ _ _ _) ?_); rfl)
        | rfl)
    | with_reducible refine AllR.append ?_ ?_
    | (split)))

theorem marks_node {r : Rule} {sev : Severity} (hn : ∀ ctx e, AllR (Stamped r.name sev) (r.checkNode ctx e))
    (ht : r.checkToken = fun _ _ => []) (hr : r.checkRoot = fun _ _ => .ok []) : Marks r sev :=
  ⟨hn, fun _ _ => by rw [ht]; exact .nil, fun _ _ _ h => by rw [hr] at h; exact noRoot h⟩

theorem marks_token {r : Rule} {sev : Severity} (hn : r.checkNode = fun _ _ => [])
    (ht : ∀ ctx e, AllR (Stamped r.name sev) (r.checkToken ctx e))
    (hr : r.checkRoot = fun _ _ => .ok []) : Marks r sev :=
  ⟨fun _ _ => by rw [hn]; exact .nil, ht, fun _ _ _ h => by rw [hr] at h; exact noRoot h⟩

theorem marks_root {r : Rule} {sev : Severity} (hn : r.checkNode = fun _ _ => []) (ht : r.checkToken = fun _ _ => [])
    (hr : ∀ ctx e l, r.checkRoot ctx e = .ok l → AllR (Stamped r.name sev) l) : Marks r sev :=
  ⟨fun _ _ => by rw [hn]; exact .nil, fun _ _ => by rw [ht]; exact .nil, hr⟩

theorem marks_ignoreFileNotOnTop : Marks ignoreFileNotOnTop .error :=
  marks_node (fun ctx e => by unfold ignoreFileNotOnTop; dsimp only; marks) rfl rfl

theorem marks_whitespaceBetweenLineBreaks : Marks whitespaceBetweenLineBreaks .help :=
  marks_token rfl (fun ctx e => by unfold whitespaceBetweenLineBreaks; dsimp only; marks) rfl

theorem marks_lineEnding : Marks lineEnding .warning :=
  marks_token rfl (fun ctx e => by
    unfold lineEnding; dsimp only
    split
    · exact .nil
    · intro x hx
      obtain ⟨_, _, rfl⟩ := List.mem_map.mp hx
      rfl) rfl

theorem firstTokenInLine_stamp (config : Config) (e : Elem) (l n : Nat) :
    AllR (Stamped "indentation".toList .help) (firstTokenInLine config e l n) := by
  unfold firstTokenInLine
  marks

theorem marks_indentation : Marks indentation .help :=
  marks_root rfl rfl (fun ctx e l h => by
    unfold indentation at h; dsimp only at h
    split at h
    · simp at h
    · rename_i s hs
      cases h
      refine walk_inv _ (fun s => AllR (Stamped "indentation".toList .help) s.results) _ _ _ ?_
        .nil hs
      intro x _ s hs
      refine ⟨?_, ?_⟩
      · intro s' b h
        unfold indentEnter at h; dsimp only at h
        split at h
        · split at h
          · cases h; exact hs
          · split at h <;> (cases h; exact hs)
        · split at h
          · cases h; exact hs
          · split at h
            · cases h
              refine AllR.append hs ?_
              split
              · exact firstTokenInLine_stamp _ _ _ _
              · exact .nil
            · cases h; exact hs
      · intro s' h
        unfold indentLeave at h; dsimp only at h
        split at h
        · split at h
          · simp at h
          · cases h; exact hs
        · cases h; exact hs)

theorem checkLineBreaks_stamp (lb : Text) (t : Elem) (n : Nat) :
    AllR (Stamped "twig-block-line-breaks".toList .help) (checkLineBreaks lb t n) := by
  unfold checkLineBreaks; dsimp only
  marks

theorem marks_twigBlockLineBreaks : Marks twigBlockLineBreaks .help :=
  marks_node (fun ctx e => by
    unfold twigBlockLineBreaks; dsimp only
    split
    · exact .nil
    · split
      · exact .nil
      · unfold checkBlockLineBreaks; dsimp only
        repeat' first
          | with_reducible exact AllR.nil
          | exact checkLineBreaks_stamp _ _ _
          | with_reducible refine AllR.append ?_ ?_
          | split) rfl rfl

theorem marks_twigBlockNameSnakeCase : Marks twigBlockNameSnakeCase .help :=
  marks_node (fun ctx e => by unfold twigBlockNameSnakeCase; dsimp only; marks) rfl rfl

theorem duplicateStep_stamp (name : RuleName) (sev : Severity) (key : Text) (range : TextRange)
    (s : DuplicateState) (h : AllR (Stamped name sev) s.results) :
    AllR (Stamped name sev) (duplicateStep name sev key range s).results := by
  unfold duplicateStep
  split
  · exact .append h (.one rfl)
  · exact h

theorem marks_twigBlockDuplicate : Marks twigBlockDuplicate .error :=
  marks_root rfl rfl (fun ctx e l h => by
    unfold twigBlockDuplicate at h; dsimp only at h
    split at h
    · simp at h
    · rename_i s hs
      cases h
      refine walkNodes_inv _
        (fun s => AllR (Stamped "twig-block-duplicate".toList .error) s.results) _ _ _ ?_ .nil hs
      intro x _ s hs
      refine ⟨?_, ?_⟩
      · intro s' b h
        unfold blockDuplicateEnter at h; dsimp only at h
        split at h
        · cases h; exact hs
        · split at h
          · cases h; exact hs
          · split at h
            · cases h; exact hs
            · cases h; exact duplicateStep_stamp _ _ _ _ _ hs
      · intro s' h
        cases h; exact hs)

theorem marks_htmlDuplicateId : Marks htmlDuplicateId .warning :=
  marks_root rfl rfl (fun ctx e l h => by
    unfold htmlDuplicateId at h; dsimp only at h
    split at h
    · simp at h
    · rename_i s hs
      cases h
      refine walkNodes_inv _
        (fun s => AllR (Stamped "html-duplicate-id".toList .warning) s.results) _ _ _ ?_ .nil hs
      intro x _ s hs
      refine ⟨?_, ?_⟩
      · intro s' b h
        unfold idDuplicateEnter at h; dsimp only at h
        split at h
        · cases h; exact hs
        · split at h
          · cases h; exact hs
          · split at h
            · cases h; exact hs
            · split at h
              · cases h; exact hs
              · cases h; exact duplicateStep_stamp _ _ _ _ _ hs
      · intro s' h
        cases h; exact hs)

theorem marks_htmlAttributeNameKebabCase : Marks htmlAttributeNameKebabCase .help :=
  marks_node (fun ctx e => by unfold htmlAttributeNameKebabCase; dsimp only; marks) rfl rfl

theorem marks_twigLogicAnd : Marks twigLogicAnd .error :=
  marks_node (fun ctx e => by unfold twigLogicAnd; dsimp only; marks) rfl rfl

theorem marks_twigLogicOr : Marks twigLogicOr .error :=
  marks_node (fun ctx e => by unfold twigLogicOr; dsimp only; marks) rfl rfl

theorem marks_twigStringQuotation : Marks twigStringQuotation .help :=
  marks_node (fun ctx e => by unfold twigStringQuotation checkQuotes; dsimp only; marks) rfl rfl

theorem marks_htmlStringQuotation : Marks htmlStringQuotation .help :=
  marks_node (fun ctx e => by unfold htmlStringQuotation; dsimp only; unfold checkQuotes; marks) rfl rfl

theorem marks_twigHashKeyNoQuotes : Marks twigHashKeyNoQuotes .help :=
  marks_node (fun ctx e => by unfold twigHashKeyNoQuotes; dsimp only; marks) rfl rfl

theorem marks_twigPreferShopwareExtends : Marks twigPreferShopwareExtends .warning :=
  marks_node (fun ctx e => by unfold twigPreferShopwareExtends; dsimp only; marks) rfl rfl

theorem marks_twigUseIsSameAs : Marks twigUseIsSameAs .error :=
  marks_node (fun ctx e => by unfold twigUseIsSameAs; dsimp only; unfold checkSameAs; marks) rfl rfl

theorem marks_twigUseIsNotSameAs : Marks twigUseIsNotSameAs .error :=
  marks_node (fun ctx e => by unfold twigUseIsNotSameAs; dsimp only; unfold checkSameAs; marks) rfl rfl

theorem marks_twigJsonEncodeEscapeJs : Marks twigJsonEncodeEscapeJs .warning :=
  marks_node (fun ctx e => by unfold twigJsonEncodeEscapeJs; dsimp only; marks) rfl rfl

theorem marks_twigValidFilter : Marks twigValidFilter .warning :=
  marks_node (fun ctx e => by unfold twigValidFilter; dsimp only; unfold checkKnown; marks) rfl rfl

theorem marks_twigValidTest : Marks twigValidTest .warning :=
  marks_node (fun ctx e => by unfold twigValidTest; dsimp only; unfold checkKnown; marks) rfl rfl

theorem marks_twigValidFunction : Marks twigValidFunction .warning :=
  marks_node (fun ctx e => by unfold twigValidFunction; dsimp only; unfold checkKnown; marks) rfl rfl

theorem checkLiteralNames_stamp (e : Elem) (b : Bool) :
    AllR (Stamped "twig-variable-definition-naming".toList .help) (checkLiteralNames e b) := by
  intro x hx
  simp only [checkLiteralNames, List.mem_flatMap] at hx
  obtain ⟨n, _, hn⟩ := hx
  revert x
  show AllR _ _
  marks

theorem marks_twigVariableDefinitionNaming : Marks twigVariableDefinitionNaming .help :=
  marks_node (fun ctx e => by
    unfold twigVariableDefinitionNaming; dsimp only
    repeat' first
      | with_reducible exact AllR.nil
      | exact checkLiteralNames_stamp _ _
      | split) rfl rfl

/-- The findings of all rules are stamped as the table says. -/
theorem definitions_mark : ∀ r ∈ definitions, ∃ sev, severityOf r.name = some sev ∧ Marks r sev := by
  simp only [definitions, List.mem_cons, List.not_mem_nil, or_false, forall_eq_or_imp, forall_eq]
  exact ⟨⟨_, rfl, marks_ignoreFileNotOnTop⟩,
    ⟨_, rfl, marks_whitespaceBetweenLineBreaks⟩,
    ⟨_, rfl, marks_lineEnding⟩,
    ⟨_, rfl, marks_indentation⟩,
    ⟨_, rfl, marks_twigBlockLineBreaks⟩,
    ⟨_, rfl, marks_twigBlockNameSnakeCase⟩,
    ⟨_, rfl, marks_htmlAttributeNameKebabCase⟩,
    ⟨_, rfl, marks_twigLogicAnd⟩,
    ⟨_, rfl, marks_twigLogicOr⟩,
    ⟨_, rfl, marks_twigStringQuotation⟩,
    ⟨_, rfl, marks_htmlStringQuotation⟩,
    ⟨_, rfl, marks_twigHashKeyNoQuotes⟩,
    ⟨_, rfl, marks_twigPreferShopwareExtends⟩,
    ⟨_, rfl, marks_twigUseIsSameAs⟩,
    ⟨_, rfl, marks_twigUseIsNotSameAs⟩,
    ⟨_, rfl, marks_twigBlockDuplicate⟩,
    ⟨_, rfl, marks_twigJsonEncodeEscapeJs⟩,
    ⟨_, rfl, marks_htmlDuplicateId⟩,
    ⟨_, rfl, marks_twigVariableDefinitionNaming⟩,
    ⟨_, rfl, marks_twigValidFilter⟩,
    ⟨_, rfl, marks_twigValidTest⟩,
    ⟨_, rfl, marks_twigValidFunction⟩⟩

end Ludtwig.Rules
