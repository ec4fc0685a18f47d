import Verif.Rules.Definitions
import Verif.Rules.RunLemmas

/-!
# Every rule signs its findings

Lemmas: the findings of a rule carry the name of the rule.
-/

namespace Ludtwig

mutual
/-- What every event of a traversal keeps holds after the traversal. -/
theorem walkTree_inv {ε σ : Type} (V : Visitor ε σ) (I : σ → Prop) :
    ∀ (t : Tree) (pos : Nat) (path : List Frame) (s s' : σ),
      (∀ e ∈ elemsAt t pos path, ∀ s, I s → (∀ s' b, V.enter e s = .ok (s', b) → I s') ∧
        (∀ s', V.leave e s = .ok s' → I s')) →
      I s → walkTree V t pos path s = .ok s' → I s'
  | .token k t, pos, path, s, s', hV, hI, h => by
    have hE := hV _ (by simp only [elemsAt]; exact List.mem_cons_self)
    simp only [walkTree] at h
    split at h
    · simp at h
    · rename_i s₁ b he
      exact (hE s₁ ((hE s hI).1 _ _ he)).2 _ h
  | .node k cs, pos, path, s, s', hV, hI, h => by
    have hE := hV _ (by simp only [elemsAt]; exact List.mem_cons_self)
    simp only [walkTree] at h
    split at h
    · simp at h
    · rename_i s₁ b he
      have hI₁ := (hE s hI).1 _ _ he
      split at h
      · simp at h
      · rename_i s₂ hw
        refine (hE s₂ ?_).2 _ h
        cases b with
        | true => simp at hw; subst hw; exact hI₁
        | false =>
          simp only [Bool.false_eq_true, if_false] at hw
          exact walkTrees_inv V I cs k pos [] pos path s₁ s₂
            (fun e he => hV e (by simp only [elemsAt]; exact List.mem_cons_of_mem _ he)) hI₁ hw
theorem walkTrees_inv {ε σ : Type} (V : Visitor ε σ) (I : σ → Prop) :
    ∀ (ts : List Tree) (k : SyntaxKind) (start : Nat) (before : List Tree) (pos : Nat)
      (path : List Frame) (s s' : σ),
      (∀ e ∈ elemsIn ts k start before pos path, ∀ s, I s →
        (∀ s' b, V.enter e s = .ok (s', b) → I s') ∧ (∀ s', V.leave e s = .ok s' → I s')) →
      I s → walkTrees V ts k start before pos path s = .ok s' → I s'
  | [], _, _, _, _, _, s, s', _, hI, h => by simp [walkTrees] at h; subst h; exact hI
  | t :: ts, k, start, before, pos, path, s, s', hV, hI, h => by
    simp only [walkTrees] at h
    split at h
    · simp at h
    · rename_i s₁ he
      have hI₁ := walkTree_inv V I t pos _ s s₁
        (fun e he => hV e (by simp only [elemsIn]; exact List.mem_append_left _ he)) hI he
      exact walkTrees_inv V I ts k start _ _ path s₁ s'
        (fun e he => hV e (by simp only [elemsIn]; exact List.mem_append_right _ he)) hI₁ h
end

theorem walk_inv {ε σ : Type} (V : Visitor ε σ) (I : σ → Prop) (e : Elem) (s s' : σ)
    (hV : ∀ x ∈ e.descendants, ∀ s, I s → (∀ s' b, V.enter x s = .ok (s', b) → I s') ∧
        (∀ s', V.leave x s = .ok s' → I s'))
    (hI : I s) (h : e.walk V s = .ok s') : I s' :=
  walkTree_inv V I e.tree e.start e.path s s' hV hI h

theorem walkNodes_inv {ε σ : Type} (V : Visitor ε σ) (I : σ → Prop) (e : Elem) (s s' : σ)
    (hV : ∀ x ∈ e.descendants, ∀ s, I s → (∀ s' b, V.enter x s = .ok (s', b) → I s') ∧
        (∀ s', V.leave x s = .ok s' → I s'))
    (hI : I s) (h : e.walkNodes V s = .ok s') : I s' := by
  refine walk_inv _ I e s s' ?_ hI h
  intro x hx s hs
  refine ⟨?_, ?_⟩
  · intro s' b h
    simp only at h
    split at h
    · exact (hV x hx s hs).1 _ _ h
    · cases h; exact hs
  · intro s' h
    simp only at h
    split at h
    · exact (hV x hx s hs).2 _ h
    · cases h; exact hs

namespace Rules

open Cli

/-- All findings in a list have a property. -/
def AllR (P : CheckResult → Prop) (l : List CheckResult) : Prop := ∀ x ∈ l, P x

theorem AllR.nil {P : CheckResult → Prop} : AllR P [] := fun _ h => absurd h List.not_mem_nil

theorem AllR.one {P : CheckResult → Prop} {x : CheckResult} (h : P x) : AllR P [x] := by
  intro y hy; simp at hy; subst hy; exact h

theorem AllR.append {P : CheckResult → Prop} {a b : List CheckResult} (ha : AllR P a)
    (hb : AllR P b) : AllR P (a ++ b) := by
  intro x hx
  rcases List.mem_append.mp hx with h | h
  · exact ha x h
  · exact hb x h

/-- A rule signs its findings with its name. -/
def Signs (r : Rule) : Prop :=
  (∀ ctx e, AllR (fun x => x.rule = r.name) (r.checkNode ctx e)) ∧
  (∀ ctx e, AllR (fun x => x.rule = r.name) (r.checkToken ctx e)) ∧
  (∀ ctx e l, r.checkRoot ctx e = .ok l → AllR (fun x => x.rule = r.name) l)

theorem noRoot {P : CheckResult → Prop} {l : List CheckResult}
    (h : (Except.ok [] : Except RulePanic (List CheckResult)) = .ok l) : AllR P l := by
  cases h; exact .nil

theorem suggest_rule (r : CheckResult) (range : TextRange) (t : Text) :
    (suggest r range t).rule = r.rule := rfl

theorem suggestName_rule (r : CheckResult) (range : TextRange) (t : Option Text) :
    (suggestName r range t).rule = r.rule := by cases t <;> rfl

theorem changedQuotes_rule (string : Elem) (inner : Option Elem) (q : Char) (r : CheckResult) :
    (changedQuotes string inner q r).rule = r.rule := by
  unfold changedQuotes
  split
  · rfl
  · split <;> rfl

/-- Closes goals about the findings of a check by cases. -/
macro "signs" : tactic => `(tactic| (
  repeat' first
    | with_reducible exact AllR.nil
    | ((with_reducible refine AllR.one ?_); first
        | ((with_reducible refine Eq.trans (suggestName_rule _ _ _) ?_); rfl)
        | ((with_reducible refine Eq.trans (changedQuotes_rule _ _ _ _) ?_); rfl)
        | rfl)
    | with_reducible refine AllR.append ?_ ?_
    | (split)))

theorem signs_node {r : Rule} (hn : ∀ ctx e, AllR (fun x => x.rule = r.name) (r.checkNode ctx e))
    (ht : r.checkToken = fun _ _ => []) (hr : r.checkRoot = fun _ _ => .ok []) : Signs r :=
  ⟨hn, fun _ _ => by rw [ht]; exact .nil, fun _ _ _ h => by rw [hr] at h; exact noRoot h⟩

theorem signs_token {r : Rule} (hn : r.checkNode = fun _ _ => [])
    (ht : ∀ ctx e, AllR (fun x => x.rule = r.name) (r.checkToken ctx e))
    (hr : r.checkRoot = fun _ _ => .ok []) : Signs r :=
  ⟨fun _ _ => by rw [hn]; exact .nil, ht, fun _ _ _ h => by rw [hr] at h; exact noRoot h⟩

theorem signs_root {r : Rule} (hn : r.checkNode = fun _ _ => []) (ht : r.checkToken = fun _ _ => [])
    (hr : ∀ ctx e l, r.checkRoot ctx e = .ok l → AllR (fun x => x.rule = r.name) l) : Signs r :=
  ⟨fun _ _ => by rw [hn]; exact .nil, fun _ _ => by rw [ht]; exact .nil, hr⟩

theorem signs_ignoreFileNotOnTop : Signs ignoreFileNotOnTop :=
  signs_node (fun ctx e => by unfold ignoreFileNotOnTop; dsimp only; signs) rfl rfl

theorem signs_whitespaceBetweenLineBreaks : Signs whitespaceBetweenLineBreaks :=
  signs_token rfl (fun ctx e => by unfold whitespaceBetweenLineBreaks; dsimp only; signs) rfl

theorem signs_lineEnding : Signs lineEnding :=
  signs_token rfl (fun ctx e => by
    unfold lineEnding; dsimp only
    split
    · exact .nil
    · intro x hx
      obtain ⟨_, _, rfl⟩ := List.mem_map.mp hx
      rfl) rfl

theorem firstTokenInLine_rule (config : Config) (e : Elem) (l n : Nat) :
    AllR (fun x => x.rule = "indentation".toList) (firstTokenInLine config e l n) := by
  unfold firstTokenInLine
  signs

theorem signs_indentation : Signs indentation :=
  signs_root rfl rfl (fun ctx e l h => by
    unfold indentation at h; dsimp only at h
    split at h
    · simp at h
    · rename_i s hs
      cases h
      refine walk_inv _ (fun s => AllR (fun x => x.rule = "indentation".toList) s.results) _ _ _ ?_
        .nil hs
      intro x _ s hs
      refine ⟨?_, ?_⟩
      · intro s' b h
        unfold indentEnter at h; dsimp only at h
        split at h
        · split at h
          · cases h; exact hs
          · split at h <;> (cases h; exact hs)
        · split at h
          · cases h; exact hs
          · split at h
            · cases h
              refine AllR.append hs ?_
              split
              · exact firstTokenInLine_rule _ _ _ _
              · exact .nil
            · cases h; exact hs
      · intro s' h
        unfold indentLeave at h; dsimp only at h
        split at h
        · split at h
          · simp at h
          · cases h; exact hs
        · cases h; exact hs)

theorem checkLineBreaks_rule (lb : Text) (t : Elem) (n : Nat) :
    AllR (fun x => x.rule = "twig-block-line-breaks".toList) (checkLineBreaks lb t n) := by
  unfold checkLineBreaks; dsimp only
  signs

theorem signs_twigBlockLineBreaks : Signs twigBlockLineBreaks :=
  signs_node (fun ctx e => by
    unfold twigBlockLineBreaks; dsimp only
    split
    · exact .nil
    · split
      · exact .nil
      · unfold checkBlockLineBreaks; dsimp only
        repeat' first
          | with_reducible exact AllR.nil
          | exact checkLineBreaks_rule _ _ _
          | with_reducible refine AllR.append ?_ ?_
          | split) rfl rfl

theorem signs_twigBlockNameSnakeCase : Signs twigBlockNameSnakeCase :=
  signs_node (fun ctx e => by unfold twigBlockNameSnakeCase; dsimp only; signs) rfl rfl

theorem duplicateStep_rule (name : RuleName) (sev : Severity) (key : Text) (range : TextRange)
    (s : DuplicateState) (h : AllR (fun x => x.rule = name) s.results) :
    AllR (fun x => x.rule = name) (duplicateStep name sev key range s).results := by
  unfold duplicateStep
  split
  · exact .append h (.one rfl)
  · exact h

theorem signs_twigBlockDuplicate : Signs twigBlockDuplicate :=
  signs_root rfl rfl (fun ctx e l h => by
    unfold twigBlockDuplicate at h; dsimp only at h
    split at h
    · simp at h
    · rename_i s hs
      cases h
      refine walkNodes_inv _
        (fun s => AllR (fun x => x.rule = "twig-block-duplicate".toList) s.results) _ _ _ ?_ .nil hs
      intro x _ s hs
      refine ⟨?_, ?_⟩
      · intro s' b h
        unfold blockDuplicateEnter at h; dsimp only at h
        split at h
        · cases h; exact hs
        · split at h
          · cases h; exact hs
          · split at h
            · cases h; exact hs
            · cases h; exact duplicateStep_rule _ _ _ _ _ hs
      · intro s' h
        cases h; exact hs)

theorem signs_htmlDuplicateId : Signs htmlDuplicateId :=
  signs_root rfl rfl (fun ctx e l h => by
    unfold htmlDuplicateId at h; dsimp only at h
    split at h
    · simp at h
    · rename_i s hs
      cases h
      refine walkNodes_inv _
        (fun s => AllR (fun x => x.rule = "html-duplicate-id".toList) s.results) _ _ _ ?_ .nil hs
      intro x _ s hs
      refine ⟨?_, ?_⟩
      · intro s' b h
        unfold idDuplicateEnter at h; dsimp only at h
        split at h
        · cases h; exact hs
        · split at h
          · cases h; exact hs
          · split at h
            · cases h; exact hs
            · split at h
              · cases h; exact hs
              · cases h; exact duplicateStep_rule _ _ _ _ _ hs
      · intro s' h
        cases h; exact hs)

theorem signs_htmlAttributeNameKebabCase : Signs htmlAttributeNameKebabCase :=
  signs_node (fun ctx e => by unfold htmlAttributeNameKebabCase; dsimp only; signs) rfl rfl

theorem signs_twigLogicAnd : Signs twigLogicAnd :=
  signs_node (fun ctx e => by unfold twigLogicAnd; dsimp only; signs) rfl rfl

theorem signs_twigLogicOr : Signs twigLogicOr :=
  signs_node (fun ctx e => by unfold twigLogicOr; dsimp only; signs) rfl rfl

theorem signs_twigStringQuotation : Signs twigStringQuotation :=
  signs_node (fun ctx e => by unfold twigStringQuotation checkQuotes; dsimp only; signs) rfl rfl

theorem signs_htmlStringQuotation : Signs htmlStringQuotation :=
  signs_node (fun ctx e => by unfold htmlStringQuotation; dsimp only; unfold checkQuotes; signs) rfl rfl

theorem signs_twigHashKeyNoQuotes : Signs twigHashKeyNoQuotes :=
  signs_node (fun ctx e => by unfold twigHashKeyNoQuotes; dsimp only; signs) rfl rfl

theorem signs_twigPreferShopwareExtends : Signs twigPreferShopwareExtends :=
  signs_node (fun ctx e => by unfold twigPreferShopwareExtends; dsimp only; signs) rfl rfl

theorem signs_twigUseIsSameAs : Signs twigUseIsSameAs :=
  signs_node (fun ctx e => by unfold twigUseIsSameAs; dsimp only; unfold checkSameAs; signs) rfl rfl

theorem signs_twigUseIsNotSameAs : Signs twigUseIsNotSameAs :=
  signs_node (fun ctx e => by unfold twigUseIsNotSameAs; dsimp only; unfold checkSameAs; signs) rfl rfl

theorem signs_twigJsonEncodeEscapeJs : Signs twigJsonEncodeEscapeJs :=
  signs_node (fun ctx e => by unfold twigJsonEncodeEscapeJs; dsimp only; signs) rfl rfl

theorem signs_twigValidFilter : Signs twigValidFilter :=
  signs_node (fun ctx e => by unfold twigValidFilter; dsimp only; unfold checkKnown; signs) rfl rfl

theorem signs_twigValidTest : Signs twigValidTest :=
  signs_node (fun ctx e => by unfold twigValidTest; dsimp only; unfold checkKnown; signs) rfl rfl

theorem signs_twigValidFunction : Signs twigValidFunction :=
  signs_node (fun ctx e => by unfold twigValidFunction; dsimp only; unfold checkKnown; signs) rfl rfl

theorem checkLiteralNames_rule (e : Elem) (b : Bool) :
    AllR (fun x => x.rule = "twig-variable-definition-naming".toList) (checkLiteralNames e b) := by
  intro x hx
  simp only [checkLiteralNames, List.mem_flatMap] at hx
  obtain ⟨n, _, hn⟩ := hx
  revert x
  show AllR _ _
  signs

theorem signs_twigVariableDefinitionNaming : Signs twigVariableDefinitionNaming :=
  signs_node (fun ctx e => by
    unfold twigVariableDefinitionNaming; dsimp only
    repeat' first
      | with_reducible exact AllR.nil
      | exact checkLiteralNames_rule _ _
      | split) rfl rfl

/-- All rules sign their findings. -/
theorem definitions_sign : ∀ r ∈ definitions, Signs r := by
  simp only [definitions, List.mem_cons, List.not_mem_nil, or_false, forall_eq_or_imp, forall_eq]
  exact ⟨signs_ignoreFileNotOnTop, signs_whitespaceBetweenLineBreaks, signs_lineEnding,
    signs_indentation, signs_twigBlockLineBreaks, signs_twigBlockNameSnakeCase,
    signs_htmlAttributeNameKebabCase, signs_twigLogicAnd, signs_twigLogicOr,
    signs_twigStringQuotation, signs_htmlStringQuotation, signs_twigHashKeyNoQuotes,
    signs_twigPreferShopwareExtends, signs_twigUseIsSameAs, signs_twigUseIsNotSameAs,
    signs_twigBlockDuplicate, signs_twigJsonEncodeEscapeJs, signs_htmlDuplicateId,
    signs_twigVariableDefinitionNaming, signs_twigValidFilter, signs_twigValidTest,
    signs_twigValidFunction⟩

/-- The names of the rules are distinct. -/
theorem definitions_distinct : (definitions.map (·.name)).Nodup := by decide +kernel

end Rules
end Ludtwig
