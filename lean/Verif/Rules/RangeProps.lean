import Verif.Rules.StampLemmas
import Verif.Rules.RunProps
import Verif.Syntax.TypedProps
import Verif.Cli.Pieces
import Verif.Rules.Samples

/-! # Ranges of findings: property C44 -/

namespace Ludtwig.Rules

open Cli

/-- All ranges of a finding lie in a text on char boundaries. -/
structure Sane (text : Text) (x : CheckResult) : Prop where
  primary : ∀ r, x.primary = some r → RangeIn text r
  secondary : ∀ r ∈ x.secondary, RangeIn text r
  suggestions : ∀ s ∈ x.suggestions, RangeIn text s.range

theorem sane_result {text : Text} {name : RuleName} {sev : Severity} {r : TextRange}
    (h : RangeIn text r) : Sane text (result name sev r) where
  primary := fun r' hr => by cases hr; exact h
  secondary := fun r' hr => by simp [result] at hr
  suggestions := fun s hs => by simp [result] at hs

theorem sane_suggest {text : Text} {x : CheckResult} {r : TextRange} {t : Text} (hx : Sane text x)
    (h : RangeIn text r) : Sane text (suggest x r t) where
  primary := hx.primary
  secondary := hx.secondary
  suggestions := fun s hs => by
    simp only [suggest, List.mem_append, List.mem_singleton] at hs
    rcases hs with hs | rfl
    · exact hx.suggestions s hs
    · exact h

theorem sane_suggestName {text : Text} {x : CheckResult} {r : TextRange} {t : Option Text}
    (hx : Sane text x) (h : RangeIn text r) : Sane text (suggestName x r t) := by
  cases t with
  | none => exact hx
  | some t => exact sane_suggest hx h

theorem emptyAt_in {text : Text} {n : Nat} (h : OnBoundary text n) : RangeIn text (emptyAt n) :=
  .of_boundary (Nat.le_refl _) h h

theorem start_in {root : Tree} {e : Elem} (h : Elem.In root e) : RangeIn root.text (emptyAt e.start) :=
  emptyAt_in (In_range h).boundary.2.1

theorem stop_in {root : Tree} {e : Elem} (h : Elem.In root e) :
    RangeIn root.text (emptyAt e.range.stop) :=
  emptyAt_in (In_range h).boundary.2.2

theorem cover_in {text : Text} {a b : TextRange} (ha : RangeIn text a) (hb : RangeIn text b) :
    RangeIn text (cover a b) := by
  obtain ⟨h1, h2, h3⟩ := ha.boundary
  obtain ⟨k1, k2, k3⟩ := hb.boundary
  refine .of_boundary (by simp only [cover]; omega) ?_ ?_
  · simp only [cover]; rw [Nat.min_def]; split <;> assumption
  · simp only [cover]; rw [Nat.max_def]; split <;> assumption

theorem trimmed_in {root : Tree} {e : Elem} (h : Elem.In root e) : RangeIn root.text e.rangeTrimmed := by
  cases hn : e.isNode with
  | true => exact (C46_trimmed_inside root e h hn).2.2.2
  | false =>
    have : e.rangeTrimmed = e.range := by
      obtain ⟨t, pos, path⟩ := e
      cases t with
      | node _ _ => simp [Elem.isNode, Tree.isNode] at hn
      | token _ _ => rfl
    rw [this]; exact In_range h

theorem quote_in {root : Tree} {o : Option Elem} {n : Nat} :
    (∀ q, o = some q → Elem.In root q) → RangeIn root.text (emptyAt n) →
    RangeIn root.text (match o with | some q => q.range | none => emptyAt n) := by
  intro ho hn
  cases o with
  | none => exact hn
  | some q => exact In_range (ho q rfl)

/-- A rule keeps its ranges in the file. -/
structure Keeps (r : Rule) : Prop where
  node : ∀ root ctx e, Elem.In root e → AllR (Sane root.text) (r.checkNode ctx e)
  token : ∀ root ctx e, Elem.In root e → AllR (Sane root.text) (r.checkToken ctx e)
  root : ∀ root ctx l, r.checkRoot ctx (Elem.root root) = .ok l → AllR (Sane root.text) l

theorem keeps_node {r : Rule}
    (hn : ∀ root ctx e, Elem.In root e → AllR (Sane root.text) (r.checkNode ctx e))
    (ht : r.checkToken = fun _ _ => []) (hr : r.checkRoot = fun _ _ => .ok []) : Keeps r :=
  ⟨hn, fun _ _ _ _ => by rw [ht]; exact .nil, fun _ _ _ h => by rw [hr] at h; exact noRoot h⟩

theorem keeps_token {r : Rule} (hn : r.checkNode = fun _ _ => [])
    (ht : ∀ root ctx e, Elem.In root e → AllR (Sane root.text) (r.checkToken ctx e))
    (hr : r.checkRoot = fun _ _ => .ok []) : Keeps r :=
  ⟨fun _ _ _ _ => by rw [hn]; exact .nil, ht, fun _ _ _ h => by rw [hr] at h; exact noRoot h⟩

theorem keeps_root {r : Rule} (hn : r.checkNode = fun _ _ => []) (ht : r.checkToken = fun _ _ => [])
    (hr : ∀ root ctx l, r.checkRoot ctx (Elem.root root) = .ok l → AllR (Sane root.text) l) :
    Keeps r :=
  ⟨fun _ _ _ _ => by rw [hn]; exact .nil, fun _ _ _ _ => by rw [ht]; exact .nil, hr⟩

/-- Splits a check into its cases. -/
macro "cases_of_check" : tactic => `(tactic| (
  repeat' first
    | with_reducible exact AllR.nil
    | with_reducible refine AllR.one ?_
    | (split)))

theorem keeps_ignoreFileNotOnTop : Keeps ignoreFileNotOnTop :=
  keeps_node (fun root ctx e h => by
    unfold ignoreFileNotOnTop; dsimp only
    cases_of_check
    rename_i hd _ _ _ _
    exact sane_result (In_range (In_cast h hd))) rfl rfl

theorem keeps_whitespaceBetweenLineBreaks : Keeps whitespaceBetweenLineBreaks :=
  keeps_token rfl (fun root ctx e h => by
    unfold whitespaceBetweenLineBreaks; dsimp only
    cases_of_check
    rename_i hw _ _ _ _ _
    have := In_range (In_nextToken h hw)
    exact sane_suggest (sane_result this) this) rfl

theorem findIter_in (m : Text → Option Nat) (hm : ∀ s n, m s = some n → OnBoundary s n) (text : Text) :
    ∀ (fuel : Nat) (s pre post : Text), text = pre ++ s ++ post →
      ∀ r ∈ findIter m fuel (byteLen pre) s, RangeIn text r
  | 0, _, _, _, _, r, hr => by simp [findIter] at hr
  | _ + 1, [], _, _, _, r, hr => by simp [findIter] at hr
  | fuel + 1, c :: s, pre, post, ht, r, hr => by
    rw [findIter] at hr
    split at hr
    · have := findIter_in m hm text fuel s (pre ++ [c]) post (by rw [ht]; simp) r
      rw [byteLen_append] at this
      exact this (by simpa [byteLen] using hr)
    · rename_i n hn
      obtain ⟨a, b, h1, h2⟩ := hm _ _ hn
      rcases List.mem_cons.mp hr with rfl | hr
      · exact ⟨pre, a, b ++ post, by rw [ht, h1]; simp, rfl, by rw [byteLen_append, h2]⟩
      · split at hr
        · simp at hr
        · rename_i rest hs
          obtain ⟨g1, g2⟩ := splitAtByte_some hs
          rename_i a'
          have := findIter_in m hm text fuel rest (pre ++ a') post (by rw [ht, g1]; simp) r
          rw [byteLen_append, g2] at this
          exact this hr

theorem invalidLineEnding_boundary (l : LineEnding) (s : Text) (n : Nat)
    (h : invalidLineEnding l s = some n) : OnBoundary s n := by
  unfold invalidLineEnding at h
  split at h
  · cases h; exact ⟨['\r', '\n'], _, rfl, by decide⟩
  · cases h
  · split at h
    · cases h; exact ⟨_, _, rfl, rfl⟩
    · cases h
  · cases h; exact ⟨['\n'], _, rfl, by decide⟩
  · cases h

theorem keeps_lineEnding : Keeps lineEnding :=
  keeps_token rfl (fun root ctx e h => by
    unfold lineEnding; dsimp only
    split
    · exact .nil
    · intro x hx
      obtain ⟨r, hr, rfl⟩ := List.mem_map.mp hx
      obtain ⟨pre, post, h1, h2⟩ := In_inText h
      rw [← h2] at hr
      have := findIter_in _ (invalidLineEnding_boundary _) root.text _ _ pre post h1 r hr
      exact sane_suggest (sane_result this) this) rfl

theorem firstTokenInLine_sane (config : Config) {root : Tree} {e : Elem} (h : Elem.In root e)
    (l n : Nat) : AllR (Sane root.text) (firstTokenInLine config e l n) := by
  unfold firstTokenInLine
  cases_of_check
  · exact sane_suggest (sane_result (In_range h)) (In_range h)
  · exact sane_suggest (sane_result (start_in h)) (start_in h)

theorem keeps_indentation : Keeps indentation :=
  keeps_root rfl rfl (fun root ctx l h => by
    unfold indentation at h; dsimp only at h
    split at h
    · simp at h
    · rename_i s hs
      cases h
      refine walk_inv _ (fun s => AllR (Sane root.text) s.results) _ _ _ ?_ .nil hs
      intro x hx s hs
      have hin := In_descendant .root hx
      refine ⟨?_, ?_⟩
      · intro s' b h
        unfold indentEnter at h; dsimp only at h
        split at h
        · split at h
          · cases h; exact hs
          · split at h <;> (cases h; exact hs)
        · split at h
          · cases h; exact hs
          · split at h
            · cases h
              refine AllR.append hs ?_
              split
              · exact firstTokenInLine_sane _ hin _ _
              · exact .nil
            · cases h; exact hs
      · intro s' h
        unfold indentLeave at h; dsimp only at h
        split at h
        · split at h
          · simp at h
          · cases h; exact hs
        · cases h; exact hs)

theorem checkLineBreaks_sane (lb : Text) {root : Tree} {t : Elem} (h : Elem.In root t) (n : Nat) :
    AllR (Sane root.text) (checkLineBreaks lb t n) := by
  unfold checkLineBreaks; dsimp only
  cases_of_check
  · exact sane_suggest (sane_result (In_range h)) (In_range h)
  · exact sane_suggest (sane_result (start_in h)) (start_in h)

theorem In_blockFirstToken {root : Tree} {b s x : Elem} (hb : Elem.In root b) (hs : Elem.In root s)
    (h : blockFirstToken b s = some x) : Elem.In root x := by
  unfold blockFirstToken at h
  split at h
  · exact In_firstToken hs h
  · rename_i n hn
    split at h
    · exact In_firstToken (In_prevSibling hb hn) h
    · exact In_firstToken hs h

theorem In_blockAfterToken {root : Tree} {b s x : Elem} (hs : Elem.In root s)
    (h : blockAfterToken b s = some x) : Elem.In root x := by
  unfold blockAfterToken at h
  split at h
  · cases h
  · rename_i t ht
    split at h
    · cases h
    · rename_i u hu
      have hu' := In_nextToken (In_lastToken hs ht) hu
      split at h
      · cases h; exact hu'
      · split at h
        · cases h; exact hu'
        · cases h

theorem keeps_twigBlockLineBreaks : Keeps twigBlockLineBreaks :=
  keeps_node (fun root ctx e h => by
    unfold twigBlockLineBreaks; dsimp only
    split
    · exact .nil
    · split
      · exact .nil
      · rename_i b hb
        have hb := In_cast h hb
        unfold checkBlockLineBreaks; dsimp only
        split
        · exact .nil
        · split
          · exact .nil
          · split
            · rename_i s t hs ht
              refine AllR.append ?_ ?_
              · split
                · exact .nil
                · rename_i u hu
                  exact checkLineBreaks_sane _ (In_blockFirstToken hb (In_child hb hs) hu) _
              · split
                · exact .nil
                · rename_i u hu
                  exact checkLineBreaks_sane _ (In_blockAfterToken (In_child hb ht) hu) _
            · exact .nil) rfl rfl

theorem In_bind_of {root : Tree} {o : Option Elem} {f : Elem → Option Elem} {x : Elem}
    (hx : o.bind f = some x) (ho : ∀ y, o = some y → Elem.In root y)
    (hf : ∀ y, Elem.In root y → f y = some x → Elem.In root x) : Elem.In root x :=
  In_bind ho (fun y _ h hy => hf y hy h) hx

theorem In_word {root : Tree} {e x : Elem} (h : Elem.In root e) (hx : e.word = some x) :
    Elem.In root x := In_token h hx

theorem In_literalName {root : Tree} {e x : Elem} (h : Elem.In root e) (hx : literalName e = some x) :
    Elem.In root x := In_bind_of hx (fun _ => In_child h) (fun _ => In_word)

theorem keeps_twigBlockNameSnakeCase : Keeps twigBlockNameSnakeCase :=
  keeps_node (fun root ctx e h => by
    unfold twigBlockNameSnakeCase; dsimp only
    cases_of_check
    rename_i hn _
    have := In_range (In_bind_of hn (fun _ => In_cast h) (fun _ => In_word))
    exact sane_suggestName (sane_result this) this) rfl rfl

theorem keeps_htmlAttributeNameKebabCase : Keeps htmlAttributeNameKebabCase :=
  keeps_node (fun root ctx e h => by
    unfold htmlAttributeNameKebabCase; dsimp only
    split
    · exact .nil
    · rename_i ha
      split
      · exact .nil
      · rename_i hn
        have := In_range (In_word (In_cast h ha) hn)
        cases_of_check
        exact sane_suggestName (sane_result this) this) rfl rfl

theorem In_binaryOperator {root : Tree} {e x : Elem} (h : Elem.In root e)
    (hx : binaryOperator e = some x) : Elem.In root x :=
  In_bind_of hx (fun _ => In_cast h) (fun _ => In_firstNonTriviaToken)

theorem keeps_twigLogicAnd : Keeps twigLogicAnd :=
  keeps_node (fun root ctx e h => by
    unfold twigLogicAnd; dsimp only
    cases_of_check
    rename_i ho _
    have := In_range (In_binaryOperator h ho)
    exact sane_suggest (sane_result this) this) rfl rfl

theorem keeps_twigLogicOr : Keeps twigLogicOr :=
  keeps_node (fun root ctx e h => by
    unfold twigLogicOr; dsimp only
    cases_of_check
    rename_i ho _
    have := In_range (In_binaryOperator h ho)
    exact sane_suggest (sane_result this) this) rfl rfl

theorem checkQuotes_sane {root : Tree} {e : Elem} (h : Elem.In root e) (name : RuleName) (q : Char)
    (inner : Option Elem) (hi : ∀ x, inner = some x → Elem.In root x) :
    AllR (Sane root.text) (checkQuotes name q e inner) := by
  unfold checkQuotes
  cases_of_check
  have hr : Sane root.text (result name .help e.rangeTrimmed) := sane_result (trimmed_in h)
  unfold changedQuotes
  split
  · exact hr
  · rename_i x
    split
    · exact hr
    · exact sane_suggest
        (sane_suggest hr (quote_in (fun _ => In_openingQuote h) (start_in (hi x rfl))))
        (quote_in (fun _ => In_closingQuote h) (stop_in (hi x rfl)))

theorem keeps_htmlStringQuotation : Keeps htmlStringQuotation :=
  keeps_node (fun root ctx e h => by
    unfold htmlStringQuotation; dsimp only
    split
    · exact .nil
    · rename_i hs
      exact checkQuotes_sane (In_cast h hs) _ _ _ (fun _ => In_child (In_cast h hs))) rfl rfl

theorem keeps_twigStringQuotation : Keeps twigStringQuotation :=
  keeps_node (fun root ctx e h => by
    unfold twigStringQuotation; dsimp only
    split
    · exact .nil
    · rename_i hs
      generalize (_ && _) = b
      cases b with
      | true => exact .nil
      | false =>
        exact checkQuotes_sane (In_cast h hs) _ _ _ (fun _ => In_child (In_cast h hs))) rfl rfl

theorem keeps_twigHashKeyNoQuotes : Keeps twigHashKeyNoQuotes :=
  keeps_node (fun root ctx e h => by
    unfold twigHashKeyNoQuotes; dsimp only
    split
    · exact .nil
    · rename_i hs
      have hs := In_bind_of hs (fun _ => In_cast h) (fun _ => In_child)
      split
      · exact .nil
      · rename_i x hi
        have hi := In_child hs hi
        split
        · refine AllR.one ?_
          exact sane_suggest
            (sane_suggest (sane_result (trimmed_in hs)) (quote_in (fun _ => In_openingQuote hs) (start_in hi)))
            (quote_in (fun _ => In_closingQuote hs) (stop_in hi))
        · exact .nil) rfl rfl

theorem keeps_twigPreferShopwareExtends : Keeps twigPreferShopwareExtends :=
  keeps_node (fun root ctx e h => by
    unfold twigPreferShopwareExtends; dsimp only
    split
    · exact .nil
    · rename_i he
      split
      · exact .nil
      · rename_i hk
        exact AllR.one (sane_suggest (sane_result (In_range (In_cast h he)))
          (In_range (In_token (In_cast h he) hk)))) rfl rfl

theorem checkSameAs_sane {root : Tree} {e : Elem} (h : Elem.In root e) (name : RuleName)
    (op : SyntaxKind) (t : Text) : AllR (Sane root.text) (checkSameAs name op t e) := by
  unfold checkSameAs
  split
  · exact .nil
  · rename_i hb
    have hb := In_cast h hb
    split
    · exact .nil
    · rename_i ho
      have ho := In_range (In_firstNonTriviaToken hb ho)
      split
      · exact .nil
      · split
        · exact AllR.one (sane_result ho)
        · rename_i hr
          exact AllR.one (sane_suggest (sane_result ho) (cover_in ho (In_range (In_nth hb hr))))

theorem keeps_twigUseIsSameAs : Keeps twigUseIsSameAs :=
  keeps_node (fun _ _ _ h => checkSameAs_sane h _ _ _) rfl rfl

theorem keeps_twigUseIsNotSameAs : Keeps twigUseIsNotSameAs :=
  keeps_node (fun _ _ _ h => checkSameAs_sane h _ _ _) rfl rfl

theorem keeps_twigJsonEncodeEscapeJs : Keeps twigJsonEncodeEscapeJs :=
  keeps_node (fun root ctx e h => by
    unfold twigJsonEncodeEscapeJs; dsimp only
    split
    · exact .nil
    · rename_i hf
      split
      · exact .nil
      · rename_i hn
        have := In_range (In_bind_of hn (fun _ => In_nth (In_cast h hf)) (fun _ => In_literalName))
        split
        · exact .nil
        · split
          · exact .nil
          · exact AllR.one (sane_suggest (sane_result this) this)) rfl rfl

theorem In_calledName {root : Tree} {e x : Elem} (h : Elem.In root e) (hx : calledName e = some x) :
    Elem.In root x := by
  unfold calledName at hx
  split at hx
  · rename_i hn; exact In_word (In_child h hn) hx
  · split at hx
    · rename_i hc
      exact In_bind_of hx (fun _ => In_child (In_child h hc)) (fun _ => In_literalName)
    · cases hx

theorem checkKnown_sane {root : Tree} {e : Elem} (h : Elem.In root e) (rule : RuleName)
    (valid : List Text) : AllR (Sane root.text) (checkKnown rule valid e) := by
  unfold checkKnown
  split
  · exact AllR.one (sane_result (In_range h))
  · exact .nil

theorem keeps_twigValidFilter : Keeps twigValidFilter :=
  keeps_node (fun root ctx e h => by
    unfold twigValidFilter; dsimp only
    split
    · exact .nil
    · rename_i hn
      exact checkKnown_sane (In_bind_of hn
        (fun _ hy => In_bind_of hy (fun _ => In_cast h) (fun _ => In_nth)) (fun _ => In_calledName)) _ _)
    rfl rfl

theorem keeps_twigValidTest : Keeps twigValidTest :=
  keeps_node (fun root ctx e h => by
    unfold twigValidTest; dsimp only
    split
    · exact .nil
    · split
      · exact .nil
      · split
        · exact .nil
        · rename_i hn
          exact checkKnown_sane (In_bind_of hn (fun _ => In_nth h) (fun _ => In_calledName)) _ _)
    rfl rfl

theorem keeps_twigValidFunction : Keeps twigValidFunction :=
  keeps_node (fun root ctx e h => by
    unfold twigValidFunction; dsimp only
    split
    · exact .nil
    · rename_i hc
      split
      · exact .nil
      · split
        · exact .nil
        · split
          · exact .nil
          · rename_i hn
            exact checkKnown_sane
              (In_bind_of hn (fun _ => In_child (In_cast h hc)) (fun _ => In_literalName)) _ _)
    rfl rfl

theorem checkLiteralNames_sane {root : Tree} {e : Elem} (h : Elem.In root e) (b : Bool) :
    AllR (Sane root.text) (checkLiteralNames e b) := by
  intro x hx
  simp only [checkLiteralNames, List.mem_flatMap] at hx
  obtain ⟨n, hn, hx⟩ := hx
  have hn := In_childrenOf h hn
  revert x
  show AllR _ _
  split
  · exact .nil
  · rename_i hw
    have := In_range (In_word hn hw)
    refine AllR.append ?_ ?_
    · split
      · exact AllR.one (sane_result this)
      · exact .nil
    · split
      · exact AllR.one (sane_result this)
      · exact .nil

theorem keeps_twigVariableDefinitionNaming : Keeps twigVariableDefinitionNaming :=
  keeps_node (fun root ctx e h => by
    unfold twigVariableDefinitionNaming; dsimp only
    split
    · split
      · exact .nil
      · rename_i hc; exact checkLiteralNames_sane (In_cast h hc) _
    · split
      · split
        · exact .nil
        · rename_i hc; exact checkLiteralNames_sane (In_cast h hc) _
      · exact .nil) rfl rfl

/-- The state of a duplicate rule is in the file. -/
def DuplicateSane (text : Text) (s : DuplicateState) : Prop :=
  AllR (Sane text) s.results ∧ ∀ p ∈ s.table, RangeIn text p.2

theorem lookup_mem {key : Text} {r : TextRange} : ∀ {l : List (Text × TextRange)},
    l.lookup key = some r → (key, r) ∈ l
  | [], h => by simp at h
  | (k, v) :: l, h => by
    rw [List.lookup_cons] at h
    split at h
    · rename_i hk
      have : key = k := by simpa using hk
      subst this; cases h; exact List.mem_cons_self
    · exact List.mem_cons_of_mem _ (lookup_mem h)

theorem duplicateStep_sane {text : Text} {name : RuleName} {sev : Severity} {key : Text}
    {range : TextRange} {s : DuplicateState} (hs : DuplicateSane text s) (hr : RangeIn text range) :
    DuplicateSane text (duplicateStep name sev key range s) := by
  unfold duplicateStep
  split
  · rename_i first hf
    refine ⟨AllR.append hs.1 (AllR.one ?_), hs.2⟩
    have hr' : Sane text (result name sev range) := sane_result hr
    refine ⟨hr'.primary, ?_, hr'.suggestions⟩
    intro r h
    simp only [List.mem_singleton] at h
    subst h
    exact hs.2 _ (lookup_mem hf)
  · refine ⟨hs.1, ?_⟩
    intro p hp
    rcases List.mem_cons.mp hp with rfl | hp
    · exact hr
    · exact hs.2 p hp

theorem DuplicateSane.flag {text : Text} {s : DuplicateState} (h : DuplicateSane text s) (b : Bool) :
    DuplicateSane text { s with isIgnored := b } := h

theorem keeps_twigBlockDuplicate : Keeps twigBlockDuplicate :=
  keeps_root rfl rfl (fun root ctx l h => by
    unfold twigBlockDuplicate at h; dsimp only at h
    split at h
    · simp at h
    · rename_i s hs
      cases h
      refine (walkNodes_inv _ (DuplicateSane root.text) _ _ _ ?_ ⟨.nil, by simp⟩ hs).1
      intro x hx s hs
      have hin := In_descendant .root hx
      refine ⟨?_, ?_⟩
      · intro s' b h
        unfold blockDuplicateEnter at h; dsimp only at h
        split at h
        · cases h; exact hs.flag _
        · split at h
          · cases h; exact hs.flag _
          · split at h
            · cases h; exact hs.flag _
            · rename_i hn
              cases h
              refine duplicateStep_sane (hs.flag _) (In_range (In_bind_of hn (fun _ => In_cast hin) ?_))
              intro y hy hb
              exact In_bind_of hb (fun _ => In_child hy) (fun _ => In_word)
      · intro s' h
        cases h; exact hs.flag _)

theorem In_staticId {root : Tree} {e x : Elem} (h : Elem.In root e) (hx : staticId e = some x) :
    Elem.In root x := by
  unfold staticId at hx
  split at hx
  · cases hx
  · rename_i ha
    split at hx
    · cases hx
    · split at hx
      · cases hx
      · split at hx
        · cases hx
        · rename_i hi
          split at hx
          · cases hx
          · split at hx
            · cases hx
            · cases hx
              exact In_bind_of hi (fun _ => In_child (In_cast h ha)) (fun _ => In_child)

theorem keeps_htmlDuplicateId : Keeps htmlDuplicateId :=
  keeps_root rfl rfl (fun root ctx l h => by
    unfold htmlDuplicateId at h; dsimp only at h
    split at h
    · simp at h
    · rename_i s hs
      cases h
      refine (walkNodes_inv _ (DuplicateSane root.text) _ _ _ ?_ ⟨.nil, by simp⟩ hs).1
      intro x hx s hs
      have hin := In_descendant .root hx
      refine ⟨?_, ?_⟩
      · intro s' b h
        unfold idDuplicateEnter at h; dsimp only at h
        split at h
        · cases h; exact hs
        · split at h
          · cases h; exact hs.flag _
          · split at h
            · cases h; exact hs.flag _
            · split at h
              · cases h; exact hs.flag _
              · rename_i hi
                cases h
                exact duplicateStep_sane (hs.flag _) (In_range (In_staticId hin hi))
      · intro s' h
        cases h; exact hs.flag _)

/-- All rules keep their ranges in the file. -/
theorem definitions_keep : ∀ r ∈ definitions, Keeps r := by
  simp only [definitions, List.mem_cons, List.not_mem_nil, or_false, forall_eq_or_imp, forall_eq]
  exact ⟨keeps_ignoreFileNotOnTop, keeps_whitespaceBetweenLineBreaks, keeps_lineEnding,
    keeps_indentation, keeps_twigBlockLineBreaks, keeps_twigBlockNameSnakeCase,
    keeps_htmlAttributeNameKebabCase, keeps_twigLogicAnd, keeps_twigLogicOr,
    keeps_twigStringQuotation, keeps_htmlStringQuotation, keeps_twigHashKeyNoQuotes,
    keeps_twigPreferShopwareExtends, keeps_twigUseIsSameAs, keeps_twigUseIsNotSameAs,
    keeps_twigBlockDuplicate, keeps_twigJsonEncodeEscapeJs, keeps_htmlDuplicateId,
    keeps_twigVariableDefinitionNaming, keeps_twigValidFilter, keeps_twigValidTest,
    keeps_twigValidFunction⟩

/-- C44: all ranges of the findings of the rules (of notes and of suggestions) lie in the file on
char boundaries. -/
theorem C44_ranges_in_file (config : Config) (rules : List Rule) (hd : ∀ r ∈ rules, r ∈ definitions)
    (root : Tree) (l : List CheckResult) (h : runRules config rules root = .ok l) :
    ∀ x ∈ l, (∀ r, x.primary = some r → RangeIn root.text r) ∧
      (∀ r ∈ x.secondary, RangeIn root.text r) ∧ ∀ s ∈ x.suggestions, RangeIn root.text s.range := by
  have hk : ∀ r ∈ rules, Keeps r := fun r hr => definitions_keep r (hd r hr)
  suffices hall : AllR (Sane root.text) l from
    fun x hx => ⟨(hall x hx).primary, (hall x hx).secondary, (hall x hx).suggestions⟩
  have hroot : ∀ (rs : List Rule) (l : List CheckResult), (∀ r ∈ rs, Keeps r) →
      rootChecks config (Elem.root root) rs = .ok l → AllR (Sane root.text) l := by
    intro rs
    induction rs with
    | nil => intro l _ h; cases h; exact .nil
    | cons r rs ih =>
      intro l hk h
      rw [rootChecks] at h
      split at h
      · cases h
      · rename_i a ha
        split at h
        · cases h
        · rename_i b hb
          cases h
          exact AllR.append ((hk r List.mem_cons_self).root _ _ _ ha)
            (ih b (fun r hr => hk r (List.mem_cons_of_mem _ hr)) hb)
  unfold runRules at h
  split at h
  · cases h; exact .nil
  · split at h
    · cases h
    · rename_i a ha
      rw [runLoop] at h
      cases h
      refine AllR.append (hroot _ _ hk ha) ?_
      intro x hx
      simp only [specResults, List.mem_flatMap, List.mem_filter, mem_elems_iff] at hx
      obtain ⟨e, ⟨hin, _⟩, r, ⟨hr, _⟩, hx⟩ := hx
      unfold checkElem at hx
      split at hx
      · exact (hk r hr).node _ _ _ hin x hx
      · exact (hk r hr).token _ _ _ hin x hx

/-- C44, consequence: applying suggestions of the rules that are in order and disjoint succeeds. -/
theorem C44_apply_succeeds (config : Config) (rules : List Rule) (hd : ∀ r ∈ rules, r ∈ definitions)
    (root : Tree) (l : List CheckResult) (h : runRules config rules root = .ok l)
    (sugs : List Suggestion) (hs : ∀ s ∈ sugs, ∃ x ∈ l, s ∈ x.suggestions)
    (hp : sugs.Pairwise (fun a b => a.range.stop ≤ b.range.start)) :
    ∃ text, applySuggestionsToText sugs root.text = some text := by
  obtain ⟨es, tail, _, _, h3⟩ := C21_apply_is_simultaneous_edit root.text sugs (fun s hs' => by
    obtain ⟨x, hx, hsx⟩ := hs s hs'
    exact ((C44_ranges_in_file config rules hd root l h x hx).2.2 s hsx).boundary) hp
  exact ⟨_, h3⟩

/-- All rules together on `<p id='x' a=b></p>{{ 'c' }}`: there are six suggestions. -/
example : parsesTo "<p id='x' a=b></p>{{ 'c' }}".toList quoteSample = true ∧
    Gives (runRules sampleConfig definitions quoteSample) (fun l =>
      l.flatMap (fun x => x.suggestions.map (fun s => (s.range.start, s.range.stop))) ==
        [(6, 7), (8, 9), (12, 12), (13, 13), (21, 22), (23, 24)]) = true :=
  ⟨quoteSample_parsed, by decide +kernel⟩

end Ludtwig.Rules
