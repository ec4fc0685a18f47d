import Verif.Basic.TextLemmas
import Verif.Cli.Process
import Verif.Cli.OutputProps

/-! # Fix application and fix loop: helper lemmas -/

namespace Ludtwig.Cli

theorem apply_nil (t : Text) : applySuggestionsToText [] t = some t := rfl

theorem apply_cons (s : Suggestion) (ss : List Suggestion) (t : Text) :
    applySuggestionsToText (s :: ss) t =
      (applySuggestionsToText ss t).bind (fun t => replaceRange t s.range s.replaceWith) := by
  simp [applySuggestionsToText]

/-! ## The fix loop -/

section
variable {Tree : Type} (E : Engine Tree)

/-- The context is the parse of its own source, and `results` are the results for it. -/
structure FileContext.Consistent (E : Engine Tree) (rules : List RuleName) (ctx : FileContext Tree)
    (results : List CheckResult) : Prop where
  parse : E.parse ctx.sourceCode = some (ctx.tree, ctx.parseErrors)
  sameRules : ctx.fileRules = rules
  results : E.runRules rules ctx.tree = some results

theorem fixLoop_ok (rules : List RuleName) (n : Nat) : ∀ (it : Nat) (ctx : FileContext Tree)
    (results : List CheckResult) (dirty : Bool),
    ctx.Consistent E rules results →
    ∀ ctx' results' dirty' it' parsed,
    fixLoop E n it ctx results dirty = (.ok ctx' results' dirty' it', parsed) →
      ctx'.Consistent E rules results' ∧
      getRuleContextSuggestions results' = [] ∧
      dirty' = (dirty || !parsed.isEmpty) ∧
      ctx'.sourceCode = parsed.getLast?.getD ctx.sourceCode ∧
      it' = it + parsed.length ∧ parsed.length < n := by
  induction n with
  | zero => intro it ctx results dirty _ ctx' results' dirty' it' parsed h; simp [fixLoop] at h
  | succ n ih =>
    intro it ctx results dirty hc ctx' results' dirty' it' parsed h
    rw [fixLoop] at h
    simp only at h
    split at h
    · rename_i he
      cases h
      simp [hc]
      simpa using he
    · split at h
      · simp at h
      · split at h
        · simp at h
        · rename_i source _
          split at h
          · simp at h
          · rename_i tree errors hparse
            split at h
            · simp at h
            · rename_i results₂ hrun
              generalize hrec : fixLoop E n (it + 1) _ _ true = rec at h
              obtain ⟨r1, r2⟩ := rec
              simp only [Prod.mk.injEq] at h
              obtain ⟨h1, h2⟩ := h
              subst h1
              have := ih (it + 1)
                { ctx with sourceCode := source, tree := tree, parseErrors := errors }
                _ true ⟨hparse, hc.sameRules, by rw [← hc.sameRules]; exact hrun⟩ ctx' results' dirty' it' r2
                hrec
              subst h2
              obtain ⟨g1, g3, g4, g5, g6, g7⟩ := this
              refine ⟨g1, g3, by simpa using g4, ?_, by simp; omega, by simp; omega⟩
              rw [g5]
              rw [List.getLast?_cons]; simp

theorem fixLoop_parsed_le (n : Nat) : ∀ (it : Nat) (ctx : FileContext Tree)
    (results : List CheckResult) (dirty : Bool),
    (fixLoop E n it ctx results dirty).2.length ≤ n := by
  induction n with
  | zero => intros; simp [fixLoop]
  | succ n ih =>
    intro it ctx results dirty
    rw [fixLoop]
    simp only
    split
    · simp
    · split
      · simp
      · split
        · simp
        · split
          · simp
          · split
            · simp
            · simp; exact ih ..

theorem fixLoop_full (n : Nat) : ∀ (it : Nat) (ctx : FileContext Tree)
    (results : List CheckResult) (dirty : Bool),
    (fixLoop E n it ctx results dirty).2.length = n →
      (fixLoop E n it ctx results dirty).1 = .err .maxApplyIteration ∨
      (fixLoop E n it ctx results dirty).1 = .panic := by
  induction n with
  | zero => intros; simp [fixLoop]
  | succ n ih =>
    intro it ctx results dirty
    rw [fixLoop]
    simp only
    split
    · simp
    · split
      · simp
      · split
        · simp
        · split
          · simp
          · split
            · simp
            · intro h; simp at h; exact ih _ _ _ _ h

theorem fixLoop_first (n : Nat) (it : Nat) (ctx : FileContext Tree)
    (results : List CheckResult) (dirty : Bool) (r parsed)
    (h : fixLoop E n it ctx results dirty = (r, parsed)) (hp : parsed ≠ []) :
    getRuleContextSuggestions results ≠ [] := by
  cases n with
  | zero => simp [fixLoop] at h; exact absurd h.2 hp
  | succ n =>
    rw [fixLoop] at h
    simp only at h
    split at h
    · simp at h; exact absurd h.2 hp
    · rename_i h'; simpa using h'

theorem fixLoop_nothing (n it : Nat) (ctx : FileContext Tree) (results : List CheckResult) (dirty : Bool)
    (h : getRuleContextSuggestions results = []) :
    fixLoop E (n + 1) it ctx results dirty = (.ok ctx results dirty it, []) := by
  rw [fixLoop]
  simp [h]

theorem fixLoop_next (n it : Nat) (ctx : FileContext Tree) (results : List CheckResult) (dirty : Bool)
    (over : List RuleName) (source : Text) (tree : Tree) (errors : Nat) (results' : List CheckResult)
    (h1 : getRuleContextSuggestions results ≠ [])
    (h2 : overlappingRules (E.sort (getRuleContextSuggestions results)) = .ok over)
    (h3 : applySuggestionsToText (filterSuggestions over (E.sort (getRuleContextSuggestions results)))
      ctx.sourceCode = some source)
    (h4 : E.parse source = some (tree, errors)) (h5 : E.runRules ctx.fileRules tree = some results') :
    fixLoop E (n + 1) it ctx results dirty =
      ((fixLoop E n (it + 1) { ctx with sourceCode := source, tree := tree, parseErrors := errors }
        results' true).1,
       source :: (fixLoop E n (it + 1)
        { ctx with sourceCode := source, tree := tree, parseErrors := errors } results' true).2) := by
  rw [fixLoop]
  simp [h1, h2, h3, h4, h5]

/-- Why the loop panics: parsing or checking a text, or the replacements in a text. -/
theorem fixLoop_panic (rules : List RuleName) (n : Nat) : ∀ (it : Nat) (ctx : FileContext Tree)
    (results : List CheckResult) (dirty : Bool),
    ctx.Consistent E rules results → ∀ parsed,
    fixLoop E n it ctx results dirty = (.panic, parsed) →
      ∃ text ∈ ctx.sourceCode :: parsed, E.parse text = none ∨
        ∃ tree errors, E.parse text = some (tree, errors) ∧ (E.runRules rules tree = none ∨
          ∃ l over, E.runRules rules tree = some l ∧
            overlappingRules (E.sort (getRuleContextSuggestions l)) = .ok over ∧
            applySuggestionsToText
              (filterSuggestions over (E.sort (getRuleContextSuggestions l))) text = none) := by
  induction n with
  | zero => intro it ctx results dirty _ parsed h; simp [fixLoop] at h
  | succ n ih =>
    intro it ctx results dirty hc parsed h
    rw [fixLoop] at h
    simp only at h
    split at h
    · cases h
    · split at h
      · simp at h
      · rename_i over hover
        split at h
        · rename_i happly
          exact ⟨ctx.sourceCode, List.mem_cons_self, .inr ⟨ctx.tree, ctx.parseErrors, hc.parse,
            .inr ⟨results, over, hc.results, hover, happly⟩⟩⟩
        · rename_i source _
          split at h
          · rename_i hp
            cases h
            exact ⟨source, by simp, .inl hp⟩
          · rename_i tree errors hparse
            split at h
            · rename_i hrun
              cases h
              rw [hc.sameRules] at hrun
              exact ⟨source, by simp, .inr ⟨tree, errors, hparse, .inl hrun⟩⟩
            · rename_i results₂ hrun
              generalize hrec : fixLoop E n (it + 1) _ _ true = rec at h
              obtain ⟨r1, r2⟩ := rec
              simp only [Prod.mk.injEq] at h
              obtain ⟨h1, h2⟩ := h
              subst h1
              obtain ⟨text, ht, hh⟩ := ih (it + 1)
                { ctx with sourceCode := source, tree := tree, parseErrors := errors }
                _ true ⟨hparse, hc.sameRules, by rw [← hc.sameRules]; exact hrun⟩ r2 hrec
              subst h2
              exact ⟨text, List.mem_cons_of_mem _ ht, hh⟩

end

/-! ## Overlap filter -/

theorem overlappingRules_mem {l : List (RuleName × Suggestion)} {over : List RuleName}
    (h : overlappingRules l = .ok over) (pre post : List (RuleName × Suggestion))
    (a b : RuleName × Suggestion) (hl : l = pre ++ a :: b :: post)
    (hab : a.2.range.ordering b.2.range = .eq) : b.1 ∈ over := by
  induction pre generalizing l over with
  | nil =>
    subst hl
    rw [List.nil_append, overlappingRules] at h
    simp only [hab, beq_self_eq_true, if_true] at h
    split at h
    · cases h
    · split at h
      · cases h
      · cases h; simp
  | cons p pre ih =>
    subst hl
    cases hq : pre ++ a :: b :: post with
    | nil => simp at hq
    | cons q qs =>
      rw [List.cons_append, hq, overlappingRules] at h
      split at h
      · split at h
        · cases h
        · split at h
          · cases h
          · rename_i rs hrs
            cases h
            rw [← hq] at hrs
            exact List.mem_cons_of_mem _ (ih hrs rfl)
      · rw [← hq] at h
        exact ih h rfl

theorem overlappingRules_nil {l : List (RuleName × Suggestion)}
    (h : overlappingRules l = .ok []) (pre post : List (RuleName × Suggestion))
    (a b : RuleName × Suggestion) (hl : l = pre ++ a :: b :: post) :
    a.2.range.ordering b.2.range ≠ .eq := fun hab => by
  have := overlappingRules_mem h pre post a b hl hab
  simp at this

end Ludtwig.Cli
