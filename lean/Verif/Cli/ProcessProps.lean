import Verif.Cli.ProcessLemmas

/-! # Fix application and fix loop: properties C21–C25, C43 -/

namespace Ludtwig.Cli

/-! ## C21: fix application is the simultaneous edit -/

/-- An edit: unchanged text before it, the old text and its replacement. -/
structure Edit where
  keep : Text
  old : Text
  new : Text

/-- The text before the edits. -/
def before : List Edit → Text → Text
  | [], tail => tail
  | e :: es, tail => e.keep ++ (e.old ++ before es tail)

/-- The text after the edits: every `old` replaced, everything else kept. -/
def after : List Edit → Text → Text
  | [], tail => tail
  | e :: es, tail => e.keep ++ (e.new ++ after es tail)

/-- The suggestions that say these edits: byte ranges of the `old` parts. -/
def suggestionsOf (offset : Nat) : List Edit → List Suggestion
  | [] => []
  | e :: es =>
    let start := offset + byteLen e.keep
    let stop := start + byteLen e.old
    { range := ⟨start, stop⟩, replaceWith := e.new } :: suggestionsOf stop es

theorem apply_suggestionsOf (es : List Edit) (tail : Text) : ∀ pre : Text,
    applySuggestionsToText (suggestionsOf (byteLen pre) es) (pre ++ before es tail) =
      some (pre ++ after es tail) := by
  induction es with
  | nil => intro pre; rfl
  | cons e es ih =>
    intro pre
    rw [suggestionsOf, apply_cons]
    have h1 : byteLen pre + byteLen e.keep + byteLen e.old = byteLen (pre ++ e.keep ++ e.old) := by
      simp [byteLen_append, Nat.add_assoc]
    have h2 : pre ++ before (e :: es) tail = (pre ++ e.keep ++ e.old) ++ before es tail := by
      simp [before]
    simp only [h1, h2, ih, Option.bind_some]
    rw [← h1, ← byteLen_append, show pre ++ e.keep ++ e.old ++ after es tail =
      (pre ++ e.keep) ++ (e.old ++ after es tail) by simp, replaceRange_mid]
    simp [after]

theorem decompose (sugs : List Suggestion) : ∀ (pre rest : Text),
    (∀ s ∈ sugs, byteLen pre ≤ s.range.start ∧ s.range.start ≤ s.range.stop ∧
      OnBoundary (pre ++ rest) s.range.start ∧ OnBoundary (pre ++ rest) s.range.stop) →
    sugs.Pairwise (fun a b => a.range.stop ≤ b.range.start) →
    ∃ es tail, rest = before es tail ∧ sugs = suggestionsOf (byteLen pre) es := by
  induction sugs with
  | nil => intro pre rest _ _; exact ⟨[], rest, rfl, rfl⟩
  | cons s ss ih =>
    intro pre rest hb hp
    obtain ⟨h0, h1, ⟨a, b, hab, ha⟩, ⟨c, d, hcd, hc⟩⟩ := hb s (by simp)
    obtain ⟨keep, rfl, hrest⟩ := split_le hab (by omega)
    rw [hab] at hcd
    obtain ⟨old, rfl, hb'⟩ := split_le hcd (by omega)
    rw [List.pairwise_cons] at hp
    have hpr : pre ++ rest = pre ++ keep ++ old ++ d := by rw [hrest, hb']; simp
    obtain ⟨es, tail, h3, h4⟩ := ih (pre ++ keep ++ old) d (by
      intro s' hs'
      obtain ⟨g0, g1, g2, g3⟩ := hb s' (by simp [hs'])
      refine ⟨?_, g1, by rwa [← hpr], by rwa [← hpr]⟩
      rw [hc]; exact hp.1 s' hs') hp.2
    refine ⟨⟨keep, old, s.replaceWith⟩ :: es, tail, ?_, ?_⟩
    · rw [before, ← h3, hrest, hb']
    · rw [suggestionsOf]
      have e1 : byteLen pre + byteLen keep = s.range.start := by rw [← ha, byteLen_append]
      have e2 : byteLen pre + byteLen keep + byteLen old = s.range.stop := by
        rw [← hc, byteLen_append, byteLen_append]
      have e3 : byteLen (pre ++ keep ++ old) = s.range.stop := hc
      simp only [e1]
      rw [e1] at e2
      rw [e2, h4, e3]

/-- C21: for suggestions in ascending order with pairwise disjoint ranges on char boundaries,
applying them succeeds and gives the text in which exactly the suggested ranges are replaced:
there is one decomposition of the text into kept and old parts such that the suggestions are the
byte ranges of the old parts, and the result is the kept parts with the replacements. -/
theorem C21_apply_is_simultaneous_edit (text : Text) (sugs : List Suggestion)
    (hb : ∀ s ∈ sugs, s.range.start ≤ s.range.stop ∧
      OnBoundary text s.range.start ∧ OnBoundary text s.range.stop)
    (hp : sugs.Pairwise (fun a b => a.range.stop ≤ b.range.start)) :
    ∃ es tail, text = before es tail ∧ sugs = suggestionsOf 0 es ∧
      applySuggestionsToText sugs text = some (after es tail) := by
  obtain ⟨es, tail, h1, h2⟩ := decompose sugs [] text (by
    intro s hs; obtain ⟨a, b, c⟩ := hb s hs; exact ⟨by simp, a, b, c⟩) hp
  refine ⟨es, tail, h1, h2, ?_⟩
  have := apply_suggestionsOf es tail []
  rw [h2, h1]
  simpa using this

example : suggestionsOf 0 [⟨"a".toList, "é".toList, "".toList⟩, ⟨"b".toList, "".toList, "xy".toList⟩]
      = [⟨⟨1, 3⟩, []⟩, ⟨⟨4, 4⟩, ['x', 'y']⟩] ∧
    applySuggestionsToText [⟨⟨1, 3⟩, []⟩, ⟨⟨4, 4⟩, ['x', 'y']⟩] "aébc".toList
      = some "abxyc".toList := by decide

/-! ## C22: overlap -/

/-- The insertion sort that the standard library's stable `sort_by` uses for short slices (at most
20 elements): each element moves left past the elements it is `Less` than. Works on the reversed
prefix. -/
def insertionSort (l : List (RuleName × Suggestion)) : List (RuleName × Suggestion) :=
  let ins (revSorted : List (RuleName × Suggestion)) (x : RuleName × Suggestion) :=
    let moved := revSorted.takeWhile (fun p => x.2.range.ordering p.2.range == .lt)
    moved ++ x :: revSorted.drop moved.length
  (l.foldl ins []).reverse

/-- C22, counterexample: three suggestions of three rules (as the fix loop may receive them from
arbitrary rules) for which the overlap filter keeps two overlapping ones. -/
theorem C22_overlap_can_be_applied :
    ∃ sugs over, overlappingRules (insertionSort sugs) = .ok over ∧
      ∃ a ∈ filterSuggestions over (insertionSort sugs),
      ∃ b ∈ filterSuggestions over (insertionSort sugs),
        a ≠ b ∧ a.range.start < b.range.stop ∧ b.range.start < a.range.stop :=
  ⟨[("a".toList, ⟨⟨0, 10⟩, []⟩), ("b".toList, ⟨⟨1, 2⟩, []⟩), ("c".toList, ⟨⟨3, 4⟩, []⟩)],
   ["b".toList], by rfl, ⟨⟨0, 10⟩, []⟩, by decide, ⟨⟨3, 4⟩, []⟩, by decide, by decide⟩

/-- C22 restricted: if, after sorting, the starts and the ends of the (non-empty) ranges are both
ascending (no suggestion lies inside a longer earlier one), the suggestions that are applied are
pairwise disjoint and in ascending order. Missing from the full claim: nested ranges, for which it
is false (`C22_overlap_can_be_applied`). -/
theorem C22_applied_disjoint_partial (sorted : List (RuleName × Suggestion)) (over : List RuleName)
    (hmono : sorted.Pairwise (fun a b =>
      a.2.range.start ≤ b.2.range.start ∧ a.2.range.stop ≤ b.2.range.stop))
    (hne : ∀ p ∈ sorted, p.2.range.start < p.2.range.stop)
    (h : overlappingRules sorted = .ok over) :
    (filterSuggestions over sorted).Pairwise (fun a b => a.range.stop ≤ b.range.start) := by
  unfold filterSuggestions
  rw [List.pairwise_map]
  -- every kept later element starts after every earlier element
  have key : ∀ (l pre : List (RuleName × Suggestion)), sorted = pre ++ l →
      (l.filter (fun p => !over.contains p.1)).Pairwise
        (fun a b => a.2.range.stop ≤ b.2.range.start) := by
    intro l
    induction l with
    | nil => intros; simp
    | cons x xs ih =>
      intro pre hl
      have ih' := ih (pre ++ [x]) (by simp [hl])
      rw [List.filter_cons]
      split
      · rw [List.pairwise_cons]
        refine ⟨?_, ih'⟩
        intro y hy
        obtain ⟨hy1, hy2⟩ := List.mem_filter.1 hy
        obtain ⟨as, bs, hxs⟩ := List.append_of_mem hy1
        -- predecessor of y
        obtain ⟨q, qs, hq⟩ : ∃ q qs, x :: as = qs ++ [q] := by
          refine ⟨(x :: as).getLast (by simp), (x :: as).dropLast, ?_⟩
          rw [List.dropLast_concat_getLast]
        have hsplit : sorted = (pre ++ qs) ++ q :: y :: bs := by
          rw [hl, hxs, show x :: (as ++ y :: bs) = (x :: as) ++ y :: bs by rfl, hq]; simp
        have hno : q.2.range.ordering y.2.range ≠ .eq := by
          intro hab
          have := overlappingRules_mem h _ _ q y hsplit hab
          simp at hy2
          exact hy2 this
        have hqx : q = x ∨ (x.2.range.start ≤ q.2.range.start ∧ x.2.range.stop ≤ q.2.range.stop) := by
          cases qs with
          | nil => simp at hq; exact .inl hq.1.symm
          | cons z zs =>
            simp at hq
            obtain ⟨rfl, hq⟩ := hq
            right
            rw [hsplit] at hmono
            rw [List.pairwise_append] at hmono
            exact hmono.2.2 x (by simp) q (by simp)
        have hqy : q.2.range.start ≤ y.2.range.start ∧ q.2.range.stop ≤ y.2.range.stop := by
          rw [hsplit, List.pairwise_append, List.pairwise_cons] at hmono
          exact hmono.2.1.1 y (by simp)
        have hnq := hne q (by rw [hsplit]; simp)
        have hny := hne y (by rw [hsplit]; simp)
        have hqs : q.2.range.stop ≤ y.2.range.start := by
          unfold TextRange.ordering at hno
          split at hno
          · assumption
          · split at hno
            · omega
            · exact absurd rfl hno
        rcases hqx with rfl | hqx
        · exact hqs
        · omega
      · exact ih'
  exact key sorted [] rfl

example : overlappingRules [("a".toList, ⟨⟨0, 3⟩, []⟩), ("b".toList, ⟨⟨2, 5⟩, []⟩), ("a".toList, ⟨⟨6, 7⟩, []⟩)]
    = .ok ["b".toList] := by rfl

/-- C22 restricted to rounds in which nothing had to be filtered: if no two adjacent suggestions
overlap and the sort left no adjacent pair out of order, the applied ones are pairwise disjoint in
ascending order (so C21 applies). -/
theorem C22_unfiltered_disjoint (sorted : List (RuleName × Suggestion))
    (hrange : ∀ p ∈ sorted, p.2.range.start ≤ p.2.range.stop)
    (hsorted : ∀ pre a b post, sorted = pre ++ a :: b :: post →
      a.2.range.ordering b.2.range ≠ .gt)
    (h : overlappingRules sorted = .ok []) :
    filterSuggestions [] sorted = sorted.map (·.2) ∧
    (sorted.map (·.2)).Pairwise (fun a b => a.range.stop ≤ b.range.start) := by
  constructor
  · unfold filterSuggestions
    rw [List.filter_eq_self.2 (by simp)]
  · rw [List.pairwise_map]
    have key : ∀ (l pre : List (RuleName × Suggestion)), sorted = pre ++ l →
        l.Pairwise (fun a b => a.2.range.stop ≤ b.2.range.start) := by
      intro l
      induction l with
      | nil => intros; simp
      | cons x xs ih =>
        intro pre hl
        have ih' := ih (pre ++ [x]) (by simp [hl])
        rw [List.pairwise_cons]
        refine ⟨?_, ih'⟩
        cases xs with
        | nil => simp
        | cons y ys =>
          have h1 := hsorted pre x y ys hl
          have h2 := overlappingRules_nil h pre ys x y hl
          have hxy : x.2.range.stop ≤ y.2.range.start := by
            unfold TextRange.ordering at h1 h2
            split at h1
            · assumption
            · rename_i hn
              split at h1
              · exact absurd rfl h1
              · rename_i hn'; rw [if_neg hn, if_neg hn'] at h2; exact absurd rfl h2
          intro z hz
          rw [List.mem_cons] at hz
          rcases hz with rfl | hz
          · exact hxy
          · rw [List.pairwise_cons] at ih'
            have := ih'.1 z hz
            have := hrange y (by simp [hl])
            omega
    exact key sorted [] rfl

/-! ## C50: what the overlap check does -/

/-- Two suggestions next to each other in the sorted list overlap. -/
def AdjacentOverlap (l : List (RuleName × Suggestion)) (a b : RuleName × Suggestion) : Prop :=
  (∃ pre post, l = pre ++ a :: b :: post) ∧
    ¬ a.2.range.stop ≤ b.2.range.start ∧ ¬ b.2.range.stop ≤ a.2.range.start

theorem ordering_eq_iff (a b : TextRange) :
    a.ordering b = .eq ↔ ¬ a.stop ≤ b.start ∧ ¬ b.stop ≤ a.start := by
  unfold TextRange.ordering
  split
  · simp [*]
  · split <;> simp [*]

theorem adjacentOverlap_cons (x y : RuleName × Suggestion) (l : List (RuleName × Suggestion))
    (a b : RuleName × Suggestion) : AdjacentOverlap (x :: y :: l) a b ↔
      (a = x ∧ b = y ∧ x.2.range.ordering y.2.range = .eq) ∨ AdjacentOverlap (y :: l) a b := by
  unfold AdjacentOverlap
  constructor
  · rintro ⟨⟨pre, post, h⟩, h'⟩
    cases pre with
    | nil =>
      simp only [List.nil_append, List.cons.injEq] at h
      obtain ⟨rfl, rfl, rfl⟩ := h
      exact .inl ⟨rfl, rfl, (ordering_eq_iff _ _).2 h'⟩
    | cons z pre =>
      simp only [List.cons_append, List.cons.injEq] at h
      exact .inr ⟨⟨pre, post, h.2⟩, h'⟩
  · rintro (⟨rfl, rfl, h⟩ | ⟨⟨pre, post, h⟩, h'⟩)
    · exact ⟨⟨[], l, rfl⟩, (ordering_eq_iff _ _).1 h⟩
    · exact ⟨⟨x :: pre, post, by rw [h]; rfl⟩, h'⟩

theorem adjacentOverlap_single (l : List (RuleName × Suggestion)) (hl : l.length ≤ 1)
    (a b : RuleName × Suggestion) : ¬ AdjacentOverlap l a b := by
  rintro ⟨⟨pre, post, rfl⟩, _⟩
  simp at hl
  omega

/-- C50: the overlap check fails exactly if two adjacent suggestions of one rule overlap, and then it
names such a rule; otherwise it leaves out exactly the rules of the later suggestion of an
overlapping adjacent pair. -/
theorem C50_overlap_check (sorted : List (RuleName × Suggestion)) :
    match overlappingRules sorted with
    | .error e => ∃ a b, AdjacentOverlap sorted a b ∧ a.1 = b.1 ∧ e = .overlappingSuggestionInSingleRule a.1
    | .ok over => (∀ a b, AdjacentOverlap sorted a b → a.1 ≠ b.1) ∧
        ∀ r, r ∈ over ↔ ∃ a b, AdjacentOverlap sorted a b ∧ b.1 = r := by
  induction sorted with
  | nil => exact ⟨fun a b h => absurd h (adjacentOverlap_single _ (by simp) a b),
      fun r => ⟨by simp, fun ⟨a, b, h, _⟩ => absurd h (adjacentOverlap_single _ (by simp) a b)⟩⟩
  | cons x l ih =>
    cases l with
    | nil => exact ⟨fun a b h => absurd h (adjacentOverlap_single _ (by simp) a b),
        fun r => ⟨by simp, fun ⟨a, b, h, _⟩ => absurd h (adjacentOverlap_single _ (by simp) a b)⟩⟩
    | cons y l =>
      rw [overlappingRules]
      by_cases ho : x.2.range.ordering y.2.range = .eq
      · simp only [ho, beq_self_eq_true, if_true]
        by_cases hxy : x.1 = y.1
        · simp only [hxy, beq_self_eq_true, if_true]
          exact ⟨x, y, (adjacentOverlap_cons ..).2 (.inl ⟨rfl, rfl, ho⟩), hxy, by rw [hxy]⟩
        · have hb : (x.1 == y.1) = false := by simpa using hxy
          simp only [hb, Bool.false_eq_true, if_false]
          split at ih
          · rename_i e he
            rw [he]
            obtain ⟨a, b, h1, h2⟩ := ih
            exact ⟨a, b, (adjacentOverlap_cons ..).2 (.inr h1), h2⟩
          · rename_i over he
            rw [he]
            refine ⟨fun a b h => ?_, fun r => ?_⟩
            · rcases (adjacentOverlap_cons ..).1 h with ⟨rfl, rfl, _⟩ | h
              · exact hxy
              · exact ih.1 a b h
            · rw [List.mem_cons, ih.2]
              constructor
              · rintro (rfl | ⟨a, b, h, hr⟩)
                · exact ⟨x, y, (adjacentOverlap_cons ..).2 (.inl ⟨rfl, rfl, ho⟩), rfl⟩
                · exact ⟨a, b, (adjacentOverlap_cons ..).2 (.inr h), hr⟩
              · rintro ⟨a, b, h, hr⟩
                rcases (adjacentOverlap_cons ..).1 h with ⟨rfl, rfl, _⟩ | h
                · exact .inl hr.symm
                · exact .inr ⟨a, b, h, hr⟩
      · have hb : (x.2.range.ordering y.2.range == .eq) = false := by simpa using ho
        simp only [hb, Bool.false_eq_true, if_false]
        have key : ∀ a b, AdjacentOverlap (x :: y :: l) a b ↔ AdjacentOverlap (y :: l) a b := by
          intro a b
          rw [adjacentOverlap_cons]
          constructor
          · rintro (⟨_, _, h⟩ | h)
            · exact absurd h ho
            · exact h
          · exact .inr
        simp only [key]
        exact ih

example : overlappingRules [("a".toList, ⟨⟨0, 3⟩, []⟩), ("b".toList, ⟨⟨2, 5⟩, []⟩), ("b".toList, ⟨⟨4, 7⟩, []⟩)]
    = .error (.overlappingSuggestionInSingleRule "b".toList) := by rfl

/-! ## C23–C25: the fix loop and writing -/

section
variable {Tree : Type} (E : Engine Tree)

/-- Parsing `text` and running `rules` on it returns, with `errors` parse errors and `results`. -/
def Checked (rules : List RuleName) (text : Text) (errors : Nat) (results : List CheckResult) : Prop :=
  ∃ tree, E.parse text = some (tree, errors) ∧ E.runRules rules tree = some results

/-- The rules that apply to a file with content `text`. -/
def RulesOf (text : Text) (rules : List RuleName) : Prop :=
  ∃ tree errors, E.parse text = some (tree, errors) ∧ E.fileRules tree = rules

/-- C23: at most one write; a write happens only with `--fix`, when the original had at least one
suggestion, at least one fix round was made and the fix loop succeeded (the only remaining failure
is the write itself), and it writes the last text that was parsed. Any other error, a panic, or a
run without `--fix` writes nothing. -/
theorem C23_written_only_by_successful_fix (flags : Flags) (writeOk : Bool) (content : Option Text) :
    let r := processFile E flags writeOk content
    r.writes.length ≤ 1 ∧
    (∀ t, t ∈ r.writes → flags.fix = true ∧ r.outcome = (if writeOk then .ok else .err .fileWrite) ∧
      2 ≤ r.parsed.length ∧ r.parsed.getLast? = some t ∧
      ∃ original rules errors results, content = some original ∧ RulesOf E original rules ∧
        Checked E rules original errors results ∧ getRuleContextSuggestions results ≠ []) ∧
    (flags.fix = false → r.writes = []) ∧
    (r.outcome ≠ .ok → r.outcome ≠ .err .fileWrite → r.writes = []) := by
  intro r
  have hr : r = processFile E flags writeOk content := rfl
  clear_value r
  cases content with
  | none => subst hr; simp [processFile]
  | some original =>
    simp only [processFile, runAnalysis] at hr
    split at hr
    · subst hr; simp
    · rename_i tree errors hparse
      split at hr
      · subst hr; simp
      · rename_i results hrun
        split at hr
        · rename_i hfix
          split at hr
          · subst hr; simp
          · subst hr; simp
          · rename_i ctx results' dirty it parsed hloop
            unfold iterativelyApplySuggestions at hloop
            obtain ⟨_, _, h4, h5, _, h7⟩ :=
              fixLoop_ok E _ 10 0 _ _ false ⟨hparse, rfl, hrun⟩ _ _ _ _ _ hloop
            have hfirst := fixLoop_first E 10 0 _ _ false _ _ hloop
            cases dirty with
            | false =>
              simp at hr; subst hr; simp
            | true =>
              simp at h4
              have hlast : (original :: parsed).getLast? = some ctx.sourceCode := by
                rw [h5, List.getLast?_cons]
              have hlen : 2 ≤ (original :: parsed).length := by
                cases parsed with
                | nil => exact absurd rfl h4
                | cons a b => simp
              cases writeOk with
              | true =>
                simp at hr
                subst hr
                refine ⟨by simp, ?_, by simp [hfix], by simp⟩
                intro t ht
                simp at ht
                subst ht
                exact ⟨hfix, rfl, hlen, hlast, original, _, errors, results, rfl,
                  ⟨tree, errors, hparse, rfl⟩, ⟨tree, hparse, hrun⟩, hfirst h4⟩
              | false =>
                simp at hr
                subst hr
                refine ⟨by simp, ?_, by simp [hfix], by simp⟩
                intro t ht
                simp at ht
                subst ht
                exact ⟨hfix, rfl, hlen, hlast, original, _, errors, results, rfl,
                  ⟨tree, errors, hparse, rfl⟩, ⟨tree, hparse, hrun⟩, hfirst h4⟩
        · rename_i hfix
          subst hr
          simp at hfix
          simp [hfix]

/-- C24: if processing with `--fix` succeeds, then the file's final content has, when parsed and
checked with the file's rules, no suggestion left, and the reported diagnostics are exactly those
of that content. -/
theorem C24_successful_fix_is_complete (flags : Flags) (original : Text)
    (hfix : flags.fix = true)
    (hok : (runAnalysis E flags true original).outcome = .ok) :
    let r := runAnalysis E flags true original
    let final := contentAfter original r
    ∃ rules errors results, RulesOf E original rules ∧ Checked E rules final errors results ∧
      getRuleContextSuggestions results = [] ∧
      r.events = produceDiagnostics flags.inspect errors results ++ [.outputStderrMessage] := by
  intro r final
  have hr : r = runAnalysis E flags true original := rfl
  have hf : final = contentAfter original r := rfl
  rw [← hr] at hok
  clear_value r
  clear_value final
  simp only [runAnalysis, hfix, if_true] at hr
  split at hr
  · subst hr; simp at hok
  rename_i tree errors hparse
  split at hr
  · subst hr; simp at hok
  rename_i results hrun
  split at hr
  · subst hr; simp at hok
  · subst hr; simp at hok
  · rename_i ctx results' dirty it parsed hloop
    unfold iterativelyApplySuggestions at hloop
    obtain ⟨⟨h1, h1', h1''⟩, h3, h4, h5, _, _⟩ :=
      fixLoop_ok E _ 10 0 _ _ false ⟨hparse, rfl, hrun⟩ _ _ _ _ _ hloop
    simp at hr
    have hfinal : final = ctx.sourceCode := by
      rw [hf, hr]
      simp only [contentAfter]
      cases dirty with
      | true => simp
      | false =>
        simp at h4
        subst h4
        simp at h5
        simp [h5]
    refine ⟨_, ctx.parseErrors, results', ⟨tree, errors, hparse, rfl⟩, ?_, h3, ?_⟩
    · rw [hfinal]; exact ⟨_, h1, h1''⟩
    · rw [hr]

/-- C53: a second run with `--fix` on the result of a successful one writes nothing, parses only the
file and reports the same, provided the same rules apply to the result (a fix could change the
`ludtwig-ignore-file` directives). -/
theorem C53_second_fix_changes_nothing (flags : Flags) (writeOk : Bool) (original : Text)
    (hfix : flags.fix = true)
    (hok : (runAnalysis E flags true original).outcome = .ok)
    (hrules : ∀ rules, RulesOf E original rules →
      RulesOf E (contentAfter original (runAnalysis E flags true original)) rules) :
    let r := runAnalysis E flags true original
    let r' := runAnalysis E flags writeOk (contentAfter original r)
    r'.outcome = .ok ∧ r'.writes = [] ∧ r'.events = r.events ∧
      r'.parsed = [contentAfter original r] := by
  obtain ⟨rules, errors, results, hr, ⟨tree, hp, hrun⟩, hs, he⟩ :=
    C24_successful_fix_is_complete E flags original hfix hok
  intro r r'
  obtain ⟨tree', errors', hp', hrules'⟩ := hrules rules hr
  rw [hp'] at hp
  simp only [Option.some.injEq, Prod.mk.injEq] at hp
  obtain ⟨rfl, rfl⟩ := hp
  have h : r' = { writes := [], events := produceDiagnostics flags.inspect errors' results ++
      [.outputStderrMessage], outcome := .ok, parsed := [contentAfter original r] } := by
    show runAnalysis E flags writeOk (contentAfter original r) = _
    unfold runAnalysis
    simp only [hfix, if_true]
    rw [hp']
    dsimp only
    rw [hrules', hrun]
    dsimp only
    unfold iterativelyApplySuggestions
    rw [fixLoop_nothing E 9 0 _ _ _ hs]
    simp
  rw [h]
  exact ⟨rfl, rfl, he.symm, rfl⟩

/-- C25: at most ten texts are parsed after the original one; success needs fewer than ten rounds;
and if all ten rounds are used up the iteration error is returned (unless the last round panics). -/
theorem C25_fix_loop_bounded (flags : Flags) (writeOk : Bool) (original : Text) :
    let r := runAnalysis E flags writeOk original
    r.parsed.length ≤ 11 ∧ r.parsed.head? = some original ∧
    (r.outcome = .ok → r.parsed.length ≤ 10) ∧
    (r.parsed.length = 11 → r.outcome = .err .maxApplyIteration ∨ r.outcome = .panic) := by
  intro r
  have hr : r = runAnalysis E flags writeOk original := rfl
  clear_value r
  simp only [runAnalysis] at hr
  split at hr
  · subst hr; simp
  rename_i tree errors hparse
  split at hr
  · subst hr; simp
  rename_i results hrun
  split at hr
  · have hle := fixLoop_parsed_le E 10 0
      { tree := tree, sourceCode := original, parseErrors := errors, fileRules := E.fileRules tree }
      results false
    have hfull := fixLoop_full E 10 0
      { tree := tree, sourceCode := original, parseErrors := errors, fileRules := E.fileRules tree }
      results false
    split at hr
    · rename_i hloop
      unfold iterativelyApplySuggestions at hloop
      rw [hloop] at hle
      subst hr
      exact ⟨by simp; simpa using hle, rfl, by simp, by simp⟩
    · rename_i hloop
      unfold iterativelyApplySuggestions at hloop
      rw [hloop] at hle hfull
      simp only at hle hfull
      subst hr
      refine ⟨by simp; omega, rfl, by simp, ?_⟩
      intro h; simp at h
      have := hfull h
      simp at this
      simp [this]
    · rename_i hloop
      unfold iterativelyApplySuggestions at hloop
      obtain ⟨_, _, _, _, _, h7⟩ :=
        fixLoop_ok E _ 10 0 _ _ false ⟨hparse, rfl, hrun⟩ _ _ _ _ _ hloop
      split at hr <;> subst hr <;> (refine ⟨by simp; omega, rfl, ?_, ?_⟩ <;> simp <;> omega)
  · subst hr; simp

end

/-- An engine whose single rule always suggests to insert one more char: the loop gives up after
exactly ten rounds and nothing is written. -/
def stubbornEngine : Engine Unit where
  parse _ := some ((), 0)
  fileRules _ := [['x']]
  runRules _ _ := some [⟨['x'], .help, [⟨⟨0, 0⟩, ['x']⟩], none, []⟩]
  sort := id

example : (runAnalysis stubbornEngine ⟨true, false⟩ true ['a']).outcome = .err .maxApplyIteration ∧
    (runAnalysis stubbornEngine ⟨true, false⟩ true ['a']).parsed.length = 11 ∧
    (runAnalysis stubbornEngine ⟨true, false⟩ true ['a']).writes = [] := by decide

/-- An engine that deletes the first byte while the text is not empty (the tree is the text). -/
def eatEngine : Engine Text where
  parse t := some (t, 0)
  fileRules _ := [['x']]
  runRules _ t := some (if t.isEmpty then [] else [⟨['x'], .help, [⟨⟨0, 1⟩, []⟩], none, []⟩])
  sort := id

example : (runAnalysis eatEngine ⟨true, false⟩ true ['a', 'b']).outcome = .ok ∧
    (runAnalysis eatEngine ⟨true, false⟩ true ['a', 'b']).writes = [[]] := by decide

/-- The conditions of `C53_second_fix_changes_nothing` hold for this engine and text. -/
example : (runAnalysis eatEngine ⟨true, false⟩ true ['a', 'b']).outcome = .ok ∧
    ∀ t rules, RulesOf eatEngine t rules → ∀ t', RulesOf eatEngine t' rules :=
  ⟨by decide, fun _ _ ⟨_, _, _, h⟩ t' => ⟨t', 0, rfl, h⟩⟩

/-! ## C43: every problem is counted -/

/-- C43: for a successfully processed file the summary counts one file, every parse error and every
rule result under its severity (plus one info with `--inspect`), of the text that is reported. -/
theorem C43_every_problem_counted {Tree : Type} (E : Engine Tree) (flags : Flags) (writeOk : Bool)
    (original : Text) (hok : (processFile E flags writeOk (some original)).outcome = .ok) :
    ∃ final rules errors results,
      let sev (s : Severity) := results.countP (fun r => r.severity == s)
      RulesOf E original rules ∧ Checked E rules final errors results ∧
      (flags.fix = false → final = original) ∧
      contentAfter original (processFile E flags writeOk (some original)) = final ∧
      receiveAll (processFile E flags writeOk (some original)).events =
        { files := 1
          errors := errors + sev .error
          warnings := sev .warning
          helps := sev .help
          infos := (if flags.inspect then 1 else 0) + sev .info } := by
  have key : ∀ (n : Nat) (results : List CheckResult),
      receiveAll (.fileProcessed :: (produceDiagnostics flags.inspect n results ++
        [.outputStderrMessage]) ++ []) =
        { files := 1
          errors := n + results.countP (fun r => r.severity == .error)
          warnings := results.countP (fun r => r.severity == .warning)
          helps := results.countP (fun r => r.severity == .help)
          infos := (if flags.inspect then 1 else 0) + results.countP (fun r => r.severity == .info) } := by
    intro n results
    have hc : ∀ s, (results.map (fun r => Event.report r.severity)).count (.report s) =
        results.countP (fun r => r.severity == s) := by
      intro s
      rw [List.count_eq_countP, List.countP_map]
      congr 1
      funext r
      rw [Bool.eq_iff_iff]; simp
    have hf : (results.map (fun r => Event.report r.severity)).count .fileProcessed = 0 := by
      rw [List.count_eq_zero]; simp
    rw [C43_counts_exact]
    unfold produceDiagnostics
    cases flags.inspect <;>
      simp [List.count_append, List.count_replicate, hc, hf, Nat.add_comm]
  generalize hR : processFile E flags writeOk (some original) = R at *
  simp only [processFile, runAnalysis] at hR
  split at hR
  · subst hR; simp at hok
  rename_i tree errors hparse
  split at hR
  · subst hR; simp at hok
  rename_i results hrun
  split at hR
  · rename_i hfix
    split at hR
    · subst hR; simp at hok
    · subst hR; simp at hok
    · rename_i ctx results' dirty it parsed hloop
      unfold iterativelyApplySuggestions at hloop
      obtain ⟨⟨h1, h1', h1''⟩, h3, h4, h5, _, _⟩ :=
        fixLoop_ok E _ 10 0 _ _ false ⟨hparse, rfl, hrun⟩ _ _ _ _ _ hloop
      split at hR
      · subst hR; simp at hok
      · simp only at hR
        refine ⟨ctx.sourceCode, _, ctx.parseErrors, results', ⟨tree, errors, hparse, rfl⟩,
          ⟨_, h1, h1''⟩, by simp [hfix], ?_, ?_⟩
        · subst hR
          simp only [contentAfter]
          cases dirty with
          | true => simp
          | false =>
            simp at h4; subst h4; simp at h5; simp [h5]
        · subst hR
          simp only
          rw [key]
  · rename_i hfix
    simp only at hR
    refine ⟨original, _, errors, results, ⟨tree, errors, hparse, rfl⟩, ⟨_, hparse, hrun⟩,
      fun _ => rfl, ?_, ?_⟩
    · subst hR; simp [contentAfter]
    · subst hR; simp only; rw [key]

/-! ## C52: a file that fails is reported -/

/-- C52: if a file cannot be processed, nothing but this one error is reported for it (no findings of
a text that is not on disk), and unless the write itself failed the file keeps its content. -/
theorem C52_failed_file_reported {Tree : Type} (E : Engine Tree) (flags : Flags) (writeOk : Bool)
    (content : Option Text) (e : FileError)
    (h : (processFile E flags writeOk content).outcome = .err e) :
    receiveAll (processFile E flags writeOk content).events = { files := 1, errors := 1 } ∧
    (e ≠ .fileWrite → (processFile E flags writeOk content).writes = []) := by
  refine ⟨?_, fun he => (C23_written_only_by_successful_fix E flags writeOk content).2.2.2
    (by rw [h]; simp) (by rw [h]; simpa using he)⟩
  generalize hR : processFile E flags writeOk content = R at *
  cases content with
  | none => subst hR; rfl
  | some original =>
    simp only [processFile, runAnalysis] at hR
    split at hR
    · subst hR; simp at h
    split at hR
    · subst hR; simp at h
    split at hR
    · split at hR
      · subst hR; simp at h
      · subst hR; rfl
      · split at hR
        · subst hR; rfl
        · subst hR; simp at h
    · subst hR; simp at h

example : (processFile stubbornEngine ⟨true, false⟩ true (some ['a'])).outcome = .err .maxApplyIteration := by
  decide

end Ludtwig.Cli
