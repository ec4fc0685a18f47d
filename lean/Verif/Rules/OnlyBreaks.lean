import Verif.Rules.BreakSettled

/-!
# Fixing the line breaks around blocks changes line breaks only: property C97
-/

namespace Ludtwig.Rules

open Cli Lexer Layout Shape

/-- A text without LFs and CRs. -/
def unbroken (s : Text) : Text := s.filter (fun c => !(c == '\n' || c == '\r'))

/-- Wherever the first text has an LF, the second one has an LF too: with the same other characters before it
and behind it. -/
def LinesKept (s s' : Text) : Prop :=
  ∀ a d, s = a ++ '\n' :: d → ∃ a' d', s' = a' ++ '\n' :: d' ∧ unbroken a' = unbroken a ∧ unbroken d' = unbroken d

theorem LinesKept.refl (s : Text) : LinesKept s s := fun a d h => ⟨a, d, h, rfl, rfl⟩

theorem LinesKept.trans {s s' s'' : Text} (h : LinesKept s s') (h' : LinesKept s' s'') : LinesKept s s'' := by
  intro a d hs
  obtain ⟨a', d', hs', ha, hd⟩ := h a d hs
  obtain ⟨a'', d'', hs'', ha', hd'⟩ := h' a' d' hs'
  exact ⟨a'', d'', hs'', ha'.trans ha, hd'.trans hd⟩

theorem unbroken_append (s t : Text) : unbroken (s ++ t) = unbroken s ++ unbroken t := List.filter_append ..

theorem unbroken_breaks {t : Text} (h : IsLineBreaks t) : unbroken t = [] := by
  obtain ⟨l, rfl, hl⟩ := h
  refine List.filter_eq_nil_iff.2 (fun c hc => ?_)
  obtain ⟨x, hx, hc⟩ := List.mem_flatten.1 hc
  rcases hl x hx with rfl | rfl
  · simp only [List.mem_cons, List.not_mem_nil, or_false] at hc
    subst hc; decide
  · simp only [List.mem_cons, List.not_mem_nil, or_false] at hc
    rcases hc with rfl | rfl <;> decide

theorem spaced_unbroken {u : Text} {ts : List Token} {s' : Text} (h : Spaced u ts s') :
    (∀ t ∈ ts, t.kind = .TK_LINE_BREAK → IsLineBreaks t.text) →
      unbroken s' = unbroken (ts.flatMap (·.text)) := by
  induction h with
  | nil => intro _; rfl
  | keep _ ih =>
    intro hl
    rw [List.flatMap_cons, unbroken_append, unbroken_append, ih (fun t ht => hl t (List.mem_cons_of_mem _ ht))]
  | insert _ hb _ _ _ ih =>
    intro hl
    rw [List.flatMap_cons, unbroken_append, unbroken_append, unbroken_append, unbroken_breaks hb, List.nil_append,
      ih (fun t ht => hl t (List.mem_cons_of_mem _ ht))]
  | replace hk hb _ _ _ ih =>
    intro hl
    rw [List.flatMap_cons, unbroken_append, unbroken_append, unbroken_breaks hb,
      unbroken_breaks (hl _ List.mem_cons_self hk), ih (fun t ht => hl t (List.mem_cons_of_mem _ ht))]

theorem text_split {x r a d : Text} {c : Char} (h : x ++ r = a ++ c :: d) :
    (∃ a2, a = x ++ a2 ∧ r = a2 ++ c :: d) ∨ (∃ d1, x = a ++ c :: d1 ∧ d = d1 ++ r) := by
  rcases List.append_eq_append_iff.1 h with ⟨a2, h1, h2⟩ | ⟨e, h1, h2⟩
  · exact .inl ⟨a2, h1, h2⟩
  · cases e with
    | nil => exact .inl ⟨[], by simpa using h1.symm, by simpa using h2.symm⟩
    | cons y e =>
      simp only [List.cons_append, List.cons.injEq] at h2
      obtain ⟨rfl, h2⟩ := h2
      exact .inr ⟨e, h1, h2⟩

theorem breaks_mem {b : Text} (h : IsLineBreaks b) (hne : b ≠ []) : '\n' ∈ b := by
  obtain ⟨l, rfl, hl⟩ := h
  cases l with
  | nil => exact absurd rfl hne
  | cons x l =>
    rcases hl x List.mem_cons_self with rfl | rfl <;> simp

theorem unbroken_split {b a d : Text} (h : IsLineBreaks b) (hb : b = a ++ '\n' :: d) :
    unbroken a = [] ∧ unbroken d = [] := by
  have := unbroken_breaks h
  rw [hb, unbroken_append] at this
  obtain ⟨h1, h2⟩ := List.append_eq_nil_iff.1 this
  exact ⟨h1, h2⟩

/-- Line breaks put between tokens or in the place of line breaks keep the lines apart. -/
theorem spaced_linesKept {u : Text} {ts : List Token} {s' : Text} (h : Spaced u ts s') :
    (∀ t ∈ ts, t.kind = .TK_LINE_BREAK → IsLineBreaks t.text) → LinesKept (ts.flatMap (·.text)) s' := by
  induction h with
  | nil => intro _; exact .refl _
  | @keep u t ts s' hs ih =>
    intro hl a d had
    have hl' := fun t ht => hl t (List.mem_cons_of_mem _ ht)
    rw [List.flatMap_cons] at had
    rcases text_split had with ⟨a2, rfl, h2⟩ | ⟨d1, h1, rfl⟩
    · obtain ⟨a', d', rfl, ha, hd⟩ := ih hl' a2 d h2
      exact ⟨t.text ++ a', d', by simp, by rw [unbroken_append, unbroken_append, ha], hd⟩
    · exact ⟨a, d1 ++ s', by rw [h1]; simp, rfl, by rw [unbroken_append, unbroken_append, spaced_unbroken hs hl']⟩
  | @insert u t ts b s' _ hb _ _ hs ih =>
    intro hl a d had
    have hl' := fun t ht => hl t (List.mem_cons_of_mem _ ht)
    rw [List.flatMap_cons] at had
    rcases text_split had with ⟨a2, rfl, h2⟩ | ⟨d1, h1, rfl⟩
    · obtain ⟨a', d', rfl, ha, hd⟩ := ih hl' a2 d h2
      exact ⟨b ++ (t.text ++ a'), d', by simp, by
        rw [unbroken_append, unbroken_append, unbroken_append, unbroken_breaks hb, ha]; rfl, hd⟩
    · exact ⟨b ++ a, d1 ++ s', by rw [h1]; simp, by rw [unbroken_append, unbroken_breaks hb]; rfl,
        by rw [unbroken_append, unbroken_append, spaced_unbroken hs hl']⟩
  | @replace u t ts b s' hk hb hne _ hs ih =>
    intro hl a d had
    have hl' := fun t ht => hl t (List.mem_cons_of_mem _ ht)
    have ht := hl _ List.mem_cons_self hk
    rw [List.flatMap_cons] at had
    rcases text_split had with ⟨a2, rfl, h2⟩ | ⟨d1, h1, rfl⟩
    · obtain ⟨a', d', rfl, ha, hd⟩ := ih hl' a2 d h2
      exact ⟨b ++ a', d', by simp, by
        rw [unbroken_append, unbroken_append, unbroken_breaks hb, unbroken_breaks ht, ha], hd⟩
    · obtain ⟨a', d', hbs⟩ := List.append_of_mem (breaks_mem hb hne)
      obtain ⟨h3, h4⟩ := unbroken_split hb hbs
      obtain ⟨h5, h6⟩ := unbroken_split ht h1
      exact ⟨a', d' ++ s', by rw [hbs]; simp, by rw [h3, h5],
        by rw [unbroken_append, unbroken_append, h4, h6, spaced_unbroken hs hl']⟩

/-- One round of fixing the line breaks around blocks. -/
theorem unbroken_round {errLen : Text → Nat} (he : ErrLenOk errLen) (hE : ErrBeforeBreak errLen) {s : Text} {p : Parse}
    (h : parse errLen s = .ok p) (herr : p.errors = []) (hb : BlocksClear s) (hcr : NoCr p.tree)
    (hraw : ¬ RawBlock p.tree) (config : Config) {rules : List Rule}
    (hs : rules.Sublist definitions) (hn : ∀ r ∈ rules, r.name ∈ breakRules)
    {sort : List (RuleName × Suggestion) → List (RuleName × Suggestion)} (hsort : SortsRanges sort)
    {results : List CheckResult} (hr : runRules config rules p.tree = .ok results) :
    ∃ over s', overlappingRules (sort (getRuleContextSuggestions results)) = .ok over ∧
      applySuggestionsToText (filterSuggestions over (sort (getRuleContextSuggestions results))) s = some s' ∧
      BlocksClear s' ∧ SameParse (parse errLen s) (parse errLen s') ∧ unbroken s' = unbroken s ∧ LinesKept s s' := by
  have hR : (∀ q ∈ getRuleContextSuggestions results, BreakAt [] (lex errLen s) q.2) ∧
      (getRuleContextSuggestions results).Pairwise (fun a b => a.2.range.start ≠ b.2.range.start) := by
    rcases break_alone hs hn hr with h0 | ⟨l, hl, h0⟩
    · rw [h0]; exact ⟨by simp, .nil⟩
    · rw [h0]
      refine ⟨fun q hq => ?_, C89_breaks_at_different_places he h herr hraw hl⟩
      obtain ⟨x, hx, _, hq⟩ := mem_rcs.1 hq
      exact break_findings he h herr hb hcr hl x hx _ hq
  obtain ⟨hR1, hR2⟩ := hR
  generalize getRuleContextSuggestions results = R at hR1 hR2
  have hperm : ((R.map (·.2)).mergeSort (fun a b => decide (a.range.start ≤ b.range.start))).Perm (R.map (·.2)) :=
    List.mergeSort_perm _ _
  have hle := List.pairwise_mergeSort (le := fun a b : Suggestion => decide (a.range.start ≤ b.range.start))
    (fun a b c h1 h2 => by simp only [decide_eq_true_eq] at *; omega)
    (fun a b => by simp only [Bool.or_eq_true, decide_eq_true_eq]; omega) (R.map (·.2))
  generalize (R.map (·.2)).mergeSort (fun a b => decide (a.range.start ≤ b.range.start)) = sugs at hperm hle
  have hat : ∀ x ∈ sugs, BreakAt [] (lex errLen s) x := by
    intro x hx
    obtain ⟨q, hq, rfl⟩ := List.mem_map.1 (hperm.subset hx)
    exact hR1 q hq
  have hne : sugs.Pairwise (fun a b => a.range.start ≠ b.range.start) :=
    (List.Perm.pairwise_iff (fun h => Ne.symm h) hperm).2 (List.pairwise_map.2 hR2)
  have hlt : sugs.Pairwise (fun a b => a.range.start < b.range.start) := by
    refine (hle.and hne).imp ?_
    rintro a b ⟨h1, h2⟩
    have h1 : a.range.start ≤ b.range.start := by simpa using h1
    omega
  have hah : sugs.Pairwise (fun a b => Ahead a.range b.range) :=
    (pairwise_both (P := fun x => x ∈ sugs) (fun x hx => hx) hlt).imp
      (fun ⟨h1, h2, h3⟩ => breakAt_order (hat _ h1) (hat _ h2) h3)
  obtain ⟨k1, k2⟩ := sort_ahead hsort hperm hah (fun x hx => breakAt_le (hat x hx))
  obtain ⟨s', p', g1, g2, g3, g4, g5⟩ := break_suggestions he hE hat hlt h herr
  have hbreaks : ∀ t ∈ lex errLen s, t.kind = .TK_LINE_BREAK → IsLineBreaks t.text :=
    fun t ht => (C13_trivia_shape he s ht).2
  have hlined := spaced_lined g2 hbreaks
  have hsame := spaced_unbroken g2 hbreaks
  have hkept := spaced_linesKept g2 hbreaks
  rw [List.flatMap_def, (C02_lex_partition he s).2.1] at hlined hsame hkept
  refine ⟨[], s', k1, by rw [k2]; exact g1, blocksClear_lined hlined hb, ?_, hsame, hkept⟩
  rw [h, g3]
  exact ⟨g5.symm, by rw [herr, g4]⟩

/-- C97: processing a file as in C90, that is with `twig-block-line-breaks` and the rules without suggestions,
changes nothing but line breaks: what is parsed, what is written and what is in the file afterwards has the
characters of the original other than LF and CR, also its spaces and tabs. No lines are joined: wherever the
original has a line break, those texts have one too. -/
theorem C97_block_break_fix_changes_breaks_only {errLen : Text → Nat} (he : ErrLenOk errLen)
    (hE : ErrBeforeBreak errLen) (config : Config) (active : List RuleName)
    (hactive : ∀ n ∈ active, n ∈ breakRules)
    {sort : List (RuleName × Suggestion) → List (RuleName × Suggestion)} (hsort : SortsRanges sort)
    (flags : Flags) (writeOk : Bool) {original : Text} {p : Parse} (hp : parse errLen original = .ok p)
    (herr : p.errors = []) (hb : BlocksClear original) (hcr : NoCr p.tree) (hraw : ¬ RawBlock p.tree) :
    let run := runAnalysis (realEngine errLen config active sort) flags writeOk original
    (∀ t ∈ run.parsed ++ run.writes, unbroken t = unbroken original ∧ LinesKept original t) ∧
      unbroken (contentAfter original run) = unbroken original ∧ LinesKept original (contentAfter original run) := by
  intro run
  have facts : ∀ {t : Text}, SameParse (parse errLen original) (parse errLen t) →
      ∃ q, parse errLen t = .ok q ∧ q.errors = [] ∧ bare q.tree = bare p.tree := by
    intro t ht
    obtain ⟨q, hq, hqe⟩ := sameParse_ok hp herr ht
    rw [hp, hq] at ht
    exact ⟨q, hq, hqe, ht.1.symm⟩
  have hall : ∀ t ∈ run.parsed ++ run.writes, unbroken t = unbroken original ∧ LinesKept original t := by
    obtain ⟨_, g2⟩ := kept_run (I := fun t => BlocksClear t ∧ SameParse (parse errLen original) (parse errLen t) ∧
        unbroken t = unbroken original ∧ LinesKept original t)
      (fun t ht => by
        obtain ⟨⟨tree, errs⟩, hq, hqe, _⟩ := facts ht.2.1
        dsimp only at hqe
        subst hqe
        exact ⟨tree, hq⟩) config active hactive
      (fun t q rules results ht hq hs hn hr => by
        obtain ⟨q', hq', hqe, hbare⟩ := facts ht.2.1
        rw [hq] at hq'
        cases hq'
        obtain ⟨over, s', k1, k2, k3, k4, k5, k6⟩ := unbroken_round he hE hq hqe ht.1 (noCr_bare hbare hcr)
          (fun h => hraw (by rw [← rawBlock_bare, ← hbare, rawBlock_bare]; exact h)) config hs hn hsort hr
        exact ⟨over, s', k1, k2, k3, ht.2.1.trans k4, k5.trans ht.2.2.1, ht.2.2.2.trans k6⟩) flags writeOk
      ⟨hb, by rw [hp]; exact ⟨rfl, rfl⟩, rfl, .refl _⟩
    exact fun t ht => (g2 t ht).2.2
  refine ⟨hall, ?_⟩
  unfold contentAfter
  cases hw : run.writes.getLast? with
  | none => exact ⟨rfl, .refl _⟩
  | some t => exact hall t (List.mem_append_right _ (List.mem_of_getLast? hw))

/-- A file that gets line breaks before and behind a block; the space stays. -/
example :
    let s := "<p>{% block a %}{% endblock %} b</p>".toList
    let run := runAnalysis (realEngine (fun _ => 1) defaultConfig breakRules insertionSort) ⟨true, false⟩ true s
    SortsRanges insertionSort ∧ ErrBeforeBreak (fun _ => 1) ∧ BlocksClear s ∧
    Returns (parse (fun _ => 1) s) (fun r => r.errors.isEmpty && noRaw r.tree &&
      r.tree.leaves.all (fun l => l.2.getLast? != some '\r')) = true ∧
    contentAfter s run = "<p>\n{% block a %}{% endblock %}\n\n b</p>".toList ∧
    unbroken s = s :=
  ⟨insertionSort_sorts, fun _ _ _ _ _ _ _ _ _ => rfl,
    blocksClear_check (by decide +kernel), by decide +kernel, by decide +kernel, by decide +kernel⟩

end Ludtwig.Rules
