import Verif.Rules.BreakSettled
import Verif.Rules.NeatAfter

/-!
# The line breaks around blocks in a fixed file: property C91
-/

namespace Ludtwig.Rules

open Cli Lexer Layout Shape

/-! ## Specification -/

/-- At a place of a text are exactly `n` line breaks of the configured style: no other one follows them. -/
def LineBreaksAt (config : Config) (n : Nat) (s : Text) (pos : Nat) : Prop :=
  ∃ a b, s = a ++ ((List.replicate n config.lineEnding.text).flatten ++ b) ∧ byteLen a = pos ∧ ¬ BreakFirst b

/-- Around every block for which the rule is not off (see C72) are the line breaks that are wanted: in front of
it, or of the comment directly before it, and behind it, unless a block follows or the file ends. -/
def BlocksSpaced (config : Config) (s : Text) (root : Tree) : Prop :=
  ∀ e ending, Elem.In root e → hidden e = false → switchedOff "twig-block-line-breaks".toList e = false →
    told e = false → Surrounded e ending →
    (∃ c, Beginning e c ∧ LineBreaksAt config (breaksBefore config e) s c.start) ∧
    ((¬ ∃ n, beyondComment (nodesBehind e) = some n ∧ n.kind = .TWIG_BLOCK) →
      ending.range.stop = byteLen s ∨ LineBreaksAt config (breaksBehind config e) s ending.range.stop)

/-! ## Proofs -/

theorem breaks_defined : twigBlockLineBreaks ∈ definitions := by
  simp [definitions]

/-- An element is behind the leaves before it. -/
theorem start_leaves {root : Tree} {c : Elem} (h : Elem.In root c) :
    c.start = byteLen ((leavesBefore c.path).flatMap (·.2)) := by
  induction h with
  | root => rfl
  | @child p c _ hc ih =>
    obtain ⟨k, l, r, _, h2, h3⟩ := children_place hc
    rw [h2, h3, ih, leavesBefore, List.flatMap_append, byteLen_append, textOf_leaves, List.flatMap_def, List.flatMap_def]

theorem starts_breakFirst {b : Text} (h : startsLb b = false) : ¬ BreakFirst b := by
  rintro ⟨x, r, rfl, rfl | rfl⟩ <;> simp [startsLb] at h

theorem proper_behind {a b : List (Cell Unit)} (h : Proper () (a ++ b)) : Proper () b := by
  induction a with
  | nil => exact h
  | cons c a ih => exact ih h.1

/-- A token of line breaks is all the line breaks at its place. -/
theorem breaks_at {errLen : Text → Nat} (he : ErrLenOk errLen) {s : Text} {p : Parse} (h : parse errLen s = .ok p)
    {config : Config} {n : Nat} {x y : List Elem} {t : Elem} (hxy : p.tree.tokenElems = x ++ t :: y)
    (hk : t.kind = .TK_LINE_BREAK) (ht : t.text = (List.replicate n config.lineEnding.text).flatten) :
    LineBreaksAt config n s (byteLen ((x.map kt).flatMap (·.2))) := by
  have hl := (token_place hxy).1
  have hs := C01_parse_lossless he s p h
  have hp := leaves_proper he h
  rw [hl, List.map_append, List.map_cons] at hp
  have hp := (proper_behind hp).2.2.2.1 hk
  refine ⟨(x.map kt).flatMap (·.2), (y.map kt).flatMap (·.2), ?_, rfl, starts_breakFirst ?_⟩
  · rw [← hs, hl, ← ht]
    simp [List.flatMap_def, kt]
  · have := hp.2
    rw [cells_text] at this
    exact this

/-- Every block has a beginning. -/
theorem beginning_some {errLen : Text → Nat} {s : Text} {p : Parse} (h : parse errLen s = .ok p) {e : Elem}
    (hin : Elem.In p.tree e) (hb : nodeOf .TWIG_BLOCK e.tree = true) : ∃ c, Beginning e c := by
  obtain ⟨start, hs⟩ := Option.isSome_iff_exists.1 ((C64_parts h hin).1 hb)
  have hs := (child_iff _ _ _).1 hs
  rcases prevSibling_cases e with ⟨h1, h2⟩ | ⟨k, s, a, n, b, after, fs, hp, hn, hb, h1, h2⟩
  · exact ⟨start, .inr ⟨by rw [h2]; simp, hs⟩⟩
  · cases hc : isComment n with
    | true => exact ⟨_, .inl ⟨k, s, a, n, b, after, fs, hp, hc, hb, rfl⟩⟩
    | false => exact ⟨start, .inr ⟨by rw [h2]; simpa using hc, hs⟩⟩

/-- The blocks of a file in which the rule finds nothing. -/
theorem spaced_of_nothing {errLen : Text → Nat} (he : ErrLenOk errLen) {s : Text} {p : Parse}
    (h : parse errLen s = .ok p) (herr : p.errors = []) (hraw : ¬ RawBlock p.tree) {config : Config}
    (hl : runRules config [twigBlockLineBreaks] p.tree = .ok []) : BlocksSpaced config s p.tree := by
  have hf := fine_parsed h herr
  obtain ⟨l, hl', hx⟩ := C72_block_line_breaks h config
  rw [hl] at hl'
  cases hl'
  have right : ∀ {n : Nat} {t : Elem}, (∀ z, ¬ BreakFinding config n t z) →
      t.kind = .TK_LINE_BREAK ∧ t.text = (List.replicate n config.lineEnding.text).flatten := by
    intro n t ht
    by_cases hq : t.kind = .TK_LINE_BREAK ∧ t.text = (List.replicate n config.lineEnding.text).flatten
    · exact hq
    · exact absurd ⟨hq, _, rfl, rfl⟩ (ht _)
  intro e ending hin v1 v2 v3 hsur
  refine ⟨?_, fun hno => ?_⟩
  · obtain ⟨c, hb⟩ := beginning_some h hin hsur.1
    refine ⟨c, hb, ?_⟩
    obtain ⟨x, y, h1, h2, _, h4⟩ := before_iff hf hin hb
    have hi := In_beginning hin hb
    obtain ⟨t, ht⟩ : ∃ t, FirstIn c t := by
      obtain ⟨k, cs, ht, hk⟩ := beginning_kind hb
      have hc := conforms_in hf.shape hi
      rw [ht] at hc
      obtain ⟨t', r, f, hr, _⟩ := first_opened hc (opens_begin _ hk) c.start c.path
      exact ⟨t', r, by rw [ht]; exact hr⟩
    have hy := (h4 t).1 ht
    cases y with
    | nil => cases hy
    | cons t' y =>
      cases hy
      obtain ⟨g1, g2⟩ := right (n := breaksBefore config e) (t := t) (fun z hz => by
        have := (hx z).2 ⟨e, ending, hin, v1, v2, v3, hsur, .inl ⟨c, t, hb, ht, hz⟩⟩
        cases this)
      rw [start_leaves hi, ← h2]
      exact breaks_at he h h1 g1 g2
  · obtain ⟨x, y, h1, h2, _, _, h4⟩ := behind_iff hf hraw hin hsur
    have hi : Elem.In p.tree ending := In_child hin ((child_iff _ _ _).2 hsur.2.1)
    have hstop : ending.range.stop = byteLen ((x.map kt).flatMap (·.2)) := by
      rw [h2, List.flatMap_append, byteLen_append, ← start_leaves hi, leaves_text]
      rfl
    rw [hstop]
    cases y with
    | nil =>
      left
      have := tokens_kt p.tree 0 []
      have e1 : p.tree.leaves = x.map kt := by
        rw [← this]
        show p.tree.tokenElems.map kt = _
        rw [h1, List.append_nil]
      rw [← e1, leaves_text, C01_root_text he s p h]
    | cons t y =>
      right
      have ht := (h4 t).2 rfl
      obtain ⟨g1, g2⟩ := right (n := breaksBehind config e) (t := t) (fun z hz => by
        have := (hx z).2 ⟨e, ending, hin, v1, v2, v3, hsur, .inr ⟨hno, t, ht, hz⟩⟩
        cases this)
      exact breaks_at he h h1 g1 g2

/-- C91: a file as in C90 that was processed with `--fix` has the wanted line breaks around its blocks, unless
the rule is not active or switched off. -/
theorem C91_block_breaks_after_fix {errLen : Text → Nat} (he : ErrLenOk errLen)
    (hE : ErrBeforeBreak errLen) (config : Config) (active : List RuleName)
    (hactive : ∀ n ∈ active, n ∈ breakRules)
    {sort : List (RuleName × Suggestion) → List (RuleName × Suggestion)} (hsort : SortsRanges sort)
    (inspect : Bool) {original : Text} {p : Parse} (hp : parse errLen original = .ok p)
    (herr : p.errors = []) (hb : BlocksClear original) (hcr : NoCr p.tree) (hraw : ¬ RawBlock p.tree) :
    let run := runAnalysis (realEngine errLen config active sort) ⟨true, inspect⟩ true original
    ∃ tree, parse errLen (contentAfter original run) = .ok ⟨tree, []⟩ ∧
      (Enabled active tree "twig-block-line-breaks".toList →
        BlocksSpaced config (contentAfter original run) tree) := by
  intro run
  obtain ⟨h1, h3⟩ := C90_block_break_fix_settles he hE config active hactive hsort ⟨true, inspect⟩ true hp herr hb
    hcr hraw
  have hok : (runAnalysis (realEngine errLen config active sort) ⟨true, inspect⟩ true original).outcome = .ok := by
    rcases h1 with h | ⟨_, h, _⟩
    · exact h
    · cases h
  obtain ⟨rules, errors, results, hro, ⟨tree, hpt, hrun⟩, hnil, _⟩ :=
    C24_successful_fix_is_complete (realEngine errLen config active sort) ⟨true, inspect⟩ original rfl hok
  have hsame : SameParse (parse errLen original) (parse errLen (contentAfter original run)) := by
    unfold contentAfter
    rcases h3 with ⟨_, hw⟩ | ⟨_, s', _, hw, h, _⟩
    · have hw : run.writes = [] := hw
      rw [hw]
      show SameParse (parse errLen original) (parse errLen original)
      rw [hp]; exact ⟨rfl, rfl⟩
    · have hw : run.writes = [s'] := hw
      rw [hw]
      exact h
  obtain ⟨⟨tree', errs⟩, hp', herr'⟩ := sameParse_ok hp herr hsame
  have herr' : errs = [] := herr'
  subst herr'
  have hraw' : ¬ RawBlock tree' := by
    rw [hp, hp'] at hsame
    have hbare : bare p.tree = bare tree' := hsame.1
    rw [← rawBlock_bare, ← hbare, rawBlock_bare]; exact hraw
  obtain ⟨tree'', errors'', hq, hrules⟩ := rulesOf_same hp hp' hsame hro
  obtain ⟨q, hq1, rfl, rfl⟩ := (realEngine_parse ..).mp hpt
  obtain ⟨q', hq1', rfl, rfl⟩ := (realEngine_parse ..).mp hq
  rw [show parse errLen (contentAfter original _) = _ from hp'] at hq1
  cases hq1
  rw [hp'] at hq1'
  cases hq1'
  have hrun' := (realEngine_run ..).mp hrun
  rw [← hrules] at hrun'
  refine ⟨tree', hp', fun hen => ?_⟩
  have hin := enabled_mem (r := twigBlockLineBreaks) breaks_defined hen
  have hs := rulesNamed_sublist ((fileRules tree' (rulesNamed active)).map (·.name))
  have h48 := C48_rules_independent config tree' _ twigBlockLineBreaks
      (List.Nodup.sublist (hs.map _) definitions_distinct)
      (fun q hq => definitions_sign q (hs.subset hq)) hin _ hrun'
  have hempty : ofRule twigBlockLineBreaks.name results = [] := by
    rw [List.eq_nil_iff_forall_not_mem]
    intro z hz
    obtain ⟨_, _, _, _, _, _, ⟨_, range, _, hz'⟩⟩ := (finding_iff hp' rfl hraw' h48 z).1 hz
    have hz1 : z ∈ results := (List.mem_filter.1 hz).1
    have : (z.rule, z.suggestions.head (by rw [hz']; simp)) ∈ getRuleContextSuggestions results :=
      List.mem_flatMap.2 ⟨z, hz1, List.mem_map.2 ⟨_, List.head_mem _, rfl⟩⟩
    rw [hnil] at this
    cases this
  rw [hempty] at h48
  exact spaced_of_nothing he hp' rfl hraw' h48

/-- A file with a block in a tag that is changed, the rule being active and not switched off; the block gets one
line break in front of it and two behind it. -/
example :
    let s := "<p>{% block a %}{% endblock %}b</p>".toList
    let s' := "<p>\n{% block a %}{% endblock %}\n\nb</p>".toList
    SortsRanges insertionSort ∧ ErrBeforeBreak (fun _ => 1) ∧ BlocksClear s ∧
    Returns (parse (fun _ => 1) s) (fun r => r.errors.isEmpty && noRaw r.tree &&
      r.tree.leaves.all (fun l => l.2.getLast? != some '\r')) = true ∧
    contentAfter s (runAnalysis (realEngine (fun _ => 1) defaultConfig breakRules insertionSort) ⟨true, false⟩ true s) =
      s' ∧
    "twig-block-line-breaks".toList ∈ breakRules ∧
    Returns (parse (fun _ => 1) s') (fun r => (topDirectives r.tree).isEmpty) = true ∧
    LineBreaksAt defaultConfig 1 s' 3 ∧ LineBreaksAt defaultConfig 2 s' 31 :=
  ⟨insertionSort_sorts, fun _ _ _ _ _ _ _ _ _ => rfl, blocksClear_check (by decide +kernel),
    by decide +kernel, by decide +kernel, by decide, by decide +kernel,
    ⟨"<p>".toList, "{% block a %}{% endblock %}\n\nb</p>".toList, rfl, by decide, by
      rintro ⟨x, r, h, rfl | rfl⟩ <;> cases h⟩,
    ⟨"<p>\n{% block a %}{% endblock %}".toList, "b</p>".toList, rfl, by decide, by
      rintro ⟨x, r, h, rfl | rfl⟩ <;> cases h⟩⟩

end Ludtwig.Rules
