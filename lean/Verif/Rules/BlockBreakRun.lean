import Verif.Rules.BlockBreakApart

/-!
# Fixing the line breaks around blocks: property C88

With only `twig-block-line-breaks` among the rules that suggest something, `--fix` does not change the
structure of a file without parse errors.
-/

namespace Ludtwig.Rules

open Cli Lexer Layout Shape

/-! ## Specification -/

/-- The rules that suggest nothing, and the rule for line breaks around blocks. -/
def breakRules : List RuleName :=
  ["twig-block-line-breaks".toList,
    "ludtwig-ignore-file-not-on-top".toList, "twig-block-duplicate".toList, "html-duplicate-id".toList,
    "twig-variable-definition-naming".toList, "twig-valid-filter".toList, "twig-valid-test".toList,
    "twig-valid-function".toList]

/-- In this text the rule for line breaks around blocks suggests two changes at one place: a block that
ends its parent lies directly before a block or comment outside of the parent. -/
def Crowded (errLen : Text → Nat) (config : Config) (s : Text) : Prop :=
  ∃ p l, parse errLen s = .ok p ∧ runRules config [twigBlockLineBreaks] p.tree = .ok l ∧
    ¬ (getRuleContextSuggestions l).Pairwise (fun a b => a.2.range.start ≠ b.2.range.start)

/-! ## The suggestions of the rule -/

theorem openTexts_head {v : Text} (h : BlockNext v) : v.head?.any Char.isAlpha = false := by
  obtain ⟨b, w, r, rfl, hb, hw⟩ := h
  cases b with
  | nil =>
    simp only [openTexts, List.mem_cons, List.not_mem_nil, or_false] at hw
    rcases hw with rfl | rfl | rfl <;> rfl
  | cons c b =>
    have := hb c (by simp)
    simp only [blankChar, Bool.or_eq_true, beq_iff_eq] at this
    rcases this with ((rfl | rfl) | rfl) | rfl <;> rfl

theorem breaks_ne (config : Config) (e : Elem) : breaksBefore config e ≠ 0 ∧ breaksBehind config e ≠ 0 := by
  unfold breaksBefore breaksBehind
  constructor <;> repeat' split
  all_goals decide

theorem beginning_place {errLen : Text → Nat} (he : ErrLenOk errLen) {s : Text} {p : Parse}
    (h : parse errLen s = .ok p) (herr : p.errors = []) {e c t : Elem} (hin : Elem.In p.tree e)
    (hb : Beginning e c) (hf : FirstIn c t) :
    ∃ x y, p.tree.tokenElems = x ++ t :: y ∧ BlockNext (((t :: y).map kt).flatMap (·.2)) := by
  have hc := C62_error_free_tree h herr
  rcases hb with ⟨k, st, a, n, b, after, fs, hp, hn, _, rfl⟩ | ⟨_, hfirst⟩
  · have hinc : Elem.In p.tree ⟨n, st + byteLen (textOf a), ⟨k, st, a, b ++ e.tree :: after⟩ :: fs⟩ := by
      obtain ⟨te, pe, path⟩ := e
      cases hp
      exact In_before hin
    unfold isComment at hn
    simp only [Bool.or_eq_true] at hn
    rcases hn with ((hn | hn) | hn) | hn <;>
    · obtain ⟨cs, rfl⟩ := nodeOf_tree hn
      exact before_place he h hinc rfl hc (by decide) hf
  · have hin' := In_child hin ((child_iff _ _ _).2 hfirst)
    obtain ⟨_, _, _, _, _, hk, _⟩ := hfirst
    obtain ⟨cs, hcs⟩ := nodeOf_tree hk
    exact before_place he h hin' hcs hc (by decide) hf

/-- Every suggestion of the rule is about a place where line breaks can be put. -/
theorem break_findings {errLen : Text → Nat} (he : ErrLenOk errLen) {s : Text} {p : Parse}
    (h : parse errLen s = .ok p) (herr : p.errors = []) (hb : BlocksClear s) (hcr : NoCr p.tree)
    {config : Config} {l : List CheckResult} (hl : runRules config [twigBlockLineBreaks] p.tree = .ok l) :
    ∀ x ∈ l, ∀ sug ∈ x.suggestions, BreakAt [] (lex errLen s) sug := by
  obtain ⟨l', hl', hx⟩ := C72_block_line_breaks h config
  rw [hl] at hl'
  cases hl'
  intro x hxl
  obtain ⟨e, ending, hin, _, _, _, hsur, hcase⟩ := (hx x).1 hxl
  rcases hcase with ⟨c, t, hbeg, hfirst, hfind⟩ | ⟨_, t, hbehind, hfind⟩
  · obtain ⟨a, b, ht, hnext⟩ := beginning_place he h herr hin hbeg hfirst
    obtain ⟨hleaves, _⟩ := token_place ht
    have htext : s = (a.map kt).flatMap (·.2) ++ ((t :: b).map kt).flatMap (·.2) := by
      rw [← C01_root_text he s p h, ← leaves_text, hleaves, List.flatMap_append]
      rfl
    obtain ⟨h1, h3⟩ := hb _ _ htext hnext
    refine finding_breakAt he h ht (breaks_ne config e).1 hfind h1 (place_cr he h hcr ht) h3 (fun _ => ?_)
    have hk := leaves_known he h (kt t) (by rw [hleaves]; simp)
    have := openTexts_head hnext
    rw [List.map_cons, List.flatMap_cons] at this
    have hne : t.text ≠ [] := hk.nonempty
    have this : (t.text ++ (b.map kt).flatMap (·.2)).head?.any Char.isAlpha = false := this
    cases htt : t.text with
    | nil => exact absurd htt hne
    | cons c d => rw [htt] at this; exact this
  · have hin' : Elem.In p.tree ending := In_child hin ((child_iff _ _ _).2 hsur.2.1)
    have hk : nodeOf .TWIG_ENDING_BLOCK ending.tree = true := by
      obtain ⟨_, _, _, _, _, hk, _⟩ := hsur.2.1
      exact hk
    obtain ⟨a, b, ht, c, hc, hcc⟩ := behind_place he h herr hin' hk hbehind
    have hne : ∀ d, d ≠ '}' → blankChar d = false → ((a.map kt).flatMap (·.2)).getLast? ≠ some d := by
      intro d h1 h2 h3
      rw [hc] at h3
      cases h3
      rcases hcc with rfl | ⟨h4, _⟩
      · exact h1 rfl
      · rw [h2] at h4; cases h4
    refine finding_breakAt he h ht (breaks_ne config e).2 hfind (hne _ (by decide) (by decide)) ?_ ?_ ?_
    · intro h3
      rw [hc] at h3
      cases h3
      rcases hcc with h4 | ⟨_, h4⟩
      · exact absurd h4 (by decide)
      · exact h4 rfl
    · intro hw
      rcases words_last hw with hw | hw
      · exact hne _ (by decide) (by decide) hw
      · exact hne _ (by decide) (by decide) hw
    · intro h3
      exact absurd h3 (hne _ (by decide) (by decide))

theorem break_cases {r : Rule} (hd : r ∈ definitions) (hn : r.name ∈ breakRules) :
    r = twigBlockLineBreaks ∨ Silent r := by
  simp only [definitions, List.mem_cons, List.not_mem_nil, or_false] at hd
  rcases hd with rfl | rfl | rfl | rfl | rfl | rfl | rfl | rfl | rfl | rfl | rfl | rfl | rfl | rfl |
    rfl | rfl | rfl | rfl | rfl | rfl | rfl | rfl
  · exact .inr silent_ignoreFileNotOnTop
  · exact absurd hn (by decide +kernel)
  · exact absurd hn (by decide +kernel)
  · exact absurd hn (by decide +kernel)
  · exact .inl rfl
  · exact absurd hn (by decide +kernel)
  · exact absurd hn (by decide +kernel)
  · exact absurd hn (by decide +kernel)
  · exact absurd hn (by decide +kernel)
  · exact absurd hn (by decide +kernel)
  · exact absurd hn (by decide +kernel)
  · exact absurd hn (by decide +kernel)
  · exact absurd hn (by decide +kernel)
  · exact absurd hn (by decide +kernel)
  · exact absurd hn (by decide +kernel)
  · exact .inr silent_twigBlockDuplicate
  · exact absurd hn (by decide +kernel)
  · exact .inr silent_htmlDuplicateId
  · exact .inr silent_twigVariableDefinitionNaming
  · exact .inr silent_twigValidFilter
  · exact .inr silent_twigValidTest
  · exact .inr silent_twigValidFunction

theorem rcs_filter (f : CheckResult → Bool) : ∀ l : List CheckResult,
    (∀ x ∈ l, f x = false → x.suggestions = []) →
    getRuleContextSuggestions l = getRuleContextSuggestions (l.filter f)
  | [], _ => rfl
  | x :: l, h => by
    have ih := rcs_filter f l (fun y hy => h y (List.mem_cons_of_mem _ hy))
    have e : getRuleContextSuggestions (x :: l) =
        getRuleContextSuggestions [x] ++ getRuleContextSuggestions l := rcs_append [x] l
    cases hf : f x with
    | true =>
      rw [List.filter_cons_of_pos hf, e, ih]
      exact (rcs_append [x] _).symm
    | false =>
      rw [List.filter_cons_of_neg (by rw [hf]; decide), e, ih,
        silent_rcs (l := [x]) (fun y hy => by rw [List.mem_singleton.1 hy]; exact h x (by simp) hf)]
      rfl

/-- The suggestions of a run are those of the rule alone. -/
theorem break_alone {p : Parse} {config : Config} {rules : List Rule} (hs : rules.Sublist definitions)
    (hn : ∀ r ∈ rules, r.name ∈ breakRules) {results : List CheckResult}
    (hr : runRules config rules p.tree = .ok results) :
    getRuleContextSuggestions results = [] ∨
    ∃ l, runRules config [twigBlockLineBreaks] p.tree = .ok l ∧
      getRuleContextSuggestions results = getRuleContextSuggestions l := by
  have hroot : ∃ x, rootChecks config (Elem.root p.tree) rules = .ok x := by
    unfold runRules at hr
    cases rules with
    | nil => exact ⟨[], rfl⟩
    | cons a rs =>
      simp only [List.isEmpty_cons, Bool.false_eq_true, if_false] at hr
      split at hr
      · cases hr
      · rename_i x hx; exact ⟨x, hx⟩
  obtain ⟨x, hx⟩ := hroot
  obtain ⟨found, hf, _⟩ := rootChecks_inv config _ rules x hx
  have hr0 := hr
  rw [C18_scope_of_ignore config rules p.tree found hf] at hr
  cases hr
  have key : ∀ x ∈ rules.flatMap found ++ specResults config rules p.tree, x.suggestions = [] ∨
      (twigBlockLineBreaks ∈ rules ∧ x.rule = twigBlockLineBreaks.name) := by
    intro x hx
    rcases List.mem_append.1 hx with hx | hx
    · obtain ⟨r, hr, hx⟩ := List.mem_flatMap.1 hx
      rcases break_cases (hs.subset hr) (hn r hr) with rfl | hsil
      · exact .inr ⟨hr, (definitions_sign _ (hs.subset hr)).2.2 _ _ _ (hf _ hr) x hx⟩
      · exact .inl (hsil.2.2 _ _ _ (hf r hr) x hx)
    · unfold specResults at hx
      obtain ⟨e, _, hx⟩ := List.mem_flatMap.1 hx
      obtain ⟨r, hr, hx⟩ := List.mem_flatMap.1 hx
      have hr := (List.mem_filter.1 hr).1
      unfold checkElem at hx
      rcases break_cases (hs.subset hr) (hn r hr) with rfl | hsil
      · refine .inr ⟨hr, ?_⟩
        split at hx
        · exact (definitions_sign _ (hs.subset hr)).1 _ _ x hx
        · exact (definitions_sign _ (hs.subset hr)).2.1 _ _ x hx
      · left
        split at hx
        · exact hsil.1 _ _ x hx
        · exact hsil.2.1 _ _ x hx
  by_cases hin : twigBlockLineBreaks ∈ rules
  · have h1 := C48_rules_independent config p.tree rules twigBlockLineBreaks
      (List.Nodup.sublist (hs.map _) definitions_distinct)
      (fun q hq => definitions_sign q (hs.subset hq)) hin _ hr0
    refine .inr ⟨_, h1, ?_⟩
    unfold ofRule
    refine rcs_filter _ _ (fun x hx hxr => ?_)
    rcases key x hx with h | ⟨_, h⟩
    · exact h
    · rw [h] at hxr
      simp at hxr
  · left
    refine silent_rcs (fun x hx => ?_)
    rcases key x hx with h | ⟨h, _⟩
    · exact h
    · exact absurd h hin

/-! ## One round -/

theorem breakAt_order {ts : List Token} {x y : Suggestion} (hx : BreakAt [] ts x) (hy : BreakAt [] ts y)
    (h : x.range.start < y.range.start) : Ahead x.range y.range := by
  obtain ⟨_, _, l, t, r, e, _, hr⟩ := hx
  obtain ⟨_, _, l', t', r', e', _, hr'⟩ := hy
  simp only [List.nil_append] at hr hr'
  have h1 : x.range.start = byteLen (l.flatMap (·.text)) := by rw [hr]; split <;> rfl
  have h2 : y.range.start = byteLen (l'.flatMap (·.text)) := by rw [hr']; split <;> rfl
  have h3 : x.range.stop ≤ byteLen (l.flatMap (·.text)) + byteLen t.text := by
    rw [hr]; split
    · exact Nat.le_refl _
    · exact Nat.le_add_right _ _
  have h4 : y.range.start ≤ y.range.stop := by
    rw [hr']; split
    · exact Nat.le_add_right _ _
    · exact Nat.le_refl _
  have h5 : byteLen (l.flatMap (·.text)) + byteLen t.text ≤ byteLen (l'.flatMap (·.text)) := by
    rw [e] at e'
    rcases List.append_eq_append_iff.1 e' with ⟨a, ha, hb⟩ | ⟨a, ha, hb⟩
    · cases a with
      | nil =>
        rw [ha] at h2
        simp only [List.append_nil] at h2
        omega
      | cons z a =>
        rw [List.cons_append, List.cons.injEq] at hb
        rw [ha, ← hb.1]
        simp only [List.flatMap_append, List.flatMap_cons, byteLen_append]
        omega
    · rw [ha] at h1
      simp only [List.flatMap_append, byteLen_append] at h1
      omega
  exact ⟨by omega, by omega⟩

theorem breakAt_le {ts : List Token} {x : Suggestion} (hx : BreakAt [] ts x) : x.range.start ≤ x.range.stop := by
  obtain ⟨_, _, l, t, r, e, _, hr⟩ := hx
  rw [hr]; split
  · exact Nat.le_add_right _ _
  · exact Nat.le_refl _

mutual
theorem leaves_bare : ∀ t : Tree, leavesOf (bare t) = t.leaves.filter (fun l => !l.1.isTrivia)
  | .token k t => by
    rw [bare]
    cases hk : k.isTrivia <;> simp [Tree.leaves, leavesOf, hk]
  | .node k cs => by
    rw [bare, leavesOf, leavesOf, List.append_nil, Tree.leaves, leaves_bareAll cs, Tree.leaves]
theorem leaves_bareAll : ∀ ts : List Tree, leavesOf (bareAll ts) = (leavesOf ts).filter (fun l => !l.1.isTrivia)
  | [] => rfl
  | t :: ts => by
    rw [bareAll, leavesOf, List.filter_append, ← leaves_bare t, ← leaves_bareAll ts, leavesOf_append]
end

theorem noCr_bare {t t' : Tree} (h : bare t' = bare t) (hc : NoCr t) : NoCr t' := by
  intro l hl htr
  have h1 : l ∈ leavesOf (bare t') := by
    rw [leaves_bare]
    exact List.mem_filter.2 ⟨hl, by simp [htr]⟩
  rw [h, leaves_bare] at h1
  exact hc l (List.mem_filter.1 h1).1 htr

/-- One round, unless two changes are suggested at one place: the text after it has the same structure. -/
theorem break_round {errLen : Text → Nat} (he : ErrLenOk errLen) (hE : ErrBeforeBreak errLen) {s : Text} {p : Parse}
    (h : parse errLen s = .ok p) (herr : p.errors = []) (hb : BlocksClear s) (hcr : NoCr p.tree)
    (config : Config) (hnc : ¬ Crowded errLen config s) {rules : List Rule}
    (hs : rules.Sublist definitions) (hn : ∀ r ∈ rules, r.name ∈ breakRules)
    {sort : List (RuleName × Suggestion) → List (RuleName × Suggestion)} (hsort : SortsRanges sort)
    {results : List CheckResult} (hr : runRules config rules p.tree = .ok results) :
    ∃ s' p', overlappingRules (sort (getRuleContextSuggestions results)) = .ok [] ∧
      applySuggestionsToText (filterSuggestions [] (sort (getRuleContextSuggestions results))) s = some s' ∧
      parse errLen s' = .ok p' ∧ p'.errors = [] ∧ BlocksClear s' ∧ NoCr p'.tree ∧ bare p'.tree = bare p.tree := by
  have hR : (∀ q ∈ getRuleContextSuggestions results, BreakAt [] (lex errLen s) q.2) ∧
      (getRuleContextSuggestions results).Pairwise (fun a b => a.2.range.start ≠ b.2.range.start) := by
    rcases break_alone hs hn hr with h0 | ⟨l, hl, h0⟩
    · rw [h0]; exact ⟨by simp, .nil⟩
    · rw [h0]
      refine ⟨fun q hq => ?_, Classical.byContradiction fun hx => hnc ⟨p, l, h, hl, hx⟩⟩
      obtain ⟨x, hx, _, hq⟩ := mem_rcs.1 hq
      exact break_findings he h herr hb hcr hl x hx _ hq
  obtain ⟨hR1, hR2⟩ := hR
  generalize getRuleContextSuggestions results = R at hR1 hR2
  have hperm : ((R.map (·.2)).mergeSort (fun a b => decide (a.range.start ≤ b.range.start))).Perm (R.map (·.2)) :=
    List.mergeSort_perm _ _
  have hle := List.pairwise_mergeSort (le := fun a b : Suggestion => decide (a.range.start ≤ b.range.start))
    (fun a b c h1 h2 => by simp only [decide_eq_true_eq] at *; omega)
    (fun a b => by simp only [Bool.or_eq_true, decide_eq_true_eq]; omega) (R.map (·.2))
  generalize (R.map (·.2)).mergeSort (fun a b => decide (a.range.start ≤ b.range.start)) = sugs at hperm hle
  have hat : ∀ x ∈ sugs, BreakAt [] (lex errLen s) x := by
    intro x hx
    obtain ⟨q, hq, rfl⟩ := List.mem_map.1 (hperm.subset hx)
    exact hR1 q hq
  have hne : sugs.Pairwise (fun a b => a.range.start ≠ b.range.start) :=
    (List.Perm.pairwise_iff (fun h => Ne.symm h) hperm).2 (List.pairwise_map.2 hR2)
  have hlt : sugs.Pairwise (fun a b => a.range.start < b.range.start) := by
    refine (hle.and hne).imp ?_
    rintro a b ⟨h1, h2⟩
    have h1 : a.range.start ≤ b.range.start := by simpa using h1
    omega
  have hah : sugs.Pairwise (fun a b => Ahead a.range b.range) :=
    (pairwise_both (P := fun x => x ∈ sugs) (fun x hx => hx) hlt).imp
      (fun ⟨h1, h2, h3⟩ => breakAt_order (hat _ h1) (hat _ h2) h3)
  obtain ⟨k1, k2⟩ := sort_ahead hsort hperm hah (fun x hx => breakAt_le (hat x hx))
  obtain ⟨s', p', g1, g2, g3, g4, g5⟩ := break_suggestions he hE hat hlt h herr
  refine ⟨s', p', k1, by rw [k2]; exact g1, g3, g4, ?_, noCr_bare g5 hcr, g5⟩
  have hlined := spaced_lined g2 (fun t ht => (C13_trivia_shape he s ht).2)
  rw [List.flatMap_def, (C02_lex_partition he s).2.1] at hlined
  exact blocksClear_lined hlined hb

/-! ## Fixing -/

/-- What is kept by each round. -/
structure BreakKept (errLen : Text → Nat) (original s : Text) : Prop where
  parsed : ∃ p, parse errLen s = .ok p ∧ p.errors = [] ∧ NoCr p.tree
  clear : BlocksClear s
  same : SameParse (parse errLen original) (parse errLen s)

/-- The fix loop keeps the structure, unless it comes to a text with two suggestions at one place. -/
theorem break_loop {errLen : Text → Nat} (he : ErrLenOk errLen) (hE : ErrBeforeBreak errLen)
    (config : Config) (active : List RuleName)
    {sort : List (RuleName × Suggestion) → List (RuleName × Suggestion)} (hsort : SortsRanges sort)
    (original : Text) (names : List RuleName) (hnames : ∀ n ∈ names, n ∈ breakRules) : ∀ (n it : Nat)
    (ctx : FileContext Tree) (results : List CheckResult) (dirty : Bool) (p : Parse),
    ctx.fileRules = names → parse errLen ctx.sourceCode = .ok p → BreakKept errLen original ctx.sourceCode →
    runRules config (rulesNamed names) p.tree = .ok results →
    (∃ t ∈ ctx.sourceCode :: (fixLoop (realEngine errLen config active sort) n it ctx results dirty).2,
      SameParse (parse errLen original) (parse errLen t) ∧ Crowded errLen config t) ∨
    ((∀ t ∈ (fixLoop (realEngine errLen config active sort) n it ctx results dirty).2,
      SameParse (parse errLen original) (parse errLen t)) ∧
    ((fixLoop (realEngine errLen config active sort) n it ctx results dirty).1 = .err .maxApplyIteration ∨
      ∃ ctx' results' dirty' it',
        (fixLoop (realEngine errLen config active sort) n it ctx results dirty).1 =
          .ok ctx' results' dirty' it' ∧
        SameParse (parse errLen original) (parse errLen ctx'.sourceCode))) := by
  intro n
  induction n with
  | zero => intro it ctx results dirty p _ _ _ _; exact .inr ⟨by simp [fixLoop], .inl rfl⟩
  | succ n ih =>
    intro it ctx results dirty p hc hp hI hr
    by_cases hemp : getRuleContextSuggestions results = []
    · rw [fixLoop_nothing _ n it ctx results dirty hemp]
      exact .inr ⟨by simp, .inr ⟨_, _, _, _, rfl, hI.same⟩⟩
    · by_cases hcrowd : Crowded errLen config ctx.sourceCode
      · exact .inl ⟨_, List.mem_cons_self, hI.same, hcrowd⟩
      have hmem : ∀ r ∈ rulesNamed names, r.name ∈ breakRules := by
        intro r hr
        have := (List.mem_filter.mp hr).2
        exact hnames _ (by simpa using this)
      obtain ⟨p0, hp0, herr, hcr⟩ := hI.parsed
      rw [hp] at hp0
      cases hp0
      obtain ⟨s', p', h1, h2, hp', herr', hb', hcr', hbare⟩ := break_round he hE hp herr hI.clear hcr config
        hcrowd (rulesNamed_sublist names) hmem hsort hr
      have hsame := hI.same
      have hI' : BreakKept errLen original s' := by
        refine ⟨⟨p', hp', herr', hcr'⟩, hb', hsame.trans ?_⟩
        rw [hp, hp']
        exact ⟨hbare.symm, by rw [herr, herr']⟩
      obtain ⟨results', hr'⟩ := C66_rules_never_panic hp' config (rulesNamed names)
        (fun r hr => (rulesNamed_sublist names).subset hr)
      rw [fixLoop_next (realEngine errLen config active sort) n it ctx results dirty [] s' p'.tree
        p'.errors.length results' hemp h1 h2 ((realEngine_parse ..).mpr ⟨p', hp', rfl, rfl⟩)
        (by rw [hc]; exact (realEngine_run ..).mpr hr')]
      rcases ih (it + 1) ⟨p'.tree, s', p'.errors.length, ctx.fileRules⟩ results' true p' hc hp' hI' hr' with
        ⟨t, ht, hx⟩ | ⟨g1, g2⟩
      · exact .inl ⟨t, List.mem_cons_of_mem _ ht, hx⟩
      · refine .inr ⟨?_, g2⟩
        intro t ht
        rcases List.mem_cons.mp ht with rfl | ht
        · exact hI'.same
        · exact g1 t ht

/-- Processing a file keeps its structure, unless it comes to two suggestions at one place. -/
theorem break_fix_or_crowded {errLen : Text → Nat} (he : ErrLenOk errLen)
    (hE : ErrBeforeBreak errLen) (config : Config) (active : List RuleName)
    (hactive : ∀ n ∈ active, n ∈ breakRules)
    {sort : List (RuleName × Suggestion) → List (RuleName × Suggestion)} (hsort : SortsRanges sort)
    (flags : Flags) (writeOk : Bool) {original : Text} {p : Parse} (hp : parse errLen original = .ok p)
    (herr : p.errors = []) (hb : BlocksClear original) (hcr : NoCr p.tree) :
    let run := runAnalysis (realEngine errLen config active sort) flags writeOk original
    (flags.fix = true ∧ ∃ t ∈ run.parsed,
      SameParse (parse errLen original) (parse errLen t) ∧ Crowded errLen config t) ∨
    ((run.outcome = .ok ∨ (flags.fix = true ∧ run.outcome = .err .maxApplyIteration) ∨
      (flags.fix = true ∧ writeOk = false ∧ run.outcome = .err .fileWrite)) ∧
    ∀ t ∈ run.parsed ++ run.writes, SameParse (parse errLen original) (parse errLen t)) := by
  have hrefl : SameParse (parse errLen original) (parse errLen original) := by
    rw [hp]; exact ⟨rfl, rfl⟩
  have hnames : ∀ n ∈ (realEngine errLen config active sort).fileRules p.tree, n ∈ breakRules := by
    intro n hn
    obtain ⟨r, hr, rfl⟩ := List.mem_map.mp hn
    have h1 := (List.mem_filter.mp ((fileRules_sublist _ _).subset hr)).2
    exact hactive _ (by simpa using h1)
  obtain ⟨results, hr⟩ := C66_rules_never_panic hp config
    (rulesNamed ((realEngine errLen config active sort).fileRules p.tree))
    (fun r hr => (rulesNamed_sublist _).subset hr)
  intro run
  have hrun : run = runAnalysis (realEngine errLen config active sort) flags writeOk original := rfl
  clear_value run
  unfold runAnalysis at hrun
  have hp' : (realEngine errLen config active sort).parse original = some (p.tree, p.errors.length) :=
    (realEngine_parse ..).mpr ⟨p, hp, rfl, rfl⟩
  have hr' : (realEngine errLen config active sort).runRules
      ((realEngine errLen config active sort).fileRules p.tree) p.tree = some results :=
    (realEngine_run ..).mpr hr
  rw [hp'] at hrun
  dsimp only at hrun
  rw [hr'] at hrun
  dsimp only at hrun
  have hloop := break_loop he hE config active hsort original _ hnames 10 0
    ⟨p.tree, original, p.errors.length, (realEngine errLen config active sort).fileRules p.tree⟩
    results false p rfl hp ⟨⟨p, hp, herr, hcr⟩, hb, hrefl⟩ hr
  unfold iterativelyApplySuggestions at hrun
  generalize fixLoop (realEngine errLen config active sort) 10 0
    ⟨p.tree, original, p.errors.length, (realEngine errLen config active sort).fileRules p.tree⟩
    results false = L at hloop hrun
  obtain ⟨res, parsed⟩ := L
  by_cases hfix : flags.fix = true
  · rw [if_pos hfix] at hrun
    rcases hloop with ⟨t, ht, hx⟩ | ⟨g1, g2⟩
    · refine .inl ⟨hfix, t, ?_, hx⟩
      have ht : t ∈ original :: parsed := ht
      cases res with
      | panic => subst hrun; exact ht
      | err e => subst hrun; exact ht
      | ok ctx' results' dirty' it' =>
        dsimp only at hrun
        split at hrun <;> (subst hrun; exact ht)
    · right
      rcases g2 with g2 | ⟨ctx', results', dirty', it', g2, g3⟩
      · simp only at g2
        subst g2
        dsimp only at hrun
        subst hrun
        refine ⟨.inr (.inl ⟨hfix, rfl⟩), ?_⟩
        intro t ht
        simp only [List.append_nil, List.mem_cons] at ht
        rcases ht with rfl | ht
        · exact hrefl
        · exact g1 t ht
      · simp only at g2
        subst g2
        dsimp only at hrun
        split at hrun
        · rename_i hd
          simp only [Bool.and_eq_true, Bool.not_eq_true'] at hd
          subst hrun
          refine ⟨.inr (.inr ⟨hfix, hd.2, rfl⟩), ?_⟩
          intro t ht
          simp only [List.mem_append, List.mem_cons, List.not_mem_nil, or_false] at ht
          rcases ht with (rfl | ht) | rfl
          · exact hrefl
          · exact g1 t ht
          · exact g3
        · subst hrun
          refine ⟨.inl rfl, ?_⟩
          intro t ht
          simp only [List.mem_append, List.mem_cons] at ht
          rcases ht with (rfl | ht) | ht
          · exact hrefl
          · exact g1 t ht
          · split at ht
            · simp only [List.mem_singleton] at ht; subst ht; exact g3
            · cases ht
  · rw [if_neg hfix] at hrun
    subst hrun
    refine .inr ⟨.inl rfl, ?_⟩
    intro t ht
    simp only [List.append_nil, List.mem_singleton] at ht
    subst ht
    exact hrefl

/-- In a file without blocks in raw text there are never two suggestions at one place. -/
theorem crowded_raw {errLen : Text → Nat} (he : ErrLenOk errLen) {config : Config} {original t : Text} {p : Parse}
    (hp : parse errLen original = .ok p) (herr : p.errors = [])
    (hs : SameParse (parse errLen original) (parse errLen t)) (hc : Crowded errLen config t) : RawBlock p.tree := by
  obtain ⟨p', l, hp', hl, hnot⟩ := hc
  rw [hp, hp'] at hs
  have herr' : p'.errors = [] := by
    have := hs.2
    rw [herr] at this
    exact List.map_eq_nil_iff.1 this.symm
  refine Classical.byContradiction fun hraw => hnot (C89_breaks_at_different_places he hp' herr' (fun h => hraw ?_) hl)
  rw [← rawBlock_bare, ← hs.1, rawBlock_bare] at h
  exact h

/-- C88: processing a file without parse errors, with or without `--fix`, with only
`twig-block-line-breaks` and rules without suggestions, where no block or comment comes behind `<` or an
operator of two words, and no token but line breaks ends with CR. It does not panic, no suggestions of a
rule overlap, and every text that it parses or writes has the structure of the original (the same tree up
to whitespace and line breaks, no errors). The only exception left open: the file has a block in raw text,
and the processing comes to a text in which the rule suggests two changes at one place. -/
theorem C88_block_break_fix_keeps_structure {errLen : Text → Nat} (he : ErrLenOk errLen)
    (hE : ErrBeforeBreak errLen) (config : Config) (active : List RuleName)
    (hactive : ∀ n ∈ active, n ∈ breakRules)
    {sort : List (RuleName × Suggestion) → List (RuleName × Suggestion)} (hsort : SortsRanges sort)
    (flags : Flags) (writeOk : Bool) {original : Text} {p : Parse} (hp : parse errLen original = .ok p)
    (herr : p.errors = []) (hb : BlocksClear original) (hcr : NoCr p.tree) :
    let run := runAnalysis (realEngine errLen config active sort) flags writeOk original
    (flags.fix = true ∧ RawBlock p.tree ∧ ∃ t ∈ run.parsed,
      SameParse (parse errLen original) (parse errLen t) ∧ Crowded errLen config t) ∨
    ((run.outcome = .ok ∨ (flags.fix = true ∧ run.outcome = .err .maxApplyIteration) ∨
      (flags.fix = true ∧ writeOk = false ∧ run.outcome = .err .fileWrite)) ∧
    ∀ t ∈ run.parsed ++ run.writes, SameParse (parse errLen original) (parse errLen t)) := by
  intro run
  rcases break_fix_or_crowded he hE config active hactive hsort flags writeOk hp herr hb hcr with
    ⟨h1, t, h2, h3, h4⟩ | h
  · exact .inl ⟨h1, crowded_raw he hp herr h3 h4, t, h2, h3, h4⟩
  · exact .inr h

/-! ## Samples -/

/-- A check of `BlocksClear`. -/
def blocksClearGo (u : Text) : Text → Bool
  | [] => true
  | c :: v =>
    (!(openTexts.any (fun w => w.isPrefixOf ((c :: v).dropWhile blankChar))) ||
      (u.head? != some '<' && !"ni ton".toList.isPrefixOf u && !"ton si".toList.isPrefixOf u)) &&
    blocksClearGo (c :: u) v

theorem blockNext_check {v : Text} (h : BlockNext v) :
    openTexts.any (fun w => w.isPrefixOf (v.dropWhile blankChar)) = true := by
  obtain ⟨b, w, r, rfl, hb, hw⟩ := h
  refine List.any_eq_true.2 ⟨w, hw, List.isPrefixOf_iff_prefix.2 ?_⟩
  have hw' : (w ++ r).dropWhile blankChar = w ++ r := by
    simp only [openTexts, List.mem_cons, List.not_mem_nil, or_false] at hw
    rcases hw with rfl | rfl | rfl <;> rfl
  have : (b ++ (w ++ r)).dropWhile blankChar = w ++ r := by
    induction b with
    | nil => exact hw'
    | cons c b ih =>
      rw [List.cons_append, List.dropWhile_cons_of_pos (hb c (by simp))]
      exact ih (fun d hd => hb d (by simp [hd]))
  rw [this]
  exact List.prefix_append _ _

theorem blocksClearGo_sound : ∀ {s u : Text}, blocksClearGo u.reverse s = true →
    ∀ x v, s = x ++ v → BlockNext v → (u ++ x).getLast? ≠ some '<' ∧ ¬ EndsTwoWords (u ++ x)
  | [], u, _, x, v, e, hv => by
    obtain ⟨b, w, r, h, _, hw⟩ := hv
    have : v = [] := (List.append_eq_nil_iff.1 e.symm).2
    rw [this] at h
    have h2 := (List.append_eq_nil_iff.1 (List.append_eq_nil_iff.1 h.symm).2).1
    rw [h2] at hw
    exact absurd hw (by decide)
  | c :: s, u, h, x, v, e, hv => by
    rw [blocksClearGo, Bool.and_eq_true] at h
    cases x with
    | nil =>
      have e : c :: s = v := e
      have h1 := h.1
      rw [e, blockNext_check hv] at h1
      simp only [Bool.not_true, Bool.false_or, Bool.and_eq_true, bne_iff_ne, ne_eq, Bool.not_eq_true',
        List.head?_reverse] at h1
      rw [List.append_nil]
      refine ⟨h1.1.1, ?_⟩
      rintro (hw | hw)
      · have := List.isPrefixOf_iff_prefix.2 (List.reverse_prefix.2 hw)
        rw [show "not in".toList.reverse = "ni ton".toList from rfl, h1.1.2] at this
        cases this
      · have := List.isPrefixOf_iff_prefix.2 (List.reverse_prefix.2 hw)
        rw [show "is not".toList.reverse = "ton si".toList from rfl, h1.2] at this
        cases this
    | cons d x =>
      rw [List.cons_append, List.cons.injEq] at e
      obtain ⟨rfl, e⟩ := e
      have h2 : blocksClearGo (u ++ [c]).reverse s = true := by
        rw [List.reverse_append]; exact h.2
      have := blocksClearGo_sound h2 x v e hv
      simpa using this

theorem blocksClear_check {s : Text} (h : blocksClearGo [] s = true) : BlocksClear s := by
  intro u v e hv
  have := blocksClearGo_sound (u := []) h u v e hv
  simpa using this

/-- A file in which the fix puts a block on lines of its own, and a comment with it. The condition about
`<` is needed: see `breaks_lineBreaks` in `FixErrors.lean`. -/
example :
    let s := "<p>a{#b#}{% block c %}{% endblock %}</p>".toList
    SortsRanges insertionSort ∧ (∀ n ∈ breakRules, n ∈ breakRules) ∧ ErrBeforeBreak (fun _ => 1) ∧ BlocksClear s ∧
    Returns (parse (fun _ => 1) s) (fun r => r.errors.isEmpty &&
      r.tree.leaves.all (fun l => l.2.getLast? != some '\r')) = true ∧
    (runAnalysis (realEngine (fun _ => 1) defaultConfig breakRules insertionSort) ⟨true, false⟩ true s).writes =
      ["<p>a\n\n{#b#}{% block c %}{% endblock %}\n</p>".toList] :=
  ⟨insertionSort_sorts, fun _ h => h, fun _ _ _ _ _ _ _ _ _ => rfl, blocksClear_check (by decide +kernel),
    by decide +kernel, by decide +kernel⟩

end Ludtwig.Rules
