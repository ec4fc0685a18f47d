import Verif.Rules.LayoutFix
import Verif.Template.StringWalk
import Verif.Template.Samples

/-!
# Fixing the quotes of a file: properties C75 and C76

With only the two rules for quotes among the rules that suggest something, `--fix` leaves a template a
template: whatever it writes parses without errors, to the same tree up to the quotes around strings.
-/

namespace Ludtwig.Rules

open Cli Lexer Layout Shape Template

/-! ## Specification -/

/-- The rules that suggest nothing, and the two rules for quotes. -/
def quoteRules : List RuleName :=
  ["twig-string-quotation".toList, "html-string-quotation".toList,
    "ludtwig-ignore-file-not-on-top".toList, "twig-block-duplicate".toList, "html-duplicate-id".toList,
    "twig-variable-definition-naming".toList, "twig-valid-filter".toList, "twig-valid-test".toList,
    "twig-valid-function".toList]

/-! ## The strings whose quotes are changed -/

/-- The string has quotes that the rules do not want. -/
def unfit (q : Char) (e : Elem) : Bool := !quoteIsFine q e.openingQuote || !quoteIsFine q e.closingQuote

/-- The string has interpolations. -/
def interpolated (e : Elem) : Bool :=
  match e.twigStringInner with
  | none => false
  | some i => !(i.childrenOf .TWIG_LITERAL_STRING_INTERPOLATION).isEmpty

/-- The quote that a rule wants for a string. -/
def asks (config : Config) (r : Rule) (e : Elem) : Option Char :=
  if e.isNode = true ∧ e.kind = .TWIG_LITERAL_STRING ∧ r.name = "twig-string-quotation".toList ∧
      unfit config.twigQuotation.char e = true ∧ ¬ (config.twigQuotation = .single ∧ interpolated e = true) then
    some config.twigQuotation.char
  else if e.isNode = true ∧ e.kind = .HTML_STRING ∧ r.name = "html-string-quotation".toList ∧
      unfit config.htmlQuotation.char e = true then
    some config.htmlQuotation.char
  else none

/-- The quote that the rules want for a string. -/
def wants (config : Config) (rules : List Rule) (e : Elem) : Option Char :=
  if hidden e then none else (rules.filter (fun r => !switchedOff r.name e)).findSome? (fun r => asks config r e)

theorem char_quote (q : Quotation) : QuoteChar q.char := by
  cases q
  · exact .inr rfl
  · exact .inl rfl

theorem asks_cases {config : Config} {r : Rule} {e : Elem} {q : Char} (h : asks config r e = some q) :
    (e.isNode = true ∧ e.kind = .TWIG_LITERAL_STRING ∧ r.name = "twig-string-quotation".toList ∧
      q = config.twigQuotation.char ∧ ¬ (config.twigQuotation = .single ∧ interpolated e = true)) ∨
    (e.isNode = true ∧ e.kind = .HTML_STRING ∧ r.name = "html-string-quotation".toList ∧ q = config.htmlQuotation.char) := by
  unfold asks at h
  split at h
  · rename_i hc
    cases h
    exact .inl ⟨hc.1, hc.2.1, hc.2.2.1, rfl, hc.2.2.2.2⟩
  · split at h
    · rename_i hc
      cases h
      exact .inr ⟨hc.1, hc.2.1, hc.2.2.1, rfl⟩
    · cases h

theorem wants_asks {config : Config} {rules : List Rule} {e : Elem} {q : Char} (h : wants config rules e = some q) :
    ∃ r, asks config r e = some q := by
  unfold wants at h
  split at h
  · cases h
  · obtain ⟨r, _, hr⟩ := List.exists_of_findSome?_eq_some h
    exact ⟨r, hr⟩

theorem node_tree {e : Elem} {k : SyntaxKind} (h1 : e.isNode = true) (h2 : e.kind = k) : ∃ cs, e.tree = .node k cs := by
  unfold Elem.isNode at h1
  unfold Elem.kind at h2
  cases h : e.tree with
  | token => rw [h] at h1; cases h1
  | node k' cs => rw [h] at h2; cases h2; exact ⟨cs, rfl⟩

theorem wants_ok (config : Config) (rules : List Rule) : DecOk (wants config rules) where
  quote := fun h => by
    obtain ⟨r, hr⟩ := wants_asks h
    rcases asks_cases hr with ⟨_, _, _, rfl, _⟩ | ⟨_, _, _, rfl⟩ <;> exact char_quote _
  kind := fun h => by
    obtain ⟨r, hr⟩ := wants_asks h
    rcases asks_cases hr with ⟨h1, h2, _⟩ | ⟨h1, h2, _⟩
    · obtain ⟨cs, h⟩ := node_tree h1 h2; exact ⟨cs, .inl h⟩
    · obtain ⟨cs, h⟩ := node_tree h1 h2; exact ⟨cs, .inr h⟩
  parts := fun {e q i} h hq hk hi => by
    obtain ⟨r, hr⟩ := wants_asks h
    rcases asks_cases hr with ⟨_, _, _, rfl, hn⟩ | ⟨_, h2, _⟩
    · have hs : config.twigQuotation = .single := by
        cases hc : config.twigQuotation with
        | single => rfl
        | double => rw [hc] at hq; exact absurd hq (by decide)
      have : interpolated e ≠ true := fun hi => hn ⟨hs, hi⟩
      unfold interpolated at this
      rw [hi] at this
      simpa using this
    · rw [hk] at h2; cases h2

/-! ## The suggestions of the rules -/

theorem quoteRule_cases {r : Rule} (hd : r ∈ definitions) (hn : r.name ∈ quoteRules) :
    r = twigStringQuotation ∨ r = htmlStringQuotation ∨
      (Silent r ∧ r.name ≠ "twig-string-quotation".toList ∧ r.name ≠ "html-string-quotation".toList) := by
  simp only [definitions, List.mem_cons, List.not_mem_nil, or_false] at hd
  rcases hd with rfl | rfl | rfl | rfl | rfl | rfl | rfl | rfl | rfl | rfl | rfl | rfl | rfl | rfl |
    rfl | rfl | rfl | rfl | rfl | rfl | rfl | rfl
  · exact .inr (.inr ⟨silent_ignoreFileNotOnTop, by decide +kernel, by decide +kernel⟩)
  · exact absurd hn (by decide +kernel)
  · exact absurd hn (by decide +kernel)
  · exact absurd hn (by decide +kernel)
  · exact absurd hn (by decide +kernel)
  · exact absurd hn (by decide +kernel)
  · exact absurd hn (by decide +kernel)
  · exact absurd hn (by decide +kernel)
  · exact absurd hn (by decide +kernel)
  · exact .inl rfl
  · exact .inr (.inl rfl)
  · exact absurd hn (by decide +kernel)
  · exact absurd hn (by decide +kernel)
  · exact absurd hn (by decide +kernel)
  · exact absurd hn (by decide +kernel)
  · exact .inr (.inr ⟨silent_twigBlockDuplicate, by decide +kernel, by decide +kernel⟩)
  · exact absurd hn (by decide +kernel)
  · exact .inr (.inr ⟨silent_htmlDuplicateId, by decide +kernel, by decide +kernel⟩)
  · exact .inr (.inr ⟨silent_twigVariableDefinitionNaming, by decide +kernel, by decide +kernel⟩)
  · exact .inr (.inr ⟨silent_twigValidFilter, by decide +kernel, by decide +kernel⟩)
  · exact .inr (.inr ⟨silent_twigValidTest, by decide +kernel, by decide +kernel⟩)
  · exact .inr (.inr ⟨silent_twigValidFunction, by decide +kernel, by decide +kernel⟩)

/-- The suggestions for a wanted quote. -/
def sugsFor (e : Elem) : Option Char → List Suggestion
  | none => []
  | some q => quoteSugs e q

theorem changed_sugs {name : RuleName} {range : TextRange} {e : Elem} (q : Char) :
    (getRuleContextSuggestions [changedQuotes e (innerPart e) q (result name .help range)]).map (·.2) = quoteSugs e q := by
  unfold changedQuotes quoteSugs getRuleContextSuggestions
  cases innerPart e with
  | none => rfl
  | some i =>
    dsimp only
    split <;> rfl

theorem check_sugs {name : RuleName} {e : Elem} (q : Char) :
    (getRuleContextSuggestions (checkQuotes name q e (innerPart e))).map (·.2) = if unfit q e = true then quoteSugs e q else [] := by
  unfold checkQuotes
  show List.map _ (getRuleContextSuggestions (if unfit q e = true then _ else _)) = _
  split
  · exact changed_sugs q
  · rfl

theorem rule_names : twigStringQuotation.name = "twig-string-quotation".toList ∧
    htmlStringQuotation.name = "html-string-quotation".toList := ⟨rfl, rfl⟩

theorem interpolated_iff (e : Elem) : ((match e.twigStringInner with
    | none => 0
    | some inner => (inner.childrenOf .TWIG_LITERAL_STRING_INTERPOLATION).length) > 0) ↔ interpolated e = true := by
  unfold interpolated
  cases e.twigStringInner with
  | none => simp
  | some i =>
    dsimp only
    cases i.childrenOf .TWIG_LITERAL_STRING_INTERPOLATION <;> simp

theorem rule_sugs (config : Config) {r : Rule} (hd : r ∈ definitions) (hn : r.name ∈ quoteRules) (e : Elem) :
    (getRuleContextSuggestions (checkElem config r e)).map (·.2) = sugsFor e (asks config r e) := by
  rcases quoteRule_cases hd hn with rfl | rfl | hs
  · by_cases h : e.isNode = true ∧ e.kind = .TWIG_LITERAL_STRING
    · obtain ⟨cs, ht⟩ := node_tree h.1 h.2
      have hi : innerPart e = e.twigStringInner := by unfold innerPart; rw [h.2]; rfl
      have hc : checkElem config twigStringQuotation e = if config.twigQuotation = .single ∧ interpolated e = true then [] else
          checkQuotes "twig-string-quotation".toList config.twigQuotation.char e (innerPart e) := by
        unfold checkElem
        rw [ht, hi]
        show (match e.cast .TWIG_LITERAL_STRING with
          | none => []
          | some string => _) = _
        have : e.cast .TWIG_LITERAL_STRING = some e := by unfold Elem.cast; rw [h.1, h.2]; rfl
        rw [this]
        dsimp only
        congr 1
        simp only [Bool.and_eq_true, beq_iff_eq, decide_eq_true_eq]
        exact propext (and_congr_right (fun _ => interpolated_iff e))
      rw [hc]
      unfold asks
      by_cases h2 : config.twigQuotation = .single ∧ interpolated e = true
      · rw [if_pos h2, if_neg (fun x => x.2.2.2.2 h2), if_neg (fun x => by have := x.2.1; rw [h.2] at this; cases this)]
        rfl
      · rw [if_neg h2, check_sugs]
        by_cases h3 : unfit config.twigQuotation.char e = true
        · rw [if_pos h3, if_pos ⟨h.1, h.2, rfl, h3, h2⟩]; rfl
        · rw [if_neg h3, if_neg (fun x => h3 x.2.2.2.1), if_neg (fun x => by have := x.2.1; rw [h.2] at this; cases this)]; rfl
    · have hc : checkElem config twigStringQuotation e = [] := by
        unfold checkElem
        split
        · show (match e.cast .TWIG_LITERAL_STRING with
            | none => []
            | some string => _) = _
          have : e.cast .TWIG_LITERAL_STRING = none := by
            unfold Elem.cast
            rw [if_neg]
            simpa using h
          rw [this]
        · rfl
      rw [hc]
      unfold asks
      rw [if_neg (fun x => h ⟨x.1, x.2.1⟩), if_neg (fun x => absurd x.2.2.1 (by decide +kernel))]
      rfl
  · by_cases h : e.isNode = true ∧ e.kind = .HTML_STRING
    · obtain ⟨cs, ht⟩ := node_tree h.1 h.2
      have hi : innerPart e = e.htmlStringInner := by unfold innerPart; rw [h.2]; rfl
      have hc : checkElem config htmlStringQuotation e =
          checkQuotes "html-string-quotation".toList config.htmlQuotation.char e (innerPart e) := by
        unfold checkElem
        rw [ht, hi]
        show (match e.cast .HTML_STRING with
          | none => []
          | some string => _) = _
        have : e.cast .HTML_STRING = some e := by unfold Elem.cast; rw [h.1, h.2]; rfl
        rw [this]
      rw [hc, check_sugs]
      have ha : asks config htmlStringQuotation e =
          if unfit config.htmlQuotation.char e = true then some config.htmlQuotation.char else none := by
        unfold asks
        rw [if_neg (fun x => by have := x.2.1; rw [h.2] at this; cases this)]
        congr 1
        simp only [h.1, h.2, rule_names.2, true_and]
      rw [ha]
      by_cases h3 : unfit config.htmlQuotation.char e = true
      · rw [if_pos h3, if_pos h3]; rfl
      · rw [if_neg h3, if_neg h3]; rfl
    · have hc : checkElem config htmlStringQuotation e = [] := by
        unfold checkElem
        split
        · show (match e.cast .HTML_STRING with
            | none => []
            | some string => _) = _
          have : e.cast .HTML_STRING = none := by
            unfold Elem.cast
            rw [if_neg]
            simpa using h
          rw [this]
        · rfl
      rw [hc]
      unfold asks
      rw [if_neg (fun x => absurd x.2.2.1 (by decide +kernel)), if_neg (fun x => h ⟨x.1, x.2.1⟩)]
      rfl
  · rw [rcs_eq_nil_of_silent config hs.1 e]
    unfold asks
    rw [if_neg (fun x => hs.2.1 x.2.2.1), if_neg (fun x => hs.2.2 x.2.2.1)]
    rfl

theorem findSome_flatMap {α β γ : Type} {f : α → Option β} (k : Option β → List γ) (hk : k none = []) {l : List α}
    (h : l.Pairwise (fun a b => f a = none ∨ f b = none)) : l.flatMap (fun a => k (f a)) = k (l.findSome? f) := by
  induction l with
  | nil => exact hk.symm
  | cons a l ih =>
    rw [List.pairwise_cons] at h
    rw [List.flatMap_cons, List.findSome?_cons, ih h.2]
    cases ha : f a with
    | none => rw [hk]; rfl
    | some b =>
      have : l.findSome? f = none := by
        rw [List.findSome?_eq_none_iff]
        intro x hx
        rcases h.1 x hx with h' | h'
        · rw [ha] at h'; cases h'
        · exact h'
      rw [this, hk, List.append_nil]

theorem elem_sugs (config : Config) {rules : List Rule} (hs : rules.Sublist definitions) (hn : ∀ r ∈ rules, r.name ∈ quoteRules)
    {e : Elem} (hh : hidden e = false) : (elemRcs config rules e).map (·.2) = own (wants config rules) e := by
  have hsub : (rules.filter (fun r => !switchedOff r.name e)).Sublist rules := List.filter_sublist
  have h1 : (elemRcs config rules e).map (·.2) =
      (rules.filter (fun r => !switchedOff r.name e)).flatMap (fun r => sugsFor e (asks config r e)) := by
    unfold elemRcs
    rw [rcs_flatMap, List.map_flatMap]
    have : ∀ l : List Rule, l.Sublist rules → l.flatMap (fun r => (getRuleContextSuggestions (checkElem config r e)).map (·.2)) =
        l.flatMap (fun r => sugsFor e (asks config r e)) := by
      intro l hl
      induction l with
      | nil => rfl
      | cons r l ih =>
        have hr : r ∈ rules := hl.subset (by simp)
        rw [List.flatMap_cons, List.flatMap_cons, rule_sugs config (hs.subset hr) (hn r hr), ih ((List.sublist_cons_self _ _).trans hl)]
    exact this _ hsub
  rw [h1, findSome_flatMap (sugsFor e) rfl]
  · unfold own wants
    rw [hh]
    simp only [Bool.false_eq_true, if_false]
    cases (rules.filter (fun r => !switchedOff r.name e)).findSome? (fun r => asks config r e) <;> rfl
  · refine ((nodup_names hs).sublist hsub).imp ?_
    intro a b hab
    cases ha : asks config a e with
    | none => exact .inl rfl
    | some q =>
      cases hb : asks config b e with
      | none => exact .inr rfl
      | some q' =>
        exfalso
        rcases asks_cases ha with ⟨_, h1, h2, _⟩ | ⟨_, h1, h2, _⟩ <;> rcases asks_cases hb with ⟨_, h3, h4, _⟩ | ⟨_, h3, h4, _⟩
        · exact hab (h2.trans h4.symm)
        · rw [h1] at h3; cases h3
        · rw [h1] at h3; cases h3
        · exact hab (h2.trans h4.symm)

/-- The suggestions of one round. -/
theorem quote_results (config : Config) {rules : List Rule} (hs : rules.Sublist definitions) (hn : ∀ r ∈ rules, r.name ∈ quoteRules)
    {t : Tree} {results : List CheckResult} (hr : runRules config rules t = .ok results) :
    (getRuleContextSuggestions results).map (·.2) = elemSugs (wants config rules) [Elem.root t] := by
  have hroot : ∃ x, rootChecks config (Elem.root t) rules = .ok x := by
    unfold runRules at hr
    cases rules with
    | nil => exact ⟨[], rfl⟩
    | cons a rs =>
      simp only [List.isEmpty_cons, Bool.false_eq_true, if_false] at hr
      split at hr
      · cases hr
      · rename_i x hx; exact ⟨x, hx⟩
  obtain ⟨x, hx⟩ := hroot
  obtain ⟨found, hf, _⟩ := rootChecks_inv config _ rules x hx
  rw [C18_scope_of_ignore config rules t found hf] at hr
  cases hr
  have hA : getRuleContextSuggestions (rules.flatMap found) = [] := by
    rw [rcs_flatMap, List.flatMap_eq_nil_iff]
    intro r hr
    have h1 := hf _ hr
    rcases quoteRule_cases (hs.subset hr) (hn r hr) with rfl | rfl | hsil
    · have h2 : twigStringQuotation.checkRoot ⟨config, false⟩ (Elem.root t) = .ok [] := rfl
      rw [h2, Except.ok.injEq] at h1
      rw [← h1]; rfl
    · have h2 : htmlStringQuotation.checkRoot ⟨config, false⟩ (Elem.root t) = .ok [] := rfl
      rw [h2, Except.ok.injEq] at h1
      rw [← h1]; rfl
    · exact silent_rcs (hsil.1.2.2 _ _ _ h1)
  rw [rcs_append, hA, List.nil_append]
  unfold specResults elemSugs
  rw [rcs_flatMap, List.map_flatMap, List.flatMap_cons, List.flatMap_nil, List.append_nil]
  show List.flatMap (fun e => (elemRcs config rules e).map (·.2)) _ = _
  unfold Tree.elems
  generalize (Elem.root t).descendants = es
  induction es with
  | nil => rfl
  | cons e es ih =>
    rw [List.flatMap_cons, ← ih]
    cases hh : hidden e with
    | true =>
      rw [List.filter_cons_of_neg (by simp [hh])]
      have : own (wants config rules) e = [] := by unfold own wants; rw [hh]; rfl
      rw [this]; rfl
    | false =>
      rw [List.filter_cons_of_pos (by simp [hh]), List.flatMap_cons, elem_sugs config hs hn hh]

/-! ## The file and its cells -/

theorem unknown_quote {k : SyntaxKind} (hk : k = .TK_UNKNOWN ∨ k = .TK_NOT_IN ∨ k = .TK_IS_NOT) : k ∉ quotes := by
  rcases hk with rfl | rfl | rfl <;> decide

theorem tokenized_quote {errLen : Text → Nat} {s : Text} {ts : List (SyntaxKind × Text)} (h : Tokenizes errLen s ts) :
    ∀ p ∈ ts, ∀ q, QuoteChar q → p.1 = quoteKind q → p.2 = [q] := by
  induction h with
  | nil => intro p hp; cases hp
  | rule hm _ _ _ ih =>
    intro p hp q hq hk
    rcases List.mem_cons.1 hp with rfl | hp
    · simp only at hk
      have := quote_text hm.rule (by rw [hk]; exact quoteKind_quotes hq)
      rw [hk] at this
      rw [this]
      rcases hq with rfl | rfl <;> rfl
    · exact ih p hp q hq hk
  | notIn _ _ _ ih =>
    intro p hp q hq hk
    rcases List.mem_cons.1 hp with rfl | hp
    · exact absurd (quoteKind_quotes hq) (hk ▸ unknown_quote (.inr (.inl rfl)))
    · exact ih p hp q hq hk
  | isNot _ _ _ ih =>
    intro p hp q hq hk
    rcases List.mem_cons.1 hp with rfl | hp
    · exact absurd (quoteKind_quotes hq) (hk ▸ unknown_quote (.inr (.inr rfl)))
    · exact ih p hp q hq hk
  | unknown _ _ _ _ ih =>
    intro p hp q hq hk
    rcases List.mem_cons.1 hp with rfl | hp
    · exact absurd (quoteKind_quotes hq) (hk ▸ unknown_quote (.inl rfl))
    · exact ih p hp q hq hk

/-- A template cut into cells by the suggestions for its strings. -/
theorem template_cells {errLen : Text → Nat} (he : ErrLenOk errLen) {s : Text} {xs : List Tree} {p : Parse}
    (hp : parse errLen s = .ok p) (hpe : p.errors = []) (hx : p.tree.strip = [.node .ROOT xs])
    (ht : T (BlankAt (lex errLen s)) (.body .element) ((lex errLen s).filter (fun t => !t.kind.isTrivia)) xs)
    {dec : Elem → Option Char} (hd : DecOk dec) : ∃ cs g ys, Recut (lex errLen s) xs ys cs g ∧
      (cellSugs 0 cs).Perm (elemSugs dec [Elem.root p.tree]) ∧ turnElems dec [Elem.root p.tree] = [.node .ROOT ys] := by
  obtain ⟨trees, h1, h2⟩ := C05_root_covers errLen s p hp
  obtain ⟨h3, h4, h5⟩ := C02_lex_partition he s
  obtain ⟨ts, hroot, hts⟩ := strip_node hx
  have hfine : RowFine (Elem.root p.tree).childrenWithTokens :=
    kids_fine hroot (Shape.C69_whitespace_attached hp) (Shape.quoted_strings hp hpe)
  have hst : Stretch 0 [Elem.root p.tree] (lex errLen s) [] ((lex errLen s).filter solid) [] (byteLen s) := by
    refine ⟨⟨rfl, trivial⟩, ?_, by simpa using h3, by simpa using h5, ?_, by simp⟩
    · show Covers (p.tree.leaves ++ []) _
      rw [List.append_nil, h1]
      exact h2
    · intro t ht q hq hk
      exact tokenized_quote (C49_lex_tokenizes he s) (t.kind, t.text) (List.mem_map.2 ⟨t, by simpa using ht, rfl⟩) q hq hk
  have hst' := hst.kids hroot
  rw [List.append_nil] at hst'
  have hstrs : Strs ((lex errLen s).filter solid) xs := sound ht
  obtain ⟨cs, g, ho⟩ := walk hd hstrs hst' hfine (by rw [kids_strip hroot, hts])
  have hturn := turn_elem_node (dec := dec) (e := Elem.root p.tree) hroot
  rw [newQuote_other hd (e := Elem.root p.tree) hroot (by decide) (by decide)] at hturn
  refine ⟨cs, g, _, ⟨ho.old, ho.good, ho.places, ho.sigs, ho.keys, ho.groups, ho.turns⟩, ?_, hturn⟩
  rw [sugs_node hd hroot (by decide) (by decide), List.append_nil]
  exact ho.sugs

/-! ## The order of the suggestions -/

/-- A range lies before another one, and not the other way around. -/
def Ahead (a b : TextRange) : Prop := a.stop ≤ b.start ∧ a.start < b.stop

theorem ahead_ordering {a b : TextRange} (h : Ahead a b) : a.ordering b = .lt ∧ b.ordering a = .gt := by
  obtain ⟨h1, h2⟩ := h
  unfold TextRange.ordering
  rw [if_pos h1, if_neg (by omega), if_pos h1]
  exact ⟨rfl, rfl⟩

/-- The next suggestion is not before `a`, or behind it if an empty one at `a` is no longer possible. -/
theorem cells_from : ∀ {cs : List Cell} {a : Nat} {b : Bool}, Sits b cs → Lies a cs →
    ∀ x ∈ cellSugs a cs, a ≤ x.range.start ∧ x.range.start ≤ x.range.stop ∧ (b = false → a < x.range.stop)
  | [], _, _, _, _, x, hx => by cases hx
  | .keep t :: cs, a, b, hs, hl, x, hx => by
    obtain ⟨h1, h2, h3, hl⟩ := hl
    have hpos := byteLen_pos h3
    have hx : x ∈ cellSugs (a + byteLen t.text) cs := hx
    rw [h2] at hl
    have hs : Sits (decide (t.kind ∈ insertable)) cs := hs
    obtain ⟨g1, g2, _⟩ := cells_from hs hl x hx
    exact ⟨by omega, g2, fun _ => by omega⟩
  | .swap t q :: cs, a, b, hs, hl, x, hx => by
    obtain ⟨h1, h2, h3, hl⟩ := hl
    rw [h2] at hl
    have hx : x ∈ (⟨⟨a, a + byteLen t.text⟩, [q]⟩ : Suggestion) :: cellSugs (a + byteLen t.text) cs := hx
    rcases List.mem_cons.1 hx with rfl | hx
    · exact ⟨Nat.le_refl _, Nat.le_add_right .., fun _ => by show a < a + _; omega⟩
    · obtain ⟨g1, g2, _⟩ := cells_from hs.2.2 hl x hx
      exact ⟨by omega, g2, fun _ => by omega⟩
  | .ins p q :: cs, a, b, hs, hl, x, hx => by
    obtain ⟨h1, hl⟩ := hl
    obtain ⟨hb, _, hs⟩ := hs
    have hx : x ∈ (⟨⟨a, a + 0⟩, [q]⟩ : Suggestion) :: cellSugs (a + 0) cs := hx
    rcases List.mem_cons.1 hx with rfl | hx
    · exact ⟨Nat.le_refl _, Nat.le_add_right .., fun h => by rw [hb] at h; cases h⟩
    · obtain ⟨g1, g2, g3⟩ := cells_from hs hl x hx
      exact ⟨g1, g2, fun _ => g3 rfl⟩

theorem cells_ahead : ∀ {cs : List Cell} {a : Nat} {b : Bool}, Sits b cs → Lies a cs →
    (cellSugs a cs).Pairwise (fun x y => Ahead x.range y.range)
  | [], _, _, _, _ => .nil
  | .keep t :: cs, a, b, hs, hl => by
    obtain ⟨h1, h2, h3, hl⟩ := hl
    rw [h2] at hl
    have hs : Sits (decide (t.kind ∈ insertable)) cs := hs
    exact (cells_ahead hs hl : (cellSugs (a + byteLen t.text) cs).Pairwise _)
  | .swap t q :: cs, a, b, hs, hl => by
    obtain ⟨h1, h2, h3, hl⟩ := hl
    rw [h2] at hl
    show ((⟨⟨a, a + byteLen t.text⟩, [q]⟩ : Suggestion) :: cellSugs (a + byteLen t.text) cs).Pairwise _
    rw [List.pairwise_cons]
    refine ⟨fun y hy => ?_, cells_ahead hs.2.2 hl⟩
    obtain ⟨g1, g2, _⟩ := cells_from hs.2.2 hl y hy
    exact ⟨g1, by show a < _; omega⟩
  | .ins p q :: cs, a, b, hs, hl => by
    obtain ⟨h1, hl⟩ := hl
    obtain ⟨hb, _, hs⟩ := hs
    show ((⟨⟨a, a + 0⟩, [q]⟩ : Suggestion) :: cellSugs (a + 0) cs).Pairwise _
    rw [List.pairwise_cons]
    refine ⟨fun y hy => ?_, cells_ahead hs hl⟩
    obtain ⟨g1, g2, g3⟩ := cells_from hs hl y hy
    exact ⟨g1, g3 rfl⟩

theorem perm_lift {α β : Type} {f : α → β} {l m : List β} (h : l.Perm m) : ∀ {R : List α}, R.map f = l → ∃ R' : List α, R'.Perm R ∧ R'.map f = m := by
  induction h with
  | nil => intro R hR; exact ⟨R, .refl _, hR⟩
  | cons x _ ih =>
    intro R hR
    cases R with
    | nil => cases hR
    | cons r R =>
      simp only [List.map_cons, List.cons.injEq] at hR
      obtain ⟨R', h1, h2⟩ := ih hR.2
      exact ⟨r :: R', h1.cons r, by rw [List.map_cons, h2, hR.1]⟩
  | swap x y l =>
    intro R hR
    rcases R with _ | ⟨r, _ | ⟨r', R⟩⟩
    · cases hR
    · simp at hR
    · simp only [List.map_cons, List.cons.injEq] at hR
      exact ⟨r' :: r :: R, .swap .., by simp [hR]⟩
  | trans _ _ ih1 ih2 =>
    intro R hR
    obtain ⟨R', h1, h2⟩ := ih1 hR
    obtain ⟨R'', h3, h4⟩ := ih2 h2
    exact ⟨R'', h3.trans h1, h4⟩

theorem perm_ahead {l m : List Suggestion} (h : l.Perm m) : l.Pairwise (fun x y => Ahead x.range y.range) →
    m.Pairwise (fun x y => Ahead x.range y.range) → l = m := by
  induction l generalizing m with
  | nil => intro _ _; exact (List.perm_nil.1 h.symm).symm
  | cons x l ih =>
    intro hl hm
    cases m with
    | nil => exact absurd (List.perm_nil.1 h) (by simp)
    | cons y m =>
      rw [List.pairwise_cons] at hl hm
      have hxy : x = y := by
        rcases List.mem_cons.1 (h.subset (List.mem_cons_self (a := x) (l := l))) with h1 | h1
        · exact h1
        · rcases List.mem_cons.1 (h.symm.subset (List.mem_cons_self (a := y) (l := m))) with h2 | h2
          · exact h2.symm
          · have a1 := hl.1 y h2
            have a2 := hm.1 x h1
            unfold Ahead at a1 a2
            omega
      subst hxy
      rw [ih (List.Perm.cons_inv h) hl.2 hm.2]

theorem over_ahead : ∀ {l : List (RuleName × Suggestion)}, l.Pairwise (fun x y => Ahead x.2.range y.2.range) → overlappingRules l = .ok []
  | [], _ => rfl
  | [_], _ => rfl
  | a :: b :: rest, h => by
    rw [List.pairwise_cons] at h
    rw [overlappingRules, (ahead_ordering (h.1 b (by simp))).1]
    exact over_ahead h.2

/-- Sorted suggestions without overlaps. -/
theorem sort_ahead {sort : List (RuleName × Suggestion) → List (RuleName × Suggestion)} (hsort : SortsRanges sort)
    {R : List (RuleName × Suggestion)} {sugs : List Suggestion} (hp : sugs.Perm (R.map (·.2)))
    (ha : sugs.Pairwise (fun x y => Ahead x.range y.range)) (hle : ∀ x ∈ sugs, x.range.start ≤ x.range.stop) :
    overlappingRules (sort R) = .ok [] ∧ filterSuggestions [] (sort R) = sugs := by
  obtain ⟨R', h1, h2⟩ := perm_lift hp.symm rfl
  have h3 : R'.Pairwise (fun x y => Ahead x.2.range y.2.range) := by
    rw [← h2, List.pairwise_map] at ha
    exact ha
  obtain ⟨k1, k2⟩ := hsort R R' (fun p hpR => hle p.2 (hp.symm.subset (List.mem_map.2 ⟨p, hpR, rfl⟩))) h1
    (h3.imp (fun h => .inl (ahead_ordering h)))
  have k3 : (sort R).Pairwise (fun x y => Ahead x.2.range y.2.range ∨ Ahead y.2.range x.2.range) :=
    (List.Perm.pairwise_iff (fun h => h.symm) (k1.trans h1.symm)).2 (h3.imp .inl)
  have k4 : (sort R).Pairwise (fun x y => Ahead x.2.range y.2.range) := by
    refine (k2.and k3).imp ?_
    rintro a b ⟨h, h' | h'⟩
    · exact h'
    · exact absurd (ahead_ordering h').2 h
  refine ⟨over_ahead k4, ?_⟩
  unfold filterSuggestions
  rw [List.filter_eq_self.2 (by simp)]
  exact perm_ahead ((k1.map _).trans hp.symm) (List.pairwise_map.2 k4) ha

/-! ## Fixing -/

/-- One round: the text after it is a template with the same tree up to quotes. -/
theorem quote_round {errLen : Text → Nat} (he : ErrLenOk errLen) (ha : ErrAhead errLen) {s : Text} {x : Tree}
    (ht : IsTemplate (lex errLen s) x) {p : Parse} (hp : parse errLen s = .ok p) (config : Config) {rules : List Rule}
    (hs : rules.Sublist definitions) (hn : ∀ r ∈ rules, r.name ∈ quoteRules)
    {sort : List (RuleName × Suggestion) → List (RuleName × Suggestion)} (hsort : SortsRanges sort)
    {results : List CheckResult} (hr : runRules config rules p.tree = .ok results) :
    ∃ s', overlappingRules (sort (getRuleContextSuggestions results)) = .ok [] ∧
      applySuggestionsToText (filterSuggestions [] (sort (getRuleContextSuggestions results))) s = some s' ∧
      ∃ x', IsTemplate (lex errLen s') x' ∧ unquote x' = unquote x ∧ turnElems (wants config rules) [Elem.root p.tree] = [x'] := by
  obtain ⟨tree, h1, h2⟩ := C73_template_accepted he s ht
  obtain ⟨xs, ht, rfl⟩ := ht
  rw [hp] at h1
  cases h1
  obtain ⟨cs, g, ys, hc, hperm, hturn⟩ := template_cells he hp rfl h2 ht (wants_ok config rules)
  rw [← quote_results config hs hn hr] at hperm
  obtain ⟨k1, k2⟩ := sort_ahead hsort hperm (cells_ahead hc.good hc.places)
    (fun x hx => (cells_from hc.good hc.places x hx).2.1)
  obtain ⟨k3, k4⟩ := recut_template he ha hc ht
  refine ⟨newText cs, k1, ?_, _, k3, k4, hturn⟩
  rw [k2]
  have := apply_pieces (cs.map Cell.piece) []
  simp only [byteLen_nil, List.nil_append, cells_before, cells_after, hc.old] at this
  rw [(C02_lex_partition he s).2.1] at this
  exact this

/-- The text is a template. -/
def TemplateText (errLen : Text → Nat) (s : Text) : Prop := ∃ x, IsTemplate (lex errLen s) x

/-- The text is a template, and this is its tree without quotes. -/
def TemplateOf (errLen : Text → Nat) (b : Tree) (s : Text) : Prop := ∃ x, IsTemplate (lex errLen s) x ∧ unquote x = b

/-- In one round with such rules, texts that fulfil the predicate turn into texts that fulfil it. -/
def KeptBy (errLen : Text → Nat) (config : Config) (allowed : List RuleName)
    (sort : List (RuleName × Suggestion) → List (RuleName × Suggestion)) (I : Text → Prop) : Prop :=
  ∀ s p rules results, I s → parse errLen s = .ok p → rules.Sublist definitions → (∀ r ∈ rules, r.name ∈ allowed) →
    runRules config rules p.tree = .ok results →
    ∃ over s', overlappingRules (sort (getRuleContextSuggestions results)) = .ok over ∧
      applySuggestionsToText (filterSuggestions over (sort (getRuleContextSuggestions results))) s = some s' ∧ I s'

/-- The fix loop keeps what each round keeps. -/
theorem kept_loop {errLen : Text → Nat} {I : Text → Prop} (hI : ∀ s, I s → ∃ tree, parse errLen s = .ok ⟨tree, []⟩)
    (config : Config) (active : List RuleName) {allowed : List RuleName}
    {sort : List (RuleName × Suggestion) → List (RuleName × Suggestion)} (hk : KeptBy errLen config allowed sort I)
    (names : List RuleName) (hnames : ∀ n ∈ names, n ∈ allowed) : ∀ (n it : Nat)
    (ctx : FileContext Tree) (results : List CheckResult) (dirty : Bool) (p : Parse),
    ctx.fileRules = names → parse errLen ctx.sourceCode = .ok p → I ctx.sourceCode →
    runRules config (rulesNamed names) p.tree = .ok results →
    (∀ t ∈ (fixLoop (realEngine errLen config active sort) n it ctx results dirty).2, I t) ∧
    ((fixLoop (realEngine errLen config active sort) n it ctx results dirty).1 = .err .maxApplyIteration ∨
      ∃ ctx' results' dirty' it',
        (fixLoop (realEngine errLen config active sort) n it ctx results dirty).1 =
          .ok ctx' results' dirty' it' ∧ I ctx'.sourceCode) := by
  intro n
  induction n with
  | zero => intro it ctx results dirty p _ _ _ _; exact ⟨by simp [fixLoop], .inl rfl⟩
  | succ n ih =>
    intro it ctx results dirty p hc hp ht hr
    by_cases hemp : getRuleContextSuggestions results = []
    · rw [fixLoop_nothing _ n it ctx results dirty hemp]
      exact ⟨by simp, .inr ⟨_, _, _, _, rfl, ht⟩⟩
    · have hmem : ∀ r ∈ rulesNamed names, r.name ∈ allowed := by
        intro r hr
        have := (List.mem_filter.mp hr).2
        exact hnames _ (by simpa using this)
      obtain ⟨over, s', h1, h2, h3⟩ := hk _ _ _ _ ht hp (rulesNamed_sublist names) hmem hr
      obtain ⟨tree', hp'⟩ := hI s' h3
      obtain ⟨results', hr'⟩ := C66_rules_never_panic hp' config (rulesNamed names)
        (fun r hr => (rulesNamed_sublist names).subset hr)
      rw [fixLoop_next (realEngine errLen config active sort) n it ctx results dirty over s' tree'
        0 results' hemp h1 h2 ((realEngine_parse ..).mpr ⟨_, hp', rfl, rfl⟩)
        (by rw [hc]; exact (realEngine_run ..).mpr hr')]
      obtain ⟨g1, g2⟩ := ih (it + 1) ⟨tree', s', 0, ctx.fileRules⟩ results' true _ hc hp' h3 hr'
      refine ⟨?_, g2⟩
      intro t ht
      rcases List.mem_cons.mp ht with rfl | ht
      · exact h3
      · exact g1 t ht

/-- Processing a file keeps what each round keeps. -/
theorem kept_run {errLen : Text → Nat} {I : Text → Prop} (hI : ∀ s, I s → ∃ tree, parse errLen s = .ok ⟨tree, []⟩)
    (config : Config) (active : List RuleName) {allowed : List RuleName} (hactive : ∀ n ∈ active, n ∈ allowed)
    {sort : List (RuleName × Suggestion) → List (RuleName × Suggestion)} (hk : KeptBy errLen config allowed sort I)
    (flags : Flags) (writeOk : Bool) {original : Text} (ht : I original) :
    let run := runAnalysis (realEngine errLen config active sort) flags writeOk original
    (run.outcome = .ok ∨ (flags.fix = true ∧ run.outcome = .err .maxApplyIteration) ∨
      (flags.fix = true ∧ writeOk = false ∧ run.outcome = .err .fileWrite)) ∧
    ∀ t ∈ run.parsed ++ run.writes, I t := by
  obtain ⟨tree, hp⟩ := hI original ht
  have hnames : ∀ n ∈ (realEngine errLen config active sort).fileRules tree, n ∈ allowed := by
    intro n hn
    obtain ⟨r, hr, rfl⟩ := List.mem_map.mp hn
    have h1 := (List.mem_filter.mp ((fileRules_sublist _ _).subset hr)).2
    exact hactive _ (by simpa using h1)
  obtain ⟨results, hr⟩ := C66_rules_never_panic hp config
    (rulesNamed ((realEngine errLen config active sort).fileRules tree))
    (fun r hr => (rulesNamed_sublist _).subset hr)
  intro run
  have hrun : run = runAnalysis (realEngine errLen config active sort) flags writeOk original := rfl
  clear_value run
  unfold runAnalysis at hrun
  have hp' : (realEngine errLen config active sort).parse original = some (tree, 0) :=
    (realEngine_parse ..).mpr ⟨_, hp, rfl, rfl⟩
  have hr' : (realEngine errLen config active sort).runRules
      ((realEngine errLen config active sort).fileRules tree) tree = some results :=
    (realEngine_run ..).mpr hr
  rw [hp'] at hrun
  dsimp only at hrun
  rw [hr'] at hrun
  dsimp only at hrun
  obtain ⟨g1, g2⟩ := kept_loop hI config active hk _ hnames 10 0
    ⟨tree, original, 0, (realEngine errLen config active sort).fileRules tree⟩
    results false _ rfl hp ht hr
  unfold iterativelyApplySuggestions at hrun
  generalize fixLoop (realEngine errLen config active sort) 10 0
    ⟨tree, original, 0, (realEngine errLen config active sort).fileRules tree⟩
    results false = L at g1 g2 hrun
  obtain ⟨res, parsed⟩ := L
  by_cases hfix : flags.fix = true
  · rw [if_pos hfix] at hrun
    rcases g2 with g2 | ⟨ctx', results', dirty', it', g2, g3⟩
    · simp only at g2
      subst g2
      dsimp only at hrun
      subst hrun
      refine ⟨.inr (.inl ⟨hfix, rfl⟩), ?_⟩
      intro t ht
      simp only [List.append_nil, List.mem_cons] at ht
      rcases ht with rfl | h
      · assumption
      · exact g1 t h
    · simp only at g2
      subst g2
      dsimp only at hrun
      split at hrun
      · rename_i hd
        simp only [Bool.and_eq_true, Bool.not_eq_true'] at hd
        subst hrun
        refine ⟨.inr (.inr ⟨hfix, hd.2, rfl⟩), ?_⟩
        intro t ht
        simp only [List.mem_append, List.mem_cons, List.not_mem_nil, or_false] at ht
        rcases ht with (rfl | h) | rfl
        · assumption
        · exact g1 t h
        · exact g3
      · subst hrun
        refine ⟨.inl rfl, ?_⟩
        intro t ht
        simp only [List.mem_append, List.mem_cons] at ht
        rcases ht with (rfl | h) | h
        · assumption
        · exact g1 t h
        · split at h
          · simp only [List.mem_singleton] at h; subst h; exact g3
          · cases h
  · rw [if_neg hfix] at hrun
    subst hrun
    refine ⟨.inl rfl, ?_⟩
    intro t ht
    simp only [List.append_nil, List.mem_singleton] at ht
    subst ht
    assumption

/-- Templates are parsed without errors. -/
theorem templateOf_parsed {errLen : Text → Nat} (he : ErrLenOk errLen) (b : Tree) (s : Text) (h : TemplateOf errLen b s) :
    ∃ tree, parse errLen s = .ok ⟨tree, []⟩ := by
  obtain ⟨tree, hp, _⟩ := C73_template_accepted he s h.choose_spec.1
  exact ⟨tree, hp⟩

/-- Processing a template. -/
theorem quote_run {errLen : Text → Nat} {b : Tree} (he : ErrLenOk errLen) (ha : ErrAhead errLen)
    (config : Config) (active : List RuleName) (hactive : ∀ n ∈ active, n ∈ quoteRules)
    {sort : List (RuleName × Suggestion) → List (RuleName × Suggestion)} (hsort : SortsRanges sort)
    (flags : Flags) (writeOk : Bool) {original : Text} (ht : TemplateOf errLen b original) :
    let run := runAnalysis (realEngine errLen config active sort) flags writeOk original
    (run.outcome = .ok ∨ (flags.fix = true ∧ run.outcome = .err .maxApplyIteration) ∨
      (flags.fix = true ∧ writeOk = false ∧ run.outcome = .err .fileWrite)) ∧
    ∀ t ∈ run.parsed ++ run.writes, TemplateOf errLen b t := by
  refine kept_run (templateOf_parsed he b) config active hactive (fun s p rules results ⟨x, hx, e⟩ hp hs hn hr => ?_) flags writeOk ht
  obtain ⟨s', h1, h2, x', h3, h4, _⟩ := quote_round he ha hx hp config hs hn hsort hr
  exact ⟨[], s', h1, h2, x', h3, h4.trans e⟩

/-- C75: processing a template, with or without `--fix`, with only the rules for quotes and rules without
suggestions: it does not panic, no suggestions of a rule overlap, and every text that it parses or writes
is a template, so it is parsed without errors. -/
theorem C75_quote_fix_keeps_templates {errLen : Text → Nat} (he : ErrLenOk errLen) (ha : ErrAhead errLen)
    (config : Config) (active : List RuleName) (hactive : ∀ n ∈ active, n ∈ quoteRules)
    {sort : List (RuleName × Suggestion) → List (RuleName × Suggestion)} (hsort : SortsRanges sort)
    (flags : Flags) (writeOk : Bool) {original : Text} (ht : TemplateText errLen original) :
    let run := runAnalysis (realEngine errLen config active sort) flags writeOk original
    (run.outcome = .ok ∨ (flags.fix = true ∧ run.outcome = .err .maxApplyIteration) ∨
      (flags.fix = true ∧ writeOk = false ∧ run.outcome = .err .fileWrite)) ∧
    ∀ t ∈ run.parsed ++ run.writes, TemplateText errLen t ∧ ∃ tree, parse errLen t = .ok ⟨tree, []⟩ := by
  obtain ⟨x, hx⟩ := ht
  obtain ⟨h1, h2⟩ := quote_run he ha config active hactive hsort flags writeOk ⟨x, hx, rfl⟩
  refine ⟨h1, fun t ht => ?_⟩
  obtain ⟨y, hy, _⟩ := h2 t ht
  obtain ⟨tree, h, _⟩ := C73_template_accepted he t hy
  exact ⟨⟨y, hy⟩, tree, h⟩

/-- C76: when a template is processed like this, every text that is parsed or written has the same tree as
the original one, except for trivia and for the quotes around strings. -/
theorem C76_quote_fix_keeps_trees {errLen : Text → Nat} (he : ErrLenOk errLen) (ha : ErrAhead errLen)
    (config : Config) (active : List RuleName) (hactive : ∀ n ∈ active, n ∈ quoteRules)
    {sort : List (RuleName × Suggestion) → List (RuleName × Suggestion)} (hsort : SortsRanges sort)
    (flags : Flags) (writeOk : Bool) {original : Text} (ht : TemplateText errLen original) :
    let run := runAnalysis (realEngine errLen config active sort) flags writeOk original
    ∃ old, parse errLen original = .ok ⟨old, []⟩ ∧
      ∀ t ∈ run.parsed ++ run.writes, ∃ new, parse errLen t = .ok ⟨new, []⟩ ∧ unquoteAll new.strip = unquoteAll old.strip := by
  obtain ⟨x, hx⟩ := ht
  obtain ⟨old, h1, h2⟩ := C73_template_accepted he original hx
  refine ⟨old, h1, fun t ht => ?_⟩
  obtain ⟨y, hy, e⟩ := (quote_run he ha config active hactive hsort flags writeOk ⟨x, hx, rfl⟩).2 t ht
  obtain ⟨new, h3, h4⟩ := C73_template_accepted he t hy
  exact ⟨new, h3, by rw [h2, h4, unquoteAll_cons, unquoteAll_cons, e]⟩

/-! An element with an unquoted value, a value in single quotes, and an unquoted variable with a string in
double quotes. -/

def quotedSample : Text := "<p a=b c='{{ d }}' e={{ \"f\" }}></p>".toList

namespace QuoteSample

def l := tk T!"<" "<" 0
def p := tk T!"word" "p" 1
def a := tk T!"word" "a" 3
def e1 := tk T!"=" "=" 4
def b := tk T!"word" "b" 5
def c := tk T!"word" "c" 7
def e2 := tk T!"=" "=" 8
def q1 := tk T!"'" "'" 9
def o1 := tk T!"{{" "{{" 10
def d := tk T!"word" "d" 13
def c1 := tk T!"}}" "}}" 15
def q2 := tk T!"'" "'" 17
def e := tk T!"word" "e" 19
def e3 := tk T!"=" "=" 20
def o2 := tk T!"{{" "{{" 21
def q3 := tk T!"\"" "\"" 24
def f := tk T!"word" "f" 25
def q4 := tk T!"\"" "\"" 26
def c2 := tk T!"}}" "}}" 28
def g := tk T!">" ">" 30
def l2 := tk T!"</" "</" 31
def p2 := tk T!"word" "p" 33
def g2 := tk T!">" ">" 34

theorem significant_eq : (lex (fun _ => 1) quotedSample).filter (fun t => !t.kind.isTrivia) =
    [l, p, a, e1, b, c, e2, q1, o1, d, c1, q2, e, e3, o2, q3, f, q4, c2, g, l2, p2, g2] := by decide +kernel

/-- The tree without trivia. -/
def tree : List Tree :=
  [.node .HTML_TAG [
    .node .HTML_STARTING_TAG [l.tree, p.tree, .node .HTML_ATTRIBUTE_LIST [
        .node .HTML_ATTRIBUTE [a.tree, e1.tree, .node .HTML_STRING [.node .HTML_STRING_INNER [b.tree]]],
        .node .HTML_ATTRIBUTE [c.tree, e2.tree, .node .HTML_STRING [q1.tree, .node .HTML_STRING_INNER [
          .node .TWIG_VAR [o1.tree, .node .TWIG_EXPRESSION [.node .TWIG_LITERAL_NAME [d.tree]], c1.tree]], q2.tree]],
        .node .HTML_ATTRIBUTE [e.tree, e3.tree, .node .HTML_STRING [.node .HTML_STRING_INNER [
          .node .TWIG_VAR [o2.tree, .node .TWIG_EXPRESSION [.node .TWIG_LITERAL_STRING [
            q3.tree, .node .TWIG_LITERAL_STRING_INNER [f.tree], q4.tree]], c2.tree]]]]], g.tree],
    .node .BODY [],
    .node .HTML_ENDING_TAG [l2.tree, p2.tree, g2.tree]]]

/-- The file is a template. -/
theorem isTemplate : TemplateText (fun _ => 1) quotedSample := by
  refine ⟨_, tree, ?_, rfl⟩
  rw [significant_eq]
  refine .bodyHtml (u := [l, p, a, e1, b, c, e2, q1, o1, d, c1, q2, e, e3, o2, q3, f, q4, c2, g, l2, p2, g2]) (w := []) ?_ .bodyEnd
  refine .element (t := p) (a := [a, e1, b, c, e2, q1, o1, d, c1, q2, e, e3, o2, q3, f, q4, c2]) (b := []) rfl (.inr ⟨by decide +kernel, elementName_iff.2 (by decide +kernel)⟩)
    rfl ?_ ?_ ?_ rfl .bodyEnd rfl rfl rfl rfl
  · unfold IsVoid; decide +kernel
  · unfold IsRaw; decide +kernel
  · refine .bodyAttr (u := [a, e1, b]) (w := [c, e2, q1, o1, d, c1, q2, e, e3, o2, q3, f, q4, c2]) ?_ (.bodyAttr (u := [c, e2, q1, o1, d, c1, q2])
      (w := [e, e3, o2, q3, f, q4, c2]) ?_ (.bodyAttr (u := [e, e3, o2, q3, f, q4, c2]) (w := []) ?_ .bodyEnd))
    · exact .attrValued (u := [a]) (.plainName (by decide +kernel) (attributeName_iff.2 (by decide +kernel))) rfl (.unquotedWord rfl)
    · refine .attrValued (u := [c]) (.plainName (by decide +kernel) (attributeName_iff.2 (by decide +kernel))) rfl
        (.singleQuoted (u := [o1, d, c1]) rfl ?_ rfl)
      exact .partVar (u := [o1, d, c1]) (w := []) (.var (u := [d]) (by decide) (.anyExpr (.expr (e := .all) (Sample.single false
        (Sample.nameOperand ⟨⟨by decide +kernel, Template.twigName_iff.2 (by decide +kernel)⟩, by decide +kernel⟩)))) (by decide)) .noPart
    · refine .attrValued (u := [e]) (.plainName (by decide +kernel) (attributeName_iff.2 (by decide +kernel))) rfl (.unquotedVar ?_)
      refine .var (u := [q3, f, q4]) (by decide) (.anyExpr (.expr (e := .all) (Sample.single false (.postfixed (u := [q3, f, q4]) (w := []) (.literalString ?_) .done)))) (by decide)
      exact .string (i := true) (u := [f]) (by decide) (.stringToken (by decide) (fun h => by cases h) (fun h => by cases h) .stringEnd) rfl

end QuoteSample

theorem errAhead_one : ErrAhead (fun _ => 1) := fun _ _ _ _ h _ => h

/-- The hypotheses of C75 and C76 for this file, and two rounds: in the first one the unquoted variable contains the
quotes that it should get. -/
example : SortsRanges insertionSort ∧ ErrAhead (fun _ => 1) ∧ TemplateText (fun _ => 1) quotedSample ∧
    (runAnalysis (realEngine (fun _ => 1) defaultConfig quoteRules insertionSort) ⟨true, false⟩ true quotedSample).parsed =
      [quotedSample, "<p a=\"b\" c=\"{{ d }}\" e={{ 'f' }}></p>".toList,
        "<p a=\"b\" c=\"{{ d }}\" e=\"{{ 'f' }}\"></p>".toList] ∧
    (runAnalysis (realEngine (fun _ => 1) defaultConfig quoteRules insertionSort) ⟨true, false⟩ true quotedSample).writes =
      ["<p a=\"b\" c=\"{{ d }}\" e=\"{{ 'f' }}\"></p>".toList] :=
  ⟨insertionSort_sorts, errAhead_one, QuoteSample.isTemplate, by decide +kernel, by decide +kernel⟩

/-- The tree of the string in C76: nothing but its quotes is left out, also not quotes inside. -/
example : unquote (.node .HTML_STRING [.token T!"\"" ['"'], .node .HTML_STRING_INNER [.token T!"'" ['\''], .token T!"word" ['a']], .token T!"\"" ['"']]) =
    .node .HTML_STRING [.node .HTML_STRING_INNER [.token T!"'" ['\''], .token T!"word" ['a']]] := by
  simp [unquote_node, unquoteAll_cons, unquoteAll_nil, unquote_token, isQuoteLeaf]

end Ludtwig.Rules
