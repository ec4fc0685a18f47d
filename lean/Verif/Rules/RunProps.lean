import Verif.Rules.StampLemmas
import Verif.Cli.SelectProps
import Verif.Rules.Samples

/-! # Running the rules: properties C17, C18, C19, C20, C48 -/

namespace Ludtwig.Rules

open Cli

/-! ## Test data -/

/-- The default values of config.rs / ludtwig-config.toml that rules read (no names of filters, tests
and functions). -/
def sampleConfig : Config :=
  ⟨.unixLF, .space, 4, true, true, .double, .double, [], [], []⟩

/-- A check on what `run_rules` returns. -/
def Gives {ε α : Type} (x : Except ε α) (f : α → Bool) : Bool :=
  match x with
  | .ok a => f a
  | .error _ => false

/-! ## C17 -/

/-- The rule names of the `ludtwig-ignore-file` directives directly below the root. -/
def topDirectives (root : Tree) : List (List RuleName) :=
  (root.subtrees.filter (nodeOf .LUDTWIG_DIRECTIVE_FILE_IGNORE)).map
    (fun d => directiveNames d.subtrees)

theorem fileDirectives_eq (root : Tree) : fileDirectives root = topDirectives root := by
  unfold fileDirectives topDirectives Elem.childrenOf Elem.children
  have h := childrenWithTokens_trees (Elem.root root)
  have hr : (Elem.root root).tree = root := rfl
  rw [hr] at h
  rw [← h]
  induction (Elem.root root).childrenWithTokens with
  | nil => rfl
  | cons a l ih =>
    have hp : nodeOf .LUDTWIG_DIRECTIVE_FILE_IGNORE a.tree =
        (a.isNode && a.kind == .LUDTWIG_DIRECTIVE_FILE_IGNORE) := by
      rw [← nodeOf_eq]; rfl
    simp only [directiveRules_eq] at ih ⊢
    simp only [List.filter_cons, List.map_cons, hp]
    cases h₁ : a.isNode <;> cases h₂ : (a.kind == .LUDTWIG_DIRECTIVE_FILE_IGNORE) <;>
      simp only [h₂, Bool.and_true, Bool.and_false, if_true, Bool.false_eq_true, if_false,
        List.filter_cons, List.map_cons, ih]

/-- C17: the rules that run on a file are the given rules, in their order, without those named in a
`ludtwig-ignore-file` directive directly below the root; none at all if such a directive names no
rule. -/
theorem C17_file_rules (root : Tree) (rules : List Rule) :
    fileRules root rules =
      if [] ∈ topDirectives root then []
      else rules.filter (fun r => decide (∀ d ∈ topDirectives root, r.name ∉ d)) := by
  unfold fileRules
  rw [fileDirectives_eq, collectDisabled_spec]
  by_cases h : [] ∈ topDirectives root
  · simp [h]
  · simp only [h, if_false, List.nil_append]
    congr 1
    funext r
    rw [Bool.eq_iff_iff]
    simp

/-- Only directives directly below the root count. -/
theorem C17_only_direct_children (cs cs' : List Tree) (k k' : SyntaxKind) (rules : List Rule)
    (h : cs.filter (nodeOf .LUDTWIG_DIRECTIVE_FILE_IGNORE) =
      cs'.filter (nodeOf .LUDTWIG_DIRECTIVE_FILE_IGNORE)) :
    fileRules (.node k cs) rules = fileRules (.node k' cs') rules := by
  rw [C17_file_rules, C17_file_rules]
  have : topDirectives (.node k cs) = topDirectives (.node k' cs') := by
    simp [topDirectives, Tree.subtrees, h]
  rw [this]

example : topDirectives fileSample = [["a".toList, "b-c".toList]] ∧
    (fileRules fileSample [⟨"x".toList, fun _ _ => [], fun _ _ => [], fun _ _ => .ok []⟩,
      ⟨"a".toList, fun _ _ => [], fun _ _ => [], fun _ _ => .ok []⟩]).map (·.name) = ["x".toList] ∧
    [] ∈ topDirectives (.node .ROOT [.node .LUDTWIG_DIRECTIVE_FILE_IGNORE []]) := by
  decide +kernel

/-! ## C18, C19 -/

theorem rootChecks_ok (config : Config) (root : Elem) (found : Rule → List CheckResult) :
    ∀ rules : List Rule, (∀ r ∈ rules, r.checkRoot ⟨config, false⟩ root = .ok (found r)) →
      rootChecks config root rules = .ok (rules.flatMap found)
  | [], _ => rfl
  | r :: rs, h => by
    simp only [rootChecks, h r List.mem_cons_self,
      rootChecks_ok config root found rs (fun x hx => h x (List.mem_cons_of_mem _ hx))]
    rfl

theorem rootChecks_inv (config : Config) (root : Elem) :
    ∀ (rules : List Rule) (l : List CheckResult), rootChecks config root rules = .ok l →
      ∃ found : Rule → List CheckResult,
        (∀ r ∈ rules, r.checkRoot ⟨config, false⟩ root = .ok (found r)) ∧ l = rules.flatMap found := by
  intro rules l h
  have hall : ∀ (rules : List Rule) (l : List CheckResult), rootChecks config root rules = .ok l →
      ∀ r ∈ rules, ∃ x, r.checkRoot ⟨config, false⟩ root = .ok x := by
    intro rules
    induction rules with
    | nil => intro l _ r hr; cases hr
    | cons a rs ih =>
      intro l h r hr
      simp only [rootChecks] at h
      split at h
      · cases h
      · rename_i x hx
        split at h
        · cases h
        · rename_i y hy
          rcases List.mem_cons.mp hr with hr | hr
          · subst hr; exact ⟨x, hx⟩
          · exact ih y hy r hr
  have hf := hall rules l h
  let found : Rule → List CheckResult := fun r =>
    match r.checkRoot ⟨config, false⟩ root with
    | .ok x => x
    | .error _ => []
  have hfound : ∀ r ∈ rules, r.checkRoot ⟨config, false⟩ root = .ok (found r) := by
    intro r hr
    obtain ⟨x, hx⟩ := hf r hr
    simp only [found, hx]
  refine ⟨found, hfound, ?_⟩
  rw [rootChecks_ok config root found rules hfound] at h
  cases h; rfl

theorem specResults_nil (config : Config) (root : Tree) : specResults config [] root = [] := by
  simp [specResults]

/-- C18: the findings of `run_rules` are those of the root checks, followed by those of the node and
token checks on exactly the elements that are not hidden, in document order, on each element by
exactly the rules that are not switched off there. Hidden elements are those inside of ERROR nodes or
of elements directly after a directive without rule names; a rule is switched off inside of elements
directly after a directive that names it. -/
theorem C18_scope_of_ignore (config : Config) (rules : List Rule) (root : Tree)
    (found : Rule → List CheckResult)
    (h : ∀ r ∈ rules, r.checkRoot ⟨config, false⟩ (Elem.root root) = .ok (found r)) :
    runRules config rules root = .ok (rules.flatMap found ++ specResults config rules root) := by
  unfold runRules
  cases rules with
  | nil => simp [specResults_nil]
  | cons r rs =>
    rw [rootChecks_ok config _ found _ h]
    simp only [List.isEmpty_cons, Bool.false_eq_true, if_false, runLoop]

/-- C18, for one rule without root check: a finding is reported exactly if the check of the rule on
some element of the tree gives it, where the element is not hidden and the rule is not switched
off. -/
theorem C18_reported_iff (config : Config) (r : Rule) (root : Tree) (x : CheckResult)
    (hr : r.checkRoot ⟨config, false⟩ (Elem.root root) = .ok []) :
    ∃ l, runRules config [r] root = .ok l ∧
      (x ∈ l ↔ ∃ e, Elem.In root e ∧ hidden e = false ∧ switchedOff r.name e = false ∧
        x ∈ checkElem config r e) := by
  refine ⟨_, C18_scope_of_ignore config [r] root (fun _ => []) (by simpa using hr), ?_⟩
  simp only [List.flatMap_cons, List.flatMap_nil, List.append_nil, List.nil_append, specResults,
    List.mem_flatMap, List.mem_filter, mem_elems_iff]
  constructor
  · rintro ⟨e, ⟨hin, hh⟩, r', ⟨hr', hs⟩, hx⟩
    simp only [List.mem_singleton] at hr'
    subst hr'
    exact ⟨e, hin, by simpa using hh, by simpa using hs, hx⟩
  · rintro ⟨e, hin, hh, hs, hx⟩
    exact ⟨e, ⟨hin, by simp [hh]⟩, r, ⟨by simp, by simp [hs]⟩, hx⟩

/-- C19: the loop of `run_rules` never fails on a directive, and at its end no rule is ignored and
the whitespace flag is off. -/
theorem C19_loop_never_fails (config : Config) (rules : List Rule) (root : Tree)
    (results : List CheckResult) : ∃ results',
    (Elem.root root).walk (runVisitor config rules) ⟨results, [], false⟩ =
      .ok ⟨results', [], false⟩ :=
  ⟨_, runLoop config rules root results⟩

theorem rootChecks_error (config : Config) (root : Elem) (p : RulePanic) : ∀ rules : List Rule,
    rootChecks config root rules = .error p →
      ∃ r ∈ rules, r.checkRoot ⟨config, false⟩ root = .error p
  | [], h => by cases h
  | r :: rs, h => by
    simp only [rootChecks] at h
    split at h
    · rename_i q hq
      cases h
      exact ⟨r, List.mem_cons_self, hq⟩
    · split at h
      · rename_i q hq
        cases h
        obtain ⟨r', hr', h'⟩ := rootChecks_error config root _ rs hq
        exact ⟨r', List.mem_cons_of_mem _ hr', h'⟩
      · cases h

/-- C19: `run_rules` fails only if the root check of a rule fails; so never with the `expect` on a
missing ignored rule. -/
theorem C19_failure_from_root_check (config : Config) (rules : List Rule) (root : Tree)
    (p : RulePanic) (h : runRules config rules root = .error p) :
    ∃ r ∈ rules, r.checkRoot ⟨config, false⟩ (Elem.root root) = .error p := by
  unfold runRules at h
  split at h
  · cases h
  · split at h
    · rename_i q hq
      cases h
      exact rootChecks_error config _ _ rules hq
    · rename_i l hl
      rw [runLoop] at h
      cases h

/-- A rule that reports every element (the range tells which). -/
def probe (name : String) : Rule where
  name := name.toList
  checkNode := fun ctx e => [{ rule := name.toList, severity := if ctx.insideTriviaSensitive then .error else .help,
                               suggestions := [], primary := some e.range }]
  checkToken := fun ctx e => [{ rule := name.toList, severity := if ctx.insideTriviaSensitive then .error else .help,
                                suggestions := [], primary := some e.range }]

/-- Directives in a real tree: the blanket one hides the paragraph, the other one switches off one
of two probes. -/
example : Gives (runRules sampleConfig [probe "x", probe "y"] ignoreSample)
    (fun l => l.length == 47 && (l.filter (fun r => r.rule == ['x'])).length == 17) = true := by
  decide +kernel

/-! ## C20 -/

theorem ancestor_shorter (path : List Frame) : ∀ (t : Tree) (pos : Nat) (a : Elem),
    a ∈ (⟨t, pos, path⟩ : Elem).ancestors → a.path.length < path.length := by
  induction path with
  | nil => intro t pos a h; simp [Elem.ancestors, ancestorsFrom] at h
  | cons f fs ih =>
    intro t pos a h
    rw [ancestors_cons] at h
    rcases List.mem_cons.mp h with h | h
    · subst h; simp
    · have := ih _ _ _ h
      simp only [List.length_cons]; omega

/-- C20, exactly what rules are told: whitespace matters in the element itself or in an element `a`
around it, such that inside of `a` nothing before the element touches an element in which whitespace
matters. -/
theorem C20_told_exactly (e : Elem) : told e = true ↔
    ∃ a ∈ e.chain, protectsWhitespace a.tree = true ∧
      ∀ x ∈ e.chain, a ∈ x.ancestors → ∀ b ∈ x.siblingsBefore, touches b = false := by
  obtain ⟨t, pos, path⟩ := e
  induction path generalizing t pos with
  | nil =>
    simp [told, toldFrom, Elem.chain, Elem.ancestors, ancestorsFrom]
  | cons f fs ih =>
    have hp := ih (.node f.kind (f.before ++ t :: f.after)) f.start
    have hchain : (⟨t, pos, f :: fs⟩ : Elem).chain = ⟨t, pos, f :: fs⟩ ::
        (⟨.node f.kind (f.before ++ t :: f.after), f.start, fs⟩ : Elem).chain := rfl
    have hanc : (⟨t, pos, f :: fs⟩ : Elem).ancestors =
        (⟨.node f.kind (f.before ++ t :: f.after), f.start, fs⟩ : Elem).chain := rfl
    have htold : told ⟨t, pos, f :: fs⟩ = (protectsWhitespace t ||
        (told ⟨.node f.kind (f.before ++ t :: f.after), f.start, fs⟩ &&
          (Elem.siblingsBefore ⟨t, pos, f :: fs⟩).all (fun b => !touches b))) := rfl
    rw [htold, Bool.or_eq_true, Bool.and_eq_true, hp, List.all_eq_true]
    constructor
    · rintro (h | ⟨⟨a, ha, hpa, hx⟩, hb⟩)
      · refine ⟨_, List.mem_cons_self, h, ?_⟩
        intro x hx hax
        exfalso
        have h₁ : x.path.length ≤ (f :: fs).length := by
          rcases List.mem_cons.mp hx with h | h
          · subst h; exact Nat.le_refl _
          · exact Nat.le_of_lt (ancestor_shorter _ _ _ _ h)
        have h₂ := ancestor_shorter x.path x.tree x.start _ hax
        simp only at h₂
        omega
      · refine ⟨a, by rw [hchain]; exact List.mem_cons_of_mem _ ha, hpa, ?_⟩
        intro x hxc hax b hbx
        rw [hchain] at hxc
        rcases List.mem_cons.mp hxc with h | h
        · subst h; simpa using hb b hbx
        · exact hx x h hax b hbx
    · rintro ⟨a, ha, hpa, hx⟩
      rw [hchain] at ha
      rcases List.mem_cons.mp ha with h | h
      · subst h; exact .inl hpa
      · right
        refine ⟨⟨a, h, hpa, ?_⟩, ?_⟩
        · intro x hxc
          exact hx x (by rw [hchain]; exact List.mem_cons_of_mem _ hxc)
        · intro b hb
          have := hx _ List.mem_cons_self (by rw [hanc]; exact h) b hb
          simp [this]

/-- C20, the part that holds: on every element inside of an element in which whitespace matters,
rules are told so, as long as no such element has been left in between. -/
theorem C20_protected_partial (e a : Elem) (ha : a ∈ e.chain) (hp : protectsWhitespace a.tree = true)
    (hno : ∀ c, protectsWhitespace c.tree = true → a ∈ c.ancestors →
      ∀ x ∈ e.chain, ∀ b ∈ x.siblingsBefore, c ∉ b.descendants) : told e = true := by
  refine (C20_told_exactly e).mpr ⟨a, ha, hp, ?_⟩
  intro x hx hax b hb
  unfold touches
  rw [List.any_eq_false]
  intro c hc hh
  simp only [Bool.and_eq_true] at hh
  refine hno c hh.1 ?_ x hx b hb hc
  have hb' : a ∈ b.ancestors := by
    obtain ⟨t, pos, path⟩ := x
    cases path with
    | nil => simp [Elem.siblingsBefore] at hb
    | cons f fs =>
      have := child_ancestors fs f.kind f.start _ [] f.start b (List.mem_of_mem_take hb)
      rw [this]
      simpa [ancestors_cons, Elem.chain] using hax
  have := elemsAt_chain b.tree b.start b.path c hc
  rcases List.mem_cons.mp this with h | h
  · rw [← h]; exact hb'
  · exact ancestors_trans hb' h

/-- C20 is false: in the tree of `<pre><p id="x"></p>{% block a %}{% endblock %}</pre>` the block is
inside of the `pre` tag, it is not hidden, but rules are told that whitespace does not matter; the
rule for line breaks around blocks then suggests to insert line breaks into the `pre` tag. -/
theorem C20_told_wrongly : ∃ s r e, parse (fun _ => 1) s = .ok r ∧ Elem.In r.tree e ∧
    hidden e = false ∧ (∃ a ∈ e.ancestors, protectsWhitespace a.tree = true) ∧ told e = false ∧
    checkElem sampleConfig twigBlockLineBreaks e ≠ [] := by
  obtain ⟨r, hr, ht⟩ := parse_of_parsesTo preSample_parsed
  have h : (preSample.elems.filter (fun e => !hidden e && !told e &&
      e.ancestors.any (fun a => protectsWhitespace a.tree) &&
      !(checkElem sampleConfig twigBlockLineBreaks e).isEmpty)).length = 1 := by decide +kernel
  obtain ⟨e, he⟩ := List.length_eq_one_iff.mp h
  have hm : e ∈ [e] := List.mem_singleton.mpr rfl
  rw [← he] at hm
  simp only [List.mem_filter, Bool.and_eq_true, Bool.not_eq_true', List.any_eq_true] at hm
  refine ⟨_, r, e, hr, ?_, hm.2.1.1.1, hm.2.1.2, hm.2.1.1.2, ?_⟩
  · rw [ht]; exact (mem_elems_iff _ _).mp hm.1
  · intro h
    have := hm.2.2
    rw [h] at this
    cases this

/-! ## C48 -/

/-- A list of findings, restricted to a rule. -/
def ofRule (name : RuleName) (l : List CheckResult) : List CheckResult :=
  l.filter (fun x => x.rule == name)

theorem ofRule_own {name : RuleName} {l : List CheckResult} (h : AllR (fun x => x.rule = name) l) :
    ofRule name l = l := by
  unfold ofRule
  rw [List.filter_eq_self]
  intro x hx
  simpa using h x hx

theorem ofRule_other {name name' : RuleName} {l : List CheckResult}
    (h : AllR (fun x => x.rule = name') l) (hne : name' ≠ name) : ofRule name l = [] := by
  unfold ofRule
  rw [List.filter_eq_nil_iff]
  intro x hx
  simp [h x hx, hne]

/-- The findings of one rule among those of several rules with distinct names. -/
theorem ofRule_flatMap (f : Rule → List CheckResult) (r : Rule) :
    ∀ rules : List Rule, (rules.map (·.name)).Nodup → r ∈ rules →
      (∀ r ∈ rules, AllR (fun x => x.rule = r.name) (f r)) →
      ofRule r.name (rules.flatMap f) = f r
  | [], _, h, _ => by cases h
  | a :: rules, hn, hr, hs => by
    simp only [List.map_cons, List.nodup_cons] at hn
    rw [List.flatMap_cons]
    have happ : ∀ a b : List CheckResult, ofRule r.name (a ++ b) = ofRule r.name a ++ ofRule r.name b :=
      fun a b => List.filter_append ..
    rw [happ]
    rcases List.mem_cons.mp hr with h | h
    · subst h
      rw [ofRule_own (hs _ List.mem_cons_self)]
      have : ofRule r.name (rules.flatMap f) = [] := by
        unfold ofRule
        rw [List.filter_eq_nil_iff]
        intro x hx
        obtain ⟨q, hq, hx⟩ := List.mem_flatMap.mp hx
        have h₁ := hs q (List.mem_cons_of_mem _ hq) x hx
        intro h₂
        simp only [beq_iff_eq] at h₂
        exact hn.1 (List.mem_map.mpr ⟨q, hq, by rw [← h₁, h₂]⟩)
      rw [this, List.append_nil]
    · rw [ofRule_other (hs _ List.mem_cons_self) (fun h' => hn.1 (List.mem_map.mpr ⟨r, h, h'.symm⟩)),
        List.nil_append]
      exact ofRule_flatMap f r rules hn.2 h (fun q hq => hs q (List.mem_cons_of_mem _ hq))

theorem ofRule_findings (config : Config) (r : Rule) (rules : List Rule)
    (hn : (rules.map (·.name)).Nodup) (hr : r ∈ rules) (hs : ∀ r ∈ rules, Signs r) (root : Tree) :
    ofRule r.name (specResults config rules root) = specResults config [r] root := by
  unfold specResults
  generalize root.elems.filter (fun e => !hidden e) = es
  induction es with
  | nil => rfl
  | cons e es ih =>
    have happ : ∀ a b : List CheckResult, ofRule r.name (a ++ b) = ofRule r.name a ++ ofRule r.name b :=
      fun a b => List.filter_append ..
    rw [List.flatMap_cons, List.flatMap_cons, happ, ih]
    congr 1
    have hsig : ∀ q ∈ rules, AllR (fun x => x.rule = q.name) (checkElem config q e) := by
      intro q hq
      unfold checkElem
      split
      · exact (hs q hq).1 _ _
      · exact (hs q hq).2.1 _ _
    have hoff : (rules.filter (fun r => !switchedOff r.name e)).flatMap
        (fun r => checkElem config r e) =
        rules.flatMap (fun r => if switchedOff r.name e then [] else checkElem config r e) := by
      clear hsig hs hr hn ih
      induction rules with
      | nil => rfl
      | cons q rules ih =>
        rw [List.filter_cons, List.flatMap_cons]
        cases switchedOff q.name e <;> simp [ih]
    rw [hoff, ofRule_flatMap _ r rules hn hr]
    · cases h : switchedOff r.name e <;> simp [h]
    · intro q hq
      split
      · exact .nil
      · exact hsig q hq

/-- C48: the findings of a rule do not depend on the other rules: among the findings of any list of
rules with distinct names they are those of running the rule alone. -/
theorem C48_rules_independent (config : Config) (root : Tree) (rules : List Rule) (r : Rule)
    (hn : (rules.map (·.name)).Nodup) (hs : ∀ r ∈ rules, Signs r) (hr : r ∈ rules)
    (l : List CheckResult) (hl : runRules config rules root = .ok l) :
    runRules config [r] root = .ok (ofRule r.name l) := by
  have hroot : ∃ x, rootChecks config (Elem.root root) rules = .ok x := by
    unfold runRules at hl
    cases rules with
    | nil => cases hr
    | cons a rs =>
      simp only [List.isEmpty_cons, Bool.false_eq_true, if_false] at hl
      split at hl
      · cases hl
      · rename_i x hx; exact ⟨x, hx⟩
  obtain ⟨x, hx⟩ := hroot
  obtain ⟨found, hf, -⟩ := rootChecks_inv config _ rules x hx
  rw [C18_scope_of_ignore config rules root found hf] at hl
  cases hl
  rw [C18_scope_of_ignore config [r] root found (by simpa using hf r hr)]
  have happ : ∀ a b : List CheckResult, ofRule r.name (a ++ b) = ofRule r.name a ++ ofRule r.name b :=
    fun a b => List.filter_append ..
  rw [happ, ofRule_findings config r rules hn hr hs, ofRule_flatMap found r rules hn hr
    (fun q hq => (hs q hq).2.2 _ _ _ (hf q hq))]
  simp

/-- C48 for the rules of ludtwig: any two selections of rules that contain a rule give the same
findings of that rule. -/
theorem C48_definitions_independent (config : Config) (root : Tree) (A B : List Rule)
    (hA : A.Sublist definitions) (hB : B.Sublist definitions) (r : Rule) (hrA : r ∈ A) (hrB : r ∈ B)
    (a b : List CheckResult) (ha : runRules config A root = .ok a)
    (hb : runRules config B root = .ok b) : ofRule r.name a = ofRule r.name b := by
  have h₁ := C48_rules_independent config root A r
    (List.Nodup.sublist (hA.map _) definitions_distinct)
    (fun q hq => definitions_sign q (hA.subset hq)) hrA a ha
  have h₂ := C48_rules_independent config root B r
    (List.Nodup.sublist (hB.map _) definitions_distinct)
    (fun q hq => definitions_sign q (hB.subset hq)) hrB b hb
  rw [h₁] at h₂
  exact Except.ok.inj h₂

example : Gives (runRules sampleConfig definitions preSample) (fun l => l.length == 2) = true := by
  decide +kernel

end Ludtwig.Rules
