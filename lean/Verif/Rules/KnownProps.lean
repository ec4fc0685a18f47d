import Verif.Rules.HashKeyProps

/-! # Known names, variables and `sw_extends`: properties C60 and C61 -/

namespace Ludtwig.Rules

open Cli Naming

/-! ## C60: known filters, tests and functions -/

/-- `word` is the first word of the first name in `e`. -/
def PlainName (e word : Elem) : Prop :=
  ∃ n, FirstChild (nodeOf .TWIG_LITERAL_NAME) e n ∧ FirstChild (isTokenOf .TK_WORD) n word

/-- `word` is the name of the function that is called in the call `call`. -/
def CallName (call word : Elem) : Prop :=
  ∃ o, FirstChild (nodeOf .TWIG_OPERAND) call o ∧ PlainName o word

/-- `word` is the name used in `e`: a plain name, or, without a name in `e`, the name of the function
that is called in `e`. -/
def UsedName (e word : Elem) : Prop :=
  PlainName e word ∨
    ((∀ c ∈ e.tree.subtrees, nodeOf .TWIG_LITERAL_NAME c = false) ∧
      ∃ call, FirstChild (nodeOf .TWIG_FUNCTION_CALL) e call ∧ CallName call word)

theorem plainName_iff (e word : Elem) : literalName e = some word ↔ PlainName e word :=
  literalName_iff e word

theorem callName_iff (call word : Elem) :
    call.operand.bind literalName = some word ↔ CallName call word := by
  rw [Option.bind_eq_some_iff]
  unfold CallName Elem.operand
  simp only [child_iff, plainName_iff]

theorem child_none (k : SyntaxKind) (e : Elem) :
    e.child k = none ↔ ∀ c ∈ e.tree.subtrees, nodeOf k c = false := by
  constructor
  · intro h c hc
    cases hb : nodeOf k c with
    | false => rfl
    | true =>
      rw [← childrenWithTokens_trees] at hc
      obtain ⟨x, hx, rfl⟩ := List.mem_map.mp hc
      unfold Elem.child Elem.children at h
      rw [List.find?_eq_none] at h
      rw [← isNode_kind, Bool.and_eq_true] at hb
      exact absurd hb.2 (h x (List.mem_filter.mpr ⟨hx, hb.1⟩))
  · intro h
    cases hc : e.child k with
    | none => rfl
    | some x =>
      obtain ⟨_, l, r, h1, _, h3, _⟩ := (child_iff _ _ _).mp hc
      rw [h x.tree (by rw [h1]; simp [Tree.subtrees])] at h3
      cases h3

theorem usedName_iff (e word : Elem) : calledName e = some word ↔ UsedName e word := by
  unfold calledName UsedName
  cases hn : e.child .TWIG_LITERAL_NAME with
  | some n =>
    dsimp only
    have hn' := (child_iff _ _ _).mp hn
    constructor
    · intro h; exact .inl ⟨n, hn', (token_iff _ _ _).mp h⟩
    · rintro (⟨n', h1, h2⟩ | ⟨h, _⟩)
      · rw [(child_iff _ _ _).mpr h1] at hn
        cases hn
        exact (token_iff _ _ _).mpr h2
      · rw [(child_none _ _).mpr h] at hn; cases hn
  | none =>
    dsimp only
    have hno : ¬ PlainName e word := by
      rintro ⟨n, h1, _⟩
      rw [(child_iff _ _ _).mpr h1] at hn; cases hn
    constructor
    · intro h
      right
      refine ⟨(child_none _ _).mp hn, ?_⟩
      split at h
      · rename_i call hc
        exact ⟨call, (child_iff _ _ _).mp hc, (callName_iff _ _).mp h⟩
      · cases h
    · rintro (h | ⟨_, call, h1, h2⟩)
      · exact absurd h hno
      · rw [(child_iff _ _ _).mpr h1]
        exact (callName_iff _ _).mpr h2

theorem checkKnown_iff (rule : RuleName) (valid : List Text) (name : Elem) (x : CheckResult) :
    x ∈ checkKnown rule valid name ↔ name.text ∉ valid ∧ x = plainFinding rule .warning name := by
  unfold checkKnown
  have h : (valid.any (fun f => f == name.text)) = true ↔ name.text ∈ valid := by
    simp [List.any_eq_true]
  cases hb : valid.any (fun f => f == name.text) with
  | true => simp [h.mp hb]
  | false =>
    have : name.text ∉ valid := fun hm => by rw [h.mpr hm] at hb; cases hb
    simp only [Bool.not_false, if_true, List.mem_singleton, this, not_false_eq_true, true_and]
    rfl

/-- C60, filters: the findings are exactly those for the filters (not hidden and not switched off)
whose name is not in the configured list. -/
theorem C60_filters (config : Config) (root : Tree) :
    ∃ l, runRules config [twigValidFilter] root = .ok l ∧ ∀ x, x ∈ l ↔
      ∃ e o name, Elem.In root e ∧ hidden e = false ∧
        switchedOff "twig-valid-filter".toList e = false ∧
        nodeOf .TWIG_FILTER e.tree = true ∧ SecondChild (nodeOf .TWIG_OPERAND) e o ∧
        UsedName o name ∧ name.text ∉ config.validFilters ∧
        x = plainFinding "twig-valid-filter".toList .warning name := by
  refine node_rule_findings config twigValidFilter root rfl rfl
    (fun e x => ∃ o name, nodeOf .TWIG_FILTER e.tree = true ∧ SecondChild (nodeOf .TWIG_OPERAND) e o ∧
        UsedName o name ∧ name.text ∉ config.validFilters ∧
        x = plainFinding "twig-valid-filter".toList .warning name)
    (fun e x _ => ?_) (fun e x h => ?_) |>.imp (fun l h => ⟨h.1, fun x => (h.2 x).trans ?_⟩)
  · unfold twigValidFilter; dsimp only
    have hb : ∀ name, ((e.cast .TWIG_FILTER).bind (·.filterOperand)).bind calledName = some name ↔
        ∃ o, nodeOf .TWIG_FILTER e.tree = true ∧ SecondChild (nodeOf .TWIG_OPERAND) e o ∧
          UsedName o name := by
      intro name
      simp only [Option.bind_eq_some_iff, nodeOf_cast, usedName_iff]
      constructor
      · rintro ⟨o, ⟨_, ⟨hk, rfl⟩, ho⟩, hu⟩
        exact ⟨o, hk, (second_iff _ _ _).mp ho, hu⟩
      · rintro ⟨o, hk, ho, hu⟩
        exact ⟨o, ⟨e, ⟨hk, rfl⟩, (second_iff _ _ _).mpr ho⟩, hu⟩
    constructor
    · intro h
      split at h
      · cases h
      · rename_i name hn
        obtain ⟨o, h1, h2, h3⟩ := (hb name).mp hn
        obtain ⟨h4, h5⟩ := (checkKnown_iff _ _ _ _).mp h
        exact ⟨o, name, h1, h2, h3, h4, h5⟩
    · rintro ⟨o, name, h1, h2, h3, h4, h5⟩
      rw [(hb name).mpr ⟨o, h1, h2, h3⟩]
      exact (checkKnown_iff _ _ _ _).mpr ⟨h4, h5⟩
  · obtain ⟨_, _, h, _⟩ := h
    exact nodeOf_isNode h
  · constructor
    · rintro ⟨e, h1, h2, h3, o, n, h4⟩; exact ⟨e, o, n, h1, h2, h3, h4⟩
    · rintro ⟨e, o, n, h1, h2, h3, h4⟩; exact ⟨e, h1, h2, h3, o, n, h4⟩

/-- The right side `rhs` of a test: the second expression of a binary expression whose first own token
that is not trivia is `is` or `is not`. -/
def TestOf (e rhs : Elem) : Prop :=
  nodeOf .TWIG_BINARY_EXPRESSION e.tree = true ∧
    (∃ o, FirstChild isSignificant e o ∧ (o.kind = .TK_IS ∨ o.kind = .TK_IS_NOT)) ∧
    SecondChild (nodeOf .TWIG_EXPRESSION) e rhs

theorem isTestOperator_iff (o : Elem) :
    isTestOperator o = true ↔ o.kind = .TK_IS ∨ o.kind = .TK_IS_NOT := by
  unfold isTestOperator; simp

/-- C60, tests: the findings are exactly those for the tests (not hidden and not switched off) whose
name is not in the configured list. -/
theorem C60_tests (config : Config) (root : Tree) :
    ∃ l, runRules config [twigValidTest] root = .ok l ∧ ∀ x, x ∈ l ↔
      ∃ e rhs name, Elem.In root e ∧ hidden e = false ∧
        switchedOff "twig-valid-test".toList e = false ∧ TestOf e rhs ∧
        UsedName rhs name ∧ name.text ∉ config.validTests ∧
        x = plainFinding "twig-valid-test".toList .warning name := by
  refine node_rule_findings config twigValidTest root rfl rfl
    (fun e x => ∃ rhs name, TestOf e rhs ∧ UsedName rhs name ∧ name.text ∉ config.validTests ∧
        x = plainFinding "twig-valid-test".toList .warning name)
    (fun e x _ => ?_) (fun e x h => ?_) |>.imp (fun l h => ⟨h.1, fun x => (h.2 x).trans ?_⟩)
  · unfold twigValidTest; dsimp only
    have hb : ∀ name, e.rhsExpression.bind calledName = some name ↔
        ∃ rhs, SecondChild (nodeOf .TWIG_EXPRESSION) e rhs ∧ UsedName rhs name := by
      intro name
      simp only [Option.bind_eq_some_iff, usedName_iff, Elem.rhsExpression, second_iff]
    constructor
    · intro h
      split at h
      · cases h
      · rename_i op ho
        obtain ⟨hk, ho⟩ := (binaryOperator_iff _ _).mp ho
        split at h
        · cases h
        · rename_i hop
          have hop := (isTestOperator_iff op).mp (by simpa using hop)
          split at h
          · cases h
          · rename_i name hn
            obtain ⟨rhs, h2, h3⟩ := (hb name).mp hn
            obtain ⟨h4, h5⟩ := (checkKnown_iff _ _ _ _).mp h
            exact ⟨rhs, name, ⟨hk, ⟨op, ho, hop⟩, h2⟩, h3, h4, h5⟩
    · rintro ⟨rhs, name, ⟨hk, ⟨op, ho, hop⟩, h2⟩, h3, h4, h5⟩
      rw [(binaryOperator_iff _ _).mpr ⟨hk, ho⟩]; dsimp only
      rw [if_neg (by rw [(isTestOperator_iff op).mpr hop]; decide)]
      rw [(hb name).mpr ⟨rhs, h2, h3⟩]
      exact (checkKnown_iff _ _ _ _).mpr ⟨h4, h5⟩
  · obtain ⟨_, _, h, _⟩ := h
    exact nodeOf_isNode h.1
  · constructor
    · rintro ⟨e, h1, h2, h3, o, n, h4⟩; exact ⟨e, o, n, h1, h2, h3, h4⟩
    · rintro ⟨e, o, n, h1, h2, h3, h4⟩; exact ⟨e, h1, h2, h3, o, n, h4⟩

/-! ### Identity of nodes -/

theorem In_depth {root : Tree} : ∀ {path path' : List Frame} {t t' : Tree} {pos pos' : Nat},
    Elem.In root ⟨t, pos, path⟩ → Elem.In root ⟨t', pos', path'⟩ →
    path.map (fun f => f.before.length) = path'.map (fun f => f.before.length) →
    (⟨t, pos, path⟩ : Elem) = ⟨t', pos', path'⟩
  | [], path', t, t', pos, pos', h1, h2, h => by
    cases path' with
    | cons _ _ => cases h
    | nil =>
      have root_of : ∀ {t : Tree} {pos : Nat}, Elem.In root ⟨t, pos, []⟩ →
          (⟨t, pos, []⟩ : Elem) = Elem.root root := by
        intro t pos hin
        generalize hg : (⟨t, pos, []⟩ : Elem) = y at hin
        cases hin with
        | root => rfl
        | child hp hc =>
          have := child_parent hc
          rw [← hg] at this
          cases this
      rw [root_of h1, root_of h2]
  | f :: fs, path', t, t', pos, pos', h1, h2, h => by
    cases path' with
    | nil => cases h
    | cons f' fs' =>
      simp only [List.map_cons, List.cons.injEq] at h
      obtain ⟨a1, a2⟩ := In_path h1
      obtain ⟨b1, b2⟩ := In_path h2
      have ih := In_depth a1 b1 h.2
      simp only [Elem.mk.injEq, Tree.node.injEq] at ih
      obtain ⟨⟨hk, hcs⟩, hst, hfs⟩ := ih
      obtain ⟨hb, hr⟩ := List.append_inj hcs h.1
      simp only [List.cons.injEq] at hr
      obtain ⟨ht, ha⟩ := hr
      obtain ⟨fk, fst, fb, fa⟩ := f
      obtain ⟨fk', fst', fb', fa'⟩ := f'
      dsimp only at hk hb ha hst ht a2 b2
      subst hk hb ha hst ht hfs a2 b2
      rfl

/-- The comparison of nodes of one tree is equality. -/
theorem same_iff {root : Tree} {a b : Elem} (ha : Elem.In root a) (hb : Elem.In root b) :
    a.same b = true ↔ a = b := by
  unfold Elem.same
  rw [beq_iff_eq]
  constructor
  · intro h
    exact In_depth ha hb h
  · rintro rfl; rfl

/-- The call is the right side of a filter. -/
def FilterCall (call : Elem) : Prop :=
  ∃ o f, call ∈ o.childrenWithTokens ∧ nodeOf .TWIG_FILTER f.tree = true ∧
    SecondChild (nodeOf .TWIG_OPERAND) f o

/-- The call is the right side of a test. -/
def TestCall (call : Elem) : Prop :=
  ∃ rhs e, call ∈ rhs.childrenWithTokens ∧ TestOf e rhs

theorem second_mem {k : SyntaxKind} {e x : Elem} (h : SecondChild (nodeOf k) e x) :
    x ∈ e.childrenWithTokens := by
  have := (second_iff _ _ _).mpr h
  have := List.mem_of_getElem? this
  rw [childrenOf_filter] at this
  exact (List.mem_filter.mp this).1

theorem filterCall_iff {root : Tree} {call : Elem} (hin : Elem.In root call) :
    isFilterCall call = true ↔ FilterCall call := by
  unfold isFilterCall FilterCall
  constructor
  · intro h
    cases hp : call.parent with
    | none => rw [hp] at h; cases h
    | some p =>
      rw [hp] at h
      obtain ⟨p1, p2⟩ := In_parent hin hp
      dsimp only at h
      split at h
      · cases h
      · rename_i f hf
        rw [Option.bind_eq_some_iff] at hf
        obtain ⟨g, hg, hf⟩ := hf
        rw [Option.bind_eq_some_iff] at hg
        obtain ⟨g', hg', hc⟩ := hg
        obtain ⟨hk, rfl⟩ := (nodeOf_cast _ _ _).mp hc
        have hf : SecondChild (nodeOf .TWIG_OPERAND) g f := (second_iff _ _ _).mp hf
        obtain ⟨g1, g2⟩ := In_parent p1 hg'
        rw [same_iff (.child g1 (second_mem hf)) p1] at h
        subst h
        exact ⟨f, g, p2, hk, hf⟩
  · rintro ⟨o, f, h1, h2, h3⟩
    rw [child_parent h1]; dsimp only
    rw [child_parent (second_mem h3)]
    have hc : f.cast .TWIG_FILTER = some f := (nodeOf_cast _ _ _).mpr ⟨h2, rfl⟩
    simp only [Option.bind_some, hc]
    have hf : f.filterOperand = some o := (second_iff _ _ _).mpr h3
    rw [hf]
    simp [Elem.same]

theorem testCall_iff {root : Tree} {call : Elem} (hin : Elem.In root call) :
    isTestCall call = true ↔ TestCall call := by
  unfold isTestCall TestCall
  constructor
  · intro h
    cases hp : call.parent with
    | none => rw [hp] at h; cases h
    | some p =>
      rw [hp] at h
      obtain ⟨p1, p2⟩ := In_parent hin hp
      dsimp only at h
      split at h
      · cases h
      · rename_i g hg
        rw [Option.bind_eq_some_iff] at hg
        obtain ⟨g', hg', hc⟩ := hg
        obtain ⟨hk, rfl⟩ := (nodeOf_cast _ _ _).mp hc
        obtain ⟨g1, g2⟩ := In_parent p1 hg'
        split at h
        · cases h
        · rename_i op ho
          rw [Bool.and_eq_true, isTestOperator_iff] at h
          obtain ⟨hop, h⟩ := h
          split at h
          · cases h
          · rename_i rhs hr
            have hr : SecondChild (nodeOf .TWIG_EXPRESSION) g rhs := (second_iff _ _ _).mp hr
            rw [same_iff (.child g1 (second_mem hr)) p1] at h
            subst h
            exact ⟨rhs, g, p2, hk, ⟨op, (firstNonTriviaToken_iff _ _).mp ho, hop⟩, hr⟩
  · rintro ⟨rhs, e, h1, hk, ⟨op, ho, hop⟩, hr⟩
    rw [child_parent h1]; dsimp only
    rw [child_parent (second_mem hr)]
    have hc : e.cast .TWIG_BINARY_EXPRESSION = some e := (nodeOf_cast _ _ _).mpr ⟨hk, rfl⟩
    simp only [Option.bind_some, hc]
    rw [(firstNonTriviaToken_iff _ _).mpr ho]; dsimp only
    have hr' : e.rhsExpression = some rhs := (second_iff _ _ _).mpr hr
    rw [hr', (isTestOperator_iff op).mpr hop]
    simp [Elem.same]

/-- C60, functions: the findings are exactly those for the function calls (not hidden and not
switched off) that are not the right side of a filter or a test and whose name is not in the
configured list. -/
theorem C60_functions (config : Config) (root : Tree) :
    ∃ l, runRules config [twigValidFunction] root = .ok l ∧ ∀ x, x ∈ l ↔
      ∃ e name, Elem.In root e ∧ hidden e = false ∧
        switchedOff "twig-valid-function".toList e = false ∧
        nodeOf .TWIG_FUNCTION_CALL e.tree = true ∧ ¬ FilterCall e ∧ ¬ TestCall e ∧
        CallName e name ∧ name.text ∉ config.validFunctions ∧
        x = plainFinding "twig-valid-function".toList .warning name := by
  refine node_rule_findings config twigValidFunction root rfl rfl
    (fun e x => ∃ name, nodeOf .TWIG_FUNCTION_CALL e.tree = true ∧ ¬ FilterCall e ∧ ¬ TestCall e ∧
        CallName e name ∧ name.text ∉ config.validFunctions ∧
        x = plainFinding "twig-valid-function".toList .warning name)
    (fun e x hin => ?_) (fun e x h => ?_) |>.imp (fun l h => ⟨h.1, fun x => (h.2 x).trans ?_⟩)
  · unfold twigValidFunction; dsimp only
    constructor
    · intro h
      split at h
      · cases h
      · rename_i call hc
        obtain ⟨hk, rfl⟩ := (nodeOf_cast _ _ _).mp hc
        split at h
        · cases h
        · rename_i hf
          rw [filterCall_iff hin] at hf
          split at h
          · cases h
          · rename_i ht
            rw [testCall_iff hin] at ht
            split at h
            · cases h
            · rename_i name hn
              obtain ⟨h4, h5⟩ := (checkKnown_iff _ _ _ _).mp h
              exact ⟨name, hk, hf, ht, (callName_iff _ _).mp hn, h4, h5⟩
    · rintro ⟨name, hk, hf, ht, hn, h4, h5⟩
      rw [(nodeOf_cast _ _ _).mpr ⟨hk, rfl⟩]; dsimp only
      rw [if_neg (by rw [filterCall_iff hin]; exact hf),
        if_neg (by rw [testCall_iff hin]; exact ht), (callName_iff _ _).mpr hn]
      exact (checkKnown_iff _ _ _ _).mpr ⟨h4, h5⟩
  · obtain ⟨_, h, _⟩ := h
    exact nodeOf_isNode h
  · constructor
    · rintro ⟨e, h1, h2, h3, n, h4⟩; exact ⟨e, n, h1, h2, h3, h4⟩
    · rintro ⟨e, n, h1, h2, h3, h4⟩; exact ⟨e, h1, h2, h3, n, h4⟩

/-! ## C61: variables and `sw_extends` -/

/-- A camel case name: underscores, followed by nothing or by a word that begins with a lowercase
letter and contains no underscore and no minus sign. -/
def CamelName (s : Text) : Prop :=
  ∃ n w, s = List.replicate n '_' ++ w ∧
    (w = [] ∨ ((∃ c r, w = c :: r ∧ c.isLower = true) ∧ '_' ∉ w ∧ '-' ∉ w))

/-- A screaming snake case name: words of uppercase letters and digits, joined by single
underscores. -/
def ScreamingName (s : Text) : Prop :=
  s = [] ∨ Runs (fun c => c.isUpper || c.isDigit) '_' s

/-- An assignment of the result of a call of `constant`. -/
def ConstantAssignment (e : Elem) : Prop :=
  ∃ x call word, FirstChild (nodeOf .TWIG_EXPRESSION) e x ∧
    FirstChild (nodeOf .TWIG_FUNCTION_CALL) x call ∧ CallName call word ∧
    word.text = "constant".toList

/-- The names that `e` defines: the first words of the names that are children of `e`. -/
def Defines (e word : Elem) : Prop :=
  ∃ n ∈ e.childrenWithTokens, nodeOf .TWIG_LITERAL_NAME n.tree = true ∧
    FirstChild (isTokenOf .TK_WORD) n word

theorem constant_iff (e : Elem) : isConstantAssignment e = true ↔ ConstantAssignment e := by
  unfold isConstantAssignment ConstantAssignment
  have hb : ∀ word, (((e.child .TWIG_EXPRESSION).bind (·.child .TWIG_FUNCTION_CALL)).bind
      (·.operand)).bind literalName = some word ↔ ∃ x call, FirstChild (nodeOf .TWIG_EXPRESSION) e x ∧
        FirstChild (nodeOf .TWIG_FUNCTION_CALL) x call ∧ CallName call word := by
    intro word
    rw [Option.bind_assoc]
    simp only [Option.bind_eq_some_iff, child_iff]
    constructor
    · rintro ⟨call, ⟨x, h1, h2⟩, o, ho, h3⟩
      exact ⟨x, call, h1, h2, o, (child_iff _ _ _).mp ho, (plainName_iff _ _).mp h3⟩
    · rintro ⟨x, call, h1, h2, o, ho, h3⟩
      exact ⟨call, ⟨x, h1, h2⟩, o, (child_iff _ _ _).mpr ho, (plainName_iff _ _).mpr h3⟩
  constructor
  · intro h
    split at h
    · rename_i word hw
      obtain ⟨x, call, h1, h2, h3⟩ := (hb word).mp hw
      exact ⟨x, call, word, h1, h2, h3, by simpa using h⟩
    · cases h
  · rintro ⟨x, call, word, h1, h2, h3, h4⟩
    rw [(hb word).mpr ⟨x, call, h1, h2, h3⟩]
    simp [h4]

theorem checkLiteralNames_iff (e : Elem) (c : Bool) (x : CheckResult) :
    x ∈ checkLiteralNames e c ↔ ∃ word, Defines e word ∧
      (if c then ¬ ScreamingName word.text else ¬ CamelName word.text) ∧
      x = plainFinding "twig-variable-definition-naming".toList .help word := by
  have hcamel : ∀ s, isCamelCase s = false ↔ ¬ CamelName s := by
    intro s
    rw [← Bool.not_eq_true, C31_camel_valid_iff]; rfl
  have hscream : ∀ s, isValidAsciiAlphaSnakeCase s true = false ↔ ¬ ScreamingName s := by
    intro s
    rw [← Bool.not_eq_true, C28_snake_valid_iff]; rfl
  unfold checkLiteralNames Defines
  rw [List.mem_flatMap]
  simp only [childrenOf_filter, List.mem_filter]
  constructor
  · rintro ⟨n, ⟨h1, h2⟩, h3⟩
    split at h3
    · cases h3
    · rename_i word hw
      have hw := (token_iff _ _ _).mp hw
      refine ⟨word, ⟨n, h1, h2, hw⟩, ?_⟩
      cases c with
      | true =>
        simp only [Bool.true_and, Bool.not_true, Bool.false_and, Bool.false_eq_true, if_false,
          List.append_nil, if_true] at h3 ⊢
        split at h3
        · rename_i hv
          exact ⟨(hscream _).mp (by simpa using hv), List.mem_singleton.mp h3⟩
        · cases h3
      | false =>
        simp only [Bool.false_and, Bool.false_eq_true, if_false, List.nil_append, Bool.not_false,
          Bool.true_and] at h3 ⊢
        split at h3
        · rename_i hv
          exact ⟨(hcamel _).mp (by simpa using hv), List.mem_singleton.mp h3⟩
        · cases h3
  · rintro ⟨word, ⟨n, h1, h2, hw⟩, h4, rfl⟩
    refine ⟨n, ⟨h1, h2⟩, ?_⟩
    have hw : n.word = some word := (token_iff _ _ _).mpr hw
    rw [hw]; dsimp only
    cases c with
    | true =>
      simp only [if_true] at h4
      simp only [(hscream _).mpr h4]
      exact List.mem_singleton.mpr rfl
    | false =>
      simp only [Bool.false_eq_true, if_false] at h4
      simp only [(hcamel _).mpr h4]
      exact List.mem_singleton.mpr rfl

/-- C61, variables: the findings are exactly those for the names defined by an assignment or a `for`
(not hidden and not switched off) that are not camel case, or, for an assignment of a call of
`constant`, not screaming snake case. -/
theorem C61_variables (config : Config) (root : Tree) :
    ∃ l, runRules config [twigVariableDefinitionNaming] root = .ok l ∧ ∀ x, x ∈ l ↔
      ∃ e word, Elem.In root e ∧ hidden e = false ∧
        switchedOff "twig-variable-definition-naming".toList e = false ∧ Defines e word ∧
        ((nodeOf .TWIG_ASSIGNMENT e.tree = true ∧ ConstantAssignment e ∧ ¬ ScreamingName word.text) ∨
          (nodeOf .TWIG_ASSIGNMENT e.tree = true ∧ ¬ ConstantAssignment e ∧ ¬ CamelName word.text) ∨
          (nodeOf .TWIG_FOR_BLOCK e.tree = true ∧ ¬ CamelName word.text)) ∧
        x = plainFinding "twig-variable-definition-naming".toList .help word := by
  refine node_rule_findings config twigVariableDefinitionNaming root rfl rfl
    (fun e x => ∃ word, Defines e word ∧
        ((nodeOf .TWIG_ASSIGNMENT e.tree = true ∧ ConstantAssignment e ∧ ¬ ScreamingName word.text) ∨
          (nodeOf .TWIG_ASSIGNMENT e.tree = true ∧ ¬ ConstantAssignment e ∧ ¬ CamelName word.text) ∨
          (nodeOf .TWIG_FOR_BLOCK e.tree = true ∧ ¬ CamelName word.text)) ∧
        x = plainFinding "twig-variable-definition-naming".toList .help word)
    (fun e x hin => ?_) (fun e x h => ?_) |>.imp (fun l h => ⟨h.1, fun x => (h.2 x).trans ?_⟩)
  · unfold twigVariableDefinitionNaming; dsimp only
    constructor
    · intro h
      split at h
      · split at h
        · cases h
        · rename_i n hc
          obtain ⟨hk, rfl⟩ := (nodeOf_cast _ _ _).mp hc
          obtain ⟨word, h1, h2, h3⟩ := (checkLiteralNames_iff _ _ _).mp h
          refine ⟨word, h1, ?_, h3⟩
          cases hb : isConstantAssignment n with
          | true =>
            simp only [hb, if_true] at h2
            exact .inl ⟨hk, (constant_iff _).mp hb, h2⟩
          | false =>
            simp only [hb, Bool.false_eq_true, if_false] at h2
            exact .inr (.inl ⟨hk, fun hc => (by rw [(constant_iff _).mpr hc] at hb; cases hb), h2⟩)
      · split at h
        · split at h
          · cases h
          · rename_i n hc
            obtain ⟨hk, rfl⟩ := (nodeOf_cast _ _ _).mp hc
            obtain ⟨word, h1, h2, h3⟩ := (checkLiteralNames_iff _ _ _).mp h
            exact ⟨word, h1, .inr (.inr ⟨hk, by simpa using h2⟩), h3⟩
        · cases h
    · have kind_of : ∀ {k : SyntaxKind}, nodeOf k e.tree = true → e.kind = k := by
        intro k hk
        rw [← isNode_kind, Bool.and_eq_true] at hk
        simpa using hk.2
      rintro ⟨word, h1, h2, rfl⟩
      rcases h2 with ⟨hk, hc, h2⟩ | ⟨hk, hc, h2⟩ | ⟨hk, h2⟩
      · rw [if_pos (by rw [kind_of hk]; rfl), (nodeOf_cast _ _ _).mpr ⟨hk, rfl⟩]
        refine (checkLiteralNames_iff _ _ _).mpr ⟨word, h1, ?_, rfl⟩
        rw [if_pos ((constant_iff _).mpr hc)]; exact h2
      · rw [if_pos (by rw [kind_of hk]; rfl), (nodeOf_cast _ _ _).mpr ⟨hk, rfl⟩]
        refine (checkLiteralNames_iff _ _ _).mpr ⟨word, h1, ?_, rfl⟩
        rw [if_neg (fun h => hc ((constant_iff _).mp h))]; exact h2
      · rw [if_neg (by rw [kind_of hk]; decide), if_pos (by rw [kind_of hk]; rfl),
          (nodeOf_cast _ _ _).mpr ⟨hk, rfl⟩]
        exact (checkLiteralNames_iff _ _ _).mpr ⟨word, h1, by simpa using h2, rfl⟩
  · obtain ⟨_, _, h | h | h, _⟩ := h
    · exact nodeOf_isNode h.1
    · exact nodeOf_isNode h.1
    · exact nodeOf_isNode h.1
  · constructor
    · rintro ⟨e, h1, h2, h3, n, h4⟩; exact ⟨e, n, h1, h2, h3, h4⟩
    · rintro ⟨e, n, h1, h2, h3, h4⟩; exact ⟨e, h1, h2, h3, n, h4⟩

/-- C61, `extends`: the findings are exactly those for the tags (not hidden and not switched off)
with the keyword `extends`; the suggestion replaces exactly the keyword by `sw_extends`. -/
theorem C61_extends (config : Config) (root : Tree) :
    ∃ l, runRules config [twigPreferShopwareExtends] root = .ok l ∧ ∀ x, x ∈ l ↔
      ∃ e keyword, Elem.In root e ∧ hidden e = false ∧
        switchedOff "twig-prefer-shopware-extends".toList e = false ∧
        nodeOf .TWIG_EXTENDS e.tree = true ∧ FirstChild (isTokenOf .TK_EXTENDS) e keyword ∧
        x = { rule := "twig-prefer-shopware-extends".toList
              severity := .warning
              suggestions := [⟨placeOf keyword, "sw_extends".toList⟩]
              primary := some (placeOf e) } := by
  refine node_rule_findings config twigPreferShopwareExtends root rfl rfl
    (fun e x => ∃ keyword, nodeOf .TWIG_EXTENDS e.tree = true ∧
        FirstChild (isTokenOf .TK_EXTENDS) e keyword ∧
        x = { rule := "twig-prefer-shopware-extends".toList
              severity := .warning
              suggestions := [⟨placeOf keyword, "sw_extends".toList⟩]
              primary := some (placeOf e) })
    (fun e x hin => ?_) (fun e x h => ?_) |>.imp (fun l h => ⟨h.1, fun x => (h.2 x).trans ?_⟩)
  · unfold twigPreferShopwareExtends; dsimp only
    constructor
    · intro h
      split at h
      · cases h
      · rename_i n hc
        obtain ⟨hk, rfl⟩ := (nodeOf_cast _ _ _).mp hc
        split at h
        · cases h
        · rename_i kw hkw
          exact ⟨kw, hk, (token_iff _ _ _).mp hkw, List.mem_singleton.mp h⟩
    · rintro ⟨kw, hk, hkw, rfl⟩
      rw [(nodeOf_cast _ _ _).mpr ⟨hk, rfl⟩]; dsimp only
      rw [(token_iff _ _ _).mpr hkw]
      exact List.mem_singleton.mpr rfl
  · obtain ⟨_, h, _⟩ := h
    exact nodeOf_isNode h
  · constructor
    · rintro ⟨e, h1, h2, h3, n, h4⟩; exact ⟨e, n, h1, h2, h3, h4⟩
    · rintro ⟨e, n, h1, h2, h3, h4⟩; exact ⟨e, h1, h2, h3, n, h4⟩

/-- A config with known names. -/
def knownConfig : Config :=
  { sampleConfig with
    validFilters := ["upper".toList], validTests := ["odd".toList], validFunctions := ["dump".toList] }

/-- Of `{{ a|foo|upper }}{% if b is bar(1) %}{% endif %}{{ baz(c|qux(d)) }}`, the filters `foo` and
`qux`, the test `bar` and the function `baz` are reported. -/
example : parsesTo
      "{{ a|foo|upper }}{% if b is bar(1) %}{% endif %}{{ baz(c|qux(d)) }}".toList knownSample = true ∧
    Gives (runRules knownConfig [twigValidFilter, twigValidTest, twigValidFunction] knownSample)
      (fun l => l.map (fun x => (x.rule, x.primary)) ==
        [("twig-valid-filter".toList, some ⟨5, 8⟩), ("twig-valid-test".toList, some ⟨28, 31⟩),
          ("twig-valid-function".toList, some ⟨51, 54⟩),
          ("twig-valid-filter".toList, some ⟨57, 60⟩)]) = true :=
  ⟨knownSample_parsed, by decide +kernel⟩

/-- Of the definitions in the sample, `C` and `F` are reported. -/
example : parsesTo ("{% extends \"a\" %}{% set A_B = constant(\"x\") %}{% set C, d = 1, 2 %}" ++
      "{% for _e, F in g %}{% endfor %}").toList variableSample = true ∧
    Gives (runRules sampleConfig [twigVariableDefinitionNaming] variableSample) (fun l =>
      l.map (·.primary) == [some ⟨53, 54⟩, some ⟨78, 79⟩]) = true ∧
    Gives (runRules sampleConfig [twigPreferShopwareExtends] variableSample) (fun l =>
      l.map (fun x => (x.primary, x.suggestions)) ==
        [(some ⟨0, 17⟩, [⟨⟨3, 10⟩, "sw_extends".toList⟩])]) = true :=
  ⟨variableSample_parsed, by decide +kernel, by decide +kernel⟩

end Ludtwig.Rules
