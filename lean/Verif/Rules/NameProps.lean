import Verif.Rules.QuoteProps
import Verif.Rules.NameSamples
import Verif.Naming.ExistsProps
import Verif.Naming.Props

/-!
# Names: properties C57 to C61

File directives, names of blocks, attributes and variables, `sw_extends`, and the rules with lists of
known names.
-/

namespace Ludtwig.Rules

open Cli Naming

/-- What is reported by a rule that checks nodes only, where the check may depend on the config and
on what is known about elements of the tree. -/
theorem node_rule_findings (config : Config) (r : Rule) (root : Tree)
    (ht : r.checkToken = fun _ _ => []) (hr : r.checkRoot = fun _ _ => .ok [])
    (P : Elem → CheckResult → Prop)
    (hP : ∀ e x, Elem.In root e → (x ∈ r.checkNode ⟨config, told e⟩ e ↔ P e x))
    (hn : ∀ e x, P e x → e.tree.isNode = true) :
    ∃ l, runRules config [r] root = .ok l ∧ ∀ x, x ∈ l ↔
      ∃ e, Elem.In root e ∧ hidden e = false ∧ switchedOff r.name e = false ∧ P e x := by
  obtain ⟨l, hl, h⟩ := reported_iff config r root (by rw [hr])
  refine ⟨l, hl, fun x => (h x).trans ?_⟩
  constructor
  · rintro ⟨e, h1, h2, h3, h4⟩
    refine ⟨e, h1, h2, h3, ?_⟩
    unfold checkElem at h4
    split at h4
    · exact (hP _ _ h1).mp h4
    · rw [ht] at h4; cases h4
  · rintro ⟨e, h1, h2, h3, h4⟩
    refine ⟨e, h1, h2, h3, ?_⟩
    have := hn e x h4
    unfold checkElem
    split
    · exact (hP _ _ h1).mpr h4
    · rename_i he; rw [he] at this; cases this

/-- The place of a token. -/
def placeOf (e : Elem) : TextRange := ⟨e.start, e.start + byteLen e.text⟩

/-- A finding without suggestions. -/
def plainFinding (name : RuleName) (severity : Severity) (e : Elem) : CheckResult where
  rule := name
  severity := severity
  suggestions := []
  primary := some (placeOf e)
  secondary := []

/-! ## C57: file directives -/

/-- The nodes of a parsed tree below the root are not of the kind ROOT. -/
def OneRoot (root : Tree) : Prop :=
  root.kind = .ROOT ∧ ∀ e, Elem.In root e → nodeOf .ROOT e.tree = true → e = Elem.root root

/-- C57: the rule reports exactly the file directives (not hidden and not switched off) that are not
directly below the root. -/
theorem C57_file_directives (config : Config) (root : Tree) (hroot : OneRoot root) :
    ∃ l, runRules config [ignoreFileNotOnTop] root = .ok l ∧ ∀ x, x ∈ l ↔
      ∃ e, Elem.In root e ∧ hidden e = false ∧
        switchedOff "ludtwig-ignore-file-not-on-top".toList e = false ∧
        nodeOf .LUDTWIG_DIRECTIVE_FILE_IGNORE e.tree = true ∧
        e ∉ (Elem.root root).childrenWithTokens ∧
        x = plainFinding "ludtwig-ignore-file-not-on-top".toList .error e := by
  refine node_rule_findings config ignoreFileNotOnTop root rfl rfl
    (fun e x => nodeOf .LUDTWIG_DIRECTIVE_FILE_IGNORE e.tree = true ∧
      e ∉ (Elem.root root).childrenWithTokens ∧
      x = plainFinding "ludtwig-ignore-file-not-on-top".toList .error e)
    (fun e x hin => ?_) (fun e x h => nodeOf_isNode h.1)
  unfold ignoreFileNotOnTop; dsimp only
  constructor
  · intro h
    split at h
    · cases h
    · rename_i d hd
      obtain ⟨hk, rfl⟩ := (nodeOf_cast _ _ _).mp hd
      split at h
      · cases h
      · rename_i p hp
        split at h
        · rename_i hkind
          refine ⟨hk, fun hc => ?_, List.mem_singleton.mp h⟩
          rw [child_parent hc] at hp
          cases hp
          have : (Elem.root root).kind = .ROOT := hroot.1
          rw [this] at hkind
          exact absurd hkind (by decide)
        · cases h
  · rintro ⟨hk, hc, rfl⟩
    rw [(nodeOf_cast _ _ _).mpr ⟨hk, rfl⟩]; dsimp only
    cases hp : e.parent with
    | none =>
      exfalso
      cases hin with
      | root =>
        have := hroot.1
        have hk' : nodeOf .LUDTWIG_DIRECTIVE_FILE_IGNORE root = true := hk
        cases root with
        | token _ _ => cases hk'
        | node k cs =>
          have h1 : k = .ROOT := this
          rw [h1] at hk'
          exact absurd hk' (by simp [nodeOf])
      | child hq hc' => rw [child_parent hc'] at hp; cases hp
    | some p =>
      dsimp only
      obtain ⟨h1, h2⟩ := In_parent hin hp
      rw [if_pos]
      · exact List.mem_singleton.mpr rfl
      · rw [bne_iff_ne]
        intro hr
        have hn : nodeOf .ROOT p.tree = true := by
          unfold Elem.parent at hp
          split at hp
          · cases hp
          · cases hp
            simpa [nodeOf, Elem.kind, Tree.kind] using hr
        have := hroot.2 p h1 hn
        rw [this] at h2
        exact hc h2

/-- In `{# ludtwig-ignore-file a #}<p>{# ludtwig-ignore-file b #}</p>` only the second directive is
reported. -/
example :
    parsesTo "{# ludtwig-ignore-file a #}<p>{# ludtwig-ignore-file b #}</p>".toList directiveSample =
      true ∧
    Gives (runRules sampleConfig [ignoreFileNotOnTop] directiveSample) (fun l =>
      l.map (·.primary) == [some ⟨30, 57⟩]) = true := ⟨directiveSample_parsed, by decide +kernel⟩

/-! ## C58: names of blocks and attributes -/

/-- A snake case name: words of lowercase letters and digits, joined by single underscores. -/
def SnakeName (s : Text) : Prop :=
  s = [] ∨ Runs (fun c => c.isLower || c.isDigit) '_' s

/-- A kebab case name: words of lowercase letters and digits, joined by single minus signs, possibly
behind one of the characters `:`, `@` and `#`. -/
def KebabName (s : Text) : Prop :=
  s = [] ∨ Runs (fun c => c.isLower || c.isDigit) '-' s ∨
    ∃ p t, s = p :: t ∧ (p = ':' ∨ p = '@' ∨ p = '#') ∧
      (t = [] ∨ Runs (fun c => c.isLower || c.isDigit) '-' t ∨
        ∃ u, t = '-' :: u ∧ Runs (fun c => c.isLower || c.isDigit) '-' u)

/-- A name without its separators and case. -/
def letters (s : Text) : Text := (s.filter (fun c => c != '-' && c != '_')).map Char.toLower

/-- A finding about the name `name`: the suggestions are at the place of the name; each is a valid
name with the same letters and digits. There is one if the name consists of ASCII letters, digits and
separators and does not begin with a separator. -/
structure NameFinding (rule : RuleName) (valid : Text → Prop) (name : Elem) (x : CheckResult) : Prop where
  rule : x.rule = rule
  severity : x.severity = .help
  primary : x.primary = some (placeOf name)
  secondary : x.secondary = []
  atMostOne : x.suggestions.length ≤ 1
  place : ∀ s ∈ x.suggestions, s.range = placeOf name
  valid : ∀ s ∈ x.suggestions, valid s.replaceWith
  letters : ∀ s ∈ x.suggestions, letters s.replaceWith = letters name.text
  exists_ : ∀ c rest, name.text = c :: rest → Alnum c → (∀ d ∈ rest, Alnum d ∨ d = '-' ∨ d = '_') →
    x.suggestions ≠ []

theorem snakeName_iff (s : Text) : isValidAsciiAlphaSnakeCase s false = true ↔ SnakeName s :=
  C28_snake_valid_iff s false

theorem kebabName_iff (s : Text) : isValidAlphanumericKebabCase s = true ↔ KebabName s :=
  C30_kebab_valid_iff s

theorem snake_finding (rule : RuleName) (name : Elem) :
    NameFinding rule SnakeName name
      (suggestName (result rule .help name.range) name.range (tryMakeSnakeCase name.text false)) := by
  cases h : tryMakeSnakeCase name.text false with
  | none =>
    refine ⟨rfl, rfl, rfl, rfl, by simp [suggestName, result], ?_, ?_, ?_, ?_⟩
    · simp [suggestName, result]
    · simp [suggestName, result]
    · simp [suggestName, result]
    · intro c rest he h1 h2
      obtain ⟨sug, hs⟩ := C51_snake_suggestion_exists c rest false h1 h2
      rw [he, hs] at h; cases h
  | some sug =>
    refine ⟨rfl, rfl, rfl, rfl, by simp [suggestName, suggest, result], ?_, ?_, ?_, ?_⟩
    · simp only [suggestName, suggest, result, List.nil_append, List.mem_singleton]
      rintro s rfl; rfl
    · simp only [suggestName, suggest, result, List.nil_append, List.mem_singleton]
      rintro s rfl
      exact (snakeName_iff _).mp (C29_snake_suggestion_valid_partial _ _ _ h).1
    · simp only [suggestName, suggest, result, List.nil_append, List.mem_singleton]
      rintro s rfl
      exact C32_snake_suggestion_keeps_letters _ _ _ h
    · intros; simp [suggestName, suggest, result]

theorem kebab_finding (rule : RuleName) (name : Elem) :
    NameFinding rule KebabName name
      (suggestName (result rule .help name.range) name.range (tryMakeKebabCase name.text)) := by
  cases h : tryMakeKebabCase name.text with
  | none =>
    refine ⟨rfl, rfl, rfl, rfl, by simp [suggestName, result], ?_, ?_, ?_, ?_⟩
    · simp [suggestName, result]
    · simp [suggestName, result]
    · simp [suggestName, result]
    · intro c rest he h1 h2
      obtain ⟨sug, hs⟩ := C51_kebab_suggestion_exists c rest h1 h2
      rw [he, hs] at h; cases h
  | some sug =>
    refine ⟨rfl, rfl, rfl, rfl, by simp [suggestName, suggest, result], ?_, ?_, ?_, ?_⟩
    · simp only [suggestName, suggest, result, List.nil_append, List.mem_singleton]
      rintro s rfl; rfl
    · simp only [suggestName, suggest, result, List.nil_append, List.mem_singleton]
      rintro s rfl
      exact (kebabName_iff _).mp (C29_kebab_suggestion_valid_partial _ _ h).1
    · simp only [suggestName, suggest, result, List.nil_append, List.mem_singleton]
      rintro s rfl
      exact C32_kebab_suggestion_keeps_letters _ _ h
    · intros; simp [suggestName, suggest, result]

/-- The name of a starting block, at its place. -/
def NamedBlock (e name : Elem) : Prop :=
  nodeOf .TWIG_STARTING_BLOCK e.tree = true ∧ FirstChild (isTokenOf .TK_WORD) e name

theorem blockNameIs_iff (e name : Elem) :
    (e.cast .TWIG_STARTING_BLOCK).bind (·.word) = some name ↔ NamedBlock e name := by
  rw [Option.bind_eq_some_iff]
  unfold NamedBlock
  constructor
  · rintro ⟨x, h1, h2⟩
    obtain ⟨h3, rfl⟩ := (nodeOf_cast _ _ _).mp h1
    exact ⟨h3, (token_iff _ _ _).mp h2⟩
  · rintro ⟨h1, h2⟩
    exact ⟨e, (nodeOf_cast _ _ _).mpr ⟨h1, rfl⟩, (token_iff _ _ _).mpr h2⟩

/-- C58, blocks: the findings are exactly those for the names of blocks (not hidden and not switched
off) that are not snake case. -/
theorem C58_block_names (config : Config) (root : Tree) :
    ∃ l, runRules config [twigBlockNameSnakeCase] root = .ok l ∧
      (∀ x ∈ l, ∃ e name, Elem.In root e ∧ hidden e = false ∧
        switchedOff "twig-block-name-snake-case".toList e = false ∧ NamedBlock e name ∧
        ¬ SnakeName name.text ∧ NameFinding "twig-block-name-snake-case".toList SnakeName name x) ∧
      (∀ e name, Elem.In root e → hidden e = false →
        switchedOff "twig-block-name-snake-case".toList e = false → NamedBlock e name →
        ¬ SnakeName name.text →
        ∃ x ∈ l, NameFinding "twig-block-name-snake-case".toList SnakeName name x) := by
  obtain ⟨l, hl, h⟩ := node_rule_findings config twigBlockNameSnakeCase root rfl rfl
    (fun e x => ∃ name, NamedBlock e name ∧ ¬ SnakeName name.text ∧
      x = suggestName (result "twig-block-name-snake-case".toList .help name.range) name.range
        (tryMakeSnakeCase name.text false))
    (fun e x hin => by
      unfold twigBlockNameSnakeCase; dsimp only
      constructor
      · intro h
        split at h
        · cases h
        · rename_i name hn
          rw [blockNameIs_iff] at hn
          split at h
          · rename_i hv
            refine ⟨name, hn, fun hs => ?_, List.mem_singleton.mp h⟩
            rw [(snakeName_iff _).mpr hs] at hv
            cases hv
          · cases h
      · rintro ⟨name, h1, h2, rfl⟩
        rw [(blockNameIs_iff e name).mpr h1]; dsimp only
        rw [if_pos]
        · exact List.mem_singleton.mpr rfl
        · cases hv : isValidAsciiAlphaSnakeCase name.text false with
          | false => rfl
          | true => exact absurd ((snakeName_iff _).mp hv) h2)
    (fun e x ⟨_, h, _⟩ => nodeOf_isNode h.1)
  refine ⟨l, hl, ?_, ?_⟩
  · intro x hx
    obtain ⟨e, h1, h2, h3, name, h4, h5, rfl⟩ := (h x).mp hx
    exact ⟨e, name, h1, h2, h3, h4, h5, snake_finding _ _⟩
  · intro e name h1 h2 h3 h4 h5
    exact ⟨_, (h _).mpr ⟨e, h1, h2, h3, name, h4, h5, rfl⟩, snake_finding _ _⟩

/-- The name of an attribute of a tag that is not a twig component: the attribute is in the list of
attributes of the tag. -/
def AttributeName (e name : Elem) : Prop :=
  nodeOf .HTML_ATTRIBUTE e.tree = true ∧ FirstChild (isTokenOf .TK_WORD) e name ∧
    ∃ list tag : Elem, e ∈ list.childrenWithTokens ∧ list ∈ tag.childrenWithTokens ∧
      nodeOf .HTML_STARTING_TAG tag.tree = true ∧
      ∀ c ∈ tag.tree.subtrees, isTokenOf .TK_TWIG_COMPONENT_NAME c = false

theorem attributeTag_iff {root : Tree} {e : Elem} (hin : Elem.In root e) (tag : Elem) :
    e.attributeTag = some tag ↔ ∃ list, e ∈ list.childrenWithTokens ∧ list ∈ tag.childrenWithTokens ∧
      nodeOf .HTML_STARTING_TAG tag.tree = true := by
  unfold Elem.attributeTag
  constructor
  · intro h
    cases hp : e.parent with
    | none => rw [hp] at h; cases h
    | some p =>
      rw [hp] at h
      cases hg : p.parent with
      | none => simp [hg] at h
      | some g =>
        simp only [Option.bind_eq_bind, Option.bind_some, hg] at h
        obtain ⟨h1, rfl⟩ := (nodeOf_cast _ _ _).mp h
        obtain ⟨a1, a2⟩ := In_parent hin hp
        obtain ⟨b1, b2⟩ := In_parent a1 hg
        exact ⟨p, a2, b2, h1⟩
  · rintro ⟨p, h1, h2, h3⟩
    rw [child_parent h1]
    simp only [Option.bind_eq_bind, Option.bind_some, child_parent h2]
    exact (nodeOf_cast _ _ _).mpr ⟨h3, rfl⟩

theorem isTwigComponent_iff (tag : Elem) : tag.isTwigComponent = false ↔
    ∀ c ∈ tag.tree.subtrees, isTokenOf .TK_TWIG_COMPONENT_NAME c = false := by
  unfold Elem.isTwigComponent
  cases h : tag.token .TK_TWIG_COMPONENT_NAME with
  | none =>
    refine ⟨fun _ c hc => ?_, fun _ => rfl⟩
    unfold Elem.token at h
    rw [List.find?_eq_none] at h
    rw [← childrenWithTokens_trees] at hc
    obtain ⟨x, hx, rfl⟩ := List.mem_map.mp hc
    cases hb : isTokenOf .TK_TWIG_COMPONENT_NAME x.tree with
    | false => rfl
    | true =>
      have hn : x.isNode = false := by
        unfold Elem.isNode
        cases ht : x.tree <;> simp_all [isTokenOf, Tree.isNode]
      have hk : x.kind = .TK_TWIG_COMPONENT_NAME := by
        unfold Elem.kind
        cases ht : x.tree <;> simp_all [isTokenOf, Tree.kind]
      have := h x (List.mem_filter.mpr ⟨hx, by simp [hn]⟩)
      rw [hk] at this
      exact absurd rfl this
  | some y =>
    refine ⟨fun h => (by cases h), fun hc => ?_⟩
    obtain ⟨k, l, r, h1, _, h3, _⟩ := (token_iff _ _ _).mp h
    have := hc y.tree (by rw [h1]; simp [Tree.subtrees])
    rw [this] at h3; cases h3

/-- C58, attributes: the findings are exactly those for the names of attributes (not hidden and not
switched off) in the attribute lists of tags that are not twig components, where the name is not
kebab case. -/
theorem C58_attribute_names (config : Config) (root : Tree) :
    ∃ l, runRules config [htmlAttributeNameKebabCase] root = .ok l ∧
      (∀ x ∈ l, ∃ e name, Elem.In root e ∧ hidden e = false ∧
        switchedOff "html-attribute-name-kebab-case".toList e = false ∧ AttributeName e name ∧
        ¬ KebabName name.text ∧ NameFinding "html-attribute-name-kebab-case".toList KebabName name x) ∧
      (∀ e name, Elem.In root e → hidden e = false →
        switchedOff "html-attribute-name-kebab-case".toList e = false → AttributeName e name →
        ¬ KebabName name.text →
        ∃ x ∈ l, NameFinding "html-attribute-name-kebab-case".toList KebabName name x) := by
  obtain ⟨l, hl, h⟩ := node_rule_findings config htmlAttributeNameKebabCase root rfl rfl
    (fun e x => ∃ name, AttributeName e name ∧ ¬ KebabName name.text ∧
      x = suggestName (result "html-attribute-name-kebab-case".toList .help name.range) name.range
        (tryMakeKebabCase name.text))
    (fun e x hin => by
      unfold htmlAttributeNameKebabCase; dsimp only
      constructor
      · intro h
        split at h
        · cases h
        · rename_i a ha
          obtain ⟨hk, rfl⟩ := (nodeOf_cast _ _ _).mp ha
          split at h
          · cases h
          · rename_i name hn
            have hn : FirstChild (isTokenOf .TK_WORD) a name := (token_iff _ _ _).mp hn
            split at h
            · cases h
            · rename_i tag ht
              obtain ⟨list, h1, h2, h3⟩ := (attributeTag_iff hin tag).mp ht
              split at h
              · cases h
              · rename_i hc
                have hc := (isTwigComponent_iff tag).mp (by simpa using hc)
                split at h
                · rename_i hv
                  refine ⟨name, ⟨hk, hn, list, tag, h1, h2, h3, hc⟩, fun hs => ?_,
                    List.mem_singleton.mp h⟩
                  rw [(kebabName_iff _).mpr hs] at hv
                  cases hv
                · cases h
      · rintro ⟨name, ⟨hk, hn, list, tag, h1, h2, h3, hc⟩, hs, rfl⟩
        rw [(nodeOf_cast _ _ _).mpr ⟨hk, rfl⟩]; dsimp only
        have hn : e.word = some name := (token_iff _ _ _).mpr hn
        rw [hn]; dsimp only
        rw [(attributeTag_iff hin tag).mpr ⟨list, h1, h2, h3⟩]; dsimp only
        rw [(isTwigComponent_iff tag).mpr hc]
        rw [if_neg (by decide), if_pos]
        · exact List.mem_singleton.mpr rfl
        · cases hv : isValidAlphanumericKebabCase name.text with
          | false => rfl
          | true => exact absurd ((kebabName_iff _).mp hv) hs)
    (fun e x ⟨_, h, _⟩ => nodeOf_isNode h.1)
  refine ⟨l, hl, ?_, ?_⟩
  · intro x hx
    obtain ⟨e, h1, h2, h3, name, h4, h5, rfl⟩ := (h x).mp hx
    exact ⟨e, name, h1, h2, h3, h4, h5, kebab_finding _ _⟩
  · intro e name h1 h2 h3 h4 h5
    exact ⟨_, (h _).mpr ⟨e, h1, h2, h3, name, h4, h5, rfl⟩, kebab_finding _ _⟩

/-- The name `aB` of a block and the name `aB` of an attribute are reported, the names of the component
are not. -/
example : parsesTo ("{% block aB %}{% block c_d %}{% endblock %}{% endblock %}" ++
      "<p aB=\"x\" c-d></p><twig:A bC=\"x\"></twig:A>").toList nameSample = true ∧
    Gives (runRules sampleConfig [twigBlockNameSnakeCase] nameSample) (fun l =>
      l.map (fun x => (x.primary, x.suggestions)) ==
        [(some ⟨9, 11⟩, [⟨⟨9, 11⟩, "a_b".toList⟩])]) = true ∧
    Gives (runRules sampleConfig [htmlAttributeNameKebabCase] nameSample) (fun l =>
      l.map (fun x => (x.primary, x.suggestions)) ==
        [(some ⟨60, 62⟩, [⟨⟨60, 62⟩, "a-b".toList⟩])]) = true :=
  ⟨nameSample_parsed, by decide +kernel, by decide +kernel⟩

end Ludtwig.Rules
