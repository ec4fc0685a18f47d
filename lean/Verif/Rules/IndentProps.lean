import Verif.Rules.DuplicateProps

/-! # Indentation: properties C34 and C35 -/

namespace Ludtwig.Rules

open Cli

/-! ## Specification -/

/-- A node whose content is indented by one level. -/
def indents (config : Config) (e : Elem) : Bool :=
  (match e.tree with
    | .node .BODY _ => true
    | .node .TWIG_ARGUMENTS _ => true
    | .node .TWIG_LITERAL_ARRAY_INNER _ => true
    | .node .TWIG_LITERAL_HASH_ITEMS _ => true
    | .node .TWIG_PROP_DECLARATION _ => true
    | _ => false) &&
  (config.indentChildrenOfBlocks ||
    (match e.path with
      | [] => true
      | f :: _ => f.kind != .TWIG_BLOCK))

/-- The blanks by which a node aligns its content: an attribute list aligns to the end of `<name `. -/
def alignment (e : Elem) : Nat :=
  match e.tree, e.path with
  | .node .HTML_ATTRIBUTE_LIST _, f :: _ =>
    if f.kind == .HTML_STARTING_TAG then
      match (f.before ++ e.tree :: f.after).find? (tokenOf [.TK_WORD, .TK_TWIG_COMPONENT_NAME]) with
      | some name => name.text.length + 2
      | none => 0
    else 0
  | _, _ => 0

/-- The number of nodes around an element that indent. -/
def levelOf (config : Config) (e : Elem) : Nat := (e.ancestors.filter (indents config)).length

/-- The alignment of the nodes around an element. -/
def alignmentOf (e : Elem) : Nat := (e.ancestors.map alignment).sum

/-- A tag in which whitespace matters. -/
def sensitiveTag (e : Elem) : Bool := nodeOf .HTML_TAG e.tree && protectsWhitespace e.tree

/-- No node that indents or aligns comes directly after a directive that names no rule. -/
def NoBlanketBeforeIndent (config : Config) (root : Tree) : Prop :=
  ∀ e, Elem.In root e → directiveAbove e = some [] → indents config e = false ∧ alignment e = 0

/-- The elements with the one before each in the list. -/
def withPrevious (l : List Elem) : List (Option Elem × Elem) := (none :: l.map some).zip l

/-- The tokens that begin a line: those after a line break and the first one, unless they are line
breaks. -/
def lineStarts (l : List Elem) : List Elem :=
  ((withPrevious l).filter (fun p =>
    !isTokenOf .TK_LINE_BREAK p.2.tree &&
      (match p.1 with
        | none => true
        | some b => isTokenOf .TK_LINE_BREAK b.tree))).map (·.2)

/-- The tokens that the indentation rule looks at: those in no skipped node. -/
def visibleTokens (root : Tree) : List Elem :=
  ((Elem.root root).reached skipped).filter (fun e => !e.tree.isNode)

/-- A node for which a directive switches off the indentation rule. -/
def offHere (e : Elem) : Bool := switchesOff "indentation".toList e

/-- The flag of the indentation rule: the rule is off or whitespace matters. -/
def indentOff (e : Elem) : Bool :=
  flagAt skipped offHere e || flagAt skipped sensitiveTag e

/-! ## The traversal -/

theorem offHere_token {e : Elem} (h : e.isNode = false) : offHere e = false := switchesOff_token h

theorem ignoreEnter_indent (b : Bool) {e : Elem} (h : e.isNode = true) :
    ignoreEnter "indentation".toList b e = (offHere e || b, directiveAbove e == some []) := by
  rw [ignoreEnter_eq, offHere, switchesOff_node h]

theorem ignoreLeave_indent (b : Bool) {e : Elem} (h : e.isNode = true) :
    ignoreLeave "indentation".toList b e = if offHere e then false else b := by
  rw [ignoreLeave_eq, offHere, switchesOff_node h]

theorem offHere_blanket {e : Elem} (h : directiveAbove e = some []) : offHere e = false := by
  unfold offHere switchesOff
  rw [h]
  show (_ && false) = false
  exact Bool.and_false _

theorem isSensitiveTag_eq (e : Elem) : isSensitiveTag e = sensitiveTag e := by
  have h := isSensitive_eq e
  unfold sensitiveTag
  rw [← h]
  obtain ⟨t, pos, path⟩ := e
  cases t with
  | token k t => rfl
  | node k cs =>
    by_cases hk : k = .HTML_TAG
    · subst hk; rfl
    · have h1 : nodeOf .HTML_TAG (.node k cs) = false := by simp [nodeOf, hk]
      rw [h1]
      simp [isSensitiveTag, Elem.kind, Tree.kind, hk]

theorem addsLevel_eq (config : Config) (e : Elem) (h : e.isNode = true) :
    addsLevel config e = indents config e := by
  unfold addsLevel indents
  obtain ⟨t, pos, path⟩ := e
  cases t with
  | token k t => cases h
  | node k cs =>
    congr 1
    · simp only [Elem.kind, Tree.kind]
      cases k <;> rfl
    · cases path <;> rfl

theorem addsSubsteps_eq (e : Elem) (h : e.isNode = true) : addsSubsteps e = alignment e := by
  unfold addsSubsteps alignment
  obtain ⟨t, pos, path⟩ := e
  cases t with
  | token k t => cases h
  | node k cs =>
    by_cases hk : k = .HTML_ATTRIBUTE_LIST
    · subst hk
      cases path with
      | nil => rfl
      | cons f fs =>
        simp only [Elem.kind, Tree.kind, beq_self_eq_true, if_true, Elem.parent]
        by_cases hf : f.kind = .HTML_STARTING_TAG
        · have hc : Elem.cast .HTML_STARTING_TAG
              ⟨.node f.kind (f.before ++ .node .HTML_ATTRIBUTE_LIST cs :: f.after), f.start, fs⟩ =
              some ⟨.node f.kind (f.before ++ .node .HTML_ATTRIBUTE_LIST cs :: f.after), f.start, fs⟩ :=
            (nodeOf_cast _ _ _).mpr ⟨by simp [nodeOf, hf], rfl⟩
          rw [hc]
          simp only [hf, beq_self_eq_true, if_true]
          have ht := startingTagName_tree
            ⟨.node f.kind (f.before ++ .node .HTML_ATTRIBUTE_LIST cs :: f.after), f.start, fs⟩
          simp only [Tree.subtrees] at ht
          rw [hf] at ht
          rw [← ht]
          cases Elem.startingTagName ⟨.node .HTML_STARTING_TAG
            (f.before ++ .node .HTML_ATTRIBUTE_LIST cs :: f.after), f.start, fs⟩ with
          | none => rfl
          | some n => simp only [Option.map_some, Elem.text]; omega
        · have hc : Elem.cast .HTML_STARTING_TAG
              ⟨.node f.kind (f.before ++ .node .HTML_ATTRIBUTE_LIST cs :: f.after), f.start, fs⟩ =
              none := cast_other (by simp [nodeOf, hf])
          rw [hc]
          simp [hf]
    · rw [if_neg (by simpa [Elem.kind, Tree.kind] using hk)]
      cases k <;> first | rfl | exact absurd rfl hk

/-- The part of the state that follows the nesting. -/
structure IndentPlace where
  level : Nat
  substeps : Nat
  sensitive : Bool
  off : Bool

/-- The accumulator: whether a line break was the last token, and the findings. -/
abbrev IndentAcc := Bool × List CheckResult

/-- The state made of both. -/
def mkIndent (a : IndentAcc) (f : IndentPlace) : IndentState :=
  ⟨a.1, f.level, f.substeps, f.sensitive, f.off, a.2⟩

/-- The place before an element. -/
def placeBefore (config : Config) (e : Elem) : IndentPlace :=
  ⟨levelOf config e, alignmentOf e, flagBefore skipped sensitiveTag e,
    flagBefore skipped offHere e⟩

/-- The place inside of an element. -/
def placeIn (config : Config) (e : Elem) (f : IndentPlace) : IndentPlace :=
  ⟨f.level + (if indents config e then 1 else 0), f.substeps + alignment e,
    sensitiveTag e || f.sensitive, offHere e || f.off⟩

/-- The place after an element. -/
def placeAfter (e : Elem) (f : IndentPlace) : IndentPlace :=
  ⟨f.level, f.substeps, f.sensitive && !touchesBy skipped sensitiveTag e,
    f.off && !touchesBy skipped offHere e⟩

/-- The step on a token. -/
def indentStep (config : Config) (e : Elem) (a : IndentAcc) : IndentAcc :=
  if e.tree.isNode then a
  else if isTokenOf .TK_LINE_BREAK e.tree then (true, a.2)
  else (false, a.2 ++ (if a.1 && !indentOff e then
    firstTokenInLine config e (levelOf config e) (alignmentOf e) else []))

theorem foldl_place (l : List Elem) : ∀ f : IndentPlace,
    l.foldl (fun f c => placeAfter c f) f =
      ⟨f.level, f.substeps,
        l.foldl (fun f c => f && !touchesBy skipped sensitiveTag c) f.sensitive,
        l.foldl (fun f c => f && !touchesBy skipped offHere c) f.off⟩ := by
  induction l with
  | nil => intro f; rfl
  | cons c l ih => intro f; simp only [List.foldl_cons, ih]; rfl

theorem indents_token {config : Config} {e : Elem} (h : e.isNode = false) :
    indents config e = false ∧ alignment e = 0 ∧ sensitiveTag e = false := by
  obtain ⟨t, pos, path⟩ := e
  cases t with
  | token k t => exact ⟨rfl, rfl, rfl⟩
  | node k cs => cases h

theorem indent_scope (config : Config) (root : Tree) (hroot : NoBlanketBeforeIndent config root) :
    Scope { enter := indentEnter config, leave := indentLeave config } mkIndent skipped
      (placeBefore config) (placeIn config) placeAfter (indentStep config) root where
  skip := fun e a hin ho hc => by
    have hn : e.isNode = true := by
      cases h : e.isNode with
      | true => rfl
      | false => rw [skipped_token h] at hc; cases hc
    have hnt : e.tree.isNode = true := hn
    have hkind : (e.kind == .ERROR) = nodeOf .ERROR e.tree := by
      have := isNode_kind .ERROR e
      rwa [hn, Bool.true_and] at this
    have hadd : indents config e = false ∧ alignment e = 0 := by
      unfold skipped at hc
      rw [hnt, Bool.true_and, Bool.or_eq_true] at hc
      rcases hc with h | h
      · obtain ⟨t, pos, path⟩ := e
        cases t with
        | token k t => cases hn
        | node k cs =>
          have : k = .ERROR := by simpa [nodeOf] using h
          subst this
          exact ⟨rfl, rfl⟩
      · exact hroot e hin (by simpa using h)
    refine ⟨hn, mkIndent a (placeBefore config e), ?_, ?_⟩
    · show indentEnter config e _ = _
      unfold indentEnter
      rw [if_pos hn]
      cases he : (e.kind == .ERROR) with
      | true => rfl
      | false =>
        have hb : directiveAbove e = some [] := by
          unfold skipped at hc
          rw [hnt, ← hkind, he] at hc
          simpa using hc
        rw [ignoreEnter_indent _ hn, hb, offHere_blanket hb]
        rfl
    · show indentLeave config e _ = _
      unfold indentLeave
      rw [if_pos hn, addsLevel_eq config e hn, addsSubsteps_eq e hn, hadd.1, hadd.2,
        ignoreLeave_indent _ hn, isSensitiveTag_eq]
      have h1 := flag_skip (p := sensitiveTag) ho hc (flagBefore skipped sensitiveTag e)
      have h2 := flag_skip (p := offHere) ho hc
        (flagBefore skipped offHere e)
      unfold mkIndent placeAfter placeBefore
      dsimp only
      rw [← h1, ← h2]
      simp
  enter := fun e a _ ho hc => by
    show indentEnter config e _ = _
    unfold indentEnter
    cases hn : e.isNode with
    | true =>
      obtain ⟨he, hb⟩ := skipped_parts hn hc
      have hnt : e.tree.isNode = true := hn
      rw [he, ignoreEnter_indent _ hn, hb, addsLevel_eq config e hn, addsSubsteps_eq e hn, isSensitiveTag_eq]
      unfold indentStep mkIndent placeIn placeBefore
      rw [hnt]
      dsimp only
      simp only [if_true, Bool.false_eq_true, if_false]
      congr 3
      · split <;> rfl
      · cases sensitiveTag e <;> rfl
    | false =>
      have hnt : e.tree.isNode = false := hn
      obtain ⟨h1, h2, h3⟩ := indents_token (config := config) hn
      have h4 := offHere_token hn
      have hk : (e.kind == .TK_LINE_BREAK) = isTokenOf .TK_LINE_BREAK e.tree := by
        unfold Elem.kind
        cases ht : e.tree with
        | token k t => rfl
        | node k cs => rw [ht] at hnt; cases hnt
      have hoff : indentOff e = (flagBefore skipped offHere e ||
          flagBefore skipped sensitiveTag e) := by
        unfold indentOff
        rw [flagAt_eq, flagAt_eq, h3, h4, Bool.false_or, Bool.false_or]
      unfold indentStep mkIndent placeIn placeBefore
      rw [h1, h2, h3, h4, hnt, hk, hoff]
      dsimp only
      simp only [Bool.false_eq_true, if_false, Bool.false_or, Nat.add_zero]
      cases isTokenOf .TK_LINE_BREAK e.tree <;>
        cases flagBefore skipped offHere e <;>
        cases flagBefore skipped sensitiveTag e <;> cases a.1 <;> simp
  leave := fun e a _ ho hc => by
    show indentLeave config e _ = _
    rw [foldl_place]
    have h1 := flag_leave (p := sensitiveTag) ho hc (flagBefore skipped sensitiveTag e)
    have h2 := flag_leave (p := offHere) ho hc
      (flagBefore skipped offHere e)
    unfold indentLeave
    cases hn : e.isNode with
    | true =>
      rw [addsLevel_eq config e hn, addsSubsteps_eq e hn, ignoreLeave_indent _ hn,
        isSensitiveTag_eq]
      unfold mkIndent placeAfter placeIn placeBefore
      dsimp only
      rw [← h1, ← h2]
      have hlt : (levelOf config e + (if indents config e then 1 else 0) == 0) = false ∨
          indents config e = false := by
        cases indents config e
        · exact .inr rfl
        · exact .inl (by simp)
      have hg : ((indents config e &&
          levelOf config e + (if indents config e then 1 else 0) == 0) ||
          decide (alignmentOf e + alignment e < alignment e)) = false := by
        rcases hlt with h | h
        · rw [h]; simp
        · rw [h]; simp
      rw [hg]
      simp only [if_true, Bool.false_eq_true, if_false, Nat.add_sub_cancel]
      congr 3
      cases indents config e <;> simp
    | false =>
      obtain ⟨g1, g2, g3⟩ := indents_token (config := config) hn
      have g4 := offHere_token hn
      unfold mkIndent placeAfter placeIn placeBefore
      dsimp only
      rw [← h1, ← h2, g1, g2, g3, g4]
      simp
  child := fun e l c r _ _ _ h => by
    rw [foldl_place]
    have hc : c ∈ e.childrenWithTokens := by rw [h]; simp
    have hanc : c.ancestors = e.chain := by
      obtain ⟨t, pos, path⟩ := e
      cases t with
      | token k t => simp [Elem.childrenWithTokens] at hc
      | node k cs =>
        simpa using child_ancestors path k pos cs [] pos c
          (by simpa [Elem.childrenWithTokens] using hc)
    unfold placeBefore placeIn
    dsimp only
    rw [flagBefore_child h, flagBefore_child h]
    congr 1
    · unfold levelOf
      rw [hanc, Elem.chain, List.filter_cons]
      split <;> simp [*]
    · unfold alignmentOf
      rw [hanc, Elem.chain, List.map_cons, List.sum_cons, Nat.add_comm]

/-- C34: the counters of the indentation rule never become negative (the model has an error for
that) and are zero at the end. -/
theorem C34_balanced (config : Config) (root : Tree) (hroot : NoBlanketBeforeIndent config root) :
    ∃ s, (Elem.root root).walk { enter := indentEnter config, leave := indentLeave config }
        ⟨true, 0, 0, false, false, []⟩ = .ok s ∧ s.level = 0 ∧ s.substeps = 0 := by
  have h := walk_scope (indent_scope config root hroot) (true, [])
  exact ⟨_, h, rfl, rfl⟩

/-! ## The findings -/

/-- Is the previous token (if any) a line break? -/
def afterBreak : Option Elem → Bool
  | none => true
  | some b => isTokenOf .TK_LINE_BREAK b.tree

/-- The findings on a token that begins a line. -/
def lineFindings (config : Config) (t : Elem) : List CheckResult :=
  if indentOff t then [] else firstTokenInLine config t (levelOf config t) (alignmentOf t)

theorem foldl_tokens (config : Config) : ∀ (l : List Elem) (a : IndentAcc),
    l.foldl (fun a c => indentStep config c a) a =
      (l.filter (fun e => !e.tree.isNode)).foldl (fun a c => indentStep config c a) a
  | [], a => rfl
  | c :: l, a => by
    cases h : c.tree.isNode with
    | true =>
      rw [List.filter_cons_of_neg (by simp [h]), List.foldl_cons, ← foldl_tokens config l]
      unfold indentStep; rw [if_pos h]
    | false =>
      rw [List.filter_cons_of_pos (by simp [h]), List.foldl_cons, List.foldl_cons,
        foldl_tokens config l]

theorem foldl_lines (config : Config) : ∀ (l : List Elem) (prev : Option Elem)
    (rs : List CheckResult), (∀ e ∈ l, e.tree.isNode = false) →
    (l.foldl (fun a c => indentStep config c a) (afterBreak prev, rs)).2 =
      rs ++ ((((prev :: l.map some).zip l).filter (fun p =>
        !isTokenOf .TK_LINE_BREAK p.2.tree && afterBreak p.1)).map (·.2)).flatMap
          (lineFindings config)
  | [], prev, rs, _ => by simp
  | c :: l, prev, rs, h => by
    have hc : c.tree.isNode = false := h c List.mem_cons_self
    have hl : ∀ e ∈ l, e.tree.isNode = false := fun e he => h e (List.mem_cons_of_mem _ he)
    rw [List.foldl_cons]
    have hstep : indentStep config c (afterBreak prev, rs) =
        (afterBreak (some c), rs ++ (if !isTokenOf .TK_LINE_BREAK c.tree && afterBreak prev then
          lineFindings config c else [])) := by
      unfold indentStep lineFindings afterBreak
      rw [if_neg (by rw [hc]; exact Bool.false_ne_true)]
      cases hb : isTokenOf .TK_LINE_BREAK c.tree with
      | true => simp [hb]
      | false =>
        cases indentOff c <;> cases prev <;> simp [hb]
    rw [hstep, foldl_lines config l (some c) _ hl]
    simp only [List.map_cons, List.zip_cons_cons, List.filter_cons]
    cases (!isTokenOf .TK_LINE_BREAK c.tree && afterBreak prev) <;> simp

/-- The findings of the indentation rule: those on the tokens that begin a line. -/
theorem indentation_findings (ctx : Ctx) (root : Tree)
    (hroot : NoBlanketBeforeIndent ctx.config root) :
    indentation.checkRoot ctx (Elem.root root) =
      .ok ((lineStarts (visibleTokens root)).flatMap (lineFindings ctx.config)) := by
  have h := walk_scope (indent_scope ctx.config root hroot) (true, [])
  have h' : (Elem.root root).walk
      { enter := indentEnter ctx.config, leave := indentLeave ctx.config }
      ⟨true, 0, 0, false, false, []⟩ = _ := h
  unfold indentation
  dsimp only
  rw [h']
  dsimp only [mkIndent]
  rw [foldl_tokens]
  have hl := foldl_lines ctx.config (visibleTokens root) none []
    (fun e he => by simpa using (List.mem_filter.mp he).2)
  unfold visibleTokens at hl
  have hb : afterBreak none = true := rfl
  rw [hb] at hl
  rw [hl]
  simp only [List.nil_append]
  rfl

/-- The whitespace at the beginning of a line that begins with a token. -/
def leading (t : Elem) : Text := if isTokenOf .TK_WHITESPACE t.tree then t.tree.text else []

/-- The whitespace that is expected: the levels in the configured chars, then the alignment. -/
def expected (config : Config) (t : Elem) : Text :=
  List.replicate (levelOf config t * config.indentationCount) config.indentationMode.char ++
    List.replicate (alignmentOf t) ' '

/-- The finding for a line: the whitespace at its beginning is to be replaced. -/
def indentFinding (config : Config) (t : Elem) : CheckResult :=
  { rule := "indentation".toList, severity := .help,
    suggestions := [⟨⟨t.start, t.start + byteLen (leading t)⟩, expected config t⟩],
    primary := some ⟨t.start, t.start + byteLen (leading t)⟩ }

theorem lineFindings_eq (config : Config) (hcount : 0 < config.indentationCount) (t : Elem)
    (ht : t.tree.isNode = false) (hoff : indentOff t = false) :
    lineFindings config t =
      if leading t = expected config t then [] else [indentFinding config t] := by
  unfold lineFindings firstTokenInLine
  rw [hoff]
  have hk : (t.kind == .TK_WHITESPACE) = isTokenOf .TK_WHITESPACE t.tree := by
    unfold Elem.kind
    cases h : t.tree with
    | token k s => rfl
    | node k cs => rw [h] at ht; cases ht
  rw [hk]
  have he : expectedIndent config (levelOf config t) (alignmentOf t) = expected config t := rfl
  rw [he]
  unfold indentFinding leading
  cases isTokenOf .TK_WHITESPACE t.tree with
  | true =>
    simp only [Bool.false_eq_true, if_false, if_true]
    have ht' : t.tree.text = t.text := rfl
    rw [ht']
    by_cases hx : t.text = expected config t
    · rw [if_pos hx, if_neg (by simp [hx])]
    · rw [if_neg hx, if_pos (by simpa using hx)]
      rfl
  | false =>
    simp only [Bool.false_eq_true, if_false]
    have hnil : ([] = expected config t) ↔ ¬ (decide (levelOf config t > 0) ||
        decide (alignmentOf t > 0)) = true := by
      unfold expected
      rw [eq_comm, List.append_eq_nil_iff, List.replicate_eq_nil_iff, List.replicate_eq_nil_iff,
        Nat.mul_eq_zero]
      simp only [Bool.or_eq_true, decide_eq_true_eq]
      omega
    by_cases hx : [] = expected config t
    · rw [if_pos hx, if_neg (hnil.mp hx)]
    · rw [if_neg hx, if_pos (by
        cases h : (decide (levelOf config t > 0) || decide (alignmentOf t > 0)) with
        | true => rfl
        | false => exact absurd (hnil.mpr (by rw [h]; exact Bool.false_ne_true)) hx)]
      rfl

/-- Outside of tags in which whitespace matters and of nodes for which a directive switches off the
rule, the flags are off. -/
theorem C35_not_off_outside (t : Elem) (h : ∀ a ∈ t.chain, sensitiveTag a = false ∧
    switchesOff "indentation".toList a = false) : indentOff t = false := by
  unfold indentOff
  rw [Bool.or_eq_false_iff]
  refine ⟨?_, ?_⟩
  · cases hf : flagAt skipped offHere t with
    | false => rfl
    | true =>
      obtain ⟨a, ha, hp⟩ := List.any_eq_true.mp (flagAt_chain skipped offHere t.path t.tree t.start hf)
      have := (h a ha).2
      unfold offHere at hp
      rw [hp] at this; cases this
  · cases hf : flagAt skipped sensitiveTag t with
    | false => rfl
    | true =>
      obtain ⟨a, ha, hp⟩ :=
        List.any_eq_true.mp (flagAt_chain skipped sensitiveTag t.path t.tree t.start hf)
      have := (h a ha).1
      rw [hp] at this; cases this

theorem mem_lineStarts_token {root : Tree} {t : Elem} (h : t ∈ lineStarts (visibleTokens root)) :
    t.tree.isNode = false := by
  unfold lineStarts at h
  obtain ⟨p, hp, rfl⟩ := List.mem_map.mp h
  have := (List.of_mem_zip (List.mem_filter.mp hp).1).2
  simpa using (List.mem_filter.mp this).2

/-- C35: the findings of the indentation rule, line by line. Of the lines on which the rule is not off
(`C35_not_off_outside`: those outside of tags in which whitespace matters and of ignored nodes) exactly
those are reported whose whitespace differs from what is expected, and the suggestion replaces exactly
that whitespace. (Missing from the claim: an
indentation count of zero, see `C35_count_zero`.) -/
theorem C35_indentation_partial (ctx : Ctx) (root : Tree)
    (hroot : NoBlanketBeforeIndent ctx.config root) (hcount : 0 < ctx.config.indentationCount) :
    indentation.checkRoot ctx (Elem.root root) =
      .ok (((lineStarts (visibleTokens root)).filter (fun t => !indentOff t &&
        leading t != expected ctx.config t)).map (indentFinding ctx.config)) := by
  rw [indentation_findings ctx root hroot]
  congr 1
  have : ∀ l : List Elem, (∀ t ∈ l, t.tree.isNode = false) → l.flatMap (lineFindings ctx.config) =
      (l.filter (fun t => !indentOff t && leading t != expected ctx.config t)).map
        (indentFinding ctx.config) := by
    intro l
    induction l with
    | nil => intro _; rfl
    | cons t l ih =>
      intro h
      rw [List.flatMap_cons, ih (fun t ht => h t (List.mem_cons_of_mem _ ht))]
      cases ho : indentOff t with
      | true =>
        rw [List.filter_cons_of_neg (by rw [ho]; exact Bool.false_ne_true)]
        unfold lineFindings; rw [if_pos ho]; rfl
      | false =>
        rw [lineFindings_eq ctx.config hcount t (h t List.mem_cons_self) ho]
        by_cases hx : leading t = expected ctx.config t
        · rw [if_pos hx, List.filter_cons_of_neg (by rw [ho, hx]; simp)]; rfl
        · rw [if_neg hx, List.filter_cons_of_pos (by
            rw [ho, bne_iff_ne.mpr hx]; rfl)]
          rfl
  exact this _ (fun t ht => mem_lineStarts_token ht)

/-- `NoBlanketBeforeIndent` as a check. -/
theorem noBlanket_of {config : Config} {root : Tree}
    (h : root.elems.all (fun e => directiveAbove e != some [] ||
      (!indents config e && alignment e == 0)) = true) : NoBlanketBeforeIndent config root := by
  intro e he hd
  have := List.all_eq_true.mp h e ((mem_elems_iff _ _).mpr he)
  rw [hd] at this
  simpa using this

/-- A file whose second and third line are reported: there four blanks are expected, here four
blanks and three more to align with the first attribute. -/
example : parsesTo "<p>\n<b id=\"x\"\n   class=\"y\"></b>\n</p>".toList indentSample = true ∧
    NoBlanketBeforeIndent sampleConfig indentSample ∧ 0 < sampleConfig.indentationCount ∧
    Gives (indentation.checkRoot ⟨sampleConfig, false⟩ (Elem.root indentSample)) (fun l =>
      l.map (fun x => (x.primary.map (·.start), x.suggestions.map (·.replaceWith.length))) ==
        [(some 4, [4]), (some 14, [7])]) = true :=
  ⟨indentSample_parsed, noBlanket_of (by decide +kernel), by decide, by decide +kernel⟩

/-- A file with a directive that names no rule: nothing in the tag after it is reported. -/
example : parsesTo "{# ludtwig-ignore #}<p>\n<b></b></p>\n <i></i>".toList blanketSample = true ∧
    NoBlanketBeforeIndent sampleConfig blanketSample ∧
    Gives (indentation.checkRoot ⟨sampleConfig, false⟩ (Elem.root blanketSample)) (fun l =>
      l.map (fun x => x.primary.map (·.start)) == [some 36]) = true :=
  ⟨blanketSample_parsed, noBlanket_of (by decide +kernel), by decide +kernel⟩

/-- C35 is false if the configured indentation count is zero: no whitespace is expected at the
beginning of the line of `<b`, there is none, but the line is reported. -/
theorem C35_count_zero :
    let config := { sampleConfig with indentationCount := 0 }
    parsesTo "<p>\n<b id=\"x\"\n   class=\"y\"></b>\n</p>".toList indentSample = true ∧
    ((lineStarts (visibleTokens indentSample)).filter (fun t => t.start == 4)).map
      (fun t => (leading t, expected config t, indentOff t)) = [([], [], false)] ∧
    Gives (indentation.checkRoot ⟨config, false⟩ (Elem.root indentSample)) (fun l =>
      l.any (fun x => x.primary.map (·.start) == some 4)) = true :=
  ⟨indentSample_parsed, by decide +kernel, by decide +kernel⟩

/-- The condition of C34 is needed: on this tree (not one that the parser makes) the level is
decreased for a body that was not entered. -/
theorem C34_condition_needed :
    (match indentation.checkRoot ⟨sampleConfig, false⟩ (Elem.root (.node .ROOT
        [.node .LUDTWIG_DIRECTIVE_IGNORE [], .node .BODY []])) with
      | .ok _ => false
      | .error p => p == .subtractOverflow) = true := by
  decide +kernel

end Ludtwig.Rules
