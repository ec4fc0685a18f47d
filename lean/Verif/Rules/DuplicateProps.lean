import Verif.Syntax.Scoped
import Verif.Rules.FilterProps

/-! # Duplicate blocks and ids: property C39 -/

namespace Ludtwig.Rules

open Cli

/-! ## Specification -/

/-- The rule names of the `ludtwig-ignore` directive that is the closest node before a node among its
siblings; `none` without such a directive. -/
def directiveAbove (e : Elem) : Option (List RuleName) :=
  match e.path with
  | [] => none
  | f :: _ =>
    match (f.before.filter Tree.isNode).getLast? with
    | some (.node .LUDTWIG_DIRECTIVE_IGNORE children) => some (directiveNames children)
    | _ => none

/-- A node that the rules with an own traversal skip: an ERROR node or a node after a directive that
names no rule. -/
def skipped (e : Elem) : Bool :=
  e.tree.isNode && (nodeOf .ERROR e.tree || directiveAbove e == some [])

/-- A node for which a directive switches off a rule. -/
def switchesOff (name : RuleName) (e : Elem) : Bool :=
  e.tree.isNode && ((directiveAbove e).getD []).contains name

/-- The elements that a rule with an own traversal considers: not inside of a skipped node, and the
rule is not switched off. -/
def considered (name : RuleName) (root : Tree) : List Elem :=
  ((Elem.root root).reached skipped).filter (fun e => !flagAt skipped (switchesOff name) e)

/-- The occurrences that are not the first ones of their text, each with the first one. -/
def laterOnes : List Elem → List Elem → List (Elem × Elem)
  | _, [] => []
  | seen, x :: l =>
    (match seen.find? (fun y => y.tree.text == x.tree.text) with
      | some first => [(x, first)]
      | none => []) ++ laterOnes (seen ++ [x]) l

/-- The finding for a later occurrence. -/
def duplicateFinding (name : RuleName) (severity : Severity) (p : Elem × Elem) : CheckResult :=
  { rule := name, severity := severity, suggestions := [], primary := some p.1.range,
    secondary := [p.2.range] }

/-- `n` is the name of the block `e`: the first word of its first starting tag. -/
def BlockName (e n : Elem) : Prop :=
  nodeOf .TWIG_BLOCK e.tree = true ∧ ∃ st, FirstChild (nodeOf .TWIG_STARTING_BLOCK) e st ∧
    FirstChild (isTokenOf .TK_WORD) st n

/-- `n` is the content of the value of the attribute `e`, which is named `id`, if the content is
not empty and contains no node. -/
def IdValue (e n : Elem) : Prop :=
  nodeOf .HTML_ATTRIBUTE e.tree = true ∧
    (∃ w, FirstChild (isTokenOf .TK_WORD) e w ∧ w.tree.text = "id".toList) ∧
    (∃ v, FirstChild (nodeOf .HTML_STRING) e v ∧ FirstChild (nodeOf .HTML_STRING_INNER) v n) ∧
    (∀ t ∈ n.tree.subtrees, t.isNode = false) ∧ n.tree.text ≠ []

/-! ## Directives -/

theorem prevSibling_tree (e : Elem) : e.prevSibling.map (·.tree) =
    match e.path with | [] => none | f :: _ => (f.before.filter Tree.isNode).getLast? := by
  have h := siblingsBefore_tree e
  rw [Elem.prevSibling, ← List.getLast?_map]
  have : (e.siblingsBefore.filter (·.isNode)).map (·.tree) =
      (e.siblingsBefore.map (·.tree)).filter Tree.isNode := by
    rw [List.filter_map]; rfl
  rw [this, h]
  cases e.path <;> rfl

theorem prevDirective_eq (e : Elem) :
    (e.prevSibling.bind (fun p => p.cast .LUDTWIG_DIRECTIVE_IGNORE)).map (·.directiveRules) =
      directiveAbove e := by
  have h := prevSibling_tree e
  unfold directiveAbove
  cases hp : e.path with
  | nil =>
    rw [hp] at h
    cases hq : e.prevSibling with
    | none => rfl
    | some p => rw [hq] at h; simp at h
  | cons f fs =>
    rw [hp] at h
    simp only at h ⊢
    rw [← h]
    cases hq : e.prevSibling with
    | none => rfl
    | some p =>
      obtain ⟨t, pos, path⟩ := p
      cases t with
      | token k t => simp [Elem.cast, Elem.isNode, Tree.isNode]
      | node k cs =>
        by_cases hk : k = .LUDTWIG_DIRECTIVE_IGNORE
        · subst hk
          simp [Elem.cast, Elem.isNode, Tree.isNode, Elem.kind, Tree.kind, directiveRules_eq,
            Tree.subtrees]
        · simp [Elem.cast, Elem.isNode, Tree.isNode, Elem.kind, Tree.kind, hk]

theorem ignoreEnter_eq (name : RuleName) (b : Bool) (e : Elem) :
    ignoreEnter name b e =
      (((directiveAbove e).getD []).contains name || b, directiveAbove e == some []) := by
  rw [← prevDirective_eq]
  unfold ignoreEnter
  cases e.prevSibling with
  | none => rfl
  | some p =>
    cases hc : p.cast .LUDTWIG_DIRECTIVE_IGNORE with
    | none => simp only [hc, Option.bind_some, Option.map_none, Option.getD_none]; rfl
    | some d =>
      simp only [Option.bind_some, hc, Option.map_some, Option.getD_some]
      have : (d.directiveRules.any fun r => r == name) = d.directiveRules.contains name := by
        rw [Bool.eq_iff_iff]; simp
      rw [this]
      cases hd : d.directiveRules with
      | nil => simp
      | cons a l =>
        cases (a :: l).contains name <;> simp

theorem ignoreLeave_eq (name : RuleName) (b : Bool) (e : Elem) :
    ignoreLeave name b e = if ((directiveAbove e).getD []).contains name then false else b := by
  rw [← prevDirective_eq]
  unfold ignoreLeave
  cases e.prevSibling with
  | none => rfl
  | some p =>
    cases hc : p.cast .LUDTWIG_DIRECTIVE_IGNORE with
    | none => simp only [hc, Option.bind_some, Option.map_none, Option.getD_none]; rfl
    | some d =>
      simp only [Option.bind_some, hc, Option.map_some, Option.getD_some]
      have : (d.directiveRules.any fun r => r == name) = d.directiveRules.contains name := by
        rw [Bool.eq_iff_iff]; simp
      rw [this]

/-! ## The traversal -/

/-- The accumulator of the duplicate rules. -/
abbrev DuplicateAcc := List (Text × TextRange) × List CheckResult

/-- The step of the duplicate rules on the accumulator. -/
def duplicateAcc (name : RuleName) (severity : Severity) (n : Option Elem) (a : DuplicateAcc) :
    DuplicateAcc :=
  match n with
  | none => a
  | some n =>
    match a.1.lookup n.text with
    | some first => (a.1, a.2 ++ [{ result name severity n.range with secondary := [first] }])
    | none => ((n.text, n.range) :: a.1, a.2)

/-- The step on an element: nothing where the rule is switched off. -/
def duplicateAt (name : RuleName) (severity : Severity) (nameOf : Elem → Option Elem) (e : Elem)
    (a : DuplicateAcc) : DuplicateAcc :=
  if flagAt skipped (switchesOff name) e then a else duplicateAcc name severity (nameOf e) a

theorem duplicateStep_eq (name : RuleName) (severity : Severity) (n : Elem) (s : DuplicateState) :
    duplicateStep name severity n.text n.range s =
      ⟨s.isIgnored, (duplicateAcc name severity (some n) (s.table, s.results)).1,
        (duplicateAcc name severity (some n) (s.table, s.results)).2⟩ := by
  unfold duplicateStep duplicateAcc
  dsimp only
  cases s.table.lookup n.text <;> rfl

theorem switchesOff_token {name : RuleName} {e : Elem} (h : e.isNode = false) :
    switchesOff name e = false := by
  unfold switchesOff
  have : e.tree.isNode = false := h
  rw [this]; rfl

theorem skipped_token {e : Elem} (h : e.isNode = false) : skipped e = false := by
  unfold skipped
  have : e.tree.isNode = false := h
  rw [this]; rfl

/-- The traversal of a duplicate rule. -/
theorem duplicate_scope (name : RuleName) (severity : Severity) (nameOf : Elem → Option Elem)
    (V : Visitor RulePanic DuplicateState) (root : Tree)
    (htoken : ∀ e s, e.isNode = false → V.enter e s = .ok (s, false) ∧ V.leave e s = .ok s)
    (hname : ∀ e, e.isNode = false → nameOf e = none)
    (hskip : ∀ e s, e.isNode = true → skipped e = true → ∃ b, V.enter e s = .ok (⟨b, s.table, s.results⟩, true) ∧
      (b = s.isIgnored ∨ ((directiveAbove e).getD []).contains name = true))
    (henter : ∀ e s, e.isNode = true → skipped e = false → V.enter e s =
      .ok (let b := switchesOff name e || s.isIgnored
        let a := if b then (s.table, s.results) else
          duplicateAcc name severity (nameOf e) (s.table, s.results)
        ⟨b, a.1, a.2⟩, false))
    (hleave : ∀ e s, e.isNode = true → V.leave e s =
      .ok { s with isIgnored := ignoreLeave name s.isIgnored e }) :
    Scope V (fun (a : DuplicateAcc) b => (⟨b, a.1, a.2⟩ : DuplicateState)) skipped
      (flagBefore skipped (switchesOff name))
      (fun e b => switchesOff name e || b)
      (fun e b => b && !touchesBy skipped (switchesOff name) e)
      (duplicateAt name severity nameOf) root where
  skip := fun e a _ ho hc => by
    have hn : e.isNode = true := by
      cases h : e.isNode with
      | true => rfl
      | false => rw [skipped_token h] at hc; cases hc
    refine ⟨hn, ?_⟩
    obtain ⟨b, h1, h2⟩ := hskip e ⟨flagBefore skipped (switchesOff name) e, a.1, a.2⟩ hn hc
    refine ⟨_, h1, ?_⟩
    rw [hleave _ _ hn, ← flag_skip ho hc, ignoreLeave_eq]
    have hs : switchesOff name e = ((directiveAbove e).getD []).contains name := by
      unfold switchesOff
      have : e.tree.isNode = true := hn
      rw [this]; rfl
    rw [hs]
    rcases h2 with h2 | h2
    · rw [h2]
    · rw [h2]; rfl
  enter := fun e a _ ho hc => by
    cases hn : e.isNode with
    | true =>
      rw [henter _ _ hn hc]
      unfold duplicateAt
      rw [flagAt_eq]
    | false =>
      rw [(htoken _ _ hn).1, switchesOff_token hn]
      unfold duplicateAt duplicateAcc
      rw [hname e hn]
      simp
  leave := fun e a _ ho hc => by
    have := flag_leave (p := switchesOff name) ho hc (flagBefore skipped (switchesOff name) e)
    rw [← this]
    cases hn : e.isNode with
    | true =>
      rw [hleave _ _ hn, ignoreLeave_eq]
      have hs : switchesOff name e = ((directiveAbove e).getD []).contains name := by
        unfold switchesOff
        have : e.tree.isNode = true := hn
        rw [this]; rfl
      rw [hs]
    | false =>
      rw [(htoken _ _ hn).2, switchesOff_token hn]
      simp
  child := fun e l c r _ _ _ h => flagBefore_child h

/-! ## The table -/

theorem foldl_considered (name : RuleName) (severity : Severity) (nameOf : Elem → Option Elem) :
    ∀ (l : List Elem) (a : DuplicateAcc),
      l.foldl (fun a c => duplicateAt name severity nameOf c a) a =
        ((l.filter (fun e => !flagAt skipped (switchesOff name) e)).filterMap nameOf).foldl
          (fun a n => duplicateAcc name severity (some n) a) a
  | [], a => rfl
  | c :: l, a => by
    simp only [List.foldl_cons]
    rw [foldl_considered name severity nameOf l]
    unfold duplicateAt
    cases hf : flagAt skipped (switchesOff name) c with
    | true => rw [List.filter_cons_of_neg (by simp [hf])]; rfl
    | false =>
      rw [List.filter_cons_of_pos (by simp [hf])]
      cases hn : nameOf c with
      | none => rw [List.filterMap_cons_none hn]; rfl
      | some n => rw [List.filterMap_cons_some hn]; rfl

theorem lookup_append (table : List (Text × TextRange)) (n : Elem) (seen : List Elem)
    (h : ∀ k, table.lookup k = (seen.find? (fun y => y.tree.text == k)).map (·.range))
    (hn : table.lookup n.text = none) (k : Text) :
    ((n.text, n.range) :: table).lookup k =
      ((seen ++ [n]).find? (fun y => y.tree.text == k)).map (·.range) := by
  rw [List.find?_append, List.lookup_cons]
  by_cases hk : k = n.text
  · subst hk
    rw [h] at hn
    have : seen.find? (fun y => y.tree.text == n.text) = none := by
      cases hf : seen.find? (fun y => y.tree.text == n.text) with
      | none => rfl
      | some y => rw [hf] at hn; cases hn
    rw [this]
    simp [Elem.text]
  · have hb : (k == n.text) = false := by simpa using hk
    have hb' : (n.tree.text == k) = false := beq_eq_false_iff_ne.mpr (fun h => hk h.symm)
    rw [hb]
    simp only [h]
    rw [List.find?_cons, hb']
    cases seen.find? (fun y => y.tree.text == k) <;> rfl

theorem foldl_later (name : RuleName) (severity : Severity) : ∀ (l seen : List Elem)
    (table : List (Text × TextRange)) (results : List CheckResult),
    (∀ k, table.lookup k = (seen.find? (fun y => y.tree.text == k)).map (·.range)) →
    (l.foldl (fun a n => duplicateAcc name severity (some n) a) (table, results)).2 =
      results ++ (laterOnes seen l).map (duplicateFinding name severity)
  | [], seen, table, results, _ => by simp [laterOnes]
  | n :: l, seen, table, results, h => by
    simp only [List.foldl_cons, laterOnes, List.map_append]
    have hl := h n.text
    cases hf : seen.find? (fun y => y.tree.text == n.tree.text) with
    | some first =>
      have hl' : table.lookup n.text = some first.range := by
        rw [hl]; show (seen.find? (fun y => y.tree.text == n.tree.text)).map _ = _
        rw [hf]; rfl
      have hstep : duplicateAcc name severity (some n) (table, results) =
          (table, results ++ [duplicateFinding name severity (n, first)]) := by
        unfold duplicateAcc; simp only [hl']; rfl
      rw [hstep, foldl_later name severity l (seen ++ [n])]
      · simp
      · intro k
        rw [h k, List.find?_append]
        by_cases hk : k = n.tree.text
        · subst hk; rw [hf]; rfl
        · have hb' : (n.tree.text == k) = false := beq_eq_false_iff_ne.mpr (fun h => hk h.symm)
          rw [List.find?_cons, hb']
          cases seen.find? (fun y => y.tree.text == k) <;> rfl
    | none =>
      have hl' : table.lookup n.text = none := by
        rw [hl]; show (seen.find? (fun y => y.tree.text == n.tree.text)).map _ = _
        rw [hf]; rfl
      have hstep : duplicateAcc name severity (some n) (table, results) =
          ((n.text, n.range) :: table, results) := by
        unfold duplicateAcc; simp only [hl']
      rw [hstep, foldl_later name severity l (seen ++ [n])]
      · simp
      · exact fun k => lookup_append table n seen h hl' k

/-- The findings of a duplicate rule. -/
theorem duplicate_findings (name : RuleName) (severity : Severity) (nameOf : Elem → Option Elem)
    (V : Visitor RulePanic DuplicateState) (root : Tree)
    (S : Scope V (fun (a : DuplicateAcc) b => (⟨b, a.1, a.2⟩ : DuplicateState)) skipped
      (flagBefore skipped (switchesOff name))
      (fun e b => switchesOff name e || b)
      (fun e b => b && !touchesBy skipped (switchesOff name) e)
      (duplicateAt name severity nameOf) root) :
    ∃ s, (Elem.root root).walk V ⟨false, [], []⟩ = .ok s ∧
      s.results = (laterOnes [] ((considered name root).filterMap nameOf)).map
        (duplicateFinding name severity) := by
  have h := walk_scope S ([], [])
  refine ⟨_, h, ?_⟩
  simp only [foldl_considered]
  rw [foldl_later name severity _ [] [] [] (fun k => rfl)]
  rfl

/-! ## The blocks -/

theorem blockName_iff (e n : Elem) :
    (e.cast .TWIG_BLOCK).bind (·.blockName) = some n ↔ BlockName e n := by
  rw [Option.bind_eq_some_iff]
  unfold BlockName
  constructor
  · rintro ⟨b, hb, hn⟩
    obtain ⟨h1, rfl⟩ := (nodeOf_cast _ _ _).mp hb
    refine ⟨h1, ?_⟩
    have hn : Option.bind (Elem.startingBlock _) (·.word) = some n := hn
    rw [Option.bind_eq_some_iff] at hn
    simpa only [Elem.startingBlock, child_iff, Elem.word, token_iff] using hn
  · rintro ⟨h1, h2⟩
    refine ⟨e, (nodeOf_cast _ _ _).mpr ⟨h1, rfl⟩, ?_⟩
    show e.startingBlock.bind (·.word) = some n
    rw [Option.bind_eq_some_iff]
    simpa only [Elem.startingBlock, child_iff, Elem.word, token_iff] using h2

theorem cast_other {k : SyntaxKind} {e : Elem} (h : nodeOf k e.tree = false) : e.cast k = none := by
  unfold Elem.cast
  rw [isNode_kind, h]; rfl

theorem skipped_parts {e : Elem} (hn : e.isNode = true) (h : skipped e = false) :
    (e.kind == .ERROR) = false ∧ (directiveAbove e == some []) = false := by
  unfold skipped at h
  have h1 : e.tree.isNode = true := hn
  rw [h1, Bool.true_and, Bool.or_eq_false_iff] at h
  refine ⟨?_, h.2⟩
  have := isNode_kind .ERROR e
  rw [hn, Bool.true_and] at this
  rw [this]; exact h.1

theorem switchesOff_node {name : RuleName} {e : Elem} (hn : e.isNode = true) :
    switchesOff name e = ((directiveAbove e).getD []).contains name := by
  unfold switchesOff
  have : e.tree.isNode = true := hn
  rw [this]; rfl

/-- C39 for blocks: exactly the blocks that are considered and have the name of an earlier such block
are reported, each with the first one. The considered blocks are those the traversal reaches while
its flag is off. -/
theorem C39_blocks (ctx : Ctx) (root : Tree) (nameOf : Elem → Option Elem)
    (hname : ∀ e n, nameOf e = some n ↔ BlockName e n) :
    twigBlockDuplicate.checkRoot ctx (Elem.root root) =
      .ok ((laterOnes [] ((considered "twig-block-duplicate".toList root).filterMap nameOf)).map
        (duplicateFinding "twig-block-duplicate".toList .error)) := by
  have hnameOf : ∀ e, nameOf e = (e.cast .TWIG_BLOCK).bind (·.blockName) := by
    intro e
    apply Option.ext
    intro n
    rw [hname, blockName_iff]
  generalize hnm : "twig-block-duplicate".toList = name
  obtain ⟨s, h1, h2⟩ := duplicate_findings name .error nameOf
    { enter := fun x s => if x.isNode then blockDuplicateEnter x s else .ok (s, false)
      leave := fun x s => if x.isNode then
        .ok { s with isIgnored := ignoreLeave name s.isIgnored x } else .ok s } root
    (by
      refine duplicate_scope name .error nameOf _ root ?_ ?_ ?_ ?_ ?_
      · intro e s h; simp [h]
      · intro e h
        rw [hnameOf, cast_other]
        · rfl
        · have : e.tree.isNode = false := h
          cases ht : e.tree <;> simp_all [nodeOf, Tree.isNode]
      · intro e s hn hs
        simp only [hn, if_true]
        unfold blockDuplicateEnter
        rw [hnm, ignoreEnter_eq]
        dsimp only
        by_cases hb : (directiveAbove e == some []) = true
        · refine ⟨_, by rw [if_pos hb], ?_⟩
          cases hd : ((directiveAbove e).getD []).contains name
          · exact .inl rfl
          · exact .inr rfl
        · have herr : nodeOf .ERROR e.tree = true := by
            unfold skipped at hs
            simp only [Bool.not_eq_true] at hb
            rw [hb] at hs
            simp only [Bool.or_false, Bool.and_eq_true] at hs
            exact hs.2
          have hk : (e.kind == .ERROR) = true := by
            have := isNode_kind .ERROR e
            rw [hn, Bool.true_and] at this
            rw [this]; exact herr
          have hcast : e.cast .TWIG_BLOCK = none := by
            apply cast_other
            cases ht : e.tree with
            | token k t => rfl
            | node k cs =>
              rw [ht] at herr
              have : k = .ERROR := by simpa [nodeOf] using herr
              subst this; rfl
          rw [if_neg hb, hk, hcast]
          refine ⟨((directiveAbove e).getD []).contains name || s.isIgnored, ?_, ?_⟩
          · split <;> rfl
          · cases hd : ((directiveAbove e).getD []).contains name
            · exact .inl rfl
            · exact .inr rfl
      · intro e s hn hs
        obtain ⟨he, hb⟩ := skipped_parts hn hs
        simp only [hn, if_true]
        unfold blockDuplicateEnter
        rw [hnm, ignoreEnter_eq, switchesOff_node hn, he, hb]
        dsimp only
        rw [if_neg Bool.false_ne_true]
        cases hf : (((directiveAbove e).getD []).contains name || s.isIgnored) with
        | true => simp
        | false =>
          simp only [Bool.false_eq_true, if_false]
          rw [hnameOf]
          cases (e.cast .TWIG_BLOCK).bind (·.blockName) with
          | none => rfl
          | some n => dsimp only; rw [duplicateStep_eq]
      · intro e s hn
        simp [hn])
  unfold twigBlockDuplicate Elem.walkNodes
  dsimp only
  rw [hnm, h1]; dsimp only; rw [h2]

/-! ## The ids -/

theorem staticId_iff (e n : Elem) : staticId e = some n ↔ IdValue e n := by
  unfold staticId IdValue
  constructor
  · intro h
    split at h
    · cases h
    · rename_i attr hattr
      obtain ⟨g1, rfl⟩ := (nodeOf_cast _ _ _).mp hattr
      split at h
      · cases h
      · rename_i w hw
        split at h
        · cases h
        · rename_i hid
          split at h
          · cases h
          · rename_i inner hin
            split at h
            · cases h
            · rename_i hch
              split at h
              · cases h
              · rename_i hne
                cases h
                rw [Option.bind_eq_some_iff] at hin
                simp only [Elem.attributeValue, child_iff, Elem.htmlStringInner] at hin
                refine ⟨g1, ⟨w, (token_iff _ _ _).mp hw, ?_⟩, hin, ?_, ?_⟩
                · simpa [Elem.text] using hid
                · intro t ht
                  rw [← childrenWithTokens_trees] at ht
                  obtain ⟨c, hc, rfl⟩ := List.mem_map.mp ht
                  have hnil : n.children = [] := by simpa using hch
                  unfold Elem.children at hnil
                  rw [List.filter_eq_nil_iff] at hnil
                  simpa [Elem.isNode] using hnil c hc
                · simpa [Elem.text] using hne
  · rintro ⟨g1, ⟨w, hw, hid⟩, hv, hch, hne⟩
    have hcast : e.cast .HTML_ATTRIBUTE = some e := (nodeOf_cast _ _ _).mpr ⟨g1, rfl⟩
    have hword : e.word = some w := (token_iff _ _ _).mpr hw
    have hin : e.attributeValue.bind (·.htmlStringInner) = some n := by
      rw [Option.bind_eq_some_iff]
      simpa only [Elem.attributeValue, child_iff, Elem.htmlStringInner] using hv
    have hnil : n.children = [] := by
      unfold Elem.children
      rw [List.filter_eq_nil_iff]
      intro c hc
      have := hch c.tree (by rw [← childrenWithTokens_trees]; exact List.mem_map_of_mem hc)
      simpa [Elem.isNode] using this
    rw [hcast]; dsimp only
    rw [hword]; dsimp only
    have hwt : w.text = "id".toList := hid
    rw [hwt, hin]; dsimp only
    rw [hnil]
    have hne' : n.text.isEmpty = false := by simpa [Elem.text] using hne
    rw [hne']
    simp

/-- C39 for ids: exactly the static ids that are considered and have the value of an earlier such id
are reported, each with the first one. -/
theorem C39_ids (ctx : Ctx) (root : Tree) (valueOf : Elem → Option Elem)
    (hvalue : ∀ e n, valueOf e = some n ↔ IdValue e n) :
    htmlDuplicateId.checkRoot ctx (Elem.root root) =
      .ok ((laterOnes [] ((considered "html-duplicate-id".toList root).filterMap valueOf)).map
        (duplicateFinding "html-duplicate-id".toList .warning)) := by
  have hvalueOf : ∀ e, valueOf e = staticId e := by
    intro e
    apply Option.ext
    intro n
    rw [hvalue, staticId_iff]
  generalize hnm : "html-duplicate-id".toList = name
  obtain ⟨s, h1, h2⟩ := duplicate_findings name .warning valueOf
    { enter := fun x s => if x.isNode then idDuplicateEnter x s else .ok (s, false)
      leave := fun x s => if x.isNode then
        .ok { s with isIgnored := ignoreLeave name s.isIgnored x } else .ok s } root
    (by
      refine duplicate_scope name .warning valueOf _ root ?_ ?_ ?_ ?_ ?_
      · intro e s h; simp [h]
      · intro e h
        rw [hvalueOf]
        unfold staticId
        rw [cast_other]
        have : e.tree.isNode = false := h
        cases ht : e.tree <;> simp_all [nodeOf, Tree.isNode]
      · intro e s hn hs
        simp only [hn, if_true]
        unfold idDuplicateEnter
        rw [hnm, ignoreEnter_eq]
        dsimp only
        by_cases hk : (e.kind == .ERROR) = true
        · exact ⟨s.isIgnored, by rw [if_pos hk], .inl rfl⟩
        · have hb : (directiveAbove e == some []) = true := by
            have := isNode_kind .ERROR e
            rw [hn, Bool.true_and] at this
            rw [this] at hk
            unfold skipped at hs
            simp only [Bool.not_eq_true] at hk
            rw [hk] at hs
            simp only [Bool.false_or, Bool.and_eq_true] at hs
            exact hs.2
          refine ⟨_, by rw [if_neg hk, if_pos hb], ?_⟩
          cases hd : ((directiveAbove e).getD []).contains name
          · exact .inl rfl
          · exact .inr rfl
      · intro e s hn hs
        obtain ⟨he, hb⟩ := skipped_parts hn hs
        simp only [hn, if_true]
        unfold idDuplicateEnter
        rw [hnm, ignoreEnter_eq, switchesOff_node hn, he, hb]
        dsimp only
        rw [if_neg Bool.false_ne_true, if_neg Bool.false_ne_true]
        cases hf : (((directiveAbove e).getD []).contains name || s.isIgnored) with
        | true => simp
        | false =>
          simp only [Bool.false_eq_true, if_false]
          rw [hvalueOf]
          cases staticId e with
          | none => rfl
          | some n => dsimp only; rw [duplicateStep_eq]
      · intro e s hn
        simp [hn])
  unfold htmlDuplicateId Elem.walkNodes
  dsimp only
  rw [hnm, h1]; dsimp only; rw [h2]

/-! ## Directives that are not nested -/

/-- No node for which a directive switches off a rule is inside of another one. -/
def NotNested (name : RuleName) (root : Tree) : Prop :=
  ∀ e, Elem.In root e → switchesOff name e = true → ∀ a ∈ e.ancestors, switchesOff name a = false

/-- A rule is switched off on an element if a directive switches it off for the element or a node
around it. -/
def offFor (name : RuleName) (e : Elem) : Bool := e.chain.any (switchesOff name)

theorem flag_notNested {name : RuleName} {root : Tree} (h : NotNested name root) :
    ∀ {e : Elem}, Elem.In root e → flagAt skipped (switchesOff name) e = offFor name e := by
  intro e hin
  induction hin with
  | root => simp [flagAt, Elem.root, flagFrom, offFor, Elem.chain, Elem.ancestors, ancestorsFrom]
  | @child q c hq hc ih =>
    obtain ⟨l, r, hlr⟩ := List.append_of_mem hc
    rw [flagAt_eq, flagBefore_child hlr, foldl_flag, ← flagAt_eq, ih]
    have hanc : c.ancestors = q.chain := by
      obtain ⟨t, pos, path⟩ := q
      cases t with
      | token k t => simp [Elem.childrenWithTokens] at hc
      | node k cs =>
        simpa using child_ancestors path k pos cs [] pos c
          (by simpa [Elem.childrenWithTokens] using hc)
    have hoff : offFor name c = (switchesOff name c || offFor name q) := by
      unfold offFor
      rw [Elem.chain, List.any_cons, hanc]
    rw [hoff]
    congr 1
    cases hb : offFor name q with
    | false => rfl
    | true =>
      rw [Bool.true_and, List.all_eq_true]
      intro b hbl
      have hbc : b ∈ q.childrenWithTokens := by rw [hlr]; simp [hbl]
      have hbanc : b.ancestors = q.chain := by
        obtain ⟨t, pos, path⟩ := q
        cases t with
        | token k t => simp [Elem.childrenWithTokens] at hc
        | node k cs =>
          simpa using child_ancestors path k pos cs [] pos b
            (by simpa [Elem.childrenWithTokens] using hbc)
      cases ht : touchesBy skipped (switchesOff name) b with
      | false => rfl
      | true =>
        exfalso
        unfold touchesBy at ht
        rw [List.any_eq_true] at ht
        obtain ⟨d, hd, hp⟩ := ht
        rw [Bool.and_eq_true] at hp
        have hdin : Elem.In root d := elemsAt_in root b.tree b.start b.path d (.child hq hbc) hd
        have hbd : b ∈ d.chain := elemsAt_chain b.tree b.start b.path d hd
        unfold offFor at hb
        rw [List.any_eq_true] at hb
        obtain ⟨a, ha, hpa⟩ := hb
        have hab : a ∈ b.ancestors := by rw [hbanc]; exact ha
        have had : a ∈ d.ancestors := by
          rcases List.mem_cons.mp hbd with rfl | hbd
          · exact hab
          · exact ancestors_trans hab hbd
        have := h d hdin hp.1 a had
        rw [hpa] at this; cases this

/-- Where no directives are nested, the considered elements are those that are not in a skipped node
and not in a node for which a directive switches off the rule. -/
theorem considered_notNested {name : RuleName} {root : Tree} (h : NotNested name root) :
    considered name root =
      root.elems.filter (fun e => e.chain.all (fun a => !skipped a) && !offFor name e) := by
  unfold considered Elem.reached
  rw [List.filter_filter]
  refine List.filter_congr (fun e he => ?_)
  have hin : Elem.In root e := (mem_elems_iff root e).mp he
  rw [flag_notNested h hin, Bool.and_comm]

/-- C39 for blocks, as far as it holds: without nested directives, the blocks outside of ERROR nodes
and ignored nodes. -/
theorem C39_blocks_partial (ctx : Ctx) (root : Tree)
    (hroot : NotNested "twig-block-duplicate".toList root) (nameOf : Elem → Option Elem)
    (hname : ∀ e n, nameOf e = some n ↔ BlockName e n) :
    twigBlockDuplicate.checkRoot ctx (Elem.root root) =
      .ok ((laterOnes [] ((root.elems.filter (fun e => e.chain.all (fun a => !skipped a) &&
          !offFor "twig-block-duplicate".toList e)).filterMap nameOf)).map
        (duplicateFinding "twig-block-duplicate".toList .error)) := by
  rw [C39_blocks ctx root nameOf hname, considered_notNested hroot]

/-- C39 for ids, as far as it holds. -/
theorem C39_ids_partial (ctx : Ctx) (root : Tree)
    (hroot : NotNested "html-duplicate-id".toList root) (valueOf : Elem → Option Elem)
    (hvalue : ∀ e n, valueOf e = some n ↔ IdValue e n) :
    htmlDuplicateId.checkRoot ctx (Elem.root root) =
      .ok ((laterOnes [] ((root.elems.filter (fun e => e.chain.all (fun a => !skipped a) &&
          !offFor "html-duplicate-id".toList e)).filterMap valueOf)).map
        (duplicateFinding "html-duplicate-id".toList .warning)) := by
  rw [C39_ids ctx root valueOf hvalue, considered_notNested hroot]

/-- The second block of `{% block a %}{% endblock %}{% block a %}{% endblock %}` is reported with the
first one. -/
example : parsesTo "{% block a %}{% endblock %}{% block a %}{% endblock %}".toList blocksSample = true ∧
    Gives (twigBlockDuplicate.checkRoot ⟨sampleConfig, false⟩ (Elem.root blocksSample)) (fun l =>
      l.map (fun x => (x.primary.map (·.start), x.secondary.map (·.start))) ==
        [(some 36, [9])]) = true :=
  ⟨blocksSample_parsed, by decide +kernel⟩

/-- Of three equal ids with a directive before the second one the third is reported with the first
one. -/
example : parsesTo
      "<p id=\"a\"></p>{# ludtwig-ignore html-duplicate-id #}<p id=\"a\"></p><p id=\"a\"></p>".toList
      idsSample = true ∧
    Gives (htmlDuplicateId.checkRoot ⟨sampleConfig, false⟩ (Elem.root idsSample)) (fun l =>
      l.map (fun x => (x.primary.map (·.start), x.secondary.map (·.start))) ==
        [(some 73, [7])]) = true :=
  ⟨idsSample_parsed, by decide +kernel⟩

/-- `NotNested` can be met by a tree with a directive. -/
example : NotNested "html-duplicate-id".toList idsSample ∧
    ∃ e, Elem.In idsSample e ∧ switchesOff "html-duplicate-id".toList e = true := by
  have hall : idsSample.elems.all (fun e => !switchesOff "html-duplicate-id".toList e ||
      e.ancestors.all (fun a => !switchesOff "html-duplicate-id".toList a)) = true := by
    decide +kernel
  have hany : idsSample.elems.any (switchesOff "html-duplicate-id".toList) = true := by
    decide +kernel
  refine ⟨?_, ?_⟩
  · intro e he hs a ha
    have := List.all_eq_true.mp hall e ((mem_elems_iff _ _).mpr he)
    rw [hs, Bool.not_true, Bool.false_or, List.all_eq_true] at this
    have := this a ha
    cases h : switchesOff "html-duplicate-id".toList a
    · rfl
    · rw [h] at this; cases this
  · obtain ⟨e, he, hs⟩ := List.any_eq_true.mp hany
    exact ⟨e, (mem_elems_iff _ _).mp he, hs⟩

/-- C39 is false with nested directives: in this file all ids are inside of a tag that a directive
excludes from the rule, but after a second directive inside of that tag the rule is on again and
reports an id. -/
theorem C39_nested_directives :
    parsesTo ("{# ludtwig-ignore html-duplicate-id #}<p>{# ludtwig-ignore html-duplicate-id #}" ++
      "<b></b><i id=\"c\"></i><i id=\"c\"></i></p>").toList nestedIgnoreSample = true ∧
    nestedIgnoreSample.elems.all (fun e => (staticId e).isNone ||
      offFor "html-duplicate-id".toList e) = true ∧
    Gives (htmlDuplicateId.checkRoot ⟨sampleConfig, false⟩ (Elem.root nestedIgnoreSample)) (fun l =>
      l.length == 1) = true :=
  ⟨nestedIgnoreSample_parsed, by decide +kernel, by decide +kernel⟩

end Ludtwig.Rules
