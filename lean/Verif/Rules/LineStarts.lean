import Verif.Rules.ParsedProps
import Verif.Layout.Edits

/-!
# Lines as the indentation rule sees them

The indentation rule does not look into nodes behind directives that name no rule. In a file without
parse errors, a token that begins a line for the rule begins a line of the file nevertheless.
-/

namespace Ludtwig.Rules

open Cli Shape

/-- Is the token reached by the traversal? -/
def seen (t : Elem) : Bool := t.chain.all (fun a => !skipped a)

/-- Is the token a line break? -/
def isBreak (t : Elem) : Bool := isTokenOf .TK_LINE_BREAK t.tree

/-- In a list of tokens, every token that begins a line among the seen ones begins a line. `v` and `a`
say whether the list begins at the beginning of a line, among the seen ones and among all. -/
def TrueLines (vis : Elem → Bool) : Bool → Bool → List Elem → Prop
  | _, _, [] => True
  | v, a, t :: ts =>
    if vis t then (isBreak t = false → v = true → a = true) ∧ TrueLines vis (isBreak t) (isBreak t) ts
    else TrueLines vis v (isBreak t) ts

/-- Is a line break the last of the tokens? -/
def endsBreak (b : Bool) (l : List Elem) : Bool := l.foldl (fun _ t => isBreak t) b

theorem endsBreak_append (b : Bool) (l r : List Elem) :
    endsBreak b (l ++ r) = endsBreak (endsBreak b l) r := by
  simp [endsBreak]

theorem trueLines_append {vis : Elem → Bool} {l r : List Elem} : ∀ {v a : Bool},
    TrueLines vis v a (l ++ r) ↔ TrueLines vis v a l ∧
      TrueLines vis (endsBreak v (l.filter vis)) (endsBreak a l) r := by
  induction l with
  | nil => intro v a; simp [TrueLines, endsBreak]
  | cons t l ih =>
    intro v a
    cases ht : vis t with
    | true => simp [TrueLines, ht, ih, endsBreak, and_assoc]
    | false => simp [TrueLines, ht, ih, endsBreak]

/-- Tokens of which none is seen. -/
theorem trueLines_hidden {vis : Elem → Bool} {l : List Elem} (h : ∀ t ∈ l, vis t = false) :
    ∀ {v a : Bool}, TrueLines vis v a l := by
  induction l with
  | nil => intros; trivial
  | cons t l ih =>
    intro v a
    simp only [TrueLines, h t List.mem_cons_self, Bool.false_eq_true, if_false]
    exact ih (fun t ht => h t (List.mem_cons_of_mem _ ht))

/-- Is the closest node before a place a directive that names no rule? -/
def blanket (before : List Tree) : Bool :=
  match (before.filter Tree.isNode).getLast? with
  | some (.node .LUDTWIG_DIRECTIVE_IGNORE children) => directiveNames children == []
  | _ => false

theorem directiveAbove_blanket (t : Tree) (pos : Nat) (f : Frame) (fs : List Frame) :
    (directiveAbove ⟨t, pos, f :: fs⟩ == some []) = blanket f.before := by
  unfold directiveAbove blanket
  dsimp only
  generalize (f.before.filter Tree.isNode).getLast? = o
  cases o with
  | none => rfl
  | some x =>
    cases x with
    | token k t => rfl
    | node k cs =>
      by_cases hk : k = .LUDTWIG_DIRECTIVE_IGNORE
      · subst hk; simp
      · split
        · rename_i h; cases h; exact absurd rfl hk
        · split
          · rename_i h; cases h; exact absurd rfl hk
          · rfl

theorem blanket_token (before : List Tree) (k : SyntaxKind) (t : Text) :
    blanket (before ++ [.token k t]) = blanket before := by
  simp [blanket, List.filter_append, Tree.isNode]

theorem blanket_node {before : List Tree} {k : SyntaxKind} {cs : List Tree}
    (h : blanket (before ++ [.node k cs]) = true) : k = .LUDTWIG_DIRECTIVE_IGNORE := by
  unfold blanket at h
  rw [List.filter_append] at h
  simp only [List.filter_cons, Tree.isNode, if_true, List.filter_nil, List.getLast?_append,
    List.getLast?_singleton, Option.some_or] at h
  split at h
  · rename_i h'; cases h'; rfl
  · cases h

theorem blanket_mem {before : List Tree} (h : blanket before = true) :
    ∃ cs, .node .LUDTWIG_DIRECTIVE_IGNORE cs ∈ before := by
  unfold blanket at h
  split at h
  · rename_i cs heq
    exact ⟨cs, (List.mem_filter.1 (List.mem_of_getLast? heq)).1⟩
  · cases h

/-- What is needed of a tree; it holds without parse errors. -/
structure Neat (root : Tree) : Prop where
  attached : Attached root
  shape : Conforms production root
  noError : SyntaxKind.ERROR ∉ root.nodeKinds

theorem attachedAll_mem {ts : List Tree} (h : AttachedAll ts) : ∀ t ∈ ts, Attached t := by
  induction ts with
  | nil => simp
  | cons a ts ih =>
    intro t ht
    rcases List.mem_cons.1 ht with rfl | ht
    · exact h.1
    · exact ih h.2 t ht

theorem attached_in {root : Tree} (h : Attached root) {e : Elem} (hin : Elem.In root e) :
    Attached e.tree := by
  induction hin with
  | root => exact h
  | @child q c hq hc ih =>
    unfold Elem.childrenWithTokens at hc
    split at hc
    · cases hc
    · rename_i k cs heq
      rw [heq] at ih
      exact attachedAll_mem ih.2 _ (mem_childElems_tree hc)

theorem nodeKinds_in {root : Tree} {e : Elem} (hin : Elem.In root e) :
    ∀ k ∈ e.tree.nodeKinds, k ∈ root.nodeKinds := by
  induction hin with
  | root => exact fun k h => h
  | @child q c hq hc ih =>
    unfold Elem.childrenWithTokens at hc
    split at hc
    · cases hc
    · rename_i k cs heq
      rw [heq] at ih
      intro k' hk'
      refine ih k' ?_
      have := mem_childElems_tree hc
      clear ih heq hc
      simp only [Tree.nodeKinds, List.mem_cons]
      right
      induction cs with
      | nil => cases this
      | cons x cs ih =>
        simp only [nodeKindsOf, List.mem_append]
        rcases List.mem_cons.1 this with h | h
        · left; rw [← h]; exact hk'
        · exact .inr (ih h)

/-- A directive ends with a token. -/
theorem directive_end {root : Tree} (hn : Neat root) {e : Elem} (hin : Elem.In root e)
    {cs : List Tree} (ht : e.tree = .node .LUDTWIG_DIRECTIVE_IGNORE cs) :
    ∃ l k x, cs = l ++ [.token k x] ∧ k.isTrivia = false := by
  have hw := lang_in hn.shape hin ht
  have hend : ∃ u k, items cs = u ++ [⟨false, k⟩] := by
    rcases hw with ⟨u, v, h, _, ⟨k, _, rfl⟩⟩ | ⟨u, v, h, _, ⟨k, _, rfl⟩⟩ <;> exact ⟨u, k, h⟩
  obtain ⟨u, k, hend⟩ := hend
  have ha := attached_in hn.attached hin
  rw [ht] at ha
  rcases List.eq_nil_or_concat cs with rfl | ⟨l, x, rfl⟩
  · simp [items] at hend
  · rw [List.concat_eq_append] at *
    cases x with
    | node k' ds =>
      rw [items_append] at hend
      have := congrArg List.getLast? hend
      simp [items] at this
    | token k' t =>
      refine ⟨l, k', t, rfl, ?_⟩
      cases hk : k'.isTrivia with
      | false => rfl
      | true =>
        rcases ha.1 l _ [] rfl hk with ⟨_, _, _, h⟩ | ⟨_, h⟩ | ⟨h, _⟩
        · cases h
        · exact absurd h (by decide)
        · cases h

/-- Whitespace is not directly before a node behind a directive. -/
theorem blanket_trivia {root : Tree} (hn : Neat root) {k : SyntaxKind} {start : Nat} {path : List Frame}
    {before ts cs : List Tree} {k' k'' : SyntaxKind} {t : Text}
    (hin : Elem.In root ⟨.node k (before ++ .token k' t :: .node k'' cs :: ts), start, path⟩)
    (hb : blanket before = true) : k'.isTrivia = false := by
  cases hk : k'.isTrivia with
  | false => rfl
  | true =>
    have ha := attached_in hn.attached hin
    rcases ha.1 before _ _ rfl hk with ⟨_, _, _, h⟩ | ⟨h, _⟩ | ⟨h, _⟩
    · cases h
    · cases h
    · subst h
      obtain ⟨ds, hd⟩ := blanket_mem hb
      have hw := lang_in hn.shape hin rfl
      have := lang_mentions hw _ (mem_items_node (k := .LUDTWIG_DIRECTIVE_IGNORE) (cs := ds) (by simp [hd]))
      exact absurd this (by decide)

theorem isBreak_false {k : SyntaxKind} {t : Text} {pos : Nat} {path : List Frame}
    (hk : k.isTrivia = false) : isBreak ⟨.token k t, pos, path⟩ = false :=
  Layout.kind_ne_lb hk

theorem seen_hidden {e : Elem} (h : skipped e = true) : ∀ c ∈ e.descendants, seen c = false := by
  intro c hc
  cases hs : seen c with
  | false => rfl
  | true =>
    have := List.all_eq_true.1 hs e (elemsAt_chain e.tree e.start e.path c hc)
    simp [h] at this

/-- The tokens among elements. -/
def toks (l : List Elem) : List Elem := l.filter (fun e => !e.isNode)

theorem toks_append (a b : List Elem) : toks (a ++ b) = toks a ++ toks b := List.filter_append ..

mutual
theorem lines_tree {root : Tree} (hn : Neat root) : ∀ (t : Tree) (pos : Nat) (path : List Frame)
    (v a : Bool), Elem.In root ⟨t, pos, path⟩ → OpenBy skipped ⟨t, pos, path⟩ →
    (v = true → a = true) → (skipped ⟨t, pos, path⟩ = true → v = false) →
    TrueLines seen v a (toks (elemsAt t pos path)) ∧
    (endsBreak v ((toks (elemsAt t pos path)).filter seen) = true →
      endsBreak a (toks (elemsAt t pos path)) = true) ∧
    (skipped ⟨t, pos, path⟩ = true → endsBreak v ((toks (elemsAt t pos path)).filter seen) = false) ∧
    (skipped ⟨t, pos, path⟩ = false → ∀ k l k' x, t = .node k (l ++ [.token k' x]) →
      k'.isTrivia = false → endsBreak v ((toks (elemsAt t pos path)).filter seen) = false) ∧
    (∀ k x, t = .token k x → k.isTrivia = false →
      endsBreak v ((toks (elemsAt t pos path)).filter seen) = false)
  | .token k t, pos, path, v, a, hin, ho, hva, hs => by
    have hc : skipped ⟨.token k t, pos, path⟩ = false := rfl
    have hseen : seen ⟨.token k t, pos, path⟩ = true := chain_open ho hc
    have ht : toks (elemsAt (.token k t) pos path) = [⟨.token k t, pos, path⟩] := rfl
    rw [ht]
    simp only [TrueLines, hseen, List.filter_cons, if_true, List.filter_nil, endsBreak,
      List.foldl_cons, List.foldl_nil]
    refine ⟨⟨fun _ => hva, trivial⟩, id, fun h => ?_, fun _ k l k' x h => (by cases h), ?_⟩
    · rw [hc] at h; cases h
    · intro k' x h hk
      cases h
      exact isBreak_false hk
  | .node k cs, pos, path, v, a, hin, ho, hva, hs => by
    cases hc : skipped ⟨.node k cs, pos, path⟩ with
    | true =>
      have hv := hs hc
      have hh := seen_hidden hc
      have hh' : ∀ t ∈ toks (elemsAt (.node k cs) pos path), seen t = false :=
        fun t ht => hh t (List.mem_filter.1 ht).1
      have hf : (toks (elemsAt (.node k cs) pos path)).filter seen = [] := by
        rw [List.filter_eq_nil_iff]
        intro t ht
        rw [hh' t ht]
        exact Bool.false_ne_true
      rw [hf]
      refine ⟨trueLines_hidden hh', fun h => ?_, fun _ => hv, fun h => (by cases h), fun k x h => (by cases h)⟩
      change v = true at h
      rw [hv] at h
      cases h
    | false =>
      have ht : toks (elemsAt (.node k cs) pos path) = toks (elemsIn cs k pos [] pos path) := by
        simp [elemsAt, toks, Elem.isNode, Tree.isNode]
      rw [ht]
      obtain ⟨h1, h2, h3⟩ := lines_list hn cs k pos [] pos path v a hin ho hc (by simp) hva
        (fun k' ds ts _ h => by cases h)
      refine ⟨h1, h2, fun h => (by cases h), fun _ k' l k'' x h hk => ?_, fun k x h => (by cases h)⟩
      cases h
      exact h3 _ _ _ rfl hk
theorem lines_list {root : Tree} (hn : Neat root) : ∀ (ts : List Tree) (k : SyntaxKind) (start : Nat)
    (bef : List Tree) (pos : Nat) (path : List Frame) (v a : Bool),
    Elem.In root ⟨.node k (bef ++ ts), start, path⟩ →
    OpenBy skipped ⟨.node k (bef ++ ts), start, path⟩ →
    skipped ⟨.node k (bef ++ ts), start, path⟩ = false →
    pos = start + byteLen (bef.flatMap (·.text)) → (v = true → a = true) →
    (∀ k' cs ts', ts = .node k' cs :: ts' → blanket bef = true → v = false) →
    TrueLines seen v a (toks (elemsIn ts k start bef pos path)) ∧
    (endsBreak v ((toks (elemsIn ts k start bef pos path)).filter seen) = true →
      endsBreak a (toks (elemsIn ts k start bef pos path)) = true) ∧
    (∀ l k' x, ts = l ++ [.token k' x] → k'.isTrivia = false →
      endsBreak v ((toks (elemsIn ts k start bef pos path)).filter seen) = false)
  | [], k, start, bef, pos, path, v, a, _, _, _, _, hva, _ => by
    refine ⟨trivial, hva, fun l k' x h => ?_⟩
    simp at h
  | t :: ts, k, start, bef, pos, path, v, a, hin, ho, hc, hpos, hva, hb => by
    have happ : (⟨.node k (bef ++ t :: ts), start, path⟩ : Elem).childrenWithTokens =
        (childElems path k start [] start (bef ++ t :: ts)).take bef.length ++
          ⟨t, pos, ⟨k, start, bef, ts⟩ :: path⟩ ::
          childElems path k start (bef ++ [t]) (pos + byteLen t.text) ts := by
      show childElems path k start [] start (bef ++ t :: ts) = _
      conv => lhs; rw [childElems_append path k start bef (t :: ts) [] start]
      simp only [childElems, List.nil_append]
      rw [hpos]
    have hmem : (⟨t, pos, ⟨k, start, bef, ts⟩ :: path⟩ : Elem) ∈
        (⟨.node k (bef ++ t :: ts), start, path⟩ : Elem).childrenWithTokens := by
      rw [happ]; simp
    have hin' := Elem.In.child hin hmem
    have hno : ∀ cs, t ≠ .node .ERROR cs := by
      rintro cs rfl
      exact hn.noError (nodeKinds_in hin' _ (by simp [Tree.nodeKinds]))
    have hskip : ∀ k' cs, t = .node k' cs →
        skipped ⟨t, pos, ⟨k, start, bef, ts⟩ :: path⟩ = blanket bef := by
      rintro k' cs rfl
      have : nodeOf .ERROR (.node k' cs) = false := by
        cases h : nodeOf .ERROR (.node k' cs) with
        | false => rfl
        | true =>
          obtain ⟨cs', h⟩ := nodeOf_tree h
          exact absurd h (hno _)
      show (true && (nodeOf .ERROR (.node k' cs) || _)) = _
      rw [this, directiveAbove_blanket]
      simp
    obtain ⟨h1, h2, h3, h4, h5⟩ := lines_tree hn t pos (⟨k, start, bef, ts⟩ :: path) v a hin'
      (child_openBy ho hc hmem) hva (fun h => by
        cases t with
        | token k' x => cases h
        | node k' cs =>
          rw [hskip k' cs rfl] at h
          exact hb _ _ _ rfl h)
    have hassoc : bef ++ t :: ts = (bef ++ [t]) ++ ts := by simp
    obtain ⟨g1, g2, g3⟩ := lines_list hn ts k start (bef ++ [t]) (pos + byteLen t.text) path
      (endsBreak v ((toks (elemsAt t pos (⟨k, start, bef, ts⟩ :: path))).filter seen))
      (endsBreak a (toks (elemsAt t pos (⟨k, start, bef, ts⟩ :: path))))
      (by rw [← hassoc]; exact hin) (by rw [← hassoc]; exact ho) (by rw [← hassoc]; exact hc)
      (by rw [hpos]; simp [byteLen_append, Nat.add_assoc]) h2 (by
        rintro k' cs ts' rfl hbl
        cases t with
        | token k'' x =>
          rw [blanket_token] at hbl
          exact h5 _ _ rfl (blanket_trivia hn hin hbl)
        | node k'' ds =>
          have := blanket_node hbl
          subst this
          cases hsk : skipped ⟨.node .LUDTWIG_DIRECTIVE_IGNORE ds, pos,
              ⟨k, start, bef, .node k' cs :: ts'⟩ :: path⟩ with
          | true => exact h3 hsk
          | false =>
            obtain ⟨l, kk, x, rfl, hx⟩ := directive_end hn hin' rfl
            exact h4 hsk _ _ _ _ rfl hx)
    simp only [elemsIn, toks_append, List.filter_append, endsBreak_append, trueLines_append]
    refine ⟨⟨h1, g1⟩, g2, ?_⟩
    intro l k' x hl hk
    cases l with
    | nil =>
      simp only [List.nil_append, List.cons.injEq] at hl
      obtain ⟨rfl, rfl⟩ := hl
      exact h5 _ _ rfl hk
    | cons y l =>
      simp only [List.cons_append, List.cons.injEq] at hl
      exact g3 l k' x hl.2 hk
end

/-- In a file without parse errors, every token that begins a line for the indentation rule begins a
line. -/
theorem lines_true {root : Tree} (hn : Neat root) : TrueLines seen true true root.tokenElems := by
  by_cases hs : skipped (Elem.root root) = true
  · exact trueLines_hidden (fun t ht => seen_hidden hs t (List.mem_filter.1 ht).1)
  · exact (lines_tree hn root 0 [] true true .root
      (fun a ha => by simp [Elem.ancestors, ancestorsFrom] at ha) (fun _ => rfl)
      (fun h => absurd h hs)).1

theorem neat_parsed {errLen : Text → Nat} {s : Text} {p : Parse} (h : parse errLen s = .ok p)
    (he : p.errors = []) : Neat p.tree :=
  ⟨C69_whitespace_attached h, C62_error_free_tree h he, C09_no_error_node _ _ _ h he⟩

end Ludtwig.Rules
