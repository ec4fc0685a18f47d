import Verif.Rules.BareMarks
import Verif.Layout.Cells

/-!
# Whitespace has the mark of the token behind it

In a tree without parse errors, what the rules for the layout ask about the place of whitespace has the
same answers as for the token behind the whitespace.
-/

namespace Ludtwig.Rules

open Cli Shape Layout

/-! ## Flags -/

theorem siblings_next (t u : Tree) (pos pos' : Nat) (k : SyntaxKind) (s : Nat) (bef aft : List Tree)
    (fs : List Frame) : Elem.siblingsBefore ⟨u, pos', ⟨k, s, bef ++ [t], aft⟩ :: fs⟩ =
      Elem.siblingsBefore ⟨t, pos, ⟨k, s, bef, u :: aft⟩ :: fs⟩ ++
        [⟨t, s + byteLen (bef.flatMap (·.text)), ⟨k, s, bef, u :: aft⟩ :: fs⟩] := by
  have h0 : (bef ++ [t]) ++ u :: aft = bef ++ t :: u :: aft := by simp
  unfold Elem.siblingsBefore
  dsimp only
  rw [h0]
  have h := childElems_append fs k s bef (t :: u :: aft) [] s
  simp only [childElems, List.nil_append] at h
  have hlen : ((childElems fs k s [] s (bef ++ t :: u :: aft)).take bef.length).length = bef.length := by
    have hl : (childElems fs k s [] s (bef ++ t :: u :: aft)).length = (bef ++ t :: u :: aft).length := by
      have := congrArg List.length (childElems_trees fs k s (bef ++ t :: u :: aft) [] s)
      simpa using this
    rw [List.length_take, hl]
    simp
  generalize htk : (childElems fs k s [] s (bef ++ t :: u :: aft)).take bef.length = A at *
  rw [h, List.length_append, List.length_singleton, List.take_append, hlen]
  rw [List.take_of_length_le (by omega)]
  congr 1
  rw [show bef.length + 1 - bef.length = 1 by omega]
  rfl

theorem children_last (t : Tree) (pos : Nat) (k : SyntaxKind) (s : Nat) (bef : List Tree) (fs : List Frame) :
    (⟨.node k (bef ++ [t]), s, fs⟩ : Elem).childrenWithTokens =
      Elem.siblingsBefore ⟨t, pos, ⟨k, s, bef, []⟩ :: fs⟩ ++
        [⟨t, s + byteLen (bef.flatMap (·.text)), ⟨k, s, bef, []⟩ :: fs⟩] := by
  have h := childElems_append fs k s bef [t] [] s
  simp only [childElems, List.nil_append] at h
  exact h

variable {closed p : Elem → Bool}

theorem all_touch (ht : ∀ e : Elem, e.isNode = false → p e = false) {l : List Elem} {e : Elem}
    (he : e.isNode = false) : (l ++ [e]).all (fun b => !touchesBy closed p b) =
      l.all (fun b => !touchesBy closed p b) := by
  rw [List.all_append, List.all_cons, touches_token ht he]
  simp

/-- The flag before a token and before its next sibling. -/
theorem flag_sibling (ht : ∀ e : Elem, e.isNode = false → p e = false) (kt : SyntaxKind) (x : Text)
    (u : Tree) (pos pos' : Nat) (k : SyntaxKind) (s : Nat) (bef aft : List Tree) (fs : List Frame) :
    flagBefore closed p ⟨u, pos', ⟨k, s, bef ++ [.token kt x], aft⟩ :: fs⟩ =
      flagBefore closed p ⟨.token kt x, pos, ⟨k, s, bef, u :: aft⟩ :: fs⟩ := by
  unfold flagBefore
  dsimp only
  rw [siblings_next (.token kt x) u pos pos', all_touch ht rfl]
  congr 2
  simp

/-- The flag at the end of a node and behind the node. -/
theorem flag_end (ht : ∀ e : Elem, e.isNode = false → p e = false) (kt : SyntaxKind) (x : Text)
    (u : Tree) (pos pos' : Nat) (k i : SyntaxKind) (s : Nat) (bef ds aft : List Tree) (fs : List Frame)
    (hp : ∀ s', p ⟨.node i (ds ++ [.token kt x]), s', ⟨k, s, bef, u :: aft⟩ :: fs⟩ = false) :
    flagBefore closed p ⟨u, pos', ⟨k, s, bef ++ [.node i (ds ++ [.token kt x])], aft⟩ :: fs⟩ =
      flagBefore closed p ⟨.token kt x, pos,
        ⟨i, s + byteLen (bef.flatMap (·.text)), ds, []⟩ :: ⟨k, s, bef, u :: aft⟩ :: fs⟩ := by
  unfold flagBefore
  dsimp only
  rw [siblings_next (.node i (ds ++ [Tree.token kt x])) u (s + byteLen (bef.flatMap (·.text))) pos']
  rw [List.all_append, List.all_cons, List.all_nil, Bool.and_true]
  have h1 : flagFrom closed p (.node i (ds ++ [.token kt x])) (s + byteLen (bef.flatMap (·.text)))
      (⟨k, s, bef, u :: aft⟩ :: fs) =
      (flagFrom closed p (.node k (bef ++ .node i (ds ++ [.token kt x]) :: u :: aft)) s fs &&
        (Elem.siblingsBefore ⟨.node i (ds ++ [.token kt x]), s + byteLen (bef.flatMap (·.text)),
          ⟨k, s, bef, u :: aft⟩ :: fs⟩).all (fun b => !touchesBy closed p b)) := by
    rw [flagFrom, hp, Bool.false_or]
  rw [h1]
  have h2 : (!touchesBy closed p ⟨.node i (ds ++ [.token kt x]), s + byteLen (bef.flatMap (·.text)),
      ⟨k, s, bef, u :: aft⟩ :: fs⟩) =
      (Elem.siblingsBefore ⟨.token kt x, pos, ⟨i, s + byteLen (bef.flatMap (·.text)), ds, []⟩ ::
        ⟨k, s, bef, u :: aft⟩ :: fs⟩).all (fun b => !touchesBy closed p b) := by
    conv => lhs; unfold touchesBy
    rw [descendants_eq, List.any_cons, hp, Bool.false_and, Bool.false_or, List.any_flatMap,
      children_last (.token kt x) pos, List.any_append, List.any_cons]
    have : ∀ (e : Elem), (e.descendants.any fun c => p c && c.ancestors.all fun a => !closed a) =
      touchesBy closed p e := fun _ => rfl
    simp only [this]
    rw [touches_token ht rfl]
    simp [List.not_any_eq_all_not]
  rw [h2]
  rw [show (bef ++ [Tree.node i (ds ++ [.token kt x])]) ++ u :: aft =
    bef ++ .node i (ds ++ [.token kt x]) :: u :: aft by simp, Bool.and_assoc]

/-- The flag at the beginning of a node. -/
theorem flag_begin (u : Tree) (pos s' : Nat) (i : SyntaxKind) (cs : List Tree) (f : Frame) (fs : List Frame)
    (hp : p ⟨.node i (u :: cs), s', f :: fs⟩ = false) :
    flagBefore closed p ⟨u, pos, ⟨i, s', [], cs⟩ :: f :: fs⟩ =
      flagBefore closed p ⟨.node i (u :: cs), s', f :: fs⟩ := by
  have h0 : Elem.siblingsBefore ⟨u, pos, ⟨i, s', [], cs⟩ :: f :: fs⟩ = [] := rfl
  unfold flagBefore
  dsimp only
  rw [h0, List.all_nil, Bool.and_true]
  show flagFrom closed p (.node i (u :: cs)) s' (f :: fs) = _
  rw [flagFrom, hp, Bool.false_or]

/-! ## Marks -/

/-- A node that makes no difference for what is inside of it. -/
structure Neutral (config : Config) (e : Elem) : Prop where
  skipped : skipped e = false
  off : offHere e = false
  sensitive : sensitiveTag e = false
  indents : indents config e = false
  align : alignment e = 0
  muted : muted e = false

/-- The mark of a place. -/
def placeMark (config : Config) (e : Elem) : Mark :=
  ⟨e.ancestors.all (fun a => !skipped a), flagBefore skipped offHere e || flagBefore skipped sensitiveTag e,
    levelOf config e, alignmentOf e, e.ancestors.any muted, muted e || behindString e⟩

theorem mark_token {config : Config} {e : Elem} (h : e.isNode = false) :
    markOf config e = placeMark config e := by
  unfold markOf placeMark indentOff
  rw [flagAt_eq, flagAt_eq, offHere_token h, Bool.false_or, (indents_token (config := config) h).2.2,
    Bool.false_or]

theorem mark_ancestors {a b : Elem} (h : a.ancestors = b.ancestors) (config : Config) :
    a.ancestors.all (fun a => !skipped a) = b.ancestors.all (fun a => !skipped a) ∧
    levelOf config a = levelOf config b ∧ alignmentOf a = alignmentOf b ∧
    a.ancestors.any muted = b.ancestors.any muted := by
  unfold levelOf alignmentOf
  rw [h]
  exact ⟨rfl, rfl, rfl, rfl⟩

theorem mark_inside {config : Config} {a b x : Elem} (hx : Neutral config x)
    (h : a.ancestors = x :: b.ancestors) :
    a.ancestors.all (fun a => !skipped a) = b.ancestors.all (fun a => !skipped a) ∧
    levelOf config a = levelOf config b ∧ alignmentOf a = alignmentOf b ∧
    a.ancestors.any muted = b.ancestors.any muted := by
  unfold levelOf alignmentOf
  rw [h]
  simp [hx.skipped, hx.indents, hx.align, hx.muted]

theorem sensitive_token {e : Elem} (h : e.isNode = false) : sensitiveTag e = false := by
  obtain ⟨t, pos, path⟩ := e
  cases t with
  | token k t => rfl
  | node k cs => cases h

theorem bareAll_trivia {k : SyntaxKind} {x : Text} (hk : k.isTrivia = true) (bef : List Tree) :
    bareAll (bef ++ [.token k x]) = bareAll bef := by
  rw [bareAll_append, bareAll, bare_eq, show triviaTree (.token k x) = true from hk, if_pos rfl]
  simp [bareAll]

/-- Whitespace and what is behind it. -/
theorem mark_sibling (config : Config) {kt : SyntaxKind} (hk : kt.isTrivia = true) (x : Text) (u : Tree)
    (pos pos' : Nat) (k : SyntaxKind) (s : Nat) (bef aft : List Tree) (fs : List Frame) :
    markOf config ⟨.token kt x, pos, ⟨k, s, bef, u :: aft⟩ :: fs⟩ =
      placeMark config ⟨u, pos', ⟨k, s, bef ++ [.token kt x], aft⟩ :: fs⟩ := by
  rw [mark_token rfl]
  have ha : Elem.ancestors ⟨.token kt x, pos, ⟨k, s, bef, u :: aft⟩ :: fs⟩ =
      Elem.ancestors ⟨u, pos', ⟨k, s, bef ++ [.token kt x], aft⟩ :: fs⟩ := by
    rw [ancestors_cons, ancestors_cons]
    simp
  obtain ⟨h1, h2, h3, h4⟩ := mark_ancestors ha config
  have h5 := flag_sibling (closed := skipped) (fun e h => offHere_token h) kt x u pos pos' k s bef aft fs
  have h6 := flag_sibling (closed := skipped) (fun e h => sensitive_token h) kt x u pos pos' k s bef aft fs
  have h7 : muted ⟨.token kt x, pos, ⟨k, s, bef, u :: aft⟩ :: fs⟩ =
      muted ⟨u, pos', ⟨k, s, bef ++ [.token kt x], aft⟩ :: fs⟩ := by
    unfold muted
    dsimp only
    rw [bareAll_trivia hk]
  have h8 : behindString ⟨.token kt x, pos, ⟨k, s, bef, u :: aft⟩ :: fs⟩ =
      behindString ⟨u, pos', ⟨k, s, bef ++ [.token kt x], aft⟩ :: fs⟩ := by
    unfold behindString
    dsimp only
    rw [bareAll_trivia hk]
  unfold placeMark
  rw [h1, h2, h3, h4, h5, h6, h7, h8]

/-- Whitespace at the end of the content of a string, and what is behind the content. -/
theorem mark_end (config : Config) {kt : SyntaxKind} (hk : kt.isTrivia = true) (x : Text) (u : Tree)
    (pos pos' : Nat) (k i : SyntaxKind) (s : Nat) (bef ds aft : List Tree) (fs : List Frame)
    (hx : ∀ s', Neutral config ⟨.node i (ds ++ [.token kt x]), s', ⟨k, s, bef, u :: aft⟩ :: fs⟩)
    (ho : i = .HTML_STRING_INNER ∨ mutes (bareAll ds).getLast? = false ∧ i = .TWIG_LITERAL_STRING_INNER)
    (hd : ∀ cs, Tree.node .HTML_STRING_INNER cs ∉ ds) :
    markOf config ⟨.token kt x, pos,
        ⟨i, s + byteLen (bef.flatMap (·.text)), ds, []⟩ :: ⟨k, s, bef, u :: aft⟩ :: fs⟩ =
      placeMark config ⟨u, pos', ⟨k, s, bef ++ [.node i (ds ++ [.token kt x])], aft⟩ :: fs⟩ := by
  rw [mark_token rfl]
  have ha : Elem.ancestors ⟨.token kt x, pos,
        ⟨i, s + byteLen (bef.flatMap (·.text)), ds, []⟩ :: ⟨k, s, bef, u :: aft⟩ :: fs⟩ =
      ⟨.node i (ds ++ [.token kt x]), s + byteLen (bef.flatMap (·.text)), ⟨k, s, bef, u :: aft⟩ :: fs⟩ ::
      Elem.ancestors ⟨u, pos', ⟨k, s, bef ++ [.node i (ds ++ [.token kt x])], aft⟩ :: fs⟩ := by
    rw [ancestors_cons, ancestors_cons, ancestors_cons]
    simp
  obtain ⟨h1, h2, h3, h4⟩ := mark_inside (hx _) ha
  have h5 := flag_end (closed := skipped) (fun e h => offHere_token h) kt x u pos pos' k i s bef ds aft fs
    (fun s' => (hx s').off)
  have h6 := flag_end (closed := skipped) (fun e h => sensitive_token h) kt x u pos pos' k i s bef ds aft fs
    (fun s' => (hx s').sensitive)
  have hl : (bareAll (bef ++ [.node i (ds ++ [.token kt x])])).getLast? =
      some (.node i (bareAll ds)) := by
    rw [bareAll_append, bareAll_one (by rfl)]
    simp only [List.getLast?_append, List.getLast?_singleton, Option.some_or, bareTree]
    rw [bareAll_trivia hk]
  have h7 : (muted ⟨.token kt x, pos,
        ⟨i, s + byteLen (bef.flatMap (·.text)), ds, []⟩ :: ⟨k, s, bef, u :: aft⟩ :: fs⟩ ||
      behindString ⟨.token kt x, pos,
        ⟨i, s + byteLen (bef.flatMap (·.text)), ds, []⟩ :: ⟨k, s, bef, u :: aft⟩ :: fs⟩) =
      (muted ⟨u, pos', ⟨k, s, bef ++ [.node i (ds ++ [.token kt x])], aft⟩ :: fs⟩ ||
      behindString ⟨u, pos', ⟨k, s, bef ++ [.node i (ds ++ [.token kt x])], aft⟩ :: fs⟩) := by
    unfold muted behindString
    dsimp only
    rw [hl]
    have hb : stringMutes (bareAll ds).getLast? = false := by
      cases hg : (bareAll ds).getLast? with
      | none => rfl
      | some t =>
        obtain ⟨t', h1, _, h2⟩ := mem_bareAll (List.mem_of_getLast? hg)
        cases t' with
        | token k x => subst h2; rfl
        | node k cs =>
          subst h2
          show stringMutes (some (.node k _)) = false
          by_cases hh : k = .HTML_STRING_INNER
          · subst hh; exact absurd h1 (hd _)
          · unfold stringMutes
            split
            · rename_i heq; cases heq; exact absurd rfl hh
            · rfl
    rw [hb, Bool.or_false]
    rcases ho with rfl | ⟨ho, rfl⟩
    · show _ = (false || mutes (bareAll (bareAll ds)).getLast?)
      rw [bareAll_idem]
      simp
    · rw [ho]; rfl
  unfold placeMark
  rw [h1, h2, h3, h4, h5, h6, h7]

/-- The beginning of a node. -/
theorem mark_begin (config : Config) (u : Tree) (pos s' : Nat) (i : SyntaxKind) (cs : List Tree) (f : Frame)
    (fs : List Frame) (hx : Neutral config ⟨.node i (u :: cs), s', f :: fs⟩)
    (hb : behindString ⟨.node i (u :: cs), s', f :: fs⟩ = false) :
    placeMark config ⟨u, pos, ⟨i, s', [], cs⟩ :: f :: fs⟩ =
      placeMark config ⟨.node i (u :: cs), s', f :: fs⟩ := by
  have ha : Elem.ancestors ⟨u, pos, ⟨i, s', [], cs⟩ :: f :: fs⟩ =
      ⟨.node i (u :: cs), s', f :: fs⟩ :: Elem.ancestors ⟨.node i (u :: cs), s', f :: fs⟩ := by
    rw [ancestors_cons]; rfl
  obtain ⟨h1, h2, h3, h4⟩ := mark_inside hx ha
  have h5 := flag_begin (closed := skipped) u pos s' i cs f fs hx.off
  have h6 := flag_begin (closed := skipped) u pos s' i cs f fs hx.sensitive
  have h7 : muted ⟨u, pos, ⟨i, s', [], cs⟩ :: f :: fs⟩ = false := rfl
  have h8 : behindString ⟨u, pos, ⟨i, s', [], cs⟩ :: f :: fs⟩ = false := rfl
  unfold placeMark
  rw [h1, h2, h3, h4, h5, h6, h7, h8, hx.muted, hb]

/-! ## Trees without parse errors -/

theorem mutes_false {bef : List Tree} (h : ∀ cs, Tree.node .LUDTWIG_DIRECTIVE_IGNORE cs ∉ bef) :
    mutes (bareAll bef).getLast? = false := by
  cases hg : (bareAll bef).getLast? with
  | none => rfl
  | some t =>
    obtain ⟨t', h1, _, h2⟩ := mem_bareAll (List.mem_of_getLast? hg)
    cases t' with
    | token k x => subst h2; rfl
    | node k cs =>
      subst h2
      show mutes (some (.node k _)) = false
      by_cases hh : k = .LUDTWIG_DIRECTIVE_IGNORE
      · subst hh; exact absurd h1 (h _)
      · unfold mutes
        split
        · rename_i heq; cases heq; exact absurd rfl hh
        · rfl

theorem stringMutes_false {bef : List Tree} (h : ∀ cs, Tree.node .HTML_STRING_INNER cs ∉ bef) :
    stringMutes (bareAll bef).getLast? = false := by
  cases hg : (bareAll bef).getLast? with
  | none => rfl
  | some t =>
    obtain ⟨t', h1, _, h2⟩ := mem_bareAll (List.mem_of_getLast? hg)
    cases t' with
    | token k x => subst h2; rfl
    | node k cs =>
      subst h2
      show stringMutes (some (.node k _)) = false
      by_cases hh : k = .HTML_STRING_INNER
      · subst hh; exact absurd h1 (h _)
      · unfold stringMutes
        split
        · rename_i heq; cases heq; exact absurd rfl hh
        · rfl

theorem above_none {t : Tree} {pos : Nat} {f : Frame} {fs : List Frame}
    (h : ∀ cs, Tree.node .LUDTWIG_DIRECTIVE_IGNORE cs ∉ f.before) : directiveAbove ⟨t, pos, f :: fs⟩ = none := by
  unfold directiveAbove
  dsimp only
  split
  · rename_i cs heq
    exact absurd (List.mem_filter.1 (List.mem_of_getLast? heq)).1 (h cs)
  · rfl

theorem neutral_string (config : Config) {i : SyntaxKind} (hi : i = .HTML_STRING_INNER ∨
    i = .TWIG_LITERAL_STRING_INNER ∨ i = .TWIG_LITERAL_STRING_INTERPOLATION) (cs : List Tree) (s : Nat)
    {f : Frame} {fs : List Frame} (h : ∀ cs, Tree.node .LUDTWIG_DIRECTIVE_IGNORE cs ∉ f.before) :
    Neutral config ⟨.node i cs, s, f :: fs⟩ := by
  have ha : directiveAbove ⟨.node i cs, s, f :: fs⟩ = none := above_none h
  refine ⟨?_, ?_, ?_, ?_, ?_, mutes_false h⟩
  · unfold skipped
    rw [ha]
    rcases hi with rfl | rfl | rfl <;> rfl
  · unfold offHere switchesOff
    rw [ha]
    rfl
  · rcases hi with rfl | rfl | rfl <;> rfl
  · rcases hi with rfl | rfl | rfl <;> rfl
  · rcases hi with rfl | rfl | rfl <;> rfl

/-- The strings of HTML: between quotes, the closing quote is directly behind the content; without quotes,
the content does not end with whitespace. -/
def Quoted (root : Tree) : Prop :=
  ∀ e, Elem.In root e → ∀ l ds r, e.tree = .node .HTML_STRING (l ++ .node .HTML_STRING_INNER ds :: r) →
    (∃ q x, q.isTrivia = false ∧ r = [.token q x]) ∨
    (r = [] ∧ ∀ l' x, ds = l' ++ [x] → triviaTree x = false)

/-- Every whitespace token has the mark of the token behind it; `m` is the mark behind the last one. -/
def Smooth (f : Elem → Mark) (m : Mark) : List Elem → Prop
  | [] => True
  | e :: l => (solid e = false → f e = (l.head?.map f).getD m) ∧ Smooth f m l

theorem smooth_append {f : Elem → Mark} {m : Mark} {b : List Elem} : ∀ {a : List Elem},
    Smooth f ((b.head?.map f).getD m) a → Smooth f m b → Smooth f m (a ++ b)
  | [], _, h => h
  | e :: a, ⟨h1, h2⟩, h => by
    refine ⟨fun hs => ?_, smooth_append h2 h⟩
    rw [h1 hs]
    cases a with
    | nil => rfl
    | cons c a => rfl

theorem parent_root_exact : ∀ k, (production k).mentions ⟨true, .ROOT⟩ = false := by
  intro k; cases k <;> decide

theorem parent_htmlInner : ∀ k, (production k).mentions ⟨true, .HTML_STRING_INNER⟩ = true →
    k = .HTML_STRING := by
  intro k; cases k <;> decide

theorem parent_twigInner : ∀ k, (production k).mentions ⟨true, .TWIG_LITERAL_STRING_INNER⟩ = true →
    k = .TWIG_LITERAL_STRING := by
  intro k; cases k <;> decide

/-- What is behind the content of a string of Twig begins with a token. -/
theorem behind_twigInner {l ds r : List Tree}
    (h : (production .TWIG_LITERAL_STRING).Lang (items (l ++ .node .TWIG_LITERAL_STRING_INNER ds :: r))) :
    ∃ k x r', r = .token k x :: r' := by
  have h' : ∃ a b k, items (l ++ .node .TWIG_LITERAL_STRING_INNER ds :: r) =
      [⟨false, a⟩, ⟨true, k⟩, ⟨false, b⟩] := by
    rcases h with ⟨u, v, hu, ⟨u', v', rfl, ⟨a, _, rfl⟩, ⟨k, _, rfl⟩⟩, ⟨b, _, rfl⟩⟩ |
      ⟨u, v, hu, ⟨u', v', rfl, ⟨a, _, rfl⟩, ⟨k, _, rfl⟩⟩, ⟨b, _, rfl⟩⟩ <;>
      exact ⟨a, b, k, hu⟩
  obtain ⟨a, b, k, h'⟩ := h'
  rw [items_append] at h'
  have hm : (⟨true, .TWIG_LITERAL_STRING_INNER⟩ : Item) :: items r = [⟨true, k⟩, ⟨false, b⟩] := by
    generalize items l = w at h'
    rcases w with _ | ⟨w1, _ | ⟨w2, w⟩⟩
    · simp [items] at h'
    · simp only [items, List.cons_append, List.nil_append, List.cons.injEq] at h'
      obtain ⟨_, h2, h3⟩ := h'
      rw [h3]
      simpa using h2
    · exfalso
      simp only [items, List.cons_append, List.cons.injEq] at h'
      obtain ⟨_, _, h3⟩ := h'
      have := congrArg List.length h3
      simp at this
      obtain ⟨rfl, hr⟩ : w = [] ∧ items r = [] := by
        constructor
        · cases w with
          | nil => rfl
          | cons => simp at this; omega
        · cases hr : items r with
          | nil => rfl
          | cons => rw [hr] at this; simp at this; omega
      rw [hr] at h3
      simp at h3
  simp only [List.cons.injEq] at hm
  cases r with
  | nil => simp [items] at hm
  | cons t r =>
    cases t with
    | token k x => exact ⟨k, x, r, rfl⟩
    | node k cs => simp [items] at hm

/-- An interpolation begins with a token. -/
theorem interpolation_begin {cs : List Tree}
    (h : (production .TWIG_LITERAL_STRING_INTERPOLATION).Lang (items cs)) : ∃ k x r, cs = .token k x :: r := by
  have h' : ∃ a w, items cs = ⟨false, a⟩ :: w := by
    rcases h with ⟨u, v, hu, ⟨u', v', rfl, ⟨a, _, rfl⟩, _⟩, _⟩
    exact ⟨a, _, hu⟩
  obtain ⟨a, w, h'⟩ := h'
  cases cs with
  | nil => simp [items] at h'
  | cons t r =>
    cases t with
    | token k x => exact ⟨k, x, r, rfl⟩
    | node k cs => simp [items] at h'

theorem no_directive {root : Tree} (hn : Neat root) {k : SyntaxKind} {cs : List Tree} {s : Nat}
    {path : List Frame} (hin : Elem.In root ⟨.node k cs, s, path⟩)
    (hk : (production k).mentions ⟨true, .LUDTWIG_DIRECTIVE_IGNORE⟩ = false) (ds : List Tree) :
    Tree.node .LUDTWIG_DIRECTIVE_IGNORE ds ∉ cs := by
  intro h
  have := lang_mentions (lang_in hn.shape hin rfl) _ (mem_items_node h)
  rw [hk] at this
  cases this

theorem no_inner {root : Tree} (hn : Neat root) {k : SyntaxKind} {cs : List Tree} {s : Nat}
    {path : List Frame} (hin : Elem.In root ⟨.node k cs, s, path⟩)
    (hk : (production k).mentions ⟨true, .HTML_STRING_INNER⟩ = false) (ds : List Tree) :
    Tree.node .HTML_STRING_INNER ds ∉ cs := by
  intro h
  have := lang_mentions (lang_in hn.shape hin rfl) _ (mem_items_node h)
  rw [hk] at this
  cases this

theorem toks_cons_token (k : SyntaxKind) (x : Text) (pos : Nat) (path : List Frame) (l : List Elem) :
    toks (⟨.token k x, pos, path⟩ :: l) = ⟨.token k x, pos, path⟩ :: toks l := rfl

mutual
theorem smooth_tree {root : Tree} (hn : Neat root) (hq : Quoted root) (config : Config) :
    ∀ (t : Tree) (pos : Nat) (path : List Frame) (m : Mark), Elem.In root ⟨t, pos, path⟩ →
    (∀ k x, t = .token k x → k.isTrivia = true → m = markOf config ⟨.token k x, pos, path⟩) →
    (∀ k l k' x, t = .node k (l ++ [.token k' x]) → k'.isTrivia = true →
      m = markOf config ⟨.token k' x, pos + byteLen (l.flatMap (·.text)), ⟨k, pos, l, []⟩ :: path⟩) →
    Smooth (markOf config) m (toks (elemsAt t pos path))
  | .token k x, pos, path, m, hin, h1, h2 => by
    refine ⟨fun hs => ?_, trivial⟩
    exact (h1 k x rfl (by simpa [solid, triviaTree] using hs)).symm
  | .node k cs, pos, path, m, hin, h1, h2 => by
    have ht : toks (elemsAt (.node k cs) pos path) = toks (elemsIn cs k pos [] pos path) := by
      simp [elemsAt, toks, Elem.isNode, Tree.isNode]
    rw [ht]
    exact smooth_list hn hq config cs k pos [] pos path m hin (by simp)
      (fun l k' x h hk => h2 k l k' x (by rw [← h]; rfl) hk)
theorem smooth_list {root : Tree} (hn : Neat root) (hq : Quoted root) (config : Config) :
    ∀ (ts : List Tree) (k : SyntaxKind) (start : Nat) (bef : List Tree) (pos : Nat) (path : List Frame)
    (m : Mark), Elem.In root ⟨.node k (bef ++ ts), start, path⟩ →
    pos = start + byteLen (bef.flatMap (·.text)) →
    (∀ l k' x, bef ++ ts = l ++ [.token k' x] → k'.isTrivia = true →
      m = markOf config ⟨.token k' x, start + byteLen (l.flatMap (·.text)), ⟨k, start, l, []⟩ :: path⟩) →
    Smooth (markOf config) m (toks (elemsIn ts k start bef pos path))
  | [], k, start, bef, pos, path, m, _, _, _ => trivial
  | t :: ts, k, start, bef, pos, path, m, hin, hpos, hm => by
    have happ : (⟨.node k (bef ++ t :: ts), start, path⟩ : Elem).childrenWithTokens =
        (childElems path k start [] start (bef ++ t :: ts)).take bef.length ++
          ⟨t, pos, ⟨k, start, bef, ts⟩ :: path⟩ ::
          childElems path k start (bef ++ [t]) (pos + byteLen t.text) ts := by
      show childElems path k start [] start (bef ++ t :: ts) = _
      conv => lhs; rw [childElems_append path k start bef (t :: ts) [] start]
      simp only [childElems, List.nil_append]
      rw [hpos]
    have hmem : (⟨t, pos, ⟨k, start, bef, ts⟩ :: path⟩ : Elem) ∈
        (⟨.node k (bef ++ t :: ts), start, path⟩ : Elem).childrenWithTokens := by
      rw [happ]; simp
    have hin' := Elem.In.child hin hmem
    have hassoc : bef ++ t :: ts = (bef ++ [t]) ++ ts := by simp
    have hpos' : pos + byteLen t.text = start + byteLen ((bef ++ [t]).flatMap (·.text)) := by
      rw [hpos]; simp [byteLen_append, Nat.add_assoc]
    rw [elemsIn, toks_append]
    refine smooth_append (smooth_tree hn hq config t pos _ _ hin' ?_ ?_)
      (smooth_list hn hq config ts k start (bef ++ [t]) (pos + byteLen t.text) path m
        (by rw [← hassoc]; exact hin) hpos' (fun l k' x h => hm l k' x (by rw [hassoc]; exact h)))
    · rintro k' x rfl hk
      have ha := attached_in hn.attached hin
      rcases ha.1 bef _ ts rfl hk with ⟨k2, x2, r, rfl⟩ | ⟨rfl, _⟩ | ⟨rfl, cs, r, rfl⟩
      · rw [mark_sibling config hk x _ pos (pos + byteLen (Tree.token k' x).text), ← mark_token rfl]
        rfl
      · rw [hpos]
        exact hm bef k' x rfl hk
      · have hc : Elem.In root ⟨.node .TWIG_LITERAL_STRING_INTERPOLATION cs, pos + byteLen (Tree.token k' x).text,
            ⟨.TWIG_LITERAL_STRING_INNER, start, bef ++ [.token k' x], r⟩ :: path⟩ := by
          refine .child hin ?_
          rw [happ]
          simp [childElems]
        obtain ⟨k2, x2, r2, rfl⟩ := interpolation_begin (lang_in hn.shape hc rfl)
        have hd := no_directive hn hin (by decide)
        have hi := no_inner hn hin (by decide)
        rw [mark_sibling config hk x _ pos (pos + byteLen (Tree.token k' x).text),
          ← mark_begin config (.token k2 x2) (pos + byteLen (Tree.token k' x).text) _ _ _ _ _
            (neutral_string config (.inr (.inr rfl)) _ _ ?_) (stringMutes_false ?_), ← mark_token rfl]
        · rfl
        · intro cs h
          exact hd cs (by rw [hassoc]; exact List.mem_append_left _ h)
        · intro cs h
          exact hi cs (by rw [hassoc]; exact List.mem_append_left _ h)
    · rintro k' l k2 x rfl hk
      have ha := attached_in hn.attached hin'
      have hkk : k' = .HTML_STRING_INNER ∨ k' = .TWIG_LITERAL_STRING_INNER := by
        rcases ha.1 l _ [] rfl hk with ⟨_, _, _, h⟩ | ⟨_, h⟩ | ⟨_, _, _, h⟩
        · cases h
        · have hmen := lang_mentions (lang_in hn.shape hin rfl) ⟨true, k'⟩
            (mem_items_node (cs := l ++ [.token k2 x]) (by simp))
          simp only [List.mem_cons, List.not_mem_nil, or_false] at h
          rcases h with rfl | rfl | rfl
          · rw [parent_root_exact] at hmen; cases hmen
          · exact .inl rfl
          · exact .inr rfl
        · cases h
      have hmen := lang_mentions (lang_in hn.shape hin rfl) ⟨true, k'⟩
        (mem_items_node (cs := l ++ [.token k2 x]) (by simp))
      have hbefore : ∃ k3 x3 r, ts = .token k3 x3 :: r := by
        rcases hkk with rfl | rfl
        · obtain rfl := parent_htmlInner _ hmen
          rcases hq _ hin _ _ _ rfl with ⟨q, x3, _, rfl⟩ | ⟨_, h⟩
          · exact ⟨_, _, _, rfl⟩
          · have := h _ _ rfl
            rw [show triviaTree (.token k2 x) = true from hk] at this
            cases this
        · obtain rfl := parent_twigInner _ hmen
          exact behind_twigInner (lang_in hn.shape hin rfl)
      obtain ⟨k3, x3, r, rfl⟩ := hbefore
      have hd : ∀ cs, Tree.node .LUDTWIG_DIRECTIVE_IGNORE cs ∉ bef := by
        intro cs h
        rcases hkk with rfl | rfl
        · obtain rfl := parent_htmlInner _ hmen
          exact no_directive hn hin (by decide) cs (List.mem_append_left _ h)
        · obtain rfl := parent_twigInner _ hmen
          exact no_directive hn hin (by decide) cs (List.mem_append_left _ h)
      subst hpos
      rw [mark_end config hk x (.token k3 x3) _ (start + byteLen (bef.flatMap (·.text)) +
        byteLen (Tree.node k' (l ++ [.token k2 x])).text) k k' start bef l r path (fun s' => neutral_string config
          (by rcases hkk with h | h <;> simp [h]) _ _ hd) ?_ ?_, ← mark_token rfl]
      · rfl
      · rcases hkk with rfl | rfl
        · exact .inl rfl
        · refine .inr ⟨mutes_false (fun cs h => ?_), rfl⟩
          exact no_directive hn hin' (by decide) cs (List.mem_append_left _ h)
      · intro cs h
        rcases hkk with rfl | rfl
        · exact no_inner hn hin' (by decide) cs (List.mem_append_left _ h)
        · exact no_inner hn hin' (by decide) cs (List.mem_append_left _ h)
end

/-- The mark of the end of a file. -/
def endMark (root : Tree) : Mark :=
  match root with
  | .token _ _ => ⟨true, false, 0, 0, false, false⟩
  | .node _ cs => ⟨true, false, 0, 0, false,
      mutes (bareAll cs).getLast? || stringMutes (bareAll cs).getLast?⟩

theorem smooth_root {cs : List Tree} (hn : Neat (.node .ROOT cs)) (hq : Quoted (.node .ROOT cs))
    (config : Config) : Smooth (markOf config) (endMark (.node .ROOT cs)) (Tree.node .ROOT cs).tokenElems := by
  refine smooth_tree hn hq config _ 0 [] _ .root (fun k x h => by cases h) ?_
  intro k l k' x h hk
  cases h
  rw [mark_token rfl]
  have ha : Elem.ancestors ⟨.token k' x, 0 + byteLen (l.flatMap (·.text)), [⟨.ROOT, 0, l, []⟩]⟩ =
      [⟨.node .ROOT (l ++ [.token k' x]), 0, []⟩] := rfl
  unfold endMark placeMark
  dsimp only
  rw [bareAll_trivia hk]
  unfold levelOf alignmentOf
  rw [ha]
  rfl

end Ludtwig.Rules
