import Verif.Template.CellChange
import Verif.Template.Strings
import Verif.Rules.QuoteProps
import Verif.Shape.Props

/-!
# Elements, tokens and cells (proof device for C75)

Consecutive elements of a tree, the tokens they stand for, and the cells of these tokens.
-/

namespace Ludtwig.Template

open Lexer Cli Rules

/-! ## Elements in a row -/

/-- The elements lie one behind the other from an offset on. -/
def InRow : Nat → List Elem → Prop
  | _, [] => True
  | a, e :: es => e.start = a ∧ InRow (a + byteLen e.text) es

/-- The text of elements. -/
def elemText (es : List Elem) : Text := es.flatMap Elem.text

/-- The leaves of elements. -/
def elemLeaves (es : List Elem) : List (SyntaxKind × Text) := es.flatMap (·.tree.leaves)

/-- The trees of elements without trivia. -/
def elemStrip (es : List Elem) : List Tree := es.flatMap (·.tree.strip)

/-- The element is whitespace or a line break. -/
def IsTriviaElem (e : Elem) : Prop := ∃ k t, e.tree = .token k t ∧ k.isTrivia = true

/-- The token is neither whitespace nor a line break. -/
def solid (t : Token) : Bool := !t.kind.isTrivia

theorem inRow_append {es fs : List Elem} : ∀ {a}, InRow a (es ++ fs) ↔ InRow a es ∧ InRow (a + byteLen (elemText es)) fs := by
  induction es with
  | nil => intro a; simp [InRow, elemText]
  | cons e es ih =>
    intro a
    simp only [List.cons_append, InRow, ih, elemText, List.flatMap_cons, byteLen_append, Nat.add_assoc, and_assoc]

theorem elemText_append (es fs : List Elem) : elemText (es ++ fs) = elemText es ++ elemText fs := List.flatMap_append
theorem elemLeaves_append (es fs : List Elem) : elemLeaves (es ++ fs) = elemLeaves es ++ elemLeaves fs := List.flatMap_append
theorem elemStrip_append (es fs : List Elem) : elemStrip (es ++ fs) = elemStrip es ++ elemStrip fs := List.flatMap_append

theorem elemText_leaves (es : List Elem) : elemText es = ((elemLeaves es).map (·.2)).flatten := by
  induction es with
  | nil => rfl
  | cons e es ih =>
    show e.tree.text ++ elemText es = ((e.tree.leaves ++ elemLeaves es).map (·.2)).flatten
    rw [ih, Tree.text_leaves]
    simp

theorem childElems_trees (path : List Frame) (k : SyntaxKind) (start : Nat) : ∀ (ts before : List Tree) (pos : Nat),
    (childElems path k start before pos ts).map (·.tree) = ts
  | [], _, _ => rfl
  | t :: ts, before, pos => by simp [childElems, childElems_trees path k start ts]

theorem childElems_row (path : List Frame) (k : SyntaxKind) (start : Nat) : ∀ (ts before : List Tree) (pos : Nat),
    InRow pos (childElems path k start before pos ts)
  | [], _, _ => trivial
  | _ :: ts, _, _ => ⟨rfl, childElems_row path k start ts _ _⟩

theorem leavesOf_flatMap (ts : List Tree) : leavesOf ts = ts.flatMap Tree.leaves := by
  induction ts with
  | nil => rfl
  | cons t ts ih => simp [leavesOf, ih]

theorem stripAll_flatMap (ts : List Tree) : stripAll ts = ts.flatMap Tree.strip := by
  induction ts with
  | nil => rfl
  | cons t ts ih => simp [stripAll, ih]

theorem kids {e : Elem} {k : SyntaxKind} {cs : List Tree} (h : e.tree = .node k cs) :
    e.childrenWithTokens.map (·.tree) = cs ∧ InRow e.start e.childrenWithTokens := by
  unfold Elem.childrenWithTokens
  rw [h]
  exact ⟨childElems_trees _ _ _ _ _ _, childElems_row _ _ _ _ _ _⟩

theorem kids_leaves {e : Elem} {k : SyntaxKind} {cs : List Tree} (h : e.tree = .node k cs) :
    elemLeaves e.childrenWithTokens = e.tree.leaves := by
  have := (kids h).1
  unfold elemLeaves
  rw [h, Tree.leaves, leavesOf_flatMap, ← this, List.flatMap_map]

theorem kids_text {e : Elem} {k : SyntaxKind} {cs : List Tree} (h : e.tree = .node k cs) :
    elemText e.childrenWithTokens = e.text := by
  rw [elemText_leaves, kids_leaves h, ← Tree.text_leaves]
  rfl

theorem kids_strip {e : Elem} {k : SyntaxKind} {cs : List Tree} (h : e.tree = .node k cs) :
    elemStrip e.childrenWithTokens = stripAll cs := by
  have := (kids h).1
  unfold elemStrip
  rw [stripAll_flatMap, ← this, List.flatMap_map]

theorem strip_cases (x : Tree) : (x.strip = [] ∧ ∃ k t, x = .token k t ∧ k.isTrivia = true) ∨ ∃ y, x.strip = [y] := by
  cases x with
  | token k t =>
    by_cases hk : k.isTrivia = true
    · exact .inl ⟨by simp [Tree.strip, hk], k, t, rfl, hk⟩
    · exact .inr ⟨.token k t, by simp [Tree.strip, hk]⟩
  | node k cs => exact .inr ⟨.node k (stripAll cs), by simp [Tree.strip]⟩

theorem strip_nil {es : List Elem} (h : elemStrip es = []) : ∀ e ∈ es, IsTriviaElem e := by
  intro e he
  rcases strip_cases e.tree with ⟨_, h'⟩ | ⟨y, hy⟩
  · exact h'
  · have : y ∈ elemStrip es := List.mem_flatMap.2 ⟨e, he, by rw [hy]; simp⟩
    rw [h] at this; cases this

theorem strip_cons : ∀ {es : List Elem} {x : Tree} {xs : List Tree}, elemStrip es = x :: xs →
    ∃ tv e fs, es = tv ++ e :: fs ∧ (∀ e ∈ tv, IsTriviaElem e) ∧ e.tree.strip = [x] ∧ elemStrip fs = xs
  | [], _, _, h => by cases h
  | e :: es, x, xs, h => by
    rcases strip_cases e.tree with ⟨h1, h2⟩ | ⟨y, hy⟩
    · have h : e.tree.strip ++ elemStrip es = x :: xs := h
      rw [h1] at h
      obtain ⟨tv, e', fs, rfl, h3, h4, h5⟩ := strip_cons h
      exact ⟨e :: tv, e', fs, rfl, List.forall_mem_cons.2 ⟨h2, h3⟩, h4, h5⟩
    · have h : e.tree.strip ++ elemStrip es = x :: xs := h
      rw [hy] at h
      injection h with h6 h7
      exact ⟨[], e, es, rfl, (fun _ h => by cases h), by rw [hy, h6], h7⟩

theorem strip_split : ∀ {es : List Elem} {xs ys : List Tree}, elemStrip es = xs ++ ys →
    ∃ fs gs, es = fs ++ gs ∧ elemStrip fs = xs ∧ elemStrip gs = ys
  | es, [], ys, h => ⟨[], es, rfl, rfl, h⟩
  | es, x :: xs, ys, h => by
    obtain ⟨tv, e, fs, rfl, h1, h2, h3⟩ := strip_cons (x := x) (xs := xs ++ ys) h
    obtain ⟨gs, hs, rfl, h4, h5⟩ := strip_split h3
    refine ⟨tv ++ e :: gs, hs, by simp, ?_, h5⟩
    rw [elemStrip_append]
    have h0 : elemStrip tv = [] := by
      refine List.flatMap_eq_nil_iff.2 (fun e he => ?_)
      obtain ⟨k, t, h6, h7⟩ := h1 e he
      simp [h6, Tree.strip, h7]
    rw [h0]
    show [] ++ (e.tree.strip ++ elemStrip gs) = _
    rw [h2, h4]; rfl

theorem strip_token {x : Tree} {k : SyntaxKind} {t : Text} (h : x.strip = [.token k t]) : x = .token k t ∧ k.isTrivia = false := by
  cases x with
  | token k' t' =>
    by_cases hk : k'.isTrivia = true
    · simp [Tree.strip, hk] at h
    · simp [Tree.strip, hk] at h
      obtain ⟨rfl, rfl⟩ := h
      exact ⟨rfl, by simpa using hk⟩
  | node k cs => simp [Tree.strip] at h

theorem strip_node {x : Tree} {k : SyntaxKind} {cs : List Tree} (h : x.strip = [.node k cs]) : ∃ ds, x = .node k ds ∧ stripAll ds = cs := by
  cases x with
  | token k' t' =>
    by_cases hk : k'.isTrivia = true <;> simp [Tree.strip, hk] at h
  | node k' ds =>
    simp [Tree.strip] at h
    exact ⟨ds, by rw [h.1], h.2⟩

/-! ## Tokens of elements -/

/-- The number of bytes of tokens. -/
def width (T : List Token) : Nat := byteLen (T.map (·.text)).flatten

theorem width_nil : width [] = 0 := rfl
theorem width_cons (t : Token) (T : List Token) : width (t :: T) = byteLen t.text + width T := by simp [width, byteLen_append]
theorem width_append (T U : List Token) : width (T ++ U) = width T + width U := by simp [width, byteLen_append]

theorem contiguous_append {T U : List Token} : ∀ {a e}, Contiguous a (T ++ U) e →
    Contiguous a T (a + width T) ∧ Contiguous (a + width T) U e := by
  induction T with
  | nil => exact fun h => ⟨.nil _, h⟩
  | cons t T ih =>
    intro a e h
    cases h with
    | cons h1 h2 h3 =>
      obtain ⟨h4, h5⟩ := ih h3
      rw [width_cons, ← Nat.add_assoc, ← h2]
      exact ⟨.cons h1 h2 h4, h5⟩

theorem covers_split {ls ms : List (SyntaxKind × Text)} : ∀ {T : List Token}, Covers (ls ++ ms) T →
    ∃ T1 T2, T = T1 ++ T2 ∧ Covers ls T1 ∧ Covers ms T2 := by
  induction ls with
  | nil => exact fun h => ⟨[], _, rfl, .nil, h⟩
  | cons l ls ih =>
    intro T h
    cases h with
    | same t h => obtain ⟨T1, T2, rfl, h1, h2⟩ := ih h; exact ⟨t :: T1, T2, rfl, .same t h1, h2⟩
    | word t hk h => obtain ⟨T1, T2, rfl, h1, h2⟩ := ih h; exact ⟨t :: T1, T2, rfl, .word t hk h1, h2⟩
    | merged t u hk hu h => obtain ⟨T1, T2, rfl, h1, h2⟩ := ih h; exact ⟨t :: u :: T1, T2, rfl, .merged t u hk hu h1, h2⟩

theorem covers_trivia {ls : List (SyntaxKind × Text)} {T : List Token} (h : Covers ls T) :
    (∀ l ∈ ls, l.1.isTrivia = true) → ∀ t ∈ T, t.kind.isTrivia = true := by
  induction h with
  | nil => intro _ t h; cases h
  | same t _ ih => exact fun h => List.forall_mem_cons.2 ⟨h (t.kind, t.text) (by simp), ih (fun l hl => h l (List.mem_cons_of_mem _ hl))⟩
  | word t _ _ _ => intro h; have := h _ List.mem_cons_self; cases this
  | merged t u _ _ _ _ => intro h; have := h _ List.mem_cons_self; cases this

theorem covers_width {es : List Elem} {T : List Token} (h : Covers (elemLeaves es) T) : width T = byteLen (elemText es) := by
  rw [elemText_leaves, h.text]; rfl

/-- Elements `es` from an offset on, which stand for the tokens `T`; behind them are the tokens `R`. The
solid tokens are `u` and then `w`. -/
structure Stretch (a : Nat) (es : List Elem) (T R u w : List Token) (e : Nat) : Prop where
  row : InRow a es
  covers : Covers (elemLeaves es) T
  cont : Contiguous a (T ++ R) e
  full : ∀ t ∈ T ++ R, t.text ≠ []
  quote : ∀ t ∈ T ++ R, ∀ q, QuoteChar q → t.kind = quoteKind q → t.text = [q]
  sig : (T ++ R).filter solid = u ++ w

variable {a e' : Nat} {e : Elem} {es fs tv : List Elem} {T R u v w : List Token} {t : Token}

theorem solid_none (h : ∀ t ∈ T, t.kind.isTrivia = true) : T.filter solid = [] :=
  List.filter_eq_nil_iff.2 (fun t ht => by simp [solid, h t ht])

theorem Stretch.trivia (h : Stretch a (tv ++ es) T R u w e') (ht : ∀ e ∈ tv, IsTriviaElem e) :
    ∃ T0 T1, T = T0 ++ T1 ∧ (∀ t ∈ T0, t.kind.isTrivia = true) ∧ width T0 = byteLen (elemText tv) ∧
      Contiguous a T0 (a + width T0) ∧ (∀ t ∈ T0, t.text ≠ []) ∧ Stretch (a + width T0) es T1 R u w e' := by
  have hc := h.covers
  rw [elemLeaves_append] at hc
  obtain ⟨T0, T1, rfl, h1, h2⟩ := covers_split hc
  have htr := covers_trivia h1 (fun l hl => by
    obtain ⟨e, he, hle⟩ := List.mem_flatMap.1 hl
    obtain ⟨k, t, h3, h4⟩ := ht e he
    rw [h3] at hle
    cases List.mem_singleton.1 hle
    exact h4)
  have hw := covers_width h1
  have hcont := h.cont
  rw [List.append_assoc] at hcont
  obtain ⟨h3, h4⟩ := contiguous_append hcont
  refine ⟨T0, T1, rfl, htr, hw, h3, fun t ht => h.full t (by simp [ht]), ?_, h2, h4, fun t ht => h.full t ?_, fun t ht => h.quote t ?_, ?_⟩
  · rw [hw]; exact (inRow_append.1 h.row).2
  · rw [List.append_assoc]; exact List.mem_append_right _ ht
  · rw [List.append_assoc]; exact List.mem_append_right _ ht
  · rw [← h.sig, List.append_assoc, List.filter_append (l₁ := T0), solid_none htr]; rfl

theorem Stretch.token {k : SyntaxKind} (h : Stretch a (e :: es) T R (t :: u) w e') (he : e.tree = .token k t.text)
    (hk : k.isTrivia = false) : ∃ T1, T = t :: T1 ∧ e.start = a ∧ t.range.start = a ∧ t.range.stop = a + byteLen t.text ∧ t.text ≠ [] ∧
      solid t = true ∧ Stretch (a + byteLen t.text) es T1 R u w e' := by
  have hc : Covers (e.tree.leaves ++ elemLeaves es) T := h.covers
  rw [he] at hc
  have hc : Covers ((k, t.text) :: elemLeaves es) T := hc
  have hsig := h.sig
  have hcont := h.cont
  have hfull := h.full
  have key : ∀ {c T1}, T = c :: T1 → c.kind.isTrivia = false → c = t ∧ (T1 ++ R).filter solid = u ++ w := by
    intro c T1 hT hc
    rw [hT, List.cons_append, List.filter_cons_of_pos (by simp [solid, hc])] at hsig
    injection hsig with h1 h2
    exact ⟨h1, h2⟩
  have fin : ∀ {T1}, T = t :: T1 → t.kind.isTrivia = false → Covers (elemLeaves es) T1 → (T1 ++ R).filter solid = u ++ w →
      ∃ T1, T = t :: T1 ∧ e.start = a ∧ t.range.start = a ∧ t.range.stop = a + byteLen t.text ∧ t.text ≠ [] ∧
        solid t = true ∧ Stretch (a + byteLen t.text) es T1 R u w e' := by
    intro T1 hT hk hc0 hs
    clear key
    subst hT
    cases hcont with
    | cons h1 h2 h3 =>
      refine ⟨T1, rfl, h.row.1, h1, h2, hfull t (by simp), by simp [solid, hk], ?_, hc0, h2 ▸ h3, fun t ht => hfull t (List.mem_cons_of_mem _ ht), fun t ht => h.quote t (List.mem_cons_of_mem _ ht), hs⟩
      have := h.row.2
      rwa [show e.text = t.text by unfold Elem.text; rw [he]; rfl] at this
  generalize hx : t.text = x at hc
  cases hc with
  | same c hc' => obtain ⟨rfl, h1⟩ := key rfl hk; exact fin rfl hk hc' h1
  | word c hk' hc' => obtain ⟨rfl, h1⟩ := key rfl hk'; exact fin rfl hk' hc' h1
  | merged c d hk' _ hc' =>
    obtain ⟨rfl, h1⟩ := key rfl (by rw [hk']; decide)
    have := hfull d (by simp)
    exact absurd (List.self_eq_append_right.1 hx) this

theorem Stretch.two {k : SyntaxKind} {c : Token} (h : Stretch a (e :: es) T R (c :: t :: u) w e') (he : e.tree = .token k (c.text ++ t.text))
    (hk : k.isTrivia = false) (hadj : Adjacent c t) : ∃ T1, T = c :: t :: T1 ∧ Contiguous a [c, t] (a + width [c, t]) ∧ c.text ≠ [] ∧ t.text ≠ [] ∧
      solid c = true ∧ solid t = true ∧ Stretch (a + width [c, t]) es T1 R u w e' := by
  have hc : Covers (e.tree.leaves ++ elemLeaves es) T := h.covers
  rw [he] at hc
  have hc : Covers ((k, c.text ++ t.text) :: elemLeaves es) T := hc
  have hsig := h.sig
  have hcont := h.cont
  have hfull := h.full
  have htm : t ∈ T ++ R := (List.mem_filter (p := solid).1 (by rw [hsig]; simp)).1
  have ht := hfull t htm
  have key : ∀ {d T1}, T = d :: T1 → d.kind.isTrivia = false → d = c ∧ (T1 ++ R).filter solid = t :: (u ++ w) := by
    intro d T1 hT hc
    rw [hT, List.cons_append, List.filter_cons_of_pos (by simp [solid, hc])] at hsig
    injection hsig with h1 h2
    exact ⟨h1, h2⟩
  generalize hx : c.text ++ t.text = x at hc
  cases hc with
  | same d hc' =>
    obtain ⟨rfl, h1⟩ := key rfl hk
    exact absurd (List.append_right_eq_self.1 hx) ht
  | word d hk' hc' =>
    obtain ⟨rfl, h1⟩ := key rfl hk'
    exact absurd (List.append_right_eq_self.1 hx) ht
  | @merged _ T1 d f hk' _ hc' =>
    obtain ⟨rfl, h1⟩ := key rfl (by rw [hk']; decide)
    cases hcont with
    | cons c1 c2 c3 =>
    cases hf : f.kind.isTrivia with
    | true =>
      have h1 : (T1 ++ R).filter solid = t :: (u ++ w) := by
        rw [← h1, List.cons_append, List.filter_cons_of_neg (by simp [solid, hf])]
      have hm : t ∈ T1 ++ R := (List.mem_filter (p := solid).1 (by rw [h1]; simp)).1
      cases c3 with
      | cons d1 d2 d3 =>
        have h2 := (contiguous_nodup d3 (fun t ht => hfull t (by simp at ht ⊢; simp [ht]))).2 t hm
        have h3 := Layout.byteLen_pos (hfull f (by simp))
        unfold Adjacent at hadj
        omega
    | false =>
      rw [List.cons_append, List.filter_cons_of_pos (by simp [solid, hf])] at h1
      injection h1 with h1 h2
      subst h1
      cases c3 with
      | cons d1 d2 d3 =>
        have hw : width [d, f] = byteLen d.text + byteLen f.text := by simp [width_cons, width_nil]
        refine ⟨T1, rfl, .cons c1 c2 (.cons d1 d2 ?_), hfull d (by simp), ht, by rw [solid, hk']; decide, by simp [solid, hf], ?_, hc', ?_,
          fun t ht => hfull t (by simp at ht ⊢; simp [ht]), fun t ht => h.quote t (by simp at ht ⊢; simp [ht]), h2⟩
        · have : f.range.stop = a + width [d, f] := by omega
          rw [this]; exact .nil _
        · have := h.row.2
          rw [hw, ← byteLen_append]
          rwa [show e.text = d.text ++ f.text by unfold Elem.text; rw [he]; rfl] at this
        · have : f.range.stop = a + width [d, f] := by omega
          exact this ▸ d3

theorem Stretch.kids {k : SyntaxKind} {cs : List Tree} (h : Stretch a (e :: es) T R u w e') (he : e.tree = .node k cs) :
    Stretch a (e.childrenWithTokens ++ es) T R u w e' where
  row := by
    rw [inRow_append, kids_text he]
    have := (Template.kids he).2
    rw [h.row.1] at this
    exact ⟨this, h.row.2⟩
  covers := by
    rw [elemLeaves_append, kids_leaves he]
    exact h.covers
  cont := h.cont
  full := h.full
  quote := h.quote
  sig := h.sig

theorem Stretch.split (h : Stretch a (es ++ fs) T R (u ++ v) w e') : ∃ T1 T2, T = T1 ++ T2 ∧ Stretch a es T1 (T2 ++ R) u (v ++ w) e' ∧
    (T1.filter solid = u → Stretch (a + width T1) fs T2 R v w e') := by
  have hc := h.covers
  rw [elemLeaves_append] at hc
  obtain ⟨T1, T2, rfl, h1, h2⟩ := covers_split hc
  have hcont := h.cont
  rw [List.append_assoc] at hcont
  refine ⟨T1, T2, rfl, ⟨(inRow_append.1 h.row).1, h1, hcont, ?_, ?_, ?_⟩, fun hs => ⟨?_, h2, (contiguous_append hcont).2, ?_, ?_, ?_⟩⟩
  · rw [← List.append_assoc]; exact h.full
  · rw [← List.append_assoc]; exact h.quote
  · rw [← List.append_assoc, ← List.append_assoc]; exact h.sig
  · rw [covers_width h1]; exact (inRow_append.1 h.row).2
  · exact fun t ht => h.full t (by rw [List.append_assoc]; exact List.mem_append_right _ ht)
  · exact fun t ht => h.quote t (by rw [List.append_assoc]; exact List.mem_append_right _ ht)
  · have := h.sig
    rw [List.append_assoc, List.filter_append (l₁ := T1), hs, List.append_assoc] at this
    exact List.append_cancel_left this

/-! ## Cells -/

/-- A cell as a piece of the text. -/
def Cell.piece : Cell → Piece
  | .keep t => ⟨t.text, none⟩
  | .swap t q => ⟨t.text, some [q]⟩
  | .ins _ q => ⟨[], some [q]⟩

/-- The suggestions for cells. -/
def cellSugs (a : Nat) (cs : List Cell) : List Suggestion := pieceSuggestions a (cs.map Cell.piece)

/-- Tokens that stay. -/
def keeps (T : List Token) : List Cell := T.map Cell.keep

theorem old_append (cs ds : List Cell) : oldToks (cs ++ ds) = oldToks cs ++ oldToks ds := List.flatMap_append

theorem old_keeps (T : List Token) : oldToks (keeps T) = T := by
  induction T with
  | nil => rfl
  | cons t T ih => show [t] ++ oldToks (keeps T) = _; rw [ih]; rfl

theorem cells_before (cs : List Cell) : piecesBefore (cs.map Cell.piece) = ((oldToks cs).map (·.text)).flatten := by
  induction cs with
  | nil => rfl
  | cons c cs ih =>
    show c.piece.old ++ piecesBefore (cs.map Cell.piece) = ((c.old ++ oldToks cs).map (·.text)).flatten
    rw [ih]
    cases c <;> simp [Cell.piece, Cell.old]

theorem cells_after (cs : List Cell) : piecesAfter (cs.map Cell.piece) = newText cs := by
  induction cs with
  | nil => rfl
  | cons c cs ih =>
    show c.piece.new.getD c.piece.old ++ piecesAfter (cs.map Cell.piece) = c.new.2 ++ newText cs
    rw [ih]
    cases c <;> rfl

theorem cellSugs_append (a : Nat) (cs ds : List Cell) :
    cellSugs a (cs ++ ds) = cellSugs a cs ++ cellSugs (a + width (oldToks cs)) ds := by
  unfold cellSugs
  rw [List.map_append, pieceSuggestions_append, cells_before]
  rfl

theorem cellSugs_keeps (T : List Token) : ∀ a, cellSugs a (keeps T) = [] := by
  induction T with
  | nil => exact fun _ => rfl
  | cons t T ih => exact fun a => ih _

theorem lies_append {cs ds : List Cell} : ∀ {a}, Lies a cs → Lies (a + width (oldToks cs)) ds → Lies a (cs ++ ds) := by
  induction cs with
  | nil => exact fun _ h => h
  | cons c cs ih =>
    intro a h h'
    cases c with
    | keep t =>
      refine ⟨h.1, h.2.1, h.2.2.1, ih h.2.2.2 ?_⟩
      have h' : Lies (a + width (t :: oldToks cs)) ds := h'
      rwa [width_cons, ← Nat.add_assoc, ← h.2.1] at h'
    | swap t q =>
      refine ⟨h.1, h.2.1, h.2.2.1, ih h.2.2.2 ?_⟩
      have h' : Lies (a + width (t :: oldToks cs)) ds := h'
      rwa [width_cons, ← Nat.add_assoc, ← h.2.1] at h'
    | ins p q => exact ⟨h.1, ih h.2 h'⟩

theorem lies_keeps : ∀ {T : List Token} {a e}, Contiguous a T e → (∀ t ∈ T, t.text ≠ []) → Lies a (keeps T)
  | [], _, _, _, _ => trivial
  | t :: T, a, e, .cons h1 h2 h3, h => ⟨h1, h2, h t (by simp), lies_keeps h3 (fun t ht => h t (List.mem_cons_of_mem _ ht))⟩

theorem sits_keeps : ∀ {T : List Token} {ds : List Cell} {b : Bool}, Sits false ds → Sits b (keeps T ++ ds)
  | [], _, _, h => h.mono
  | _ :: T, _, _, h => sits_keeps (T := T) h

theorem sigs_append (cs ds : List Cell) : (cs ++ ds).filter Cell.sig = cs.filter Cell.sig ++ ds.filter Cell.sig := List.filter_append ..

theorem sigs_trivia (h : ∀ t ∈ T, t.kind.isTrivia = true) : (keeps T).filter Cell.sig = [] :=
  List.filter_eq_nil_iff.2 (fun c hc => by
    obtain ⟨t, ht, rfl⟩ := List.mem_map.1 hc
    simp [Cell.sig, Cell.new, h t ht])

/-! ## Where whitespace stands -/

/-- What may be behind whitespace: nothing, a token or an interpolation. -/
def Followed (es : List Elem) : Prop :=
  ∀ e fs, es = e :: fs → (∃ k t, e.tree = .token k t) ∨ ∃ cs, e.tree = .node .TWIG_LITERAL_STRING_INTERPOLATION cs

/-- Whitespace is at the end or before a token or an interpolation, in the row and in its trees. -/
structure RowFine (es : List Elem) : Prop where
  attached : ∀ e ∈ es, Shape.Attached e.tree
  quoted : ∀ e ∈ es, Shape.QuotedTree e.tree
  behind : ∀ l x r, es = l ++ x :: r → IsTriviaElem x → Followed r

section
variable {es fs tv : List Elem} {e : Elem} {k : SyntaxKind} {cs : List Tree}

theorem RowFine.right (h : RowFine (es ++ fs)) : RowFine fs where
  attached := fun e he => h.attached e (by simp [he])
  quoted := fun e he => h.quoted e (by simp [he])
  behind := fun l x r he => h.behind (es ++ l) x r (by rw [he, List.append_assoc])

theorem RowFine.left (h : RowFine (es ++ fs)) : RowFine es where
  attached := fun e he => h.attached e (by simp [he])
  quoted := fun e he => h.quoted e (by simp [he])
  behind := by
    intro l x r he hx e r' hr
    subst hr
    exact h.behind l x (e :: r' ++ fs) (by rw [he]; simp) hx e (r' ++ fs) rfl

theorem RowFine.rest (h : RowFine (e :: es)) : RowFine es := RowFine.right (es := [e]) h

theorem attachedAll_mem {ts : List Tree} (h : Shape.AttachedAll ts) : ∀ t ∈ ts, Shape.Attached t := by
  induction ts with
  | nil => intro t ht; cases ht
  | cons t ts ih => exact List.forall_mem_cons.2 ⟨h.1, ih h.2⟩

theorem quotedAll_mem {ts : List Tree} (h : Shape.QuotedAll ts) : ∀ t ∈ ts, Shape.QuotedTree t := by
  induction ts with
  | nil => intro t ht; cases ht
  | cons t ts ih => exact List.forall_mem_cons.2 ⟨h.1, ih h.2⟩

theorem kids_behind (he : e.tree = .node k cs) (h : Shape.Attached e.tree) {l r : List Elem} {x : Elem} (hl : e.childrenWithTokens = l ++ x :: r)
    (hx : IsTriviaElem x) : Shape.BehindTrivia k (r.map (·.tree)) := by
  rw [he] at h
  have := (kids he).1
  rw [hl, List.map_append, List.map_cons] at this
  obtain ⟨k', t, h1, h2⟩ := hx
  exact h.1 _ _ _ this.symm (by rw [h1]; exact h2)

theorem kids_fine (he : e.tree = .node k cs) (h1 : Shape.Attached e.tree) (h2 : Shape.QuotedTree e.tree) : RowFine e.childrenWithTokens where
  attached := by
    intro x hx
    have := (kids he).1
    rw [he] at h1
    exact attachedAll_mem h1.2 _ (this ▸ List.mem_map.2 ⟨x, hx, rfl⟩)
  quoted := by
    intro x hx
    have := (kids he).1
    rw [he] at h2
    exact quotedAll_mem h2.2 _ (this ▸ List.mem_map.2 ⟨x, hx, rfl⟩)
  behind := by
    intro l x r hl hx y r' hr
    subst hr
    rcases kids_behind he h1 hl hx with ⟨k', t, _, h⟩ | ⟨h, _⟩ | ⟨_, ds, _, h⟩
    · exact .inl ⟨k', t, (List.cons.inj h).1⟩
    · cases h
    · exact .inr ⟨ds, (List.cons.inj h).1⟩

theorem RowFine.inside (h : RowFine (e :: es)) (he : e.tree = .node k cs) : RowFine e.childrenWithTokens :=
  kids_fine he (h.attached e (by simp)) (h.quoted e (by simp))

theorem RowFine.kids (h : RowFine (e :: es)) (he : e.tree = .node k cs) (hk : k ∉ textKinds) : RowFine (e.childrenWithTokens ++ es) where
  attached := fun x hx => (List.mem_append.1 hx).elim ((h.inside he).attached x) (h.rest.attached x)
  quoted := fun x hx => (List.mem_append.1 hx).elim ((h.inside he).quoted x) (h.rest.quoted x)
  behind := by
    intro l x r hl hx
    rcases List.append_eq_append_iff.1 hl with ⟨m, h1, h2⟩ | ⟨m, h1, h2⟩
    · exact h.rest.behind m x r h2 hx
    · cases m with
      | nil => exact h.rest.behind [] x r (by simpa using h2.symm) hx
      | cons y m =>
        obtain ⟨rfl, rfl⟩ := List.cons.inj h2
        intro z r' hr
        rcases kids_behind he (h.attached e (by simp)) h1 hx with ⟨k', t, _, h3⟩ | ⟨_, h3⟩ | ⟨_, ds, _, h3⟩
        · cases m with
          | nil => cases h3
          | cons w m =>
            obtain ⟨rfl, _⟩ := List.cons.inj hr
            exact .inl ⟨k', t, (List.cons.inj h3).1⟩
        · refine absurd ?_ hk
          simp only [List.mem_cons, List.not_mem_nil, or_false] at h3
          rcases h3 with rfl | rfl | rfl <;> decide
        · cases m with
          | nil => cases h3
          | cons w m =>
            obtain ⟨rfl, _⟩ := List.cons.inj hr
            exact .inr ⟨ds, (List.cons.inj h3).1⟩

/-- There is no whitespace before a node, except for interpolations. -/
theorem RowFine.none (h : RowFine (tv ++ e :: es)) (ht : ∀ x ∈ tv, IsTriviaElem x) (he : e.tree = .node k cs)
    (hk : k ≠ .TWIG_LITERAL_STRING_INTERPOLATION) : tv = [] := by
  rcases List.eq_nil_or_concat tv with h' | ⟨tv', x, rfl⟩
  · exact h'
  · exfalso
    rcases h.behind tv' x (e :: es) (by simp) (ht x (by simp)) e es rfl with ⟨k', t, h1⟩ | ⟨ds, h1⟩ <;> rw [he] at h1 <;> cases h1
    exact hk rfl

/-- There is no whitespace at the end of most nodes. -/
theorem RowFine.end (h : RowFine (e :: es)) (he : e.tree = .node k cs) (hk : k ∉ textKinds) {l : List Elem} (hl : e.childrenWithTokens = l ++ tv)
    (ht : ∀ x ∈ tv, IsTriviaElem x) : tv = [] := by
  rcases List.eq_nil_or_concat tv with h' | ⟨tv', x, rfl⟩
  · exact h'
  · exfalso
    rcases kids_behind he (h.attached e (by simp)) (l := l ++ tv') (r := []) (by rw [hl]; simp) (ht x (by simp)) with ⟨_, _, _, h1⟩ | ⟨_, h1⟩ | ⟨_, _, _, h1⟩
    · cases h1
    · refine hk ?_
      simp only [List.mem_cons, List.not_mem_nil, or_false] at h1
      rcases h1 with rfl | rfl | rfl <;> decide
    · cases h1

end

/-- Tokens cut into cells. -/
structure Cut (a : Nat) (T : List Token) (cs : List Cell) (g : List (Token × List Cell)) : Prop where
  old : oldToks cs = T
  good : Sits false cs
  places : Lies a cs
  sigs : cs.filter Cell.sig = g.flatMap (·.2)
  keys : g.map (·.1) = T.filter solid
  groups : ∀ p ∈ g, GroupOk p

variable {cs ds : List Cell} {g g' : List (Token × List Cell)} {U : List Token}

theorem Cut.append (h : Cut a T cs g) (h' : Cut (a + width T) U ds g') : Cut a (T ++ U) (cs ++ ds) (g ++ g') where
  old := by rw [old_append, h.old, h'.old]
  good := h'.good.append h.good
  places := lies_append h.places (by rw [h.old]; exact h'.places)
  sigs := by rw [sigs_append, h.sigs, h'.sigs, List.flatMap_append]
  keys := by rw [List.map_append, h.keys, h'.keys, List.filter_append]
  groups := fun p hp => (List.mem_append.1 hp).elim (h.groups p) (h'.groups p)

theorem Cut.trivia (h1 : Contiguous a T e') (h2 : ∀ t ∈ T, t.text ≠ []) (h3 : ∀ t ∈ T, t.kind.isTrivia = true) : Cut a T (keeps T) [] where
  old := old_keeps T
  good := by have := sits_keeps (T := T) (ds := []) (b := false) trivial; simpa using this
  places := lies_keeps h1 h2
  sigs := sigs_trivia h3
  keys := (solid_none h3).symm
  groups := fun p hp => by cases hp

theorem Cut.keep (h1 : t.range.start = a) (h2 : t.range.stop = a + byteLen t.text) (h3 : t.text ≠ []) (h4 : solid t = true) :
    Cut a [t] [.keep t] [(t, [.keep t])] where
  old := rfl
  good := trivial
  places := ⟨h1, h2, h3, trivial⟩
  sigs := by rw [List.filter_cons_of_pos (show Cell.sig (.keep t) = true from h4)]; rfl
  keys := by rw [List.filter_cons_of_pos h4]; rfl
  groups := fun p hp => by cases List.mem_singleton.1 hp; exact .keep

theorem quoteKind_sig (q : Char) : (quoteKind q).isTrivia = false := by
  unfold quoteKind
  split <;> decide

theorem Cut.swap {q : Char} (h1 : t.range.start = a) (h2 : t.range.stop = a + byteLen t.text) (h3 : byteLen t.text = 1) (h4 : solid t = true)
    (h5 : t.kind ∈ quotes) (h6 : QuoteChar q) : Cut a [t] [.swap t q] [(t, [.swap t q])] where
  old := rfl
  good := ⟨h5, h6, trivial⟩
  places := ⟨h1, h2, h3, trivial⟩
  sigs := by rw [List.filter_cons_of_pos (by simp [Cell.sig, Cell.new, quoteKind_sig])]; rfl
  keys := by rw [List.filter_cons_of_pos h4]; rfl
  groups := fun p hp => by cases List.mem_singleton.1 hp; exact .swap h5 h6

end Ludtwig.Template
