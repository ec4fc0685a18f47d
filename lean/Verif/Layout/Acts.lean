import Verif.Layout.Cells
import Verif.Layout.LineSuggestions
import Verif.Syntax.Places

/-!
# Edits of cells and edits of a text

The cells after edits have the text that the suggestions make of the file, and the leaves of a file are
as long as possible.
-/

namespace Ludtwig.Layout

open Lexer Cli

variable {M : Type}

/-- The pieces of a file that edits cut it into. -/
def piecesOf : Bool → List (Cell M × Option Text) → List Piece
  | _, [] => []
  | b, (c, a) :: l =>
    (match a with
      | none => [⟨c.text, none⟩]
      | some n =>
        if b && c.kind != .TK_LINE_BREAK then
          if c.kind == .TK_WHITESPACE then [⟨c.text, some n⟩] else [⟨[], some n⟩, ⟨c.text, none⟩]
        else [⟨c.text, none⟩]) ++ piecesOf (c.kind == .TK_LINE_BREAK) l

theorem pieces_text : ∀ (l : List (Cell M × Option Text)) (b : Bool),
    piecesAfter (piecesOf b l) = cellText (edited b l)
  | [], _ => rfl
  | (c, a) :: l, b => by
    have ih := pieces_text l (c.kind == .TK_LINE_BREAK)
    unfold piecesOf edited
    simp only [piecesAfter, cellText] at ih ⊢
    rw [List.flatMap_append, List.flatMap_append, ih]
    congr 1
    cases a with
    | none => rfl
    | some n =>
      dsimp only
      split
      · split <;> simp
      · rfl

/-- The leaf of a cell. -/
def Cell.pair (c : Cell M) : SyntaxKind × Text := (c.kind, c.text)

theorem pieces_edits : ∀ (l : List (Cell M × Option Text)) (b : Bool), BlankEdits l →
    Edits b (l.map (fun p => p.1.pair)) (piecesOf b l)
  | [], _, _ => .nil
  | (c, a) :: l, b, h => by
    have ih := pieces_edits l (c.kind == .TK_LINE_BREAK) (fun p hp => h p (List.mem_cons_of_mem _ hp))
    rw [List.map_cons]
    cases a with
    | none => exact .keep ih
    | some n =>
      have hb : Blanks n := blanks_of_chars (h (c, some n) List.mem_cons_self n rfl)
      cases b with
      | false => exact .keep ih
      | true =>
        rcases kind_cases c with hk | hk | hk
        · rw [hk] at ih
          have e : piecesOf true ((c, some n) :: l) = ⟨c.text, some n⟩ :: piecesOf false l := by
            simp [piecesOf, hk]; rfl
          rw [e]
          show Edits true ((c.kind, c.text) :: _) _
          rw [hk]
          exact .space hb ih
        · have e : piecesOf true ((c, some n) :: l) =
              ⟨c.text, none⟩ :: piecesOf (c.kind == .TK_LINE_BREAK) l := by
            simp [piecesOf, hk]
          rw [e]
          exact .keep ih
        · have h1 : ¬ c.kind = .TK_LINE_BREAK := by intro h; rw [h] at hk; cases hk
          have h2 : ¬ c.kind = .TK_WHITESPACE := by intro h; rw [h] at hk; cases hk
          have e : piecesOf true ((c, some n) :: l) =
              ⟨[], some n⟩ :: ⟨c.text, none⟩ :: piecesOf false l := by
            simp [piecesOf, h1, h2, kind_ne_lb hk]
          rw [e]
          rw [kind_ne_lb hk] at ih
          exact .insert hk hb ih

/-! ## Suggestions and edits -/

/-- What suggestions do at a place. -/
def actAt (sugs : List Suggestion) (pos : Nat) : Option Text :=
  (sugs.find? (fun s => s.range.start == pos)).map (·.replaceWith)

theorem pieceSuggestions_start : ∀ (ps : List Piece) (pos : Nat), ∀ s ∈ pieceSuggestions pos ps,
    pos ≤ s.range.start
  | [], pos, s, h => by cases h
  | p :: ps, pos, s, h => by
    rw [pieceSuggestions, List.mem_append] at h
    rcases h with h | h
    · cases hn : p.new with
      | none => rw [hn] at h; cases h
      | some t =>
        rw [hn] at h
        simp only [List.mem_singleton] at h
        subst h
        exact Nat.le_refl _
    · have := pieceSuggestions_start ps _ s h
      omega

theorem actAt_none {sugs : List Suggestion} {pos : Nat} (h : ∀ s ∈ sugs, s.range.start ≠ pos) :
    actAt sugs pos = none := by
  unfold actAt
  rw [List.find?_eq_none.mpr (fun s hs => by simpa using h s hs)]
  rfl

theorem actAt_append {a b : List Suggestion} {pos : Nat} (h : ∀ s ∈ a, s.range.start < pos) :
    actAt (a ++ b) pos = actAt b pos := by
  unfold actAt
  rw [List.find?_append, List.find?_eq_none.mpr (fun s hs => by have := h s hs; simp; omega)]
  rfl

theorem actAt_mem {sugs : List Suggestion} {pos : Nat} {n : Text} (h : actAt sugs pos = some n) :
    ∃ s ∈ sugs, s.range.start = pos ∧ s.replaceWith = n := by
  unfold actAt at h
  obtain ⟨s, hs, rfl⟩ := Option.map_eq_some_iff.1 h
  exact ⟨s, List.mem_of_find?_eq_some hs, by simpa using List.find?_some hs, rfl⟩

/-- Suggestions at different places. -/
theorem actAt_some {sugs : List Suggestion} (hp : sugs.Pairwise (fun x y => x.range.start ≠ y.range.start))
    {s : Suggestion} (hs : s ∈ sugs) : actAt sugs s.range.start = some s.replaceWith := by
  induction sugs with
  | nil => cases hs
  | cons x l ih =>
    rw [List.pairwise_cons] at hp
    unfold actAt
    rw [List.find?_cons]
    rcases List.mem_cons.1 hs with rfl | hs
    · simp
    · have := hp.1 s hs
      rw [show (x.range.start == s.range.start) = false by simpa using this]
      exact ih hp.2 hs

/-- The pieces of a file are the ones of its cells, each with what the suggestions do at its place. -/
theorem edits_pieces {sugs : List Suggestion} {b : Bool} {ls : List (SyntaxKind × Text)}
    {ps : List Piece} (h : Edits b ls ps) : (∀ l ∈ ls, l.2 ≠ []) → ∀ (pos : Nat) (early : List Suggestion)
    (cs : List (Nat × Cell M)),
    sugs = early ++ pieceSuggestions pos ps → (∀ s ∈ early, s.range.start < pos) →
    cs.map (fun c => (c.1, c.2.pair)) = placed pos ls →
    ps = piecesOf b (cs.map (fun c => (c.2, actAt sugs c.1))) := by
  have split : ∀ {pos : Nat} {k : SyntaxKind} {t : Text} {ls : List (SyntaxKind × Text)}
      {cs : List (Nat × Cell M)}, cs.map (fun c => (c.1, c.2.pair)) = placed pos ((k, t) :: ls) →
      ∃ c cs', cs = (pos, c) :: cs' ∧ c.kind = k ∧ c.text = t ∧
        cs'.map (fun c => (c.1, c.2.pair)) = placed (pos + byteLen t) ls := by
    intro pos k t ls cs h
    cases cs with
    | nil => cases h
    | cons c cs =>
      obtain ⟨n, c⟩ := c
      simp only [List.map_cons, placed, List.cons.injEq, Prod.mk.injEq, Cell.pair] at h
      obtain ⟨⟨rfl, rfl, rfl⟩, h⟩ := h
      exact ⟨c, cs, rfl, rfl, rfl, h⟩
  induction h with
  | nil =>
    intro _ pos early cs _ _ hc
    cases cs with
    | nil => rfl
    | cons c cs => cases hc
  | @keep b k t ls ps h ih =>
    intro hne pos early cs hs he hc
    obtain ⟨c, cs, rfl, rfl, rfl, hc⟩ := split hc
    have hpos := byteLen_pos (hne _ List.mem_cons_self)
    dsimp only at hpos
    rw [pieceSuggestions, List.nil_append] at hs
    dsimp only at hs
    have ih := ih (fun l hl => hne l (List.mem_cons_of_mem _ hl)) _ early cs hs
      (fun s h => by have := he s h; omega) hc
    have ha : actAt sugs pos = none := by
      rw [hs, actAt_append he]
      exact actAt_none (fun s h => by have := pieceSuggestions_start _ _ s h; omega)
    rw [List.map_cons, ha, piecesOf, ← ih]
    rfl
  | @space t new ls ps hb h ih =>
    intro hne pos early cs hs he hc
    obtain ⟨c, cs, rfl, hk, rfl, hc⟩ := split hc
    have hpos := byteLen_pos (hne _ List.mem_cons_self)
    dsimp only at hpos
    rw [pieceSuggestions] at hs
    dsimp only at hs
    have ih := ih (fun l hl => hne l (List.mem_cons_of_mem _ hl)) _
      (early ++ [⟨⟨pos, pos + byteLen c.text⟩, new⟩]) cs (by rw [hs]; simp)
      (fun s h => by
        rcases List.mem_append.1 h with h | h
        · have := he s h; omega
        · simp only [List.mem_singleton] at h; subst h; dsimp only; omega) hc
    have ha : actAt sugs pos = some new := by
      rw [hs, actAt_append he]
      simp [actAt]
    rw [List.map_cons, ha, piecesOf, hk]
    simp only [show (SyntaxKind.TK_WHITESPACE == SyntaxKind.TK_LINE_BREAK) = false from rfl]
    rw [← ih]
    rfl
  | @insert k t new ls ps hk hb h ih =>
    intro hne pos early cs hs he hc
    obtain ⟨c, cs, rfl, rfl, rfl, hc⟩ := split hc
    have hpos := byteLen_pos (hne _ List.mem_cons_self)
    dsimp only at hpos
    rw [pieceSuggestions, pieceSuggestions] at hs
    simp only [byteLen_nil, Nat.add_zero, List.nil_append] at hs
    have ih := ih (fun l hl => hne l (List.mem_cons_of_mem _ hl)) _
      (early ++ [⟨⟨pos, pos⟩, new⟩]) cs (by rw [hs]; simp)
      (fun s h => by
        rcases List.mem_append.1 h with h | h
        · have := he s h; omega
        · simp only [List.mem_singleton] at h; subst h; dsimp only; omega) hc
    have ha : actAt sugs pos = some new := by
      rw [hs, actAt_append he]
      simp [actAt]
    have h1 : ¬ c.kind = .TK_LINE_BREAK := by intro h; rw [h] at hk; cases hk
    have h2 : ¬ c.kind = .TK_WHITESPACE := by intro h; rw [h] at hk; cases hk
    rw [List.map_cons, ha, piecesOf]
    rw [kind_ne_lb hk, ← ih]
    simp [h1, h2]

theorem acts_blank {sugs : List Suggestion} (h : ∀ s ∈ sugs, ∀ c ∈ s.replaceWith, isBlank c = true)
    (cs : List (Nat × Cell M)) : BlankEdits (cs.map (fun c => (c.2, actAt sugs c.1))) := by
  intro p hp n hn
  obtain ⟨c, _, rfl⟩ := List.mem_map.1 hp
  obtain ⟨s, hs, _, rfl⟩ := actAt_mem hn
  exact h s hs

/-! ## The leaves of a file -/

/-- The text of leaves. -/
def leafText (ls : List (SyntaxKind × Text)) : Text := ls.flatMap (·.2)

/-- `Proper` without marks. -/
def ProperLeaves : List (SyntaxKind × Text) → Prop
  | [] => True
  | (k, t) :: r => ProperLeaves r ∧ t ≠ [] ∧
      (k = .TK_WHITESPACE → (∀ x ∈ t, isBlank x = true) ∧ startsWs (leafText r) = false) ∧
      (k = .TK_LINE_BREAK → IsLineBreaks t ∧ startsLb (leafText r) = false) ∧
      (k.isTrivia = false → startsBlank (t ++ leafText r) = false)

theorem covers_text {ls : List (SyntaxKind × Text)} {ts : List Token} (h : Covers ls ts) :
    leafText ls = (ts.map (fun t => (t.kind, t.text))).flatMap (·.2) := by
  induction h with
  | nil => rfl
  | same t _ ih => simp only [leafText] at ih; simp [leafText, ih]
  | word t _ _ ih => simp only [leafText] at ih; simp [leafText, ih]
  | merged t u _ _ _ ih => simp only [leafText] at ih; simp [leafText, ih]

/-- A text whose first token is no whitespace does not start with whitespace. -/
theorem solid_starts {errLen : Text → Nat} (he : ErrLenOk errLen) {s : Text} {x : SyntaxKind × Text}
    {ts : List (SyntaxKind × Text)} (h : Tokenizes errLen s (x :: ts)) (hx : x.1.isTrivia = false) :
    startsBlank s = false := by
  obtain ⟨g, t, rfl, hg, ht⟩ := split_blanks s.length s (Nat.le_refl _)
  obtain ⟨gt, ts2, h1, h2, h3, h4⟩ := tokenizes_gap he hg ht h
  cases gt with
  | nil =>
    rw [← h2]
    exact solid_iff.1 ht
  | cons y gt =>
    rw [List.cons_append, List.cons.injEq] at h1
    have := h3 y List.mem_cons_self
    rw [← h1.1, hx] at this
    cases this

theorem token_maximal {errLen : Text → Nat} {k : SyntaxKind} {t r : Text} {ts : List (SyntaxKind × Text)}
    (h : Tokenizes errLen (t ++ r) ((k, t) :: ts)) :
    (k = .TK_WHITESPACE → (∀ x ∈ t, isBlank x = true) ∧ startsWs r = false) ∧
    (k = .TK_LINE_BREAK → IsLineBreaks t ∧ startsLb r = false) := by
  obtain ⟨h1, h2⟩ := trivia_rule h
  refine ⟨fun hk => ?_, fun hk => ?_⟩
  · obtain ⟨m, hl⟩ := h1 hk
    refine ⟨(whitespace_chars m).2, ?_⟩
    cases hr : startsWs r with
    | false => rfl
    | true =>
      exfalso
      obtain ⟨c, r', rfl, hc⟩ : ∃ c r', r = c :: r' ∧ isBlank c = true := by
        unfold startsWs at hr
        split at hr
        · exact ⟨_, _, rfl, rfl⟩
        · exact ⟨_, _, rfl, rfl⟩
        · cases hr
      have := hl.longest (t ++ [c]) .TK_WHITESPACE ⟨r', by simp⟩
        (.inr ⟨Re.whitespace, by simp [regexRules], Re.matches_plus_set.2 ⟨by simp, fun x hx => by
          rcases List.mem_append.1 hx with hx | hx
          · exact (isBlank_iff x).1 ((whitespace_chars m).2 x hx)
          · simp only [List.mem_singleton] at hx
            subst hx
            exact (isBlank_iff _).1 hc⟩⟩)
      simp at this
      omega
  · obtain ⟨m, hl⟩ := h2 hk
    refine ⟨(lineBreak_items m).1, ?_⟩
    cases hr : startsLb r with
    | false => rfl
    | true =>
      exfalso
      obtain ⟨x, r', rfl, hx⟩ : ∃ x r', r = x ++ r' ∧ (x = ['\n'] ∨ x = ['\r', '\n']) := by
        unfold startsLb at hr
        split at hr
        · exact ⟨['\n'], _, rfl, .inl rfl⟩
        · exact ⟨['\r', '\n'], _, rfl, .inr rfl⟩
        · cases hr
      obtain ⟨⟨l, rfl, hi⟩, hne⟩ := lineBreak_items m
      cases l with
      | nil => exact hne rfl
      | cons y l =>
        have hm : Re.lineBreak.Matches (y :: (l ++ [x])).flatten := lineBreak_of_items (fun z hz => by
          rcases List.mem_cons.1 hz with rfl | hz
          · exact hi _ List.mem_cons_self
          · rcases List.mem_append.1 hz with hz | hz
            · exact hi z (List.mem_cons_of_mem _ hz)
            · simp only [List.mem_singleton] at hz
              subst hz; exact hx)
        have := hl.longest _ .TK_LINE_BREAK ⟨r', by simp⟩ (.inr ⟨Re.lineBreak, by simp [regexRules], hm⟩)
        rcases hx with rfl | rfl <;> simp at this <;> omega

theorem flatMap_snd (ts : List (SyntaxKind × Text)) : ts.flatMap (·.2) = (ts.map (·.2)).flatten := by
  rw [List.flatMap_def]

/-- The tokens of a file behind some. -/
theorem tokenizes_tail {errLen : Text → Nat} {s : Text} {x : SyntaxKind × Text}
    {ts : List (SyntaxKind × Text)} (h : Tokenizes errLen s (x :: ts)) :
    s = x.2 ++ ts.flatMap (·.2) ∧ Tokenizes errLen (ts.flatMap (·.2)) ts := by
  refine ⟨?_, by rw [flatMap_snd]; exact tokenizes_split (l := [x]) h⟩
  rw [← tokenizes_text h, flatMap_snd]
  rfl

/-- The leaves of a file are as long as possible. -/
theorem covers_proper {errLen : Text → Nat} (he : ErrLenOk errLen) {ls : List (SyntaxKind × Text)}
    {ts : List Token} (h : Covers ls ts) : ∀ {s : Text},
    Tokenizes errLen s (ts.map (fun t => (t.kind, t.text))) → ProperLeaves ls := by
  induction h with
  | nil => intro s _; trivial
  | same t hc ih =>
    intro s hs
    rw [List.map_cons] at hs
    obtain ⟨h1, h2⟩ := tokenizes_tail hs
    rw [← covers_text hc] at h1
    have hm := hs
    rw [h1] at hm
    obtain ⟨m1, m2⟩ := token_maximal hm
    refine ⟨ih h2, (tokenizes_trivia hs _ List.mem_cons_self).1, m1, m2, fun hk => ?_⟩
    have := solid_starts he hs hk
    rw [h1] at this
    exact this
  | word t ht hc ih =>
    intro s hs
    rw [List.map_cons] at hs
    obtain ⟨h1, h2⟩ := tokenizes_tail hs
    rw [← covers_text hc] at h1
    refine ⟨ih h2, (tokenizes_trivia hs _ List.mem_cons_self).1, fun h => (by cases h), fun h => (by cases h), fun _ => ?_⟩
    have := solid_starts he hs ht
    rw [h1] at this
    exact this
  | merged t u ht hu hc ih =>
    intro s hs
    rw [List.map_cons, List.map_cons] at hs
    obtain ⟨h1, h2⟩ := tokenizes_tail hs
    obtain ⟨h3, h4⟩ := tokenizes_tail h2
    rw [← covers_text hc] at h3
    have hne := (tokenizes_trivia hs _ List.mem_cons_self).1
    refine ⟨ih h4, by simp at hne ⊢; exact fun h => absurd h hne, fun h => (by cases h), fun h => (by cases h), fun _ => ?_⟩
    have := solid_starts he hs (by rw [ht]; rfl)
    rw [h1, h3] at this
    simpa using this

/-- Cells that are the leaves of a file, with marks that whitespace has in common with what is behind it. -/
theorem proper_cells {m : M} : ∀ {l : List (Cell M)}, ProperLeaves (l.map Cell.pair) →
    (∀ x c r, l = x ++ c :: r → c.kind.isTrivia = true → c.mark = headMark m r) → Proper m l
  | [], _, _ => trivial
  | c :: l, h, hm => by
    have ht : leafText (l.map Cell.pair) = cellText l := by
      unfold leafText cellText
      rw [List.flatMap_map]; rfl
    obtain ⟨h1, h2, h3, h4, h5⟩ := h
    rw [ht] at h3 h4 h5
    exact ⟨proper_cells h1 (fun x d r hx hk => hm (c :: x) d r (by rw [hx]; rfl) hk), h2, h3, h4, h5,
      fun hk => hm [] c l rfl hk⟩

/-- A leaf that is no whitespace is the first token of its text or at least its beginning is. -/
theorem covers_head {errLen : Text → Nat} (he : ErrLenOk errLen) {ls : List (SyntaxKind × Text)}
    {ts : List Token} {k : SyntaxKind} {t : Text} (h : Covers ((k, t) :: ls) ts) (hk : k.isTrivia = false)
    {s : Text} (hs : Tokenizes errLen s (ts.map (fun t => (t.kind, t.text)))) : startsBlank s = false := by
  cases h with
  | same t _ => exact solid_starts he hs hk
  | word t ht _ => exact solid_starts he hs ht
  | merged t u ht _ _ => exact solid_starts he hs (by dsimp only; rw [ht]; rfl)

/-- Edits at the beginnings of lines do not put whitespace at the beginning of other leaves. -/
theorem acts_solid {errLen : Text → Nat} (he : ErrLenOk errLen) (hl : ErrLineLocal errLen)
    {ls : List (SyntaxKind × Text)} {ts : List Token} (h : Covers ls ts) : ∀ {s : Text}
    {l : List (Cell M × Option Text)}, l.map (fun p => p.1.pair) = ls → BlankEdits l →
    Tokenizes errLen s (ts.map (fun t => (t.kind, t.text))) → SolidEdits l := by
  have head : ∀ {ls : List (SyntaxKind × Text)} {ts : List Token} {s : Text} {c : Cell M} {a : Option Text}
      {l : List (Cell M × Option Text)}, Covers (c.pair :: ls) ts → l.map (fun p => p.1.pair) = ls →
      BlankEdits ((c, a) :: l) → Tokenizes errLen s (ts.map (fun t => (t.kind, t.text))) →
      c.kind.isTrivia = false → startsBlank (c.text ++ cellText (edited false l)) = false := by
    intro ls ts s c a l hc hm hb hs hk
    have hb' : BlankEdits ((c, none) :: l) := by
      intro p hp
      rcases List.mem_cons.1 hp with rfl | hp
      · intro n hn; cases hn
      · exact hb p (List.mem_cons_of_mem _ hp)
    have h1 := pieces_edits _ false hb'
    rw [List.map_cons, hm] at h1
    obtain ⟨ps', k1, k2, k3⟩ := edits_tokens hc h1
    have h0 := solid_iff.2 (covers_head he hc hk hs)
    obtain ⟨_, h2, _⟩ := edits_relaid he hl s.length (Nat.le_refl _) hs h0 k1
    rw [k3, pieces_text, solid_iff] at h2
    have e : edited false ((c, none) :: l) = c :: edited false l := by
      rw [edited, kind_ne_lb hk]; rfl
    rw [e, cellText_cons] at h2
    exact h2
  induction h with
  | nil =>
    intro s l hm _ _
    cases l with
    | nil => trivial
    | cons => cases hm
  | same t hc ih =>
    intro s l hm hb hs
    cases l with
    | nil => cases hm
    | cons x l =>
      obtain ⟨c, a⟩ := x
      simp only [List.map_cons, List.cons.injEq] at hm
      obtain ⟨h1, h2⟩ := tokenizes_tail hs
      refine ⟨ih hm.2 (fun p hp => hb p (List.mem_cons_of_mem _ hp)) h2, fun hk => ?_⟩
      exact head (by rw [hm.1]; exact .same t hc) hm.2 hb hs hk
  | word t ht hc ih =>
    intro s l hm hb hs
    cases l with
    | nil => cases hm
    | cons x l =>
      obtain ⟨c, a⟩ := x
      simp only [List.map_cons, List.cons.injEq] at hm
      obtain ⟨h1, h2⟩ := tokenizes_tail hs
      refine ⟨ih hm.2 (fun p hp => hb p (List.mem_cons_of_mem _ hp)) h2, fun hk => ?_⟩
      exact head (by rw [hm.1]; exact .word t ht hc) hm.2 hb hs hk
  | merged t u ht hu hc ih =>
    intro s l hm hb hs
    cases l with
    | nil => cases hm
    | cons x l =>
      obtain ⟨c, a⟩ := x
      simp only [List.map_cons, List.cons.injEq] at hm
      obtain ⟨h1, h2⟩ := tokenizes_tail hs
      obtain ⟨h3, h4⟩ := tokenizes_tail h2
      refine ⟨ih hm.2 (fun p hp => hb p (List.mem_cons_of_mem _ hp)) h4, fun hk => ?_⟩
      exact head (by rw [hm.1]; exact .merged t u ht hu hc) hm.2 hb hs hk

end Ludtwig.Layout
