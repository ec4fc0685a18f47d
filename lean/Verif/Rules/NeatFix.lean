import Verif.Rules.QuoteFix
import Verif.Template.Relaid

/-!
# Fixing quotes and layout together: property C79

With the rules for the layout and the rules for quotes among the rules that suggest something, `--fix`
leaves a template a template with the same tree, up to whitespace and the quotes around strings.
-/

namespace Ludtwig.Rules

open Cli Lexer Layout Shape Template

/-! ## Specification -/

/-- The rules for the layout, the rules for quotes, and the rules that suggest nothing. -/
def neatRules : List RuleName := layoutRules ++ quoteRules

/-! ## Suggestions at line starts in terms of tokens -/

/-- Kind and text of a token. -/
def leafOf (t : Token) : SyntaxKind × Text := (t.kind, t.text)

theorem lineStart_mono {b : Bool} {pos : Nat} {ls : List (SyntaxKind × Text)} {sug : Suggestion} (h : AtLineStart false pos ls sug) :
    AtLineStart b pos ls sug := by
  cases h with
  | later h => exact .later h

theorem lineStart_tokens {ls : List (SyntaxKind × Text)} {ts : List Token} (hc : Covers ls ts) :
    ∀ {b : Bool} {pos : Nat} {sug : Suggestion}, AtLineStart b pos ls sug → AtLineStart b pos (ts.map leafOf) sug := by
  induction hc with
  | nil => intro b pos sug h; cases h
  | same t _ ih =>
    intro b pos sug h
    generalize hk : t.kind = k at h
    rw [List.map_cons, show leafOf t = (k, t.text) from by rw [← hk]; rfl]
    cases h with
    | space hb => exact .space hb
    | insert hn hb => exact .insert hn hb
    | later h => exact .later (ih h)
  | word t ht _ ih =>
    intro b pos sug h
    cases h with
    | insert hn hb => exact .insert ht hb
    | later h => exact .later (by rw [kind_ne_lb ht]; exact ih h)
  | merged t u ht _ _ ih =>
    intro b pos sug h
    have hn : t.kind.isTrivia = false := by rw [ht]; rfl
    cases h with
    | insert _ hb => exact .insert hn hb
    | later h =>
      refine .later (.later (lineStart_mono ?_))
      rw [Nat.add_assoc, ← byteLen_append]
      exact ih h

theorem lineStart_later {pos : Nat} {ls : List (SyntaxKind × Text)} {sug : Suggestion} (hne : ∀ l ∈ ls, l.2 ≠ [])
    (h : AtLineStart false pos ls sug) : pos < sug.range.start := by
  cases h with
  | later h =>
    have := h.start_le.1
    have := byteLen_pos (hne _ List.mem_cons_self)
    simp only at this
    omega

/-! ## Line starts and quotes -/

theorem quote_solid {k : SyntaxKind} (h : k ∈ quotes) : k.isTrivia = false := by
  revert h
  cases k <;> simp [quotes, SyntaxKind.isTrivia]

theorem insertable_solid {k : SyntaxKind} (h : k ∈ insertable) : (k == .TK_LINE_BREAK) = false := by
  revert h
  cases k <;> simp [insertable, varCloses]

theorem ahead_before {a b : TextRange} (h : Before a b) (hb : b.start ≤ b.stop) : Ahead a b := by
  obtain ⟨h1, h2⟩ := h
  exact ⟨h2, by omega⟩

theorem lies_texts : ∀ {cs : List Cell} {a : Nat}, Lies a cs → ∀ t ∈ oldToks cs, t.text ≠ []
  | [], _, _, t, ht => by cases ht
  | .keep t :: cs, a, h, t', ht => by
    rcases List.mem_cons.1 (show t' ∈ t :: oldToks cs from ht) with rfl | ht
    · exact h.2.2.1
    · exact lies_texts h.2.2.2 t' ht
  | .swap t q :: cs, a, h, t', ht => by
    rcases List.mem_cons.1 (show t' ∈ t :: oldToks cs from ht) with rfl | ht
    · intro h0
      have := h.2.2.1
      rw [h0] at this
      cases this
    · exact lies_texts h.2.2.2 t' ht
  | .ins p q :: cs, a, h, t', ht => lies_texts h.2 t' ht

/-- A suggestion at a line start and one for a quote are not at the same place. -/
theorem line_quote {cs : List Cell} : ∀ {a : Nat} {b c : Bool} {x y : Suggestion}, Lies a cs → Sits c cs → (c = true → b = false) →
    AtLineStart b a ((oldToks cs).map leafOf) x → y ∈ cellSugs a cs → Ahead x.range y.range ∨ Ahead y.range x.range := by
  induction cs with
  | nil => intro a b c x y _ _ _ _ hy; cases hy
  | cons d cs ih =>
    intro a b c x y hl hs hcb hx hy
    cases d with
    | keep t =>
      have hx : AtLineStart b a (leafOf t :: (oldToks cs).map leafOf) x := hx
      have hy : y ∈ cellSugs (a + byteLen t.text) cs := hy
      obtain ⟨h1, h2, h3, hl⟩ := hl
      rw [h2] at hl
      have hpos := byteLen_pos h3
      have hs : Sits (decide (t.kind ∈ insertable)) cs := hs
      obtain ⟨g1, g2, _⟩ := cells_from hs hl y hy
      generalize hk : leafOf t = lt at hx
      cases hx with
      | space hb => cases congrArg Prod.snd hk; exact .inl ⟨g1, by show a < _; omega⟩
      | insert hn hb => cases hk; exact .inl ⟨by show a ≤ _; omega, by show a < _; omega⟩
      | later h =>
        cases hk
        exact ih hl hs (fun hc => insertable_solid (by simpa using hc)) h hy
    | swap t q =>
      have hx : AtLineStart b a (leafOf t :: (oldToks cs).map leafOf) x := hx
      have hy : y ∈ (⟨⟨a, a + byteLen t.text⟩, [q]⟩ : Suggestion) :: cellSugs (a + byteLen t.text) cs := hy
      obtain ⟨h1, h2, h3, hl⟩ := hl
      obtain ⟨hq, _, hs⟩ := hs
      rw [h2] at hl
      generalize hk : leafOf t = lt at hx
      rcases List.mem_cons.1 hy with rfl | hy
      · cases hx with
        | space hb =>
          exfalso
          have := congrArg Prod.fst hk
          rw [show t.kind = _ from this] at hq
          exact absurd hq (by show SyntaxKind.TK_WHITESPACE ∉ quotes; decide)
        | insert hn hb => exact .inl ⟨Nat.le_refl _, by show a < a + _; omega⟩
        | later h =>
          cases hk
          have := h.start_le
          exact .inr ⟨by show a + _ ≤ _; omega, by show a < _; omega⟩
      · obtain ⟨g1, g2, _⟩ := cells_from hs hl y hy
        cases hx with
        | space hb =>
          exfalso
          have := congrArg Prod.fst hk
          rw [show t.kind = _ from this] at hq
          exact absurd hq (by show SyntaxKind.TK_WHITESPACE ∉ quotes; decide)
        | insert hn hb => exact .inl ⟨by show a ≤ _; omega, by show a < _; omega⟩
        | later h =>
          cases hk
          exact ih hl hs (fun hc => by cases hc) h hy
    | ins p q =>
      have hx : AtLineStart b a ((oldToks cs).map leafOf) x := hx
      have hy : y ∈ (⟨⟨a, a + 0⟩, [q]⟩ : Suggestion) :: cellSugs (a + 0) cs := hy
      obtain ⟨h1, hl⟩ := hl
      obtain ⟨hc, _, hs⟩ := hs
      have hb := hcb hc
      subst hb
      rcases List.mem_cons.1 hy with rfl | hy
      · have hlt : a < x.range.start := by
          refine lineStart_later ?_ hx
          intro l hl'
          obtain ⟨t, ht, rfl⟩ := List.mem_map.1 hl'
          exact lies_texts hl t ht
        have := hx.start_le
        exact .inr ⟨by show a + 0 ≤ _; omega, by show a < _; omega⟩
      · exact ih hl hs (fun _ => rfl) hx hy

/-! ## Both kinds of suggestions together -/

theorem quoteKind_solid {q : Char} (h : QuoteChar q) : (quoteKind q).isTrivia = false := quote_solid (quoteKind_quotes h)

/-- Suggestions at line starts and suggestions for quotes are a cut of the file into pieces: first the quotes are changed,
then the whitespace at line starts. -/
theorem merge {cs : List Cell} : ∀ {a : Nat} {b c : Bool} {sugs : List Suggestion}, Lies a cs → Sits c cs → (c = true → b = false) →
    (∀ x ∈ sugs, AtLineStart b a ((oldToks cs).map leafOf) x) → sugs.Pairwise (fun x y => Before x.range y.range) →
    ∃ ps ps', (pieceSuggestions a ps).Perm (sugs ++ cellSugs a cs) ∧ piecesBefore ps = ((oldToks cs).map (·.text)).flatten ∧
      Edits b (cs.map Cell.new) ps' ∧ piecesAfter ps' = piecesAfter ps := by
  induction cs with
  | nil =>
    intro a b c sugs _ _ _ h _
    cases sugs with
    | nil => exact ⟨[], [], .refl _, rfl, .nil, rfl⟩
    | cons s sugs => cases h s List.mem_cons_self
  | cons d cs ih =>
    intro a b c sugs hl hs hcb hall hpair
    have hlater : ∀ {t : Token} {s : Suggestion}, AtLineStart b a (leafOf t :: (oldToks cs).map leafOf) s → a < s.range.start →
        AtLineStart (t.kind == .TK_LINE_BREAK) (a + byteLen t.text) ((oldToks cs).map leafOf) s := by
      intro t s hs hlt
      generalize hk : leafOf t = lt at hs
      cases hs with
      | space _ => simp at hlt
      | insert _ _ => simp at hlt
      | later h => cases hk; exact h
    -- the first suggestion is at this place, or all are behind the token
    have hfirst : ∀ {t : Token}, (∀ x ∈ sugs, AtLineStart b a (leafOf t :: (oldToks cs).map leafOf) x) → 0 < byteLen t.text →
        (∀ x ∈ sugs, AtLineStart (t.kind == .TK_LINE_BREAK) (a + byteLen t.text) ((oldToks cs).map leafOf) x) ∨
        ∃ s rest, sugs = s :: rest ∧
          (∀ x ∈ rest, AtLineStart (t.kind == .TK_LINE_BREAK) (a + byteLen t.text) ((oldToks cs).map leafOf) x) ∧ b = true ∧ Blanks s.replaceWith ∧
          ((t.kind = .TK_WHITESPACE ∧ s.range = ⟨a, a + byteLen t.text⟩) ∨ (t.kind.isTrivia = false ∧ s.range = ⟨a, a⟩)) := by
      intro t hall hpos
      cases sugs with
      | nil => exact .inl (by simp)
      | cons s rest =>
        have hrest : ∀ x ∈ rest, Before s.range x.range := (List.pairwise_cons.mp hpair).1
        have hst := hall s List.mem_cons_self
        have hge := hst.start_le.1
        by_cases h0 : s.range.start = a
        · refine .inr ⟨s, rest, rfl, fun x hx => hlater (hall x (List.mem_cons_of_mem _ hx)) (by have := (hrest x hx).1; omega), ?_⟩
          generalize hk : leafOf t = lt at hst
          cases hst with
          | @space _ _ new _ hb =>
            cases congrArg Prod.snd hk
            exact ⟨rfl, hb, .inl ⟨congrArg Prod.fst hk, rfl⟩⟩
          | insert hn hb => cases hk; exact ⟨rfl, hb, .inr ⟨hn, rfl⟩⟩
          | later h => cases hk; have := h.start_le.1; omega
        · refine .inl (fun x hx => hlater (hall x hx) ?_)
          rcases List.mem_cons.1 hx with rfl | hx
          · omega
          · have := (hrest x hx).1
            omega
    cases d with
    | keep t =>
      obtain ⟨h1, h2, h3, hl⟩ := hl
      rw [h2] at hl
      have hs : Sits (decide (t.kind ∈ insertable)) cs := hs
      have hci : decide (t.kind ∈ insertable) = true → (t.kind == .TK_LINE_BREAK) = false := fun hc => insertable_solid (by simpa using hc)
      rcases hfirst hall (byteLen_pos h3) with h | ⟨s, rest, rfl, h, hb, hbl, hcase⟩
      · obtain ⟨ps, ps', g1, g2, g3, g4⟩ := ih hl hs hci h hpair
        refine ⟨⟨t.text, none⟩ :: ps, ⟨t.text, none⟩ :: ps', g1, ?_, .keep g3, ?_⟩
        · show t.text ++ piecesBefore ps = ((t :: oldToks cs).map (·.text)).flatten
          rw [g2]; rfl
        · show t.text ++ piecesAfter ps' = t.text ++ piecesAfter ps
          rw [g4]
      · obtain ⟨ps, ps', g1, g2, g3, g4⟩ := ih hl hs hci h (List.pairwise_cons.1 hpair).2
        subst hb
        obtain ⟨r, new⟩ := s
        rcases hcase with ⟨hk, hr⟩ | ⟨hk, hr⟩
        · cases hr
          rw [hk] at g3
          refine ⟨⟨t.text, some new⟩ :: ps, ⟨t.text, some new⟩ :: ps', g1.cons _, ?_, ?_, ?_⟩
          · show t.text ++ piecesBefore ps = ((t :: oldToks cs).map (·.text)).flatten
            rw [g2]; rfl
          · show Edits true ((t.kind, t.text) :: _) _
            rw [hk]
            exact .space hbl g3
          · show new ++ piecesAfter ps' = new ++ piecesAfter ps
            rw [g4]
        · cases hr
          rw [kind_ne_lb hk] at g3
          refine ⟨⟨[], some new⟩ :: ⟨t.text, none⟩ :: ps, ⟨[], some new⟩ :: ⟨t.text, none⟩ :: ps', g1.cons _, ?_, .insert hk hbl g3, ?_⟩
          · show [] ++ (t.text ++ piecesBefore ps) = ((t :: oldToks cs).map (·.text)).flatten
            rw [g2]; rfl
          · show new ++ (t.text ++ piecesAfter ps') = new ++ (t.text ++ piecesAfter ps)
            rw [g4]
    | swap t q =>
      obtain ⟨h1, h2, h3, hl⟩ := hl
      obtain ⟨hq, hqc, hs⟩ := hs
      rw [h2] at hl
      rcases hfirst hall (by omega) with h | ⟨s, rest, rfl, h, hb, hbl, hcase⟩
      · obtain ⟨ps, ps', g1, g2, g3, g4⟩ := ih (c := false) hl hs (fun hc => by cases hc) h hpair
        rw [kind_ne_lb (quote_solid hq)] at g3
        refine ⟨⟨t.text, some [q]⟩ :: ps, ⟨[q], none⟩ :: ps', ?_, ?_, .keep (by rw [kind_ne_lb (quoteKind_solid hqc)]; exact g3), ?_⟩
        · exact (g1.cons _).trans List.perm_middle.symm
        · show t.text ++ piecesBefore ps = ((t :: oldToks cs).map (·.text)).flatten
          rw [g2]; rfl
        · show [q] ++ piecesAfter ps' = [q] ++ piecesAfter ps
          rw [g4]
      · obtain ⟨ps, ps', g1, g2, g3, g4⟩ := ih (c := false) hl hs (fun hc => by cases hc) h (List.pairwise_cons.1 hpair).2
        rw [kind_ne_lb (quote_solid hq)] at g3
        subst hb
        obtain ⟨r, new⟩ := s
        rcases hcase with ⟨hk, hr⟩ | ⟨hk, hr⟩
        · rw [hk] at hq; exact absurd hq (by decide)
        · cases hr
          refine ⟨⟨[], some new⟩ :: ⟨t.text, some [q]⟩ :: ps, ⟨[], some new⟩ :: ⟨[q], none⟩ :: ps', ?_, ?_,
            .insert (quoteKind_solid hqc) hbl g3, ?_⟩
          · exact ((g1.cons _).trans List.perm_middle.symm).cons _
          · show [] ++ (t.text ++ piecesBefore ps) = ((t :: oldToks cs).map (·.text)).flatten
            rw [g2]; rfl
          · show new ++ ([q] ++ piecesAfter ps') = new ++ ([q] ++ piecesAfter ps)
            rw [g4]
    | ins p q =>
      obtain ⟨h1, hl⟩ := hl
      obtain ⟨hc, hqc, hs⟩ := hs
      have hb := hcb hc
      subst hb
      obtain ⟨ps, ps', g1, g2, g3, g4⟩ := ih (b := false) hl hs (fun _ => rfl) hall hpair
      refine ⟨⟨[], some [q]⟩ :: ps, ⟨[q], none⟩ :: ps', ?_, ?_, .keep (by rw [kind_ne_lb (quoteKind_solid hqc)]; exact g3), ?_⟩
      · exact (g1.cons _).trans List.perm_middle.symm
      · show [] ++ piecesBefore ps = _
        exact g2
      · show [q] ++ piecesAfter ps' = [q] ++ piecesAfter ps
        rw [g4]

/-! ## Sorting -/

/-- A suggestion of a rule for the layout. -/
def ofLayout (p : RuleName × Suggestion) : Bool := decide (p.1 ∈ layoutRules)

/-- Two suggestions are at different places, or they are of different rules for the layout for the same place. -/
def Clear (a b : RuleName × Suggestion) : Prop :=
  Ahead a.2.range b.2.range ∨ Ahead b.2.range a.2.range ∨
    (a.2.range = b.2.range ∧ a.1 ≠ b.1 ∧ a.2.range.start < a.2.range.stop ∧ ofLayout a = true ∧ ofLayout b = true)

theorem Clear.symm {a b : RuleName × Suggestion} (h : Clear a b) : Clear b a := by
  rcases h with h | h | ⟨h1, h2, h3, h4, h5⟩
  · exact .inr (.inl h)
  · exact .inl h
  · exact .inr (.inr ⟨h1.symm, h2.symm, by rw [← h1]; exact h3, h5, h4⟩)

/-- The suggestions in their order. -/
def Sequel (a b : RuleName × Suggestion) : Prop :=
  Ahead a.2.range b.2.range ∨
    (a.2.range = b.2.range ∧ a.1 ≠ b.1 ∧ a.2.range.start < a.2.range.stop ∧ ofLayout a = true ∧ ofLayout b = true)

theorem ahead_irrefl {a : TextRange} : ¬ Ahead a a := by
  rintro ⟨h1, h2⟩
  omega

theorem clear_sorted {R : List (RuleName × Suggestion)} (h : R.Pairwise Clear) (hle : ∀ p ∈ R, p.2.range.start ≤ p.2.range.stop)
    {sort : List (RuleName × Suggestion) → List (RuleName × Suggestion)} (hsort : SortsRanges sort) :
    (sort R).Perm R ∧ (sort R).Pairwise Sequel := by
  have hperm : (sortByPlace R).Perm R := List.mergeSort_perm ..
  have harr : Arranged (sortByPlace R) := by
    have h1 : (sortByPlace R).Pairwise (fun a b => decide (a.2.range.start < b.2.range.start ∨
        (a.2.range.start = b.2.range.start ∧ a.2.range.stop ≤ b.2.range.stop)) = true) :=
      List.pairwise_mergeSort (fun a b c => by simp only [decide_eq_true_eq]; omega)
        (fun a b => by simp only [Bool.or_eq_true, decide_eq_true_eq]; omega) R
    have h2 : (sortByPlace R).Pairwise Clear := (List.Perm.pairwise_iff (fun h => Clear.symm h) hperm).mpr h
    refine (pairwise_both (P := fun p : RuleName × Suggestion => p.2.range.start ≤ p.2.range.stop)
      (fun p hp => hle p (hperm.mem_iff.mp hp)) (h1.and h2)).imp ?_
    rintro a b ⟨ha, hb, hk, hc⟩
    simp only [decide_eq_true_eq] at hk
    rcases hc with hc | ⟨h1, h2⟩ | ⟨hr, _, hlt, _⟩
    · exact .inl (ahead_ordering hc)
    · exfalso; omega
    · exact .inr ⟨hr, by rw [← hr]; exact same_ordering hlt⟩
  obtain ⟨k1, k2⟩ := hsort R _ hle hperm harr
  refine ⟨k1, (k2.and ((List.Perm.pairwise_iff (fun h => Clear.symm h) k1).mpr h)).imp ?_⟩
  rintro a b ⟨hgt, hc | hc | hc⟩
  · exact .inl hc
  · exact absurd (ahead_ordering hc).2 hgt
  · exact .inr hc

/-- The overlap check succeeds, leaves out only rules for the layout, and leaves out the second of two rules for the same place. -/
theorem sequel_over : ∀ {l : List (RuleName × Suggestion)}, l.Pairwise Sequel → (∀ p ∈ l, p.2.range.start ≤ p.2.range.stop) →
    ∃ over, overlappingRules l = .ok over ∧ l.Pairwise (fun a b => a.2.range = b.2.range → b.1 ∈ over) ∧ ∀ n ∈ over, n ∈ layoutRules
  | [], _, _ => ⟨[], rfl, .nil, by simp⟩
  | [a], _, _ => ⟨[], rfl, by simp, by simp⟩
  | a :: b :: rest, hp, hle => by
    have hp' := (List.pairwise_cons.mp hp).2
    have hab := (List.pairwise_cons.mp hp).1
    obtain ⟨over, h1, h2, h3⟩ := sequel_over hp' (fun p h => hle p (List.mem_cons_of_mem _ h))
    rw [overlappingRules]
    have hrest : a.2.range = b.2.range → ∀ c ∈ rest, a.2.range = c.2.range → c.1 ∈ over := by
      intro hr c hc hr'
      exact (List.pairwise_cons.mp h2).1 c hc (by rw [← hr, hr'])
    rcases hab b List.mem_cons_self with hb | ⟨hr, hn, hlt, ha, hb⟩
    · rw [(ahead_ordering hb).1]
      refine ⟨over, by simpa using h1, ?_, h3⟩
      rw [List.pairwise_cons]
      refine ⟨fun c hc hr => ?_, h2⟩
      exfalso
      rcases List.mem_cons.mp hc with rfl | hc
      · rw [hr] at hb; exact ahead_irrefl hb
      · rcases (List.pairwise_cons.mp hp').1 c hc with h | ⟨h, _⟩
        · rw [hr] at hb
          obtain ⟨x1, x2⟩ := h
          obtain ⟨x3, x4⟩ := hb
          have := hle b (by simp)
          omega
        · rw [hr, ← h] at hb; exact ahead_irrefl hb
    · have ho : a.2.range.ordering b.2.range = .eq := by rw [← hr]; exact same_ordering hlt
      rw [ho]
      simp only [beq_self_eq_true, if_true, beq_iff_eq, if_neg hn, h1]
      refine ⟨_, rfl, ?_, ?_⟩
      · rw [List.pairwise_cons]
        refine ⟨fun c hc hr' => ?_, h2.imp (fun h hr => List.mem_cons_of_mem _ (h hr))⟩
        rcases List.mem_cons.mp hc with rfl | hc
        · exact List.mem_cons_self
        · exact List.mem_cons_of_mem _ (hrest hr c hc hr')
      · intro n hn
        rcases List.mem_cons.1 hn with rfl | hn
        · simpa [ofLayout] using hb
        · exact h3 n hn

theorem pieces_from : ∀ {ps : List Piece} {a : Nat}, ∀ x ∈ pieceSuggestions a ps, a ≤ x.range.start
  | [], _, x, hx => by cases hx
  | p :: ps, a, x, hx => by
    rw [pieceSuggestions] at hx
    rcases List.mem_append.1 hx with hx | hx
    · cases hp : p.new with
      | none => rw [hp] at hx; cases hx
      | some t =>
        rw [hp] at hx
        cases List.mem_singleton.1 hx
        exact Nat.le_refl _
    · have := pieces_from x hx
      omega

theorem pieces_order : ∀ {ps : List Piece} {a : Nat}, (pieceSuggestions a ps).Pairwise (fun x y => x.range.stop ≤ y.range.start)
  | [], _ => .nil
  | p :: ps, a => by
    rw [pieceSuggestions]
    cases p.new with
    | none => exact pieces_order
    | some t => exact List.pairwise_cons.2 ⟨fun y hy => pieces_from y hy, pieces_order⟩

/-- The suggestions that are left are a cut of the file into pieces. -/
theorem merged_round {cs : List Cell} (hl : Lies 0 cs) (hs : Sits false cs) {R RL RQ : List (RuleName × Suggestion)}
    (hperm : R.Perm (RL ++ RQ)) (hL : Tidy ((oldToks cs).map leafOf) RL) (hLn : ∀ p ∈ RL, p.1 ∈ layoutRules)
    (hQ : (cellSugs 0 cs).Perm (RQ.map (·.2))) (hQn : ∀ p ∈ RQ, p.1 ∉ layoutRules)
    {sort : List (RuleName × Suggestion) → List (RuleName × Suggestion)} (hsort : SortsRanges sort) :
    ∃ over ps ps', overlappingRules (sort R) = .ok over ∧ filterSuggestions over (sort R) = pieceSuggestions 0 ps ∧
      piecesBefore ps = ((oldToks cs).map (·.text)).flatten ∧ Edits true (cs.map Cell.new) ps' ∧ piecesAfter ps' = piecesAfter ps := by
  have hne : ∀ l ∈ (oldToks cs).map leafOf, l.2 ≠ [] := by
    intro l hl'
    obtain ⟨t, ht, rfl⟩ := List.mem_map.1 hl'
    exact lies_texts hl t ht
  have hQa : ∀ p ∈ RQ, p.2 ∈ cellSugs 0 cs := fun p hp => hQ.symm.subset (List.mem_map.2 ⟨p, hp, rfl⟩)
  have hle : ∀ p ∈ R, p.2.range.start ≤ p.2.range.stop := by
    intro p hp
    rcases List.mem_append.1 (hperm.subset hp) with hp | hp
    · exact (hL.allowed p hp).start_le.2
    · exact (cells_from hs hl p.2 (hQa p hp)).2.1
  have hclear : R.Pairwise Clear := by
    refine (List.Perm.pairwise_iff (fun h => Clear.symm h) hperm).mpr (List.pairwise_append.2 ⟨?_, ?_, ?_⟩)
    · refine (pairwise_both (P := fun p : RuleName × Suggestion => AtLineStart true 0 ((oldToks cs).map leafOf) p.2 ∧ p.1 ∈ layoutRules)
        (fun p hp => ⟨hL.allowed p hp, hLn p hp⟩) hL.apart).imp ?_
      rintro a b ⟨⟨ha, ha'⟩, ⟨hb, hb'⟩, hab⟩
      rcases allowed_ranges hne ha hb with hr | hr | hr
      · exact .inr (.inr ⟨hr, (hab hr).1, (hab hr).2, by simpa [ofLayout] using ha', by simpa [ofLayout] using hb'⟩)
      · exact .inl (ahead_before hr hb.start_le.2)
      · exact .inr (.inl (ahead_before hr ha.start_le.2))
    · have h1 : (RQ.map (·.2)).Pairwise (fun x y => Ahead x.range y.range ∨ Ahead y.range x.range) :=
        (List.Perm.pairwise_iff (fun h => h.symm) hQ).mp ((cells_ahead hs hl).imp .inl)
      exact (List.pairwise_map.1 h1).imp (fun h => h.elim .inl (fun h => .inr (.inl h)))
    · intro a ha b hb
      rcases line_quote hl hs (fun h => by cases h) (hL.allowed a ha) (hQa b hb) with h | h
      · exact .inl h
      · exact .inr (.inl h)
  obtain ⟨k1, k2⟩ := clear_sorted hclear hle hsort
  obtain ⟨over, h1, h2, h3⟩ := sequel_over k2 (fun p hp => hle p (k1.mem_iff.mp hp))
  -- the suggestions that are left, split
  have hahead : ((sort R).filter (fun p => !over.contains p.1)).Pairwise (fun x y => Ahead x.2.range y.2.range) := by
    rw [List.pairwise_filter]
    refine (k2.and h2).imp ?_
    rintro a b ⟨hio, hov⟩ _ hb
    rcases hio with hio | ⟨hr, _⟩
    · exact hio
    · have := hov hr
      simp [this] at hb
  have hsplit := List.filter_append_perm ofLayout ((sort R).filter (fun p => !over.contains p.1))
  have hRL : RL.filter ofLayout = RL := List.filter_eq_self.2 (fun p hp => by simpa [ofLayout] using hLn p hp)
  have hRQ : RQ.filter (fun p => !ofLayout p) = RQ := List.filter_eq_self.2 (fun p hp => by simpa [ofLayout] using hQn p hp)
  have hRL' : RL.filter (fun p => !ofLayout p) = [] := List.filter_eq_nil_iff.2 (fun p hp => by simpa [ofLayout] using hLn p hp)
  have hquotes : (((sort R).filter (fun p => !over.contains p.1)).filter (fun p => !ofLayout p)).Perm RQ := by
    rw [List.filter_filter]
    have : (sort R).filter (fun p => !ofLayout p && !over.contains p.1) = (sort R).filter (fun p => !ofLayout p) := by
      refine List.filter_congr (fun p _ => ?_)
      cases ho : ofLayout p with
      | true => simp
      | false =>
        have : p.1 ∉ over := fun hm => by simp [ofLayout, h3 _ hm] at ho
        simp [this]
    rw [this]
    have := (k1.trans hperm).filter (fun p => !ofLayout p)
    rw [List.filter_append, hRL', hRQ] at this
    exact this
  have hlay : ∀ p ∈ ((sort R).filter (fun p => !over.contains p.1)).filter ofLayout, p ∈ RL := by
    intro p hp
    obtain ⟨hp1, hp2⟩ := List.mem_filter.1 hp
    rcases List.mem_append.1 (hperm.subset (k1.subset (List.mem_filter.1 hp1).1)) with h | h
    · exact h
    · simp [ofLayout, hQn p h] at hp2
  obtain ⟨ps, ps', g1, g2, g3, g4⟩ := merge (b := true) (sugs := (((sort R).filter (fun p => !over.contains p.1)).filter ofLayout).map (·.2))
    hl hs (fun h => by cases h) (fun x hx => by
      obtain ⟨p, hp, rfl⟩ := List.mem_map.1 hx
      exact hL.allowed p (hlay p hp)) (by
      rw [List.pairwise_map]
      refine (pairwise_both (P := fun p : RuleName × Suggestion => AtLineStart true 0 ((oldToks cs).map leafOf) p.2)
        (fun p hp => hL.allowed p (hlay p hp)) (hahead.sublist List.filter_sublist)).imp ?_
      rintro a b ⟨ha, hb, hab⟩
      rcases allowed_ranges hne ha hb with hr | hr | hr
      · rw [hr] at hab; exact absurd hab ahead_irrefl
      · exact hr
      · exfalso
        obtain ⟨x1, x2⟩ := hr
        obtain ⟨x3, x4⟩ := hab
        have := ha.start_le
        omega)
  have hp : (filterSuggestions over (sort R)).Perm (pieceSuggestions 0 ps) := by
    refine List.Perm.trans ?_ g1.symm
    unfold filterSuggestions
    refine (hsplit.symm.map _).trans ?_
    rw [List.map_append]
    exact List.Perm.append_left _ ((hquotes.map _).trans hQ.symm)
  refine ⟨over, ps, ps', h1, ?_, g2, g3, g4⟩
  have hA : (filterSuggestions over (sort R)).Pairwise (fun x y => Ahead x.range y.range) := List.pairwise_map.2 hahead
  refine perm_ahead hp hA ?_
  have hB : (pieceSuggestions 0 ps).Pairwise (fun x y => Ahead x.range y.range ∨ Ahead y.range x.range) :=
    (List.Perm.pairwise_iff (fun h => h.symm) hp).mp (hA.imp .inl)
  refine (pieces_order.and hB).imp ?_
  rintro a b ⟨hab, h | h⟩
  · exact h
  · exact ⟨hab, by obtain ⟨x1, x2⟩ := h; omega⟩

/-! ## The findings of two groups of rules -/

theorem flatMap_split {α β : Type} (f : α → Bool) (g : α → List β) (l : List α) :
    (l.flatMap g).Perm ((l.filter f).flatMap g ++ (l.filter (fun a => !f a)).flatMap g) := by
  induction l with
  | nil => exact .refl _
  | cons a l ih =>
    rw [List.flatMap_cons]
    cases hf : f a with
    | true =>
      rw [List.filter_cons_of_pos hf, List.filter_cons_of_neg (by simp [hf]), List.flatMap_cons, List.append_assoc]
      exact ih.append_left _
    | false =>
      rw [List.filter_cons_of_neg (by simp [hf]), List.filter_cons_of_pos (by simp [hf]), List.flatMap_cons]
      exact (ih.append_left _).trans (by
        rw [← List.append_assoc, ← List.append_assoc]
        exact List.perm_append_comm.append_right _)

theorem flatMap_both {α β : Type} {f g h : α → List β} (l : List α) (hp : ∀ a, (f a).Perm (g a ++ h a)) :
    (l.flatMap f).Perm (l.flatMap g ++ l.flatMap h) := by
  induction l with
  | nil => exact .refl _
  | cons a l ih =>
    rw [List.flatMap_cons, List.flatMap_cons, List.flatMap_cons]
    refine ((hp a).append ih).trans ?_
    rw [List.append_assoc, List.append_assoc]
    refine List.Perm.append_left _ ?_
    rw [← List.append_assoc, ← List.append_assoc]
    exact List.perm_append_comm.append_right _

/-- The findings of all rules are those of some of them and those of the others. -/
theorem results_split (config : Config) (rules : List Rule) (root : Tree) (f : Rule → Bool) {l : List CheckResult}
    (h : runRules config rules root = .ok l) :
    ∃ a b, runRules config (rules.filter f) root = .ok a ∧ runRules config (rules.filter (fun r => !f r)) root = .ok b ∧ l.Perm (a ++ b) := by
  have hroot : ∃ x, rootChecks config (Elem.root root) rules = .ok x := by
    unfold runRules at h
    cases rules with
    | nil => exact ⟨[], rfl⟩
    | cons a rs =>
      simp only [List.isEmpty_cons, Bool.false_eq_true, if_false] at h
      split at h
      · cases h
      · rename_i x hx; exact ⟨x, hx⟩
  obtain ⟨x, hx⟩ := hroot
  obtain ⟨found, hf, _⟩ := rootChecks_inv config _ rules x hx
  rw [C18_scope_of_ignore config rules root found hf] at h
  cases h
  refine ⟨_, _, C18_scope_of_ignore config _ root found (fun r hr => hf r (List.mem_filter.1 hr).1),
    C18_scope_of_ignore config _ root found (fun r hr => hf r (List.mem_filter.1 hr).1), ?_⟩
  have h1 := flatMap_split f found rules
  have h2 : (specResults config rules root).Perm (specResults config (rules.filter f) root ++
      specResults config (rules.filter (fun r => !f r)) root) := by
    unfold specResults
    refine flatMap_both _ (fun e => ?_)
    rw [List.filter_filter, List.filter_filter]
    have := flatMap_split f (fun r => checkElem config r e) (rules.filter (fun r => !switchedOff r.name e))
    rw [List.filter_filter, List.filter_filter] at this
    simpa only [Bool.and_comm] using this
  refine (h1.append h2).trans ?_
  rw [List.append_assoc, List.append_assoc]
  refine List.Perm.append_left _ ?_
  rw [← List.append_assoc, ← List.append_assoc]
  exact List.perm_append_comm.append_right _

/-- A finding names the rule that gives it. -/
theorem results_names (config : Config) {rules : List Rule} (hs : rules.Sublist definitions) (root : Tree) {l : List CheckResult}
    (h : runRules config rules root = .ok l) : ∀ p ∈ getRuleContextSuggestions l, ∃ r ∈ rules, p.1 = r.name := by
  have hroot : ∃ x, rootChecks config (Elem.root root) rules = .ok x := by
    unfold runRules at h
    cases rules with
    | nil => exact ⟨[], rfl⟩
    | cons a rs =>
      simp only [List.isEmpty_cons, Bool.false_eq_true, if_false] at h
      split at h
      · cases h
      · rename_i x hx; exact ⟨x, hx⟩
  obtain ⟨x, hx⟩ := hroot
  obtain ⟨found, hf, _⟩ := rootChecks_inv config _ rules x hx
  rw [C18_scope_of_ignore config rules root found hf] at h
  cases h
  intro p hp
  obtain ⟨x, hx, h1, _⟩ := mem_rcs.1 hp
  rw [← h1]
  rcases List.mem_append.1 hx with hx | hx
  · obtain ⟨r, hr, hx⟩ := List.mem_flatMap.1 hx
    exact ⟨r, hr, (definitions_sign r (hs.subset hr)).2.2 _ _ _ (hf r hr) x hx⟩
  · unfold specResults at hx
    obtain ⟨e, _, hx⟩ := List.mem_flatMap.1 hx
    obtain ⟨r, hr, hx⟩ := List.mem_flatMap.1 hx
    have hr' := (List.mem_filter.1 hr).1
    refine ⟨r, hr', ?_⟩
    have hsig := definitions_sign r (hs.subset hr')
    unfold checkElem at hx
    split at hx
    · exact hsig.1 _ _ x hx
    · exact hsig.2.1 _ _ x hx

/-! ## Fixing -/

/-- One round: the text after it is a template with the same tree up to quotes. -/
theorem neat_round {errLen : Text → Nat} (he : ErrLenOk errLen) (hl : ErrLineLocal errLen) (ha : ErrAhead errLen) {s : Text} {x : Tree}
    (ht : IsTemplate (lex errLen s) x) {p : Parse} (hp : parse errLen s = .ok p) (config : Config) {rules : List Rule}
    (hs : rules.Sublist definitions) (hn : ∀ r ∈ rules, r.name ∈ neatRules)
    {sort : List (RuleName × Suggestion) → List (RuleName × Suggestion)} (hsort : SortsRanges sort)
    {results : List CheckResult} (hr : runRules config rules p.tree = .ok results) :
    ∃ over s', overlappingRules (sort (getRuleContextSuggestions results)) = .ok over ∧
      applySuggestionsToText (filterSuggestions over (sort (getRuleContextSuggestions results))) s = some s' ∧
      ∃ x', IsTemplate (lex errLen s') x' ∧ unquote x' = unquote x ∧
        turnElems (wants config (rules.filter (fun r => !decide (r.name ∈ layoutRules)))) [Elem.root p.tree] = [x'] := by
  obtain ⟨tree, h1, h2⟩ := C73_template_accepted he s ht
  obtain ⟨xs, ht, rfl⟩ := ht
  rw [hp] at h1
  cases h1
  obtain ⟨A, B, hA, hB, hAB⟩ := results_split config rules tree (fun r => decide (r.name ∈ layoutRules)) hr
  have hsA : (rules.filter (fun r => decide (r.name ∈ layoutRules))).Sublist definitions := List.filter_sublist.trans hs
  have hsB : (rules.filter (fun r => !decide (r.name ∈ layoutRules))).Sublist definitions := List.filter_sublist.trans hs
  have hnA : ∀ r ∈ rules.filter (fun r => decide (r.name ∈ layoutRules)), r.name ∈ layoutRules :=
    fun r hr => by simpa using (List.mem_filter.1 hr).2
  have hnB' : ∀ r ∈ rules.filter (fun r => !decide (r.name ∈ layoutRules)), r.name ∉ layoutRules :=
    fun r hr => by simpa using (List.mem_filter.1 hr).2
  have hnB : ∀ r ∈ rules.filter (fun r => !decide (r.name ∈ layoutRules)), r.name ∈ quoteRules := by
    intro r hr
    rcases List.mem_append.1 (hn r (List.mem_filter.1 hr).1) with h | h
    · exact absurd h (hnB' r hr)
    · exact h
  obtain ⟨cs, g, ys, hc, hperm, hturn⟩ := template_cells he hp rfl h2 ht (wants_ok config _)
  rw [← quote_results config hsB hnB hB] at hperm
  obtain ⟨trees, c1, c2⟩ := C05_root_covers errLen s _ hp
  have hL := tidy_results he hp rfl config hsA hnA hA
  have hL' : Tidy ((oldToks cs).map leafOf) (getRuleContextSuggestions A) := by
    refine ⟨fun q hq => ?_, hL.apart⟩
    rw [hc.old]
    have := hL.allowed q hq
    rw [show tree = _ from c1] at this
    exact lineStart_tokens c2 this
  have hRperm : (getRuleContextSuggestions results).Perm (getRuleContextSuggestions A ++ getRuleContextSuggestions B) := by
    rw [← rcs_append]
    exact hAB.flatMap_right _
  obtain ⟨over, ps, ps', g1, g2, g3, g4, g5⟩ := merged_round hc.places hc.good hRperm hL'
    (fun q hq => by
      obtain ⟨r, hr, e⟩ := results_names config hsA _ hA q hq
      rw [e]; exact hnA r hr) hperm
    (fun q hq => by
      obtain ⟨r, hr, e⟩ := results_names config hsB _ hB q hq
      rw [e]; exact hnB' r hr) hsort
  obtain ⟨k3, k4⟩ := recut_template he ha hc ht
  refine ⟨over, piecesAfter ps, g1, ?_, _, ?_, k4, hturn⟩
  · rw [g2]
    have := apply_pieces ps []
    simp only [byteLen_nil, List.nil_append] at this
    rw [g3, hc.old, (C02_lex_partition he s).2.1] at this
    exact this
  · rw [← g5]
    have hlex := cells_lex he ha hc.good hc.places hc.old
    have htok : cs.map Cell.new = (lex errLen (newText cs)).map (fun t => (t.kind, t.text)) := by
      rw [hlex, List.map_map]
      exact List.map_congr_left (fun c _ => (token_new _ c).symm)
    rw [htok] at g4
    exact relaid_template he hl (edits_reindented he hl (C49_lex_tokenizes he _) g4) k3

/-- C79: processing a template, with or without `--fix`, with any of the rules for layout and for quotes and
the rules without suggestions together: it does not panic and is not refused because of overlapping
suggestions, and every text that it parses or writes is a template, parsed without errors, with the tree of
the original one, except for trivia and for the quotes around strings. -/
theorem C79_neat_fix_keeps_trees {errLen : Text → Nat} (he : ErrLenOk errLen) (hl : ErrLineLocal errLen) (ha : ErrAhead errLen)
    (config : Config) (active : List RuleName) (hactive : ∀ n ∈ active, n ∈ neatRules)
    {sort : List (RuleName × Suggestion) → List (RuleName × Suggestion)} (hsort : SortsRanges sort)
    (flags : Flags) (writeOk : Bool) {original : Text} (ht : TemplateText errLen original) :
    let run := runAnalysis (realEngine errLen config active sort) flags writeOk original
    (run.outcome = .ok ∨ (flags.fix = true ∧ run.outcome = .err .maxApplyIteration) ∨
      (flags.fix = true ∧ writeOk = false ∧ run.outcome = .err .fileWrite)) ∧
    ∃ old, parse errLen original = .ok ⟨old, []⟩ ∧ ∀ t ∈ run.parsed ++ run.writes, TemplateText errLen t ∧
      ∃ new, parse errLen t = .ok ⟨new, []⟩ ∧ unquoteAll new.strip = unquoteAll old.strip := by
  obtain ⟨x, hx⟩ := ht
  obtain ⟨old, h1, h2⟩ := C73_template_accepted he original hx
  have hk : KeptBy errLen config neatRules sort (TemplateOf errLen (unquote x)) := by
    intro s p rules results ⟨y, hy, e⟩ hp hs hn hr
    obtain ⟨over, s', g1, g2, x', g3, g4, _⟩ := neat_round he hl ha hy hp config hs hn hsort hr
    exact ⟨over, s', g1, g2, x', g3, g4.trans e⟩
  obtain ⟨g1, g2⟩ := kept_run (templateOf_parsed he _) config active hactive hk flags writeOk ⟨x, hx, rfl⟩
  refine ⟨g1, old, h1, fun t ht => ?_⟩
  obtain ⟨y, hy, e⟩ := g2 t ht
  obtain ⟨new, h3, h4⟩ := C73_template_accepted he t hy
  exact ⟨⟨y, hy⟩, new, h3, by rw [h2, h4, unquoteAll_cons, unquoteAll_cons, e]⟩

/-! An element with attributes on an own line, one without quotes and one with other quotes. -/

def neatSample : Text := "<p\na=b c='d'></p>".toList

namespace NeatSample

def l := tk T!"<" "<" 0
def p := tk T!"word" "p" 1
def a := tk T!"word" "a" 3
def e1 := tk T!"=" "=" 4
def b := tk T!"word" "b" 5
def c := tk T!"word" "c" 7
def e2 := tk T!"=" "=" 8
def q1 := tk T!"'" "'" 9
def d := tk T!"word" "d" 10
def q2 := tk T!"'" "'" 11
def g := tk T!">" ">" 12
def l2 := tk T!"</" "</" 13
def p2 := tk T!"word" "p" 15
def g2 := tk T!">" ">" 16

theorem significant_eq : (lex (fun _ => 1) neatSample).filter (fun t => !t.kind.isTrivia) =
    [l, p, a, e1, b, c, e2, q1, d, q2, g, l2, p2, g2] := by decide +kernel

/-- The tree without trivia. -/
def tree : List Tree :=
  [.node .HTML_TAG [
    .node .HTML_STARTING_TAG [l.tree, p.tree, .node .HTML_ATTRIBUTE_LIST [
        .node .HTML_ATTRIBUTE [a.tree, e1.tree, .node .HTML_STRING [.node .HTML_STRING_INNER [b.tree]]],
        .node .HTML_ATTRIBUTE [c.tree, e2.tree, .node .HTML_STRING [q1.tree, .node .HTML_STRING_INNER [d.tree], q2.tree]]], g.tree],
    .node .BODY [],
    .node .HTML_ENDING_TAG [l2.tree, p2.tree, g2.tree]]]

/-- The file is a template. -/
theorem isTemplate : TemplateText (fun _ => 1) neatSample := by
  refine ⟨_, tree, ?_, rfl⟩
  rw [significant_eq]
  refine .bodyHtml (u := [l, p, a, e1, b, c, e2, q1, d, q2, g, l2, p2, g2]) (w := []) ?_ .bodyEnd
  refine .element (t := p) (a := [a, e1, b, c, e2, q1, d, q2]) (b := []) rfl (.inr ⟨by decide +kernel, elementName_iff.2 (by decide +kernel)⟩)
    rfl ?_ ?_ ?_ rfl .bodyEnd rfl rfl rfl rfl
  · unfold IsVoid; decide +kernel
  · unfold IsRaw; decide +kernel
  · refine .bodyAttr (u := [a, e1, b]) (w := [c, e2, q1, d, q2]) ?_ (.bodyAttr (u := [c, e2, q1, d, q2]) (w := []) ?_ .bodyEnd)
    · exact .attrValued (u := [a]) (.plainName (by decide +kernel) (attributeName_iff.2 (by decide +kernel))) rfl (.unquotedWord rfl)
    · exact .attrValued (u := [c]) (.plainName (by decide +kernel) (attributeName_iff.2 (by decide +kernel))) rfl
        (.singleQuoted (u := [d]) rfl (.partToken (by unfold IsPart; decide) .noPart) rfl)

end NeatSample

/-- The hypotheses of C79 for this file, and one round with suggestions of both kinds. -/
example : SortsRanges insertionSort ∧ ErrAhead (fun _ => 1) ∧ TemplateText (fun _ => 1) neatSample ∧
    (runAnalysis (realEngine (fun _ => 1) defaultConfig neatRules insertionSort) ⟨true, false⟩ true neatSample).parsed =
      [neatSample, "<p\n   a=\"b\" c=\"d\"></p>".toList] ∧
    (runAnalysis (realEngine (fun _ => 1) defaultConfig neatRules insertionSort) ⟨true, false⟩ true neatSample).writes =
      ["<p\n   a=\"b\" c=\"d\"></p>".toList] :=
  ⟨insertionSort_sorts, errAhead_one, NeatSample.isTemplate, by decide +kernel, by decide +kernel⟩

/-- Whitespace is not part of the claim: the line break between an equals sign and an unquoted value belongs to
the value, so that new quotes put it into the value of the attribute. -/
theorem value_gains_whitespace :
    (runAnalysis (realEngine (fun _ => 1) defaultConfig neatRules insertionSort) ⟨true, false⟩ true "<p a=\nb></p>".toList).writes =
      ["<p a=\"\n   b\"></p>".toList] := by decide +kernel

end Ludtwig.Rules
