import Verif.Layout.Breaks
import Verif.Layout.LineSuggestions

/-!
# Suggestions that put line breaks between tokens
-/

namespace Ludtwig.Layout

open Lexer Cli

/-- `s'` is the text of the tokens `ts` (behind the text `u`) with line breaks put before some of them; a
token of line breaks is replaced by them. -/
inductive Spaced : Text → List Token → Text → Prop
  | nil {u} : Spaced u [] []
  | keep {u t ts s'} : Spaced (u ++ t.text) ts s' → Spaced u (t :: ts) (t.text ++ s')
  | insert {u t ts b s'} : t.kind ≠ .TK_LINE_BREAK → IsLineBreaks b → b ≠ [] → Breakable u (t :: ts) →
      Spaced (u ++ t.text) ts s' → Spaced u (t :: ts) (b ++ (t.text ++ s'))
  | replace {u t ts b s'} : t.kind = .TK_LINE_BREAK → IsLineBreaks b → b ≠ [] → Breakable u (t :: ts) →
      Spaced (u ++ t.text) ts s' → Spaced u (t :: ts) (b ++ s')

theorem breakFirst_of_breaks {b r : Text} (h : IsLineBreaks b) (hne : b ≠ []) : BreakFirst (b ++ r) := by
  obtain ⟨x, y, rfl, hx⟩ := lineBreaks_head h hne
  exact ⟨x, y ++ r, by simp, hx⟩

/-- The first run of whitespace of a text with line breaks put before tokens. -/
theorem spaced_gap : ∀ {g ts : List Token} {u s' : Text}, Spaced u (g ++ ts) s' →
    (∀ t ∈ g, t.kind.isTrivia = true) → (∀ t ∈ g, Blanks t.text) →
    (∀ t ∈ ts.head?, t.kind.isTrivia = false) →
    ∃ a c x s'', g = a ++ c ∧ s' = a.flatMap (·.text) ++ (x ++ s'') ∧ Blanks x ∧
      (x = c.flatMap (·.text) ∨ (BreakFirst x ∧ (a = [] → Breakable u (c ++ ts)))) ∧
      ((ts = [] ∧ s'' = []) ∨ ∃ t q s3, ts = t :: q ∧ s'' = t.text ++ s3 ∧
        Spaced (u ++ g.flatMap (·.text) ++ t.text) q s3)
  | [], ts, u, s', h, _, _, hts => by
    cases h with
    | nil => exact ⟨[], [], [], [], rfl, rfl, blanks_nil, .inl rfl, .inl ⟨rfl, rfl⟩⟩
    | @keep _ t q s3 h =>
      exact ⟨[], [], [], _, rfl, rfl, blanks_nil, .inl rfl, .inr ⟨t, q, s3, rfl, rfl, by simpa using h⟩⟩
    | @insert _ t q b s3 _ hb hne hu h =>
      refine ⟨[], [], b, t.text ++ s3, rfl, rfl, blanks_of_lineBreaks hb, .inr ⟨?_, fun _ => hu⟩,
        .inr ⟨t, q, s3, rfl, rfl, by simpa using h⟩⟩
      have := breakFirst_of_breaks (r := []) hb hne
      simpa using this
    | @replace _ t q b s3 hk _ _ _ _ =>
      have := hts t rfl
      rw [hk] at this
      cases this
  | t :: g, ts, u, s', h, hg, hb, hts => by
    have next : ∀ {s3}, Spaced (u ++ t.text) (g ++ ts) s3 → _ := fun h3 =>
      spaced_gap h3 (fun t ht => hg t (by simp [ht])) (fun t ht => hb t (by simp [ht])) hts
    have texts : ∀ l : List Token, (∀ t ∈ l, t ∈ g) → Blanks (l.flatMap (·.text)) := by
      intro l
      induction l with
      | nil => intro _; exact blanks_nil
      | cons v l ih =>
        intro h
        rw [List.flatMap_cons]
        exact blanks_append (hb v (by simp [h v (by simp)])) (ih (fun t ht => h t (by simp [ht])))
    have tail : ∀ {s''}, ((ts = [] ∧ s'' = []) ∨ ∃ t' q s3, ts = t' :: q ∧ s'' = t'.text ++ s3 ∧
        Spaced (u ++ t.text ++ g.flatMap (·.text) ++ t'.text) q s3) →
        ((ts = [] ∧ s'' = []) ∨ ∃ t' q s3, ts = t' :: q ∧ s'' = t'.text ++ s3 ∧
        Spaced (u ++ (t :: g).flatMap (·.text) ++ t'.text) q s3) := by
      intro s'' h
      rw [List.flatMap_cons, ← List.append_assoc]
      exact h
    cases h with
    | @keep _ _ _ s3 h =>
      obtain ⟨a, c, x, s'', h1, h2, h3, h4, h5⟩ := next h
      refine ⟨t :: a, c, x, s'', by rw [h1]; rfl, by rw [h2]; simp, h3, ?_, tail h5⟩
      exact h4.imp id (fun h => ⟨h.1, fun h0 => by cases h0⟩)
    | @insert _ _ _ b s3 _ hlb hne hu h =>
      obtain ⟨a, c, x, s'', h1, h2, h3, h4, h5⟩ := next h
      refine ⟨[], t :: g, b ++ (t.text ++ (a.flatMap (·.text) ++ x)), s'', rfl, by rw [h2]; simp, ?_,
        .inr ⟨breakFirst_of_breaks hlb hne, fun _ => hu⟩, tail h5⟩
      exact blanks_append (blanks_of_lineBreaks hlb) (blanks_append (hb t (by simp))
        (blanks_append (texts a (fun t ht => by rw [h1]; simp [ht])) h3))
    | @replace _ _ _ b s3 _ hlb hne hu h =>
      obtain ⟨a, c, x, s'', h1, h2, h3, h4, h5⟩ := next h
      refine ⟨[], t :: g, b ++ (a.flatMap (·.text) ++ x), s'', rfl, by rw [h2]; simp, ?_,
        .inr ⟨breakFirst_of_breaks hlb hne, fun _ => hu⟩, tail h5⟩
      exact blanks_append (blanks_of_lineBreaks hlb)
        (blanks_append (texts a (fun t ht => by rw [h1]; simp [ht])) h3)

theorem spaced_broken : ∀ (n : Nat) {ts : List Token} {u s' : Text}, ts.length ≤ n →
    (∀ t ∈ ts, t.kind.isTrivia = true → Blanks t.text) → Spaced u ts s' → Broken true u ts s' := by
  intro n
  induction n with
  | zero =>
    intro ts u s' hn _ h
    have : ts = [] := List.length_eq_zero_iff.1 (by omega)
    subst this
    cases h
    exact .nil
  | succ n ih =>
    intro ts u s' hn hb h
    have e : ts = ts.takeWhile (fun t => t.kind.isTrivia) ++ dropTrivia ts :=
      (List.takeWhile_append_dropWhile).symm
    have hg : ∀ t ∈ ts.takeWhile (fun t => t.kind.isTrivia), t.kind.isTrivia = true :=
      List.all_eq_true.1 (List.all_takeWhile (p := fun t : Token => t.kind.isTrivia))
    have hd : ∀ t ∈ (dropTrivia ts).head?, t.kind.isTrivia = false := by
      intro t ht
      cases hr : dropTrivia ts with
      | nil => rw [hr] at ht; cases ht
      | cons v q =>
        rw [hr] at ht
        cases ht
        exact dropTrivia_head hr
    have hbg : ∀ t ∈ ts.takeWhile (fun t => t.kind.isTrivia), Blanks t.text := fun t ht =>
      hb t ((List.takeWhile_sublist _).mem ht) (hg t ht)
    generalize ts.takeWhile (fun t => t.kind.isTrivia) = g at e hg hbg
    generalize dropTrivia ts = r at e hd
    subst e
    obtain ⟨a, c, x, s'', h1, h2, h3, h4, h5⟩ := spaced_gap h hg hbg hd
    subst h1
    rw [h2]
    refine .gap hg hd h3 h4 ?_
    rcases h5 with ⟨rfl, rfl⟩ | ⟨t, q, s3, rfl, rfl, h5⟩
    · exact .nil
    · refine .token (hd t rfl) (ih ?_ (fun t ht => hb t (by simp [ht])) h5)
      simp only [List.length_append, List.length_cons] at hn
      omega

/-- A suggestion puts line breaks before a token at `pos`, or in the place of one of line breaks, where a
line break can be put. -/
def BreakAt (u : Text) (ts : List Token) (sug : Suggestion) : Prop :=
  IsLineBreaks sug.replaceWith ∧ sug.replaceWith ≠ [] ∧
  ∃ l t r, ts = l ++ t :: r ∧ Breakable (u ++ l.flatMap (·.text)) (t :: r) ∧
    sug.range = (if t.kind = .TK_LINE_BREAK then
        ⟨byteLen (u ++ l.flatMap (·.text)), byteLen (u ++ l.flatMap (·.text)) + byteLen t.text⟩
      else ⟨byteLen (u ++ l.flatMap (·.text)), byteLen (u ++ l.flatMap (·.text))⟩)

theorem breakAt_start {u : Text} {ts : List Token} {sug : Suggestion} (h : BreakAt u ts sug) :
    byteLen u ≤ sug.range.start := by
  obtain ⟨_, _, l, t, r, _, _, h⟩ := h
  rw [h]
  split <;> simp [byteLen_append]

/-- The suggestion is at the first token, or behind it. -/
theorem breakAt_cons {u : Text} {t : Token} {ts : List Token} {sug : Suggestion}
    (h : BreakAt u (t :: ts) sug) : sug.range.start = byteLen u ∨ BreakAt (u ++ t.text) ts sug := by
  obtain ⟨h1, h2, l, v, r, h3, h4, h5⟩ := h
  cases l with
  | nil =>
    left
    rw [h5]
    split <;> simp
  | cons w l =>
    simp only [List.cons_append, List.cons.injEq] at h3
    obtain ⟨rfl, rfl⟩ := h3
    right
    refine ⟨h1, h2, l, v, r, rfl, ?_, ?_⟩
    · simpa using h4
    · simpa [byteLen_append] using h5

theorem breakAt_first {u : Text} {t : Token} {ts : List Token} {sug : Suggestion} (hne : t.text ≠ [])
    (h : BreakAt u (t :: ts) sug) (hs : sug.range.start = byteLen u) :
    IsLineBreaks sug.replaceWith ∧ sug.replaceWith ≠ [] ∧ Breakable u (t :: ts) ∧
    sug.range = (if t.kind = .TK_LINE_BREAK then ⟨byteLen u, byteLen u + byteLen t.text⟩
      else ⟨byteLen u, byteLen u⟩) := by
  obtain ⟨h1, h2, l, v, r, h3, h4, h5⟩ := h
  cases l with
  | nil =>
    simp only [List.nil_append, List.cons.injEq] at h3
    obtain ⟨rfl, rfl⟩ := h3
    exact ⟨h1, h2, by simpa using h4, by simpa using h5⟩
  | cons w l =>
    exfalso
    simp only [List.cons_append, List.cons.injEq] at h3
    obtain ⟨rfl, rfl⟩ := h3
    have := byteLen_pos hne
    rw [h5] at hs
    split at hs <;> simp [byteLen_append] at hs <;> omega

/-- Suggestions in order are pieces of the text. -/
theorem spaced_pieces : ∀ {ts : List Token} {u : Text} {sugs : List Suggestion},
    (∀ t ∈ ts, t.text ≠ []) → (∀ x ∈ sugs, BreakAt u ts x) →
    sugs.Pairwise (fun x y => x.range.start < y.range.start) →
    ∃ ps, piecesBefore ps = ts.flatMap (·.text) ∧ pieceSuggestions (byteLen u) ps = sugs ∧
      Spaced u ts (piecesAfter ps)
  | [], u, sugs, _, hx, _ => by
    cases sugs with
    | nil => exact ⟨[], rfl, rfl, .nil⟩
    | cons x sugs =>
      obtain ⟨_, _, l, t, r, h, _⟩ := hx x (by simp)
      cases l <;> cases h
  | t :: ts, u, sugs, hne, hx, hp => by
    have ht := hne t (by simp)
    have hpos := byteLen_pos ht
    have hne' : ∀ t ∈ ts, t.text ≠ [] := fun t ht => hne t (by simp [ht])
    have later : (∀ x ∈ sugs, BreakAt (u ++ t.text) ts x) → ∃ ps, piecesBefore ps = (t :: ts).flatMap (·.text) ∧
        pieceSuggestions (byteLen u) ps = sugs ∧ Spaced u (t :: ts) (piecesAfter ps) := by
      intro h
      obtain ⟨ps, h1, h2, h3⟩ := spaced_pieces hne' h hp
      refine ⟨⟨t.text, none⟩ :: ps, ?_, ?_, ?_⟩
      · simp only [piecesBefore, List.flatMap_cons] at h1 ⊢
        rw [h1]
      · simp only [pieceSuggestions, List.nil_append]
        rw [← byteLen_append, h2]
      · have : piecesAfter (⟨t.text, none⟩ :: ps) = t.text ++ piecesAfter ps := by simp [piecesAfter]
        rw [this]
        exact .keep h3
    cases sugs with
    | nil => exact later (by simp)
    | cons x sugs =>
      rw [List.pairwise_cons] at hp
      have hrest : ∀ y ∈ sugs, byteLen u < y.range.start → BreakAt (u ++ t.text) ts y := by
        intro y hy hlt
        rcases breakAt_cons (hx y (by simp [hy])) with h | h
        · omega
        · exact h
      have hxs := breakAt_start (hx x (by simp))
      by_cases hs : x.range.start = byteLen u
      · obtain ⟨h1, h2, h3, h4⟩ := breakAt_first ht (hx x (by simp)) hs
        obtain ⟨ps, k1, k2, k3⟩ := spaced_pieces hne'
          (fun y hy => hrest y hy (by have := hp.1 y hy; omega)) hp.2
        obtain ⟨range, new⟩ := x
        dsimp only at h1 h2 h4
        by_cases hk : t.kind = .TK_LINE_BREAK
        · rw [if_pos hk] at h4
          subst h4
          refine ⟨⟨t.text, some new⟩ :: ps, ?_, ?_, ?_⟩
          · simp only [piecesBefore, List.flatMap_cons] at k1 ⊢
            rw [k1]
          · simp only [pieceSuggestions, List.singleton_append]
            rw [← byteLen_append, k2]
          · have : piecesAfter (⟨t.text, some new⟩ :: ps) = new ++ piecesAfter ps := by simp [piecesAfter]
            rw [this]
            exact .replace hk h1 h2 h3 k3
        · rw [if_neg hk] at h4
          subst h4
          refine ⟨⟨[], some new⟩ :: ⟨t.text, none⟩ :: ps, ?_, ?_, ?_⟩
          · simp only [piecesBefore, List.flatMap_cons, List.nil_append] at k1 ⊢
            rw [k1]
          · simp only [pieceSuggestions, List.singleton_append, List.nil_append, byteLen_nil, Nat.add_zero]
            rw [← byteLen_append, k2]
          · have : piecesAfter (⟨[], some new⟩ :: ⟨t.text, none⟩ :: ps) = new ++ (t.text ++ piecesAfter ps) := by
              simp [piecesAfter]
            rw [this]
            exact .insert hk h1 h2 h3 k3
      · refine later (fun y hy => ?_)
        rcases List.mem_cons.1 hy with rfl | hy
        · exact (breakAt_cons (hx y (by simp))).resolve_left hs
        · exact hrest y hy (by have := hp.1 y hy; omega)

/-- Suggestions of line breaks at different places, in order, keep the structure of a file without
syntax errors. -/
theorem break_suggestions {errLen : Text → Nat} (he : ErrLenOk errLen) (hE : ErrBeforeBreak errLen)
    {s : Text} {sugs : List Suggestion} (hx : ∀ x ∈ sugs, BreakAt [] (lex errLen s) x)
    (hs : sugs.Pairwise (fun x y => x.range.start < y.range.start)) {p : Parse}
    (hp : parse errLen s = .ok p) (hn : p.errors = []) :
    ∃ s' p', applySuggestionsToText sugs s = some s' ∧ Spaced [] (lex errLen s) s' ∧
      parse errLen s' = .ok p' ∧ p'.errors = [] ∧ bare p'.tree = bare p.tree := by
  have ht := C49_lex_tokenizes he s
  have htext : (lex errLen s).flatMap (·.text) = s := by
    rw [← textOf_map]
    exact tokenizes_text ht
  have hne : ∀ t ∈ lex errLen s, t.text ≠ [] := (C02_lex_partition he s).2.2
  obtain ⟨ps, h1, h2, h3⟩ := spaced_pieces hne hx hs
  have hb := spaced_broken _ (Nat.le_refl _) (trivia_blanks ht) h3
  obtain ⟨p', k1, k2, k3⟩ := C87_broken he hE hb hp hn
  refine ⟨_, p', ?_, h3, k1, k2, k3⟩
  have := apply_pieces ps []
  rw [List.nil_append, h1, htext] at this
  rw [← h2]
  exact this

end Ludtwig.Layout
