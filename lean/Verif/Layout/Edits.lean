import Verif.Layout.Lex
import Verif.Cli.Pieces

/-!
# Edits at line starts

If only the whitespace at the beginnings of lines is replaced, in terms of the leaves of the tree, the
result is the file in another layout.
-/

namespace Ludtwig.Layout

open Lexer Cli

/-- The pieces `ps` of a file with the leaves `ls`: only whitespace at the beginning of a line is
replaced or inserted (by blanks or line breaks). `b` says whether `ls` begins at the beginning of a
line, that is at the beginning of the file or behind a line break. -/
inductive Edits : Bool → List (SyntaxKind × Text) → List Piece → Prop
  | nil {b} : Edits b [] []
  | keep {b k t ls ps} : Edits (k == .TK_LINE_BREAK) ls ps → Edits b ((k, t) :: ls) (⟨t, none⟩ :: ps)
  | space {t new ls ps} : Blanks new → Edits false ls ps →
      Edits true ((.TK_WHITESPACE, t) :: ls) (⟨t, some new⟩ :: ps)
  | insert {k t new ls ps} : k.isTrivia = false → Blanks new → Edits false ls ps →
      Edits true ((k, t) :: ls) (⟨[], some new⟩ :: ⟨t, none⟩ :: ps)

theorem Edits.mono {b : Bool} {ls ps} (h : Edits false ls ps) : Edits b ls ps := by
  cases h with
  | nil => exact .nil
  | keep h => exact .keep h

theorem kind_ne_lb {k : SyntaxKind} (h : k.isTrivia = false) : (k == .TK_LINE_BREAK) = false := by
  revert h; cases k <;> simp [SyntaxKind.isTrivia]

/-- The pieces in terms of the leaves and in terms of the tokens. -/
theorem edits_tokens {ls : List (SyntaxKind × Text)} {ts : List Token} (hc : Covers ls ts) :
    ∀ {b ps}, Edits b ls ps → ∃ ps', Edits b (ts.map (fun t => (t.kind, t.text))) ps' ∧
      piecesBefore ps' = piecesBefore ps ∧ piecesAfter ps' = piecesAfter ps := by
  induction hc with
  | nil => intro b ps h; cases h; exact ⟨[], .nil, rfl, rfl⟩
  | same t _ ih =>
    intro b ps h
    generalize hk : t.kind = k at h
    cases h with
    | keep h =>
      obtain ⟨qs, h1, h2, h3⟩ := ih h
      refine ⟨⟨t.text, none⟩ :: qs, by rw [List.map_cons, hk]; exact .keep h1, ?_, ?_⟩
      · simp_all [piecesBefore]
      · simp_all [piecesAfter]
    | @space _ new _ _ hb h =>
      obtain ⟨qs, h1, h2, h3⟩ := ih h
      refine ⟨⟨t.text, some new⟩ :: qs, by rw [List.map_cons, hk]; exact .space hb h1, ?_, ?_⟩
      · simp_all [piecesBefore]
      · simp_all [piecesAfter]
    | @insert _ _ new _ _ hn hb h =>
      obtain ⟨qs, h1, h2, h3⟩ := ih h
      refine ⟨⟨[], some new⟩ :: ⟨t.text, none⟩ :: qs,
        by rw [List.map_cons, hk]; exact .insert hn hb h1, ?_, ?_⟩
      · simp_all [piecesBefore]
      · simp_all [piecesAfter]
  | word t ht _ ih =>
    intro b ps h
    cases h with
    | keep h =>
      obtain ⟨qs, h1, h2, h3⟩ := ih h
      refine ⟨⟨t.text, none⟩ :: qs, by rw [List.map_cons]; refine .keep (by rw [kind_ne_lb ht]; exact h1), ?_, ?_⟩
      · simp_all [piecesBefore]
      · simp_all [piecesAfter]
    | @insert _ _ new _ _ hn hb h =>
      obtain ⟨qs, h1, h2, h3⟩ := ih h
      refine ⟨⟨[], some new⟩ :: ⟨t.text, none⟩ :: qs, by rw [List.map_cons]; exact .insert ht hb h1, ?_, ?_⟩
      · simp_all [piecesBefore]
      · simp_all [piecesAfter]
  | merged t u ht _ _ ih =>
    intro b ps h
    have hn : t.kind.isTrivia = false := by rw [ht]; rfl
    cases h with
    | keep h =>
      obtain ⟨qs, h1, h2, h3⟩ := ih h
      refine ⟨⟨t.text, none⟩ :: ⟨u.text, none⟩ :: qs, ?_, ?_, ?_⟩
      · rw [List.map_cons, List.map_cons]
        exact .keep (.keep (Edits.mono h1))
      · simp_all [piecesBefore]
      · simp_all [piecesAfter]
    | @insert _ _ new _ _ _ hb h =>
      obtain ⟨qs, h1, h2, h3⟩ := ih h
      refine ⟨⟨[], some new⟩ :: ⟨t.text, none⟩ :: ⟨u.text, none⟩ :: qs, ?_, ?_, ?_⟩
      · rw [List.map_cons, List.map_cons]
        exact .insert hn hb (.keep (Edits.mono h1))
      · simp_all [piecesBefore]
      · simp_all [piecesAfter]

/-! ### Texts -/

theorem blanks_append {a b : Text} (ha : Blanks a) (hb : Blanks b) : Blanks (a ++ b) := by
  obtain ⟨l, rfl, hl⟩ := ha
  obtain ⟨m, rfl, hm⟩ := hb
  refine ⟨l ++ m, by simp, fun x hx => ?_⟩
  rcases List.mem_append.1 hx with h | h
  · exact hl x h
  · exact hm x h

theorem blanks_nil : Blanks [] := ⟨[], rfl, by simp⟩

theorem blanks_of_chars {t : Text} (h : ∀ c ∈ t, isBlank c = true) : Blanks t := by
  refine ⟨t.map (fun c => [c]), by simp [← List.flatMap_def], ?_⟩
  intro y hy
  obtain ⟨c, hc, rfl⟩ := List.mem_map.1 hy
  have := h c hc
  simp [isBlank] at this
  rcases this with rfl | rfl <;> simp

theorem blanks_of_lineBreaks {t : Text} (h : IsLineBreaks t) : Blanks t := by
  obtain ⟨l, n1, n2⟩ := h
  exact ⟨l, n1, fun y hy => .inr (.inr (n2 y hy))⟩

/-- Does a text start with a blank, LF or CRLF? -/
def startsBlank : Text → Bool
  | ' ' :: _ => true
  | '\t' :: _ => true
  | '\n' :: _ => true
  | '\r' :: '\n' :: _ => true
  | _ => false

theorem blanks_starts {g r : Text} (h : Blanks g) (hn : g ≠ []) : startsBlank (g ++ r) = true := by
  obtain ⟨l, rfl, hl⟩ := h
  cases l with
  | nil => exact absurd rfl hn
  | cons x l =>
    rcases hl x (List.mem_cons_self ..) with rfl | rfl | rfl | rfl <;> simp [startsBlank]

theorem startsBlank_split {s : Text} (h : startsBlank s = true) :
    ∃ g r, s = g ++ r ∧ Blanks g ∧ g ≠ [] := by
  unfold startsBlank at h
  split at h
  · exact ⟨[' '], _, rfl, ⟨[[' ']], by simp, by simp⟩, by simp⟩
  · exact ⟨['\t'], _, rfl, ⟨[['\t']], by simp, by simp⟩, by simp⟩
  · exact ⟨['\n'], _, rfl, ⟨[['\n']], by simp, by simp⟩, by simp⟩
  · exact ⟨['\r', '\n'], _, rfl, ⟨[['\r', '\n']], by simp, by simp⟩, by simp⟩
  · cases h

theorem solid_iff {s : Text} : Solid s ↔ startsBlank s = false := by
  constructor
  · intro h
    cases hs : startsBlank s with
    | false => rfl
    | true =>
      obtain ⟨g, r, h1, h2, h3⟩ := startsBlank_split hs
      exact absurd (h g r h1 h2) h3
  · rintro h g r rfl hg
    by_cases hn : g = []
    · exact hn
    · rw [blanks_starts hg hn] at h
      cases h

theorem startsBlank_take (s : Text) : startsBlank (s.take 2) = startsBlank s := by
  rcases s with _ | ⟨a, _ | ⟨b, s⟩⟩
  · rfl
  · rfl
  · simp only [List.take_succ_cons, List.take_zero]
    unfold startsBlank
    split <;> split <;> simp_all

/-- Any text is whitespace followed by a text that does not start with whitespace. -/
theorem split_blanks : ∀ (n : Nat) (s : Text), s.length ≤ n →
    ∃ g t, s = g ++ t ∧ Blanks g ∧ Solid t := by
  intro n
  induction n with
  | zero =>
    intro s hs
    have : s = [] := List.length_eq_zero_iff.1 (by omega)
    subst this
    exact ⟨[], [], rfl, blanks_nil, solid_iff.2 rfl⟩
  | succ n ih =>
    intro s hs
    cases hb : startsBlank s with
    | false => exact ⟨[], s, rfl, blanks_nil, solid_iff.2 hb⟩
    | true =>
      obtain ⟨g, r, rfl, hg, hne⟩ := startsBlank_split hb
      have := List.length_pos_iff.2 hne
      rw [List.length_append] at hs
      obtain ⟨g2, t, rfl, hg2, ht⟩ := ih r (by omega)
      exact ⟨g ++ g2, t, by simp, blanks_append hg hg2, ht⟩

theorem strip_blanks (a : Text) : ∃ u w, a = u ++ w ∧ (∀ c ∈ w, isBlank c = true) ∧
    ∀ c ∈ u.getLast?, isBlank c = false := by
  induction hn : a.length generalizing a with
  | zero =>
    have : a = [] := List.length_eq_zero_iff.1 hn
    subst this
    exact ⟨[], [], rfl, by simp, by simp⟩
  | succ n ih =>
    rcases List.eq_nil_or_concat a with rfl | ⟨a', c, rfl⟩
    · simp at hn
    · rw [List.concat_eq_append] at hn ⊢
      cases hc : isBlank c with
      | false =>
        refine ⟨a' ++ [c], [], by simp, by simp, ?_⟩
        intro d hd
        simp at hd
        subst hd
        exact hc
      | true =>
        obtain ⟨u, w, rfl, h1, h2⟩ := ih a' (by simpa using hn)
        refine ⟨u, w ++ [c], by simp, ?_, h2⟩
        intro d hd
        rcases List.mem_append.1 hd with h | h
        · exact h1 d h
        · simp at h; subst h; exact hc

/-- Any text with a line break is a line, the whitespace around the line break, and the rest. -/
theorem split_line {t : Text} (h : '\n' ∈ t) : ∃ u g s, t = u ++ (g ++ s) ∧ '\n' ∉ u ∧ Stops u g ∧
    Blanks g ∧ '\n' ∈ g ∧ Solid s := by
  have first : ∀ {t : Text}, '\n' ∈ t → ∃ a b, t = a ++ '\n' :: b ∧ '\n' ∉ a := by
    intro t h
    induction t with
    | nil => cases h
    | cons c t ih =>
      by_cases hc : c = '\n'
      · subst hc; exact ⟨[], t, rfl, by simp⟩
      · have : '\n' ∈ t := by
          rcases List.mem_cons.1 h with h | h
          · exact absurd h.symm hc
          · exact h
        obtain ⟨a, b, rfl, hab⟩ := ih this
        refine ⟨c :: a, b, rfl, ?_⟩
        intro hm
        rcases List.mem_cons.1 hm with h | h
        · exact hc h.symm
        · exact hab h
  obtain ⟨a, b, rfl, ha⟩ := first h
  obtain ⟨g1, s, rfl, hg1, hs⟩ := split_blanks b.length b (Nat.le_refl _)
  have notBlank : ∀ {c : Char}, isBlank c = false → c ≠ ' ' ∧ c ≠ '\t' := by
    intro c hc
    simp [isBlank] at hc
    exact hc
  have headBlank : ∀ {w : Text} {x : Text}, (∀ c ∈ w, isBlank c = true) → x.head? ≠ some '\n' →
      (w ++ x).head? ≠ some '\n' := by
    intro w x hw hx
    cases w with
    | nil => exact hx
    | cons c w =>
      intro h
      simp at h
      subst h
      have := hw _ (List.mem_cons_self ..)
      revert this
      decide
  by_cases hr : a.getLast? = some '\r'
  · obtain ⟨a', rfl⟩ := List.getLast?_eq_some_iff.1 hr
    obtain ⟨u, w, rfl, hw, hu⟩ := strip_blanks a'
    refine ⟨u, w ++ (['\r', '\n'] ++ g1), s, by simp, ?_, ?_, ?_, by simp, hs⟩
    · intro hm
      exact ha (by simp [hm])
    · intro c hc
      refine ⟨(notBlank (hu c hc)).1, (notBlank (hu c hc)).2, fun _ => headBlank hw (by simp)⟩
    · exact blanks_append (blanks_of_chars hw)
        (blanks_append ⟨[['\r', '\n']], by simp, by simp⟩ hg1)
  · obtain ⟨u, w, rfl, hw, hu⟩ := strip_blanks a
    refine ⟨u, w ++ (['\n'] ++ g1), s, by simp, ?_, ?_, ?_, by simp, hs⟩
    · intro hm
      exact ha (by simp [hm])
    · intro c hc
      refine ⟨(notBlank (hu c hc)).1, (notBlank (hu c hc)).2, fun hcr => ?_⟩
      cases w with
      | nil =>
        subst hcr
        rw [List.append_nil] at hr
        exact absurd hc hr
      | cons d w =>
        intro h
        simp at h
        subst h
        have := hw _ (List.mem_cons_self ..)
        revert this
        decide
    · exact blanks_append (blanks_of_chars hw) (blanks_append ⟨[['\n']], by simp, by simp⟩ hg1)

/-! ### Tokens -/

theorem tokenizes_trivia {errLen : Text → Nat} {ts : List (SyntaxKind × Text)} :
    ∀ {s : Text}, Tokenizes errLen s ts → ∀ p ∈ ts,
      p.2 ≠ [] ∧ (p.1.isTrivia = true → Blanks p.2 ∧ (p.1 = .TK_LINE_BREAK ↔ '\n' ∈ p.2)) ∧
        (p.1 = .TK_LINE_BREAK → '\n' ∈ p.2) := by
  induction ts with
  | nil => intro s _ p hp; cases hp
  | cons x ts ih =>
    intro s h p hp
    have ht : Tokenizes errLen ((ts.map (·.2)).flatten) ts := tokenizes_split (l := [x]) h
    rcases List.mem_cons.1 hp with rfl | hp
    · obtain ⟨k, t⟩ := p
      have hne : t ≠ [] := by
        rcases tokenizes_step h with ⟨_, h⟩ | ⟨pre, post, k, ts1, hs, hne, hx, ht, hd⟩
        · cases h
        · cases hx; exact hne
      obtain ⟨h1, h2⟩ := trivia_rule h
      have lb : k = .TK_LINE_BREAK → Blanks t ∧ '\n' ∈ t := by
        intro hk
        obtain ⟨n1, n2⟩ := lineBreak_items (h2 hk).1
        refine ⟨blanks_of_lineBreaks n1, ?_⟩
        obtain ⟨l, rfl, hl⟩ := n1
        cases l with
        | nil => exact absurd rfl n2
        | cons y l => rcases hl y (List.mem_cons_self ..) with rfl | rfl <;> simp
      refine ⟨hne, fun hk => ?_, fun hk => (lb hk).2⟩
      have : k = .TK_WHITESPACE ∨ k = .TK_LINE_BREAK := by
        revert hk
        cases k <;> simp [SyntaxKind.isTrivia]
      rcases this with hk | hk
      · obtain ⟨n1, n2⟩ := whitespace_chars (h1 hk).1
        refine ⟨blanks_of_chars n2, ?_⟩
        constructor
        · intro h0; dsimp only at h0; rw [hk] at h0; cases h0
        · intro h0
          exact absurd (n2 _ h0) (by decide)
      · exact ⟨(lb hk).1, fun _ => (lb hk).2, fun _ => hk⟩
    · exact ih ht p hp

theorem tokenizes_solid {errLen : Text → Nat} {s : Text} {ts : List (SyntaxKind × Text)}
    (h : Tokenizes errLen s ts) (hs : Solid s) : ∀ x ∈ ts.head?, x.1.isTrivia = false := by
  intro x hx
  obtain ⟨r, rfl⟩ := List.head?_eq_some_iff.1 hx
  cases hk : x.1.isTrivia with
  | false => rfl
  | true =>
    obtain ⟨n1, n2, _⟩ := tokenizes_trivia h x (List.mem_cons_self ..)
    have := tokenizes_text h
    rw [List.map_cons, List.flatten_cons] at this
    exact absurd (hs _ _ this.symm (n2 hk).1) n1

/-- The tokens of whitespace in front of a text. -/
theorem tokenizes_gap {errLen : Text → Nat} (he : ErrLenOk errLen) {g s : Text}
    {ts : List (SyntaxKind × Text)} (hg : Blanks g) (hs : Solid s) (h : Tokenizes errLen (g ++ s) ts) :
    ∃ gt ts2, ts = gt ++ ts2 ∧ (gt.map (·.2)).flatten = g ∧ (∀ p ∈ gt, p.1.isTrivia = true) ∧
      Tokenizes errLen s ts2 := by
  obtain ⟨l, rfl, hl⟩ := hg
  obtain ⟨gt, _, h2, _, h4⟩ := gap_tokens (errLen := errLen) hs l.length l (Nat.le_refl _) hl
  have h0 := C49_lex_tokenizes he s
  have e := C49_tokenizes_unique h (h4 _ h0)
  refine ⟨gt, _, e, ?_, fun p hp => (h2 p hp).1, h0⟩
  have := tokenizes_text (h4 _ h0)
  rw [List.map_append, List.flatten_append, tokenizes_text h0] at this
  exact List.append_cancel_right this

/-- The tokens of a line. -/
theorem tokenizes_line {errLen : Text → Nat} (hl : ErrLineLocal errLen) {g s : Text} :
    ∀ (n : Nat) {u : Text} {ts : List (SyntaxKind × Text)}, u.length ≤ n → Gapped u g s →
      Tokenizes errLen (u ++ (g ++ s)) ts →
      ∃ ut ts2, ts = ut ++ ts2 ∧ (ut.map (·.2)).flatten = u ∧ (∀ p ∈ ut, p.1 ≠ .TK_LINE_BREAK) ∧
        Tokenizes errLen (g ++ s) ts2 := by
  intro n
  induction n with
  | zero =>
    intro u ts hn hg h
    have : u = [] := List.length_eq_zero_iff.1 (by omega)
    subst this
    exact ⟨[], ts, rfl, rfl, by simp, h⟩
  | succ n ih =>
    intro u ts hn hg h
    by_cases hu : u = []
    · subst hu
      exact ⟨[], ts, rfl, rfl, by simp, h⟩
    · obtain ⟨pre, u2, k, ts2, rfl, hne, rfl, h2, _⟩ := step_transfer hu hg hg
        (readAlike_of_head hl hg.stops hg.noLf hg.blanks hg.lf hg.lf rfl) h
      have := List.length_pos_iff.2 hne
      rw [List.length_append] at hn
      obtain ⟨ut, ts3, rfl, e1, e2, e3⟩ := ih (by omega) hg.suffix h2
      refine ⟨(k, pre) :: ut, ts3, rfl, by simp [e1], ?_, e3⟩
      intro p hp
      rcases List.mem_cons.1 hp with rfl | hp
      · intro hk
        have := (tokenizes_trivia h _ (List.mem_cons_self ..)).2.2 hk
        exact hg.noLf (by simp [this])
      · exact e2 p hp

/-! ### Edits of gaps and lines -/

theorem edits_line {ut ts : List (SyntaxKind × Text)} (hu : ∀ p ∈ ut, p.1 ≠ .TK_LINE_BREAK) :
    ∀ {ps}, Edits false (ut ++ ts) ps → ∃ ps1 ps2, ps = ps1 ++ ps2 ∧
      piecesBefore ps1 = (ut.map (·.2)).flatten ∧ piecesAfter ps1 = (ut.map (·.2)).flatten ∧
      Edits false ts ps2 := by
  induction ut with
  | nil => intro ps h; exact ⟨[], ps, rfl, rfl, rfl, h⟩
  | cons x ut ih =>
    intro ps h
    rw [List.cons_append] at h
    cases h with
    | @keep _ k t _ qs h =>
      have hk : (k == SyntaxKind.TK_LINE_BREAK) = false := by
        simpa using hu _ (List.mem_cons_self ..)
      rw [hk] at h
      obtain ⟨ps1, ps2, rfl, h1, h2, h3⟩ := ih (fun p hp => hu p (List.mem_cons_of_mem _ hp)) h
      refine ⟨⟨t, none⟩ :: ps1, ps2, rfl, ?_, ?_, h3⟩
      · simp_all [piecesBefore]
      · simp_all [piecesAfter]

theorem edits_gap {gt ts : List (SyntaxKind × Text)}
    (hg : ∀ p ∈ gt, p.1.isTrivia = true ∧ p.2 ≠ [] ∧ Blanks p.2 ∧ (p.1 = .TK_LINE_BREAK ↔ '\n' ∈ p.2))
    (ht : ∀ p ∈ ts.head?, p.1.isTrivia = false) :
    ∀ {b ps}, Edits b (gt ++ ts) ps → ∃ ps1 ps2, ps = ps1 ++ ps2 ∧
      piecesBefore ps1 = (gt.map (·.2)).flatten ∧ Blanks (piecesAfter ps1) ∧
      ('\n' ∈ (gt.map (·.2)).flatten → '\n' ∈ piecesAfter ps1) ∧
      (b = false → gt ≠ [] → (piecesAfter ps1).head? = ((gt.map (·.2)).flatten).head?) ∧
      Edits false ts ps2 := by
  induction gt with
  | nil =>
    intro b ps h
    rw [List.nil_append] at h
    cases h with
    | nil => exact ⟨[], [], rfl, rfl, blanks_nil, by simp, by simp, .nil⟩
    | keep h => exact ⟨[], _, rfl, rfl, blanks_nil, by simp, by simp, .keep h⟩
    | space _ h =>
      have := ht _ rfl
      cases this
    | @insert k t new ls qs hn hb h =>
      refine ⟨[⟨[], some new⟩], ⟨t, none⟩ :: qs, rfl, rfl, by simpa [piecesAfter] using hb, by simp,
        by simp, .keep (by rw [kind_ne_lb hn]; exact h)⟩
  | cons x gt ih =>
    intro b ps h
    have hg' := fun p hp => hg p (List.mem_cons_of_mem _ hp)
    obtain ⟨m1, m2, m3, m4⟩ := hg x (List.mem_cons_self ..)
    rw [List.cons_append] at h
    cases h with
    | @keep _ k t _ qs h =>
      obtain ⟨ps1, ps2, rfl, h1, h2, h3, h4, h5⟩ := ih hg' h
      refine ⟨⟨t, none⟩ :: ps1, ps2, rfl, by simp_all [piecesBefore], ?_, ?_, ?_, h5⟩
      · exact blanks_append m3 h2
      · intro hm
        show '\n' ∈ t ++ piecesAfter ps1
        rw [List.map_cons, List.flatten_cons] at hm
        rcases List.mem_append.1 hm with hm | hm
        · exact List.mem_append.2 (.inl hm)
        · exact List.mem_append.2 (.inr (h3 hm))
      · intro _ _
        show (t ++ piecesAfter ps1).head? = _
        cases t with
        | nil => exact absurd rfl m2
        | cons c t => simp
    | @space t new _ qs hb h =>
      obtain ⟨ps1, ps2, rfl, h1, h2, h3, h4, h5⟩ := ih hg' h
      refine ⟨⟨t, some new⟩ :: ps1, ps2, rfl, by simp_all [piecesBefore], blanks_append hb h2, ?_,
        by simp, h5⟩
      intro hm
      show '\n' ∈ new ++ piecesAfter ps1
      rw [List.map_cons, List.flatten_cons] at hm
      rcases List.mem_append.1 hm with hm | hm
      · cases m4.2 hm
      · exact List.mem_append.2 (.inr (h3 hm))
    | insert hn => rw [hn] at m1; cases m1

theorem edits_relaid {errLen : Text → Nat} (he : ErrLenOk errLen) (hl : ErrLineLocal errLen) :
    ∀ (n : Nat) {s : Text} {ts ps}, s.length ≤ n → Tokenizes errLen s ts → Solid s →
      Edits false ts ps → Relaid s (piecesAfter ps) ∧ Solid (piecesAfter ps) ∧ piecesBefore ps = s := by
  intro n
  induction n with
  | zero =>
    intro s ts ps hn h hs hp
    have : s = [] := List.length_eq_zero_iff.1 (by omega)
    subst this
    rcases tokenizes_step h with ⟨_, rfl⟩ | ⟨pre, post, k, ts1, h0, hne, _⟩
    · cases hp
      exact ⟨.line (by simp), hs, rfl⟩
    · exact absurd (List.append_eq_nil_iff.1 h0.symm).1 hne
  | succ n ih =>
    intro s ts ps hn h hs hp
    by_cases hlf : '\n' ∈ s
    · obtain ⟨u, g, s2, rfl, h1, h2, h3, h4, h5⟩ := split_line hlf
      obtain ⟨ut, ts2, rfl, e1, e2, e3⟩ := tokenizes_line hl u.length (Nat.le_refl _) ⟨h2, h1, h3, h4⟩ h
      obtain ⟨ps1, ps2, rfl, f1, f2, f3⟩ := edits_line e2 hp
      obtain ⟨gt, ts3, rfl, k1, k2, k3⟩ := tokenizes_gap he h3 h5 e3
      have hgt : ∀ p ∈ gt, p.1.isTrivia = true ∧ p.2 ≠ [] ∧ Blanks p.2 ∧
          (p.1 = .TK_LINE_BREAK ↔ '\n' ∈ p.2) := by
        intro p hp
        obtain ⟨n1, n2, _⟩ := tokenizes_trivia e3 p (List.mem_append.2 (.inl hp))
        exact ⟨k2 p hp, n1, n2 (k2 p hp)⟩
      obtain ⟨qs1, qs2, rfl, j1, j2, j3, j4, j5⟩ := edits_gap hgt (tokenizes_solid k3 h5) f3
      have hgne : g ≠ [] := by intro h0; subst h0; cases h4
      have hune : u ≠ [] := by
        intro h0
        subst h0
        exact hgne (hs g s2 (by simp) h3)
      have hgtne : gt ≠ [] := by
        intro h0
        subst h0
        exact hgne k1.symm
      have hlen : s2.length ≤ n := by
        have := List.length_pos_iff.2 hgne
        simp only [List.length_append] at hn
        omega
      obtain ⟨r1, r2, r3⟩ := ih hlen k3 h5 j5
      rw [k1] at j1 j3 j4
      rw [e1] at f1 f2
      have hafter : piecesAfter (ps1 ++ (qs1 ++ qs2)) = u ++ (piecesAfter qs1 ++ piecesAfter qs2) := by
        simp only [piecesAfter, List.flatMap_append] at f2 ⊢
        rw [f2]
      have hbefore : piecesBefore (ps1 ++ (qs1 ++ qs2)) = u ++ (g ++ s2) := by
        simp only [piecesBefore, List.flatMap_append] at f1 j1 r3 ⊢
        rw [f1, j1, r3]
      rw [hafter]
      refine ⟨.gap h1 h2 h3 j2 h4 (j3 h4) (j4 rfl hgtne).symm h5 r2 r1, ?_, hbefore⟩
      rw [solid_iff, ← startsBlank_take] at hs ⊢
      have : (u ++ (piecesAfter qs1 ++ piecesAfter qs2)).take 2 = (u ++ (g ++ s2)).take 2 := by
        have hh := j4 rfl hgtne
        rcases u with _ | ⟨a, _ | ⟨b, u⟩⟩
        · exact absurd rfl hune
        · cases g with
          | nil => exact absurd rfl hgne
          | cons x g =>
            cases hq : piecesAfter qs1 with
            | nil => rw [hq] at hh; cases hh
            | cons y q =>
              rw [hq] at hh
              simp at hh
              simp [hh]
        · simp
      rw [this]
      exact hs
    · have hts : ∀ p ∈ ts, p.1 ≠ .TK_LINE_BREAK := by
        intro p hp hk
        have := (tokenizes_trivia h p hp).2.2 hk
        rw [← tokenizes_text h] at hlf
        exact hlf (List.mem_flatten.2 ⟨p.2, List.mem_map.2 ⟨p, hp, rfl⟩, this⟩)
      obtain ⟨ps1, ps2, rfl, f1, f2, f3⟩ := edits_line (ts := []) hts (by rwa [List.append_nil])
      cases f3
      rw [tokenizes_text h] at f1 f2
      rw [List.append_nil, f1, f2]
      exact ⟨.line hlf, hs, rfl⟩

/-- If whitespace is only replaced at the beginnings of lines, the result is the file in another
layout. -/
theorem edits_reindented {errLen : Text → Nat} (he : ErrLenOk errLen) (hl : ErrLineLocal errLen)
    {s : Text} {ts ps} (h : Tokenizes errLen s ts) (hp : Edits true ts ps) :
    Reindented s (piecesAfter ps) := by
  obtain ⟨g, t, rfl, hg, ht⟩ := split_blanks s.length s (Nat.le_refl _)
  obtain ⟨gt, ts2, rfl, k1, k2, k3⟩ := tokenizes_gap he hg ht h
  have hgt : ∀ p ∈ gt, p.1.isTrivia = true ∧ p.2 ≠ [] ∧ Blanks p.2 ∧
      (p.1 = .TK_LINE_BREAK ↔ '\n' ∈ p.2) := by
    intro p hp
    obtain ⟨n1, n2, _⟩ := tokenizes_trivia h p (List.mem_append.2 (.inl hp))
    exact ⟨k2 p hp, n1, n2 (k2 p hp)⟩
  obtain ⟨qs1, qs2, rfl, j1, j2, j3, j4, j5⟩ := edits_gap hgt (tokenizes_solid k3 ht) hp
  obtain ⟨r1, r2, r3⟩ := edits_relaid he hl t.length (Nat.le_refl _) k3 ht j5
  refine ⟨g, piecesAfter qs1, t, piecesAfter qs2, rfl, ?_, hg, j2, ht, r2, r1⟩
  simp [piecesAfter]

end Ludtwig.Layout
