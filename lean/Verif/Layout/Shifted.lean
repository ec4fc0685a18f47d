import Verif.Layout.BlockPlaces

/-!
# Whitespace at line starts

The whitespace behind line breaks is replaced. In contrast to `Edits`, this is about texts, not about
tokens.
-/

namespace Ludtwig.Layout

open Lexer Cli

/-- `s'` is `s` with other whitespace directly behind some line breaks. `b` says whether `s` begins at the
beginning of a line. -/
inductive Shifted : Bool → Text → Text → Prop
  | nil {b} : Shifted b [] []
  | char {b c s s'} : c ≠ '\n' → Shifted false s s' → Shifted b (c :: s) (c :: s')
  | newline {b s s'} : Shifted true s s' → Shifted b ('\n' :: s) ('\n' :: s')
  | blanks {w w' s s'} : Blanks w → Blanks w' → Shifted false s s' → Shifted true (w ++ s) (w' ++ s')

theorem Shifted.mono {s s' : Text} (h : Shifted false s s') (b : Bool) : Shifted b s s' := by
  cases h with
  | nil => exact .nil
  | char h1 h2 => exact .char h1 h2
  | newline h => exact .newline h

theorem Shifted.append {s s' : Text} (h : Shifted false s s') : ∀ (t : Text) (b : Bool), Shifted b (t ++ s) (t ++ s')
  | [], b => h.mono b
  | c :: t, b => by
    by_cases hc : c = '\n'
    · subst hc; exact .newline (h.append t true)
    · exact .char hc (h.append t false)

theorem Shifted.append_break {s s' : Text} (h : Shifted true s s') (t : Text) (b : Bool) :
    Shifted b (t ++ ['\n'] ++ s) (t ++ ['\n'] ++ s') := by
  rw [List.append_assoc, List.append_assoc]
  refine Shifted.append (s := '\n' :: s) (s' := '\n' :: s') (.newline h) t b

/-! ### Blanks -/

theorem blanks_cons {c : Char} {g : Text} (h : Blanks (c :: g)) :
    ((c = ' ' ∨ c = '\t' ∨ c = '\n') ∧ Blanks g) ∨ (c = '\r' ∧ ∃ g2, g = '\n' :: g2 ∧ Blanks g2) := by
  obtain ⟨l, e, hl⟩ := h
  cases l with
  | nil => cases e
  | cons x l =>
    have hl' : Blanks l.flatten := ⟨l, rfl, fun y hy => hl y (by simp [hy])⟩
    rcases hl x (by simp) with rfl | rfl | rfl | rfl
    · simp at e; exact .inl ⟨.inl e.1, e.2 ▸ hl'⟩
    · simp at e; exact .inl ⟨.inr (.inl e.1), e.2 ▸ hl'⟩
    · simp at e; exact .inl ⟨.inr (.inr e.1), e.2 ▸ hl'⟩
    · simp at e; exact .inr ⟨e.1, l.flatten, e.2, hl'⟩

theorem blanks_char {c : Char} {g : Text} (hc : c = ' ' ∨ c = '\t' ∨ c = '\n') (h : Blanks g) : Blanks (c :: g) :=
  blanks_append (a := [c]) ⟨[[c]], by simp, by rcases hc with rfl | rfl | rfl <;> simp⟩ h

theorem blanks_crlf {g : Text} (h : Blanks g) : Blanks ('\r' :: '\n' :: g) :=
  blanks_append (a := ['\r', '\n']) ⟨[['\r', '\n']], by simp, by simp⟩ h

theorem blanks_drop {a : Text} : ∀ {w : Text}, Blanks (w ++ a) → Blanks a
  | [], h => h
  | c :: w, h => by
    rcases blanks_cons h with ⟨_, h⟩ | ⟨_, g2, e, h⟩
    · exact blanks_drop h
    · refine blanks_drop (w := w) ?_
      rw [show w ++ a = '\n' :: g2 from e]
      exact blanks_char (.inr (.inr rfl)) h

theorem blankChar_of_blanks {g : Text} (h : Blanks g) : ∀ c ∈ g, blankChar c = true := by
  obtain ⟨l, rfl, hl⟩ := h
  intro c hc
  obtain ⟨x, hx, hc⟩ := List.mem_flatten.1 hc
  rcases hl x hx with rfl | rfl | rfl | rfl <;> simp at hc
  · subst hc; rfl
  · subst hc; rfl
  · subst hc; rfl
  · rcases hc with rfl | rfl <;> rfl

/-! ### Another layout -/

theorem shifted_line {r : Text} : ∀ {u t' : Text}, '\n' ∉ u → Shifted false (u ++ r) t' →
    ∃ r', t' = u ++ r' ∧ Shifted false r r'
  | [], t', _, h => ⟨t', rfl, h⟩
  | c :: u, t', hu, h => by
    rw [List.cons_append] at h
    cases h with
    | char hc h =>
      obtain ⟨r', rfl, h2⟩ := shifted_line (fun hm => hu (by simp [hm])) h
      exact ⟨r', rfl, h2⟩
    | newline h => exact absurd (by simp) hu

theorem shifted_head {s s' : Text} (h : Shifted false s s') : s.head? = s'.head? := by
  cases h <;> rfl

theorem shifted_solid {s s' : Text} (h : Shifted false s s') (hs : Solid s) : Solid s' := by
  rw [solid_iff] at hs ⊢
  cases h with
  | nil => exact hs
  | newline h => cases hs
  | @char _ c s s' hc h =>
    have hh := shifted_head h
    cases s with
    | nil =>
      cases s' with
      | nil => exact hs
      | cons d s' => cases hh
    | cons d s =>
      cases s' with
      | nil => cases hh
      | cons d' s' =>
        simp at hh
        subst hh
        rw [← startsBlank_take] at hs ⊢
        exact hs

theorem shifted_gap {r : Text} (hr : Solid r) : ∀ (n : Nat) {b : Bool} {g t' : Text}, g.length ≤ n → Blanks g →
    Shifted b (g ++ r) t' → ∃ g' r', t' = g' ++ r' ∧ Blanks g' ∧ Shifted false r r' ∧
      (b = false → ('\n' ∈ g → '\n' ∈ g') ∧ g.head? = g'.head?) := by
  -- beginning with an open line, if the rest is known
  have open' : ∀ (n : Nat), (∀ {b : Bool} {g t' : Text}, g.length < n → Blanks g → Shifted b (g ++ r) t' →
      ∃ g' r', t' = g' ++ r' ∧ Blanks g' ∧ Shifted false r r' ∧
        (b = false → ('\n' ∈ g → '\n' ∈ g') ∧ g.head? = g'.head?)) →
      ∀ {g t' : Text}, g.length ≤ n → Blanks g → Shifted false (g ++ r) t' →
      ∃ g' r', t' = g' ++ r' ∧ Blanks g' ∧ Shifted false r r' ∧ ('\n' ∈ g → '\n' ∈ g') ∧ g.head? = g'.head? := by
    intro n ih g t' hn hg h
    cases g with
    | nil => exact ⟨[], t', rfl, blanks_nil, h, by simp, rfl⟩
    | cons c g =>
      rw [List.cons_append] at h
      simp only [List.length_cons] at hn
      rcases blanks_cons hg with ⟨hc, hg'⟩ | ⟨rfl, g2, rfl, hg'⟩
      · cases h with
        | char hne h =>
          obtain ⟨g', r', rfl, k1, k2, k3⟩ := ih (by omega) hg' h
          refine ⟨c :: g', r', rfl, blanks_char hc k1, k2, fun hm => ?_, rfl⟩
          rcases List.mem_cons.1 hm with hm | hm
          · exact absurd hm.symm hne
          · exact List.mem_cons_of_mem _ ((k3 rfl).1 hm)
        | newline h =>
          obtain ⟨g', r', rfl, k1, k2, _⟩ := ih (by omega) hg' h
          exact ⟨'\n' :: g', r', rfl, blanks_char hc k1, k2, by simp, rfl⟩
      · cases h with
        | char _ h =>
          rw [List.cons_append] at h
          simp only [List.length_cons] at hn
          cases h with
          | char hne _ => exact absurd rfl hne
          | newline h =>
            obtain ⟨g', r', rfl, k1, k2, _⟩ := ih (by omega) hg' h
            exact ⟨'\r' :: '\n' :: g', r', rfl, blanks_crlf k1, k2, by simp, rfl⟩
  intro n
  induction n using Nat.strongRecOn with
  | ind n ih =>
    intro b g t' hn hg h
    have ih' : ∀ {b : Bool} {g t' : Text}, g.length < n → Blanks g → Shifted b (g ++ r) t' →
      ∃ g' r', t' = g' ++ r' ∧ Blanks g' ∧ Shifted false r r' ∧
        (b = false → ('\n' ∈ g → '\n' ∈ g') ∧ g.head? = g'.head?) :=
      fun hlt => ih _ hlt (Nat.le_refl _)
    have F : ∀ {g t' : Text}, g.length ≤ n → Blanks g → Shifted false (g ++ r) t' →
        ∃ g' r', t' = g' ++ r' ∧ Blanks g' ∧ Shifted false r r' := by
      intro g t' h1 h2 h3
      obtain ⟨g', r', k1, k2, k3, _⟩ := open' n ih' h1 h2 h3
      exact ⟨g', r', k1, k2, k3⟩
    cases b with
    | false =>
      obtain ⟨g', r', k1, k2, k3, k4⟩ := open' n ih' hn hg h
      exact ⟨g', r', k1, k2, k3, fun _ => k4⟩
    | true =>
      have : ∃ g' r', t' = g' ++ r' ∧ Blanks g' ∧ Shifted false r r' := by
        generalize hq : g ++ r = q at h
        cases h with
        | nil => exact F hn hg (by rw [hq]; exact .nil)
        | char h1 h2 => exact F hn hg (by rw [hq]; exact .char h1 h2)
        | newline h1 => exact F hn hg (by rw [hq]; exact .newline h1)
        | @blanks w w' s s' hw hw' h1 =>
          rcases List.append_eq_append_iff.1 hq with ⟨a, rfl, rfl⟩ | ⟨a, rfl, rfl⟩
          · have ha := hr a s rfl (blanks_drop hw)
            subst ha
            exact ⟨w', s', rfl, hw', by simpa using h1⟩
          · simp only [List.length_append] at hn
            obtain ⟨g', r', rfl, k1, k2⟩ := F (by omega) (blanks_drop hg) h1
            exact ⟨w' ++ g', r', by simp, blanks_append hw' k1, k2⟩
      obtain ⟨g', r', k1, k2, k3⟩ := this
      exact ⟨g', r', k1, k2, k3, fun h => by cases h⟩

theorem shifted_relaid : ∀ (n : Nat) {s s' : Text}, s.length ≤ n → Solid s → Shifted false s s' → Relaid s s' := by
  intro n
  induction n with
  | zero =>
    intro s s' hn _ h
    have : s = [] := List.length_eq_zero_iff.1 (by omega)
    subst this
    cases h
    exact .line (by simp)
  | succ n ih =>
    intro s s' hn hs h
    by_cases hlf : '\n' ∈ s
    · obtain ⟨u, g, s2, rfl, h1, h2, h3, h4, h5⟩ := split_line hlf
      obtain ⟨r', rfl, k1⟩ := shifted_line h1 h
      obtain ⟨g', s2', rfl, k2, k3, k4⟩ := shifted_gap h5 _ (Nat.le_refl _) h3 k1
      have hgne : g ≠ [] := by intro h0; subst h0; cases h4
      have := List.length_pos_iff.2 hgne
      simp only [List.length_append] at hn
      exact .gap h1 h2 h3 k2 h4 ((k4 rfl).1 h4) (k4 rfl).2 h5 (shifted_solid k3 h5) (ih (by omega) h5 k3)
    · obtain ⟨r', rfl, k1⟩ := shifted_line (r := []) (u := s) hlf (by simpa using h)
      cases k1
      rw [List.append_nil]
      exact .line hlf

/-- The text in another layout. -/
theorem shifted_reindented {s s' : Text} (h : Shifted true s s') : Reindented s s' := by
  obtain ⟨g, t, rfl, hg, ht⟩ := split_blanks s.length s (Nat.le_refl _)
  obtain ⟨g', t', rfl, k1, k2, _⟩ := shifted_gap ht _ (Nat.le_refl _) hg h
  exact ⟨g, g', t, t', rfl, rfl, hg, k1, ht, shifted_solid k2 ht, shifted_relaid _ (Nat.le_refl _) ht k2⟩

/-! ### Places in front of blocks -/

theorem shifted_split {b : Bool} {s t' : Text} (h : Shifted b s t') : ∀ {x' z' : Text}, t' = x' ++ z' →
    (∃ c, z'.head? = some c ∧ blankChar c = false) → ∃ x z fl, s = x ++ z ∧ Shifted fl z z' := by
  induction h with
  | nil =>
    rintro x' z' e ⟨c, hc, _⟩
    rw [(List.append_eq_nil_iff.1 e.symm).2] at hc
    cases hc
  | @char b c s s' hc h ih =>
    intro x' z' e hz
    cases x' with
    | nil => exact ⟨[], c :: s, b, rfl, by rw [List.nil_append] at e; rw [← e]; exact .char hc h⟩
    | cons d x' =>
      simp only [List.cons_append, List.cons.injEq] at e
      obtain ⟨x, z, fl, rfl, k⟩ := ih e.2 hz
      exact ⟨c :: x, z, fl, rfl, k⟩
  | @newline b s s' h ih =>
    intro x' z' e hz
    cases x' with
    | nil =>
      obtain ⟨c, h1, h2⟩ := hz
      rw [List.nil_append] at e
      rw [← e] at h1
      cases h1
      cases h2
    | cons d x' =>
      simp only [List.cons_append, List.cons.injEq] at e
      obtain ⟨x, z, fl, rfl, k⟩ := ih e.2 hz
      exact ⟨'\n' :: x, z, fl, rfl, k⟩
  | @blanks w w' s s' hw hw' h ih =>
    intro x' z' e hz
    rcases List.append_eq_append_iff.1 e with ⟨a, rfl, rfl⟩ | ⟨a, rfl, rfl⟩
    · obtain ⟨x, z, fl, rfl, k⟩ := ih rfl hz
      exact ⟨w ++ x, z, fl, by simp, k⟩
    · cases a with
      | nil => exact ⟨w, s, false, rfl, by simpa using h⟩
      | cons d a =>
        obtain ⟨c, h1, h2⟩ := hz
        cases h1
        rw [blankChar_of_blanks hw' d (by simp)] at h2
        cases h2

theorem shifted_kept : ∀ {w s r' : Text}, '\n' ∉ w → Shifted false s (w ++ r') → ∃ r, s = w ++ r ∧ Shifted false r r'
  | [], s, r', _, h => ⟨s, rfl, h⟩
  | c :: w, s, r', hw, h => by
    rw [List.cons_append] at h
    cases h with
    | char hc h =>
      obtain ⟨r, rfl, k⟩ := shifted_kept (fun hm => hw (by simp [hm])) h
      exact ⟨r, rfl, k⟩
    | newline h => exact absurd (by simp) hw

/-- Where the new text has `w`, the old one has it. -/
theorem shifted_word {b : Bool} {s w r' : Text} (hw : '\n' ∉ w) (hne : ∃ c, w.head? = some c ∧ blankChar c = false)
    (h : Shifted b s (w ++ r')) : ∃ x r, s = x ++ (w ++ r) ∧ Shifted false r r' := by
  cases b with
  | false =>
    obtain ⟨r, rfl, k⟩ := shifted_kept hw h
    exact ⟨[], r, rfl, k⟩
  | true =>
    have F : ∀ {s}, Shifted false s (w ++ r') → ∃ x r, s = x ++ (w ++ r) ∧ Shifted false r r' := by
      intro s h
      obtain ⟨r, rfl, k⟩ := shifted_kept hw h
      exact ⟨[], r, rfl, k⟩
    generalize hq : w ++ r' = q at h
    cases h with
    | nil => exact F (by rw [hq]; exact .nil)
    | char h1 h2 => exact F (by rw [hq]; exact .char h1 h2)
    | newline h1 => exact F (by rw [hq]; exact .newline h1)
    | @blanks v v' s s' hv hv' h1 =>
      have hnil : v' = [] := by
        cases v' with
        | nil => rfl
        | cons d v' =>
          exfalso
          obtain ⟨c, k1, k2⟩ := hne
          cases w with
          | nil => cases k1
          | cons e w =>
            cases k1
            simp only [List.cons_append, List.cons.injEq] at hq
            rw [hq.1, blankChar_of_blanks hv' d (by simp)] at k2
            cases k2
      subst hnil
      rw [List.nil_append] at hq
      subst hq
      obtain ⟨x, r, rfl, k⟩ := F h1
      exact ⟨v ++ x, r, by simp, k⟩

theorem blockNext_cons {c : Char} {v : Text} (hc : blankChar c = true) (h : BlockNext v) : BlockNext (c :: v) := by
  obtain ⟨b, w, r, rfl, hb, hw⟩ := h
  refine ⟨c :: b, w, r, rfl, ?_, hw⟩
  intro d hd
  rcases List.mem_cons.1 hd with rfl | hd
  · exact hc
  · exact hb d hd

theorem blockNext_blanks {v : Text} (h : BlockNext v) : ∀ {w : Text}, (∀ c ∈ w, blankChar c = true) → BlockNext (w ++ v)
  | [], _ => h
  | c :: w, hw => blockNext_cons (hw c (by simp)) (blockNext_blanks h (fun d hd => hw d (by simp [hd])))

theorem openTexts_word : ∀ w ∈ openTexts, '\n' ∉ w ∧ ∃ c, w.head? = some c ∧ blankChar c = false := by
  intro w hw
  simp only [openTexts, List.mem_cons, List.not_mem_nil, or_false] at hw
  rcases hw with rfl | rfl | rfl <;> exact ⟨by decide, _, rfl, by decide⟩

theorem blockNext_tail {c : Char} {v : Text} (hc : blankChar c = true) (h : BlockNext (c :: v)) : BlockNext v := by
  obtain ⟨b, w, r, e, hb, hw⟩ := h
  cases b with
  | nil =>
    obtain ⟨_, d, k1, k2⟩ := openTexts_word w hw
    cases w with
    | nil => cases k1
    | cons a w =>
      cases k1
      simp only [List.nil_append, List.cons_append, List.cons.injEq] at e
      rw [← e.1, hc] at k2
      cases k2
  | cons d b =>
    simp only [List.cons_append, List.cons.injEq] at e
    exact ⟨b, w, r, e.2, fun x hx => hb x (by simp [hx]), hw⟩

theorem blockNext_drop {v : Text} : ∀ {w : Text}, (∀ c ∈ w, blankChar c = true) → BlockNext (w ++ v) → BlockNext v
  | [], _, h => h
  | c :: w, hw, h => blockNext_drop (fun d hd => hw d (by simp [hd])) (blockNext_tail (hw c (by simp)) h)

theorem shifted_blockNext {b : Bool} {v v' : Text} (h : Shifted b v v') : BlockNext v' → BlockNext v := by
  induction h with
  | nil => exact fun h => h
  | @char b c s s' hc h ih =>
    intro hn
    cases hb : blankChar c with
    | true => exact blockNext_cons hb (ih (blockNext_tail hb hn))
    | false =>
      obtain ⟨x, w, r, e, hx, hw⟩ := hn
      cases x with
      | cons d x =>
        simp only [List.cons_append, List.cons.injEq] at e
        rw [e.1, hx d (by simp)] at hb
        cases hb
      | nil =>
        obtain ⟨k1, _⟩ := openTexts_word w hw
        rw [List.nil_append] at e
        obtain ⟨r2, e2, _⟩ := shifted_kept (s := c :: s) (w := w) (r' := r) k1 (e ▸ .char hc h)
        exact ⟨[], w, r2, e2, by simp, hw⟩
  | newline _ ih => exact fun hn => blockNext_cons rfl (ih (blockNext_tail rfl hn))
  | blanks hw hw' _ ih =>
    exact fun hn => blockNext_blanks (ih (blockNext_drop (blankChar_of_blanks hw') hn)) (blankChar_of_blanks hw)

/-- The condition about blocks stays true. -/
theorem blocksClear_shifted {b : Bool} {s s' : Text} (h : Shifted b s s') (hs : BlocksClear s) : BlocksClear s' := by
  intro u' v' e ha
  have key : ∀ w : Text, '\n' ∉ w → (∃ c, w.head? = some c ∧ blankChar c = false) → w <:+ u' →
      ∃ u v, s = u ++ v ∧ BlockNext v ∧ w <:+ u := by
    rintro w hw hne ⟨x', rfl⟩
    obtain ⟨x, z, fl, rfl, k1⟩ := shifted_split h (x' := x') (z' := w ++ v') (by rw [e]; simp) (by
      obtain ⟨c, k1, k2⟩ := hne
      cases w with
      | nil => cases k1
      | cons d w => exact ⟨c, k1, k2⟩)
    obtain ⟨y, v, rfl, k2⟩ := shifted_word hw hne k1
    exact ⟨x ++ (y ++ w), v, by simp, shifted_blockNext k2 ha, x ++ y, by simp⟩
  refine ⟨fun hl => ?_, ?_⟩
  · obtain ⟨x, hx⟩ := List.getLast?_eq_some_iff.1 hl
    obtain ⟨u, v, e2, h2, y, rfl⟩ := key ['<'] (by decide) ⟨_, rfl, by decide⟩ ⟨x, hx.symm⟩
    exact (hs _ v e2 h2).1 (by simp [List.getLast?_append])
  · rintro (hw | hw)
    · obtain ⟨u, v, e2, h2, h3⟩ := key _ (by decide) ⟨_, rfl, by decide⟩ hw
      exact (hs _ v e2 h2).2 (.inl h3)
    · obtain ⟨u, v, e2, h2, h3⟩ := key _ (by decide) ⟨_, rfl, by decide⟩ hw
      exact (hs _ v e2 h2).2 (.inr h3)

/-! ### Suggestions of line breaks and of whitespace at line starts -/

/-- A suggestion at the token `t` behind the text `u`: of whitespace for the beginning of a line (`l`), or of
line breaks. -/
def Here (l : Bool) (u : Text) (t : Token) (ts : List Token) (x : Suggestion) : Prop :=
  if l then Blanks x.replaceWith ∧
    ((t.kind = .TK_WHITESPACE ∧ x.range = ⟨byteLen u, byteLen u + byteLen t.text⟩) ∨
      (t.kind.isTrivia = false ∧ x.range = ⟨byteLen u, byteLen u⟩))
  else IsLineBreaks x.replaceWith ∧ x.replaceWith ≠ [] ∧ Breakable u (t :: ts) ∧
    x.range = (if t.kind = .TK_LINE_BREAK then ⟨byteLen u, byteLen u + byteLen t.text⟩ else ⟨byteLen u, byteLen u⟩)

/-- A suggestion of whitespace for the beginning of a line, or of line breaks somewhere else. `b` says whether
the tokens begin at the beginning of a line. -/
inductive Spot (l : Bool) : Bool → Text → List Token → Suggestion → Prop
  | here {u t ts x} : Here l u t ts x → Spot l l u (t :: ts) x
  | later {b u t ts x} : Spot l (t.kind == .TK_LINE_BREAK) (u ++ t.text) ts x → Spot l b u (t :: ts) x

theorem Here.range {l : Bool} {u : Text} {t : Token} {ts : List Token} {x : Suggestion} (h : Here l u t ts x) :
    x.range.start = byteLen u ∧ x.range.start ≤ x.range.stop ∧ x.range.stop ≤ byteLen u + byteLen t.text := by
  unfold Here at h
  split at h
  · obtain ⟨_, ⟨_, h⟩ | ⟨_, h⟩⟩ := h <;> rw [h] <;> simp
  · obtain ⟨_, _, _, h⟩ := h
    rw [h]
    split <;> simp

theorem Here.same {l : Bool} {u : Text} {t : Token} {ts : List Token} {x y : Suggestion} (h : Here l u t ts x)
    (h' : Here l u t ts y) : x.range = y.range := by
  unfold Here at h h'
  cases l with
  | true =>
    simp only [if_true] at h h'
    obtain ⟨_, ⟨k, h⟩ | ⟨k, h⟩⟩ := h <;> obtain ⟨_, ⟨k', h'⟩ | ⟨k', h'⟩⟩ := h'
    · rw [h, h']
    · rw [k] at k'; cases k'
    · rw [k'] at k; cases k
    · rw [h, h']
  | false =>
    simp only [Bool.false_eq_true, if_false] at h h'
    rw [h.2.2.2, h'.2.2.2]

theorem Spot.start_le {l b : Bool} {u : Text} {ts : List Token} {x : Suggestion} (h : Spot l b u ts x) :
    byteLen u ≤ x.range.start ∧ x.range.start ≤ x.range.stop := by
  induction h with
  | here h => exact ⟨Nat.le_of_eq h.range.1.symm, h.range.2.1⟩
  | later _ ih => rw [byteLen_append] at ih; exact ⟨by omega, ih.2⟩

/-- Two such suggestions are of one kind and for the same range, or one comes before the other. -/
theorem spot_ranges : ∀ {ts : List Token} {l l' b : Bool} {u : Text} {x y : Suggestion}, (∀ t ∈ ts, t.text ≠ []) →
    Spot l b u ts x → Spot l' b u ts y →
    (x.range = y.range ∧ l = l') ∨ Before x.range y.range ∨ Before y.range x.range
  | [], _, _, _, _, _, _, _, h, _ => by cases h
  | t :: ts, l, l', b, u, x, y, hne, hx, hy => by
    have hp := byteLen_pos (hne t (by simp))
    cases hx with
    | here hx =>
      have hr := hx.range
      cases hy with
      | here hy => exact .inl ⟨hx.same hy, rfl⟩
      | later hy =>
        have := hy.start_le
        rw [byteLen_append] at this
        exact .inr (.inl ⟨by omega, by omega⟩)
    | later hx =>
      cases hy with
      | here hy =>
        have hr := hy.range
        have := hx.start_le
        rw [byteLen_append] at this
        exact .inr (.inr ⟨by omega, by omega⟩)
      | later hy => exact spot_ranges (fun t ht => hne t (by simp [ht])) hx hy

theorem lineBreaks_last {b : Text} (h : IsLineBreaks b) (hne : b ≠ []) : ∃ y, b = y ++ ['\n'] := by
  obtain ⟨l, rfl, hl⟩ := h
  rcases List.eq_nil_or_concat l with rfl | ⟨l', x, rfl⟩
  · exact absurd rfl hne
  · rw [List.concat_eq_append] at hl ⊢
    rcases hl x (by simp) with rfl | rfl
    · exact ⟨l'.flatten, by simp⟩
    · exact ⟨l'.flatten ++ ['\r'], by simp⟩

theorem shifted_breaks {b : Bool} {t s s' : Text} (ht : IsLineBreaks t) (hne : t ≠ []) (h : Shifted true s s') :
    Shifted b (t ++ s) (t ++ s') := by
  obtain ⟨y, rfl⟩ := lineBreaks_last ht hne
  exact h.append_break y b

/-- Suggestions of both kinds in order are pieces of the text. The new text comes about by first putting
line breaks and then changing the whitespace at the beginnings of lines. -/
theorem spot_pieces : ∀ {ts : List Token} {b : Bool} {u : Text} {sugs : List Suggestion},
    (∀ t ∈ ts, t.text ≠ []) → (∀ t ∈ ts, t.kind = .TK_LINE_BREAK → IsLineBreaks t.text) →
    (∀ t ∈ ts, t.kind.isTrivia = true → Blanks t.text) → (∀ x ∈ sugs, ∃ l, Spot l b u ts x) →
    sugs.Pairwise (fun x y => Before x.range y.range) →
    ∃ ps s1, piecesBefore ps = ts.flatMap (·.text) ∧ pieceSuggestions (byteLen u) ps = sugs ∧
      Spaced u ts s1 ∧ Shifted b s1 (piecesAfter ps)
  | [], b, u, sugs, _, _, _, hx, _ => by
    cases sugs with
    | nil => exact ⟨[], [], rfl, rfl, .nil, .nil⟩
    | cons x sugs => obtain ⟨l, h⟩ := hx x (by simp); cases h
  | t :: ts, b, u, sugs, hne, hlb, htr, hx, hp => by
    have ht := hne t (by simp)
    have hpos := byteLen_pos ht
    have hne' : ∀ t ∈ ts, t.text ≠ [] := fun t ht => hne t (by simp [ht])
    have hlb' : ∀ t ∈ ts, t.kind = .TK_LINE_BREAK → IsLineBreaks t.text := fun t ht => hlb t (by simp [ht])
    have htr' : ∀ t ∈ ts, t.kind.isTrivia = true → Blanks t.text := fun t ht => htr t (by simp [ht])
    -- a token behind which the rest follows
    have tok : ∀ {s1 s' : Text} (b : Bool), Shifted (t.kind == .TK_LINE_BREAK) s1 s' →
        Shifted b (t.text ++ s1) (t.text ++ s') := by
      intro s1 s' b h
      by_cases hk : t.kind = .TK_LINE_BREAK
      · rw [show (t.kind == .TK_LINE_BREAK) = true by simp [hk]] at h
        exact shifted_breaks (hlb t (by simp) hk) ht h
      · rw [show (t.kind == .TK_LINE_BREAK) = false by simp [hk]] at h
        exact h.append _ _
    have later : (∀ x ∈ sugs, ∃ l, Spot l (t.kind == .TK_LINE_BREAK) (u ++ t.text) ts x) →
        ∃ ps s1, piecesBefore ps = (t :: ts).flatMap (·.text) ∧ pieceSuggestions (byteLen u) ps = sugs ∧
          Spaced u (t :: ts) s1 ∧ Shifted b s1 (piecesAfter ps) := by
      intro h
      obtain ⟨ps, s1, h1, h2, h3, h4⟩ := spot_pieces hne' hlb' htr' h hp
      refine ⟨⟨t.text, none⟩ :: ps, t.text ++ s1, ?_, ?_, .keep h3, ?_⟩
      · simp only [piecesBefore, List.flatMap_cons] at h1 ⊢
        rw [h1]
      · simp only [pieceSuggestions, List.nil_append]
        rw [← byteLen_append, h2]
      · have : piecesAfter (⟨t.text, none⟩ :: ps) = t.text ++ piecesAfter ps := by simp [piecesAfter]
        rw [this]
        exact tok b h4
    cases sugs with
    | nil => exact later (by simp)
    | cons x sugs =>
      rw [List.pairwise_cons] at hp
      have hrest : ∀ y ∈ sugs, byteLen u < y.range.start →
          ∃ l, Spot l (t.kind == .TK_LINE_BREAK) (u ++ t.text) ts y := by
        intro y hy hlt
        obtain ⟨l, h⟩ := hx y (by simp [hy])
        cases h with
        | here h => have := h.range; omega
        | later h => exact ⟨l, h⟩
      obtain ⟨l, hxx⟩ := hx x (by simp)
      have hxs := hxx.start_le.1
      cases hxx with
      | later hxl =>
        refine later (fun y hy => ?_)
        rcases List.mem_cons.1 hy with rfl | hy
        · exact ⟨l, hxl⟩
        · exact hrest y hy (by have := (hp.1 y hy).1; omega)
      | here hxh =>
        have hr := hxh.range
        obtain ⟨ps, s1, k1, k2, k3, k4⟩ := spot_pieces hne' hlb' htr'
          (fun y hy => hrest y hy (by have := (hp.1 y hy).1; omega)) hp.2
        have before : ∀ w, piecesBefore (⟨t.text, w⟩ :: ps) = (t :: ts).flatMap (·.text) := by
          intro w
          simp only [piecesBefore, List.flatMap_cons] at k1 ⊢
          rw [k1]
        have before' : ∀ w w', piecesBefore (⟨[], w⟩ :: ⟨t.text, w'⟩ :: ps) = (t :: ts).flatMap (·.text) := by
          intro w w'
          simp only [piecesBefore, List.flatMap_cons, List.nil_append] at k1 ⊢
          rw [k1]
        obtain ⟨range, new⟩ := x
        have over : range = ⟨byteLen u, byteLen u + byteLen t.text⟩ →
            pieceSuggestions (byteLen u) (⟨t.text, some new⟩ :: ps) = ⟨range, new⟩ :: sugs := by
          rintro rfl
          simp only [pieceSuggestions, List.singleton_append]
          rw [← byteLen_append, k2]
        have ins : range = ⟨byteLen u, byteLen u⟩ →
            pieceSuggestions (byteLen u) (⟨[], some new⟩ :: ⟨t.text, none⟩ :: ps) = ⟨range, new⟩ :: sugs := by
          rintro rfl
          simp only [pieceSuggestions, List.singleton_append, List.nil_append, byteLen_nil, Nat.add_zero]
          rw [← byteLen_append, k2]
        have a1 : piecesAfter (⟨t.text, some new⟩ :: ps) = new ++ piecesAfter ps := by simp [piecesAfter]
        have a2 : piecesAfter (⟨[], some new⟩ :: ⟨t.text, none⟩ :: ps) = new ++ (t.text ++ piecesAfter ps) := by
          simp [piecesAfter]
        cases b with
        | true =>
          simp only [Here, if_true] at hxh
          obtain ⟨g1, ⟨g2, g3⟩ | ⟨g2, g3⟩⟩ := hxh
          · refine ⟨⟨t.text, some new⟩ :: ps, t.text ++ s1, before _, over g3, .keep k3, ?_⟩
            rw [a1]
            rw [show (t.kind == .TK_LINE_BREAK) = false by rw [g2]; rfl] at k4
            exact .blanks (htr t (by simp) (by rw [g2]; rfl)) g1 k4
          · refine ⟨⟨[], some new⟩ :: ⟨t.text, none⟩ :: ps, t.text ++ s1, before' _ _, ins g3, .keep k3, ?_⟩
            rw [a2]
            exact .blanks (w := []) blanks_nil g1 (tok false k4)
        | false =>
          simp only [Here, Bool.false_eq_true, if_false] at hxh
          obtain ⟨g1, g2, g3, g4⟩ := hxh
          by_cases hk : t.kind = .TK_LINE_BREAK
          · rw [if_pos hk] at g4
            refine ⟨⟨t.text, some new⟩ :: ps, new ++ s1, before _, over g4, .replace hk g1 g2 g3 k3, ?_⟩
            rw [a1]
            rw [show (t.kind == .TK_LINE_BREAK) = true by simp [hk]] at k4
            exact shifted_breaks g1 g2 k4
          · rw [if_neg hk] at g4
            refine ⟨⟨[], some new⟩ :: ⟨t.text, none⟩ :: ps, new ++ (t.text ++ s1), before' _ _, ins g4,
              .insert hk g1 g2 g3 k3, ?_⟩
            rw [a2]
            exact shifted_breaks g1 g2 (tok true k4)

/-! ### Suggestions of the one and the other kind -/

theorem spot_break {sug : Suggestion} (h1 : IsLineBreaks sug.replaceWith) (h2 : sug.replaceWith ≠ []) :
    ∀ {l : List Token} {b : Bool} {u : Text} {t : Token} {r : List Token},
    Breakable (u ++ l.flatMap (·.text)) (t :: r) →
    sug.range = (if t.kind = .TK_LINE_BREAK then
        ⟨byteLen (u ++ l.flatMap (·.text)), byteLen (u ++ l.flatMap (·.text)) + byteLen t.text⟩
      else ⟨byteLen (u ++ l.flatMap (·.text)), byteLen (u ++ l.flatMap (·.text))⟩) →
    (l = [] → b = false) → (∀ a v, l = a ++ [v] → v.kind ≠ .TK_LINE_BREAK) → Spot false b u (l ++ t :: r) sug
  | [], b, u, t, r, h3, h4, h5, _ => by
    rw [h5 rfl]
    refine .here ?_
    simp only [Here, Bool.false_eq_true, if_false]
    exact ⟨h1, h2, by simpa using h3, by simpa using h4⟩
  | v :: l, b, u, t, r, h3, h4, h5, h6 => by
    refine .later (spot_break h1 h2 (by simpa using h3) (by simpa using h4) ?_ ?_)
    · rintro rfl
      simpa using h6 [] v rfl
    · rintro a w rfl
      exact h6 (v :: a) w rfl

theorem spot_line {sug : Suggestion} : ∀ {ts : List Token} {b : Bool} {u : Text},
    AtLineStart b (byteLen u) (ts.map (fun t => (t.kind, t.text))) sug → Spot true b u ts sug
  | [], b, u, h => by cases h
  | t :: ts, b, u, h => by
    rw [List.map_cons] at h
    generalize hk : t.kind = k at h
    cases h with
    | @space _ _ new _ hb =>
      refine .here ?_
      simp only [Here, if_true]
      exact ⟨hb, .inl ⟨hk, trivial⟩⟩
    | @insert _ _ _ new _ htr hb =>
      refine .here ?_
      simp only [Here, if_true]
      exact ⟨hb, .inr ⟨by rw [hk]; exact htr, trivial⟩⟩
    | later h =>
      refine .later (spot_line ?_)
      rw [byteLen_append, hk]
      exact h

end Ludtwig.Layout
