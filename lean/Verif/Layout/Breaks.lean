import Verif.Layout.BreakSpec
import Verif.Layout.Widen
import Verif.Layout.Edits
import Verif.Layout.TextSamples

/-!
# Added line breaks in a text: property C87
-/

namespace Ludtwig.Layout

open Lexer Re

/-! ## Where rules match -/

theorem break_char {w : Text} (h : BreakFirst w) : ∃ c r, w = c :: r ∧ blankChar c = true ∧
    isBlank c = false ∧ (c = '\n' ∨ (c = '\r' ∧ ∃ r', r = '\n' :: r')) := by
  obtain ⟨b, r, rfl, rfl | rfl⟩ := h
  · exact ⟨'\n', r, rfl, rfl, rfl, .inl rfl⟩
  · exact ⟨'\r', '\n' :: r, rfl, rfl, rfl, .inr ⟨rfl, r, rfl⟩⟩

/-- A text without line break inside does not go beyond a line break. -/
theorem inner_break {w u v : Text} (hw : inner w = true) (hv : BreakFirst v) (h : w <+: u ++ v) :
    w <+: u := by
  rcases prefix_or h with h | ⟨t, rfl, hne, ht⟩
  · exact h
  · exfalso
    have hi := inner_suffix hw
    obtain ⟨c, r, rfl, hc, _, hr⟩ := break_char hv
    cases t with
    | nil => exact hne rfl
    | cons d t =>
      obtain ⟨rfl, ht2⟩ := List.cons_prefix_cons.1 ht
      cases t with
      | nil => simp [inner, hc] at hi
      | cons e t =>
        rcases hr with rfl | ⟨rfl, r', rfl⟩
        · simp [inner] at hi
        · have := (List.cons_prefix_cons.1 ht2).1
          subst this
          simp [inner, blankChar] at hi

/-- A match at a character that is no whitespace does not go beyond a line break. -/
theorem rule_break {c : Char} {w u v : Text} {k : SyntaxKind}
    (hr : IsLiteralToken w k ∨ IsRegexToken w k) (hc : blankChar c = false) (hv : BreakFirst v)
    (h : w <+: (c :: u) ++ v) : w <+: c :: u := by
  have head : ∀ d w', w = d :: w' → blankChar d = true → False := by
    rintro d w' rfl hd
    obtain ⟨rfl, _⟩ := List.cons_prefix_cons.1 h
    rw [hc] at hd
    cases hd
  rcases rule_text hr with ⟨_, hm⟩ | ⟨_, hm⟩ | ⟨_, hi, _⟩
  · obtain ⟨h1, h2⟩ := whitespace_chars hm
    cases w with
    | nil => exact absurd rfl h1
    | cons d w => exact absurd (blank_blankChar (h2 d (by simp))) (fun hd => head d w rfl hd)
  · obtain ⟨h1, h2⟩ := lineBreak_items hm
    cases w with
    | nil => exact absurd rfl h2
    | cons d w => exact absurd (lineBreaks_chars h1 d (by simp)) (fun hd => head d w rfl hd)
  · exact inner_break hi hv h

theorem lineBreak_match {x : Text} (hx : x = ['\n'] ∨ x = ['\r', '\n']) :
    IsLiteralToken x .TK_LINE_BREAK ∨ IsRegexToken x .TK_LINE_BREAK := by
  have := lineBreak_of_items (x := x) (l := []) (by simpa using hx)
  simp only [List.flatten_cons, List.flatten_nil, List.append_nil] at this
  exact .inr ⟨_, by simp [regexRules], this⟩

/-- Where no rule matches, none does if a line break is put somewhere behind. -/
theorem noRule_break {u v w : Text} (hu : u ≠ []) (hcr : u.getLast? ≠ some '\r') (hw : BreakFirst w)
    (h : NoRule (u ++ v)) : NoRule (u ++ w) := by
  intro q k hq hr
  have pre : ∀ {y : Text}, y <+: u → y <+: u ++ v := fun hy => hy.trans (List.prefix_append _ _)
  rcases rule_text hr with ⟨_, hm⟩ | ⟨_, hm⟩ | ⟨_, hi, _⟩
  · rcases prefix_or hq with h' | ⟨t, rfl, hne, ht⟩
    · exact h q k (pre h') hr
    · obtain ⟨_, h2⟩ := whitespace_chars hm
      obtain ⟨c, r, rfl, _, hc, _⟩ := break_char hw
      cases t with
      | nil => exact hne rfl
      | cons d t =>
        obtain ⟨rfl, _⟩ := List.cons_prefix_cons.1 ht
        have := h2 d (by simp)
        rw [hc] at this
        cases this
  · obtain ⟨h1, h2⟩ := lineBreak_items hm
    obtain ⟨x, r, rfl, hx⟩ := lineBreaks_head h1 h2
    have hxq : x <+: u ++ w := (List.prefix_append x r).trans hq
    rcases prefix_or hxq with h' | ⟨t, e, hne, _⟩
    · exact h x _ (pre h') (lineBreak_match hx)
    · cases u with
      | nil => exact hu rfl
      | cons c u =>
        rcases hx with rfl | rfl
        · simp only [List.cons_append, List.cons.injEq] at e
          exact hne (List.append_eq_nil_iff.1 e.2.symm).2
        · simp only [List.cons_append, List.cons.injEq] at e
          obtain ⟨rfl, e⟩ := e
          cases u with
          | nil => exact hcr rfl
          | cons d u =>
            simp only [List.cons_append, List.cons.injEq] at e
            exact hne (List.append_eq_nil_iff.1 e.2.symm).2
  · exact h q k (pre (inner_break hi hw hq)) hr

/-! ## The tokens around a changed gap -/

/-- Two texts behind `u` are the same, at least up to the first added line break. -/
def SameUpTo (u s s' : Text) : Prop :=
  s = s' ∨ ∃ c x x', s = c ++ x ∧ s' = c ++ x' ∧ BreakFirst x' ∧ (u ++ c).getLast? ≠ some '\r' ∧
    ¬ EndsTwoWords (u ++ c)

theorem SameUpTo.prepend {u p s s' : Text} (h : SameUpTo (u ++ p) s s') :
    SameUpTo u (p ++ s) (p ++ s') := by
  rcases h with rfl | ⟨c, x, x', rfl, rfl, h1, h2, h3⟩
  · exact .inl rfl
  · exact .inr ⟨p ++ c, x, x', by simp, by simp, h1, by rwa [← List.append_assoc],
      by rwa [← List.append_assoc]⟩

theorem endsTwoWords_append {a b : Text} (h : EndsTwoWords b) : EndsTwoWords (a ++ b) :=
  h.imp (·.trans (List.suffix_append _ _)) (·.trans (List.suffix_append _ _))

/-- The second word of an operator. -/
theorem word_break {c x x' w : Text} (hw : inner w = true) (hx : BreakFirst x') (hne : c ≠ w)
    (h : ∃ q, c ++ x' = w ++ q ∧ WordEnd q) : ∃ q, c ++ x = w ++ q ∧ WordEnd q := by
  obtain ⟨q, hq, he⟩ := h
  obtain ⟨c2, rfl⟩ := inner_break hw hx (⟨q, hq.symm⟩ : w <+: c ++ x')
  rw [List.append_assoc] at hq
  have := List.append_cancel_left hq
  subst this
  refine ⟨c2 ++ x, by simp, ?_⟩
  cases c2 with
  | nil => exact absurd (by simp) hne
  | cons d c2 => exact wordEnd_transfer (s := d :: c2 ++ x') rfl he

/-- A token stays the same if line breaks are added behind it. -/
theorem token_break {errLen : Text → Nat} (hE : ErrBeforeBreak errLen) {u p r r' : Text}
    {k : SyntaxKind} {ts ts' : List (SyntaxKind × Text)} (ht : Tokenizes errLen (p ++ r) ((k, p) :: ts))
    (hk : k.isTrivia = false) (hd : SameUpTo (u ++ p) r r') (h' : Tokenizes errLen r' ts') :
    Tokenizes errLen (p ++ r') ((k, p) :: ts') := by
  rcases tokenizes_step ht with ⟨_, h⟩ | ⟨pre, post, k', ts2, hs, hne, hts, ht2, hc⟩
  · cases h
  cases hts
  have := List.append_cancel_left hs
  subst this
  rcases hd with rfl | ⟨c, x, x', rfl, rfl, hx, hcr, htw⟩
  · rw [C49_tokenizes_unique h' ht2]
    exact ht
  have hcr' : (p ++ c).getLast? ≠ some '\r' := by
    rw [List.append_assoc, List.getLast?_append] at hcr
    intro e
    rw [e] at hcr
    exact hcr rfl
  have htw' : ¬ EndsTwoWords (p ++ c) := by
    rw [List.append_assoc] at htw
    exact fun h => htw (endsTwoWords_append h)
  have longest : ∀ q j, q <+: p → LongestMatch (p ++ (c ++ x)) q j → noBlankHead q = true →
      LongestMatch (p ++ (c ++ x')) q j := by
    intro q j hqp hq hh
    refine ⟨hqp.trans (List.prefix_append _ _), hq.nonempty, hq.rule, ?_, hq.literalFirst⟩
    intro q' j' hq' hr
    cases q with
    | nil => exact absurd rfl hq.nonempty
    | cons d q =>
      obtain ⟨p2, rfl⟩ := hqp
      have hb : blankChar d = false := by simpa [noBlankHead] using hh
      have := rule_break (c := d) (u := q ++ p2 ++ c) hr hb hx (by simpa using hq')
      exact hq.longest q' j' (by
        have := this.trans (List.prefix_append _ x)
        simpa using this) hr
  rcases hc with ⟨q, j, hq, ⟨rfl, rfl, h1, h2⟩ | ⟨rfl, rfl, rfl, hw⟩ | ⟨rfl, rfl, rfl, hw⟩⟩ | ⟨rfl, hlen, hno⟩
  · have hh : noBlankHead p = true := by
      rcases rule_text hq.rule with ⟨rfl, _⟩ | ⟨rfl, _⟩ | ⟨_, _, h⟩
      · cases hk
      · cases hk
      · exact h
    have hq' := longest p k (List.prefix_refl _) hq hh
    refine .rule hq' (fun ⟨hk, q, e, hw⟩ => h1 ⟨hk, ?_⟩) (fun ⟨hk, q, e, hw⟩ => h2 ⟨hk, ?_⟩) h'
    · subst hk
      have := longestMatch_not hq'
      subst this
      exact word_break (w := [' ', 'i', 'n']) (by decide) hx
        (fun h0 => htw' (.inl ⟨[], by rw [h0]; rfl⟩)) ⟨q, e, hw⟩
    · subst hk
      have := longestMatch_is hq'
      subst this
      exact word_break (w := [' ', 'n', 'o', 't']) (by decide) hx
        (fun h0 => htw' (.inr ⟨[], by rw [h0]; rfl⟩)) ⟨q, e, hw⟩
  · have hqq := longestMatch_not hq
    subst hqq
    refine .notIn (longest _ _ ⟨[' ', 'i', 'n'], rfl⟩ hq rfl) ?_ h'
    cases c with
    | nil => exact absurd (.inl ⟨[], by simp⟩) htw'
    | cons d c => exact wordEnd_transfer (s := d :: c ++ x) rfl hw
  · have hqq := longestMatch_is hq
    subst hqq
    refine .isNot (longest _ _ ⟨[' ', 'n', 'o', 't'], rfl⟩ hq rfl) ?_ h'
    cases c with
    | nil => exact absurd (.inr ⟨[], by simp⟩) htw'
    | cons d c => exact wordEnd_transfer (s := d :: c ++ x) rfl hw
  · have hpc : p ++ c ≠ [] := fun h => hne (List.append_eq_nil_iff.1 h).1
    have e1 : p ++ (c ++ x) = (p ++ c) ++ x := by simp
    have e2 : p ++ (c ++ x') = (p ++ c) ++ x' := by simp
    have hno' : NoRule ((p ++ c) ++ x') := noRule_break hpc hcr' hx (e1 ▸ hno)
    refine .unknown hne ?_ (e2 ▸ hno') h'
    rw [e2, hE (p ++ c) x x' hpc hcr' hx (e1 ▸ hno) hno' (by rw [← e1, ← hlen]; simp), ← e1, hlen]

/-- A text of which the first token is not whitespace does not start with whitespace. -/
theorem solid_of_tokens {errLen : Text → Nat} {s : Text} {ts : List (SyntaxKind × Text)}
    (h : Tokenizes errLen s ts) (hh : ∀ t ∈ ts.head?, t.1.isTrivia = false) : Solid s := by
  rintro g r rfl ⟨l, rfl, hl⟩
  cases l with
  | nil => rfl
  | cons x l =>
    exfalso
    have hx := hl x (by simp)
    obtain ⟨c, x', rfl, hc⟩ : ∃ c x', x = c :: x' ∧ blankChar c = true := by
      rcases hx with rfl | rfl | rfl | rfl <;> exact ⟨_, _, rfl, rfl⟩
    have hm : ∃ k, IsLiteralToken (c :: x') k ∨ IsRegexToken (c :: x') k := by
      rcases hx with h | h | h | h
      · rw [h]; exact ⟨.TK_WHITESPACE, .inr ⟨Re.whitespace, by simp [regexRules], matches_plus_set.2 ⟨by simp, by
          simpa using (isBlank_iff ' ').1 rfl⟩⟩⟩
      · rw [h]; exact ⟨.TK_WHITESPACE, .inr ⟨Re.whitespace, by simp [regexRules], matches_plus_set.2 ⟨by simp, by
          simpa using (isBlank_iff '\t').1 rfl⟩⟩⟩
      · exact ⟨_, lineBreak_match (.inl h)⟩
      · exact ⟨_, lineBreak_match (.inr h)⟩
    obtain ⟨k0, hm⟩ := hm
    rcases tokenizes_step h with ⟨h0, _⟩ | ⟨pre, post, k, ts2, hs, hne, rfl, ht2, hd⟩
    · simp at h0
    · have hk : k.isTrivia = false := hh _ rfl
      rcases hd with ⟨q, j, hq, hd⟩ | ⟨_, _, hno⟩
      · have hj : j.isTrivia = false := by
          rcases hd with ⟨rfl, _⟩ | ⟨rfl, _⟩ | ⟨rfl, _⟩
          · exact hk
          · rfl
          · rfl
        rcases rule_text hq.rule with ⟨rfl, _⟩ | ⟨rfl, _⟩ | ⟨_, _, hb⟩
        · cases hj
        · cases hj
        · have hp := hq.isPrefix
          cases q with
          | nil => exact hq.nonempty rfl
          | cons d q =>
            simp only [List.flatten_cons, List.cons_append, List.cons_prefix_cons] at hp
            rw [hp.1] at hb
            exact noBlankHead_blank hc hb
      · exact hno (c :: x') k0 (by simp) hm

/-- The kind and the text of a token. -/
def kindText (t : Token) : SyntaxKind × Text := (t.kind, t.text)

theorem trivia_texts {errLen : Text → Nat} {ts : List Token} : ∀ {s : Text},
    Tokenizes errLen s (ts.map kindText) →
    ∀ t ∈ ts, t.kind.isTrivia = true → t.text.all blankChar = true := by
  induction ts with
  | nil => intro s _ t ht; cases ht
  | cons x ts ih =>
    intro s h t ht hk
    rcases List.mem_cons.1 ht with rfl | ht
    · exact trivia_text (k := t.kind) (p := t.text) h hk
    · exact ih (tokenizes_split (l := [kindText x]) h) t ht hk

theorem trivia_blanks {errLen : Text → Nat} {ts : List Token} : ∀ {s : Text},
    Tokenizes errLen s (ts.map kindText) → ∀ t ∈ ts, t.kind.isTrivia = true → Blanks t.text := by
  induction ts with
  | nil => intro s _ t ht; cases ht
  | cons x ts ih =>
    intro s h t ht hk
    rcases List.mem_cons.1 ht with rfl | ht
    · obtain ⟨h1, h2⟩ := trivia_rule (k := t.kind) (p := t.text) h
      have : t.kind = .TK_WHITESPACE ∨ t.kind = .TK_LINE_BREAK := by
        revert hk
        cases t.kind <;> simp [SyntaxKind.isTrivia]
      rcases this with hk | hk
      · exact blanks_of_chars (whitespace_chars (h1 hk).1).2
      · exact blanks_of_lineBreaks (lineBreak_items (h2 hk).1).1
    · exact ih (tokenizes_split (l := [kindText x]) h) t ht hk

/-- Whitespace does not end with a CR, nor with another character. -/
theorem blanks_last {g : Text} (h : Blanks g) (hne : g ≠ []) :
    g.getLast? ≠ some '\r' ∧ ∀ c, blankChar c = false → g.getLast? ≠ some c := by
  obtain ⟨l, rfl, hl⟩ := h
  obtain ⟨l', x, rfl⟩ : ∃ l' x, l = l' ++ [x] := by
    rcases List.eq_nil_or_concat l with rfl | ⟨l', x, rfl⟩
    · exact absurd rfl hne
    · exact ⟨l', x, by simp⟩
  have hx := hl x (by simp)
  rw [List.flatten_append, List.getLast?_append]
  have : ∃ d, ([x] : List Text).flatten.getLast? = some d ∧ d ≠ '\r' ∧ blankChar d = true := by
    rcases hx with rfl | rfl | rfl | rfl
    · exact ⟨' ', rfl, by decide, rfl⟩
    · exact ⟨'\t', rfl, by decide, rfl⟩
    · exact ⟨'\n', rfl, by decide, rfl⟩
    · exact ⟨'\n', rfl, by decide, rfl⟩
  obtain ⟨d, h1, h2, h3⟩ := this
  rw [h1]
  refine ⟨fun h => h2 (by simpa using h), fun c hc h => ?_⟩
  have : d = c := by simpa using h
  rw [this, hc] at h3
  cases h3

theorem suffix_last {w a b : Text} {c : Char} (h : w ++ [c] <:+ a ++ b) (hb : b ≠ []) :
    b.getLast? = some c := by
  obtain ⟨p, hp⟩ := h
  have := congrArg List.getLast? hp
  rw [List.getLast?_append, List.getLast?_append, List.getLast?_append] at this
  cases hl : b.getLast? with
  | none => exact absurd (List.getLast?_eq_none_iff.1 hl) hb
  | some d =>
    rw [hl] at this
    simpa using this.symm

theorem textOf_map (ts : List Token) :
    ((ts.map kindText).map (·.2)).flatten = ts.flatMap (·.text) := by
  simp [kindText, List.flatMap_def, Function.comp_def]

theorem literals_one : ∀ l ∈ literals, (l.kind = T!"<" → l.text = ['<'] ∧ l.ignoreCase = false) ∧
    (l.kind = T!":" → l.text = [':'] ∧ l.ignoreCase = false) := by decide +kernel

/-- The text of `<` and of `:`. -/
theorem one_char {errLen : Text → Nat} {s p : Text} {k : SyntaxKind} {ts : List (SyntaxKind × Text)}
    (h : Tokenizes errLen s ((k, p) :: ts)) :
    (k = T!"<" → p = ['<']) ∧ (k = T!":" → p = [':']) := by
  rcases tokenizes_step h with ⟨_, h⟩ | ⟨pre, post, k', ts1, hs, hne, hx, ht, hd⟩
  · cases h
  · cases hx
    rcases hd with ⟨q, j, hq, ⟨rfl, rfl, _⟩ | ⟨_, rfl, _⟩ | ⟨_, rfl, _⟩⟩ | ⟨rfl, _⟩
    · rcases hq.rule with ⟨l, hl, rfl, hm⟩ | ⟨r, hr, _⟩
      · obtain ⟨h1, h2⟩ := literals_one l hl
        unfold Literal.Matches at hm
        refine ⟨fun hk => ?_, fun hk => ?_⟩
        · rw [(h1 hk).2, (h1 hk).1] at hm; simpa using hm
        · rw [(h2 hk).2, (h2 hk).1] at hm; simpa using hm
      · simp only [regexRules, List.mem_cons, List.not_mem_nil, or_false, Prod.mk.injEq] at hr
        rcases hr with ⟨_, rfl⟩ | ⟨_, rfl⟩ | ⟨_, rfl⟩ | ⟨_, rfl⟩ | ⟨_, rfl⟩ | ⟨_, rfl⟩ <;>
          exact ⟨nofun, nofun⟩
    all_goals exact ⟨nofun, nofun⟩

/-- The tokens of a text with added line breaks. -/
structure BrokenTokens (errLen : Text → Nat) (b : Bool) (u : Text) (ts : List Token) (s' : Text)
    (ts' : List (SyntaxKind × Text)) : Prop where
  tokens : Tokenizes errLen s' ts'
  widened : ∀ us : List Token, us.map kindText = ts' → Widened ts us
  head : ts.head?.map (·.kind) = ts'.head?.map (·.1) ∨ Breakable u ts
  same : SameUpTo u (ts.flatMap (·.text)) s'
  solid : b = false → ∀ t ∈ ts'.head?, t.1.isTrivia = false

theorem broken_tokens {errLen : Text → Nat} (hE : ErrBeforeBreak errLen) {b : Bool} {u : Text}
    {ts : List Token} {s' : Text} (h : Broken b u ts s') :
    Tokenizes errLen (ts.flatMap (·.text)) (ts.map kindText) →
    ∃ ts', BrokenTokens errLen b u ts s' ts' := by
  induction h with
  | nil =>
    intro _
    refine ⟨[], .nil, fun us hu => ?_, .inl rfl, .inl rfl, fun _ => by simp⟩
    simp at hu
    subst hu
    exact .nil
  | @token b u t ts s' hk _ ih =>
    intro ht
    have ht2 := tokenizes_split (l := [kindText t]) ht
    rw [textOf_map] at ht2
    obtain ⟨ts', h1, h2, h3, h4, _⟩ := ih ht2
    rw [List.flatMap_cons] at ht
    refine ⟨(t.kind, t.text) :: ts', token_break hE ht hk h4 h1, fun us hu => ?_, .inl rfl, ?_,
      fun _ => by simpa using hk⟩
    · cases us with
      | nil => cases hu
      | cons v us =>
        simp only [List.map_cons, List.cons.injEq, kindText, Prod.mk.injEq] at hu
        have hus : us.map kindText = ts' := hu.2
        have hh : us.head?.map (·.kind) = ts'.head?.map (·.1) := by
          rw [← hus]; simp [kindText, Function.comp_def]
        refine .token hk ⟨hu.1.1.symm, hu.1.2.symm⟩ (fun hl => ?_) (fun hc => ?_) (h2 us hus)
        · rcases h3 with h3 | h3
          · rw [hh, h3]
          · exact absurd (by rw [(one_char ht).1 hl]; simp) h3.less
        · rcases h3 with h3 | h3
          · refine .inl ?_
            have := congrArg (Option.map SyntaxKind.isTrivia) (h3.trans hh.symm)
            simpa [Function.comp_def] using this
          · exact .inr (h3.colon (by rw [(one_char ht).2 hc]; simp))
    · rw [List.flatMap_cons]
      exact h4.prepend
  | @gap u a g ts x s' hg hts hb hc _ ih =>
    intro ht
    have htx := trivia_texts ht
    have hblank := trivia_blanks ht
    rw [List.map_append] at ht
    have ht2 := tokenizes_split ht
    rw [textOf_map] at ht2
    obtain ⟨ts', h1, h2, h3, h4, h5⟩ := ih ht2
    have h5 := h5 rfl
    have hr' : Solid s' := solid_of_tokens h1 h5
    have hr : Solid (ts.flatMap (·.text)) := solid_of_tokens ht2 (by
      intro t ht
      rw [List.head?_map] at ht
      obtain ⟨v, hv, rfl⟩ := Option.map_eq_some_iff.1 ht
      exact hts v hv)
    have hab : ∀ l : List Token, (∀ t ∈ l, t ∈ a ++ g) → Blanks (l.flatMap (·.text)) := by
      intro l
      induction l with
      | nil => intro _; exact blanks_nil
      | cons t l ih =>
        intro h
        rw [List.flatMap_cons]
        have htm := h t (by simp)
        exact blanks_append (hblank t (List.mem_append_left _ htm) (hg t htm))
          (ih (fun t ht => h t (by simp [ht])))
    have hg' := blanks_append (hab a (fun t ht => by simp [ht])) hb
    have hold := hab (a ++ g) (fun t ht => ht)
    have htext : a.flatMap (·.text) ++ (x ++ s') = (a.flatMap (·.text) ++ x) ++ s' := by simp
    -- the first character
    have hfirst : (a.flatMap (·.text) ++ x).head? = ((a ++ g).flatMap (·.text)).head? ∨
        (a = [] ∧ Breakable u (g ++ ts)) := by
      rw [List.flatMap_append]
      cases a with
      | nil =>
        rcases hc with hc | hc
        · left; simp [hc]
        · exact .inr ⟨rfl, hc.2 rfl⟩
      | cons t a =>
        left
        rcases tokenizes_step ht with ⟨_, h⟩ | ⟨pre, post, k, ts2, _, hne, hx, _⟩
        · cases h
        · cases hx
          simp only [List.flatMap_cons]
          cases htt : t.text with
          | nil => exact absurd htt hne
          | cons => simp
    have hempty : a.flatMap (·.text) ++ x = [] → a ++ g = [] := by
      intro h0
      cases hag : a ++ g with
      | nil => rfl
      | cons t q =>
        exfalso
        rcases hc with hc | ⟨⟨b, r, e, hb⟩, _⟩
        · rw [hc, ← List.flatMap_append, hag] at h0
          rw [hag] at ht
          rcases tokenizes_step ht with ⟨_, h⟩ | ⟨pre, post, k, ts2, _, hne, hx, _⟩
          · cases h
          · cases hx
            rw [List.flatMap_cons] at h0
            exact hne (List.append_eq_nil_iff.1 h0).1
        · rw [e] at h0
          rcases hb with rfl | rfl <;> simp at h0
    have hsame : SameUpTo u ((a ++ g ++ ts).flatMap (·.text)) (a.flatMap (·.text) ++ (x ++ s')) := by
      rcases hc with hc | ⟨⟨b, r, e, hb⟩, hc⟩
      · have := h4.prepend
        have e : a.flatMap (·.text) ++ (x ++ s') = (a ++ g).flatMap (·.text) ++ s' := by rw [hc]; simp
        rw [show (a ++ g ++ ts).flatMap (·.text) = (a ++ g).flatMap (·.text) ++ ts.flatMap (·.text)
          from List.flatMap_append, e]
        exact this
      · rw [List.flatMap_append, List.flatMap_append, List.append_assoc]
        refine .inr ⟨a.flatMap (·.text), _, x ++ s', rfl, rfl, ⟨b, r ++ s', by rw [e]; simp, hb⟩, ?_⟩
        by_cases ha : a = []
        · subst ha
          have hc := hc rfl
          exact ⟨by simpa using hc.cr, by simpa using hc.words⟩
        · have hne : a.flatMap (·.text) ≠ [] := by
            intro h0
            cases a with
            | nil => exact ha rfl
            | cons t a =>
              rcases tokenizes_step ht with ⟨_, h⟩ | ⟨pre, post, k, ts2, _, hne, hx, _⟩
              · cases h
              · cases hx
                rw [List.flatMap_cons] at h0
                exact hne (List.append_eq_nil_iff.1 h0).1
          obtain ⟨h6, h7⟩ := blanks_last (hab a (fun t ht => by simp [ht])) hne
          rw [List.getLast?_append]
          refine ⟨?_, fun hw => ?_⟩
          · intro h8
            cases hl : (a.flatMap (·.text)).getLast? with
            | none => exact hne (List.getLast?_eq_none_iff.1 hl)
            | some d =>
              rw [hl] at h8
              cases h8
              exact h6 hl
          · rcases hw with hw | hw
            · exact h7 'n' (by decide) (suffix_last (w := "not i".toList) hw hne)
            · exact h7 't' (by decide) (suffix_last (w := "is no".toList) hw hne)
    rw [htext] at hsame ⊢
    obtain ⟨l, hl, hli⟩ := hg'
    obtain ⟨m, hm, hmi⟩ := hold
    rw [hl] at hfirst hempty hsame ⊢
    clear hl htext
    obtain ⟨gt', k1, k2, k3, k4⟩ := gap_tokens (errLen := errLen) hr' l.length l (Nat.le_refl _) hli
    by_cases hl0 : l = []
    · -- no whitespace, as before
      subst hl0
      have hag := hempty rfl
      obtain ⟨rfl, rfl⟩ := List.append_eq_nil_iff.1 hag
      exact ⟨ts', h1, h2, by simpa using h3, by simpa using hsame, fun _ => h5⟩
    refine ⟨gt' ++ ts', k4 _ h1, fun us hu => ?_, ?_, hsame, fun h => by cases h⟩
    · obtain ⟨c, d, rfl, ha, hb⟩ := List.map_eq_append_iff.1 hu
      have hat : ∀ t ∈ c, t.kind.isTrivia = true ∧ t.text.all blankChar = true := fun t ht =>
        k2 (t.kind, t.text) (ha ▸ List.mem_map.2 ⟨t, ht, rfl⟩)
      refine .gap (fun t ht => ⟨hg t ht, htx t (List.mem_append_left _ ht) (hg t ht)⟩) ⟨fun h0 => ?_, hat⟩ hts ?_ (h2 d hb)
      · rw [h0] at ha
        exact k1 hl0 ha.symm
      · intro t ht
        refine h5 (kindText t) ?_
        rw [← hb, List.head?_map]
        exact Option.map_eq_some_iff.2 ⟨t, ht, rfl⟩
    · rcases hfirst with hc | ⟨ha, hf⟩
      · left
        obtain ⟨gt, m1, m2, m3, m4⟩ := gap_tokens (errLen := errLen) hr m.length m (Nat.le_refl _) hmi
        have e := C49_tokenizes_unique ht (by
          have := m4 _ ht2
          rw [← hm, ← List.flatMap_append] at this
          exact this)
        have e2 := List.append_cancel_right e
        have n1 := k1 hl0
        have hm0 : m ≠ [] := by
          rintro rfl
          rw [hm] at hc
          have := k3 hl0
          rw [hc] at this
          cases hgt : gt' with
          | nil => exact n1 hgt
          | cons => rw [hgt] at this; cases this
        have n2 := m1 hm0
        have n3 : (a ++ g ++ ts).head?.map (·.kind) = gt.head?.map (·.1) := by
          rw [← e2]
          generalize a ++ g = ag at *
          cases ag with
          | nil => exact absurd e2.symm n2
          | cons => simp [kindText]
        rw [n3, m3 hm0, ← hm, ← hc, ← k3 hl0]
        cases gt' with
        | nil => exact absurd rfl n1
        | cons => simp
      · subst ha
        exact .inr hf

/-- **C87.** If line breaks are put between the tokens of a file without syntax errors, also where there
was no whitespace, then the file still has no syntax errors, and the same syntax tree up to whitespace
and line breaks. Not behind `<`, CR or an operator of two words, and not between `:` and a word. -/
theorem C87_broken {errLen : Text → Nat} (he : ErrLenOk errLen) (hE : ErrBeforeBreak errLen) {s s' : Text}
    (h : Broken true [] (lex errLen s) s') {p : Parse} (hp : parse errLen s = .ok p)
    (hn : p.errors = []) :
    ∃ p', parse errLen s' = .ok p' ∧ p'.errors = [] ∧ bare p'.tree = bare p.tree := by
  have ht := C49_lex_tokenizes he s
  have hs : (lex errLen s).flatMap (·.text) = s := by
    rw [← textOf_map]
    exact tokenizes_text ht
  obtain ⟨ts', hts⟩ := broken_tokens hE h (by rw [hs]; exact ht)
  exact C86_widened (hts.widened _ (C49_tokenizes_unique (C49_lex_tokenizes he s') hts.tokens)) hp hn

/-! ## Samples -/

/-- A test for `Breakable`. -/
def breakableGo (u : Text) (ts : List Token) : Bool :=
  u.getLast? != some '<' && u.getLast? != some '\r' &&
    !"not in".toList.isSuffixOf u && !"is not".toList.isSuffixOf u &&
    (u.getLast? != some ':' || ts.head?.any (fun t => !t.text.head?.any Char.isAlpha))

theorem breakableGo_sound {u : Text} {ts : List Token} (h : breakableGo u ts = true) :
    Breakable u ts := by
  simp only [breakableGo, Bool.and_eq_true, Bool.not_eq_true', bne_iff_ne, ne_eq, Bool.or_eq_true] at h
  obtain ⟨⟨⟨⟨h2, h3⟩, h4⟩, h5⟩, h6⟩ := h
  refine ⟨h2, h3, ?_, fun hc => ?_⟩
  · rintro (h | h)
    · rw [List.isSuffixOf_iff_suffix.2 h] at h4; cases h4
    · rw [List.isSuffixOf_iff_suffix.2 h] at h5; cases h5
  · have := h6.resolve_left (fun hn => hn hc)
    cases ht : ts.head? with
    | none => rw [ht] at this; cases this
    | some t => rw [ht] at this; exact ⟨t, rfl, by simpa using this⟩

/-- A test for `Broken`. -/
def brokenGo : Nat → Text → List Token → Text → Bool
  | 0, _, _, _ => false
  | n + 1, u, ts, s' =>
    let g := ts.takeWhile (fun t => t.kind.isTrivia)
    let g' := s'.takeWhile blankChar
    let v := u ++ g.flatMap (·.text)
    blanksGo g' &&
      (g' == g.flatMap (·.text) ||
        (("\n".toList.isPrefixOf g' || "\r\n".toList.isPrefixOf g') && breakableGo u ts)) &&
      match dropTrivia ts with
      | [] => s'.dropWhile blankChar == []
      | t :: q => t.text.isPrefixOf (s'.dropWhile blankChar) &&
          brokenGo n (v ++ t.text) q ((s'.dropWhile blankChar).drop t.text.length)

theorem brokenGo_sound : ∀ {n u ts s'}, brokenGo n u ts s' = true → Broken true u ts s' := by
  intro n
  induction n with
  | zero => intro u ts s' h; cases h
  | succ n ih =>
    intro u ts s' h
    simp only [brokenGo, Bool.and_eq_true, Bool.or_eq_true, beq_iff_eq] at h
    obtain ⟨⟨h1, h2⟩, h3⟩ := h
    have e : ts = ts.takeWhile (fun t => t.kind.isTrivia) ++ dropTrivia ts :=
      (List.takeWhile_append_dropWhile).symm
    have e' : s' = s'.takeWhile blankChar ++ s'.dropWhile blankChar :=
      (List.takeWhile_append_dropWhile).symm
    have key : Broken false (u ++ (ts.takeWhile (fun t => t.kind.isTrivia)).flatMap (·.text))
        (dropTrivia ts) (s'.dropWhile blankChar) := by
      split at h3
      · rename_i hd
        rw [hd, eq_of_beq h3]
        exact .nil
      · rename_i t q hd
        rw [Bool.and_eq_true] at h3
        obtain ⟨r, hr⟩ := List.isPrefixOf_iff_prefix.1 h3.1
        have h4 := h3.2
        rw [← hr, List.drop_left] at h4
        rw [hd, ← hr]
        exact .token (dropTrivia_head hd) (ih h4)
    rw [e, e']
    refine .gap (a := []) (List.all_eq_true.1 (List.all_takeWhile (p := fun t : Token => t.kind.isTrivia))) ?_
      (blanksGo_sound h1) (h2.imp id (fun ⟨hb, hu⟩ => ⟨?_, fun _ => ?_⟩)) key
    · intro t ht
      cases hr : dropTrivia ts with
      | nil => rw [hr] at ht; cases ht
      | cons v q =>
        rw [hr] at ht
        cases ht
        exact dropTrivia_head hr
    · rcases hb with hb | hb
      · obtain ⟨r, hr⟩ := List.isPrefixOf_iff_prefix.1 hb
        exact ⟨_, r, hr.symm, .inl rfl⟩
      · obtain ⟨r, hr⟩ := List.isPrefixOf_iff_prefix.1 hb
        exact ⟨_, r, hr.symm, .inr rfl⟩
    · rw [← e]
      exact breakableGo_sound hu

/-- Lines broken in many places, where there was no whitespace before, and a character that no rule
knows. -/
example :
    let s := "<a b=\"c\">{{[1]|f}}^{#x#} y</a>".toList
    let s' := "<a\n  b\n=\n\"c\">\n  {{[\r\n  1\n\n]\n|f}}^\n{#x#}\ny\n</a>\n".toList
    Broken true [] (lex (fun _ => 1) s) s' ∧ ErrBeforeBreak (fun _ => 1) ∧
      (lex (fun _ => 1) s).any (fun t => t.kind == .TK_UNKNOWN) = true ∧
      Returns (parse (fun _ => 1) s) (fun p => p.errors.isEmpty) = true :=
  ⟨brokenGo_sound (n := 100) (by decide +kernel), fun _ _ _ _ _ _ _ _ _ => rfl,
    by decide +kernel, by decide +kernel⟩

/-- What is excluded does change the structure: here a line break behind a CR, which becomes whitespace.
Behind `<`, an operator of two words, and `:`, see the samples of C86 and C68. -/
example :
    (lex (fun _ => 1) "a\r".toList).map (·.kind) = [T!"word", .TK_UNKNOWN] ∧
    (lex (fun _ => 1) "a\r\n".toList).map (·.kind) = [T!"word", .TK_LINE_BREAK] := by
  decide +kernel

end Ludtwig.Layout
