import Verif.Parser.RegexLemmas
import Verif.Basic.TextLemmas

/-!
# The lexer: properties C02, C13, C14 and C49
-/

namespace Ludtwig

open Lexer Re

/-! ## C02 -/

theorem LexRun.contiguous {errLen offset s ts} (h : LexRun errLen offset s ts) :
    Contiguous offset ts (offset + byteLen s) ∧ (ts.map (·.text)).flatten = s ∧
      ∀ t ∈ ts, t.text ≠ [] := by
  induction h with
  | nil => exact ⟨.nil _, rfl, by simp⟩
  | cons h1 h2 _ ih =>
    obtain ⟨a, b, c⟩ := ih
    refine ⟨.cons rfl rfl ?_, by simp [b], ?_⟩
    · rw [byteLen_append, ← Nat.add_assoc]; exact a
    · intro t ht
      simp at ht
      rcases ht with rfl | ht
      · exact h2
      · exact c t ht

/-- C02: the token ranges follow each other from 0 to the byte length of the text, each is as long
as the text of the token, no token is empty, and the token texts concatenate to the text. -/
theorem C02_lex_partition {errLen : Text → Nat} (he : ErrLenOk errLen) (s : Text) :
    Contiguous 0 (lex errLen s) (byteLen s) ∧ ((lex errLen s).map (·.text)).flatten = s ∧
      ∀ t ∈ lex errLen s, t.text ≠ [] := by
  have := LexRun.contiguous (lex_run he s)
  simpa using this

/-- Where a token lies in the text. -/
theorem contiguous_split {a ts b} (h : Contiguous a ts b) {l r : List Token} {t : Token}
    (ht : ts = l ++ t :: r) : t.range.start = a + byteLen ((l.map (·.text)).flatten) ∧
      t.range.stop = t.range.start + byteLen t.text := by
  induction h generalizing l with
  | nil => simp at ht
  | cons h1 h2 _ ih =>
    cases l with
    | nil =>
      simp at ht
      obtain ⟨rfl, rfl⟩ := ht
      simp [h1, h2]
    | cons x l =>
      simp at ht
      obtain ⟨rfl, rfl⟩ := ht
      obtain ⟨e1, e2⟩ := ih rfl
      refine ⟨?_, e2⟩
      rw [e1, h2]
      simp [byteLen_append]; omega

/-- C02: every token is the part of the text that its range says: what is before it has
`range.start` bytes. -/
theorem C02_token_in_source {errLen : Text → Nat} (he : ErrLenOk errLen) (s : Text)
    {t : Token} (ht : t ∈ lex errLen s) :
    ∃ a b, s = a ++ t.text ++ b ∧ t.range.start = byteLen a ∧
      t.range.stop = byteLen (a ++ t.text) := by
  obtain ⟨l, r, hlr⟩ := List.append_of_mem ht
  obtain ⟨h1, h2, _⟩ := C02_lex_partition he s
  obtain ⟨e1, e2⟩ := contiguous_split h1 hlr
  refine ⟨(l.map (·.text)).flatten, (r.map (·.text)).flatten, ?_, by simpa using e1, ?_⟩
  · rw [hlr] at h2
    simpa using h2.symm
  · rw [byteLen_append, e2, e1]; omega

/-- An error length that satisfies the assumption, and a text with several bytes per char. -/
example : ErrLenOk (fun _ => 1) ∧
    (lex (fun _ => 1) "{{ é|raw }}".toList).map (fun t => (t.kind, t.range.start, t.range.stop)) =
      [(.TK_OPEN_CURLY_CURLY, 0, 2), (.TK_WHITESPACE, 2, 3), (.TK_UNKNOWN, 3, 5),
       (.TK_SINGLE_PIPE, 5, 6), (.TK_WORD, 6, 9), (.TK_WHITESPACE, 9, 10),
       (.TK_CLOSE_CURLY_CURLY, 10, 12)] :=
  ⟨fun s hs => ⟨Nat.le_refl _, List.length_pos_iff.2 hs⟩, by decide +kernel⟩

/-! ## C49 -/

theorem wordEnd_iff (s : Text) : atWordEnd s = true ↔ WordEnd s := by
  cases s <;> simp [atWordEnd, WordEnd, or_assoc]

theorem isPrefixOf_drop {p pre post : Text} :
    p.isPrefixOf ((pre ++ post).drop pre.length) = true ↔ ∃ r, post = p ++ r := by
  rw [List.drop_left, List.isPrefixOf_iff_prefix]
  exact ⟨fun ⟨r, hr⟩ => ⟨r, hr.symm⟩, fun ⟨r, hr⟩ => ⟨r, hr.symm⟩⟩

/-- The kinds of the literals `not` and `is` belong to these texts only. -/
theorem literal_not : ∀ l ∈ literals, (l.kind = .TK_NOT → l.text = "not".toList ∧ l.ignoreCase = false) ∧
    (l.kind = .TK_IS → l.text = "is".toList ∧ l.ignoreCase = false) := by decide +kernel

theorem longestMatch_not {s pre : Text} (h : LongestMatch s pre .TK_NOT) : pre = "not".toList := by
  rcases h.rule with ⟨l, hl, hk, hm⟩ | ⟨r, hr, _⟩
  · obtain ⟨h1, h2⟩ := (literal_not l hl).1 hk
    simp [Literal.Matches, h2] at hm
    rw [hm, h1]
  · simp [regexRules] at hr

theorem longestMatch_is {s pre : Text} (h : LongestMatch s pre .TK_IS) : pre = "is".toList := by
  rcases h.rule with ⟨l, hl, hk, hm⟩ | ⟨r, hr, _⟩
  · obtain ⟨h1, h2⟩ := (literal_not l hl).2 hk
    simp [Literal.Matches, h2] at hm
    rw [hm, h1]
  · simp [regexRules] at hr

theorem LexRun.tokenizes {errLen offset s ts} (h : LexRun errLen offset s ts) :
    Tokenizes errLen s (ts.map (fun t => (t.kind, t.text))) := by
  induction h with
  | nil => exact .nil
  | @cons offset pre post k ts h1 h2 _ ih =>
    rw [List.map_cons]
    dsimp only
    unfold lexOne at h1
    split at h1
    · rename_i heq
      simp only [Prod.mk.injEq] at h1
      obtain ⟨h1, rfl⟩ := h1
      exact .unknown h2 h1.symm (fun u k hu => longest_none_iff heq hu) ih
    · rename_i n k' heq
      have hm := longest_longestMatch heq
      split at h1
      · rename_i hc
        simp only [Bool.and_eq_true, beq_iff_eq] at hc
        obtain ⟨⟨rfl, hp⟩, hw⟩ := hc
        simp only [Prod.mk.injEq] at h1
        obtain ⟨hn, rfl⟩ := h1
        have hpre := longestMatch_not hm
        have hn3 : n = 3 := by
          have := candidates_le (longest_mem heq).1
          have := congrArg List.length hpre
          simp at this this
          omega
        subst hn3
        obtain ⟨r, hr⟩ := List.isPrefixOf_iff_prefix.1 hp
        have hs : pre ++ post = "not in".toList ++ r := by
          rw [← List.take_append_drop 3 (pre ++ post), hpre, ← hr]; rfl
        have hpre' : pre = "not in".toList :=
          (List.append_inj hs (by rw [← hn]; rfl)).1
        have hr' : r = post := (List.append_inj hs (by rw [← hn]; rfl)).2.symm
        subst hpre' hr'
        refine .notIn ?_ ?_ ih
        · rw [hpre] at hm; exact hm
        · rw [← wordEnd_iff]; exact hw
      · rename_i hnot
        split at h1
        · rename_i hc
          simp only [Bool.and_eq_true, beq_iff_eq] at hc
          obtain ⟨⟨rfl, hp⟩, hw⟩ := hc
          simp only [Prod.mk.injEq] at h1
          obtain ⟨hn, rfl⟩ := h1
          have hpre := longestMatch_is hm
          have hn3 : n = 2 := by
            have := candidates_le (longest_mem heq).1
            have := congrArg List.length hpre
            simp at this this
            omega
          subst hn3
          obtain ⟨r, hr⟩ := List.isPrefixOf_iff_prefix.1 hp
          have hs : pre ++ post = "is not".toList ++ r := by
            rw [← List.take_append_drop 2 (pre ++ post), hpre, ← hr]; rfl
          have hpre' : pre = "is not".toList :=
            (List.append_inj hs (by rw [← hn]; rfl)).1
          have hr' : r = post := (List.append_inj hs (by rw [← hn]; rfl)).2.symm
          subst hpre' hr'
          refine .isNot ?_ ?_ ih
          · rw [hpre] at hm; exact hm
          · rw [← wordEnd_iff]; exact hw
        · rename_i his
          simp only [Prod.mk.injEq] at h1
          obtain ⟨rfl, rfl⟩ := h1
          rw [List.take_left] at hm
          refine .rule hm ?_ ?_ ih
          · rintro ⟨rfl, r, hr, hw⟩
            apply hnot
            simp only [Bool.and_eq_true, beq_iff_eq]
            refine ⟨⟨trivial, isPrefixOf_drop.2 ⟨r, hr⟩⟩, ?_⟩
            rw [wordEnd_iff, ← List.drop_drop, List.drop_left, hr]
            exact hw
          · rintro ⟨rfl, r, hr, hw⟩
            apply his
            simp only [Bool.and_eq_true, beq_iff_eq]
            refine ⟨⟨trivial, isPrefixOf_drop.2 ⟨r, hr⟩⟩, ?_⟩
            rw [wordEnd_iff, ← List.drop_drop, List.drop_left, hr]
            exact hw

/-- C49: the tokens of every text are those of longest match over the literals and regular
expressions of the `SyntaxKind` attributes, literals first, with the two-word operators. -/
theorem C49_lex_tokenizes {errLen : Text → Nat} (he : ErrLenOk errLen) (s : Text) :
    Tokenizes errLen s ((lex errLen s).map (fun t => (t.kind, t.text))) :=
  LexRun.tokenizes (lex_run he s)

/-! ### The specification determines the tokens -/

theorem literals_unique : ∀ l ∈ literals, ∀ l' ∈ literals,
    l.text.map foldCase = l'.text.map foldCase → l.kind = l'.kind := by decide +kernel

theorem literal_fold {l : Literal} {t : Text} (h : l.Matches t) :
    t.map foldCase = l.text.map foldCase := by
  unfold Literal.Matches at h
  split at h
  · exact h
  · rw [h]

/-- A class of first chars for each of the regular expressions but the component name. -/
theorem finds_pos {f : Text → Nat} {r : Re} (hf : Finds f r) {t : Text} (h : r.Matches t) :
    t.length ≤ f t ∧ t ≠ [] :=
  ⟨by simpa using hf.max t [] h, fun h0 => hf.nonempty (h0 ▸ h)⟩

/-- The number of the first rule for a first char (word and component name share the letters). -/
def firstClass (c : Char) : Nat :=
  if isBlank c then 0 else if c = '\n' ∨ c = '\r' then 1 else if isDigit c then 2
  else if c = '&' then 3 else 4

def kindClass : SyntaxKind → Nat
  | .TK_WHITESPACE => 0
  | .TK_LINE_BREAK => 1
  | .TK_NUMBER => 2
  | .TK_HTML_ESCAPE_CHARACTER => 3
  | _ => 4

theorem class_alpha {c : Char} (h : isAlpha c = true) : firstClass c = 4 := by
  have h' : ('a' ≤ c ∧ c ≤ 'z') ∨ ('A' ≤ c ∧ c ≤ 'Z') := by simpa [isAlpha] using h
  have e : ∀ d : Char, isAlpha d = false → c ≠ d := by
    intro d hd hcd; rw [hcd, hd] at h; cases h
  have hd : isDigit c = false := by
    cases hdd : isDigit c with
    | false => rfl
    | true =>
      exfalso
      have hdd : '0' ≤ c ∧ c ≤ '9' := by simpa [isDigit] using hdd
      rcases h' with h' | h'
      · exact absurd (Char.le_trans h'.1 hdd.2) (by decide)
      · exact absurd (Char.le_trans h'.1 hdd.2) (by decide)
  simp [firstClass, isBlank, hd, e ' ' (by decide), e '\t' (by decide), e '\n' (by decide),
    e '\r' (by decide), e '&' (by decide)]

theorem class_digit {c : Char} (h : isDigit c = true) : firstClass c = 2 := by
  have e : ∀ d : Char, isDigit d = false → c ≠ d := by
    intro d hd hcd; rw [hcd, hd] at h; cases h
  simp [firstClass, isBlank, h, e ' ' (by decide), e '\t' (by decide), e '\n' (by decide),
    e '\r' (by decide)]

theorem class_blank {c : Char} (h : isBlank c = true) : firstClass c = 0 := by
  simp [firstClass, h]

theorem regexToken_class {c : Char} {t : Text} {k : SyntaxKind} (h : IsRegexToken (c :: t) k) :
    kindClass k = firstClass c := by
  obtain ⟨r, hr, hm⟩ := h
  simp only [regexRules, List.mem_cons, List.not_mem_nil, or_false, Prod.mk.injEq] at hr
  rcases hr with ⟨rfl, rfl⟩ | ⟨rfl, rfl⟩ | ⟨rfl, rfl⟩ | ⟨rfl, rfl⟩ | ⟨rfl, rfl⟩ | ⟨rfl, rfl⟩
  · have := (matches_plus_set.1 hm).2 c (by simp)
    rw [← isBlank_iff] at this
    rw [class_blank this]; rfl
  · have := (finds_pos finds_lineBreak hm).1
    unfold lineBreakLen at this
    split at this
    · rename_i h; simp at h; rw [h.1]; decide
    · rename_i h; simp at h; rw [h.1]; decide
    · simp at this
  · have := (finds_pos finds_word hm).1
    simp only [wordLen] at this
    split at this
    · rename_i h
      simp at h
      rcases h with h | rfl
      · rw [class_alpha h]; rfl
      · decide
    · split at this
      · rename_i h
        simp at h
        rcases h with (rfl | rfl) | rfl <;> decide
      · simp at this
  · have := (finds_pos finds_componentName hm).1
    unfold componentNameLen at this
    split at this
    · rename_i h; simp at h; rw [h.1]; decide
    · simp at this
  · obtain ⟨d, f, e, h0, hd, _⟩ := numberRe_parts hm
    obtain ⟨hd1, hd2⟩ := matches_plus_set.1 hd
    cases d with
    | nil => exact absurd rfl hd1
    | cons x d =>
      simp at h0
      have := (isDigit_iff x).2 (hd2 x (by simp))
      rw [h0.1, class_digit this]; rfl
  · obtain ⟨x, y, h0, hx, hy⟩ := matches_seq.1 hm
    rw [matches_chr] at hx
    subst hx
    simp at h0
    rw [h0.1]; decide

theorem not_word_and_component {t : Text} (h : Re.word.Matches t) (h' : Re.componentName.Matches t) :
    False := by
  have h1 := (finds_pos finds_word h).1
  have h2 := finds_pos finds_componentName h'
  have h3 := h2.1
  unfold componentNameLen at h3
  split at h3
  · rename_i s
    have e1 : spanLen isWordChar ('w' :: 'i' :: 'g' :: ':' :: s) = 3 := by
      have a1 : isWordChar 'w' = true := by decide
      have a2 : isWordChar 'i' = true := by decide
      have a3 : isWordChar 'g' = true := by decide
      have a4 : isWordChar ':' = false := by decide
      simp [spanLen_cons, a1, a2, a3, a4]
    have e2 : isAlpha 't' = true := by decide
    simp only [wordLen, e2, Bool.true_or, if_true, e1, List.length_cons] at h1
    omega
  · have := List.length_pos_iff.2 h2.2
    omega

theorem regexToken_unique {t : Text} {k k' : SyntaxKind} (h : IsRegexToken t k)
    (h' : IsRegexToken t k') (hne : t ≠ []) : k = k' := by
  cases t with
  | nil => exact absurd rfl hne
  | cons c t =>
    have e : kindClass k = kindClass k' := by rw [regexToken_class h, regexToken_class h']
    obtain ⟨r, hr, hm⟩ := h
    obtain ⟨r', hr', hm'⟩ := h'
    simp only [regexRules, List.mem_cons, List.not_mem_nil, or_false, Prod.mk.injEq] at hr hr'
    rcases hr with ⟨rfl, rfl⟩ | ⟨rfl, rfl⟩ | ⟨rfl, rfl⟩ | ⟨rfl, rfl⟩ | ⟨rfl, rfl⟩ | ⟨rfl, rfl⟩ <;>
    rcases hr' with ⟨rfl, rfl⟩ | ⟨rfl, rfl⟩ | ⟨rfl, rfl⟩ | ⟨rfl, rfl⟩ | ⟨rfl, rfl⟩ | ⟨rfl, rfl⟩ <;>
    first
    | rfl
    | exact absurd e (by decide)
    | exact (not_word_and_component hm hm').elim
    | exact (not_word_and_component hm' hm).elim

theorem longestMatch_unique {s p p' : Text} {k k' : SyntaxKind} (h : LongestMatch s p k)
    (h' : LongestMatch s p' k') : p = p' ∧ k = k' := by
  have hlen : p.length = p'.length :=
    Nat.le_antisymm (h'.longest p k h.isPrefix h.rule) (h.longest p' k' h'.isPrefix h'.rule)
  have hp : p = p' := by
    obtain ⟨a, ha⟩ := h.isPrefix
    obtain ⟨b, hb⟩ := h'.isPrefix
    exact (List.append_inj (ha.trans hb.symm) hlen).1
  subst hp
  refine ⟨rfl, ?_⟩
  by_cases hl : ∃ k'', IsLiteralToken p k''
  · obtain ⟨k'', hk''⟩ := hl
    obtain ⟨l, hl1, rfl, hl2⟩ := h.literalFirst k'' hk''
    obtain ⟨l', hl1', rfl, hl2'⟩ := h'.literalFirst k'' hk''
    exact literals_unique l hl1 l' hl1' ((literal_fold hl2).symm.trans (literal_fold hl2'))
  · rcases h.rule with hr | hr
    · exact absurd ⟨k, hr⟩ hl
    · rcases h'.rule with hr' | hr'
      · exact absurd ⟨k', hr'⟩ hl
      · exact regexToken_unique hr hr' h.nonempty

theorem tokenizes_ne {errLen : Text → Nat} {s : Text} (h : Tokenizes errLen s []) : s = [] := by
  cases h; rfl

theorem longestMatch_ne_nil {s p : Text} {k : SyntaxKind} (h : LongestMatch s p k) : s ≠ [] := by
  intro h0
  have := h.isPrefix
  rw [h0] at this
  exact h.nonempty (List.prefix_nil.1 this)

/-- What the first step of a tokenization is. -/
theorem tokenizes_step {errLen : Text → Nat} {s : Text} {ts : List (SyntaxKind × Text)}
    (h : Tokenizes errLen s ts) :
    (s = [] ∧ ts = []) ∨ ∃ pre post k ts', s = pre ++ post ∧ pre ≠ [] ∧ ts = (k, pre) :: ts' ∧
      Tokenizes errLen post ts' ∧
      ((∃ q j, LongestMatch s q j ∧
        ((k = j ∧ pre = q ∧ ¬ (k = .TK_NOT ∧ ∃ r, post = ' ' :: 'i' :: 'n' :: r ∧ WordEnd r) ∧
          ¬ (k = .TK_IS ∧ ∃ r, post = ' ' :: 'n' :: 'o' :: 't' :: r ∧ WordEnd r)) ∨
        (j = .TK_NOT ∧ k = .TK_NOT_IN ∧ pre = "not in".toList ∧ WordEnd post) ∨
        (j = .TK_IS ∧ k = .TK_IS_NOT ∧ pre = "is not".toList ∧ WordEnd post))) ∨
       (k = .TK_UNKNOWN ∧ pre.length = errLen s ∧
        ∀ u k, u <+: s → ¬ (IsLiteralToken u k ∨ IsRegexToken u k))) := by
  cases h with
  | nil => exact .inl ⟨rfl, rfl⟩
  | rule h1 h2 h3 h4 =>
    exact .inr ⟨_, _, _, _, rfl, h1.nonempty, rfl, h4, .inl ⟨_, _, h1, .inl ⟨rfl, rfl, h2, h3⟩⟩⟩
  | notIn h1 h2 h3 =>
    exact .inr ⟨_, _, _, _, rfl, by decide, rfl, h3, .inl ⟨_, _, h1, .inr (.inl ⟨rfl, rfl, rfl, h2⟩)⟩⟩
  | isNot h1 h2 h3 =>
    exact .inr ⟨_, _, _, _, rfl, by decide, rfl, h3, .inl ⟨_, _, h1, .inr (.inr ⟨rfl, rfl, rfl, h2⟩)⟩⟩
  | unknown h1 h2 h3 h4 => exact .inr ⟨_, _, _, _, rfl, h1, rfl, h4, .inr ⟨rfl, h2, h3⟩⟩

theorem head_unique {s pre post pre' post' : Text} {q q' : Text} {k k' j j' : SyntaxKind}
    (hs : s = pre ++ post) (hs' : s = pre' ++ post')
    (hq : LongestMatch s q j) (hq' : LongestMatch s q' j')
    (h : (k = j ∧ pre = q ∧ ¬ (k = .TK_NOT ∧ ∃ r, post = ' ' :: 'i' :: 'n' :: r ∧ WordEnd r) ∧
          ¬ (k = .TK_IS ∧ ∃ r, post = ' ' :: 'n' :: 'o' :: 't' :: r ∧ WordEnd r)) ∨
        (j = .TK_NOT ∧ k = .TK_NOT_IN ∧ pre = "not in".toList ∧ WordEnd post) ∨
        (j = .TK_IS ∧ k = .TK_IS_NOT ∧ pre = "is not".toList ∧ WordEnd post))
    (h' : (k' = j' ∧ pre' = q' ∧ ¬ (k' = .TK_NOT ∧ ∃ r, post' = ' ' :: 'i' :: 'n' :: r ∧ WordEnd r) ∧
          ¬ (k' = .TK_IS ∧ ∃ r, post' = ' ' :: 'n' :: 'o' :: 't' :: r ∧ WordEnd r)) ∨
        (j' = .TK_NOT ∧ k' = .TK_NOT_IN ∧ pre' = "not in".toList ∧ WordEnd post') ∨
        (j' = .TK_IS ∧ k' = .TK_IS_NOT ∧ pre' = "is not".toList ∧ WordEnd post')) :
    k = k' ∧ pre = pre' := by
  obtain ⟨rfl, rfl⟩ := longestMatch_unique hq hq'
  have hh : pre ++ post = pre' ++ post' := hs.symm.trans hs'
  have e1 : q = "not".toList → pre = q → pre' = "not in".toList → WordEnd post' →
      ∃ r, post = ' ' :: 'i' :: 'n' :: r ∧ WordEnd r := by
    rintro rfl rfl rfl hw
    exact ⟨post', by simpa using hh, hw⟩
  have e2 : q = "is".toList → pre = q → pre' = "is not".toList → WordEnd post' →
      ∃ r, post = ' ' :: 'n' :: 'o' :: 't' :: r ∧ WordEnd r := by
    rintro rfl rfl rfl hw
    exact ⟨post', by simpa using hh, hw⟩
  have e3 : q = "not".toList → pre' = q → pre = "not in".toList → WordEnd post →
      ∃ r, post' = ' ' :: 'i' :: 'n' :: r ∧ WordEnd r := by
    rintro rfl rfl rfl hw
    exact ⟨post, by simpa using hh.symm, hw⟩
  have e4 : q = "is".toList → pre' = q → pre = "is not".toList → WordEnd post →
      ∃ r, post' = ' ' :: 'n' :: 'o' :: 't' :: r ∧ WordEnd r := by
    rintro rfl rfl rfl hw
    exact ⟨post, by simpa using hh.symm, hw⟩
  rcases h with ⟨rfl, rfl, h1, h2⟩ | ⟨rfl, rfl, h1, h2⟩ | ⟨rfl, rfl, h1, h2⟩ <;>
  rcases h' with ⟨rfl, rfl, h1', h2'⟩ | ⟨h0, rfl, h1', h2'⟩ | ⟨h0, rfl, h1', h2'⟩
  · exact ⟨rfl, rfl⟩
  · subst h0; exact absurd ⟨rfl, e1 (longestMatch_not hq) rfl h1' h2'⟩ h1
  · subst h0; exact absurd ⟨rfl, e2 (longestMatch_is hq) rfl h1' h2'⟩ h2
  · exact absurd ⟨rfl, e3 (longestMatch_not hq) rfl h1 h2⟩ h1'
  · exact ⟨rfl, h1.trans h1'.symm⟩
  · cases h0
  · exact absurd ⟨rfl, e4 (longestMatch_is hq) rfl h1 h2⟩ h2'
  · cases h0
  · exact ⟨rfl, h1.trans h1'.symm⟩

/-- C49: there is at most one list of tokens as specified, so `lex` computes exactly it. -/
theorem C49_tokenizes_unique {errLen : Text → Nat} {s : Text} {ts ts' : List (SyntaxKind × Text)}
    (h : Tokenizes errLen s ts) (h' : Tokenizes errLen s ts') : ts = ts' := by
  induction ts generalizing s ts' with
  | nil =>
    have hs := tokenizes_ne h
    rcases tokenizes_step h' with ⟨_, h⟩ | ⟨pre, post, k, ts2, h1, h2, _⟩
    · exact h.symm
    · rw [hs] at h1
      exact absurd (List.append_eq_nil_iff.1 h1.symm).1 h2
  | cons x ts ih =>
    rcases tokenizes_step h with ⟨_, h⟩ | ⟨pre, post, k, ts1, hs, hne, hx, ht, hd⟩
    · cases h
    · cases hx
      rcases tokenizes_step h' with ⟨h0, _⟩ | ⟨pre', post', k', ts1', hs', hne', rfl, ht', hd'⟩
      · rw [h0] at hs
        exact absurd (List.append_eq_nil_iff.1 hs.symm).1 hne
      · have key : k = k' ∧ pre = pre' := by
          rcases hd with ⟨q, j, hq, hd⟩ | ⟨rfl, hl, hn⟩
          · rcases hd' with ⟨q', j', hq', hd'⟩ | ⟨rfl, hl', hn'⟩
            · exact head_unique hs hs' hq hq' hd hd'
            · exact absurd hq.rule (hn' q j hq.isPrefix)
          · rcases hd' with ⟨q', j', hq', hd'⟩ | ⟨rfl, hl', hn'⟩
            · exact absurd hq'.rule (hn q' j' hq'.isPrefix)
            · exact ⟨rfl, (List.append_inj (hs.symm.trans hs') (hl.trans hl'.symm)).1⟩
        obtain ⟨rfl, rfl⟩ := key
        have hp : post = post' := List.append_cancel_left (hs.symm.trans hs')
        subst hp
        rw [ih ht ht']

/-- The specification is met by non-trivial texts: a keyword, a longer word and a keyword in other
case, and the operator in two words. -/
example : (lex (fun _ => 1) "not note TRUE not in a".toList).map (fun t => (t.kind, t.text)) =
    [(.TK_NOT, "not".toList), (.TK_WHITESPACE, [' ']), (.TK_WORD, "note".toList),
     (.TK_WHITESPACE, [' ']), (.TK_TRUE, "TRUE".toList), (.TK_WHITESPACE, [' ']),
     (.TK_NOT_IN, "not in".toList), (.TK_WHITESPACE, [' ']), (.TK_WORD, ['a'])] := by decide +kernel

/-! ## Tokens in their context -/

theorem tokenizes_text {errLen : Text → Nat} {s : Text} {ts : List (SyntaxKind × Text)}
    (h : Tokenizes errLen s ts) : (ts.map (·.2)).flatten = s := by
  induction h with
  | nil => rfl
  | _ => simp_all

theorem tokenizes_split {errLen : Text → Nat} {s : Text} {l r : List (SyntaxKind × Text)}
    (h : Tokenizes errLen s (l ++ r)) : Tokenizes errLen ((r.map (·.2)).flatten) r := by
  induction l generalizing s with
  | nil => rw [List.nil_append] at h; rwa [tokenizes_text h]
  | cons x l ih =>
    rcases tokenizes_step h with ⟨_, h⟩ | ⟨pre, post, k, ts1, hs, hne, hx, ht, hd⟩
    · cases h
    · cases hx
      exact ih ht

/-- The text from a token on. -/
def textFrom (ts : List Token) : Text := (ts.map (·.text)).flatten

theorem lex_split {errLen : Text → Nat} (he : ErrLenOk errLen) {s : Text} {l r : List Token}
    (h : lex errLen s = l ++ r) :
    Tokenizes errLen (textFrom r) (r.map (fun t => (t.kind, t.text))) := by
  have := C49_lex_tokenizes he s
  rw [h, List.map_append] at this
  have := tokenizes_split this
  rw [List.map_map] at this
  exact this

theorem literal_kinds : ∀ l ∈ literals, l.kind ≠ .TK_WHITESPACE ∧ l.kind ≠ .TK_LINE_BREAK ∧
    l.kind ≠ .TK_UNKNOWN ∧ l.kind ≠ .TK_NOT_IN ∧ l.kind ≠ .TK_IS_NOT := by decide +kernel

theorem regex_kinds {k : SyntaxKind} {t : Text} (h : IsRegexToken t k) :
    k ≠ .TK_UNKNOWN ∧ k ≠ .TK_NOT_IN ∧ k ≠ .TK_IS_NOT ∧ k ≠ .TK_NOT ∧ k ≠ .TK_IS ∧
    (k = .TK_WHITESPACE → Re.whitespace.Matches t) ∧ (k = .TK_LINE_BREAK → Re.lineBreak.Matches t) := by
  obtain ⟨r, hr, hm⟩ := h
  simp only [regexRules, List.mem_cons, List.not_mem_nil, or_false, Prod.mk.injEq] at hr
  rcases hr with ⟨rfl, rfl⟩ | ⟨rfl, rfl⟩ | ⟨rfl, rfl⟩ | ⟨rfl, rfl⟩ | ⟨rfl, rfl⟩ | ⟨rfl, rfl⟩ <;>
    simp [hm]

/-! ## C13 -/

theorem lineBreak_shape {r t} (h : Matches r t) :
    r = .star (.alt (chr '\n') (.seq (chr '\r') (chr '\n'))) → IsLineBreaks t := by
  induction h with
  | starNil => exact fun _ => ⟨[], rfl, by simp⟩
  | @starCons a s t h1 h2 _ ih =>
    intro hr
    cases hr
    obtain ⟨l, rfl, hl⟩ := ih rfl
    refine ⟨s :: l, rfl, ?_⟩
    intro x hx
    simp only [List.mem_cons] at hx
    rcases hx with rfl | hx
    · rcases matches_alt.1 h1 with h | h
      · exact .inl (matches_chr.1 h)
      · obtain ⟨a, b, rfl, ha, hb⟩ := matches_seq.1 h
        rw [matches_chr] at ha hb
        subst ha hb
        exact .inr rfl
    · exact hl x hx
  | _ => intro hr; cases hr

theorem star_append {a : Re} {s t : Text} (h : Matches (.star a) s) (h' : Matches (.star a) t) :
    Matches (.star a) (s ++ t) := by
  generalize hr : Re.star a = r at h
  induction h with
  | starNil => cases hr; exact h'
  | starCons h1 _ _ ih =>
    cases hr
    rw [List.append_assoc]
    exact .starCons h1 (ih rfl)
  | _ => cases hr

theorem plus_append {a : Re} {s t : Text} (h : Matches (plus a) s) (h' : Matches (plus a) t) :
    Matches (plus a) (s ++ t) := by
  obtain ⟨x, y, rfl, hx, hy⟩ := matches_seq.1 h
  obtain ⟨z, w, rfl, hz, hw⟩ := matches_seq.1 h'
  rw [List.append_assoc]
  exact .seq hx (star_append hy (.starCons hz hw))

/-- The rule of a trivia token. -/
theorem trivia_rule {errLen : Text → Nat} {s p : Text} {k : SyntaxKind} {ts : List (SyntaxKind × Text)}
    (h : Tokenizes errLen s ((k, p) :: ts)) :
    (k = .TK_WHITESPACE → Re.whitespace.Matches p ∧ LongestMatch s p k) ∧
    (k = .TK_LINE_BREAK → Re.lineBreak.Matches p ∧ LongestMatch s p k) := by
  rcases tokenizes_step h with ⟨_, h⟩ | ⟨pre, post, k', ts1, hs, hne, hx, ht, hd⟩
  · cases h
  · cases hx
    rcases hd with ⟨q, j, hq, ⟨rfl, rfl, _⟩ | ⟨_, rfl, _⟩ | ⟨_, rfl, _⟩⟩ | ⟨rfl, _⟩
    · rcases hq.rule with ⟨l, hl, rfl, _⟩ | hr
      · exact ⟨fun h => absurd h (literal_kinds l hl).1, fun h => absurd h (literal_kinds l hl).2.1⟩
      · have := (regex_kinds hr).2.2.2.2.2
        exact ⟨fun h => ⟨this.1 h, hq⟩, fun h => ⟨this.2 h, hq⟩⟩
    all_goals exact ⟨nofun, nofun⟩

/-- C13: the text of a whitespace token is blanks and tabs, that of a line-break token LFs and
CRLFs. -/
theorem C13_trivia_shape {errLen : Text → Nat} (he : ErrLenOk errLen) (s : Text)
    {t : Token} (ht : t ∈ lex errLen s) :
    (t.kind = .TK_WHITESPACE → ∀ c ∈ t.text, c = ' ' ∨ c = '\t') ∧
    (t.kind = .TK_LINE_BREAK → IsLineBreaks t.text) := by
  obtain ⟨l, r, hlr⟩ := List.append_of_mem ht
  have h := trivia_rule (lex_split he hlr)
  refine ⟨fun hk c hc => ?_, fun hk => ?_⟩
  · have := (matches_plus_set.1 (h.1 hk).1).2 c hc
    rw [← isBlank_iff] at this
    simpa [isBlank] using this
  · obtain ⟨x, y, hxy, hx, hy⟩ := matches_seq.1 (h.2 hk).1
    rw [hxy]
    exact lineBreak_shape (.starCons hx hy) rfl

/-- C13: whitespace tokens and line-break tokens are maximal: no two of the same kind are adjacent. -/
theorem C13_trivia_maximal {errLen : Text → Nat} (he : ErrLenOk errLen) (s : Text)
    {l r : List Token} {t u : Token} (h : lex errLen s = l ++ t :: u :: r) :
    ¬ (t.kind = .TK_WHITESPACE ∧ u.kind = .TK_WHITESPACE) ∧
    ¬ (t.kind = .TK_LINE_BREAK ∧ u.kind = .TK_LINE_BREAK) := by
  have h1 := trivia_rule (lex_split he h)
  have h2 := trivia_rule (lex_split (s := s) (l := l ++ [t]) (r := u :: r) he (by simp [h]))
  have hpre : t.text ++ u.text <+: textFrom (t :: u :: r) := by
    refine ⟨textFrom r, by simp [textFrom]⟩
  have hu : u.text ≠ [] := (C02_lex_partition he s).2.2 u (by simp [h])
  have hlen := List.length_pos_iff.2 hu
  constructor
  · rintro ⟨ht, hu⟩
    have e1 := h1.1 ht
    have e2 := h2.1 hu
    have := e1.2.longest _ .TK_WHITESPACE hpre
      (.inr ⟨.whitespace, by simp [regexRules], plus_append e1.1 e2.1⟩)
    rw [List.length_append] at this
    omega
  · rintro ⟨ht, hu⟩
    have e1 := h1.2 ht
    have e2 := h2.2 hu
    have := e1.2.longest _ .TK_LINE_BREAK hpre
      (.inr ⟨.lineBreak, by simp [regexRules], plus_append e1.1 e2.1⟩)
    rw [List.length_append] at this
    omega

example : (lex (fun _ => 1) "a \t\r\n\n  b".toList).map (·.kind) =
    [.TK_WORD, .TK_WHITESPACE, .TK_LINE_BREAK, .TK_WHITESPACE, .TK_WORD] := by decide +kernel

/-! ## C14 -/

/-- C14: a two-word operator token is the operator with one blank, and a blank, tab, LF or the end
of the text follows. -/
theorem C14_two_words_end {errLen : Text → Nat} (he : ErrLenOk errLen) (s : Text)
    {l r : List Token} {t : Token} (h : lex errLen s = l ++ t :: r) :
    (t.kind = .TK_NOT_IN → t.text = "not in".toList ∧ WordEnd (textFrom r)) ∧
    (t.kind = .TK_IS_NOT → t.text = "is not".toList ∧ WordEnd (textFrom r)) := by
  have h1 := lex_split he h
  rcases tokenizes_step h1 with ⟨_, h⟩ | ⟨pre, post, k', ts1, hs, hne, hx, ht, hd⟩
  · cases h
  · simp only [List.map_cons, List.cons.injEq, Prod.mk.injEq] at hx
    obtain ⟨⟨rfl, rfl⟩, rfl⟩ := hx
    have hp : post = textFrom r := by
      have : textFrom (t :: r) = t.text ++ textFrom r := rfl
      exact List.append_cancel_left (hs.symm.trans this)
    subst hp
    rcases hd with ⟨q, j, hq, ⟨rfl, rfl, _⟩ | ⟨_, hk, e1, e2⟩ | ⟨_, hk, e1, e2⟩⟩ | ⟨hk, _⟩
    · rcases hq.rule with ⟨l, hl, hk, _⟩ | hr
      · rw [← hk]
        exact ⟨fun h => absurd h (literal_kinds l hl).2.2.2.1,
          fun h => absurd h (literal_kinds l hl).2.2.2.2⟩
      · exact ⟨fun h => absurd h (regex_kinds hr).2.1, fun h => absurd h (regex_kinds hr).2.2.1⟩
    · rw [hk]; exact ⟨fun _ => ⟨e1, e2⟩, nofun⟩
    · rw [hk]; exact ⟨nofun, fun _ => ⟨e1, e2⟩⟩
    · rw [hk]; exact ⟨nofun, nofun⟩

theorem lexOne_not_in (errLen : Text → Nat) (r : Text) :
    lexOne errLen ("not in".toList ++ r) = if atWordEnd r then (6, .TK_NOT_IN) else (3, .TK_NOT) := by
  have h : longest (candidates ("not in".toList ++ r)) = some (3, .TK_NOT) := rfl
  unfold lexOne
  rw [h]
  cases hr : atWordEnd r <;> simp [hr]

theorem lexOne_is_not (errLen : Text → Nat) (r : Text) :
    lexOne errLen ("is not".toList ++ r) = if atWordEnd r then (6, .TK_IS_NOT) else (2, .TK_IS) := by
  have h : longest (candidates ("is not".toList ++ r)) = some (2, .TK_IS) := rfl
  unfold lexOne
  rw [h]
  cases hr : atWordEnd r <;> simp [hr]

theorem lexRun_split {errLen : Text → Nat} {offset : Nat} {s : Text} {ts l r : List Token} {t : Token}
    (h : LexRun errLen offset s ts) (ht : ts = l ++ t :: r) :
    lexOne errLen (textFrom (t :: r)) = (t.text.length, t.kind) := by
  induction h generalizing l with
  | nil => simp at ht
  | cons h1 h2 h3 ih =>
    cases l with
    | nil =>
      simp at ht
      obtain ⟨rfl, rfl⟩ := ht
      have := (LexRun.contiguous h3).2.1
      show lexOne _ (_ ++ _) = _
      rw [this]
      exact h1
    | cons x l =>
      simp at ht
      exact ih ht.2

/-- C14: where the text of a token position starts with the two words, the token is the two-word
operator if they end at a word boundary and otherwise the shorter operator. -/
theorem C14_two_words_chosen {errLen : Text → Nat} (he : ErrLenOk errLen) (s : Text)
    {l r : List Token} {t : Token} (h : lex errLen s = l ++ t :: r) (rest : Text) :
    (textFrom (t :: r) = "not in".toList ++ rest →
      (WordEnd rest → t.kind = .TK_NOT_IN ∧ t.text = "not in".toList) ∧
      (¬ WordEnd rest → t.kind = .TK_NOT ∧ t.text = "not".toList)) ∧
    (textFrom (t :: r) = "is not".toList ++ rest →
      (WordEnd rest → t.kind = .TK_IS_NOT ∧ t.text = "is not".toList) ∧
      (¬ WordEnd rest → t.kind = .TK_IS ∧ t.text = "is".toList)) := by
  have h1 := lexRun_split (lex_run he s) h
  have htake : t.text = (textFrom (t :: r)).take t.text.length := by
    show _ = (t.text ++ textFrom r).take _
    rw [List.take_left]
  refine ⟨fun hs => ?_, fun hs => ?_⟩
  · rw [hs] at h1 htake
    rw [lexOne_not_in] at h1
    refine ⟨fun hw => ?_, fun hw => ?_⟩
    · rw [(wordEnd_iff rest).2 hw] at h1
      simp only [if_true, Prod.mk.injEq] at h1
      rw [← h1.1] at htake
      exact ⟨h1.2.symm, htake⟩
    · rw [if_neg (by rw [wordEnd_iff]; exact hw)] at h1
      simp only [Prod.mk.injEq] at h1
      rw [← h1.1] at htake
      exact ⟨h1.2.symm, htake⟩
  · rw [hs] at h1 htake
    rw [lexOne_is_not] at h1
    refine ⟨fun hw => ?_, fun hw => ?_⟩
    · rw [(wordEnd_iff rest).2 hw] at h1
      simp only [if_true, Prod.mk.injEq] at h1
      rw [← h1.1] at htake
      exact ⟨h1.2.symm, htake⟩
    · rw [if_neg (by rw [wordEnd_iff]; exact hw)] at h1
      simp only [Prod.mk.injEq] at h1
      rw [← h1.1] at htake
      exact ⟨h1.2.symm, htake⟩

example : (lex (fun _ => 1) "not in\ta not inner is not".toList).map (·.kind) =
    [.TK_NOT_IN, .TK_WHITESPACE, .TK_WORD, .TK_WHITESPACE, .TK_NOT, .TK_WHITESPACE, .TK_WORD,
     .TK_WHITESPACE, .TK_IS_NOT] := by decide +kernel

end Ludtwig
