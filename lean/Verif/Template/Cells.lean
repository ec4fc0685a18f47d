import Verif.Template.Requote
import Verif.Layout.Lex

/-!
# Changed quotes in the text (proof device for C75)

A file as a list of cells: a token that stays, a quote that becomes another quote, or a new quote. The
lexer finds exactly these tokens in the changed text.
-/

namespace Ludtwig.Template

open Lexer Layout

/-- A quote. -/
def QuoteChar (q : Char) : Prop := q = '"' ∨ q = '\''

/-- The token kind of a quote. -/
def quoteKind (q : Char) : SyntaxKind := if q = '\'' then T!"'" else T!"\""

/-- A part of a file: a token, a token that becomes a quote, a quote that is put at an offset. -/
inductive Cell
  | keep (t : Token)
  | swap (t : Token) (q : Char)
  | ins (p : Nat) (q : Char)

/-- The token before. -/
def Cell.old : Cell → List Token
  | .keep t => [t]
  | .swap t _ => [t]
  | .ins _ _ => []

/-- Kind and text of the token afterwards. -/
def Cell.new : Cell → SyntaxKind × Text
  | .keep t => (t.kind, t.text)
  | .swap _ q => (quoteKind q, [q])
  | .ins _ q => (quoteKind q, [q])

/-- The tokens before. -/
def oldToks (cs : List Cell) : List Token := cs.flatMap Cell.old

/-- The text afterwards. -/
def newText (cs : List Cell) : Text := cs.flatMap (·.new.2)

/-- Tokens behind which a quote may be put. -/
def insertable : List SyntaxKind := [T!"=", T!"word"] ++ varCloses

/-- Only quotes are changed, and quotes are put only behind certain tokens. `b`: before the cells is
such a token. -/
def Sits : Bool → List Cell → Prop
  | _, [] => True
  | _, .keep t :: cs => Sits (decide (t.kind ∈ insertable)) cs
  | _, .swap t q :: cs => t.kind ∈ quotes ∧ QuoteChar q ∧ Sits false cs
  | b, .ins _ q :: cs => b = true ∧ QuoteChar q ∧ Sits false cs

theorem Sits.mono {cs : List Cell} {b : Bool} (h : Sits false cs) : Sits b cs := by
  cases cs with
  | nil => trivial
  | cons c cs =>
    cases c with
    | keep t => exact h
    | swap t q => exact h
    | ins p q => cases h.1

theorem Sits.append {cs ds : List Cell} (hd : Sits false ds) : ∀ {b : Bool}, Sits b cs → Sits b (cs ++ ds) := by
  induction cs with
  | nil => exact fun _ => hd.mono
  | cons c cs ih =>
    intro b h
    cases c with
    | keep t => exact ih h
    | swap t q => exact ⟨h.1, h.2.1, ih h.2.2⟩
    | ins p q => exact ⟨h.1, h.2.1, ih h.2.2⟩

/-! ## Rules and quotes -/

/-- No quote in the char classes. -/
def noQuoteRe : Re → Bool
  | .eps => true
  | .set rs => rs.all (fun r => ['"', '\''].all (fun c => !(r.1 ≤ c && c ≤ r.2)))
  | .seq a b => noQuoteRe a && noQuoteRe b
  | .alt a b => noQuoteRe a && noQuoteRe b
  | .star a => noQuoteRe a

theorem noQuote_matches {r : Re} {t : Text} (h : r.Matches t) :
    noQuoteRe r = true → ∀ c ∈ t, ¬ QuoteChar c := by
  induction h with
  | eps => intro _ c hc; cases hc
  | @set rs d hd =>
    intro hr c hc hq
    cases List.mem_singleton.1 hc
    obtain ⟨r, hr1, hr2⟩ := hd
    have := List.all_eq_true.1 (List.all_eq_true.1 hr r hr1) d (by rcases hq with rfl | rfl <;> simp)
    simp [hr2.1, hr2.2] at this
  | seq _ _ ih1 ih2 =>
    intro hr c hc
    simp only [noQuoteRe, Bool.and_eq_true] at hr
    rcases List.mem_append.1 hc with hc | hc
    · exact ih1 hr.1 c hc
    · exact ih2 hr.2 c hc
  | altL _ ih =>
    intro hr
    simp only [noQuoteRe, Bool.and_eq_true] at hr
    exact ih hr.1
  | altR _ ih =>
    intro hr
    simp only [noQuoteRe, Bool.and_eq_true] at hr
    exact ih hr.2
  | starNil => intro _ c hc; cases hc
  | starCons _ _ ih1 ih2 =>
    intro hr c hc
    rcases List.mem_append.1 hc with hc | hc
    · exact ih1 hr c hc
    · exact ih2 hr c hc

theorem foldCase_quote {c : Char} (h : QuoteChar c) : foldCase c = c := by
  rcases h with rfl | rfl <;> decide

theorem literals_quotes : ∀ l ∈ literals, ('"' ∈ l.text.map foldCase ∨ '\'' ∈ l.text.map foldCase →
    l.text.map foldCase = ['"'] ∨ l.text.map foldCase = ['\'']) ∧
    (l.kind ∈ quotes → l.ignoreCase = false ∧ l.text = [if l.kind = T!"'" then '\'' else '"']) := by decide +kernel

/-- A text with a quote that a rule matches is the quote. -/
theorem rule_quote {t : Text} {k : SyntaxKind} (h : IsLiteralToken t k ∨ IsRegexToken t k) {q : Char} (hq : QuoteChar q)
    (hm : q ∈ t) : t.length = 1 := by
  rcases h with ⟨l, hl, _, hm'⟩ | ⟨r, hr, hm'⟩
  · have hf := literal_fold hm'
    have : q ∈ t.map foldCase := List.mem_map.2 ⟨q, hm, foldCase_quote hq⟩
    rw [hf] at this
    have h2 := (literals_quotes l hl).1 (by rcases hq with rfl | rfl <;> simp [this])
    rw [← hf] at h2
    have h3 : (t.map foldCase).length = 1 := by rcases h2 with h2 | h2 <;> rw [h2] <;> rfl
    simpa using h3
  · refine absurd hq (noQuote_matches hm' ?_ q hm)
    simp only [regexRules, List.mem_cons, List.not_mem_nil, or_false, Prod.mk.injEq] at hr
    rcases hr with ⟨rfl, _⟩ | ⟨rfl, _⟩ | ⟨rfl, _⟩ | ⟨rfl, _⟩ | ⟨rfl, _⟩ | ⟨rfl, _⟩ <;> decide +kernel

theorem quote_literal {q : Char} (hq : QuoteChar q) : IsLiteralToken [q] (quoteKind q) := by
  have h1 : (⟨['"'], false, T!"\""⟩ : Literal) ∈ literals := by decide +kernel
  have h2 : (⟨['\''], false, T!"'"⟩ : Literal) ∈ literals := by decide +kernel
  rcases hq with rfl | rfl
  · exact ⟨_, h1, rfl, rfl⟩
  · exact ⟨_, h2, rfl, rfl⟩

/-- The text of a quote token. -/
theorem quote_text {t : Text} {k : SyntaxKind} (h : IsLiteralToken t k ∨ IsRegexToken t k) (hk : k ∈ quotes) :
    t = [if k = T!"'" then '\'' else '"'] := by
  rcases h with ⟨l, hl, rfl, hm⟩ | ⟨r, hr, _⟩
  · obtain ⟨h1, h2⟩ := (literals_quotes l hl).2 hk
    unfold Literal.Matches at hm
    rw [h1] at hm
    simpa [h2] using hm
  · simp only [regexRules, List.mem_cons, List.not_mem_nil, or_false, Prod.mk.injEq] at hr
    rcases hr with ⟨_, rfl⟩ | ⟨_, rfl⟩ | ⟨_, rfl⟩ | ⟨_, rfl⟩ | ⟨_, rfl⟩ | ⟨_, rfl⟩ <;> exact absurd hk (by decide)

theorem longest_quote {q : Char} (hq : QuoteChar q) (s : Text) : LongestMatch ([q] ++ s) [q] (quoteKind q) := by
  refine ⟨List.prefix_append _ _, by simp, .inl (quote_literal hq), ?_, fun _ _ => quote_literal hq⟩
  intro w k hw hr
  cases w with
  | nil => simp
  | cons c w =>
    obtain ⟨z, hz⟩ := hw
    cases hz
    exact Nat.le_of_eq (rule_quote hr hq (by simp))

/-! ## The lexer on the changed text -/

/-- The text begins with a quote. -/
def QuoteFirst (s : Text) : Prop := ∃ q r, s = q :: r ∧ QuoteChar q

/-- What is assumed of `logos` where no rule matches, besides `ErrLenOk`: whether an error span ends at a
place depends only on the span and the character behind it, and both quotes are alike. -/
def ErrAhead (errLen : Text → Nat) : Prop :=
  ∀ u r r', u ≠ [] → errLen (u ++ r) = u.length → r.head? = r'.head? ∨ (QuoteFirst r ∧ QuoteFirst r') →
    errLen (u ++ r') = u.length

/-- The same text up to a quote in the second one. `b`: the second one may begin with another quote. -/
def Alike (b : Bool) (s s' : Text) : Prop :=
  s = s' ∨ ∃ c d d', s = c ++ d ∧ s' = c ++ d' ∧ QuoteFirst d' ∧ (c = [] → b = true ∨ QuoteFirst d)

theorem Alike.cons {b b' : Bool} {s s' p : Text} (hp : p ≠ []) (h : Alike b s s') : Alike b' (p ++ s) (p ++ s') := by
  rcases h with rfl | ⟨c, d, d', rfl, rfl, h, _⟩
  · exact .inl rfl
  · exact .inr ⟨p ++ c, d, d', by simp, by simp, h, fun h0 => absurd (List.append_eq_nil_iff.1 h0).1 hp⟩

/-- Rules match the same beginnings. -/
theorem Alike.rule {b : Bool} {s s' p w : Text} {k : SyntaxKind} (h : Alike b s s') (hp : p ≠ []) (hw : w <+: p ++ s')
    (hr : IsLiteralToken w k ∨ IsRegexToken w k) : w <+: p ++ s := by
  rcases h with rfl | ⟨c, d, d', rfl, rfl, ⟨q, r, rfl, hq⟩, _⟩
  · exact hw
  · rw [← List.append_assoc] at hw
    rcases prefix_or hw with hw | ⟨t, rfl, ht, hw⟩
    · rw [← List.append_assoc]
      exact hw.trans (List.prefix_append _ _)
    · obtain ⟨z, hz⟩ := hw
      cases t with
      | nil => exact absurd rfl ht
      | cons a t =>
        cases hz
        have := rule_quote hr hq (by simp)
        cases p with
        | nil => exact absurd rfl hp
        | cons x p => simp at this

theorem Alike.word {b : Bool} {s s' w : Text} (h : Alike b s s') (hw : ∀ c ∈ w, ¬ QuoteChar c)
    (hq : ∃ r, s' = w ++ r ∧ WordEnd r) : ∃ r, s = w ++ r ∧ WordEnd r := by
  rcases h with rfl | ⟨c, d, d', rfl, rfl, ⟨q, r, rfl, hqc⟩, _⟩
  · exact hq
  · obtain ⟨x, hx, he⟩ := hq
    have hp : w <+: c := by
      rcases prefix_or (⟨x, hx.symm⟩ : w <+: c ++ q :: r) with hp | ⟨t, rfl, ht, hp⟩
      · exact hp
      · obtain ⟨z, hz⟩ := hp
        cases t with
        | nil => exact absurd rfl ht
        | cons a t => cases hz; exact absurd hqc (hw q (by simp))
    obtain ⟨c2, rfl⟩ := hp
    rw [List.append_assoc] at hx
    have := List.append_cancel_left hx
    subst this
    refine ⟨c2 ++ d, by simp, ?_⟩
    cases c2 with
    | nil =>
      rcases he with he | ⟨a, z, he, ha⟩
      · cases he
      · cases he
        rcases hqc with rfl | rfl <;> simp at ha
    | cons a c2 =>
      refine wordEnd_transfer ?_ he
      rfl

theorem Alike.head {s s' : Text} (h : Alike false s s') : s.head? = s'.head? ∨ (QuoteFirst s ∧ QuoteFirst s') := by
  rcases h with rfl | ⟨c, d, d', rfl, rfl, h, h'⟩
  · exact .inl rfl
  · cases c with
    | cons a c => exact .inl rfl
    | nil => exact .inr ⟨(h' rfl).resolve_left (by simp), h⟩

theorem longest_alike {b : Bool} {s s' p q : Text} {k : SyntaxKind} (h : Alike b s s') (hp : p ≠ [])
    (hm : LongestMatch (p ++ s) q k) (hq : q <+: p) : LongestMatch (p ++ s') q k :=
  ⟨hq.trans (List.prefix_append _ _), hm.nonempty, hm.rule, fun w j hw hr => hm.longest w j (h.rule hp hw hr) hr, hm.literalFirst⟩

/-- The tokens of the changed text. -/
theorem cells_tokenize {errLen : Text → Nat} (he : ErrAhead errLen) : ∀ {cs : List Cell} {b : Bool} {s : Text}, Sits b cs →
    Tokenizes errLen s ((oldToks cs).map (fun t => (t.kind, t.text))) →
    Tokenizes errLen (newText cs) (cs.map Cell.new) ∧ Alike b s (newText cs)
  | [], b, s, _, h => by
    cases tokenizes_ne h
    exact ⟨.nil, .inl rfl⟩
  | .ins p q :: cs, b, s, hg, h => by
    obtain ⟨rfl, hq, hg⟩ := hg
    obtain ⟨h1, h2⟩ := cells_tokenize he hg h
    refine ⟨.rule (longest_quote hq _) ?_ ?_ h1, .inr ⟨[], s, [q] ++ newText cs, rfl, rfl, ⟨q, _, rfl, hq⟩, fun _ => .inl rfl⟩⟩
    · exact fun h => by rcases hq with rfl | rfl <;> exact absurd h.1 (by decide)
    · exact fun h => by rcases hq with rfl | rfl <;> exact absurd h.1 (by decide)
  | .swap t q :: cs, b, s, hg, h => by
    obtain ⟨ht, hq, hg⟩ := hg
    rcases tokenizes_step h with ⟨_, h0⟩ | ⟨pre, post, k, ts', rfl, hne, hts, h3, hd⟩
    · cases h0
    · cases hts
      obtain ⟨h1, h2⟩ := cells_tokenize (cs := cs) he hg h3
      have htext : QuoteFirst (t.text ++ post) := by
        rcases hd with ⟨w, j, hm, hd⟩ | ⟨h0, _⟩
        · rcases hd with ⟨h0, h1, _⟩ | ⟨_, h0, _⟩ | ⟨_, h0, _⟩
          · subst h1
            have := quote_text hm.rule (h0 ▸ ht)
            rw [this]
            refine ⟨_, _, rfl, ?_⟩
            split
            · exact .inr rfl
            · exact .inl rfl
          · rw [h0] at ht; exact absurd ht (by decide)
          · rw [h0] at ht; exact absurd ht (by decide)
        · rw [h0] at ht; exact absurd ht (by decide)
      refine ⟨.rule (longest_quote hq _) ?_ ?_ h1, .inr ⟨[], _, [q] ++ newText cs, rfl, rfl, ⟨q, _, rfl, hq⟩, fun _ => .inr htext⟩⟩
      · exact fun h => by rcases hq with rfl | rfl <;> exact absurd h.1 (by decide)
      · exact fun h => by rcases hq with rfl | rfl <;> exact absurd h.1 (by decide)
  | .keep t :: cs, b, s, hg, h => by
    rcases tokenizes_step h with ⟨_, h0⟩ | ⟨pre, post, k, ts', rfl, hne, hts, h3, hd⟩
    · cases h0
    · cases hts
      obtain ⟨h1, h2⟩ := cells_tokenize (cs := cs) he hg h3
      refine ⟨?_, h2.cons hne⟩
      show Tokenizes errLen (t.text ++ newText cs) ((t.kind, t.text) :: cs.map Cell.new)
      have hfalse : t.kind ∉ insertable → Alike false post (newText cs) := by
        intro hk
        rwa [show decide (t.kind ∈ insertable) = false from decide_eq_false hk] at h2
      rcases hd with ⟨w, j, hm, hd⟩ | ⟨h0, hlen, hno⟩
      · rcases hd with ⟨h0, hw, hn1, hn2⟩ | ⟨rfl, h0, hw, hn⟩ | ⟨rfl, h0, hw, hn⟩
        · subst hw
          refine .rule ?_ (fun ⟨hk, hx⟩ => hn1 ⟨hk, ?_⟩) (fun ⟨hk, hx⟩ => hn2 ⟨hk, ?_⟩) h1
          · rw [h0]; exact longest_alike h2 hne hm (List.prefix_refl _)
          · exact h2.word (w := [' ', 'i', 'n']) (by unfold QuoteChar; decide) hx
          · exact h2.word (w := [' ', 'n', 'o', 't']) (by unfold QuoteChar; decide) hx
        · have h2' := hfalse (by rw [h0]; decide)
          have hww := longestMatch_not hm
          rw [h0, hw]
          rw [hw, hww] at hm
          refine .notIn (longest_alike h2 (by decide) hm (by decide)) ?_ h1
          rcases h2'.head with h | ⟨⟨q, r, rfl, hq⟩, _⟩
          · exact wordEnd_transfer h hn
          · rcases hn with hn | ⟨a, z, hn, ha⟩
            · cases hn
            · cases hn; rcases hq with rfl | rfl <;> simp at ha
        · have h2' := hfalse (by rw [h0]; decide)
          have hww := longestMatch_is hm
          rw [h0, hw]
          rw [hw, hww] at hm
          refine .isNot (longest_alike h2 (by decide) hm (by decide)) ?_ h1
          rcases h2'.head with h | ⟨⟨q, r, rfl, hq⟩, _⟩
          · exact wordEnd_transfer h hn
          · rcases hn with hn | ⟨a, z, hn, ha⟩
            · cases hn
            · cases hn; rcases hq with rfl | rfl <;> simp at ha
      · have h2' := hfalse (by rw [h0]; decide)
        rw [h0]
        exact .unknown hne (he _ _ _ hne hlen.symm h2'.head).symm (fun w k hw hr => hno w k (h2.rule hne hw hr) hr) h1

end Ludtwig.Template
