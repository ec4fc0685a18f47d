import Verif.Layout.TextSpec
import Verif.Layout.Leading
import Verif.Parser.LexerProps

/-!
# The tokens of a text in another layout
-/

namespace Ludtwig.Layout

open Lexer Re

/-! ## The texts that the rules match -/

/-- No line break; blanks only between other characters. -/
def inner : Text → Bool
  | [] => true
  | [c] => !blankChar c
  | c :: d :: s => c != '\n' && (!blankChar c || !blankChar d) && inner (d :: s)

/-- Not starting with a blank. -/
def noBlankHead : Text → Bool
  | [] => true
  | c :: _ => !blankChar c

theorem inner_tail {c : Char} {s : Text} (h : inner (c :: s) = true) : inner s = true := by
  cases s with
  | nil => rfl
  | cons d s => simp only [inner, Bool.and_eq_true] at h; exact h.2

theorem inner_suffix {a b : Text} (h : inner (a ++ b) = true) : inner b = true := by
  induction a with
  | nil => exact h
  | cons c a ih => exact ih (inner_tail h)

theorem inner_of_noBlank {t : Text} (h : ∀ c ∈ t, blankChar c = false) : inner t = true := by
  induction t with
  | nil => rfl
  | cons c t ih =>
    have hc := h c (by simp)
    cases t with
    | nil => simp [inner, hc]
    | cons d t =>
      have hn : c ≠ '\n' := by rintro rfl; simp [blankChar] at hc
      simp only [inner, Bool.and_eq_true, bne_iff_ne, Bool.or_eq_true, Bool.not_eq_true']
      exact ⟨⟨hn, .inl hc⟩, ih (fun x hx => h x (by simp [hx]))⟩

theorem foldCase_blank (c : Char) : blankChar (foldCase c) = blankChar c ∧
    ((foldCase c != '\n') = (c != '\n')) := by
  unfold foldCase
  split
  · rename_i h
    simp only [Bool.and_eq_true, decide_eq_true_eq] at h
    have h1 : 65 ≤ c.toNat := h.1
    have h2 : c.toNat ≤ 90 := h.2
    have key : ∀ n, 65 ≤ n → n ≤ 90 → blankChar (Char.ofNat (n + 32)) = false ∧
        blankChar (Char.ofNat n) = false ∧ Char.ofNat (n + 32) ≠ '\n' ∧ Char.ofNat n ≠ '\n' := by
      intro n h1 h2
      have : n ∈ List.range 91 := List.mem_range.2 (by omega)
      have all : ∀ n ∈ List.range 91, 65 ≤ n → blankChar (Char.ofNat (n + 32)) = false ∧
        blankChar (Char.ofNat n) = false ∧ Char.ofNat (n + 32) ≠ '\n' ∧ Char.ofNat n ≠ '\n' := by
        decide +kernel
      exact all n this h1
    obtain ⟨k1, k2, k3, k4⟩ := key c.toNat h1 h2
    rw [Char.ofNat_toNat] at k2 k4
    refine ⟨by rw [k1, k2], ?_⟩
    rw [bne_iff_ne.2 k3, bne_iff_ne.2 k4]
  · split
    · rename_i h; rw [beq_iff_eq] at h; subst h; decide
    · split
      · rename_i h; rw [beq_iff_eq] at h; subst h; decide
      · exact ⟨rfl, rfl⟩

theorem inner_fold (t : Text) : inner (t.map foldCase) = inner t := by
  induction t with
  | nil => rfl
  | cons c t ih =>
    cases t with
    | nil => simp [inner, (foldCase_blank c).1]
    | cons d t =>
      simp only [List.map_cons] at ih
      simp only [List.map_cons, inner, (foldCase_blank c).1, (foldCase_blank d).1,
        (foldCase_blank c).2, ih]

theorem noBlankHead_fold (t : Text) : noBlankHead (t.map foldCase) = noBlankHead t := by
  cases t with
  | nil => rfl
  | cons c t => simp [noBlankHead, (foldCase_blank c).1]

theorem literals_inner : ∀ l ∈ literals, inner (l.text.map foldCase) = true ∧
    noBlankHead (l.text.map foldCase) = true ∧ l.text ≠ [] := by decide +kernel

theorem literal_inner {t : Text} {k : SyntaxKind} (h : IsLiteralToken t k) :
    inner t = true ∧ noBlankHead t = true ∧ k.isTrivia = false ∧ t ≠ [] := by
  obtain ⟨l, hl, rfl, hm⟩ := h
  have hf := literal_fold hm
  obtain ⟨h1, h2, h3⟩ := literals_inner l hl
  obtain ⟨k1, k2, _⟩ := literal_kinds l hl
  refine ⟨by rw [← inner_fold, hf, h1], by rw [← noBlankHead_fold, hf, h2], ?_, ?_⟩
  · cases hk : l.kind <;> simp_all [SyntaxKind.isTrivia]
  · rintro rfl
    simp at hf
    exact h3 hf

/-- No blank in the char classes. -/
def noBlankRe : Re → Bool
  | .eps => true
  | .set rs => rs.all (fun r => [' ', '\t', '\n', '\r'].all (fun c => !(r.1 ≤ c && c ≤ r.2)))
  | .seq a b => noBlankRe a && noBlankRe b
  | .alt a b => noBlankRe a && noBlankRe b
  | .star a => noBlankRe a

theorem blankChar_iff (c : Char) : blankChar c = true ↔ c ∈ [' ', '\t', '\n', '\r'] := by
  simp [blankChar, or_assoc]

theorem noBlank_matches {r : Re} {t : Text} (h : r.Matches t) :
    noBlankRe r = true → ∀ c ∈ t, blankChar c = false := by
  induction h with
  | eps => intro _ c hc; cases hc
  | @set rs d hd =>
    intro hr c hc
    simp only [List.mem_singleton] at hc
    subst hc
    cases hb : blankChar c with
    | false => rfl
    | true =>
      rw [blankChar_iff] at hb
      obtain ⟨r, hr1, hr2⟩ := hd
      have := List.all_eq_true.1 (List.all_eq_true.1 hr r hr1) c hb
      simp [hr2.1, hr2.2] at this
  | seq _ _ ih1 ih2 =>
    intro hr c hc
    simp only [noBlankRe, Bool.and_eq_true] at hr
    rcases List.mem_append.1 hc with hc | hc
    · exact ih1 hr.1 c hc
    · exact ih2 hr.2 c hc
  | altL _ ih =>
    intro hr
    simp only [noBlankRe, Bool.and_eq_true] at hr
    exact ih hr.1
  | altR _ ih =>
    intro hr
    simp only [noBlankRe, Bool.and_eq_true] at hr
    exact ih hr.2
  | starNil => intro _ c hc; cases hc
  | starCons _ _ ih1 ih2 =>
    intro hr c hc
    rcases List.mem_append.1 hc with hc | hc
    · exact ih1 hr c hc
    · exact ih2 hr c hc

/-- The three sorts of texts that rules match. -/
theorem rule_text {t : Text} {k : SyntaxKind} (h : IsLiteralToken t k ∨ IsRegexToken t k) :
    (k = .TK_WHITESPACE ∧ Re.whitespace.Matches t) ∨ (k = .TK_LINE_BREAK ∧ Re.lineBreak.Matches t) ∨
      (k.isTrivia = false ∧ inner t = true ∧ noBlankHead t = true) := by
  rcases h with h | ⟨r, hr, hm⟩
  · obtain ⟨h1, h2, h3, _⟩ := literal_inner h
    exact .inr (.inr ⟨h3, h1, h2⟩)
  · have key : noBlankRe r = true → inner t = true ∧ noBlankHead t = true := by
      intro hn
      have := noBlank_matches hm hn
      refine ⟨inner_of_noBlank this, ?_⟩
      cases t with
      | nil => rfl
      | cons c t => simp [noBlankHead, this c (by simp)]
    simp only [regexRules, List.mem_cons, List.not_mem_nil, or_false, Prod.mk.injEq] at hr
    rcases hr with ⟨rfl, rfl⟩ | ⟨rfl, rfl⟩ | ⟨rfl, rfl⟩ | ⟨rfl, rfl⟩ | ⟨rfl, rfl⟩ | ⟨rfl, rfl⟩
    · exact .inl ⟨rfl, hm⟩
    · exact .inr (.inl ⟨rfl, hm⟩)
    all_goals exact .inr (.inr ⟨rfl, key (by decide +kernel)⟩)

theorem whitespace_chars {t : Text} (h : Re.whitespace.Matches t) :
    t ≠ [] ∧ ∀ c ∈ t, isBlank c = true := by
  obtain ⟨h1, h2⟩ := matches_plus_set.1 h
  exact ⟨h1, fun c hc => (isBlank_iff c).2 (h2 c hc)⟩

theorem lineBreak_items {t : Text} (h : Re.lineBreak.Matches t) : IsLineBreaks t ∧ t ≠ [] := by
  obtain ⟨x, y, rfl, hx, hy⟩ := matches_seq.1 h
  refine ⟨lineBreak_shape (.starCons hx hy) rfl, ?_⟩
  rcases matches_alt.1 hx with h | h
  · rw [matches_chr.1 h]; simp
  · obtain ⟨a, b, rfl, ha, hb⟩ := matches_seq.1 h
    rw [matches_chr.1 ha]; simp

theorem lineBreaks_chars {t : Text} (h : IsLineBreaks t) : ∀ c ∈ t, blankChar c = true := by
  obtain ⟨l, rfl, hl⟩ := h
  intro c hc
  obtain ⟨x, hx, hcx⟩ := List.mem_flatten.1 hc
  rcases hl x hx with rfl | rfl
  · simp at hcx; subst hcx; rfl
  · simp at hcx; rcases hcx with rfl | rfl <;> rfl

theorem blank_blankChar {c : Char} (h : isBlank c = true) : blankChar c = true := by
  simp [isBlank] at h
  rcases h with rfl | rfl <;> rfl

theorem blanks_chars {t : Text} (h : Blanks t) : ∀ c ∈ t, blankChar c = true := by
  obtain ⟨l, rfl, hl⟩ := h
  intro c hc
  obtain ⟨x, hx, hcx⟩ := List.mem_flatten.1 hc
  rcases hl x hx with rfl | rfl | rfl | rfl
  · simp at hcx; subst hcx; rfl
  · simp at hcx; subst hcx; rfl
  · simp at hcx; subst hcx; rfl
  · simp at hcx; rcases hcx with rfl | rfl <;> rfl

/-! ## Tokens do not reach into the gap -/

/-- A text that is no prefix of the line reaches into the gap behind it. -/
theorem prefix_or {w u v : Text} (h : w <+: u ++ v) : w <+: u ∨ ∃ t, w = u ++ t ∧ t ≠ [] ∧ t <+: v := by
  rcases Nat.le_total w.length u.length with hle | hle
  · exact .inl (List.prefix_of_prefix_length_le h (List.prefix_append _ _) hle)
  · obtain ⟨t, rfl⟩ := List.prefix_of_prefix_length_le (List.prefix_append u v) h hle
    cases t with
    | nil => exact .inl (by simp)
    | cons c t => exact .inr ⟨c :: t, rfl, by simp, (List.prefix_append_right_inj u).1 h⟩

theorem inner_prefix {w u g r : Text} (hw : inner w = true) (hg : Blanks g) (hn : '\n' ∈ g)
    (h : w <+: u ++ (g ++ r)) : w <+: u := by
  rcases prefix_or h with h | ⟨t, rfl, hne, ht⟩
  · exact h
  · exfalso
    have hi := inner_suffix hw
    have hb := blanks_chars hg
    cases g with
    | nil => cases hn
    | cons c g =>
      cases t with
      | nil => exact hne rfl
      | cons c' t =>
        simp only [List.cons_append, List.cons_prefix_cons] at ht
        obtain ⟨rfl, ht⟩ := ht
        have hc := hb c' (by simp)
        cases t with
        | nil => simp [inner, hc] at hi
        | cons d t =>
          simp only [inner, hc, Bool.and_eq_true, bne_iff_ne, Bool.not_true, Bool.false_or,
            Bool.not_eq_true'] at hi
          have hn' : '\n' ∈ g := by
            rcases List.mem_cons.1 hn with h | h
            · exact absurd h.symm hi.1.1
            · exact h
          cases g with
          | nil => cases hn'
          | cons e g =>
            simp only [List.cons_append, List.cons_prefix_cons] at ht
            have := hb e (by simp)
            rw [← ht.1, hi.1.2] at this
            cases this

theorem rule_prefix {w u g r : Text} {k : SyntaxKind} (hw : IsLiteralToken w k ∨ IsRegexToken w k)
    (hu : u ≠ []) (hlast : Stops u g) (hnl : '\n' ∉ u) (hg : Blanks g) (hn : '\n' ∈ g)
    (h : w <+: u ++ (g ++ r)) : w <+: u := by
  have hlast := hlast _ (List.getLast?_eq_some_getLast hu)
  rcases rule_text hw with ⟨_, hm⟩ | ⟨_, hm⟩ | ⟨_, hi, _⟩
  · rcases prefix_or h with h | ⟨t, rfl, _, _⟩
    · exact h
    · exfalso
      have h2 := (whitespace_chars hm).2 (u.getLast hu) (List.mem_append_left _ (List.getLast_mem hu))
      simp only [isBlank, Bool.or_eq_true, beq_iff_eq] at h2
      exact h2.elim hlast.1 hlast.2.1
  · rcases prefix_or h with h | ⟨t, rfl, hne, ht⟩
    · exact h
    · exfalso
      obtain ⟨⟨l, hl, hli⟩, hnn⟩ := lineBreak_items hm
      cases l with
      | nil => exact hnn hl
      | cons x l =>
        cases u with
        | nil => exact hu rfl
        | cons c u =>
          rcases hli x (by simp) with rfl | rfl
          · simp only [List.flatten_cons, List.cons_append, List.nil_append, List.cons.injEq] at hl
            exact hnl (by simp [hl.1])
          · simp only [List.flatten_cons, List.cons_append, List.nil_append, List.cons.injEq] at hl
            obtain ⟨rfl, hl⟩ := hl
            cases u with
            | cons d u =>
              simp only [List.cons_append, List.cons.injEq] at hl
              exact hnl (by simp [hl.1])
            | nil =>
              simp only [List.nil_append] at hl
              subst hl
              refine hlast.2.2 rfl ?_
              cases g with
              | nil => cases hn
              | cons e g =>
                simp only [List.cons_append, List.cons_prefix_cons] at ht
                rw [← ht.1]; rfl
  · exact inner_prefix hi hg hn h

/-- A line with the gap behind it. -/
structure Gapped (u g r : Text) : Prop where
  stops : Stops u g
  noLf : '\n' ∉ u
  blanks : Blanks g
  lf : '\n' ∈ g

theorem longest_transfer {u g g' r r' p : Text} {k : SyntaxKind} (hu : u ≠ []) (h : Gapped u g r)
    (h' : Gapped u g' r') (hm : LongestMatch (u ++ (g ++ r)) p k) :
    p <+: u ∧ LongestMatch (u ++ (g' ++ r')) p k := by
  have hp := rule_prefix hm.rule hu h.stops h.noLf h.blanks h.lf hm.isPrefix
  refine ⟨hp, hp.trans (List.prefix_append _ _), hm.nonempty, hm.rule, ?_, hm.literalFirst⟩
  intro q j hq hr
  have := rule_prefix hr hu h'.stops h'.noLf h'.blanks h'.lf hq
  exact hm.longest q j (this.trans (List.prefix_append _ _)) hr

theorem wordEnd_transfer {s s' : Text} (h : s.head? = s'.head?) (hw : WordEnd s) : WordEnd s' := by
  rcases hw with rfl | ⟨c, r, rfl, hc⟩
  · cases s' with
    | nil => exact .inl rfl
    | cons => cases h
  · cases s' with
    | nil => cases h
    | cons d q => cases h; exact .inr ⟨c, q, rfl, hc⟩

theorem head_transfer {u g g' r r' : Text} (hn : g ≠ []) (hn' : g' ≠ [])
    (h : u = [] → g.head? = g'.head?) :
    (u ++ (g ++ r)).head? = (u ++ (g' ++ r')).head? := by
  cases u with
  | cons c u => rfl
  | nil =>
    have h := h rfl
    cases g with
    | nil => exact absurd rfl hn
    | cons c g =>
      cases g' with
      | nil => exact absurd rfl hn'
      | cons d g' => cases h; rfl

theorem suffix_stops {a b g : Text} (h : Stops (a ++ b) g) : Stops b g := by
  intro c hc
  refine h c ?_
  rw [List.getLast?_append]
  rw [Option.mem_def] at hc
  simp [hc]

theorem Gapped.suffix {a b g r : Text} (h : Gapped (a ++ b) g r) : Gapped b g r :=
  ⟨suffix_stops h.stops, fun hn => h.noLf (by simp [hn]), h.blanks, h.lf⟩

/-- The end of a line `u` is read in the same way whether `g` or `g'` is behind it. -/
def ReadAlike (errLen : Text → Nat) (u g g' : Text) : Prop :=
  (g.head? = g'.head? ∨ ¬ EndsTwoWords u) ∧
  ∀ v r r', v ≠ [] → v <:+ u →
    errLen (v ++ (g ++ r)) ≤ v.length ∧ errLen (v ++ (g ++ r)) = errLen (v ++ (g' ++ r'))

theorem ReadAlike.suffix {errLen : Text → Nat} {a b g g' : Text} (h : ReadAlike errLen (a ++ b) g g') :
    ReadAlike errLen b g g' := by
  refine ⟨h.1.imp id (fun hn he => hn ?_), fun v r r' hne hv => h.2 v r r' hne (hv.trans (List.suffix_append _ _))⟩
  exact he.imp (·.trans (List.suffix_append _ _)) (·.trans (List.suffix_append _ _))

theorem readAlike_of_head {errLen : Text → Nat} (hl : ErrLineLocal errLen) {u g g' : Text}
    (hs : Stops u g) (hnl : '\n' ∉ u) (hb : Blanks g) (lf : '\n' ∈ g) (lf' : '\n' ∈ g')
    (hh : g.head? = g'.head?) : ReadAlike errLen u g g' := by
  refine ⟨.inl hh, fun v r r' hne ⟨a, ha⟩ => ?_⟩
  subst ha
  cases g with
  | nil => cases lf
  | cons c g =>
    cases g' with
    | nil => cases lf'
    | cons d g' =>
      cases hh
      have hc := blanks_chars hb c (by simp)
      obtain ⟨e1, e2⟩ := hl v c (g ++ r) hne (fun h => hnl (by simp [h]))
        (fun x hx => suffix_stops hs x hx) hc
      exact ⟨e1, e2 (g' ++ r')⟩

/-- The word behind `not` or `is`. -/
theorem word_transfer {u g g' r r' w : Text} (hw : inner w = true) (h : Gapped u g r)
    (h' : Gapped u g' r') (hh : u = w → g.head? = g'.head?)
    (hq : ∃ q, u ++ (g ++ r) = w ++ q ∧ WordEnd q) : ∃ q, u ++ (g' ++ r') = w ++ q ∧ WordEnd q := by
  obtain ⟨q, hq, he⟩ := hq
  obtain ⟨u2, rfl⟩ := inner_prefix hw h.blanks h.lf (⟨q, hq.symm⟩ : w <+: u ++ (g ++ r))
  rw [List.append_assoc] at hq
  have := List.append_cancel_left hq
  subst this
  refine ⟨u2 ++ (g' ++ r'), by simp, wordEnd_transfer ?_ he⟩
  exact head_transfer (fun h0 => by have := h.lf; rw [h0] at this; cases this)
    (fun h0 => by have := h'.lf; rw [h0] at this; cases this) (fun h0 => hh (by simp [h0]))

/-- The first token of a line does not depend on what is behind the line. -/
theorem step_transfer {errLen : Text → Nat} {u g g' r r' : Text}
    {ts : List (SyntaxKind × Text)} (hu : u ≠ []) (h : Gapped u g r)
    (h' : Gapped u g' r') (hh : ReadAlike errLen u g g') (ht : Tokenizes errLen (u ++ (g ++ r)) ts) :
    ∃ pre u2 k ts2, u = pre ++ u2 ∧ pre ≠ [] ∧ ts = (k, pre) :: ts2 ∧
      Tokenizes errLen (u2 ++ (g ++ r)) ts2 ∧ 
      ∀ ts2', Tokenizes errLen (u2 ++ (g' ++ r')) ts2' →
        Tokenizes errLen (u ++ (g' ++ r')) ((k, pre) :: ts2') := by
  have split : ∀ {pre post : Text}, u ++ (g ++ r) = pre ++ post → pre <+: u →
      ∃ u2, u = pre ++ u2 ∧ post = u2 ++ (g ++ r) := by
    rintro pre post he ⟨u2, rfl⟩
    rw [List.append_assoc] at he
    exact ⟨u2, rfl, (List.append_cancel_left he).symm⟩
  rcases tokenizes_step ht with ⟨h0, _⟩ | ⟨pre, post, k, ts2, hs, hne, hts, ht2, hd⟩
  · exact absurd (List.append_eq_nil_iff.1 h0).1 hu
  · rcases hd with ⟨q, j, hq, hd⟩ | ⟨rfl, hlen, hno⟩
    · obtain ⟨hqu, hq'⟩ := longest_transfer hu h h' hq
      rcases hd with ⟨rfl, rfl, h1, h2⟩ | ⟨rfl, rfl, rfl, hw⟩ | ⟨rfl, rfl, rfl, hw⟩
      · obtain ⟨u2, rfl, rfl⟩ := split hs hqu
        refine ⟨pre, u2, k, ts2, rfl, hne, hts, ht2, fun ts2' h3 => ?_⟩
        have g1 : Gapped u2 g r := h.suffix
        have g2 : Gapped u2 g' r' := h'.suffix
        have hpre : (k = .TK_NOT → pre = "not".toList) ∧ (k = .TK_IS → pre = "is".toList) :=
          ⟨fun hk => longestMatch_not (hk ▸ hq'), fun hk => longestMatch_is (hk ▸ hq')⟩
        rw [List.append_assoc] at hq' ⊢
        refine .rule hq' (fun ⟨hk, q, e, hw⟩ => h1 ⟨hk, ?_⟩) (fun ⟨hk, q, e, hw⟩ => h2 ⟨hk, ?_⟩) h3
        · obtain ⟨q2, e2, hw2⟩ := word_transfer (w := [' ', 'i', 'n']) (by decide) g2 g1
            (fun h0 => (hh.1.resolve_right (fun hn => hn (.inl ⟨[], by rw [h0, hpre.1 hk]; rfl⟩))).symm)
            ⟨q, e, hw⟩
          exact ⟨q2, e2, hw2⟩
        · obtain ⟨q2, e2, hw2⟩ := word_transfer (w := [' ', 'n', 'o', 't']) (by decide) g2 g1
            (fun h0 => (hh.1.resolve_right (fun hn => hn (.inr ⟨[], by rw [h0, hpre.2 hk]; rfl⟩))).symm)
            ⟨q, e, hw⟩
          exact ⟨q2, e2, hw2⟩
      · have hpu : "not in".toList <+: u :=
          inner_prefix (by decide) h.blanks h.lf ⟨post, hs.symm⟩
        obtain ⟨u2, rfl, rfl⟩ := split hs hpu
        refine ⟨_, u2, _, ts2, rfl, hne, hts, ht2, fun ts2' h3 => ?_⟩
        have hqq := longestMatch_not hq'
        rw [List.append_assoc, hqq] at hq'
        rw [List.append_assoc]
        exact .notIn hq' (wordEnd_transfer (head_transfer
          (fun h0 => by have := h.lf; rw [h0] at this; cases this)
          (fun h0 => by have := h'.lf; rw [h0] at this; cases this)
          (fun h0 => hh.1.resolve_right (fun hn => hn (.inl ⟨[], by rw [h0]; rfl⟩)))) hw) h3
      · have hpu : "is not".toList <+: u :=
          inner_prefix (by decide) h.blanks h.lf ⟨post, hs.symm⟩
        obtain ⟨u2, rfl, rfl⟩ := split hs hpu
        refine ⟨_, u2, _, ts2, rfl, hne, hts, ht2, fun ts2' h3 => ?_⟩
        have hqq := longestMatch_is hq'
        rw [List.append_assoc, hqq] at hq'
        rw [List.append_assoc]
        exact .isNot hq' (wordEnd_transfer (head_transfer
          (fun h0 => by have := h.lf; rw [h0] at this; cases this)
          (fun h0 => by have := h'.lf; rw [h0] at this; cases this)
          (fun h0 => hh.1.resolve_right (fun hn => hn (.inr ⟨[], by rw [h0]; rfl⟩)))) hw) h3
    · have hno' : ∀ w k, w <+: u ++ (g' ++ r') → ¬ (IsLiteralToken w k ∨ IsRegexToken w k) := by
        intro w k hw hr
        exact hno w k ((rule_prefix hr hu h'.stops h'.noLf h'.blanks h'.lf hw).trans
          (List.prefix_append _ _)) hr
      obtain ⟨e1, e2⟩ := hh.2 u r r' hu (List.suffix_refl _)
      have hpu : pre <+: u := by
        have := (List.prefix_append pre post)
        rw [← hs] at this
        exact List.prefix_of_prefix_length_le this (List.prefix_append _ _) (by omega)
      obtain ⟨u2, rfl, rfl⟩ := split hs hpu
      refine ⟨pre, u2, _, ts2, rfl, hne, hts, ht2, fun ts2' h3 => ?_⟩
      rw [List.append_assoc]
      refine .unknown hne ?_ ?_ h3
      · rw [hlen, e2, List.append_assoc]
      · rw [← List.append_assoc]; exact hno'

/-! ## The tokens of a gap -/

/-- The characters of a piece of whitespace. -/
def isWsItem (x : Text) : Bool := x == [' '] || x == ['\t']

theorem lineBreaks_cancel {a t : Text} (ha : IsLineBreaks a) (h : IsLineBreaks (a ++ t)) :
    IsLineBreaks t := by
  obtain ⟨l, rfl, hl⟩ := ha
  obtain ⟨m, hm, hml⟩ := h
  induction l generalizing m with
  | nil => exact ⟨m, hm, hml⟩
  | cons x l ih =>
    have hx := hl x (by simp)
    cases m with
    | nil => rcases hx with rfl | rfl <;> simp at hm
    | cons y m =>
      have hy := hml y (by simp)
      refine ih (fun x hx => hl x (by simp [hx])) m ?_ (fun y hy => hml y (by simp [hy]))
      rcases hx with rfl | rfl <;> rcases hy with rfl | rfl <;> simpa using hm

theorem lineBreaks_head {t : Text} (h : IsLineBreaks t) (hne : t ≠ []) :
    ∃ x r, t = x ++ r ∧ (x = ['\n'] ∨ x = ['\r', '\n']) := by
  obtain ⟨l, rfl, hl⟩ := h
  cases l with
  | nil => exact absurd rfl hne
  | cons x l => exact ⟨x, l.flatten, rfl, hl x (by simp)⟩

theorem star_of_items {l : List Text} (hl : ∀ x ∈ l, x = ['\n'] ∨ x = ['\r', '\n']) :
    Matches (.star (.alt (chr '\n') (.seq (chr '\r') (chr '\n')))) l.flatten := by
  induction l with
  | nil => exact .starNil
  | cons x l ih =>
    rw [List.flatten_cons]
    refine .starCons ?_ (ih (fun y hy => hl y (by simp [hy])))
    rcases hl x (by simp) with rfl | rfl
    · exact .altL (matches_chr.2 rfl)
    · exact .altR (matches_seq.2 ⟨['\r'], ['\n'], rfl, matches_chr.2 rfl, matches_chr.2 rfl⟩)

theorem lineBreak_of_items {x : Text} {l : List Text}
    (hl : ∀ y ∈ x :: l, y = ['\n'] ∨ y = ['\r', '\n']) : Re.lineBreak.Matches (x :: l).flatten := by
  rw [List.flatten_cons]
  refine .seq ?_ (star_of_items (fun y hy => hl y (by simp [hy])))
  rcases hl x (by simp) with rfl | rfl
  · exact .altL (matches_chr.2 rfl)
  · exact .altR (matches_seq.2 ⟨['\r'], ['\n'], rfl, matches_chr.2 rfl, matches_chr.2 rfl⟩)

theorem noBlankHead_blank {c : Char} {t : Text} (hc : blankChar c = true)
    (h : noBlankHead (c :: t) = true) : False := by simp [noBlankHead, hc] at h

/-- Whitespace is taken up to its end. -/
theorem longest_whitespace {a v : Text} (hne : a ≠ []) (ha : ∀ c ∈ a, isBlank c = true)
    (hv : ∀ c ∈ v.head?, isBlank c = false) : LongestMatch (a ++ v) a .TK_WHITESPACE := by
  have hm : Re.whitespace.Matches a :=
    matches_plus_set.2 ⟨hne, fun c hc => (isBlank_iff c).1 (ha c hc)⟩
  cases a with
  | nil => exact absurd rfl hne
  | cons c a =>
    have hc := ha c (by simp)
    refine ⟨List.prefix_append _ _, hne, .inr ⟨_, by simp [regexRules], hm⟩, ?_, ?_⟩
    · intro q j hq hr
      rcases prefix_or hq with h | ⟨t, rfl, hne', ht⟩
      · exact h.length_le
      · exfalso
        rcases rule_text hr with ⟨_, hw⟩ | ⟨_, hw⟩ | ⟨_, _, hw⟩
        · cases t with
          | nil => exact hne' rfl
          | cons d t =>
            cases v with
            | nil => simp at ht
            | cons e v =>
              simp only [List.cons_prefix_cons] at ht
              have h1 := hv e (by simp)
              have h2 := (whitespace_chars hw).2 d (by simp)
              rw [ht.1, h1] at h2
              cases h2
        · obtain ⟨h1, h2⟩ := lineBreak_items hw
          obtain ⟨x, r, hx, hxx⟩ := lineBreaks_head h1 h2
          have hcx := congrArg List.head? hx
          rcases hxx with rfl | rfl <;> (simp at hcx; subst hcx; simp [isBlank] at hc)
        · exact noBlankHead_blank (blank_blankChar hc) hw
    · intro k hk
      exact absurd (literal_inner hk).2.1 (fun h => noBlankHead_blank (blank_blankChar hc) h)

theorem longest_lineBreak {l : List Text} {v : Text} (hne : l ≠ [])
    (hl : ∀ x ∈ l, x = ['\n'] ∨ x = ['\r', '\n'])
    (hv : ∀ x r, v = x ++ r → ¬ (x = ['\n'] ∨ x = ['\r', '\n'])) :
    LongestMatch (l.flatten ++ v) l.flatten .TK_LINE_BREAK := by
  have hib : IsLineBreaks l.flatten := ⟨l, rfl, hl⟩
  have hm : Re.lineBreak.Matches l.flatten := by
    cases l with
    | nil => exact absurd rfl hne
    | cons x l => exact lineBreak_of_items hl
  have hnn := (lineBreak_items hm).2
  obtain ⟨c, a, hca⟩ : ∃ c a, l.flatten = c :: a := by
    cases h : l.flatten with
    | nil => exact absurd h hnn
    | cons c a => exact ⟨c, a, rfl⟩
  have hc : blankChar c = true := lineBreaks_chars hib c (by simp [hca])
  refine ⟨List.prefix_append _ _, hnn, .inr ⟨_, by simp [regexRules], hm⟩, ?_, ?_⟩
  · intro q j hq hr
    rcases prefix_or hq with h | ⟨t, rfl, hne', ht⟩
    · exact h.length_le
    · exfalso
      rcases rule_text hr with ⟨_, hw⟩ | ⟨_, hw⟩ | ⟨_, _, hw⟩
      · obtain ⟨x, r, hx, hxx⟩ := lineBreaks_head hib hnn
        have h2 := (whitespace_chars hw).2
        rw [hx] at h2
        rcases hxx with rfl | rfl
        · have := h2 '\n' (by simp); simp [isBlank] at this
        · have := h2 '\n' (by simp); simp [isBlank] at this
      · obtain ⟨h1, _⟩ := lineBreak_items hw
        obtain ⟨x, r, hx, hxx⟩ := lineBreaks_head (lineBreaks_cancel hib h1) hne'
        obtain ⟨z, hz⟩ := ht
        rw [hx, List.append_assoc] at hz
        exact hv x (r ++ z) hz.symm hxx
      · rw [hca] at hw
        exact noBlankHead_blank hc hw
  · intro k hk
    have := (literal_inner hk).2.1
    rw [hca] at this
    exact absurd this (fun h => noBlankHead_blank hc h)

/-- The kind of the token at the start of a gap. -/
def gapKind (c : Char) : SyntaxKind := if isBlank c then .TK_WHITESPACE else .TK_LINE_BREAK

theorem gap_tokens {errLen : Text → Nat} {r : Text} (hr : Solid r) : ∀ (n : Nat) (l : List Text),
    l.length ≤ n → (∀ x ∈ l, x = [' '] ∨ x = ['\t'] ∨ x = ['\n'] ∨ x = ['\r', '\n']) →
    ∃ gt : List (SyntaxKind × Text), (l ≠ [] → gt ≠ []) ∧
      (∀ p ∈ gt, p.1.isTrivia = true ∧ p.2.all blankChar = true) ∧
      (l ≠ [] → gt.head?.map (·.1) = l.flatten.head?.map gapKind) ∧
      ∀ ts, Tokenizes errLen r ts → Tokenizes errLen (l.flatten ++ r) (gt ++ ts) := by
  intro n
  induction n with
  | zero =>
    intro l hn _
    have : l = [] := List.length_eq_zero_iff.1 (by omega)
    subst this
    exact ⟨[], by simp, by simp, by simp, fun ts h => h⟩
  | succ n ih =>
    intro l hn hl
    have solid : ∀ x z, r = x ++ z → ¬ (x = [' '] ∨ x = ['\t'] ∨ x = ['\n'] ∨ x = ['\r', '\n']) := by
      intro x z e hx
      have := hr x z e ⟨[x], by simp, by simpa using hx⟩
      rcases hx with rfl | rfl | rfl | rfl <;> cases this
    cases l with
    | nil => exact ⟨[], by simp, by simp, by simp, fun ts h => h⟩
    | cons x l =>
      by_cases hx : isWsItem x = true
      · -- whitespace
        have hsplit : x :: l = (x :: l).takeWhile isWsItem ++ (x :: l).dropWhile isWsItem :=
          List.takeWhile_append_dropWhile.symm
        have hdl : ((x :: l).dropWhile isWsItem).length ≤ n := by
          rw [List.dropWhile_cons_of_pos hx]
          have := (List.dropWhile_suffix isWsItem (l := l)).length_le
          simp at hn
          omega
        have hall : ∀ y ∈ (x :: l).takeWhile isWsItem, isWsItem y = true :=
          List.all_eq_true.1 List.all_takeWhile
        have hd0 : ∀ y ∈ ((x :: l).dropWhile isWsItem).head?, isWsItem y = false := by
          intro y hy
          have := List.head?_dropWhile_not isWsItem (x :: l)
          rw [Option.mem_def] at hy
          rw [hy] at this
          exact this
        have hdm : ∀ y ∈ (x :: l).dropWhile isWsItem, y ∈ x :: l :=
          fun y hy => (List.dropWhile_suffix isWsItem).mem hy
        obtain ⟨gt, _, h2, _, h4⟩ := ih _ hdl (fun y hy => hl y (hdm y hy))
        generalize (x :: l).dropWhile isWsItem = d at *
        generalize hT : (x :: l).takeWhile isWsItem = tw at *
        have htw : tw = x :: l.takeWhile isWsItem := by
          rw [← hT, List.takeWhile_cons_of_pos hx]
        have hblank : ∀ c ∈ tw.flatten, isBlank c = true := by
          intro c hc
          obtain ⟨y, hy, hcy⟩ := List.mem_flatten.1 hc
          have := hall y hy
          simp only [isWsItem, Bool.or_eq_true, beq_iff_eq] at this
          rcases this with rfl | rfl <;> (simp at hcy; subst hcy; rfl)
        have hne : tw.flatten ≠ [] := by
          rw [htw]
          simp only [isWsItem, Bool.or_eq_true, beq_iff_eq] at hx
          rcases hx with rfl | rfl <;> simp
        have hv : ∀ c ∈ (d.flatten ++ r).head?, isBlank c = false := by
          intro c hc
          cases d with
          | nil =>
            cases r with
            | nil => cases hc
            | cons e r =>
              simp only [List.flatten_nil, List.nil_append, List.head?_cons, Option.mem_def,
                Option.some.injEq] at hc
              subst hc
              cases hb : isBlank e with
              | false => rfl
              | true =>
                exfalso
                refine solid [e] r rfl ?_
                simp [isBlank] at hb
                rcases hb with rfl | rfl <;> simp
          | cons y d =>
            have h1 := hd0 y (by simp)
            have h2 := hl y (by rw [hsplit]; simp)
            rcases h2 with rfl | rfl | rfl | rfl
            · cases h1
            · cases h1
            · cases hc; rfl
            · cases hc; rfl
        refine ⟨(.TK_WHITESPACE, tw.flatten) :: gt, by simp, ?_, ?_, ?_⟩
        · intro p hp
          rcases List.mem_cons.1 hp with rfl | hp
          · exact ⟨rfl, List.all_eq_true.2 (fun c hc => blank_blankChar (hblank c hc))⟩
          · exact h2 p hp
        · intro _
          rw [hsplit, List.flatten_append]
          cases hf : tw.flatten with
          | nil => exact absurd hf hne
          | cons c f =>
            have := hblank c (by simp [hf])
            simp [gapKind, this]
        · intro ts hts
          rw [hsplit, List.flatten_append, List.append_assoc]
          exact .rule (longest_whitespace hne hblank hv) (fun h => by cases h.1) (fun h => by cases h.1)
            (h4 ts hts)
      · -- line breaks
        have hx' : (fun y => !isWsItem y) x = true := by simpa using hx
        have hsplit : x :: l = (x :: l).takeWhile (fun y => !isWsItem y) ++
            (x :: l).dropWhile (fun y => !isWsItem y) := List.takeWhile_append_dropWhile.symm
        have hdl : ((x :: l).dropWhile (fun y => !isWsItem y)).length ≤ n := by
          rw [List.dropWhile_cons_of_pos (p := fun y => !isWsItem y) hx']
          have := (List.dropWhile_suffix (fun y => !isWsItem y) (l := l)).length_le
          simp at hn
          omega
        have hall : ∀ y ∈ (x :: l).takeWhile (fun y => !isWsItem y), (!isWsItem y) = true :=
          List.all_eq_true.1 List.all_takeWhile
        have hd0 : ∀ y ∈ ((x :: l).dropWhile (fun y => !isWsItem y)).head?, isWsItem y = true := by
          intro y hy
          have := List.head?_dropWhile_not (fun y => !isWsItem y) (x :: l)
          rw [Option.mem_def] at hy
          rw [hy] at this
          simpa using this
        have hdm : ∀ y ∈ (x :: l).dropWhile (fun y => !isWsItem y), y ∈ x :: l :=
          fun y hy => (List.dropWhile_suffix _).mem hy
        obtain ⟨gt, _, h2, _, h4⟩ := ih _ hdl (fun y hy => hl y (hdm y hy))
        generalize (x :: l).dropWhile (fun y => !isWsItem y) = d at *
        generalize hT : (x :: l).takeWhile (fun y => !isWsItem y) = tw at *
        have htw : tw = x :: l.takeWhile (fun y => !isWsItem y) := by
          rw [← hT, List.takeWhile_cons_of_pos (p := fun y => !isWsItem y) hx']
        have hitems : ∀ y ∈ tw, y = ['\n'] ∨ y = ['\r', '\n'] := by
          intro y hy
          have h1 := hall y hy
          rcases hl y (by rw [hsplit]; simp [hy]) with rfl | rfl | h | h
          · cases h1
          · cases h1
          · exact .inl h
          · exact .inr h
        have hv : ∀ y z, d.flatten ++ r = y ++ z → ¬ (y = ['\n'] ∨ y = ['\r', '\n']) := by
          intro y z he hy
          cases d with
          | nil =>
            exact solid y z he (.inr (.inr hy))
          | cons w d =>
            have h1 := hd0 w (by simp)
            simp only [isWsItem, Bool.or_eq_true, beq_iff_eq] at h1
            rcases h1 with rfl | rfl <;> rcases hy with rfl | rfl <;> simp at he
        refine ⟨(.TK_LINE_BREAK, tw.flatten) :: gt, by simp, ?_, ?_, ?_⟩
        · intro p hp
          rcases List.mem_cons.1 hp with rfl | hp
          · exact ⟨rfl, List.all_eq_true.2 (lineBreaks_chars ⟨tw, rfl, hitems⟩)⟩
          · exact h2 p hp
        · intro _
          rw [hsplit, List.flatten_append, htw]
          rcases hitems x (by rw [htw]; simp) with rfl | rfl <;> simp [gapKind, isBlank]
        · intro ts hts
          rw [hsplit, List.flatten_append, List.append_assoc]
          exact .rule (longest_lineBreak (by rw [htw]; simp) hitems hv) (fun h => by cases h.1)
            (fun h => by cases h.1) (h4 ts hts)

/-! ## Both texts side by side -/

/-- A token of which the place does not matter. -/
def tokAt (p : SyntaxKind × Text) : Token := ⟨p.1, p.2, ⟨0, 0⟩⟩

theorem Relayout.prepend {g g' ts ts' : List Token} (h1 : Gap g) (h2 : Gap g')
    (h : Relayout ts ts') : Relayout (g ++ ts) (g' ++ ts') := by
  have app : ∀ {a b : List Token}, Gap a → Gap b → Gap (a ++ b) := by
    intro a b ha hb
    refine ⟨fun h => ha.1 (List.append_eq_nil_iff.1 h).1, fun t ht => ?_⟩
    rcases List.mem_append.1 ht with ht | ht
    · exact ha.2 t ht
    · exact hb.2 t ht
  cases h with
  | nil => exact .gap h1 h2 (by simp) (by simp) .nil
  | @token t t' ts ts' k1 k2 k3 k4 =>
    have k1' : t'.kind.isTrivia = false := k2.1 ▸ k1
    exact .gap h1 h2 (by simpa using k1) (by simpa using k1') (.token k1 k2 k3 k4)
  | gap k1 k2 k3 k4 k5 =>
    rw [← List.append_assoc, ← List.append_assoc]
    exact .gap (app h1 k1) (app h2 k2) k3 k4 k5

/-- What both tokenizations have to do with each other. -/
def SideBySide (ts ts' : List (SyntaxKind × Text)) : Prop :=
  Relayout (ts.map tokAt) (ts'.map tokAt) ∧ ts.head?.map (·.1) = ts'.head?.map (·.1)

theorem trivia_text {errLen : Text → Nat} {s p : Text} {k : SyntaxKind} {ts : List (SyntaxKind × Text)}
    (h : Tokenizes errLen s ((k, p) :: ts)) (hk : k.isTrivia = true) : p.all blankChar = true := by
  obtain ⟨h1, h2⟩ := trivia_rule h
  have : k = .TK_WHITESPACE ∨ k = .TK_LINE_BREAK := by
    cases k <;> simp_all [SyntaxKind.isTrivia]
  rcases this with rfl | rfl
  · exact List.all_eq_true.2 (fun c hc => blank_blankChar ((whitespace_chars (h1 rfl).1).2 c hc))
  · exact List.all_eq_true.2 (lineBreaks_chars (lineBreak_items (h2 rfl).1).1)

theorem SideBySide.cons {k : SyntaxKind} {p : Text} {ts ts' : List (SyntaxKind × Text)}
    (hp : k.isTrivia = true → p.all blankChar = true) (h : SideBySide ts ts') :
    SideBySide ((k, p) :: ts) ((k, p) :: ts') := by
  refine ⟨?_, rfl⟩
  cases hk : k.isTrivia with
  | true =>
    have hg : Gap [tokAt (k, p)] := ⟨by simp, by simpa [tokAt, hk] using hp hk⟩
    exact h.1.prepend hg hg
  | false =>
    refine .token hk ⟨rfl, rfl⟩ (fun _ => ?_) h.1
    have := h.2
    cases ts <;> cases ts' <;> simp_all [tokAt]

theorem sideBySide_refl {errLen : Text → Nat} : ∀ {ts : List (SyntaxKind × Text)} {s : Text},
    Tokenizes errLen s ts → SideBySide ts ts := by
  intro ts
  induction ts with
  | nil => intro s _; exact ⟨.nil, rfl⟩
  | cons x ts ih =>
    intro s h
    obtain ⟨k, p⟩ := x
    rcases tokenizes_step h with ⟨_, h0⟩ | ⟨pre, post, k', ts2, _, _, hts, ht2, _⟩
    · cases h0
    · cases hts
      exact .cons (trivia_text h) (ih ht2)

/-- A line and the gap behind it. -/
theorem gap_tokenizes {errLen : Text → Nat} (he : ErrLenOk errLen) {u g g' s s' : Text}
    (hnl : '\n' ∉ u) (hlast : Stops u g) (hlast' : Stops u g') (hg : Blanks g) (hg' : Blanks g')
    (lf : '\n' ∈ g) (lf' : '\n' ∈ g') (hk : g.head?.map gapKind = g'.head?.map gapKind)
    (hread : ReadAlike errLen u g g') (hs : Solid s) (hs' : Solid s')
    (ih : ∃ ts ts', Tokenizes errLen s ts ∧ Tokenizes errLen s' ts' ∧ SideBySide ts ts') :
    ∃ ts ts', Tokenizes errLen (u ++ (g ++ s)) ts ∧ Tokenizes errLen (u ++ (g' ++ s')) ts' ∧
      SideBySide ts ts' := by
  obtain ⟨rs, rs', hrs, hrs', hside⟩ := ih
  -- the gap
  have hgap : ∃ ts ts', Tokenizes errLen (g ++ s) ts ∧ Tokenizes errLen (g' ++ s') ts' ∧
      SideBySide ts ts' := by
    obtain ⟨l, rfl, hl1⟩ := hg
    obtain ⟨l', rfl, hl1'⟩ := hg'
    have ne : ∀ {l : List Text}, '\n' ∈ l.flatten → l ≠ [] := by
      rintro l h rfl; cases h
    obtain ⟨gt, a1, a2, a3, a4⟩ := gap_tokens (errLen := errLen) hs l.length l (Nat.le_refl _) hl1
    obtain ⟨gt', b1, b2, b3, b4⟩ := gap_tokens (errLen := errLen) hs' l'.length l' (Nat.le_refl _) hl1'
    refine ⟨_, _, a4 rs hrs, b4 rs' hrs', ?_, ?_⟩
    · rw [List.map_append, List.map_append]
      have gap : ∀ {q : List (SyntaxKind × Text)}, q ≠ [] →
          (∀ p ∈ q, p.1.isTrivia = true ∧ p.2.all blankChar = true) → Gap (q.map tokAt) := by
        intro q hq h
        refine ⟨by simpa using hq, fun t ht => ?_⟩
        obtain ⟨p, hp, rfl⟩ := List.mem_map.1 ht
        exact h p hp
      exact hside.1.prepend (gap (a1 (ne lf)) a2) (gap (b1 (ne lf')) b2)
    · have e1 := a3 (ne lf)
      have e2 := b3 (ne lf')
      have n1 := a1 (ne lf)
      have n2 := b1 (ne lf')
      cases gt with
      | nil => exact absurd rfl n1
      | cons x gt =>
        cases gt' with
        | nil => exact absurd rfl n2
        | cons y gt' =>
          rw [hk] at e1
          simpa using e1.trans e2.symm
  -- the line
  have key : ∀ n (u : Text), u.length ≤ n → '\n' ∉ u → Stops u g → Stops u g' →
      ReadAlike errLen u g g' → ∃ ts ts', Tokenizes errLen (u ++ (g ++ s)) ts ∧ Tokenizes errLen (u ++ (g' ++ s')) ts' ∧
        SideBySide ts ts' := by
    intro n
    induction n with
    | zero =>
      intro u hn _ _ _ _
      have : u = [] := List.length_eq_zero_iff.1 (by omega)
      subst this
      exact hgap
    | succ n ih =>
      intro u hn hnl hlast hlast' hread
      by_cases hu : u = []
      · subst hu; exact hgap
      · have ht := C49_lex_tokenizes he (u ++ (g ++ s))
        obtain ⟨pre, u2, k, ts2, rfl, hne, hts, ht2, hback⟩ :=
          step_transfer hu ⟨hlast, hnl, hg, lf⟩ ⟨hlast', hnl, hg', lf'⟩ hread ht
        have hp := List.length_pos_iff.2 hne
        simp only [List.length_append] at hn
        obtain ⟨us, us', h1, h2, h3⟩ := ih u2 (by omega) (fun h => hnl (by simp [h]))
          (suffix_stops hlast) (suffix_stops hlast') hread.suffix
        have := C49_tokenizes_unique h1 ht2
        subst this
        rw [hts] at ht
        exact ⟨_, _, ht, hback us' h2, h3.cons (trivia_text ht)⟩
  exact key u.length u (Nat.le_refl _) hnl hlast hlast' hread

theorem relaid_tokenizes {errLen : Text → Nat} (he : ErrLenOk errLen) (hl : ErrLineLocal errLen)
    {s s' : Text} (h : Relaid s s') : ∃ ts ts', Tokenizes errLen s ts ∧ Tokenizes errLen s' ts' ∧
      SideBySide ts ts' := by
  induction h with
  | @line u _ =>
    exact ⟨_, _, C49_lex_tokenizes he u, C49_lex_tokenizes he u, sideBySide_refl (C49_lex_tokenizes he u)⟩
  | @gap u g g' s s' hnl hlast hg hg' lf lf' hh hs hs' _ ih =>
    exact gap_tokenizes he hnl hlast (fun c hc => hh ▸ hlast c hc) hg hg' lf lf' (by rw [hh])
      (readAlike_of_head hl hlast hnl hg lf lf' hh) hs hs' ih

/-! ## The tokens of the lexer -/

theorem relayout_of_map {us us' ts ts' : List Token} (h : Relayout us us')
    (h1 : us.map (fun t => (t.kind, t.text)) = ts.map (fun t => (t.kind, t.text)))
    (h2 : us'.map (fun t => (t.kind, t.text)) = ts'.map (fun t => (t.kind, t.text))) :
    Relayout ts ts' := by
  have hkind : ∀ {a b : List Token}, a.map (fun t => (t.kind, t.text)) = b.map (fun t => (t.kind, t.text)) →
      a.head?.map (·.kind) = b.head?.map (·.kind) := by
    intro a b h
    cases a <;> cases b <;> simp_all
  induction h generalizing ts ts' with
  | nil =>
    simp at h1 h2
    subst h1 h2
    exact .nil
  | @token t t' us us' k1 k2 k3 k4 ih =>
    cases ts with
    | nil => cases h1
    | cons v ts =>
      cases ts' with
      | nil => cases h2
      | cons v' ts' =>
        simp only [List.map_cons, List.cons.injEq, Prod.mk.injEq] at h1 h2
        refine .token (h1.1.1 ▸ k1) ⟨?_, ?_⟩ (fun hk => ?_) (ih h1.2 h2.2)
        · rw [← h1.1.1, ← h2.1.1]; exact k2.1
        · rw [← h1.1.2, ← h2.1.2]; exact k2.2
        · rw [← hkind h1.2, ← hkind h2.2]
          exact k3 (h1.1.1.trans hk)
  | @gap g g' us us' k1 k2 k3 k4 k5 ih =>
    have gap : ∀ {g a : List Token}, Gap g → a.map (fun t => (t.kind, t.text)) =
        g.map (fun t => (t.kind, t.text)) → Gap a := by
      intro g a hg h
      refine ⟨fun h0 => hg.1 (by subst h0; simpa using h.symm), fun t ht => ?_⟩
      have : (t.kind, t.text) ∈ g.map (fun t => (t.kind, t.text)) := h ▸ List.mem_map.2 ⟨t, ht, rfl⟩
      obtain ⟨u, hu, e⟩ := List.mem_map.1 this
      simp only [Prod.mk.injEq] at e
      have := hg.2 u hu
      rwa [e.1, e.2] at this
    have head : ∀ {a b : List Token}, a.map (fun t => (t.kind, t.text)) = b.map (fun t => (t.kind, t.text)) →
        (∀ t ∈ a.head?, t.kind.isTrivia = false) → ∀ t ∈ b.head?, t.kind.isTrivia = false := by
      intro a b h ha
      cases a <;> cases b <;> simp_all
    rw [List.map_append] at h1 h2
    obtain ⟨a, b, rfl, e1, e2⟩ := List.map_eq_append_iff.1 h1.symm
    obtain ⟨a', b', rfl, e1', e2'⟩ := List.map_eq_append_iff.1 h2.symm
    exact .gap (gap k1 e1) (gap k2 e1') (head e2.symm k3) (head e2'.symm k4) (ih e2.symm e2'.symm)

/-- The tokens of a text in another layout are the same up to layout. -/
theorem relaid_lex {errLen : Text → Nat} (he : ErrLenOk errLen) (hl : ErrLineLocal errLen)
    {s s' : Text} (h : Relaid s s') : Relayout (lex errLen s) (lex errLen s') := by
  obtain ⟨ts, ts', h1, h2, h3, _⟩ := relaid_tokenizes he hl h
  have e1 := C49_tokenizes_unique h1 (C49_lex_tokenizes he s)
  have e2 := C49_tokenizes_unique h2 (C49_lex_tokenizes he s')
  subst e1 e2
  refine relayout_of_map h3 ?_ ?_ <;> simp [tokAt, List.map_map, Function.comp_def]

/-- The tokens of whitespace in front of a text. -/
theorem lex_leading {errLen : Text → Nat} (he : ErrLenOk errLen) {g t : Text} (hg : Blanks g)
    (ht : Solid t) : ∃ gt ts, lex errLen (g ++ t) = gt ++ ts ∧ (∀ x ∈ gt, x.kind.isTrivia = true) ∧
      ts.map (fun t => (t.kind, t.text)) = (lex errLen t).map (fun t => (t.kind, t.text)) := by
  obtain ⟨l, rfl, hl⟩ := hg
  obtain ⟨gt, _, h2, _, h4⟩ := gap_tokens (errLen := errLen) ht l.length l (Nat.le_refl _) hl
  have h := h4 _ (C49_lex_tokenizes he t)
  have e := C49_tokenizes_unique h (C49_lex_tokenizes he _)
  obtain ⟨a, b, hab, ha, hb⟩ := List.map_eq_append_iff.1 e.symm
  refine ⟨a, b, hab, fun x hx => ?_, hb⟩
  have : (x.kind, x.text) ∈ gt := ha ▸ List.mem_map.2 ⟨x, hx, rfl⟩
  exact (h2 _ this).1

/-- A text without whitespace at its start has no such token at its start. -/
theorem solid_head {errLen : Text → Nat} (he : ErrLenOk errLen) {t : Text} (ht : Solid t) :
    ∀ x ∈ (lex errLen t).head?, x.kind.isTrivia = false := by
  intro x hx
  cases hk : x.kind.isTrivia with
  | false => rfl
  | true =>
    exfalso
    obtain ⟨r, hr⟩ := List.head?_eq_some_iff.1 hx
    have h := C49_lex_tokenizes he t
    rw [hr, List.map_cons] at h
    obtain ⟨h1, h2⟩ := trivia_rule h
    have : x.kind = .TK_WHITESPACE ∨ x.kind = .TK_LINE_BREAK := by
      revert hk
      cases x.kind <;> simp [SyntaxKind.isTrivia]
    rcases this with hk | hk
    · obtain ⟨hm, hlm⟩ := h1 hk
      obtain ⟨q, hq⟩ := hlm.isPrefix
      obtain ⟨n1, n2⟩ := whitespace_chars hm
      refine n1 (ht _ q hq.symm ⟨x.text.map (fun c => [c]), by simp [← List.flatMap_def], ?_⟩)
      intro y hy
      obtain ⟨c, hc, rfl⟩ := List.mem_map.1 hy
      have := n2 c hc
      simp [isBlank] at this
      rcases this with rfl | rfl <;> simp
    · obtain ⟨hm, hlm⟩ := h2 hk
      obtain ⟨q, hq⟩ := hlm.isPrefix
      obtain ⟨⟨l, n1, n2⟩, n3⟩ := lineBreak_items hm
      exact n3 (ht _ q hq.symm ⟨l, n1, fun y hy => .inr (.inr (n2 y hy))⟩)

theorem SameParse.symm {x y : Except ParsePanic Parse} (h : SameParse x y) : SameParse y x := by
  cases x <;> cases y <;> simp_all [SameParse]

theorem SameParse.trans {x y z : Except ParsePanic Parse} (h : SameParse x y) (h' : SameParse y z) :
    SameParse x z := by
  cases x <;> cases y <;> cases z <;> simp_all [SameParse]

/-- **C68.** If the whitespace around line breaks is replaced by other whitespace with line breaks that
starts with the same character, and the whitespace at the beginning of the file by any other, parsing
the file gives the same outcome up to whitespace, line breaks and places. -/
theorem C68_relaid {errLen : Text → Nat} (he : ErrLenOk errLen) (hl : ErrLineLocal errLen)
    {s s' : Text} (h : Reindented s s') : SameParse (parse errLen s) (parse errLen s') := by
  obtain ⟨g, g', t, t', rfl, rfl, hg, hg', ht, ht', hr⟩ := h
  have refl : Relayout (lex errLen t) (lex errLen t) := by
    have := (sideBySide_refl (C49_lex_tokenizes he t)).1
    exact relayout_of_map this (by simp [tokAt, Function.comp_def]) (by simp [tokAt, Function.comp_def])
  obtain ⟨gt, ts, e1, e2, e3⟩ := lex_leading (errLen := errLen) he hg ht
  obtain ⟨gt', ts', e1', e2', e3'⟩ := lex_leading (errLen := errLen) he hg' ht'
  have k1 := C67_leading (relayout_of_map refl rfl e3.symm) e2 (solid_head he ht)
  have k2 := C67_leading (relayout_of_map (relaid_lex he hl hr) rfl e3'.symm) e2' (solid_head he ht)
  unfold parse
  rw [e1, e1']
  exact k1.symm.trans k2

end Ludtwig.Layout
