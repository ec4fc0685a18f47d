import Verif.Layout.LineBreakSpec
import Verif.Layout.Edits
import Verif.Layout.TextSamples

/-!
# Other line breaks: property C84 for texts

A text in which CRLF has become LF is parsed with the same outcome, if it is `Convertible`.
-/

namespace Ludtwig.Layout

open Lexer

theorem readAlike_of_break {errLen : Text → Nat} (hl : ErrLineLocal errLen) (hb : ErrBreakLocal errLen)
    {u g g' : Text} (hs : Stops u ('\n' :: g')) (hnl : '\n' ∉ u) (hw : ¬ EndsTwoWords u) :
    ReadAlike errLen u ('\r' :: '\n' :: g) ('\n' :: g') := by
  refine ⟨.inr hw, fun v r r' hne ⟨a, ha⟩ => ?_⟩
  subst ha
  have hv : '\n' ∉ v := fun h => hnl (by simp [h])
  have hst : Stops v ('\n' :: g') := fun x hx => suffix_stops hs x hx
  refine ⟨?_, hb v (g ++ r) (g' ++ r') hne hv ?_⟩
  · refine (hl v '\r' ('\n' :: g ++ r) hne hv (fun x hx => ?_) (by decide)).1
    exact ⟨(hst x hx).1, (hst x hx).2.1, fun _ => by decide⟩
  · exact fun x hx => hst x hx

/-- Behind a CR in a text of blanks there is an LF. -/
theorem blanks_cr {g : Text} (h : Blanks g) {p q : Text} (hg : g = p ++ '\r' :: q) :
    q.head? = some '\n' := by
  obtain ⟨l, rfl, hl⟩ := h
  induction l generalizing p with
  | nil => simp at hg
  | cons x l ih =>
    have hl' := fun y hy => hl y (List.mem_cons_of_mem _ hy)
    rw [List.flatten_cons] at hg
    have one : ∀ c : Char, c ≠ '\r' → c :: l.flatten = p ++ '\r' :: q → q.head? = some '\n' := by
      intro c hc he
      cases p with
      | nil => simp at he; exact absurd he.1 hc
      | cons d p => simp at he; exact ih hl' he.2
    rcases hl x List.mem_cons_self with rfl | rfl | rfl | rfl
    · exact one _ (by decide) hg
    · exact one _ (by decide) hg
    · exact one _ (by decide) hg
    · rcases p with _ | ⟨d, _ | ⟨d', p⟩⟩
      · simp at hg; simp [← hg]
      · simp at hg
      · simp at hg; exact ih hl' hg.2.2

theorem head_cr {g : Text} (h : Blanks g) (hh : g.head? = some '\r') : ∃ r, g = '\r' :: '\n' :: r := by
  obtain ⟨q, rfl⟩ := List.head?_eq_some_iff.1 hh
  obtain ⟨r, rfl⟩ := List.head?_eq_some_iff.1 (blanks_cr (p := []) h rfl)
  exact ⟨r, rfl⟩

theorem relined_tokenizes {errLen : Text → Nat} (he : ErrLenOk errLen) (hl : ErrLineLocal errLen)
    (hb : ErrBreakLocal errLen) {s s' : Text} (h : Relined s s') :
    ∃ ts ts', Tokenizes errLen s ts ∧ Tokenizes errLen s' ts' ∧ SideBySide ts ts' := by
  induction h with
  | @line u _ =>
    exact ⟨_, _, C49_lex_tokenizes he u, C49_lex_tokenizes he u, sideBySide_refl (C49_lex_tokenizes he u)⟩
  | @gap u g g' s s' hnl hlast hlast' hg hg' lf lf' hh hs hs' _ ih =>
    rcases hh with hh | ⟨h1, h2, hw⟩
    · exact gap_tokenizes he hnl hlast hlast' hg hg' lf lf' (by rw [hh])
        (readAlike_of_head hl hlast hnl hg lf lf' hh) hs hs' ih
    · refine gap_tokenizes he hnl hlast hlast' hg hg' lf lf' (by rw [h1, h2]; rfl) ?_ hs hs' ih
      obtain ⟨r, rfl⟩ := head_cr hg h1
      obtain ⟨r', rfl⟩ := List.head?_eq_some_iff.1 h2
      exact readAlike_of_break hl hb hlast' hnl hw

/-- The tokens of a text with other line breaks are the same up to layout. -/
theorem relined_lex {errLen : Text → Nat} (he : ErrLenOk errLen) (hl : ErrLineLocal errLen)
    (hb : ErrBreakLocal errLen) {s s' : Text} (h : Relined s s') :
    Relayout (lex errLen s) (lex errLen s') := by
  obtain ⟨ts, ts', h1, h2, h3, _⟩ := relined_tokenizes he hl hb h
  have e1 := C49_tokenizes_unique h1 (C49_lex_tokenizes he s)
  have e2 := C49_tokenizes_unique h2 (C49_lex_tokenizes he s')
  subst e1 e2
  refine relayout_of_map h3 ?_ ?_ <;> simp [tokAt, List.map_map, Function.comp_def]

/-- **C84** for texts: if the whitespace around line breaks is replaced by other whitespace with line
breaks that starts with the same character, or with LF instead of CRLF where no operator of two words
ends, parsing the file gives the same outcome up to whitespace, line breaks and places. -/
theorem C84_relined {errLen : Text → Nat} (he : ErrLenOk errLen) (hl : ErrLineLocal errLen)
    (hb : ErrBreakLocal errLen) {s s' : Text} (h : Reset s s') :
    SameParse (parse errLen s) (parse errLen s') := by
  obtain ⟨g, g', t, t', rfl, rfl, hg, hg', ht, ht', hr⟩ := h
  have refl : Relayout (lex errLen t) (lex errLen t) := by
    have := (sideBySide_refl (C49_lex_tokenizes he t)).1
    exact relayout_of_map this (by simp [tokAt, Function.comp_def]) (by simp [tokAt, Function.comp_def])
  obtain ⟨gt, ts, e1, e2, e3⟩ := lex_leading (errLen := errLen) he hg ht
  obtain ⟨gt', ts', e1', e2', e3'⟩ := lex_leading (errLen := errLen) he hg' ht'
  have k1 := C67_leading (relayout_of_map refl rfl e3.symm) e2 (solid_head he ht)
  have k2 := C67_leading (relayout_of_map (relined_lex he hl hb hr) rfl e3'.symm) e2' (solid_head he ht)
  unfold parse
  rw [e1, e1']
  exact k1.symm.trans k2

/-! ### Convertible files stay convertible -/

theorem Convertible.suffix {a s : Text} (h : Convertible (a ++ s)) : Convertible s := by
  intro u r e
  obtain ⟨h1, h2⟩ := h (a ++ u) r (by rw [e, List.append_assoc])
  refine ⟨fun he => h1 ?_, fun hc => h2 ?_⟩
  · exact he.imp (·.trans (List.suffix_append _ _)) (·.trans (List.suffix_append _ _))
  · rw [List.getLast?_append, hc]; rfl

/-- The words are not blank. -/
theorem words_chars {w : Text} (hw : w = "not in".toList ∨ w = "is not".toList) :
    (∀ c ∈ w.head?, blankChar c = false) ∧ (∀ c ∈ w.getLast?, blankChar c = false) ∧ w ≠ [] ∧
      '\n' ∉ w := by
  rcases hw with rfl | rfl <;> decide

theorem endsTwoWords_iff {u : Text} : EndsTwoWords u ↔
    ∃ w, (w = "not in".toList ∨ w = "is not".toList) ∧ w <:+ u := by
  constructor
  · rintro (h | h)
    · exact ⟨_, .inl rfl, h⟩
    · exact ⟨_, .inr rfl, h⟩
  · rintro ⟨w, rfl | rfl, h⟩
    · exact .inl h
    · exact .inr h

/-- A text that ends with a blank does not end with words. -/
theorem not_words_of_blank {u : Text} {c : Char} (h : u.getLast? = some c) (hc : blankChar c = true) :
    ¬ EndsTwoWords u := by
  rw [endsTwoWords_iff]
  rintro ⟨w, hw, p, rfl⟩
  obtain ⟨_, h2, h3, _⟩ := words_chars hw
  rw [List.getLast?_append, List.getLast?_eq_some_getLast h3] at h
  have := h2 (w.getLast h3) (List.getLast?_eq_some_getLast h3)
  simp at h
  rw [h, hc] at this
  cases this

theorem last_of_prefix {y z g : Text} (hg : Blanks g) (h : g = y ++ z) (hy : y ≠ [])
    (hz : z.head? ≠ some '\n') :
    ∃ c, y.getLast? = some c ∧ blankChar c = true ∧ c ≠ '\r' := by
  refine ⟨y.getLast hy, List.getLast?_eq_some_getLast hy, blanks_chars hg _ (by rw [h]; simp), ?_⟩
  intro hc
  have : y = y.dropLast ++ ['\r'] := by rw [← hc]; exact (List.dropLast_concat_getLast hy).symm
  exact hz (blanks_cr (p := y.dropLast) hg (by rw [h]; conv => lhs; rw [this]
                                               simp))

theorem convertible_blanks {g t : Text} (hg : Blanks g) (ht : Convertible t) : Convertible (g ++ t) := by
  intro u r e
  rcases List.append_eq_append_iff.1 e with ⟨y, rfl, e2⟩ | ⟨z, e1, e2⟩
  · -- the CRLF is in the rest
    obtain ⟨h1, h2⟩ := ht y r e2
    by_cases hy : y = []
    · subst hy
      rw [List.append_nil]
      by_cases hn : g = []
      · subst hn; exact ⟨h1, by simp⟩
      · obtain ⟨c, k1, k2, k3⟩ := last_of_prefix (z := []) hg (by simp) hn (by simp)
        exact ⟨not_words_of_blank k1 k2, by rw [k1]; simpa using k3⟩
    · refine ⟨?_, ?_⟩
      · rw [endsTwoWords_iff]
        rintro ⟨w, hw, p, hp⟩
        rcases List.append_eq_append_iff.1 hp with ⟨c, e3, e4⟩ | ⟨c, e3, e4⟩
        · obtain ⟨n1, n2, n3, n4⟩ := words_chars hw
          cases c with
          | nil =>
            exact h1 (endsTwoWords_iff.2 ⟨w, hw, by rw [e4]; exact List.suffix_refl _⟩)
          | cons d c =>
            have := n1 d (by rw [e4]; rfl)
            rw [blanks_chars hg d (by rw [e3]; simp)] at this
            cases this
        · exact h1 (endsTwoWords_iff.2 ⟨w, hw, c, e4.symm⟩)
      · rw [List.getLast?_append, List.getLast?_eq_some_getLast hy]
        rw [List.getLast?_eq_some_getLast hy] at h2
        simpa using h2
  · -- the CRLF starts in the whitespace
    by_cases hu : u = []
    · subst hu
      exact ⟨by unfold EndsTwoWords; decide, by simp⟩
    · obtain ⟨c, k1, k2, k3⟩ := last_of_prefix hg e1 hu (by
        intro h
        cases z with
        | nil => cases h
        | cons d z => simp at e2 h; rw [← e2.1] at h; revert h; decide)
      exact ⟨not_words_of_blank k1 k2, by rw [k1]; simpa using k3⟩

theorem relined_convertible {s s' : Text} (h : Relined s s') (hs : Convertible s) : Convertible s' := by
  induction h with
  | line _ => exact hs
  | @gap u g g' s s' hnl hlast hlast' hg hg' lf lf' hh _ _ _ ih =>
    have hc : Convertible (g' ++ s') := convertible_blanks hg' (ih hs.suffix.suffix)
    have hbase : ∀ r, g' ++ s' = '\r' :: '\n' :: r → ¬ EndsTwoWords u ∧ u.getLast? ≠ some '\r' := by
      intro r e2
      have hh' : g'.head? = some '\r' := by
        cases g' with
        | nil => cases lf'
        | cons d g' => simp at e2; simp [e2.1]
      rcases hh with hh | ⟨_, hh, _⟩
      · obtain ⟨q, rfl⟩ := head_cr hg (hh.trans hh')
        exact hs u (q ++ s) (by simp)
      · rw [hh] at hh'; cases hh'
    intro a r e
    rcases List.append_eq_append_iff.1 e with ⟨y, rfl, e2⟩ | ⟨x, e1, e2⟩
    · by_cases hy : y = []
      · subst hy
        rw [List.append_nil]
        exact hbase r e2
      · obtain ⟨h1, h2⟩ := hc y r e2
        refine ⟨?_, ?_⟩
        · rw [endsTwoWords_iff]
          rintro ⟨w, hw, p, hp⟩
          obtain ⟨n1, n2, n3, n4⟩ := words_chars hw
          rcases List.append_eq_append_iff.1 hp with ⟨c, e3, e4⟩ | ⟨c, e3, e4⟩
          · have hlf : '\n' ∉ y := fun hm => n4 (by rw [e4]; simp [hm])
            rcases List.append_eq_append_iff.1 e2 with ⟨z, rfl, _⟩ | ⟨z, e5, _⟩
            · exact hlf (by simp [lf'])
            · have hl := List.getLast?_eq_some_getLast hy
              have := n2 (y.getLast hy) (by rw [e4, List.getLast?_append, hl]; rfl)
              rw [blanks_chars hg' _ (by rw [e5]; simp)] at this
              cases this
          · exact h1 (endsTwoWords_iff.2 ⟨w, hw, c, e4.symm⟩)
        · rw [List.getLast?_append, List.getLast?_eq_some_getLast hy]
          rw [List.getLast?_eq_some_getLast hy] at h2
          simpa using h2
    · rcases x with _ | ⟨c1, _ | ⟨c2, x⟩⟩
      · rw [List.append_nil] at e1
        subst e1
        exact hbase r e2.symm
      · exfalso
        simp at e2
        obtain ⟨rfl, e2⟩ := e2
        have h3 := hlast' '\r' (by rw [e1]; simp)
        refine h3.2.2 rfl ?_
        cases g' with
        | nil => cases lf'
        | cons d g' => simp at e2; simp [← e2.1]
      · exfalso
        simp at e2
        obtain ⟨rfl, rfl, _⟩ := e2
        exact hnl (by rw [e1]; simp)

/-- Such a file stays one. -/
theorem reset_convertible {s s' : Text} (h : Reset s s') (hs : Convertible s) : Convertible s' := by
  obtain ⟨g, g', t, t', rfl, rfl, hg, hg', ht, ht', hr⟩ := h
  exact convertible_blanks hg' (relined_convertible hr hs.suffix)

/-! ### Samples -/

instance (u : Text) : Decidable (EndsTwoWords u) := by unfold EndsTwoWords; infer_instance

/-- A test for `Convertible`. -/
def convertibleGo (s : Text) : Bool :=
  (List.range (s.length + 1)).all (fun i =>
    (s.drop i).take 2 != ['\r', '\n'] ||
      (!decide (EndsTwoWords (s.take i)) && (s.take i).getLast? != some '\r'))

theorem convertibleGo_sound {s : Text} (h : convertibleGo s = true) : Convertible s := by
  rintro u r rfl
  have := List.all_eq_true.mp h u.length (List.mem_range.mpr (by simp; omega))
  rw [List.drop_left, List.take_left] at this
  simpa using this

theorem errLenOk_one : ErrLenOk (fun _ => 1) := by
  refine fun s hs => ⟨Nat.le_refl _, ?_⟩
  have := List.length_pos_iff.2 hs
  dsimp only
  omega

theorem errLineLocal_one : ErrLineLocal (fun _ => 1) := by
  refine fun u c r hu _ _ _ => ⟨?_, fun _ => rfl⟩
  have := List.length_pos_iff.2 hu
  dsimp only
  omega

/-- A file with CRLF, and the same with LF and another indentation. -/
example : Reset "<div>\r\n{{ b\r\n }}\r\n</div>".toList "<div>\n  {{ b\n }}\r\n\n</div>".toList ∧
    ErrBreakLocal (fun _ => 1) :=
  ⟨⟨[], [], "<div>\r\n{{ b\r\n }}\r\n</div>".toList, "<div>\n  {{ b\n }}\r\n\n</div>".toList, rfl, rfl,
    blanksGo_sound rfl, blanksGo_sound rfl, solid_of_head (by decide), solid_of_head (by decide),
    .gap (u := "<div>".toList) (g := "\r\n".toList) (g' := "\n  ".toList) (by decide) (by decide) (by decide)
      (blanksGo_sound (by decide)) (blanksGo_sound (by decide)) (by decide) (by decide)
      (.inr ⟨rfl, rfl, by decide⟩) (solid_of_head (by decide)) (solid_of_head (by decide)) <|
    .gap (u := "{{ b".toList) (g := "\r\n ".toList) (g' := "\n ".toList) (by decide) (by decide) (by decide)
      (blanksGo_sound (by decide)) (blanksGo_sound (by decide)) (by decide) (by decide)
      (.inr ⟨rfl, rfl, by decide⟩) (solid_of_head (by decide)) (solid_of_head (by decide)) <|
    .gap (u := "}}".toList) (g := "\r\n".toList) (g' := "\r\n\n".toList) (by decide) (by decide) (by decide)
      (blanksGo_sound (by decide)) (blanksGo_sound (by decide)) (by decide) (by decide)
      (.inl rfl) (solid_of_head (by decide)) (solid_of_head (by decide)) <|
    .line (u := "</div>".toList) (by decide)⟩, fun _ _ _ _ _ _ => rfl⟩

end Ludtwig.Layout
