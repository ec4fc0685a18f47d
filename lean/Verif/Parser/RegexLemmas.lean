import Verif.Parser.LexerSpec
import Verif.Parser.LexerLemmas

/-!
# The match lengths of the lexer model and the regular expressions
-/

namespace Ludtwig

open Lexer

namespace Re

/-! ## Inversion -/

theorem matches_eps {t} : Matches .eps t ↔ t = [] :=
  ⟨fun h => by cases h; rfl, fun h => h ▸ .eps⟩

theorem matches_set {rs t} : Matches (.set rs) t ↔ ∃ c, t = [c] ∧ InSet rs c :=
  ⟨fun h => by cases h with | set h => exact ⟨_, rfl, h⟩, fun ⟨_, h1, h2⟩ => h1 ▸ .set h2⟩

theorem matches_seq {a b t} : Matches (.seq a b) t ↔ ∃ u v, t = u ++ v ∧ Matches a u ∧ Matches b v :=
  ⟨fun h => by cases h with | seq h1 h2 => exact ⟨_, _, rfl, h1, h2⟩,
   fun ⟨_, _, h1, h2, h3⟩ => h1 ▸ .seq h2 h3⟩

theorem matches_alt {a b t} : Matches (.alt a b) t ↔ Matches a t ∨ Matches b t :=
  ⟨fun h => by cases h with | altL h => exact .inl h | altR h => exact .inr h,
   fun h => h.elim .altL .altR⟩

theorem matches_opt {a t} : Matches (opt a) t ↔ t = [] ∨ Matches a t := by
  rw [opt, matches_alt, matches_eps]

theorem matches_chr {c t} : Matches (chr c) t ↔ t = [c] := by
  rw [chr, matches_set]
  constructor
  · rintro ⟨d, rfl, r, hr, h1, h2⟩
    simp at hr
    subst hr
    rw [Char.le_antisymm h2 h1]
  · rintro rfl
    exact ⟨c, rfl, (c, c), by simp, Char.le_refl c, Char.le_refl c⟩

theorem star_set_aux {r t} (h : Matches r t) : ∀ rs, r = .star (.set rs) → ∀ c ∈ t, InSet rs c := by
  induction h with
  | starNil => intro rs _ c hc; simp at hc
  | starCons h1 _ _ ih =>
    intro rs hr c hc
    cases hr
    rw [List.mem_append] at hc
    rcases hc with hc | hc
    · obtain ⟨d, rfl, hd⟩ := matches_set.1 h1
      simp at hc
      subst hc
      exact hd
    · exact ih rs rfl c hc
  | _ => intro rs hr; cases hr

theorem matches_star_set {rs t} : Matches (.star (.set rs)) t ↔ ∀ c ∈ t, InSet rs c := by
  constructor
  · exact fun h => star_set_aux h rs rfl
  · intro h
    induction t with
    | nil => exact .starNil
    | cons c t ih =>
      exact .starCons (s := [c]) (.set (h c (by simp))) (ih (fun d hd => h d (by simp [hd])))

theorem matches_plus_set {rs t} : Matches (plus (.set rs)) t ↔ t ≠ [] ∧ ∀ c ∈ t, InSet rs c := by
  rw [plus, matches_seq]
  constructor
  · rintro ⟨u, v, rfl, h1, h2⟩
    obtain ⟨c, rfl, hc⟩ := matches_set.1 h1
    refine ⟨by simp, fun d hd => ?_⟩
    simp at hd
    rcases hd with rfl | hd
    · exact hc
    · exact matches_star_set.1 h2 d hd
  · rintro ⟨h1, h2⟩
    cases t with
    | nil => exact absurd rfl h1
    | cons c t =>
      exact ⟨[c], t, rfl, .set (h2 c (by simp)), matches_star_set.2 (fun d hd => h2 d (by simp [hd]))⟩

end Re

open Re

/-! ## Classes -/

theorem isAlpha_iff (c : Char) : isAlpha c = true ↔ InSet [('a', 'z'), ('A', 'Z')] c := by
  simp [isAlpha, InSet]
theorem isDigit_iff (c : Char) : isDigit c = true ↔ InSet [('0', '9')] c := by
  simp [isDigit, InSet]
theorem isAlnum_iff (c : Char) :
    isAlnum c = true ↔ InSet [('a', 'z'), ('A', 'Z'), ('0', '9')] c := by
  simp [isAlnum, isAlpha, isDigit, InSet, or_assoc]

theorem char_eq_iff (c d : Char) : c = d ↔ d ≤ c ∧ c ≤ d :=
  ⟨fun h => h ▸ ⟨Char.le_refl _, Char.le_refl _⟩, fun h => Char.le_antisymm h.2 h.1⟩

theorem isWordChar_iff (c : Char) :
    isWordChar c = true ↔ InSet [('a', 'z'), ('A', 'Z'), ('0', '9'), ('_', '_'), ('-', '-')] c := by
  simp [isWordChar, isAlnum, isAlpha, isDigit, InSet, or_assoc, char_eq_iff]
theorem isHex_iff (c : Char) : isHex c = true ↔ InSet [('0', '9'), ('a', 'f'), ('A', 'F')] c := by
  simp [isHex, isDigit, InSet, or_assoc]
theorem isBlank_iff (c : Char) : isBlank c = true ↔ InSet [(' ', ' '), ('\t', '\t')] c := by
  simp [isBlank, InSet, char_eq_iff]

/-! ## Spans -/

theorem spanLen_cons (p : Char → Bool) (c : Char) (s : Text) :
    spanLen p (c :: s) = if p c then 1 + spanLen p s else 0 := by
  unfold spanLen
  rw [List.takeWhile_cons]
  split <;> simp; omega

theorem spanLen_take (p : Char → Bool) (s : Text) :
    ∀ c ∈ s.take (spanLen p s), p c = true := by
  induction s with
  | nil => simp
  | cons d s ih =>
    intro c hc
    rw [spanLen_cons] at hc
    split at hc
    · rw [Nat.add_comm, List.take_succ_cons, List.mem_cons] at hc
      rcases hc with rfl | hc
      · assumption
      · exact ih c hc
    · simp at hc

theorem spanLen_append {p : Char → Bool} {u v : Text} (h : ∀ c ∈ u, p c = true) :
    spanLen p (u ++ v) = u.length + spanLen p v := by
  unfold spanLen
  rw [List.takeWhile_append_of_pos h]
  simp

/-- A match function of the lexer finds the longest prefix in the language. -/
structure Finds (f : Text → Nat) (r : Re) : Prop where
  sound : ∀ s, 0 < f s → r.Matches (s.take (f s))
  max : ∀ u v, r.Matches u → u.length ≤ f (u ++ v)
  nonempty : ¬ r.Matches []

theorem take_ne_nil {s : Text} {n : Nat} (h : 0 < n) (h' : n ≤ s.length) : s.take n ≠ [] := by
  intro h0
  have := congrArg List.length h0
  rw [List.length_take, List.length_nil] at this
  omega

theorem plus_span {p : Char → Bool} {rs} (hp : ∀ c, p c = true ↔ InSet rs c) {s : Text}
    (h : 0 < spanLen p s) : Matches (plus (.set rs)) (s.take (spanLen p s)) :=
  matches_plus_set.2 ⟨take_ne_nil h (spanLen_le p s), fun c hc => (hp c).1 (spanLen_take p s c hc)⟩

theorem star_span {p : Char → Bool} {rs} (hp : ∀ c, p c = true ↔ InSet rs c) (s : Text) :
    Matches (.star (.set rs)) (s.take (spanLen p s)) :=
  matches_star_set.2 (fun c hc => (hp c).1 (spanLen_take p s c hc))

theorem span_plus {p : Char → Bool} {rs} (hp : ∀ c, p c = true ↔ InSet rs c) {u v : Text}
    (h : Matches (plus (.set rs)) u) : spanLen p (u ++ v) = u.length + spanLen p v ∧ u ≠ [] :=
  ⟨spanLen_append (fun c hc => (hp c).2 ((matches_plus_set.1 h).2 c hc)), (matches_plus_set.1 h).1⟩

theorem span_star {p : Char → Bool} {rs} (hp : ∀ c, p c = true ↔ InSet rs c) {u v : Text}
    (h : Matches (.star (.set rs)) u) : spanLen p (u ++ v) = u.length + spanLen p v :=
  spanLen_append (fun c hc => (hp c).2 (matches_star_set.1 h c hc))

theorem pos_of_ne_nil {u : Text} (h : u ≠ []) : 0 < u.length := List.length_pos_iff.2 h

theorem finds_whitespace : Finds whitespaceLen .whitespace where
  sound s h := plus_span isBlank_iff h
  max u v h := by
    have := (span_plus isBlank_iff (v := v) h).1
    unfold whitespaceLen
    omega
  nonempty h := (matches_plus_set.1 h).1 rfl

/-! ## Line breaks -/

theorem star_ne_nil_aux {r t} (h : Matches r t) : ∀ a, r = .star a → t ≠ [] → Matches (plus a) t := by
  induction h with
  | starNil => intro a _ h; exact absurd rfl h
  | @starCons b s t h1 h2 _ ih =>
    intro a ha hne
    cases ha
    exact .seq h1 h2
  | _ => intro a ha; cases ha

theorem star_lineBreak_aux {r u} (h : Matches r u) :
    r = .star (.alt (chr '\n') (.seq (chr '\r') (chr '\n'))) →
    ∀ v, lineBreakLen (u ++ v) = u.length + lineBreakLen v := by
  induction h with
  | starNil => intro _ v; simp
  | @starCons b s t h1 h2 _ ih =>
    intro hr v
    cases hr
    have ih := ih rfl v
    rcases matches_alt.1 h1 with h | h
    · rw [matches_chr] at h
      subst h
      simp [lineBreakLen, ih]; omega
    · obtain ⟨x, y, rfl, hx, hy⟩ := matches_seq.1 h
      rw [matches_chr] at hx hy
      subst hx hy
      simp [lineBreakLen, ih]; omega
  | _ => intro hr; cases hr

theorem lineBreak_star (s : Text) :
    Matches (.star (.alt (chr '\n') (.seq (chr '\r') (chr '\n')))) (s.take (lineBreakLen s)) := by
  fun_induction lineBreakLen s with
  | case1 s ih =>
    rw [Nat.add_comm, List.take_succ_cons]
    exact .starCons (s := ['\n']) (.altL (matches_chr.2 rfl)) ih
  | case2 s ih =>
    rw [Nat.add_comm, List.take_succ_cons, List.take_succ_cons]
    exact .starCons (s := ['\r', '\n'])
      (.altR (.seq (s := ['\r']) (matches_chr.2 rfl) (matches_chr.2 rfl))) ih
  | case3 => exact .starNil

theorem finds_lineBreak : Finds lineBreakLen .lineBreak where
  sound s h := star_ne_nil_aux (lineBreak_star s) _ rfl (take_ne_nil h (lineBreakLen_le s))
  max u v h := by
    obtain ⟨x, y, rfl, hx, hy⟩ := matches_seq.1 h
    have := star_lineBreak_aux (.starCons hx hy) rfl v
    omega
  nonempty h := by
    obtain ⟨x, y, h0, hx, hy⟩ := matches_seq.1 h
    have hx0 : x = [] := (List.append_eq_nil_iff.1 h0.symm).1
    subst hx0
    rcases matches_alt.1 hx with h | h
    · rw [matches_chr] at h; cases h
    · obtain ⟨x, y, h0, hx, hy⟩ := matches_seq.1 h
      rw [matches_chr] at hx
      subst hx
      cases h0

/-! ## Words -/

theorem take_one_add (n : Nat) (c : Char) (s : Text) : (c :: s).take (1 + n) = c :: s.take n := by
  rw [Nat.add_comm, List.take_succ_cons]

theorem take_two_add (n : Nat) (c d : Char) (s : Text) :
    (c :: d :: s).take (2 + n) = c :: d :: s.take n := by
  rw [show 2 + n = n + 1 + 1 by omega, List.take_succ_cons, List.take_succ_cons]

theorem matches_alpha {c : Char} (h : isAlpha c = true) : Matches alpha [c] :=
  .set ((isAlpha_iff c).1 h)

theorem sigil_iff (c : Char) : InSet [('@', '@'), ('#', '#'), ('_', '_'), ('$', '$')] c ↔
    c = '@' ∨ c = '#' ∨ c = '_' ∨ c = '$' := by
  simp [InSet, char_eq_iff]

theorem finds_word : Finds wordLen .word where
  sound s h := by
    unfold wordLen at h ⊢
    split
    · simp at h
    · rename_i c s
      split
      · rename_i hc
        rw [take_one_add]
        refine .seq (s := [c]) ?_ (star_span isWordChar_iff s)
        simp at hc
        rcases hc with hc | rfl
        · exact .altL (matches_alpha hc)
        · exact .altR (.altR (matches_chr.2 rfl))
      · rename_i h1
        simp only [h1] at h
        split
        · rename_i hc
          simp only [hc] at h
          split
          · rename_i d s
            dsimp only at h
            split
            · rename_i hd
              rw [take_two_add]
              refine .seq (s := [c, d]) (.altR (.altL (.seq (s := [c]) (.set ?_) (matches_alpha hd))))
                (star_span isWordChar_iff s)
              rw [sigil_iff]
              simp at hc
              grind
            · simp_all
          · simp at h
        · simp_all
  max u v h := by
    obtain ⟨x, y, rfl, hx, hy⟩ := matches_seq.1 h
    have hs := fun w => span_star isWordChar_iff (v := w) hy
    have hal : ∀ d, isAlpha d = true → isWordChar d = true := by
      intro d hd; simp [isWordChar, isAlnum, hd]
    rcases matches_alt.1 hx with hx | hx
    · obtain ⟨c, rfl, hc⟩ := matches_set.1 hx
      rw [← isAlpha_iff] at hc
      simp [wordLen, hc, hs]; omega
    · rcases matches_alt.1 hx with hx | hx
      · obtain ⟨a, b, rfl, ha, hb⟩ := matches_seq.1 hx
        obtain ⟨c, rfl, hc⟩ := matches_set.1 ha
        obtain ⟨d, rfl, hd⟩ := matches_set.1 hb
        rw [← isAlpha_iff] at hd
        rw [sigil_iff] at hc
        have e1 : isAlpha '@' = false := by decide
        have e2 : isAlpha '#' = false := by decide
        have e3 : isAlpha '$' = false := by decide
        rcases hc with rfl | rfl | rfl | rfl <;>
          simp [wordLen, hd, hs, e1, e2, e3, spanLen_cons, hal d hd] <;> omega
      · rw [matches_chr] at hx
        subst hx
        simp [wordLen, hs]; omega
  nonempty h := by
    obtain ⟨x, y, h0, hx, hy⟩ := matches_seq.1 h
    have hx0 : x = [] := (List.append_eq_nil_iff.1 h0.symm).1
    subst hx0
    rcases matches_alt.1 hx with h | h
    · obtain ⟨c, h, _⟩ := matches_set.1 h; cases h
    · rcases matches_alt.1 h with h | h
      · obtain ⟨x, y, h0, hx, hy⟩ := matches_seq.1 h
        obtain ⟨c, rfl, _⟩ := matches_set.1 hx
        cases h0
      · rw [matches_chr] at h; cases h

/-! ## Component names -/

/-- One `\:[a-zA-Z0-9_\-]+` group. -/
abbrev groupRe : Re := .seq (chr ':') (plus wordChar)

theorem componentGroups_best (a : Bool) (n best : Nat) (s : Text) (h : best ≤ n) :
    best ≤ componentGroups a n best s := by
  induction s generalizing a n best with
  | nil => simp [componentGroups]
  | cons c s ih =>
    unfold componentGroups
    split
    · have := ih false (n + 1) (n + 1) (Nat.le_refl _); omega
    · split
      · exact ih true (n + 1) best (by omega)
      · simp

theorem componentGroups_word (a : Bool) (n best : Nat) (w x : Text) (hw : w ≠ [])
    (h : ∀ c ∈ w, isWordChar c = true) :
    componentGroups a n best (w ++ x) = componentGroups false (n + w.length) (n + w.length) x := by
  induction w generalizing a n best with
  | nil => exact absurd rfl hw
  | cons c w ih =>
    rw [List.cons_append, componentGroups, if_pos (h c (by simp))]
    cases w with
    | nil => simp
    | cons d w =>
      rw [ih false (n + 1) (n + 1) (by simp) (fun e he => h e (by simp [he]))]
      simp only [List.length_cons]
      congr 1 <;> omega

theorem plus_wordChar {w : Text} (h : Matches (plus wordChar) w) :
    w ≠ [] ∧ ∀ c ∈ w, isWordChar c = true := by
  obtain ⟨h1, h2⟩ := matches_plus_set.1 h
  exact ⟨h1, fun c hc => (isWordChar_iff c).2 (h2 c hc)⟩

theorem componentGroups_max_aux {r u} (h : Matches r u) : r = .star groupRe → ∀ n v,
    n + u.length ≤ componentGroups false n n (u ++ v) := by
  induction h with
  | starNil => intro _ n v; exact componentGroups_best false n n v (Nat.le_refl _)
  | @starCons b s t h1 h2 _ ih =>
    intro hr n v
    cases hr
    obtain ⟨x, w, rfl, hx, hw⟩ := matches_seq.1 h1
    rw [matches_chr] at hx
    subst hx
    obtain ⟨hw1, hw2⟩ := plus_wordChar hw
    have := ih rfl (n + 1 + w.length) v
    rw [show ([':'] ++ w ++ t ++ v : Text) = ':' :: (w ++ (t ++ v)) by simp, componentGroups,
      if_neg (by decide), if_pos (by decide), componentGroups_word _ _ _ _ _ hw1 hw2]
    simp only [List.length_append, List.length_cons, List.length_nil]
    omega
  | _ => intro hr; cases hr

theorem wordChar_ne_nil_plus {s : Text} {c : Char} {j : Nat} (hc : isWordChar c = true)
    (h : Matches (.seq (.star wordChar) (.star groupRe)) (s.take j)) :
    Matches (.seq (plus wordChar) (.star groupRe)) (c :: s.take j) := by
  obtain ⟨x, y, hxy, hx, hy⟩ := matches_seq.1 h
  rw [hxy]
  exact .seq (s := c :: x) (.seq (s := [c]) (.set ((isWordChar_iff c).1 hc)) hx) hy

theorem plus_imp_star {a b : Re} {t : Text} (h : Matches (.seq (plus a) b) t) :
    Matches (.seq (.star a) b) t := by
  obtain ⟨x, y, rfl, hx, hy⟩ := matches_seq.1 h
  obtain ⟨x1, x2, rfl, hx1, hx2⟩ := matches_seq.1 hx
  exact .seq (.starCons hx1 hx2) hy

theorem componentGroups_sound (a : Bool) (n best : Nat) (s : Text) :
    componentGroups a n best s = best ∨ ∃ j, componentGroups a n best s = n + j ∧
      Matches (.seq (if a then plus wordChar else .star wordChar) (.star groupRe)) (s.take j) := by
  induction s generalizing a n best with
  | nil => exact .inl rfl
  | cons c s ih =>
    unfold componentGroups
    split
    · rename_i hc
      right
      have key : ∃ j, componentGroups false (n + 1) (n + 1) s = n + j ∧
          Matches (.seq (plus wordChar) (.star groupRe)) ((c :: s).take j) := by
        rcases ih false (n + 1) (n + 1) with h | ⟨j, h, hm⟩
        · refine ⟨1, h, ?_⟩
          have := wordChar_ne_nil_plus (s := []) (j := 0) hc (.seq (s := []) .starNil .starNil)
          simpa using this
        · refine ⟨1 + j, by omega, ?_⟩
          rw [take_one_add]
          exact wordChar_ne_nil_plus hc (by simpa using hm)
      obtain ⟨j, h1, h2⟩ := key
      refine ⟨j, h1, ?_⟩
      cases a
      · exact plus_imp_star h2
      · exact h2
    · split
      · rename_i hc
        simp at hc
        obtain ⟨rfl, rfl⟩ := hc
        rcases ih true (n + 1) best with h | ⟨j, h, hm⟩
        · exact .inl h
        · refine .inr ⟨1 + j, by omega, ?_⟩
          rw [take_one_add]
          obtain ⟨x, y, hxy, hx, hy⟩ := matches_seq.1 hm
          rw [hxy]
          exact .seq (s := []) .starNil
            (.starCons (s := ':' :: x) (.seq (s := [':']) (matches_chr.2 rfl) hx) hy)
      · exact .inl rfl

theorem matches_lit (w t : Text) : Matches (lit w) t ↔ t = w := by
  induction w generalizing t with
  | nil => exact matches_eps
  | cons c w ih =>
    rw [lit, matches_seq]
    constructor
    · rintro ⟨u, v, rfl, hu, hv⟩
      rw [matches_chr] at hu
      rw [ih] at hv
      subst hu hv
      rfl
    · rintro rfl
      exact ⟨[c], w, rfl, matches_chr.2 rfl, (ih w).2 rfl⟩

theorem finds_componentName : Finds componentNameLen .componentName where
  sound s h := by
    unfold componentNameLen at h ⊢
    split
    · rename_i s
      dsimp only at h ⊢
      rcases componentGroups_sound true 1 0 s with h0 | ⟨j, h1, hm⟩
      · simp [h0] at h
      · rw [h1]
        rw [if_neg (by simp)]
        rw [show ∀ c, ('t' :: 'w' :: 'i' :: 'g' :: c :: s).take (4 + (1 + j)) =
            ['t', 'w', 'i', 'g'] ++ (c :: s.take j) by
          intro c; rw [show 4 + (1 + j) = j + 5 by omega]; rfl]
        obtain ⟨x, y, hxy, hx, hy⟩ := matches_seq.1 hm
        rw [hxy]
        exact .seq ((matches_lit _ _).2 rfl)
          (.seq (s := ':' :: x) (.seq (s := [':']) (matches_chr.2 rfl) hx) hy)
    · simp_all
  max u v h := by
    obtain ⟨x, y, rfl, hx, hy⟩ := matches_seq.1 h
    rw [matches_lit] at hx
    subst hx
    obtain ⟨y1, y2, rfl, hy1, hy2⟩ := matches_seq.1 hy
    obtain ⟨z, w, rfl, hz, hw⟩ := matches_seq.1 hy1
    rw [matches_chr] at hz
    subst hz
    obtain ⟨hw1, hw2⟩ := plus_wordChar hw
    have h1 := componentGroups_word true 1 0 w (y2 ++ v) hw1 hw2
    have h2 := componentGroups_max_aux hy2 rfl (1 + w.length) v
    rw [← h1] at h2
    rw [show ((['t', 'w', 'i', 'g'] ++ ([':'] ++ w ++ y2)) ++ v : Text) =
      't' :: 'w' :: 'i' :: 'g' :: ':' :: (w ++ (y2 ++ v)) by simp]
    simp only [componentNameLen]
    rw [if_neg (by simp; omega)]
    simp
    omega
  nonempty h := by
    obtain ⟨x, y, h0, hx, hy⟩ := matches_seq.1 h
    rw [matches_lit] at hx
    subst hx
    cases h0

/-! ## Numbers -/

theorem numberRe_parts {u : Text} (h : Matches number u) : ∃ d f e, u = d ++ (f ++ e) ∧
    Matches (plus digit) d ∧ (f = [] ∨ ∃ w, f = '.' :: w ∧ Matches (plus digit) w) ∧
    (e = [] ∨ ∃ x y w, e = x :: y :: w ∧ (x = 'E' ∨ x = 'e') ∧ (y = '+' ∨ y = '-') ∧
      Matches (plus digit) w) := by
  obtain ⟨d, r, rfl, hd, hr⟩ := matches_seq.1 h
  obtain ⟨f, e, rfl, hf, he⟩ := matches_seq.1 hr
  refine ⟨d, f, e, rfl, hd, ?_, ?_⟩
  · rcases matches_opt.1 hf with h | h
    · exact .inl h
    · obtain ⟨x, w, rfl, hx, hw⟩ := matches_seq.1 h
      rw [matches_chr] at hx
      subst hx
      exact .inr ⟨w, rfl, hw⟩
  · rcases matches_opt.1 he with h | h
    · exact .inl h
    · obtain ⟨x, r, rfl, hx, hr⟩ := matches_seq.1 h
      obtain ⟨y, w, rfl, hy, hw⟩ := matches_seq.1 hr
      obtain ⟨x, rfl, hx'⟩ := matches_set.1 hx
      obtain ⟨y, rfl, hy'⟩ := matches_set.1 hy
      refine .inr ⟨x, y, w, rfl, ?_, ?_, hw⟩
      · simpa [InSet, ← char_eq_iff] using hx'
      · simpa [InSet, ← char_eq_iff] using hy'

theorem fraction_sound (s : Text) :
    Matches (opt (.seq (chr '.') (plus digit))) (s.take (fractionLen s)) := by
  unfold fractionLen
  split
  · rename_i s
    dsimp only
    split
    · exact .altL .eps
    · rename_i h
      rw [take_one_add]
      exact .altR (.seq (s := ['.']) (matches_chr.2 rfl) (plus_span isDigit_iff (by simp at h; omega)))
  · exact .altL .eps

theorem exponent_sound (s : Text) :
    Matches (opt (.seq (.set [('E', 'E'), ('e', 'e')]) (.seq (.set [('+', '+'), ('-', '-')])
      (plus digit)))) (s.take (exponentLen s)) := by
  unfold exponentLen
  split
  · rename_i e sign s
    split
    · rename_i hes
      simp at hes
      dsimp only
      split
      · exact .altL .eps
      · rename_i h
        rw [take_two_add]
        refine .altR (.seq (s := [e]) (.set ?_) (.seq (s := [sign]) (.set ?_)
          (plus_span isDigit_iff (by simp at h; omega))))
        · simpa [InSet, ← char_eq_iff] using hes.1
        · simpa [InSet, ← char_eq_iff] using hes.2
    · exact .altL .eps
  · exact .altL .eps

theorem exponent_max {e v : Text} (h : e = [] ∨ ∃ x y w, e = x :: y :: w ∧ (x = 'E' ∨ x = 'e') ∧
    (y = '+' ∨ y = '-') ∧ Matches (plus digit) w) : e.length ≤ exponentLen (e ++ v) := by
  rcases h with rfl | ⟨x, y, w, rfl, hx, hy, hw⟩
  · simp
  · obtain ⟨h1, h2⟩ := span_plus isDigit_iff (v := v) hw
    have := pos_of_ne_nil h2
    have hc : ((x == 'E' || x == 'e') && (y == '+' || y == '-')) = true := by simp [hx, hy]
    simp only [List.cons_append, exponentLen, hc, if_true, List.length_cons]
    rw [if_neg (by simp; omega)]
    omega

theorem finds_number : Finds numberLen .number where
  sound s h := by
    unfold numberLen at h ⊢
    dsimp only at h ⊢
    split
    · rename_i h0; simp [h0] at h
    · rename_i h0
      simp at h0
      have e1 := fraction_sound (s.drop (spanLen isDigit s))
      generalize hb : fractionLen (s.drop (spanLen isDigit s)) = b at e1 ⊢
      have e2 := exponent_sound (s.drop (spanLen isDigit s + b))
      rw [List.take_add, List.take_add, List.append_assoc]
      rw [← List.drop_drop] at e2 ⊢
      exact .seq (plus_span isDigit_iff (by omega)) (.seq e1 e2)
  max u v h := by
    obtain ⟨d, f, e, rfl, hd, hf, he⟩ := numberRe_parts h
    have hem := exponent_max (v := v) he
    have sp := fun w => span_plus isDigit_iff (v := w) hd
    have hdp := pos_of_ne_nil (sp []).2
    have key : ∀ (x : Text), (x = [] ∨ ∃ c r, x = c :: r ∧ isDigit c = false) → spanLen isDigit x = 0 := by
      rintro x (rfl | ⟨c, r, rfl, hc⟩)
      · rfl
      · rw [spanLen_cons, if_neg (by simp [hc])]
    have hen : e ≠ [] → ∃ c r, e ++ v = c :: r ∧ isDigit c = false ∧ c ≠ '.' := by
      intro hne
      rcases he with h | ⟨x, y, w, rfl, hx, _, _⟩
      · exact absurd h hne
      · refine ⟨x, y :: w ++ v, by simp, ?_⟩
        rcases hx with rfl | rfl <;> decide
    unfold numberLen
    dsimp only
    rw [show d ++ (f ++ e) ++ v = d ++ (f ++ (e ++ v)) by simp, (sp _).1, if_neg (by rw [beq_iff_eq]; omega)]
    simp only [List.length_append]
    rcases hf with rfl | ⟨w, rfl, hw⟩
    · by_cases hne : e = []
      · subst hne
        simp only [List.length_nil]
        omega
      · obtain ⟨c, r, hcr, hc1, hc2⟩ := hen hne
        have h0 : spanLen isDigit (e ++ v) = 0 := key _ (.inr ⟨c, r, hcr, hc1⟩)
        have h1 : fractionLen (e ++ v) = 0 := by
          rw [hcr]; unfold fractionLen; split
          · rename_i h; cases h; exact absurd rfl hc2
          · rfl
        simp only [List.nil_append, h0, Nat.add_zero, List.drop_left, h1, List.length_nil]
        omega
    · have h0 : spanLen isDigit ('.' :: w ++ (e ++ v)) = 0 := key _ (.inr ⟨'.', _, rfl, by decide⟩)
      simp only [h0, Nat.add_zero, List.drop_left]
      obtain ⟨h1, h2⟩ := span_plus isDigit_iff (v := e ++ v) hw
      have hwp := pos_of_ne_nil h2
      have h3 : fractionLen ('.' :: w ++ (e ++ v)) = 1 + (w.length + spanLen isDigit (e ++ v)) := by
        simp only [List.cons_append, fractionLen, h1]
        rw [if_neg (by rw [beq_iff_eq]; omega)]
      rw [h3]
      by_cases hne : e = []
      · subst hne
        simp only [List.length_nil, List.length_cons]
        omega
      · obtain ⟨c, r, hcr, hc1, hc2⟩ := hen hne
        have h4 : spanLen isDigit (e ++ v) = 0 := key _ (.inr ⟨c, r, hcr, hc1⟩)
        rw [h4]
        have h5 : (d ++ ('.' :: w ++ (e ++ v))).drop (d.length + (1 + (w.length + 0))) = e ++ v := by
          rw [← List.drop_drop, List.drop_left,
            show 1 + (w.length + 0) = ('.' :: w).length by simp; omega, List.drop_left]
        rw [h5]
        simp only [List.length_cons]
        omega
  nonempty h := by
    obtain ⟨d, f, e, h0, hd, _, _⟩ := numberRe_parts h
    exact (matches_plus_set.1 hd).1 (List.append_eq_nil_iff.1 h0.symm).1

/-! ## Escapes -/

theorem escape_end {s : Text} {n : Nat} (h : (s.drop n).head? = some ';') : s.take (n + 1) = s.take n ++ [';'] := by
  rw [List.take_add]
  cases hd : s.drop n with
  | nil => simp [hd] at h
  | cons c r => simp [hd] at h; simp [h]

theorem span_stop {p : Char → Bool} {w v : Text} (hw : ∀ x, spanLen p (w ++ x) = w.length + spanLen p x)
    (hp : p ';' = false) : spanLen p (w ++ ';' :: v) = w.length := by
  rw [hw, spanLen_cons, if_neg (by simp [hp])]; rfl

theorem finds_escape : Finds escapeLen .escape where
  sound s h := by
    revert h
    unfold escapeLen
    split <;> intro h
    · rename_i s
      dsimp only at h ⊢
      split
      · rename_i hc
        simp only [Bool.and_eq_true, decide_eq_true_eq, beq_iff_eq] at hc
        rw [show ∀ n, ('&' :: '#' :: 'x' :: s).take (4 + n) = '&' :: '#' :: 'x' :: s.take (n + 1) by
          intro n; rw [show 4 + n = (n + 1) + 3 by omega]; rfl]
        rw [escape_end hc.2]
        exact .seq (s := ['&']) (matches_chr.2 rfl)
          (.seq (s := '#' :: 'x' :: s.take (spanLen isHex s))
            (.altR (.altR (.seq (s := ['#']) (matches_chr.2 rfl) (.seq (s := ['x']) (matches_chr.2 rfl)
              (plus_span isHex_iff (by omega)))))) (matches_chr.2 rfl))
      · rename_i hc; rw [if_neg hc] at h; exact absurd h (Nat.lt_irrefl _)
    · rename_i s hx
      dsimp only at h ⊢
      split
      · rename_i hc
        simp only [Bool.and_eq_true, decide_eq_true_eq, beq_iff_eq] at hc
        rw [show ∀ n, ('&' :: '#' :: s).take (3 + n) = '&' :: '#' :: s.take (n + 1) by
          intro n; rw [show 3 + n = (n + 1) + 2 by omega]; rfl]
        rw [escape_end hc.2]
        exact .seq (s := ['&']) (matches_chr.2 rfl)
          (.seq (s := '#' :: s.take (spanLen isDigit s))
            (.altR (.altL (.seq (s := ['#']) (matches_chr.2 rfl)
              (plus_span isDigit_iff (by omega))))) (matches_chr.2 rfl))
      · rename_i hc; rw [if_neg hc] at h; exact absurd h (Nat.lt_irrefl _)
    · rename_i c s h1 h2
      split
      · rename_i hal
        dsimp only at h ⊢
        split
        · rename_i hc
          rw [beq_iff_eq] at hc
          rw [show ∀ n, ('&' :: c :: s).take (3 + n) = '&' :: c :: s.take (n + 1) by
            intro n; rw [show 3 + n = (n + 1) + 2 by omega]; rfl]
          rw [escape_end hc]
          exact .seq (s := ['&']) (matches_chr.2 rfl)
            (.seq (s := c :: s.take (spanLen isAlnum s))
              (.altL (.seq (s := [c]) (matches_alpha hal) (star_span isAlnum_iff s)))
              (matches_chr.2 rfl))
        · exfalso; simp_all
      · exfalso; simp_all
    · simp_all
  max u v h := by
    obtain ⟨x, r, rfl, hx, hr⟩ := matches_seq.1 h
    obtain ⟨m, e, rfl, hm, he⟩ := matches_seq.1 hr
    rw [matches_chr] at hx he
    subst hx he
    rcases matches_alt.1 hm with hm | hm
    · obtain ⟨a, w, rfl, ha, hw⟩ := matches_seq.1 hm
      obtain ⟨c, rfl, hc⟩ := matches_set.1 ha
      rw [← isAlpha_iff] at hc
      have hsp := span_stop (v := v) (fun x => span_star isAlnum_iff (v := x) hw) (by decide)
      have hc' : c ≠ '#' := by rintro rfl; revert hc; decide
      rw [show (['&'] ++ ([c] ++ w ++ [';'])) ++ v = '&' :: c :: (w ++ ';' :: v) by simp]
      unfold escapeLen
      split
      · rename_i heq; simp at heq; exact absurd heq.1 hc'
      · rename_i heq; simp at heq; exact absurd heq.1 hc'
      · rename_i heq
        simp only [List.cons.injEq, true_and] at heq
        obtain ⟨rfl, rfl⟩ := heq
        rw [if_pos hc]
        dsimp only
        rw [hsp]
        simp; omega
      · rename_i h1; exact absurd rfl (h1 _ _)
    · rcases matches_alt.1 hm with hm | hm
      · obtain ⟨a, w, rfl, ha, hw⟩ := matches_seq.1 hm
        rw [matches_chr] at ha
        subst ha
        obtain ⟨hw1, hw2⟩ := matches_plus_set.1 hw
        have hsp := span_stop (v := v) (fun x => (span_plus isDigit_iff (v := x) hw).1) (by decide)
        have hwp := pos_of_ne_nil hw1
        rw [show (['&'] ++ (['#'] ++ w ++ [';'])) ++ v = '&' :: '#' :: (w ++ ';' :: v) by simp]
        unfold escapeLen
        split
        · rename_i heq
          exfalso
          cases w with
          | nil => exact hw1 rfl
          | cons d w =>
            have := (isDigit_iff d).2 (hw2 d (by simp))
            simp at heq
            obtain ⟨rfl, _⟩ := heq
            revert this; decide
        · rename_i heq
          simp only [List.cons.injEq, true_and] at heq
          subst heq
          dsimp only
          rw [hsp, if_pos (by simp; omega)]
          simp; omega
        · rename_i h2 heq
          simp only [List.cons.injEq, true_and] at heq
          exact absurd heq.1.symm h2
        · rename_i h1; exact absurd rfl (h1 _ _)
      · obtain ⟨a, w, rfl, ha, hw⟩ := matches_seq.1 hm
        obtain ⟨b, w, rfl, hb, hw'⟩ := matches_seq.1 hw
        clear hw
        have hw := hw'
        rw [matches_chr] at ha hb
        subst ha hb
        obtain ⟨hw1, hw2⟩ := matches_plus_set.1 hw
        have hsp := span_stop (v := v) (fun x => (span_plus isHex_iff (v := x) hw).1) (by decide)
        have hwp := pos_of_ne_nil hw1
        rw [show (['&'] ++ (['#'] ++ (['x'] ++ w) ++ [';'])) ++ v =
          '&' :: '#' :: 'x' :: (w ++ ';' :: v) by simp]
        simp only [escapeLen, hsp]
        rw [if_pos (by simp; omega)]
        simp; omega
  nonempty h := by
    obtain ⟨x, y, h0, hx, hy⟩ := matches_seq.1 h
    rw [matches_chr] at hx
    subst hx
    cases h0

/-! ## Literals and the choice of the rule -/

theorem literalMatches_iff {l : Literal} {u v : Text} (h : u.length = l.text.length) :
    literalMatches l (u ++ v) = true ↔ l.Matches u := by
  unfold literalMatches Literal.Matches
  split
  · rw [List.isPrefixOf_iff_prefix, List.map_append]
    constructor
    · rintro ⟨x, hx⟩
      exact (List.append_inj hx (by simp [h])).1.symm
    · intro h
      exact ⟨_, by rw [h]⟩
  · rw [List.isPrefixOf_iff_prefix]
    constructor
    · rintro ⟨x, hx⟩
      exact (List.append_inj hx (by simp [h])).1.symm
    · rintro rfl
      exact ⟨_, rfl⟩

theorem literal_length {l : Literal} {u : Text} (h : l.Matches u) : u.length = l.text.length := by
  unfold Literal.Matches at h
  split at h
  · simpa using congrArg List.length h
  · rw [h]

theorem literals_nonempty : ∀ l ∈ literals, l.text ≠ [] := by decide +kernel

/-- The match function of a regular expression rule. -/
theorem regexRules_finds : ∀ r k, (r, k) ∈ regexRules → ∃ f : Text → Nat, Finds f r ∧
    (∀ s, f s ≤ s.length) ∧ ∀ s, (f s, k) ∈ candidates s := by
  intro r k h
  simp only [regexRules, List.mem_cons, List.not_mem_nil, or_false, Prod.mk.injEq] at h
  rcases h with ⟨rfl, rfl⟩ | ⟨rfl, rfl⟩ | ⟨rfl, rfl⟩ | ⟨rfl, rfl⟩ | ⟨rfl, rfl⟩ | ⟨rfl, rfl⟩
  · exact ⟨_, finds_whitespace, spanLen_le _, fun s => by simp [candidates]⟩
  · exact ⟨_, finds_lineBreak, lineBreakLen_le, fun s => by simp [candidates]⟩
  · exact ⟨_, finds_word, wordLen_le, fun s => by simp [candidates]⟩
  · exact ⟨_, finds_componentName, componentNameLen_le, fun s => by simp [candidates]⟩
  · exact ⟨_, finds_number, numberLen_le, fun s => by simp [candidates]⟩
  · exact ⟨_, finds_escape, escapeLen_le, fun s => by simp [candidates]⟩

/-- Every prefix matched by a rule is bounded by a candidate. -/
theorem candidate_of_rule {u v : Text} {k : SyntaxKind} (h : IsLiteralToken u k ∨ IsRegexToken u k) :
    ∃ n, (n, k) ∈ candidates (u ++ v) ∧ u.length ≤ n := by
  rcases h with ⟨l, hl, rfl, hm⟩ | ⟨r, hr, hm⟩
  · have hlen := literal_length hm
    refine ⟨l.text.length, ?_, by omega⟩
    simp only [candidates, List.mem_append, List.mem_map, List.mem_filter]
    exact .inl ⟨l, ⟨hl, (literalMatches_iff hlen).2 hm⟩, rfl⟩
  · obtain ⟨f, hf, _, hc⟩ := regexRules_finds r k hr
    exact ⟨_, hc _, hf.max u v hm⟩

theorem rule_of_candidate {s : Text} {n : Nat} {k : SyntaxKind} (h : (n, k) ∈ candidates s)
    (hn : 0 < n) : IsLiteralToken (s.take n) k ∨ IsRegexToken (s.take n) k := by
  simp only [candidates, List.mem_append, List.mem_map, List.mem_filter, Prod.mk.injEq] at h
  rcases h with ⟨l, ⟨hl, hm⟩, rfl, rfl⟩ | h
  · left
    have hle := literalMatches_le hm
    refine ⟨l, hl, rfl, ?_⟩
    rw [← List.take_append_drop l.text.length s] at hm
    exact (literalMatches_iff (by simp; omega)).1 hm
  · right
    simp only [List.mem_cons, List.not_mem_nil, or_false, Prod.mk.injEq] at h
    rcases h with ⟨rfl, rfl⟩ | ⟨rfl, rfl⟩ | ⟨rfl, rfl⟩ | ⟨rfl, rfl⟩ | ⟨rfl, rfl⟩ | ⟨rfl, rfl⟩
    · exact ⟨_, by simp [regexRules], finds_whitespace.sound _ hn⟩
    · exact ⟨_, by simp [regexRules], finds_lineBreak.sound _ hn⟩
    · exact ⟨_, by simp [regexRules], finds_word.sound _ hn⟩
    · exact ⟨_, by simp [regexRules], finds_componentName.sound _ hn⟩
    · exact ⟨_, by simp [regexRules], finds_number.sound _ hn⟩
    · exact ⟨_, by simp [regexRules], finds_escape.sound _ hn⟩

theorem longest_none {l : List (Nat × SyntaxKind)} (h : longest l = none) :
    ∀ m k, (m, k) ∈ l → m = 0 := by
  induction l with
  | nil => simp
  | cons x l ih =>
    obtain ⟨n, k⟩ := x
    simp only [longest] at h
    split at h
    · split at h <;> cases h
    · rename_i heq
      split at h
      · rename_i hn
        intro m k' hm
        simp at hm hn
        rcases hm with ⟨rfl, _⟩ | hm
        · exact hn
        · exact ih heq m k' hm
      · cases h

theorem longest_append {a b : List (Nat × SyntaxKind)} {n : Nat} {k : SyntaxKind}
    (h : longest (a ++ b) = some (n, k)) : (n, k) ∈ a ∨ ∀ m k', (m, k') ∈ a → m < n := by
  induction a generalizing n k with
  | nil => simp
  | cons x a ih =>
    obtain ⟨m, k'⟩ := x
    simp only [List.cons_append, longest] at h
    split at h
    · rename_i m' k'' heq
      split at h
      · simp at h; left; simp [h]
      · simp at h
        obtain ⟨rfl, rfl⟩ := h
        rcases ih heq with h | h
        · left; simp [h]
        · right
          intro m2 k2 h2
          simp at h2
          rcases h2 with ⟨rfl, rfl⟩ | h2
          · omega
          · exact h m2 k2 h2
    · split at h
      · cases h
      · simp at h; left; simp [h]

theorem longest_longestMatch {s : Text} {n : Nat} {k : SyntaxKind}
    (h : longest (candidates s) = some (n, k)) : LongestMatch s (s.take n) k := by
  obtain ⟨h1, h2, h3⟩ := longest_mem h
  have hle := candidates_le h1
  have hlen : (s.take n).length = n := by simp; omega
  refine ⟨List.take_prefix _ _, take_ne_nil h2 hle, rule_of_candidate h1 h2, ?_, ?_⟩
  · rintro pre' k' ⟨post, rfl⟩ hr
    obtain ⟨m, hm, hl⟩ := candidate_of_rule (v := post) hr
    have := h3 m k' hm
    omega
  · rintro k' ⟨l, hl, rfl, hm⟩
    have hll := literal_length hm
    rcases longest_append h with ha | ha
    · simp only [List.mem_map, List.mem_filter, Prod.mk.injEq] at ha
      obtain ⟨l', ⟨hl', hm'⟩, hn, rfl⟩ := ha
      refine ⟨l', hl', rfl, ?_⟩
      rw [← List.take_append_drop n s] at hm'
      exact (literalMatches_iff (by rw [hlen, hn])).1 hm'
    · have := ha l.text.length l.kind (by
        simp only [List.mem_map, List.mem_filter]
        refine ⟨l, ⟨hl, ?_⟩, rfl⟩
        rw [← List.take_append_drop n s]
        exact (literalMatches_iff hll).2 hm)
      omega

theorem longest_none_iff {s : Text} (h : longest (candidates s) = none) {u : Text} {k : SyntaxKind}
    (hu : u <+: s) : ¬ (IsLiteralToken u k ∨ IsRegexToken u k) := by
  intro hr
  obtain ⟨post, rfl⟩ := hu
  obtain ⟨m, hm, hl⟩ := candidate_of_rule (v := post) hr
  have h0 := longest_none h m k hm
  have hu : u = [] := List.length_eq_zero_iff.1 (by omega)
  subst hu
  rcases hr with ⟨l, hl, _, hm⟩ | ⟨r, hr, hm⟩
  · exact literals_nonempty l hl (List.length_eq_zero_iff.1 (literal_length hm).symm)
  · obtain ⟨f, hf, _⟩ := regexRules_finds r k hr
    exact hf.nonempty hm

end Ludtwig
