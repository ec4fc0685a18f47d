import Verif.Naming.Lemmas

/-! # Naming conventions: when there is a suggestion (C51) -/

namespace Ludtwig.Naming

/-- ASCII letters and digits. -/
abbrev Alnum (c : Char) : Prop := c.isLower = true ∨ c.isUpper = true ∨ c.isDigit = true

theorem snakeOk_case (scr : Bool) {c : Char} (h : Alnum c) : snakeOk scr (toAsciiCase scr c) = true := by
  unfold snakeOk toAsciiCase
  simp only [Alnum, isLower_iff, isUpper_iff, isDigit_iff] at h
  cases scr
  · simp only [Bool.false_eq_true, if_false, Bool.or_eq_true, isLower_iff, isDigit_iff, toNat_toLower]
    split <;> omega
  · simp only [if_true, Bool.or_eq_true, isUpper_iff, isDigit_iff, toNat_toUpper]
    split <;> omega

theorem kebabOk_case {c : Char} (h : Alnum c) : kebabOk c.toLower = true := by
  unfold kebabOk
  simp only [Alnum, isLower_iff, isUpper_iff, isDigit_iff] at h
  simp only [Bool.or_eq_true, isLower_iff, isDigit_iff, toNat_toLower]
  split <;> omega

theorem alnum_not_sep {c : Char} (h : Alnum c) : (c == '-' || c == '_') = false := by
  simp only [Alnum, isLower_iff, isUpper_iff, isDigit_iff] at h
  simp only [Bool.or_eq_false_iff, beq_eq_false_iff_ne, ne_eq, char_eq_iff, minus_nat, under_nat]
  omega

/-- What an attempt looks like behind the first character. -/
def Shape (ok : Char → Bool) (sep : Char) (a : List Char) : Prop :=
  a = [] ∨ Runs ok sep a ∨ ∃ t, a = sep :: t ∧ Runs ok sep t

theorem snakeAttempt_shape (scr : Bool) (s : List Char) (hs : ∀ c ∈ s, Alnum c ∨ c = '-' ∨ c = '_') : ∀ k,
    Shape (snakeOk scr) '_' (snakeAttemptFrom scr (k + 1) s) ∧
    (∀ c ∈ s.head?, Alnum c → ¬ c.isUpper = true → Runs (snakeOk scr) '_' (snakeAttemptFrom scr (k + 1) s)) := by
  induction s with
  | nil => intro k; exact ⟨.inl rfl, by simp⟩
  | cons c rest ih =>
    intro k
    have ih := ih (fun x hx => hs x (by simp [hx])) (k + 1)
    have hidx : ((k + 1 == 0) : Bool) = false := by simp
    rw [snakeAttemptFrom]
    simp only [hidx, Bool.false_or, Bool.false_and, Bool.false_eq_true, if_false]
    by_cases hc : Alnum c
    · have hsep := alnum_not_sep hc
      have hruns : Runs (snakeOk scr) '_' (toAsciiCase scr c :: snakeAttemptFrom scr (k + 1 + 1) rest) :=
        (Runs.cons_iff (snakeOk_sep scr) _ _).2 ⟨snakeOk_case scr hc, ih.1⟩
      simp only [hsep, Bool.and_false, Bool.false_and, Bool.false_eq_true, if_false]
      have hm : ¬ ((c == '-') = true) := by
        intro h; rw [h] at hsep; simp at hsep
      rw [if_neg hm]
      by_cases hu : c.isUpper = true
      · rw [if_pos hu]
        refine ⟨.inr (.inr ⟨_, rfl, hruns⟩), ?_⟩
        intro d hd _ hnu
        cases hd
        exact absurd hu hnu
      · rw [if_neg hu]
        exact ⟨.inr (.inl hruns), fun _ _ _ _ => hruns⟩
    · have hsep : (c == '-' || c == '_') = true := by
        rcases hs c (by simp) with h | h | h
        · exact absurd h hc
        · simp [h]
        · simp [h]
      have hnotUpper : ¬ c.isUpper = true := fun h => hc (.inr (.inl h))
      refine ⟨?_, fun d hd hd' => by cases hd; exact absurd hd' hc⟩
      simp only [hsep, Bool.and_true, Bool.true_and]
      by_cases hr : rest.isEmpty = true
      · rw [if_pos hr]; exact ih.1
      rw [if_neg hr]
      by_cases hn : nextPlacesSep rest.head? = true
      · rw [if_pos hn]; exact ih.1
      rw [if_neg hn]
      have htail : Runs (snakeOk scr) '_' (snakeAttemptFrom scr (k + 1 + 1) rest) := by
        cases rest with
        | nil => simp at hr
        | cons d rest =>
          simp only [List.head?_cons, nextPlacesSep, Bool.or_eq_true, not_or, beq_iff_eq] at hn
          rcases hs d (by simp) with h | h | h
          · exact ih.2 d rfl h hn.2
          · exact absurd h hn.1.2
          · exact absurd h hn.1.1
      have hcase : c = '-' ∨ c = '_' := by simpa using hsep
      rcases hcase with rfl | rfl
      · simp only [beq_self_eq_true, if_true]
        exact .inr (.inr ⟨_, rfl, htail⟩)
      · rw [if_neg (by decide), if_neg hnotUpper]
        refine .inr (.inr ⟨_, ?_, htail⟩)
        cases scr <;> rfl

theorem kebabAttempt_shape (s : List Char) (hs : ∀ c ∈ s, Alnum c ∨ c = '-' ∨ c = '_') : ∀ k,
    Shape kebabOk '-' (kebabAttemptFrom (k + 1) s) ∧
    (∀ c ∈ s.head?, Alnum c → ¬ c.isUpper = true → Runs kebabOk '-' (kebabAttemptFrom (k + 1) s)) := by
  induction s with
  | nil => intro k; exact ⟨.inl rfl, by simp⟩
  | cons c rest ih =>
    intro k
    have ih := ih (fun x hx => hs x (by simp [hx])) (k + 1)
    have hidx : ((k + 1 == 0) : Bool) = false := by simp
    rw [kebabAttemptFrom]
    simp only [hidx, Bool.false_or, Bool.false_and, Bool.false_eq_true, if_false]
    by_cases hc : Alnum c
    · have hsep := alnum_not_sep hc
      have hruns : Runs kebabOk '-' (c.toLower :: kebabAttemptFrom (k + 1 + 1) rest) :=
        (Runs.cons_iff kebabOk_sep _ _).2 ⟨kebabOk_case hc, ih.1⟩
      simp only [hsep, Bool.and_false, Bool.false_and, Bool.false_eq_true, if_false]
      have hm : ¬ ((c == '_') = true) := by
        intro h; rw [h] at hsep; simp at hsep
      rw [if_neg hm]
      by_cases hu : c.isUpper = true
      · rw [if_pos hu]
        refine ⟨.inr (.inr ⟨_, rfl, hruns⟩), ?_⟩
        intro d hd _ hnu
        cases hd
        exact absurd hu hnu
      · rw [if_neg hu]
        exact ⟨.inr (.inl hruns), fun _ _ _ _ => hruns⟩
    · have hsep : (c == '-' || c == '_') = true := by
        rcases hs c (by simp) with h | h | h
        · exact absurd h hc
        · simp [h]
        · simp [h]
      have hnotUpper : ¬ c.isUpper = true := fun h => hc (.inr (.inl h))
      refine ⟨?_, fun d hd hd' => by cases hd; exact absurd hd' hc⟩
      simp only [hsep, Bool.and_true, Bool.true_and]
      by_cases hr : rest.isEmpty = true
      · rw [if_pos hr]; exact ih.1
      rw [if_neg hr]
      by_cases hn : nextPlacesSep rest.head? = true
      · rw [if_pos hn]; exact ih.1
      rw [if_neg hn]
      have htail : Runs kebabOk '-' (kebabAttemptFrom (k + 1 + 1) rest) := by
        cases rest with
        | nil => simp at hr
        | cons d rest =>
          simp only [List.head?_cons, nextPlacesSep, Bool.or_eq_true, not_or, beq_iff_eq] at hn
          rcases hs d (by simp) with h | h | h
          · exact ih.2 d rfl h hn.2
          · exact absurd h hn.1.2
          · exact absurd h hn.1.1
      have hcase : c = '-' ∨ c = '_' := by simpa using hsep
      rcases hcase with rfl | rfl
      · rw [if_neg (by decide), if_neg hnotUpper]
        exact .inr (.inr ⟨_, rfl, htail⟩)
      · simp only [beq_self_eq_true, if_true]
        exact .inr (.inr ⟨_, rfl, htail⟩)

/-- **C51** (snake_case) — Every name that starts with an ASCII letter or digit and consists of
ASCII letters, digits, minus signs and underscores gets a suggestion, however the separators and
uppercase letters are mixed. -/
theorem C51_snake_suggestion_exists (c : Char) (rest : List Char) (screaming : Bool) (hc : Alnum c)
    (hrest : ∀ x ∈ rest, Alnum x ∨ x = '-' ∨ x = '_') :
    ∃ sug, tryMakeSnakeCase (c :: rest) screaming = some sug := by
  have h := (snakeAttempt_shape screaming rest hrest 0).1
  have hattempt : snakeAttemptFrom screaming 0 (c :: rest) =
      toAsciiCase screaming c :: snakeAttemptFrom screaming 1 rest := by
    have hsep := alnum_not_sep hc
    have hm : ¬ ((c == '-') = true) := by intro h; rw [h] at hsep; simp at hsep
    rw [snakeAttemptFrom]
    simp only [hsep, Bool.and_false, Bool.false_and, Bool.false_eq_true, if_false, beq_self_eq_true, Bool.true_and,
      if_neg hm]
    split <;> rfl
  have hv : isValidAsciiAlphaSnakeCase (snakeAttemptFrom screaming 0 (c :: rest)) screaming = true := by
    rw [snake_valid_iff, hattempt]
    exact .inr ((Runs.cons_iff (snakeOk_sep screaming) _ _).2 ⟨snakeOk_case screaming hc, h⟩)
  exact ⟨snakeAttemptFrom screaming 0 (c :: rest), by unfold tryMakeSnakeCase; simp only [hv, if_true]⟩

/-- **C51** (kebab-case). -/
theorem C51_kebab_suggestion_exists (c : Char) (rest : List Char) (hc : Alnum c)
    (hrest : ∀ x ∈ rest, Alnum x ∨ x = '-' ∨ x = '_') :
    ∃ sug, tryMakeKebabCase (c :: rest) = some sug := by
  have h := (kebabAttempt_shape rest hrest 0).1
  have hattempt : kebabAttemptFrom 0 (c :: rest) = c.toLower :: kebabAttemptFrom 1 rest := by
    have hsep := alnum_not_sep hc
    have hm : ¬ ((c == '_') = true) := by intro h; rw [h] at hsep; simp at hsep
    rw [kebabAttemptFrom]
    simp only [hsep, Bool.and_false, Bool.false_and, Bool.false_eq_true, if_false, beq_self_eq_true, Bool.true_and,
      if_neg hm]
    split <;> rfl
  have hv : isValidAlphanumericKebabCase (kebabAttemptFrom 0 (c :: rest)) = true := by
    rw [kebab_valid_iff, hattempt]
    exact .inr (.inl ((Runs.cons_iff kebabOk_sep _ _).2 ⟨kebabOk_case hc, h⟩))
  exact ⟨kebabAttemptFrom 0 (c :: rest), by unfold tryMakeKebabCase; simp only [hv, if_true]⟩

/-- C51, the limits: a leading separator before an uppercase letter, or two leading separators,
leave the name without a suggestion. -/
theorem C51_no_suggestion :
    tryMakeSnakeCase "_Name".toList false = none ∧ tryMakeSnakeCase "__name".toList false = none ∧
    tryMakeKebabCase "-Name".toList = none ∧ tryMakeKebabCase "--name".toList = none := by decide

example : (∀ x ∈ "a-B__C9-".toList.tail, Alnum x ∨ x = '-' ∨ x = '_') ∧ Alnum 'a' ∧
    tryMakeSnakeCase "a-B__C9-".toList false = some "a_b_c9".toList ∧
    tryMakeKebabCase "a-B__C9-".toList = some "a-b-c9".toList := by
  refine ⟨?_, ?_, by decide, by decide⟩ <;> decide

end Ludtwig.Naming
