import Verif.Naming.Model
import Verif.Naming.Spec

/-! # Naming conventions: helper lemmas -/

namespace Ludtwig.Naming

/-! ## Character facts -/

theorem toNat_toLower (c : Char) :
    c.toLower.toNat = if 65 ≤ c.toNat ∧ c.toNat ≤ 90 then c.toNat + 32 else c.toNat := by
  have h1 : (c.val ≥ 'A'.val ∧ c.val ≤ 'Z'.val) ↔ (65 ≤ c.toNat ∧ c.toNat ≤ 90) := by
    simp only [ge_iff_le, UInt32.le_iff_toNat_le]; exact Iff.rfl
  unfold Char.toLower
  split
  · rename_i h
    rw [if_pos (h1.1 h)]
    have := h1.1 h
    show (c.val + 32).toNat = c.val.toNat + 32
    rw [UInt32.toNat_add]
    have : c.val.toNat ≤ 90 := this.2
    simp; omega
  · rename_i h
    rw [if_neg (fun h' => h (h1.2 h'))]

theorem toNat_toUpper (c : Char) :
    c.toUpper.toNat = if 97 ≤ c.toNat ∧ c.toNat ≤ 122 then c.toNat - 32 else c.toNat := by
  have h1 : (c.val ≥ 'a'.val ∧ c.val ≤ 'z'.val) ↔ (97 ≤ c.toNat ∧ c.toNat ≤ 122) := by
    simp only [ge_iff_le, UInt32.le_iff_toNat_le]; exact Iff.rfl
  unfold Char.toUpper
  split
  · rename_i h
    rw [if_pos (h1.1 h)]
    have h2 := h1.1 h
    have h3 : 97 ≤ c.val.toNat := h2.1
    have h4 : c.val.toNat ≤ 122 := h2.2
    show (c.val + 4294967264).toNat = c.val.toNat - 32
    rw [UInt32.toNat_add]
    simp; omega
  · rename_i h
    rw [if_neg (fun h' => h (h1.2 h'))]

theorem char_eq_iff (c d : Char) : c = d ↔ c.toNat = d.toNat :=
  ⟨fun h => h ▸ rfl, fun h => Char.ext (UInt32.toNat_inj.1 h)⟩

theorem isUpper_iff (c : Char) : c.isUpper = true ↔ 65 ≤ c.toNat ∧ c.toNat ≤ 90 := by
  simp only [Char.isUpper, ge_iff_le, decide_eq_true_eq,
    UInt32.le_iff_toNat_le]; exact Iff.rfl

theorem isLower_iff (c : Char) : c.isLower = true ↔ 97 ≤ c.toNat ∧ c.toNat ≤ 122 := by
  simp only [Char.isLower, ge_iff_le, Bool.and_eq_true, decide_eq_true_eq,
    UInt32.le_iff_toNat_le]; exact Iff.rfl

theorem isDigit_iff (c : Char) : c.isDigit = true ↔ 48 ≤ c.toNat ∧ c.toNat ≤ 57 := by
  simp only [Char.isDigit, ge_iff_le, Bool.and_eq_true, decide_eq_true_eq,
    UInt32.le_iff_toNat_le]; exact Iff.rfl

theorem toLower_idem (c : Char) : c.toLower.toLower = c.toLower := by
  rw [char_eq_iff, toNat_toLower, toNat_toLower]; grind

theorem toLower_toUpper (c : Char) : c.toUpper.toLower = c.toLower := by
  rw [char_eq_iff, toNat_toLower, toNat_toLower, toNat_toUpper]
  grind

theorem toLower_eq_of_not_upper (c : Char) (h : ¬ c.isUpper = true) : c.toLower = c := by
  rw [isUpper_iff] at h
  rw [char_eq_iff, toNat_toLower, if_neg h]

theorem toAsciiCase_toLower (scr : Bool) (c : Char) : (toAsciiCase scr c).toLower = c.toLower := by
  unfold toAsciiCase; split
  · exact toLower_toUpper c
  · exact toLower_idem c

theorem minus_nat : '-'.toNat = 45 := rfl
theorem under_nat : '_'.toNat = 95 := rfl

theorem toAsciiCase_sep (scr : Bool) (c : Char) :
    (toAsciiCase scr c != '-' && toAsciiCase scr c != '_') = (c != '-' && c != '_') := by
  have : ∀ d : Char, (d != '-' && d != '_') = true ↔ d.toNat ≠ 45 ∧ d.toNat ≠ 95 := by
    intro d; simp [bne_iff_ne, char_eq_iff, minus_nat, under_nat]
  rw [Bool.eq_iff_iff, this, this]
  unfold toAsciiCase; split
  · rw [toNat_toUpper]; split <;> omega
  · rw [toNat_toLower]; split <;> omega

/-! ## Runs -/

section
variable {ok : Char → Bool} {sep : Char}

theorem Runs.ne_nil {s : List Char} (h : Runs ok sep s) : s ≠ [] := by
  cases h with
  | single _ h _ => exact h
  | join w s h _ _ => simp

theorem Runs.cons_ok {c : Char} {s : List Char} (hc : ok c = true) (h : Runs ok sep s) :
    Runs ok sep (c :: s) := by
  cases h with
  | single _ h1 h2 => exact .single _ (by simp) (by simpa [hc] using h2)
  | join w s h1 h2 h3 => exact .join (c :: w) s (by simp) (by simpa [hc] using h2) h3

theorem Runs.cons_iff (_hsep : ok sep = false) (c : Char) (rest : List Char) :
    Runs ok sep (c :: rest) ↔
      ok c = true ∧ (rest = [] ∨ Runs ok sep rest ∨ ∃ t, rest = sep :: t ∧ Runs ok sep t) := by
  constructor
  · intro h
    generalize hs : c :: rest = s at h
    cases h with
    | single _ h1 h2 =>
      subst hs
      refine ⟨h2 c (by simp), ?_⟩
      cases rest with
      | nil => exact .inl rfl
      | cons d r => exact .inr (.inl (.single _ (by simp) (fun x hx => h2 x (by simp [hx]))))
    | join w s h1 h2 h3 =>
      cases w with
      | nil => exact absurd rfl h1
      | cons d w' =>
        simp only [List.cons_append, List.cons.injEq] at hs
        obtain ⟨rfl, rfl⟩ := hs
        refine ⟨h2 c (by simp), .inr ?_⟩
        cases w' with
        | nil => exact .inr ⟨s, rfl, h3⟩
        | cons e w'' => exact .inl (.join _ _ (by simp) (fun x hx => h2 x (by simp [hx])) h3)
  · rintro ⟨hc, rfl | h | ⟨t, rfl, h⟩⟩
    · exact .single [c] (by simp) (by simpa using hc)
    · exact h.cons_ok hc
    · exact .join [c] t (by simp) (by simpa using hc) h

end

/-! ## snake_case validity -/

def snakeOk (scr : Bool) (c : Char) : Bool := (if scr then c.isUpper else c.isLower) || c.isDigit

theorem snakeOk_sep (scr : Bool) : snakeOk scr '_' = false := by cases scr <;> decide

theorem validSnakeFrom_succ (scr : Bool) (s : List Char) : ∀ k,
    validSnakeFrom scr (k + 1) s = true ↔
      s = [] ∨ Runs (snakeOk scr) '_' s ∨ ∃ t, s = '_' :: t ∧ Runs (snakeOk scr) '_' t := by
  induction s with
  | nil => intro k; simp [validSnakeFrom]
  | cons c rest ih =>
    intro k
    rw [validSnakeFrom]
    by_cases hc : c = '_'
    · subst hc
      have hno : ¬ Runs (snakeOk scr) '_' ('_' :: rest) := by
        rw [Runs.cons_iff (snakeOk_sep scr)]; simp [snakeOk_sep]
      cases rest with
      | nil =>
        simp only [List.isEmpty_nil, hno]
        simp
        intro h; exact h.ne_nil rfl
      | cons d r =>
        by_cases hd : d = '_'
        · subst hd
          have hno' : ¬ Runs (snakeOk scr) '_' ('_' :: r) := by
            rw [Runs.cons_iff (snakeOk_sep scr)]; simp [snakeOk_sep]
          simp [hno, hno']
        · have := ih (k + 1)
          simp [hno, hd, this]
    · rw [Runs.cons_iff (snakeOk_sep scr)]
      have hcc : (c == '_') = false := by simpa using hc
      have := ih (k + 1)
      by_cases hok : snakeOk scr c = true
      · have : ¬ ((!isAsciiCase scr c && !c.isDigit && c != '_') = true) := by
          simp only [snakeOk, Bool.or_eq_true] at hok
          simp only [isAsciiCase]; cases scr <;> simp at hok ⊢ <;> grind
        simp [hcc, this, hok, hc, ih (k+1)]
      · have : (!isAsciiCase scr c && !c.isDigit && c != '_') = true := by
          simp only [snakeOk, Bool.or_eq_true, not_or] at hok
          simp [isAsciiCase, hc, hok]
        simp [hcc, this, hok, hc]

theorem snake_valid_iff (s : List Char) (scr : Bool) :
    isValidAsciiAlphaSnakeCase s scr = true ↔ s = [] ∨ Runs (snakeOk scr) '_' s := by
  unfold isValidAsciiAlphaSnakeCase
  cases s with
  | nil => simp [validSnakeFrom]
  | cons c rest =>
    rw [validSnakeFrom, Runs.cons_iff (snakeOk_sep scr), ← validSnakeFrom_succ scr rest 0]
    by_cases hc : c = '_'
    · subst hc; simp [snakeOk_sep]
    · have hcc : (c == '_') = false := by simpa using hc
      by_cases hok : snakeOk scr c = true
      · have : ¬ ((!isAsciiCase scr c && !c.isDigit && c != '_') = true) := by
          simp only [snakeOk, Bool.or_eq_true] at hok
          simp only [isAsciiCase]; cases scr <;> simp at hok ⊢ <;> grind
        simp [hcc, this, hok]
      · have : (!isAsciiCase scr c && !c.isDigit && c != '_') = true := by
          simp only [snakeOk, Bool.or_eq_true, not_or] at hok
          simp [isAsciiCase, hc, hok]
        simp [hcc, this, hok]

/-! ## kebab-case validity -/

def kebabOk (c : Char) : Bool := c.isLower || c.isDigit

theorem kebabOk_sep : kebabOk '-' = false := by decide

theorem validKebabFrom_succ (s : List Char) : ∀ k,
    validKebabFrom (k + 1) s = true ↔
      s = [] ∨ Runs kebabOk '-' s ∨ ∃ t, s = '-' :: t ∧ Runs kebabOk '-' t := by
  induction s with
  | nil => intro k; simp [validKebabFrom]
  | cons c rest ih =>
    intro k
    rw [validKebabFrom]
    by_cases hc : c = '-'
    · subst hc
      have hno : ¬ Runs kebabOk '-' ('-' :: rest) := by
        rw [Runs.cons_iff kebabOk_sep]; simp [kebabOk_sep]
      cases rest with
      | nil =>
        simp only [List.isEmpty_nil, hno]
        simp
        intro h; exact h.ne_nil rfl
      | cons d r =>
        by_cases hd : d = '-'
        · subst hd
          have hno' : ¬ Runs kebabOk '-' ('-' :: r) := by
            rw [Runs.cons_iff kebabOk_sep]; simp [kebabOk_sep]
          simp [hno, hno']
        · have := ih (k + 1)
          simp [hno, hd, this]
    · rw [Runs.cons_iff kebabOk_sep]
      have hcc : (c == '-') = false := by simpa using hc
      have := ih (k + 1)
      by_cases hok : kebabOk c = true
      · have h2 : (c.isLower || c.isDigit || c == '-') = true := by
          unfold kebabOk at hok; simp only [hok, Bool.true_or]
        rw [h2, hcc]; simp [hok, hc, ih (k+1)]
      · have h2 : (c.isLower || c.isDigit || c == '-') = false := by
          unfold kebabOk at hok; simp only [Bool.not_eq_true] at hok; rw [hok, hcc]; rfl
        rw [h2, hcc]; simp [hok, hc]

theorem kebab_valid_iff (s : List Char) :
    isValidAlphanumericKebabCase s = true ↔
      s = [] ∨ Runs kebabOk '-' s ∨
      ∃ p t, s = p :: t ∧ (p = ':' ∨ p = '@' ∨ p = '#') ∧
        (t = [] ∨ Runs kebabOk '-' t ∨ ∃ u, t = '-' :: u ∧ Runs kebabOk '-' u) := by
  unfold isValidAlphanumericKebabCase
  cases s with
  | nil => simp [validKebabFrom]
  | cons c rest =>
    rw [validKebabFrom, Runs.cons_iff kebabOk_sep]
    have hex : (∃ p t, c :: rest = p :: t ∧ (p = ':' ∨ p = '@' ∨ p = '#') ∧
        (t = [] ∨ Runs kebabOk '-' t ∨ ∃ u, t = '-' :: u ∧ Runs kebabOk '-' u)) ↔
        (c = ':' ∨ c = '@' ∨ c = '#') ∧ validKebabFrom 1 rest = true := by
      rw [validKebabFrom_succ rest 0]
      constructor
      · rintro ⟨p, t, h, h1, h2⟩; cases h; exact ⟨h1, h2⟩
      · rintro ⟨h1, h2⟩; exact ⟨c, rest, rfl, h1, h2⟩
    rw [hex, ← validKebabFrom_succ rest 0]
    by_cases hc : c = '-'
    · subst hc; simp [kebabOk_sep]
    · have hcc : (c == '-') = false := by simpa using hc
      by_cases hok : kebabOk c = true
      · have h2 : (c.isLower || c.isDigit || [':', '@', '#'].contains c) = true := by
          unfold kebabOk at hok; simp only [hok, Bool.true_or]
        simp only [hcc, h2, hok]; simp
      · have hok' : (c.isLower || c.isDigit) = false := by
          unfold kebabOk at hok; simpa using hok
        by_cases hp : c = ':' ∨ c = '@' ∨ c = '#'
        · have h2 : [':', '@', '#'].contains c = true := by simpa using hp
          simp only [hcc, h2, hok, hp]; simp
        · have h2 : [':', '@', '#'].contains c = false := by simpa using hp
          simp only [hcc, h2, hok, hp, hok']; simp

/-! ## Suggestions -/

theorem snake_sug_eq {s sug : List Char} {scr : Bool} (h : tryMakeSnakeCase s scr = some sug) :
    sug = snakeAttemptFrom scr 0 s ∧ isValidAsciiAlphaSnakeCase sug scr = true := by
  unfold tryMakeSnakeCase at h
  simp only at h
  split at h
  · rename_i hv; cases h; exact ⟨rfl, hv⟩
  · cases h

theorem snake_sug_valid {s sug : List Char} {scr : Bool} (h : tryMakeSnakeCase s scr = some sug) :
    isValidAsciiAlphaSnakeCase sug scr = true := (snake_sug_eq h).2

theorem kebab_sug_eq {s sug : List Char} (h : tryMakeKebabCase s = some sug) :
    sug = kebabAttemptFrom 0 s ∧ isValidAlphanumericKebabCase sug = true := by
  unfold tryMakeKebabCase at h
  simp only at h
  split at h
  · rename_i hv; cases h; exact ⟨rfl, hv⟩
  · cases h

theorem kebab_sug_valid {s sug : List Char} (h : tryMakeKebabCase s = some sug) :
    isValidAlphanumericKebabCase sug = true := (kebab_sug_eq h).2

abbrev letters (s : List Char) : List Char :=
  (s.filter (fun c => c != '-' && c != '_')).map Char.toLower

theorem letters_cons_sep {c : Char} (h : (c == '-' || c == '_') = true) (s : List Char) :
    letters (c :: s) = letters s := by
  simp at h
  rcases h with rfl | rfl <;> simp [letters]

theorem letters_cons_not {c d : Char} {s t : List Char} (h : letters s = letters t)
    (hcd : (c != '-' && c != '_') = (d != '-' && d != '_')) (hl : c.toLower = d.toLower) :
    letters (c :: s) = letters (d :: t) := by
  unfold letters at *
  simp only [List.filter_cons, hcd]
  split
  · simp [h, hl]
  · exact h

theorem snakeAttempt_letters (scr : Bool) (s : List Char) : ∀ k,
    letters (snakeAttemptFrom scr k s) = letters s := by
  induction s with
  | nil => intro k; rfl
  | cons c rest ih =>
    intro k
    rw [snakeAttemptFrom]
    have ih' := ih (k + 1)
    have hkeep : letters (toAsciiCase scr c :: snakeAttemptFrom scr (k+1) rest) = letters (c :: rest) :=
      letters_cons_not ih' (toAsciiCase_sep scr c) (toAsciiCase_toLower scr c)
    split
    · rename_i h; rw [ih', letters_cons_sep]; simp at h ⊢; exact h.2
    · split
      · exact hkeep
      · split
        · rename_i h; rw [ih', letters_cons_sep]; simp only [Bool.and_eq_true] at h; exact h.1
        · split
          · rename_i h; rw [letters_cons_sep (by simp), ih', letters_cons_sep]; rw [h]; rfl
          · split
            · rw [letters_cons_sep (by simp)]; exact hkeep
            · exact hkeep

theorem toLower_sep (c : Char) :
    (c.toLower != '-' && c.toLower != '_') = (c != '-' && c != '_') := toAsciiCase_sep false c

theorem kebabAttempt_letters (s : List Char) : ∀ k,
    letters (kebabAttemptFrom k s) = letters s := by
  induction s with
  | nil => intro k; rfl
  | cons c rest ih =>
    intro k
    rw [kebabAttemptFrom]
    have ih' := ih (k + 1)
    have hkeep : letters (c.toLower :: kebabAttemptFrom (k+1) rest) = letters (c :: rest) :=
      letters_cons_not ih' (toLower_sep c) (toLower_idem c)
    split
    · rename_i h; rw [ih', letters_cons_sep]; simp at h ⊢; exact h.2
    · split
      · exact hkeep
      · split
        · rename_i h; rw [ih', letters_cons_sep]; simp only [Bool.and_eq_true] at h; exact h.1
        · split
          · rename_i h; rw [letters_cons_sep (by simp), ih', letters_cons_sep]; rw [h]; simp
          · split
            · rw [letters_cons_sep (by simp)]; exact hkeep
            · exact hkeep

theorem snake_sug_letters {s sug : List Char} {scr : Bool}
    (h : tryMakeSnakeCase s scr = some sug) : letters sug = letters s := by
  rw [(snake_sug_eq h).1]; exact snakeAttempt_letters scr s 0

theorem kebab_sug_letters {s sug : List Char}
    (h : tryMakeKebabCase s = some sug) : letters sug = letters s := by
  rw [(kebab_sug_eq h).1]; exact kebabAttempt_letters s 0

theorem letters_nil_iff (s : List Char) : letters s = [] ↔ ∀ c ∈ s, c = '-' ∨ c = '_' := by
  simp only [letters, List.map_eq_nil_iff, List.filter_eq_nil_iff]
  constructor
  · intro h c hc
    have := h c hc
    simp at this
    by_cases h1 : c = '-'
    · exact .inl h1
    · exact .inr (this h1)
  · intro h c hc
    rcases h c hc with rfl | rfl <;> simp

theorem Runs.first_ok {ok : Char → Bool} {sep : Char} {s : List Char} (h : Runs ok sep s) :
    ∃ c ∈ s, ok c = true := by
  cases h with
  | single _ h1 h2 =>
    cases s with
    | nil => exact absurd rfl h1
    | cons c r => exact ⟨c, by simp, h2 c (by simp)⟩
  | join w s h1 h2 _ =>
    cases w with
    | nil => exact absurd rfl h1
    | cons c r => exact ⟨c, by simp, h2 c (by simp)⟩

theorem letters_of_ok {s : List Char} {c : Char} (hc : c ∈ s) (h : c ≠ '-' ∧ c ≠ '_') :
    letters s ≠ [] := by
  rw [Ne, letters_nil_iff]
  intro h'
  rcases h' c hc with h'' | h''
  · exact h.1 h''
  · exact h.2 h''

theorem ok_not_sep {c : Char} (h : c.isLower = true ∨ c.isUpper = true ∨ c.isDigit = true) :
    c ≠ '-' ∧ c ≠ '_' := by
  constructor <;> (rintro rfl; revert h; decide)

theorem snake_sug_nil {s sug : List Char} {scr : Bool}
    (h : tryMakeSnakeCase s scr = some sug) : sug = [] ↔ ∀ c ∈ s, c = '-' ∨ c = '_' := by
  rw [← letters_nil_iff, ← snake_sug_letters h]
  constructor
  · rintro rfl; rfl
  · intro hl
    rcases (snake_valid_iff sug scr).1 (snake_sug_valid h) with h' | h'
    · exact h'
    · obtain ⟨c, hc, hok⟩ := h'.first_ok
      exfalso
      refine letters_of_ok hc (ok_not_sep ?_) hl
      unfold snakeOk at hok
      cases scr <;> simp at hok <;> grind

theorem kebab_sug_nil {s sug : List Char}
    (h : tryMakeKebabCase s = some sug) : sug = [] ↔ ∀ c ∈ s, c = '-' ∨ c = '_' := by
  rw [← letters_nil_iff, ← kebab_sug_letters h]
  constructor
  · rintro rfl; rfl
  · intro hl
    rcases (kebab_valid_iff sug).1 (kebab_sug_valid h) with h' | h' | ⟨p, t, rfl, hp, _⟩
    · exact h'
    · obtain ⟨c, hc, hok⟩ := h'.first_ok
      exfalso
      refine letters_of_ok hc (ok_not_sep ?_) hl
      unfold kebabOk at hok
      simp at hok; grind
    · exfalso
      refine letters_of_ok (c := p) (by simp) ?_ hl
      rcases hp with rfl | rfl | rfl <;> decide

/-! ## Valid names are fixed points -/

theorem not_upper_of_lower {c : Char} (h : c.isLower = true) : c.isUpper = false := by
  rw [isLower_iff] at h
  rw [Bool.eq_false_iff, Ne, isUpper_iff]; omega

theorem not_upper_of_digit {c : Char} (h : c.isDigit = true) : c.isUpper = false := by
  rw [isDigit_iff] at h
  rw [Bool.eq_false_iff, Ne, isUpper_iff]; omega

theorem kebabOk_facts {c : Char} (h : kebabOk c = true) :
    c.isUpper = false ∧ c.toLower = c ∧ c ≠ '-' ∧ c ≠ '_' := by
  unfold kebabOk at h; simp at h
  have hu : c.isUpper = false := h.elim not_upper_of_lower not_upper_of_digit
  exact ⟨hu, toLower_eq_of_not_upper c (by simp [hu]), ok_not_sep (by grind)⟩

theorem Runs.head_ok {ok : Char → Bool} {sep : Char} {s : List Char} (h : Runs ok sep s) :
    ∃ c r, s = c :: r ∧ ok c = true := by
  cases h with
  | single _ h1 h2 =>
    cases s with
    | nil => exact absurd rfl h1
    | cons c r => exact ⟨c, r, rfl, h2 c (by simp)⟩
  | join w s h1 h2 _ =>
    cases w with
    | nil => exact absurd rfl h1
    | cons c r => exact ⟨c, r ++ sep :: s, rfl, h2 c (by simp)⟩

theorem snakeAttempt_fixed (s : List Char) : ∀ k,
    (s = [] ∨ Runs kebabOk '_' s ∨ ∃ t, s = '_' :: t ∧ Runs kebabOk '_' t) →
    snakeAttemptFrom false (k + 1) s = s := by
  induction s with
  | nil => intro k _; rfl
  | cons c rest ih =>
    intro k h
    rw [snakeAttemptFrom]
    rcases h with h | h | ⟨t, ht, h⟩
    · cases h
    · rw [Runs.cons_iff (by decide)] at h
      obtain ⟨h1, h2, h3, h4⟩ := kebabOk_facts h.1
      simp [ih (k+1) h.2, h1, h2, h3, h4, toAsciiCase]
    · cases ht
      obtain ⟨d, r, rfl, hd⟩ := h.head_ok
      obtain ⟨h1, h2, h3, h4⟩ := kebabOk_facts hd
      have := ih (k + 1) (.inr (.inl h))
      rw [this]
      simp [nextPlacesSep, h1, h3, h4, toAsciiCase, toLower_eq_of_not_upper '_' (by decide)]

theorem snakeOk_false : snakeOk false = kebabOk := by
  funext c; simp [snakeOk, kebabOk]

theorem snake_fixed {s : List Char} (h : isValidAsciiAlphaSnakeCase s false = true) :
    tryMakeSnakeCase s false = some s := by
  have : snakeAttemptFrom false 0 s = s := by
    rw [snake_valid_iff, snakeOk_false] at h
    rcases h with rfl | h
    · rfl
    · cases s with
      | nil => rfl
      | cons c rest =>
        rw [Runs.cons_iff (by decide)] at h
        obtain ⟨h1, h2, h3, h4⟩ := kebabOk_facts h.1
        rw [snakeAttemptFrom]
        simp [snakeAttempt_fixed rest 0 h.2, h1, h2, h3, h4, toAsciiCase]
  simp [tryMakeSnakeCase, this, h]

theorem kebabAttempt_fixed (s : List Char) : ∀ k,
    (s = [] ∨ Runs kebabOk '-' s ∨ ∃ t, s = '-' :: t ∧ Runs kebabOk '-' t) →
    kebabAttemptFrom (k + 1) s = s := by
  induction s with
  | nil => intro k _; rfl
  | cons c rest ih =>
    intro k h
    rw [kebabAttemptFrom]
    rcases h with h | h | ⟨t, ht, h⟩
    · cases h
    · rw [Runs.cons_iff (by decide)] at h
      obtain ⟨h1, h2, h3, h4⟩ := kebabOk_facts h.1
      simp [ih (k+1) h.2, h1, h2, h3, h4]
    · cases ht
      obtain ⟨d, r, rfl, hd⟩ := h.head_ok
      obtain ⟨h1, h2, h3, h4⟩ := kebabOk_facts hd
      have := ih (k + 1) (.inr (.inl h))
      rw [this]
      simp [nextPlacesSep, h1, h3, h4, toLower_eq_of_not_upper '-' (by decide)]

theorem kebab_fixed {s : List Char} (h : isValidAlphanumericKebabCase s = true) :
    tryMakeKebabCase s = some s := by
  have : kebabAttemptFrom 0 s = s := by
    have h' := h
    rw [kebab_valid_iff] at h'
    rcases h' with rfl | h' | ⟨p, t, rfl, hp, ht⟩
    · rfl
    · cases s with
      | nil => rfl
      | cons c rest =>
        rw [Runs.cons_iff (by decide)] at h'
        obtain ⟨h1, h2, h3, h4⟩ := kebabOk_facts h'.1
        rw [kebabAttemptFrom]
        simp [kebabAttempt_fixed rest 0 h'.2, h1, h2, h3, h4]
    · rw [kebabAttemptFrom, kebabAttempt_fixed t 0 ht]
      rcases hp with rfl | rfl | rfl <;> simp
  simp [tryMakeKebabCase, this, h]

/-! ## camelCase -/

theorem trimStart_spec (s : List Char) :
    ∃ n, s = List.replicate n '_' ++ trimStartUnderscores s ∧
      (trimStartUnderscores s).head? ≠ some '_' := by
  induction s with
  | nil => exact ⟨0, rfl, by simp [trimStartUnderscores]⟩
  | cons c rest ih =>
    by_cases hc : c = '_'
    · subst hc
      obtain ⟨n, h1, h2⟩ := ih
      refine ⟨n + 1, ?_, by rw [trimStartUnderscores]; exact h2⟩
      rw [trimStartUnderscores, List.replicate_succ, List.cons_append, ← h1]
    · refine ⟨0, ?_, ?_⟩
      · rw [trimStartUnderscores]; rfl
        intro r h; cases h; exact hc rfl
      · rw [trimStartUnderscores]
        · simpa using hc
        · intro r h; cases h; exact hc rfl

theorem trimStart_unique (n : Nat) (w : List Char) (h : w.head? ≠ some '_') :
    trimStartUnderscores (List.replicate n '_' ++ w) = w := by
  induction n with
  | zero =>
    cases w with
    | nil => rfl
    | cons c r =>
      rw [List.replicate_zero, List.nil_append, trimStartUnderscores]
      intro r' h'; cases h'; simp at h
  | succ n ih => rw [List.replicate_succ, List.cons_append, trimStartUnderscores]; exact ih

theorem camel_valid_iff (s : List Char) :
    isCamelCase s = true ↔
      ∃ n w, s = List.replicate n '_' ++ w ∧
        (w = [] ∨ ((∃ c r, w = c :: r ∧ c.isLower = true) ∧ '_' ∉ w ∧ '-' ∉ w)) := by
  have key : isCamelCase s = true ↔ (trimStartUnderscores s = [] ∨
      ((∃ c r, trimStartUnderscores s = c :: r ∧ c.isLower = true) ∧
        '_' ∉ trimStartUnderscores s ∧ '-' ∉ trimStartUnderscores s)) := by
    unfold isCamelCase
    cases trimStartUnderscores s with
    | nil => simp
    | cons c r => 
      by_cases hl : c.isLower = true <;> simp [hl]
  rw [key]
  constructor
  · intro h
    obtain ⟨n, h1, _⟩ := trimStart_spec s
    exact ⟨n, _, h1, h⟩
  · rintro ⟨n, w, rfl, h⟩
    have : w.head? ≠ some '_' := by
      rcases h with rfl | ⟨⟨c, r, rfl, _⟩, h2, _⟩
      · simp
      · intro h'; simp at h'; subst h'; simp at h2
    rw [trimStart_unique n w this]; exact h

end Ludtwig.Naming
