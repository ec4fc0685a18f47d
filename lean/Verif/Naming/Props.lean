import Verif.Naming.Lemmas

/-! # Naming conventions: properties C28–C32 -/

namespace Ludtwig.Naming

/-- C28: accepted iff empty or runs of digits / letters of the required case joined by single
underscores. -/
theorem C28_snake_valid_iff (s : List Char) (screaming : Bool) :
    isValidAsciiAlphaSnakeCase s screaming = true ↔
      s = [] ∨ Runs (fun c => (if screaming then c.isUpper else c.isLower) || c.isDigit) '_' s :=
  snake_valid_iff s screaming

example : Runs (fun c => c.isLower || c.isDigit) '_' "my_block2".toList :=
  .join "my".toList "block2".toList (by decide) (by decide) (.single _ (by decide) (by decide))

/-- C29, counterexample: the helpers can suggest the empty name (for a name made only of
separators), so the full claim "suggestions are non-empty" is false of the code. -/
theorem C29_suggestion_can_be_empty :
    (∃ s, s ≠ [] ∧ tryMakeSnakeCase s false = some []) ∧
    (∃ s, s ≠ [] ∧ tryMakeKebabCase s = some []) :=
  ⟨⟨['_'], by decide, by decide⟩, ⟨['_'], by decide, by decide⟩⟩

/-- C29 (snake_case): every suggestion is accepted by the check, and it is non-empty whenever the
original contains anything besides separators. -/
theorem C29_snake_suggestion_valid_partial (s sug : List Char) (screaming : Bool)
    (h : tryMakeSnakeCase s screaming = some sug) :
    isValidAsciiAlphaSnakeCase sug screaming = true ∧
      (sug = [] ↔ ∀ c ∈ s, c = '-' ∨ c = '_') :=
  ⟨snake_sug_valid h, snake_sug_nil h⟩

example : tryMakeSnakeCase "MyBlock-Name".toList false = some "my_block_name".toList := by decide

/-- C29 (kebab-case). -/
theorem C29_kebab_suggestion_valid_partial (s sug : List Char)
    (h : tryMakeKebabCase s = some sug) :
    isValidAlphanumericKebabCase sug = true ∧
      (sug = [] ↔ ∀ c ∈ s, c = '-' ∨ c = '_') :=
  ⟨kebab_sug_valid h, kebab_sug_nil h⟩

example : tryMakeKebabCase "myAttr_Name".toList = some "my-attr-name".toList := by decide

/-- C29, converse direction: a name that is already valid snake_case is its own suggestion, so the
helper never proposes to change a conforming name. -/
theorem C29_snake_valid_fixed (s : List Char)
    (h : isValidAsciiAlphaSnakeCase s false = true) : tryMakeSnakeCase s false = some s :=
  snake_fixed h

example : isValidAsciiAlphaSnakeCase "a_b".toList false = true := by decide

/-- Same for kebab-case. -/
theorem C29_kebab_valid_fixed (s : List Char)
    (h : isValidAlphanumericKebabCase s = true) : tryMakeKebabCase s = some s :=
  kebab_fixed h

example : isValidAlphanumericKebabCase "@a-b".toList = true := by decide

/-- C30: accepted iff empty, or runs of lowercase letters and digits joined by single minus signs,
or one of `:` `@` `#` followed by nothing, by such runs, or by one minus sign and such runs. -/
theorem C30_kebab_valid_iff (s : List Char) :
    isValidAlphanumericKebabCase s = true ↔
      s = [] ∨ Runs (fun c => c.isLower || c.isDigit) '-' s ∨
      ∃ p t, s = p :: t ∧ (p = ':' ∨ p = '@' ∨ p = '#') ∧
        (t = [] ∨ Runs (fun c => c.isLower || c.isDigit) '-' t ∨
          ∃ u, t = '-' :: u ∧ Runs (fun c => c.isLower || c.isDigit) '-' u) :=
  kebab_valid_iff s

/-- C31: accepted iff the name is underscores followed by nothing or by a word that starts with an
ASCII lowercase letter and contains neither `_` nor `-`. -/
theorem C31_camel_valid_iff (s : List Char) :
    isCamelCase s = true ↔
      ∃ n w, s = List.replicate n '_' ++ w ∧
        (w = [] ∨ ((∃ c r, w = c :: r ∧ c.isLower = true) ∧ '_' ∉ w ∧ '-' ∉ w)) :=
  camel_valid_iff s

/-- C32: a suggestion has the same non-separator chars in the same order, up to ASCII case. -/
theorem C32_snake_suggestion_keeps_letters (s sug : List Char) (screaming : Bool)
    (h : tryMakeSnakeCase s screaming = some sug) :
    (sug.filter (fun c => c != '-' && c != '_')).map Char.toLower =
      (s.filter (fun c => c != '-' && c != '_')).map Char.toLower :=
  snake_sug_letters h

/-- C32 for kebab-case. -/
theorem C32_kebab_suggestion_keeps_letters (s sug : List Char)
    (h : tryMakeKebabCase s = some sug) :
    (sug.filter (fun c => c != '-' && c != '_')).map Char.toLower =
      (s.filter (fun c => c != '-' && c != '_')).map Char.toLower :=
  kebab_sug_letters h

end Ludtwig.Naming
