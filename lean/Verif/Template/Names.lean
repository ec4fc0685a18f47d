import Verif.Template.Spec
import Verif.Grammar.Html

/-!
# The names of the specification and of the model (proof device for C73)
-/

namespace Ludtwig.Template

theorem letter_iff {c : Char} : Letter c ↔ isAsciiAlpha c = true := by
  simp [Letter, isAsciiAlpha]

theorem digit_iff {c : Char} : Digit c ↔ isAsciiDigit c = true := by
  simp [Digit, isAsciiDigit]

theorem nameOf_iff {first other : Char → Prop} {f o : Char → Bool} (hf : ∀ c, first c ↔ f c = true) (ho : ∀ c, other c ↔ o c = true)
    {s : Text} : NameOf first other s ↔ matchesName f o s = true := by
  cases s with
  | nil => simp [NameOf, matchesName]
  | cons c cs =>
    simp only [NameOf, matchesName, List.cons.injEq, Bool.and_eq_true, List.all_eq_true, ← hf, ← ho]
    constructor
    · rintro ⟨_, _, ⟨rfl, rfl⟩, h⟩
      exact h
    · exact fun h => ⟨_, _, ⟨rfl, rfl⟩, h⟩

theorem twigName_iff {s : Text} : TwigName s ↔ isTwigName s = true :=
  nameOf_iff (fun c => by simp [TwigLetter, letter_iff, isHighLatin, or_assoc])
    (fun c => by simp only [TwigLetter, letter_iff, digit_iff, isHighLatin, Bool.or_eq_true, Bool.and_eq_true, decide_eq_true_eq, beq_iff_eq]; grind)

theorem IsName.text {t : Token} (h : IsName t) : isTwigName t.text = true := twigName_iff.1 h.2

theorem elementName_iff {s : Text} : ElementName s ↔ isHtmlTagName s = true :=
  nameOf_iff (fun c => letter_iff) (fun c => by simp [letter_iff, digit_iff, or_assoc])

theorem attributeName_iff {s : Text} : AttributeName s ↔ isHtmlAttributeName s = true := by
  have key : ∀ s, NameOf Letter (fun c => Letter c ∨ Digit c ∨ c = '_' ∨ c = '-') s ↔ matchesName isAsciiAlpha isAttributeNameChar s = true :=
    fun s => nameOf_iff (fun c => letter_iff) (fun c => by simp [letter_iff, digit_iff, isAttributeNameChar, or_assoc])
  cases s with
  | nil =>
    simp only [isHtmlAttributeName, Bool.false_eq_true, iff_false]
    rintro ⟨pre, name, h, _, c, cs, rfl, _⟩
    simp at h
  | cons c cs =>
    rw [show isHtmlAttributeName (c :: cs) = if isAsciiAlpha c then cs.all isAttributeNameChar
      else if c == ':' || c == '@' || c == '#' || c == '_' || c == '$' then matchesName isAsciiAlpha isAttributeNameChar cs else false from rfl]
    constructor
    · rintro ⟨pre, name, h, hp, hn⟩
      rw [key] at hn
      simp only [List.mem_cons, List.not_mem_nil, or_false] at hp
      rcases hp with rfl | rfl | rfl | rfl | rfl | rfl
      · rw [List.nil_append] at h
        subst h
        simp only [matchesName, Bool.and_eq_true] at hn
        rw [if_pos hn.1]
        exact hn.2
      all_goals
        cases h
        exact hn
    · intro h
      split at h
      · rename_i hc
        exact ⟨[], c :: cs, rfl, by simp, (key _).2 (by rw [matchesName, hc, h]; rfl)⟩
      · split at h
        · rename_i hc
          refine ⟨[c], cs, rfl, ?_, (key _).2 h⟩
          simp only [Bool.or_eq_true, beq_iff_eq] at hc
          rcases hc with (((hc | hc) | hc) | hc) | hc <;> subst hc <;> decide
        · cases h

theorem lower_eq (c : Char) : c.toLower = asciiLower c := by
  by_cases h : 'A' ≤ c ∧ c ≤ 'Z'
  · have key : ∀ n < 91, (Char.ofNat n).toLower = asciiLower (Char.ofNat n) := by decide +kernel
    have := key c.toNat (by have := h.2; rw [Char.le_def, UInt32.le_iff_toNat_le] at this; exact Nat.lt_succ_of_le this)
    rwa [Char.ofNat_toNat] at this
  · have h1 : ¬ (c.val ≥ 'A'.val ∧ c.val ≤ 'Z'.val) := h
    have h2 : ¬ (decide ('A' ≤ c) && decide (c ≤ 'Z')) = true := by simpa using h
    rw [Char.toLower, dif_neg h1, asciiLower, if_neg h2]

theorem isVoid_iff {t : Token} : IsVoid t ↔ t.text.map asciiLower ∈ htmlVoidElements := by
  unfold IsVoid
  rw [show Char.toLower = asciiLower from funext lower_eq]
  rfl

theorem isRaw_iff {t : Token} : IsRaw t ↔ t.text.map asciiLower ∈ htmlRawTextElements := by
  unfold IsRaw
  rw [show Char.toLower = asciiLower from funext lower_eq]
  rfl

end Ludtwig.Template
