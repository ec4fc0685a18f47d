import Verif.Basic.Text

/-! # Lemmas about texts and byte offsets -/

namespace Ludtwig

theorem byteLen_append (a b : Text) : byteLen (a ++ b) = byteLen a + byteLen b := by
  induction a with
  | nil => simp [byteLen]
  | cons c a ih => simp [byteLen, ih]; omega

@[simp] theorem byteLen_nil : byteLen [] = 0 := rfl

theorem splitAtByte_append (pre s : Text) (n : Nat) :
    splitAtByte (byteLen pre + n) (pre ++ s) =
      (splitAtByte n s).map (fun p => (pre ++ p.1, p.2)) := by
  induction pre with
  | nil => simp [Option.map_id']
  | cons c pre ih =>
    have hc := c.utf8Size_pos
    obtain ⟨k, hk⟩ : ∃ k, byteLen (c :: pre) + n = k + 1 :=
      ⟨byteLen (c :: pre) + n - 1, by simp [byteLen]; omega⟩
    rw [hk, List.cons_append, splitAtByte]
    have h1 : c.utf8Size ≤ k + 1 := by rw [← hk]; simp [byteLen]; omega
    have h2 : k + 1 - c.utf8Size = byteLen pre + n := by rw [← hk]; simp [byteLen]; omega
    rw [if_pos h1, h2, ih]
    cases splitAtByte n s <;> simp

theorem splitAtByte_zero (s : Text) : splitAtByte 0 s = some ([], s) := by
  cases s <;> rfl

theorem splitAtByte_prefix (pre s : Text) :
    splitAtByte (byteLen pre) (pre ++ s) = some (pre, s) := by
  have := splitAtByte_append pre s 0
  simpa [splitAtByte_zero] using this

theorem splitAtByte_some {n : Nat} {s a b : Text} (h : splitAtByte n s = some (a, b)) :
    s = a ++ b ∧ byteLen a = n := by
  induction s generalizing n a b with
  | nil =>
    cases n with
    | zero => simp [splitAtByte] at h; simp [h]
    | succ n => simp [splitAtByte] at h
  | cons c s ih =>
    cases n with
    | zero => simp [splitAtByte] at h; obtain ⟨rfl, rfl⟩ := h; simp
    | succ n =>
      rw [splitAtByte] at h
      split at h
      · rename_i hc
        cases hs : splitAtByte (n + 1 - c.utf8Size) s with
        | none => simp [hs] at h
        | some p =>
          simp [hs] at h
          obtain ⟨h1, h2⟩ := h
          have := ih (a := p.1) (b := p.2) hs
          subst h1; subst h2
          refine ⟨by rw [List.cons_append, ← this.1], by simp [byteLen, this.2]; omega⟩
      · cases h

/-- `n` is a char boundary of `s` (including 0 and the end). -/
def OnBoundary (s : Text) (n : Nat) : Prop := ∃ a b, s = a ++ b ∧ byteLen a = n

theorem onBoundary_iff (s : Text) (n : Nat) :
    OnBoundary s n ↔ (splitAtByte n s).isSome = true := by
  constructor
  · rintro ⟨a, b, rfl, rfl⟩; rw [splitAtByte_prefix]; rfl
  · intro h
    obtain ⟨p, hp⟩ := Option.isSome_iff_exists.1 h
    exact ⟨p.1, p.2, splitAtByte_some hp⟩

/-- Two splits of the same text: the earlier one is a prefix of the later one. -/
theorem split_le {a b a' b' : Text} (h : a ++ b = a' ++ b') (hl : byteLen a ≤ byteLen a') :
    ∃ m, a' = a ++ m ∧ b = m ++ b' := by
  induction a generalizing a' with
  | nil => exact ⟨a', rfl, by simpa using h⟩
  | cons c a ih =>
    cases a' with
    | nil =>
      have := c.utf8Size_pos
      simp [byteLen] at hl; omega
    | cons c' a' =>
      simp only [List.cons_append, List.cons.injEq] at h
      obtain ⟨rfl, h⟩ := h
      obtain ⟨m, h1, h2⟩ := ih h (by simp [byteLen] at hl; exact hl)
      exact ⟨m, by rw [h1]; rfl, h2⟩

theorem split_eq {a b a' b' : Text} (h : a ++ b = a' ++ b') (hl : byteLen a = byteLen a') :
    a = a' ∧ b = b' := by
  obtain ⟨m, h1, h2⟩ := split_le h (Nat.le_of_eq hl)
  cases m with
  | nil => simp_all
  | cons c m =>
    have := c.utf8Size_pos
    rw [h1, byteLen_append] at hl
    simp [byteLen] at hl; omega

theorem replaceRange_mid (pre old post new : Text) :
    replaceRange (pre ++ (old ++ post)) ⟨byteLen pre, byteLen pre + byteLen old⟩ new =
      some (pre ++ new ++ post) := by
  unfold replaceRange
  have h : ¬ (byteLen pre + byteLen old < byteLen pre) := by omega
  simp only [h, if_false, splitAtByte_prefix]
  rw [show byteLen pre + byteLen old - byteLen pre = byteLen old by omega, splitAtByte_prefix]

end Ludtwig
