import Verif.Parser.Lexer

/-!
# Lemmas about the lexer
-/

namespace Ludtwig.Lexer

theorem spanLen_le (p : Char → Bool) (s : Text) : spanLen p s ≤ s.length :=
  (List.takeWhile_prefix p).length_le

theorem lineBreakLen_le (s : Text) : lineBreakLen s ≤ s.length := by
  fun_induction lineBreakLen s <;> simp <;> omega

theorem wordLen_le (s : Text) : wordLen s ≤ s.length := by
  unfold wordLen
  split
  · simp
  · rename_i c s
    have := spanLen_le isWordChar s
    split
    · simp; omega
    · split
      · split
        · rename_i d s
          have := spanLen_le isWordChar s
          split <;> simp; omega
        · simp
      · simp

theorem componentGroups_le (a : Bool) (n best : Nat) (s : Text) (h : best ≤ n) :
    componentGroups a n best s ≤ n + s.length := by
  induction s generalizing a n best with
  | nil => simp [componentGroups, h]
  | cons c s ih =>
    unfold componentGroups
    split
    · have := ih false (n + 1) (n + 1) (Nat.le_refl _); simp; omega
    · split
      · have := ih true (n + 1) best (by omega); simp; omega
      · simp; omega

theorem componentNameLen_le (s : Text) : componentNameLen s ≤ s.length := by
  unfold componentNameLen
  split
  · rename_i s
    have := componentGroups_le true 1 0 s (by omega)
    dsimp only
    split <;> simp; omega
  · simp

theorem fractionLen_le (s : Text) : fractionLen s ≤ s.length := by
  unfold fractionLen
  split
  · rename_i t
    have := spanLen_le isDigit t
    dsimp only
    split <;> simp; omega
  · omega

theorem exponentLen_le (s : Text) : exponentLen s ≤ s.length := by
  unfold exponentLen
  split
  · rename_i e sign t
    have := spanLen_le isDigit t
    split
    · dsimp only
      split <;> simp; omega
    · omega
  · omega

theorem numberLen_le (s : Text) : numberLen s ≤ s.length := by
  unfold numberLen
  have h0 := spanLen_le isDigit s
  dsimp only
  split
  · simp
  · have h1 := fractionLen_le (s.drop (spanLen isDigit s))
    have h2 := exponentLen_le (s.drop (spanLen isDigit s + fractionLen (s.drop (spanLen isDigit s))))
    simp only [List.length_drop] at h1 h2
    omega

theorem escapeLen_le (s : Text) : escapeLen s ≤ s.length := by
  unfold escapeLen
  split
  · rename_i t
    dsimp only
    split
    · rename_i h
      simp only [Bool.and_eq_true, beq_iff_eq] at h
      have := congrArg (·.isSome) h.2
      cases hd : List.drop (spanLen isHex t) t with
      | nil => simp [hd] at h
      | cons x y => have := congrArg List.length hd; simp at this; simp; omega
    · omega
  · rename_i t _
    dsimp only
    split
    · rename_i h
      simp only [Bool.and_eq_true, beq_iff_eq] at h
      cases hd : List.drop (spanLen isDigit t) t with
      | nil => simp [hd] at h
      | cons x y => have := congrArg List.length hd; simp at this; simp; omega
    · omega
  · rename_i c t _ _
    split
    · dsimp only
      split
      · rename_i h
        cases hd : List.drop (spanLen isAlnum t) t with
        | nil => simp [hd] at h
        | cons x y => have := congrArg List.length hd; simp at this; simp; omega
      · omega
    · omega
  · omega

theorem literalMatches_le {l : Literal} {s : Text} (h : literalMatches l s = true) :
    l.text.length ≤ s.length := by
  unfold literalMatches at h
  split at h
  · have := (List.isPrefixOf_iff_prefix.1 h).length_le
    simpa using this
  · exact (List.isPrefixOf_iff_prefix.1 h).length_le

theorem candidates_le {s : Text} {n : Nat} {k : SyntaxKind} (h : (n, k) ∈ candidates s) :
    n ≤ s.length := by
  simp only [candidates, List.mem_append, List.mem_map, List.mem_filter, List.mem_cons,
    List.not_mem_nil, or_false, Prod.mk.injEq] at h
  rcases h with ⟨l, ⟨_, h1⟩, rfl, _⟩ | h
  · exact literalMatches_le h1
  · rcases h with ⟨rfl, _⟩ | ⟨rfl, _⟩ | ⟨rfl, _⟩ | ⟨rfl, _⟩ | ⟨rfl, _⟩ | ⟨rfl, _⟩
    · exact spanLen_le _ _
    · exact lineBreakLen_le _
    · exact wordLen_le _
    · exact componentNameLen_le _
    · exact numberLen_le _
    · exact escapeLen_le _

theorem longest_mem {l : List (Nat × SyntaxKind)} {n : Nat} {k : SyntaxKind}
    (h : longest l = some (n, k)) : (n, k) ∈ l ∧ 0 < n ∧ ∀ m k', (m, k') ∈ l → m ≤ n := by
  induction l generalizing n k with
  | nil => simp [longest] at h
  | cons x l ih =>
    obtain ⟨m, k'⟩ := x
    simp only [longest] at h
    split at h
    · rename_i m' k'' heq
      obtain ⟨h1, h2, h3⟩ := ih heq
      split at h
      · simp at h
        obtain ⟨rfl, rfl⟩ := h
        refine ⟨by simp, by omega, fun m k h => ?_⟩
        simp at h
        rcases h with ⟨rfl, _⟩ | h
        · omega
        · have := h3 m k h; omega
      · simp at h
        obtain ⟨rfl, rfl⟩ := h
        refine ⟨by simp [h1], h2, fun m k h => ?_⟩
        simp at h
        rcases h with ⟨rfl, _⟩ | h
        · omega
        · exact h3 m k h
    · rename_i heq
      split at h
      · cases h
      · rename_i hm
        simp at h hm
        obtain ⟨rfl, rfl⟩ := h
        refine ⟨by simp, by omega, fun m k h => ?_⟩
        simp at h
        rcases h with ⟨rfl, _⟩ | h
        · omega
        · by_cases h0 : m = 0
          · omega
          · exfalso
            clear hm
            revert heq
            clear ih
            induction l with
            | nil => simp at h
            | cons y l ih2 =>
              obtain ⟨a, b⟩ := y
              intro heq
              simp only [longest] at heq
              split at heq
              · split at heq <;> cases heq
              · rename_i heq2
                split at heq
                · rename_i ha
                  simp at ha
                  simp at h
                  rcases h with ⟨rfl, _⟩ | h
                  · omega
                  · exact ih2 h heq2
                · cases heq

theorem lexOne_bounds {errLen : Text → Nat} (he : ErrLenOk errLen) {s : Text} (hs : s ≠ []) :
    1 ≤ (lexOne errLen s).1 ∧ (lexOne errLen s).1 ≤ s.length := by
  unfold lexOne
  split
  · exact he s hs
  · rename_i n k heq
    obtain ⟨h1, h2, _⟩ := longest_mem heq
    have h3 := candidates_le h1
    split
    · rename_i h
      simp only [Bool.and_eq_true] at h
      have := (List.isPrefixOf_iff_prefix.1 h.1.2).length_le
      simp at this
      exact ⟨by simp, by dsimp only; omega⟩
    · split
      · rename_i h
        simp only [Bool.and_eq_true] at h
        have := (List.isPrefixOf_iff_prefix.1 h.1.2).length_le
        simp at this
        exact ⟨by simp, by dsimp only; omega⟩
      · exact ⟨h2, h3⟩

/-- The tokens of a text, described step by step. -/
inductive LexRun (errLen : Text → Nat) : Nat → Text → List Token → Prop
  | nil (offset) : LexRun errLen offset [] []
  | cons {offset pre post k ts} : lexOne errLen (pre ++ post) = (pre.length, k) → pre ≠ [] →
      LexRun errLen (offset + byteLen pre) post ts →
      LexRun errLen offset (pre ++ post) (⟨k, pre, ⟨offset, offset + byteLen pre⟩⟩ :: ts)

theorem lexFrom_run {errLen : Text → Nat} (he : ErrLenOk errLen) : ∀ (fuel offset : Nat) (s : Text),
    s.length ≤ fuel → LexRun errLen offset s (lexFrom errLen fuel offset s) := by
  intro fuel
  induction fuel with
  | zero =>
    intro offset s hs
    cases s with
    | nil => exact .nil _
    | cons c s => simp at hs
  | succ fuel ih =>
    intro offset s hs
    cases s with
    | nil => exact .nil _
    | cons c s =>
      have hb := lexOne_bounds he (s := c :: s) (by simp)
      unfold lexFrom
      cases hl : lexOne errLen (c :: s) with
      | mk n k =>
        rw [hl] at hb
        dsimp only at hb ⊢
        have h1 := ih (offset + byteLen ((c :: s).take n)) ((c :: s).drop n)
          (by simp at hs; simp; omega)
        have h2 : (c :: s) = (c :: s).take n ++ (c :: s).drop n := (List.take_append_drop _ _).symm
        have h3 : ((c :: s).take n).length = n := by simp at hb; simp; omega
        have h4 : lexOne errLen ((c :: s).take n ++ (c :: s).drop n) =
            (((c :: s).take n).length, k) := by rw [← h2, h3, hl]
        have h5 : (c :: s).take n ≠ [] := by intro h0; rw [h0] at h3; simp at h3; omega
        have h6 := LexRun.cons h4 h5 h1
        rwa [← h2] at h6

theorem lex_run {errLen : Text → Nat} (he : ErrLenOk errLen) (s : Text) :
    LexRun errLen 0 s (lex errLen s) := lexFrom_run he _ _ _ (Nat.le_refl _)

end Ludtwig.Lexer
