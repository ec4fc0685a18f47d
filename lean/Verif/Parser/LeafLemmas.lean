import Verif.Parser.ParseProps

/-!
# The leaves of a parsed file

Lemmas: what the kind of a leaf says about its text.
-/

namespace Ludtwig

open Lexer

theorem covers_token {ls : List (SyntaxKind × Text)} {ts : List Token} (hc : Covers ls ts)
    {k : SyntaxKind} {t : Text} (hk : k ≠ T!"word") (h : (k, t) ∈ ls) :
    ∃ tok ∈ ts, tok.kind = k ∧ tok.text = t := by
  induction hc with
  | nil => simp at h
  | same tok _ ih =>
    rcases List.mem_cons.mp h with h | h
    · rw [Prod.mk.injEq] at h; exact ⟨tok, List.mem_cons_self, h.1.symm, h.2.symm⟩
    · obtain ⟨x, hx, h⟩ := ih h; exact ⟨x, List.mem_cons_of_mem _ hx, h⟩
  | word tok _ _ ih =>
    rcases List.mem_cons.mp h with h | h
    · rw [Prod.mk.injEq] at h; exact absurd h.1 hk
    · obtain ⟨x, hx, h⟩ := ih h; exact ⟨x, List.mem_cons_of_mem _ hx, h⟩
  | merged tok u _ _ _ ih =>
    rcases List.mem_cons.mp h with h | h
    · rw [Prod.mk.injEq] at h; exact absurd h.1 hk
    · obtain ⟨x, hx, h⟩ := ih h
      exact ⟨x, List.mem_cons_of_mem _ (List.mem_cons_of_mem _ hx), h⟩

/-- A leaf that is not a word is a token of the lexer. -/
theorem leaf_token {errLen : Text → Nat} {s : Text} {r : Parse} (h : parse errLen s = .ok r)
    {k : SyntaxKind} {t : Text} (hk : k ≠ T!"word") (ht : (k, t) ∈ r.tree.leaves) :
    ∃ tok ∈ lex errLen s, tok.kind = k ∧ tok.text = t := by
  obtain ⟨trees, h1, h2⟩ := C05_root_covers errLen s r h
  rw [h1, Tree.leaves] at ht
  exact covers_token h2 hk ht

/-- The line breaks of a parsed file consist of LFs and CRLFs. -/
theorem leaf_lineBreak {errLen : Text → Nat} (he : ErrLenOk errLen) {s : Text} {r : Parse}
    (h : parse errLen s = .ok r) {t : Text} (ht : (SyntaxKind.TK_LINE_BREAK, t) ∈ r.tree.leaves) :
    IsLineBreaks t := by
  obtain ⟨tok, hm, hk, rfl⟩ := leaf_token h (by decide) ht
  exact (C13_trivia_shape he s hm).2 hk

/-- A kind that only one literal has. -/
def onlyLiteral (k : SyntaxKind) (x : Text) : Bool :=
  literals.all (fun l => l.kind != k || (l.text == x && !l.ignoreCase)) &&
    !(regexRules.map (·.2)).contains k && k != .TK_UNKNOWN && k != .TK_NOT_IN && k != .TK_IS_NOT

/-- A leaf whose kind only one literal has is that literal. -/
theorem leaf_literal {errLen : Text → Nat} (he : ErrLenOk errLen) {s : Text} {r : Parse}
    (h : parse errLen s = .ok r) {k : SyntaxKind} {t x : Text} (hl : onlyLiteral k x = true)
    (ht : (k, t) ∈ r.tree.leaves) : t = x := by
  simp only [onlyLiteral, Bool.and_eq_true, List.all_eq_true, Bool.or_eq_true, bne_iff_ne, beq_iff_eq,
    Bool.not_eq_true', List.contains_eq_mem, decide_eq_false_iff_not] at hl
  obtain ⟨⟨⟨⟨hlit, hre⟩, h1⟩, h2⟩, h3⟩ := hl
  have hw : k ≠ T!"word" := by
    rintro rfl
    exact hre (by decide)
  obtain ⟨tok, hm, rfl, rfl⟩ := leaf_token h hw ht
  obtain ⟨l, r, hlr⟩ := List.append_of_mem hm
  have hz := lex_split he hlr
  rcases tokenizes_step hz with ⟨_, h⟩ | ⟨pre, post, k', ts1, hs, hne, hx, ht, hd⟩
  · cases h
  · cases hx
    rcases hd with ⟨q, j, hq, ⟨rfl, rfl, _⟩ | ⟨_, hn, _⟩ | ⟨_, hn, _⟩⟩ | ⟨hn, _⟩
    · rcases hq.rule with ⟨l, hl, hlk, hlm⟩ | ⟨re, hr, _⟩
      · rcases hlit l hl with hne | ⟨h1, h2⟩
        · exact absurd hlk hne
        · unfold Literal.Matches at hlm
          rw [h2] at hlm
          simpa [h1] using hlm
      · exact absurd (List.mem_map.mpr ⟨_, hr, rfl⟩) hre
    · exact absurd hn h2
    · exact absurd hn h3
    · exact absurd hn h1

example : onlyLiteral T!"{%-" "{%-".toList = true ∧ onlyLiteral T!"&&" "&&".toList = true ∧
    onlyLiteral T!"word" "a".toList = false := by decide +kernel

end Ludtwig
