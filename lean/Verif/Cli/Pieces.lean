import Verif.Cli.ProcessProps

/-!
# Edits as pieces

A text cut into pieces of which some are replaced, and the suggestions that say so.
-/

namespace Ludtwig.Cli

/-- A piece of a text and what it is replaced by, if it is. -/
structure Piece where
  old : Text
  new : Option Text

/-- The text before. -/
def piecesBefore (ps : List Piece) : Text := ps.flatMap (·.old)

/-- The text after. -/
def piecesAfter (ps : List Piece) : Text := ps.flatMap (fun p => p.new.getD p.old)

/-- The suggestions: the byte ranges of the pieces that are replaced. -/
def pieceSuggestions : Nat → List Piece → List Suggestion
  | _, [] => []
  | pos, p :: ps =>
    (match p.new with
      | none => []
      | some t => [⟨⟨pos, pos + byteLen p.old⟩, t⟩]) ++ pieceSuggestions (pos + byteLen p.old) ps

theorem pieceSuggestions_append (pos : Nat) (ps qs : List Piece) :
    pieceSuggestions pos (ps ++ qs) =
      pieceSuggestions pos ps ++ pieceSuggestions (pos + byteLen (piecesBefore ps)) qs := by
  induction ps generalizing pos with
  | nil => simp [pieceSuggestions, piecesBefore]
  | cons p ps ih =>
    simp [pieceSuggestions, piecesBefore, ih, byteLen_append, Nat.add_assoc]

theorem pieces_edits (ps : List Piece) : ∀ (keep : Text) (pos : Nat),
    ∃ es tail, before es tail = keep ++ piecesBefore ps ∧ after es tail = keep ++ piecesAfter ps ∧
      suggestionsOf pos es = pieceSuggestions (pos + byteLen keep) ps := by
  induction ps with
  | nil => intro keep pos; exact ⟨[], keep, by simp [before, piecesBefore], by simp [after, piecesAfter], rfl⟩
  | cons p ps ih =>
    intro keep pos
    obtain ⟨old, new⟩ := p
    cases new with
    | none =>
      obtain ⟨es, tail, h1, h2, h3⟩ := ih (keep ++ old) pos
      refine ⟨es, tail, ?_, ?_, ?_⟩
      · rw [h1]; simp [piecesBefore]
      · rw [h2]; simp [piecesAfter]
      · rw [h3]; simp [pieceSuggestions, byteLen_append, Nat.add_assoc]
    | some t =>
      obtain ⟨es, tail, h1, h2, h3⟩ := ih [] (pos + byteLen keep + byteLen old)
      refine ⟨⟨keep, old, t⟩ :: es, tail, ?_, ?_, ?_⟩
      · rw [before, h1]; simp [piecesBefore]
      · rw [after, h2]; simp [piecesAfter]
      · simp only [suggestionsOf, h3, pieceSuggestions, byteLen_nil, Nat.add_zero,
          List.singleton_append]

/-- Applying the suggestions of the pieces replaces exactly the pieces. -/
theorem apply_pieces (ps : List Piece) (pre : Text) :
    applySuggestionsToText (pieceSuggestions (byteLen pre) ps) (pre ++ piecesBefore ps) =
      some (pre ++ piecesAfter ps) := by
  obtain ⟨es, tail, h1, h2, h3⟩ := pieces_edits ps [] (byteLen pre)
  have := apply_suggestionsOf es tail pre
  simp only [byteLen_nil, Nat.add_zero, List.nil_append] at h1 h2 h3
  rw [← h3, ← h1, ← h2, this]

end Ludtwig.Cli
