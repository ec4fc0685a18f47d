import Verif.Rules.Definitions
import Verif.Rules.RunProps
import Verif.Syntax.NextToken
import Verif.Parser.ParseProps

/-! # Whitespace on blank lines: property C38 -/

namespace Ludtwig.Rules

open Cli

/-- The whitespace token that a line break and the tokens after it enclose. -/
def enclosed (lineBreak : Elem) : List Elem → Option Elem
  | ws :: next :: _ =>
    if lineBreak.kind = .TK_LINE_BREAK ∧ ws.kind = .TK_WHITESPACE ∧ next.kind = .TK_LINE_BREAK then
      some ws
    else none
  | _ => none

/-- C38: on every token of a parsed file, the rule reports exactly the whitespace between the token
and the next but one token in document order if these are line breaks, and suggests to delete exactly
that whitespace. -/
theorem C38_blank_lines {errLen : Text → Nat} {s : Text} {r : Parse} (h : parse errLen s = .ok r)
    (ctx : Ctx) {before after : List Elem} {token : Elem}
    (hs : r.tree.tokenElems = before ++ token :: after) :
    whitespaceBetweenLineBreaks.checkToken ctx token =
      match enclosed token after with
      | none => []
      | some ws =>
        [{ rule := whitespaceBetweenLineBreaks.name
           severity := .help
           suggestions := [⟨ws.range, []⟩]
           primary := some ws.range }] := by
  have hg := C05_trivia_grouped errLen s r h
  unfold whitespaceBetweenLineBreaks; dsimp only
  by_cases hk : token.kind = .TK_LINE_BREAK
  · obtain ⟨h1, h2⟩ := nextToken_trivia hg hs (by rw [hk]; rfl)
    rw [hk]
    simp only [bne_self_eq_false, Bool.false_eq_true, if_false]
    cases after with
    | nil =>
      have : token.nextToken = none := by
        cases hn : token.nextToken with
        | none => rfl
        | some x => obtain ⟨r', hr'⟩ := h2 x hn; cases hr'
      rw [this]; rfl
    | cons ws after =>
      by_cases hw : ws.kind = .TK_WHITESPACE
      · have hn := h1 ws after rfl (by rw [hw]; rfl)
        rw [hn]
        simp only [hw, bne_self_eq_false, Bool.false_eq_true, if_false]
        obtain ⟨g1, g2⟩ := nextToken_trivia hg (l := before ++ [token]) (a := ws) (r := after)
          (by rw [hs]; simp) (by rw [hw]; rfl)
        cases after with
        | nil =>
          have : ws.nextToken = none := by
            cases hn : ws.nextToken with
            | none => rfl
            | some x => obtain ⟨r', hr'⟩ := g2 x hn; cases hr'
          rw [this]; rfl
        | cons lb after =>
          by_cases hl : lb.kind = .TK_LINE_BREAK
          · have hn := g1 lb after rfl (by rw [hl]; rfl)
            rw [hn]
            simp only [hl, bne_self_eq_false, Bool.false_eq_true, if_false, enclosed, hk, hw,
              and_self, if_true]
            rfl
          · have he : enclosed token (ws :: lb :: after) = none := by simp [enclosed, hl]
            rw [he]
            cases hn : ws.nextToken with
            | none => rfl
            | some x =>
              obtain ⟨r', hr'⟩ := g2 x hn
              cases hr'
              simp [hl]
      · have he : enclosed token (ws :: after) = none := by
          cases after <;> simp [enclosed, hw]
        rw [he]
        cases hn : token.nextToken with
        | none => rfl
        | some x =>
          obtain ⟨r', hr'⟩ := h2 x hn
          cases hr'
          simp [hw]
  · have he : enclosed token after = none := by
      unfold enclosed
      split
      · rw [if_neg (fun h => hk h.1)]
      · rfl
    rw [he, if_pos (by simpa using hk)]

/-- In `a\n  \n\t\n{{ b }} \n` two pieces of whitespace are reported. -/
example : (blankSample.tokenElems.flatMap
    (whitespaceBetweenLineBreaks.checkToken ⟨sampleConfig, false⟩)).map (·.suggestions) =
      [[⟨⟨2, 4⟩, []⟩], [⟨⟨5, 6⟩, []⟩]] := by decide +kernel

end Ludtwig.Rules
