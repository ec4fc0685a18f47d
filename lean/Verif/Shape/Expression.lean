import Verif.Shape.Literal

/-!
# The children that the functions in `Grammar/Expression.lean` add (proof device)
-/

namespace Ludtwig.Shape
open Rx

variable {strict : Bool} {h : List Token → Prop} {K : Knot}

theorem shape_parseTruthy (hK : KShape strict K) :
    Runs strict [] [] h (parseTruthy K) (fun _ => [.rx (opt (alt expr (lost strict)))]) := by
  unfold parseTruthy
  sauto

theorem lang_binary {k : SyntaxKind} {p : Nat × Nat} (hk : binaryBindingPower k = some p) :
    k ∈ binaryOperators := by
  revert hk
  cases k <;> first | (intro hk; cases hk; done) | (intro _; decide)

/-- The children for the captured variables of the loop over binary operators. -/
def binaryS (a : Bool × CompletedMarker) : List Seg :=
  if a.1 then [.nd a.2 [.TWIG_BINARY_EXPRESSION]] else [.nd a.2 [.TWIG_EXPRESSION]]

theorem shape_parseBinary {bp : Nat} {a : Bool × CompletedMarker} (hK : KShape strict K) :
    Runs strict [] (binaryS a) h (loopTokens (parseBinaryStep K bp) a) binaryS := by
  refine runs_loopTokens binaryS binaryS (fun a => ?_) (Le.refl _)
  obtain ⟨b, c⟩ := a
  unfold Runs parseBinaryStep
  refine b_peek Peek.peek (fun k => ?_)
  split
  · refine T_pure ⟨rfl, ?_⟩; exact Le.refl _
  · split
    · refine T_pure ⟨rfl, ?_⟩; exact Le.refl _
    · rename_i l r heq _
      refine b_bump__nil (r := tok binaryOperators) ?_ ?_
      · rintro t ts _ ⟨hv, _⟩
        simp at hv
        subst hv
        exact ⟨_, lang_binary heq, rfl⟩
      · cases b
        · sauto
        · sauto

theorem shape_parseConditionalExpression {c : Nat} (hK : KShape strict K) :
    Runs strict [] [.nd c [.TWIG_EXPRESSION]] h (parseConditionalExpression K c)
      (fun r => match r with
        | some c' => [.nd c' [.TWIG_EXPRESSION]]
        | none => [.nd c [.TWIG_EXPRESSION]]) := by
  unfold parseConditionalExpression
  sauto

theorem shape_parseBindingPowerRhs {bp c : Nat} (hK : KShape strict K) :
    Runs strict [] [.nd c [.TWIG_EXPRESSION]] h (parseBindingPowerRhs K bp c)
      (nodeS [.TWIG_EXPRESSION]) := by
  unfold parseBindingPowerRhs
  refine b_call_nil (xs := [.nd c [.TWIG_EXPRESSION]]) (ts := []) (shape_parseBinary (a := (false, c)) hK) (Le.refl _) ?_
  result_tac
  · sauto
  · sauto

theorem shape_parseParenName {c : Nat} (hK : KShape strict K) :
    Runs strict [] [.nd c [.TWIG_LITERAL_NAME]] h (parseParenName K c)
      (fun b => if b then [.rx name] else [.rx expr]) := by
  unfold parseParenName
  sauto

theorem shape_parseParenInner (hK : KShape strict K) :
    Runs strict [] [] h (parseParenInner K)
      (fun b => if b then [.rx name] else [.rx (opt expr)]) := by
  unfold parseParenInner
  sauto

theorem shape_parseParenArrowFunction {m : Nat} (hK : KShape strict K) :
    Runs strict [(m, [.rx (.seq (tok [T!"("]) name)])] [] h (parseParenArrowFunction K m)
      (nodeS [.TWIG_ARROW_FUNCTION]) := by
  unfold parseParenArrowFunction
  sauto

theorem shape_parseUnaryExpression (hK : KShape strict K)
    (hh : ∀ v, h v → isAtSet [T!"-", T!"+", T!"not", T!"..."] v = true) :
    Runs strict [] [] h (parseUnaryExpression K) (nodeS [.TWIG_UNARY_EXPRESSION]) := by
  refine Runs.pre ?_ hh
  unfold parseUnaryExpression
  sauto

theorem shape_parseExpressionBp {bp : Nat} (hK : KShape strict K) :
    Runs strict [] [] h (parseExpressionBp K bp) (optS [.TWIG_EXPRESSION]) := by
  unfold parseExpressionBp parseExpressionLhs parseParenExpression
  sauto

end Ludtwig.Shape
