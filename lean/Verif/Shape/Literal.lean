import Verif.Shape.Tactic

/-!
# The children that the functions in `Grammar/Literal.lean` and `Grammar/Basic.lean` add (proof device)
-/

namespace Ludtwig.Shape
open Rx

variable {strict : Bool} {h : List Token → Prop} {K : Knot}

theorem shape_parseTwigNumber (hh : ∀ v, h v → isAt T!"number" v = true) :
    Runs strict [] [] h parseTwigNumber (nodeS [.TWIG_LITERAL_NUMBER]) := by
  refine Runs.pre ?_ hh
  unfold parseTwigNumber tokenNode
  sauto

theorem shape_parseTwigNull (hh : ∀ v, h v → isAt T!"null" v = true) :
    Runs strict [] [] h parseTwigNull (nodeS [.TWIG_LITERAL_NULL]) := by
  refine Runs.pre ?_ hh
  unfold parseTwigNull tokenNode
  sauto

theorem shape_parseTwigBoolean (hh : ∀ v, h v → isAtSet [T!"true", T!"false"] v = true) :
    Runs strict [] [] h parseTwigBoolean (nodeS [.TWIG_LITERAL_BOOLEAN]) := by
  refine Runs.pre ?_ hh
  unfold parseTwigBoolean tokenNode
  sauto

theorem shape_parseTwigName : Runs strict [] [] h parseTwigName (optS [.TWIG_LITERAL_NAME]) := by
  unfold parseTwigName wordNode
  sauto

theorem shape_parseTwigInterpolation (hK : KShape strict K)
    (hh : ∀ v, h v → isFollowing [T!"#", T!"{"] v = true) :
    Runs strict [] [] h (parseTwigInterpolation K)
      (fun _ => [.rx (.seq mark (.node [.TWIG_LITERAL_STRING_INTERPOLATION]))]) := by
  refine Runs.pre ?_ hh
  unfold parseTwigInterpolation
  sauto

theorem shape_parseTwigStringPart {q : SyntaxKind} {i : Bool} (hK : KShape strict K) :
    Runs strict [] [] h (parseTwigStringPart K q i)
      (fun _ => [.rx (star (alt anyTok (.seq mark (node [.TWIG_LITERAL_STRING_INTERPOLATION]))))]) := by
  unfold Runs parseTwigStringPart
  refine T_last (b_ifP (by side_tac) ?_ ?_)
  · refine T_assoc (b_bump__nil (r := anyTok) (fun _ _ _ _ => lang_any)
      (b_bump__nil (r := anyTok) (fun _ _ _ _ => lang_any) ?_))
    sauto
  · sauto

theorem shape_parseTwigString {i : Bool} (hK : KShape strict K)
    (hh : ∀ v, h v → isAtSet [T!"\"", T!"'"] v = true) :
    Runs strict [] [] h (parseTwigString K i) (nodeS [.TWIG_LITERAL_STRING]) := by
  refine Runs.pre ?_ hh
  unfold Runs parseTwigString
  refine b_start (fun m => b_bumpTok (fun t => ?_))
  by_cases h1 : t.kind = T!"\""
  · rw [h1]; sauto
  · by_cases h2 : t.kind = T!"'"
    · rw [h2]; sauto
    · refine T_absurd (us' := [.rx never]) ?_ ?_
      · rintro v ⟨ts, _, hv, _⟩
        simp [isAtSet, h1, h2] at hv
      · sauto

theorem shape_parseTwigArray (hK : KShape strict K) (hh : ∀ v, h v → isAt T!"[" v = true) :
    Runs strict [] [] h (parseTwigArray K) (nodeS [.TWIG_LITERAL_ARRAY]) := by
  refine Runs.pre ?_ hh
  unfold parseTwigArray
  sauto

theorem shape_parseTwigHashKey (hK : KShape strict K) :
    Runs strict [] [] h (parseTwigHashKey K) (optS [.TWIG_LITERAL_HASH_KEY]) := by
  unfold parseTwigHashKey wordNode
  sauto

theorem shape_parseTwigHashPair (hK : KShape strict K) :
    Runs strict [] [] h (parseTwigHashPair K) (optS [.TWIG_LITERAL_HASH_PAIR]) := by
  unfold parseTwigHashPair
  sauto

theorem shape_parseTwigHash (hK : KShape strict K) (hh : ∀ v, h v → isAt T!"{" v = true) :
    Runs strict [] [] h (parseTwigHash K) (nodeS [.TWIG_LITERAL_HASH]) := by
  refine Runs.pre ?_ hh
  unfold parseTwigHash
  sauto

theorem shape_parseTwigFunctionArgument (hK : KShape strict K) :
    Runs strict [] [] h (parseTwigFunctionArgument K) (optS [.TWIG_EXPRESSION, .TWIG_NAMED_ARGUMENT]) := by
  unfold parseTwigFunctionArgument
  sauto

/-- The arguments of a call. -/
def argumentsRx (strict : Bool) : Rx :=
  many (.seq (opt (node [.TWIG_EXPRESSION, .TWIG_NAMED_ARGUMENT])) (comma strict))

theorem shape_parseArguments {c : P Bool} {φ : List Token → Bool} (hc : Peek c φ) (hK : KShape strict K) :
    Runs strict [] [] h (parseArguments K c) (fun _ => [.rx (argumentsRx strict)]) := by
  unfold parseArguments
  sauto

theorem shape_parseArgumentsNode (hK : KShape strict K) (hh : ∀ v, h v → isAt T!"(" v = true) :
    Runs strict [] [] h (parseArgumentsNode K) (fun _ => [.rx arguments]) := by
  refine Runs.pre ?_ hh
  unfold parseArgumentsNode
  sauto

theorem shape_parseTwigFilter {c : Nat} (hK : KShape strict K) (hh : ∀ v, h v → isAt T!"|" v = true) :
    Runs strict [] [.rx (.seq (opt arguments) (star unknown)), .nd c primaryKinds] h (parseTwigFilter K c)
      (nodeS [.TWIG_FILTER]) := by
  refine Runs.pre ?_ hh
  unfold parseTwigFilter
  sauto

theorem shape_parseTwigUpperBound (hK : KShape strict K) :
    Runs strict [] [] h (parseTwigUpperBound K) (fun a => match a with
      | (true, false) => [.rx (.seq (tok [T!":"]) expr)]
      | (true, true) => [.rx (tok [T!":"])]
      | (false, true) => []
      | (false, false) => [.rx never]) := by
  unfold parseTwigUpperBound
  sauto

theorem shape_parseTwigIndexer {c : Nat} (hK : KShape strict K) (hh : ∀ v, h v → isAt T!"[" v = true) :
    Runs strict [] [.rx (star unknown), .nd c primaryKinds] h (parseTwigIndexer K c)
      (nodeS [.TWIG_INDEX_LOOKUP]) := by
  refine Runs.pre ?_ hh
  unfold parseTwigIndexer
  sauto

theorem shape_parseTwigFunction {c : Nat} (hK : KShape strict K) (hh : ∀ v, h v → isAt T!"(" v = true) :
    Runs strict [] [.nd c primaryKinds] h (parseTwigFunction K c) (nodeS [.TWIG_FUNCTION_CALL]) := by
  refine Runs.pre ?_ hh
  unfold parseTwigFunction
  sauto

theorem shape_parseTwigAccessor {c : Nat} (hK : KShape strict K) (hh : ∀ v, h v → isAt T!"." v = true) :
    Runs strict [] [.rx (star unknown), .nd c primaryKinds] h (parseTwigAccessor K c)
      (nodeS [.TWIG_INDEX_LOOKUP, .TWIG_ACCESSOR, .TWIG_FUNCTION_CALL]) := by
  refine Runs.pre ?_ hh
  unfold parseTwigAccessor
  sauto

theorem shape_parseTwigTestImplicitArgument {c : Nat} (hK : KShape strict K) :
    Runs strict [] [.nd c [.TWIG_LITERAL_NAME]] h (parseTwigTestImplicitArgument K c)
      (nodeS [.TWIG_FUNCTION_CALL]) := by
  unfold parseTwigTestImplicitArgument
  sauto

theorem shape_parseTwigArrowFunction {c : Nat} (hK : KShape strict K) :
    Runs strict [] [.nd c [.TWIG_ARGUMENTS]] h (parseTwigArrowFunction K c)
      (nodeS [.TWIG_ARROW_FUNCTION]) := by
  unfold parseTwigArrowFunction
  sauto

theorem shape_parseTwigNameLiteral (hK : KShape strict K) :
    Runs strict [] [] h (parseTwigNameLiteral K) (optS primaryKinds) := by
  unfold parseTwigNameLiteral
  sauto

theorem shape_parseTwigLiteral (hK : KShape strict K) :
    Runs strict [] [] h (parseTwigLiteral K) (optS primaryKinds) := by
  unfold parseTwigLiteral
  sauto

theorem shape_parsePostfixOperator {c : Nat} (hK : KShape strict K) :
    Runs strict [] [.rx (star unknown), .nd c primaryKinds] h (parsePostfixOperator K c)
      (fun c => [.rx (star unknown), .nd c primaryKinds]) := by
  unfold parsePostfixOperator
  sauto

theorem shape_parsePostfixOperators {c : Nat} (hK : KShape strict K) :
    Runs strict [] [.nd c primaryKinds] h (parsePostfixOperators K c)
      (fun c => [.rx (star unknown), .nd c primaryKinds]) := by
  unfold parsePostfixOperators
  refine runs_parseManyWith (φ := fun c _ => (false, c)) (fun c => [.rx (star unknown), .nd c primaryKinds])
    (fun _ => .pure _) (fun _ _ => rfl) (fun c => le_star (xs := [.rx unknown]) (Le.refl _))
    (fun c => shape_parsePostfixOperator hK) (by le_tac)

end Ludtwig.Shape
