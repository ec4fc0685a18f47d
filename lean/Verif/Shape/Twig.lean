import Verif.GrammarSpec.Twig
import Verif.Shape.Tags

/-!
# The shapes of Twig variables and comments (proof device)
-/

namespace Ludtwig.Shape
open Rx

variable {strict : Bool} {h : List Token → Prop} {K : Knot}

/-- The kinds of directives. -/
def directiveKinds : List SyntaxKind := [.LUDTWIG_DIRECTIVE_FILE_IGNORE, .LUDTWIG_DIRECTIVE_IGNORE]

theorem lang_ignore {t : Token} {ts : List Token} (h1 : isAt T!"ludtwig-ignore-file" (t :: ts) = false)
    (h2 : isAtSet [T!"ludtwig-ignore-file", T!"ludtwig-ignore"] (t :: ts) = true) :
    (Rx.tok [T!"ludtwig-ignore"]).Lang [⟨false, t.kind⟩] := by
  refine ⟨t.kind, ?_, rfl⟩
  simp_all [isAt, isAtSet]

theorem shape_parseLudtwigDirective {m : Nat} {o : Rx} {closing : List SyntaxKind}
    (ho : (o = commentOpen ∧ closing = twigCommentCloseSet) ∨ (o = .tok [T!"<!--"] ∧ closing = [T!"-->"]))
    (hh : ∀ v, h v → isAtSet [T!"ludtwig-ignore-file", T!"ludtwig-ignore"] v = true) :
    Runs strict [(m, [.rx o])] [] h (parseLudtwigDirective m closing) (nodeS directiveKinds) := by
  refine Runs.pre ?_ hh
  unfold parseLudtwigDirective
  unfold Runs
  refine b_peek (Peek.at' _) (fun isFile => ?_)
  cases isFile with
  | true =>
    refine b_bump_ (r := .tok [T!"ludtwig-ignore-file"]) (fun t ts _ hv => lang_isAt hv.1) ?_
    rcases ho with ⟨rfl, rfl⟩ | ⟨rfl, rfl⟩
    all_goals simp only [if_true]
    all_goals sauto
  | false =>
    refine b_bump_ (r := .tok [T!"ludtwig-ignore"]) (fun t ts _ hv => lang_ignore hv.1 hv.2) ?_
    rcases ho with ⟨rfl, rfl⟩ | ⟨rfl, rfl⟩
    all_goals simp only [Bool.false_eq_true, if_false]
    all_goals sauto

theorem shape_parseTwigPlainComment {m : Nat} :
    Runs strict [(m, [.rx commentOpen])] [] h (parseTwigPlainComment m) (nodeS [.TWIG_COMMENT]) := by
  unfold parseTwigPlainComment
  sauto

theorem shape_parseTwigCommentStatement (hh : ∀ v, h v → isAtSet twigCommentOpenSet v = true) :
    Runs strict [] [] h parseTwigCommentStatement (nodeS (.TWIG_COMMENT :: directiveKinds)) := by
  refine Runs.pre ?_ hh
  unfold parseTwigCommentStatement
  sstep; sstep; sstep; sstep; sstep
  · refine b_cls_nil (shape_parseLudtwigDirective (.inl ⟨rfl, rfl⟩) (fun v hv => hv.1)) (by le_tac)
      (fun c => ?_)
    sauto
  · sauto

theorem shape_parseTwigVarStatement (hK : KShape strict K)
    (hh : ∀ v, h v → isAtSet twigVarOpenSet v = true) :
    Runs strict [] [] h (parseTwigVarStatement K) (nodeS [.TWIG_VAR]) := by
  refine Runs.pre ?_ hh
  unfold parseTwigVarStatement
  sauto

theorem shape_parseAnyTwig {child : P (Option CompletedMarker)} (hK : KShape strict K)
    (hc : Child strict child) :
    Runs strict [] [] h (parseAnyTwig K child) (twigS strict) := by
  unfold parseAnyTwig
  sauto

end Ludtwig.Shape
