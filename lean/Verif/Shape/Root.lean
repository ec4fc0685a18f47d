import Verif.GrammarSpec.Root
import Verif.Shape.Html

/-!
# The shape of the root (proof device)
-/

namespace Ludtwig.Shape
open Rx

variable {strict : Bool} {h : List Token → Prop} {K : Knot}

theorem shape_parseAnyElement (hK : KShape strict K) :
    Runs strict [] [] h (parseAnyElement K) (elementS strict) := by
  unfold parseAnyElement
  sauto

theorem child_raw (hK : KShape strict K) : Child strict (parseHtmlRawTextInner K) :=
  ⟨opt (.node [.HTML_RAW_TEXT]), runs_discard (shape_parseHtmlRawTextInner hK) (fun _ => le_optS),
    by incl_tac⟩

theorem child_attr (hK : KShape strict K) : Child strict (parseHtmlAttributeOrTwig K) := by
  refine ⟨.alt (stray strict) (.node (.HTML_ATTRIBUTE :: twigKinds)),
    runs_discard (shape_parseHtmlAttributeOrTwig hK) (fun a => ?_), by incl_tac⟩
  cases a <;> le_tac

theorem child_quote {q : SyntaxKind} {inner : P (Option CompletedMarker)} (hK : KShape strict K)
    (hc : Child strict inner) : Child strict (parseInnerQuote K q inner) :=
  ⟨many (valuePart strict), runs_discardRx (shape_parseInnerQuote hK hc), by incl_tac⟩

theorem kshape_knot : ∀ n, KShape strict (knot n)
  | 0 => ⟨fun _ => T_panic, T_panic, ⟨never, runs_discardRx T_panic, by incl_tac⟩,
      ⟨never, runs_discardRx T_panic, by incl_tac⟩, ⟨never, runs_discardRx T_panic, by incl_tac⟩,
      ⟨never, runs_discardRx T_panic, by incl_tac⟩⟩
  | n + 1 =>
    have hK := kshape_knot n
    ⟨fun _ => shape_parseExpressionBp hK, shape_parseAnyElement hK, child_raw hK, child_attr hK,
      child_quote hK hK.double, child_quote hK hK.single⟩

theorem shape_parseRootPart (hK : KShape strict K) :
    Runs strict [] [] h (parseRootPart K) (fun _ => [.rx (.seq (stray strict)
      (opt (.alt (lost strict) (.node elementKinds))))]) := by
  unfold parseRootPart
  sauto

theorem shape_parseRoot (hK : KShape strict K) :
    Runs strict [] [] h (parseRoot K) (nodeS [.ROOT]) := by
  unfold parseRoot
  sauto

end Ludtwig.Shape
