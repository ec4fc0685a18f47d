import Verif.GrammarSpec.Html
import Verif.Shape.Twig

/-!
# The shapes of html elements (proof device)
-/

namespace Ludtwig.Shape
open Rx

variable {strict : Bool} {h : List Token → Prop} {K : Knot}

/-- `parse_many` with captured variables that do not matter. -/
theorem runs_manyWith {σ : Type} {early : σ → P (Bool × σ)} {child : σ → P σ} {a : σ} {r : Rx}
    (he : ∀ a, ∃ φ, Peek (early a) φ)
    (hc : ∀ a, Runs strict [] [] any (child a) (fun _ => [.rx r])) :
    Runs strict [] [] h (parseManyWith early child a) (fun _ => [.rx (many r)]) := by
  refine runs_parseManyWith (fun _ => [.rx (many r)]) (fun a => (he a).choose_spec) (fun _ _ => rfl)
    (fun _ => le_star (xs := [.rx unknown]) le_alt_left) (fun a => ?_) ?_
  · exact (Runs.frame (hc a)).pre (fun _ _ => trivial) |>.post
      (fun _ => le_star (xs := [.rx r]) le_alt_right)
  · refine ⟨fun cs hcs => ?_, by simp⟩
    simp only [Fits] at hcs
    exact ⟨[], cs, rfl, rfl, [], by simp [hcs], by simp⟩

theorem shape_parseHtmlDoctype (hh : ∀ v, h v → isAt T!"<!" v = true) :
    Runs strict [] [] h parseHtmlDoctype (nodeS [.HTML_DOCTYPE]) := by
  refine Runs.pre ?_ hh
  unfold parseHtmlDoctype
  sauto

/-- What text does not contain. -/
def noText : List SyntaxKind :=
  [T!"</", T!"{%", T!"{%-", T!"{%~", T!"{{", T!"{{-", T!"{{~", T!"{#", T!"{#-", T!"{#~", T!"<!--", T!"<!"]

theorem lang_text {t : Token} {ts : List Token} (hv : isTextEnd (t :: ts) = false) :
    (tokNot noText).Lang [⟨false, t.kind⟩] := by
  refine ⟨t.kind, fun hm => ?_, rfl⟩
  cases ts <;>
    simp [isTextEnd, isAtSet, isAt, generalRecoverySet, noText] at hv hm <;> grind

theorem shape_parseHtmlText : Runs strict [] [] h parseHtmlText (optS [.HTML_TEXT]) := by
  unfold parseHtmlText
  refine T_last (b_ifP (Peek.atEnd.or Peek.atTextEnd) (by sauto) ?_)
  sstep; sstep; sstep
  refine b_ext (runs_parseSome (r := tokNot noText) Peek.atTextEnd (fun v hv => ?_) ?_) (fun _ => ?_)
  · have := hv.1
    simpa using this
  · unfold Runs
    exact T_last (b_bump__nil (fun t ts _ hv => lang_text hv.2) (T_pure ⟨rfl, by le_tac⟩))
  · norm_tac
    sauto

/-- A part of raw text. -/
def rawPart (strict : Bool) : Rx := .alt (.node twigKinds) (.seq (stray strict) anyTok)

theorem shape_parseRawTextPart (hK : KShape strict K) :
    Runs strict [] [] h (parseRawTextPart K) (fun _ => [.rx (rawPart strict)]) := by
  unfold parseRawTextPart ifNone
  sauto

theorem shape_parseHtmlRawTextInner (hK : KShape strict K) :
    Runs strict [] [] h (parseHtmlRawTextInner K) (optS [.HTML_RAW_TEXT]) := by
  unfold parseHtmlRawTextInner
  sauto

theorem shape_parseHtmlRawText {k : SyntaxKind} {t : Text} (hK : KShape strict K) :
    Runs strict [] [] h (parseHtmlRawText K k t) (fun _ => [.rx (.node [.HTML_RAW_TEXT])]) := by
  unfold parseHtmlRawText
  sstep; sstep
  refine b_ext (runs_manyWith (r := rawPart strict) (peek_atBodyEnd k t) (fun _ => ?_)) (fun _ => ?_)
  · sauto
  · norm_tac
    sauto

theorem shape_parsePlainHtmlComment {m : Nat} :
    Runs strict [(m, [.rx (.tok [T!"<!--"])])] [] h (parsePlainHtmlComment m) (nodeS [.HTML_COMMENT]) := by
  unfold parsePlainHtmlComment
  sauto

theorem shape_parseHtmlComment (hh : ∀ v, h v → isAt T!"<!--" v = true) :
    Runs strict [] [] h parseHtmlComment (nodeS (.HTML_COMMENT :: directiveKinds)) := by
  refine Runs.pre ?_ hh
  unfold parseHtmlComment
  sstep; sstep; sstep; sstep; sstep
  · refine b_cls_nil (shape_parseLudtwigDirective (.inr ⟨rfl, rfl⟩) (fun v hv => hv.1)) (by le_tac)
      (fun c => ?_)
    sauto
  · sauto

/-- A part of an attribute value. -/
def valuePart (strict : Bool) : Rx := .alt (.node twigKinds) (.seq (stray strict) (opt anyTok))

theorem shape_parseInnerNoQuote (hK : KShape strict K) :
    Runs strict [] [] h (parseInnerNoQuote K) (fun _ => [.rx (.alt (.tok [T!"word"])
      (.alt (.node [.TWIG_VAR]) (lost strict)))]) := by
  unfold parseInnerNoQuote
  sauto

theorem shape_parseAttributeValuePart {inner : P (Option CompletedMarker)} (hK : KShape strict K)
    (hc : Child strict inner) :
    Runs strict [] [] h (parseAttributeValuePart K inner) (fun _ => [.rx (valuePart strict)]) := by
  unfold parseAttributeValuePart ifNone
  sauto

theorem shape_parseInnerQuote {q : SyntaxKind} {inner : P (Option CompletedMarker)}
    (hK : KShape strict K) (hc : Child strict inner) :
    Runs strict [] [] h (parseInnerQuote K q inner) (fun _ => [.rx (many (valuePart strict))]) := by
  unfold parseInnerQuote
  sauto

theorem runs_noLeadingQuote :
    Runs strict [] [] h (parseClosingQuote none) (fun _ => [.rx (opt (lost strict))]) := by
  unfold parseClosingQuote
  refine shape_whenP (Peek.atSet _) ?_
  sstep; sstep; sstep; sstep
  refine T_errUp ?_
  sauto

theorem shape_parseHtmlAttributeValueString (hK : KShape strict K) :
    Runs strict [] [] h (parseHtmlAttributeValueString K) (nodeS [.HTML_STRING]) := by
  unfold parseHtmlAttributeValueString parseOpeningQuote
  sstep; sstep; sstep
  · sstep
    refine b_bumpTok (fun t => ?_)
    by_cases h1 : t.kind = T!"\""
    · rw [h1]
      unfold parseInnerValue parseClosingQuote
      sauto
    · by_cases h2 : t.kind = T!"'"
      · rw [h2]
        unfold parseInnerValue parseClosingQuote
        sauto
      · refine T_absurd (us' := [.rx never]) ?_ ?_
        · rintro v ⟨ts, _, hv, _⟩
          have := hv.1
          simp_all [isAtSet]
        · unfold parseInnerValue parseClosingQuote
          sauto
  · unfold parseInnerValue
    iterate 10 sstep
    refine b_ext runs_noLeadingQuote (fun _ => ?_)
    norm_tac
    sauto

/-- What the attributes of an element add. -/
def attrS (strict : Bool) : Option CompletedMarker → List Seg
  | some c => [.nd c (.HTML_ATTRIBUTE :: twigKinds)]
  | none => [.rx (stray strict)]

theorem runs_parseAttributeRest {m : Nat} {us : List Seg} (hK : KShape strict K)
    (hu : us = [.rx (.tok [T!"word"])] ∨ us = [.rx (.node [.TWIG_VAR])]) :
    Runs strict [(m, us)] [] h (parseAttributeRest K m) (optS [.HTML_ATTRIBUTE]) := by
  unfold parseAttributeRest
  rcases hu with rfl | rfl <;> sauto

theorem shape_parseNamedAttribute (hK : KShape strict K) :
    Runs strict [] [] h (parseNamedAttribute K) (optS [.HTML_ATTRIBUTE]) := by
  unfold parseNamedAttribute
  sstep; sstep; sstep
  all_goals
    sstep
    refine T_last (b_cls_nil (runs_parseAttributeRest hK (.inl rfl)) (by le_tac) (fun a => ?_))
    cases a <;> sauto

theorem shape_parseTwigNamedAttribute (hK : KShape strict K)
    (hh : ∀ v, h v → isAtSet twigVarOpenSet v = true) :
    Runs strict [] [] h (parseTwigNamedAttribute K) (optS [.HTML_ATTRIBUTE]) := by
  refine Runs.pre ?_ hh
  unfold parseTwigNamedAttribute
  sstep; sstep; sstep
  refine T_last (b_cls_nil (runs_parseAttributeRest hK (.inr rfl)) (by le_tac) (fun a => ?_))
  cases a <;> sauto

theorem shape_parseHtmlAttributeOrTwig (hK : KShape strict K) :
    Runs strict [] [] h (parseHtmlAttributeOrTwig K) (attrS strict) := by
  unfold parseHtmlAttributeOrTwig
  refine b_peek Peek.attributeNameText (fun r => ?_)
  cases r with
  | none => sauto
  | some text => sauto

/-- The name of an element. -/
def tagName (strict : Bool) : Rx :=
  .alt (.tok [T!"word", T!"twig component name"]) (lost strict)

theorem runs_parseTagName {k : SyntaxKind} {t : Text}
    (hh : ∀ v, h v → v.head? = none ∨ ∃ x, v.head? = some x ∧ x.kind = k) :
    Runs strict [] [] h (parseTagName k t) (fun _ => [.rx (tagName strict)]) := by
  unfold parseTagName Runs
  split
  · rename_i hk
    refine T_last (b_bump__nil (r := .tok [T!"twig component name"]) (fun x ts _ hv => ?_) ?_)
    · refine ⟨_, ?_, rfl⟩
      rcases hh _ hv with h1 | ⟨y, h1, h2⟩
      · simp at h1
      · simp at h1; subst h1; simp [h2, hk]
    · sauto
  · sauto

theorem shape_parseStartingTagEnd :
    Runs strict [] [] h parseStartingTagEnd (fun _ => [.rx (may strict [T!">", T!"/>"])]) := by
  unfold parseStartingTagEnd
  sauto

theorem shape_parseElementBody {k : SyntaxKind} {t : Text} (hK : KShape strict K) :
    Runs strict [] [] h (parseElementBody K k t) (fun _ => [.rx (.alt (.node [.HTML_RAW_TEXT])
      (many (.seq (stray strict) (opt (.node elementKinds)))))]) := by
  unfold parseElementBody
  split
  · sauto
  · refine Runs.post (runs_manyWith (r := .seq (stray strict) (opt (.node elementKinds)))
      (peek_atBodyEnd k t) (fun _ => ?_)) (fun _ => by le_tac)
    refine b_ext_nil (runs_discard (r := .seq (stray strict) (opt (.node elementKinds)))
      (shape_anyElement hK) (fun a => ?_)) (fun _ => ?_)
    · cases a <;> le_tac
    · sauto

theorem shape_parseEndingTagName {k : SyntaxKind} {t : Text} :
    Runs strict [] [] h (parseEndingTagName k t) (fun _ => [.rx (tagName strict)]) := by
  unfold parseEndingTagName
  sauto

theorem shape_parseEndingTag {k : SyntaxKind} {t : Text} {found : Bool} :
    Runs strict [] [] h (parseEndingTag k t found) (fun _ => [.rx (.node [.HTML_ENDING_TAG])]) := by
  unfold parseEndingTag
  sauto

theorem shape_parseStartingTag (hK : KShape strict K) (hh : ∀ v, h v → isAt T!"<" v = true) :
    Runs strict [] [] h (parseStartingTag K) (fun _ => [.rx (.node [.HTML_STARTING_TAG])]) := by
  refine Runs.pre ?_ hh
  unfold parseStartingTag
  sstep; sstep; sstep
  refine b_peek Peek.peekToken (fun t => ?_)
  dsimp only
  refine b_ext (runs_parseTagName ?_) (fun _ => ?_)
  · rintro v ⟨hv, _⟩
    cases t with
    | none => exact .inl hv
    | some t => exact .inr ⟨t, hv, rfl⟩
  · norm_tac
    sstep
    refine b_ext (runs_parseMany ((Peek.at' _).or (Peek.at' _)) (runs_discard
      (r := .alt (stray strict) (.node (.HTML_ATTRIBUTE :: twigKinds)))
      (shape_parseHtmlAttributeOrTwig hK) (fun a => ?_))) (fun _ => ?_)
    · cases a <;> le_tac
    · norm_tac
      sauto

theorem shape_parseHtmlElement (hK : KShape strict K) (hh : ∀ v, h v → isAt T!"<" v = true) :
    Runs strict [] [] h (parseHtmlElement K) (nodeS [.HTML_TAG]) := by
  refine Runs.pre ?_ hh
  unfold parseHtmlElement
  sauto

theorem shape_parseAnyHtml (hK : KShape strict K) :
    Runs strict [] [] h (parseAnyHtml K) (optS htmlKinds) := by
  unfold parseAnyHtml
  refine T_last (b_ifP Peek.atElementStart ?_ ?_)
  · refine T_pre (h' := fun v => isAt T!"<" v = true) ?_ ?_
    · sauto
    · rintro v ⟨hv, _⟩
      simp only [Bool.and_eq_true] at hv
      exact hv.1
  · sauto

end Ludtwig.Shape
