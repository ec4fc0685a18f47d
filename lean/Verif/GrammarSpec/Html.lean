import Verif.GrammarSpec.Twig

/-!
# Specifications of the html functions (proof device)
-/

namespace Ludtwig

variable {toks : List Token} {α β : Type} {L : List (Nat × List Nat)} {vs : List Nat} {n N : Nat}
  {h : List Token → Prop} {e : Bool} {K : Knot}

theorem Peek.atLessThanNonWord : Peek atLessThanNonWord (fun v => isAt T!"<" v &&
    match v[1]? with | none => true | some t => noTagStart t.kind) := by
  refine (Peek.at' _).and ((Peek.peekNthToken 1).bind (ψ := fun o _ => match o with
    | none => true | some t => noTagStart t.kind) (fun o => ?_))
  cases o <;> exact .pure _

theorem Peek.atElementStart : Peek atElementStart (fun v => isAt T!"<" v &&
    match v[1]? with | none => false | some t => !noTagStart t.kind) := by
  refine (Peek.at' _).and ((Peek.peekNthToken 1).bind (ψ := fun o _ => match o with
    | none => false | some t => !noTagStart t.kind) (fun o => ?_))
  cases o <;> exact .pure _

theorem ext_parseHtmlDoctype (hh : ∀ v, h v → v ≠ []) :
    Ext toks n h parseHtmlDoctype (RMS n) := by
  intro e
  unfold parseHtmlDoctype
  jauto

/-- Text ends here. -/
def isTextEnd (v : List Token) : Bool :=
  isAtSet [T!"</"] v || (isAtSet generalRecoverySet v &&
    !(isAt T!"<" v && match v[1]? with | none => true | some t => noTagStart t.kind))

theorem Peek.atTextEnd : Peek atTextEnd isTextEnd :=
  (Peek.atSet _).or ((Peek.atSet _).and Peek.atLessThanNonWord.not)

theorem ext_parseHtmlText : Ext toks n h parseHtmlText (fun a A =>
    (∀ c, a = some c → c ∈ A.vs ∧ A.n < n) ∧
    (a = none → ∀ v, A.h v → h v ∧ (v = [] ∨ isTextEnd v = true))) := by
  unfold parseHtmlText
  refine ext_ifP (Peek.atEnd.or Peek.atTextEnd) ?_ ?_
  · intro e
    refine J_pure ⟨rfl, Nat.le_refl _, ⟨by simp, ?_⟩, id⟩
    rintro - v ⟨h1, h2⟩
    simp only [Bool.or_eq_true, List.isEmpty_iff] at h1
    exact ⟨h2, h1⟩
  · intro e
    jstep
    refine b_call (J_post (J_parseMany_strict Peek.atTextEnd (fun n' _ e => ?_))
      (fun a A ⟨h1, h2, h3, h4, _, h6⟩ =>
        ⟨h1, h2, (?_ : (fun (_ : Unit) (A : AS) => A.n < n) a A), h4⟩)) (fun a ts' n' h' e' _ hr => ?_)
    · refine J_last (b_bump_ (fun v hv => hv.1) (fun _ _ => J_pure ⟨rfl, ?_, ?_, id⟩))
      all_goals dsimp only; omega
    · refine h6 (fun v hv => ?_)
      have := hv.1
      simp only [Bool.or_eq_false_iff] at this
      exact ⟨by rintro rfl; simp at this, this.2⟩
    · dsimp only at hr
      refine b_complete_nil (by simp) (J_pure ⟨rfl, by dsimp only; omega, ?_, id⟩)
      simp_all

theorem ext_parseRawTextPart (ht : RawTok toks) (hK : KGood toks N K) (hn : n ≤ N) :
    Ext toks n h (parseRawTextPart K) RU := by
  unfold parseRawTextPart
  exact ext_ifNone (ext_parseAnyTwig hK (childGood_raw hK ht) hn)
    (fun n' _ => ext_bump_ (fun _ _ _ => .inr ⟨rfl, ht⟩))

theorem ext_parseHtmlRawTextInner (ht : RawTok toks) (hK : KGood toks N K) (hn : n ≤ N) :
    Ext toks n h (parseHtmlRawTextInner K) RO := by
  intro e
  unfold parseHtmlRawTextInner
  jauto

theorem peek_atBodyEnd (k : SyntaxKind) (t : Text) (f : Bool) : ∃ φ, Peek (atBodyEnd k t f) φ :=
  ⟨_, (Peek.atFollowingContent _).ifP (.pure _) (.pair Peek.atTwigTerminationTag)⟩

theorem ext_parseHtmlRawText {k : SyntaxKind} {t : Text} (ht : RawTok toks) (hK : KGood toks N K)
    (hn : n ≤ N) : Ext toks n h (parseHtmlRawText K k t) RU := by
  intro e
  unfold parseHtmlRawText
  have hp := peek_atBodyEnd k t
  refine b_start (fun m => b_ext (ext_parseManyWith (fun a => (hp a).choose_spec)
    (fun a a' n' hn' e => ?_)) (fun _ _ _ _ _ _ _ => ?_))
  · jauto
  · jauto

theorem cls_parsePlainHtmlComment {m : Nat} : Cls toks n h m (parsePlainHtmlComment m) RM := by
  intro ts vs e
  unfold parsePlainHtmlComment
  jauto

theorem ext_parseHtmlComment (hh : ∀ v, h v → v ≠ []) :
    Ext toks n h parseHtmlComment (RMS n) := by
  intro e
  unfold parseHtmlComment
  jauto

theorem ext_parseInnerNoQuote (hK : KGood toks N K) (hn : n ≤ N) :
    Ext toks n h (parseInnerNoQuote K) RU := by
  intro e
  unfold parseInnerNoQuote
  jauto

theorem ext_parseAttributeValuePart {inner : P (Option CompletedMarker)} (hK : KGood toks N K)
    (hc : ChildGood toks N inner) (hn : n ≤ N) :
    Ext toks n h (parseAttributeValuePart K inner) RU := by
  unfold parseAttributeValuePart
  refine ext_ifNone (ext_parseAnyTwig hK hc hn) (fun n' _ => ext_ifP
    ((Peek.atSet _).or ((Peek.atSet _).or Peek.atEnd)) ext_pure (ext_bump_ ?_))
  rintro v ⟨hv, _⟩ rfl
  simp at hv

theorem ext_parseInnerQuote {q : SyntaxKind} {inner : P (Option CompletedMarker)}
    (hK : KGood toks N K) (hc : ChildGood toks N inner) (hn : n ≤ N) :
    Ext toks n h (parseInnerQuote K q inner) RO := by
  intro e
  unfold parseInnerQuote
  jauto

theorem ext_parseOpeningQuote : Ext toks n h parseOpeningQuote
    (fun r _ => ∀ q, r = some q → q = T!"\"" ∨ q = T!"'") := by
  unfold parseOpeningQuote
  refine ext_ifP (Peek.atSet _) ?_ ?_
  · intro e
    refine b_bump (by side_tac) (fun t n' hn _ h1 => J_pure ⟨rfl, by dsimp only; omega, ?_, id⟩)
    obtain ⟨ts, h2, _⟩ := h1
    rintro q ⟨⟩
    simpa [isAtSet] using h2
  · intro e
    exact J_pure ⟨rfl, Nat.le_refl _, by simp, id⟩

theorem ext_parseClosingQuote {r : Option SyntaxKind}
    (hr : ∀ q, r = some q → q = T!"\"" ∨ q = T!"'") : Ext toks n h (parseClosingQuote r) RU := by
  intro e
  cases r with
  | none =>
    unfold parseClosingQuote
    jauto
  | some q =>
    show J toks _ (expect_ q _) _
    rcases hr q rfl with rfl | rfl
    all_goals jauto

theorem ext_parseInnerValue {r : Option SyntaxKind} (hK : KGood toks N K) (hn : n ≤ N)
    (hr : ∀ q, r = some q → q = T!"\"" ∨ q = T!"'") : Ext toks n h (parseInnerValue K r) RU := by
  cases r with
  | none => exact ext_parseInnerNoQuote hK hn
  | some q =>
    unfold parseInnerValue
    rcases hr q rfl with rfl | rfl
    · exact ext_discard (ext_parseInnerQuote hK (childGood_double hK) hn)
    · exact ext_discard (ext_parseInnerQuote hK (childGood_single hK) hn)

theorem ext_parseHtmlAttributeValueString (hK : KGood toks N K) (hn : n ≤ N) :
    Ext toks n h (parseHtmlAttributeValueString K) RM := by
  intro e
  unfold parseHtmlAttributeValueString
  jauto

theorem cls_parseAttributeRest {m : Nat} (hK : KGood toks N K) (hn : n ≤ N) :
    Cls toks n h m (parseAttributeRest K m) RO := by
  intro ts vs e
  unfold parseAttributeRest
  jauto

theorem attributeName_colon {t : Text} (h : isHtmlAttributeName (':' :: t) = true) :
    t.all (fun c => !c.isWhitespace) = true := by
  have key : ∀ c : Char, c.isWhitespace = true → isAttributeNameChar c = false ∧ isAsciiAlpha c = false := by
    intro c hc
    simp [Char.isWhitespace] at hc
    rcases hc with ((rfl | rfl) | rfl) | rfl <;> decide
  have ha : isAsciiAlpha ':' = false := by decide
  simp only [isHtmlAttributeName, ha] at h
  cases t with
  | nil => rfl
  | cons c t =>
    simp only [matchesName, beq_self_eq_true, Bool.true_or, if_true, Bool.false_eq_true, if_false,
      Bool.and_eq_true, List.all_eq_true] at h
    rw [List.all_eq_true]
    intro d hd
    cases hw : d.isWhitespace with
    | false => rfl
    | true =>
      rcases List.mem_cons.1 hd with rfl | hd
      · have := h.1; rw [(key _ hw).2] at this; cases this
      · have := h.2 d hd; rw [(key _ hw).1] at this; cases this

theorem ext_parseNamedAttribute (hK : KGood toks N K) (hn : n ≤ N) (hh : ∀ v, h v → v ≠ [])
    (h2 : ∀ v, h v → isAt T!":" v = true →
      ∃ u, v[1]? = some u ∧ u.text.all (fun c => !c.isWhitespace) = true) :
    Ext toks n h (parseNamedAttribute K) RO := by
  intro e
  unfold parseNamedAttribute
  jauto

theorem ext_parseTwigNamedAttribute (hK : KGood toks N K) (hn : n ≤ N) (hh : ∀ v, h v → v ≠ []) :
    Ext toks n h (parseTwigNamedAttribute K) RO := by
  intro e
  unfold parseTwigNamedAttribute
  jauto

theorem Peek.attributeNameText : Peek attributeNameText (fun v =>
    if isAt T!":" v then v[1]?.map (fun t => ':' :: t.text) else v.head?.map (·.text)) :=
  (Peek.at' _).ifP ((Peek.peekNthToken 1).bind (fun _ => .pure _))
    (Peek.peekToken.bind (fun _ => .pure _))

theorem ext_parseHtmlAttributeOrTwig (hK : KGood toks N K) (hn : n ≤ N) :
    Ext toks n h (parseHtmlAttributeOrTwig K) RO := by
  intro e
  unfold parseHtmlAttributeOrTwig
  refine b_peek Peek.attributeNameText (fun r => ?_)
  cases r with
  | none => jauto
  | some text =>
    dsimp only
    split
    · rename_i hname
      refine J_last ?_
      apply b_ext_nil (ext_parseNamedAttribute hK hn ?_ ?_) 
      · intro _ _ _ _ _ _ _
        jauto
      · rintro v ⟨hv, _⟩ rfl
        simp [isAt] at hv
      · rintro v ⟨hv, _⟩ h1
        rw [if_pos h1, Option.map_eq_some_iff] at hv
        obtain ⟨u, hu, rfl⟩ := hv
        exact ⟨u, hu, attributeName_colon hname⟩
    · refine J_last (b_ifP (by side_tac) ?_ ?_)
      · jauto
      · refine b_ext_nil (ext_parseAnyTwig hK (childGood_attr hK) hn)
          (fun r ws n' _ _ _ hr => J_pure ⟨rfl, by dsimp only; omega, ?_, id⟩)
        intro c hc
        simpa using (hr.1 c hc).1

theorem ext_parseTagName {k : SyntaxKind} {t : Text} (h1 : ∀ v, h v →
      k = T!"twig component name" ∨ isHtmlTagName t = true → v ≠ []) :
    Ext toks n h (parseTagName k t) RU := by
  intro e
  unfold parseTagName
  split
  · have : ∀ v, h v → v ≠ [] := fun v hv => h1 v hv (.inl ‹_›)
    jauto
  · split
    · have : ∀ v, h v → v ≠ [] := fun v hv => h1 v hv (.inr ‹_›)
      jauto
    · jauto

theorem ext_parseStartingTagEnd : Ext toks n h parseStartingTagEnd RU := by
  intro e
  unfold parseStartingTagEnd
  jauto

theorem ext_parseElementBody {k : SyntaxKind} {t : Text} (hK : KGood toks N K) (hn : n < N)
    (ht : t = [] ∨ ∃ x ∈ toks, x.text = t) : Ext toks n h (parseElementBody K k t) RU := by
  unfold parseElementBody
  split
  · rename_i hc
    refine ext_parseHtmlRawText ?_ hK (by omega)
    rcases ht with rfl | ⟨x, hx, rfl⟩
    · exact absurd hc (by decide)
    · exact ⟨x, hx, hc⟩
  · have hp := peek_atBodyEnd k t
    refine ext_parseManyWith (fun a => (hp a).choose_spec) (fun a a' n' hn' e => ?_)
    jauto

theorem ext_parseEndingTagName {k : SyntaxKind} {t : Text} :
    Ext toks n h (parseEndingTagName k t) RU := by
  intro e
  unfold parseEndingTagName
  jauto

theorem ext_parseEndingTag {k : SyntaxKind} {t : Text} {found : Bool} :
    Ext toks n h (parseEndingTag k t found) RU := by
  intro e
  unfold parseEndingTag
  jauto

theorem ext_parseStartingTag (hK : KGood toks N K) (hn : n ≤ N) (hh : ∀ v, h v → v ≠ []) :
    Ext toks n h (parseStartingTag K)
      (fun r A => A.n < n ∧ (r.2.1 = [] ∨ ∃ x ∈ toks, x.text = r.2.1)) := by
  intro e
  unfold parseStartingTag
  jstep
  jstep
  refine b_peek Peek.peekToken (fun t => ?_)
  refine J_fact (φ := (t.map (·.text)).getD [] = [] ∨ ∃ x ∈ toks, x.text = (t.map (·.text)).getD [])
    ?_ (fun ht => ?_)
  · rintro v hv ⟨h1, _⟩
    cases v with
    | nil => subst h1; exact .inl rfl
    | cons x v => subst h1; exact .inr ⟨x, hv.subset (by simp), rfl⟩
  · dsimp only
    apply b_ext (ext_parseTagName ?_)
    · intro _ _ _ _ _ _ _
      jauto
    · rintro v ⟨h1, _⟩ h2 rfl
      subst h1
      revert h2
      decide

theorem ext_parseHtmlElement (hK : KGood toks N K) (hn : n ≤ N) (hh : ∀ v, h v → v ≠ []) :
    Ext toks n h (parseHtmlElement K) (RMS n) := by
  intro e
  unfold parseHtmlElement
  jstep
  refine b_ext (ext_parseStartingTag hK hn hh) (fun r ws n' _ _ _ ⟨h1, h2⟩ => ?_)
  dsimp only at h1 h2
  jauto

theorem isTextEnd_cases {v : List Token} (h1 : isTextEnd v = true)
    (hb : isAtSet twigBlockOpenSet v = false) (hv : isAtSet twigVarOpenSet v = false)
    (hc : isAtSet twigCommentOpenSet v = false)
    (he : (isAt T!"<" v && match v[1]? with | none => false | some t => !noTagStart t.kind) = false)
    (h2 : isAt T!"<!--" v = false) (h3 : isAt T!"<!" v = false) : isAt T!"</" v = true := by
  cases v with
  | nil => simp [isTextEnd, isAtSet] at h1
  | cons t v =>
    cases v <;>
      simp [isTextEnd, isAtSet, isAt, generalRecoverySet, twigBlockOpenSet, twigVarOpenSet,
        twigCommentOpenSet] at * <;> grind

theorem ext_parseAnyHtml (hK : KGood toks N K) (hn : n ≤ N) :
    Ext toks n h (parseAnyHtml K) (fun a A => (∀ c, a = some c → c ∈ A.vs ∧ A.n < n) ∧
      (a = none → A.n < n ∨ ∀ v, A.h v → h v ∧ (v = [] ∨ (isTextEnd v = true ∧
        (isAt T!"<" v && match v[1]? with | none => false | some t => !noTagStart t.kind) = false ∧
        isAt T!"<!--" v = false ∧ isAt T!"<!" v = false)))) := by
  unfold parseAnyHtml
  refine ext_ifP Peek.atElementStart ?_ (ext_ifP (Peek.at' _) ?_ (ext_ifP (Peek.at' _) ?_ ?_))
  · intro e
    jstep; jstep; jstep
    refine J_pure ?_
    simp_all [RMS]
  · intro e
    jstep; jstep; jstep
    refine J_pure ?_
    simp_all [RMS]
  · intro e
    jstep; jstep; jstep
    refine J_pure ?_
    simp_all [RMS]
  · refine ext_parseHtmlText.mono ?_
    rintro a A _ ⟨h1, h2⟩
    refine ⟨h1, fun h3 => .inr (fun v hv => ?_)⟩
    obtain ⟨⟨h4, h5, h6, h7⟩, h8⟩ := h2 h3 v hv
    refine ⟨h7, ?_⟩
    rcases h8 with h8 | h8
    · exact .inl h8
    · exact .inr ⟨h8, h6, h5, h4⟩

end Ludtwig
