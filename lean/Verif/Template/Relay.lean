import Verif.Template.CellChange
import Verif.Layout.Lex

/-!
# The layout of a template (proof device for C79)

A template in another layout is a template with the same tree.
-/

namespace Ludtwig.Template

open Lexer Layout

variable {blank blank' : Nat → Prop} {t : Token} {u v w : List Token} {x : Tree} {xs : List Tree}

/-! ## Where blanks start matters only behind `<` -/

theorem isText_congr (h : t.kind = T!"<" → (blank t.range.stop ↔ blank' t.range.stop)) : IsText blank t w ↔ IsText blank' t w := by
  unfold IsText
  constructor
  · rintro (h1 | ⟨h1, h2 | h2⟩)
    · exact .inl h1
    · exact .inr ⟨h1, .inl ((h h1).1 h2)⟩
    · exact .inr ⟨h1, .inr h2⟩
  · rintro (h1 | ⟨h1, h2 | h2⟩)
    · exact .inl h1
    · exact .inr ⟨h1, .inl ((h h1).2 h2)⟩
    · exact .inr ⟨h1, .inr h2⟩

theorem allText_congr (h : ∀ t ∈ u, t.kind = T!"<" → (blank t.range.stop ↔ blank' t.range.stop)) (ht : AllText blank u w) :
    AllText blank' u w := by
  induction u with
  | nil => trivial
  | cons t u ih => exact ⟨(isText_congr (h t (by simp))).1 ht.1, ih (fun t ht => h t (by simp [ht])) ht.2⟩

theorem T.congr {n : Nt} (h : T blank n u xs) : (∀ t ∈ u, t.kind = T!"<" → (blank t.range.stop ↔ blank' t.range.stop)) → T blank' n u xs := by
  induction h with
  | @terms _ first rest g _ _ h1 h2 h3 h4 h5 i1 i2 =>
    intro hb
    refine .terms (i1 (fun t ht => hb t (List.mem_append_left _ ht))) (fun r hr => i2 r hr (fun t ht => hb t (List.mem_append_right _ ?_))) h1 h2 h3 h4 h5
    refine List.mem_flatMap.2 ⟨(r.1, r.2.toks, r.2.tree), List.mem_map.2 ⟨r, hr, rfl⟩, ?_⟩
    simp [ht]
  | bodyText h1 h2 h3 _ i1 =>
    intro hb
    refine .bodyText h1 (allText_congr (fun t ht => hb t (by rcases List.mem_cons.1 ht with h | h <;> simp [h])) h2) ?_ (i1 (fun t ht => hb t (by simp [ht])))
    intro t' r hw
    refine ⟨(h3 t' r hw).1, fun hc => (h3 t' r hw).2 ?_⟩
    exact (isText_congr (hb t' (by simp [hw]))).2 hc
  | anyExpr _ i0 => exact fun hb => .anyExpr (i0 (fun t ht => hb t (by simp [ht])))
  | expr _ i0 => exact fun hb => .expr (i0 (fun t ht => hb t (by simp [ht])))
  | conditional _ h1 h2 _ h4 _ i0 i3 i5 => exact fun hb => .conditional (i0 (fun t ht => hb t (by simp [ht]))) h1 h2 (i3 (fun t ht => hb t (by simp [ht]))) h4 (i5 (fun t ht => hb t (by simp [ht])))
  | conditionalThen _ h1 h2 _ i0 i3 => exact fun hb => .conditionalThen (i0 (fun t ht => hb t (by simp [ht]))) h1 h2 (i3 (fun t ht => hb t (by simp [ht])))
  | conditionalElse _ h1 h2 h3 _ i0 i4 => exact fun hb => .conditionalElse (i0 (fun t ht => hb t (by simp [ht]))) h1 h2 h3 (i4 (fun t ht => hb t (by simp [ht])))
  | postfixed _ _ i0 i1 => exact fun hb => .postfixed (i0 (fun t ht => hb t (by simp [ht]))) (i1 (fun t ht => hb t (by simp [ht])))
  | signed h0 _ i1 => exact fun hb => .signed h0 (i1 (fun t ht => hb t (by simp [ht])))
  | not h0 _ i1 => exact fun hb => .not h0 (i1 (fun t ht => hb t (by simp [ht])))
  | arrow h0 h1 _ i2 => exact fun hb => .arrow h0 h1 (i2 (fun t ht => hb t (by simp [ht])))
  | parenArrow h0 h1 _ h3 h4 _ i2 i5 => exact fun hb => .parenArrow h0 h1 (i2 (fun t ht => hb t (by simp [ht]))) h3 h4 (i5 (fun t ht => hb t (by simp [ht])))
  | noParam => exact fun _ => .noParam
  | param h0 h1 _ i2 => exact fun hb => .param h0 h1 (i2 (fun t ht => hb t (by simp [ht])))
  | test h0 _ h2 i1 => exact fun hb => .test h0 (i1 (fun t ht => hb t (by simp [ht]))) h2
  | number h0 => exact fun _ => .number h0
  | null h0 => exact fun _ => .null h0
  | boolean h0 => exact fun _ => .boolean h0
  | name h0 => exact fun _ => .name h0
  | call h0 _ i1 => exact fun hb => .call h0 (i1 (fun t ht => hb t (by simp [ht])))
  | literalString _ i0 => exact fun hb => .literalString (i0 (fun t ht => hb t (by simp [ht])))
  | array h0 _ h2 i1 => exact fun hb => .array h0 (i1 (fun t ht => hb t (by simp [ht]))) h2
  | literalHash _ i0 => exact fun hb => .literalHash (i0 (fun t ht => hb t (by simp [ht])))
  | parens h0 _ h2 h3 i1 => exact fun hb => .parens h0 (i1 (fun t ht => hb t (by simp [ht]))) h2 h3
  | done => exact fun _ => .done
  | property h0 h1 _ i2 => exact fun hb => .property h0 h1 (i2 (fun t ht => hb t (by simp [ht])))
  | method h0 h1 _ _ i2 i3 => exact fun hb => .method h0 h1 (i2 (fun t ht => hb t (by simp [ht]))) (i3 (fun t ht => hb t (by simp [ht])))
  | position h0 h1 _ i2 => exact fun hb => .position h0 h1 (i2 (fun t ht => hb t (by simp [ht])))
  | index h0 _ h2 _ i1 i3 => exact fun hb => .index h0 (i1 (fun t ht => hb t (by simp [ht]))) h2 (i3 (fun t ht => hb t (by simp [ht])))
  | slice h0 _ h2 _ h4 h5 _ i1 i3 i6 => exact fun hb => .slice h0 (i1 (fun t ht => hb t (by simp [ht]))) h2 (i3 (fun t ht => hb t (by simp [ht]))) h4 h5 (i6 (fun t ht => hb t (by simp [ht])))
  | filter h0 _ _ i1 i2 => exact fun hb => .filter h0 (i1 (fun t ht => hb t (by simp [ht]))) (i2 (fun t ht => hb t (by simp [ht])))
  | filterPlain h0 => exact fun _ => .filterPlain h0
  | filterCall h0 _ i1 => exact fun hb => .filterCall h0 (i1 (fun t ht => hb t (by simp [ht])))
  | string h0 _ h2 i1 => exact fun hb => .string h0 (i1 (fun t ht => hb t (by simp [ht]))) h2
  | stringEnd => exact fun _ => .stringEnd
  | stringToken h0 h1 h2 _ i3 => exact fun hb => .stringToken h0 h1 h2 (i3 (fun t ht => hb t (by simp [ht])))
  | stringEscape h0 h1 _ i2 => exact fun hb => .stringEscape h0 h1 (i2 (fun t ht => hb t (by simp [ht])))
  | interpolation h0 h1 _ h3 _ i2 i4 => exact fun hb => .interpolation h0 h1 (i2 (fun t ht => hb t (by simp [ht]))) h3 (i4 (fun t ht => hb t (by simp [ht])))
  | listEnd => exact fun _ => .listEnd
  | listLast _ i0 => exact fun hb => .listLast (i0 (fun t ht => hb t (by simp [ht])))
  | listMore _ h1 _ i0 i2 => exact fun hb => .listMore (i0 (fun t ht => hb t (by simp [ht]))) h1 (i2 (fun t ht => hb t (by simp [ht])))
  | arguments h0 _ h2 i1 => exact fun hb => .arguments h0 (i1 (fun t ht => hb t (by simp [ht]))) h2
  | exprElem _ i0 => exact fun hb => .exprElem (i0 (fun t ht => hb t (by simp [ht])))
  | argument _ h1 i0 => exact fun hb => .argument (i0 (fun t ht => hb t (by simp [ht]))) h1
  | namedArgument h0 h1 _ i2 => exact fun hb => .namedArgument h0 h1 (i2 (fun t ht => hb t (by simp [ht])))
  | hash h0 _ h2 i1 => exact fun hb => .hash h0 (i1 (fun t ht => hb t (by simp [ht]))) h2
  | numberKey h0 => exact fun _ => .numberKey h0
  | stringKey _ i0 => exact fun hb => .stringKey (i0 (fun t ht => hb t (by simp [ht])))
  | exprKey h0 _ h2 i1 => exact fun hb => .exprKey h0 (i1 (fun t ht => hb t (by simp [ht]))) h2
  | nameKey h0 => exact fun _ => .nameKey h0
  | pair _ h1 _ i0 i2 => exact fun hb => .pair (i0 (fun t ht => hb t (by simp [ht]))) h1 (i2 (fun t ht => hb t (by simp [ht])))
  | shortPair _ i0 => exact fun hb => .shortPair (i0 (fun t ht => hb t (by simp [ht])))
  | nameElem h0 => exact fun _ => .nameElem h0
  | override h0 => exact fun _ => .override h0
  | overrideAs h0 h1 h2 => exact fun _ => .overrideAs h0 h1 h2
  | prop h0 => exact fun _ => .prop h0
  | propValue h0 h1 _ i2 => exact fun hb => .propValue h0 h1 (i2 (fun t ht => hb t (by simp [ht])))
  | noToken => exact fun _ => .noToken
  | oneToken h0 => exact fun _ => .oneToken h0
  | noExpr => exact fun _ => .noExpr
  | oneExpr _ h1 i0 => exact fun hb => .oneExpr (i0 (fun t ht => hb t (by simp [ht]))) h1
  | noValue => exact fun _ => .noValue
  | oneValue h0 _ i1 => exact fun hb => .oneValue h0 (i1 (fun t ht => hb t (by simp [ht])))
  | noCall => exact fun _ => .noCall
  | oneCall h0 h1 _ h3 i2 => exact fun hb => .oneCall h0 h1 (i2 (fun t ht => hb t (by simp [ht]))) h3
  | var h0 _ h2 i1 => exact fun hb => .var h0 (i1 (fun t ht => hb t (by simp [ht]))) h2
  | comment h0 h1 h2 h3 => exact fun _ => .comment h0 h1 h2 h3
  | directive h0 h1 _ h3 i2 => exact fun hb => .directive h0 h1 (i2 (fun t ht => hb t (by simp [ht]))) h3
  | noRule => exact fun _ => .noRule
  | rule h0 _ _ i1 i2 => exact fun hb => .rule h0 (i1 (fun t ht => hb t (by simp [ht]))) (i2 (fun t ht => hb t (by simp [ht])))
  | tagComment _ i0 => exact fun hb => .tagComment (i0 (fun t ht => hb t (by simp [ht])))
  | block h0 h1 h2 h3 _ h5 h6 _ h8 h9 i4 i7 => exact fun hb => .block h0 h1 h2 h3 (i4 (fun t ht => hb t (by simp [ht]))) h5 h6 (i7 (fun t ht => hb t (by simp [ht]))) h8 h9
  | shortBlock h0 h1 h2 _ h4 i3 => exact fun hb => .shortBlock h0 h1 h2 (i3 (fun t ht => hb t (by simp [ht]))) h4
  | ifTag h0 h1 _ h3 _ _ h6 h7 h8 i2 i4 i5 => exact fun hb => .ifTag h0 h1 (i2 (fun t ht => hb t (by simp [ht]))) h3 (i4 (fun t ht => hb t (by simp [ht]))) (i5 (fun t ht => hb t (by simp [ht]))) h6 h7 h8
  | noBranch => exact fun _ => .noBranch
  | elseIf h0 h1 _ h3 _ _ i2 i4 i5 => exact fun hb => .elseIf h0 h1 (i2 (fun t ht => hb t (by simp [ht]))) h3 (i4 (fun t ht => hb t (by simp [ht]))) (i5 (fun t ht => hb t (by simp [ht])))
  | «else» h0 h1 h2 _ _ i3 i4 => exact fun hb => .«else» h0 h1 h2 (i3 (fun t ht => hb t (by simp [ht]))) (i4 (fun t ht => hb t (by simp [ht])))
  | assign h0 h1 _ h3 h4 _ h6 i2 i5 => exact fun hb => .assign h0 h1 (i2 (fun t ht => hb t (by simp [ht]))) h3 h4 (i5 (fun t ht => hb t (by simp [ht]))) h6
  | capture h0 h1 _ h3 _ h5 h6 h7 i2 i4 => exact fun hb => .capture h0 h1 (i2 (fun t ht => hb t (by simp [ht]))) h3 (i4 (fun t ht => hb t (by simp [ht]))) h5 h6 h7
  | forTag h0 h1 _ h3 _ h5 _ _ h8 h9 h10 i2 i4 i6 i7 => exact fun hb => .forTag h0 h1 (i2 (fun t ht => hb t (by simp [ht]))) h3 (i4 (fun t ht => hb t (by simp [ht]))) h5 (i6 (fun t ht => hb t (by simp [ht]))) (i7 (fun t ht => hb t (by simp [ht]))) h8 h9 h10
  | forName h0 => exact fun _ => .forName h0
  | forPair h0 h1 h2 => exact fun _ => .forPair h0 h1 h2
  | noElse => exact fun _ => .noElse
  | forElse h0 h1 h2 _ i3 => exact fun hb => .forElse h0 h1 h2 (i3 (fun t ht => hb t (by simp [ht])))
  | expressionTag h0 h1 _ h3 i2 => exact fun hb => .expressionTag h0 h1 (i2 (fun t ht => hb t (by simp [ht]))) h3
  | stringTag h0 h1 _ h3 i2 => exact fun hb => .stringTag h0 h1 (i2 (fun t ht => hb t (by simp [ht]))) h3
  | flush h0 h1 h2 => exact fun _ => .flush h0 h1 h2
  | returnTag h0 h1 _ h3 i2 => exact fun hb => .returnTag h0 h1 (i2 (fun t ht => hb t (by simp [ht]))) h3
  | includeTag h0 h1 _ _ _ _ h6 i2 i3 i4 i5 => exact fun hb => .includeTag h0 h1 (i2 (fun t ht => hb t (by simp [ht]))) (i3 (fun t ht => hb t (by simp [ht]))) (i4 (fun t ht => hb t (by simp [ht]))) (i5 (fun t ht => hb t (by simp [ht]))) h6
  | embedTag h0 h1 _ _ _ _ h6 _ h8 h9 h10 i2 i3 i4 i5 i7 => exact fun hb => .embedTag h0 h1 (i2 (fun t ht => hb t (by simp [ht]))) (i3 (fun t ht => hb t (by simp [ht]))) (i4 (fun t ht => hb t (by simp [ht]))) (i5 (fun t ht => hb t (by simp [ht]))) h6 (i7 (fun t ht => hb t (by simp [ht]))) h8 h9 h10
  | valueTag h0 h1 _ _ h4 i2 i3 => exact fun hb => .valueTag h0 h1 (i2 (fun t ht => hb t (by simp [ht]))) (i3 (fun t ht => hb t (by simp [ht]))) h4
  | useTag h0 h1 _ h3 i2 => exact fun hb => .useTag h0 h1 (i2 (fun t ht => hb t (by simp [ht]))) h3
  | useWithTag h0 h1 _ h3 _ h5 h6 i2 i4 => exact fun hb => .useWithTag h0 h1 (i2 (fun t ht => hb t (by simp [ht]))) h3 (i4 (fun t ht => hb t (by simp [ht]))) h5 h6
  | fromTag h0 h1 _ h3 _ h5 h6 i2 i4 => exact fun hb => .fromTag h0 h1 (i2 (fun t ht => hb t (by simp [ht]))) h3 (i4 (fun t ht => hb t (by simp [ht]))) h5 h6
  | importTag h0 h1 _ h3 h4 h5 i2 => exact fun hb => .importTag h0 h1 (i2 (fun t ht => hb t (by simp [ht]))) h3 h4 h5
  | propsTag h0 h1 _ h3 i2 => exact fun hb => .propsTag h0 h1 (i2 (fun t ht => hb t (by simp [ht]))) h3
  | plainBlock h0 h1 h2 _ h4 h5 h6 i3 => exact fun hb => .plainBlock h0 h1 h2 (i3 (fun t ht => hb t (by simp [ht]))) h4 h5 h6
  | applyTag h0 h1 _ _ h4 _ h6 h7 h8 i2 i3 i5 => exact fun hb => .applyTag h0 h1 (i2 (fun t ht => hb t (by simp [ht]))) (i3 (fun t ht => hb t (by simp [ht]))) h4 (i5 (fun t ht => hb t (by simp [ht]))) h6 h7 h8
  | appliedAll => exact fun _ => .appliedAll
  | appliedMore h0 _ _ i1 i2 => exact fun hb => .appliedMore h0 (i1 (fun t ht => hb t (by simp [ht]))) (i2 (fun t ht => hb t (by simp [ht])))
  | autoescapeTag h0 h1 _ h3 _ h5 h6 h7 i2 i4 => exact fun hb => .autoescapeTag h0 h1 (i2 (fun t ht => hb t (by simp [ht]))) h3 (i4 (fun t ht => hb t (by simp [ht]))) h5 h6 h7
  | noStrategy => exact fun _ => .noStrategy
  | noEscape h0 => exact fun _ => .noEscape h0
  | strategy _ i0 => exact fun hb => .strategy (i0 (fun t ht => hb t (by simp [ht])))
  | macroTag h0 h1 h2 _ h4 _ h6 h7 _ h9 h10 i3 i5 i8 => exact fun hb => .macroTag h0 h1 h2 (i3 (fun t ht => hb t (by simp [ht]))) h4 (i5 (fun t ht => hb t (by simp [ht]))) h6 h7 (i8 (fun t ht => hb t (by simp [ht]))) h9 h10
  | withTag h0 h1 _ _ h4 h5 _ h7 h8 h9 i2 i3 i6 => exact fun hb => .withTag h0 h1 (i2 (fun t ht => hb t (by simp [ht]))) (i3 (fun t ht => hb t (by simp [ht]))) h4 h5 (i6 (fun t ht => hb t (by simp [ht]))) h7 h8 h9
  | cacheTag h0 h1 _ _ _ h5 _ h7 h8 h9 i2 i3 i4 i6 => exact fun hb => .cacheTag h0 h1 (i2 (fun t ht => hb t (by simp [ht]))) (i3 (fun t ht => hb t (by simp [ht]))) (i4 (fun t ht => hb t (by simp [ht]))) h5 (i6 (fun t ht => hb t (by simp [ht]))) h7 h8 h9
  | silentTag h0 h1 _ h3 _ h5 h6 h7 i2 i4 => exact fun hb => .silentTag h0 h1 (i2 (fun t ht => hb t (by simp [ht]))) h3 (i4 (fun t ht => hb t (by simp [ht]))) h5 h6 h7
  | componentTag h0 h1 h2 h3 _ h5 _ h7 h8 h9 i4 i6 => exact fun hb => .componentTag h0 h1 h2 h3 (i4 (fun t ht => hb t (by simp [ht]))) h5 (i6 (fun t ht => hb t (by simp [ht]))) h7 h8 h9
  | noHash => exact fun _ => .noHash
  | withHash h0 _ i1 => exact fun hb => .withHash h0 (i1 (fun t ht => hb t (by simp [ht])))
  | bodyEnd => exact fun _ => .bodyEnd
  | bodyVar _ _ i0 i1 => exact fun hb => .bodyVar (i0 (fun t ht => hb t (by simp [ht]))) (i1 (fun t ht => hb t (by simp [ht])))
  | bodyTag _ _ i0 i1 => exact fun hb => .bodyTag (i0 (fun t ht => hb t (by simp [ht]))) (i1 (fun t ht => hb t (by simp [ht])))
  | bodyHtml _ _ i0 i1 => exact fun hb => .bodyHtml (i0 (fun t ht => hb t (by simp [ht]))) (i1 (fun t ht => hb t (by simp [ht])))
  | bodyUnknown h0 _ i1 => exact fun hb => .bodyUnknown h0 (i1 (fun t ht => hb t (by simp [ht])))
  | bodyAttr _ _ i0 i1 => exact fun hb => .bodyAttr (i0 (fun t ht => hb t (by simp [ht]))) (i1 (fun t ht => hb t (by simp [ht])))
  | bodyDouble _ h1 i0 => exact fun hb => .bodyDouble (i0 (fun t ht => hb t (by simp [ht]))) h1
  | bodySingle _ h1 i0 => exact fun hb => .bodySingle (i0 (fun t ht => hb t (by simp [ht]))) h1
  | bodyRaw _ h1 h2 i0 => exact fun hb => .bodyRaw (i0 (fun t ht => hb t (by simp [ht]))) h1 h2
  | noPart => exact fun _ => .noPart
  | partVar _ _ i0 i1 => exact fun hb => .partVar (i0 (fun t ht => hb t (by simp [ht]))) (i1 (fun t ht => hb t (by simp [ht])))
  | partTag _ _ i0 i1 => exact fun hb => .partTag (i0 (fun t ht => hb t (by simp [ht]))) (i1 (fun t ht => hb t (by simp [ht])))
  | partToken h0 _ i1 => exact fun hb => .partToken h0 (i1 (fun t ht => hb t (by simp [ht])))
  | plainName h0 h1 => exact fun _ => .plainName h0 h1
  | colonName h0 h1 h2 h3 => exact fun _ => .colonName h0 h1 h2 h3
  | varName _ i0 => exact fun hb => .varName (i0 (fun t ht => hb t (by simp [ht])))
  | attrPlain _ i0 => exact fun hb => .attrPlain (i0 (fun t ht => hb t (by simp [ht])))
  | attrValued _ h1 _ i0 i2 => exact fun hb => .attrValued (i0 (fun t ht => hb t (by simp [ht]))) h1 (i2 (fun t ht => hb t (by simp [ht])))
  | attrTag _ i0 => exact fun hb => .attrTag (i0 (fun t ht => hb t (by simp [ht])))
  | doubleQuoted h0 _ h2 i1 => exact fun hb => .doubleQuoted h0 (i1 (fun t ht => hb t (by simp [ht]))) h2
  | singleQuoted h0 _ h2 i1 => exact fun hb => .singleQuoted h0 (i1 (fun t ht => hb t (by simp [ht]))) h2
  | unquotedWord h0 => exact fun _ => .unquotedWord h0
  | unquotedVar _ i0 => exact fun hb => .unquotedVar (i0 (fun t ht => hb t (by simp [ht])))
  | element h0 h1 h2 h3 h4 _ h6 _ h8 h9 h10 h11 i5 i7 => exact fun hb => .element h0 h1 h2 h3 h4 (i5 (fun t ht => hb t (by simp [ht]))) h6 (i7 (fun t ht => hb t (by simp [ht]))) h8 h9 h10 h11
  | rawElement h0 h1 h2 h3 h4 _ h6 _ h8 h9 h10 h11 h12 i5 i7 => exact fun hb => .rawElement h0 h1 h2 h3 h4 (i5 (fun t ht => hb t (by simp [ht]))) h6 (i7 (fun t ht => hb t (by simp [ht]))) h8 h9 h10 h11 h12
  | voidElement h0 h1 h2 h3 _ h5 i4 => exact fun hb => .voidElement h0 h1 h2 h3 (i4 (fun t ht => hb t (by simp [ht]))) h5
  | closedElement h0 h1 h2 _ h4 i3 => exact fun hb => .closedElement h0 h1 h2 (i3 (fun t ht => hb t (by simp [ht]))) h4
  | htmlComment h0 h1 h2 h3 => exact fun _ => .htmlComment h0 h1 h2 h3
  | htmlDirective h0 h1 _ h3 i2 => exact fun hb => .htmlDirective h0 h1 (i2 (fun t ht => hb t (by simp [ht]))) h3
  | doctype h0 h1 h2 h3 => exact fun _ => .doctype h0 h1 h2 h3

end Ludtwig.Template
