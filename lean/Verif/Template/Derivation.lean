import Verif.Template.Elements

/-!
# The parser follows the grammar (proof device for C73)

Induction on the derivations of the grammar: for every nonterminal, what its tokens mean for the
function of the parser.
-/

namespace Ludtwig.Template

variable {toks : List Token} {u w : List Token} {x : Tree} {xs : List Tree} {c : Ctx}

/-- Exactly one tree. -/
inductive One (R : List Token → Tree → Prop) : List Token → List Tree → Prop
  | mk {u : List Token} {x : Tree} : R u x → One R u [x]

theorem One.get {R : List Token → Tree → Prop} (h : One R u [x]) : R u x := by
  cases h
  assumption

/-- The elements of lists. -/
def ElemOk (toks : List Token) : ListOf → List Token → Tree → Prop
  | .exprs => AnyExpr toks
  | .args => ArgOk toks
  | .pairs => PairOk toks
  | .names => NameElem
  | .overrides => OverrideElem
  | .props => PropElem toks

/-- What is shown for every nonterminal. -/
def Holds (toks : List Token) : Nt → List Token → List Tree → Prop
  | .expr => One (AnyExpr toks)
  | .exprOf d => One (ExprOk toks d)
  | .terms tight e => One (SumOk toks tight e)
  | .operand e => One (OpOk toks e)
  | .primary => One (PrimaryOk toks)
  | .postfixes x => One (PostOk toks x)
  | .filterName => FilterShape toks
  | .params => ParamsOk toks
  | .string i => One (StringOk toks i)
  | .stringParts q i => PartsOk toks q i
  | .hash => One (HashOk toks)
  | .hashKey => One (KeyOk toks)
  | .list o n => ListOk (ElemOk toks o) n
  | .elem o => One (ElemOk toks o)
  | .arguments => One (ArgsShape toks)
  | .optToken k => OptTok k
  | .optValue k n => OptVal toks k n
  | .optCall k n => OptCall toks k n
  | .optExpr true => OptShape (ExprOk toks false)
  | .optExpr false => OptShape (AnyExpr toks)
  | .applied xs => AppliedOk toks xs
  | .strategy => StrategyShape toks
  | .withHash => WithShape toks
  | .forNames => ForShape
  | .forElse c => ElseShape toks c
  | .var => One (VarOk toks)
  | .comment => One (CommentOk toks)
  | .rules => RulesOk toks
  | .tag c => One (TagOk toks c)
  | .branches c => BranchesOk toks c
  | .body .element => LoopOk toks .element
  | .body .attribute => LoopOk toks .attribute
  | .body c => BodyOk toks c
  | .parts .element => fun _ _ => True
  | .parts .attribute => fun _ _ => True
  | .parts c => LoopOk toks c
  | .attrName => One (AttrNameOk toks)
  | .attrValue => One (AttrValueOk toks)
  | .attr => One (AttrOk toks)
  | .html => One (HtmlOk toks)

theorem Holds.body (h : Holds toks (.body c) u xs) : BodyOk toks c u xs := by
  cases c
  · exact element_body h
  · exact attribute_body h
  all_goals exact h

theorem Holds.parts (h : Holds toks (.parts c) u xs) (hc : c ≠ .element) (hc' : c ≠ .attribute) : LoopOk toks c u xs := by
  cases c
  · exact absurd rfl hc
  · exact absurd rfl hc'
  all_goals exact h

theorem holds (G : Good toks) {n : Nt} (h : T (BlankAt toks) n u xs) : Holds toks n u xs := by
  induction h with
  | terms _ _ h1 h2 h3 h4 h5 ih1 ih2 => exact ⟨terms_sum ih1.get (fun r hr => (ih2 r hr).get) h1 h2 h3 h4 h5⟩
  | anyExpr _ ih => exact ⟨ih.get.any⟩
  | expr _ ih => exact ⟨expr_ok ih.get⟩
  | conditional _ he hq _ hc _ ih1 ih2 ih3 => exact ⟨conditional_ok ih1.get he hq ih2.get hc ih3.get⟩
  | conditionalThen _ he hq _ ih1 ih2 => exact ⟨conditionalThen_ok ih1.get he hq ih2.get⟩
  | conditionalElse _ he hq hc _ ih1 ih2 => exact ⟨conditionalElse_ok G ih1.get he hq hc ih2.get⟩
  | postfixed _ _ ih1 ih2 => exact ⟨postfixed_ok ih1.get ih2.get⟩
  | signed ht _ ih => exact ⟨signed_ok ht ih.get⟩
  | not ht _ ih => exact ⟨not_ok ht ih.get⟩
  | arrow ht ha _ ih => exact ⟨arrow_ok ht ha ih.get⟩
  | parenArrow hl ht _ hr ha _ ih1 ih2 => exact ⟨parenArrow_ok hl ht ih1 hr ha ih2.get⟩
  | noParam => exact noParam_ok
  | param hc ht _ ih => exact param_ok hc ht ih
  | test ht _ hu ih => exact ⟨test_ok ht ih.get hu⟩
  | number ht => exact ⟨number_ok ht⟩
  | null ht => exact ⟨null_ok ht⟩
  | boolean ht => exact ⟨boolean_ok ht⟩
  | name ht => exact ⟨name_ok ht⟩
  | call ht _ ih => exact ⟨call_ok ht ih.get⟩
  | literalString _ ih => exact ⟨literalString_ok ih.get⟩
  | array hl _ hr ih => exact ⟨arrayPrimary_ok hl ih hr⟩
  | literalHash _ ih => exact ⟨literalHash_ok ih.get⟩
  | parens hl _ hu hr ih => exact ⟨parens_ok hl ih.get hu hr⟩
  | done => exact ⟨done_ok⟩
  | property hd ht _ ih => exact ⟨property_ok hd ht ih.get⟩
  | method hd ht _ _ ih1 ih2 => exact ⟨method_ok hd ht ih1.get ih2.get⟩
  | position hd ht _ ih => exact ⟨position_ok hd ht ih.get⟩
  | index hl _ hr _ ih1 ih2 => exact ⟨index_ok hl ih1.get hr ih2.get⟩
  | slice hl _ hc _ hne hr _ ih1 ih2 ih3 => exact ⟨slice_ok G hl ih1 hc ih2 hne hr ih3.get⟩
  | filter hp _ _ ih1 ih2 => exact ⟨filter_ok hp ih1 ih2.get⟩
  | filterPlain ht => exact ⟨_, ht, .inl ⟨rfl, rfl⟩⟩
  | filterCall ht _ ih => exact ⟨_, ht, .inr ⟨_, _, ih.get, rfl, rfl⟩⟩
  | string hl _ hr ih => exact ⟨string_ok hl ih hr⟩
  | stringEnd => exact stringEnd_ok
  | stringToken ht hb hh _ ih => exact stringToken_ok ht hb hh ih
  | stringEscape hb ht _ ih => exact stringEscape_ok hb ht ih
  | interpolation hh hl _ hr _ ih1 ih2 => exact interpolation_ok hh hl ih1.get hr ih2
  | listEnd => exact .nil
  | listLast _ ih => exact .last ih.get
  | listMore _ hc _ ih1 ih2 => exact .more ih1.get hc ih2
  | arguments hl _ hr ih => exact ⟨_, _, _, _, _, hl, ih, hr, rfl, rfl⟩
  | exprElem _ ih => exact ⟨ih.get⟩
  | argument _ hu ih => exact ⟨argument_ok ih.get hu⟩
  | namedArgument ht he _ ih => exact ⟨namedArgument_ok ht he ih.get⟩
  | hash hl _ hr ih => exact ⟨hash_ok hl ih hr⟩
  | numberKey ht => exact ⟨numberKey_ok ht⟩
  | stringKey _ ih => exact ⟨stringKey_ok ih.get⟩
  | exprKey hl _ hr ih => exact ⟨exprKey_ok hl ih.get hr⟩
  | nameKey ht => exact ⟨nameKey_ok ht⟩
  | pair _ hc _ ih1 ih2 => exact ⟨pair_ok ih1.get hc ih2.get⟩
  | shortPair _ ih => exact ⟨shortPair_ok ih.get⟩
  | nameElem ht => exact ⟨_, ht, rfl, rfl⟩
  | override ht => exact ⟨_, ht, .inl ⟨rfl, rfl⟩⟩
  | overrideAs ht ha ht' => exact ⟨_, ht, .inr ⟨_, _, ha, ht', rfl, rfl⟩⟩
  | prop ht => exact ⟨_, ht, .inl ⟨rfl, rfl⟩⟩
  | propValue ht he _ ih => exact ⟨_, ht, .inr ⟨_, _, _, he, ih.get, rfl, rfl⟩⟩
  | noToken => exact .inl ⟨rfl, rfl⟩
  | oneToken ht => exact .inr ⟨_, ht, rfl, rfl⟩
  | @noExpr cl => cases cl <;> exact .none
  | @oneExpr d u x cl _ hd ih =>
    cases cl with
    | false => exact .one ih.get.any
    | true =>
      cases hd rfl
      exact .one ih.get
  | noValue => exact .inl ⟨rfl, rfl⟩
  | oneValue ht _ ih => exact .inr ⟨_, _, _, ht, ih.get, rfl, rfl⟩
  | noCall => exact .inl ⟨rfl, rfl⟩
  | oneCall ht hl _ hr ih => exact .inr ⟨_, _, _, _, _, ht, hl, ih.get, hr, rfl, rfl⟩
  | var ho _ hc ih => exact ⟨var_ok ho ih.get hc⟩
  | comment ho hts hd hc => exact ⟨comment_ok ho hts hd hc⟩
  | directive ho hd _ hc ih => exact ⟨directive_ok ho hd ih hc⟩
  | noRule => exact noRule_ok
  | rule ht _ _ ih1 ih2 => exact rule_ok ht ih1 ih2
  | tagComment _ ih => exact ⟨tagComment_ok ih.get⟩
  | block ho hk ht hc _ ho' he _ hut hc' ih1 ih2 => exact ⟨block_ok ho hk ht hc ih1.body ho' he ih2 hut hc'⟩
  | shortBlock ho hk ht _ hc ih => exact ⟨shortBlock_ok ho hk ht ih.get hc⟩
  | ifTag ho hk _ hc _ _ ho' he hc' ih1 ih2 ih3 => exact ⟨ifTag_ok ho hk ih1.get hc ih2.body ih3 ho' he hc'⟩
  | noBranch => exact noBranch_ok
  | elseIf ho hk _ hc _ _ ih1 ih2 ih3 => exact elseIf_ok ho hk ih1.get hc ih2.body ih3
  | «else» ho hk hc _ _ ih1 ih2 => exact else_ok ho hk hc ih1.body ih2
  | assign ho hk _ hn he _ hc ih1 ih2 => exact ⟨assign_ok ho hk ih1 hn he ih2 hc⟩
  | capture ho hk _ hc _ ho' he hc' ih1 ih2 => exact ⟨capture_ok ho hk ih1 hc ih2.body ho' he hc'⟩
  | forTag ho hk _ hi _ hc _ _ ho' he hc' ih1 ih2 ih3 ih4 => exact ⟨forTag_ok ho hk ih1 hi ih2.get hc ih3.body ih4 ho' he hc'⟩
  | forName ht => exact ⟨_, ht, .inl ⟨rfl, rfl⟩⟩
  | forPair ht hc ht' => exact ⟨_, ht, .inr ⟨_, _, hc, ht', rfl, rfl⟩⟩
  | noElse => exact .inl ⟨rfl, rfl⟩
  | forElse ho hk hc _ ih => exact .inr ⟨_, _, _, _, _, ho, hk, hc, ih.body, rfl, rfl⟩
  | expressionTag ho hk _ hc ih => exact ⟨expressionTag_ok ho hk ih.get hc⟩
  | stringTag ho hk _ hc ih => exact ⟨stringTag_ok ho hk ih.get hc⟩
  | flush ho hk hc => exact ⟨flush_ok ho hk hc⟩
  | returnTag ho hk _ hc ih => exact ⟨returnTag_ok G ho hk ih hc⟩
  | includeTag ho hk _ _ _ _ hc ih1 ih2 ih3 ih4 => exact ⟨includeTag_ok ho hk ih1.get ih2 ih3 ih4 hc⟩
  | embedTag ho hk _ _ _ _ hc _ ho' he hc' ih1 ih2 ih3 ih4 ih5 =>
    exact ⟨embedTag_ok ho hk ih1.get ih2 ih3 ih4 hc ih5.body ho' he hc'⟩
  | valueTag ho hk _ _ hc ih1 ih2 => exact ⟨valueTag_ok ho hk ih1.get ih2 hc⟩
  | useTag ho hk _ hc ih => exact ⟨useTag_ok ho hk ih.get hc⟩
  | useWithTag ho hk _ hi _ hn hc ih1 ih2 => exact ⟨useWithTag_ok ho hk ih1.get hi ih2 hn hc⟩
  | fromTag ho hk _ hi _ hn hc ih1 ih2 => exact ⟨fromTag_ok ho hk ih1.get hi ih2 hn hc⟩
  | importTag ho hk _ ha ht hc ih => exact ⟨importTag_ok ho hk ih.get ha ht hc⟩
  | propsTag ho hk _ hc ih => exact ⟨propsTag_ok ho hk ih hc⟩
  | plainBlock ho hk hc _ ho' he hc' ih => exact ⟨plainBlock_ok ho hk hc ih.body ho' he hc'⟩
  | applyTag ho hk _ _ hc _ ho' he hc' ih1 ih2 ih3 => exact ⟨applyTag_ok ho hk ih1 ih2 hc ih3.body ho' he hc'⟩
  | appliedAll => exact appliedAll_ok
  | appliedMore hp _ _ ih1 ih2 => exact appliedMore_ok hp ih1 ih2
  | autoescapeTag ho hk _ hc _ ho' he hc' ih1 ih2 => exact ⟨autoescapeTag_ok ho hk ih1 hc ih2.body ho' he hc'⟩
  | noStrategy => exact .inl ⟨rfl, rfl⟩
  | noEscape ht => exact .inr (.inl ⟨_, ht, rfl, rfl⟩)
  | strategy _ ih => exact .inr (.inr ⟨_, ih.get, rfl⟩)
  | macroTag ho hk ht _ hc _ ho' he _ hut hc' ih1 ih2 ih3 =>
    exact ⟨macroTag_ok ho hk ht ih1.get hc ih2.body ho' he ih3 hut hc'⟩
  | withTag ho hk _ _ hw hc _ ho' he hc' ih1 ih2 ih3 => exact ⟨withTag_ok G ho hk ih1 ih2 hw hc ih3.body ho' he hc'⟩
  | cacheTag ho hk _ _ _ hc _ ho' he hc' ih1 ih2 ih3 ih4 =>
    exact ⟨cacheTag_ok ho hk ih1.get ih2 ih3 hc ih4.body ho' he hc'⟩
  | silentTag ho hk _ hc _ ho' he hc' ih1 ih2 => exact ⟨silentTag_ok ho hk ih1.get hc ih2.body ho' he hc'⟩
  | componentTag hctx ho hk ht _ hc _ ho' he hc' ih1 ih2 =>
    exact ⟨componentTag_ok hctx ho hk ht ih1 hc ih2.body ho' he hc'⟩
  | noHash => exact .inl ⟨rfl, rfl⟩
  | withHash hi _ ih => exact .inr ⟨_, _, _, hi, ih.get, rfl, rfl⟩
  | @bodyEnd c =>
    cases c
    · exact loopEnd_ok
    · exact loopEnd_ok
    all_goals exact bodyEnd_ok
  | bodyVar _ _ ih1 ih2 => exact varItem_ok (by decide) ih1.get ih2
  | bodyTag _ _ ih1 ih2 => exact tagItem_ok (by decide) ih1.get ih2
  | bodyHtml _ _ ih1 ih2 => exact bodyHtml_ok ih1.get ih2
  | bodyUnknown ht _ ih => exact loopUnknown_ok (by decide) ht ih
  | bodyText ht hts hw _ ih => exact text_ok G ht hts hw ih
  | bodyAttr _ _ ih1 ih2 => exact bodyAttr_ok ih1.get ih2
  | bodyDouble _ hu ih => exact bodyDouble_ok ih hu
  | bodySingle _ hu ih => exact bodySingle_ok ih hu
  | bodyRaw _ hu hne ih => exact bodyRaw_ok ih hu hne
  | @noPart c => cases c <;> first | exact trivial | exact loopEnd_ok
  | @partVar c _ _ _ _ _ _ ih1 ih2 =>
    cases c <;> first | exact trivial | exact varItem_ok (by decide) ih1.get ih2
  | @partTag c _ _ _ _ _ _ ih1 ih2 =>
    cases c <;> first | exact trivial | exact tagItem_ok (by decide) ih1.get ih2
  | @partToken c _ _ _ ht _ ih =>
    cases c <;> first | exact trivial | exact partToken_ok ht ih
  | plainName ht hx => exact ⟨plainName_ok ht (attributeName_iff.1 hx)⟩
  | colonName hc _ hx ha => exact ⟨colonName_ok G hc (attributeName_iff.1 hx) ha⟩
  | varName _ ih => exact ⟨varName_ok G ih.get⟩
  | attrPlain _ ih => exact ⟨attrPlain_ok ih.get⟩
  | attrValued _ he _ ih1 ih2 => exact ⟨attrValued_ok ih1.get he ih2.get⟩
  | attrTag _ ih => exact ⟨attrTag_ok G ih.get⟩
  | doubleQuoted hl _ hr ih => exact ⟨doubleQuoted_ok hl ih hr⟩
  | singleQuoted hl _ hr ih => exact ⟨singleQuoted_ok hl ih hr⟩
  | unquotedWord ht => exact ⟨unquotedWord_ok ht⟩
  | unquotedVar _ ih => exact ⟨unquotedVar_ok ih.get⟩
  | element hl ht ha hv hr _ hg _ hl' hk htx hg' ih1 ih2 => exact ⟨element_ok G hl ht ha hv hr ih1 hg ih2 hl' hk htx hg'⟩
  | rawElement hl ht ha hv hr _ hg _ hl' hk htx hf hg' ih1 ih2 => exact ⟨rawElement_ok G hl ht ha hv hr ih1 hg ih2 hl' hk htx hf hg'⟩
  | voidElement hl ht ha hv _ hg ih => exact ⟨emptyElement_ok G hl ht ha ih (mem_sub (mem1 hg)) (.inr hv)⟩
  | closedElement hl ht ha _ hg ih => exact ⟨emptyElement_ok G hl ht ha ih (mem_sub (mem1 hg)) (.inl hg)⟩
  | htmlComment ho hts hd hc => exact ⟨htmlComment_ok ho hts hd hc⟩
  | htmlDirective ho hd _ hc ih => exact ⟨htmlDirective_ok ho hd ih hc⟩
  | doctype ho hd ht hc => exact ⟨doctype_ok ho hd ht hc⟩

end Ludtwig.Template
