import Verif.Layout.Tactic

/-!
# The grammar on files of different layout
-/

namespace Ludtwig.Layout

variable {R : Run}

/-- Two knots do the same on files of different layout. -/
structure KRel (R : Run) (K K' : Knot) : Prop where
  exprBp : ∀ p, Rel R Eq (K.exprBp p) (K'.exprBp p)
  anyElement : Rel R Eq K.anyElement K'.anyElement
  rawTextInner : Rel R Eq K.rawTextInner K'.rawTextInner
  attributeOrTwig : Rel R Eq K.attributeOrTwig K'.attributeOrTwig
  innerDouble : Rel R Eq K.innerDouble K'.innerDouble
  innerSingle : Rel R Eq K.innerSingle K'.innerSingle
  quiet : QuietIf (fun _ => True) (fun o => o = none) K.anyElement

theorem KRel.expr {K K' : Knot} (h : KRel R K K') : Rel R Eq K.expr K'.expr := h.exprBp 0

macro_rules | `(tactic| rel_leaf) => `(tactic| with_reducible exact KRel.exprBp ‹_› _)
macro_rules | `(tactic| rel_leaf) => `(tactic| with_reducible exact KRel.expr ‹_›)
macro_rules | `(tactic| rel_leaf) => `(tactic| with_reducible exact KRel.anyElement ‹_›)
macro_rules | `(tactic| rel_leaf) => `(tactic| with_reducible exact KRel.rawTextInner ‹_›)
macro_rules | `(tactic| rel_leaf) => `(tactic| with_reducible exact KRel.attributeOrTwig ‹_›)
macro_rules | `(tactic| rel_leaf) => `(tactic| with_reducible exact KRel.innerDouble ‹_›)
macro_rules | `(tactic| rel_leaf) => `(tactic| with_reducible exact KRel.innerSingle ‹_›)
theorem rel_atTwigBlockOpen : Rel R Eq atTwigBlockOpen atTwigBlockOpen := Rel.atSet _
macro_rules | `(tactic| rel_leaf) => `(tactic| with_reducible exact rel_atTwigBlockOpen)

theorem rel_atTwigBlockClose : Rel R Eq atTwigBlockClose atTwigBlockClose := Rel.atSet _
macro_rules | `(tactic| rel_leaf) => `(tactic| with_reducible exact rel_atTwigBlockClose)

theorem rel_atTwigVarOpen : Rel R Eq atTwigVarOpen atTwigVarOpen := Rel.atSet _
macro_rules | `(tactic| rel_leaf) => `(tactic| with_reducible exact rel_atTwigVarOpen)

theorem rel_atTwigCommentOpen : Rel R Eq atTwigCommentOpen atTwigCommentOpen := Rel.atSet _
macro_rules | `(tactic| rel_leaf) => `(tactic| with_reducible exact rel_atTwigCommentOpen)

theorem Rel.manyCount {σ : Type} {listEnd listEnd' : P Bool} {φ : List Token → Bool}
    {child child' : σ → P σ} (he : Rel R Eq listEnd listEnd') (hp : Peek listEnd φ)
    (hc : ∀ a, Rel R Eq (child a) (child' a))
    (hq : ∀ a, QuietIf (fun v => v ≠ [] ∧ φ v = false) (fun b => b = a) (child a)) (a : σ) :
    Rel R Eq (parseManyWith (fun a => do return ((← listEnd), a)) child a)
      (parseManyWith (fun a => do return ((← listEnd'), a)) child' a) :=
  .manyQuiet (φ := fun a v => (φ v, a)) (fun _ => he.bindEq (fun _ => .pureEq _))
    (fun a => hp.bind (ψ := fun b _ => (b, a)) (fun _ => .pure _)) (fun _ _ _ => rfl) hc hq a

macro_rules | `(tactic| quiet_leaf) => `(tactic|
  exact QuietIf.left (sure_expect_ _ _) (fun _ => (Rel.optionalToken (R := ⟨[], false⟩) _).mono))

theorem rel_parseLudtwigDirective (outer : Marker) (closing : List SyntaxKind) :
    Rel R Eq (parseLudtwigDirective outer closing) (parseLudtwigDirective outer closing) := by
  unfold parseLudtwigDirective
  rel
macro_rules | `(tactic| rel_leaf) => `(tactic| with_reducible refine rel_parseLudtwigDirective _ _)

theorem rel_tokenNode (kind : SyntaxKind) :
    Rel R Eq (tokenNode kind) (tokenNode kind) := by
  unfold tokenNode
  rel
macro_rules | `(tactic| rel_leaf) => `(tactic| with_reducible refine rel_tokenNode _)

theorem rel_parseTwigNumber :
    Rel R Eq parseTwigNumber parseTwigNumber := by
  unfold parseTwigNumber
  rel
macro_rules | `(tactic| rel_leaf) => `(tactic| with_reducible refine rel_parseTwigNumber)

theorem rel_parseTwigNull :
    Rel R Eq parseTwigNull parseTwigNull := by
  unfold parseTwigNull
  rel
macro_rules | `(tactic| rel_leaf) => `(tactic| with_reducible refine rel_parseTwigNull)

theorem rel_parseTwigBoolean :
    Rel R Eq parseTwigBoolean parseTwigBoolean := by
  unfold parseTwigBoolean
  rel
macro_rules | `(tactic| rel_leaf) => `(tactic| with_reducible refine rel_parseTwigBoolean)

theorem rel_wordNode (kind : SyntaxKind) :
    Rel R Eq (wordNode kind) (wordNode kind) := by
  unfold wordNode
  rel
macro_rules | `(tactic| rel_leaf) => `(tactic| with_reducible refine rel_wordNode _)

theorem rel_parseTwigName : Rel R Eq parseTwigName parseTwigName := by
  unfold parseTwigName wordNode
  refine (Rel.atSet _).bindEq (fun _ => Rel.peekToken.bind (fun o o' h => ?_))
  cases o <;> cases o' <;> first | exact h.elim | skip
  · rel
  · dsimp only
    rw [h.2]
    rel
macro_rules | `(tactic| rel_leaf) => `(tactic| with_reducible refine rel_parseTwigName)

theorem rel_parseTwigInterpolation {K K' : Knot} (hK : KRel R K K') :
    Rel R Eq (parseTwigInterpolation K) (parseTwigInterpolation K') := by
  unfold parseTwigInterpolation
  rel
macro_rules | `(tactic| rel_leaf) => `(tactic| with_reducible refine rel_parseTwigInterpolation ‹_›)

theorem rel_parseTwigStringPart {K K' : Knot} (quoteKind : SyntaxKind) (interpolation : Bool) (hK : KRel R K K') :
    Rel R Eq (parseTwigStringPart K quoteKind interpolation) (parseTwigStringPart K' quoteKind interpolation) := by
  unfold parseTwigStringPart
  rel
macro_rules | `(tactic| rel_leaf) => `(tactic| with_reducible refine rel_parseTwigStringPart _ _ ‹_›)

theorem sure_parseTwigStringPart {H : List Token → Prop} {K K' : Knot} (k : SyntaxKind) (i : Bool)
    (hK : KRel R K K') : SureIf H (parseTwigStringPart K k i) := by
  unfold parseTwigStringPart
  refine .ifP (Peek.atFollowing _) (.left (sure_bump_ _) (fun _ => by mono)) (.ifP (Peek.atFollowing _)
    (.ite (fun _ => ?_) (fun _ => ?_)) (sure_bump_ _))
  · exact .left (sure_bumpGen _ _) (fun _ => Mono.addErrorBuilder _)
  · refine .right Mono.trivia (fun _ => .right Mono.start (fun _ => .left (sure_bump_ _) (fun _ => ?_)))
    mono
macro_rules | `(tactic| quiet_leaf) => `(tactic| with_reducible exact (sure_parseTwigStringPart _ _ ‹_›).sure)

theorem rel_parseTwigString {K K' : Knot} (interpolation : Bool) (hK : KRel R K K') :
    Rel R Eq (parseTwigString K interpolation) (parseTwigString K' interpolation) := by
  unfold parseTwigString
  rel
macro_rules | `(tactic| rel_leaf) => `(tactic| with_reducible refine rel_parseTwigString _ ‹_›)

macro_rules | `(tactic| quiet_leaf) => `(tactic|
  exact (sure_item (by peek) (fun _ h => h.2) (by mono)).sure)

theorem rel_parseTwigArray {K K' : Knot} (hK : KRel R K K') :
    Rel R Eq (parseTwigArray K) (parseTwigArray K') := by
  unfold parseTwigArray
  rel
macro_rules | `(tactic| rel_leaf) => `(tactic| with_reducible refine rel_parseTwigArray ‹_›)

theorem rel_parseTwigHashKey {K K' : Knot} (hK : KRel R K K') :
    Rel R Eq (parseTwigHashKey K) (parseTwigHashKey K') := by
  unfold parseTwigHashKey
  refine Rel.ifP (.at' _) (by rel) (Rel.ifP (.atSet _) (by rel) (Rel.ifP (.at' _) (by rel) ?_))
  refine Rel.peekToken.bind (fun o o' h => ?_)
  cases o <;> cases o' <;> first | exact h.elim | skip
  · rel
  · dsimp only
    rw [h.2]
    rel
macro_rules | `(tactic| rel_leaf) => `(tactic| with_reducible refine rel_parseTwigHashKey ‹_›)

theorem rel_parseTwigHashPair {K K' : Knot} (hK : KRel R K K') :
    Rel R Eq (parseTwigHashPair K) (parseTwigHashPair K') := by
  unfold parseTwigHashPair
  rel
macro_rules | `(tactic| rel_leaf) => `(tactic| with_reducible refine rel_parseTwigHashPair ‹_›)

theorem rel_parseTwigHash {K K' : Knot} (hK : KRel R K K') :
    Rel R Eq (parseTwigHash K) (parseTwigHash K') := by
  unfold parseTwigHash
  rel
macro_rules | `(tactic| rel_leaf) => `(tactic| with_reducible refine rel_parseTwigHash ‹_›)

theorem rel_parseTwigFunctionArgument {K K' : Knot} (hK : KRel R K K') :
    Rel R Eq (parseTwigFunctionArgument K) (parseTwigFunctionArgument K') := by
  unfold parseTwigFunctionArgument
  rel
macro_rules | `(tactic| rel_leaf) => `(tactic| with_reducible refine rel_parseTwigFunctionArgument ‹_›)

theorem rel_parseArguments {K K' : Knot} {listEnd listEnd' : P Bool} (hK : KRel R K K') (h_listEnd : Rel R Eq listEnd listEnd') {φ : List Token → Bool} (hp : Peek listEnd φ) :
    Rel R Eq (parseArguments K listEnd) (parseArguments K' listEnd') := by
  unfold parseArguments
  rel
macro_rules | `(tactic| rel_leaf) => `(tactic| with_reducible refine rel_parseArguments ‹_› ?_ (by peek))

theorem rel_parseArgumentsNode {K K' : Knot} (hK : KRel R K K') :
    Rel R Eq (parseArgumentsNode K) (parseArgumentsNode K') := by
  unfold parseArgumentsNode
  rel
macro_rules | `(tactic| rel_leaf) => `(tactic| with_reducible refine rel_parseArgumentsNode ‹_›)

theorem rel_parseTwigFilter {K K' : Knot} (node : CompletedMarker) (hK : KRel R K K') :
    Rel R Eq (parseTwigFilter K node) (parseTwigFilter K' node) := by
  unfold parseTwigFilter
  rel
macro_rules | `(tactic| rel_leaf) => `(tactic| with_reducible refine rel_parseTwigFilter _ ‹_›)

theorem rel_parseTwigUpperBound {K K' : Knot} (hK : KRel R K K') :
    Rel R Eq (parseTwigUpperBound K) (parseTwigUpperBound K') := by
  unfold parseTwigUpperBound
  rel
macro_rules | `(tactic| rel_leaf) => `(tactic| with_reducible refine rel_parseTwigUpperBound ‹_›)

theorem rel_parseTwigIndexer {K K' : Knot} (node : CompletedMarker) (hK : KRel R K K') :
    Rel R Eq (parseTwigIndexer K node) (parseTwigIndexer K' node) := by
  unfold parseTwigIndexer
  rel
macro_rules | `(tactic| rel_leaf) => `(tactic| with_reducible refine rel_parseTwigIndexer _ ‹_›)

theorem rel_parseTwigFunction {K K' : Knot} (node : CompletedMarker) (hK : KRel R K K') :
    Rel R Eq (parseTwigFunction K node) (parseTwigFunction K' node) := by
  unfold parseTwigFunction
  rel
macro_rules | `(tactic| rel_leaf) => `(tactic| with_reducible refine rel_parseTwigFunction _ ‹_›)

theorem rel_parseTwigAccessor {K K' : Knot} (node : CompletedMarker) (hK : KRel R K K') :
    Rel R Eq (parseTwigAccessor K node) (parseTwigAccessor K' node) := by
  unfold parseTwigAccessor
  rel
macro_rules | `(tactic| rel_leaf) => `(tactic| with_reducible refine rel_parseTwigAccessor _ ‹_›)

theorem rel_parseTwigTestImplicitArgument {K K' : Knot} (node : CompletedMarker) (hK : KRel R K K') :
    Rel R Eq (parseTwigTestImplicitArgument K node) (parseTwigTestImplicitArgument K' node) := by
  unfold parseTwigTestImplicitArgument
  rel
macro_rules | `(tactic| rel_leaf) => `(tactic| with_reducible refine rel_parseTwigTestImplicitArgument _ ‹_›)

theorem rel_parseTwigArrowFunction {K K' : Knot} (node : CompletedMarker) (hK : KRel R K K') :
    Rel R Eq (parseTwigArrowFunction K node) (parseTwigArrowFunction K' node) := by
  unfold parseTwigArrowFunction
  rel
macro_rules | `(tactic| rel_leaf) => `(tactic| with_reducible refine rel_parseTwigArrowFunction _ ‹_›)

theorem rel_parseTwigNameLiteral {K K' : Knot} (hK : KRel R K K') :
    Rel R Eq (parseTwigNameLiteral K) (parseTwigNameLiteral K') := by
  unfold parseTwigNameLiteral
  rel
macro_rules | `(tactic| rel_leaf) => `(tactic| with_reducible refine rel_parseTwigNameLiteral ‹_›)

theorem rel_parseTwigLiteral {K K' : Knot} (hK : KRel R K K') :
    Rel R Eq (parseTwigLiteral K) (parseTwigLiteral K') := by
  unfold parseTwigLiteral
  rel
macro_rules | `(tactic| rel_leaf) => `(tactic| with_reducible refine rel_parseTwigLiteral ‹_›)

theorem rel_parsePostfixOperator {K K' : Knot} (node : CompletedMarker) (hK : KRel R K K') :
    Rel R Eq (parsePostfixOperator K node) (parsePostfixOperator K' node) := by
  unfold parsePostfixOperator
  rel
macro_rules | `(tactic| rel_leaf) => `(tactic| with_reducible refine rel_parsePostfixOperator _ ‹_›)

theorem sure_parseTwigFilter {H : List Token → Prop} {K K' : Knot} (node : CompletedMarker)
    (hK : KRel R K K') : SureIf H (parseTwigFilter K node) := by
  unfold parseTwigFilter
  exact .right (by mono) (fun _ => .right (by mono) (fun _ => .left (sure_bump_ _) (fun _ => by mono)))

theorem quiet_parsePostfixOperator {H : List Token → Prop} {K K' : Knot} (node : CompletedMarker)
    (hK : KRel R K K') : QuietIf H (fun b => b = node) (parsePostfixOperator K node) := by
  unfold parsePostfixOperator
  refine .ifP (Peek.at' _) (.sure ?_) (.ifP (Peek.at' _) (.sure ?_) (.ifP (Peek.at' _)
    (.sure (sure_parseTwigFilter node hK)) (.pure rfl)))
  · unfold parseTwigAccessor
    exact .right (by mono) (fun _ => .right (by mono) (fun _ => .left (sure_bump_ _) (fun _ => by mono)))
  · unfold parseTwigIndexer
    exact .right (by mono) (fun _ => .right (by mono) (fun _ => .left (sure_bump_ _) (fun _ => by mono)))

theorem rel_parsePostfixOperators {K K' : Knot} (node : CompletedMarker) (hK : KRel R K K') :
    Rel R Eq (parsePostfixOperators K node) (parsePostfixOperators K' node) := by
  unfold parsePostfixOperators
  exact .manyQuiet (φ := fun a _ => (false, a)) (fun _ => .pureEq _) (fun a => Peek.pure (false, a))
    (fun _ _ _ => rfl) (fun a => rel_parsePostfixOperator a hK) (fun a => quiet_parsePostfixOperator a hK) _
macro_rules | `(tactic| rel_leaf) => `(tactic| with_reducible refine rel_parsePostfixOperators _ ‹_›)

theorem rel_parseBinaryStep {K K' : Knot} (minPower : Nat) (a : Bool × CompletedMarker) (hK : KRel R K K') :
    Rel R Eq (parseBinaryStep K minPower a) (parseBinaryStep K' minPower a) := by
  unfold parseBinaryStep
  rel
macro_rules | `(tactic| rel_leaf) => `(tactic| with_reducible refine rel_parseBinaryStep _ _ ‹_›)

theorem rel_parseTruthy {K K' : Knot} (hK : KRel R K K') :
    Rel R Eq (parseTruthy K) (parseTruthy K') := by
  unfold parseTruthy
  rel
macro_rules | `(tactic| rel_leaf) => `(tactic| with_reducible refine rel_parseTruthy ‹_›)

theorem rel_parseConditionalExpression {K K' : Knot} (lhs : CompletedMarker) (hK : KRel R K K') :
    Rel R Eq (parseConditionalExpression K lhs) (parseConditionalExpression K' lhs) := by
  unfold parseConditionalExpression
  rel
macro_rules | `(tactic| rel_leaf) => `(tactic| with_reducible refine rel_parseConditionalExpression _ ‹_›)

theorem rel_parseBindingPowerRhs {K K' : Knot} (minPower : Nat) (lhs : CompletedMarker) (hK : KRel R K K') :
    Rel R Eq (parseBindingPowerRhs K minPower lhs) (parseBindingPowerRhs K' minPower lhs) := by
  unfold parseBindingPowerRhs
  rel
macro_rules | `(tactic| rel_leaf) => `(tactic| with_reducible refine rel_parseBindingPowerRhs _ _ ‹_›)

theorem rel_parseParenName {K K' : Knot} (name : CompletedMarker) (hK : KRel R K K') :
    Rel R Eq (parseParenName K name) (parseParenName K' name) := by
  unfold parseParenName
  rel
macro_rules | `(tactic| rel_leaf) => `(tactic| with_reducible refine rel_parseParenName _ ‹_›)

theorem rel_parseParenInner {K K' : Knot} (hK : KRel R K K') :
    Rel R Eq (parseParenInner K) (parseParenInner K') := by
  unfold parseParenInner
  rel
macro_rules | `(tactic| rel_leaf) => `(tactic| with_reducible refine rel_parseParenInner ‹_›)

theorem rel_parseParenExpression {K K' : Knot} (hK : KRel R K K') :
    Rel R Eq (parseParenExpression K) (parseParenExpression K') := by
  unfold parseParenExpression
  rel
macro_rules | `(tactic| rel_leaf) => `(tactic| with_reducible refine rel_parseParenExpression ‹_›)

macro_rules | `(tactic| quiet_leaf) => `(tactic|
  exact QuietIf.left (sure_expect_ _ _) (fun _ => (rel_parseTwigName (R := ⟨[], false⟩)).mono.discard))

theorem rel_parseParenArrowFunction {K K' : Knot} (m : Marker) (hK : KRel R K K') :
    Rel R Eq (parseParenArrowFunction K m) (parseParenArrowFunction K' m) := by
  unfold parseParenArrowFunction
  rel
macro_rules | `(tactic| rel_leaf) => `(tactic| with_reducible refine rel_parseParenArrowFunction _ ‹_›)

theorem rel_parseUnaryExpression {K K' : Knot} (hK : KRel R K K') :
    Rel R Eq (parseUnaryExpression K) (parseUnaryExpression K') := by
  unfold parseUnaryExpression
  rel
macro_rules | `(tactic| rel_leaf) => `(tactic| with_reducible refine rel_parseUnaryExpression ‹_›)

theorem rel_parseExpressionLhs {K K' : Knot} (hK : KRel R K K') :
    Rel R Eq (parseExpressionLhs K) (parseExpressionLhs K') := by
  unfold parseExpressionLhs
  rel
macro_rules | `(tactic| rel_leaf) => `(tactic| with_reducible refine rel_parseExpressionLhs ‹_›)

theorem rel_parseExpressionBp {K K' : Knot} (minPower : Nat) (hK : KRel R K K') :
    Rel R Eq (parseExpressionBp K minPower) (parseExpressionBp K' minPower) := by
  unfold parseExpressionBp
  rel
macro_rules | `(tactic| rel_leaf) => `(tactic| with_reducible refine rel_parseExpressionBp _ ‹_›)

theorem rel_parseEndBlock (keyword : SyntaxKind) (openRecovery : List SyntaxKind) (recovery : List SyntaxKind) (closeRecovery : List SyntaxKind) (kind : SyntaxKind) :
    Rel R Eq (parseEndBlock keyword openRecovery recovery closeRecovery kind) (parseEndBlock keyword openRecovery recovery closeRecovery kind) := by
  unfold parseEndBlock
  rel
macro_rules | `(tactic| rel_leaf) => `(tactic| with_reducible refine rel_parseEndBlock _ _ _ _ _)

theorem rel_parseStringOr {K K' : Knot} (expected : String) (recovery : List SyntaxKind) (hK : KRel R K K') :
    Rel R Eq (parseStringOr K expected recovery) (parseStringOr K' expected recovery) := by
  unfold parseStringOr
  rel
macro_rules | `(tactic| rel_leaf) => `(tactic| with_reducible refine rel_parseStringOr _ _ ‹_›)

theorem rel_parseOptionalValue {K K' : Knot} (keyword : SyntaxKind) (expected : String) (recovery : List SyntaxKind) (kind : SyntaxKind) (hK : KRel R K K') :
    Rel R Eq (parseOptionalValue K keyword expected recovery kind) (parseOptionalValue K' keyword expected recovery kind) := by
  unfold parseOptionalValue
  rel
macro_rules | `(tactic| rel_leaf) => `(tactic| with_reducible refine rel_parseOptionalValue _ _ _ _ ‹_›)

theorem rel_parseTwigSwThumbnails {K K' : Knot} (outer : Marker) (hK : KRel R K K') :
    Rel R Eq (parseTwigSwThumbnails K outer) (parseTwigSwThumbnails K' outer) := by
  unfold parseTwigSwThumbnails
  rel
macro_rules | `(tactic| rel_leaf) => `(tactic| with_reducible refine rel_parseTwigSwThumbnails _ ‹_›)

theorem rel_parseTwigSwIcon {K K' : Knot} (outer : Marker) (hK : KRel R K K') :
    Rel R Eq (parseTwigSwIcon K outer) (parseTwigSwIcon K' outer) := by
  unfold parseTwigSwIcon
  rel
macro_rules | `(tactic| rel_leaf) => `(tactic| with_reducible refine rel_parseTwigSwIcon _ ‹_›)

theorem rel_parseTwigSwReturn {K K' : Knot} (outer : Marker) (hK : KRel R K K') :
    Rel R Eq (parseTwigSwReturn K outer) (parseTwigSwReturn K' outer) := by
  unfold parseTwigSwReturn
  rel
macro_rules | `(tactic| rel_leaf) => `(tactic| with_reducible refine rel_parseTwigSwReturn _ ‹_›)

theorem rel_parseTwigSwSilentFeatureCall {K K' : Knot} (outer : Marker) {child child' : P (Option CompletedMarker)} (hK : KRel R K K') (h_child : Rel R Eq child child') :
    Rel R Eq (parseTwigSwSilentFeatureCall K outer child) (parseTwigSwSilentFeatureCall K' outer child') := by
  unfold parseTwigSwSilentFeatureCall
  rel
macro_rules | `(tactic| rel_leaf) => `(tactic| with_reducible refine rel_parseTwigSwSilentFeatureCall _ ‹_› ?_)

theorem rel_parseTwigSwExtends {K K' : Knot} (outer : Marker) (hK : KRel R K K') :
    Rel R Eq (parseTwigSwExtends K outer) (parseTwigSwExtends K' outer) := by
  unfold parseTwigSwExtends
  rel
macro_rules | `(tactic| rel_leaf) => `(tactic| with_reducible refine rel_parseTwigSwExtends _ ‹_›)

theorem rel_parseTwigSwInclude {K K' : Knot} (outer : Marker) (hK : KRel R K K') :
    Rel R Eq (parseTwigSwInclude K outer) (parseTwigSwInclude K' outer) := by
  unfold parseTwigSwInclude
  rel
macro_rules | `(tactic| rel_leaf) => `(tactic| with_reducible refine rel_parseTwigSwInclude _ ‹_›)

theorem rel_parseShopwareBlockStatement {K K' : Knot} (outer : Marker) {child child' : P (Option CompletedMarker)} (hK : KRel R K K') (h_child : Rel R Eq child child') :
    Rel R Eq (parseShopwareBlockStatement K outer child) (parseShopwareBlockStatement K' outer child') := by
  unfold parseShopwareBlockStatement
  rel
macro_rules | `(tactic| rel_leaf) => `(tactic| with_reducible refine rel_parseShopwareBlockStatement _ ‹_› ?_)

theorem rel_atTwigTerminationTag :
    Rel R Eq atTwigTerminationTag atTwigTerminationTag := by
  unfold atTwigTerminationTag
  rel
macro_rules | `(tactic| rel_leaf) => `(tactic| with_reducible refine rel_atTwigTerminationTag)

theorem rel_parseCacheArgument {K K' : Knot} (keyword : SyntaxKind) (kind : SyntaxKind) (expected : String) (after : List SyntaxKind) (hK : KRel R K K') :
    Rel R Eq (parseCacheArgument K keyword kind expected after) (parseCacheArgument K' keyword kind expected after) := by
  unfold parseCacheArgument
  rel
macro_rules | `(tactic| rel_leaf) => `(tactic| with_reducible refine rel_parseCacheArgument _ _ _ _ ‹_›)

theorem rel_parseTwigCache {K K' : Knot} (outer : Marker) {child child' : P (Option CompletedMarker)} (hK : KRel R K K') (h_child : Rel R Eq child child') :
    Rel R Eq (parseTwigCache K outer child) (parseTwigCache K' outer child') := by
  unfold parseTwigCache
  rel
macro_rules | `(tactic| rel_leaf) => `(tactic| with_reducible refine rel_parseTwigCache _ ‹_› ?_)

theorem rel_parseTwigWith {K K' : Knot} (outer : Marker) {child child' : P (Option CompletedMarker)} (hK : KRel R K K') (h_child : Rel R Eq child child') :
    Rel R Eq (parseTwigWith K outer child) (parseTwigWith K' outer child') := by
  unfold parseTwigWith
  rel
macro_rules | `(tactic| rel_leaf) => `(tactic| with_reducible refine rel_parseTwigWith _ ‹_› ?_)

theorem rel_parseEndName (what : String) (name : Option Text) :
    Rel R Eq (parseEndName what name) (parseEndName what name) := by
  unfold parseEndName
  rel
macro_rules | `(tactic| rel_leaf) => `(tactic| with_reducible refine rel_parseEndName _ _)

theorem rel_parseNamedEndBlock (keyword : SyntaxKind) (what : String) (name : Option Text) (openRecovery : List SyntaxKind) (recovery : List SyntaxKind) (kind : SyntaxKind) :
    Rel R Eq (parseNamedEndBlock keyword what name openRecovery recovery kind) (parseNamedEndBlock keyword what name openRecovery recovery kind) := by
  unfold parseNamedEndBlock
  rel
macro_rules | `(tactic| rel_leaf) => `(tactic| with_reducible refine rel_parseNamedEndBlock _ _ _ _ _ _)

theorem rel_atArgumentsEnd :
    Rel R Eq atArgumentsEnd atArgumentsEnd := by
  unfold atArgumentsEnd
  rel
macro_rules | `(tactic| rel_leaf) => `(tactic| with_reducible refine rel_atArgumentsEnd)

set_option maxHeartbeats 1000000 in
theorem rel_parseTwigMacro {K K' : Knot} (outer : Marker) {child child' : P (Option CompletedMarker)} (hK : KRel R K K') (h_child : Rel R Eq child child') :
    Rel R Eq (parseTwigMacro K outer child) (parseTwigMacro K' outer child') := by
  unfold parseTwigMacro
  rel
macro_rules | `(tactic| rel_leaf) => `(tactic| with_reducible refine rel_parseTwigMacro _ ‹_› ?_)

theorem rel_parseTwigVerbatim (outer : Marker) {child child' : P (Option CompletedMarker)} (h_child : Rel R Eq child child') :
    Rel R Eq (parseTwigVerbatim outer child) (parseTwigVerbatim outer child') := by
  unfold parseTwigVerbatim
  rel
macro_rules | `(tactic| rel_leaf) => `(tactic| with_reducible refine rel_parseTwigVerbatim _ ?_)

theorem rel_parseTwigSandbox (outer : Marker) {child child' : P (Option CompletedMarker)} (h_child : Rel R Eq child child') :
    Rel R Eq (parseTwigSandbox outer child) (parseTwigSandbox outer child') := by
  unfold parseTwigSandbox
  rel
macro_rules | `(tactic| rel_leaf) => `(tactic| with_reducible refine rel_parseTwigSandbox _ ?_)

theorem rel_parseTwigFlush (outer : Marker) :
    Rel R Eq (parseTwigFlush outer) (parseTwigFlush outer) := by
  unfold parseTwigFlush
  rel
macro_rules | `(tactic| rel_leaf) => `(tactic| with_reducible refine rel_parseTwigFlush _)

theorem rel_parseTwigDo {K K' : Knot} (outer : Marker) (hK : KRel R K K') :
    Rel R Eq (parseTwigDo K outer) (parseTwigDo K' outer) := by
  unfold parseTwigDo
  rel
macro_rules | `(tactic| rel_leaf) => `(tactic| with_reducible refine rel_parseTwigDo _ ‹_›)

theorem rel_parseTwigDeprecated {K K' : Knot} (outer : Marker) (hK : KRel R K K') :
    Rel R Eq (parseTwigDeprecated K outer) (parseTwigDeprecated K' outer) := by
  unfold parseTwigDeprecated
  rel
macro_rules | `(tactic| rel_leaf) => `(tactic| with_reducible refine rel_parseTwigDeprecated _ ‹_›)

theorem rel_parseTwigAutoescape {K K' : Knot} (outer : Marker) {child child' : P (Option CompletedMarker)} (hK : KRel R K K') (h_child : Rel R Eq child child') :
    Rel R Eq (parseTwigAutoescape K outer child) (parseTwigAutoescape K' outer child') := by
  unfold parseTwigAutoescape
  rel
macro_rules | `(tactic| rel_leaf) => `(tactic| with_reducible refine rel_parseTwigAutoescape _ ‹_› ?_)

theorem rel_parseApplyArguments {K K' : Knot} (hK : KRel R K K') :
    Rel R Eq (parseApplyArguments K) (parseApplyArguments K') := by
  unfold parseApplyArguments
  rel
macro_rules | `(tactic| rel_leaf) => `(tactic| with_reducible refine rel_parseApplyArguments ‹_›)

theorem rel_parseApplyFilters {K K' : Knot} (hK : KRel R K K') :
    Rel R Eq (parseApplyFilters K) (parseApplyFilters K') := by
  unfold parseApplyFilters
  refine rel_parseTwigName.bindEq (fun o => ?_)
  cases o with
  | none => rel
  | some node =>
    refine (rel_parseApplyArguments hK).bindEq (fun _ => Rel.discard (V := Eq) ?_)
    exact .manyCount rel_atTwigBlockClose (Peek.atSet _)
      (fun a => Rel.ifP (.at' _) (rel_parseTwigFilter a hK) (.pureEq _))
      (fun a => .ifP (Peek.at' _) (.sure (sure_parseTwigFilter a hK)) (.pure rfl)) _
macro_rules | `(tactic| rel_leaf) => `(tactic| with_reducible refine rel_parseApplyFilters ‹_›)

theorem rel_parseTwigApply {K K' : Knot} (outer : Marker) {child child' : P (Option CompletedMarker)} (hK : KRel R K K') (h_child : Rel R Eq child child') :
    Rel R Eq (parseTwigApply K outer child) (parseTwigApply K' outer child') := by
  unfold parseTwigApply
  rel
macro_rules | `(tactic| rel_leaf) => `(tactic| with_reducible refine rel_parseTwigApply _ ‹_› ?_)

theorem rel_parseTwigImport {K K' : Knot} (outer : Marker) (hK : KRel R K K') :
    Rel R Eq (parseTwigImport K outer) (parseTwigImport K' outer) := by
  unfold parseTwigImport
  rel
macro_rules | `(tactic| rel_leaf) => `(tactic| with_reducible refine rel_parseTwigImport _ ‹_›)

theorem rel_parseNameAsNameOverride (expected : String) :
    Rel R Eq (parseNameAsNameOverride expected) (parseNameAsNameOverride expected) := by
  unfold parseNameAsNameOverride
  rel
macro_rules | `(tactic| rel_leaf) => `(tactic| with_reducible refine rel_parseNameAsNameOverride _)

theorem rel_parseOverrides (expected : String) (missing : String) :
    Rel R Eq (parseOverrides expected missing) (parseOverrides expected missing) := by
  unfold parseOverrides
  refine Rel.bindEq (.manyCount rel_atTwigBlockClose (Peek.atSet _) (fun a => by rel) (fun a => ?_) _)
    (fun _ => by rel)
  refine .right (by mono) (fun _ => .left (sure_commaOrEnd (Peek.atSet _) (fun _ h => h.2))
    (fun _ => .pure _))
macro_rules | `(tactic| rel_leaf) => `(tactic| with_reducible refine rel_parseOverrides _ _)

theorem rel_parseTwigFrom {K K' : Knot} (outer : Marker) (hK : KRel R K K') :
    Rel R Eq (parseTwigFrom K outer) (parseTwigFrom K' outer) := by
  unfold parseTwigFrom
  rel
macro_rules | `(tactic| rel_leaf) => `(tactic| with_reducible refine rel_parseTwigFrom _ ‹_›)

theorem rel_parseTwigUse {K K' : Knot} (outer : Marker) (hK : KRel R K K') :
    Rel R Eq (parseTwigUse K outer) (parseTwigUse K' outer) := by
  unfold parseTwigUse
  rel
macro_rules | `(tactic| rel_leaf) => `(tactic| with_reducible refine rel_parseTwigUse _ ‹_›)

theorem kill_embed (sw : Bool) (a b c : List SyntaxKind) (kind kind' : SyntaxKind) (m : Marker) :
    Kill (fun v => (isTwigTag T!"endembed" v || isTwigTag T!"sw_end_embed" v) = false)
      (parseEndBlock (if sw then T!"sw_end_embed" else T!"endembed") a b c kind >>= fun _ =>
        complete m kind') := by
  refine Kill.weaken (Kill.left (kill_endBlock _ _ _ _ _) (fun _ => Mono.complete _ _)) (fun v h => ?_)
  rw [Bool.or_eq_false_iff] at h
  cases sw with
  | true => exact h.2
  | false => exact h.1
macro_rules | `(tactic| kill) => `(tactic| exact kill_embed _ _ _ _ _ _ _)

theorem rel_parseTwigEmbed {K K' : Knot} (outer : Marker) {child child' : P (Option CompletedMarker)} (hK : KRel R K K') (h_child : Rel R Eq child child') :
    Rel R Eq (parseTwigEmbed K outer child) (parseTwigEmbed K' outer child') := by
  unfold parseTwigEmbed
  rel
macro_rules | `(tactic| rel_leaf) => `(tactic| with_reducible refine rel_parseTwigEmbed _ ‹_› ?_)

theorem rel_parseTwigInclude {K K' : Knot} (outer : Marker) (hK : KRel R K K') :
    Rel R Eq (parseTwigInclude K outer) (parseTwigInclude K' outer) := by
  unfold parseTwigInclude
  rel
macro_rules | `(tactic| rel_leaf) => `(tactic| with_reducible refine rel_parseTwigInclude _ ‹_›)

theorem rel_parseTwigExtends {K K' : Knot} (outer : Marker) (hK : KRel R K K') :
    Rel R Eq (parseTwigExtends K outer) (parseTwigExtends K' outer) := by
  unfold parseTwigExtends
  rel
macro_rules | `(tactic| rel_leaf) => `(tactic| with_reducible refine rel_parseTwigExtends _ ‹_›)

theorem rel_parseForElse {child child' : P (Option CompletedMarker)} (h_child : Rel R Eq child child') :
    RelE R (fun v => isTwigTag T!"endfor" v = false) () (parseForElse child) (parseForElse child') := by
  unfold parseForElse whenP ifP
  refine RelE.after (Rel.atTwigTag _) (fun b b' hb => ?_)
  subst hb
  cases b with
  | false => exact .ofRel (.pureEq _)
  | true =>
    refine RelE.after Rel.start (fun m m' hm => ?_)
    subst hm
    refine RelE.after (Rel.bump_ _) (fun _ _ _ => RelE.after (Rel.bump_ _) (fun _ _ _ => ?_))
    refine RelE.after (Rel.expectAny_ _ _) (fun _ _ _ => RelE.after (Rel.complete_ _ _) (fun _ _ _ => ?_))
    exact relE_parseBody h_child (Rel.atTwigTag _) (Peek.atTwigTag _)

theorem rel_parseForVariables :
    Rel R Eq parseForVariables parseForVariables := by
  unfold parseForVariables
  rel
macro_rules | `(tactic| rel_leaf) => `(tactic| with_reducible refine rel_parseForVariables)

theorem rel_parseTwigFor {K K' : Knot} (outer : Marker) {child child' : P (Option CompletedMarker)} (hK : KRel R K K') (h_child : Rel R Eq child child') :
    Rel R Eq (parseTwigFor K outer child) (parseTwigFor K' outer child') := by
  unfold parseTwigFor
  refine (Rel.bump_ _).bindEq (fun _ => rel_parseForVariables.bindEq (fun _ => ?_))
  refine (Rel.expect_ _ _).bindEq (fun _ => Rel.bindEq (by rel) (fun _ => ?_))
  refine (Rel.expectAny_ _ _).bindEq (fun _ => (Rel.complete _ _).bindEq (fun c => ?_))
  refine (Rel.precede _).bindEq (fun c => ?_)
  refine Rel.body h_child (by rel) ((Peek.atTwigTag _).or (Peek.atTwigTag _)) ?_
    (fun _ => (rel_parseForElse h_child).bind
      (Kill.left (kill_endBlock _ _ _ _ _) (fun _ => Mono.complete _ _)) (fun _ => by rel))
  -- without `else` and `endfor` the ending block is missing
  refine Still.kill (a := ()) (.ifFalse (Peek.atTwigTag _) (fun v h => ?_) (.pure _))
    (Kill.weaken (Kill.left (kill_endBlock _ _ _ _ _) (fun _ => Mono.complete _ _)) (fun v h => ?_))
  · rw [Bool.or_eq_false_iff] at h
    exact h.2
  · rw [Bool.or_eq_false_iff] at h
    exact h.1
macro_rules | `(tactic| rel_leaf) => `(tactic| with_reducible refine rel_parseTwigFor _ ‹_› ?_)

theorem rel_atDeclarationsEnd :
    Rel R Eq atDeclarationsEnd atDeclarationsEnd := by
  unfold atDeclarationsEnd
  rel
macro_rules | `(tactic| rel_leaf) => `(tactic| with_reducible refine rel_atDeclarationsEnd)

theorem rel_parseCounted {listEnd listEnd' : P Bool} {item item' : P (Option CompletedMarker)} (expected : String) (h_listEnd : Rel R Eq listEnd listEnd') (h_item : Rel R Eq item item') {φ : List Token → Bool} (hp : Peek listEnd φ) :
    Rel R Eq (parseCounted listEnd item expected) (parseCounted listEnd' item' expected) := by
  unfold parseCounted
  refine .manyCount h_listEnd hp (fun a => by rel) (fun a => ?_) _
  refine .right h_item.mono (fun o => ?_)
  cases o with
  | some _ =>
    exact .left (sure_commaOrEnd hp (fun _ h => h.2)) (fun _ => .pure _)
  | none =>
    exact .left (sure_addError _) (fun _ => (sure_commaOrEnd (H := fun v => v ≠ [] ∧ φ v = false) hp (fun _ h => h.2)).mono.bind (fun _ => .pure _))
macro_rules | `(tactic| rel_leaf) => `(tactic| with_reducible refine rel_parseCounted _ ?_ ?_ (by peek))

theorem rel_parseSetAssignment {K K' : Knot} (declarations : Nat) (hK : KRel R K K') :
    Rel R Eq (parseSetAssignment K declarations) (parseSetAssignment K' declarations) := by
  unfold parseSetAssignment
  rel
macro_rules | `(tactic| rel_leaf) => `(tactic| with_reducible refine rel_parseSetAssignment _ ‹_›)

theorem rel_parseTwigSet {K K' : Knot} (outer : Marker) {child child' : P (Option CompletedMarker)} (hK : KRel R K K') (h_child : Rel R Eq child child') :
    Rel R Eq (parseTwigSet K outer child) (parseTwigSet K' outer child') := by
  unfold parseTwigSet
  rel
macro_rules | `(tactic| rel_leaf) => `(tactic| with_reducible refine rel_parseTwigSet _ ‹_› ?_)

theorem rel_parseBlockShortcut {K K' : Knot} (hK : KRel R K K') :
    Rel R Eq (parseBlockShortcut K) (parseBlockShortcut K') := by
  unfold parseBlockShortcut
  rel
macro_rules | `(tactic| rel_leaf) => `(tactic| with_reducible refine rel_parseBlockShortcut ‹_›)

theorem rel_parseTwigBlock {K K' : Knot} (outer : Marker) {child child' : P (Option CompletedMarker)} (hK : KRel R K K') (h_child : Rel R Eq child child') :
    Rel R Eq (parseTwigBlock K outer child) (parseTwigBlock K' outer child') := by
  unfold parseTwigBlock
  rel
macro_rules | `(tactic| rel_leaf) => `(tactic| with_reducible refine rel_parseTwigBlock _ ‹_› ?_)

theorem rel_parseIfBranch {K K' : Knot} (hK : KRel R K K') :
    Rel R Eq (parseIfBranch K) (parseIfBranch K') := by
  unfold parseIfBranch
  rel
macro_rules | `(tactic| rel_leaf) => `(tactic| with_reducible refine rel_parseIfBranch ‹_›)

/-- Not at a tag that ends a branch of `if`. -/
def noBranchEnd (v : List Token) : Prop :=
  (isTwigTag T!"endif" v || (isTwigTag T!"elseif" v || isTwigTag T!"else" v)) = false

theorem relE_parseIfStep {K K' : Knot} {child child' : P (Option CompletedMarker)} (u : Unit) (hK : KRel R K K') (h_child : Rel R Eq child child') :
    RelE R noBranchEnd (false, ()) (parseIfStep K child u) (parseIfStep K' child' u) := by
  unfold parseIfStep
  refine RelE.still (relE_parseBody h_child (by rel)
      ((Peek.atTwigTag _).or ((Peek.atTwigTag _).or (Peek.atTwigTag _)))) ?_
    (fun _ => (rel_parseIfBranch hK).bindEq (fun _ => .pureEq _))
  have hb : Still noBranchEnd false (parseIfBranch K) := by
    unfold parseIfBranch
    refine .ifFalse (Peek.atTwigTag _) (fun v h => ?_) (.ifFalse (Peek.atTwigTag _) (fun v h => ?_)
      (.ifFalse (Peek.atTwigTag _) (fun v h => ?_) (.pure _)))
    all_goals
      unfold noBranchEnd at h
      simp only [Bool.or_eq_false_iff] at h
      simp only [h]
  intro s hs
  obtain ⟨u, h1, h2⟩ := hb s hs
  refine ⟨u, ?_, h2⟩
  show P.bind _ _ s = _
  unfold P.bind
  rw [h1]
  rfl

theorem rel_parseTwigIf {K K' : Knot} (outer : Marker) {child child' : P (Option CompletedMarker)} (hK : KRel R K K') (h_child : Rel R Eq child child') :
    Rel R Eq (parseTwigIf K outer child) (parseTwigIf K' outer child') := by
  unfold parseTwigIf
  refine (Rel.bump_ _).bindEq (fun _ => Rel.bindEq (by rel) (fun _ => ?_))
  refine (Rel.expectAny_ _ _).bindEq (fun _ => (Rel.complete _ _).bindEq (fun c => ?_))
  refine (Rel.precede _).bindEq (fun c => ?_)
  refine (RelE.loopTokens (fun u => relE_parseIfStep u hK h_child)).bind ?_ (fun _ => by rel)
  refine Kill.weaken (Kill.left (kill_endBlock _ _ _ _ _) (fun _ => Mono.complete _ _)) (fun v h => ?_)
  unfold noBranchEnd at h
  simp only [Bool.or_eq_false_iff] at h
  exact h.1
macro_rules | `(tactic| rel_leaf) => `(tactic| with_reducible refine rel_parseTwigIf _ ‹_› ?_)

theorem rel_parseTwigTrans (outer : Marker) {child child' : P (Option CompletedMarker)} (h_child : Rel R Eq child child') :
    Rel R Eq (parseTwigTrans outer child) (parseTwigTrans outer child') := by
  unfold parseTwigTrans
  rel
macro_rules | `(tactic| rel_leaf) => `(tactic| with_reducible refine rel_parseTwigTrans _ ?_)

theorem rel_parsePropDeclaration {K K' : Knot} (hK : KRel R K K') :
    Rel R Eq (parsePropDeclaration K) (parsePropDeclaration K') := by
  unfold parsePropDeclaration
  rel
macro_rules | `(tactic| rel_leaf) => `(tactic| with_reducible refine rel_parsePropDeclaration ‹_›)

theorem sure_parsePropDeclaration {K K' : Knot} (hK : KRel R K K') :
    SureIf (fun v => v ≠ [] ∧ isAtSet [T!"%}", T!"-%}", T!"~%}", T!",", T!"=", T!"</"] v = false)
      (parsePropDeclaration K) := by
  unfold parsePropDeclaration
  refine .right Mono.start (fun m => .right ?_ (fun _ => .right ?_ (fun _ => .right ?_ (fun _ => ?_))))
  · mono
  · mono
  · mono
  · refine sure_commaOrEnd (Peek.atSet _) (fun v h => ?_)
    cases v with
    | nil => rfl
    | cons t q =>
      have := h.2
      simp only [isAtSet, List.head?_cons, List.contains_cons, Bool.or_eq_false_iff, twigBlockCloseSet] at this ⊢
      simp [twigBlockCloseSet, this.1, this.2.1, this.2.2.1]
macro_rules | `(tactic| quiet_leaf) => `(tactic| exact (sure_parsePropDeclaration ‹_›).sure)

theorem rel_parseTwigProps {K K' : Knot} (outer : Marker) (hK : KRel R K K') :
    Rel R Eq (parseTwigProps K outer) (parseTwigProps K' outer) := by
  unfold parseTwigProps
  rel
macro_rules | `(tactic| rel_leaf) => `(tactic| with_reducible refine rel_parseTwigProps _ ‹_›)

theorem rel_parseTwigComponent {K K' : Knot} (outer : Marker) {child child' : P (Option CompletedMarker)} (hK : KRel R K K') (h_child : Rel R Eq child child') :
    Rel R Eq (parseTwigComponent K outer child) (parseTwigComponent K' outer child') := by
  unfold parseTwigComponent
  rel
macro_rules | `(tactic| rel_leaf) => `(tactic| with_reducible refine rel_parseTwigComponent _ ‹_› ?_)

theorem rel_someP {f f' : P CompletedMarker} (h_f : Rel R Eq f f') :
    Rel R Eq (someP f) (someP f') := by
  unfold someP
  rel
macro_rules | `(tactic| rel_leaf) => `(tactic| with_reducible refine rel_someP ?_)

theorem rel_parseTwigTag {K K' : Knot} (m : Marker) {child child' : P (Option CompletedMarker)} (hK : KRel R K K') (h_child : Rel R Eq child child') :
    Rel R Eq (parseTwigTag K m child) (parseTwigTag K' m child') := by
  unfold parseTwigTag
  rel
macro_rules | `(tactic| rel_leaf) => `(tactic| with_reducible refine rel_parseTwigTag _ ‹_› ?_)

theorem rel_parseTwigBlockStatement {K K' : Knot} {child child' : P (Option CompletedMarker)} (hK : KRel R K K') (h_child : Rel R Eq child child') :
    Rel R Eq (parseTwigBlockStatement K child) (parseTwigBlockStatement K' child') := by
  unfold parseTwigBlockStatement
  rel
macro_rules | `(tactic| rel_leaf) => `(tactic| with_reducible refine rel_parseTwigBlockStatement ‹_› ?_)

theorem rel_parseTwigPlainComment (outer : Marker) :
    Rel R Eq (parseTwigPlainComment outer) (parseTwigPlainComment outer) := by
  unfold parseTwigPlainComment
  rel
macro_rules | `(tactic| rel_leaf) => `(tactic| with_reducible refine rel_parseTwigPlainComment _)

theorem rel_parseTwigCommentStatement :
    Rel R Eq parseTwigCommentStatement parseTwigCommentStatement := by
  unfold parseTwigCommentStatement
  rel
macro_rules | `(tactic| rel_leaf) => `(tactic| with_reducible refine rel_parseTwigCommentStatement)

theorem rel_parseTwigVarStatement {K K' : Knot} (hK : KRel R K K') :
    Rel R Eq (parseTwigVarStatement K) (parseTwigVarStatement K') := by
  unfold parseTwigVarStatement
  rel
macro_rules | `(tactic| rel_leaf) => `(tactic| with_reducible refine rel_parseTwigVarStatement ‹_›)

theorem rel_parseAnyTwig {K K' : Knot} {child child' : P (Option CompletedMarker)} (hK : KRel R K K') (h_child : Rel R Eq child child') :
    Rel R Eq (parseAnyTwig K child) (parseAnyTwig K' child') := by
  unfold parseAnyTwig
  rel
macro_rules | `(tactic| rel_leaf) => `(tactic| with_reducible refine rel_parseAnyTwig ‹_› ?_)

/-- An action that looks at the token directly behind `<`. -/
theorem rel_behindLess {f : Option Token → Bool} {g : Option Token → P Bool}
    (hg : ∀ o, g o = pure (f o))
    (hf : ∀ o o' : Option Token, o.map (·.kind) = o'.map (·.kind) → f o = f o') :
    Rel R Eq (P.and (at' T!"<") (peekNthToken 1 >>= g)) (P.and (at' T!"<") (peekNthToken 1 >>= g)) := by
  refine .look (φ := fun v => if (v.head?.map (·.kind) == some T!"<") = true then f v[1]? else false)
    (fun s => ?_) (fun r r' h => ?_)
  · have h1 : at' T!"<" s = .ok ((dropTrivia s.rest).head?.map (·.kind) == some T!"<",
        { s with rest := dropTrivia s.rest }) := rfl
    have h2 : ∀ t : PState, (peekNthToken 1 >>= g) t =
        .ok (f (dropTrivia t.rest)[1]?, { t with rest := dropTrivia t.rest }) := by
      intro t
      show g _ _ = _
      rw [hg]
      rfl
    unfold P.and
    show (match at' T!"<" s with
      | .error e => Except.error e
      | .ok (a, s) => (if a = true then (peekNthToken 1 >>= g) else Pure.pure false) s) = _
    rw [h1]
    dsimp only
    split
    · rw [h2, dropTrivia_idem]
    · rfl
  · cases h with
    | nil => rfl
    | @token t t' ts ts' h1 h2 h3 _ h4 =>
      by_cases hk : t.kind = T!"<"
      · have hk' : t'.kind = T!"<" := h2.1 ▸ hk
        simp only [List.head?_cons, Option.map_some, hk, hk', beq_self_eq_true, if_true]
        exact hf _ _ (by simpa [List.head?_eq_getElem?] using h3 hk)
      · have hk' : ¬ t'.kind = T!"<" := h2.1 ▸ hk
        simp [hk, hk']

theorem rel_atLessThanNonWord : Rel R Eq atLessThanNonWord atLessThanNonWord := by
  refine rel_behindLess (f := fun o => match o with | none => true | some t => noTagStart t.kind)
    (fun o => ?_) (fun o o' h => ?_)
  · cases o <;> rfl
  · cases o <;> cases o' <;> simp_all
macro_rules | `(tactic| rel_leaf) => `(tactic| with_reducible exact rel_atLessThanNonWord)

theorem rel_atElementStart : Rel R Eq atElementStart atElementStart := by
  refine rel_behindLess (f := fun o => match o with | none => false | some t => !noTagStart t.kind)
    (fun o => ?_) (fun o o' h => ?_)
  · cases o <;> rfl
  · cases o <;> cases o' <;> simp_all
macro_rules | `(tactic| rel_leaf) => `(tactic| with_reducible exact rel_atElementStart)

theorem sure_block {H : List Token → Prop} {K K' : Knot} {child child' : P (Option CompletedMarker)}
    (hK : KRel R K K') (h_child : Rel R Eq child child') : SureIf H (parseTwigBlockStatement K child) :=
  .right Mono.start (fun m => .left (sure_bump_ _) (fun _ => (rel_parseTwigTag m hK h_child).mono))

theorem sure_var {H : List Token → Prop} {K K' : Knot} (hK : KRel R K K') :
    SureIf H (parseTwigVarStatement K) := by
  unfold parseTwigVarStatement
  refine .right Mono.start (fun m => .left (sure_bump_ _) (fun _ => ?_))
  mono

theorem sure_comment {H : List Token → Prop} : SureIf H parseTwigCommentStatement := by
  unfold parseTwigCommentStatement
  refine .right Mono.start (fun m => .left (sure_bump_ _) (fun _ => ?_))
  mono

theorem quiet_parseAnyTwig {H : List Token → Prop} {K K' : Knot}
    {child child' : P (Option CompletedMarker)} (hK : KRel R K K') (h_child : Rel R Eq child child') :
    QuietIf H (fun o => o = none) (parseAnyTwig K child) :=
  .ifP (Peek.atSet _) (.sure (sure_block hK h_child))
    (.ifP (Peek.atSet _) (.left (sure_var hK) (fun _ => .pure _))
      (.ifP (Peek.atSet _) (.left sure_comment (fun _ => .pure _)) (.pure rfl)))

theorem rel_parseHtmlDoctype :
    Rel R Eq parseHtmlDoctype parseHtmlDoctype := by
  unfold parseHtmlDoctype
  rel
macro_rules | `(tactic| rel_leaf) => `(tactic| with_reducible refine rel_parseHtmlDoctype)

theorem rel_atTextEnd :
    Rel R Eq atTextEnd atTextEnd := by
  unfold atTextEnd
  rel
macro_rules | `(tactic| rel_leaf) => `(tactic| with_reducible refine rel_atTextEnd)

theorem rel_parseHtmlText :
    Rel R Eq parseHtmlText parseHtmlText := by
  unfold parseHtmlText
  rel
macro_rules | `(tactic| rel_leaf) => `(tactic| with_reducible refine rel_parseHtmlText)

theorem quiet_parseHtmlText {H : List Token → Prop} :
    QuietIf H (fun o => o = none) parseHtmlText := by
  unfold parseHtmlText
  refine .ifP (Peek.atEnd.or Peek.atTextEnd) (.pure rfl) (.sure (.right Mono.start (fun m => ?_)))
  refine .left (sure_parseMany Peek.atTextEnd (fun v h => ?_) (sure_bump_ _)) (fun _ => by mono)
  have h1 := h.1
  rw [Bool.or_eq_false_iff] at h1
  exact ⟨h1.2, by intro h; rw [h] at h1; cases h1.1⟩

theorem rel_parseRawTextPart {K K' : Knot} (hK : KRel R K K') :
    Rel R Eq (parseRawTextPart K) (parseRawTextPart K') := by
  unfold parseRawTextPart
  rel
macro_rules | `(tactic| rel_leaf) => `(tactic| with_reducible refine rel_parseRawTextPart ‹_›)

theorem sure_parseRawTextPart {H : List Token → Prop} {K K' : Knot} (hK : KRel R K K') :
    SureIf H (parseRawTextPart K) :=
  (quiet_parseAnyTwig hK hK.rawTextInner).bind
    (fun o => by cases o; exact (sure_bump_ (H := H) _).mono; exact .pure _)
    (fun o h => by subst h; exact sure_bump_ _)
macro_rules | `(tactic| quiet_leaf) => `(tactic| exact (sure_parseRawTextPart ‹_›).sure)

theorem rel_parseHtmlRawTextInner {K K' : Knot} (hK : KRel R K K') :
    Rel R Eq (parseHtmlRawTextInner K) (parseHtmlRawTextInner K') := by
  unfold parseHtmlRawTextInner
  rel
macro_rules | `(tactic| rel_leaf) => `(tactic| with_reducible refine rel_parseHtmlRawTextInner ‹_›)

theorem rel_atBodyEnd (tagKind : SyntaxKind) (tagName : Text) (found : Bool) :
    Rel R Eq (atBodyEnd tagKind tagName found) (atBodyEnd tagKind tagName found) := by
  unfold atBodyEnd
  rel
macro_rules | `(tactic| rel_leaf) => `(tactic| with_reducible refine rel_atBodyEnd _ _ _)

/-- What `atTwigTerminationTag` looks at. -/
def isTermination (v : List Token) : Bool :=
  isAtSet twigBlockOpenSet v && match (dropTrivia v.tail).head?.map (·.kind) with
    | some k => terminationKeywords.contains k
    | none => false

/-- The ending tag is next. -/
def atEndingTag (k : SyntaxKind) (x : Text) (v : List Token) : Bool :=
  if v.isEmpty then false else followContent (v.filter (fun t => !t.kind.isTrivia))
    [(T!"</", none), (k, some x)]

/-- What `atBodyEnd` looks at. -/
def bodyEnd (k : SyntaxKind) (x : Text) (found : Bool) (v : List Token) : Bool × Bool :=
  if atEndingTag k x v then (true, true) else (isTermination v, found)

theorem Peek.atBodyEnd (k : SyntaxKind) (x : Text) (found : Bool) :
    Peek (atBodyEnd k x found) (bodyEnd k x found) :=
  Peek.ifP (Peek.atFollowingContent _) (.pure (true, true))
    (Peek.atTwigTerminationTag.bind (ψ := fun b _ => (b, found)) (fun _ => .pure _))

theorem bodyEnd_found (k : SyntaxKind) (x : Text) (found : Bool) (v : List Token)
    (h : (bodyEnd k x found v).1 = false) : (bodyEnd k x found v).2 = found := by
  unfold bodyEnd at h ⊢
  cases hc : atEndingTag k x v with
  | true => rw [hc] at h; simp at h
  | false => rfl

theorem rel_parseHtmlRawText {K K' : Knot} (tagKind : SyntaxKind) (tagName : Text) (hK : KRel R K K') :
    Rel R Eq (parseHtmlRawText K tagKind tagName) (parseHtmlRawText K' tagKind tagName) := by
  unfold parseHtmlRawText
  refine Rel.start.bindEq (fun m => Rel.bindEq ?_ (fun _ => by rel))
  refine .manyQuiet (fun _ => rel_atBodyEnd _ _ _) (fun _ => Peek.atBodyEnd _ _ _)
    (fun _ => bodyEnd_found _ _ _) (fun a => by rel) (fun a => ?_) _
  exact .left (sure_parseRawTextPart hK) (fun _ => .pure _)
macro_rules | `(tactic| rel_leaf) => `(tactic| with_reducible refine rel_parseHtmlRawText _ _ ‹_›)

theorem rel_parsePlainHtmlComment (outer : Marker) :
    Rel R Eq (parsePlainHtmlComment outer) (parsePlainHtmlComment outer) := by
  unfold parsePlainHtmlComment
  rel
macro_rules | `(tactic| rel_leaf) => `(tactic| with_reducible refine rel_parsePlainHtmlComment _)

theorem rel_parseHtmlComment :
    Rel R Eq parseHtmlComment parseHtmlComment := by
  unfold parseHtmlComment
  rel
macro_rules | `(tactic| rel_leaf) => `(tactic| with_reducible refine rel_parseHtmlComment)

theorem rel_parseInnerNoQuote {K K' : Knot} (hK : KRel R K K') :
    Rel R Eq (parseInnerNoQuote K) (parseInnerNoQuote K') := by
  unfold parseInnerNoQuote
  rel
macro_rules | `(tactic| rel_leaf) => `(tactic| with_reducible refine rel_parseInnerNoQuote ‹_›)

theorem rel_parseAttributeValuePart {K K' : Knot} {inner inner' : P (Option CompletedMarker)} (hK : KRel R K K') (h_inner : Rel R Eq inner inner') :
    Rel R Eq (parseAttributeValuePart K inner) (parseAttributeValuePart K' inner') := by
  unfold parseAttributeValuePart
  rel
macro_rules | `(tactic| rel_leaf) => `(tactic| with_reducible refine rel_parseAttributeValuePart ‹_› ?_)

theorem quiet_parseAttributeValuePart {H : List Token → Prop} {K K' : Knot}
    {inner inner' : P (Option CompletedMarker)} (hK : KRel R K K') (h_inner : Rel R Eq inner inner') :
    QuietIf H (fun _ => True) (parseAttributeValuePart K inner) :=
  (quiet_parseAnyTwig hK h_inner).bind
    (fun o => by
      cases o
      · exact .ifP (.ofPeek ((Peek.atSet _).or ((Peek.atSet _).or Peek.atEnd))) (.pure _)
          (sure_bump_ (H := H) _).mono
      · exact .pure _)
    (fun o h => by
      subst h
      exact .ifP ((Peek.atSet _).or ((Peek.atSet _).or Peek.atEnd)) (.pure trivial) (.sure (sure_bump_ _)))
macro_rules | `(tactic| quiet_leaf) => `(tactic| exact quiet_parseAttributeValuePart ‹_› ‹_›)

theorem rel_parseInnerQuote {K K' : Knot} (quote : SyntaxKind) {inner inner' : P (Option CompletedMarker)} (hK : KRel R K K') (h_inner : Rel R Eq inner inner') :
    Rel R Eq (parseInnerQuote K quote inner) (parseInnerQuote K' quote inner') := by
  unfold parseInnerQuote
  rel
macro_rules | `(tactic| rel_leaf) => `(tactic| with_reducible refine rel_parseInnerQuote _ ‹_› ?_)

theorem rel_parseOpeningQuote :
    Rel R Eq parseOpeningQuote parseOpeningQuote := by
  unfold parseOpeningQuote
  rel
macro_rules | `(tactic| rel_leaf) => `(tactic| with_reducible refine rel_parseOpeningQuote)

theorem rel_parseClosingQuote (q : Option SyntaxKind) :
    Rel R Eq (parseClosingQuote q) (parseClosingQuote q) := by
  unfold parseClosingQuote
  rel
macro_rules | `(tactic| rel_leaf) => `(tactic| with_reducible refine rel_parseClosingQuote _)

theorem rel_parseInnerValue {K K' : Knot} (q : Option SyntaxKind) (hK : KRel R K K') :
    Rel R Eq (parseInnerValue K q) (parseInnerValue K' q) := by
  unfold parseInnerValue
  rel
macro_rules | `(tactic| rel_leaf) => `(tactic| with_reducible refine rel_parseInnerValue _ ‹_›)

theorem rel_parseHtmlAttributeValueString {K K' : Knot} (hK : KRel R K K') :
    Rel R Eq (parseHtmlAttributeValueString K) (parseHtmlAttributeValueString K') := by
  unfold parseHtmlAttributeValueString
  rel
macro_rules | `(tactic| rel_leaf) => `(tactic| with_reducible refine rel_parseHtmlAttributeValueString ‹_›)

/-- The text that is tested as an attribute name. -/
def nameText (v : List Token) : Option Text :=
  if v.head?.map (·.kind) == some T!":" then v[1]?.map (fun t => ':' :: t.text)
  else v.head?.map (·.text)

theorem attributeNameText_run (s : PState) :
    attributeNameText s = .ok (nameText (dropTrivia s.rest), { s with rest := dropTrivia s.rest }) := by
  have h1 : at' T!":" s = .ok ((dropTrivia s.rest).head?.map (·.kind) == some T!":",
      { s with rest := dropTrivia s.rest }) := rfl
  unfold attributeNameText ifP nameText
  show P.bind _ _ s = _
  simp only [P.bind, h1]
  split
  · rename_i h
    show P.bind _ _ _ = _
    simp only [P.bind, peekNthToken, dropTrivia_idem]
    rfl
  · show P.bind _ _ _ = _
    simp only [P.bind, peekToken, dropTrivia_idem]
    rfl

theorem blank_name {x : Text} (h : x.all blankChar = true) : isHtmlAttributeName (':' :: x) = false := by
  cases x with
  | nil => decide
  | cons c x =>
    simp only [List.all_cons, Bool.and_eq_true] at h
    have hc : isAsciiAlpha c = false := by
      have := h.1
      simp only [blankChar, Bool.or_eq_true, beq_iff_eq] at this
      rcases this with ((h | h) | h) | h <;> subst h <;> decide
    have h1 : isAsciiAlpha ':' = false := by decide
    simp [isHtmlAttributeName, h1, matchesName, hc]

theorem letter_name {x : Text} (h : isHtmlAttributeName (':' :: x) = true) :
    x.head?.any Char.isAlpha = true := by
  have h1 : isAsciiAlpha ':' = false := by decide
  cases x with
  | nil => simp [isHtmlAttributeName, h1, matchesName] at h
  | cons c x =>
    simp [isHtmlAttributeName, h1, matchesName] at h
    have hc := h.1
    unfold isAsciiAlpha at hc
    simp only [Bool.or_eq_true, Bool.and_eq_true, decide_eq_true_eq, Char.le_def] at hc
    simp only [List.head?_cons, Option.any_some, Char.isAlpha, Char.isUpper, Char.isLower,
      Bool.or_eq_true, Bool.and_eq_true, decide_eq_true_eq]
    exact hc.symm

/-- The two names agree, or none of them is the name of an attribute. -/
theorem nameText_next {free : Bool} {r r' : List Token} (h : Next free r r') :
    (nameText r = nameText r' ∧ (∀ t u q, r = t :: u :: q → t.kind = T!":" →
      isHtmlAttributeName (':' :: u.text) = true →
        u.kind.isTrivia = false ∧ u.text.head?.any Char.isAlpha = true)) ∨
    ∃ x x', nameText r = some x ∧ nameText r' = some x' ∧ isHtmlAttributeName x = false ∧
      isHtmlAttributeName x' = false := by
  cases h with
  | nil => exact .inl ⟨rfl, by simp⟩
  | @token t t' ts ts' h1 h2 h3 hb h4 =>
    by_cases hk : t.kind = T!":"
    · have hk' : t'.kind = T!":" := h2.1 ▸ hk
      cases h4 with
      | nil => exact .inl ⟨by simp [nameText, hk, hk'], by simp⟩
      | token k1 k2 k3 k4 k5 =>
        refine .inl ⟨by simp [nameText, hk, hk', k2.2], ?_⟩
        intro a b q he
        simp only [List.cons.injEq] at he
        obtain ⟨rfl, rfl, rfl⟩ := he
        exact fun _ hn => ⟨k1, letter_name hn⟩
      | @gap g g' us us' g1 g2 g0 g3 g4 g5 =>
        obtain ⟨u', q', e1', e2', e3'⟩ := gap_head g2 us'
        by_cases hg : g = []
        · subst hg
          -- whitespace was added
          rcases hb (g0 rfl) hk with hb | ⟨u, hu, hw⟩
          · exfalso
            rw [e1'] at hb
            cases us with
            | nil => simp at hb
            | cons u q =>
              have := g3 u (by simp)
              simp [this, e2'] at hb
          · simp only [List.nil_append] at hu
            cases us with
            | nil => simp at hu
            | cons v q =>
              simp only [List.head?_cons, Option.some.injEq] at hu
              subst hu
              refine .inr ⟨':' :: v.text, ':' :: u'.text, ?_, ?_, ?_, blank_name e3'⟩
              · simp [nameText, hk]
              · simp [nameText, hk', e1']
              · cases hn : isHtmlAttributeName (':' :: v.text) with
                | false => rfl
                | true => rw [letter_name hn] at hw; cases hw
        · obtain ⟨u, q, e1, _, e3⟩ := gap_head ⟨hg, g1⟩ us
          refine .inr ⟨':' :: u.text, ':' :: u'.text, ?_, ?_, blank_name e3, blank_name e3'⟩
          · simp [nameText, hk, e1]
          · simp [nameText, hk', e1']
    · have hk' : ¬ t'.kind = T!":" := h2.1 ▸ hk
      refine .inl ⟨by simp [nameText, hk, hk', h2.2], ?_⟩
      intro a b q he
      simp only [List.cons.injEq] at he
      obtain ⟨rfl, _⟩ := he
      exact fun h => absurd h hk

theorem rel_parseAttributeRest {K K' : Knot} (m : Marker) (hK : KRel R K K') :
    Rel R Eq (parseAttributeRest K m) (parseAttributeRest K' m) := by
  unfold parseAttributeRest
  rel
macro_rules | `(tactic| rel_leaf) => `(tactic| with_reducible refine rel_parseAttributeRest _ ‹_›)

theorem rel_parseTwigNamedAttribute {K K' : Knot} (hK : KRel R K K') :
    Rel R Eq (parseTwigNamedAttribute K) (parseTwigNamedAttribute K') := by
  unfold parseTwigNamedAttribute
  rel
macro_rules | `(tactic| rel_leaf) => `(tactic| with_reducible refine rel_parseTwigNamedAttribute ‹_›)

theorem mono_name : Mono (ifP (at' T!":") (bumpNextNAs 2 T!"word") (discard' (bumpAs T!"word"))) :=
  .ifP (.ofPeek (Peek.at' _)) (.bumpNextNAs _) (.discard (.bumpGen _ _))

theorem outcome_name {s s' : PState} (hs : Sim R s s') (hd : dropTrivia s.rest = s.rest)
    (hd' : dropTrivia s'.rest = s'.rest) (hn : nameText s.rest ≠ none)
    (hc : ∀ t u q, s.rest = t :: u :: q → t.kind = T!":" →
      u.kind.isTrivia = false ∧ u.text.head?.any Char.isAlpha = true) :
    Outcome R Eq s s' (ifP (at' T!":") (bumpNextNAs 2 T!"word") (discard' (bumpAs T!"word")) s)
      (ifP (at' T!":") (bumpNextNAs 2 T!"word") (discard' (bumpAs T!"word")) s') := by
  have hnext := hs.rest.next.1
  rw [hd, hd'] at hnext
  refine Outcome.bind ((Rel.at' _).sim s s' hs)
    (fun _ => .ite (.bumpNextNAs _) (.discard (.bumpGen _ _))) (fun a t b t' h1 h2 hv ht => ?_)
  subst hv
  have e1 : t = s ∧ a = (s.rest.head?.map (·.kind) == some T!":") := by
    have : at' T!":" s = .ok ((dropTrivia s.rest).head?.map (·.kind) == some T!":",
      { s with rest := dropTrivia s.rest }) := rfl
    rw [this, hd] at h1
    simp only [Except.ok.injEq, Prod.mk.injEq] at h1
    exact ⟨h1.2.symm, h1.1.symm⟩
  have e2 : t' = s' := by
    have : at' T!":" s' = .ok ((dropTrivia s'.rest).head?.map (·.kind) == some T!":",
      { s' with rest := dropTrivia s'.rest }) := rfl
    rw [this, hd'] at h2
    simp only [Except.ok.injEq, Prod.mk.injEq] at h2
    exact h2.2.symm
  obtain ⟨rfl, ha⟩ := e1
  subst e2
  split
  · rename_i hcolon
    rw [ha] at hcolon
    cases hr : t.rest with
    | nil => simp [hr] at hcolon
    | cons x xs =>
      cases hr' : t'.rest with
      | nil => rw [hr, hr'] at hnext; cases hnext
      | cons x' xs' =>
        rw [hr, hr'] at hnext
        simp only [hr, List.head?_cons, Option.map_some, beq_iff_eq, Option.some.injEq] at hcolon
        cases hnext with
        | token k1 k2 k3 kb k4 =>
          cases xs with
          | nil => exact absurd (by simp [nameText, hr, hcolon]) hn
          | cons u q =>
            obtain ⟨hu, hw⟩ := hc x u q hr hcolon
            have hnu := Lay.colon k4 hu hw (fun h => kb h hcolon)
            cases hnu with
            | @token _ u' _ q' l1 l2 l3 _ l4 =>
              refine .inr (.inr (.inr ⟨(), { t with rest := q, events := t.events ++ [.addNextNTokensAs 2 T!"word"] },
                (), { t' with rest := q', events := t'.events ++ [.addNextNTokensAs 2 T!"word"] },
                by unfold bumpNextNAs; rw [hd, hr]; simp, by unfold bumpNextNAs; rw [hd', hr']; simp, rfl, ?_, ?_⟩))
              · refine { ht with rest := l4, events := by simp [ht.events], sync := ?_ }
                obtain ⟨r, m1, m2⟩ := ht.sync
                rw [hd, hr] at m2
                refine ⟨q, ?_, rfl⟩
                simp only [List.filterMap_append, eatSig_append, m1, Option.bind_some]
                simp only [List.filterMap_cons, List.filterMap_nil, Event.leaf?, eatSig, m2]
                rw [if_pos ⟨trivial, hu, hcolon, hw⟩]
              · refine .inr (.inr ⟨?_, ?_⟩)
                · simp only [hr, List.length_cons]; omega
                · simp only [hr', List.length_cons]; omega
  · exact (Rel.bumpAs_ _).sim _ _ ht

theorem outcome_parseNamedAttribute {K K' : Knot} (hK : KRel R K K') {s s' : PState}
    (hs : Sim R s s') (hd : dropTrivia s.rest = s.rest) (hd' : dropTrivia s'.rest = s'.rest)
    (hn : nameText s.rest ≠ none)
    (hc : ∀ t u q, s.rest = t :: u :: q → t.kind = T!":" →
      u.kind.isTrivia = false ∧ u.text.head?.any Char.isAlpha = true) :
    Outcome R Eq s s' (parseNamedAttribute K s) (parseNamedAttribute K' s') := by
  refine Outcome.bind (Rel.start.sim s s' hs)
    (fun m => mono_name.bind (fun _ => (rel_parseAttributeRest m hK).mono)) (fun a t b t' h1 h2 hv ht => ?_)
  subst hv
  have e : t.rest = s.rest := by
    unfold start at h1
    simp only [Except.ok.injEq, Prod.mk.injEq] at h1
    rw [← h1.2]
  have e' : t'.rest = s'.rest := by
    unfold start at h2
    simp only [Except.ok.injEq, Prod.mk.injEq] at h2
    rw [← h2.2]
  refine Outcome.bind (outcome_name ht (by rw [e, hd]) (by rw [e', hd']) (by rw [e]; exact hn) (by rw [e]; exact hc))
    (fun _ => (rel_parseAttributeRest a hK).mono) (fun _ t b t' h1 h2 hv ht => ?_)
  exact (rel_parseAttributeRest _ hK).sim _ _ ht

theorem quiet_parseHtmlAttributeOrTwig {H : List Token → Prop} {K K' : Knot} (hK : KRel R K K') :
    QuietIf H (fun o => o = none) (parseHtmlAttributeOrTwig K) := by
  unfold parseHtmlAttributeOrTwig
  refine .peek Peek.attributeNameText (fun o => ?_)
  cases o with
  | none => exact .pure rfl
  | some x =>
    refine .ite (fun _ => .sure ?_) (fun _ => .ifP (Peek.atSet _) (.sure ?_)
      (quiet_parseAnyTwig hK hK.attributeOrTwig))
    · unfold parseNamedAttribute
      refine .right Mono.start (fun m => .left (.ifP (Peek.at' _) (sure_bumpNextNAs _)
        (sure_discard (sure_bumpGen _ _))) (fun _ => (rel_parseAttributeRest m hK).mono))
    · exact .right Mono.start (fun m => .left (sure_discard (sure_var hK))
        (fun _ => (rel_parseAttributeRest m hK).mono))
macro_rules | `(tactic| quiet_leaf) => `(tactic|
  exact (quiet_parseHtmlAttributeOrTwig ‹_›).discard (fun _ _ => trivial))

theorem rel_parseHtmlAttributeOrTwig {K K' : Knot} (hK : KRel R K K') :
    Rel R Eq (parseHtmlAttributeOrTwig K) (parseHtmlAttributeOrTwig K') := by
  refine ⟨(quiet_parseHtmlAttributeOrTwig (H := fun _ => True) hK).mono, fun s s' hs => ?_⟩
  have hd := hs.drop
  have rother : Rel R Eq
      (ifP atTwigVarOpen (parseTwigNamedAttribute K) (parseAnyTwig K K.attributeOrTwig))
      (ifP atTwigVarOpen (parseTwigNamedAttribute K') (parseAnyTwig K' K'.attributeOrTwig)) := by rel
  have names : Outcome R (fun o o' => o = nameText (dropTrivia s.rest) ∧
      o' = nameText (dropTrivia s'.rest)) s s' (attributeNameText s) (attributeNameText s') := by
    rw [attributeNameText_run, attributeNameText_run]
    exact .inr (.inr (.inr ⟨_, _, _, _, rfl, rfl, ⟨rfl, rfl⟩, hd, .drop _ _⟩))
  refine Outcome.bind names (fun o => ?_) (fun a t b t' h1 h2 hv ht => ?_)
  · cases o with
    | none => exact .pure _
    | some x =>
      refine .ite ?_ rother.mono
      exact Mono.start.bind (fun m => mono_name.bind (fun _ => (rel_parseAttributeRest m hK).mono))
  obtain ⟨ha, hb⟩ := hv
  rw [attributeNameText_run] at h1 h2
  simp only [Except.ok.injEq, Prod.mk.injEq] at h1 h2
  have et : t.rest = dropTrivia s.rest := by rw [← h1.2]
  have et' : t'.rest = dropTrivia s'.rest := by rw [← h2.2]
  rcases nameText_next hs.rest.next.1 with ⟨e1, e2⟩ | ⟨x, x', e1, e2, e3, e4⟩
  · have hab : a = b := by rw [ha, hb, e1]
    subst hab
    cases a with
    | none => exact (Rel.pureEq _).sim _ _ ht
    | some x =>
      dsimp only
      split
      · rename_i hname
        refine outcome_parseNamedAttribute hK ht (by rw [et, dropTrivia_idem])
          (by rw [et', dropTrivia_idem]) ?_ ?_
        · rw [et, ← ha]; simp
        · rw [et]
          intro v u q hr hk
          refine e2 v u q hr hk ?_
          have : nameText (dropTrivia s.rest) = some (':' :: u.text) := by
            rw [hr]; simp [nameText, hk]
          rw [← ha] at this
          cases this
          exact hname
      · exact rother.sim _ _ ht
  · rw [e1] at ha
    rw [e2] at hb
    subst ha hb
    simp only [e3, e4]
    exact rother.sim _ _ ht
macro_rules | `(tactic| rel_leaf) => `(tactic| with_reducible exact rel_parseHtmlAttributeOrTwig ‹_›)

theorem rel_parseTagName (tagKind : SyntaxKind) (tagName : Text) :
    Rel R Eq (parseTagName tagKind tagName) (parseTagName tagKind tagName) := by
  unfold parseTagName
  rel
macro_rules | `(tactic| rel_leaf) => `(tactic| with_reducible refine rel_parseTagName _ _)

theorem rel_parseStartingTagEnd :
    Rel R Eq parseStartingTagEnd parseStartingTagEnd := by
  unfold parseStartingTagEnd
  rel
macro_rules | `(tactic| rel_leaf) => `(tactic| with_reducible refine rel_parseStartingTagEnd)

theorem rel_parseElementBody {K K' : Knot} (tagKind : SyntaxKind) (tagName : Text) (hK : KRel R K K') :
    Rel R Eq (parseElementBody K tagKind tagName) (parseElementBody K' tagKind tagName) := by
  unfold parseElementBody
  refine .ite (fun _ => by rel) (fun _ => ?_)
  refine .manyQuiet (fun _ => rel_atBodyEnd _ _ _) (fun _ => Peek.atBodyEnd _ _ _)
    (fun _ => bodyEnd_found _ _ _) (fun a => by rel) (fun a => ?_) _
  exact ((hK.quiet.weaken (fun _ _ => trivial)).discard (M := fun _ => True) (fun _ _ => trivial)).bind
    (fun _ => .pure _) (fun _ _ => .pure rfl)
macro_rules | `(tactic| rel_leaf) => `(tactic| with_reducible refine rel_parseElementBody _ _ ‹_›)

theorem rel_parseEndingTagName (tagKind : SyntaxKind) (tagName : Text) :
    Rel R Eq (parseEndingTagName tagKind tagName) (parseEndingTagName tagKind tagName) := by
  unfold parseEndingTagName
  rel
macro_rules | `(tactic| rel_leaf) => `(tactic| with_reducible refine rel_parseEndingTagName _ _)

theorem rel_parseEndingTag (tagKind : SyntaxKind) (tagName : Text) (found : Bool) :
    Rel R Eq (parseEndingTag tagKind tagName found) (parseEndingTag tagKind tagName found) := by
  unfold parseEndingTag
  rel
macro_rules | `(tactic| rel_leaf) => `(tactic| with_reducible refine rel_parseEndingTag _ _ _)

theorem rel_parseStartingTag {K K' : Knot} (hK : KRel R K K') :
    Rel R Eq (parseStartingTag K) (parseStartingTag K') := by
  unfold parseStartingTag
  rel
macro_rules | `(tactic| rel_leaf) => `(tactic| with_reducible refine rel_parseStartingTag ‹_›)

theorem rel_parseHtmlElement {K K' : Knot} (hK : KRel R K K') :
    Rel R Eq (parseHtmlElement K) (parseHtmlElement K') := by
  unfold parseHtmlElement
  rel
macro_rules | `(tactic| rel_leaf) => `(tactic| with_reducible refine rel_parseHtmlElement ‹_›)

theorem rel_parseAnyHtml {K K' : Knot} (hK : KRel R K K') :
    Rel R Eq (parseAnyHtml K) (parseAnyHtml K') := by
  unfold parseAnyHtml
  rel
macro_rules | `(tactic| rel_leaf) => `(tactic| with_reducible refine rel_parseAnyHtml ‹_›)

theorem rel_parseAnyElement {K K' : Knot} (hK : KRel R K K') :
    Rel R Eq (parseAnyElement K) (parseAnyElement K') := by
  unfold parseAnyElement
  rel
macro_rules | `(tactic| rel_leaf) => `(tactic| with_reducible refine rel_parseAnyElement ‹_›)

/-! ## The whole grammar -/

theorem quiet_parseAnyHtml {H : List Token → Prop} {K K' : Knot} (hK : KRel R K K') :
    QuietIf H (fun o => o = none) (parseAnyHtml K) := by
  unfold parseAnyHtml
  refine .ifP Peek.atElementStart (.left ?_ (fun _ => .pure _)) (.ifP (Peek.at' _)
    (.left ?_ (fun _ => .pure _)) (.ifP (Peek.at' _) (.left ?_ (fun _ => .pure _)) quiet_parseHtmlText))
  · unfold parseHtmlElement
    refine .right Mono.start (fun m => .left ?_ (fun x => ?_))
    · unfold parseStartingTag
      refine .right Mono.start (fun m => .left (sure_bump_ _) (fun _ => ?_))
      refine Mono.bind (Rel.peekToken (R := R)).mono (fun o => ?_)
      mono
    · obtain ⟨x1, x2, x3⟩ := x
      dsimp only
      mono
  · unfold parseHtmlComment
    refine .right Mono.start (fun m => .left (sure_bump_ _) (fun _ => ?_))
    mono
  · unfold parseHtmlDoctype
    refine .right Mono.start (fun m => .left (sure_bump_ _) (fun _ => ?_))
    mono

theorem quiet_parseAnyElement {H : List Token → Prop} {K K' : Knot} (hK : KRel R K K') :
    QuietIf H (fun o => o = none) (parseAnyElement K) :=
  (quiet_parseAnyTwig hK hK.anyElement).bind
    (fun o => by cases o; exact (rel_parseAnyHtml hK).mono; exact .pure _)
    (fun o h => by subst h; exact quiet_parseAnyHtml hK)

theorem rel_knot : ∀ n n', KRel R (knot n) (knot n')
  | 0, n' => ⟨fun _ => ⟨.panic _, fun _ _ _ => .inl (.inl rfl)⟩, ⟨.panic _, fun _ _ _ => .inl (.inl rfl)⟩,
      ⟨.panic _, fun _ _ _ => .inl (.inl rfl)⟩, ⟨.panic _, fun _ _ _ => .inl (.inl rfl)⟩,
      ⟨.panic _, fun _ _ _ => .inl (.inl rfl)⟩, ⟨.panic _, fun _ _ _ => .inl (.inl rfl)⟩,
      ⟨.panic _, fun _ _ _ _ h => by cases h⟩⟩
  | n + 1, 0 => by
    have hK : KRel R (knot n) (knot n) := rel_knot n n
    exact ⟨fun p => ⟨(rel_parseExpressionBp p hK).mono, fun _ _ _ => .inr (.inl rfl)⟩,
      ⟨(rel_parseAnyElement hK).mono, fun _ _ _ => .inr (.inl rfl)⟩,
      ⟨(rel_parseHtmlRawTextInner hK).mono, fun _ _ _ => .inr (.inl rfl)⟩,
      ⟨(rel_parseHtmlAttributeOrTwig hK).mono, fun _ _ _ => .inr (.inl rfl)⟩,
      ⟨(rel_parseInnerQuote _ hK hK.innerDouble).mono, fun _ _ _ => .inr (.inl rfl)⟩,
      ⟨(rel_parseInnerQuote _ hK hK.innerSingle).mono, fun _ _ _ => .inr (.inl rfl)⟩,
      quiet_parseAnyElement hK⟩
  | n + 1, n' + 1 => by
    have hK : KRel R (knot n) (knot n') := rel_knot n n'
    exact ⟨fun p => rel_parseExpressionBp p hK, rel_parseAnyElement hK, rel_parseHtmlRawTextInner hK,
      rel_parseHtmlAttributeOrTwig hK, rel_parseInnerQuote _ hK hK.innerDouble,
      rel_parseInnerQuote _ hK hK.innerSingle, quiet_parseAnyElement hK⟩

theorem rel_parseRootPart {K K' : Knot} (hK : KRel R K K') :
    Rel R Eq (parseRootPart K) (parseRootPart K') := by
  unfold parseRootPart
  rel
macro_rules | `(tactic| rel_leaf) => `(tactic| with_reducible exact rel_parseRootPart ‹_›)

theorem sure_parseRootPart {K K' : Knot} (hK : KRel R K K') :
    SureIf (fun v => v ≠ [] ∧ false = false) (parseRootPart K) :=
  (hK.quiet.weaken (fun _ _ => trivial)).bind
    (fun o => by cases o; mono; mono)
    (fun o h => by
      subst h
      refine .ifP Peek.atEnd.not (sure_errorRecover _ _) (.absurd (.pure _) (fun v h => ?_))
      have h1 := h.1
      cases v with
      | nil => exact h.2.1 rfl
      | cons t q => cases h1)
macro_rules | `(tactic| quiet_leaf) => `(tactic| exact (sure_parseRootPart ‹_›).sure)

theorem rel_parseRoot {K K' : Knot} (hK : KRel R K K') :
    Rel R Eq (parseRoot K) (parseRoot K') := by
  unfold parseRoot
  rel

end Ludtwig.Layout
