import Verif.GrammarSpec.Shopware

/-!
# Specifications of the functions in `Grammar/Tags.lean`
-/

namespace Ludtwig

variable {toks : List Token} {n N : Nat} {h : List Token → Prop} {e : Bool} {K : Knot}

theorem ext_parseCacheArgument {kw k : SyntaxKind} {s : String} {r : List SyntaxKind}
    (hK : KGood toks N K) (hn : n ≤ N) (hk : k ≠ .ERROR) :
    Ext toks n h (parseCacheArgument K kw k s r) RU := by
  intro e
  unfold parseCacheArgument
  jauto

theorem cls_parseTwigCache {m : Nat} {child : P (Option CompletedMarker)} (hK : KGood toks N K) (hc : ChildGood toks N child) (hn : n ≤ N)
    (hh : ∀ v, h v → v ≠ []) :
    Cls toks n h m (parseTwigCache K m child) RM := by
  intro ts vs e
  unfold parseTwigCache
  jauto

theorem cls_parseTwigWith {m : Nat} {child : P (Option CompletedMarker)} (hK : KGood toks N K) (hc : ChildGood toks N child) (hn : n ≤ N)
    (hh : ∀ v, h v → v ≠ []) :
    Cls toks n h m (parseTwigWith K m child) RM := by
  intro ts vs e
  unfold parseTwigWith
  jauto

theorem ext_parseEndName {s : String} {name : Option Text} :
    Ext toks n h (parseEndName s name) RU := by
  unfold parseEndName
  refine ext_whenP (by side_tac) (fun e => ?_)
  jstep
  jstep
  · jauto
  · jstep
    · unfold recover
      jstep
      refine J_last (J_assoc (b_recoverExpect_nil (fun a ws n' hn => ?_)))
      jauto
    · jauto

theorem ext_parseNamedEndBlock {kw k : SyntaxKind} {s : String} {name : Option Text}
    {r1 r2 : List SyntaxKind} (hd : kw.display?.isSome = true) (hk : k ≠ .ERROR) :
    Ext toks n h (parseNamedEndBlock kw s name r1 r2 k) RU := by
  intro e
  unfold parseNamedEndBlock
  jauto

theorem cls_parseTwigMacro {m : Nat} {child : P (Option CompletedMarker)} (hK : KGood toks N K) (hc : ChildGood toks N child) (hn : n ≤ N)
    (hh : ∀ v, h v → v ≠ []) :
    Cls toks n h m (parseTwigMacro K m child) RM := by
  intro ts vs e
  unfold parseTwigMacro
  jauto

theorem cls_parseTwigVerbatim {m : Nat} {child : P (Option CompletedMarker)} (hc : ChildGood toks N child) (hn : n ≤ N)
    (hh : ∀ v, h v → v ≠ []) :
    Cls toks n h m (parseTwigVerbatim m child) RM := by
  intro ts vs e
  unfold parseTwigVerbatim
  jauto

theorem cls_parseTwigSandbox {m : Nat} {child : P (Option CompletedMarker)} (hc : ChildGood toks N child) (hn : n ≤ N)
    (hh : ∀ v, h v → v ≠ []) :
    Cls toks n h m (parseTwigSandbox m child) RM := by
  intro ts vs e
  unfold parseTwigSandbox
  jauto

theorem cls_parseTwigFlush {m : Nat}
    (hh : ∀ v, h v → v ≠ []) :
    Cls toks n h m (parseTwigFlush m) RM := by
  intro ts vs e
  unfold parseTwigFlush
  jauto

theorem cls_parseTwigDo {m : Nat} (hK : KGood toks N K) (hn : n ≤ N)
    (hh : ∀ v, h v → v ≠ []) :
    Cls toks n h m (parseTwigDo K m) RM := by
  intro ts vs e
  unfold parseTwigDo
  jauto

theorem cls_parseTwigDeprecated {m : Nat} (hK : KGood toks N K) (hn : n ≤ N)
    (hh : ∀ v, h v → v ≠ []) :
    Cls toks n h m (parseTwigDeprecated K m) RM := by
  intro ts vs e
  unfold parseTwigDeprecated
  jauto

theorem cls_parseTwigAutoescape {m : Nat} {child : P (Option CompletedMarker)} (hK : KGood toks N K) (hc : ChildGood toks N child) (hn : n ≤ N)
    (hh : ∀ v, h v → v ≠ []) :
    Cls toks n h m (parseTwigAutoescape K m child) RM := by
  intro ts vs e
  unfold parseTwigAutoescape
  jauto

theorem ext_parseApplyArguments (hK : KGood toks N K) (hn : n ≤ N) :
    Ext toks n h (parseApplyArguments K) RU := by
  intro e
  unfold parseApplyArguments
  jauto

theorem node_parseApplyFilter {c : Nat} (hK : KGood toks N K) (hn : n ≤ N) :
    NExt toks n h c (ifP (at' T!"|") (parseTwigFilter K c) (pure c)) RM := by
  intro vs e hc
  jauto

theorem ext_parseApplyFilters (hK : KGood toks N K) (hn : n ≤ N) :
    Ext toks n h (parseApplyFilters K) RU := by
  intro e
  unfold parseApplyFilters
  jstep
  jstep
  · jstep
    refine J_last (b_discard (b_call_nil (R := fun c A => c ∈ A.vs)
      (J_many (φ := fun c v => (isAtSet twigBlockCloseSet v, c)) (fun c ts => c ∈ ts)
        (fun _ => by side_tac) (fun _ _ _ h => h) ?_ (by side_tac)) ?_))
    · intro a a' vs' n' e hn' hi
      exact node_parseApplyFilter hK (by omega) vs' e hi
    · intro a vs' n' _ _ _ _
      jauto
  · jauto

theorem cls_parseTwigApply {m : Nat} {child : P (Option CompletedMarker)} (hK : KGood toks N K) (hc : ChildGood toks N child) (hn : n ≤ N)
    (hh : ∀ v, h v → v ≠ []) :
    Cls toks n h m (parseTwigApply K m child) RM := by
  intro ts vs e
  unfold parseTwigApply
  jauto

theorem cls_parseTwigImport {m : Nat} (hK : KGood toks N K) (hn : n ≤ N)
    (hh : ∀ v, h v → v ≠ []) :
    Cls toks n h m (parseTwigImport K m) RM := by
  intro ts vs e
  unfold parseTwigImport
  jauto

theorem ext_parseNameAsNameOverride {s : String} :
    Ext toks n h (parseNameAsNameOverride s) RM := by
  intro e
  unfold parseNameAsNameOverride
  jauto

theorem ext_parseOverrides {s t : String} :
    Ext toks n h (parseOverrides s t) RU := by
  intro e
  unfold parseOverrides
  jauto

theorem cls_parseTwigFrom {m : Nat} (hK : KGood toks N K) (hn : n ≤ N)
    (hh : ∀ v, h v → v ≠ []) :
    Cls toks n h m (parseTwigFrom K m) RM := by
  intro ts vs e
  unfold parseTwigFrom
  jauto

theorem cls_parseTwigUse {m : Nat} (hK : KGood toks N K) (hn : n ≤ N)
    (hh : ∀ v, h v → v ≠ []) :
    Cls toks n h m (parseTwigUse K m) RM := by
  intro ts vs e
  unfold parseTwigUse
  jauto

theorem cls_parseTwigEmbed {m : Nat} {child : P (Option CompletedMarker)} (hK : KGood toks N K) (hc : ChildGood toks N child) (hn : n ≤ N)
    (hh : ∀ v, h v → v ≠ []) :
    Cls toks n h m (parseTwigEmbed K m child) RM := by
  intro ts vs e
  unfold parseTwigEmbed
  jauto

theorem cls_parseTwigInclude {m : Nat} (hK : KGood toks N K) (hn : n ≤ N)
    (hh : ∀ v, h v → v ≠ []) :
    Cls toks n h m (parseTwigInclude K m) RM := by
  intro ts vs e
  unfold parseTwigInclude
  jauto

theorem cls_parseTwigExtends {m : Nat} (hK : KGood toks N K) (hn : n ≤ N)
    (hh : ∀ v, h v → v ≠ []) :
    Cls toks n h m (parseTwigExtends K m) RM := by
  intro ts vs e
  unfold parseTwigExtends
  jauto

theorem ext_parseForElse {child : P (Option CompletedMarker)} (hc : ChildGood toks N child)
    (hn : n ≤ N) :
    Ext toks n h (parseForElse child) RU := by
  intro e
  unfold parseForElse
  jauto

theorem ext_parseForVariables  :
    Ext toks n h (parseForVariables) RU := by
  intro e
  unfold parseForVariables
  jauto

theorem cls_parseTwigFor {m : Nat} {child : P (Option CompletedMarker)} (hK : KGood toks N K) (hc : ChildGood toks N child) (hn : n ≤ N)
    (hh : ∀ v, h v → v ≠ []) :
    Cls toks n h m (parseTwigFor K m child) RM := by
  intro ts vs e
  unfold parseTwigFor
  jauto

theorem ext_parseCounted {c : P Bool} {φ : List Token → Bool} {item : P (Option CompletedMarker)}
    {s : String} (hp : Peek c φ) (hi : ∀ n' h, n' ≤ n → Ext toks n' h item RU) :
    Ext toks n h (parseCounted c item s) RU := by
  unfold parseCounted
  refine ext_parseManyWith (φ := fun i v => (φ v, i)) (fun _ => by side_tac)
    (fun a a' n' hn' e => ?_)
  refine b_ext_nil (hi n' _ hn') (fun r ws n1 _ _ _ _ => ?_)
  jauto

theorem ext_parseSetAssignment {i : Nat} (hK : KGood toks N K) (hn : n ≤ N) :
    Ext toks n h (parseSetAssignment K i) RU := by
  intro e
  unfold parseSetAssignment
  jauto

theorem cls_parseTwigSet {m : Nat} {child : P (Option CompletedMarker)} (hK : KGood toks N K) (hc : ChildGood toks N child) (hn : n ≤ N)
    (hh : ∀ v, h v → v ≠ []) :
    Cls toks n h m (parseTwigSet K m child) RM := by
  intro ts vs e
  unfold parseTwigSet
  jauto

theorem ext_parseBlockShortcut (hK : KGood toks N K) (hn : n < N) :
    Ext toks n h (parseBlockShortcut K) RU := by
  intro e
  unfold parseBlockShortcut
  jauto

theorem cls_parseTwigBlock {m : Nat} {child : P (Option CompletedMarker)} (hK : KGood toks N K) (hc : ChildGood toks N child) (hn : n ≤ N)
    (hh : ∀ v, h v → v ≠ []) :
    Cls toks n h m (parseTwigBlock K m child) RM := by
  intro ts vs e
  unfold parseTwigBlock
  jauto

theorem ext_parseIfBranch (hK : KGood toks N K) (hn : n ≤ N) :
    Ext toks n h (parseIfBranch K) (fun b A => b = true → A.n < n) := by
  intro e
  unfold parseIfBranch
  jauto

theorem ext_parseIfLoop {child : P (Option CompletedMarker)} (hK : KGood toks N K)
    (hc : ChildGood toks N child) (hn : n < N) :
    Ext toks n h (loopTokens (parseIfStep K child) ()) RU := by
  intro e
  refine J_loopTokens (fun _ A => A.L = [] ∧ A.n ≤ n ∧ (e = true → A.e = true)) ?_
    (fun n0 hn => ⟨rfl, hn, id⟩)
  rintro a ⟨L', vs', n', h', e'⟩ ⟨h1, h2, h4⟩
  dsimp only at h1 h2 h4
  subst h1
  unfold parseIfStep
  refine b_ext_nil (ext_parseBody hc (by omega) (by side_tac)) (fun _ ws n1 _ _ hn1 _ => ?_)
  refine b_ext_nil (ext_parseIfBranch hK (by omega)) (fun b ws n2 _ _ hn2 hb => J_pure ?_)
  cases b with
  | false => exact ⟨rfl, by dsimp only; omega, trivial, h4⟩
  | true =>
    have := hb rfl
    dsimp only at this
    exact ⟨⟨rfl, by dsimp only; omega, h4⟩, by dsimp only; omega⟩

theorem cls_parseTwigIf {m : Nat} {child : P (Option CompletedMarker)} (hK : KGood toks N K)
    (hc : ChildGood toks N child) (hn : n ≤ N) (hh : ∀ v, h v → v ≠ []) :
    Cls toks n h m (parseTwigIf K m child) RM := by
  intro ts vs e
  unfold parseTwigIf
  jstep
  jstep
  jstep
  jstep
  jstep
  refine b_ext (ext_parseIfLoop hK hc (by omega)) ?_
  intro _ _ _ _ _ _ _
  jauto

theorem cls_parseTwigTrans {m : Nat} {child : P (Option CompletedMarker)} (hc : ChildGood toks N child) (hn : n ≤ N)
    (hh : ∀ v, h v → v ≠ []) :
    Cls toks n h m (parseTwigTrans m child) RM := by
  intro ts vs e
  unfold parseTwigTrans
  jauto

theorem ext_parsePropDeclaration (hK : KGood toks N K) (hn : n < N) :
    Ext toks n h (parsePropDeclaration K) RU := by
  intro e
  unfold parsePropDeclaration
  jauto

theorem cls_parseTwigProps {m : Nat} (hK : KGood toks N K) (hn : n ≤ N)
    (hh : ∀ v, h v → v ≠ []) :
    Cls toks n h m (parseTwigProps K m) RM := by
  intro ts vs e
  unfold parseTwigProps
  jauto

theorem cls_parseTwigComponent {m : Nat} {child : P (Option CompletedMarker)} (hK : KGood toks N K) (hc : ChildGood toks N child) (hn : n ≤ N)
    (hh : ∀ v, h v → v ≠ []) :
    Cls toks n h m (parseTwigComponent K m child) RM := by
  intro ts vs e
  unfold parseTwigComponent
  jauto

theorem cls_parseTwigTag {m : Nat} {child : P (Option CompletedMarker)}
    (hK : KGood toks N K) (hc : ChildGood toks N child) (hn : n ≤ N) :
    Cls toks n h m (parseTwigTag K m child) RO := by
  intro ts vs e
  unfold parseTwigTag
  jauto

theorem ext_parseTwigBlockStatement {child : P (Option CompletedMarker)}
    (hK : KGood toks N K) (hc : ChildGood toks N child) (hn : n ≤ N) (hh : ∀ v, h v → v ≠ []) :
    Ext toks n h (parseTwigBlockStatement K child) (fun r A => RO r A ∧ A.n < n) := by
  intro e
  unfold parseTwigBlockStatement
  jauto

end Ludtwig
