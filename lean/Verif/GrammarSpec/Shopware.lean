import Verif.GrammarSpec.Expression

/-!
# Specifications of the functions in `Grammar/Shopware.lean`
-/

namespace Ludtwig

variable {toks : List Token} {n N : Nat} {h : List Token → Prop} {e : Bool} {K : Knot}

theorem ext_parseBody {child : P (Option CompletedMarker)} {c : P Bool} {φ : List Token → Bool}
    (hc : ChildGood toks N child) (hn : n < N) (hp : Peek c φ) :
    Ext toks n h (parseBody child c) RU := by
  intro e
  unfold parseBody
  jauto

theorem ext_parseEndBlock {kw k : SyntaxKind} {r1 r2 r3 : List SyntaxKind}
    (hd : kw.display?.isSome = true) (hk : k ≠ .ERROR) :
    Ext toks n h (parseEndBlock kw r1 r2 r3 k) RU := by
  intro e
  unfold parseEndBlock
  jauto

theorem ext_parseStringOr {s : String} {r : List SyntaxKind} (hK : KGood toks N K) (hn : n ≤ N) :
    Ext toks n h (parseStringOr K s r) RU := by
  intro e
  unfold parseStringOr
  jauto

theorem ext_parseOptionalValue {kw k : SyntaxKind} {s : String} {r : List SyntaxKind}
    (hK : KGood toks N K) (hn : n ≤ N) (hk : k ≠ .ERROR) :
    Ext toks n h (parseOptionalValue K kw s r k) RU := by
  intro e
  unfold parseOptionalValue
  jauto

theorem cls_parseTwigSwThumbnails {m : Nat} (hK : KGood toks N K) (hn : n ≤ N)
    (hh : ∀ v, h v → v ≠ []) :
    Cls toks n h m (parseTwigSwThumbnails K m) RM := by
  intro ts vs e
  unfold parseTwigSwThumbnails
  jauto

theorem cls_parseTwigSwIcon {m : Nat} (hK : KGood toks N K) (hn : n ≤ N)
    (hh : ∀ v, h v → v ≠ []) :
    Cls toks n h m (parseTwigSwIcon K m) RM := by
  intro ts vs e
  unfold parseTwigSwIcon
  jauto

theorem cls_parseTwigSwReturn {m : Nat} (hK : KGood toks N K) (hn : n ≤ N)
    (hh : ∀ v, h v → v ≠ []) :
    Cls toks n h m (parseTwigSwReturn K m) RM := by
  intro ts vs e
  unfold parseTwigSwReturn
  jauto

theorem cls_parseTwigSwSilentFeatureCall {m : Nat} {child : P (Option CompletedMarker)} (hK : KGood toks N K) (hc : ChildGood toks N child) (hn : n ≤ N)
    (hh : ∀ v, h v → v ≠ []) :
    Cls toks n h m (parseTwigSwSilentFeatureCall K m child) RM := by
  intro ts vs e
  unfold parseTwigSwSilentFeatureCall
  jauto

theorem cls_parseTwigSwExtends {m : Nat} (hK : KGood toks N K) (hn : n ≤ N)
    (hh : ∀ v, h v → v ≠ []) :
    Cls toks n h m (parseTwigSwExtends K m) RM := by
  intro ts vs e
  unfold parseTwigSwExtends
  jauto

theorem cls_parseTwigSwInclude {m : Nat} (hK : KGood toks N K) (hn : n ≤ N)
    (hh : ∀ v, h v → v ≠ []) :
    Cls toks n h m (parseTwigSwInclude K m) RM := by
  intro ts vs e
  unfold parseTwigSwInclude
  jauto

theorem cls_parseShopwareBlockStatement {m : Nat} {child : P (Option CompletedMarker)}
    (hK : KGood toks N K) (hc : ChildGood toks N child) (hn : n ≤ N) :
    Cls toks n h m (parseShopwareBlockStatement K m child) RO := by
  intro ts vs e
  unfold parseShopwareBlockStatement
  jauto

end Ludtwig
