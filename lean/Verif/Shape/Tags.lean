import Verif.Shape.Expression

/-!
# The children that the functions in `Grammar/Shopware.lean` and `Grammar/Tags.lean` add (proof device)
-/

namespace Ludtwig.Shape
open Rx

variable {strict : Bool} {h : List Token → Prop} {K : Knot}

theorem shape_recover {recovery : List SyntaxKind} :
    Runs strict [] [] h (recover recovery) (fun _ => [.rx (opt (.node [.ERROR]))]) := by
  unfold recover
  sauto

theorem shape_parseBody {child : P (Option CompletedMarker)} {c : P Bool} {φ : List Token → Bool}
    (hc : Child strict child) (hp : Peek c φ) :
    Runs strict [] [] h (parseBody child c) (fun _ => [.rx (.node [.BODY])]) := by
  obtain ⟨r, h1, h2⟩ := hc
  unfold Runs parseBody
  refine b_start (fun m => b_ext (runs_parseMany hp (h1.pre (fun _ _ => trivial))) (fun _ => ?_))
  unfold complete_ discard'
  refine b_complete_nil (r := many r) (by simp [segsRx, mkSeq]) h2 (T_pure ⟨rfl, ?_⟩)
  le_tac

theorem shape_parseEndBlock {kw k : SyntaxKind} {r1 r2 r3 : List SyntaxKind}
    (hk : incl (mkSeq (mkSeq (may strict twigBlockOpenSet) (may strict [kw])) (may strict twigBlockCloseSet))
      (gram strict k) = true) (hn : k ≠ .HTML_STRING_INNER) :
    Runs strict [] [] h (parseEndBlock kw r1 r2 r3 k) (fun _ => [.rx (.node [k])]) := by
  unfold parseEndBlock
  sauto

theorem shape_parseStringOr {s : String} {r : List SyntaxKind} (hK : KShape strict K) :
    Runs strict [] [] h (parseStringOr K s r) (fun _ => [.rx (must strict [.TWIG_LITERAL_STRING])]) := by
  unfold parseStringOr
  sauto

theorem shape_parseOptionalValue {kw k : SyntaxKind} {s : String} {r : List SyntaxKind}
    (hK : KShape strict K)
    (hk : incl (mkSeq (.tok [kw]) (must strict [.TWIG_EXPRESSION])) (gram strict k) = true) (hn : k ≠ .HTML_STRING_INNER) :
    Runs strict [] [] h (parseOptionalValue K kw s r k) (fun _ => [.rx (opt (.node [k]))]) := by
  unfold parseOptionalValue
  refine shape_whenP (r := .node [k]) (by side_tac) ?_
  sauto

theorem shape_parseCacheArgument {kw k : SyntaxKind} {s : String} {r : List SyntaxKind}
    (hK : KShape strict K)
    (hk : incl (mkSeq (mkSeq (mkSeq (.tok [kw]) (may strict [T!"("])) (must strict [.TWIG_EXPRESSION]))
      (may strict [T!")"])) (gram strict k) = true) (hn : k ≠ .HTML_STRING_INNER) :
    Runs strict [] [] h (parseCacheArgument K kw k s r) (fun _ => [.rx (opt (.node [k]))]) := by
  unfold parseCacheArgument
  refine shape_whenP (r := .node [k]) (by side_tac) ?_
  sauto

theorem shape_parseEndName {s : String} {name : Option Text} :
    Runs strict [] [] h (parseEndName s name)
      (fun _ => [.rx (opt (.seq (.tok [T!"word"]) (opt (lost strict))))]) := by
  unfold parseEndName
  sauto

theorem shape_parseNamedEndBlock {kw k : SyntaxKind} {s : String} {name : Option Text}
    {r1 r2 : List SyntaxKind}
    (hk : incl (mkSeq (mkSeq (mkSeq (may strict twigBlockOpenSet) (may strict [kw]))
      (opt (.seq (.tok [T!"word"]) (opt (lost strict))))) (may strict twigBlockCloseSet))
      (gram strict k) = true) (hn : k ≠ .HTML_STRING_INNER) :
    Runs strict [] [] h (parseNamedEndBlock kw s name r1 r2 k) (fun _ => [.rx (.node [k])]) := by
  unfold parseNamedEndBlock
  sauto

theorem shape_parseTwigSwThumbnails {m : Nat} (hK : KShape strict K) 
    (hh : ∀ v, h v → isAt T!"sw_thumbnails" v = true) :
    Runs strict [(m, [.rx blockOpen])] [] h (parseTwigSwThumbnails K m) (nodeS [.SHOPWARE_THUMBNAILS]) := by
  refine Runs.pre ?_ hh
  unfold parseTwigSwThumbnails
  sauto

theorem shape_parseTwigSwIcon {m : Nat} (hK : KShape strict K) 
    (hh : ∀ v, h v → isAt T!"sw_icon" v = true) :
    Runs strict [(m, [.rx blockOpen])] [] h (parseTwigSwIcon K m) (nodeS [.SHOPWARE_ICON]) := by
  refine Runs.pre ?_ hh
  unfold parseTwigSwIcon
  sauto

theorem shape_parseTwigSwReturn {m : Nat} (hK : KShape strict K) 
    (hh : ∀ v, h v → isAt T!"return" v = true) :
    Runs strict [(m, [.rx blockOpen])] [] h (parseTwigSwReturn K m) (nodeS [.SHOPWARE_RETURN]) := by
  refine Runs.pre ?_ hh
  unfold parseTwigSwReturn
  sauto

theorem shape_parseTwigSwSilentFeatureCall {m : Nat} {child : P (Option CompletedMarker)} (hK : KShape strict K) (hc : Child strict child) 
    (hh : ∀ v, h v → isAt T!"sw_silent_feature_call" v = true) :
    Runs strict [(m, [.rx blockOpen])] [] h (parseTwigSwSilentFeatureCall K m child) (nodeS [.SHOPWARE_SILENT_FEATURE_CALL]) := by
  refine Runs.pre ?_ hh
  unfold parseTwigSwSilentFeatureCall
  sauto

theorem shape_parseTwigSwExtends {m : Nat} (hK : KShape strict K) 
    (hh : ∀ v, h v → isAt T!"sw_extends" v = true) :
    Runs strict [(m, [.rx blockOpen])] [] h (parseTwigSwExtends K m) (nodeS [.SHOPWARE_TWIG_SW_EXTENDS]) := by
  refine Runs.pre ?_ hh
  unfold parseTwigSwExtends
  sauto

theorem shape_parseTwigSwInclude {m : Nat} (hK : KShape strict K) 
    (hh : ∀ v, h v → isAt T!"sw_include" v = true) :
    Runs strict [(m, [.rx blockOpen])] [] h (parseTwigSwInclude K m) (nodeS [.SHOPWARE_TWIG_SW_INCLUDE]) := by
  refine Runs.pre ?_ hh
  unfold parseTwigSwInclude
  sauto

theorem shape_parseTwigCache {m : Nat} {child : P (Option CompletedMarker)} (hK : KShape strict K) (hc : Child strict child) 
    (hh : ∀ v, h v → isAt T!"cache" v = true) :
    Runs strict [(m, [.rx blockOpen])] [] h (parseTwigCache K m child) (nodeS [.TWIG_CACHE]) := by
  refine Runs.pre ?_ hh
  unfold parseTwigCache
  sauto

theorem shape_parseTwigWith {m : Nat} {child : P (Option CompletedMarker)} (hK : KShape strict K) (hc : Child strict child) 
    (hh : ∀ v, h v → isAt T!"with" v = true) :
    Runs strict [(m, [.rx blockOpen])] [] h (parseTwigWith K m child) (nodeS [.TWIG_WITH]) := by
  refine Runs.pre ?_ hh
  unfold parseTwigWith
  sauto

theorem shape_parseTwigMacro {m : Nat} {child : P (Option CompletedMarker)} (hK : KShape strict K) (hc : Child strict child) 
    (hh : ∀ v, h v → isAt T!"macro" v = true) :
    Runs strict [(m, [.rx blockOpen])] [] h (parseTwigMacro K m child) (nodeS [.TWIG_MACRO]) := by
  refine Runs.pre ?_ hh
  unfold parseTwigMacro
  sauto

theorem shape_parseTwigVerbatim {m : Nat} {child : P (Option CompletedMarker)} (hc : Child strict child) 
    (hh : ∀ v, h v → isAt T!"verbatim" v = true) :
    Runs strict [(m, [.rx blockOpen])] [] h (parseTwigVerbatim m child) (nodeS [.TWIG_VERBATIM]) := by
  refine Runs.pre ?_ hh
  unfold parseTwigVerbatim
  sauto

theorem shape_parseTwigSandbox {m : Nat} {child : P (Option CompletedMarker)} (hc : Child strict child) 
    (hh : ∀ v, h v → isAt T!"sandbox" v = true) :
    Runs strict [(m, [.rx blockOpen])] [] h (parseTwigSandbox m child) (nodeS [.TWIG_SANDBOX]) := by
  refine Runs.pre ?_ hh
  unfold parseTwigSandbox
  sauto

theorem shape_parseTwigFlush {m : Nat} 
    (hh : ∀ v, h v → isAt T!"flush" v = true) :
    Runs strict [(m, [.rx blockOpen])] [] h (parseTwigFlush m) (nodeS [.TWIG_FLUSH]) := by
  refine Runs.pre ?_ hh
  unfold parseTwigFlush
  sauto

theorem shape_parseTwigDo {m : Nat} (hK : KShape strict K) 
    (hh : ∀ v, h v → isAt T!"do" v = true) :
    Runs strict [(m, [.rx blockOpen])] [] h (parseTwigDo K m) (nodeS [.TWIG_DO]) := by
  refine Runs.pre ?_ hh
  unfold parseTwigDo
  sauto

theorem shape_parseTwigDeprecated {m : Nat} (hK : KShape strict K) 
    (hh : ∀ v, h v → isAt T!"deprecated" v = true) :
    Runs strict [(m, [.rx blockOpen])] [] h (parseTwigDeprecated K m) (nodeS [.TWIG_DEPRECATED]) := by
  refine Runs.pre ?_ hh
  unfold parseTwigDeprecated
  sauto

theorem shape_parseTwigAutoescape {m : Nat} {child : P (Option CompletedMarker)} (hK : KShape strict K) (hc : Child strict child) 
    (hh : ∀ v, h v → isAt T!"autoescape" v = true) :
    Runs strict [(m, [.rx blockOpen])] [] h (parseTwigAutoescape K m child) (nodeS [.TWIG_AUTOESCAPE]) := by
  refine Runs.pre ?_ hh
  unfold parseTwigAutoescape
  sauto

theorem shape_parseApplyArguments (hK : KShape strict K) :
    Runs strict [] [] h (parseApplyArguments K) (fun _ => [.rx (opt arguments)]) := by
  unfold parseApplyArguments
  sauto

/-- The children in the loop over the filters of `apply`. -/
def ApplyJ (c : CompletedMarker) (segs : List Seg) : Prop :=
  segs = [.rx (.seq (opt arguments) (star unknown)), .nd c [.TWIG_LITERAL_NAME]] ∨
  segs = [.rx (star unknown), .nd c [.TWIG_FILTER]]

theorem shape_parseApplyFilters (hK : KShape strict K) :
    Runs strict [] [] h (parseApplyFilters K) (fun _ => [.rx (.alt (lost strict)
      (.seq (.alt (.seq name (opt arguments)) (.node [.TWIG_FILTER])) (star unknown)))]) := by
  unfold parseApplyFilters
  sstep
  sstep
  · sauto
  · sstep
    refine b_ext_nil (shape_parseApplyArguments hK) (fun _ => ?_)
    norm_tac
    sstep
    refine T_le_nil (vs' := [.rx (.seq (opt arguments) (star unknown)), .nd _ [.TWIG_LITERAL_NAME]])
      (by le_tac) ?_
    unfold discard'
    refine T_assoc ?_
    refine T_bind (T_parseManyWith (φ := fun a v => (isAtSet twigBlockCloseSet v, a)) ApplyJ
      (fun _ => Peek.pair (Peek.atSet _)) (fun _ _ _ hj => hj) (fun c segs hj => ?_) (fun c segs hj => ?_) (.inl rfl)) ?_
    · rcases hj with rfl | rfl
      · exact ⟨_, .inl rfl, by le_tac⟩
      · exact ⟨_, .inr rfl, by le_tac⟩
    · rcases hj with rfl | rfl
      · refine T_last (b_ifP (by side_tac) ?_ (T_pure ⟨rfl, _, .inl rfl, Le.refl _⟩))
        refine b_call_nil (xs := [.rx (.seq (opt arguments) (star unknown)), .nd c [.TWIG_LITERAL_NAME]])
          (ts := []) (shape_parseTwigFilter (c := c) hK (fun v hv => hv.1)) (by le_tac)
          (fun c' => T_pure ⟨rfl, _, .inr rfl, ?_⟩)
        le_tac
      · refine T_last (b_ifP (by side_tac) ?_ (T_pure ⟨rfl, _, .inr rfl, Le.refl _⟩))
        refine b_call_nil (xs := [.rx (star unknown), .nd c [.TWIG_FILTER]])
          (ts := []) (shape_parseTwigFilter (c := c) hK (fun v hv => hv.1)) (by le_tac)
          (fun c' => T_pure ⟨rfl, _, .inr rfl, ?_⟩)
        le_tac
    · rintro c ⟨L, vs, h'⟩ ⟨rfl, segs, hj, hle⟩
      dsimp only at hle
      refine T_le_nil hle (T_pre (h' := any) ?_ (fun _ _ => trivial))
      rcases hj with rfl | rfl <;> sauto

theorem shape_parseTwigApply {m : Nat} {child : P (Option CompletedMarker)} (hK : KShape strict K) (hc : Child strict child) 
    (hh : ∀ v, h v → isAt T!"apply" v = true) :
    Runs strict [(m, [.rx blockOpen])] [] h (parseTwigApply K m child) (nodeS [.TWIG_APPLY]) := by
  refine Runs.pre ?_ hh
  unfold parseTwigApply
  sauto

theorem shape_parseTwigImport {m : Nat} (hK : KShape strict K) 
    (hh : ∀ v, h v → isAtSet [T!"import", T!"sw_import"] v = true) :
    Runs strict [(m, [.rx blockOpen])] [] h (parseTwigImport K m) (nodeS [.TWIG_IMPORT]) := by
  refine Runs.pre ?_ hh
  unfold parseTwigImport
  sauto

theorem shape_parseNameAsNameOverride {s : String} :
    Runs strict [] [] h (parseNameAsNameOverride s) (nodeS [.TWIG_OVERRIDE]) := by
  unfold parseNameAsNameOverride
  sauto

theorem runs_parseManyRx {σ : Type} {early : σ → P (Bool × σ)} {child : σ → P σ} {a : σ}
    {φ : σ → List Token → Bool × σ} {r : Rx} (he : ∀ a, Peek (early a) (φ a))
    (hc : ∀ a, Runs strict [] [] (fun v => v ≠ [] ∧ ∃ a', φ a' v = (false, a)) (child a)
      (fun _ => [.rx r])) :
    Runs strict [] [] h (parseManyWith early child a) (fun _ => [.rx (many r)]) := by
  refine runs_parseManyWith (φ := φ) (fun _ => [.rx (many r)]) he (fun _ _ => rfl) (fun _ => ?_) (fun a => ?_) ?_
  · exact le_star (xs := [.rx unknown]) le_alt_left
  · exact (Runs.frame (hc a)).post (fun _ => le_star (xs := [.rx r]) le_alt_right)
  · refine ⟨fun cs hcs => ?_, by simp⟩
    simp only [Fits] at hcs
    exact ⟨[], cs, rfl, rfl, [], by simp [hcs], by simp⟩

theorem shape_parseOverrides {s s' : String} :
    Runs strict [] [] h (parseOverrides s s')
      (fun _ => [.rx (.seq (many (.seq (.node [.TWIG_OVERRIDE]) (comma strict))) (opt (err strict)))]) := by
  unfold Runs parseOverrides
  refine b_ext_nil (runs_parseManyRx (r := .seq (.node [.TWIG_OVERRIDE]) (comma strict))
    (fun _ => by side_tac) (fun a => ?_)) (fun a => ?_)
  · sauto
  · norm_tac
    sauto

theorem shape_parseTwigFrom {m : Nat} (hK : KShape strict K) 
    (hh : ∀ v, h v → isAtSet [T!"from", T!"sw_from"] v = true) :
    Runs strict [(m, [.rx blockOpen])] [] h (parseTwigFrom K m) (nodeS [.TWIG_FROM]) := by
  refine Runs.pre ?_ hh
  unfold parseTwigFrom
  sauto

theorem shape_parseTwigUse {m : Nat} (hK : KShape strict K) 
    (hh : ∀ v, h v → isAtSet [T!"use", T!"sw_use"] v = true) :
    Runs strict [(m, [.rx blockOpen])] [] h (parseTwigUse K m) (nodeS [.TWIG_USE]) := by
  refine Runs.pre ?_ hh
  unfold parseTwigUse
  sauto

theorem shape_parseTwigEmbed {m : Nat} {child : P (Option CompletedMarker)} (hK : KShape strict K) (hc : Child strict child) 
    (hh : ∀ v, h v → isAtSet [T!"embed", T!"sw_embed"] v = true) :
    Runs strict [(m, [.rx blockOpen])] [] h (parseTwigEmbed K m child) (nodeS [.TWIG_EMBED]) := by
  refine Runs.pre ?_ hh
  unfold parseTwigEmbed
  sauto

theorem shape_parseTwigInclude {m : Nat} (hK : KShape strict K) 
    (hh : ∀ v, h v → isAt T!"include" v = true) :
    Runs strict [(m, [.rx blockOpen])] [] h (parseTwigInclude K m) (nodeS [.TWIG_INCLUDE]) := by
  refine Runs.pre ?_ hh
  unfold parseTwigInclude
  sauto

theorem shape_parseTwigExtends {m : Nat} (hK : KShape strict K) 
    (hh : ∀ v, h v → isAt T!"extends" v = true) :
    Runs strict [(m, [.rx blockOpen])] [] h (parseTwigExtends K m) (nodeS [.TWIG_EXTENDS]) := by
  refine Runs.pre ?_ hh
  unfold parseTwigExtends
  sauto

theorem shape_parseForElse {child : P (Option CompletedMarker)} (hc : Child strict child) :
    Runs strict [] [] h (parseForElse child)
      (fun _ => [.rx (opt (.seq (.node [.TWIG_FOR_ELSE_BLOCK]) (.node [.BODY])))]) := by
  unfold parseForElse
  sauto

theorem shape_parseForVariables : Runs strict [] [] h parseForVariables
    (fun _ => [.rx (.seq (must strict [.TWIG_LITERAL_NAME])
      (opt (.seq (.tok [T!","]) (must strict [.TWIG_LITERAL_NAME]))))]) := by
  unfold parseForVariables
  sauto

theorem shape_parseTwigFor {m : Nat} {child : P (Option CompletedMarker)} (hK : KShape strict K) (hc : Child strict child) 
    (hh : ∀ v, h v → isAt T!"for" v = true) :
    Runs strict [(m, [.rx blockOpen])] [] h (parseTwigFor K m child) (nodeS [.TWIG_FOR]) := by
  refine Runs.pre ?_ hh
  unfold parseTwigFor
  sauto

theorem le_seq {xs ys : List Seg} {a b : Rx} (hx : Le xs [.rx a]) (hy : Le ys [.rx b]) :
    Le (ys ++ xs) [.rx (.seq a b)] := by
  refine ⟨fun cs hc => ?_, by simp⟩
  obtain ⟨u, v, rfl, h1, h2⟩ := fits_append.1 hc
  obtain ⟨u1, u2, rfl, h3, h4⟩ := hx.1 _ h1
  obtain ⟨v1, v2, rfl, h5, h6⟩ := hy.1 _ h2
  simp only [Fits] at h3 h5
  exact ⟨[], _, rfl, rfl, skelItems u2, skelItems v2, by simp [skelItems_append, h3, h5], h4, h6⟩

/-- A list of elements where missing ones are errors. -/
def counted (strict : Bool) (ks : List SyntaxKind) : Rx :=
  many (.seq (.alt (.node ks) (err strict)) (comma strict))

theorem shape_parseCounted {c : P Bool} {φ : List Token → Bool} {item : P (Option CompletedMarker)}
    {s : String} {ks : List SyntaxKind} (hp : Peek c φ)
    (hi : Runs strict [] [] any item (optS ks)) :
    Runs strict [] [] h (parseCounted c item s) (fun _ => [.rx (counted strict ks)]) := by
  unfold parseCounted
  refine runs_parseManyRx (φ := fun a v => (φ v, a)) (fun _ => hp.pair) (fun a => ?_)
  refine b_ext_nil (hi.pre (fun _ _ => trivial)) (fun a => ?_)
  cases a with
  | some c =>
    exact b_ext_nil (shape_commaOrEnd hp) (fun _ => T_pure ⟨rfl,
      le_seq (xs := [.nd c ks]) (ys := [_]) (Le.trans le_node le_alt_left) (Le.refl _)⟩)
  | none =>
    exact b_addError_nil (b_ext_nil (shape_commaOrEnd hp) (fun _ => T_pure ⟨rfl,
      le_seq (xs := [_]) (ys := [_]) le_alt_right (Le.refl _)⟩))

theorem shape_parseSetAssignment {n : Nat} (hK : KShape strict K) :
    Runs strict [] [] h (parseSetAssignment K n) (fun _ => [.rx (.seq
      (opt (.seq (.tok [T!"="]) (counted strict [.TWIG_EXPRESSION]))) (opt (err strict)))]) := by
  unfold parseSetAssignment
  sauto

theorem shape_parseTwigSet {m : Nat} {child : P (Option CompletedMarker)} (hK : KShape strict K) (hc : Child strict child) 
    (hh : ∀ v, h v → isAt T!"set" v = true) :
    Runs strict [(m, [.rx blockOpen])] [] h (parseTwigSet K m child) (nodeS [.TWIG_SET]) := by
  refine Runs.pre ?_ hh
  unfold parseTwigSet
  sauto

theorem shape_parseBlockShortcut (hK : KShape strict K) :
    Runs strict [] [] h (parseBlockShortcut K) (fun b => if b then [.rx expr] else [.rx (opt (lost strict))]) := by
  unfold parseBlockShortcut
  sauto

theorem shape_parseTwigBlock {m : Nat} {child : P (Option CompletedMarker)} (hK : KShape strict K) (hc : Child strict child) 
    (hh : ∀ v, h v → isAt T!"block" v = true) :
    Runs strict [(m, [.rx blockOpen])] [] h (parseTwigBlock K m child) (nodeS [.TWIG_BLOCK]) := by
  refine Runs.pre ?_ hh
  unfold parseTwigBlock
  sauto

theorem shape_parseIfBranch (hK : KShape strict K) :
    Runs strict [] [] h (parseIfBranch K)
      (fun b => if b then [.rx (.node [.TWIG_ELSE_IF_BLOCK, .TWIG_ELSE_BLOCK])] else []) := by
  unfold parseIfBranch
  sauto

theorem shape_parseIfSteps {child : P (Option CompletedMarker)} (hK : KShape strict K)
    (hc : Child strict child) :
    Runs strict [] [] h (loopTokens (parseIfStep K child) ()) (fun _ => [.rx (.seq
      (star (.seq (.node [.BODY]) (.node [.TWIG_ELSE_IF_BLOCK, .TWIG_ELSE_BLOCK]))) (.node [.BODY]))]) := by
  refine runs_loopTokens
    (fun _ => [.rx (star (.seq (.node [.BODY]) (.node [.TWIG_ELSE_IF_BLOCK, .TWIG_ELSE_BLOCK])))]) _
    (fun _ => ?_) (by le_tac)
  unfold parseIfStep
  sauto

theorem shape_parseTwigIf {m : Nat} {child : P (Option CompletedMarker)} (hK : KShape strict K) (hc : Child strict child) 
    (hh : ∀ v, h v → isAt T!"if" v = true) :
    Runs strict [(m, [.rx blockOpen])] [] h (parseTwigIf K m child) (nodeS [.TWIG_IF]) := by
  refine Runs.pre ?_ hh
  unfold parseTwigIf
  sstep; sstep; sstep; sstep; sstep; sstep
  refine b_ext (shape_parseIfSteps hK hc) (fun _ => ?_)
  norm_tac
  sauto

theorem shape_parseTwigTrans {m : Nat} {child : P (Option CompletedMarker)} (hc : Child strict child) 
    (hh : ∀ v, h v → isAt T!"trans" v = true) :
    Runs strict [(m, [.rx blockOpen])] [] h (parseTwigTrans m child) (nodeS [.TWIG_TRANS]) := by
  refine Runs.pre ?_ hh
  unfold parseTwigTrans
  sauto

theorem shape_parsePropDeclaration (hK : KShape strict K) :
    Runs strict [] [] h (parsePropDeclaration K)
      (fun _ => [.rx (.seq (.node [.TWIG_PROP_DECLARATION]) (comma strict))]) := by
  unfold parsePropDeclaration
  sauto

theorem shape_parseTwigProps {m : Nat} (hK : KShape strict K) 
    (hh : ∀ v, h v → isAt T!"props" v = true) :
    Runs strict [(m, [.rx blockOpen])] [] h (parseTwigProps K m) (nodeS [.TWIG_PROPS]) := by
  refine Runs.pre ?_ hh
  unfold parseTwigProps
  sauto

theorem shape_parseTwigComponent {m : Nat} {child : P (Option CompletedMarker)} (hK : KShape strict K) (hc : Child strict child) 
    (hh : ∀ v, h v → isAt T!"component" v = true) :
    Runs strict [(m, [.rx blockOpen])] [] h (parseTwigComponent K m child) (nodeS [.TWIG_COMPONENT]) := by
  refine Runs.pre ?_ hh
  unfold parseTwigComponent
  sauto

theorem shape_parseShopwareBlockStatement {m : Nat} {child : P (Option CompletedMarker)}
    (hK : KShape strict K) (hc : Child strict child) :
    Runs strict [(m, [.rx blockOpen])] [] h (parseShopwareBlockStatement K m child) (twigS strict) := by
  unfold parseShopwareBlockStatement
  iterate 12 (all_goals first | sstep | skip)
  refine T_errUp ?_
  sauto

theorem shape_parseTwigTag {m : Nat} {child : P (Option CompletedMarker)}
    (hK : KShape strict K) (hc : Child strict child) :
    Runs strict [(m, [.rx blockOpen])] [] h (parseTwigTag K m child) (twigS strict) := by
  unfold parseTwigTag
  sauto

theorem shape_parseTwigBlockStatement {child : P (Option CompletedMarker)}
    (hK : KShape strict K) (hc : Child strict child) (hh : ∀ v, h v → isAtSet twigBlockOpenSet v = true) :
    Runs strict [] [] h (parseTwigBlockStatement K child) (twigS strict) := by
  refine Runs.pre ?_ hh
  unfold parseTwigBlockStatement
  sauto

end Ludtwig.Shape
