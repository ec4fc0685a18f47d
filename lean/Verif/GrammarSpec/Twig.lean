import Verif.Grammar.Root
import Verif.GrammarSpec.Tags

/-!
# Specifications of the twig functions (proof device)
-/

namespace Ludtwig

variable {toks : List Token} {α β : Type} {L : List (Nat × List Nat)} {vs : List Nat} {n N : Nat}
  {h : List Token → Prop} {e : Bool} {K : Knot}

theorem cls_parseLudtwigDirective {m : Nat} {closing : List SyntaxKind}
    (hk : ∀ k ∈ closing, k.display?.isSome = true) (hh : ∀ v, h v → v ≠ []) :
    Cls toks n h m (parseLudtwigDirective m closing) RM := by
  intro ts vs e
  unfold parseLudtwigDirective
  jauto

theorem cls_parseTwigPlainComment {m : Nat} : Cls toks n h m (parseTwigPlainComment m) RM := by
  intro ts vs e
  unfold parseTwigPlainComment
  jauto

theorem ext_parseTwigCommentStatement (hh : ∀ v, h v → v ≠ []) :
    Ext toks n h parseTwigCommentStatement (RMS n) := by
  intro e
  unfold parseTwigCommentStatement
  jauto

theorem ext_parseTwigVarStatement (hK : KGood toks N K) (hn : n ≤ N) (hh : ∀ v, h v → v ≠ []) :
    Ext toks n h (parseTwigVarStatement K) (RMS n) := by
  intro e
  unfold parseTwigVarStatement
  jauto

/-- The result of `parse_any_twig`: without a result, a token was consumed, or nothing happened. -/
def RT (n : Nat) (h : List Token → Prop) : Option CompletedMarker → AS → Prop := fun a A =>
  (∀ c, a = some c → c ∈ A.vs ∧ A.n < n) ∧
  (a = none → A.n < n ∨ ∀ v, A.h v → h v ∧ isAtSet twigBlockOpenSet v = false ∧
    isAtSet twigVarOpenSet v = false ∧ isAtSet twigCommentOpenSet v = false)

theorem ext_parseAnyTwig {child : P (Option CompletedMarker)} (hK : KGood toks N K)
    (hc : ChildGood toks N child) (hn : n ≤ N) : Ext toks n h (parseAnyTwig K child) (RT n h) := by
  unfold parseAnyTwig
  refine ext_ifP (by side_tac) ?_ (ext_ifP (by side_tac) ?_ (ext_ifP (by side_tac) ?_ ?_))
  · refine (ext_parseTwigBlockStatement hK hc hn (by side_tac)).mono ?_
    rintro a A _ ⟨h1, h2⟩
    exact ⟨fun c hc => ⟨h1 c hc, h2⟩, fun _ => .inl h2⟩
  · intro e
    jstep; jstep; jstep
    refine J_pure ?_
    simp_all [RT, RMS]
  · intro e
    jstep; jstep; jstep
    refine J_pure ?_
    simp_all [RT, RMS]
  · intro e
    refine J_pure ⟨rfl, Nat.le_refl _, ⟨by simp, fun _ => .inr ?_⟩, id⟩
    simp_all
end Ludtwig
