import Verif.Layout.Quiet
import Verif.GrammarSpec.Html
import Verif.Grammar.Root

/-!
# Going through two runs in lockstep (proof device)
-/

namespace Ludtwig.Layout

/-- Calls whose relation is already proved. -/
syntax "rel_leaf" : tactic

macro_rules | `(tactic| rel_leaf) => `(tactic| with_reducible exact Rel.pureEq _)
macro_rules | `(tactic| rel_leaf) => `(tactic| with_reducible exact Rel.panic _)
macro_rules | `(tactic| rel_leaf) => `(tactic| with_reducible exact Rel.peek)
macro_rules | `(tactic| rel_leaf) => `(tactic| with_reducible exact Rel.at' _)
macro_rules | `(tactic| rel_leaf) => `(tactic| with_reducible exact Rel.atSet _)
macro_rules | `(tactic| rel_leaf) => `(tactic| with_reducible exact Rel.atEnd)
macro_rules | `(tactic| rel_leaf) => `(tactic| with_reducible exact Rel.peekNext)
macro_rules | `(tactic| rel_leaf) => `(tactic| with_reducible exact Rel.atFollowing _)
macro_rules | `(tactic| rel_leaf) => `(tactic| with_reducible exact Rel.atFollowingContent _)
macro_rules | `(tactic| rel_leaf) => `(tactic| with_reducible exact Rel.atTwigTag _)
macro_rules | `(tactic| rel_leaf) => `(tactic| with_reducible exact Rel.start)
macro_rules | `(tactic| rel_leaf) => `(tactic| with_reducible exact Rel.complete _ _)
macro_rules | `(tactic| rel_leaf) => `(tactic| with_reducible exact Rel.complete_ _ _)
macro_rules | `(tactic| rel_leaf) => `(tactic| with_reducible exact Rel.precede _)
macro_rules | `(tactic| rel_leaf) => `(tactic| with_reducible exact Rel.trivia)
macro_rules | `(tactic| rel_leaf) => `(tactic| with_reducible exact Rel.bump_ _)
macro_rules | `(tactic| rel_leaf) => `(tactic| with_reducible exact Rel.bumpAs_ _)
macro_rules | `(tactic| rel_leaf) => `(tactic| with_reducible exact Rel.addError _)
macro_rules | `(tactic| rel_leaf) => `(tactic| with_reducible exact Rel.addErrorAt _ (by assumption))
macro_rules | `(tactic| rel_leaf) => `(tactic| with_reducible exact Rel.recover _)
macro_rules | `(tactic| rel_leaf) => `(tactic| with_reducible exact Rel.expect_ _ _)
macro_rules | `(tactic| rel_leaf) => `(tactic| with_reducible exact Rel.expectAny_ _ _)
macro_rules | `(tactic| rel_leaf) => `(tactic| with_reducible exact Rel.errorRecover _ _)
macro_rules | `(tactic| rel_leaf) => `(tactic| with_reducible exact Rel.wrap _ _)
macro_rules | `(tactic| rel_leaf) => `(tactic| with_reducible exact Rel.optionalToken _)
macro_rules | `(tactic| rel_leaf) => `(tactic| with_reducible assumption)

theorem peek_blockClose : Peek atTwigBlockClose (isAtSet twigBlockCloseSet) := Peek.atSet _
theorem peek_argumentsEnd : Peek atArgumentsEnd (isAtSet [T!"%}", T!"-%}", T!"~%}", T!")"]) :=
  Peek.atSet _
theorem peek_declarationsEnd : Peek atDeclarationsEnd (isAtSet [T!"=", T!"%}", T!"-%}", T!"~%}"]) :=
  Peek.atSet _

/-- What a condition looks at. -/
syntax "peek_leaf" : tactic
macro_rules | `(tactic| peek_leaf) => `(tactic| first
  | with_reducible exact Peek.at' _
  | with_reducible exact Peek.atSet _
  | with_reducible exact Peek.atEnd
  | with_reducible exact Peek.atTwigTag _
  | with_reducible exact Peek.atTwigTerminationTag
  | with_reducible exact Peek.atTextEnd
  | with_reducible exact peek_blockClose
  | with_reducible exact peek_argumentsEnd
  | with_reducible exact peek_declarationsEnd
  | with_reducible exact Peek.atFollowing _
  | with_reducible exact Peek.pure _
  | with_reducible assumption)
macro "peek" : tactic => `(tactic| first
  | peek_leaf
  | with_reducible exact Peek.or (by peek_leaf) (by peek_leaf)
  | with_reducible exact Peek.not (by peek_leaf))

/-- Children of loops. -/
syntax "quiet_leaf" : tactic
macro_rules | `(tactic| quiet_leaf) => `(tactic| with_reducible exact (sure_bump_ _).sure)

/-- The code behind the body of a block. -/
syntax "kill" : tactic
macro_rules | `(tactic| kill) => `(tactic| first
  | with_reducible exact kill_endBlock _ _ _ _ _
  | with_reducible exact kill_namedEndBlock _ _ _ _ _ _
  | with_reducible exact Kill.left (kill_endBlock _ _ _ _ _) (fun _ => Mono.complete _ _)
  | with_reducible exact Kill.left (kill_namedEndBlock _ _ _ _ _ _) (fun _ => Mono.complete _ _))

/-- One step. -/
syntax "rel_step" : tactic
macro_rules | `(tactic| rel_step) => `(tactic| first
  | rel_leaf
  | with_reducible refine Rel.ifP ?_ ?_ ?_
  | with_reducible refine Rel.whenP ?_ ?_
  | with_reducible refine Rel.ifNone ?_ ?_
  | with_reducible refine Rel.orRecover ?_ _ _
  | with_reducible refine Rel.commaOrEnd ?_
  | with_reducible refine Rel.or ?_ ?_
  | with_reducible refine Rel.and ?_ ?_
  | with_reducible refine Rel.not ?_
  | with_reducible refine Rel.parseMany ?_ (by peek) ?_ (by quiet_leaf)
  | with_reducible refine Rel.body ?_ ?_ (by peek) (by kill) (fun _ => ?_)
  | with_reducible refine Rel.loopTokensEq (fun _ => ?_) _
  | with_reducible refine Rel.discard (V := Eq) ?_
  | (with_reducible refine Rel.bind (Rel.bump _) (fun t t' h => ?_)); (try rw [h.1]); (try rw [h.2])
  | (with_reducible refine Rel.bind (Rel.expect _ _) (fun t t' h => ?_)); (try rw [h.text])
  | (with_reducible refine Rel.bind Rel.peekToken (fun t t' h => ?_)); (try dsimp only)
    (try rw [h.text]); (try rw [h.kind])
  | with_reducible refine Rel.bindEq ?_ (fun _ => ?_)
  | with_reducible refine Rel.ite (fun _ => ?_) (fun _ => ?_)
  | split)

/-- All steps. -/
macro "rel" : tactic => `(tactic| repeat' rel_step)

/-- Errors are kept and the position does not go back. -/
macro "mono" : tactic => `(tactic| repeat' (first
  | with_reducible exact Mono.pure _
  | with_reducible exact (Rel.bump (R := ⟨[], false⟩) _).mono
  | with_reducible exact (Rel.bumpAs (R := ⟨[], false⟩) _).mono
  | with_reducible exact (sure_expect (H := fun _ => True) _ _).mono
  | with_reducible exact (Rel.peekToken (R := ⟨[], false⟩)).mono
  | with_reducible exact Mono.addErrorBuilder _
  | with_reducible exact Mono.bumpNextNAs _
  | with_reducible exact Mono.ofPeek (by peek)
  | with_reducible exact (sure_commaOrEnd (H := fun _ => False) (by peek) (fun _ h => h.elim)).mono
  | (with_reducible refine Rel.mono (R := ⟨[], false⟩) (V := Eq) (m' := ?_) ?_; rotate_left; rel_leaf)
  | (with_reducible refine Rel.mono (R := ?_) (V := Eq) (m' := ?_) ?_; rotate_left; rotate_left; rel_leaf)
  | with_reducible refine Mono.ifP ?_ ?_ ?_
  | with_reducible refine Mono.whenP ?_ ?_
  | with_reducible refine Mono.ifNone ?_ ?_
  | with_reducible refine Mono.orRecover ?_ _ _
  | with_reducible refine Mono.parseMany ?_ ?_
  | with_reducible refine Mono.discard ?_
  | with_reducible refine Mono.bind ?_ (fun _ => ?_)
  | with_reducible refine Mono.ite ?_ ?_
  | split))

end Ludtwig.Layout
