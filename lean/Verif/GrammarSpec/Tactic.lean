import Lean.Elab.Tactic.ElabTerm
import Verif.Parser.Rules

/-!
# Automation for the program logic (proof device)
-/

namespace Ludtwig

variable {toks : List Token} {α β : Type} {L : List (Nat × List Nat)} {vs : List Nat} {n N : Nat}
  {h : List Token → Prop} {e : Bool} {K : Knot}

/-- Some token is the name of an element with raw text. -/
def RawTok (toks : List Token) : Prop :=
  ∃ t ∈ toks, htmlRawTextElements.contains (t.text.map asciiLower) = true

/-- The result of `parse_any_element`: without a result, a token was consumed, or nothing is left, or
the next token is `</`. -/
def RA (n : Nat) (h : List Token → Prop) : Option CompletedMarker → AS → Prop := fun a A =>
  (∀ c, a = some c → c ∈ A.vs ∧ A.n < n) ∧
  (a = none → A.n < n ∨ ∀ v, A.h v → h v ∧ (v = [] ∨ isAt T!"</" v = true))

/-- The recursive calls behave for fewer than `N` remaining tokens. -/
structure KGood (toks : List Token) (N : Nat) (K : Knot) : Prop where
  expr : ∀ n, n < N → ∀ bp, Ext toks n any (K.exprBp bp) RO
  anyElement : ∀ n, n < N → ∀ h, Ext toks n h K.anyElement (RA n h)
  raw : RawTok toks → ∀ n, n < N → Ext toks n any K.rawTextInner RO
  attr : ∀ n, n < N → Ext toks n any K.attributeOrTwig RO
  double : ∀ n, n < N → Ext toks n any K.innerDouble RO
  single : ∀ n, n < N → Ext toks n any K.innerSingle RO

/-- A child parser that behaves for fewer than `N` remaining tokens. -/
def ChildGood (toks : List Token) (N : Nat) (child : P (Option CompletedMarker)) : Prop :=
  ∀ n, n < N → Ext toks n any child RO

theorem ext_exprBp {bp : Nat} (hK : KGood toks N K) (hn : n < N) :
    Ext toks n h (K.exprBp bp) RO :=
  (hK.expr n hn bp).pre (fun _ _ => trivial)

theorem ext_expr (hK : KGood toks N K) (hn : n < N) : Ext toks n h K.expr RO :=
  ext_exprBp hK hn

theorem ext_anyElement (hK : KGood toks N K) (hn : n < N) : Ext toks n h K.anyElement (RA n h) :=
  hK.anyElement n hn h

theorem childGood_anyElement (hK : KGood toks N K) : ChildGood toks N K.anyElement :=
  fun n hn => (hK.anyElement n hn any).mono (fun _ _ _ hr c hc => (hr.1 c hc).1)

theorem childGood_raw (hK : KGood toks N K) (ht : RawTok toks) : ChildGood toks N K.rawTextInner :=
  fun n hn => hK.raw ht n hn

theorem childGood_attr (hK : KGood toks N K) : ChildGood toks N K.attributeOrTwig :=
  fun n hn => hK.attr n hn

theorem childGood_double (hK : KGood toks N K) : ChildGood toks N K.innerDouble :=
  fun n hn => hK.double n hn

theorem childGood_single (hK : KGood toks N K) : ChildGood toks N K.innerSingle :=
  fun n hn => hK.single n hn

theorem ext_child {child : P (Option CompletedMarker)} (hc : ChildGood toks N child) (hn : n < N) :
    Ext toks n h child RO :=
  (hc n hn).pre (fun _ _ => trivial)

theorem Peek.atTwigTerminationTag : Peek atTwigTerminationTag
    (fun v => isAtSet twigBlockOpenSet v && match (dropTrivia v.tail).head?.map (·.kind) with
      | some k => terminationKeywords.contains k
      | none => false) := by
  refine (Peek.atSet _).and (Peek.peekNext.bind (ψ := fun o _ => match o with
    | some k => terminationKeywords.contains k
    | none => false) (fun o => ?_))
  cases o <;> exact .pure _

theorem J_pureBind {a : α} {g : α → P β} {Q : β → AS → Prop} {A : AS} (hg : J toks A (g a) Q) :
    J toks A (pure a >>= g) Q := hg

theorem Peek.pair {c : P Bool} {φ : List Token → Bool} {a : α} (hc : Peek c φ) :
    Peek (do return ((← c), a)) (fun v => (φ v, a)) :=
  hc.bind (fun _ => .pure _)

/-! ## The next token exists -/

theorem isTwigTag_next {k : SyntaxKind} {t : Token} {ts : List Token}
    (ht : isTwigTag k (t :: ts) = true) : dropTrivia ts ≠ [] := by
  intro h0
  simp [isTwigTag, h0] at ht

theorem isFollowing_next {a b : SyntaxKind} {l : List SyntaxKind} {t : Token} {ts : List Token}
    (ht : isFollowing (a :: b :: l) (t :: ts) = true) : dropTrivia ts ≠ [] := by
  intro h0
  have hall : ∀ x ∈ ts, x.kind.isTrivia = true := by
    intro x hx
    clear ht
    induction ts with
    | nil => simp at hx
    | cons y ts ih =>
      by_cases hy : y.kind.isTrivia = true
      · rcases List.mem_cons.1 hx with rfl | hx
        · exact hy
        · exact ih (by simpa [dropTrivia, hy] using h0) hx
      · simp [dropTrivia, hy] at h0
  have hf : ts.filter (fun t => !t.kind.isTrivia) = [] := by
    rw [List.filter_eq_nil_iff]
    intro x hx
    simp [hall x hx]
  simp only [isFollowing, List.isEmpty_cons, Bool.false_eq_true, if_false, List.filter_cons, hf] at ht
  split at ht <;> simp [followKinds] at ht

/-- The next token exists. -/
macro "ne_tac" : tactic => `(tactic| first
  | assumption
  | (intro v hv h0
     (first
      | obtain ⟨t, ts, hv, hd⟩ := hv
      | obtain ⟨ts, hv, hd⟩ := hv)
     subst hd
     first
     | exact absurd h0 (isTwigTag_next hv) | exact absurd h0 (isFollowing_next hv)
     | exact absurd h0 (isTwigTag_next hv.1) | exact absurd h0 (isFollowing_next hv.1)
     | exact absurd h0 (isTwigTag_next hv.2.1) | exact absurd h0 (isFollowing_next hv.2.1))
  | (intro v hv h0; subst h0; simp [isAt, isAtSet, isFollowing, isTwigTag] at hv; done)
  | (intro v hv h0; subst h0; simp_all [isAt, isAtSet, isFollowing, isTwigTag]; done))

/-- The result of a function. -/
macro "post_tac" : tactic => `(tactic|
  (refine ⟨rfl, ?_, ?_, ?_⟩
   · dsimp only; omega
   · first
     | trivial
     | (simp_all [RM, RO, RMS, ROS]; done)
     | (simp_all [RM, RO, RMS, ROS]; omega)
   · first
     | exact id
     | exact fun _ => rfl))

open Lean Elab Tactic Meta

/-- The name of the function that is called, without its namespaces. -/
def callName (f : Expr) : Option Name :=
  match f.getAppFn with
  | .const (.str _ s) _ => some (.mkSimple s)
  | .fvar _ => some `child
  | _ => none

/-- The lemma about a function, if there is one. -/
def lemmaOf (kind : String) (f : Expr) : MetaM (Option Ident) := do
  match callName f with
  | none => return none
  | some n =>
    let l := `Ludtwig ++ .mkSimple (kind ++ "_" ++ n.toString)
    if (← getEnv).contains l then return some (mkIdent l) else return none

/-- Is it a `match` or an `if`? -/
def isSplit (f : Expr) : MetaM Bool := do
  if f.isAppOf ``ite || f.isAppOf ``dite then return true
  return isMatcherAppCore (← getEnv) f

def targetArgs (n : Name) : TacticM (Array Expr) := do
  let t := (← instantiateMVars (← (← getMainGoal).getType)).consumeMData
  unless t.isAppOf n do throwError "not a {n}"
  return t.getAppArgs

syntax "side_tac" : tactic
/-- One step of a function. -/
syntax "jstep" : tactic
macro "jauto" : tactic => `(tactic| repeat' jstep)

/-- A condition only looks at the tokens. -/
elab "peek_tac" : tactic => withMainContext do
  let args ← targetArgs ``Peek
  let f := args[1]!.consumeMData
  if f.isAppOf ``Bind.bind then
    evalTactic (← `(tactic| (apply Peek.pair; side_tac)))
  else if f.isAppOf ``Pure.pure then evalTactic (← `(tactic| exact Peek.pure _))
  else match callName f with
    | none => throwError "peek_tac"
    | some n =>
      let l := `Ludtwig.Peek ++ n
      if (← getEnv).contains l then
        evalTactic (← `(tactic| (apply $(mkIdent l)) <;> side_tac))
      else evalTactic (← `(tactic| first | assumption | exact Peek.atSet _))

/-- The specification of a part of a function. -/
elab "ext_tac" : tactic => withMainContext do
  let args ← targetArgs ``Ext
  let f := args[4]!.consumeMData
  let known := !args[5]!.getAppFn.isMVar
  match ← lemmaOf "ext" f with
  | some l =>
    if known then
      evalTactic (← `(tactic| first
        | (apply $l) <;> side_tac
        | (apply Ext.toU; (apply $l) <;> side_tac)
        | (intro _; jauto)))
    else evalTactic (← `(tactic| (apply $l) <;> side_tac))
  | none =>
    if known then evalTactic (← `(tactic| (intro _; jauto)))
    else evalTactic (← `(tactic| (refine (?_ : Ext _ _ _ _ RU); intro _; jauto)))

elab_rules : tactic
  | `(tactic| side_tac) => withMainContext do
    let g ← getMainGoal
    let t := (← instantiateMVars (← g.getType)).consumeMData
    if t.isAppOf ``Ext then evalTactic (← `(tactic| ext_tac))
    else if t.isAppOf ``Peek then evalTactic (← `(tactic| peek_tac))
    else if t.isAppOf ``LE.le || t.isAppOf ``LT.lt then
      evalTactic (← `(tactic| first
        | omega
        | (simp_all [RM, RO, RMS, ROS]; done)
        | (simp_all [RM, RO, RMS, ROS]; omega)))
    else if t.isAppOf ``Membership.mem then
      evalTactic (← `(tactic| first | assumption | (simp_all [RM, RO, RMS, ROS]; done)))
    else if t.isAppOf ``KGood || t.isAppOf ``ChildGood then
      evalTactic (← `(tactic| first
        | assumption
        | (apply childGood_anyElement; assumption)
        | (apply childGood_raw <;> assumption)
        | (apply childGood_attr; assumption)
        | (apply childGood_double; assumption)
        | (apply childGood_single; assumption)))
    else if t.isForall then
      let body := t.getForallBody.consumeMData
      if body.isAppOf ``Ext || body.isAppOf ``Peek then evalTactic (← `(tactic| (intros; side_tac)))
      else evalTactic (← `(tactic| first
        | ne_tac
        | (intro hk; cases hk; done)
        | (intro hk; rfl)
        | decide
        | (intro hk; split at hk <;> cases hk; done)
        | (simp_all; done)
        | (intro v hv; cases v <;> simp [isAtSet] at hv ⊢ <;> grind)))
    else if (← isProp t) then
      evalTactic (← `(tactic| first
        | assumption
        | rfl
        | decide
        | (split <;> rfl)
        | (simp_all; done)))
    else pure ()

elab_rules : tactic
  | `(tactic| jstep) => withMainContext do
    let g ← getMainGoal
    let args ← targetArgs ``J
    let prog := args[3]!.consumeMData.headBeta
    let A ← whnfR args[2]!
    let L := A.getAppArgs[0]!
    let nil := L.isAppOf ``List.nil
    let single := L.isAppOf ``List.cons && L.getAppArgs[2]!.isAppOf ``List.nil
    if let .letE _ _ v b _ := prog then
      let args := args.set! 3 (b.instantiate1 v).headBeta
      let t := (← instantiateMVars (← g.getType)).consumeMData
      replaceMainGoal [← g.change (mkAppN t.getAppFn args)]
    else if prog.isAppOf ``Pure.pure then
      evalTactic (← `(tactic| (refine J_pure ?_; post_tac)))
    else if ← isSplit prog then evalTactic (← `(tactic| split))
    else if prog.isAppOf ``Bind.bind then
      let f := prog.getAppArgs[4]!.consumeMData.headBeta
      if f.isAppOf ``Bind.bind then evalTactic (← `(tactic| refine J_assoc ?_))
      else if f.isAppOf ``Pure.pure then evalTactic (← `(tactic| refine J_pureBind ?_))
      else if ← isSplit f then evalTactic (← `(tactic| split))
      else
        let name := (callName f).getD .anonymous
        match name with
        | `start => evalTactic (← `(tactic| refine b_start (fun _ => ?_)))
        | `complete =>
          if single then evalTactic (← `(tactic| refine b_complete_nil (by side_tac) ?_))
          else evalTactic (← `(tactic| refine b_complete (by side_tac) ?_))
        | `complete_ =>
          if single then evalTactic (← `(tactic| refine b_complete__nil (by side_tac) ?_))
          else evalTactic (← `(tactic| refine b_complete_ (by side_tac) ?_))
        | `precede =>
          if nil then evalTactic (← `(tactic| refine b_precede_nil (by side_tac) (fun _ _ => ?_)))
          else evalTactic (← `(tactic| refine b_precede (by side_tac) (fun _ _ => ?_)))
        | `wrap =>
          if nil then
            evalTactic (← `(tactic| refine b_wrap_nil (by side_tac) (by side_tac) (fun _ _ _ => ?_)))
          else evalTactic (← `(tactic| refine b_wrap (by side_tac) (by side_tac) (fun _ _ _ => ?_)))
        | `explicitlyConsumeTrivia => evalTactic (← `(tactic| refine b_trivia ?_))
        | `bump_ => evalTactic (← `(tactic| refine b_bump_ (by side_tac) (fun _ _ => ?_)))
        | `bump => evalTactic (← `(tactic| refine b_bump (by side_tac) (fun _ _ _ _ _ => ?_)))
        | `bumpNextNAs =>
          evalTactic (← `(tactic| refine b_bumpN (by side_tac) (fun _ _ => ?_)))
        | `addErrorAt => evalTactic (← `(tactic| refine b_addErrorAt (by side_tac) ?_))
        | `addError => evalTactic (← `(tactic| refine b_addError ?_))
        | `someP => evalTactic (← `(tactic| refine b_someP ?_))
        | `ifP => evalTactic (← `(tactic| refine b_ifP (by side_tac) ?_ ?_))
        | `discard' =>
          if f.getAppArgs[1]!.isAppOf ``bumpAs then
            evalTactic (← `(tactic| refine b_bumpAs (by side_tac) (fun _ _ => ?_)))
          else evalTactic (← `(tactic| refine b_discard ?_))
        | _ =>
          if let some l ← lemmaOf "ext" f then
            if nil then
              evalTactic (← `(tactic| (apply b_ext_nil; · (apply $l) <;> side_tac
                                       (intro _ _ _ _ _ _ _))))
            else
              evalTactic (← `(tactic| (apply b_ext; · (apply $l) <;> side_tac
                                       (intro _ _ _ _ _ _ _))))
          else if let some l ← lemmaOf "node" f then
            if nil then
              evalTactic (← `(tactic| (apply b_node_nil; · (apply $l) <;> side_tac
                                       (· side_tac); (intro _ _ _ _ _ _ _))))
            else
              evalTactic (← `(tactic| (apply b_node; · (apply $l) <;> side_tac
                                       (· side_tac); (intro _ _ _ _ _ _ _))))
          else if let some l ← lemmaOf "cls" f then
            if single then
              evalTactic (← `(tactic| (apply b_cls_nil; · (apply $l) <;> side_tac
                                       (intro _ _ _ _ _ _ _))))
            else
              evalTactic (← `(tactic| (apply b_cls; · (apply $l) <;> side_tac
                                       (intro _ _ _ _ _ _ _))))
          else evalTactic (← `(tactic| refine b_peek (by side_tac) (fun _ => ?_)))
    else evalTactic (← `(tactic| refine J_last ?_))

end Ludtwig
