import Lean.Meta.Tactic.Cases
import Verif.GrammarSpec.Tactic
import Verif.Shape.Rules

/-!
# Automation for the logic of children (proof device)
-/

namespace Ludtwig.Shape
open Rx

/-! ## What the recursive calls add -/

/-- After an unknown tag there may be an `ERROR` node. -/
def stray (strict : Bool) : Rx := opt (.seq (err strict) (.node [.ERROR]))

/-- The elements. -/
def elementKinds : List SyntaxKind := twigKinds ++ htmlKinds

/-- What `parse_any_element` adds. -/
def elementS (strict : Bool) : Option CompletedMarker → List Seg
  | some c => [.nd c elementKinds, .rx (stray strict)]
  | none => [.rx (stray strict)]

/-- A child parser of a twig block: a list of what it adds is the content of a `BODY`. -/
def Child (strict : Bool) (child : P (Option CompletedMarker)) : Prop :=
  ∃ r, Runs strict [] [] any (discard' child) (fun _ => [.rx r]) ∧
    incl (many r) (gram strict .BODY) = true

/-- What a tag, a variable or a comment adds. -/
def twigS (strict : Bool) : Option CompletedMarker → List Seg
  | some c => [.nd c twigKinds]
  | none => [.rx (stray strict)]

/-- The recursive calls. -/
structure KShape (strict : Bool) (K : Knot) : Prop where
  expr : ∀ bp, Runs strict [] [] any (K.exprBp bp) (optS [.TWIG_EXPRESSION])
  anyElement : Runs strict [] [] any K.anyElement (elementS strict)
  raw : Child strict K.rawTextInner
  attr : Child strict K.attributeOrTwig
  double : Child strict K.innerDouble
  single : Child strict K.innerSingle

variable {strict : Bool} {h : List Token → Prop} {K : Knot}

theorem shape_exprBp {bp : Nat} (hK : KShape strict K) :
    Runs strict [] [] h (K.exprBp bp) (optS [.TWIG_EXPRESSION]) :=
  (hK.expr bp).pre (fun _ _ => trivial)

theorem shape_expr (hK : KShape strict K) :
    Runs strict [] [] h K.expr (optS [.TWIG_EXPRESSION]) := shape_exprBp hK

theorem shape_anyElement (hK : KShape strict K) :
    Runs strict [] [] h K.anyElement (elementS strict) :=
  hK.anyElement.pre (fun _ _ => trivial)

theorem of_not {b : Bool} (h : (!b) = false) : b = true := by cases b <;> simp at h ⊢

theorem T_whenPure {β : Type} {A : Abs} {b : Bool} {t : P Unit} {g : Unit → P β} {Q : β → Abs → Prop}
    (hg : T strict A ((if b then t else pure ()) >>= g) Q) : T strict A (whenP (pure b) t >>= g) Q := hg

open Lean Elab Tactic Meta

/-! ## Lists of segments -/

/-- The segments of a list that is given by its elements. -/
partial def segsOf (e : Expr) : MetaM (Array Expr) := do
  let e ← whnf e
  if e.isAppOf ``List.nil then return #[]
  else if e.isAppOf ``List.cons then
    let args := e.getAppArgs
    let hd ← whnf args[1]!
    return #[hd] ++ (← segsOf args[2]!)
  else throwError "not a list of segments: {e}"

def segsExpr (segs : Array Expr) : MetaM Expr :=
  mkListLit (mkConst ``Seg) segs.toList

/-- `segsRx`, simplified. -/
def rxOf (segs : Array Expr) : MetaM Expr := do
  let mut r := mkConst ``Rx.nil
  for s in segs.reverse do
    let x := if s.isAppOf ``Seg.rx then s.getAppArgs[0]! else mkApp (mkConst ``Rx.node) s.getAppArgs[1]!
    if r.isConstOf ``Rx.nil then r := x
    else if r.isConstOf ``Rx.never then pure ()
    else r := mkApp2 (mkConst ``Rx.mkSeq) r x
  return r

/-- Proves a closed boolean equation by computation, for both values of `strict`. -/
def proveTrue (type : Expr) : MetaM Expr := withOptions (fun o => Elab.async.set o false) do
  let type ← instantiateMVars type
  if type.hasExprMVar then throwError "not closed: {type}"
  let fvars := (collectFVars {} type).fvarIds
  let some (_, lhs, _) := type.eq? | throwError "not an equation"
  match fvars.toList with
  | [] =>
    let pf := mkApp2 (mkConst ``Eq.refl [1]) (mkConst ``Bool) (mkConst ``true)
    let l ← mkAuxLemma [] type pf
    return mkConst l
  | [b] =>
    let b := mkFVar b
    unless (← inferType b).isConstOf ``Bool do throwError "not closed: {type}"
    let motive ← mkLambdaFVars #[b] type
    let refl := mkApp2 (mkConst ``Eq.refl [1]) (mkConst ``Bool) (mkConst ``true)
    let _ := lhs
    let pf ← mkLambdaFVars #[b] (mkApp4 (mkConst ``Bool.rec [0]) motive refl refl b)
    let l ← mkAuxLemma [] (← mkForallFVars #[b] type) pf
    return mkApp (mkConst l) b
  | _ => throwError "not closed: {type}"

def mkInclEq (r p : Expr) : Expr :=
  mkApp3 (mkConst ``Eq [1]) (mkConst ``Bool) (mkApp2 (mkConst ``Rx.incl) r p) (mkConst ``true)

/-- Proves `incl r p = true`. -/
def proveIncl (r p : Expr) : MetaM Expr := do
  try proveTrue (mkInclEq r p)
  catch e => throwError "not included: {r}\nin {p}\n{e.toMessageData}"

/-- The label of the first completed node. -/
def firstNode (segs : Array Expr) : Option Expr :=
  (segs.find? (·.isAppOf ``Seg.nd)).map (·.getAppArgs[0]!)

/-- Proves `Le xs ys`. -/
partial def proveLe (xs ys : Array Expr) : MetaM Expr := do
  let xsE ← segsExpr xs
  let ysE ← segsExpr ys
  let type := mkApp2 (mkConst ``Le) xsE ysE
  let ret (pf : Expr) : MetaM Expr := mkExpectedTypeHint pf type
  if xs.isEmpty && ys.isEmpty then return mkConst ``Le.nil
  -- the children before the first node that is needed
  let cut (c? : Option Expr) : MetaM Nat := do
    match c? with
    | none => return xs.size
    | some c =>
      for i in [0:xs.size] do
        let x := xs[i]!
        if x.isAppOf ``Seg.nd && (← isDefEq x.getAppArgs[0]! c) then return i
      throwError "the node {c} is missing"
  let hasRx := ys.size > 0 && ys[0]!.isAppOf ``Seg.rx
  let i ← cut (firstNode ys)
  let pre := xs.extract 0 i
  let post := xs.extract i xs.size
  let r ← rxOf pre
  let preE ← segsExpr pre
  let postE ← segsExpr post
  let hr ← mkExpectedTypeHint (← mkEqRefl r) (← mkEq (mkApp (mkConst ``segsRx) preE) r)
  if hasRx then
    let zs := ys.extract 1 ys.size
    let r' := ys[0]!.getAppArgs[0]!
    let rest ← proveLe post zs
    if r'.getAppFn.isMVar then
      unless ← isDefEq r' r do throwError "cannot assign"
      ret (mkAppN (mkConst ``Le.rxSelf) #[preE, postE, ← segsExpr zs, r, hr, rest])
    else
      if ← withReducible (isDefEq r r') then
        return ← ret (mkAppN (mkConst ``Le.rxSelf) #[preE, postE, ← segsExpr zs, r, hr, rest])
      let hi ← proveIncl r r'
      ret (mkAppN (mkConst ``Le.rx) #[preE, postE, ← segsExpr zs, r', r, hr, hi, rest])
  else if i > 0 then
    let hi ← proveIncl r (mkConst ``Rx.nil)
    let rest ← proveLe post ys
    ret (mkAppN (mkConst ``Le.skip) #[preE, postE, ysE, r, hr, hi, rest])
  else
    -- both lists start with the same node
    let zs := ys.extract 1 ys.size
    let post := xs.extract 1 xs.size
    let ks := xs[0]!.getAppArgs[1]!
    let ks' := ys[0]!.getAppArgs[1]!
    let c := xs[0]!.getAppArgs[0]!
    let rest ← proveLe post zs
    let all ← withLocalDeclD `k (mkConst ``SyntaxKind) fun k => do
      mkLambdaFVars #[k] (← mkAppM ``List.contains #[ks', k])
    let hk ← proveTrue (← mkEq (← mkAppM ``List.all #[ks, all]) (mkConst ``true))
    ret (mkAppN (mkConst ``Le.nd) #[← segsExpr post, ← segsExpr zs, c, ks, ks', hk, rest])

/-- `Le xs ys` for given lists. -/
elab "le_tac" : tactic => withMainContext do
  let args ← targetArgs ``Le
  let xs ← segsOf args[0]!
  let ys ← segsOf args[1]!
  let g ← getMainGoal
  let pf ← proveLe xs ys
  g.assign pf

/-- `segsRx xs = ?r`. -/
elab "segs_tac" : tactic => withMainContext do
  let g ← getMainGoal
  let t ← instantiateMVars (← g.getType)
  let some (_, lhs, rhs) := t.eq? | throwError "not an equation"
  let xs ← segsOf lhs.getAppArgs[0]!
  let r ← rxOf xs
  unless ← isDefEq rhs r do throwError "cannot assign"
  g.assign (← mkExpectedTypeHint (← mkEqRefl r) (← instantiateMVars t))

/-- `incl r p = true`. -/
elab "incl_tac" : tactic => withMainContext do
  let g ← getMainGoal
  let t ← instantiateMVars (← g.getType)
  let some (_, lhs, _) := t.eq? | throwError "not an equation"
  let pf ← proveIncl lhs.getAppArgs[0]! lhs.getAppArgs[1]!
  g.assign pf

theorem child_anyElement (hK : KShape strict K) : Child strict K.anyElement := by
  refine ⟨.seq (stray strict) (opt (.node elementKinds)), runs_discard hK.anyElement (fun a => ?_), ?_⟩
  · cases a <;> le_tac
  · incl_tac

/-- The kind of the next token, from the view. -/
macro "bump_tac" : tactic => `(tactic|
  (intro t ts ht hv
   first
   | with_reducible exact lang_isAt hv
   | with_reducible exact lang_isAtSet hv
   | with_reducible exact lang_isTwigTag hv
   | with_reducible exact lang_isFollowing ht hv
   | with_reducible exact lang_isAt hv.1
   | with_reducible exact lang_isAtSet hv.1
   | with_reducible exact lang_isTwigTag hv.1
   | with_reducible exact lang_isFollowing ht hv.1
   | with_reducible exact lang_isAt (of_not hv.1)
   | with_reducible exact lang_isAt hv.2.1
   | with_reducible exact lang_isAtSet hv.2.1
   | with_reducible exact lang_isAt hv.2
   | with_reducible exact lang_isAtSet hv.2
   | (obtain ⟨t0, ts0, ht0, hv, hd⟩ := hv
      first
      | with_reducible exact lang_isTwigTag2 hv hd
      | with_reducible exact lang_isTwigTag2 hv.1 hd
      | with_reducible exact lang_isFollowing2 ht0 ht hv hd
      | with_reducible exact lang_isFollowing2 ht0 ht hv.1 hd)
   | with_reducible exact lang_notAtSet hv.1
   | with_reducible exact lang_notAt hv.1
   | with_reducible exact lang_notAtSet hv.2
   | with_reducible exact lang_notAt hv.2
   | exact lang_any))

/-- The lemma about a function, if there is one. -/
def shapeLemma (f : Expr) : MetaM (Option Name) := do
  match callName f with
  | none => return none
  | some n =>
    let l := `Ludtwig.Shape ++ .mkSimple ("shape_" ++ n.toString)
    if (← getEnv).contains l then return some l else return none

/-- The open nodes and the children in the statement of a lemma about `f`. -/
def lemmaShape (l : Name) (f : Expr) : MetaM (Expr × Expr) := do
  let (_, _, concl) ← forallMetaTelescope (← inferType (mkConst l))
  unless concl.isAppOf ``Runs do throwError "not a Runs"
  let args := concl.getAppArgs
  discard <| isDefEq args[5]! f
  return (← instantiateMVars args[2]!, ← instantiateMVars args[3]!)

/-- Reduces a `match` or an `if` whose condition is known. -/
def reduceSplit? (f : Expr) : MetaM (Option Expr) := do
  if f.isAppOf ``ite || f.isAppOf ``dite then
    let args := f.getAppArgs
    let inst ← whnf args[2]!
    if f.isAppOf ``ite then
      if inst.isAppOf ``Decidable.isTrue then return some (mkAppN args[3]! (args.extract 5 args.size))
      if inst.isAppOf ``Decidable.isFalse then return some (mkAppN args[4]! (args.extract 5 args.size))
    return none
  else
    match ← reduceMatcher? f with
    | .reduced e => return some e.headBeta
    | _ => return none

syntax "shape_side" : tactic
/-- One step of a function. -/
syntax "sstep" : tactic
/-- Closes the goal, or fails. -/
elab "only " "(" t:tacticSeq ")" : tactic => do
  evalTactic t
  unless (← getUnsolvedGoals).isEmpty do throwError "goals are left"

macro "sauto" : tactic => `(tactic| repeat' sstep)

/-- Something about the view. -/
macro "view_tac" : tactic => `(tactic|
  (intro v hv
   first
   | exact hv
   | exact hv.1
   | exact hv.2
   | exact hv.2.1
   | exact isAtSet_sub (by decide) hv.1
   | exact isAtSet_sub (by decide) hv
   | exact hv.2.2.1))

elab_rules : tactic
  | `(tactic| shape_side) => withMainContext do
    let g ← getMainGoal
    let t := (← instantiateMVars (← g.getType)).consumeMData
    if t.isAppOf ``Runs then
      let f := t.getAppArgs[5]!.consumeMData.headBeta
      match ← shapeLemma f with
      | some l =>
        let li := mkIdent l
        evalTactic (← `(tactic| (apply $li:ident) <;> shape_side))
      | none =>
        if f.isAppOf ``discard' then
          if f.getAppArgs[1]!.isAppOf ``bumpAs then
            evalTactic (← `(tactic| (unfold Runs; sauto)))
          else
            evalTactic (← `(tactic| first
              | (apply runs_discardOpt; shape_side)
              | (apply runs_discardNode; shape_side)
              | (apply runs_discardRx; shape_side)))
        else if f.isAppOf ``ifNone then
          evalTactic (← `(tactic| (apply shape_ifNoneError; shape_side)))
        else evalTactic (← `(tactic| (unfold Runs; sauto)))
    else if t.isAppOf ``Peek then evalTactic (← `(tactic| side_tac))
    else if t.isAppOf ``KShape then evalTactic (← `(tactic| assumption))
    else if t.isAppOf ``Child then
      evalTactic (← `(tactic| first
        | assumption
        | exact child_anyElement ‹_›
        | exact KShape.raw ‹_›
        | exact KShape.attr ‹_›
        | exact KShape.double ‹_›
        | exact KShape.single ‹_›))
    else if t.isAppOf ``Le then evalTactic (← `(tactic| le_tac))
    else if t.isAppOf ``Ne then evalTactic (← `(tactic| first | assumption | (intro hn; cases hn)))
    else if t.isForall then evalTactic (← `(tactic| view_tac))
    else if (← isProp t) then evalTactic (← `(tactic| first | assumption | rfl | incl_tac))
    else pure ()

/-- The list of segments at a place, in normal form. -/
def normSegs (e : Expr) : MetaM Expr := do segsExpr (← segsOf e)

/-- Puts the open nodes in normal form. -/
partial def normFrames (e : Expr) : MetaM Expr := do
  let e ← whnf e
  if e.isAppOf ``List.cons then
    let args := e.getAppArgs
    let hd ← whnf args[1]!
    let p := hd.getAppArgs
    let segs ← normSegs p[3]!
    let hd := mkAppN hd.getAppFn (p.set! 3 segs)
    return mkAppN e.getAppFn #[args[0]!, hd, ← normFrames args[2]!]
  else return e

/-- Puts the state of the goal in normal form. -/
elab "norm_tac" : tactic => withMainContext do
  let g ← getMainGoal
  let t := (← instantiateMVars (← g.getType)).consumeMData
  let args ← targetArgs ``T
  let A ← whnfR args[2]!
  let a := A.getAppArgs
  let L ← normFrames a[0]!
  let vs ← normSegs a[1]!
  let h := a[2]!.headBeta
  let A' := mkApp3 (mkConst ``Abs.mk) L vs h
  replaceMainGoal [← g.change (mkAppN t.getAppFn (args.set! 2 A')) false]

/-- Splits a result into its cases. -/
partial def casesResult (g : MVarId) (xs : List FVarId) : MetaM (List MVarId) := do
  match xs with
  | [] => return [g]
  | x :: xs => g.withContext do
    let type ← whnf (← inferType (mkFVar x))
    if type.isAppOf ``Option || type.isConstOf ``Bool || type.isAppOf ``Prod then
      let gs ← g.cases x
      let mut out := []
      for s in gs do
        let new := s.fields.toList.filterMap (fun e => e.fvarId?)
        let old := xs.filterMap (fun y => (s.subst.apply (mkFVar y)).fvarId?)
        out := out ++ (← casesResult s.mvarId (new ++ old))
      return out
    else casesResult g xs

/-- After a call: introduces the result, by cases if the children depend on it. -/
elab "result_tac" : tactic => do
  let g ← getMainGoal
  let (x, g) ← g.intro `a
  replaceMainGoal (← casesResult g [x])
  evalTactic (← `(tactic| all_goals (try norm_tac)))

elab_rules : tactic
  | `(tactic| sstep) => withMainContext do
    let g ← getMainGoal
    let t := (← instantiateMVars (← g.getType)).consumeMData
    if t.isAppOf ``Runs then
      evalTactic (← `(tactic| (unfold Runs; norm_tac)))
      return
    let args ← targetArgs ``T
    let prog := args[3]!.consumeMData.headBeta
    let A ← whnfR args[2]!
    let L := A.getAppArgs[0]!
    let nil := L.isAppOf ``List.nil
    let single := L.isAppOf ``List.cons && L.getAppArgs[2]!.isAppOf ``List.nil
    let setProg (p : Expr) : TacticM Unit := do
      replaceMainGoal [← g.change (mkAppN t.getAppFn (args.set! 3 p)) false]
    if let .letE _ _ v b _ := prog then
      setProg (b.instantiate1 v).headBeta
    else if prog.isAppOf ``Pure.pure then
      evalTactic (← `(tactic| (refine T_pure ⟨rfl, ?_⟩; le_tac)))
    else if ← isSplit prog then
      match ← reduceSplit? prog with
      | some p => setProg p
      | none => evalTactic (← `(tactic| split))
    else if prog.isAppOf ``Bind.bind then
      let pargs := prog.getAppArgs
      let f := pargs[4]!.consumeMData.headBeta
      if let .letE _ _ v b _ := f then
        setProg (mkAppN prog.getAppFn (pargs.set! 4 (b.instantiate1 v).headBeta))
      else if f.isAppOf ``Bind.bind then evalTactic (← `(tactic| refine T_assoc ?_))
      else if f.isAppOf ``Pure.pure then evalTactic (← `(tactic| refine T_pureBind ?_))
      else if ← isSplit f then
        match ← reduceSplit? f with
        | some f => setProg (mkAppN prog.getAppFn (pargs.set! 4 f))
        | none => evalTactic (← `(tactic| split))
      else
        let name := (callName f).getD .anonymous
        match name with
        | `start => evalTactic (← `(tactic| refine b_start (fun _ => ?_)))
        | `complete =>
          if f.getAppArgs[1]!.isConstOf ``SyntaxKind.HTML_STRING_INNER then
            let b := mkIdent `strict
            evalTactic (← `(tactic| first
              | (refine b_complete_sealed (by segs_tac) (by incl_tac) ?_; norm_tac)
              | (refine b_complete_plain (by segs_tac) (by incl_tac) (by cases $b:ident <;> rfl) (by cases $b:ident <;> rfl) ?_; norm_tac)))
          else if single then
            evalTactic (← `(tactic| (refine b_complete_nil (by segs_tac) (by first | incl_tac | assumption) ?_; norm_tac)))
          else evalTactic (← `(tactic| (refine b_complete (by segs_tac) (by first | incl_tac | assumption) ?_; norm_tac)))
        | `complete_ => evalTactic (← `(tactic| (unfold complete_ discard'; refine T_assoc ?_)))
        | `precede | `wrap =>
          let c := f.getAppArgs[0]!
          let top ← if nil then segsOf A.getAppArgs[1]! else
            segsOf (L.getAppArgs[1]!).getAppArgs[3]!
          let mut i := top.size
          for j in [0:top.size] do
            let x := top[j]!
            if i == top.size && x.isAppOf ``Seg.nd then
              if ← isDefEq x.getAppArgs[0]! c then i := j
          if i == top.size then throwError "the node {c} is not there"
          let xs ← Term.exprToSyntax (← segsExpr (top.extract 0 i))
          let ys ← Term.exprToSyntax (← segsExpr (top.extract (i + 1) top.size))
          if name == `precede then
            if nil then
              evalTactic (← `(tactic| (refine b_precede_nil (xs := $xs) (ys := $ys) (by segs_tac) (fun _ => ?_); norm_tac)))
            else
              evalTactic (← `(tactic| (refine b_precede (xs := $xs) (ys := $ys) (by segs_tac) (fun _ => ?_); norm_tac)))
          else
            if nil then
              evalTactic (← `(tactic| (refine b_wrap_nil (xs := $xs) (ys := $ys) (by segs_tac) (by first | incl_tac | assumption) (fun _ => ?_); norm_tac)))
            else
              evalTactic (← `(tactic| (refine b_wrap (xs := $xs) (ys := $ys) (by segs_tac) (by first | incl_tac | assumption) (fun _ => ?_); norm_tac)))
        | `explicitlyConsumeTrivia =>
          if nil then evalTactic (← `(tactic| refine b_trivia_nil ?_))
          else evalTactic (← `(tactic| refine b_trivia ?_))
        | `bump_ =>
          if nil then evalTactic (← `(tactic| refine b_bump__nil (by bump_tac) ?_))
          else evalTactic (← `(tactic| refine b_bump_ (by bump_tac) ?_))
        | `bump =>
          if nil then evalTactic (← `(tactic| refine b_bump_nil _ (by bump_tac) (fun _ => ?_)))
          else evalTactic (← `(tactic| refine b_bump _ (by bump_tac) (fun _ => ?_)))
        | `bumpNextNAs => evalTactic (← `(tactic| refine b_bumpN (by rfl) ?_))
        | `addErrorAt =>
          if nil then evalTactic (← `(tactic| refine b_addErrorAt_nil ?_))
          else evalTactic (← `(tactic| refine b_addErrorAt ?_))
        | `addError =>
          if nil then evalTactic (← `(tactic| refine b_addError_nil ?_))
          else evalTactic (← `(tactic| refine b_addError ?_))
        | `someP => evalTactic (← `(tactic| (unfold someP; refine T_assoc ?_)))
        | `ifP => evalTactic (← `(tactic| refine b_ifP (by side_tac) ?_ ?_))
        | `panic => evalTactic (← `(tactic| exact T_panicBind))
        | `parseMany =>
          if nil then
            evalTactic (← `(tactic| (refine b_ext_nil (runs_parseMany (by side_tac) (by shape_side)) ?_; result_tac)))
          else
            evalTactic (← `(tactic| (refine b_ext (runs_parseMany (by side_tac) (by shape_side)) ?_; result_tac)))
        | _ =>
          if name == `whenP && f.getAppArgs[0]!.isAppOf ``Pure.pure then
            evalTactic (← `(tactic| refine T_whenPure ?_))
            return
          if name == `discard' && f.getAppArgs[1]!.isAppOf ``bumpAs then
            if nil then evalTactic (← `(tactic| refine b_bumpAs_nil (by rfl) ?_))
            else evalTactic (← `(tactic| refine b_bumpAs (by rfl) ?_))
            return
          if name == `discard' || name == `ifNone then
            let inner := f.getAppArgs[1]!.consumeMData
            let direct ← match ← shapeLemma inner with
              | none => pure false
              | some l => do
                let (L', segs') ← lemmaShape l inner
                pure (L'.isAppOf ``List.nil && segs'.isAppOf ``List.nil)
            if direct then
              if nil then
                evalTactic (← `(tactic| (refine b_ext_nil (by shape_side) ?_; result_tac)))
              else evalTactic (← `(tactic| (refine b_ext (by shape_side) ?_; result_tac)))
            else
              evalTactic (← `(tactic| (unfold discard'; refine T_assoc ?_)))
            return
          match ← shapeLemma f with
          | none =>
            if name == `whenP then
              evalTactic (← `(tactic| unfold whenP))
            else
              evalTactic (← `(tactic| (refine b_peek (by side_tac) ?_; result_tac)))
          | some l =>
            let li := mkIdent l
            if name == `whenP then
              if nil then
                evalTactic (← `(tactic| first
                  | (refine b_ext_nil ?first ?_; (case first => only ((apply shape_whenP) <;> shape_side)); result_tac)
                  | unfold whenP))
              else
                evalTactic (← `(tactic| first
                  | (refine b_ext ?first ?_; (case first => only ((apply shape_whenP) <;> shape_side)); result_tac)
                  | unfold whenP))
              return
            let (L', segs') ← lemmaShape l f
            if L'.isAppOf ``List.cons then
              if single then
                evalTactic (← `(tactic| (refine b_cls_nil (by (apply $li:ident) <;> shape_side) (by le_tac) ?_; result_tac)))
              else
                evalTactic (← `(tactic| (refine b_cls (by (apply $li:ident) <;> shape_side) (by le_tac) ?_; result_tac)))
            else
              let segs' ← segsOf segs'
              if segs'.isEmpty then
                if nil then
                  evalTactic (← `(tactic| (refine b_ext_nil (by (apply $li:ident) <;> shape_side) ?_; result_tac)))
                else
                  evalTactic (← `(tactic| (refine b_ext (by (apply $li:ident) <;> shape_side) ?_; result_tac)))
              else
                let some c := (segs'.filter (·.isAppOf ``Seg.nd)).back? | throwError "no node in the lemma"
                let c := c.getAppArgs[0]!
                let top ← if nil then segsOf A.getAppArgs[1]! else
                  segsOf (L.getAppArgs[1]!).getAppArgs[3]!
                let mut i := top.size
                for j in [0:top.size] do
                  let x := top[j]!
                  if i == top.size && x.isAppOf ``Seg.nd then
                    if ← isDefEq x.getAppArgs[0]! c then i := j
                if i == top.size then throwError "the node {c} is not there"
                let xs ← Term.exprToSyntax (← segsExpr (top.extract 0 (i + 1)))
                let ts ← Term.exprToSyntax (← segsExpr (top.extract (i + 1) top.size))
                if nil then
                  evalTactic (← `(tactic| (refine b_call_nil (xs := $xs) (ts := $ts) (by (apply $li:ident) <;> shape_side) (by le_tac) ?_; result_tac)))
                else
                  evalTactic (← `(tactic| (refine b_call (xs := $xs) (ts := $ts) (by (apply $li:ident) <;> shape_side) (by le_tac) ?_; result_tac)))
    else evalTactic (← `(tactic| refine T_last ?_))

end Ludtwig.Shape
